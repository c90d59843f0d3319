import Verif.Decomp.Model
import Verif.Repartition.Lemmas
import Verif.Collective.Machine

/-!
# Model of the layer hooks (`nn/module.py`) and of the layers' setup and teardown functions
-/

namespace Verif

/-- How the setup function of a layer records that it ran.
* `early`: flag and structure are stored first, then the work is done (`nn/repartition.py:149-150`,
  `nn/conv_feature.py:252-253`, `nn/pooling.py:165-166`, `nn/upsampling.py:130-131`);
* `late`: inactive workers return at once, the others do the work and then store flag and structure
  (`nn/broadcast.py:121-139`, `nn/sum_reduce.py:120-138`, `nn/all_sum_reduce.py:91-103`,
  `nn/loss.py:80-90` and `239-257`, `nn/conv_channel.py:281-288`, `nn/conv_general.py:423-482`);
* `lateAll`: only the work depends on being active (`nn/halo_exchange.py:101-113`);
* `never`: nothing is stored (`nn/batchnorm.py:103-116`). -/
inductive SetupKind
  | early | late | lateAll | never
  deriving DecidableEq

/-- What happens on a worker: resources built for a structure, resources released, forward body run
on an input with structure `s` while the resources are those built for `work`. -/
inductive Ev
  | setup (s : TStruct)
  | teardown
  | body (s : TStruct) (work : Option TStruct)
  deriving DecidableEq

/-- The state of a layer on a worker: `_distdl_is_setup`, `_input_tensor_structure`, the structure its
resources (partitions, buffers, slices, factors) were built for, and the events so far, latest
first. -/
structure Hook where
  isSetup : Bool
  saved : TStruct
  work : Option TStruct
  log : List Ev

/-- After the constructor (`nn/module.py:30`, `nn/broadcast.py:90-91`, ...). -/
def Hook.init : Hook := ⟨false, ⟨none, none, none⟩, none, []⟩

/-- `_distdl_module_requires_reset` (`nn/module.py:101-109`) with `_distdl_input_changed` as all layers
define it (e.g. `nn/repartition.py:324-326`). -/
def requiresReset (h : Hook) (s : TStruct) : Bool := !h.isSetup || h.saved != s

/-- `_distdl_module_teardown` (e.g. `nn/repartition.py:286-311`). -/
def teardown (h : Hook) : Hook := ⟨false, ⟨none, none, none⟩, none, .teardown :: h.log⟩

/-- `_distdl_module_setup`; the second component tells that it raised.  `raises` tells for which
inputs the work raises. -/
def setup (k : SetupKind) (active : Bool) (raises : TStruct → Bool) (s : TStruct) (h : Hook) :
    Hook × Bool :=
  match k with
  | .early =>
    if !active then ({ h with isSetup := true, saved := s }, false)
    else if raises s then ({ h with isSetup := true, saved := s }, true)
    else (⟨true, s, some s, .setup s :: h.log⟩, false)
  | .late =>
    if !active then (h, false)
    else if raises s then (h, true)
    else (⟨true, s, some s, .setup s :: h.log⟩, false)
  | .lateAll =>
    if !active then ({ h with isSetup := true, saved := s }, false)
    else if raises s then (h, true)
    else (⟨true, s, some s, .setup s :: h.log⟩, false)
  | .never =>
    if raises s then (h, true) else ({ h with work := some s, log := .setup s :: h.log }, false)

/-- The forward body runs. -/
def body (s : TStruct) (h : Hook) : Hook := { h with log := .body s h.work :: h.log }

/-- A call of the layer: `_distdl_forward_pre_hook` (`nn/module.py:36-56`), then the forward body
unless the hook raised. -/
def call (k : SetupKind) (active : Bool) (raises : TStruct → Bool) (h : Hook) (s : TStruct) : Hook :=
  if requiresReset h s then
    let r := setup k active raises s (if h.isSetup then teardown h else h)
    if r.2 then r.1 else body s r.1
  else body s h

/-- A sequence of calls. -/
def calls (k : SetupKind) (active : Bool) (raises : TStruct → Bool) (hist : List TStruct) : Hook :=
  hist.foldl (call k active raises) Hook.init

/-! ## Several workers -/

/-- The structure of the input of worker `w`: its part of a balanced global tensor if it is in the
input partition, otherwise a zero-volume tensor (`utilities/torch.py:5-13`), here of the default type
and without gradient, whatever the global tensor is. -/
def localStruct (P : Cart) (g : TStruct) (w : Nat) : TStruct :=
  if w ∈ P.members then
    ⟨g.shape.map fun s => computeSubshape P.shape (P.coord w) s, g.dtype, g.requiresGrad⟩
  else ⟨some [0], some .float32, some false⟩

/-- Whether worker `w`, after the global inputs `hist`, redoes setup for the global input `g`. -/
def resets (k : SetupKind) (P : Cart) (hist : List TStruct) (g : TStruct) (w : Nat) : Bool :=
  requiresReset (calls k true (fun _ => false) (hist.map fun g => localStruct P g w))
    (localStruct P g w)

/-- The collective operation of a setup (e.g. the all-reduction in `assemble_global_tensor_structure`,
`nn/repartition.py:158-161`), entered only by the workers that redo setup. -/
def setupProg (k : SetupKind) (P : Cart) (hist : List TStruct) (g : TStruct) (w : Nat) :
    List (Coll.Instr Unit) :=
  if resets k P hist g w then [.post (), .wait ()] else []

end Verif
