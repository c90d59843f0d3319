import Verif.Linear.Model
import Verif.Window.Model

/-!
# Model of the channel-distributed and the general convolution and of the selector

`nn/conv_channel.py` (`DistributedChannelConvBase`), `nn/conv_general.py`
(`DistributedGeneralConvBase`), `nn/conv.py` (`DistributedConvSelector`).  `padding_mode='zeros'`.
-/

namespace Verif

/-! ## Alignment of the partitions -/

/-- `conv_channel.py:151-156`, `conv_general.py:161-166`: `list.insert(1, 1)`, then without the first
entry. -/
def castXShape (s : List Nat) : List Nat := (s.take 1 ++ [1] ++ s.drop 1).drop 1

/-- `conv_channel.py:173-178`, `conv_general.py:181-186`. -/
def castYShape (s : List Nat) : List Nat := (s.take 2 ++ [1] ++ s.drop 2).drop 1

/-- `conv_channel.py:145-150`, `conv_general.py:157-160`: the checks of `P_x`; `ones` is set for the
channel-distributed layer. -/
def alignedX (ones : Bool) (px pw : List Nat) : Bool :=
  px.drop 2 == pw.drop 2 && (!ones || (px.drop 2).all fun n => n == 1) && pw.getD 1 0 == px.getD 1 0

/-- `conv_channel.py:167-172`, `conv_general.py:177-180`: the checks of `P_y`. -/
def alignedY (ones : Bool) (py pw : List Nat) : Bool :=
  py.drop 2 == pw.drop 2 && (!ones || (py.drop 2).all fun n => n == 1) && pw.getD 0 0 == py.getD 1 0

/-- `conv_channel.py:140-182`, `conv_general.py:152-190`: `P_x` and `P_y` in the shapes used for the
broadcast and the reduction; `none`: an exception.  Simplification: the exception is raised on the
workers of the partition in question only; the others wait for them. -/
def castPartitions (ones : Bool) (Px Py Pw : Cart) : Option (Cart × Cart) :=
  if alignedX ones Px.shape Pw.shape && alignedY ones Py.shape Pw.shape then
    (createCartesian ⟨Px.members, Px.root⟩ (castXShape Px.shape)).bind fun x =>
      (createCartesian ⟨Py.members, Py.root⟩ (castYShape Py.shape)).map fun y => (x, y)
  else none

/-! ## The local layer -/

/-- What the two layers have in common: partitions as given by the caller, parameters, channels. -/
structure ChanConv where
  Px : Cart
  Py : Cart
  Pw : Cart
  W : WinParams
  groups : Nat
  Ci : Nat
  Co : Nat
  useBias : Bool

/-- `conv_channel.py:213-215`, `conv_general.py:290-292`: output and input channels of the local layer of
worker `w` of `P_w`. -/
def ChanConv.localChannels (C : ChanConv) (w : Nat) : List Nat :=
  computeSubshape [C.Pw.shape.getD 0 0, C.Pw.shape.getD 1 0] (((C.Pw.index w).getD []).take 2) [C.Co, C.Ci]

/-- `conv_channel.py:248`, `conv_general.py:392`; the communicators differ, `P_x` is a new one. -/
def chanBroadcast (x w : Cart) : PairLayer := ⟨x, w, false, false, true, false⟩

/-- `conv_channel.py:249`, `conv_general.py:393`. -/
def chanReduce (w y : Cart) : PairLayer := ⟨w, y, false, false, true, false⟩

/-! ## Channel-distributed convolution -/

section
variable {R : Type} [AddCommMonoid R] [Mul R]

/-- `conv_channel.py:209`: is the bias of worker `w` part of its local layer? -/
def ChanConv.storesBias (C : ChanConv) (w : Nat) : Bool :=
  ((C.Pw.index w).getD []).getD 1 0 == 0 && C.useBias

/-- `conv_channel.py:213-224`, `343-344`: the local layer of worker `w`; `weight w`, `bias w` are its
parameters. -/
def channelLocal (C : ChanConv) (weight bias : Nat → List Nat → R) (w : Nat) (x : Tensor R) :
    Option (Tensor R) :=
  torchConvLayer C.W C.groups ((C.localChannels w).getD 1 0) ((C.localChannels w).getD 0 0) (C.storesBias w)
    (weight w) (bias w) x

/-- `conv_channel.py:323-348` `forward` on worker `w`.  With one worker in `P_w`, this worker alone calls
the PyTorch layer on its own input (`conv_channel.py:184-198`, `338-339`); `self.serial` is false on other
workers, whose broadcast waits for it for ever. -/
def channelForward (C : ChanConv) (weight bias : Nat → List Nat → R) (I : Inputs R) (rg : Nat → Bool)
    (w : Nat) : Option (Tensor R) :=
  if w ∉ C.Px.members ∧ w ∉ C.Py.members ∧ w ∉ C.Pw.members then some (I.x w)
  else
    match castPartitions true C.Px C.Py C.Pw with
    | none => none
    | some (x, y) =>
      if C.Pw.members.length = 1 then
        if w ∈ C.Pw.members then torchConvLayer C.W C.groups C.Ci C.Co C.useBias (weight w) (bias w) (I.x w)
        else none
      else stackForward (chanBroadcast x C.Pw) (chanReduce C.Pw y) I (channelLocal C weight bias) rg w

/-! ## General convolution -/

/-- `conv_general.py:240-249`, `255-265`, `273-282`: the workers of `P_w` whose index satisfies `p`, as a
Cartesian partition of the given shape. -/
def subCart (Pw : Cart) (p : List Nat → Bool) (shape : List Nat) : Option Cart :=
  (createInclusive ⟨Pw.members, Pw.root⟩
    (((rangeIndex Pw.shape).zipIdx.filter fun c => p c.1).map fun c => c.2)).bind fun P =>
    createCartesian P shape

/-- `conv_general.py:240-249`: `P_wr`, which stores the weights. -/
def weightRoot (Pw : Cart) : Option Cart :=
  subCart Pw (fun c => (c.drop 2).all fun i => i == 0)
    ([Pw.shape.getD 0 0, Pw.shape.getD 1 0] ++ List.replicate (Pw.shape.drop 2).length 1)

/-- `conv_general.py:255-265`: `P_b`, whose local layers have a bias. -/
def biasPart (Pw : Cart) : Option Cart :=
  subCart Pw (fun c => c.getD 1 0 == 0) ([Pw.shape.getD 0 0] ++ [1] ++ Pw.shape.drop 2)

/-- `conv_general.py:273-282`: `P_br`, which stores the bias. -/
def biasRoot (Pw : Cart) : Option Cart :=
  subCart Pw (fun c => (c.drop 1).all fun i => i == 0)
    ([Pw.shape.getD 0 0] ++ [1] ++ List.replicate (Pw.shape.drop 2).length 1)

/-- `conv_general.py:387-390`: broadcast of weights or biases. -/
def paramLayer (root dest : Cart) : PairLayer := ⟨root, dest, false, false, false, false⟩

/-- `conv_general.py:303-345`: what a worker hands to the broadcast of weights or biases: the parameter on
the storing workers, a tensor without entries on the others. -/
def storedParam (root : Cart) (a : Nat → Tensor R) (rg : Bool) : Inputs R :=
  ⟨fun w => if w ∈ root.members then a w else ⟨[0], (a w).dtype, fun _ => 0⟩, fun _ => rg⟩

/-- `conv_general.py:571-585`: broadcast of the parameters and the local layer, which works without
padding, on worker `w` of `P_w`. -/
def generalLocal (C : ChanConv) (Pwr Pb Pbr : Cart) (weight bias : Nat → Tensor R) (rgp : Bool) (w : Nat)
    (x : Tensor R) : Option (Tensor R) :=
  (bcastForward (paramLayer Pwr C.Pw) (storedParam Pwr weight rgp) w).bind fun wt =>
    if w ∈ Pb.members ∧ C.useBias then
      (bcastForward (paramLayer Pbr Pb) (storedParam Pbr bias rgp) w).bind fun b =>
        torchConvLayer C.W.noPad C.groups ((C.localChannels w).getD 1 0) ((C.localChannels w).getD 0 0) true
          wt.val b.val x
    else
      torchConvLayer C.W.noPad C.groups ((C.localChannels w).getD 1 0) ((C.localChannels w).getD 0 0) false
        wt.val (fun _ => 0) x

/-- `conv_general.py:134-137`: the union of the three partitions. -/
def ChanConv.union (C : ChanConv) : List Nat :=
  groupUnion (groupUnion C.Pw.members C.Px.members) C.Py.members

/-- `conv_general.py:211-225`, `429-479`: padding and `_distdl_module_setup` on worker `w` of `P_x`; `x` is
`P_x` in its new shape.  As `winSetup`, with the global structure assembled over the union of the
partitions. -/
def generalSetup (C : ChanConv) (x : Cart) (localS : Nat → List Nat × TorchDtype × Bool) (w : Nat) :
    Option WinSetup :=
  let dims := x.shape.length
  let gpad := globalPadding dims C.W.p
  let lpadOf (v : Nat) := localPadding x.shape ((x.index v).getD []) gpad
  match x.index w, assembleGlobal x (some C.union) localS w,
      unbalancedShapes x none (fun v => shapeAfterPad (localS v).1 (lpadOf v)) w with
  | some idx, .value g, .value T =>
    let after := List.zipWith (fun (n : Int) (p : Nat) => (n + 2 * p).toNat) g.shape gpad
    let t : Table := fun idx d => ((T.entry (idx ++ [d])).getD 0).toNat
    some ⟨localPadding x.shape idx gpad,
      exchangeInfo (haloDims x.shape after C.W.k C.W.s (C.W.p.map fun _ => 0) C.W.d) (some t) idx⟩
  | _, _, _ => none

/-- The workers of `P_x` (numbered by rank) from the call to the end of their halo exchange
(`conv_general.py:556-569`); see `WinRun`. -/
structure GeneralRun {β : Type} (C : ChanConv) (x : Cart) (localS : Nat → List Nat × TorchDtype × Bool)
    (inp : Nat → List Nat → R) (dt : NpKey) (junk : Nat → β) (ops : Nat → List (MgrOp β)) (eager : Bool)
    (k : Nat) (U : Nat → WinSetup) (S : Nat → HaloSetup)
    (g : Exchange.GState (List Nat → R) (List Nat → R)) : Prop where
  setup : ∀ r, r < x.members.length → generalSetup C x localS (x.members.getD r 0) = some (U r)
  halo : ∀ r, r < x.members.length →
    haloSetup x (U r).info.widths dt ((Mgr.init : Mgr β).run junk (ops r)) junk
      ((U r).padInput 0 (localS (x.members.getD r 0)).1 (inp (x.members.getD r 0))).1 r = some (S r)
  exec : Exchange.Exec (haloForward S) x.members.length (haloPhases x) eager k
    (Exchange.GState.init fun r =>
      ((U r).padInput 0 (localS (x.members.getD r 0)).1 (inp (x.members.getD r 0))).2) g

/-- `conv_general.py:553-569`: what a worker hands to `x_broadcast`: the selected part of the exchanged
tensor on `P_x`, its input elsewhere. -/
def generalInputs (x : Cart) (localS : Nat → List Nat × TorchDtype × Bool) (inp : Nat → List Nat → R)
    (U : Nat → WinSetup) (g : Exchange.GState (List Nat → R) (List Nat → R)) (rg : Nat → Bool) : Inputs R :=
  ⟨fun w => if w ∈ x.members then
      ⟨(localInput x 0 localS inp U g (x.members.idxOf w)).1, (localS w).2.1,
        (localInput x 0 localS inp U g (x.members.idxOf w)).2⟩
    else ⟨(localS w).1, (localS w).2.1, inp w⟩, rg⟩

/-- `conv_general.py:536-589` `forward` on worker `w`, once the halo exchange is finished on all workers of
`P_x`.  With one worker in `P_w` as for `channelForward`. -/
def generalForward (C : ChanConv) (weight bias : Nat → Tensor R) (rgp : Bool)
    (localS : Nat → List Nat × TorchDtype × Bool) (inp : Nat → List Nat → R) (U : Nat → WinSetup)
    (g : Exchange.GState (List Nat → R) (List Nat → R)) (rgx rg : Nat → Bool) (w : Nat) : Option (Tensor R) :=
  if w ∉ C.Px.members ∧ w ∉ C.Py.members ∧ w ∉ C.Pw.members then
    some ⟨(localS w).1, (localS w).2.1, inp w⟩
  else
    match castPartitions false C.Px C.Py C.Pw with
    | none => none
    | some (x, y) =>
      if C.Pw.members.length = 1 then
        if w ∈ C.Pw.members then
          torchConvLayer C.W C.groups C.Ci C.Co C.useBias (weight w).val (bias w).val
            ⟨(localS w).1, (localS w).2.1, inp w⟩
        else none
      else
        match weightRoot C.Pw, biasPart C.Pw, biasRoot C.Pw with
        | some Pwr, some Pb, some Pbr =>
          stackForward (chanBroadcast x C.Pw) (chanReduce C.Pw y) (generalInputs x localS inp U g rgx)
            (generalLocal C Pwr Pb Pbr weight bias rgp) rg w
        | _, _, _ => none

end

/-! ## The selector -/

/-- The layers `DistributedConv{1,2,3}d` can create. -/
inductive ConvKind
  | feature
  | channel
  | general
  deriving DecidableEq, Repr

/-- `conv.py:36-61` `__new__`, given the shapes of the partitions (`none`: the argument is `None`); `none`:
`ValueError`.  Shapes of Cartesian partitions are known to inactive workers too. -/
def selectConv (Px : List Nat) (Py Pw : Option (List Nat)) : Option ConvKind :=
  match Py, Pw with
  | none, none => some .feature
  | some py, some _ =>
    if ((Px.drop 2).all fun n => n == 1) && ((py.drop 2).all fun n => n == 1) then some .channel
    else some .general
  | _, _ => none

end Verif
