import Verif.Collective.Model
import Verif.Layout
import Mathlib.Algebra.Field.Defs

/-!
# Model of the distributed losses (`nn/loss.py`, `functional/zero_volume_corrector.py`)

The losses of `BaseLossLayer` (`L1Loss`, `MSELoss`, `PoissonNLLLoss`, `BCELoss`, `BCEWithLogitsLoss`,
`KLDivLoss`) are elementwise; they enter as a function `ell` of an input and a target entry and its
derivative `dell` in the input.  Entries range over a field, so sums and quotients are exact.
-/

namespace Verif

/-- `loss.py:36`, `223` `_valid_reductions`; `kl` is set for `DistributedKLDivLoss`. -/
def validReductions (kl : Bool) : List String :=
  if kl then ["none", "mean", "sum", "batchmean"] else ["none", "mean", "sum"]

/-- The attributes set by `__init__`. -/
structure LossLayer where
  P : Cart
  P0 : Cart
  kl : Bool
  reduction : String
  deriving DecidableEq

/-- `loss.py:38-64` `__init__`; `none`: an exception. -/
def newLoss (P : Cart) (kl : Bool) (reduction : String) : Option LossLayer :=
  if reduction ∈ validReductions kl then
    (createInclusive ⟨P.members, P.root⟩ [0]).bind fun base =>
      (createCartesian base (List.replicate P.shape.length 1)).map fun P0 => ⟨P, P0, kl, reduction⟩
  else none

/-- `loss.py:61`; the communicator of `P_0` is a new one. -/
def LossLayer.sumReduce (M : LossLayer) : PairLayer := ⟨M.P, M.P0, false, false, true, false⟩

/-- `loss.py:43-48`: reduction of the local loss layer. -/
def LossLayer.localReduction (M : LossLayer) : String := if M.reduction = "none" then "none" else "sum"

/-- `loss.py:85-87` and `244-254`: the normalisation factor on the workers of `P_x`, whose inputs have the
shapes `sh`; 1 otherwise (line 64).  `none` cannot occur on a worker of `P_x`.  Simplification: a tensor
without dimensions counts as batch size 0 (`shape[0]` raises). -/
def LossLayer.normalization (M : LossLayer) (sh : Nat → List Nat) : Option Int :=
  if M.reduction = "mean" then allreduceData M.P.members .sum fun v => ((sh v).prod : Nat)
  else if M.kl ∧ M.reduction = "batchmean" then
    allreduceData M.P.members .sum fun v =>
      if (((M.P.index v).getD []).drop 1).all fun c => c == 0 then ((sh v).headD 0 : Nat) else 0
  else some 1

section
variable {R : Type}

/-- `ZeroVolumeCorrectorFunction.forward` (`zero_volume_corrector.py:53-59`). -/
def correctorForward [Zero R] (t : Tensor R) : Tensor R :=
  if t.shape.prod = 0 then ⟨[], .float32, fun _ => 0⟩ else t

/-- `ZeroVolumeCorrectorFunction.backward` (`zero_volume_corrector.py:82-87`); `t` is the input of forward.
`none`: `sh[0]` raises (impossible, a product over no dimensions is 1). -/
def correctorBackward [Zero R] (t g : Tensor R) : Option (Tensor R) :=
  if t.shape.prod = 0 then
    match t.shape with
    | b :: _ => some ⟨[b, 0], .float32, fun _ => 0⟩
    | [] => none
  else some g

variable [Field R]

/-- PyTorch's elementwise losses by their documentation.  `none`: an exception.  Simplifications: input and
target of unequal shape count as an error (PyTorch tries to broadcast and warns); the target has the type of
the input.  `"batchmean"` is known to `KLDivLoss` only; `newLoss` rejects it elsewhere. -/
def torchLoss (ell : R → R → R) (reduction : String) (x t : Tensor R) : Option (Tensor R) :=
  if x.shape = t.shape then
    match reduction with
    | "none" => some ⟨x.shape, x.dtype, fun i => ell (x.val i) (t.val i)⟩
    | "sum" => some ⟨[], x.dtype, fun _ => boxSum x.shape fun i => ell (x.val i) (t.val i)⟩
    | "mean" => some ⟨[], x.dtype, fun _ =>
        (boxSum x.shape fun i => ell (x.val i) (t.val i)) / (x.shape.prod : R)⟩
    | "batchmean" =>
      match x.shape with
      | b :: _ => some ⟨[], x.dtype, fun _ => (boxSum x.shape fun i => ell (x.val i) (t.val i)) / (b : R)⟩
      | [] => none
    | _ => none
  else none

/-- Gradient of the input of PyTorch's elementwise losses, `g` the gradient of the loss. -/
def torchLossGrad (dell : R → R → R) (reduction : String) (x t g : Tensor R) : Tensor R :=
  ⟨x.shape, x.dtype, fun i =>
    match reduction with
    | "none" => g.val i * dell (x.val i) (t.val i)
    | "mean" => g.val [] / (x.shape.prod : R) * dell (x.val i) (t.val i)
    | "batchmean" => g.val [] / (x.shape.headD 0 : R) * dell (x.val i) (t.val i)
    | _ => g.val [] * dell (x.val i) (t.val i)⟩

/-- `loss.py:163`: the local loss of worker `v`. -/
def LossLayer.localLoss (M : LossLayer) (ell : R → R → R) (x t : Nat → Tensor R) (v : Nat) :
    Option (Tensor R) :=
  torchLoss ell M.localReduction (x v) (t v)

/-- `loss.py:171`: the local losses with shape `(1,)`, as handed to the sum-reduction. -/
def LossLayer.reduceInputs (M : LossLayer) (ell : R → R → R) (x t : Nat → Tensor R) (rg : Nat → Bool) :
    Inputs R :=
  ⟨fun v => ⟨[1], (x v).dtype, fun _ => ((M.localLoss ell x t v).map fun l => l.val []).getD 0⟩, rg⟩

/-- `loss.py:172-177`: the tensor handed to the zero-volume corrector on worker `w`. -/
def LossLayer.preCorrector (M : LossLayer) (ell : R → R → R) (x t : Nat → Tensor R) (rg : Nat → Bool)
    (w : Nat) : Option (Tensor R) :=
  (reduceForward M.sumReduce (M.reduceInputs ell x t rg) w).bind fun g =>
    if w ∈ M.P0.members then
      (M.normalization fun v => (x v).shape).map fun n =>
        ⟨g.shape.drop 1, g.dtype, fun i => g.val (0 :: i) / (n : R)⟩
    else some g

/-- `loss.py:129-179` `forward` on worker `w`.  A worker outside `P_x` evaluates `input.clone()` on the
builtin function `input`, as there is no variable of this name: `AttributeError`.  Simplification: an
exception on one worker of `P_x` is taken to end the call on all of them. -/
def lossForward (M : LossLayer) (ell : R → R → R) (x t : Nat → Tensor R) (rg : Nat → Bool) (w : Nat) :
    Option (Tensor R) :=
  if w ∉ M.P.members then none
  else if M.reduction = "none" then M.localLoss ell x t w
  else if M.P.members.all fun v => (M.localLoss ell x t v).isSome then
    (M.preCorrector ell x t rg w).map correctorForward
  else none

/-- Backward up to the sum-reduction: what worker `w` hands to it, `g` being the gradients of the outputs.
Backward of the division and of `[0]` on `P_0`. -/
def LossLayer.reduceGrads (M : LossLayer) (ell : R → R → R) (x t : Nat → Tensor R) (rg : Nat → Bool)
    (g : Nat → Tensor R) (w : Nat) : Option (Tensor R) :=
  (M.preCorrector ell x t rg w).bind fun p => (correctorBackward p (g w)).bind fun c =>
    if w ∈ M.P0.members then
      (M.normalization fun v => (x v).shape).map fun n =>
        ⟨1 :: c.shape, c.dtype, fun i => if i.headD 0 = 0 then c.val (i.drop 1) / (n : R) else 0⟩
    else some c

/-- Backward on worker `w`: the gradient of its input.  Autograd runs the backward functions of the steps of
forward in reverse order; the gradient of shape `(1,)` is reshaped to a scalar for the local loss. -/
def lossBackward (M : LossLayer) (ell dell : R → R → R) (x t : Nat → Tensor R) (rg : Nat → Bool)
    (g : Nat → Tensor R) (w : Nat) : Option (Tensor R) :=
  if w ∉ M.P.members then none
  else if M.reduction = "none" then some (torchLossGrad dell "none" (x w) (t w) (g w))
  else if M.P.members.all fun v => (M.reduceGrads ell x t rg g v).isSome then
    (reduceBackward M.sumReduce (M.reduceInputs ell x t rg)
      (fun v => (M.reduceGrads ell x t rg g v).getD ⟨[], .float64, fun _ => 0⟩) w).map fun c =>
        torchLossGrad dell M.localReduction (x w) (t w) ⟨[], c.dtype, fun _ => c.val [0]⟩
  else none

end

end Verif
