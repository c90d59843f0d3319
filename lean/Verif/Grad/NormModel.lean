import Verif.BatchNorm.Model

/-!
# Backward pass of the distributed batch norm

What autograd makes of `batchnorm.py:188-233`: the operations in reverse order, each replaced by its gradient.  A
tensor that is used several times gets the sum of the gradients of its uses.
-/

namespace Verif

section
variable {R : Type}

/-- The tensors of all workers `ws`; `none`: an exception on one of them, which is taken to end the call on all. -/
def gatherAll [Zero R] (ws : List Nat) (f : Nat → Option (Tensor R)) : Option (Nat → Tensor R) :=
  if ws.all fun v => (f v).isSome then some fun v => (f v).getD ⟨[], .float64, fun _ => 0⟩ else none

/-- Gradient of a tensor of shape `s` in an elementwise operation, from the gradient `t` of the result: with
PyTorch's broadcasting an entry is used at all positions that `clip` sends to it. -/
def sumTo [AddCommMonoid R] (s : List Nat) (t : Tensor R) : Tensor R :=
  ⟨s, t.dtype, fun i => boxSum t.shape fun l => if clip s l = clip s i then t.val l else 0⟩

/-- Gradient of the sums over dimensions, with `keepdim`, of a tensor of shape `s`. -/
def expandTo (s : List Nat) (t : Tensor R) : Tensor R := ⟨s, t.dtype, fun i => t.val (clip t.shape i)⟩

variable [Field R]

/-- The gradient of the averages that worker `v` divided by the volume: backward of `batchnorm.py:138-139`. -/
def bnAverageGrad (M : BatchNorm R) (volume : Int) (x : Nat → Tensor R) (rg : Nat → Bool) (dm : Nat → Tensor R)
    (v : Nat) : Option (Tensor R) :=
  (bcastBackward M.bc ⟨fun u => (bnAverage M volume x rg u).getD ⟨[], .float64, fun _ => 0⟩, rg⟩ dm v).map fun t =>
    ⟨t.shape, t.dtype, fun i => t.val i / (volume : R)⟩

/-- Backward of `batchnorm.py:119-140` `_compute_mean` on worker `w`: `dm v` is the gradient of the mean on worker
`v`, the result the gradient of the tensor `x w`. -/
def bnMeanGrad (M : BatchNorm R) (volume : Int) (x : Nat → Tensor R) (rg : Nat → Bool) (dm : Nat → Tensor R)
    (w : Nat) : Option (Tensor R) :=
  (gatherAll M.P.members (bnAverageGrad M volume x rg dm)).bind fun y =>
    (reduceBackward M.sr ⟨fun u => localSums M.P.shape.length (x u), rg⟩ y w).map fun s => expandTo (x w).shape s

/-- Backward of `batchnorm.py:158`: gradient of `input` in the squared deviations; `dd` is their gradient. -/
def bnDeviationGrad (x m dd : Tensor R) : Option (Tensor R) :=
  (torchZip (fun a b => 2 * (a - b)) x m).bind fun t => torchZip (fun g a => g * a) dd t

/-- Backward of `batchnorm.py:228-231`: gradient of the normalised tensor on worker `w`. -/
def bnScaleGrad (M : BatchNorm R) (gamma : Nat → Tensor R) (rg : Nat → Bool) (dy : Tensor R) (w : Nat) :
    Option (Tensor R) :=
  if M.affine then
    (bcastForward M.bc ⟨gamma, rg⟩ w).bind fun g => torchZip (fun a g => a * g) dy g
  else some dy

/-- `batchnorm.py:225`: the normalised tensor. -/
def bnNormal (M : BatchNorm R) (sqrt : R → R) (x : Tensor R) (s : Tensor R × Tensor R) : Option (Tensor R) :=
  (torchZip (fun a b => a - b) x s.1).bind fun d => torchZip (fun a b => a / sqrt (b + M.eps)) d s.2

/-- Backward of `batchnorm.py:225`: gradient of `input - mean`. -/
def bnNormalGrad (M : BatchNorm R) (sqrt : R → R) (s : Tensor R × Tensor R) (dz : Tensor R) : Option (Tensor R) :=
  torchZip (fun a b => a / sqrt (b + M.eps)) dz s.2

/-- Backward of `batchnorm.py:225`: gradient of `var`.  The gradient of a divisor is the one of the quotient times
the quotient, negative, divided by the divisor; the derivative of the square root is the inverse of twice the
square root. -/
def bnVarGrad (M : BatchNorm R) (sqrt : R → R) (x : Tensor R) (s : Tensor R × Tensor R) (dz : Tensor R) :
    Option (Tensor R) :=
  (bnNormal M sqrt x s).bind fun y => (torchZip (fun a b => a * b) dz y).bind fun t =>
    (torchZip (fun a b => -(a / sqrt (b + M.eps))) t s.2).bind fun u =>
      torchZip (fun a b => a / (2 * sqrt (b + M.eps))) (sumTo s.2.shape u) s.2

/-- Gradient of the input on worker `w`, when the statistics of the batch are used (`batchnorm.py:209-212`,
`220-225`). -/
def bnBatchGrad (M : BatchNorm R) (sqrt : R → R) (volume : Int) (x : Nat → Tensor R) (rg : Nat → Bool)
    (dz : Nat → Tensor R) (w : Nat) : Option (Tensor R) :=
  (gatherAll M.P.members (bnMean M volume x rg)).bind fun m =>
  (gatherAll M.P.members (bnVar M volume x m rg)).bind fun s =>
  (gatherAll M.P.members fun v => bnDeviation (x v) (m v)).bind fun e =>
  (gatherAll M.P.members fun v => bnVarGrad M sqrt (x v) (m v, s v) (dz v)).bind fun ds =>
  (gatherAll M.P.members fun v =>
    (bnMeanGrad M volume e rg ds v).bind fun de => bnDeviationGrad (x v) (m v) de).bind fun de =>
  (gatherAll M.P.members fun v => bnNormalGrad M sqrt (m v, s v) (dz v)).bind fun d =>
  (bnMeanGrad M volume x rg (fun v => ⟨(m v).shape, (d v).dtype, fun i =>
      -(sumTo (m v).shape (de v)).val i - (sumTo (m v).shape (d v)).val i⟩) w).map fun a =>
    ⟨(x w).shape, (d w).dtype, fun i => a.val i + (de w).val i + (d w).val i⟩

/-- `batchnorm.py:103-117`, `198-207`: the volume forward computes on worker `w`; `none`: an exception. -/
def bnVolume (M : BatchNorm R) (x : Nat → Tensor R) (rg : Nat → Bool) (w : Nat) : Option Int :=
  match assembleGlobal M.P none (fun v => ((x v).shape, (x v).dtype, rg v)) w with
  | .value g => if g.shape.getD 1 0 ≠ (M.numFeatures : Int) then none else some (featureVolume g.shape)
  | _ => none

/-- Gradient of the input of the layer on worker `w`; `dy v` is the gradient of the output on worker `v`.  Tracked
statistics do not depend on the input (`batchnorm.py:215-219`). -/
def bnGradX (M : BatchNorm R) (sqrt : R → R) (training : Bool) (volume : Int) (st : Nat → BNState R)
    (gamma x : Nat → Tensor R) (rg : Nat → Bool) (dy : Nat → Tensor R) (w : Nat) : Option (Tensor R) :=
  (gatherAll M.P.members fun v => bnScaleGrad M gamma rg (dy v) v).bind fun dz =>
    if !training && M.track then bnNormalGrad M sqrt ((st w).mean, (st w).var) (dz w)
    else bnBatchGrad M sqrt volume x rg dz w

/-- Gradient of `beta` on worker `w` (`batchnorm.py:230-231`). -/
def bnGradBeta (M : BatchNorm R) (beta : Nat → Tensor R) (rg : Nat → Bool) (dy : Nat → Tensor R) (w : Nat) :
    Option (Tensor R) :=
  (gatherAll M.P.members fun v => (bcastForward M.bc ⟨beta, rg⟩ v).map fun b => sumTo b.shape (dy v)).bind fun db =>
    bcastBackward M.bc ⟨beta, rg⟩ db w

/-- Gradient of `gamma` on worker `w` (`batchnorm.py:229`, `231`). -/
def bnGradGamma [DecidableEq R] (M : BatchNorm R) (sqrt : R → R) (training : Bool) (volume : Int)
    (st : Nat → BNState R) (gamma x : Nat → Tensor R) (rg : Nat → Bool) (dy : Nat → Tensor R) (w : Nat) :
    Option (Tensor R) :=
  (gatherAll M.P.members fun v =>
    (bcastForward M.bc ⟨gamma, rg⟩ v).bind fun g => (bnUsed M training volume st x rg v).bind fun u =>
      (bnNormal M sqrt (x v) u.1).bind fun y => (torchZip (fun a b => a * b) (dy v) y).map fun t =>
        sumTo g.shape t).bind fun dg =>
    bcastBackward M.bc ⟨gamma, rg⟩ dg w

end

end Verif
