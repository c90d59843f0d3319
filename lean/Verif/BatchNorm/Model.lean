import Verif.Collective.Model
import Verif.Decomp.Model
import Verif.Layout
import Mathlib.Algebra.Field.Defs

/-!
# Model of the distributed batch norm (`nn/batchnorm.py`)

Entries range over a field; the square root is a function handed in.  The setup of the layers used inside is
taken to happen in every call (see C32, C33 for when it is skipped).
-/

namespace Verif

/-- The attributes set by `__init__` (`batchnorm.py:48-93`); the buffers are in `BNState`, the trainable
parameters are arguments of forward. -/
structure BatchNorm (R : Type) where
  P : Cart
  Psum : Cart
  numFeatures : Nat
  eps : R
  momentum : Option R
  affine : Bool
  track : Bool

/-- `batchnorm.py:72-75`: the workers that store sums and parameters, as ranks in `P_x`. -/
def storageWorkers (P : Cart) : List Nat :=
  (List.range (P.shape.getD 1 0)).map fun c =>
    workerLayout P.shape ((List.replicate P.shape.length 0).set 1 c)

/-- `batchnorm.py:68-69`, `78-79`: `P_sum`; `none`: an exception. -/
def sumPartition (P : Cart) : Option Cart :=
  (createInclusive ⟨P.members, P.root⟩ (storageWorkers P)).bind fun base =>
    createCartesian base ((List.replicate P.shape.length 1).set 1 (P.shape.getD 1 0))

/-- `batchnorm.py:60-64`: the number of local features of worker `w`.  `none`: `P_x.index` is `None` on a
worker outside `P_x`, and `compute_start_index` multiplies it (`TypeError`). -/
def localFeatures (P : Cart) (numFeatures w : Nat) : Option Nat :=
  (P.index w).map fun i =>
    (computeStopIndex P.shape i (P.shape.set 1 numFeatures)).getD 1 0 -
      (computeStartIndex P.shape i (P.shape.set 1 numFeatures)).getD 1 0

/-- `batchnorm.py:45-101` `__init__` on worker `w`; `none`: an exception. -/
def newBatchNorm {R : Type} (P : Cart) (numFeatures : Nat) (eps : R) (momentum : Option R)
    (affine track : Bool) (w : Nat) : Option (BatchNorm R) :=
  if P.shape.length < 2 then none
  else
    (localFeatures P numFeatures w).bind fun _ =>
      (sumPartition P).map fun Psum => ⟨P, Psum, numFeatures, eps, momentum, affine, track⟩

/-- `batchnorm.py:66-67`: shape of the statistics and the parameters with `c` local features. -/
def channelShape (n c : Nat) : List Nat := (List.replicate n 1).set 1 c

/-- The buffers and the counter of a worker. -/
structure BNState (R : Type) where
  mean : Tensor R
  var : Tensor R
  seen : Nat

section
variable {R : Type}

/-- `batchnorm.py:57`, `84-86`: the buffers after `__init__` for `c` local features. -/
def initialState [Zero R] [One R] (n c : Nat) : BNState R :=
  ⟨⟨channelShape n c, .float32, fun _ => 0⟩, ⟨channelShape n c, .float32, fun _ => 1⟩, 0⟩

/-- `batchnorm.py:95-101`: the parameters after `__init__` on a worker with `c` local features. -/
def initialParam [Zero R] (M : BatchNorm R) (n c : Nat) (value : R) (w : Nat) : Tensor R :=
  if w ∈ M.Psum.members then ⟨channelShape n c, .float32, fun _ => value⟩ else ⟨[0], .float32, fun _ => 0⟩

/-- `batchnorm.py:91`: the sum-reduction; the communicator of `P_sum` is a new one. -/
def BatchNorm.sr (M : BatchNorm R) : PairLayer := ⟨M.P, M.Psum, false, false, true, false⟩

/-- `batchnorm.py:92-93`: the broadcasts. -/
def BatchNorm.bc (M : BatchNorm R) : PairLayer := ⟨M.Psum, M.P, false, false, true, false⟩

/-- `Tensor.sum(d, keepdim=True)`. -/
def sumDim [AddCommMonoid R] (d : Nat) (t : Tensor R) : Tensor R :=
  ⟨t.shape.set d 1, t.dtype, fun i => ∑ k ∈ Finset.range (t.shape.getD d 0), t.val (i.set d k)⟩

/-- `batchnorm.py:133-136`: the sums over all dimensions but the second. -/
def localSums [AddCommMonoid R] (n : Nat) (t : Tensor R) : Tensor R :=
  (List.range n).foldl (fun x d => if d ≠ 1 then sumDim d x else x) t

/-- PyTorch's rule for combining two extents. -/
def joinExtent (a b : Nat) : Option Nat :=
  if a = b then some a else if a = 1 then some b else if b = 1 then some a else none

/-- Extents of the combination of two tensors of the same number of dimensions; `none`: an exception. -/
def joinShape : List Nat → List Nat → Option (List Nat)
  | [], [] => some []
  | a :: as, b :: bs => (joinExtent a b).bind fun c => (joinShape as bs).map fun cs => c :: cs
  | _, _ => none

/-- The entry of a tensor of shape `s` used for position `i` of a combination. -/
def clip (s i : List Nat) : List Nat := List.zipWith (fun n k => if n = 1 then 0 else k) s i

/-- An elementwise operation of two tensors of the same number of dimensions, with PyTorch's broadcasting.
Simplification: the result has the type of the first tensor. -/
def torchZip (f : R → R → R) (a b : Tensor R) : Option (Tensor R) :=
  (joinShape a.shape b.shape).map fun s => ⟨s, a.dtype, fun i => f (a.val (clip a.shape i)) (b.val (clip b.shape i))⟩

variable [Field R]

/-- The tensor handed to the broadcast on worker `v`: `batchnorm.py:137-138`. -/
def bnAverage (M : BatchNorm R) (volume : Int) (x : Nat → Tensor R) (rg : Nat → Bool) (v : Nat) :
    Option (Tensor R) :=
  (reduceForward M.sr ⟨fun u => localSums M.P.shape.length (x u), rg⟩ v).map fun s =>
    ⟨s.shape, s.dtype, fun i => s.val i / (volume : R)⟩

/-- `batchnorm.py:119-140` `_compute_mean` on worker `w`.  Simplification, here and below: an exception on one
worker of `P_x` is taken to end the call on all of them. -/
def bnMean (M : BatchNorm R) (volume : Int) (x : Nat → Tensor R) (rg : Nat → Bool) (w : Nat) :
    Option (Tensor R) :=
  if M.P.members.all fun v => (bnAverage M volume x rg v).isSome then
    bcastForward M.bc ⟨fun v => (bnAverage M volume x rg v).getD ⟨[], .float64, fun _ => 0⟩, rg⟩ w
  else none

/-- `batchnorm.py:158`: the squared deviations. -/
def bnDeviation (x m : Tensor R) : Option (Tensor R) := torchZip (fun a b => (a - b) ^ 2) x m

/-- `batchnorm.py:142-159` `_compute_var` on worker `w`, `mean v` being the mean on worker `v`. -/
def bnVar (M : BatchNorm R) (volume : Int) (x mean : Nat → Tensor R) (rg : Nat → Bool) (w : Nat) :
    Option (Tensor R) :=
  if M.P.members.all fun v => (bnDeviation (x v) (mean v)).isSome then
    bnMean M volume (fun v => (bnDeviation (x v) (mean v)).getD ⟨[], .float64, fun _ => 0⟩) rg w
  else none

/-- The two statistics on worker `w`: `batchnorm.py:211-212`, `221-222`. -/
def bnStats (M : BatchNorm R) (volume : Int) (x : Nat → Tensor R) (rg : Nat → Bool) (w : Nat) :
    Option (Tensor R × Tensor R) :=
  if M.P.members.all fun v => (bnMean M volume x rg v).isSome then
    (bnMean M volume x rg w).bind fun m =>
      (bnVar M volume x (fun v => (bnMean M volume x rg v).getD ⟨[], .float64, fun _ => 0⟩) rg w).map
        fun s => (m, s)
  else none

/-- `batchnorm.py:161-186` `_update_running_stats`.  A momentum of zero counts as false. -/
def updateStats [DecidableEq R] (momentum : Option R) (st : BNState R) (mean var : Tensor R) :
    Option (BNState R) :=
  let average : Option (BNState R) :=
    (torchZip (fun b r => (b + (st.seen : R) * r) / ((st.seen : R) + 1)) mean st.mean).bind fun m =>
      (torchZip (fun b r => (b + (st.seen : R) * r) / ((st.seen : R) + 1)) var st.var).map fun s =>
        ⟨m, s, st.seen + 1⟩
  match momentum with
  | some a =>
    if a ≠ 0 then
      (torchZip (fun r b => (1 - a) * r + a * b) st.mean mean).bind fun m =>
        (torchZip (fun r b => (1 - a) * r + a * b) st.var var).map fun s => ⟨m, s, st.seen⟩
    else average
  | none => average

/-- `batchnorm.py:205-207`: the entries of a feature in the whole tensor. -/
def featureVolume (g : List Int) : Int := (g.drop 2).foldl (fun a k => a * k) (g.getD 0 0)

/-- `batchnorm.py:210-222`: the statistics used on worker `w` and its buffers afterwards. -/
def bnUsed [DecidableEq R] (M : BatchNorm R) (training : Bool) (volume : Int) (st : Nat → BNState R)
    (x : Nat → Tensor R) (rg : Nat → Bool) (w : Nat) : Option ((Tensor R × Tensor R) × BNState R) :=
  if training then
    (bnStats M volume x rg w).bind fun s =>
      if M.track then (updateStats M.momentum (st w) s.1 s.2).map fun st' => (s, st') else some (s, st w)
  else if M.track then some (((st w).mean, (st w).var), st w)
  else (bnStats M volume x rg w).map fun s => (s, st w)

/-- `batchnorm.py:225-233`: normalisation with the statistics `s`, scale and shift, on worker `w`. -/
def bnApply (M : BatchNorm R) (sqrt : R → R) (gamma beta : Nat → Tensor R) (rg : Nat → Bool) (x : Tensor R)
    (s : Tensor R × Tensor R) (w : Nat) : Option (Tensor R) :=
  (torchZip (fun a b => a - b) x s.1).bind fun d =>
    (torchZip (fun a b => a / sqrt (b + M.eps)) d s.2).bind fun y =>
      if M.affine then
        (bcastForward M.bc ⟨gamma, rg⟩ w).bind fun g =>
          (bcastForward M.bc ⟨beta, rg⟩ w).bind fun b =>
            (torchZip (fun g y => g * y) g y).bind fun z => torchZip (fun z b => z + b) z b
      else some y

/-- `batchnorm.py:103-117` and `188-233`: setup and `forward` on worker `w`, with its buffers afterwards.
`none`: an exception. -/
def bnForward [DecidableEq R] (M : BatchNorm R) (sqrt : R → R) (training : Bool) (st : Nat → BNState R)
    (gamma beta x : Nat → Tensor R) (rg : Nat → Bool) (w : Nat) : Option (Tensor R × BNState R) :=
  match assembleGlobal M.P none (fun v => ((x v).shape, (x v).dtype, rg v)) w with
  | .value g =>
    if g.shape.getD 1 0 ≠ (M.numFeatures : Int) then none
    else
      (bnUsed M training (featureVolume g.shape) st x rg w).bind fun u =>
        (bnApply M sqrt gamma beta rg (x w) u.1 w).map fun y => (y, u.2)
  | _ => none

end

end Verif
