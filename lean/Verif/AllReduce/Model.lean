import Verif.Collective.Model

/-!
# Model of `AllSumReduce` (`nn/all_sum_reduce.py`, `backends/mpi/functional/all_sum_reduce.py`)
-/

namespace Verif

/-- `nn/all_sum_reduce.py:43-52`: the attribute `axes_reduce` from the two arguments; `none` is the
`ValueError` of lines 44 and 46.  `dim` is `P_x.dim`, known to inactive workers too. -/
def axesReduce (dim : Nat) (reduce keep : Option (List Int)) : Option (List Int) :=
  match reduce, keep with
  | none, none => none
  | some _, some _ => none
  | some r, none => some r
  | none, some k =>
    some (((List.range dim).map fun (n : Nat) => (n : Int)).filter fun d => !k.contains d)

section
variable {R : Type} [AddCommMonoid R]

/-- `Iallreduce(sendbuf, recvbuf, op=SUM)`. -/
structure AllCall (R : Type) where
  sendbuf : Tensor R
  recvbuf : Tensor R

/-- Receive buffer `b` after `Iallreduce`; all buffers must agree in shape and type. -/
def allreduceResult (b : Tensor R) (calls : List (AllCall R)) : Option (Tensor R) :=
  if calls.all fun c => sameKind b c.sendbuf && sameKind b c.recvbuf then
    some ⟨b.shape, b.dtype, fun i => (calls.map fun c => c.sendbuf.val i).sum⟩
  else none

/-- `functional/all_sum_reduce.py:73-80` and `130-137`: the receive buffer, zeros with the structure
of the forward input. -/
def zerosLike (t : Tensor R) : Tensor R := ⟨t.shape, t.dtype, fun _ => 0⟩

/-- Actions of `AllSumReduceFunction.forward` (lines 73-82, with `y = x`) and `.backward` (lines
130-139, with the gradients `y`) on worker `w`; `axes` is `axes_reduce`.  The partition is created at
setup (`nn/all_sum_reduce.py:94-96`). -/
def allReduceActs (P : Cart) (axes : List Int) (x y : Nat → Tensor R) (w : Nat) :
    List (Act (AllCall R)) :=
  match allreductionPartition P axes w with
  | .value C => [.post C.members ⟨y w, zerosLike (x w)⟩, .wait C.members 0]
  | _ => []

/-- `AllSumReduce` (`nn/all_sum_reduce.py:73-75`, `85-97`, `149-168`) on worker `w`: forward on inputs
`x` with `y = x`, backward on gradients `y`.  A partition of size 1 and workers outside the partition
give a copy.  `none`: exception. -/
def allReduceOut (P : Cart) (axes : List Int) (x y : Nat → Tensor R) (w : Nat) :
    Option (Tensor R) :=
  if w ∉ P.members ∨ P.members.length = 1 then some (y w)
  else
    match allreductionPartition P axes w with
    | .value C => (matched (allReduceActs P axes x y) C.members 0).bind
        (allreduceResult (zerosLike (x w)))
    | _ => none

end

/-- Setup of the layer on worker `w`, given the arguments of the constructor: `returnsNone` when no
partition is needed.  An invalid argument raises in the constructor, an invalid axis in setup. -/
def allReduceSetup (P : Cart) (reduce keep : Option (List Int)) (w : Nat) : Res Cart :=
  match axesReduce P.shape.length reduce keep with
  | none => .raises
  | some axes =>
    if w ∉ P.members ∨ P.members.length = 1 then .returnsNone else allreductionPartition P axes w

end Verif
