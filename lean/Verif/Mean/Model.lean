import Verif.Module.Model
import Verif.Loss.Model

/-!
# Model of a sequence of calls of a loss that divides (`nn/loss.py`), without and with backward

The all-reduction of the number of entries belongs to the setup (`loss.py:85-87`, `244-254`), which a worker redoes when
its own block has changed (`loss.py:114-127`).  It uses the communicator of `P_x`, the sum-reduction of the losses
(`loss.py:172`) another one (`nn/sum_reduce.py:123-128`).  MPI matches the operations of a communicator in the order in
which every worker starts them: the `i`-th all-reduction of one worker goes with the `i`-th ones of the others, whatever
calls they were started in.  Simplification: the sum-reduction is set up before the first call (its input always is one
number).
-/

namespace Verif

/-- A collective operation: the `i`-th all-reduction of the factor, the sum-reduction of the losses of call `c`, or the
broadcast of the gradient of the loss of call `c`. -/
inductive LossOp
  | norm (i : Nat)
  | red (c : Nat)
  | back (c : Nat)
  deriving DecidableEq

/-- Whether worker `v` redoes the setup in call `c` (`nn/module.py:36-56`, `loss.py:114-127`); `hist` are the global
inputs of the calls. -/
def resetsAt (P : Cart) (hist : List TStruct) (v c : Nat) : Bool :=
  resets .late P (hist.take c) (hist.getD c ⟨none, none, none⟩) v

/-- How many setups worker `v` did in the calls before call `c`. -/
def setupsBefore (P : Cart) (hist : List TStruct) (v : Nat) : Nat → Nat
  | 0 => 0
  | c + 1 => setupsBefore P hist v c + if resetsAt P hist v c then 1 else 0

/-- What worker `v` does in call `c`: the blocking all-reduction of setup (`loss.py:87`, `254`), then the sum-reduction
(`loss.py:172`, `functional/sum_reduce.py:114-124`: `Ireduce` and `Waitall`). -/
def callOps (P : Cart) (hist : List TStruct) (v c : Nat) : List (Coll.Instr LossOp) :=
  (if resetsAt P hist v c then
    [.post (.norm (setupsBefore P hist v c)), .wait (.norm (setupsBefore P hist v c))] else []) ++
  [.post (.red c), .wait (.red c)]

/-- The first calls one after the other. -/
def callsOps (P : Cart) (hist : List TStruct) (v : Nat) : Nat → List (Coll.Instr LossOp)
  | 0 => []
  | c + 1 => callsOps P hist v c ++ callOps P hist v c

/-- All calls on worker `v` of `P_x`. -/
def lossProg (P : Cart) (hist : List TStruct) (v : Nat) : List (Coll.Instr LossOp) :=
  if v ∈ P.members then callsOps P hist v hist.length else []

/-- The call among the first `n` in which worker `v` did its setup number `i`. -/
def setupCall (P : Cart) (hist : List TStruct) (v i : Nat) : Nat → Option Nat
  | 0 => none
  | n + 1 => if resetsAt P hist v n = true ∧ setupsBefore P hist v n = i then some n else setupCall P hist v i n

/-- The shape of the input of worker `v` in call `c`. -/
def shapeIn (P : Cart) (hist : List TStruct) (v c : Nat) : List Nat :=
  ((localStruct P (hist.getD c ⟨none, none, none⟩) v).shape).getD []

/-- `normalization_factor` on worker `w` in the body of call `c` (`loss.py:177`): the outcome of its latest all-reduction,
number `i`, to which every worker gave what it had in its own setup number `i`.  1 before any setup (`loss.py:64`); `none`:
some worker never starts this all-reduction. -/
def LossLayer.factorAt (M : LossLayer) (hist : List TStruct) (w c : Nat) : Option Int :=
  match setupsBefore M.P hist w (c + 1) with
  | 0 => some 1
  | i + 1 =>
    if ∀ v ∈ M.P.members, (setupCall M.P hist v i hist.length).isSome = true then
      M.normalization fun v => shapeIn M.P hist v ((setupCall M.P hist v i hist.length).getD 0)
    else none

/-- MPI may end the wait of a sum-reduction early on all workers but the receiving one (`functional/sum_reduce.py:114-124`): a
sender may go on as soon as its data are on the way. -/
def senderEarly (M : LossLayer) : (Nat → Nat) → Nat → LossOp → Prop := fun _ w x =>
  w ∉ M.P0.members ∧ ∃ c, x = .red c

/-! ## With backward after each call -/

/-- Call `c` and its backward pass on worker `v`: the backward pass of the sum-reduction is a broadcast of the gradient
from the first worker (`functional/sum_reduce.py:209-228`). -/
def trainOps (P : Cart) (hist : List TStruct) (v c : Nat) : List (Coll.Instr LossOp) :=
  callOps P hist v c ++ [.post (.back c), .wait (.back c)]

/-- The first calls one after the other, each followed by its backward pass. -/
def trainsOps (P : Cart) (hist : List TStruct) (v : Nat) : Nat → List (Coll.Instr LossOp)
  | 0 => []
  | c + 1 => trainsOps P hist v c ++ trainOps P hist v c

/-- All calls and backward passes on worker `v` of `P_x`. -/
def trainProg (P : Cart) (hist : List TStruct) (v : Nat) : List (Coll.Instr LossOp) :=
  if v ∈ P.members then trainsOps P hist v hist.length else []

/-- What MPI may end early: a sender of a reduction, and the sender of a broadcast. -/
def trainEarly (M : LossLayer) : (Nat → Nat) → Nat → LossOp → Prop := fun _ w x =>
  (w ∉ M.P0.members ∧ ∃ c, x = .red c) ∨ (w ∈ M.P0.members ∧ ∃ c, x = .back c)

end Verif
