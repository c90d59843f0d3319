import Verif.Partition.Model

/-!
# Model of `utilities/tensor_decomposition.py`, `backends/mpi/tensor_decomposition.py` and
`backends/mpi/tensor_comm.py`

A `D+1`-dimensional array of shapes (first `D` axes: worker index, last axis: tensor dimension) is
a function of the worker index and the dimension.
-/

namespace Verif

/-- An array indexed by worker index and tensor dimension. -/
abbrev Table := List Nat → Nat → Nat

/-- `tensor_decomposition.py:8-49` `compute_subtensor_shapes_balanced`: loop over all worker
indices, each iteration assigning the row of that worker; unassigned entries stay 0. -/
def balancedTable (Pshape shape : List Nat) : Table :=
  (rangeIndex Pshape).foldl
    (fun arr idx => fun j d =>
      if j = idx then (map3 subsize Pshape idx shape).getD d 0 else arr j d)
    (fun _ _ => 0)

/-- `tensor_decomposition.py:127-131`, one iteration of the loop: the entries of component `d` are
replaced by their cumulative sum along axis `d`. -/
def cumsumAxis (t : Table) (d : Nat) : Table := fun idx c =>
  if c = d then ((List.range (idx.getD d 0 + 1)).map fun k => t (idx.set d k) d).sum else t idx c

/-- `tensor_decomposition.py:103-133` `compute_subtensor_stop_indices`; `D` is the number of tensor
dimensions. -/
def stopIndices (D : Nat) (shapes : Table) : Table := (List.range D).foldl cumsumAxis shapes

/-- `tensor_decomposition.py:79-98`, one iteration: component `d` is shifted by one along axis `d`
and set to 0 at the first position. -/
def shiftAxis (t : Table) (d : Nat) : Table := fun idx c =>
  if c = d then (if idx.getD d 0 = 0 then 0 else t (idx.set d (idx.getD d 0 - 1)) d) else t idx c

/-- `tensor_decomposition.py:52-100` `compute_subtensor_start_indices`. -/
def startIndices (D : Nat) (shapes : Table) : Table :=
  (List.range D).foldl shiftAxis (stopIndices D shapes)

/-- `indices[tuple(index)]`: the row of one worker. -/
def tableRow (D : Nat) (t : Table) (idx : List Nat) : List Nat := (List.range D).map (t idx)

/-! ## Gathering shapes -/

/-- `mpi/tensor_decomposition.py:37-43`: the array a worker contributes, its own shape in its own
row and zeros elsewhere.  The local tensor has as many dimensions as the partition. -/
def oneHotShapes (P : Cart) (localShape : Nat → List Nat) (u : Nat) (k : List Nat) : Int :=
  if k.dropLast = getCoords P.shape (P.members.idxOf u) then
    ((localShape u).getD (k.getLast?.getD 0) 0 : Nat) else 0

/-- An entry of a C-ordered array. -/
def NpArr.entry {α : Type} (a : NpArr α) (k : List Nat) : Option α :=
  a.vals[cartesianIndexC a.shape k]?

/-- `mpi/tensor_decomposition.py:35-46`: the array after the all-reduce, on members of `P_in`. -/
def gatheredShapes (P : Cart) (localShape : Nat → List Nat) (v : Nat) : Option (NpArr Int) :=
  if v ∈ P.members then
    some ⟨.int64, P.shape ++ [P.shape.length],
      (rangeIndex (P.shape ++ [P.shape.length])).map fun k =>
        (allreduceData P.members .sum fun u => oneHotShapes P localShape u k).getD 0⟩
  else none

/-- `mpi/tensor_decomposition.py:4-53` `compute_subtensor_shapes_unbalanced` on worker `w`; `Pout`
is the member list of the optional output partition. -/
def unbalancedShapes (P : Cart) (Pout : Option (List Nat)) (localShape : Nat → List Nat) (w : Nat) :
    Res (NpArr Int) :=
  match Pout with
  | some S =>
    if w ∈ S then broadcastData S (some P.members) 0 (gatheredShapes P localShape) w
    else match gatheredShapes P localShape w with
      | none => .returnsNone
      | some a => .value a
  | none => match gatheredShapes P localShape w with
      | none => .returnsNone
      | some a => .value a

/-! ## Global structure -/

/-- `utilities/torch.py:16-40` `TensorStructure`. -/
structure TStruct where
  shape : Option (List Nat)
  dtype : Option TorchDtype
  requiresGrad : Option Bool
  deriving DecidableEq, Repr

/-- `tensor_comm.py:110-111`: the mask keeping only dimension `i`. -/
def keepOnly (D i : Nat) : List Bool := (List.range D).map fun j => j == i

/-- `tensor_comm.py:107-121`: the shape assembled on member `w` of `P_in`; `Allreduce(SUM)` over the
sub-topology keeping dimension `i`. -/
def globalShape (P : Cart) (localShape : Nat → List Nat) (w : Nat) : List Int :=
  (List.range P.shape.length).map fun i =>
    (allreduceData (cartSub P (keepOnly P.shape.length i) w).members .sum
      fun v => ((localShape v).getD i 0 : Nat)).getD 0

/-- A structure returned by `assemble_global_tensor_structure`; the shape is an integer array. -/
structure GStruct where
  shape : List Int
  dtype : TorchDtype
  requiresGrad : Bool
  deriving DecidableEq, Repr

/-- `tensor_comm.py:97-146` `assemble_global_tensor_structure` on worker `w`.  `localS v` is the
local tensor structure (shape, dtype, requires_grad) of worker `v`.  Workers in neither partition
return the empty structure (`returnsNone`).  The three `broadcast_data` calls of lines 135-144 carry
the shape, the dtype id and the requires-grad flag of rank 0 of `P_in`. -/
def assembleGlobal (P : Cart) (Pout : Option (List Nat))
    (localS : Nat → List Nat × TorchDtype × Bool) (w : Nat) : Res GStruct :=
  let shapeArr : Nat → Option (NpArr Int) := fun v =>
    if v ∈ P.members then
      some ⟨.int64, [P.shape.length], globalShape P (fun u => (localS u).1) v⟩ else none
  let dtypeArr : Nat → Option (NpArr Int) := fun v =>
    if v ∈ P.members then (torchToInt (localS v).2.1).map fun n => ⟨.int64, [1], [(n : Int)]⟩
    else none
  let rgArr : Nat → Option (NpArr Int) := fun v =>
    if v ∈ P.members then some ⟨.int64, [1], [if (localS v).2.2 then 1 else 0]⟩ else none
  let own : Res GStruct :=
    if w ∈ P.members then
      .value ⟨globalShape P (fun u => (localS u).1) w, (localS w).2.1, (localS w).2.2⟩
    else .returnsNone
  match Pout with
  | none => own
  | some S =>
    if w ∈ S then
      match broadcastData S (some P.members) 0 shapeArr w,
          broadcastData S (some P.members) 0 dtypeArr w,
          broadcastData S (some P.members) 0 rgArr w with
      | .value s, .value d, .value r =>
        match (d.vals[0]?).bind fun n => intToTorch n.toNat with
        | some t => .value ⟨s.vals, t, r.vals[0]? != some 0⟩
        | none => .raises
      | _, _, _ => .raises
    else own

end Verif
