import Verif.Slicing.Model
import Verif.Dtype

/-!
# Model of `distdl/backends/mpi/partition.py`: teams of workers

A worker is identified by its rank in the root communicator.  A partition is the list of its
members in rank order.  What an operation returns on a worker is a function of the worker.  MPI
group and communicator operations are given by the MPI standard.
-/

namespace Verif

/-- `Comm.Get_rank` on a member, `PROC_NULL` (`none`) elsewhere, as stored by
`partition.py:92-106`. -/
def rankOf (members : List Nat) (w : Nat) : Option Nat :=
  if w ∈ members then some (members.idxOf w) else none

/-- An unstructured partition (`partition.py:76-111`): members in rank order and the identity of the
root communicator (`none` for a null communicator). -/
structure Part where
  members : List Nat
  root : Option Nat
  deriving DecidableEq, Repr

/-- A Cartesian partition (`partition.py:953-962`). -/
structure Cart where
  members : List Nat
  shape : List Nat
  root : Option Nat
  deriving DecidableEq, Repr

/-- What the MPI library guarantees of a communicator built by `Create_cart`: distinct members, as
many as the product of the extents, positive extents. -/
structure Cart.WF (P : Cart) : Prop where
  nodup : P.members.Nodup
  size : P.members.length = P.shape.prod
  pos : ∀ n ∈ P.shape, 0 < n

/-- `MPI_Group_incl`: erroneous (`none`) when a rank is repeated or out of range. -/
def groupIncl (g ranks : List Nat) : Option (List Nat) :=
  if ranks.Nodup ∧ ∀ r ∈ ranks, r < g.length then some (ranks.map fun r => g.getD r 0) else none

/-- `MPI_Group_union`: all of the first group, then the members of the second not in the first. -/
def groupUnion (a b : List Nat) : List Nat := a ++ b.filter fun w => !a.contains w

/-- `partition.py:185-212` `create_partition_inclusive`; `none` when MPI rejects the ranks. -/
def createInclusive (P : Part) (ranks : List Nat) : Option Part :=
  (groupIncl P.members ranks).map fun g => ⟨g, P.root⟩

/-- `compare.py:4-7` `check_identical_comm` on communicator identities (null compares unequal). -/
def identicalComm (a b : Option Nat) : Bool :=
  match a, b with
  | some x, some y => x == y
  | _, _ => false

/-- `partition.py:214-245` `create_partition_union`; `none` is the exception of line 239. -/
def createUnion (P Q : Part) : Option Part :=
  if !identicalComm P.root Q.root then none else some ⟨groupUnion P.members Q.members, P.root⟩

/-- `partition.py:247-284` `create_cartesian_topology_partition` as seen by the members.
`Create_cart` is erroneous for non-positive extents or too few workers; with surplus workers the
group comparison of line 276 raises on the members and `Get_group` on a null communicator on the
others.  `none` is an exception. -/
def createCartesian (P : Part) (shape : List Nat) : Option Cart :=
  if (∀ n ∈ shape, 0 < n) ∧ shape.prod = P.members.length then some ⟨P.members, shape, P.root⟩
  else none

/-- `MPI_Cart_coords`: row-major coordinates of a rank. -/
def getCoords : List Nat → Nat → List Nat
  | [], _ => []
  | _ :: ns, r => r / ns.prod :: getCoords ns (r % ns.prod)

/-- `MPI_Cart_rank` of a non-periodic topology: erroneous (`none`) out of range. -/
def getCartRank : List Nat → List Int → Option Nat
  | [], [] => some 0
  | n :: ns, i :: is =>
    if 0 ≤ i ∧ i < n then (getCartRank ns is).map fun r => i.toNat * ns.prod + r else none
  | _, _ => none

/-- `partition.py:1024-1041` `cartesian_index`. -/
def cartesianIndex (P : Cart) (rank : Nat) : List Nat := getCoords P.shape rank

/-- The `index` attribute of worker `w` (`partition.py:960-962`), `None` when inactive. -/
def Cart.index (P : Cart) (w : Nat) : Option (List Nat) :=
  (rankOf P.members w).map (cartesianIndex P)

/-- `partition.py:1068-1073`, one iteration: left and right neighbour in dimension `i`.  Inner
`none` is `PROC_NULL`, outer `none` an MPI error. -/
def neighborPair (shape index : List Nat) (i : Nat) : Option (Option Nat × Option Nat) :=
  let lindex : List Int := (List.range index.length).map fun j =>
    if j = i then (index.getD j 0 : Int) - 1 else index.getD j 0
  let rindex : List Int := (List.range index.length).map fun j =>
    if j = i then (index.getD j 0 : Int) + 1 else index.getD j 0
  let lrank : Option (Option Nat) :=
    if -1 = lindex.getD i 0 then some none else (getCartRank shape lindex).map some
  let rrank : Option (Option Nat) :=
    if (shape.getD i 0 : Int) = rindex.getD i 0 then some none
    else (getCartRank shape rindex).map some
  lrank.bind fun l => rrank.map fun r => (l, r)

/-- `partition.py:1043-1075` `neighbor_ranks` on an active worker; `none` is an exception. -/
def neighborRanks (P : Cart) (rank : Nat) : Option (List (Option Nat × Option Nat)) :=
  (List.range P.shape.length).mapM (neighborPair P.shape (cartesianIndex P rank))

/-- Boolean-mask indexing `array[mask]`. -/
def keepDims {α : Type} : List Bool → List α → List α
  | b :: bs, x :: xs => if b then x :: keepDims bs xs else keepDims bs xs
  | _, _ => []

/-- `partition.py:990-1018` `create_cartesian_subtopology_partition` on an active worker `w`.
`MPI_Cart_sub`: the new communicator holds the workers with the same coordinates in the dropped
dimensions, in rank order (which is row-major in the kept coordinates). -/
def cartSub (P : Cart) (keep : List Bool) (w : Nat) : Cart :=
  let mine := getCoords P.shape (P.members.idxOf w)
  let drop := keep.map (!·)
  { members := P.members.filter fun v =>
      keepDims drop (getCoords P.shape (P.members.idxOf v)) == keepDims drop mine
    shape := keepDims keep P.shape
    root := P.root }

/-! ## Sharing data -/

/-- A NumPy array of a known dtype: shape and elements in C order. -/
structure NpArr (α : Type) where
  dtype : NpScalar
  shape : List Nat
  vals : List α

/-- What a call returns on a worker. -/
inductive Res (β : Type)
  | returnsNone
  | raises
  | value (b : β)
  deriving DecidableEq

/-- `partition.py:795-805`: position in the calling partition `S` of the worker with rank `root` in
the partition holding the data.  `Allgather` collects every member's rank in `D`, `-1` (`none`) when
it is not in `D`; the first match is taken. -/
def dataRoot (S D : List Nat) (root : Nat) : Option Nat :=
  let rankMap := S.map (rankOf D)
  if some root ∈ rankMap then some (rankMap.idxOf (some root)) else none

/-- `partition.py:759-836` `broadcast_data` called by all members of `S`; `data w` is the argument
of worker `w`.  Each `Bcast` delivers the value of the member at `data_root`; dimension, shape and
dtype id travel first and describe the receive array.  A worker with `P_data.rank == root` keeps its
own array (line 831).  `raises` stands for the exceptions of line 805 and of lines 811-826 (no data
or unsupported dtype at the root). -/
def broadcastData {α : Type} (S : List Nat) (Pdata : Option (List Nat)) (root : Nat)
    (data : Nat → Option (NpArr α)) (w : Nat) : Res (NpArr α) :=
  if w ∉ S then .returnsNone
  else
    let D := Pdata.getD S
    let dr : Option Nat := match Pdata with
      | none => if root < S.length then some root else none
      | some D => dataRoot S D root
    match dr with
    | none => .raises
    | some r =>
      match data (S.getD r 0) with
      | none => .raises
      | some a =>
        match (numpyToInt (.inst a.dtype)).bind intToNumpy with
        | none => .raises
        | some k =>
          if rankOf D w = some root then
            match data w with
            | none => .raises
            | some b => .value ⟨b.dtype, b.shape, b.vals⟩
          else .value ⟨k.scalar, a.shape, a.vals⟩

/-- Reshaping a flat array to rows of length `sz` (`out_data.shape = -1, sz`). -/
def reshapeRows {α : Type} (sz : Nat) (n : Nat) (l : List α) : List (List α) :=
  match n with
  | 0 => []
  | n + 1 => l.take sz :: reshapeRows sz n (l.drop sz)

/-- `partition.py:838-864` `allgather_data`: `MPI_Allgather` concatenates the contributions in rank
order; the result has one row per rank. -/
def allgatherData {α : Type} (S : List Nat) (sz : Nat) (data : Nat → List α) : List (List α) :=
  reshapeRows sz S.length (S.flatMap data)

/-- Operations of `allreduce_data`, `partition.py:894-901`. -/
inductive ReduceOp
  | sum | prod | max | min

/-- The binary function of an MPI reduction. -/
def ReduceOp.apply : ReduceOp → Int → Int → Int
  | .sum => (· + ·)
  | .prod => (· * ·)
  | .max => fun a b => Max.max a b
  | .min => fun a b => Min.min a b

/-- `partition.py:866-907` `allreduce_data`, one entry of the array: `MPI_Allreduce` combines the
contributions of all members; the initial content of `output` is overwritten.  `none` only for an
empty partition, which cannot call it. -/
def allreduceData (S : List Nat) (op : ReduceOp) (data : Nat → Int) : Option Int :=
  match S.map data with
  | [] => none
  | x :: xs => some (xs.foldl op.apply x)

/-! ## Partition objects as a worker sees them -/

/-- The `index` attribute. -/
inductive PIndex
  | none
  | scalar (r : Option Nat)
  | coords (c : List Nat)
  deriving DecidableEq, Repr

/-- The attributes of a partition object on one worker.  `comm` is the identity of the communicator,
`group` the ordered member list, `rank = none` is `MPI.PROC_NULL`. -/
structure PartObj where
  comm : Option Nat
  group : Option (List Nat)
  rank : Option Nat
  size : Int
  shape : List Int
  index : PIndex
  active : Bool
  cart : Bool
  deriving DecidableEq, Repr

/-- `partition.py:76-111` `MPIPartition.__init__` on worker `w`; a communicator is its identity and
its member list. -/
def PartObj.init (w : Nat) (comm : Option (Nat × List Nat)) (group : Option (List Nat)) : PartObj :=
  match comm with
  | some (c, ms) =>
    { comm := some c
      group := match group with
        | some g => some g
        | none => some ms
      rank := some (ms.idxOf w), size := ms.length
      shape := [(ms.length : Int)]
      index := .scalar (some (ms.idxOf w)), active := true, cart := false }
  | none =>
    { comm := none, group := group, rank := none, size := -1, shape := [-1], index := .none
      active := false, cart := false }

/-- `partition.py:953-962` `MPICartesianPartition.__init__`. -/
def PartObj.initCart (w : Nat) (comm : Option (Nat × List Nat)) (group : Option (List Nat))
    (shape : List Nat) : PartObj :=
  let o := PartObj.init w comm group
  { o with
    shape := shape.map fun (n : Nat) => (n : Int)
    index := match o.rank with
      | some r => .coords (getCoords shape r)
      | none => .none
    cart := true }

/-- `partition.py:113-147` `MPIPartition.deactivate`. -/
def PartObj.deactivateBase (o : PartObj) : PartObj :=
  if o.active then
    { o with comm := none, group := none, active := false, rank := none, size := -1, shape := [-1]
             index := .scalar none }
  else o

/-- `partition.py:964-988`: the Cartesian override keeps the shape; dispatch on the class. -/
def PartObj.deactivate (o : PartObj) : PartObj :=
  if o.cart then { o.deactivateBase with shape := o.shape, index := .none } else o.deactivateBase

/-- `compare.py:10-13` `check_identical_group`. -/
def identicalGroup (a b : Option (List Nat)) : Bool :=
  match a, b with
  | some x, some y => x == y
  | _, _ => false

/-- `partition.py:149-178` `__eq__`. -/
def PartObj.eq (a b : PartObj) : Bool :=
  if a.comm.isNone || b.comm.isNone || a.group.isNone || b.group.isNone || a.rank.isNone ||
      b.rank.isNone then false
  else identicalComm a.comm b.comm && identicalGroup a.group b.group && a.rank == b.rank

end Verif
