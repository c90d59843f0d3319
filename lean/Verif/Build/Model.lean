import Verif.Collective.Machine
import Verif.Group.Model
import Verif.Conv.Model
import Verif.BatchNorm.Model

/-!
# The collective calls made while partitions and layers are built

Which MPI calls the constructors of partitions and layers make on a worker, in which order, on which communicators:
`backends/mpi/partition.py`, and `__init__` of `nn/repartition.py`, `nn/conv_feature.py`, `nn/conv_channel.py`,
`nn/conv_general.py`, `nn/loss.py`, `nn/batchnorm.py`; and the communicators made at the first call of `nn/broadcast.py`,
`nn/sum_reduce.py`, `nn/all_sum_reduce.py` (`_distdl_module_setup`).  The data that is passed is modelled elsewhere
(`Collective/Model.lean`, `Group/Model.lean`, `Conv/Model.lean`); here only its effect on control flow.

MPI semantics: calls on a communicator are matched in the order in which each of its members makes them, whatever they are;
if the `k`-th call on a communicator is not the same for all members (another operation, or another root), they never
match.  `Create_group` is collective over the new group only, and is matched by the communicator, the group and the tag
given; on a worker outside the group it is local.  `Comm.Free` is treated as collective.

A communicator is named by the place in the script where it is made.  That all members give the same name to it is not
assumed: the name is part of the call that makes it, and calls with different names do not match.
-/

namespace Verif.Build

/-- A communicator: its name, and its members in the order of their ranks. -/
structure Comm where
  name : List Nat
  members : List Nat
  deriving DecidableEq, Repr

/-- Where calls of different workers meet. -/
inductive Chan
  | on (c : Comm)
  | create (parent : Comm) (group : List Nat) (tag : Nat)
  deriving DecidableEq, Repr

/-- Who takes part. -/
def Chan.members : Chan → List Nat
  | .on c => c.members
  | .create _ g _ => g

/-- What is called. -/
inductive Kind
  /-- `Create_group`; `name` is that of the result -/
  | make (name : List Nat)
  /-- `Create_cart` -/
  | cart (shape name : List Nat)
  /-- `Allgather` -/
  | allgather
  /-- `Bcast`; rank of the root -/
  | bcast (root : Nat)
  /-- `Free` -/
  | free
  deriving DecidableEq, Repr

/-- A collective call. -/
structure Op where
  chan : Chan
  kind : Kind
  deriving DecidableEq, Repr

/-- What a worker does: its calls, and the result (`none`: an exception, nothing after it is executed). -/
structure Run (α : Type) where
  ops : List Op
  res : Option α

instance : Monad Run where
  pure a := ⟨[], some a⟩
  bind r f := match r.res with
    | none => ⟨r.ops, none⟩
    | some a => ⟨r.ops ++ (f a).ops, (f a).res⟩

/-- A collective call. -/
def call (c : Chan) (k : Kind) : Run Unit := ⟨[⟨c, k⟩], some ()⟩

/-- An exception. -/
def raise {α : Type} : Run α := ⟨[], none⟩

/-! ## Partitions -/

/-- A Cartesian partition with the name of its communicator. -/
structure CPart where
  cart : Cart
  name : List Nat
  deriving DecidableEq

/-- Its communicator (`partition.py:79` `_comm`). -/
def CPart.comm (P : CPart) : Comm := ⟨P.name, P.cart.members⟩

/-- The partition as one without topology: what `create_partition_union` uses of it (`partition.py:214-245`). -/
def CPart.part (P : CPart) : Part := ⟨P.cart.members, P.cart.root⟩

/-- `partition.py:185-212` `create_partition_inclusive` on worker `w`; on a worker outside of the partition `Create_group`
is called on a null communicator. -/
def inclusive (c : Comm) (n : List Nat) (ranks : List Nat) (w : Nat) : Run Comm :=
  match groupIncl c.members ranks with
  | none => raise
  | some g =>
    if w ∉ c.members then raise
    else if w ∈ g then do
      call (.create c g 0) (.make n)
      pure ⟨n, g⟩
    else pure ⟨n, g⟩

/-- `partition.py:214-245` `create_partition_union`; `Create_group` is called on the root communicator. -/
def union (world : Comm) (n : List Nat) (P Q : Part) (w : Nat) : Run Part :=
  match createUnion P Q with
  | none => raise
  | some U =>
    if w ∈ U.members then do
      call (.create world U.members 0) (.make n)
      pure U
    else pure U

/-- `partition.py:247-284` `create_cartesian_topology_partition`. -/
def cartesian (c : Comm) (n : List Nat) (shape : List Nat) (w : Nat) : Run Unit :=
  if w ∈ c.members then do
    call (.on c) (.cart shape n)
    match createCartesian ⟨c.members, none⟩ shape with
    | none => raise
    | some _ => pure ()
  else pure ()

/-- `partition.py:114-137` `deactivate`: nothing on a worker that is not active. -/
def deactivate (c : Comm) (w : Nat) : Run Unit := if w ∈ c.members then call (.on c) .free else pure ()

/-- The four broadcasts of `broadcast_data` (`partition.py:806-834`): number of dimensions, shape, type, data. -/
def fourBcasts (c : Comm) (root : Nat) : Run Unit := do
  call (.on c) (.bcast root)
  call (.on c) (.bcast root)
  call (.on c) (.bcast root)
  call (.on c) (.bcast root)

/-- `partition.py:759-836` `broadcast_data` with `root=0` and without `P_data`. -/
def shareOwn (c : Comm) (w : Nat) : Run Unit := if w ∉ c.members then pure () else fourBcasts c 0

/-- `partition.py:759-836` `broadcast_data` with `root=0` and `P_data`, whose members are `d`: the rank in `c` of rank 0 of
`P_data` is found with an `Allgather` (lines 795-803). -/
def shareFrom (c : Comm) (d : List Nat) (w : Nat) : Run Unit :=
  if w ∉ c.members then pure () else do
    call (.on c) .allgather
    match d.head?.bind (rankOf c.members) with
    | some r => fourBcasts c r
    | none => raise

/-- The steps common to `partition.py:440-577` `create_broadcast_partition_to` and `622-757`
`create_reduction_partition_to`; `run` has the results.  Exceptions are those of lines 495, 512 (677, 692): later ones do
not occur (C19, C20). -/
def pairPartitions (world : Comm) (n : List Nat) (Px Py : CPart) (run : Nat → Res SendRecv) (w : Nat) : Run Unit :=
  if w ∉ Px.cart.members ∧ w ∉ Py.cart.members then pure () else do
    let U ← union world (n ++ [0]) Px.part Py.part w
    let c : Comm := ⟨n ++ [0], U.members⟩
    shareFrom c Px.cart.members w
    shareFrom c Py.cart.members w
    match run w with
    | .value sr => do
      call (.on c) .allgather
      call (.on c) .allgather
      -- lines 402-436
      (⟨sr.creations.map fun p => ⟨.create c p.2 p.1, .make (n ++ [1, p.1])⟩, some ()⟩ : Run Unit)
      deactivate c w
    | _ => raise

/-- `broadcast.py:95-102` (and `sum_reduce.py:93-100`): the same communicator on both sides. -/
def sameComm (Px Py : CPart) (ts td : Bool) : Bool :=
  Px.name == Py.name && (Px.cart.members.length == 1 || ts == td)

/-- `broadcast.py:119-138` `_distdl_module_setup` up to the exchange of structures. -/
def broadcastSetup (world : Comm) (n : List Nat) (Px Py : CPart) (ts td : Bool) (w : Nat) : Run Unit :=
  if sameComm Px Py ts td then pure ()
  else pairPartitions world n Px Py (broadcastPartitions Px.cart Py.cart ts td) w

/-- `sum_reduce.py:117-137` `_distdl_module_setup` up to the exchange of structures. -/
def sumReduceSetup (world : Comm) (n : List Nat) (Px Py : CPart) (ts td : Bool) (w : Nat) : Run Unit :=
  if sameComm Px Py ts td then pure ()
  else pairPartitions world n Px Py (reductionPartitions Px.cart Py.cart ts td) w

/-- `all_sum_reduce.py:90-103` `_distdl_module_setup`, `partition.py:579-620` `create_allreduction_partition`. -/
def allReduceSetup (n : List Nat) (P : CPart) (axes : List Int) (w : Nat) : Run Unit :=
  if w ∉ P.cart.members then pure ()
  else if P.cart.members.length = 1 then pure ()
  else
    match allreductionPartition P.cart axes w with
    | .value C => do
      call (.create P.comm C.members 0) (.make (n ++ [0]))
      cartesian ⟨n ++ [0], C.members⟩ (n ++ [1]) C.shape w
      deactivate ⟨n ++ [0], C.members⟩ w
    | _ => raise

/-! ## Layers -/

/-- A partition in a partition: `create_partition_inclusive`, `create_cartesian_topology_partition`, `deactivate`
(`loss.py:54-58`, `conv_feature.py:165-169`, `batchnorm.py:78-82`, `conv_general.py:247-253`, `264-269`, `280-286`). -/
def inner (c : Comm) (n : List Nat) (ranks shape : List Nat) (w : Nat) : Run Unit := do
  let base ← inclusive c (n ++ [0]) ranks w
  cartesian base (n ++ [1]) shape w
  deactivate base w

/-- `nn/repartition.py:87-127` `__init__`. -/
def newRepartition (world : Comm) (n : List Nat) (Px Py : CPart) (w : Nat) : Run Unit :=
  if w ∉ Px.cart.members ∧ w ∉ Py.cart.members then pure () else do
    let U ← union world (n ++ [0]) Px.part Py.part w
    let c : Comm := ⟨n ++ [0], U.members⟩
    if w ∉ c.members then pure () else do
      shareFrom c Px.cart.members w
      shareFrom c Py.cart.members w
      if Px.cart.shape.length ≠ Py.cart.shape.length then raise
      call (.on c) .allgather
      call (.on c) .allgather

/-- `nn/conv_feature.py:111-169` `__init__`. -/
def newFeatureConv (n : List Nat) (P : CPart) (w : Nat) : Run Unit :=
  if w ∉ P.cart.members then pure ()
  else if P.cart.members.length = 1 then pure ()
  else inner P.comm n [0] [1] w

/-- `nn/loss.py:38-61` `__init__`. -/
def newLossLayer (n : List Nat) (P : CPart) (w : Nat) : Run Unit :=
  inner P.comm n [0] (List.replicate P.cart.shape.length 1) w

/-- `nn/batchnorm.py:45-82` `__init__`; on a worker outside of `P_x` lines 62-63 raise. -/
def newNorm (n : List Nat) (P : CPart) (w : Nat) : Run Unit :=
  if P.cart.shape.length < 2 then raise
  else if w ∉ P.cart.members then raise
  else inner P.comm n (storageWorkers P.cart)
    ((List.replicate P.cart.shape.length 1).set 1 (P.cart.shape.getD 1 0)) w

/-- `conv_channel.py:143-182`, `conv_general.py:155-190`: `P_x` and `P_y` in new shapes, after checks on their own
workers. -/
def recast (n : List Nat) (ones : Bool) (Px Py Pw : CPart) (w : Nat) : Run Unit := do
  if w ∈ Px.cart.members then
    if alignedX ones Px.cart.shape Pw.cart.shape then pure () else raise
  cartesian Px.comm (n ++ [2]) (castXShape Px.cart.shape) w
  if w ∈ Py.cart.members then
    if alignedY ones Py.cart.shape Pw.cart.shape then pure () else raise
  cartesian Py.comm (n ++ [3]) (castYShape Py.cart.shape) w

/-- `nn/conv_channel.py:106-198` `__init__`; nothing is called after it. -/
def newChannelConv (world : Comm) (n : List Nat) (Px Py Pw : CPart) (w : Nat) : Run Unit :=
  if w ∉ Px.cart.members ∧ w ∉ Py.cart.members ∧ w ∉ Pw.cart.members then pure () else do
    let T ← union world (n ++ [0]) Pw.part Px.part w
    let U ← union world (n ++ [1]) T Py.part w
    shareOwn ⟨n ++ [1], U.members⟩ w
    deactivate ⟨n ++ [0], T.members⟩ w
    deactivate ⟨n ++ [1], U.members⟩ w
    if Pw.cart.shape.length < 2 then raise
    recast n true Px Py Pw w

/-- The ranks of the workers of `P_w` whose index satisfies `p` (`conv_general.py:240-245` and alike). -/
def ranksWhere (Pw : Cart) (p : List Nat → Bool) : List Nat :=
  ((rangeIndex Pw.shape).zipIdx.filter fun c => p c.1).map fun c => c.2

/-- `conv_general.py:240-286`: `P_wr`, `P_b`, `P_br`. -/
def weightParts (n : List Nat) (Pw : CPart) (w : Nat) : Run Unit := do
  inner Pw.comm (n ++ [4]) (ranksWhere Pw.cart fun c => (c.drop 2).all fun i => i == 0)
    ([Pw.cart.shape.getD 0 0, Pw.cart.shape.getD 1 0] ++ List.replicate (Pw.cart.shape.drop 2).length 1) w
  inner Pw.comm (n ++ [5]) (ranksWhere Pw.cart fun c => c.getD 1 0 == 0)
    ([Pw.cart.shape.getD 0 0] ++ [1] ++ Pw.cart.shape.drop 2) w
  inner Pw.comm (n ++ [6]) (ranksWhere Pw.cart fun c => (c.drop 1).all fun i => i == 0)
    ([Pw.cart.shape.getD 0 0] ++ [1] ++ List.replicate (Pw.cart.shape.drop 2).length 1) w

/-- `nn/conv_general.py:118-393` `__init__`.  `self.serial` (line 194) is set on the workers of `P_w` only. -/
def newGeneralConv (world : Comm) (n : List Nat) (Px Py Pw : CPart) (w : Nat) : Run Unit :=
  if w ∉ Px.cart.members ∧ w ∉ Py.cart.members ∧ w ∉ Pw.cart.members then pure () else do
    let T ← union world (n ++ [0]) Pw.part Px.part w
    let U ← union world (n ++ [1]) T Py.part w
    deactivate ⟨n ++ [0], T.members⟩ w
    shareOwn ⟨n ++ [1], U.members⟩ w
    if Pw.cart.shape.length < 2 then raise
    recast n false Px Py Pw w
    if w ∈ Pw.cart.members ∧ Pw.cart.members.length = 1 then pure () else do
      if w ∈ Pw.cart.members then weightParts n Pw w
      -- lines 365-368
      shareOwn ⟨n ++ [1], U.members⟩ w
      shareOwn ⟨n ++ [1], U.members⟩ w
      shareOwn ⟨n ++ [1], U.members⟩ w
      shareOwn ⟨n ++ [1], U.members⟩ w

/-! ## Scripts -/

/-- A line of a script. -/
inductive Line
  /-- a Cartesian partition of some workers: `create_partition_inclusive`, `create_cartesian_topology_partition` on the
  partition of all workers, and `deactivate` of what lies between -/
  | partition (ranks shape : List Nat)
  | repartition (Px Py : CPart)
  /-- the first call of a broadcast layer -/
  | broadcast (Px Py : CPart) (ts td : Bool)
  /-- the first call of a sum-reduce layer -/
  | sumReduce (Px Py : CPart) (ts td : Bool)
  /-- the first call of an all-sum-reduce layer -/
  | allReduce (P : CPart) (axes : List Int)
  | featureConv (P : CPart)
  | channelConv (Px Py Pw : CPart)
  | generalConv (Px Py Pw : CPart)
  | loss (P : CPart)
  | norm (P : CPart)

/-- A line on worker `w`; `n` is its number. -/
def Line.run (world : Comm) (n : List Nat) : Line → Nat → Run Unit
  | .partition ranks shape => inner world n ranks shape
  | .repartition Px Py => newRepartition world n Px Py
  | .broadcast Px Py ts td => broadcastSetup world n Px Py ts td
  | .sumReduce Px Py ts td => sumReduceSetup world n Px Py ts td
  | .allReduce P axes => allReduceSetup n P axes
  | .featureConv P => newFeatureConv n P
  | .channelConv Px Py Pw => newChannelConv world n Px Py Pw
  | .generalConv Px Py Pw => newGeneralConv world n Px Py Pw
  | .loss P => newLossLayer n P
  | .norm P => newNorm n P

/-- A script on worker `w`, from line `k`. -/
def script (world : Comm) : Nat → List Line → Nat → Run Unit
  | _, [], _ => pure ()
  | k, l :: ls, w => do
    l.run world [k] w
    script world (k + 1) ls w

/-! ## As programs of the machine -/

/-- The calls of a worker, each with the number of earlier ones at the same place. -/
def numberFrom : List Chan → List Op → List (Op × Nat)
  | _, [] => []
  | seen, o :: os => (o, seen.count o.chan) :: numberFrom (o.chan :: seen) os

/-- The calls of a worker as a program: all are blocking.  An operation is matched with those that are equal, as the
`k`-th call at the same place. -/
def instrs (ops : List Op) : List (Coll.Instr (Op × Nat)) :=
  (numberFrom [] ops).flatMap fun c => [.post c, .wait c]

/-- The program of worker `w`. -/
def program (W : List Nat) (ls : List Line) (w : Nat) : List (Coll.Instr (Op × Nat)) :=
  instrs (script ⟨[], W⟩ 0 ls w).ops

/-- Who takes part in an operation. -/
def mem (c : Op × Nat) : List Nat := c.1.chan.members

end Verif.Build
