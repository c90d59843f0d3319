import Verif.Group.Model
import Verif.Decomp.Model
import Verif.Collective.Machine

/-!
# Model of the collective data movement

`tensor_comm.py` (`broadcast_tensor_structure`), `functional/broadcast.py`,
`functional/sum_reduce.py`, `nn/broadcast.py`, `nn/sum_reduce.py`.

A worker's part in a call is the list of its MPI actions in program order: posting a non-blocking
collective on a communicator (identified by its ordered member list) and waiting for the `k`-th
operation it posted there.  MPI matches the `k`-th operations of all members of a communicator.  The
result of an operation is a function of the matched calls; `none` stands for a mismatch (wrong kind
of operation, wrong shape or type, missing call).
-/

namespace Verif

/-- A local tensor: `shape`, `dtype`, and entries by multi-index. -/
structure Tensor (R : Type) where
  shape : List Nat
  dtype : TorchDtype
  val : List Nat → R

/-- An MPI action of a worker: `req = comm.I...(...)` or `req.Wait()`. -/
inductive Act (C : Type)
  | post (comm : List Nat) (call : C)
  | wait (comm : List Nat) (k : Nat)

section
variable {C : Type}

/-- The calls a worker makes on communicator `g`, in program order. -/
def callsOn (acts : List (Act C)) (g : List Nat) : List C :=
  acts.filterMap fun a => match a with
    | .post g' c => if g' = g then some c else none
    | .wait _ _ => none

/-- The `k`-th calls of all members of `g`, in rank order; `none` when a member makes fewer. -/
def matched (acts : Nat → List (Act C)) (g : List Nat) (k : Nat) : Option (List C) :=
  g.mapM fun u => (callsOn (acts u) g)[k]?

/-- The actions as instructions of the posting/waiting machine: a post is numbered by the posts made
before on the same communicator. -/
def instrs : List (List Nat) → List (Act C) → List (Coll.Instr (List Nat × Nat))
  | _, [] => []
  | seen, .post g _ :: as => .post (g, seen.count g) :: instrs (g :: seen) as
  | seen, .wait g k :: as => .wait (g, k) :: instrs seen as

end

/-- `MPIPartition.__eq__` (`partition.py:149-166`) on the partitions of one call: identical
communicators, `False` when one is null. -/
def samePart (a b : Option (List Nat)) : Bool :=
  match a, b with
  | some x, some y => x == y
  | _, _ => false

/-! ## Tensor structures -/

/-- `Iallreduce(IN_PLACE, buf, op=MAX)`: elementwise maximum; all buffers must have one length. -/
def maxResult (calls : List (List Int)) : Option (List Int) :=
  match calls with
  | [] => none
  | b :: rest =>
    if rest.all fun c => c.length == b.length then some (rest.foldl (List.zipWith max) b) else none

/-- `tensor_comm.py:18-77`: the actions of a worker whose input has the given structure; `d` is the
dimension received at line 68 (`none`: the wait failed, the worker does not get further).  A negative
dimension makes `np.zeros` (line 70) raise. -/
def structActs (send recv : Option (List Nat)) (shape : List Nat) (dtype : TorchDtype) (rg : Bool)
    (d : Option Int) : List (Act (List Int)) :=
  (match send, torchToInt dtype with
    | some g, some id => [.post g [(id : Int)], .post g [if rg then 1 else 0],
        .post g [(shape.length : Int)], .post g (shape.map fun (n : Nat) => (n : Int))]
    | _, _ => []) ++
  (match recv with
    | some g =>
      if !samePart send recv then
        [.post g [-1], .post g [-1], .post g [-1], .wait g 2] ++
        (match d with
          | some d => if 0 ≤ d then [.post g (List.replicate d.toNat (-1))] else []
          | none => [])
      else []
    | none => []) ++
  (match send with
    | some g => [.wait g 0, .wait g 1, .wait g 2, .wait g 3]
    | none => []) ++
  (match recv with
    | some g => if !samePart send recv then [.wait g 0, .wait g 1, .wait g 3] else []
    | none => [])

/-- The inputs of all workers of the call: partitions, tensor shape, type and `requires_grad`. -/
structure StructIn where
  send : Nat → Option (List Nat)
  recv : Nat → Option (List Nat)
  shape : Nat → List Nat
  dtype : Nat → TorchDtype
  rg : Nat → Bool

/-- All actions when the dimension received by worker `u` is `d u`. -/
def StructIn.acts (I : StructIn) (d : Nat → Option Int) (u : Nat) : List (Act (List Int)) :=
  structActs (I.send u) (I.recv u) (I.shape u) (I.dtype u) (I.rg u) (d u)

/-- `tensor_comm.py:66-68`: the dimension received by worker `u`.  The operations up to this one do
not depend on received values. -/
def StructIn.dim (I : StructIn) (u : Nat) : Option Int :=
  match I.recv u with
  | none => none
  | some g => ((matched (I.acts fun _ => none) g 2).bind maxResult).bind fun l => l.head?

/-- `tensor_comm.py:11-94` `broadcast_tensor_structure` on worker `w`; `none`: exception. -/
def broadcastStructure (I : StructIn) (w : Nat) : Option TStruct :=
  match I.send w, I.recv w with
  | none, none => some ⟨none, none, none⟩
  | _, _ =>
    match I.recv w with
    | some g =>
      if !samePart (I.send w) (I.recv w) then
        match (matched (I.acts I.dim) g 3).bind maxResult,
            (matched (I.acts I.dim) g 0).bind maxResult,
            (matched (I.acts I.dim) g 1).bind maxResult with
        | some sh, some (id :: _), some (r :: _) =>
          if 0 ≤ id then
            match intToTorch id.toNat with
            | some t => some ⟨some (sh.map Int.toNat), some t, some (r != 0)⟩
            | none => none
          else none
        | _, _, _ => none
      else some ⟨some (I.shape w), some (I.dtype w), some (I.rg w)⟩
    | none => some ⟨none, none, none⟩

/-! ## Copying and summing -/

/-- A collective call on tensors: `Ibcast(buf, root=0)`, or `Ireduce(sendbuf, recvbuf, root=0,
op=SUM)` with `none` for `MPI.IN_PLACE`. -/
inductive Call (R : Type)
  | ibcast (buf : Tensor R)
  | ireduce (sendbuf : Option (Tensor R)) (recvbuf : Tensor R)

section
variable {R : Type} [AddCommMonoid R]

/-- `np.zeros(structure.shape, dtype=torch_to_numpy_dtype_dict[structure.dtype])`; `none`: the
structure is empty (`KeyError`). -/
def zerosOf (s : TStruct) : Option (Tensor R) :=
  match s.shape, s.dtype with
  | some sh, some t => some ⟨sh, t, fun _ => 0⟩
  | _, _ => none

/-- Shape and type agree.  MPI only compares the number of elements; the model asks for more. -/
def sameKind (a b : Tensor R) : Bool := a.shape == b.shape && a.dtype == b.dtype

/-- Buffer of every member after `Ibcast`: that of the root, rank 0. -/
def bcastResult (calls : List (Call R)) : Option (Tensor R) :=
  match calls with
  | .ibcast b :: rest =>
    if rest.all fun c => match c with
      | .ibcast b' => sameKind b b'
      | .ireduce _ _ => false
    then some b else none
  | _ => none

/-- What a call adds to a reduction, given the position of the caller: `MPI.IN_PLACE` takes the
receive buffer and is allowed at the root only. -/
def contribution (isRoot : Bool) (c : Call R) : Option (Tensor R) :=
  match c with
  | .ireduce (some x) _ => some x
  | .ireduce none r => if isRoot then some r else none
  | .ibcast _ => none

/-- Receive buffer of the root, rank 0, after `Ireduce` with `SUM`. -/
def reduceResult (calls : List (Call R)) : Option (Tensor R) :=
  match calls with
  | .ireduce x r :: rest =>
    match contribution true (.ireduce x r), rest.mapM (contribution false) with
    | some c, some cs =>
      if (c :: cs).all fun t => sameKind r t then
        some ⟨r.shape, r.dtype, fun i => ((c :: cs).map fun t => t.val i).sum⟩
      else none
    | _, _ => none
  | _ => none

/-- The receive buffer `z` of worker `w` after the reduction `k` on `g`: only the root's changes. -/
def reduceAt (acts : Nat → List (Act (Call R))) (g : List Nat) (k : Nat) (w : Nat) (z : Tensor R) :
    Option (Tensor R) :=
  if g.head? = some w then (matched acts g k).bind reduceResult else some z

/-- `utilities/torch.py:5-13` with the batch size of `t` or without; `none`: `t.shape[0]` raises. -/
def zeroVolume (preserveBatch : Bool) (t : Tensor R) : Option (Tensor R) :=
  if preserveBatch then
    match t.shape with
    | b :: _ => some ⟨[b, 0], .float32, fun _ => 0⟩
    | [] => none
  else some ⟨[0], .float32, fun _ => 0⟩

/-- Actions of the copying direction: `broadcast.py:101-129` with `root = P_send`, `leaf = P_recv`,
and `sum_reduce.py:200-228` with `root = P_recv`, `leaf = P_send`.  `st` is the structure of the
receiving buffer. -/
def copyActs (pb : Bool) (root leaf : Option (List Nat)) (x : Tensor R) (st : TStruct) :
    List (Act (Call R)) :=
  match zeroVolume pb x with
  | none => []
  | some _ =>
    (match root with
      | some g => [.post g (.ibcast x)]
      | none => []) ++
    (match leaf with
      | some g =>
        if samePart root leaf then []
        else
          match zerosOf st with
          | some z => [.post g (.ibcast z), .wait g 0]
          | none => []
      | none => []) ++
    (match root with
      | some g => [.wait g 0]
      | none => [])

/-- Result of the copying direction on a worker (`broadcast.py:99-131`, `sum_reduce.py:198-230`). -/
def copyOut (pb : Bool) (root leaf : Option (List Nat)) (x : Tensor R) (st : TStruct)
    (acts : Nat → List (Act (Call R))) : Option (Tensor R) :=
  match zeroVolume pb x with
  | none => none
  | some o =>
    match leaf with
    | none => some o
    | some g =>
      if samePart root leaf then some x
      else
        match zerosOf (R := R) st with
        | none => none
        | some _ => (matched acts g 0).bind bcastResult

/-- Actions of the summing direction: `broadcast.py:192-218` with `root = P_send`, `leaf = P_recv`,
and `sum_reduce.py:98-124` with `root = P_recv`, `leaf = P_send`. -/
def sumActs (pb : Bool) (root leaf : Option (List Nat)) (x : Tensor R) (rootSt leafSt : TStruct) :
    List (Act (Call R)) :=
  match zeroVolume pb x with
  | none => []
  | some _ =>
    (match leaf with
      | some g =>
        match zerosOf leafSt with
        | some z => [.post g (.ireduce (some x) z)]
        | none => []
      | none => []) ++
    (match root with
      | some g =>
        if !samePart root leaf then
          match zerosOf rootSt with
          | some z => [.post g (.ireduce none z)]
          | none => []
        else []
      | none => []) ++
    (match leaf with
      | some g => [.wait g 0]
      | none => []) ++
    (match root with
      | some g => if !samePart root leaf then [.wait g 0] else []
      | none => [])

/-- Result of the summing direction on worker `w` (`broadcast.py:190-229`, `sum_reduce.py:96-137`). -/
def sumOut (pb : Bool) (root leaf : Option (List Nat)) (x : Tensor R) (rootSt leafSt : TStruct)
    (acts : Nat → List (Act (Call R))) (w : Nat) : Option (Tensor R) :=
  match zeroVolume pb x with
  | none => none
  | some o =>
    match root with
    | none => some o
    | some g =>
      if samePart root leaf then
        match leaf, zerosOf leafSt with
        | some g', some z => reduceAt acts g' 0 w z
        | _, _ => none
      else
        match zerosOf rootSt with
        | some z => reduceAt acts g 0 w z
        | none => none

/-! ## The layers -/

/-- A layer between two partitions: `nn/broadcast.py:52-101`, `nn/sum_reduce.py:53-100`.  `same`
tells whether `P_x == P_y` (one communicator). -/
structure PairLayer where
  Px : Cart
  Py : Cart
  ts : Bool
  td : Bool
  preserveBatch : Bool
  same : Bool

/-- `nn/broadcast.py:96-101`, `nn/sum_reduce.py:95-100`: no data movement. -/
def PairLayer.identity (L : PairLayer) : Bool :=
  L.same && (L.Px.members.length == 1 || (L.td && L.ts) || (!L.td && !L.ts))

/-- The send partition after setup. -/
def sendOf (r : Res SendRecv) : Option (List Nat) :=
  match r with
  | .value sr => sr.send
  | _ => none

/-- The receive partition after setup. -/
def recvOf (r : Res SendRecv) : Option (List Nat) :=
  match r with
  | .value sr => sr.recv
  | _ => none

/-- Input tensors with their `requires_grad`. -/
structure Inputs (R : Type) where
  x : Nat → Tensor R
  rg : Nat → Bool

/-- The tensor structures exchanged at setup (`nn/broadcast.py:132-136`, `nn/sum_reduce.py:131-135`);
`parts` creates the partitions. -/
def setupIn (parts : Nat → Res SendRecv) (I : Inputs R) : StructIn :=
  ⟨fun u => sendOf (parts u), fun u => recvOf (parts u), fun u => (I.x u).shape,
    fun u => (I.x u).dtype, I.rg⟩

/-- `input_tensor_structure` after setup. -/
def inStruct (I : Inputs R) (u : Nat) : TStruct :=
  ⟨some (I.x u).shape, some (I.x u).dtype, some (I.rg u)⟩

/-- `output_tensor_structure` after setup; an exception leaves it empty (the call does not go on). -/
def outStruct (parts : Nat → Res SendRecv) (I : Inputs R) (u : Nat) : TStruct :=
  (broadcastStructure (setupIn parts I) u).getD ⟨none, none, none⟩

/-- Running a layer on worker `w` (`nn/broadcast.py:184-211`, `nn/sum_reduce.py:183-210`): clone, or
the data movement `f` when setup succeeded. -/
def PairLayer.run (L : PairLayer) (parts : Nat → Res SendRecv) (I : Inputs R) (t : Tensor R)
    (f : Option (Tensor R)) (w : Nat) : Option (Tensor R) :=
  if L.identity then some t
  else if w ∉ L.Px.members ∧ w ∉ L.Py.members then some t
  else
    match parts w, broadcastStructure (setupIn parts I) w with
    | .value _, some _ => f
    | _, _ => none

/-- Partitions of the broadcast layer (`nn/broadcast.py:126-130`). -/
def PairLayer.bparts (L : PairLayer) : Nat → Res SendRecv :=
  broadcastPartitions L.Px L.Py L.ts L.td

/-- Partitions of the sum-reduction layer (`nn/sum_reduce.py:125-129`). -/
def PairLayer.rparts (L : PairLayer) : Nat → Res SendRecv :=
  reductionPartitions L.Px L.Py L.ts L.td

/-- Actions of `BroadcastFunction.forward`. -/
def bcastActs (L : PairLayer) (I : Inputs R) (u : Nat) : List (Act (Call R)) :=
  copyActs L.preserveBatch (sendOf (L.bparts u)) (recvOf (L.bparts u)) (I.x u)
    (outStruct L.bparts I u)

/-- `Broadcast` forward on worker `w`. -/
def bcastForward (L : PairLayer) (I : Inputs R) (w : Nat) : Option (Tensor R) :=
  L.run L.bparts I (I.x w)
    (copyOut L.preserveBatch (sendOf (L.bparts w)) (recvOf (L.bparts w)) (I.x w)
      (outStruct L.bparts I w) (bcastActs L I)) w

/-- Actions of `BroadcastFunction.backward` on the output gradients `y`. -/
def bcastBackActs (L : PairLayer) (I : Inputs R) (y : Nat → Tensor R) (u : Nat) :
    List (Act (Call R)) :=
  sumActs L.preserveBatch (sendOf (L.bparts u)) (recvOf (L.bparts u)) (y u) (inStruct I u)
    (outStruct L.bparts I u)

/-- `Broadcast` backward on worker `w`; the gradient of a clone is a copy. -/
def bcastBackward (L : PairLayer) (I : Inputs R) (y : Nat → Tensor R) (w : Nat) :
    Option (Tensor R) :=
  L.run L.bparts I (y w)
    (sumOut L.preserveBatch (sendOf (L.bparts w)) (recvOf (L.bparts w)) (y w) (inStruct I w)
      (outStruct L.bparts I w) (bcastBackActs L I y) w) w

/-- Actions of `SumReduceFunction.forward`. -/
def reduceActs (L : PairLayer) (I : Inputs R) (u : Nat) : List (Act (Call R)) :=
  sumActs L.preserveBatch (recvOf (L.rparts u)) (sendOf (L.rparts u)) (I.x u)
    (outStruct L.rparts I u) (inStruct I u)

/-- `SumReduce` forward on worker `w`. -/
def reduceForward (L : PairLayer) (I : Inputs R) (w : Nat) : Option (Tensor R) :=
  L.run L.rparts I (I.x w)
    (sumOut L.preserveBatch (recvOf (L.rparts w)) (sendOf (L.rparts w)) (I.x w)
      (outStruct L.rparts I w) (inStruct I w) (reduceActs L I) w) w

/-- Actions of `SumReduceFunction.backward`. -/
def reduceBackActs (L : PairLayer) (I : Inputs R) (y : Nat → Tensor R) (u : Nat) :
    List (Act (Call R)) :=
  copyActs L.preserveBatch (recvOf (L.rparts u)) (sendOf (L.rparts u)) (y u) (inStruct I u)

/-- `SumReduce` backward on worker `w`. -/
def reduceBackward (L : PairLayer) (I : Inputs R) (y : Nat → Tensor R) (w : Nat) :
    Option (Tensor R) :=
  L.run L.rparts I (y w)
    (copyOut L.preserveBatch (recvOf (L.rparts w)) (sendOf (L.rparts w)) (y w) (inStruct I w)
      (reduceBackActs L I y)) w

end

end Verif
