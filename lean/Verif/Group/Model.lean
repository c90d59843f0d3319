import Verif.Repartition.Model

/-!
# Model of the broadcast, reduction and all-reduction partitions (`backends/mpi/partition.py`)

A communicator is identified by the ordered list of its members: within one call a worker enters
`Create_group` at most once per group, and two members entering it with the same group obtain the
same communicator.
-/

namespace Verif

/-- `np.where(indices == c)[0]` on the gathered column: all union ranks with that value. -/
def whereAll (rows : List (List Int)) (c : Int) : List Nat :=
  (List.range rows.length).filter fun i => rows.getD i [] == [c]

/-- `partition.py:286-356` `_build_cross_partition_groups`: `active` is `P.active`, `rootRows` and
`leafRows` are the arguments `src_indices` and `dest_indices`.  Inner `none`: no group
(`MPI.GROUP_NULL`).  Outer `none`: the `IndexError` of line 343 or an MPI error of `Incl`.  The
result is the rank list and the group. -/
def crossGroup (U : List Nat) (active : Bool) (c : Int) (rootRows leafRows : List (List Int)) :
    Option (Option (List Nat × List Nat)) :=
  if !active then some none
  else
    let leaves := whereAll leafRows c
    match (whereAll rootRows c).head? with
    | none => none
    | some root =>
      let ranks := root :: leaves.filter fun r => r != root
      (groupIncl U ranks).map fun g => some (ranks, g)

/-- What `_create_send_recv_partitions` leaves on a worker: the two partitions (`none` when null)
and the sequence of `Create_group` calls as (tag, group). -/
structure SendRecv where
  send : Option (List Nat)
  recv : Option (List Nat)
  creations : List (Nat × List Nat)
  deriving DecidableEq, Repr

/-- `partition.py:358-438` `_create_send_recv_partitions`.  Arguments are the results of
`crossGroup`; the tag is the first rank.  With neither group the last branch indexes an empty list:
an exception. -/
def createSendRecv (s r : Option (List Nat × List Nat)) : Option SendRecv :=
  match s, r with
  | some s, some r =>
    if s.2 ≠ r.2 then
      if r.1.headD 0 < s.1.headD 0 then
        some ⟨some s.2, some r.2, [(r.1.headD 0, r.2), (s.1.headD 0, s.2)]⟩
      else some ⟨some s.2, some r.2, [(s.1.headD 0, s.2), (r.1.headD 0, r.2)]⟩
    else some ⟨some s.2, some s.2, [(s.1.headD 0, s.2)]⟩
  | some s, none => some ⟨some s.2, none, [(s.1.headD 0, s.2)]⟩
  | none, some r => some ⟨none, some r.2, [(r.1.headD 0, r.2)]⟩
  | none, none => none

/-- `partition.py:557-571` (and `737-751`): the two groups, then the partitions. -/
def sendRecvOf (s r : Option (Option (List Nat × List Nat))) : Res SendRecv :=
  match s, r with
  | some s, some r =>
    match createSendRecv s r with
    | some x => .value x
    | none => .raises
  | _, _ => .raises

/-- `a = np.full(n, fill); a[-len(x):] = x` (`partition.py:502-503`, `526`, `530`).  For an empty
`x` the slice is the whole array and NumPy raises unless `n = 0`. -/
def padTail (n fill : Nat) (x : List Nat) : Option (List Nat) :=
  if x.length = 0 then (if n = 0 then some [] else none)
  else some (List.replicate (n - x.length) fill ++ x)

/-- `partition.py:506-513`: some dimension differs where the smaller side is not 1. -/
def mismatch (small big : List Nat) : Bool := (List.zip small big).any fun p => p.1 != p.2 && p.1 != 1

/-- `partition.py:516`: mask of the matching dimensions. -/
def matchMask (small big : List Nat) : List Bool := List.zipWith (· == ·) small big

/-- Reversal of an array under a transposition flag (`x[::-1] if transpose else x`). -/
def revIf (t : Bool) (x : List Nat) : List Nat := if t then x.reverse else x

/-- `cartesian_index_f` under a transposition flag, `cartesian_index_c` otherwise, on the matching
dimensions (`partition.py:527-534`, `544-551`). -/
def flatIndex (t : Bool) (mask : List Bool) (shape idx : List Nat) : Nat :=
  if t then cartesianIndexF (keepDims mask shape) (keepDims mask idx)
  else cartesianIndexC (keepDims mask shape) (keepDims mask idx)

/-- `partition.py:521-534` (and `716-730`): flat index of worker `v` in the side with fewer
dimensions, `-1` when inactive; its Cartesian index is padded with zeros on the left.  The padding
fails exactly when the padding of the shape failed before, so the last line is never used. -/
def smallFlat (t : Bool) (mask : List Bool) (shape : List Nat) (P : Cart) (v : Nat) : Int :=
  match P.index v with
  | none => -1
  | some c =>
    match padTail shape.length 0 (revIf t c) with
    | some i => (flatIndex t mask shape i : Int)
    | none => -1

/-- `partition.py:539-550` (and `700-711`): flat index of worker `v` in the larger side. -/
def bigFlat (t : Bool) (mask : List Bool) (shape : List Nat) (P : Cart) (v : Nat) : Int :=
  match P.index v with
  | none => -1
  | some c => (flatIndex t mask shape (revIf t c) : Int)

/-- `partition.py:440-577` `create_broadcast_partition_to` on worker `w`.  `returnsNone`: worker in
neither partition, both results null.  The column of flat indices is gathered over the union. -/
def broadcastPartitions (Psrc Pdest : Cart) (ts td : Bool) (w : Nat) : Res SendRecv :=
  if w ∉ Psrc.members ∧ w ∉ Pdest.members then .returnsNone
  else
    match createUnion ⟨Psrc.members, Psrc.root⟩ ⟨Pdest.members, Pdest.root⟩ with
    | none => .raises
    | some Pu =>
      let U := Pu.members
      match sharedShape U Psrc w, sharedShape U Pdest w with
      | .value a, .value b =>
        -- line 493
        if a.vals.length > b.vals.length then .raises
        else
          match padTail b.vals.length 1 (revIf ts a.vals) with
          | none => .raises
          | some srcShape =>
            let destShape := revIf td b.vals
            if mismatch srcShape destShape then .raises
            else
              let mask := matchMask srcShape destShape
              let sf := smallFlat ts mask srcShape Psrc
              let df := bigFlat td mask destShape Pdest
              let srcRows := allgatherData U 1 fun v => [sf v]
              let destRows := allgatherData U 1 fun v => [df v]
              sendRecvOf
                (crossGroup U (Psrc.members.contains w) (sf w) srcRows destRows)
                (crossGroup U (Pdest.members.contains w) (df w) srcRows destRows)
      | _, _ => .raises

/-- `partition.py:622-757` `create_reduction_partition_to` on worker `w`.  Lines 720-724 write the
index to the front and reverse the array, which is the reversed index padded on the left. -/
def reductionPartitions (Psrc Pdest : Cart) (ts td : Bool) (w : Nat) : Res SendRecv :=
  if w ∉ Psrc.members ∧ w ∉ Pdest.members then .returnsNone
  else
    match createUnion ⟨Psrc.members, Psrc.root⟩ ⟨Pdest.members, Pdest.root⟩ with
    | none => .raises
    | some Pu =>
      let U := Pu.members
      match sharedShape U Psrc w, sharedShape U Pdest w with
      | .value a, .value b =>
        -- line 675
        if b.vals.length > a.vals.length then .raises
        else
          let srcShape := revIf ts a.vals
          match padTail a.vals.length 1 (revIf td b.vals) with
          | none => .raises
          | some destShape =>
            if mismatch destShape srcShape then .raises
            else
              let mask := matchMask srcShape destShape
              let sf := bigFlat ts mask srcShape Psrc
              let df := smallFlat td mask destShape Pdest
              let srcRows := allgatherData U 1 fun v => [sf v]
              let destRows := allgatherData U 1 fun v => [df v]
              sendRecvOf
                (crossGroup U (Psrc.members.contains w) (sf w) destRows srcRows)
                (crossGroup U (Pdest.members.contains w) (df w) destRows srcRows)
      | _, _ => .raises

/-- `partition.py:579-620` `create_allreduction_partition` on worker `w` of `P`; `axes` are Python
integers.  `Create_group` is entered with the group of the listed ranks; the worker is in it.
`raises`: line 602, or an MPI error. -/
def allreductionPartition (P : Cart) (axes : List Int) (w : Nat) : Res Cart :=
  match P.index w with
  | none => .returnsNone
  | some idx =>
    if axes.any fun d => (P.shape.length : Int) ≤ d then .raises
    else
      let shape := (List.range P.shape.length).map fun (k : Nat) =>
        if (k : Int) ∈ axes then P.shape.getD k 0 else 1
      let filter := assembleIndexFilter idx axes true
      match (filteredRangeIndex P.shape filter).mapM fun i =>
          getCartRank P.shape (i.map fun (n : Nat) => (n : Int)) with
      | none => .raises
      | some ranks =>
        match createInclusive ⟨P.members, P.root⟩ ranks with
        | none => .raises
        | some base =>
          match createCartesian base shape with
          | none => .raises
          | some C => .value C

end Verif
