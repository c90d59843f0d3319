import Verif.Buffer.Model
import Verif.Decomp.Model
import Verif.Exchange.Machine

/-!
# Model of `nn/repartition.py` and `backends/mpi/functional/repartition.py`

Workers are ids of the root communicator; inside the union partition they are addressed by their
union rank, which is also the worker number of the exchange machine.
-/

namespace Verif

open Exchange

/-- `nn/repartition.py:107-115`: a partition's shape, shared with the union `U`. -/
def sharedShape (U : List Nat) (P : Cart) (w : Nat) : Res (NpArr Nat) :=
  broadcastData U (some P.members) 0
    (fun v => if v ∈ P.members then some ⟨.int64, [P.shape.length], P.shape⟩ else none) w

/-- `nn/repartition.py:123-127`: every union member's rank in `P` (`-1` when it has none), one row
per union rank. -/
def gatheredRanks (U : List Nat) (P : Cart) : List (List Int) :=
  allgatherData U 1 fun v => match rankOf P.members v with
    | some r => [(r : Int)]
    | none => [-1]

/-- `np.where(ranks == rank)[0][0]`; `none` is the `IndexError` when there is no such row. -/
def whereFirst (rows : List (List Int)) (r : Nat) : Option Nat :=
  if [(r : Int)] ∈ rows then some (rows.idxOf [(r : Int)]) else none

/-- `nn/repartition.py:220-244` (and 253-277 with the roles exchanged): the loop over the blocks of
the other side.  `s e`: own start and stop; `oshape`: the other partition's shape; `os oe`: the
other side's start and stop tables; `ownO`: own index in the other partition; `oranks`: its ranks
over the union. -/
def overlapList (D : Nat) (s e : List Nat) (oshape : List Nat) (os oe : Table)
    (ownO : Option (List Nat)) (oranks : List (List Int)) : Option (List Overlap) :=
  (rangeIndex oshape).zipIdx.mapM fun p =>
    match intersectionSlice s e (tableRow D os p.1) (tableRow D oe p.1) with
    | none => some ⟨none, [], .none⟩
    | some sl =>
      if ownO = some p.1 then some ⟨some sl, sliceShape sl, .self⟩
      else (whereFirst oranks p.2).map fun r => ⟨some sl, sliceShape sl, .rank r⟩

/-- `nn/repartition.py:212-218, 246-251`: the overlaps are computed only when active in the own
partition (`own` is the index there, `s e` the own start and stop tables). -/
def sideOverlaps (D : Nat) (own : Option (List Nat)) (s e : Table) (oshape : List Nat)
    (os oe : Table) (ownO : Option (List Nat)) (oranks : List (List Int)) :
    Option (List Overlap) :=
  match own with
  | none => some []
  | some i => overlapList D (tableRow D s i) (tableRow D e i) oshape os oe ownO oranks

/-- What setup leaves on a worker: the overlaps with the (optional) buffers, and the local output
shape (`none` when not in `P_y`). -/
structure RepSetup where
  xy : List Overlap
  yx : List Overlap
  xbufs : List (Option Nat)
  ybufs : List (Option Nat)
  outShape : Option (List Nat)
  deriving DecidableEq, Repr

/-- Constructor and setup of `nn/repartition.py` (89-130, 151-284) on worker `w`; `localS` gives
every worker's local input structure, `m` is the worker's buffer manager.  Workers outside the union
do nothing (`returnsNone`).  Simplification: the checks of the constructor (line 117) and of setup
happen in one call. -/
def repSetup {β : Type} (Px Py : Cart) (localS : Nat → List Nat × TorchDtype × Bool) (m : Mgr β)
    (junk : Nat → β) (w : Nat) : Res RepSetup :=
  let U := groupUnion Px.members Py.members
  if w ∉ U then .returnsNone
  else
    match sharedShape U Px w, sharedShape U Py w, assembleGlobal Px (some U) localS w with
    | .value xs, .value ys, .value gs =>
      let G := gs.shape.map Int.toNat
      let D := G.length
      -- lines 117, 171, 175, 179
      if xs.vals.length ≠ ys.vals.length then .raises
      else if xs.vals.length ≠ D then .raises
      else if ys.vals.length ≠ D then .raises
      else if 1 ∈ ((G.zip ys.vals).filter fun p => p.1 != p.2).map Prod.fst then .raises
      else
        match unbalancedShapes Px (some U) (fun v => (localS v).1) w with
        | .value T =>
          let xt : Table := fun idx d => ((T.entry (idx ++ [d])).getD 0).toNat
          let yt : Table := balancedTable ys.vals G
          let xs0 := startIndices D xt
          let xe0 := stopIndices D xt
          let ys0 := startIndices D yt
          let ye0 := stopIndices D yt
          let xy? := sideOverlaps D (Px.index w) xs0 xe0 ys.vals ys0 ye0 (Py.index w)
            (gatheredRanks U Py)
          let yx? := sideOverlaps D (Py.index w) ys0 ye0 xs.vals xs0 xe0 (Px.index w)
            (gatheredRanks U Px)
          match xy?, yx?, torchToNumpy gs.dtype with
          | some xy, some yx, some dt =>
            match allocateRepartition m xy yx dt junk with
            | some (_, xb, yb) =>
              .value ⟨xy, yx, xb, yb, (Py.index w).map fun i => computeSubshape Py.shape i G⟩
            | none => .raises
          | _, _, _ => .raises
        | _ => .raises
    | _, _, _ => .raises

/-! ## Data movement -/

/-- Local data of a worker during a transfer: the tensor being sent and the tensor being filled. -/
structure XSt (α : Type) where
  inp : List Nat → α
  out : List Nat → α

/-- `tensor[sl]` read: entry `k` of the slice. -/
def readSlice {α : Type} (sl : Slices) (t : List Nat → α) : List Nat → α :=
  fun k => t (shiftBy (sl.map Prod.fst) k)

/-- `np.copyto(tensor[sl], m)`. -/
def writeSlice {α : Type} (sl : Slices) (m : List Nat → α) (t : List Nat → α) : List Nat → α :=
  fun l => if InSlices sl l then m (List.zipWith (· - ·) l (sl.map Prod.fst)) else t l

/-- The union rank of the partner of an overlap. -/
def Partner.rank? : Partner → Option Nat
  | .rank r => some r
  | _ => Option.none

/-- Requests made from a list of overlaps and buffers: a real request where there is a buffer,
`REQUEST_NULL` otherwise (`functional/repartition.py:141-154, 156-168`). -/
def requestsOf (os : List Overlap) (bs : List (Option Nat)) : List (Option Nat) :=
  List.zipWith (fun o b => if b.isSome then o.partner.rank? else none) os bs

/-- `functional/repartition.py:178-187` (287-296): the first self overlap of each list. -/
def selfCopy {α : Type} (src dst : List Overlap) (x : XSt α) : XSt α :=
  match src.find? (fun o => decide (o.partner = .self)),
      dst.find? (fun o => decide (o.partner = .self)) with
  | some a, some b =>
    match a.sl, b.sl with
    | some asl, some bsl => { x with out := writeSlice bsl (readSlice asl x.inp) x.out }
    | _, _ => x
  | _, _ => x

/-- One direction of the data movement on one worker as a phase of the exchange machine:
`functional/repartition.py:130-205`, and 240-343 with the roles of the partitions exchanged.
`sendAct`, `recvAct`: active in the sending and receiving partition. -/
def xferPhase {α : Type} (zero : α) (sendAct recvAct : Bool) (snd rcv : List Overlap)
    (sbufs rbufs : List (Option Nat)) : Phase (XSt α) (List Nat → α) where
  recvs := if recvAct then requestsOf rcv rbufs else []
  sends := if sendAct then requestsOf snd sbufs else []
  pack := fun j x => match snd[j]? with
    | some ⟨some sl, _, _⟩ => readSlice sl x.inp
    | _ => fun _ => zero
  work := fun x =>
    let x1 : XSt α := if recvAct then { x with out := fun _ => zero } else x
    if recvAct && sendAct then selfCopy snd rcv x1 else x1
  unpack := fun k m x => match rcv[k]? with
    | some ⟨some sl, _, _⟩ => { x with out := writeSlice sl m x.out }
    | _ => x

/-- `RepartitionFunction.forward` on the union (`functional/repartition.py:20-213`), one phase;
`S w` is what setup left on worker `w`. -/
def repForward {α : Type} (zero : α) (Px Py : Cart) (S : Nat → RepSetup) (_ r : Nat) :
    Phase (XSt α) (List Nat → α) :=
  let w := (groupUnion Px.members Py.members).getD r 0
  xferPhase zero (Px.members.contains w) (Py.members.contains w) (S w).xy (S w).yx (S w).xbufs
    (S w).ybufs

/-- `RepartitionFunction.backward` (`functional/repartition.py:215-350`). -/
def repBackward {α : Type} (zero : α) (Px Py : Cart) (S : Nat → RepSetup) (_ r : Nat) :
    Phase (XSt α) (List Nat → α) :=
  let w := (groupUnion Px.members Py.members).getD r 0
  xferPhase zero (Py.members.contains w) (Px.members.contains w) (S w).yx (S w).xy (S w).ybufs
    (S w).xbufs

end Verif
