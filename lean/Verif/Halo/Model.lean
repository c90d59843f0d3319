import Verif.Repartition.Model

/-!
# Model of `nn/mixins/halo_mixin.py`, `nn/mixins/conv_mixin.py`, `nn/mixins/pooling_mixin.py`,
`nn/halo_exchange.py` and `backends/mpi/functional/halo_exchange.py`

NumPy arrays with one entry per dimension are lists with one entry per dimension; arrays of shape
`(dim, 2)` are lists of pairs (left, right).  Integers are unbounded.  Workers are numbered by their
rank in `P_x`.
-/

namespace Verif

open Exchange

/-! ## Which input a worker needs -/

/-- The parameters of one dimension: workers, global extent, kernel size, stride, padding,
dilation. -/
structure HaloDim where
  P : Nat
  N : Nat
  k : Nat
  s : Nat
  p : Nat
  d : Nat
  deriving DecidableEq, Repr

instance : Inhabited HaloDim := ⟨⟨1, 0, 1, 1, 0, 1⟩⟩

/-- `halo_mixin.py:23-49`: parameters given for the last dimensions only are filled up with kernel
size 1, stride 1, padding 0, dilation 1 on the left. -/
def haloDims (Pshape Ns ks ss ps ds : List Nat) : List HaloDim :=
  let fill (v : Nat) (a : List Nat) := List.replicate (Ns.length - a.length) v ++ a
  (List.range Ns.length).map fun j =>
    ⟨Pshape.getD j 0, Ns.getD j 0, (fill 1 ks).getD j 0, (fill 1 ss).getD j 0, (fill 0 ps).getD j 0,
      (fill 1 ds).getD j 0⟩

/-- `halo_mixin.py:143-146` `_compute_out_shape`; the floating point division is taken to be exact (C87).
A negative result, possible when the kernel does not fit into the input, is replaced by 0. -/
def outShape (q : HaloDim) : Nat :=
  (((q.N : Int) + 2 * q.p - q.d * ((q.k : Int) - 1) - 1) / q.s + 1).toNat

/-- `conv_mixin.py:34`, `pooling_mixin.py:34` `_compute_min_input_range`. -/
def minInput (q : HaloDim) (idx : Int) : Int := q.s * idx - q.p

/-- `conv_mixin.py:64`, `pooling_mixin.py:64` `_compute_max_input_range`. -/
def maxInput (q : HaloDim) (idx : Int) : Int := q.s * idx + q.d * ((q.k : Int) - 1) - q.p

/-- `halo_mixin.py:171-206`, one dimension: `i` is the worker's index, `X x` the first cell and the
length of its block of the input. -/
def halo1 (nonneg : Bool) (q : HaloDim) (i X x : Nat) : Int × Int :=
  let M := outShape q
  let y : Int := subsize q.P i M
  let Y : Int := startIdx q.P i M
  let left := max 0 (minInput q Y)
  let right := min ((q.N : Int) - 1) (maxInput q (Y + y - 1))
  let l : Int := X - left
  let r : Int := right - (X + x - 1)
  if nonneg then (max l 0, max r 0) else (l, r)

/-- `halo_mixin.py:113-124` `_compute_local_start_index`, one dimension. -/
def localStart (D : Nat) (shapes : Table) (index : List Nat) (j : Nat) : Nat :=
  ((List.range (index.getD j 0)).map fun i => shapes ((List.replicate D 0).set j i) j).sum

/-- `halo_mixin.py:148-208` `_compute_halo_shape`; `shapes` is the optional argument
`subtensor_shapes`. -/
def haloShape (nonneg : Bool) (qs : List HaloDim) (shapes : Option Table) (index : List Nat) :
    List (Int × Int) :=
  (List.range qs.length).map fun j =>
    let q := qs.getD j default
    match shapes with
    | some t => halo1 nonneg q (index.getD j 0) (localStart qs.length t index j) (t index j)
    | none => halo1 nonneg q (index.getD j 0) (startIdx q.P (index.getD j 0) q.N)
        (subsize q.P (index.getD j 0) q.N)

/-- `halo_mixin.py:62-91`: the send widths; `lindex`, `rindex` are the neighbours' indices. -/
def sendShape (qs : List HaloDim) (shapes : Option Table) (index : List Nat) : List (Int × Int) :=
  (List.range qs.length).map fun j =>
    let i := index.getD j 0
    let left := if 0 < i then ((haloShape true qs shapes (index.set j (i - 1))).getD j (0, 0)).2 else 0
    let right := if i + 1 < (qs.getD j default).P then
      ((haloShape true qs shapes (index.set j (i + 1))).getD j (0, 0)).1 else 0
    (left, right)

/-- `halo_mixin.py:126-141` `_compute_needed_ranges`. -/
def neededRanges (shape : List Nat) (halo : List (Int × Int)) : List (Int × Int) :=
  List.zipWith (fun (x : Nat) h => (-1 * min 0 h.1, (x : Int) + max 0 h.1 + max 0 h.2)) shape halo

/-- What `_compute_exchange_info` returns: halo shape (also the receive widths), send widths and needed
ranges. -/
structure ExchangeInfo where
  recv : List (Int × Int)
  send : List (Int × Int)
  needed : List (Int × Int)
  deriving DecidableEq, Repr

/-- `halo_mixin.py:9-111` `_compute_exchange_info` on an active worker. -/
def exchangeInfo (qs : List HaloDim) (shapes : Option Table) (index : List Nat) : ExchangeInfo :=
  let x := (List.range qs.length).map fun j => match shapes with
    | some t => t index j
    | none => subsize (qs.getD j default).P (index.getD j 0) (qs.getD j default).N
  ⟨haloShape true qs shapes index, sendShape qs shapes index,
    neededRanges x (haloShape false qs shapes index)⟩

/-! ## Slices -/

/-- The widths of one dimension on one worker. -/
structure Widths where
  lrecv : Nat
  rrecv : Nat
  lsend : Nat
  rsend : Nat
  deriving DecidableEq, Repr

instance : Inhabited Widths := ⟨⟨0, 0, 0, 0⟩⟩

/-- The widths handed to the halo layer (`int(...)` of the entries). -/
def ExchangeInfo.widths (e : ExchangeInfo) : List Widths :=
  List.zipWith (fun r s => ⟨r.1.toNat, r.2.toNat, s.1.toNat, s.2.toNat⟩) e.recv e.send

/-- The four regions of a dimension. -/
inductive Region
  | lbulk | lghost | rbulk | rghost
  deriving DecidableEq, Repr

/-- `nn/halo_exchange.py:54-64, 85-88`: start and stop of a region in its own dimension, for a local
extent `s`. -/
def regionSlice (r : Region) (s : Int) (w : Widths) : Int × Int :=
  match r with
  | .lbulk => (w.lrecv, w.lrecv + w.lsend)
  | .lghost => (0, w.lrecv)
  | .rbulk => (s - (w.rrecv + w.rsend), s - w.rrecv)
  | .rghost => (s - w.rrecv, s)

/-- `nn/halo_exchange.py:37-99` `_assemble_slices`: the slices of region `r` of dimension `i`. -/
def haloSlice (shape : List Nat) (ws : List Widths) (i : Nat) (r : Region) : List (Int × Int) :=
  (List.range shape.length).map fun j =>
    let s : Int := shape.getD j 0
    let w := ws.getD j default
    if j < i then (0, s)
    else if j = i then regionSlice r s w
    else (w.lrecv, s - w.rrecv)

/-- `compute_nd_slice_shape` (`utilities/slicing.py:115`); negative differences are replaced by 0. -/
def intSliceShape (sl : List (Int × Int)) : List Nat := sl.map fun p => (p.2 - p.1).toNat

/-- One bound of a slice applied to an axis of length `s`: negative bounds count from the end, bounds
outside the axis are moved to its ends. -/
def pyBound (s : Nat) (a : Int) : Nat := if a < 0 then (a + s).toNat else min a.toNat s

/-- The cells selected by indexing a tensor of the given shape. -/
def pySlices (shape : List Nat) (sl : List (Int × Int)) : Slices :=
  List.zipWith (fun s p => (pyBound s p.1, pyBound s p.2)) shape sl

/-- What constructor and setup leave on a worker (`nn/halo_exchange.py:11-18, 101-113`). -/
structure HaloSetup where
  shape : List Nat
  ws : List Widths
  bufs : List (List (Option Nat))
  nb : List (Option Nat × Option Nat)
  deriving DecidableEq, Repr

/-- `mpi/halo_exchange.py:23-26`: the shapes of the four messages of dimension `i`, `none` when the
width is 0. -/
def haloMsgShapes (shape : List Nat) (ws : List Widths) (i : Nat) : List (Option (List Nat)) :=
  let w := ws.getD i default
  [if 0 < w.lsend then some (intSliceShape (haloSlice shape ws i .lbulk)) else none,
   if 0 < w.lrecv then some (intSliceShape (haloSlice shape ws i .lghost)) else none,
   if 0 < w.rsend then some (intSliceShape (haloSlice shape ws i .rbulk)) else none,
   if 0 < w.rrecv then some (intSliceShape (haloSlice shape ws i .rghost)) else none]

/-- Constructor and setup of the halo layer on the worker of rank `rank` for an input of the given
shape; `none` is an exception. -/
def haloSetup {β : Type} (P : Cart) (ws : List Widths) (dt : NpKey) (m : Mgr β) (junk : Nat → β)
    (shape : List Nat) (rank : Nat) : Option HaloSetup :=
  (neighborRanks P rank).bind fun nb =>
    (allocateHalo m ((List.range shape.length).map (haloMsgShapes shape ws)) dt junk).map fun r =>
      ⟨shape, ws, r.2, nb⟩

/-! ## Data movement -/

/-- Whether region `r` of dimension `i` has a buffer. -/
def HaloSetup.has (S : HaloSetup) (i : Nat) (r : Region) : Bool :=
  let bs := S.bufs.getD i []
  (match r with
    | .lbulk => bs.getD 0 none
    | .lghost => bs.getD 1 none
    | .rbulk => bs.getD 2 none
    | .rghost => bs.getD 3 none).isSome

/-- The cells of region `r` of dimension `i`. -/
def HaloSetup.cells (S : HaloSetup) (i : Nat) (r : Region) : Slices :=
  pySlices S.shape (haloSlice S.shape S.ws i r)

/-- The neighbour on the side of region `r`; `none` is `PROC_NULL`. -/
def HaloSetup.peer (S : HaloSetup) (i : Nat) (r : Region) : Option Nat :=
  let n := S.nb.getD i (none, none)
  match r with
  | .lbulk | .lghost => n.1
  | .rbulk | .rghost => n.2

/-- A request: the peer if the region has a buffer, `REQUEST_NULL` otherwise.  A request to
`PROC_NULL` is treated as `REQUEST_NULL`. -/
def HaloSetup.req (S : HaloSetup) (i : Nat) (r : Region) : Option Nat :=
  if S.has i r then S.peer i r else none

/-- `np.copyto(dst, src)` (`functional/halo_exchange.py:46-49`) raises unless every axis of the source
has the length of the destination or length 1. -/
def copyRaises (dst src : List Nat) : Bool :=
  !(dst.length == src.length && (List.zipWith (fun a b => a == b || b == 1) dst src).all id)

/-- Copying region `r` of dimension `i` into its send buffer raises: the buffer has the computed
message shape, the source is what indexing the tensor gives. -/
def HaloSetup.packRaises (S : HaloSetup) (i : Nat) (r : Region) : Bool :=
  S.has i r && copyRaises (intSliceShape (haloSlice S.shape S.ws i r))
    ((S.cells i r).map fun p => p.2 - p.1)

/-- `tensor[sl] += m`. -/
def addSlice {α : Type} [Add α] (sl : Slices) (m : List Nat → α) (t : List Nat → α) : List Nat → α :=
  fun l => if InSlices sl l then t l + m (List.zipWith (· - ·) l (sl.map Prod.fst)) else t l

/-- The tags used with region `r`: `functional/halo_exchange.py:51-57` for the forward operation, 117-123 for the
adjoint (receives and sends exchanged).  Messages going to the left have tag 0, to the right 1. -/
def haloTag (recv : Bool) (r : Region) : Nat :=
  match r, recv with
  | .lbulk, false | .lghost, false => 0
  | .rbulk, false | .rghost, false => 1
  | .lbulk, true | .lghost, true => 1
  | .rbulk, true | .rghost, true => 0

/-- Dimension `i` of `HaloExchangeFunction.forward` (`functional/halo_exchange.py:32-72`).  The copies
of lines 46-49 are made when the messages are posted; nothing changes the tensor in between. -/
def haloFwdPhase {α : Type} (S : HaloSetup) (i : Nat) : Phase (List Nat → α) (List Nat → α) where
  recvs := [S.req i .lghost, S.req i .rghost]
  sends := [S.req i .lbulk, S.req i .rbulk]
  pack := fun j t => readSlice (S.cells i (if j = 0 then .lbulk else .rbulk)) t
  work := fun t => t
  unpack := fun j m t => writeSlice (S.cells i (if j = 0 then .lghost else .rghost)) m t

/-- `functional/halo_exchange.py:112, 115`: a ghost region is cleared if it has a buffer. -/
def clearGhost {α : Type} [Zero α] (S : HaloSetup) (i : Nat) (r : Region) (t : List Nat → α) :
    List Nat → α :=
  if S.has i r then writeSlice (S.cells i r) (fun _ => 0) t else t

/-- Dimension `i` of `HaloExchangeFunction.backward` (`functional/halo_exchange.py:96-138`).  The right
ghost is copied after the left one was cleared. -/
def haloBwdPhase {α : Type} [Zero α] [Add α] (S : HaloSetup) (i : Nat) :
    Phase (List Nat → α) (List Nat → α) where
  recvs := [S.req i .lbulk, S.req i .rbulk]
  sends := [S.req i .lghost, S.req i .rghost]
  pack := fun j t =>
    if j = 0 then readSlice (S.cells i .lghost) t
    else readSlice (S.cells i .rghost) (clearGhost S i .lghost t)
  work := fun t => clearGhost S i .rghost (clearGhost S i .lghost t)
  unpack := fun j m t => addSlice (S.cells i (if j = 0 then .lbulk else .rbulk)) m t

/-- Number of phases: with one worker the tensor is returned as it is
(`functional/halo_exchange.py:28, 90`). -/
def haloPhases (P : Cart) : Nat := if P.members.length = 1 then 0 else P.shape.length

/-- The forward operation: dimensions in increasing order. -/
def haloForward {α : Type} (S : Nat → HaloSetup) (p r : Nat) : Phase (List Nat → α) (List Nat → α) :=
  haloFwdPhase (S r) p

/-- The adjoint: dimensions in decreasing order. -/
def haloBackward {α : Type} [Zero α] [Add α] (D : Nat) (S : Nat → HaloSetup) (p r : Nat) :
    Phase (List Nat → α) (List Nat → α) :=
  haloBwdPhase (S r) (D - 1 - p)

end Verif
