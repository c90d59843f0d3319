import Verif.Partition.Model

/-!
# Model of `backends/mpi/buffer.py`, `backends/mpi/repartition.py`, `backends/mpi/halo_exchange.py`

Each `np.empty` creates a new storage.  A buffer keeps all the storages it ever allocated (old ones
may still be referenced by views handed out earlier); `raw` is the position of the current one.  A
view is a storage position and a shape and addresses the first `prod shape` elements.  The contents
of a fresh storage are arbitrary (`junk`).
-/

namespace Verif

/-- A NumPy view `raw_buffer[:volume].reshape(shape)`; elements in C order. -/
structure BView where
  store : Nat
  shape : List Nat
  deriving DecidableEq, Repr

/-- State of an `MPIExpandableBuffer` (`buffer.py:33-46`). -/
structure Buf (α : Type) where
  capacity : Nat
  stores : List (List α)
  raw : Nat
  views : List (List Nat × BView)

/-- `buffer.py:33-46` `__init__`. -/
def Buf.init {α : Type} (capacity : Nat) (junk : Nat → α) : Buf α :=
  { capacity := capacity, stores := [(List.range capacity).map junk], raw := 0, views := [] }

/-- The elements of the current storage. -/
def Buf.rawData {α : Type} (b : Buf α) : List α := b.stores.getD b.raw []

/-- `buffer.py:48-82` `expand`. -/
def Buf.expand {α : Type} (b : Buf α) (newCap : Nat) (junk : Nat → α) : Buf α :=
  if newCap ≤ b.capacity then b
  else
    { capacity := newCap
      stores := b.stores ++
        [b.rawData ++ ((List.range newCap).map junk).drop b.rawData.length]
      raw := b.stores.length
      views := b.views.map fun p => (p.1, ⟨b.stores.length, p.1⟩) }

/-- Dictionary lookup of a cached view. -/
def Buf.lookup {α : Type} (b : Buf α) (shape : List Nat) : Option BView :=
  (b.views.find? fun p => p.1 == shape).map Prod.snd

/-- `buffer.py:102-135` `get_view`.  `none` is the `TypeError` for the empty shape, whose
`np.prod` is the float `1.0` and cannot be used in a slice. -/
def Buf.getView {α : Type} (b : Buf α) (shape : List Nat) (junk : Nat → α) :
    Option (Buf α × BView) :=
  match b.lookup shape with
  | some v => some (b, v)
  | none =>
    if shape = [] then none
    else
      let b' := if shape.prod > b.capacity then b.expand shape.prod junk else b
      let v : BView := ⟨b'.raw, shape⟩
      some ({ b' with views := (shape, v) :: b'.views }, v)

/-- `buffer.py:84-100` `allocate_view`. -/
def Buf.allocateView {α : Type} (b : Buf α) (shape : List Nat) (junk : Nat → α) :
    Option (Buf α) := (b.getView shape junk).map Prod.fst

/-- Element `k` (in C order) read through a view. -/
def Buf.read {α : Type} (b : Buf α) (v : BView) (k : Nat) : Option α :=
  if k < v.shape.prod then (b.stores.getD v.store [])[k]? else none

/-- Writing element `k` through a view. -/
def Buf.write {α : Type} (b : Buf α) (v : BView) (k : Nat) (x : α) : Buf α :=
  if k < v.shape.prod then
    { b with stores := b.stores.set v.store ((b.stores.getD v.store []).set k x) }
  else b

/-! ## The manager -/

/-- State of an `MPIBufferManager` (`buffer.py:155-157`): for each dtype the list of its buffers,
and all buffers created so far (a buffer is identified by its position). -/
structure Mgr (α : Type) where
  map : NpKey → List Nat
  bufs : List (NpKey × Buf α)

/-- `buffer.py:155-157` `__init__`. -/
def Mgr.init {α : Type} : Mgr α := { map := fun _ => [], bufs := [] }

/-- `buffer.py:159-187` `request_buffers`; new buffers have capacity 0 (no keyword arguments are
passed anywhere in the repository). -/
def Mgr.request {α : Type} (m : Mgr α) (n : Nat) (dt : NpKey) (junk : Nat → α) :
    Mgr α × List Nat :=
  let have_ := m.map dt
  let missing := n - have_.length
  let new := (List.range missing).map fun i => m.bufs.length + i
  let all := have_ ++ new
  ({ map := fun k => if k = dt then all else m.map k
     bufs := m.bufs ++ List.replicate missing (dt, Buf.init 0 junk) }, all.take n)

/-! ## Repartition buffers -/

/-- The `partner` of an overlap (`nn/repartition.py:237-277`). -/
inductive Partner
  | none
  | self
  | rank (r : Nat)
  deriving DecidableEq, Repr

/-- An overlap entry `(sl, sh, partner)`. -/
structure Overlap where
  sl : Option Slices
  sh : List Nat
  partner : Partner
  deriving DecidableEq, Repr

/-- The test `sl is not None and partner != "self"` of `mpi/repartition.py:25, 28, 39, 50`. -/
def Overlap.needsBuffer (o : Overlap) : Bool := o.sl.isSome && o.partner != .self

/-- `mpi/repartition.py:34-55`, one of the two allocation loops.  State: the manager and the running
index `i`; result: one optional buffer per overlap.  `none` is an exception. -/
def allocLoop {α : Type} (junk : Nat → α) (buffers : List Nat) :
    List Overlap → Mgr α → Nat → Option (Mgr α × Nat × List (Option Nat))
  | [], m, i => some (m, i, [])
  | o :: os, m, i =>
    if o.needsBuffer then
      match buffers[i]? with
      | none => none
      | some b =>
        match m.bufs[b]? with
        | none => none
        | some (dt, buf) =>
          match buf.allocateView o.sh junk with
          | none => none
          | some buf' =>
            (allocLoop junk buffers os { m with bufs := m.bufs.set b (dt, buf') } (i + 1)).map
              fun r => (r.1, r.2.1, some b :: r.2.2)
    else (allocLoop junk buffers os m i).map fun r => (r.1, r.2.1, none :: r.2.2)

/-- `mpi/repartition.py:4-57` `allocate_repartition_buffers`: returns the manager, the send buffers
and the receive buffers. -/
def allocateRepartition {α : Type} (m : Mgr α) (xy yx : List Overlap) (dt : NpKey)
    (junk : Nat → α) : Option (Mgr α × List (Option Nat) × List (Option Nat)) :=
  let count := (xy.filter Overlap.needsBuffer).length + (yx.filter Overlap.needsBuffer).length
  let r := m.request count dt junk
  match allocLoop junk r.2 xy r.1 0 with
  | none => none
  | some (m1, i1, xs) =>
    match allocLoop junk r.2 yx m1 i1 with
    | none => none
    | some (m2, _, ys) => some (m2, xs, ys)

/-! ## Halo exchange buffers -/

/-- `mpi/halo_exchange.py:28-36`, the loop over the four shapes of one dimension.  A shape is `none`
when the width is 0 (`shape = 0`, so `np.prod(shape) > 0` fails). -/
def haloAllocDim {α : Type} (junk : Nat → α) (buffers : List Nat) :
    List (Option (List Nat)) → Nat → Mgr α → Option (Mgr α × List (Option Nat))
  | [], _, m => some (m, [])
  | s :: ss, j, m =>
    match s with
    | none => (haloAllocDim junk buffers ss (j + 1) m).map fun r => (r.1, none :: r.2)
    | some sh =>
      if sh.prod > 0 then
        match buffers[j]? with
        | none => none
        | some b =>
          match m.bufs[b]? with
          | none => none
          | some (dt, buf) =>
            match buf.allocateView sh junk with
            | none => none
            | some buf' =>
              (haloAllocDim junk buffers ss (j + 1)
                { m with bufs := m.bufs.set b (dt, buf') }).map fun r => (r.1, some b :: r.2)
      else (haloAllocDim junk buffers ss (j + 1) m).map fun r => (r.1, none :: r.2)

/-- `mpi/halo_exchange.py:22-38`, the loop over the dimensions. -/
def haloAllocDims {α : Type} (junk : Nat → α) (buffers : List Nat) :
    List (List (Option (List Nat))) → Mgr α → Option (Mgr α × List (List (Option Nat)))
  | [], m => some (m, [])
  | d :: ds, m =>
    match haloAllocDim junk buffers d 0 m with
    | none => none
    | some (m1, bs) => (haloAllocDims junk buffers ds m1).map fun r => (r.1, bs :: r.2)

/-- `mpi/halo_exchange.py:7-40` `allocate_halo_exchange_buffers`; `shapes` holds for every dimension
the four message shapes (left bulk, left ghost, right bulk, right ghost), `none` for width 0
(lines 23-26). -/
def allocateHalo {α : Type} (m : Mgr α) (shapes : List (List (Option (List Nat)))) (dt : NpKey)
    (junk : Nat → α) : Option (Mgr α × List (List (Option Nat))) :=
  let r := m.request 4 dt junk
  haloAllocDims junk r.2 shapes r.1

end Verif
