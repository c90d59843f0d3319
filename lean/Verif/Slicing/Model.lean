/-!
# Model of `distdl/utilities/slicing.py` and `distdl/utilities/index_tricks.py`

NumPy integer arrays of one dimension are lists of naturals, one entry per tensor dimension.
Simplifications common to this file: integers are unbounded (no int64 overflow), all arrays passed
together have the same length (NumPy broadcasting of length-one arrays is not modelled), partition
extents are positive where a theorem says so (an MPI Cartesian shape never contains 0).
-/

namespace Verif

/-- `slicing.py:8-16` `compute_subshape`, one dimension: `shape // P`, plus one where
`index < shape % P`. -/
def subsize (P i n : Nat) : Nat := n / P + if i < n % P then 1 else 0

/-- `slicing.py:19-27` `compute_start_index`, one dimension. -/
def startIdx (P i n : Nat) : Nat := (n / P) * i + min i (n % P)

/-- `slicing.py:30-36` `compute_stop_index`, one dimension. -/
def stopIdx (P i n : Nat) : Nat := startIdx P i n + subsize P i n

/-- Entrywise map over three arrays of equal length (NumPy vectorised arithmetic). -/
def map3 (f : Nat → Nat → Nat → Nat) : List Nat → List Nat → List Nat → List Nat
  | P :: Ps, i :: is, n :: ns => f P i n :: map3 f Ps is ns
  | _, _, _ => []

/-- `slicing.py:8-16` `compute_subshape`. -/
def computeSubshape (Pshape index shape : List Nat) : List Nat := map3 subsize Pshape index shape

/-- `slicing.py:19-27` `compute_start_index`. -/
def computeStartIndex (Pshape index shape : List Nat) : List Nat := map3 startIdx Pshape index shape

/-- `slicing.py:30-36` `compute_stop_index`: the sum of start index and subshape. -/
def computeStopIndex (Pshape index shape : List Nat) : List Nat :=
  List.zipWith (· + ·) (computeStartIndex Pshape index shape) (computeSubshape Pshape index shape)

/-- `slicing.py:39-47` `compute_intersection`: start, stop and shape of the intersection.
`np.maximum(stop - start, 0)` (lines 44-45) is truncated subtraction on naturals. -/
def computeIntersection (s0 e0 s1 e1 : List Nat) : List Nat × List Nat × List Nat :=
  let is := List.zipWith max s0 s1
  let ie := List.zipWith min e0 e1
  (is, ie, List.zipWith (· - ·) ie is)

/-- A tuple of `slice(start, stop)` objects. -/
abbrev Slices := List (Nat × Nat)

/-- `slicing.py:50-57` `assemble_slices`. -/
def assembleSlices (start stop : List Nat) : Slices := List.zip start stop

/-- `slicing.py:98-115` `compute_nd_slice_shape`. -/
def sliceShape (sl : Slices) : List Nat := sl.map fun p => p.2 - p.1

/-- `slicing.py:93-95` `compute_nd_slice_volume` (`np.prod`). -/
def sliceVolume (sl : Slices) : Nat := (sl.map fun p => p.2 - p.1).prod

/-- `slicing.py:74-90` and, identically, `tensor_decomposition.py:175-190`: overlap of box `x` with
box `y` as slices relative to the origin of `x`, `None` when the volume is zero.  The start of the
intersection is a maximum that includes the start of `x`, so the subtraction never truncates. -/
def intersectionSlice (xs xe ys ye : List Nat) : Option Slices :=
  let r := computeIntersection xs xe ys ye
  if r.2.2.prod = 0 then none
  else
    let relStart := List.zipWith (· - ·) r.1 xs
    some (assembleSlices relStart (List.zipWith (· + ·) relStart r.2.2))

/-- `slicing.py:60-90` `compute_partition_intersection`. -/
def computePartitionIntersection (PrShape PrIndex PsShape PsIndex xShape : List Nat) :
    Option Slices :=
  intersectionSlice
    (computeStartIndex PrShape PrIndex xShape) (computeStopIndex PrShape PrIndex xShape)
    (computeStartIndex PsShape PsIndex xShape) (computeStopIndex PsShape PsIndex xShape)

/-- `slicing.py:118-142` `range_index`: `itertools.product` of the ranges, first index slowest. -/
def rangeIndex : List Nat → List (List Nat)
  | [] => [[]]
  | n :: ns => (List.range n).flatMap fun i => (rangeIndex ns).map (i :: ·)

/-- `index_tricks.py:1-5` `cartesian_index_c`: Horner loop over `zip(shape, index)`. -/
def cartesianIndexC (shape index : List Nat) : Nat :=
  (List.zip shape index).foldl (fun acc p => acc * p.1 + p.2) 0

/-- `index_tricks.py:8-12` `cartesian_index_f`: the same loop over the reversed lists. -/
def cartesianIndexF (shape index : List Nat) : Nat :=
  (List.zip shape.reverse index.reverse).foldl (fun acc p => acc * p.1 + p.2) 0

/-- `slicing.py:145-153` `worker_layout`: the array with `workers[index] = i` for the `i`-th index
of the enumeration.  The array is a function; cells that are never assigned keep the initial 0. -/
def workerLayout (shape : List Nat) : List Nat → Nat :=
  (List.zip (List.range (rangeIndex shape).length) (rangeIndex shape)).foldl
    (fun arr p => fun idx => if idx = p.2 then p.1 else arr idx) (fun _ => 0)

/-- `slicing.py:178-184` `_filter`: every entry of the filter that is not `None` must match. -/
def matchesFilter : List Nat → List (Option Nat) → Bool
  | i :: is, f :: fs =>
    match f with
    | none => matchesFilter is fs
    | some v => if i ≠ v then false else matchesFilter is fs
  | _, _ => true

/-- `slicing.py:156-187` `filtered_range_index`. -/
def filteredRangeIndex (shape : List Nat) (filter : List (Option Nat)) : List (List Nat) :=
  (rangeIndex shape).filter fun idx => matchesFilter idx filter

/-- `slicing.py:190-222` `assemble_index_filter`: comprehension over `k in range(len(index))`.
`dims` is a list of Python integers (so possibly negative). -/
def assembleIndexFilter (index : List Nat) (dims : List Int) (invert : Bool) : List (Option Nat) :=
  (List.zip (List.range index.length) index).map fun p =>
    if invert then (if (p.1 : Int) ∈ dims then none else some p.2)
    else (if (p.1 : Int) ∈ dims then some p.2 else none)

end Verif
