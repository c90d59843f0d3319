/-!
# Model of `distdl/utilities/dtype.py`

Python dictionaries are built from association lists; a later entry with the same key replaces the
value of an earlier one.
-/

namespace Verif

/-- The torch dtypes occurring in `dtype.py:29-52`. -/
inductive TorchDtype
  | bool | uint8 | int8 | int16 | int32 | int64 | float16 | float32 | float64
  | complex64 | complex128
  deriving DecidableEq, Repr

/-- The NumPy scalar types occurring in `dtype.py:29-52`. -/
inductive NpScalar
  | bool | uint8 | int8 | int16 | int32 | int64 | float16 | float32 | float64
  | complex64 | complex128
  deriving DecidableEq, Repr

/-- Keys of the dictionary: `np.dtype(T)` instances or the scalar class `T` itself.  The two hash
differently, so they are different keys. -/
inductive NpKey
  | inst (t : NpScalar)
  | cls (t : NpScalar)
  deriving DecidableEq, Repr

/-- `np.dtype(key)` of a key. -/
def NpKey.scalar : NpKey → NpScalar
  | .inst t => t
  | .cls t => t

/-- A Python dictionary display or comprehension: the last entry for a key wins. -/
def pyDict {K V : Type} [DecidableEq K] : List (K × V) → K → Option V
  | [], _ => none
  | p :: ps, k =>
    match pyDict ps k with
    | some v => some v
    | none => if p.1 = k then some p.2 else none

/-- `dtype.py:29-52` `numpy_to_torch_dtype_dict`, in source order. -/
def numpyToTorchItems : List (NpKey × TorchDtype) :=
  [(.inst .bool, .bool), (.inst .uint8, .uint8), (.inst .int8, .int8), (.inst .int16, .int16),
   (.inst .int32, .int32), (.inst .int64, .int64), (.inst .float16, .float16),
   (.inst .float32, .float32), (.inst .float64, .float64), (.inst .complex64, .complex64),
   (.inst .complex128, .complex128),
   (.cls .bool, .bool), (.cls .uint8, .uint8), (.cls .int8, .int8), (.cls .int16, .int16),
   (.cls .int32, .int32), (.cls .int64, .int64), (.cls .float16, .float16),
   (.cls .float32, .float32), (.cls .float64, .float64), (.cls .complex64, .complex64),
   (.cls .complex128, .complex128)]

/-- `np.dtype(T).num` on a 64-bit Linux NumPy (`NPY_TYPES` enumeration of the NumPy C API). -/
def NpScalar.num : NpScalar → Nat
  | .bool => 0 | .int8 => 1 | .uint8 => 2 | .int16 => 3 | .int32 => 5 | .int64 => 7
  | .float32 => 11 | .float64 => 12 | .complex64 => 14 | .complex128 => 15 | .float16 => 23

/-- `dtype.py:29-52`. -/
def numpyToTorch : NpKey → Option TorchDtype := pyDict numpyToTorchItems

/-- `dtype.py:56` `torch_to_numpy_dtype_dict`. -/
def torchToNumpy : TorchDtype → Option NpKey :=
  pyDict (numpyToTorchItems.map fun p => (p.2, p.1))

/-- `dtype.py:62` `numpy_to_intID_dtype_dict`, as items. -/
def numpyToIntItems : List (NpKey × Nat) := numpyToTorchItems.map fun p => (p.1, p.1.scalar.num)

/-- `dtype.py:62`. -/
def numpyToInt : NpKey → Option Nat := pyDict numpyToIntItems

/-- `dtype.py:63` `intID_to_numpy_dtype_dict`. -/
def intToNumpy : Nat → Option NpKey := pyDict (numpyToIntItems.map fun p => (p.2, p.1))

/-- `dtype.py:66` `torch_to_intID_dtype_dict`, as items (all looked-up keys exist). -/
def torchToIntItems : List (TorchDtype × Nat) :=
  numpyToTorchItems.filterMap fun p => (numpyToInt p.1).map fun n => (p.2, n)

/-- `dtype.py:66`. -/
def torchToInt : TorchDtype → Option Nat := pyDict torchToIntItems

/-- `dtype.py:67` `intID_to_torch_dtype_dict`. -/
def intToTorch : Nat → Option TorchDtype := pyDict (torchToIntItems.map fun p => (p.2, p.1))

/-! ## Properties -/

/-- The NumPy type of the same kind and size. -/
def numpyCounterpart : TorchDtype → NpScalar
  | .bool => .bool | .uint8 => .uint8 | .int8 => .int8 | .int16 => .int16 | .int32 => .int32 | .int64 => .int64
  | .float16 => .float16 | .float32 => .float32 | .float64 => .float64
  | .complex64 => .complex64 | .complex128 => .complex128

/-- C31: the conversions keep kind and size. -/
theorem C31_same_kind (t : TorchDtype) :
    (∃ k, torchToNumpy t = some k ∧ k.scalar = numpyCounterpart t) ∧
    ∀ k, numpyToTorch k = some t ↔ k.scalar = numpyCounterpart t := by
  constructor
  · cases t <;> exact ⟨_, rfl, rfl⟩
  · intro k
    rcases k with k | k <;> cases t <;> cases k <;> decide

/-- C31: torch dtype → integer id → torch dtype is the identity, for every supported dtype. -/
theorem C31_torch_int_roundtrip (t : TorchDtype) :
    ∃ n, torchToInt t = some n ∧ intToTorch n = some t := by
  cases t <;> exact ⟨_, rfl, rfl⟩

/-- C31: distinct dtypes get distinct ids. -/
theorem C31_ids_distinct (s t : TorchDtype) (n : Nat) (hs : torchToInt s = some n)
    (ht : torchToInt t = some n) : s = t := by
  obtain ⟨m, hm, hb⟩ := C31_torch_int_roundtrip s
  obtain ⟨m', hm', hb'⟩ := C31_torch_int_roundtrip t
  rw [hs] at hm
  rw [ht] at hm'
  cases hm
  cases hm'
  rw [hb] at hb'
  exact Option.some.inj hb'

/-- C31: torch dtype → NumPy dtype → torch dtype is the identity. -/
theorem C31_torch_numpy_roundtrip (t : TorchDtype) :
    ∃ k, torchToNumpy t = some k ∧ numpyToTorch k = some t := by
  cases t <;> exact ⟨_, rfl, rfl⟩

/-- C31: NumPy dtype → integer id → NumPy dtype describes the same scalar type; both the instance
and the scalar-class spelling are accepted. -/
theorem C31_numpy_int_roundtrip (k : NpKey) :
    ∃ n k', numpyToInt k = some n ∧ intToNumpy n = some k' ∧ k'.scalar = k.scalar := by
  cases k with
  | inst t => cases t <;> exact ⟨_, _, rfl, rfl, rfl⟩
  | cls t => cases t <;> exact ⟨_, _, rfl, rfl, rfl⟩

/-- C31: the id that a torch dtype gets is the id of the NumPy dtype it converts to, so a message
typed on one side is decoded consistently on the other. -/
theorem C31_ids_consistent (t : TorchDtype) :
    ∃ k n, torchToNumpy t = some k ∧ numpyToInt k = some n ∧ torchToInt t = some n := by
  cases t <;> exact ⟨_, _, rfl, rfl, rfl⟩

example : torchToInt .float32 = some 11 ∧ intToTorch 11 = some .float32 := ⟨rfl, rfl⟩
example : intToNumpy 7 = some (.cls .int64) := rfl

end Verif
