import Verif.Fp.Linear

/-!
# Linear interpolation in exact arithmetic, for C85
-/

namespace Verif.Fp

/-- The position of output `y` in the input, as PyTorch documents it. -/
def exactPos (l : Lin) (y : Nat) : ℚ :=
  if l.align then y * (((l.gi : ℚ) - 1) / ((l.go : ℚ) - 1))
  else match l.scale with
    | some s => ((y : ℚ) + 1 / 2) / s - 1 / 2
    | none => ((y : ℚ) + 1 / 2) * ((l.gi : ℚ) / l.go) - 1 / 2

/-- The function that is linear between neighbouring cells, and constant before the first and after the last of `gi` cells. -/
def lerp (gi : Nat) (X : Int → ℚ) (t : ℚ) : ℚ :=
  let c := max 0 (min ((gi : ℚ) - 1) t)
  X ⌊c⌋ + (c - ⌊c⌋) * (X (⌊c⌋ + 1) - X ⌊c⌋)

/-- Sizes that are meant: positive, not too large, at least two outputs with `align_corners`, and a positive scale factor, from
which the number of outputs is computed (`upsampling.py:142-147`). -/
structure Lin.OK (l : Lin) : Prop where
  pos : 0 < l.gi
  gi : l.gi ≤ 2 ^ 19
  go : l.go ≤ 2 ^ 20
  align : l.align = true → 2 ≤ l.go
  scale : ∀ s, l.scale = some s → 0 < s ∧ (l.go : Int) = ⌊fl double (l.gi * s)⌋

end Verif.Fp
