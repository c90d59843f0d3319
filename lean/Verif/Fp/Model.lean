import Verif.Interp.Model
import Mathlib.Data.Int.Log
import Mathlib.Data.Rat.Floor

/-!
# Model of nearest interpolation with rounding

`functional/interpolate/src/interpolate.h`, `nn/mixins/interpolate_mixin.py` and `nn/upsampling.py` in floating point numbers.
Simplifications: one feature dimension; no overflow and no subnormal numbers (the numbers that occur are 0, or lie between
about `1 / go` and `gi` in absolute value); every operation of the C++ code is rounded by itself (no fused multiply-add).
-/

namespace Verif.Fp

/-- To the nearest integer, halves to the even one. -/
def roundEven (y : ℚ) : Int :=
  if y - ⌊y⌋ < 1 / 2 then ⌊y⌋
  else if 1 / 2 < y - ⌊y⌋ then ⌊y⌋ + 1
  else if ⌊y⌋ % 2 = 0 then ⌊y⌋ else ⌊y⌋ + 1

/-- The distance of neighbouring numbers with `p` binary digits at `x`. -/
def ulp (p : Nat) (x : ℚ) : ℚ := 2 ^ (Int.log 2 |x| - (p : Int) + 1)

/-- `x` rounded to a number with `p` binary digits, as IEEE 754 prescribes. -/
def fl (p : Nat) (x : ℚ) : ℚ := roundEven (x / ulp p x) * ulp p x

/-- Digits of `float`. -/
def single : Nat := 24

/-- Digits of `double`, and of the numbers of Python and `torch.float64`. -/
def double : Nat := 53

/-- `interpolate.h:74-92` `compute_nearest_left_idx_weight` with `scalar_t` of `p` digits.  `floorf` takes a `float`: a
`double` is rounded to single precision before. -/
def nearestIdx (p : Nat) (d : InterpDim) (o : Nat) : Int :=
  let fac := fl p (fl p d.gi / fl p d.go)
  let pos := fl p (fl p (fac * fl p ((d.oo + o : Nat) : ℚ)) - fl p (d.io : ℚ))
  clampIdx ⌊fl single pos⌋ 0 ((d.li : Int) - 1)

/-- `interpolate_mixin.py:58-62, 132-136`: the input cell of output `y` in feature dimensions, mode nearest. -/
def mixinIdx (gi go : Nat) (y : Int) : Int :=
  ⌊fl double (fl double (fl double gi / fl double go) * fl double (y : ℚ))⌋

/-- `interpolate_mixin.py:15-87` `_compute_needed_start`. -/
def startNeeded (gi go : Nat) (y : Int) : Int := max 0 (mixinIdx gi go y)

/-- `interpolate_mixin.py:89-164` `_compute_needed_stop`. -/
def stopNeeded (gi go : Nat) (y : Int) : Int := min (gi : Int) (mixinIdx gi go y + 1)

/-- `upsampling.py:180-220, 282-284`: what the kernel sees on worker `i` of `n`.  The local input are the cells from
`x_start_index` to `x_stop_index` (C50 shows that this is what exchange and selection leave if the halos are not wider than
the neighbouring blocks). -/
def workerDim (n i gi go : Nat) : InterpDim :=
  let s := startNeeded gi go (startIdx n i go : Nat)
  let e := stopNeeded gi go ((stopIdx n i go : Nat) - 1)
  ⟨gi, go, (e - s).toNat, subsize n i go, s, startIdx n i go⟩

/-- The cell of the global input that worker `i` of `n` uses for the global output `o`, one of its own. -/
def cell (p n i gi go o : Nat) : Int :=
  (workerDim n i gi go).io + nearestIdx p (workerDim n i gi go) (o - startIdx n i go)

end Verif.Fp
