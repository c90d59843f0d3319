import Verif.Fp.Model

/-!
# Model of linear interpolation with rounding

`functional/interpolate/src/interpolate.h`, `interpolate_linear_cpu.cpp`, `nn/mixins/interpolate_mixin.py` and
`nn/upsampling.py` in floating point numbers, mode linear.  Simplifications as in `Verif.Fp.Model`.  Divisions by zero, which
give NaN, are 0; the theorems exclude them.
-/

namespace Verif.Fp

/-- `align_corners`, `scale_factor` (a `double`), and the global lengths of input and output. -/
structure Lin where
  align : Bool
  scale : Option ℚ
  gi : Nat
  go : Nat

/-- `interpolate.h:110-115`.  The lengths are integers; `1.0 / scale_factor` is a `double` that is converted.  Python hands over
-1 for a missing scale factor (`interpolate.py:78-79`), and the constructors take positive ones only (not checked). -/
def Lin.fac (p : Nat) (l : Lin) : ℚ :=
  if l.align then fl p (fl p ((l.gi : ℚ) - 1) / fl p ((l.go : ℚ) - 1))
  else match l.scale with
    | some s => if 0 < s then fl p (fl double (1 / s)) else fl p (fl p l.gi / fl p l.go)
    | none => fl p (fl p l.gi / fl p l.go)

/-- `interpolate.h:120-122`.  `0.5` is a `double`, so without `align_corners` everything is computed in double precision and
converted in the end. -/
def Lin.raw (p : Nat) (l : Lin) (io : Int) (y : Nat) : ℚ :=
  if l.align then fl p (fl p (l.fac p * fl p y) - fl p io)
  else fl p (fl double (fl double (l.fac p * fl double ((y : ℚ) + 1 / 2)) - fl double ((io : ℚ) + 1 / 2)))

/-- `interpolate.h:123`. -/
def Lin.pos (p : Nat) (l : Lin) (io : Int) (y : Nat) : ℚ := if l.raw p io y < 0 then 0 else l.raw p io y

/-- `interpolate.h:131-133`: `1e-4` is a `double`, and so is the difference. -/
def snapped (x : ℚ) : ℚ :=
  let x := if |x| < fl double (1 / 10000) then 0 else x
  if |fl double (x - 1)| < fl double (1 / 10000) then 1 else x

/-- `interpolate.h:96-136` `compute_linear_idx_weight`: two local input cells with their weights, for the global output `y`; the
local input begins at `io` and has `li` cells.  `floorf` takes a `float`. -/
def Lin.terms (p : Nat) (l : Lin) (io : Int) (li : Nat) (y : Nat) : (Int × ℚ) × (Int × ℚ) :=
  let t := l.pos p io y
  let i0 := clampIdx ⌊fl single t⌋ 0 ((li : Int) - 1)
  let i1 := clampIdx (i0 + 1) 0 ((li : Int) - 1)
  let lam := snapped (fl p (t - fl p i0))
  ((i0, fl p (fl double (1 - lam))), (i1, lam))

/-- `interpolate_linear_cpu.cpp:109-110`, for the local input `x`. -/
def Lin.eval (p : Nat) (l : Lin) (io : Int) (li : Nat) (x : Int → ℚ) (y : Nat) : ℚ :=
  let t := l.terms p io li y
  fl p (fl p (t.1.2 * x t.1.1) + fl p (t.2.2 * x t.2.1))

/-- `interpolate_mixin.py:66-81, 140-154`: the first input cell of output `y` in feature dimensions.  An integer tensor plus `0.5`
has the default type `torch.float32`; the product with `fac` is in double precision again. -/
def Lin.mixin (l : Lin) (y : Nat) : Int :=
  if l.align then ⌊fl double (fl double (fl double ((l.gi : ℚ) - 1) / fl double ((l.go : ℚ) - 1)) * fl double y)⌋
  else
    let fac := match l.scale with
      | some s => fl double (1 / s)
      | none => fl double (fl double l.gi / fl double l.go)
    let idx := fl double (fl double (fac * fl single (fl single y + 1 / 2)) - 1 / 2)
    ⌊if idx < 0 then 0 else idx⌋

/-- `interpolate_mixin.py:85-87`. -/
def Lin.start (l : Lin) (y : Nat) : Int := max 0 (l.mixin y)

/-- `interpolate_mixin.py:155-164`. -/
def Lin.stop (l : Lin) (y : Nat) : Int := min (l.gi : Int) (l.mixin y + 1 + 1)

/-- `upsampling.py:180-220, 282-284`: output `y` of the layer with the global input `X`, computed on worker `i` of `n`, one of whose
outputs it is.  As in `workerDim`, the local input are the cells from `x_start_index` to `x_stop_index`. -/
def Lin.out (p : Nat) (l : Lin) (n i : Nat) (X : Int → ℚ) (y : Nat) : ℚ :=
  let s := l.start (startIdx n i l.go)
  let e := l.stop (stopIdx n i l.go - 1)
  l.eval p s (e - s).toNat (fun j => X (s + j)) y

/-- The two cells of the global input that worker `i` of `n` uses for output `y`, with their weights. -/
def Lin.cells (p : Nat) (l : Lin) (n i y : Nat) : (Int × ℚ) × (Int × ℚ) :=
  let s := l.start (startIdx n i l.go)
  let e := l.stop (stopIdx n i l.go - 1)
  let t := l.terms p s (e - s).toNat y
  ((s + t.1.1, t.1.2), (s + t.2.1, t.2.2))

end Verif.Fp
