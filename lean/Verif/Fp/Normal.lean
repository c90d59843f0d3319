import Verif.Fp.StatsProps
import Mathlib.Analysis.SpecialFunctions.Pow.NNReal

/-!
# Normalised entries of the batch norm in floating point numbers (C94)

`nn/batchnorm.py:224-231`.  As in `Fp/Stats.lean`: one channel, no overflow, no subnormal numbers.
-/

namespace Verif.Fp

variable {ι : Type}

/-- `s` is a square root of `v` in floating point numbers of `p` bits: IEEE rounds it correctly. -/
def SqrtOf (p : Nat) (v s : ℚ) : Prop := |(s : ℝ) - √(v : ℝ)| ≤ √(v : ℝ) / 2 ^ p

/-- `batchnorm.py:225` `(input - mean) / torch.sqrt(var + self.eps)` for one entry; `s` is the root.  Simplification: the
conversion of `eps` to the type of the tensor is not part of it. -/
def normEntry (p : Nat) (x m s : ℚ) : ℚ := fl p (fl p (x - m) / s)

/-- `batchnorm.py:231` `gamma * x + beta` for one entry. -/
def affineEntry (p : Nat) (γ β y : ℚ) : ℚ := fl p (fl p (γ * y) + β)

/-! ## Helpers -/

theorem root_low {u r η : ℝ} (hu : 0 ≤ u) (hu1 : u ≤ 1 / 16) (hr : 0 ≤ r) (hr1 : r ≤ 1 / 4) (hη : η = 2 * r + 4 * u) :
    1 ≤ (1 + η) ^ 2 * ((1 - u) ^ 3 * (1 - r)) := by
  have hη0 : 0 ≤ η := by rw [hη]; positivity
  have hη1 : η ≤ 1 := by rw [hη]; linarith
  have a1 : 1 - 3 * u ≤ (1 - u) ^ 3 := by nlinarith [mul_nonneg hu hu, mul_nonneg (mul_nonneg hu hu) (show (0:ℝ) ≤ 3 - u by linarith)]
  have a2 : 1 - 3 * u - r ≤ (1 - u) ^ 3 * (1 - r) := by
    have := mul_le_mul_of_nonneg_right a1 (show (0:ℝ) ≤ 1 - r by linarith)
    nlinarith [mul_nonneg hu hr]
  have a3 : 1 + 2 * η ≤ (1 + η) ^ 2 := by nlinarith [sq_nonneg η]
  have a4 : 0 ≤ 1 - 3 * u - r := by linarith
  have a5 := mul_le_mul a3 a2 a4 (by positivity)
  refine le_trans ?_ a5
  rw [hη]
  nlinarith [mul_nonneg hu hr, mul_nonneg hu (show (0:ℝ) ≤ 1 / 16 - u by linarith), mul_nonneg hr (show (0:ℝ) ≤ 1 / 4 - r by linarith),
    mul_nonneg hu (show (0:ℝ) ≤ 1 / 4 - r by linarith)]

theorem root_high {u r η : ℝ} (hu : 0 ≤ u) (hu1 : u ≤ 1 / 16) (hr : 0 ≤ r) (hr1 : r ≤ 1 / 4) (hη : η = 2 * r + 4 * u) :
    (1 - η) ^ 2 * ((1 + u) ^ 3 * (1 + r)) ≤ 1 := by
  have hη0 : 0 ≤ η := by rw [hη]; positivity
  have hη1 : η ≤ 1 := by rw [hη]; linarith
  have a1 : (1 + u) ^ 3 ≤ 1 + 3.2 * u := by
    nlinarith [mul_nonneg hu (show (0:ℝ) ≤ 1 / 16 - u by linarith), mul_nonneg (mul_nonneg hu hu) (show (0:ℝ) ≤ 1 / 16 - u by linarith)]
  have a2 : (1 + u) ^ 3 * (1 + r) ≤ 1 + 4 * u + r := by
    have := mul_le_mul_of_nonneg_right a1 (show (0:ℝ) ≤ 1 + r by linarith)
    nlinarith [mul_nonneg hu (show (0:ℝ) ≤ 1 / 4 - r by linarith)]
  have a3 : (1 - η) ^ 2 ≤ 1 - η := by nlinarith
  have a5 := mul_le_mul a3 a2 (by positivity) (by linarith)
  refine le_trans a5 ?_
  rw [hη]
  nlinarith [mul_nonneg hu hr, sq_nonneg u, sq_nonneg r]

/-- The root of a value with relative error `r`, which is rounded, and the root is rounded. -/
theorem root_err {u r E V s : ℝ} (hu : 0 ≤ u) (hu1 : u ≤ 1 / 16) (hr : 0 ≤ r) (hr1 : r ≤ 1 / 4) (hE : 0 < E)
    (h1 : (1 - u) * (1 - r) * E ≤ V) (h2 : V ≤ (1 + u) * (1 + r) * E) (hs : |s - √V| ≤ u * √V) :
    0 < s ∧ |√E / s - 1| ≤ 2 * r + 4 * u := by
  have hD : 0 < √E := Real.sqrt_pos.2 hE
  have hV : 0 < V := lt_of_lt_of_le (by
    have : 0 < (1 - u) * (1 - r) := mul_pos (by linarith) (by linarith)
    positivity) h1
  have hT : 0 < √V := Real.sqrt_pos.2 hV
  obtain ⟨ha, hb⟩ := abs_le.1 hs
  have hl : (1 - u) * √V ≤ s := by linarith
  have hh : s ≤ (1 + u) * √V := by linarith
  have hs0 : 0 < s := lt_of_lt_of_le (mul_pos (by linarith) hT) hl
  refine ⟨hs0, ?_⟩
  have hVs := Real.sq_sqrt hV.le
  have hEs := Real.sq_sqrt hE.le
  have sl : (1 - u) ^ 3 * (1 - r) * E ≤ s ^ 2 := by
    have : ((1 - u) * √V) ^ 2 ≤ s ^ 2 := pow_le_pow_left₀ (mul_nonneg (by linarith) hT.le) hl 2
    rw [mul_pow, hVs] at this
    have h3 := mul_le_mul_of_nonneg_left h1 (sq_nonneg (1 - u))
    linarith [show (1 - u) ^ 3 * (1 - r) * E = (1 - u) ^ 2 * ((1 - u) * (1 - r) * E) by ring]
  have sh : s ^ 2 ≤ (1 + u) ^ 3 * (1 + r) * E := by
    have : s ^ 2 ≤ ((1 + u) * √V) ^ 2 := pow_le_pow_left₀ hs0.le hh 2
    rw [mul_pow, hVs] at this
    have h3 := mul_le_mul_of_nonneg_left h2 (sq_nonneg (1 + u))
    linarith [show (1 + u) ^ 3 * (1 + r) * E = (1 + u) ^ 2 * ((1 + u) * (1 + r) * E) by ring]
  set η := 2 * r + 4 * u with hη
  have hη0 : 0 ≤ η := by positivity
  have hη1 : η ≤ 1 := by rw [hη]; linarith
  have c1 := root_low hu hu1 hr hr1 hη
  have c2 := root_high hu hu1 hr hr1 hη
  have k1 : √E ≤ (1 + η) * s := by
    refine abs_le_of_sq_le_sq' ?_ (by positivity) |>.2
    rw [hEs, mul_pow]
    have := mul_le_mul_of_nonneg_left sl (sq_nonneg (1 + η))
    have t := mul_le_mul_of_nonneg_right c1 hE.le
    linarith [show (1 + η) ^ 2 * ((1 - u) ^ 3 * (1 - r)) * E = (1 + η) ^ 2 * ((1 - u) ^ 3 * (1 - r) * E) by ring]
  have k2 : (1 - η) * s ≤ √E := by
    refine abs_le_of_sq_le_sq' ?_ hD.le |>.2
    rw [hEs, mul_pow]
    have := mul_le_mul_of_nonneg_left sh (sq_nonneg (1 - η))
    have t := mul_le_mul_of_nonneg_right c2 hE.le
    linarith [show (1 - η) ^ 2 * ((1 + u) ^ 3 * (1 + r)) * E = (1 - η) ^ 2 * ((1 + u) ^ 3 * (1 + r) * E) by ring]
  rw [abs_le]
  constructor
  · rw [neg_le_sub_iff_le_add, ← sub_le_iff_le_add, le_div_iff₀ hs0]
    exact k2
  · rw [sub_le_iff_le_add, div_le_iff₀ hs0]
    linarith

/-- A difference divided by an approximate root, with two roundings. -/
theorem quot_err {u r D s a a1 y : ℝ} (hu : 0 ≤ u) (hu1 : u ≤ 1 / 16) (_hr : 0 ≤ r) (hr1 : r ≤ 1 / 4) (hD : 0 < D) (hs : 0 < s)
    (hq : |D / s - 1| ≤ 2 * r + 4 * u) (h1 : |a1 - a| ≤ u * |a|) (h2 : |y - a1 / s| ≤ u * |a1 / s|) :
    |y - a / D| ≤ (2 * r + 8 * u) * |a| / D := by
  have hq1 : D / s ≤ 1 + (2 * r + 4 * u) := by linarith [(abs_le.1 hq).2]
  have hqp : 0 < D / s := div_pos hD hs
  have ha1 : |a1| ≤ (1 + u) * |a| := by
    rw [show a1 = (a1 - a) + a by ring]
    refine (abs_add_le _ _).trans ?_
    linarith
  have e1 : |y * D - a1 * (D / s)| ≤ u * ((1 + u) * |a|) * (D / s) := by
    rw [show y * D - a1 * (D / s) = (y - a1 / s) * D by ring, abs_mul, abs_of_pos hD]
    have := mul_le_mul_of_nonneg_right h2 hD.le
    rw [abs_div, abs_of_pos hs] at this
    refine this.trans ?_
    rw [show u * (|a1| / s) * D = u * |a1| * (D / s) by ring]
    exact mul_le_mul_of_nonneg_right (mul_le_mul_of_nonneg_left ha1 hu) hqp.le
  have e2 : |a1 * (D / s) - a * (D / s)| ≤ u * |a| * (D / s) := by
    rw [← sub_mul, abs_mul, abs_of_pos hqp]
    exact mul_le_mul_of_nonneg_right h1 hqp.le
  have e3 : |a * (D / s) - a| ≤ |a| * (2 * r + 4 * u) := by
    rw [show a * (D / s) - a = a * (D / s - 1) by ring, abs_mul]
    exact mul_le_mul_of_nonneg_left hq (abs_nonneg a)
  have tot : |y * D - a| ≤ (2 * r + 8 * u) * |a| := by
    rw [show y * D - a = (y * D - a1 * (D / s)) + ((a1 * (D / s) - a * (D / s)) + (a * (D / s) - a)) by ring]
    refine (abs_add_le _ _).trans ((add_le_add le_rfl (abs_add_le _ _)).trans ?_)
    have hA := abs_nonneg a
    have c : (u * (1 + u) + u) * (D / s) ≤ 4 * u := by
      have : (u * (1 + u) + u) * (D / s) ≤ (u * (1 + u) + u) * (1 + (2 * r + 4 * u)) :=
        mul_le_mul_of_nonneg_left hq1 (by positivity)
      refine this.trans ?_
      have h3 : (2 + u) * (1 + (2 * r + 4 * u)) ≤ 4 := by nlinarith [mul_nonneg hu _hr]
      nlinarith [mul_le_mul_of_nonneg_left h3 hu]
    have := mul_le_mul_of_nonneg_left c hA
    linarith [show u * ((1 + u) * |a|) * (D / s) + (u * |a| * (D / s) + |a| * (2 * r + 4 * u)) =
      |a| * ((u * (1 + u) + u) * (D / s)) + |a| * (2 * r + 4 * u) by ring,
      show (2 * r + 8 * u) * |a| = |a| * (4 * u) + |a| * (2 * r + 4 * u) by ring]
  rw [show y - a / D = (y * D - a) / D by field_simp, abs_div, abs_of_pos hD]
  exact div_le_div_of_nonneg_right tot hD.le

theorem fl_errR (p : Nat) (x : ℚ) : |((fl p x : ℚ) : ℝ) - x| ≤ 1 / 2 ^ p * |(x : ℝ)| := by
  have h : ((|fl p x - x| : ℚ) : ℝ) ≤ ((|x| / 2 ^ p : ℚ) : ℝ) := Rat.cast_le.2 (fl_err p x)
  push_cast at h
  rw [show (1 : ℝ) / 2 ^ p * |(x : ℝ)| = |(x : ℝ)| / 2 ^ p by ring]
  exact h

end Verif.Fp
