import Verif.Fp.Lemmas
import Verif.Halo.Model

/-!
# The output size of convolutions and pooling in floating point numbers (C87)
-/

namespace Verif.Fp

/-- `halo_mixin.py:143-146` `_compute_out_shape`, one dimension.  The numerator is an integer array (`int64`); `/` converts both
sides to `float64`, the quotient and the sum are rounded, and `astype` converts the floor, which is an integer. -/
def flOutShape (q : HaloDim) : Int :=
  ⌊fl double (fl double (fl double (((q.N : Int) + 2 * q.p - q.d * ((q.k : Int) - 1) - 1 : Int) : ℚ) / fl double q.s) + 1)⌋

/-- A quotient of integers that is not an integer is not near one. -/
theorem floor_gap {a : Int} {b : Nat} (hb : 0 < b) : ((a : ℚ) / b = (a / b : Int)) ∨
    ((a / b : Int) : ℚ) + 1 / b ≤ (a : ℚ) / b ∧ (a : ℚ) / b + 1 / b ≤ ((a / b : Int) : ℚ) + 1 := by
  have hb' : (0 : ℚ) < b := by exact_mod_cast hb
  have hdiv := Int.mul_ediv_add_emod a b
  have h0 := Int.emod_nonneg a (b := (b : Int)) (by omega)
  have h1 := Int.emod_lt_of_pos a (b := (b : Int)) (by omega)
  generalize a / (b : Int) = m at *
  generalize a % (b : Int) = r at *
  have ha : (a : ℚ) / b = m + r / b := by
    rw [← hdiv]
    push_cast
    field_simp
  rw [ha]
  rcases h0.eq_or_lt with h0 | h0
  · left
    rw [← h0]
    simp
  · right
    have r0 : (1 : ℚ) ≤ r := by exact_mod_cast h0
    have r1 : (r : ℚ) + 1 ≤ b := by exact_mod_cast h1
    constructor
    · have := div_le_div_of_nonneg_right r0 hb'.le
      linarith
    · rw [add_assoc, ← add_div]
      have := (div_le_one hb').2 r1
      linarith

theorem floor_quot {a : Int} {b : Nat} (hb : 0 < b) (hb' : b ≤ 2 ^ 50) (ha : |a| ≤ 2 ^ 51) :
    ⌊fl double (fl double (fl double (a : ℚ) / fl double b) + 1)⌋ = a / b + 1 := by
  have hbq : (0 : ℚ) < b := by exact_mod_cast hb
  have hb1 : (1 : ℚ) ≤ b := by exact_mod_cast hb
  rw [fl_int (p := double) (by decide) (ha.trans (by norm_num [double])),
    fl_nat (p := double) (by decide) (hb'.trans (by norm_num [double]))]
  have hm : |a / (b : Int)| ≤ 2 ^ 51 + 1 := by
    rw [abs_le] at ha ⊢
    constructor
    · refine (Int.le_ediv_iff_mul_le (by omega)).2 ?_
      nlinarith [ha.1]
    · refine Int.ediv_le_of_le_mul (by omega) ?_
      nlinarith [ha.2]
  have haq : |(a : ℚ)| ≤ 2 ^ 51 := by exact_mod_cast ha
  have hq : |(a : ℚ) / b| ≤ 2 ^ 51 / b := by
    rw [abs_div, abs_of_pos hbq]
    exact div_le_div_of_nonneg_right haq hbq.le
  have hinv : (1 : ℚ) / 2 ^ 50 ≤ 1 / b := one_div_le_one_div_of_le hbq (by exact_mod_cast hb')
  rcases floor_gap (a := a) hb with h | ⟨h0, h1⟩
  · rw [h, fl_int (p := double) (by decide) (hm.trans (by norm_num [double]))]
    have : (((a / (b : Int) : Int) : ℚ) + 1) = ((a / (b : Int) + 1 : Int) : ℚ) := by push_cast; rfl
    rw [this, fl_int (p := double) (by decide), Int.floor_intCast]
    refine (abs_add_le _ _).trans ?_
    rw [abs_one]
    norm_num [double] at hm ⊢
    omega
  · have e1 : |fl double ((a : ℚ) / b) - a / b| ≤ 1 / b / 4 := by
      refine (fl_err double _).trans ?_
      refine (div_le_div_of_nonneg_right hq (by positivity)).trans (le_of_eq ?_)
      unfold double
      field_simp
      norm_num
    generalize fl double ((a : ℚ) / b) = x at *
    have hib : (1 : ℚ) / b ≤ 1 := by rw [div_le_one hbq]; exact hb1
    have hx : |x + 1| ≤ 2 ^ 51 / b + 2 := by
      rw [abs_le] at hq e1 ⊢
      constructor <;> linarith [hq.1, hq.2, e1.1, e1.2]
    have e2 : |fl double (x + 1) - (x + 1)| ≤ 1 / b / 4 + 1 / b / 4 := by
      refine (fl_err double _).trans ((div_le_div_of_nonneg_right hx (by positivity)).trans ?_)
      rw [add_div]
      refine add_le_add (le_of_eq ?_) ?_
      · unfold double
        field_simp
        norm_num
      · refine le_trans ?_ (div_le_div_of_nonneg_right hinv (by norm_num))
        norm_num [double]
    have hi0 : (0 : ℚ) < 1 / b := by positivity
    rw [abs_le] at e1 e2
    rw [Int.floor_eq_iff]
    push_cast
    constructor <;> linarith [e1.1, e1.2, e2.1, e2.2]

/-- C87: the size found with floating point division counts the positions of the window: position `t` is one of them exactly if the
last cell the window touches there, `s t + d (k - 1)`, lies in the padded input. -/
theorem C87_outShape {q : HaloDim} (hk : 0 < q.k) (hs : 0 < q.s) (hs' : q.s ≤ 2 ^ 50) (hN : q.N + 2 * q.p ≤ 2 ^ 50)
    (hd : q.d * (q.k - 1) ≤ 2 ^ 50) : (∀ t : Nat, (t : Int) < flOutShape q ↔ q.s * t + q.d * (q.k - 1) < q.N + 2 * q.p) ∧
    (flOutShape q).toNat = outShape q := by
  have hd' : (q.d : Int) * ((q.k : Int) - 1) = ((q.d * (q.k - 1) : Nat) : Int) := by
    push_cast [Nat.cast_sub hk]
    ring
  have key : flOutShape q = ((q.N : Int) + 2 * q.p - q.d * ((q.k : Int) - 1) - 1) / q.s + 1 := by
    unfold flOutShape
    rw [floor_quot hs hs']
    rw [hd', abs_le]
    constructor <;> omega
  refine ⟨fun t => ?_, by rw [key]; rfl⟩
  rw [key, Int.lt_add_one_iff, Int.le_ediv_iff_mul_le (by omega), hd']
  have : (t : Int) * q.s = ((q.s * t : Nat) : Int) := by push_cast; ring
  rw [this]
  omega

/-- 1000 cells, kernel 7, stride 3, padding 2, dilation 2. -/
example : flOutShape ⟨4, 1000, 7, 3, 2, 2⟩ = 331 := by decide +kernel

example : ((330 : Nat) : Int) < flOutShape ⟨4, 1000, 7, 3, 2, 2⟩ :=
  ((C87_outShape (by decide) (by decide) (by decide) (by decide) (by decide)).1 330).2 (by decide)

/-- The bound is not far from being necessary: stride 3, 2^54 + 5 cells, kernel 1. -/
example : flOutShape ⟨1, 2 ^ 54 + 5, 1, 3, 0, 1⟩ ≠ outShape ⟨1, 2 ^ 54 + 5, 1, 3, 0, 1⟩ := by decide +kernel

end Verif.Fp
