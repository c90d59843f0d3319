import Verif.Fp.Model
import Verif.Slicing.Lemmas
import Mathlib.Tactic.Linarith
import Mathlib.Tactic.Ring
import Mathlib.Tactic.FieldSimp
import Mathlib.Tactic.Positivity
import Mathlib.Tactic.NormNum
import Mathlib.Tactic.Push
import Mathlib.Data.Nat.Cast.Order.Field

/-!
# Rounding
-/

namespace Verif.Fp

theorem roundEven_int (m : Int) : roundEven m = m := by
  unfold roundEven
  rw [Int.floor_intCast, sub_self, if_pos (by norm_num)]

theorem roundEven_err (y : ℚ) : |(roundEven y : ℚ) - y| ≤ 1 / 2 := by
  have h1 := Int.floor_le y
  have h2 := Int.lt_floor_add_one y
  unfold roundEven
  split_ifs with a b c
  · rw [abs_le]; constructor <;> linarith
  · push_cast; rw [abs_le]; constructor <;> linarith
  · rw [abs_le]; constructor <;> linarith
  · push_cast; rw [abs_le]; constructor <;> linarith

theorem ulp_pos (p : Nat) (x : ℚ) : 0 < ulp p x := zpow_pos (by norm_num) _

theorem fl_zero (p : Nat) : fl p 0 = 0 := by
  have : roundEven (0 / ulp p 0) = 0 := by
    rw [zero_div]
    exact roundEven_int 0
  rw [fl, this]
  simp

/-- The relative error. -/
theorem fl_err (p : Nat) (x : ℚ) : |fl p x - x| ≤ |x| / 2 ^ p := by
  rcases eq_or_ne x 0 with rfl | hx
  · rw [fl_zero]; simp
  have hu := ulp_pos p x
  have h1 : fl p x - x = ((roundEven (x / ulp p x) : ℚ) - x / ulp p x) * ulp p x := by
    unfold fl
    field_simp
  rw [h1, abs_mul, abs_of_pos hu]
  have h2 := roundEven_err (x / ulp p x)
  have h3 : (2 : ℚ) ^ Int.log 2 |x| ≤ |x| := by
    have := Int.zpow_log_le_self (R := ℚ) (b := 2) (r := |x|) (by norm_num) (abs_pos.2 hx)
    exact_mod_cast this
  have h4 : ulp p x = 2 * (2 : ℚ) ^ Int.log 2 |x| / 2 ^ p := by
    unfold ulp
    rw [zpow_add₀ (by norm_num), zpow_sub₀ (by norm_num), zpow_one, zpow_natCast]
    ring
  calc _ ≤ 1 / 2 * ulp p x := mul_le_mul_of_nonneg_right h2 hu.le
    _ = (2 : ℚ) ^ Int.log 2 |x| / 2 ^ p := by rw [h4]; ring
    _ ≤ _ := div_le_div_of_nonneg_right h3 (by positivity)

/-- Numbers with at most `p` digits stay as they are. -/
theorem fl_exact {p : Nat} (hp : 0 < p) {m e : Int} (hm : |m| ≤ 2 ^ p) : fl p (m * 2 ^ e) = m * 2 ^ e := by
  rcases eq_or_ne m 0 with rfl | h0
  · simp [fl_zero]
  have hx : (m : ℚ) * 2 ^ e ≠ 0 := mul_ne_zero (by exact_mod_cast h0) (zpow_ne_zero _ (by norm_num))
  obtain ⟨k, hk⟩ : ∃ k : Int, (m : ℚ) * 2 ^ e / ulp p (m * 2 ^ e) = k := by
    have habs : |(m : ℚ) * 2 ^ e| = (|m| : Int) * 2 ^ e := by
      rw [abs_mul, abs_of_pos (zpow_pos (by norm_num : (0 : ℚ) < 2) e)]
      push_cast
      rfl
    have hL : (2 : ℚ) ^ Int.log 2 |(m : ℚ) * 2 ^ e| ≤ (|m| : Int) * 2 ^ e := by
      rw [← habs]
      exact_mod_cast Int.zpow_log_le_self (R := ℚ) (b := 2) (by norm_num) (abs_pos.2 hx)
    unfold ulp
    generalize Int.log 2 |(m : ℚ) * 2 ^ e| = l at hL ⊢
    have hm' : ((|m| : Int) : ℚ) ≤ 2 ^ (p : Int) := by rw [zpow_natCast]; exact_mod_cast hm
    have h2e : (0 : ℚ) < 2 ^ e := zpow_pos (by norm_num) e
    have hle : l ≤ p + e := by
      have : (2 : ℚ) ^ l ≤ 2 ^ ((p : Int) + e) := by
        rw [zpow_add₀ (by norm_num)]
        exact hL.trans (mul_le_mul_of_nonneg_right hm' h2e.le)
      exact (zpow_le_zpow_iff_right₀ (by norm_num)).1 this
    have hq : (m : ℚ) * 2 ^ e / 2 ^ (l - (p : Int) + 1) = m * 2 ^ (e - (l - p + 1)) := by
      rw [zpow_sub₀ (by norm_num) e]
      ring
    rw [hq]
    rcases hle.eq_or_lt with rfl | hlt
    · -- a power of two
      have h1 : (2 : ℚ) ^ (p : Int) ≤ (|m| : Int) := by
        rw [zpow_add₀ (by norm_num)] at hL
        exact le_of_mul_le_mul_right hL h2e
      have h2 : |m| = 2 ^ p := by
        refine le_antisymm hm ?_
        rw [zpow_natCast] at h1
        exact_mod_cast h1
      obtain ⟨q, rfl⟩ : ∃ q, p = q + 1 := ⟨p - 1, by omega⟩
      have h3 : (2 : Int) ∣ m := by
        rw [← dvd_abs, h2, pow_succ]
        exact Dvd.intro_left _ rfl
      obtain ⟨c, rfl⟩ := h3
      refine ⟨c, ?_⟩
      have : e - (((q + 1 : Nat) : Int) + e - ((q + 1 : Nat) : Int) + 1) = -1 := by ring
      rw [this]
      push_cast
      ring
    · obtain ⟨j, hj⟩ := Int.eq_ofNat_of_zero_le (show 0 ≤ e - (l - p + 1) by omega)
      refine ⟨m * 2 ^ j, ?_⟩
      rw [hj]
      push_cast
      rw [zpow_natCast]
  unfold fl
  rw [hk, roundEven_int, ← hk]
  have := (ulp_pos p ((m : ℚ) * 2 ^ e)).ne'
  field_simp

theorem fl_int {p : Nat} (hp : 0 < p) {m : Int} (hm : |m| ≤ 2 ^ p) : fl p (m : ℚ) = m := by
  have := fl_exact (e := 0) hp hm
  simpa using this

theorem fl_nat {p n : Nat} (hp : 0 < p) (hn : n ≤ 2 ^ p) : fl p (n : ℚ) = n := by
  have := fl_int (m := (n : Int)) hp (by rw [abs_of_nonneg (by omega)]; exact_mod_cast hn)
  simpa using this

theorem fl_nonneg {p : Nat} {x : ℚ} (hx : 0 ≤ x) : 0 ≤ fl p x := by
  have h1 : 0 ≤ ⌊x / ulp p x⌋ := Int.floor_nonneg.2 (div_nonneg hx (ulp_pos p x).le)
  have h2 : 0 ≤ roundEven (x / ulp p x) := by unfold roundEven; split_ifs <;> omega
  exact mul_nonneg (by exact_mod_cast h2) (ulp_pos p x).le

theorem fl_nonpos {p : Nat} {x : ℚ} (hx : x ≤ 0) : fl p x ≤ 0 := by
  have h0 : x / ulp p x ≤ 0 := div_nonpos_of_nonpos_of_nonneg hx (ulp_pos p x).le
  have h2 : roundEven (x / ulp p x) ≤ 0 := by
    have h3 := abs_le.1 (roundEven_err (x / ulp p x))
    have h4 : (roundEven (x / ulp p x) : ℚ) < 1 := by linarith [h3.2]
    have h5 : roundEven (x / ulp p x) < 1 := by exact_mod_cast h4
    omega
  exact mul_nonpos_of_nonpos_of_nonneg (by exact_mod_cast h2) (ulp_pos p x).le

/-- The numbers that occur. -/
theorem fl_repr (p : Nat) (x : ℚ) : ∃ m e : Int, |m| ≤ 2 ^ p ∧ fl p x = m * 2 ^ e ∧ e = Int.log 2 |x| - p + 1 := by
  refine ⟨roundEven (x / ulp p x), Int.log 2 |x| - p + 1, ?_, rfl, rfl⟩
  have h1 := roundEven_err (x / ulp p x)
  have h2 : |x / ulp p x| < 2 ^ p := by
    have h3 : |x| < (2 : ℚ) ^ (Int.log 2 |x| + 1) := by
      exact_mod_cast Int.lt_zpow_succ_log_self (R := ℚ) (b := 2) (by norm_num) |x|
    rw [abs_div, abs_of_pos (ulp_pos p x), div_lt_iff₀ (ulp_pos p x), ulp, ← zpow_natCast, ← zpow_add₀ (by norm_num)]
    rwa [show (p : Int) + (Int.log 2 |x| - p + 1) = Int.log 2 |x| + 1 by ring]
  have h3 : |(roundEven (x / ulp p x) : ℚ)| < 2 ^ p + 1 := by
    have := abs_sub_abs_le_abs_sub (roundEven (x / ulp p x) : ℚ) (x / ulp p x)
    linarith
  have h4 : |roundEven (x / ulp p x)| < 2 ^ p + 1 := by
    have h5 : ((|roundEven (x / ulp p x)| : Int) : ℚ) < ((2 ^ p + 1 : Int) : ℚ) := by push_cast; exact h3
    exact_mod_cast h5
  omega

/-! ## The positions -/

/-- The rounded product of the ratio and an output index. -/
def prod (p gi go o : Nat) : ℚ := fl p (fl p (fl p gi / fl p go) * fl p o)

theorem mixinIdx_eq (gi go o : Nat) : mixinIdx gi go (o : Nat) = ⌊prod double gi go o⌋ := by
  unfold mixinIdx prod
  push_cast
  rfl

theorem fl_err24 {p : Nat} (hp : 24 ≤ p) (x : ℚ) : |fl p x - x| ≤ |x| / 2 ^ 24 :=
  (fl_err p x).trans (div_le_div_of_nonneg_left (abs_nonneg x) (by positivity) (pow_le_pow_right₀ (by norm_num) hp))

theorem prod_nonneg (p gi go o : Nat) : 0 ≤ prod p gi go o :=
  fl_nonneg (mul_nonneg (fl_nonneg (div_nonneg (fl_nonneg (by positivity)) (fl_nonneg (by positivity))))
    (fl_nonneg (by positivity)))

theorem fl_nat24 {p n : Nat} (hp : 24 ≤ p) (hn : n ≤ 2 ^ 24) : fl p (n : ℚ) = n :=
  fl_nat (by omega) (hn.trans (Nat.pow_le_pow_right (by norm_num) hp))

theorem prod_err {p gi go o : Nat} (hp : 24 ≤ p) (hgi : gi ≤ 2 ^ 24) (hgo : go ≤ 2 ^ 24) (ho : o < go) :
    |prod p gi go o - (gi * o : ℚ) / go| ≤ 3 * ((gi * o : ℚ) / go) / 2 ^ 24 := by
  unfold prod
  rw [fl_nat24 hp hgi, fl_nat24 hp hgo, fl_nat24 hp (ho.le.trans hgo)]
  set r : ℚ := (gi : ℚ) / go
  have hr : 0 ≤ r := by positivity
  have hX : (gi * o : ℚ) / go = r * o := by simp only [r]; ring
  rw [hX]
  have h1 := fl_err24 hp r
  rw [abs_of_nonneg hr] at h1
  have h2 := fl_err24 hp (fl p r * o)
  have ho' : (0 : ℚ) ≤ o := by positivity
  rw [abs_of_nonneg (mul_nonneg (fl_nonneg hr) ho')] at h2
  have h3 : |fl p r * o - r * o| ≤ r * o / 2 ^ 24 := by
    rw [← sub_mul, abs_mul, abs_of_nonneg ho']
    calc _ ≤ r / 2 ^ 24 * o := mul_le_mul_of_nonneg_right h1 ho'
      _ = _ := by ring
  have hro : 0 ≤ r * o := mul_nonneg hr ho'
  rw [abs_le] at *
  constructor <;> linarith [h2.1, h2.2, h3.1, h3.2]

/-- The position that the kernel takes the floor of. -/
def pos (p gi go o : Nat) (io : Int) : ℚ := fl single (fl p (prod p gi go o - fl p io))

theorem pos_err {p gi go o : Nat} {io : Int} (hp : 24 ≤ p) (hgi : gi ≤ 2 ^ 24) (hgo : go ≤ 2 ^ 24) (ho : o < go)
    (h0 : 0 ≤ io) (h1 : io ≤ gi) : |pos p gi go o io - ((gi * o : ℚ) / go - io)| ≤ gi / 2 ^ 21 := by
  unfold pos
  have hio : fl p (io : ℚ) = io := by
    obtain ⟨n, rfl⟩ := Int.eq_ofNat_of_zero_le h0
    have := fl_nat24 (p := p) (n := n) hp (by omega)
    simpa using this
  rw [hio]
  have hgo' : (0 : ℚ) < go := by exact_mod_cast (by omega : 0 < go)
  have hXle : (gi * o : ℚ) / go ≤ gi := by
    rw [div_le_iff₀ hgo']
    exact mul_le_mul_of_nonneg_left (by exact_mod_cast ho.le) (by positivity)
  have hX0 : 0 ≤ (gi * o : ℚ) / go := by positivity
  have e1 := prod_err hp hgi hgo ho
  have e0 := prod_nonneg p gi go o
  have e2 := fl_err24 hp (prod p gi go o - io)
  have e3 := fl_err24 (p := single) (by decide) (fl p (prod p gi go o - io))
  have h0' : (0 : ℚ) ≤ io := by exact_mod_cast h0
  have h1' : (io : ℚ) ≤ gi := by exact_mod_cast h1
  generalize prod p gi go o = t at *
  generalize (gi * o : ℚ) / go = X at *
  have hD : |t - io| ≤ gi * (1 + 3 / 2 ^ 24) := by
    rw [abs_le] at e1 ⊢
    constructor <;> nlinarith [e1.1, e1.2]
  generalize fl p (t - io) = q at *
  have hq : |q| ≤ |t - io| + |t - io| / 2 ^ 24 := by
    have := abs_sub_abs_le_abs_sub q (t - io)
    linarith
  generalize fl single q = z at *
  have hz : |z - q| ≤ gi * (1 + 3 / 2 ^ 24) * (1 + 1 / 2 ^ 24) / 2 ^ 24 := by
    refine e3.trans ?_
    refine div_le_div_of_nonneg_right ?_ (by positivity)
    linarith
  have hd : |q - (t - io)| ≤ gi * (1 + 3 / 2 ^ 24) / 2 ^ 24 := e2.trans (div_le_div_of_nonneg_right hD (by positivity))
  have hg : (0 : ℚ) ≤ gi := by positivity
  rw [abs_le] at e1 hz hd ⊢
  constructor <;> linarith [e1.1, e1.2, hz.1, hz.2, hd.1, hd.2]

/-- The floor of a number close to a fraction. -/
theorem floor_near {go N : Nat} {io : Int} {z : ℚ} (hgo : 0 < go) (h : |z - ((N : ℚ) / go - io)| < 1 / go) :
    ((N / go : Nat) : Int) - io - 1 ≤ ⌊z⌋ ∧ ⌊z⌋ ≤ ((N / go : Nat) : Int) - io ∧
      (¬ go ∣ N → ⌊z⌋ = ((N / go : Nat) : Int) - io) := by
  have hgo' : (0 : ℚ) < go := by exact_mod_cast hgo
  have hN : (N : ℚ) / go = (N / go : Nat) + ((N % go : Nat) : ℚ) / go := by
    have : (N : ℚ) = (go : ℚ) * (N / go : Nat) + (N % go : Nat) := by exact_mod_cast (Nat.div_add_mod N go).symm
    rw [this, add_div, mul_div_cancel_left₀ _ hgo'.ne']
  have hm1 : ((N % go : Nat) : ℚ) / go ≤ 1 - 1 / go := by
    rw [div_le_iff₀ hgo', sub_mul, one_mul, div_mul_cancel₀ _ hgo'.ne']
    have : N % go + 1 ≤ go := Nat.mod_lt _ hgo
    have : ((N % go : Nat) : ℚ) + 1 ≤ go := by exact_mod_cast this
    linarith
  have hm0 : 0 ≤ ((N % go : Nat) : ℚ) / go := by positivity
  have hg1 : (1 : ℚ) / go ≤ 1 := by
    rw [div_le_one hgo']
    exact_mod_cast hgo
  rw [hN, abs_lt] at h
  have hnz : ¬ go ∣ N → 1 ≤ N % go := fun hnd => by
    rcases Nat.eq_zero_or_pos (N % go) with h0 | h0
    · exact absurd (Nat.dvd_of_mod_eq_zero h0) hnd
    · exact h0
  clear hN
  generalize N / go = q at *
  generalize N % go = r at *
  have up : ⌊z⌋ ≤ (q : Int) - io := by
    refine Int.lt_add_one_iff.1 (Int.floor_lt.2 ?_)
    push_cast
    linarith [h.2]
  refine ⟨?_, up, fun hnd => le_antisymm up ?_⟩
  · refine Int.le_floor.2 ?_
    push_cast
    linarith [h.1]
  · have h2 : (1 : ℚ) / go ≤ (r : ℚ) / go := div_le_div_of_nonneg_right (by exact_mod_cast hnz hnd) hgo'.le
    refine Int.le_floor.2 ?_
    push_cast
    linarith [h.1]

theorem fl_fl {p : Nat} (hp : 0 < p) (x : ℚ) : fl p (fl p x) = fl p x := by
  obtain ⟨m, e, hm, he, -⟩ := fl_repr p x
  rw [he, fl_exact hp hm]

/-- In single precision the offset is subtracted without an error. -/
theorem pos_single {gi go o : Nat} {io : Int} (hgi : gi ≤ 2 ^ 20) (hgo : go ≤ 2 ^ 24) (ho : o < go)
    (h0 : 0 ≤ io) (h1 : io ≤ ((gi * o / go : Nat) : Int)) : pos single gi go o io = prod single gi go o - io := by
  have hgo' : (0 : ℚ) < go := by exact_mod_cast (by omega : 0 < go)
  have hX0 : 0 ≤ (gi * o : ℚ) / go := by positivity
  have hXle : (gi * o : ℚ) / go ≤ gi := by
    rw [div_le_iff₀ hgo']
    exact mul_le_mul_of_nonneg_left (by exact_mod_cast ho.le) (by positivity)
  have hgq : (gi : ℚ) ≤ 2 ^ 20 := by exact_mod_cast hgi
  have h1' : (io : ℚ) ≤ (gi * o : ℚ) / go := by
    have a : (io : ℚ) ≤ ((gi * o / go : Nat) : ℚ) := by
      have := Int.cast_le (R := ℚ).2 h1
      rwa [Int.cast_natCast] at this
    have b : ((gi * o / go : Nat) : ℚ) ≤ ((gi * o : Nat) : ℚ) / go := Nat.cast_div_le
    push_cast at b
    exact a.trans b
  have h0' : (0 : ℚ) ≤ io := by exact_mod_cast h0
  have hio : fl single (io : ℚ) = io := by
    have h2 : io ≤ 2 ^ 24 := by
      have : (io : ℚ) ≤ 2 ^ 24 := by linarith
      exact_mod_cast this
    exact fl_int (by decide) (by rw [abs_of_nonneg h0]; exact_mod_cast h2)
  have key : fl single (prod single gi go o - io) = prod single gi go o - io := by
    rcases h0.eq_or_lt with rfl | hpos
    · push_cast
      rw [sub_zero]
      exact fl_fl (by decide) _
    have h1io : (1 : ℚ) ≤ io := by exact_mod_cast hpos
    have e1 := prod_err (p := single) (le_refl 24) (hgi.trans (by norm_num)) hgo ho
    have e0 := prod_nonneg single gi go o
    unfold prod at e1 e0 ⊢
    obtain ⟨m, e, hm, ht, he⟩ := fl_repr single (fl single (fl single gi / fl single go) * fl single o)
    have e2 := fl_err24 (p := single) (le_refl 24) (fl single (fl single gi / fl single go) * fl single o)
    have hx0 : 0 ≤ fl single (fl single gi / fl single go) * fl single o :=
      mul_nonneg (fl_nonneg (div_nonneg (fl_nonneg (by positivity)) (fl_nonneg (by positivity)))) (fl_nonneg (by positivity))
    rw [abs_of_nonneg hx0] at e2 he
    rw [ht] at e0 e1 e2 ⊢
    generalize fl single (fl single gi / fl single go) * fl single o = x at *
    generalize (gi * o : ℚ) / go = X at *
    rw [abs_le] at e1 e2
    have hx1 : 1 / 2 ≤ x := by linarith [e1.1, e2.2]
    have hx2 : x < 2 ^ 23 := by linarith [e1.2, e2.1]
    have hxp : 0 < x := by linarith
    have hl1 : -1 ≤ Int.log 2 x := (Int.zpow_le_iff_le_log (by norm_num) hxp).1 (by norm_num; linarith)
    have hl2 : Int.log 2 x < 23 := (Int.lt_zpow_iff_log_lt (by norm_num) hxp).1 (by norm_num; linarith)
    have hs : ((single : Nat) : Int) = 24 := rfl
    rw [hs] at he
    obtain ⟨j, hj⟩ := Int.eq_ofNat_of_zero_le (show 0 ≤ -e by omega)
    obtain rfl : e = -(j : Int) := by omega
    have hj24 : j ≤ 24 := by omega
    have h2j : (0 : ℚ) < 2 ^ j := by positivity
    have h2j' : (2 : ℚ) ^ j ≤ 2 ^ 24 := pow_le_pow_right₀ (by norm_num) hj24
    have hz : (2 : ℚ) ^ (-(j : Int)) = 1 / 2 ^ j := by rw [zpow_neg, zpow_natCast, one_div]
    have hform : (m : ℚ) * 2 ^ (-(j : Int)) - io = ((m - io * 2 ^ j : Int) : ℚ) * 2 ^ (-(j : Int)) := by
      rw [hz]
      push_cast
      field_simp
    rw [hform]
    refine fl_exact (by decide) ?_
    rw [abs_le] at hm ⊢
    constructor
    · have : -(2 : ℚ) ^ 24 ≤ ((m - io * 2 ^ j : Int) : ℚ) := by
        push_cast
        rw [hz, mul_one_div] at e1
        have a : (io : ℚ) - m / 2 ^ j ≤ 1 := by linarith [e1.1]
        have b : ((io : ℚ) - m / 2 ^ j) * 2 ^ j ≤ 1 * 2 ^ j := mul_le_mul_of_nonneg_right a h2j.le
        rw [sub_mul, div_mul_cancel₀ _ h2j.ne'] at b
        linarith
      exact_mod_cast this
    · have : 0 ≤ io * 2 ^ j := by positivity
      linarith [hm.2]
  unfold pos
  rw [hio, key, key]

end Verif.Fp
