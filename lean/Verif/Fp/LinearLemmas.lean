import Verif.Fp.LinearSpec
import Verif.Fp.Lemmas
import Verif.Slicing.Lemmas

/-!
# Positions in linear interpolation
-/

namespace Verif.Fp

/-! ## Errors of positions -/

theorem fl_err53 (x : ℚ) : |fl double x - x| ≤ |x| / 2 ^ 24 := fl_err24 (by decide) x

/-- A product and a difference with four roundings. -/
theorem chain_err {p q q' : Nat} {r f y s B : ℚ} (hp : 24 ≤ p) (hq : 24 ≤ q) (hq' : 24 ≤ q') (hr : 0 ≤ r) (hy : 0 ≤ y)
    (hf : |f - r| ≤ 3 * r / 2 ^ 24) (hB : r * y ≤ B) (hs0 : 0 ≤ s) (hs : s ≤ B) :
    |fl p (fl q' (fl q (f * y) - s)) - (r * y - s)| ≤ B / 2 ^ 21 := by
  have hry : 0 ≤ r * y := mul_nonneg hr hy
  have hB0 : 0 ≤ B := hry.trans hB
  have h1 : |f * y - r * y| ≤ 3 * B / 2 ^ 24 := by
    rw [← sub_mul, abs_mul, abs_of_nonneg hy]
    calc _ ≤ 3 * r / 2 ^ 24 * y := mul_le_mul_of_nonneg_right hf hy
      _ = 3 * (r * y) / 2 ^ 24 := by ring
      _ ≤ _ := by gcongr
  have h1' : |f * y| ≤ B + 3 * B / 2 ^ 24 := by
    have := abs_sub_abs_le_abs_sub (f * y) (r * y)
    rw [abs_of_nonneg hry] at this
    linarith
  have h2 := fl_err24 hq (f * y)
  generalize f * y = a at *
  generalize fl q a = b at *
  have h2' : |b - a| ≤ (B + 3 * B / 2 ^ 24) / 2 ^ 24 := h2.trans (by gcongr)
  have h3 : |b - r * y| ≤ 3 * B / 2 ^ 24 + (B + 3 * B / 2 ^ 24) / 2 ^ 24 := by
    rw [abs_le] at *
    constructor <;> linarith [h1.1, h1.2, h2'.1, h2'.2]
  have h4 : |b - s| ≤ B * (1 + 5 / 2 ^ 24) := by
    rw [abs_le] at *
    constructor <;> linarith [h3.1, h3.2]
  have h5 := fl_err24 hq' (b - s)
  generalize fl q' (b - s) = c at *
  have h5' : |c - (b - s)| ≤ B * (1 + 5 / 2 ^ 24) / 2 ^ 24 := h5.trans (by gcongr)
  have h6 : |c| ≤ B * (1 + 7 / 2 ^ 24) := by
    have := abs_sub_abs_le_abs_sub c (b - s)
    linarith
  have h7 := fl_err24 hp c
  have h7' : |fl p c - c| ≤ B * (1 + 7 / 2 ^ 24) / 2 ^ 24 := h7.trans (by gcongr)
  generalize fl p c = d at *
  rw [abs_le] at *
  constructor <;> linarith [h3.1, h3.2, h5'.1, h5'.2, h7'.1, h7'.2]

/-- The exact factor. -/
def Lin.rate (l : Lin) : ℚ :=
  if l.align then ((l.gi : ℚ) - 1) / ((l.go : ℚ) - 1)
  else match l.scale with
    | some s => 1 / s
    | none => (l.gi : ℚ) / l.go

/-- What is added to an index. -/
def Lin.shift (l : Lin) : ℚ := if l.align then 0 else 1 / 2

theorem Lin.exact_eq (l : Lin) (y : Nat) : exactPos l y = l.rate * (y + l.shift) - l.shift := by
  unfold exactPos rate shift
  split
  · ring
  · rcases l.scale with _ | s <;> (simp only; ring)

theorem Lin.shift_nonneg (l : Lin) : 0 ≤ l.shift := by
  unfold shift
  split <;> norm_num

variable {l : Lin} {p n i y : Nat}

theorem Lin.OK.rate_nonneg (h : l.OK) : 0 ≤ l.rate := by
  have h1 : (1 : ℚ) ≤ l.gi := by exact_mod_cast h.pos
  unfold rate
  split
  · next ha =>
    have : (2 : ℚ) ≤ l.go := by exact_mod_cast h.align ha
    exact div_nonneg (by linarith) (by linarith)
  · split
    · next s hs =>
      have := (h.scale s hs).1
      positivity
    · positivity

theorem fl_pred {p m : Nat} (hp : 24 ≤ p) (h0 : 0 < m) (hm : m ≤ 2 ^ 24) : fl p ((m : ℚ) - 1) = (m : ℚ) - 1 := by
  have := fl_nat24 (n := m - 1) hp (by omega)
  rwa [Nat.cast_pred h0] at this

theorem Lin.OK.fac_err (h : l.OK) (hp : 24 ≤ p) : |l.fac p - l.rate| ≤ 3 * l.rate / 2 ^ 24 := by
  have hr := h.rate_nonneg
  have hgi : l.gi ≤ 2 ^ 24 := h.gi.trans (by norm_num)
  have hgo : l.go ≤ 2 ^ 24 := h.go.trans (by norm_num)
  have key : ∀ r : ℚ, 0 ≤ r → |fl p r - r| ≤ 3 * r / 2 ^ 24 := by
    intro r hr
    have := fl_err24 hp r
    rw [abs_of_nonneg hr] at this
    refine this.trans ?_
    gcongr
    linarith
  unfold fac rate at *
  by_cases ha : l.align = true
  · simp only [ha, if_true] at hr ⊢
    have := h.align ha
    rw [fl_pred hp h.pos hgi, fl_pred hp (by omega) hgo]
    exact key _ hr
  · simp only [ha, Bool.false_eq_true, if_false] at hr ⊢
    rcases hs : l.scale with _ | s
    · rw [hs] at hr
      simp only at hr ⊢
      rw [fl_nat24 hp hgi, fl_nat24 hp hgo]
      exact key _ hr
    · rw [hs] at hr
      simp only at hr ⊢
      rw [if_pos (h.scale s hs).1]
      generalize 1 / s = r at *
      have h1 := fl_err53 r
      have h2 := fl_err24 hp (fl double r)
      have h3 : 0 ≤ fl double r := fl_nonneg hr
      rw [abs_of_nonneg hr] at h1
      rw [abs_of_nonneg h3] at h2
      generalize fl double r = q at *
      generalize fl p q = z at *
      rw [abs_le] at *
      constructor <;> linarith [h1.1, h1.2, h2.1, h2.2]

/-- Positions do not go far beyond the last cell. -/
theorem Lin.OK.exact_le (h : l.OK) (hy : y < l.go) : exactPos l y ≤ l.gi - 1 / 2 + 1 / 2 ^ 4 ∧ l.rate * (y + l.shift) ≤ l.gi + 1 / 2 ^ 4 ∧
    (l.align = true → exactPos l y ≤ l.gi - 1) := by
  have h1 : (1 : ℚ) ≤ l.gi := by exact_mod_cast h.pos
  have h2 : (l.gi : ℚ) ≤ 2 ^ 19 := by exact_mod_cast h.gi
  have hy' : (y : ℚ) + 1 ≤ l.go := by exact_mod_cast hy
  have hy0 : (0 : ℚ) ≤ y := by positivity
  rw [l.exact_eq]
  unfold rate shift
  by_cases ha : l.align = true
  · simp only [ha, if_true, add_zero, sub_zero, true_implies]
    have h3 : (2 : ℚ) ≤ l.go := by exact_mod_cast h.align ha
    have : ((l.gi : ℚ) - 1) / ((l.go : ℚ) - 1) * y ≤ l.gi - 1 := by
      rw [div_mul_eq_mul_div, div_le_iff₀ (by linarith)]
      exact mul_le_mul_of_nonneg_left (by linarith) (by linarith)
    exact ⟨by linarith, by linarith, this⟩
  · simp only [ha, Bool.false_eq_true, if_false, false_implies, and_true]
    rcases hs : l.scale with _ | s
    · simp only
      have : (l.gi : ℚ) / l.go * (y + 1 / 2) ≤ l.gi := by
        rw [div_mul_eq_mul_div, div_le_iff₀ (by linarith)]
        exact mul_le_mul_of_nonneg_left (by linarith) (by linarith)
      constructor <;> linarith
    · obtain ⟨hs0, hgo⟩ := h.scale s hs
      simp only
      have h3 : (l.go : ℚ) ≤ fl double (l.gi * s) := by
        have := Int.floor_le (fl double (l.gi * s))
        rw [← hgo] at this
        exact_mod_cast this
      have h4 := fl_err53 (l.gi * s)
      rw [abs_of_nonneg (mul_nonneg (by linarith) hs0.le : 0 ≤ (l.gi : ℚ) * s), abs_le] at h4
      have : 1 / s * (y + 1 / 2) ≤ l.gi + 1 / 2 ^ 4 := by
        rw [div_mul_eq_mul_div, one_mul, div_le_iff₀ hs0]
        have h5 : (l.gi : ℚ) * s / 2 ^ 24 ≤ 2 ^ 19 * s / 2 ^ 24 := by gcongr
        linarith [h4.2]
      constructor <;> linarith

/-- The position that the kernel computes. -/
theorem Lin.OK.raw_err (h : l.OK) (hp : 24 ≤ p) (hy : y < l.go) {io : Int} (h0 : 0 ≤ io) (h1 : io ≤ l.gi) :
    |l.raw p io y - (exactPos l y - io)| ≤ ((l.gi : ℚ) + 1) / 2 ^ 21 := by
  have hgi : l.gi ≤ 2 ^ 24 := h.gi.trans (by norm_num)
  have hgo : l.go ≤ 2 ^ 24 := h.go.trans (by norm_num)
  have hle := (h.exact_le hy).2.1
  have h0' : (0 : ℚ) ≤ io := by exact_mod_cast h0
  have h1' : (io : ℚ) ≤ l.gi := by exact_mod_cast h1
  have hsh := l.shift_nonneg
  have hfac := h.fac_err hp
  obtain ⟨m, rfl⟩ := Int.eq_ofNat_of_zero_le h0
  have hm : m ≤ l.gi := by exact_mod_cast h1
  by_cases ha : l.align = true
  · have e0 : l.shift = 0 := by simp [shift, ha]
    have e1 : l.raw p m y = fl p (fl p (fl p (l.fac p * y) - m)) := by
      have hm' := fl_nat24 (p := p) (n := m) hp (by omega)
      simp only [raw, ha, if_true]
      rw [fl_fl (by omega), fl_nat24 hp (by omega)]
      push_cast
      rw [hm']
    rw [e0] at hle
    rw [e1, l.exact_eq, e0]
    have := chain_err (y := y) (s := m) (B := l.gi + 1) hp hp hp h.rate_nonneg (by positivity) hfac
      (by rw [add_zero] at hle; linarith) (by positivity) (by push_cast at h1'; linarith)
    rw [add_zero, sub_zero]
    exact_mod_cast this
  · have e0 : l.shift = 1 / 2 := by simp [shift, ha]
    have half : ∀ k : Nat, k ≤ 2 ^ 24 → fl double ((k : ℚ) + 1 / 2) = k + 1 / 2 := by
      intro k hk
      have := fl_exact (p := double) (m := 2 * k + 1) (e := -1) (by decide) (by
        rw [abs_of_nonneg (by omega)]
        have : (2 : Int) ^ 24 * 2 + 1 ≤ 2 ^ double := by decide
        have : (k : Int) ≤ 2 ^ 24 := by exact_mod_cast hk
        omega)
      have e : ((2 * (k : Int) + 1 : Int) : ℚ) * 2 ^ (-1 : Int) = k + 1 / 2 := by
        push_cast
        rw [zpow_neg, zpow_one]
        ring
      rwa [e] at this
    have e1 : l.raw p m y = fl p (fl double (fl double (l.fac p * (y + 1 / 2)) - (m + 1 / 2))) := by
      simp only [raw, ha, Bool.false_eq_true, if_false]
      rw [half y (by omega)]
      push_cast
      rw [half m (by omega)]
    rw [e0] at hle
    rw [e1, l.exact_eq, e0]
    have := chain_err (y := y + 1 / 2) (s := m + 1 / 2) (B := l.gi + 1) hp (q := double) (q' := double) (by decide) (by decide)
      h.rate_nonneg (by positivity) hfac (by linarith) (by positivity) (by push_cast at h1'; linarith)
    have e2 : l.rate * ((y : ℚ) + 1 / 2) - (m + 1 / 2) = l.rate * (y + 1 / 2) - 1 / 2 - m := by ring
    rw [e2] at this
    exact_mod_cast this

/-- The mixin does what the kernel does in double precision for the whole input. -/
theorem Lin.OK.mixin_eq (h : l.OK) (hy : y < l.go) : l.mixin y = ⌊l.pos double 0 y⌋ := by
  have hgi : l.gi ≤ 2 ^ 24 := h.gi.trans (by norm_num)
  have hgo : l.go ≤ 2 ^ 24 := h.go.trans (by norm_num)
  by_cases ha : l.align = true
  · have h2 := h.align ha
    have e1 : l.raw double 0 y = fl double (fl double (fl double ((l.gi : ℚ) - 1) / fl double ((l.go : ℚ) - 1)) * fl double y) := by
      simp only [raw, fac, ha, if_true, Int.cast_zero]
      rw [fl_zero, sub_zero, fl_fl (by decide)]
    have e2 : 0 ≤ l.raw double 0 y := by
      rw [e1, fl_pred (by decide) h.pos hgi, fl_pred (by decide) (by omega) hgo]
      have a : (1 : ℚ) ≤ l.gi := by exact_mod_cast h.pos
      have b : (2 : ℚ) ≤ l.go := by exact_mod_cast h2
      exact fl_nonneg (mul_nonneg (fl_nonneg (div_nonneg (by linarith) (by linarith))) (fl_nonneg (by positivity)))
    rw [Lin.pos, if_neg (not_lt.2 e2), e1]
    simp only [mixin, ha, if_true]
  · have half : fl single (fl single (y : ℚ) + 1 / 2) = y + 1 / 2 ∧ fl double ((y : ℚ) + 1 / 2) = y + 1 / 2 := by
      rw [fl_nat24 (p := single) (by decide) (by omega)]
      have e : ((2 * (y : Int) + 1 : Int) : ℚ) * 2 ^ (-1 : Int) = y + 1 / 2 := by
        push_cast
        rw [zpow_neg, zpow_one]
        ring
      have hy20 : (y : Int) < 2 ^ 20 := by
        have := h.go
        exact_mod_cast (by omega : y < 2 ^ 20)
      rw [← e]
      constructor
      · refine fl_exact (by decide) ?_
        rw [abs_of_nonneg (by omega)]
        have : (2 : Int) ^ 20 * 2 ≤ 2 ^ single := by decide
        omega
      · refine fl_exact (by decide) ?_
        rw [abs_of_nonneg (by omega)]
        have : (2 : Int) ^ 20 * 2 ≤ 2 ^ double := by decide
        omega
    have h12 : fl double (1 / 2 : ℚ) = 1 / 2 := by
      have := fl_exact (p := double) (m := 1) (e := -1) (by decide) (by decide)
      have e : ((1 : Int) : ℚ) * 2 ^ (-1 : Int) = 1 / 2 := by
        rw [zpow_neg, zpow_one]
        norm_num
      rwa [e] at this
    have efac : l.fac double = match l.scale with
        | some s => fl double (1 / s)
        | none => fl double (fl double l.gi / fl double l.go) := by
      simp only [fac, ha, Bool.false_eq_true, if_false]
      rcases hs : l.scale with _ | s
      · rfl
      · simp only
        rw [if_pos (h.scale s hs).1, fl_fl (by decide)]
    have e1 : l.raw double 0 y = fl double (fl double (l.fac double * (y + 1 / 2)) - 1 / 2) := by
      simp only [raw, ha, Bool.false_eq_true, if_false, Int.cast_zero, zero_add]
      rw [half.2, h12, fl_fl (by decide)]
    have e3 : l.mixin y = ⌊if fl double (fl double (l.fac double * (y + 1 / 2)) - 1 / 2) < 0 then 0 else
        fl double (fl double (l.fac double * (y + 1 / 2)) - 1 / 2)⌋ := by
      rw [efac]
      simp only [mixin, ha, Bool.false_eq_true, if_false]
      rw [half.1]
      rcases l.scale with _ | s <;> rfl
    rw [Lin.pos, e1, e3]

/-- What the mixin computes. -/
theorem Lin.OK.mixin_near (h : l.OK) (hy : y < l.go) : 0 ≤ l.mixin y ∧
    ((l.mixin y : ℚ) ≤ exactPos l y + ((l.gi : ℚ) + 1) / 2 ^ 21 ∨ l.mixin y = 0) ∧
    exactPos l y - ((l.gi : ℚ) + 1) / 2 ^ 21 < l.mixin y + 1 := by
  have e := h.raw_err (p := double) (by decide) hy (io := 0) (le_refl 0) (by omega)
  rw [Int.cast_zero, sub_zero, abs_le] at e
  rw [h.mixin_eq hy, Lin.pos]
  split
  · next hn =>
    simp only [Int.floor_zero, Int.cast_zero, le_refl, or_true, true_and]
    linarith [e.1]
  · next hn =>
    have h1 := Int.floor_le (l.raw double 0 y)
    have h2 := Int.lt_floor_add_one (l.raw double 0 y)
    refine ⟨Int.floor_nonneg.2 (not_lt.1 hn), .inl ?_, ?_⟩ <;> linarith [e.1, e.2]

theorem Lin.OK.exact_mono (h : l.OK) {a b : Nat} (hab : a ≤ b) : exactPos l a ≤ exactPos l b := by
  rw [l.exact_eq, l.exact_eq]
  have : (a : ℚ) ≤ b := by exact_mod_cast hab
  have := mul_le_mul_of_nonneg_left (add_le_add_left this l.shift) h.rate_nonneg
  linarith

/-! ## The piecewise linear function -/

section
variable {gi : Nat} {X : Int → ℚ} {D : ℚ}

/-- Cells that are far apart. -/
theorem jump (hD : ∀ j : Int, 0 ≤ j → j + 1 < gi → |X (j + 1) - X j| ≤ D) (k : Nat) : ∀ j : Int, 0 ≤ j → j + k < gi →
    |X (j + k) - X j| ≤ D * k := by
  induction k with
  | zero => intro j _ _; simp
  | succ k ih =>
    intro j h0 h1
    push_cast at h1
    have a := ih j h0 (by omega)
    have b := hD (j + k) (by omega) (by omega)
    have e : j + ((k + 1 : Nat) : Int) = j + k + 1 := by push_cast; ring
    rw [e]
    push_cast
    rw [abs_le] at *
    constructor <;> linarith [a.1, a.2, b.1, b.2]

/-- The function between the cells. -/
def seg (X : Int → ℚ) (c : ℚ) : ℚ := X ⌊c⌋ + (c - ⌊c⌋) * (X (⌊c⌋ + 1) - X ⌊c⌋)

theorem seg_int (X : Int → ℚ) (m : Int) : seg X m = X m := by
  unfold seg
  rw [Int.floor_intCast]
  ring

theorem seg_in {c : ℚ} {m : Int} (h0 : (m : ℚ) ≤ c) (h1 : c ≤ m + 1) : seg X c = X m + (c - m) * (X (m + 1) - X m) := by
  rcases h1.eq_or_lt with rfl | h1
  · have : (m : ℚ) + 1 = ((m + 1 : Int) : ℚ) := by push_cast; rfl
    rw [this, seg_int]
    push_cast
    ring
  · have : ⌊c⌋ = m := Int.floor_eq_iff.2 ⟨h0, h1⟩
    rw [seg, this]

theorem seg_lip (hD : ∀ j : Int, 0 ≤ j → j + 1 < gi → |X (j + 1) - X j| ≤ D) {a b : ℚ} (h0 : 0 ≤ a) (hab : a ≤ b)
    (hb : b ≤ gi - 1) : |seg X b - seg X a| ≤ D * (b - a) := by
  have inside : ∀ (m : Int) (u v : ℚ), 0 ≤ m → (m : ℚ) ≤ u → u ≤ v → v ≤ m + 1 → v ≤ gi - 1 → |seg X v - seg X u| ≤ D * (v - u) := by
    intro m u v hm hu huv hv hg
    rw [seg_in hu (huv.trans hv), seg_in (hu.trans huv) hv]
    rcases huv.eq_or_lt with rfl | hlt
    · simp
    have hm1 : m + 1 < gi := by
      have : (m : ℚ) + 1 < gi := by linarith
      exact_mod_cast this
    have := hD m hm hm1
    have e : X m + (v - m) * (X (m + 1) - X m) - (X m + (u - m) * (X (m + 1) - X m)) = (v - u) * (X (m + 1) - X m) := by ring
    rw [e, abs_mul, abs_of_nonneg (by linarith), mul_comm]
    exact mul_le_mul_of_nonneg_right this (by linarith)
  have ha0 := Int.floor_nonneg.2 h0
  have ha1 := Int.floor_le a
  have ha2 := Int.lt_floor_add_one a
  have hb1 := Int.floor_le b
  have hb2 := Int.lt_floor_add_one b
  by_cases he : ⌊b⌋ = ⌊a⌋
  · exact inside ⌊a⌋ a b ha0 ha1 hab (by rw [← he]; exact hb2.le) hb
  · have hlt : ⌊a⌋ + 1 ≤ ⌊b⌋ := by
      have := Int.floor_le_floor hab
      omega
    obtain ⟨k, hk⟩ := Int.eq_ofNat_of_zero_le (show 0 ≤ ⌊b⌋ - (⌊a⌋ + 1) by omega)
    have hk' : ⌊a⌋ + 1 + (k : Int) = ⌊b⌋ := by omega
    have hkq : (⌊a⌋ : ℚ) + 1 + k = ⌊b⌋ := by exact_mod_cast hk'
    have hbg : ⌊b⌋ < gi := by
      have : (⌊b⌋ : ℚ) < gi := by linarith
      exact_mod_cast this
    have s1 := inside ⌊a⌋ a ((⌊a⌋ + 1 : Int) : ℚ) ha0 ha1 (by push_cast; exact ha2.le) (by push_cast; rfl) (by push_cast; linarith [(by positivity : (0 : ℚ) ≤ k)])
    have s2 := jump hD k (⌊a⌋ + 1) (by omega) (by omega)
    have s3 := inside ⌊b⌋ ⌊b⌋ b (by omega) (le_refl _) hb1 hb2.le hb
    rw [seg_int] at s1 s3
    rw [hk'] at s2
    push_cast at s1
    have e : D * (b - a) = D * ((⌊a⌋ : ℚ) + 1 - a) + D * k + D * (b - ⌊b⌋) := by
      rw [← hkq]
      ring
    rw [e]
    rw [abs_le] at *
    constructor <;> linarith [s1.1, s1.2, s2.1, s2.2, s3.1, s3.2]

theorem seg_near (hD : ∀ j : Int, 0 ≤ j → j + 1 < gi → |X (j + 1) - X j| ≤ D) {a b δ : ℚ} (hD0 : 0 ≤ D) (h0 : 0 ≤ a) (h1 : a ≤ gi - 1)
    (h2 : 0 ≤ b) (h3 : b ≤ gi - 1) (h : |b - a| ≤ δ) : |seg X b - seg X a| ≤ D * δ := by
  rw [abs_le] at h
  rcases le_total a b with hab | hab
  · refine (seg_lip hD h0 hab h3).trans (mul_le_mul_of_nonneg_left ?_ hD0)
    linarith [h.2]
  · rw [abs_sub_comm]
    refine (seg_lip hD h2 hab h1).trans (mul_le_mul_of_nonneg_left ?_ hD0)
    linarith [h.1]

end

end Verif.Fp
