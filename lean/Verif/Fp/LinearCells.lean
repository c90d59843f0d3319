import Verif.Fp.LinearLemmas

/-!
# Cells and weights in linear interpolation
-/

namespace Verif.Fp

variable {l : Lin} {p n i y : Nat}

/-- The bound of the errors of positions. -/
def Lin.err (l : Lin) : ℚ := ((l.gi : ℚ) + 1) / 2 ^ 21

theorem Lin.OK.err_le (h : l.OK) : 0 < l.err ∧ l.err ≤ 13 / 50 := by
  have : (l.gi : ℚ) ≤ 2 ^ 19 := by exact_mod_cast h.gi
  unfold Lin.err
  constructor
  · positivity
  · rw [div_le_iff₀ (by norm_num)]
    linarith

/-! ## The local input -/

/-- What a worker has. -/
structure Win (l : Lin) (y : Nat) (s e : Int) : Prop where
  start : 0 ≤ s
  pos : s < e
  stop : e ≤ l.gi
  left : (s : ℚ) ≤ exactPos l y + l.err ∨ s = 0
  right : e = l.gi ∨ exactPos l y < e - 1 + l.err

theorem Lin.OK.window (h : l.OK) (hi : i < n) (h0 : startIdx n i l.go ≤ y) (h1 : y < stopIdx n i l.go) :
    Win l y (l.start (startIdx n i l.go)) (l.stop (stopIdx n i l.go - 1)) := by
  have hstop : stopIdx n i l.go ≤ l.go := by
    rw [← startIdx_succ]
    exact startIdx_le (by omega) l.go (by omega)
  obtain ⟨e1, e2⟩ := h.err_le
  have hy : y < l.go := by omega
  generalize startIdx n i l.go = a at *
  obtain ⟨b, hb⟩ : ∃ b, stopIdx n i l.go = b + 1 := ⟨stopIdx n i l.go - 1, by omega⟩
  rw [hb] at h1 hstop ⊢
  simp only [Nat.add_sub_cancel]
  have ma := h.mixin_near (y := a) (by omega)
  have mb := h.mixin_near (y := b) (by omega)
  have pa := h.exact_mono h0
  have pb := h.exact_mono (show y ≤ b by omega)
  have hle := (h.exact_le hy).1
  have hle' := (h.exact_le (show a < l.go by omega)).1
  obtain ⟨ma0, ma1, -⟩ := ma
  obtain ⟨mb0, -, mb2⟩ := mb
  rw [← Lin.err.eq_def] at ma1 mb2
  have es : l.start a = l.mixin a := max_eq_right ma0
  have ee : l.stop b = min (l.gi : Int) (l.mixin b + 2) := by
    unfold Lin.stop
    rw [add_assoc]
    rfl
  rw [es, ee]
  have hsgi : l.mixin a < l.gi := by
    rcases ma1 with hm | hm
    · have : (l.mixin a : ℚ) < l.gi := by linarith
      exact_mod_cast this
    · rw [hm]
      exact_mod_cast h.pos
  refine ⟨ma0, lt_min hsgi ?_, min_le_left _ _, ?_, ?_⟩
  · rcases ma1 with hm | hm
    · have : (l.mixin a : ℚ) < l.mixin b + 2 := by linarith
      exact_mod_cast this
    · omega
  · rcases ma1 with hm | hm
    · left
      linarith
    · exact .inr hm
  · rcases le_total (l.gi : Int) (l.mixin b + 2) with hm | hm
    · exact .inl (min_eq_left hm)
    · right
      rw [min_eq_right hm]
      push_cast
      linarith

/-! ## Positions -/

/-- Into the range of the input. -/
def cl (gi : Nat) (t : ℚ) : ℚ := max 0 (min ((gi : ℚ) - 1) t)

theorem cl_nonneg (gi : Nat) (t : ℚ) : 0 ≤ cl gi t := le_max_left _ _

theorem cl_le {gi : Nat} (h : 0 < gi) (t : ℚ) : cl gi t ≤ gi - 1 := by
  have : (1 : ℚ) ≤ gi := by exact_mod_cast h
  exact max_le (by linarith) (min_le_left _ _)

theorem cl_mono (gi : Nat) {a b : ℚ} (h : a ≤ b) : cl gi a ≤ cl gi b := max_le_max le_rfl (min_le_min le_rfl h)

theorem cl_of {gi : Nat} {t : ℚ} (h0 : 0 ≤ t) (h1 : t ≤ gi - 1) : cl gi t = t := by
  rw [cl, min_eq_right h1, max_eq_right h0]

theorem cl_add {gi : Nat} {t d : ℚ} (hd : 0 ≤ d) : cl gi (t + d) ≤ cl gi t + d := by
  unfold cl
  refine max_le ?_ ?_
  · linarith [le_max_left 0 (min ((gi : ℚ) - 1) t)]
  · have : min ((gi : ℚ) - 1) (t + d) ≤ min ((gi : ℚ) - 1) t + d := by
      rcases le_total ((gi : ℚ) - 1) t with h | h
      · rw [min_eq_left h]
        exact (min_le_left _ _).trans (by linarith)
      · rw [min_eq_right h]
        exact min_le_right _ _
    exact this.trans (add_le_add_left (le_max_right _ _) d)

theorem cl_lip {gi : Nat} {a b d : ℚ} (h : |a - b| ≤ d) : |cl gi a - cl gi b| ≤ d := by
  have hd : 0 ≤ d := (abs_nonneg _).trans h
  rw [abs_le] at h ⊢
  have h1 : cl gi a ≤ cl gi b + d := (cl_mono gi (by linarith [h.2] : a ≤ b + d)).trans (cl_add hd)
  have h2 : cl gi b ≤ cl gi a + d := (cl_mono gi (by linarith [h.1] : b ≤ a + d)).trans (cl_add hd)
  constructor <;> linarith

theorem Lin.OK.pos_near (h : l.OK) (hp : 24 ≤ p) (hy : y < l.go) {s e : Int} (hw : Win l y s e) :
    0 ≤ l.pos p s y ∧ |cl l.gi (s + l.pos p s y) - cl l.gi (exactPos l y)| ≤ l.err ∧
      (s + l.pos p s y ≤ exactPos l y + l.err ∨ l.pos p s y = 0) := by
  have e1 := h.raw_err hp hy hw.start (hw.pos.le.trans hw.stop)
  rw [← Lin.err.eq_def] at e1
  obtain ⟨e2, e3⟩ := h.err_le
  unfold Lin.pos
  rw [abs_le] at e1
  split
  · next hn =>
    refine ⟨le_refl _, ?_, .inr rfl⟩
    rw [add_zero]
    rcases hw.left with hl | hl
    · refine cl_lip ?_
      rw [abs_le]
      constructor <;> linarith [e1.1]
    · subst hl
      push_cast at e1 ⊢
      have h0 : cl l.gi 0 = 0 := by
        refine cl_of le_rfl ?_
        have : (1 : ℚ) ≤ l.gi := by exact_mod_cast h.pos
        linarith
      have h1 : cl l.gi (exactPos l y) ≤ 0 + l.err := by
        rw [← h0]
        refine (cl_mono _ ?_).trans (cl_add e2.le)
        linarith [e1.1]
      rw [h0, abs_le]
      constructor <;> linarith [cl_nonneg l.gi (exactPos l y)]
  · next hn =>
    refine ⟨not_lt.1 hn, cl_lip ?_, .inl ?_⟩
    · rw [abs_le]
      constructor <;> linarith [e1.1, e1.2]
    · linarith [e1.2]

/-! ## Cells -/

theorem clamp_of {a b : Int} (h0 : 0 ≤ a) (h1 : a ≤ b) : clampIdx a 0 b = a := by
  unfold clampIdx
  rw [max_eq_right h0, min_eq_right h1]

theorem clamp_top {a b : Int} (h0 : 0 ≤ b) (h1 : b ≤ a) : clampIdx a 0 b = b := by
  unfold clampIdx
  rw [max_eq_right (h0.trans h1), min_eq_left h1]

/-- The cells are neighbours between which the position lies, or both are the last cell. -/
theorem cells_cases {t t' δ : ℚ} {li : Nat} (hli : 0 < li) (h0 : 0 ≤ t') (hd : |t' - t| ≤ δ) :
    ((clampIdx (clampIdx ⌊t'⌋ 0 ((li : Int) - 1) + 1) 0 ((li : Int) - 1) = clampIdx ⌊t'⌋ 0 ((li : Int) - 1) + 1 ∧
      0 ≤ clampIdx ⌊t'⌋ 0 ((li : Int) - 1) ∧ clampIdx ⌊t'⌋ 0 ((li : Int) - 1) + 1 < li ∧
      -δ ≤ t - clampIdx ⌊t'⌋ 0 ((li : Int) - 1) ∧ t - clampIdx ⌊t'⌋ 0 ((li : Int) - 1) ≤ 1 + δ) ∨
    (clampIdx (clampIdx ⌊t'⌋ 0 ((li : Int) - 1) + 1) 0 ((li : Int) - 1) = (li : Int) - 1 ∧ clampIdx ⌊t'⌋ 0 ((li : Int) - 1) = (li : Int) - 1 ∧
      -δ ≤ t - ((li : Int) - 1 : Int))) := by
  have h1 := Int.floor_le t'
  have h2 := Int.lt_floor_add_one t'
  have h3 := Int.floor_nonneg.2 h0
  rw [abs_le] at hd
  by_cases hc : ⌊t'⌋ + 1 < li
  · left
    rw [clamp_of h3 (by omega), clamp_of (by omega) (by omega)]
    exact ⟨rfl, h3, hc, by linarith [hd.2], by linarith [hd.1]⟩
  · right
    rw [clamp_top (a := ⌊t'⌋) (by omega) (by omega), clamp_top (by omega) (by omega)]
    refine ⟨rfl, rfl, ?_⟩
    have h4 : (li : Int) - 1 ≤ ⌊t'⌋ := by omega
    have h5 : (((li : Int) - 1 : Int) : ℚ) ≤ ⌊t'⌋ := Int.cast_le.2 h4
    linarith [hd.2]

/-- Two cells with weights that add up to 1, and the piecewise linear function. -/
theorem two_cells {gi : Nat} {X : Int → ℚ} {D δ κ lam P : ℚ} {I : Int} (hD : ∀ j : Int, 0 ≤ j → j + 1 < gi → |X (j + 1) - X j| ≤ D)
    (h0 : 0 ≤ I) (h1 : I + 1 < gi) (hm0 : -δ ≤ P - I) (hm1 : P - I ≤ 1 + δ) (hk : |lam - (P - I)| ≤ κ) (hδ : 0 ≤ δ) :
    |(1 - lam) * X I + lam * X (I + 1) - seg X (cl gi P)| ≤ D * (2 * δ + κ) := by
  have hd := hD I h0 h1
  have hD0 : 0 ≤ D := (abs_nonneg _).trans hd
  have hκ : 0 ≤ κ := (abs_nonneg _).trans hk
  have hI : (0 : ℚ) ≤ I := by exact_mod_cast h0
  have hI1 : (I : ℚ) + 1 ≤ gi - 1 := by
    have : I + 2 ≤ (gi : Int) := by omega
    have : ((I + 2 : Int) : ℚ) ≤ gi := by exact_mod_cast this
    push_cast at this
    linarith
  have part : ∀ c : ℚ, |c * (X (I + 1) - X I)| ≤ |c| * D := fun c => by
    rw [abs_mul]
    exact mul_le_mul_of_nonneg_left hd (abs_nonneg c)
  have hgi : 0 < gi := by omega
  rcases lt_or_ge P I with hP | hP
  · have s1 : |seg X (cl gi P) - seg X I| ≤ D * δ := by
      refine seg_near hD hD0 hI (by linarith) (cl_nonneg _ _) (cl_le hgi _) ?_
      have := cl_lip (gi := gi) (a := P) (b := I) (d := δ) (by rw [abs_le]; constructor <;> linarith)
      rwa [cl_of hI (by linarith)] at this
    rw [seg_int] at s1
    have s2 := part lam
    have s3 : |lam| ≤ δ + κ := by
      rw [abs_le] at hk ⊢
      constructor <;> linarith [hk.1, hk.2]
    have s4 := mul_le_mul_of_nonneg_right s3 hD0
    have e : (1 - lam) * X I + lam * X (I + 1) - seg X (cl gi P) = lam * (X (I + 1) - X I) - (seg X (cl gi P) - X I) := by ring
    rw [e]
    have := abs_sub (lam * (X (I + 1) - X I)) (seg X (cl gi P) - X I)
    linarith
  · rcases lt_or_ge (I + 1 : ℚ) P with hQ | hQ
    · have s1 : |seg X (cl gi P) - seg X ((I + 1 : Int) : ℚ)| ≤ D * δ := by
        refine seg_near hD hD0 (by push_cast; linarith) (by push_cast; linarith) (cl_nonneg _ _) (cl_le hgi _) ?_
        have := cl_lip (gi := gi) (a := P) (b := I + 1) (d := δ) (by rw [abs_le]; constructor <;> linarith)
        rw [cl_of (t := (I : ℚ) + 1) (by linarith) (by linarith)] at this
        push_cast
        exact this
      rw [seg_int] at s1
      have s2 := part (lam - 1)
      have s3 : |lam - 1| ≤ δ + κ := by
        rw [abs_le] at hk ⊢
        constructor <;> linarith [hk.1, hk.2]
      have s4 := mul_le_mul_of_nonneg_right s3 hD0
      have e : (1 - lam) * X I + lam * X (I + 1) - seg X (cl gi P) =
          (lam - 1) * (X (I + 1) - X I) - (seg X (cl gi P) - X (I + 1)) := by ring
      rw [e]
      have := abs_sub ((lam - 1) * (X (I + 1) - X I)) (seg X (cl gi P) - X (I + 1))
      linarith
    · rw [cl_of (by linarith) (by linarith), seg_in hP hQ]
      have s2 := part (lam - (P - I))
      have s4 := mul_le_mul_of_nonneg_right hk hD0
      have e : (1 - lam) * X I + lam * X (I + 1) - (X I + (P - I) * (X (I + 1) - X I)) =
          (lam - (P - I)) * (X (I + 1) - X I) := by ring
      rw [e]
      have : 0 ≤ D * δ := mul_nonneg hD0 hδ
      linarith

/-! ## Weights -/

theorem limit_le : 1 / 10000 - 1 / 2 ^ 30 ≤ fl double (1 / 10000) ∧ fl double (1 / 10000) ≤ 1 / 10000 + 1 / 2 ^ 30 := by
  have := fl_err53 (1 / 10000)
  rw [abs_of_nonneg (by norm_num : (0 : ℚ) ≤ 1 / 10000), abs_le] at this
  norm_num at this ⊢
  constructor <;> linarith [this.1, this.2]

theorem snapped_err (x : ℚ) : |snapped x - x| ≤ 1 / 10000 + 1 / 2 ^ 28 := by
  obtain ⟨-, h1⟩ := limit_le
  unfold snapped
  by_cases ha : |x| < fl double (1 / 10000)
  · rw [if_pos ha]
    have hb : ¬ |fl double ((0 : ℚ) - 1)| < fl double (1 / 10000) := by
      have : fl double ((0 : ℚ) - 1) = -1 := by
        have := fl_int (p := double) (m := -1) (by decide) (by decide)
        push_cast at this
        rw [zero_sub]
        exact this
      rw [this]
      norm_num at h1 ⊢
      linarith
    rw [if_neg hb, zero_sub, abs_neg]
    norm_num at h1 ⊢
    linarith
  · rw [if_neg ha]
    dsimp only
    split
    · next hb =>
      have h2 := fl_err53 (x - 1)
      have h3 := abs_sub_abs_le_abs_sub (x - 1) (fl double (x - 1))
      rw [abs_sub_comm (x - 1)] at h3
      rw [abs_sub_comm]
      norm_num at h1 h2 h3 ⊢
      linarith
    · rw [sub_self, abs_zero]
      positivity

theorem lam_err {p : Nat} (hp : 24 ≤ p) {μ : ℚ} (h0 : -2 ≤ μ) (h1 : μ ≤ 2) : |snapped (fl p μ) - μ| ≤ 1 / 10000 + 1 / 2 ^ 22 := by
  have a := snapped_err (fl p μ)
  have b := fl_err24 hp μ
  have c : |μ| ≤ 2 := abs_le.2 ⟨h0, h1⟩
  have d : |fl p μ - μ| ≤ 2 / 2 ^ 24 := b.trans (by gcongr)
  rw [abs_le] at *
  norm_num at *
  constructor <;> linarith [a.1, a.2, d.1, d.2]

/-- Rounding of weights, products and the sum. -/
theorem sum_err {p : Nat} (hp : 24 ≤ p) (hp' : p ≤ 53) {lam x0 x1 M : ℚ} (h0 : |lam| ≤ 2) (h1 : |1 - lam| ≤ 2) (hx0 : |x0| ≤ M) (hx1 : |x1| ≤ M) :
    |fl p (fl p (fl p (fl double (1 - lam)) * x0) + fl p (lam * x1)) - ((1 - lam) * x0 + lam * x1)| ≤ 16 * M / 2 ^ p := by
  have hM : 0 ≤ M := (abs_nonneg _).trans hx0
  obtain ⟨u, hu⟩ : ∃ u : ℚ, u = 1 / 2 ^ p := ⟨_, rfl⟩
  have hu0 : 0 ≤ u := by rw [hu]; positivity
  have hu1 : u ≤ 1 / 2 ^ 24 := by
    rw [hu]
    exact one_div_le_one_div_of_le (by positivity) (pow_le_pow_right₀ (by norm_num) hp)
  have E : ∀ x B : ℚ, |x| ≤ B → |fl p x - x| ≤ B * u := fun x B h => by
    refine (fl_err p x).trans ?_
    rw [div_eq_mul_one_div, ← hu]
    exact mul_le_mul_of_nonneg_right h hu0
  have E' : ∀ x B : ℚ, |x| ≤ B → |fl double x - x| ≤ B * u := fun x B h => by
    have hB : 0 ≤ B := (abs_nonneg _).trans h
    refine (fl_err double x).trans ?_
    rw [div_eq_mul_one_div]
    have : (1 : ℚ) / 2 ^ double ≤ u := by
      rw [hu]
      exact one_div_le_one_div_of_le (by positivity) (pow_le_pow_right₀ (by norm_num) hp')
    exact mul_le_mul h this (by positivity) hB
  have T : ∀ a b c d : ℚ, |a - b| ≤ c → |b| ≤ d → |a| ≤ d + c := fun a b c d h1 h2 => by
    have := abs_sub_abs_le_abs_sub a b
    linarith
  have a1 := E' (1 - lam) 2 h1
  have a2 := T _ _ _ _ a1 h1
  have a3 := E _ _ a2
  generalize fl p (fl double (1 - lam)) = w at *
  generalize fl double (1 - lam) = w' at *
  have a4 : |w - (1 - lam)| ≤ 5 * u := by
    have : (2 + 2 * u) * u ≤ 3 * u := mul_le_mul_of_nonneg_right (by linarith) hu0
    rw [abs_le] at *
    constructor <;> linarith [a1.1, a1.2, a3.1, a3.2]
  have a5 : |w * x0 - (1 - lam) * x0| ≤ 5 * u * M := by
    rw [← sub_mul, abs_mul]
    exact mul_le_mul a4 hx0 (abs_nonneg _) (by linarith)
  have a6 : |(1 - lam) * x0| ≤ 2 * M := by
    rw [abs_mul]
    exact mul_le_mul h1 hx0 (abs_nonneg _) (by norm_num)
  have a7 : |lam * x1| ≤ 2 * M := by
    rw [abs_mul]
    exact mul_le_mul h0 hx1 (abs_nonneg _) (by norm_num)
  have uM : u * M ≤ 1 / 2 ^ 24 * M := mul_le_mul_of_nonneg_right hu1 hM
  have uM0 : 0 ≤ u * M := mul_nonneg hu0 hM
  have a8 : |w * x0| ≤ 3 * M := by
    have := T _ _ _ _ a5 a6
    linarith
  have a9 := E _ _ a8
  have a10 := E _ _ a7
  generalize fl p (w * x0) = q0 at *
  generalize fl p (lam * x1) = q1 at *
  generalize w * x0 = z0 at *
  generalize (1 - lam) * x0 = y0 at *
  generalize lam * x1 = y1 at *
  have b1 : |q0 + q1 - (y0 + y1)| ≤ 10 * (u * M) := by
    rw [abs_le] at *
    constructor <;> linarith [a5.1, a5.2, a9.1, a9.2, a10.1, a10.2]
  have b2 : |y0 + y1| ≤ 4 * M := (abs_add_le _ _).trans (by linarith)
  have b3 : |q0 + q1| ≤ 5 * M := by
    have := T _ _ _ _ b1 b2
    linarith
  have b4 := E _ _ b3
  have : 16 * M / 2 ^ p = 16 * (u * M) := by rw [hu]; ring
  rw [this]
  rw [abs_le] at *
  constructor <;> linarith [b1.1, b1.2, b4.1, b4.2]

end Verif.Fp
