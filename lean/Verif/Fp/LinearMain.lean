import Verif.Fp.LinearCells

/-!
# Linear interpolation with rounding: cells and weights of one output
-/

namespace Verif.Fp

variable {l : Lin} {p n i y : Nat}

theorem Lin.OK.pos_le (h : l.OK) (hp : 24 ≤ p) (hy : y < l.go) {s e : Int} (hw : Win l y s e) : l.pos p s y ≤ l.gi + 1 := by
  obtain ⟨h0, -, h1⟩ := h.pos_near hp hy hw
  have hs : (0 : ℚ) ≤ s := by exact_mod_cast hw.start
  have hle := (h.exact_le hy).1
  have := h.err_le.2
  rcases h1 with h1 | h1
  · linarith
  · rw [h1]
    positivity

/-- `floorf` in double precision, and what it can change. -/
theorem Lin.OK.single_near (h : l.OK) (hp : 24 ≤ p) (hy : y < l.go) {s e : Int} (hw : Win l y s e) :
    |fl single (l.pos p s y) - l.pos p s y| ≤ ((l.gi : ℚ) + 1) / 2 ^ 24 := by
  have h1 := fl_err24 (p := single) (le_refl 24) (l.pos p s y)
  rw [abs_of_nonneg (h.pos_near hp hy hw).1] at h1
  exact h1.trans (div_le_div_of_nonneg_right (h.pos_le hp hy hw) (by positivity))

/-- In single precision it changes nothing. -/
theorem Lin.single_exact (l : Lin) (s : Int) (y : Nat) : fl single (l.pos single s y) = l.pos single s y := by
  unfold Lin.pos
  split
  · exact fl_zero _
  · unfold Lin.raw
    split <;> exact fl_fl (by decide) _

/-- The two cells, the weight before it is moved to 0 or 1, and where they are. -/
structure Near (l : Lin) (p y : Nat) (s e : Int) (δ : ℚ) (i0 i1 : Int) (μ : ℚ) : Prop where
  terms : l.terms p s (e - s).toNat y = ((i0, fl p (fl double (1 - snapped (fl p μ)))), (i1, snapped (fl p μ)))
  cells : (i1 = i0 + 1 ∧ s ≤ s + i0 ∧ s + i0 + 1 < e ∧ -δ ≤ μ ∧ μ ≤ 1 + δ ∧ s + l.pos p s y = s + i0 + μ) ∨
    (i1 = i0 ∧ s + i0 = e - 1 ∧ -δ ≤ μ ∧ μ ≤ 1 ∧ s + l.pos p s y = s + i0 + μ)

theorem Lin.OK.near (h : l.OK) (hp : 24 ≤ p) (hy : y < l.go) {s e : Int} (hw : Win l y s e) {δ : ℚ}
    (hd : |fl single (l.pos p s y) - l.pos p s y| ≤ δ) : ∃ i0 i1 μ, Near l p y s e δ i0 i1 μ := by
  obtain ⟨p0, -, p2⟩ := h.pos_near hp hy hw
  obtain ⟨e1, e2⟩ := h.err_le
  have hle := (h.exact_le hy).1
  have hpos := hw.pos
  have hstart := hw.start
  have hstop := hw.stop
  have hli : 0 < (e - s).toNat := by omega
  have hli' : (((e - s).toNat : Nat) : Int) = e - s := by omega
  have hc := cells_cases (t := l.pos p s y) hli (fl_nonneg (p := single) p0) hd
  have hgi : (l.gi : Int) ≤ 2 ^ 19 := by exact_mod_cast h.gi
  obtain ⟨i0, hi0⟩ : ∃ i0, clampIdx ⌊fl single (l.pos p s y)⌋ 0 ((((e - s).toNat : Nat) : Int) - 1) = i0 := ⟨_, rfl⟩
  obtain ⟨i1, hi1⟩ : ∃ i1, clampIdx (i0 + 1) 0 ((((e - s).toNat : Nat) : Int) - 1) = i1 := ⟨_, rfl⟩
  rw [hi0, hi1] at hc
  have ht : ∀ (_ : 0 ≤ i0) (_ : i0 ≤ l.gi), l.terms p s (e - s).toNat y =
      ((i0, fl p (fl double (1 - snapped (fl p (l.pos p s y - i0))))), (i1, snapped (fl p (l.pos p s y - i0)))) := by
    intro a b
    have hfl : fl p (i0 : ℚ) = i0 := fl_int (by omega) (by
      rw [abs_of_nonneg a]
      have : (2 : Int) ^ 24 ≤ 2 ^ p := pow_le_pow_right₀ (by norm_num) hp
      omega)
    unfold Lin.terms
    dsimp only
    rw [hi0, hi1, hfl]
  refine ⟨i0, i1, l.pos p s y - i0, ?_⟩
  rcases hc with ⟨c1, c2, c3, c4, c5⟩ | ⟨c1, c2, c3⟩
  · refine ⟨ht c2 (by omega), .inl ⟨c1, by omega, by omega, c4, c5, by ring⟩⟩
  · rw [hli'] at c1 c2 c3
    have c4 : s + i0 = e - 1 := by omega
    refine ⟨ht (by omega) (by omega), .inr ⟨by omega, c4, by rw [c2]; exact c3, ?_, by ring⟩⟩
    have c5 : (s : ℚ) + i0 = e - 1 := by exact_mod_cast c4
    have c6 : (0 : ℚ) ≤ i0 := by exact_mod_cast (by omega : 0 ≤ i0)
    rcases p2 with p2 | p2
    · rcases hw.right with hr | hr
      · have : (e : ℚ) = l.gi := by exact_mod_cast hr
        linarith
      · linarith
    · rw [p2]
      linarith

/-- The weighted mean of the two cells, computed without rounding, and the exact value. -/
theorem Lin.OK.mean_near (h : l.OK) (hp : 24 ≤ p) (hy : y < l.go) {s e : Int} (hw : Win l y s e) {i0 i1 : Int} {μ : ℚ}
    (hn : Near l p y s e (((l.gi : ℚ) + 1) / 2 ^ 24) i0 i1 μ) {X : Int → ℚ} {D : ℚ} (hD0 : 0 ≤ D)
    (hD : ∀ j : Int, 0 ≤ j → j + 1 < l.gi → |X (j + 1) - X j| ≤ D) :
    |(1 - snapped (fl p μ)) * X (s + i0) + snapped (fl p μ) * X (s + i1) - lerp l.gi X (exactPos l y)| ≤
      D * (1 / 10000 + ((l.gi : ℚ) + 1) / 2 ^ 19) := by
  obtain ⟨-, p1, -⟩ := h.pos_near hp hy hw
  have g1 : (1 : ℚ) ≤ l.gi := by exact_mod_cast h.pos
  have g2 : (l.gi : ℚ) ≤ 2 ^ 19 := by exact_mod_cast h.gi
  have e1 : l.err = ((l.gi : ℚ) + 1) / 2 ^ 21 := rfl
  have hstart := hw.start
  have hstop := hw.stop
  have hpos := hw.pos
  have δ0 : (0 : ℚ) ≤ ((l.gi : ℚ) + 1) / 2 ^ 24 := by positivity
  have δ1 : ((l.gi : ℚ) + 1) / 2 ^ 24 ≤ 1 := by
    rw [div_le_one (by positivity)]
    linarith
  change |_ - seg X (cl l.gi (exactPos l y))| ≤ _
  have final : ∀ c : ℚ, c ≤ 1 / 10000 + ((l.gi : ℚ) + 1) / 2 ^ 19 → D * c ≤ D * (1 / 10000 + ((l.gi : ℚ) + 1) / 2 ^ 19) :=
    fun c hc => mul_le_mul_of_nonneg_left hc hD0
  rcases hn.cells with ⟨c1, c2, c3, c4, c5, c6⟩ | ⟨c1, c2, c3, -, c6⟩
  · have hk := lam_err hp (μ := μ) (by linarith) (by linarith)
    have e2 : (((s + i0 : Int) : ℚ)) = s + i0 := by push_cast; rfl
    have key := two_cells (P := s + l.pos p s y) (I := s + i0) (lam := snapped (fl p μ)) hD (by omega) (by omega)
      (by rw [c6, e2]; linarith) (by rw [c6, e2]; linarith) (κ := 1 / 10000 + 1 / 2 ^ 22)
      (by rw [c6, e2, add_sub_cancel_left]; exact hk) δ0
    have key2 := seg_near hD hD0 (cl_nonneg _ (exactPos l y)) (cl_le h.pos _) (cl_nonneg _ (s + l.pos p s y)) (cl_le h.pos _) p1
    rw [c1, ← add_assoc]
    refine le_trans ?_ (final (l.err + (2 * (((l.gi : ℚ) + 1) / 2 ^ 24) + (1 / 10000 + 1 / 2 ^ 22))) ?_)
    · rw [mul_add D l.err, abs_le] at *
      constructor <;> linarith [key.1, key.2, key2.1, key2.2]
    · rw [e1]
      norm_num
      linarith
  · rw [c1, c2]
    have e2 : (1 - snapped (fl p μ)) * X (e - 1) + snapped (fl p μ) * X (e - 1) = seg X ((e - 1 : Int) : ℚ) := by
      rw [seg_int]
      ring
    have c7 : (s : ℚ) + i0 = e - 1 := by exact_mod_cast c2
    have he0 : (0 : ℚ) ≤ ((e - 1 : Int) : ℚ) := by exact_mod_cast (by omega)
    have he1 : ((e - 1 : Int) : ℚ) ≤ l.gi - 1 := by
      have : (e : ℚ) ≤ l.gi := by exact_mod_cast hstop
      push_cast
      linarith
    rw [e2, abs_sub_comm]
    refine (seg_near hD hD0 he0 he1 (cl_nonneg _ _) (cl_le h.pos _) (δ := l.err + ((l.gi : ℚ) + 1) / 2 ^ 24) ?_).trans
      (final _ ?_)
    · rw [abs_le] at p1 ⊢
      constructor
      · have a : cl l.gi (((e - 1 : Int) : ℚ)) ≤ cl l.gi (s + l.pos p s y) + ((l.gi : ℚ) + 1) / 2 ^ 24 := by
          refine (cl_mono _ ?_).trans (cl_add δ0)
          push_cast
          linarith
        rw [cl_of he0 he1] at a
        linarith [p1.2]
      · rcases hw.right with hr | hr
        · have a := cl_le h.pos (exactPos l y)
          have : (e : ℚ) = l.gi := by exact_mod_cast hr
          have := h.err_le.1
          push_cast
          linarith
        · have a : cl l.gi (exactPos l y) ≤ cl l.gi (((e - 1 : Int) : ℚ)) + l.err := by
            refine (cl_mono _ ?_).trans (cl_add h.err_le.1.le)
            push_cast
            linarith
          rw [cl_of he0 he1] at a
          linarith
    · rw [e1]
      norm_num
      linarith

/-! ## Weights between 0 and 1 -/

theorem snapped_unit {x : ℚ} (h0 : -(99 / 1000000) ≤ x) (h1 : x ≤ 1 + 99 / 1000000) : 0 ≤ snapped x ∧ snapped x ≤ 1 := by
  obtain ⟨l1, -⟩ := limit_le
  norm_num at l1
  unfold snapped
  by_cases ha : |x| < fl double (1 / 10000)
  · rw [if_pos ha]
    dsimp only
    split <;> norm_num
  · rw [if_neg ha]
    dsimp only
    split
    · norm_num
    · next hb =>
      rw [abs_lt, not_and_or, not_lt, not_lt] at ha
      constructor
      · rcases ha with ha | ha
        · norm_num at ha
          linarith
        · norm_num at ha
          linarith
      · by_contra hx
        refine hb ?_
        have h2 := fl_err53 (x - 1)
        have h3 := abs_sub_abs_le_abs_sub (fl double (x - 1)) (x - 1)
        rw [abs_of_nonneg (by linarith : 0 ≤ x - 1)] at h2 h3
        norm_num at h2 h3 ⊢
        linarith

theorem roundEven_le {y : ℚ} {m : Int} (h : y ≤ m) : roundEven y ≤ m := by
  have h1 := Int.floor_le_floor h
  rw [Int.floor_intCast] at h1
  have h2 := Int.floor_le y
  rcases h1.eq_or_lt with h3 | h3
  · have : y = m := le_antisymm h (h3 ▸ h2)
    rw [this, roundEven_int]
  · unfold roundEven
    split_ifs <;> omega

theorem fl_le_one {p : Nat} (hp : 0 < p) {x : ℚ} (h0 : 0 ≤ x) (h1 : x ≤ 1) : fl p x ≤ 1 := by
  rcases h1.eq_or_lt with rfl | h1
  · have := fl_nat (p := p) (n := 1) hp (Nat.one_le_two_pow)
    push_cast at this
    rw [this]
  rcases h0.eq_or_lt with rfl | h0
  · rw [fl_zero]
    norm_num
  have hx : x < (2 : ℚ) ^ (Int.log 2 |x| + 1) := by
    rw [abs_of_pos h0]
    exact_mod_cast Int.lt_zpow_succ_log_self (R := ℚ) (b := 2) (by norm_num) x
  have hu := ulp_pos p x
  have hlog : Int.log 2 |x| < 0 := by
    rw [abs_of_pos h0]
    exact (Int.lt_zpow_iff_log_lt (by norm_num) h0).1 (by norm_num; exact h1)
  have hul : ulp p x * 2 ^ p = (2 : ℚ) ^ (Int.log 2 |x| + 1) := by
    unfold ulp
    rw [← zpow_natCast, ← zpow_add₀ (by norm_num)]
    congr 1
    ring
  have h2 : x / ulp p x ≤ ((2 ^ p : Int) : ℚ) := by
    rw [div_le_iff₀ hu]
    push_cast
    rw [mul_comm, hul]
    exact hx.le
  have h3 := roundEven_le h2
  have h4 : (roundEven (x / ulp p x) : ℚ) ≤ 2 ^ p := by exact_mod_cast h3
  calc fl p x ≤ 2 ^ p * ulp p x := mul_le_mul_of_nonneg_right h4 hu.le
    _ = (2 : ℚ) ^ (Int.log 2 |x| + 1) := by rw [mul_comm, hul]
    _ ≤ 2 ^ (0 : Int) := zpow_le_zpow_right₀ (by norm_num) (by omega)
    _ = 1 := zpow_zero _

theorem Near.weights {s e i0 i1 : Int} {δ μ : ℚ} (hn : Near l p y s e δ i0 i1 μ) (hp : 24 ≤ p) (hδ : δ ≤ 98 / 1000000) :
    0 ≤ snapped (fl p μ) ∧ snapped (fl p μ) ≤ 1 := by
  have h : -δ ≤ μ ∧ μ ≤ 1 + 98 / 1000000 := by
    rcases hn.cells with ⟨-, -, -, h1, h2, -⟩ | ⟨-, -, h1, h2, -⟩
    · exact ⟨h1, by linarith⟩
    · exact ⟨h1, by linarith⟩
  have h1 := fl_err24 hp μ
  have h2 : |fl p μ - μ| ≤ 2 / 2 ^ 24 := h1.trans (div_le_div_of_nonneg_right (abs_le.2 ⟨by linarith [h.1], by linarith [h.2]⟩) (by positivity))
  rw [abs_le] at h2
  norm_num at h2
  exact snapped_unit (by linarith [h.1, h2.1]) (by linarith [h.2, h2.2])

end Verif.Fp
