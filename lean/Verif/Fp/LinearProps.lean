import Verif.Fp.LinearMain

/-!
# Linear interpolation with rounding on several workers (C85, C86)

C86, the full statement: the weights of the two cells lie between 0 and 1, so that non-negative inputs give non-negative outputs.
It is false in double precision (`C86_false`), because `floorf` may round the position up; what holds is below.
-/

namespace Verif.Fp

/-! ## C85 -/

/-- C85: whichever worker computes it, an output differs from the exact linear interpolation of the global input by at most
1/10000 + (gi + 1) / 2^19 of the largest difference of neighbouring inputs and 16 rounding errors of the largest input. -/
theorem C85_accurate {l : Lin} (h : l.OK) {p n i y : Nat} (hp : p = single ∨ p = double) (hi : i < n) (h0 : startIdx n i l.go ≤ y)
    (h1 : y < stopIdx n i l.go) {X : Int → ℚ} {D M : ℚ} (hD : ∀ j : Int, 0 ≤ j → j + 1 < l.gi → |X (j + 1) - X j| ≤ D) (hD0 : 0 ≤ D)
    (hM : ∀ j : Int, 0 ≤ j → j < l.gi → |X j| ≤ M) :
    |l.out p n i X y - lerp l.gi X (exactPos l y)| ≤ D * (1 / 10000 + ((l.gi : ℚ) + 1) / 2 ^ 19) + 16 * M / 2 ^ p := by
  have hp' : 24 ≤ p := by rcases hp with rfl | rfl <;> decide
  have hp'' : p ≤ 53 := by rcases hp with rfl | rfl <;> decide
  have hstop : stopIdx n i l.go ≤ l.go := by
    rw [← startIdx_succ]
    exact startIdx_le (by omega) l.go (by omega)
  have hy : y < l.go := by omega
  have hw := h.window hi h0 h1
  obtain ⟨i0, i1, μ, hn⟩ := h.near hp' hy hw (h.single_near hp' hy hw)
  have hm := h.mean_near hp' hy hw hn hD0 hD
  have hstart := hw.start
  have hstop' := hw.stop
  have g2 : (l.gi : ℚ) ≤ 2 ^ 19 := by exact_mod_cast h.gi
  have δ1 : ((l.gi : ℚ) + 1) / 2 ^ 24 ≤ 1 / 2 := by
    rw [div_le_iff₀ (by positivity)]
    have : (1 : ℚ) / 2 * 2 ^ 24 = 2 ^ 19 * 16 := by norm_num
    rw [this]
    linarith
  have hμ : -(1 / 2) ≤ μ ∧ μ ≤ 3 / 2 := by
    rcases hn.cells with ⟨-, -, -, a, b, -⟩ | ⟨-, -, a, b, -⟩ <;> exact ⟨by linarith, by linarith⟩
  have hlam := lam_err hp' (μ := μ) (by linarith [hμ.1]) (by linarith [hμ.2])
  have hcell : (0 ≤ l.start (startIdx n i l.go) + i0 ∧ l.start (startIdx n i l.go) + i0 < l.gi) ∧
      0 ≤ l.start (startIdx n i l.go) + i1 ∧ l.start (startIdx n i l.go) + i1 < l.gi := by
    have := hw.pos
    rcases hn.cells with ⟨a, b, c, -⟩ | ⟨a, b, -⟩ <;> omega
  have e : l.out p n i X y = fl p (fl p (fl p (fl double (1 - snapped (fl p μ))) * X (l.start (startIdx n i l.go) + i0)) +
      fl p (snapped (fl p μ) * X (l.start (startIdx n i l.go) + i1))) := by
    unfold Lin.out Lin.eval
    dsimp only
    rw [hn.terms]
  generalize snapped (fl p μ) = lam at *
  rw [abs_le] at hlam
  norm_num at hlam
  have hs := sum_err hp' hp'' (lam := lam) (abs_le.2 ⟨by linarith [hlam.1, hμ.1], by linarith [hlam.2, hμ.2]⟩)
    (abs_le.2 ⟨by linarith [hlam.2, hμ.2], by linarith [hlam.1, hμ.1]⟩) (hM _ hcell.1.1 hcell.1.2) (hM _ hcell.2.1 hcell.2.2)
  rw [e]
  rw [abs_le] at *
  constructor <;> linarith [hs.1, hs.2, hm.1, hm.2]

/-- C85: so the result on several workers is close to that of one worker. -/
theorem C85_workers {l : Lin} (h : l.OK) {p n i y : Nat} (hp : p = single ∨ p = double) (hi : i < n) (h0 : startIdx n i l.go ≤ y)
    (h1 : y < stopIdx n i l.go) {X : Int → ℚ} {D M : ℚ} (hD : ∀ j : Int, 0 ≤ j → j + 1 < l.gi → |X (j + 1) - X j| ≤ D) (hD0 : 0 ≤ D)
    (hM : ∀ j : Int, 0 ≤ j → j < l.gi → |X j| ≤ M) :
    |l.out p n i X y - l.out p 1 0 X y| ≤ 2 * (D * (1 / 10000 + ((l.gi : ℚ) + 1) / 2 ^ 19) + 16 * M / 2 ^ p) := by
  have hstop : stopIdx n i l.go ≤ l.go := by
    rw [← startIdx_succ]
    exact startIdx_le (by omega) l.go (by omega)
  have a := C85_accurate h hp hi h0 h1 hD hD0 hM
  have b := C85_accurate h (n := 1) (i := 0) (y := y) hp (by decide) (by rw [startIdx_zero]; omega)
    (by rw [← startIdx_succ, startIdx_top (by decide)]; omega) hD hD0 hM
  rw [abs_le] at *
  constructor <;> linarith [a.1, a.2, b.1, b.2]

/-! ## C86 -/

/-- C86 is false in double precision: 10002 inputs, 10001 outputs, `align_corners`, one worker.  The input is 1 at cell 10000 and 0
elsewhere, and output 9998 is negative. -/
theorem C86_false : ¬ ∀ (l : Lin) (n i y : Nat) (X : Int → ℚ), l.OK → i < n → startIdx n i l.go ≤ y → y < stopIdx n i l.go →
    (∀ j, 0 ≤ X j) → 0 ≤ l.out double n i X y := by
  intro h
  have h1 := h ⟨true, none, 10002, 10001⟩ 1 0 9998 (fun j => if j = 10000 then 1 else 0)
    ⟨by decide, by norm_num, by norm_num, fun _ => by decide, nofun⟩ (by decide) (by decide) (by decide)
    (fun j => by split <;> norm_num)
  revert h1
  decide +kernel

/-- C86, partial: in single precision, and in double precision for at most 1600 inputs, the weights lie between 0 and 1 and the cells
are cells of the global input; so non-negative inputs give non-negative outputs. -/
theorem C86_partial {l : Lin} (h : l.OK) {p n i y : Nat} (hp : p = single ∨ p = double ∧ l.gi ≤ 1600) (hi : i < n)
    (h0 : startIdx n i l.go ≤ y) (h1 : y < stopIdx n i l.go) :
    (∀ c, c = (l.cells p n i y).1 ∨ c = (l.cells p n i y).2 → 0 ≤ c.1 ∧ c.1 < l.gi ∧ 0 ≤ c.2 ∧ c.2 ≤ 1) ∧
    ∀ X : Int → ℚ, (∀ j : Int, 0 ≤ j → j < l.gi → 0 ≤ X j) → 0 ≤ l.out p n i X y := by
  have hp' : 24 ≤ p := by rcases hp with rfl | ⟨rfl, -⟩ <;> decide
  have hstop : stopIdx n i l.go ≤ l.go := by
    rw [← startIdx_succ]
    exact startIdx_le (by omega) l.go (by omega)
  have hy : y < l.go := by omega
  have hw := h.window hi h0 h1
  obtain ⟨δ, hδ, hd⟩ : ∃ δ : ℚ, δ ≤ 98 / 1000000 ∧
      |fl single (l.pos p (l.start (startIdx n i l.go)) y) - l.pos p (l.start (startIdx n i l.go)) y| ≤ δ := by
    rcases hp with rfl | ⟨rfl, hgi⟩
    · refine ⟨0, by norm_num, ?_⟩
      rw [l.single_exact, sub_self, abs_zero]
    · refine ⟨_, ?_, h.single_near hp' hy hw⟩
      have : (l.gi : ℚ) ≤ 1600 := by exact_mod_cast hgi
      rw [div_le_iff₀ (by positivity)]
      norm_num
      linarith
  obtain ⟨i0, i1, μ, hn⟩ := h.near hp' hy hw hd
  obtain ⟨w0, w1⟩ := hn.weights hp' hδ
  have hstart := hw.start
  have hstop' := hw.stop
  have hcell : (0 ≤ l.start (startIdx n i l.go) + i0 ∧ l.start (startIdx n i l.go) + i0 < l.gi) ∧
      0 ≤ l.start (startIdx n i l.go) + i1 ∧ l.start (startIdx n i l.go) + i1 < l.gi := by
    have := hw.pos
    rcases hn.cells with ⟨a, b, c, -⟩ | ⟨a, b, -⟩ <;> omega
  have v0 : 0 ≤ fl p (fl double (1 - snapped (fl p μ))) := fl_nonneg (fl_nonneg (by linarith))
  have v1 : fl p (fl double (1 - snapped (fl p μ))) ≤ 1 :=
    fl_le_one (by omega) (fl_nonneg (by linarith)) (fl_le_one (by decide) (by linarith) (by linarith))
  refine ⟨fun c hc => ?_, fun X hX => ?_⟩
  · unfold Lin.cells at hc
    dsimp only at hc
    rw [hn.terms] at hc
    rcases hc with rfl | rfl
    · exact ⟨hcell.1.1, hcell.1.2, v0, v1⟩
    · exact ⟨hcell.2.1, hcell.2.2, w0, w1⟩
  · unfold Lin.out Lin.eval
    dsimp only
    rw [hn.terms]
    exact fl_nonneg (add_nonneg (fl_nonneg (mul_nonneg v0 (hX _ hcell.1.1 hcell.1.2)))
      (fl_nonneg (mul_nonneg w0 (hX _ hcell.2.1 hcell.2.2))))

/-! ## Worked cases -/

/-- 10 inputs, 23 outputs. -/
def exLin : Lin := ⟨false, none, 10, 23⟩

theorem exLin_ok : exLin.OK := ⟨by decide, by decide, by decide, nofun, nofun⟩

/-- Scale factor 5/2. -/
def exScale : Lin := ⟨false, some (5 / 2), 10, 25⟩

theorem exScale_ok : exScale.OK :=
  ⟨by decide, by decide, by decide, nofun, fun s hs => by obtain rfl := Option.some.inj hs; decide +kernel⟩

/-- The inputs 0, 3, 6, …; output 12 lies between cells 4 and 5, and the third of four workers has it. -/
example : |exLin.out single 4 2 (fun j => 3 * j) 12 - lerp 10 (fun j => 3 * j) (exactPos exLin 12)| ≤
    3 * (1 / 10000 + (10 + 1) / 2 ^ 19) + 16 * 27 / 2 ^ 24 ∧ lerp 10 (fun j => 3 * j) (exactPos exLin 12) = 681 / 46 := by
  refine ⟨?_, ?_⟩
  rotate_left
  · rw [show exactPos exLin 12 = 227 / 46 by norm_num [exactPos, exLin]]
    norm_num [lerp]
  refine C85_accurate exLin_ok (.inl rfl) (by decide) (by decide) (by decide) (D := 3) (M := 27) (fun j _ _ => ?_) (by norm_num)
    fun j h0 h1 => ?_
  · push_cast
    rw [show 3 * ((j : ℚ) + 1) - 3 * j = 3 by ring]
    norm_num
  · have a : (0 : ℚ) ≤ j := by exact_mod_cast h0
    have b : (j : ℚ) ≤ 9 := by
      have h2 : j < 10 := h1
      exact_mod_cast (by omega : j ≤ 9)
    rw [abs_of_nonneg (by linarith)]
    linarith

/-- The last output, on one worker and on four. -/
example : |exScale.out double 4 3 (fun j => if j = 9 then 1 else 0) 24 - exScale.out double 1 0 (fun j => if j = 9 then 1 else 0) 24| ≤
    2 * (1 * (1 / 10000 + (10 + 1) / 2 ^ 19) + 16 * 1 / 2 ^ 53) :=
  C85_workers exScale_ok (.inr rfl) (by decide) (by decide) (by decide)
    (fun j _ _ => by split <;> split <;> norm_num) (by norm_num) (fun j _ _ => by split <;> norm_num)

/-- Weights in single precision. -/
example : 0 ≤ (exLin.cells single 4 2 12).2.2 ∧ (exLin.cells single 4 2 12).2.2 ≤ 1 :=
  ((C86_partial exLin_ok (.inl rfl) (by decide) (by decide) (by decide)).1 _ (.inr rfl)).2.2

end Verif.Fp
