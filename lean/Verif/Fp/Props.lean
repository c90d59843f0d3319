import Verif.Fp.Cells

/-!
# Nearest interpolation with rounding on several workers (C79)

The full statement: for all sizes, numbers of workers and outputs, the worker that has output `o` takes for it the entry of
the global input that a single worker takes, `cell p n i gi go o = cell p 1 0 gi go o`, in single and in double precision.
It is false (`C79_false`, `C79_double_false`); what holds is below.
-/

namespace Verif.Fp

/-- The statement fails in single precision: 14 inputs, 46 outputs, two workers, the first output of the second worker. -/
theorem C79_false :
    ¬ ∀ n i gi go o : Nat, i < n → 0 < gi → startIdx n i go ≤ o → o < stopIdx n i go →
      cell single n i gi go o = cell single 1 0 gi go o := by
  intro h
  have h1 := h 2 1 14 46 23 (by decide) (by decide) (by decide) (by decide)
  revert h1
  decide +kernel

/-- It fails in double precision too, because of `floorf`: 5000 inputs, 9999 outputs, four workers. -/
theorem C79_double_false :
    ¬ ∀ n i gi go o : Nat, i < n → 0 < gi → startIdx n i go ≤ o → o < stopIdx n i go →
      cell double n i gi go o = cell double 1 0 gi go o := by
  intro h
  have h1 := h 4 3 5000 9999 9997 (by decide) (by decide) (by decide) (by decide)
  revert h1
  decide +kernel

/-- Outputs that do not lie exactly on an input: all workers take the entry that exact arithmetic selects. -/
theorem C79_partial {p n i gi go o : Nat} (hp : p = single ∨ p = double) (hs : gi * go ≤ 2 ^ 20) (hi : i < n)
    (h0 : startIdx n i go ≤ o) (h1 : o < stopIdx n i go) (hd : ¬ go ∣ gi * o) :
    cell p n i gi go o = (gi * o / go : Nat) ∧ cell p n i gi go o = cell p 1 0 gi go o := by
  have hp' : 24 ≤ p := by rcases hp with rfl | rfl <;> decide
  have hgi : 0 < gi := by
    rcases Nat.eq_zero_or_pos gi with rfl | h
    · simp at hd
    · exact h
  have hstop : stopIdx n i go ≤ go := by
    rw [← startIdx_succ]
    exact startIdx_le (by omega) go (by omega)
  have a := (cell_near hp' hs hgi hi h0 h1).2.2 hd
  have b := (cell_near (n := 1) (i := 0) (o := o) hp' hs hgi (by decide) (by rw [startIdx_zero]; omega)
    (by rw [← startIdx_succ, startIdx_top (by decide)]; omega)).2.2 hd
  exact ⟨a, a.trans b.symm⟩

/-- All outputs: a worker takes the entry that exact arithmetic selects or the one before, and differs from a single
worker by at most one entry. -/
theorem C79_near_partial {p n i gi go o : Nat} (hp : p = single ∨ p = double) (hs : gi * go ≤ 2 ^ 20) (hgi : 0 < gi)
    (hi : i < n) (h0 : startIdx n i go ≤ o) (h1 : o < stopIdx n i go) :
    (cell p n i gi go o = (gi * o / go : Nat) ∨ cell p n i gi go o = (gi * o / go : Nat) - 1) ∧
    |cell p n i gi go o - cell p 1 0 gi go o| ≤ 1 := by
  have hp' : 24 ≤ p := by rcases hp with rfl | rfl <;> decide
  have hstop : stopIdx n i go ≤ go := by
    rw [← startIdx_succ]
    exact startIdx_le (by omega) go (by omega)
  obtain ⟨a1, a2, -⟩ := cell_near hp' hs hgi hi h0 h1
  obtain ⟨b1, b2, -⟩ := cell_near (n := 1) (i := 0) (o := o) hp' hs hgi (by decide) (by rw [startIdx_zero]; omega)
    (by rw [← startIdx_succ, startIdx_top (by decide)]; omega)
  refine ⟨?_, ?_⟩
  · change quo gi go o - 1 ≤ _ at a1
    change _ = quo gi go o ∨ _ = quo gi go o - 1
    omega
  · rw [abs_le]
    omega

/-- Single precision: only the first and the last output of a worker can differ from those of a single worker. -/
theorem C79_inner_partial {n i gi go o : Nat} (hs : gi * go ≤ 2 ^ 20) (hgi : 0 < gi) (hi : i < n)
    (h0 : startIdx n i go < o) (h1 : o + 1 < stopIdx n i go) :
    cell single n i gi go o = cell single 1 0 gi go o := by
  have hstop : stopIdx n i go ≤ go := by
    rw [← startIdx_succ]
    exact startIdx_le (by omega) go (by omega)
  rw [cell_inner hs hgi hi h0 h1, cell_inner hs hgi (by decide) (by rw [startIdx_zero]; omega)
    (by rw [← startIdx_succ, startIdx_top (by decide)]; omega)]

/-- Ratios that are numbers with few binary digits, such as scaling by a power of two up or by any integer down: all workers
take the entry that exact arithmetic selects, for all outputs. -/
theorem C79_exact_partial {p n i gi go o k m : Nat} (hp : p = single ∨ p = double) (hr : gi * 2 ^ k = m * go)
    (hs : m * go ≤ 2 ^ 24) (hgi : 0 < gi) (hi : i < n) (h0 : startIdx n i go ≤ o) (h1 : o < stopIdx n i go) :
    cell p n i gi go o = (gi * o / go : Nat) ∧ cell p n i gi go o = cell p 1 0 gi go o := by
  have hp' : 24 ≤ p := by rcases hp with rfl | rfl <;> decide
  have hstop : stopIdx n i go ≤ go := by
    rw [← startIdx_succ]
    exact startIdx_le (by omega) go (by omega)
  have a := cell_exact hp' hr hs hgi hi h0 h1
  have b := cell_exact (n := 1) (i := 0) (o := o) hp' hr hs hgi (by decide) (by rw [startIdx_zero]; omega)
    (by rw [← startIdx_succ, startIdx_top (by decide)]; omega)
  exact ⟨a, a.trans b.symm⟩

/-- 14 inputs, 46 outputs, two workers: output 24, an inner one that does not lie on an input. -/
example : cell single 2 1 14 46 24 = 7 ∧ cell single 2 1 14 46 24 = cell single 1 0 14 46 24 :=
  C79_partial (.inl rfl) (by norm_num) (by decide) (by decide) (by decide) (by decide)

/-- The output of the witness is one off. -/
example : |cell single 2 1 14 46 23 - cell single 1 0 14 46 23| ≤ 1 :=
  (C79_near_partial (.inl rfl) (by norm_num) (by decide) (by decide) (by decide) (by decide)).2

/-- 24 inputs, 94 outputs, one and four workers: both take entry 11 for output 47, exact is 12. -/
example : cell single 4 1 24 94 47 = 11 := by decide +kernel

/-- 20 inputs and 60 outputs on three workers: output 30 lies on input 10. -/
example : cell single 3 1 20 60 30 = cell single 1 0 20 60 30 :=
  C79_inner_partial (by norm_num) (by decide) (by decide) (by decide) (by decide)

/-- Twice as many outputs. -/
example : cell double 3 1 500 1000 334 = 167 ∧ cell double 3 1 500 1000 334 = cell double 1 0 500 1000 334 :=
  C79_exact_partial (k := 1) (m := 1) (.inr rfl) (by norm_num) (by norm_num) (by decide) (by decide) (by decide) (by decide)

end Verif.Fp
