import Verif.Fp.Lemmas
import Verif.Slicing.Props
import Mathlib.Algebra.Order.BigOperators.Group.List
import Mathlib.Algebra.BigOperators.Group.List.Basic
import Mathlib.Algebra.Order.Ring.Pow

/-!
# Model of sums over workers in floating point numbers

`functional/sum_reduce.py`, `functional/all_sum_reduce.py`, `functional/broadcast.py` (backward) and `nn/linear.py`, one entry of the
result.  The order in which MPI and PyTorch add is not specified; it is given by a binary tree.  No overflow, no subnormal numbers.
-/

namespace Verif.Fp

/-- The order in which terms are added. -/
inductive Tree (ι : Type) where
  | leaf (i : ι)
  | node (l r : Tree ι)

variable {ι : Type}

/-- The terms of a sum, from left to right (the contributions of the workers in `sum_reduce.py:109-124`). -/
def Tree.leaves : Tree ι → List ι
  | .leaf i => [i]
  | .node l r => l.leaves ++ r.leaves

/-- The largest number of additions a term goes through; depends on the algorithm of MPI, which `sum_reduce.py:109-124` leaves open. -/
def Tree.depth : Tree ι → Nat
  | .leaf _ => 0
  | .node l r => max l.depth r.depth + 1

/-- The sum in this order, every addition rounded to `p` digits: what `MPI.SUM` in `Ireduce` and `Iallreduce`
(`sum_reduce.py:109-124`, `all_sum_reduce.py:77-83, 128-134`, `broadcast.py:204-217`) and the matrix product of PyTorch compute. -/
def Tree.eval (p : Nat) (f : ι → ℚ) : Tree ι → ℚ
  | .leaf i => f i
  | .node l r => fl p (l.eval p f + r.eval p f)

/-- A sum that may be empty, which is 0. -/
def sumBy (p : Nat) (f : ι → ℚ) : Option (Tree ι) → ℚ
  | none => 0
  | some t => t.eval p f

/-- The terms of an empty sum are none. -/
def leavesOf : Option (Tree ι) → List ι
  | none => []
  | some t => t.leaves

/-- `linear.py:70-79`: the terms added by the worker in column `j` of `P` for one output; `none` is the bias, stored in column 0. -/
def linTerms (n P : Nat) (bias : Bool) (j : Nat) : List (Option Nat) :=
  (if bias && j == 0 then [none] else []) ++ (List.range (subsize P j n)).map fun i => some (startIdx P j n + i)

/-- One output of the linear layer with `n` inputs on `P` columns of workers (`linear.py:98-106`): `sublinear` on every worker of the row, and
their sum.  `T j` is the order in which the worker in column `j` adds, `R` the order in which MPI adds, `v` the products and the
bias. -/
def linOut (p : Nat) (v : Option Nat → ℚ) (T : Nat → Option (Tree (Option Nat))) (R : Tree Nat) : ℚ :=
  R.eval p fun j => sumBy p v (T j)

/-! ## Errors -/

theorem Tree.depth_lt (t : Tree ι) : t.depth < t.leaves.length := by
  induction t with
  | leaf i => simp [depth, leaves]
  | node l r hl hr =>
    simp only [depth, leaves, List.length_append]
    omega

theorem Tree.leaves_ne_nil (t : Tree ι) : t.leaves ≠ [] := by
  have := t.depth_lt
  intro h
  rw [h] at this
  simp at this

theorem abs_sum_le (L : List ι) (g h : ι → ℚ) (hg : ∀ i ∈ L, |g i| ≤ h i) : |(L.map g).sum| ≤ (L.map h).sum := by
  induction L with
  | nil => simp
  | cons a L ih =>
    simp only [List.map_cons, List.sum_cons]
    exact (abs_add_le _ _).trans (add_le_add (hg a (by simp)) (ih fun i hi => hg i (by simp [hi])))

/-- The error of a sum, given errors `((1 + u)^a - 1) h i` of the terms. -/
theorem Tree.err (p a : Nat) (f g h : ι → ℚ) (t : Tree ι) (hg : ∀ i ∈ t.leaves, |g i| ≤ h i)
    (hf : ∀ i ∈ t.leaves, |f i - g i| ≤ ((1 + 1 / 2 ^ p) ^ a - 1) * h i) :
    |t.eval p f - (t.leaves.map g).sum| ≤ ((1 + 1 / 2 ^ p) ^ (a + t.depth) - 1) * (t.leaves.map h).sum := by
  obtain ⟨u, hu⟩ : ∃ u : ℚ, u = 1 / 2 ^ p := ⟨_, rfl⟩
  have hu0 : 0 ≤ u := by rw [hu]; positivity
  have h1 : (1 : ℚ) ≤ 1 + u := by linarith
  rw [← hu] at hf ⊢
  induction t with
  | leaf i => simpa [eval, leaves, depth] using hf i (by simp [leaves])
  | node l r hl hr =>
    simp only [leaves, List.mem_append] at hg hf
    have el := hl (fun i hi => hg i (.inl hi)) fun i hi => hf i (.inl hi)
    have er := hr (fun i hi => hg i (.inr hi)) fun i hi => hf i (.inr hi)
    have gl := abs_sum_le l.leaves g h fun i hi => hg i (.inl hi)
    have gr := abs_sum_le r.leaves g h fun i hi => hg i (.inr hi)
    simp only [eval, leaves, depth, List.map_append, List.sum_append]
    generalize (l.leaves.map g).sum = Gl at *
    generalize (r.leaves.map g).sum = Gr at *
    generalize (l.leaves.map h).sum = Hl at *
    generalize (r.leaves.map h).sum = Hr at *
    generalize l.eval p f = L at *
    generalize r.eval p f = R at *
    have hl0 : 0 ≤ Hl := (abs_nonneg _).trans gl
    have hr0 : 0 ≤ Hr := (abs_nonneg _).trans gr
    have ml : (1 + u) ^ (a + l.depth) ≤ (1 + u) ^ (a + max l.depth r.depth) := pow_le_pow_right₀ h1 (by omega)
    have mr : (1 + u) ^ (a + r.depth) ≤ (1 + u) ^ (a + max l.depth r.depth) := pow_le_pow_right₀ h1 (by omega)
    rw [← add_assoc, pow_succ]
    generalize (1 + u) ^ (a + max l.depth r.depth) = c at *
    have el' : |L - Gl| ≤ (c - 1) * Hl := el.trans (mul_le_mul_of_nonneg_right (by linarith) hl0)
    have er' : |R - Gr| ≤ (c - 1) * Hr := er.trans (mul_le_mul_of_nonneg_right (by linarith) hr0)
    have hs : |L + R - (Gl + Gr)| ≤ (c - 1) * (Hl + Hr) := by
      rw [show L + R - (Gl + Gr) = (L - Gl) + (R - Gr) by ring, mul_add]
      exact (abs_add_le _ _).trans (add_le_add el' er')
    have hG : |Gl + Gr| ≤ Hl + Hr := (abs_add_le _ _).trans (add_le_add gl gr)
    have hLR : |L + R| ≤ c * (Hl + Hr) := by
      have : L + R = (L + R - (Gl + Gr)) + (Gl + Gr) := by ring
      rw [this]
      refine (abs_add_le _ _).trans ?_
      linarith
    have hfl := fl_err p (L + R)
    rw [show |L + R| / 2 ^ p = u * |L + R| by rw [hu]; ring] at hfl
    have hfl' := hfl.trans (mul_le_mul_of_nonneg_left hLR hu0)
    rw [show fl p (L + R) - (Gl + Gr) = (fl p (L + R) - (L + R)) + (L + R - (Gl + Gr)) by ring]
    refine (abs_add_le _ _).trans ((add_le_add hfl' hs).trans (le_of_eq ?_))
    ring

/-- The usual simpler form of the bound. -/
theorem pow_le_linear {u : ℚ} (hu : 0 ≤ u) {m : Nat} (hm : m * u ≤ 1 / 2) : (1 + u) ^ m - 1 ≤ 2 * m * u := by
  induction m with
  | zero => simp
  | succ m ih =>
    push_cast at hm ⊢
    have := ih (by nlinarith)
    rw [pow_succ]
    nlinarith

end Verif.Fp
