import Verif.Fp.SumProps
import Mathlib.Data.List.Perm.Basic

/-!
# Model of statistics and losses over workers in floating point numbers

`nn/batchnorm.py` (`_compute_mean`, `_compute_var`) for one channel and `nn/loss.py` with reductions "sum" and "mean".  As in
`Fp/Sum.lean` the orders of addition are binary trees; no overflow, no subnormal numbers.
-/

namespace Verif.Fp

variable {ι : Type}

/-- Sums of the workers, then their sum: `batchnorm.py:133-137` (`x.sum(dim)` over all dimensions but the channels, in whatever
order, then `self.sr`), `loss.py:163-172`.  `T j` is the order in which worker `j` adds, `R` the one in which MPI adds. -/
def workerSum (p : Nat) (v : ι → ℚ) (T : Nat → Option (Tree ι)) (R : Tree Nat) : ℚ := R.eval p fun j => sumBy p v (T j)

/-- `batchnorm.py:133-138` `_compute_mean` for one channel with `N` entries in the whole tensor, `loss.py:177`; the divisor is converted
to the type of the tensor. -/
def workerMean (p : Nat) (v : ι → ℚ) (T : Nat → Option (Tree ι)) (R : Tree Nat) (N : Nat) : ℚ := fl p (workerSum p v T R / fl p N)

/-- `batchnorm.py:158` `(input - mean) ** 2`, and the terms of `MSELoss` (`loss.py:193`). -/
def sqDev (p : Nat) (a b : ℚ) : ℚ := fl p (fl p (a - b) * fl p (a - b))

/-- `batchnorm.py:142-159` `_compute_var` for one channel; `m` is the mean as computed, `T`, `R` the orders of this second sum. -/
def workerVar (p : Nat) (x : ι → ℚ) (m : ℚ) (T : Nat → Option (Tree ι)) (R : Tree Nat) (N : Nat) : ℚ :=
  workerMean p (fun i => sqDev p (x i) m) T R N

/-- How the workers add the terms in `all`: every term on one worker, once; worker `j` of `k` adds its `parts j`. -/
structure Orders (k : Nat) (parts : Nat → List ι) (all : List ι) (T : Nat → Option (Tree ι)) (R : Tree Nat) : Prop where
  cover : ((List.range k).flatMap parts).Perm all
  loc : ∀ j < k, (leavesOf (T j)).Perm (parts j)
  glob : R.leaves.Perm (List.range k)

/-! ## Errors -/

theorem u_nonneg (p : Nat) : (0 : ℚ) ≤ 1 / 2 ^ p := by positivity

theorem one_le_base (p : Nat) : (1 : ℚ) ≤ 1 + 1 / 2 ^ p := by linarith [u_nonneg p]

/-- One more rounding. -/
theorem round_err {p a : Nat} {s g h : ℚ} (hg : |g| ≤ h) (hs : |s - g| ≤ ((1 + 1 / 2 ^ p) ^ a - 1) * h) :
    |fl p s - g| ≤ ((1 + 1 / 2 ^ p) ^ (a + 1) - 1) * h := by
  have h1 := fl_err p s
  rw [show |s| / 2 ^ p = 1 / 2 ^ p * |s| by ring] at h1
  have hu := u_nonneg p
  rw [pow_succ]
  generalize (1 : ℚ) / 2 ^ p = u at *
  generalize (1 + u) ^ a = c at *
  have h2 : |s| ≤ c * h := by
    rw [show s = (s - g) + g by ring]
    refine (abs_add_le _ _).trans ?_
    linarith
  have h3 := mul_le_mul_of_nonneg_left h2 hu
  rw [show fl p s - g = (fl p s - s) + (s - g) by ring]
  refine (abs_add_le _ _).trans ?_
  linarith [show (c * (1 + u) - 1) * h = u * (c * h) + (c - 1) * h by ring]

theorem sum_parts {k : Nat} {parts : Nat → List ι} {all : List ι} (h : ((List.range k).flatMap parts).Perm all) (g : ι → ℚ) :
    ((List.range k).map fun j => ((parts j).map g).sum).sum = (all.map g).sum := by
  rw [← (h.map g).sum_eq]
  generalize List.range k = L
  induction L with
  | nil => rfl
  | cons a L ih => simp only [List.map_cons, List.sum_cons, List.flatMap_cons, List.map_append, List.sum_append, ih]

theorem Orders.part_mem {k : Nat} {parts : Nat → List ι} {all : List ι} {T : Nat → Option (Tree ι)} {R : Tree Nat}
    (h : Orders k parts all T R) {j : Nat} (hj : j < k) {i : ι} (hi : i ∈ parts j) : i ∈ all :=
  h.cover.subset (List.mem_flatMap.2 ⟨j, List.mem_range.2 hj, hi⟩)

theorem Orders.part_length {k : Nat} {parts : Nat → List ι} {all : List ι} {T : Nat → Option (Tree ι)} {R : Tree Nat}
    (h : Orders k parts all T R) {j : Nat} (hj : j < k) : (parts j).length ≤ all.length := by
  rw [← h.cover.length_eq, List.length_flatMap]
  exact List.single_le_sum (by simp) _ (List.mem_map.2 ⟨j, List.mem_range.2 hj, rfl⟩)

/-- The error of the sum, with errors of the terms. -/
theorem Orders.err {k : Nat} {parts : Nat → List ι} {all : List ι} {T : Nat → Option (Tree ι)} {R : Tree Nat}
    (H : Orders k parts all T R) {p a : Nat} {v g h : ι → ℚ} (hg : ∀ i ∈ all, |g i| ≤ h i)
    (hv : ∀ i ∈ all, |v i - g i| ≤ ((1 + 1 / 2 ^ p) ^ a - 1) * h i) :
    |workerSum p v T R - (all.map g).sum| ≤ ((1 + 1 / 2 ^ p) ^ (a + all.length + k - 1) - 1) * (all.map h).sum := by
  have hu := one_le_base p
  have h0 : ∀ i ∈ all, 0 ≤ h i := fun i hi => (abs_nonneg _).trans (hg i hi)
  have key := R.err p (a + all.length) (fun j => sumBy p v (T j)) (fun j => ((parts j).map g).sum)
    (fun j => ((parts j).map h).sum) ?_ ?_
  · rw [(H.glob.map _).sum_eq, (H.glob.map _).sum_eq, sum_parts H.cover, sum_parts H.cover] at key
    refine key.trans (mul_le_mul_of_nonneg_right ?_ (List.sum_nonneg ?_))
    · have hd := R.depth_lt
      rw [H.glob.length_eq, List.length_range] at hd
      exact sub_le_sub_right (pow_le_pow_right₀ hu (by omega)) _
    · simpa using h0
  · intro j hj
    have hj : j < k := by simpa using H.glob.subset hj
    exact abs_sum_le _ _ _ fun i hi => hg i (H.part_mem hj hi)
  · intro j hj
    have hj : j < k := by simpa using H.glob.subset hj
    have hp := H.loc j hj
    have hlen := H.part_length hj
    rw [← (hp.map g).sum_eq, ← (hp.map h).sum_eq]
    rcases ht : T j with _ | t
    · simp [leavesOf, sumBy]
    · rw [ht] at hp
      have hm : ∀ i ∈ t.leaves, i ∈ all := fun i hi => H.part_mem hj (hp.subset hi)
      change |t.eval p v - (t.leaves.map _).sum| ≤ _ * (t.leaves.map _).sum
      refine (t.err p a v g h (fun i hi => hg i (hm i hi)) fun i hi => hv i (hm i hi)).trans ?_
      refine mul_le_mul_of_nonneg_right ?_ (List.sum_nonneg ?_)
      · have h1 := t.depth_lt
        have h2 : t.leaves.length = (parts j).length := hp.length_eq
        exact sub_le_sub_right (pow_le_pow_right₀ hu (by omega)) _
      · simpa using fun i hi => h0 i (hm i hi)

/-- The same with the division. -/
theorem Orders.mean_err {k : Nat} {parts : Nat → List ι} {all : List ι} {T : Nat → Option (Tree ι)} {R : Tree Nat}
    (H : Orders k parts all T R) {p a : Nat} {v g h : ι → ℚ} (hN : 0 < all.length) (hp : 2 * (a + all.length + k) ≤ 2 ^ p)
    (hg : ∀ i ∈ all, |g i| ≤ h i) (hv : ∀ i ∈ all, |v i - g i| ≤ ((1 + 1 / 2 ^ p) ^ a - 1) * h i) :
    |workerMean p v T R all.length - (all.map g).sum / all.length| ≤
      2 * (a + all.length + k) / 2 ^ p * ((all.map h).sum / all.length) := by
  have hk : 0 < k := by
    have := R.depth_lt
    rw [H.glob.length_eq, List.length_range] at this
    omega
  have hp0 : 0 < p := by
    rcases p with _ | p
    · simp at hp
      omega
    · omega
  have hNq : (0 : ℚ) < all.length := by exact_mod_cast hN
  have e := H.err hg hv
  have hsum : |(all.map g).sum| ≤ (all.map h).sum := abs_sum_le _ _ _ hg
  have h0 : 0 ≤ (all.map h).sum / all.length := div_nonneg ((abs_nonneg _).trans hsum) hNq.le
  unfold workerMean
  rw [fl_nat hp0 (by omega)]
  have h1 : |workerSum p v T R / all.length - (all.map g).sum / all.length| ≤
      ((1 + 1 / 2 ^ p) ^ (a + all.length + k - 1) - 1) * ((all.map h).sum / all.length) := by
    rw [← sub_div, abs_div, abs_of_pos hNq, ← mul_div_assoc]
    exact div_le_div_of_nonneg_right e hNq.le
  have h2 := round_err (by rw [abs_div, abs_of_pos hNq]; exact div_le_div_of_nonneg_right hsum hNq.le) h1
  refine h2.trans (mul_le_mul_of_nonneg_right ?_ h0)
  rw [show a + all.length + k - 1 + 1 = a + all.length + k by omega]
  have hp' : (2 * (a + all.length + k) : ℚ) ≤ 2 ^ p := by exact_mod_cast hp
  have hm : ((a + all.length + k : Nat) : ℚ) * (1 / 2 ^ p) ≤ 1 / 2 := by
    rw [mul_one_div, div_le_iff₀ (by positivity)]
    push_cast
    linarith
  exact (pow_le_linear (u_nonneg p) hm).trans (le_of_eq (by push_cast; ring))

/-- The same for the sum. -/
theorem Orders.sum_err {k : Nat} {parts : Nat → List ι} {all : List ι} {T : Nat → Option (Tree ι)} {R : Tree Nat}
    (H : Orders k parts all T R) {p a : Nat} {v g h : ι → ℚ} (hp : 2 * (a + all.length + k) ≤ 2 ^ p)
    (hg : ∀ i ∈ all, |g i| ≤ h i) (hv : ∀ i ∈ all, |v i - g i| ≤ ((1 + 1 / 2 ^ p) ^ a - 1) * h i) :
    |workerSum p v T R - (all.map g).sum| ≤ 2 * (a + all.length + k) / 2 ^ p * (all.map h).sum := by
  refine (H.err hg hv).trans (mul_le_mul_of_nonneg_right ?_ ((abs_nonneg _).trans (abs_sum_le _ _ _ hg)))
  have hp' : (2 * (a + all.length + k) : ℚ) ≤ 2 ^ p := by exact_mod_cast hp
  have hm : ((a + all.length + k : Nat) : ℚ) * (1 / 2 ^ p) ≤ 1 / 2 := by
    rw [mul_one_div, div_le_iff₀ (by positivity)]
    push_cast
    linarith
  refine le_trans (sub_le_sub_right (pow_le_pow_right₀ (one_le_base p) ?_) _)
    ((pow_le_linear (u_nonneg p) hm).trans (le_of_eq (by push_cast; ring)))
  omega

theorem Tree.eval_nonneg {p : Nat} {v : ι → ℚ} (t : Tree ι) (h : ∀ i ∈ t.leaves, 0 ≤ v i) : 0 ≤ t.eval p v := by
  induction t with
  | leaf i => exact h i (by simp [leaves])
  | node l r hl hr =>
    simp only [leaves, List.mem_append] at h
    exact fl_nonneg (add_nonneg (hl fun i hi => h i (.inl hi)) (hr fun i hi => h i (.inr hi)))

theorem workerSum_nonneg {p : Nat} {v : ι → ℚ} (h : ∀ i, 0 ≤ v i) (T : Nat → Option (Tree ι)) (R : Tree Nat) :
    0 ≤ workerSum p v T R := by
  refine R.eval_nonneg fun j _ => ?_
  rcases T j with _ | t
  · exact le_refl _
  · exact t.eval_nonneg fun i _ => h i

theorem workerMean_nonneg {p : Nat} {v : ι → ℚ} (h : ∀ i, 0 ≤ v i) (T : Nat → Option (Tree ι)) (R : Tree Nat) (N : Nat) :
    0 ≤ workerMean p v T R N :=
  fl_nonneg (div_nonneg (workerSum_nonneg h T R) (fl_nonneg (by positivity)))

theorem sqDev_nonneg (p : Nat) (a b : ℚ) : 0 ≤ sqDev p a b := fl_nonneg (mul_self_nonneg _)

/-- A square of a rounded difference. -/
theorem sqDev_err (p : Nat) (a b : ℚ) : |sqDev p a b - (a - b) ^ 2| ≤ ((1 + 1 / 2 ^ p) ^ 3 - 1) * (a - b) ^ 2 := by
  unfold sqDev
  generalize a - b = t
  refine round_err (a := 2) (le_of_eq (abs_of_nonneg (sq_nonneg t))) ?_
  have h1 := fl_err p t
  rw [show |t| / 2 ^ p = 1 / 2 ^ p * |t| by ring] at h1
  have hu := u_nonneg p
  generalize (1 : ℚ) / 2 ^ p = u at *
  generalize fl p t = y at *
  rw [show y * y - t ^ 2 = (y - t) * (y - t) + 2 * t * (y - t) by ring]
  refine (abs_add_le _ _).trans ?_
  rw [abs_mul, abs_mul, abs_mul, abs_of_pos (by norm_num : (0 : ℚ) < 2), ← sq_abs t]
  have h3 := abs_nonneg t
  have h4 := mul_le_mul h1 h1 (abs_nonneg _) (by positivity)
  have h5 := mul_le_mul_of_nonneg_left h1 h3
  nlinarith

end Verif.Fp
