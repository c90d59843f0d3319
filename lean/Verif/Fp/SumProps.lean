import Verif.Fp.Sum

/-!
# Sums over workers in floating point numbers (C88)
-/

namespace Verif.Fp

/-- C88: a sum-reduction of the values `x` of `k` workers, in whatever order MPI adds them. -/
theorem C88_sumReduce {p k : Nat} {x : Nat → ℚ} {R : Tree Nat} (hR : R.leaves.Perm (List.range k)) (hk : 2 * k ≤ 2 ^ p) :
    |R.eval p x - ((List.range k).map x).sum| ≤ 2 * k / 2 ^ p * ((List.range k).map fun i => |x i|).sum := by
  have h := R.err p 0 x x (fun i => |x i|) (fun i _ => le_refl _) (fun i _ => by simp)
  rw [(hR.map x).sum_eq, (hR.map fun i => |x i|).sum_eq] at h
  refine h.trans (mul_le_mul_of_nonneg_right ?_ (List.sum_nonneg (by simp)))
  have hd := R.depth_lt
  rw [hR.length_eq, List.length_range] at hd
  have hk' : (2 * k : ℚ) ≤ 2 ^ p := by exact_mod_cast hk
  have hm : (k : ℚ) * (1 / 2 ^ p) ≤ 1 / 2 := by
    rw [mul_one_div, div_le_iff₀ (by positivity)]
    linarith
  refine le_trans ?_ ((pow_le_linear (by positivity) hm).trans (le_of_eq (by ring)))
  gcongr
  · have : (0 : ℚ) ≤ 1 / 2 ^ p := by positivity
    linarith
  · omega

/-- The products and the bias, in exact arithmetic. -/
def linExact (W X : Nat → ℚ) (b : ℚ) : Option Nat → ℚ
  | none => b
  | some i => W i * X i

/-- The terms of all workers are the terms of the layer. -/
theorem linTerms_sum {n P : Nat} (hP : 0 < P) (bias : Bool) (g : Option Nat → ℚ) :
    ((List.range P).map fun j => ((linTerms n P bias j).map g).sum).sum =
      ((List.range n).map fun i => g (some i)).sum + if bias then g none else 0 := by
  have h1 : ∀ m, ((List.range m).map fun j => ((linTerms n P bias j).map g).sum).sum =
      ((List.range (startIdx P m n)).map fun i => g (some i)).sum + if bias && decide (0 < m) then g none else 0 := by
    intro m
    induction m with
    | zero => simp [startIdx_zero]
    | succ m ih =>
      rw [List.range_succ, List.map_append, List.sum_append, ih, startIdx_succ, stopIdx, List.range_add]
      simp only [linTerms, List.map_append, List.map_map, List.map_cons, List.map_nil, List.sum_append, List.sum_cons, List.sum_nil]
      have e : (g ∘ fun i => some (startIdx P m n + i)) = ((fun i => g (some i)) ∘ fun i => startIdx P m n + i) := rfl
      rw [e]
      cases bias
      · simp
      · rcases m with _ | m
        · simp only [Bool.true_and, beq_self_eq_true, if_true, List.map_cons, List.map_nil, List.sum_cons, List.sum_nil]
          simp
          ring
        · simp
          ring
  have := h1 P
  rwa [startIdx_top hP, decide_eq_true hP, Bool.and_true] at this

theorem linTerms_lt {n P j : Nat} {bias : Bool} (hj : j < P) {i : Nat} (h : some i ∈ linTerms n P bias j) : i < n := by
  have hs : stopIdx P j n ≤ n := by
    rw [← startIdx_succ]
    exact startIdx_le (by omega) n (by omega)
  unfold linTerms at h
  unfold stopIdx at hs
  rw [List.mem_append] at h
  rcases h with h | h
  · split at h <;> simp at h
  · simp only [List.mem_map, List.mem_range, Option.some.injEq] at h
    obtain ⟨k, hk, rfl⟩ := h
    omega

theorem linTerms_length {n P j : Nat} {bias : Bool} (hj : j < P) : (linTerms n P bias j).length ≤ n + 1 := by
  have hs : stopIdx P j n ≤ n := by
    rw [← startIdx_succ]
    exact startIdx_le (by omega) n (by omega)
  unfold stopIdx at hs
  unfold linTerms
  rw [List.length_append, List.length_map, List.length_range]
  split
  · rw [List.length_singleton]
    omega
  · rw [List.length_nil]
    omega

/-- C88, the bound with the depths of the sums. -/
theorem C88_depth {p n P d : Nat} {bias : Bool} {W X : Nat → ℚ} {b : ℚ} {v : Option Nat → ℚ} {T : Nat → Option (Tree (Option Nat))}
    {R : Tree Nat} (hP : 0 < P) (hT : ∀ j < P, (leavesOf (T j)).Perm (linTerms n P bias j)) (hd : ∀ j < P, ∀ t, T j = some t → t.depth ≤ d)
    (hR : R.leaves.Perm (List.range P)) (hb : v none = b)
    (hv : ∀ i < n, |v (some i) - W i * X i| ≤ |W i * X i| / 2 ^ p) :
    |linOut p v T R - (((List.range n).map fun i => W i * X i).sum + if bias then b else 0)| ≤
      ((1 + 1 / 2 ^ p) ^ (1 + d + R.depth) - 1) * (((List.range n).map fun i => |W i * X i|).sum + if bias then |b| else 0) := by
  have hu : (1 : ℚ) ≤ 1 + 1 / 2 ^ p := by
    have : (0 : ℚ) ≤ 1 / 2 ^ p := by positivity
    linarith
  have key := R.err p (1 + d) (fun j => sumBy p v (T j)) (fun j => ((linTerms n P bias j).map (linExact W X b)).sum)
    (fun j => ((linTerms n P bias j).map fun o => |linExact W X b o|).sum) (fun j _ => abs_sum_le _ _ _ fun _ _ => le_refl _) ?_
  · rw [(hR.map _).sum_eq, (hR.map _).sum_eq, linTerms_sum hP, linTerms_sum hP] at key
    exact key
  · intro j hj
    have hj : j < P := by simpa using hR.subset hj
    have hp := hT j hj
    rw [← (hp.map (linExact W X b)).sum_eq, ← (hp.map fun o => |linExact W X b o|).sum_eq]
    rcases ht : T j with _ | t
    · simp [leavesOf, sumBy]
    · rw [ht] at hp
      change |t.eval p v - (t.leaves.map _).sum| ≤ _ * (t.leaves.map _).sum
      refine (t.err p 1 v (linExact W X b) (fun o => |linExact W X b o|) (fun _ _ => le_refl _) ?_).trans ?_
      · intro o ho
        rcases o with _ | i
        · rw [hb]
          simp [linExact]
        · have := hv i (linTerms_lt hj (hp.subset ho))
          simp only [linExact, pow_one, add_sub_cancel_left]
          linarith [this, (by ring : |W i * X i| / 2 ^ p = 1 / 2 ^ p * |W i * X i|)]
      · refine mul_le_mul_of_nonneg_right ?_ (List.sum_nonneg (by simp))
        have := pow_le_pow_right₀ hu (by have := hd j hj t ht; omega : 1 + t.depth ≤ 1 + d)
        linarith

/-- C88: one output of the linear layer on `P` columns of workers.  Whatever the orders of the additions, and whether products are
rounded or not (fused operations), it differs from the exact value by at most `2 (n + P) / 2^p` times the sum of the absolute values
of the terms. -/
theorem C88_linear {p n P : Nat} {bias : Bool} {W X : Nat → ℚ} {b : ℚ} {v : Option Nat → ℚ} {T : Nat → Option (Tree (Option Nat))}
    {R : Tree Nat} (hP : 0 < P) (hn : 2 * (n + P) ≤ 2 ^ p) (hT : ∀ j < P, (leavesOf (T j)).Perm (linTerms n P bias j))
    (hR : R.leaves.Perm (List.range P)) (hb : v none = b) (hv : ∀ i < n, v (some i) = W i * X i ∨ v (some i) = fl p (W i * X i)) :
    |linOut p v T R - (((List.range n).map fun i => W i * X i).sum + if bias then b else 0)| ≤
      2 * (n + P) / 2 ^ p * (((List.range n).map fun i => |W i * X i|).sum + if bias then |b| else 0) := by
  have hd : ∀ j < P, ∀ t, T j = some t → t.depth ≤ n := by
    intro j hj t ht
    have h1 := hT j hj
    rw [ht] at h1
    have h2 := h1.length_eq
    have h3 := linTerms_length (n := n) (bias := bias) hj
    have h4 := t.depth_lt
    change t.leaves.length = _ at h2
    omega
  refine (C88_depth hP hT hd hR hb fun i hi => ?_).trans (mul_le_mul_of_nonneg_right ?_ ?_)
  · rcases hv i hi with h | h
    · rw [h, sub_self, abs_zero]
      positivity
    · rw [h]
      exact fl_err p _
  · have h1 := R.depth_lt
    rw [hR.length_eq, List.length_range] at h1
    have hn' : (2 * (n + P) : ℚ) ≤ 2 ^ p := by exact_mod_cast hn
    have hm : ((n + P : Nat) : ℚ) * (1 / 2 ^ p) ≤ 1 / 2 := by
      rw [mul_one_div, div_le_iff₀ (by positivity)]
      push_cast
      linarith
    refine le_trans ?_ ((pow_le_linear (by positivity) hm).trans (le_of_eq (by push_cast; ring)))
    have hu : (1 : ℚ) ≤ 1 + 1 / 2 ^ p := by
      have : (0 : ℚ) ≤ 1 / 2 ^ p := by positivity
      linarith
    exact sub_le_sub_right (pow_le_pow_right₀ hu (by omega)) _
  · refine add_nonneg (List.sum_nonneg (by simpa using fun a _ => by positivity)) ?_
    split
    · exact abs_nonneg _
    · exact le_refl _

/-- C88: so the results on two numbers of columns, for instance one, are close, whatever the orders of the additions. -/
theorem C88_workers {p n P P' : Nat} {bias : Bool} {W X : Nat → ℚ} {b : ℚ} {v v' : Option Nat → ℚ}
    {T T' : Nat → Option (Tree (Option Nat))} {R R' : Tree Nat} (hP : 0 < P) (hP' : 0 < P') (hn : 2 * (n + P) ≤ 2 ^ p)
    (hn' : 2 * (n + P') ≤ 2 ^ p) (hT : ∀ j < P, (leavesOf (T j)).Perm (linTerms n P bias j))
    (hT' : ∀ j < P', (leavesOf (T' j)).Perm (linTerms n P' bias j)) (hR : R.leaves.Perm (List.range P)) (hR' : R'.leaves.Perm (List.range P'))
    (hb : v none = b) (hb' : v' none = b) (hv : ∀ i < n, v (some i) = W i * X i ∨ v (some i) = fl p (W i * X i))
    (hv' : ∀ i < n, v' (some i) = W i * X i ∨ v' (some i) = fl p (W i * X i)) :
    |linOut p v T R - linOut p v' T' R'| ≤
      2 * (2 * n + P + P') / 2 ^ p * (((List.range n).map fun i => |W i * X i|).sum + if bias then |b| else 0) := by
  have h1 := C88_linear hP hn hT hR hb hv
  have h2 := C88_linear hP' hn' hT' hR' hb' hv'
  rw [abs_sub_comm] at h2
  refine (abs_sub_le _ _ _).trans ((add_le_add h1 h2).trans (le_of_eq ?_))
  ring

/-! ## A worked case -/

/-- Products of 0.1 (rounded to single precision) with 1, 2, 3. -/
def exTerm : Option Nat → ℚ
  | none => 1
  | some i => fl single (fl single (1 / 10) * (i + 1))

/-- Three inputs, two columns of workers, a bias: the first worker adds two products and then the bias. -/
example : |linOut single exTerm
      (fun j => if j = 0 then some (.node (.node (.leaf (some 1)) (.leaf (some 0))) (.leaf none)) else some (.leaf (some 2)))
      (.node (.leaf 1) (.leaf 0)) - (((List.range 3).map fun i => fl single (1 / 10) * ((i : ℚ) + 1)).sum + 1)| ≤
    2 * ((3 : Nat) + (2 : Nat)) / 2 ^ single * (((List.range 3).map fun i => |fl single (1 / 10) * ((i : ℚ) + 1)|).sum + |(1 : ℚ)|) := by
  refine C88_linear (p := single) (n := 3) (P := 2) (bias := true) (W := fun _ => fl single (1 / 10)) (X := fun i => (i : ℚ) + 1) (b := 1)
    (by decide) (by decide) (fun j hj => ?_) (List.Perm.swap 0 1 []) rfl (fun i _ => .inr rfl)
  obtain rfl | rfl : j = 0 ∨ j = 1 := by omega
  · decide
  · decide

/-- The results on one and on two columns may differ: 2^24 + 1 + 1 in single precision. -/
example : linOut single (fun o => match o with | some 0 => 2 ^ 24 | _ => 1)
      (fun _ => some (.node (.node (.leaf (some 0)) (.leaf (some 1))) (.leaf (some 2)))) (.leaf 0) = 2 ^ 24 ∧
    linOut single (fun o => match o with | some 0 => 2 ^ 24 | _ => 1)
      (fun j => if j = 0 then some (.leaf (some 0)) else some (.node (.leaf (some 1)) (.leaf (some 2)))) (.node (.leaf 0) (.leaf 1)) =
        2 ^ 24 + 2 := by
  decide +kernel

end Verif.Fp
