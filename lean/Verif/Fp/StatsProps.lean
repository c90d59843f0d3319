import Verif.Fp.Stats

/-!
# Statistics, losses and convolutions over workers in floating point numbers (C88, C89, C90)
-/

namespace Verif.Fp

variable {ι : Type}

/-! ## Which worker adds which terms -/

/-- The cells in the balanced block of worker `j` (`slicing.py:19-36`). -/
def cellsOf (Ps ns : List Nat) (j : Nat) : List (List Nat) :=
  (rangeIndex ns).filter fun g => decide (InBox (computeStartIndex Ps ((rangeIndex Ps).getD j []) ns)
    (computeStopIndex Ps ((rangeIndex Ps).getD j []) ns) g)

/-- Every cell is in the block of one worker. -/
theorem cells_cover {Ps ns : List Nat} (hlen : Ps.length = ns.length) (hpos : ∀ P ∈ Ps, 0 < P) :
    ((List.range Ps.prod).flatMap (cellsOf Ps ns)).Perm (rangeIndex ns) := by
  have hidx : ∀ j < Ps.prod, InBounds ((rangeIndex Ps).getD j []) Ps := by
    intro j hj
    rw [← length_rangeIndex] at hj
    rw [List.getD_eq_getElem?_getD, List.getElem?_eq_getElem hj, Option.getD_some]
    exact mem_rangeIndex.1 (List.getElem_mem hj)
  have hinj : ∀ i < Ps.prod, ∀ j < Ps.prod, (rangeIndex Ps).getD i [] = (rangeIndex Ps).getD j [] → i = j := by
    intro i hi j hj h
    rw [← length_rangeIndex] at hi hj
    rw [List.getD_eq_getElem?_getD, List.getElem?_eq_getElem hi, List.getD_eq_getElem?_getD, List.getElem?_eq_getElem hj,
      Option.getD_some, Option.getD_some] at h
    exact (List.Nodup.getElem_inj_iff (nodup_rangeIndex Ps)).1 h
  refine (List.perm_ext_iff_of_nodup ?_ (nodup_rangeIndex ns)).2 fun g => ?_
  · rw [List.nodup_flatMap]
    refine ⟨fun j _ => (nodup_rangeIndex ns).filter _, ?_⟩
    refine List.Pairwise.imp_of_mem ?_ (List.nodup_range (n := Ps.prod))
    intro i j hi hj hij g h1 h2
    simp only [cellsOf, List.mem_filter, decide_eq_true_eq] at h1 h2
    obtain ⟨o, -, ho⟩ := (C01_unique_owner Ps ns hlen hpos g).1 (mem_rangeIndex.1 h1.1)
    have e1 := ho _ ⟨hidx i (List.mem_range.1 hi), h1.2⟩
    have e2 := ho _ ⟨hidx j (List.mem_range.1 hj), h2.2⟩
    exact hij (hinj i (List.mem_range.1 hi) j (List.mem_range.1 hj) (e1.trans e2.symm))
  · constructor
    · intro h
      obtain ⟨j, -, h⟩ := List.mem_flatMap.1 h
      exact (List.mem_filter.1 h).1
    · intro h
      obtain ⟨o, ⟨ho, hb⟩, -⟩ := (C01_unique_owner Ps ns hlen hpos g).1 (mem_rangeIndex.1 h)
      obtain ⟨j, hj, he⟩ := List.getElem_of_mem (mem_rangeIndex.2 ho)
      refine List.mem_flatMap.2 ⟨j, List.mem_range.2 (by rw [← length_rangeIndex]; exact hj), List.mem_filter.2 ⟨h, ?_⟩⟩
      rw [List.getD_eq_getElem?_getD, List.getElem?_eq_getElem hj, Option.getD_some, he]
      exact decide_eq_true hb

/-! ## Batch normalisation -/

/-- The mean of the entries of a channel. -/
def meanOf (all : List ι) (x : ι → ℚ) : ℚ := (all.map x).sum / all.length

/-- Their (biased) variance. -/
def varOf (all : List ι) (x : ι → ℚ) : ℚ := (all.map fun i => (x i - meanOf all x) ^ 2).sum / all.length

/-- C89: the mean of a channel, however its entries are distributed and in whatever order they are added. -/
theorem C89_mean {p k : Nat} {parts : Nat → List ι} {all : List ι} {T : Nat → Option (Tree ι)} {R : Tree Nat}
    (H : Orders k parts all T R) (x : ι → ℚ) (hN : 0 < all.length) (hp : 2 * (all.length + k) ≤ 2 ^ p) :
    |workerMean p x T R all.length - meanOf all x| ≤ 2 * (all.length + k) / 2 ^ p * meanOf all fun i => |x i| := by
  have := H.mean_err (p := p) (a := 0) (v := x) (g := x) (h := fun i => |x i|) hN (by omega) (fun i _ => le_refl _)
    (fun i _ => by simp)
  rw [Nat.cast_zero, zero_add] at this
  exact this

/-- Deviations from another value than the mean. -/
theorem sum_sq_dev (all : List ι) (x : ι → ℚ) (hN : 0 < all.length) (m : ℚ) :
    (all.map fun i => (x i - m) ^ 2).sum / all.length = varOf all x + (m - meanOf all x) ^ 2 := by
  have hNq : (all.length : ℚ) ≠ 0 := by exact_mod_cast hN.ne'
  have key : ∀ c : ℚ, (all.map fun i => (x i - c) ^ 2).sum =
      (all.map fun i => x i ^ 2).sum - 2 * c * (all.map x).sum + all.length * c ^ 2 := by
    intro c
    clear hN hNq
    induction all with
    | nil => simp
    | cons a all ih =>
      simp only [List.map_cons, List.sum_cons, ih, List.length_cons]
      push_cast
      ring
  unfold varOf
  rw [key, key]
  have hs : (all.map x).sum = all.length * meanOf all x := by
    unfold meanOf
    field_simp
  rw [hs]
  field_simp
  ring

/-- C89: the variance of a channel, relative to itself, up to the square of the error of the mean. -/
theorem C89_variance {p k : Nat} {parts : Nat → List ι} {all : List ι} {T : Nat → Option (Tree ι)} {R : Tree Nat}
    (H : Orders k parts all T R) (x : ι → ℚ) (m : ℚ) (hN : 0 < all.length) (hp : 2 * (3 + all.length + k) ≤ 2 ^ p) :
    0 ≤ workerVar p x m T R all.length ∧
    |workerVar p x m T R all.length - (varOf all x + (m - meanOf all x) ^ 2)| ≤
      2 * (3 + all.length + k) / 2 ^ p * (varOf all x + (m - meanOf all x) ^ 2) := by
  refine ⟨workerMean_nonneg (fun i => sqDev_nonneg p _ _) T R _, ?_⟩
  have := H.mean_err (a := 3) (v := fun i => sqDev p (x i) m) (g := fun i => (x i - m) ^ 2) (h := fun i => (x i - m) ^ 2) hN hp
    (fun i _ => le_of_eq (abs_of_nonneg (sq_nonneg _))) (fun i _ => sqDev_err p _ _)
  rw [sum_sq_dev all x hN] at this
  exact_mod_cast this

/-- C89: both together.  `γ` bounds the error of the mean and of the sum of squares. -/
theorem C89_statistics {p k : Nat} {parts : Nat → List ι} {all : List ι} {T T' : Nat → Option (Tree ι)} {R R' : Tree Nat}
    (H : Orders k parts all T R) (H' : Orders k parts all T' R') (x : ι → ℚ) (hN : 0 < all.length)
    (hp : 2 * (3 + all.length + k) ≤ 2 ^ p) (γ : ℚ) (hγ : γ = 2 * (3 + all.length + k) / 2 ^ p) :
    |workerMean p x T R all.length - meanOf all x| ≤ γ * (meanOf all fun i => |x i|) ∧
    |workerVar p x (workerMean p x T R all.length) T' R' all.length - varOf all x| ≤
      γ * varOf all x + 2 * (γ * meanOf all fun i => |x i|) ^ 2 := by
  have h1 := C89_mean H x hN (p := p) (by omega)
  obtain ⟨-, h2⟩ := C89_variance H' x (workerMean p x T R all.length) hN hp
  rw [← hγ] at h2
  have hNq : (0 : ℚ) < all.length := by exact_mod_cast hN
  have hM : 0 ≤ meanOf all fun i => |x i| :=
    div_nonneg (List.sum_nonneg (by simp)) hNq.le
  have hγ1 : γ ≤ 1 := by
    rw [hγ, div_le_one (by positivity)]
    exact_mod_cast hp
  have h3 : |workerMean p x T R all.length - meanOf all x| ≤ γ * meanOf all fun i => |x i| := by
    refine h1.trans (mul_le_mul_of_nonneg_right ?_ hM)
    rw [hγ]
    gcongr
    linarith
  refine ⟨h3, ?_⟩
  generalize workerMean p x T R all.length = m at *
  generalize meanOf all (fun i => |x i|) = M at *
  have h4 : (m - meanOf all x) ^ 2 ≤ (γ * M) ^ 2 := by
    rw [← sq_abs]
    exact pow_le_pow_left₀ (abs_nonneg _) h3 2
  have h5 : (0 : ℚ) ≤ (m - meanOf all x) ^ 2 := sq_nonneg _
  generalize (m - meanOf all x) ^ 2 = e at *
  generalize workerVar p x m T' R' all.length = v at *
  have h6 : γ * e ≤ e := by nlinarith
  rw [show v - varOf all x = (v - (varOf all x + e)) + e by ring]
  refine (abs_add_le _ _).trans ?_
  rw [abs_of_nonneg h5]
  linarith [show γ * (varOf all x + e) = γ * varOf all x + γ * e by ring]

/-- C89: so the means on two partitions, for instance on one worker, are close. -/
theorem C89_workers {p k k' : Nat} {parts parts' : Nat → List ι} {all : List ι} {T T' : Nat → Option (Tree ι)} {R R' : Tree Nat}
    (H : Orders k parts all T R) (H' : Orders k' parts' all T' R') (x : ι → ℚ) (hN : 0 < all.length)
    (hp : 2 * (all.length + k) ≤ 2 ^ p) (hp' : 2 * (all.length + k') ≤ 2 ^ p) :
    |workerMean p x T R all.length - workerMean p x T' R' all.length| ≤
      2 * (2 * all.length + k + k') / 2 ^ p * meanOf all fun i => |x i| := by
  have h1 := C89_mean H x hN hp
  have h2 := C89_mean H' x hN hp'
  rw [abs_sub_comm] at h2
  refine (abs_sub_le _ _ _).trans ((add_le_add h1 h2).trans (le_of_eq ?_))
  ring

/-- C89, balanced blocks: `ns` and `Ps` are the extents of the tensor and of the partition without those of the channels. -/
theorem C89_blocks {p : Nat} {Ps ns : List Nat} (hlen : Ps.length = ns.length) (hpos : ∀ P ∈ Ps, 0 < P) (hns : ∀ n ∈ ns, 0 < n)
    {T T' : Nat → Option (Tree (List Nat))} {R R' : Tree Nat} (hT : ∀ j < Ps.prod, (leavesOf (T j)).Perm (cellsOf Ps ns j))
    (hT' : ∀ j < Ps.prod, (leavesOf (T' j)).Perm (cellsOf Ps ns j)) (hR : R.leaves.Perm (List.range Ps.prod))
    (hR' : R'.leaves.Perm (List.range Ps.prod)) (x : List Nat → ℚ) (hp : 2 * (3 + ns.prod + Ps.prod) ≤ 2 ^ p) (γ : ℚ)
    (hγ : γ = 2 * (3 + ns.prod + Ps.prod : Nat) / 2 ^ p) :
    |workerMean p x T R ns.prod - meanOf (rangeIndex ns) x| ≤ γ * (meanOf (rangeIndex ns) fun i => |x i|) ∧
    0 ≤ workerVar p x (workerMean p x T R ns.prod) T' R' ns.prod ∧
    |workerVar p x (workerMean p x T R ns.prod) T' R' ns.prod - varOf (rangeIndex ns) x| ≤
      γ * varOf (rangeIndex ns) x + 2 * (γ * meanOf (rangeIndex ns) fun i => |x i|) ^ 2 := by
  have hc := cells_cover hlen hpos
  have hN : 0 < (rangeIndex ns).length := by
    rw [length_rangeIndex]
    clear hp hγ hT hT' hR hR' hlen hc
    induction ns with
    | nil => simp
    | cons n ns ih => exact Nat.mul_pos (hns n (by simp)) (ih fun m hm => hns m (by simp [hm]))
  have key := C89_statistics (p := p) ⟨hc, hT, hR⟩ ⟨hc, hT', hR'⟩ x hN (by rw [length_rangeIndex]; exact hp) γ
    (by rw [hγ, length_rangeIndex]; push_cast; ring)
  rw [length_rangeIndex] at key
  exact ⟨key.1, workerMean_nonneg (fun i => sqDev_nonneg p _ _) T' R' _, key.2⟩

theorem fl_pos {p : Nat} {x : ℚ} (hp : 0 < p) (hx : 0 < x) : 0 < fl p x := by
  have h := fl_err p x
  rw [abs_of_pos hx] at h
  have h2 : x / 2 ^ p < x := div_lt_self hx (one_lt_pow₀ (by norm_num) (by omega))
  have := (abs_le.1 h).1
  linarith

/-- `batchnorm.py:179-186` for one entry of the running variance, with rounding; `seen` is `inputs_seen`, `c` the rounded
`1 - self.momentum`. -/
def runStep (p : Nat) (momentum : Option (ℚ × ℚ)) (seen : Nat) (r v : ℚ) : ℚ :=
  match momentum with
  | some (c, a) => fl p (fl p (c * r) + fl p (a * v))
  | none => fl p (fl p (v + fl p (seen * r)) / fl p (seen + 1))

/-- The running variance after the batches with variances `vs`. -/
def runVar (p : Nat) (momentum : Option (ℚ × ℚ)) : Nat → ℚ → List ℚ → ℚ
  | _, r, [] => r
  | seen, r, v :: vs => runVar p momentum (seen + 1) (runStep p momentum seen r v) vs

/-- C89: variances, of a batch or running, are never negative, whatever was trained before, and what is under the root is
positive. -/
theorem C89_root {p : Nat} (hp : 0 < p) (momentum : Option (ℚ × ℚ)) (hm : ∀ c a, momentum = some (c, a) → 0 ≤ c ∧ 0 ≤ a)
    (seen : Nat) (r : ℚ) (hr : 0 ≤ r) (vs : List ℚ) (hv : ∀ v ∈ vs, 0 ≤ v) (eps : ℚ) (he : 0 < eps) :
    0 ≤ runVar p momentum seen r vs ∧ 0 < fl p (runVar p momentum seen r vs + eps) := by
  have h : 0 ≤ runVar p momentum seen r vs := by
    induction vs generalizing seen r with
    | nil => exact hr
    | cons v vs ih =>
      refine ih (seen + 1) _ ?_ fun v hv' => hv v (by simp [hv'])
      have hv0 := hv v (by simp)
      unfold runStep
      rcases momentum with _ | ⟨c, a⟩
      · exact fl_nonneg (div_nonneg (fl_nonneg (add_nonneg hv0 (fl_nonneg (by positivity)))) (fl_nonneg (by positivity)))
      · obtain ⟨hc, ha⟩ := hm c a rfl
        exact fl_nonneg (add_nonneg (fl_nonneg (mul_nonneg hc hr)) (fl_nonneg (mul_nonneg ha hv0)))
  exact ⟨h, fl_pos hp (by linarith)⟩

/-! ## Losses -/

/-- C90: a loss with terms `f i` (in exact arithmetic), each computed with at most `a` roundings, and the reductions "sum" and "mean". -/
theorem C90_loss {p a k : Nat} {parts : Nat → List ι} {all : List ι} {T : Nat → Option (Tree ι)} {R : Tree Nat}
    (H : Orders k parts all T R) (v f : ι → ℚ) (hv : ∀ i ∈ all, |v i - f i| ≤ ((1 + 1 / 2 ^ p) ^ a - 1) * |f i|)
    (hp : 2 * (a + all.length + k) ≤ 2 ^ p) :
    |workerSum p v T R - (all.map f).sum| ≤ 2 * (a + all.length + k) / 2 ^ p * (all.map fun i => |f i|).sum ∧
    (0 < all.length → |workerMean p v T R all.length - meanOf all f| ≤
      2 * (a + all.length + k) / 2 ^ p * meanOf all fun i => |f i|) :=
  ⟨H.sum_err hp (fun _ _ => le_refl _) hv, fun hN => H.mean_err hN hp (fun _ _ => le_refl _) hv⟩

/-- C90, `MSELoss`: a relative error. -/
theorem C90_mse {p k : Nat} {parts : Nat → List ι} {all : List ι} {T : Nat → Option (Tree ι)} {R : Tree Nat}
    (H : Orders k parts all T R) (x y : ι → ℚ) (hN : 0 < all.length) (hp : 2 * (3 + all.length + k) ≤ 2 ^ p) :
    |workerMean p (fun i => sqDev p (x i) (y i)) T R all.length - meanOf all fun i => (x i - y i) ^ 2| ≤
      2 * (3 + all.length + k) / 2 ^ p * meanOf all fun i => (x i - y i) ^ 2 := by
  have h := (C90_loss H (a := 3) (p := p) (fun i => sqDev p (x i) (y i)) (fun i => (x i - y i) ^ 2)
    (fun i _ => by rw [abs_of_nonneg (sq_nonneg (x i - y i))]; exact sqDev_err p _ _) hp).2 hN
  simp only [fun i => abs_of_nonneg (sq_nonneg (x i - y i))] at h
  exact_mod_cast h

/-- C90, `L1Loss`: a relative error. -/
theorem C90_l1 {p k : Nat} {parts : Nat → List ι} {all : List ι} {T : Nat → Option (Tree ι)} {R : Tree Nat}
    (H : Orders k parts all T R) (x y : ι → ℚ) (hN : 0 < all.length) (hp : 2 * (1 + all.length + k) ≤ 2 ^ p) :
    |workerMean p (fun i => |fl p (x i - y i)|) T R all.length - meanOf all (fun i => |x i - y i|)| ≤
      2 * (1 + all.length + k) / 2 ^ p * meanOf all fun i => |x i - y i| := by
  have h := (C90_loss H (a := 1) (p := p) (fun i => |fl p (x i - y i)|) (fun i => |x i - y i|)
    (fun i _ => by
      rw [pow_one, add_sub_cancel_left, abs_abs]
      refine (abs_abs_sub_abs_le_abs_sub _ _).trans ((fl_err p _).trans (le_of_eq (by ring)))) hp).2 hN
  simp only [abs_abs] at h
  exact_mod_cast h

/-! ## Convolutions with partitioned channels -/

/-- `conv_channel.py:209-224`: the terms added by the worker in column `j` of `P` for one output; `none` is the bias, stored in column
0; `K` is the shape of the kernel. -/
def convTerms (Ci : Nat) (K : List Nat) (P : Nat) (bias : Bool) (j : Nat) : List (Option (Nat × List Nat)) :=
  (if bias && j == 0 then [none] else []) ++
    (List.range (subsize P j Ci)).flatMap fun i => (rangeIndex K).map fun κ => some (startIdx P j Ci + i, κ)

/-- The terms of the sequential convolution. -/
def seqTerms (Ci : Nat) (K : List Nat) (bias : Bool) : List (Option (Nat × List Nat)) :=
  (if bias then [none] else []) ++ (List.range Ci).flatMap fun c => (rangeIndex K).map fun κ => some (c, κ)

theorem convTerms_cover {Ci P : Nat} (hP : 0 < P) (K : List Nat) (bias : Bool) :
    ((List.range P).flatMap (convTerms Ci K P bias)) = seqTerms Ci K bias := by
  have h1 : ∀ m, ((List.range m).flatMap (convTerms Ci K P bias)) = (if bias && decide (0 < m) then [none] else []) ++
      (List.range (startIdx P m Ci)).flatMap fun c => (rangeIndex K).map fun κ => some (c, κ) := by
    intro m
    induction m with
    | zero => simp [startIdx_zero]
    | succ m ih =>
      rw [List.range_succ, List.flatMap_append, ih, startIdx_succ, stopIdx, List.range_add, List.flatMap_append, List.flatMap_map]
      simp only [List.flatMap_cons, List.flatMap_nil, List.append_nil, convTerms]
      cases bias
      · simp
      · rcases m with _ | m
        · simp [startIdx_zero]
        · simp
  have := h1 P
  rwa [startIdx_top hP, decide_eq_true hP, Bool.and_true] at this

/-- The terms of a convolution in exact arithmetic: `x c κ` is the input under the kernel at `κ`, 0 in the padding. -/
def convExact (W X : Nat → List Nat → ℚ) (b : ℚ) : Option (Nat × List Nat) → ℚ
  | none => b
  | some (c, κ) => W c κ * X c κ

/-- C88: one output of a convolution whose input channels are on `P` columns of workers. -/
theorem C88_convolution {p Ci P : Nat} {K : List Nat} {bias : Bool} {W X : Nat → List Nat → ℚ} {b : ℚ}
    {v : Option (Nat × List Nat) → ℚ} {T : Nat → Option (Tree (Option (Nat × List Nat)))} {R : Tree Nat} (hP : 0 < P)
    (hn : 2 * (2 + Ci * K.prod + P) ≤ 2 ^ p) (hT : ∀ j < P, (leavesOf (T j)).Perm (convTerms Ci K P bias j))
    (hR : R.leaves.Perm (List.range P)) (hb : v none = b)
    (hv : ∀ c < Ci, ∀ κ, InBounds κ K → v (some (c, κ)) = W c κ * X c κ ∨ v (some (c, κ)) = fl p (W c κ * X c κ)) :
    |workerSum p v T R - ((if bias then b else 0) +
        ((List.range Ci).map fun c => ((rangeIndex K).map fun κ => W c κ * X c κ).sum).sum)| ≤
      2 * (2 + Ci * K.prod + P) / 2 ^ p * ((if bias then |b| else 0) +
        ((List.range Ci).map fun c => ((rangeIndex K).map fun κ => |W c κ * X c κ|).sum).sum) := by
  have H : Orders P (convTerms Ci K P bias) (seqTerms Ci K bias) T R :=
    ⟨by rw [convTerms_cover hP], hT, hR⟩
  have hs : ∀ g : Option (Nat × List Nat) → ℚ, ((seqTerms Ci K bias).map g).sum = (if bias then g none else 0) +
      ((List.range Ci).map fun c => ((rangeIndex K).map fun κ => g (some (c, κ))).sum).sum := by
    intro g
    unfold seqTerms
    rw [List.map_append, List.sum_append]
    congr 1
    · cases bias <;> simp
    · generalize List.range Ci = L
      induction L with
      | nil => rfl
      | cons a L ih =>
        rw [List.flatMap_cons, List.map_append, List.sum_append, ih, List.map_cons, List.sum_cons, List.map_map]
        rfl
  have hl : (seqTerms Ci K bias).length ≤ 1 + Ci * K.prod := by
    unfold seqTerms
    rw [List.length_append, List.length_flatMap]
    simp only [List.length_map, length_rangeIndex, List.map_const', List.length_range, List.sum_replicate_nat]
    refine Nat.add_le_add_right ?_ _
    split <;> simp
  have key := H.sum_err (p := p) (a := 1) (v := v) (g := convExact W X b) (h := fun o => |convExact W X b o|) (by omega)
    (fun o _ => le_refl _) ?_
  · rw [hs, hs] at key
    simp only [convExact] at key
    refine key.trans (mul_le_mul_of_nonneg_right ?_ ?_)
    · have : ((seqTerms Ci K bias).length : ℚ) ≤ 1 + Ci * K.prod := by exact_mod_cast hl
      refine div_le_div_of_nonneg_right ?_ (by positivity)
      push_cast
      linarith
    · refine add_nonneg ?_ (List.sum_nonneg ?_)
      · split
        · exact abs_nonneg _
        · exact le_refl _
      · intro z hz
        obtain ⟨c, -, rfl⟩ := List.mem_map.1 hz
        exact List.sum_nonneg (by simpa using fun κ _ => by positivity)
  · intro o ho
    rw [pow_one, add_sub_cancel_left]
    rcases o with _ | ⟨c, κ⟩
    · rw [hb]
      simp only [convExact, sub_self, abs_zero]
      positivity
    · have hm : c < Ci ∧ InBounds κ K := by
        unfold seqTerms at ho
        rcases List.mem_append.1 ho with h | h
        · split at h <;> simp at h
        · obtain ⟨c', hc', h⟩ := List.mem_flatMap.1 h
          obtain ⟨κ', hκ', h⟩ := List.mem_map.1 h
          cases h
          exact ⟨List.mem_range.1 hc', mem_rangeIndex.1 hκ'⟩
      simp only [convExact]
      rcases hv c hm.1 κ hm.2 with h | h
      · rw [h, sub_self, abs_zero]
        positivity
      · rw [h]
        exact (fl_err p _).trans (le_of_eq (by ring))

/-! ## Worked cases -/

/-- Six entries of a channel, a batch of two with three features each, the features on two workers. -/
def exCell : List Nat → ℚ
  | [b, i] => fl single (1 / 10) * (b + 1) + i
  | _ => 0

/-- The first worker adds its four entries from the left, the second one its two. -/
def exOrder (j : Nat) : Option (Tree (List Nat)) :=
  if j = 0 then some (.node (.node (.node (.leaf [0, 0]) (.leaf [0, 1])) (.leaf [1, 0])) (.leaf [1, 1]))
  else some (.node (.leaf [0, 2]) (.leaf [1, 2]))

theorem exOrder_cells : ∀ j < [1, 2].prod, (leavesOf (exOrder j)).Perm (cellsOf [1, 2] [2, 3] j) := by
  intro j hj
  obtain rfl | rfl : j = 0 ∨ j = 1 := by
    simp at hj
    omega
  · decide
  · decide

example : |workerMean single exCell exOrder (.node (.leaf 1) (.leaf 0)) 6 - meanOf (rangeIndex [2, 3]) exCell| ≤
      22 / 2 ^ single * (meanOf (rangeIndex [2, 3]) fun i => |exCell i|) ∧
    0 ≤ workerVar single exCell (workerMean single exCell exOrder (.node (.leaf 1) (.leaf 0)) 6) exOrder (.node (.leaf 0) (.leaf 1)) 6 ∧
    |workerVar single exCell (workerMean single exCell exOrder (.node (.leaf 1) (.leaf 0)) 6) exOrder (.node (.leaf 0) (.leaf 1)) 6 -
        varOf (rangeIndex [2, 3]) exCell| ≤
      22 / 2 ^ single * varOf (rangeIndex [2, 3]) exCell +
        2 * (22 / 2 ^ single * meanOf (rangeIndex [2, 3]) fun i => |exCell i|) ^ 2 :=
  C89_blocks (p := single) (Ps := [1, 2]) (ns := [2, 3]) (R := .node (.leaf 1) (.leaf 0)) (R' := .node (.leaf 0) (.leaf 1)) rfl (by decide) (by decide) exOrder_cells exOrder_cells
    (List.Perm.swap 0 1 []) (List.Perm.refl _) exCell (by decide) _ (by norm_num)

/-- On one worker the mean may differ: 2^24, 1, 1, 0 in single precision. -/
example : workerMean single (fun i : Nat => if i = 0 then 2 ^ 24 else if i = 3 then 0 else 1)
      (fun _ => some (.node (.node (.leaf 0) (.leaf 1)) (.node (.leaf 2) (.leaf 3)))) (.leaf 0) 4 = 2 ^ 22 ∧
    workerMean single (fun i : Nat => if i = 0 then 2 ^ 24 else if i = 3 then 0 else 1)
      (fun j => if j = 0 then some (.node (.leaf 0) (.leaf 3)) else some (.node (.leaf 1) (.leaf 2))) (.node (.leaf 0) (.leaf 1)) 4 =
        2 ^ 22 + 1 / 2 := by
  decide +kernel

/-- The mean squared error of these entries against 1 on the two workers. -/
example : |workerMean single (fun i => sqDev single (exCell i) 1) exOrder (.node (.leaf 0) (.leaf 1)) 6 -
      meanOf (rangeIndex [2, 3]) fun i => (exCell i - 1) ^ 2| ≤
    2 * (3 + (6 : Nat) + (2 : Nat)) / 2 ^ single * meanOf (rangeIndex [2, 3]) fun i => (exCell i - 1) ^ 2 :=
  C90_mse (p := single) (all := rangeIndex [2, 3]) ⟨cells_cover (Ps := [1, 2]) rfl (by decide), exOrder_cells, List.Perm.refl _⟩ exCell
    (fun _ => 1) (by decide) (by decide)

/-- Three training steps with momentum 0.1, and the root is taken of a positive number. -/
example : 0 < fl single (runVar single (some (fl single (9 / 10), fl single (1 / 10))) 0 1 [1 / 3, 0, 5] + 1 / 100000) :=
  (C89_root (by decide) _ (fun c a h => by cases h; exact ⟨fl_nonneg (by norm_num), fl_nonneg (by norm_num)⟩) 0 1 (by norm_num) _
    (by simp) _ (by norm_num)).2

/-- A kernel of two cells and inputs 0, 1 in the first channel and 1, 2 in the second one. -/
def exWeight (_ : Nat) (_ : List Nat) : ℚ := fl single (1 / 10)

def exInput (c : Nat) (κ : List Nat) : ℚ := c + (κ.sum : Nat)

def exProd : Option (Nat × List Nat) → ℚ
  | none => 1
  | some (c, κ) => fl single (exWeight c κ * exInput c κ)

/-- The first worker adds the bias last. -/
def exAdds (j : Nat) : Option (Tree (Option (Nat × List Nat))) :=
  if j = 0 then some (.node (.node (.leaf (some (0, [1]))) (.leaf (some (0, [0])))) (.leaf none))
  else some (.node (.leaf (some (1, [0]))) (.leaf (some (1, [1]))))

/-- A convolution with two input channels on two workers, and a bias. -/
example : |workerSum single exProd exAdds (.node (.leaf 0) (.leaf 1)) -
      ((if true then 1 else 0) + ((List.range 2).map fun c => ((rangeIndex [2]).map fun κ => exWeight c κ * exInput c κ).sum).sum)| ≤
    2 * (2 + (2 : Nat) * ([2].prod : Nat) + (2 : Nat)) / 2 ^ single * ((if true then |1| else 0) +
      ((List.range 2).map fun c => ((rangeIndex [2]).map fun κ => |exWeight c κ * exInput c κ|).sum).sum) := by
  refine C88_convolution (p := single) (Ci := 2) (P := 2) (K := [2]) (bias := true) (by decide) (by decide) (fun j hj => ?_)
    (List.Perm.refl _) rfl (fun c _ κ _ => .inr rfl)
  obtain rfl | rfl : j = 0 ∨ j = 1 := by omega
  · decide
  · decide

end Verif.Fp
