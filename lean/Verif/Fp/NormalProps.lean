import Verif.Fp.Normal

/-!
# C94: normalised entries are accurate, however the channel is distributed
-/

namespace Verif.Fp

variable {ι : Type}

/-- C94, given statistics: `v` differs from `σ` by at most the fraction `r` of `σ + ε`. -/
theorem C94_entry {p : Nat} (hp : 4 ≤ p) {σ ε v s r : ℚ} (hσ : 0 ≤ σ) (hε : 0 < ε) (hr : 0 ≤ r) (hr1 : r ≤ 1 / 4)
    (hv : |v - σ| ≤ r * (σ + ε)) (hs : SqrtOf p (fl p (v + ε)) s) (x m μ : ℚ) :
    |(normEntry p x m s : ℝ) - (x - μ) / √(σ + ε)| ≤
      ((2 * r + 8 / 2 ^ p) * |(x : ℝ) - m| + |(m : ℝ) - μ|) / √(σ + ε) := by
  have hu : (0 : ℝ) ≤ 1 / 2 ^ p := by positivity
  have hu1 : (1 : ℝ) / 2 ^ p ≤ 1 / 16 := by
    rw [show (16 : ℝ) = 2 ^ 4 by norm_num]
    exact one_div_le_one_div_of_le (by norm_num) (pow_le_pow_right₀ (by norm_num) hp)
  have hrR : (0 : ℝ) ≤ r := by exact_mod_cast hr
  have hrR1 : (r : ℝ) ≤ 1 / 4 := by
    have : ((r : ℚ) : ℝ) ≤ ((1 / 4 : ℚ) : ℝ) := Rat.cast_le.2 hr1
    simpa using this
  have hE : (0 : ℝ) < σ + ε := by
    have : ((0 : ℚ) : ℝ) < ((σ + ε : ℚ) : ℝ) := Rat.cast_lt.2 (by linarith)
    simpa using this
  have hvR : |(v : ℝ) - σ| ≤ r * (σ + ε) := by
    have : ((|v - σ| : ℚ) : ℝ) ≤ ((r * (σ + ε) : ℚ) : ℝ) := Rat.cast_le.2 hv
    simpa using this
  have hD := Real.sqrt_pos.2 hE
  set V := fl p (v + ε) with hV
  have hVe := fl_errR p (v + ε)
  rw [← hV] at hVe
  push_cast at hVe
  obtain ⟨v1, v2⟩ := abs_le.1 hvR
  have l1 : (1 - r) * (σ + ε) ≤ (v : ℝ) + ε := by linarith
  have l2 : (v : ℝ) + ε ≤ (1 + r) * (σ + ε) := by linarith
  have lp : (0 : ℝ) ≤ (v : ℝ) + ε := le_trans (mul_nonneg (by linarith) hE.le) l1
  rw [abs_of_nonneg lp] at hVe
  obtain ⟨w1, w2⟩ := abs_le.1 hVe
  have hs' : |(s : ℝ) - √(V : ℝ)| ≤ 1 / 2 ^ p * √(V : ℝ) := by
    rw [one_div_mul_eq_div]
    exact hs
  have f1 := fl_errR p (x - m)
  have f2 := fl_errR p (fl p (x - m) / s)
  push_cast at f1 f2
  rw [show (8 : ℝ) / 2 ^ p = 8 * (1 / 2 ^ p) by ring]
  unfold normEntry
  generalize (1 : ℝ) / 2 ^ p = u at *
  obtain ⟨hs0, hq⟩ := root_err (u := u) (r := r) (E := σ + ε) (V := V) (s := s) hu hu1 hrR hrR1 hE
    (by
      have := mul_le_mul_of_nonneg_left l1 (show (0 : ℝ) ≤ 1 - u by linarith)
      linarith [show (1 - u) * (1 - r) * ((σ : ℝ) + ε) = (1 - u) * ((1 - r) * (σ + ε)) by ring])
    (by
      have := mul_le_mul_of_nonneg_left l2 (show (0 : ℝ) ≤ 1 + u by linarith)
      linarith [show (1 + u) * (1 + r) * ((σ : ℝ) + ε) = (1 + u) * ((1 + r) * (σ + ε)) by ring]) hs'
  have := quot_err hu hu1 hrR hrR1 hD hs0 hq f1 f2
  rw [show ((fl p (fl p (x - m) / s) : ℚ) : ℝ) - (x - μ) / √(σ + ε) =
    (((fl p (fl p (x - m) / s) : ℚ) : ℝ) - (x - m) / √(σ + ε)) + -((m - μ) / √(σ + ε)) by ring, add_div]
  refine (abs_add_le _ _).trans (add_le_add this ?_)
  rw [abs_neg, abs_div, abs_of_pos hD]

/-- C94, evaluation with running statistics: the entry is that of the statistics as stored, up to eight roundings. -/
theorem C94_running {p : Nat} (hp : 4 ≤ p) {v ε s : ℚ} (hv : 0 ≤ v) (hε : 0 < ε) (hs : SqrtOf p (fl p (v + ε)) s) (x m : ℚ) :
    |(normEntry p x m s : ℝ) - (x - m) / √(v + ε)| ≤ 8 / 2 ^ p * |((x : ℝ) - m) / √(v + ε)| := by
  have := C94_entry hp hv hε (r := 0) le_rfl (by norm_num) (by simp) hs x m m
  simp only [Rat.cast_zero, mul_zero, zero_add, sub_self, abs_zero, add_zero] at this
  rw [abs_div, abs_of_nonneg (Real.sqrt_nonneg _), ← mul_div_assoc]
  exact this

/-- C94, training: the entry is that of the exact statistics of the channel up to a bound that depends on the number of
entries and of workers, not on how the entries are distributed or in which order they are added.  `γ` bounds the errors of
the statistics (C89), `r` that of the variance relative to `σ² + ε`. -/
theorem C94_training {p k : Nat} {parts : Nat → List ι} {all : List ι} {T T' : Nat → Option (Tree ι)} {R R' : Tree Nat}
    (H : Orders k parts all T R) (H' : Orders k parts all T' R') (x : ι → ℚ) (hN : 0 < all.length)
    (hp : 2 * (3 + all.length + k) ≤ 2 ^ p) (γ M r ε s : ℚ) (hγ : γ = 2 * (3 + all.length + k) / 2 ^ p)
    (hM : M = meanOf all fun i => |x i|) (hε : 0 < ε)
    (hr : r = (γ * varOf all x + 2 * (γ * M) ^ 2) / (varOf all x + ε)) (hr1 : r ≤ 1 / 4)
    (hs : SqrtOf p (fl p (workerVar p x (workerMean p x T R all.length) T' R' all.length + ε)) s) (i : ι) :
    |(normEntry p (x i) (workerMean p x T R all.length) s : ℝ) - (x i - meanOf all x) / √(varOf all x + ε)| ≤
      ((2 * r + 8 / 2 ^ p) * (|(x i : ℝ) - meanOf all x| + γ * M) + γ * M) / √(varOf all x + ε) := by
  obtain ⟨h1, h2⟩ := C89_statistics H H' x hN hp γ hγ
  rw [← hM] at h1 h2
  have hNq : (0 : ℚ) < all.length := by exact_mod_cast hN
  have hσ : 0 ≤ varOf all x := div_nonneg (List.sum_nonneg (by
    intro y hy
    obtain ⟨i, _, rfl⟩ := List.mem_map.1 hy
    positivity)) hNq.le
  have hM0 : 0 ≤ M := by
    rw [hM]
    exact div_nonneg (List.sum_nonneg (by simp)) hNq.le
  have hγ0 : 0 ≤ γ := by rw [hγ]; positivity
  have hE : 0 < varOf all x + ε := by linarith
  have hr0 : 0 ≤ r := by rw [hr]; positivity
  have hk : 0 < k := by
    by_contra hc
    have := H.cover.length_eq
    rw [show k = 0 by omega] at this
    simp at this
    omega
  have hp4 : 4 ≤ p := by
    by_contra hc
    have : 2 ^ p ≤ 2 ^ 3 := Nat.pow_le_pow_right (by norm_num) (by omega)
    omega
  have key := C94_entry hp4 hσ hε hr0 hr1 (v := workerVar p x (workerMean p x T R all.length) T' R' all.length)
    (by rw [hr, div_mul_cancel₀ _ hE.ne']; exact h2) hs (x i) (workerMean p x T R all.length) (meanOf all x)
  refine key.trans (div_le_div_of_nonneg_right ?_ (Real.sqrt_nonneg _))
  have h1R : |((workerMean p x T R all.length : ℚ) : ℝ) - meanOf all x| ≤ γ * M := by
    have : ((|workerMean p x T R all.length - meanOf all x| : ℚ) : ℝ) ≤ ((γ * M : ℚ) : ℝ) := Rat.cast_le.2 h1
    simpa using this
  have hc : (0 : ℝ) ≤ 2 * r + 8 / 2 ^ p := by
    have : (0 : ℝ) ≤ r := by exact_mod_cast hr0
    positivity
  refine add_le_add (mul_le_mul_of_nonneg_left ?_ hc) h1R
  rw [abs_sub_comm] at h1R
  exact (abs_sub_le _ ((meanOf all x : ℚ) : ℝ) _).trans (add_le_add le_rfl h1R)

/-- C94, training, balanced blocks: `ns` and `Ps` are the extents of the tensor and of the partition without those of the
channels; `i` is a cell on any worker. -/
theorem C94_blocks {p : Nat} {Ps ns : List Nat} (hlen : Ps.length = ns.length) (hpos : ∀ P ∈ Ps, 0 < P) (hns : ∀ n ∈ ns, 0 < n)
    {T T' : Nat → Option (Tree (List Nat))} {R R' : Tree Nat} (hT : ∀ j < Ps.prod, (leavesOf (T j)).Perm (cellsOf Ps ns j))
    (hT' : ∀ j < Ps.prod, (leavesOf (T' j)).Perm (cellsOf Ps ns j)) (hR : R.leaves.Perm (List.range Ps.prod))
    (hR' : R'.leaves.Perm (List.range Ps.prod)) (x : List Nat → ℚ) (hp : 2 * (3 + ns.prod + Ps.prod) ≤ 2 ^ p)
    (γ M r ε s : ℚ) (hγ : γ = 2 * (3 + ns.prod + Ps.prod : Nat) / 2 ^ p) (hM : M = meanOf (rangeIndex ns) fun i => |x i|)
    (hε : 0 < ε) (hr : r = (γ * varOf (rangeIndex ns) x + 2 * (γ * M) ^ 2) / (varOf (rangeIndex ns) x + ε)) (hr1 : r ≤ 1 / 4)
    (hs : SqrtOf p (fl p (workerVar p x (workerMean p x T R ns.prod) T' R' ns.prod + ε)) s) (i : List Nat) :
    |(normEntry p (x i) (workerMean p x T R ns.prod) s : ℝ) -
        (x i - meanOf (rangeIndex ns) x) / √(varOf (rangeIndex ns) x + ε)| ≤
      ((2 * r + 8 / 2 ^ p) * (|(x i : ℝ) - meanOf (rangeIndex ns) x| + γ * M) + γ * M) / √(varOf (rangeIndex ns) x + ε) := by
  have hc := cells_cover hlen hpos
  have hN : 0 < (rangeIndex ns).length := by
    rw [length_rangeIndex]
    exact List.prod_pos hns
  have key := C94_training (p := p) ⟨hc, hT, hR⟩ ⟨hc, hT', hR'⟩ x hN (by rw [length_rangeIndex]; exact hp) γ M r ε s
    (by rw [hγ, length_rangeIndex]; push_cast; ring) hM hε hr hr1 (by rw [length_rangeIndex]; exact hs) i
  rwa [length_rangeIndex] at key

/-- C94, scale and shift: an entry with error `e` gets two more roundings. -/
theorem C94_affine {p : Nat} (g β y : ℚ) (z e : ℝ) (h : |(y : ℝ) - z| ≤ e) :
    |(affineEntry p g β y : ℝ) - (g * z + β)| ≤ |(g : ℝ)| * e + 1 / 2 ^ p * (3 * (|(g : ℝ)| * (|z| + e)) + |(β : ℝ)|) := by
  have f1 := fl_errR p (g * y)
  have f2 := fl_errR p (fl p (g * y) + β)
  have hu : (0 : ℝ) ≤ 1 / 2 ^ p := by positivity
  have hu1 : (1 : ℝ) / 2 ^ p ≤ 1 := by
    rw [div_le_one (by positivity)]
    exact one_le_pow₀ (by norm_num)
  push_cast at f1 f2
  unfold affineEntry
  generalize (1 : ℝ) / 2 ^ p = u at *
  generalize ((fl p (fl p (g * y) + β) : ℚ) : ℝ) = o at *
  generalize ((fl p (g * y) : ℚ) : ℝ) = t at *
  have hy : |(y : ℝ)| ≤ |z| + e := by
    rw [show (y : ℝ) = z + (y - z) by ring]
    exact (abs_add_le _ _).trans (add_le_add le_rfl h)
  have hgy : |(g : ℝ) * y| ≤ |(g : ℝ)| * (|z| + e) := by
    rw [abs_mul]
    exact mul_le_mul_of_nonneg_left hy (abs_nonneg _)
  have ht : |t| ≤ 2 * |(g : ℝ) * y| := by
    rw [show t = (t - g * y) + g * y by ring]
    refine (abs_add_le _ _).trans ?_
    have := mul_le_mul_of_nonneg_right hu1 (abs_nonneg ((g : ℝ) * y))
    linarith
  have ho : |o - (t + β)| ≤ u * (2 * |(g : ℝ) * y| + |(β : ℝ)|) :=
    f2.trans (mul_le_mul_of_nonneg_left ((abs_add_le _ _).trans (add_le_add ht le_rfl)) hu)
  have hd : |(g : ℝ) * y - g * z| ≤ |(g : ℝ)| * e := by
    rw [← mul_sub, abs_mul]
    exact mul_le_mul_of_nonneg_left h (abs_nonneg _)
  rw [show o - (g * z + β) = (o - (t + β)) + ((t - g * y) + (g * y - g * z)) by ring]
  refine (abs_add_le _ _).trans ((add_le_add le_rfl (abs_add_le _ _)).trans ?_)
  have := mul_le_mul_of_nonneg_left hgy hu
  linarith [show u * (2 * |(g : ℝ) * y| + |(β : ℝ)|) + u * |(g : ℝ) * y| = 3 * (u * |(g : ℝ) * y|) + u * |(β : ℝ)| by ring,
    show u * (3 * (|(g : ℝ)| * (|z| + e)) + |(β : ℝ)|) = 3 * (u * (|(g : ℝ)| * (|z| + e))) + u * |(β : ℝ)| by ring]

/-! ## A worked case -/

theorem sqrtOf_four : SqrtOf single 4 2 := by
  unfold SqrtOf
  rw [show ((4 : ℚ) : ℝ) = 2 ^ 2 by norm_num, Real.sqrt_sq (by norm_num)]
  norm_num
  positivity

/-- Entries 1 and 3 on two workers, `ε = 3`. -/
def exTwo (i : Nat) : ℚ := if i = 0 then 1 else 3

theorem exTwo_orders : Orders 2 (fun j => [j]) [0, 1] (fun j => some (.leaf j)) (.node (.leaf 1) (.leaf 0)) :=
  ⟨List.Perm.refl _, fun _ _ => List.Perm.refl _, List.Perm.swap 0 1 []⟩

theorem exTwo_mean : workerMean single exTwo (fun j => some (.leaf j)) (.node (.leaf 1) (.leaf 0)) 2 = 2 := by decide +kernel

theorem exTwo_var : fl single (workerVar single exTwo 2 (fun j => some (.leaf j)) (.node (.leaf 1) (.leaf 0)) 2 + 3) = 4 := by
  decide +kernel

example : |(normEntry single (exTwo 1) 2 2 : ℝ) - (exTwo 1 - meanOf [0, 1] exTwo) / √(varOf [0, 1] exTwo + (3 : ℚ))| ≤ 1 / 100000 := by
  have hmean : meanOf [0, 1] exTwo = 2 := by norm_num [meanOf, exTwo]
  have hvar : varOf [0, 1] exTwo = 1 := by norm_num [varOf, meanOf, exTwo]
  have habs : (meanOf [0, 1] fun i => |exTwo i|) = 2 := by norm_num [meanOf, exTwo]
  have := C94_training exTwo_orders exTwo_orders exTwo (by decide) (p := single) (by decide) _ _ _ 3 2 rfl rfl (by norm_num) rfl
    (by rw [hvar, habs]; norm_num [single])
    (by
      show SqrtOf single (fl single (workerVar single exTwo (workerMean single exTwo _ _ 2) _ _ 2 + 3)) 2
      rw [exTwo_mean, exTwo_var]
      exact sqrtOf_four) 1
  rw [show [0, 1].length = 2 from rfl, exTwo_mean, hmean, hvar, habs] at this
  rw [hmean, hvar]
  refine this.trans ?_
  rw [show ((1 : ℚ) : ℝ) + ((3 : ℚ) : ℝ) = 2 ^ 2 by norm_num, Real.sqrt_sq (by norm_num)]
  norm_num [single, exTwo, abs_of_pos]

/-- Running statistics 2 and 1, scale 3 and shift 1/10. -/
example : |(affineEntry single 3 (1 / 10) (normEntry single 7 2 2) : ℝ) - (3 * ((7 - 2) / √((1 : ℚ) + (3 : ℚ))) + 1 / 10)| ≤ 1 / 100000 := by
  have h1 := C94_running (p := single) (by decide) (v := 1) (ε := 3) (s := 2) (by norm_num) (by norm_num)
    (by rw [show fl single (1 + 3) = 4 by decide +kernel]; exact sqrtOf_four) 7 2
  have h2 := C94_affine (p := single) 3 (1 / 10) _ _ _ h1
  rw [show ((1 : ℚ) : ℝ) + ((3 : ℚ) : ℝ) = 2 ^ 2 by norm_num, Real.sqrt_sq (by norm_num)] at h2 ⊢
  norm_num [single] at h2 ⊢
  refine h2.trans ?_
  norm_num [abs_of_pos]

end Verif.Fp
