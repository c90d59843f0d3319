import Verif.Grad.NormProps
import Mathlib.Analysis.SpecialFunctions.Sqrt
import Mathlib.Analysis.Calculus.Deriv.Add
import Mathlib.Analysis.Calculus.Deriv.Mul
import Mathlib.Analysis.Calculus.Deriv.Inv
import Mathlib.Analysis.Calculus.Deriv.Pow

/-!
# Batch norm: the gradients of C64 are derivatives

Over the reals, with the real square root, the specification `seqNormGrad` is the gradient of the sequential layer.
-/

namespace Verif

theorem hasDerivAt_boxSum (s : List Nat) {f : ℝ → List Nat → ℝ} {f' : List Nat → ℝ} {t : ℝ}
    (h : ∀ i, InBounds i s → HasDerivAt (fun t => f t i) (f' i) t) :
    HasDerivAt (fun t => boxSum s (f t)) (boxSum s f') t := by
  induction s generalizing f f' with
  | nil => exact h [] (by trivial)
  | cons n s ih =>
    show HasDerivAt (fun t => ∑ i ∈ Finset.range n, boxSum s fun l => f t (i :: l))
      (∑ i ∈ Finset.range n, boxSum s fun l => f' (i :: l)) t
    refine HasDerivAt.fun_sum fun i hi => ih fun l hl => h (i :: l) ?_
    exact ⟨Finset.mem_range.1 hi, hl⟩

/-- The tensor moved from `X` by `t` times `H`. -/
def moved (X H : Tensor ℝ) (t : ℝ) : Tensor ℝ := ⟨X.shape, X.dtype, fun i => X.val i + t * H.val i⟩

/-- The sum over a channel is symmetric. -/
theorem channel_swap {R : Type} [Field R] (s : List Nat) (d d' : TorchDtype) (a : Nat → R) (f g : List Nat → R) :
    (boxSum s fun i => a (i.getD 1 0) * f i * channelSum ⟨s, d, g⟩ (i.getD 1 0)) =
      boxSum s fun i => a (i.getD 1 0) * channelSum ⟨s, d', f⟩ (i.getD 1 0) * g i := by
  have l : (boxSum s fun i => a (i.getD 1 0) * f i * channelSum ⟨s, d, g⟩ (i.getD 1 0)) =
      boxSum s fun i => boxSum s fun j => if j.getD 1 0 = i.getD 1 0 then a (i.getD 1 0) * f i * g j else 0 := by
    refine boxSum_congr fun i _ => ?_
    rw [channelSum, ← boxSum_mul_left]
    refine boxSum_congr fun j _ => ?_
    split <;> simp
  have r : (boxSum s fun i => a (i.getD 1 0) * channelSum ⟨s, d', f⟩ (i.getD 1 0) * g i) =
      boxSum s fun i => boxSum s fun j => if j.getD 1 0 = i.getD 1 0 then a (i.getD 1 0) * f j * g i else 0 := by
    refine boxSum_congr fun i _ => ?_
    rw [channelSum, ← boxSum_mul_left, ← boxSum_mul_right]
    refine boxSum_congr fun j _ => ?_
    split <;> simp
  rw [l, r, boxSum_comm]
  refine boxSum_congr fun i _ => boxSum_congr fun j _ => ?_
  by_cases e : i.getD 1 0 = j.getD 1 0
  · rw [if_pos e, if_pos e.symm, e]
  · rw [if_neg e, if_neg fun h => e h.symm]

variable {X H : Tensor ℝ}

theorem hasDerivAt_mean (c : Nat) (t : ℝ) :
    HasDerivAt (fun t => channelMean (moved X H t) c) (channelMean ⟨X.shape, X.dtype, H.val⟩ c) t := by
  suffices h : HasDerivAt (fun t => channelSum (moved X H t) c) (channelSum ⟨X.shape, X.dtype, H.val⟩ c) t from
    h.div_const (channelVolume X : ℝ)
  refine hasDerivAt_boxSum X.shape (f := fun t i => if i.getD 1 0 = c then X.val i + t * H.val i else 0) fun i _ => ?_
  split
  · simpa using ((hasDerivAt_id t).mul_const (H.val i)).const_add (X.val i)
  · exact hasDerivAt_const t 0

theorem moved_zero : moved X H 0 = X := by
  unfold moved
  simp

theorem hasDerivAt_var (h2 : 2 ≤ X.shape.length) {c : Nat} (hc : c < X.shape.getD 1 0) :
    HasDerivAt (fun t => channelVar (moved X H t) c)
      (2 * channelSum ⟨X.shape, X.dtype, fun i => (X.val i - channelMean X (i.getD 1 0)) * H.val i⟩ c /
        (channelVolume X : ℝ)) 0 := by
  suffices h : HasDerivAt (fun t => boxSum X.shape fun i =>
      if i.getD 1 0 = c then ((moved X H t).val i - channelMean (moved X H t) c) ^ 2 else 0)
      (2 * channelSum ⟨X.shape, X.dtype, fun i => (X.val i - channelMean X (i.getD 1 0)) * H.val i⟩ c) 0 from
    h.div_const (channelVolume X : ℝ)
  have step := hasDerivAt_boxSum X.shape (t := 0)
    (f := fun t i => if i.getD 1 0 = c then ((moved X H t).val i - channelMean (moved X H t) c) ^ 2 else 0)
    (f' := fun i => if i.getD 1 0 = c then
      2 * (X.val i - channelMean X c) * (H.val i - channelMean ⟨X.shape, X.dtype, H.val⟩ c) else 0) fun i _ => by
    split
    · have h1 : HasDerivAt (fun t => (moved X H t).val i) (H.val i) 0 := by
        simpa [moved] using ((hasDerivAt_id (0 : ℝ)).mul_const (H.val i)).const_add (X.val i)
      have h3 := (h1.sub (hasDerivAt_mean (X := X) (H := H) c 0)).pow 2
      refine h3.congr_deriv ?_
      simp only [Pi.sub_apply, moved_zero]
      norm_num
    · exact hasDerivAt_const (0 : ℝ) 0
  refine step.congr_deriv ?_
  have cen := channelSum_centred X h2 hc
  have e : (boxSum X.shape fun i => if i.getD 1 0 = c then
      2 * (X.val i - channelMean X c) * (H.val i - channelMean ⟨X.shape, X.dtype, H.val⟩ c) else 0) =
      2 * channelSum ⟨X.shape, X.dtype, fun i => (X.val i - channelMean X (i.getD 1 0)) * H.val i⟩ c +
      (-2 * channelMean ⟨X.shape, X.dtype, H.val⟩ c) *
        channelSum ⟨X.shape, X.dtype, fun i => X.val i - channelMean X (i.getD 1 0)⟩ c := by
    unfold channelSum
    rw [← boxSum_mul_left, ← boxSum_mul_left, ← boxSum_add]
    refine boxSum_congr fun i _ => ?_
    split
    · next e => simp only [e]; ring
    · simp
  rw [e, cen, mul_zero, add_zero]

/-- **C64, derivative**: along every direction `H` the derivative of `⟨dY, layer(X)⟩` is `⟨seqNormGrad, H⟩`, when
the statistics are those of the batch. -/
theorem C64_derivative (eps : ℝ) (affine : Bool) (gamma beta : Nat → ℝ) (dY : Tensor ℝ) (h2 : 2 ≤ X.shape.length)
    (hY : dY.shape = X.shape) (hpos : ∀ c < X.shape.getD 1 0, 0 < channelVar X c + eps) :
    HasDerivAt (fun t => boxSum X.shape fun i => dY.val i *
        (seqNorm Real.sqrt eps affine gamma beta (channelMean (moved X H t), channelVar (moved X H t))
          (moved X H t)).val i)
      (boxSum X.shape fun i =>
        (seqNormGrad Real.sqrt eps affine gamma true (channelMean X, channelVar X) X dY).val i * H.val i) 0 := by
  set s : Nat → ℝ := fun c => if affine then gamma c else 1 with hs
  set q : Nat → ℝ := fun c => Real.sqrt (channelVar X c + eps) with hq
  set Xh := seqHat Real.sqrt eps (channelMean X, channelVar X) X with hXh
  set V : ℝ := (channelVolume X : ℝ) with hV
  have step := hasDerivAt_boxSum X.shape (t := 0)
    (f := fun t i => dY.val i *
      (seqNorm Real.sqrt eps affine gamma beta (channelMean (moved X H t), channelVar (moved X H t))
        (moved X H t)).val i)
    (f' := fun i => s (i.getD 1 0) / q (i.getD 1 0) * (dY.val i * H.val i) +
      (-(s (i.getD 1 0) / q (i.getD 1 0) / V) * dY.val i *
          channelSum ⟨X.shape, X.dtype, H.val⟩ (i.getD 1 0) +
        -(s (i.getD 1 0) / q (i.getD 1 0) / V) * (dY.val i * Xh.val i) *
          channelSum ⟨X.shape, X.dtype, fun i => Xh.val i * H.val i⟩ (i.getD 1 0))) fun i hi => by
    have hc : i.getD 1 0 < X.shape.getD 1 0 := inBounds_getD hi (by omega)
    have hp := hpos _ hc
    have hq0 : q (i.getD 1 0) ≠ 0 := (Real.sqrt_pos.2 hp).ne'
    have h1 : HasDerivAt (fun t => (moved X H t).val i) (H.val i) 0 := by
      simpa [moved] using ((hasDerivAt_id (0 : ℝ)).mul_const (H.val i)).const_add (X.val i)
    have hm := hasDerivAt_mean (X := X) (H := H) (i.getD 1 0) 0
    have hv := (hasDerivAt_var (H := H) h2 hc).add_const eps
    have hsq := hv.sqrt (by rw [moved_zero]; exact hp.ne')
    have hdiv := (h1.sub hm).div hsq (by rw [moved_zero]; exact hq0)
    have hX : channelSum ⟨X.shape, X.dtype, fun i => (X.val i - channelMean X (i.getD 1 0)) * H.val i⟩ (i.getD 1 0) =
        q (i.getD 1 0) * channelSum ⟨X.shape, X.dtype, fun i => Xh.val i * H.val i⟩ (i.getD 1 0) := by
      unfold channelSum
      rw [← boxSum_mul_left]
      refine boxSum_congr fun j _ => ?_
      split
      · next e =>
        show (X.val j - channelMean X (j.getD 1 0)) * H.val j =
          q (i.getD 1 0) * ((X.val j - channelMean X (j.getD 1 0)) / q (j.getD 1 0) * H.val j)
        rw [e]
        field_simp
      · simp
    have hXi : Xh.val i = (X.val i - channelMean X (i.getD 1 0)) / q (i.getD 1 0) := rfl
    have hres := ((hdiv.const_mul (s (i.getD 1 0))).add_const (if affine then beta (i.getD 1 0) else 0)).const_mul
      (dY.val i)
    refine (hres.congr_of_eventuallyEq (Filter.Eventually.of_forall fun t => ?_)).congr_deriv ?_
    · show dY.val i * (seqNorm Real.sqrt eps affine gamma beta _ (moved X H t)).val i = dY.val i * (_ + _)
      rw [seqNorm]
      cases affine <;> simp [hs]
    · have hH : channelMean ⟨X.shape, X.dtype, H.val⟩ (i.getD 1 0) =
          channelSum ⟨X.shape, X.dtype, H.val⟩ (i.getD 1 0) / V := rfl
      simp only [moved_zero, Pi.sub_apply]
      rw [hX, hXi, hH]
      have e2 : Real.sqrt (channelVar X (i.getD 1 0) + eps) = q (i.getD 1 0) := rfl
      rw [e2]
      by_cases hV0 : V = 0
      · have : ((channelVolume X : Nat) : ℝ) = 0 := hV0
        rw [this, hV0]
        simp only [div_zero]
        field_simp
        ring
      · have : ((channelVolume X : Nat) : ℝ) = V := rfl
        rw [this]
        field_simp
        ring
  refine step.congr_deriv ?_
  rw [boxSum_add, boxSum_add, channel_swap X.shape X.dtype X.dtype (fun c => -(s c / q c / V)) dY.val H.val,
    channel_swap X.shape X.dtype X.dtype (fun c => -(s c / q c / V)) (fun i => dY.val i * Xh.val i)
      (fun i => Xh.val i * H.val i), ← boxSum_add, ← boxSum_add]
  refine boxSum_congr fun i _ => ?_
  rw [seqNormGrad]
  have e1 : channelMean dY (i.getD 1 0) = channelSum ⟨X.shape, X.dtype, dY.val⟩ (i.getD 1 0) / V := by
    unfold channelMean channelSum channelVolume; rw [hY]; rfl
  have e2 : channelMean (timesT dY Xh) (i.getD 1 0) =
      channelSum ⟨X.shape, X.dtype, fun i => dY.val i * Xh.val i⟩ (i.getD 1 0) / V := by
    unfold channelMean channelSum channelVolume timesT; simp only [hY]; rfl
  simp only [if_true]
  rw [e1, ← hXh, e2]
  show _ = s (i.getD 1 0) / q (i.getD 1 0) * _ * _
  ring

/-- The same with tracked statistics, which do not depend on the input. -/
theorem C64_derivative_tracked (eps : ℝ) (affine : Bool) (gamma beta : Nat → ℝ) (ms : (Nat → ℝ) × (Nat → ℝ))
    (dY : Tensor ℝ) :
    HasDerivAt (fun t => boxSum X.shape fun i => dY.val i *
        (seqNorm Real.sqrt eps affine gamma beta ms (moved X H t)).val i)
      (boxSum X.shape fun i => (seqNormGrad Real.sqrt eps affine gamma false ms X dY).val i * H.val i) 0 := by
  refine hasDerivAt_boxSum X.shape fun i _ => ?_
  have h1 : HasDerivAt (fun t => (moved X H t).val i) (H.val i) 0 := by
    simpa [moved] using ((hasDerivAt_id (0 : ℝ)).mul_const (H.val i)).const_add (X.val i)
  have hd := (h1.sub_const (ms.1 (i.getD 1 0))).div_const (Real.sqrt (ms.2 (i.getD 1 0) + eps))
  cases affine
  · refine (hd.const_mul (dY.val i)).congr_deriv ?_
    simp only [seqNormGrad, Bool.false_eq_true, if_false]
    ring
  · refine (((hd.const_mul (gamma (i.getD 1 0))).add_const (beta (i.getD 1 0))).const_mul (dY.val i)).congr_deriv ?_
    simp only [seqNormGrad, Bool.false_eq_true, if_false, if_true]
    ring

theorem channel_pair (s : List Nat) (d : TorchDtype) (g : Nat → ℝ) (f : List Nat → ℝ) (h2 : 2 ≤ s.length) :
    (boxSum s fun i => g (i.getD 1 0) * f i) =
      ∑ c ∈ Finset.range (s.getD 1 0), g c * channelSum ⟨s, d, f⟩ c := by
  have e : (boxSum s fun i => g (i.getD 1 0) * f i) =
      boxSum s fun i => boxSum [s.getD 1 0] fun c => if i.getD 1 0 = c.getD 0 0 then g (i.getD 1 0) * f i else 0 := by
    refine boxSum_congr fun i hi => ?_
    have hc : i.getD 1 0 < s.getD 1 0 := inBounds_getD hi (by omega)
    show _ = ∑ c ∈ Finset.range (s.getD 1 0), if i.getD 1 0 = c then g (i.getD 1 0) * f i else 0
    rw [Finset.sum_ite_eq, if_pos (Finset.mem_range.2 hc)]
  rw [e, boxSum_comm]
  show (∑ c ∈ Finset.range (s.getD 1 0), _) = _
  refine Finset.sum_congr rfl fun c _ => ?_
  show (boxSum s fun i => if i.getD 1 0 = c then g (i.getD 1 0) * f i else 0) = _
  rw [channelSum, ← boxSum_mul_left]
  refine boxSum_congr fun i _ => ?_
  split
  · next e => rw [e]
  · simp

/-- **C64, derivative** along a direction `d` of the scales and `e` of the shifts: the channel sums of `C64_gamma` and
`C64_beta` are the gradients. -/
theorem C64_derivative_affine (eps : ℝ) (gamma beta d e : Nat → ℝ) (ms : (Nat → ℝ) × (Nat → ℝ)) (dY : Tensor ℝ)
    (h2 : 2 ≤ X.shape.length) (hY : dY.shape = X.shape) :
    HasDerivAt (fun t => boxSum X.shape fun i => dY.val i *
        (seqNorm Real.sqrt eps true (fun c => gamma c + t * d c) (fun c => beta c + t * e c) ms X).val i)
      ((∑ c ∈ Finset.range (X.shape.getD 1 0), d c * channelSum (timesT dY (seqHat Real.sqrt eps ms X)) c) +
        ∑ c ∈ Finset.range (X.shape.getD 1 0), e c * channelSum dY c) 0 := by
  have p1 := channel_pair X.shape dY.dtype d (timesT dY (seqHat Real.sqrt eps ms X)).val h2
  have p2 := channel_pair X.shape dY.dtype e dY.val h2
  have q1 : (⟨X.shape, dY.dtype, (timesT dY (seqHat Real.sqrt eps ms X)).val⟩ : Tensor ℝ) =
      timesT dY (seqHat Real.sqrt eps ms X) := by rw [← hY]; rfl
  have q2 : (⟨X.shape, dY.dtype, dY.val⟩ : Tensor ℝ) = dY := by rw [← hY]
  rw [q1] at p1
  rw [q2] at p2
  rw [← p1, ← p2, ← boxSum_add]
  refine hasDerivAt_boxSum X.shape fun i _ => ?_
  have hg := (((hasDerivAt_id (0 : ℝ)).mul_const (d (i.getD 1 0))).const_add (gamma (i.getD 1 0))).mul_const
    ((seqHat Real.sqrt eps ms X).val i)
  have hb := ((hasDerivAt_id (0 : ℝ)).mul_const (e (i.getD 1 0))).const_add (beta (i.getD 1 0))
  refine ((hg.add hb).const_mul (dY.val i)).congr_deriv ?_
  show _ = d (i.getD 1 0) * (dY.val i * _) + e (i.getD 1 0) * dY.val i
  ring

/-- Two entries 1 and 3 in one channel: mean 2, variance 1. -/
def exReal : Tensor ℝ := ⟨[2, 1], .float64, fun i => if i.getD 0 0 = 0 then 1 else 3⟩

theorem boxSum_nonneg (s : List Nat) {f : List Nat → ℝ} (h : ∀ i, 0 ≤ f i) : 0 ≤ boxSum s f := by
  induction s generalizing f with
  | nil => exact h []
  | cons n s ih => exact Finset.sum_nonneg fun i _ => ih fun l => h (i :: l)

theorem channelVar_nonneg (X : Tensor ℝ) (c : Nat) : 0 ≤ channelVar X c := by
  refine div_nonneg (boxSum_nonneg _ fun i => ?_) (Nat.cast_nonneg _)
  split
  · exact sq_nonneg _
  · exact le_refl _

/-- The hypotheses of `C64_derivative` hold for every tensor when `eps` is positive. -/
example : 2 ≤ exReal.shape.length ∧ ∀ c < exReal.shape.getD 1 0, (0 : ℝ) < channelVar exReal c + 3 :=
  ⟨by decide, fun c _ => by have := channelVar_nonneg exReal c; linarith⟩

end Verif
