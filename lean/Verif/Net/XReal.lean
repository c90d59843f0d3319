import Verif.Net.TrainReal
import Verif.Net.NormProps

/-!
# C73 for networks with interpolation and batch norm

As `Verif.Net.TrainReal`.  In training mode the mean and the variance of the batch depend on the input, and the gradients take
that into account; in evaluation mode the running statistics do not move.
-/

namespace Verif.Net

variable {β : Type}

/-! ## Specification -/

/-- As `TLayer.move`; a batch norm has the scale and the shift of channel `k` moved by `dW [k]` and `dB [k]`. -/
def XLayer.move (dW dB : List Nat → ℝ) (τ : ℝ) : XLayer ℝ β → XLayer ℝ β
  | .base l => .base (l.move dW dB τ)
  | .up c size p B gy => .up c size p B gy
  | .norm c cs cb ca N sq gamma beta => .norm c cs cb ca N sq (fun k => gamma k + τ * dW [k]) fun k => beta k + τ * dB [k]

/-- All layers moved, as `moveNet`. -/
noncomputable def xmoveNet : List (XLayer ℝ β) → (Nat → (List Nat → ℝ) × (List Nat → ℝ)) → ℝ → List (XLayer ℝ β)
  | [], _, _ => []
  | l :: ls, δ, τ => l.move (δ 0).1 (δ 0).2 τ :: xmoveNet ls (fun j => δ (j + 1)) τ

/-- The gradients of the parameters, as in `XLayer.Grads`, times the velocities. -/
noncomputable def XLayer.rate (dW dB : List Nat → ℝ) : XLayer ℝ β → List Nat × (List Nat → ℝ) → (List Nat → ℝ) → ℝ
  | .base l, x, Y => l.rate dW dB x Y
  | .up _ _ _ _ _, _, _ => 0
  | .norm _ _ _ _ N sq _ _, (s, X), Y => if N.M.affine then
      (∑ k ∈ Finset.range (s.getD 1 0), channelSum (timesT ⟨s, .float32, Y⟩
        (seqHat N.sqrt N.M.eps (seqUsed N.M.track N.training sq ⟨s, .float32, X⟩) ⟨s, .float32, X⟩)) k * dW [k]) +
      ∑ k ∈ Finset.range (s.getD 1 0), channelSum ⟨s, .float32, Y⟩ k * dB [k]
    else 0

/-- The same for all layers. -/
noncomputable def xnetRate : List (XLayer ℝ β) → (Nat → (List Nat → ℝ) × (List Nat → ℝ)) → List Nat × (List Nat → ℝ) →
    (List Nat → ℝ) → ℝ
  | [], _, _, _ => 0
  | l :: ls, δ, x, Y => l.rate (δ 0).1 (δ 0).2 x (xadjNet ls (l.seq x) Y) + xnetRate ls (fun j => δ (j + 1)) (l.seq x) Y

/-- The entrywise functions have the derivatives that are used; the square root is the real one, and `eps` is positive. -/
def XLayer.Smooth : XLayer ℝ β → Prop
  | .base l => l.Smooth
  | .up _ _ _ _ _ => True
  | .norm _ _ _ _ N _ _ _ => N.sqrt = Real.sqrt ∧ 0 < N.M.eps

/-! ## Batch norm -/

section
variable {s : List Nat} {X : ℝ → List Nat → ℝ} {X' : List Nat → ℝ}

theorem path_mean (hX : ∀ i, InBounds i s → HasDerivAt (fun τ => X τ i) (X' i) 0) (c : Nat) :
    HasDerivAt (fun τ => channelMean ⟨s, .float32, X τ⟩ c) (channelMean ⟨s, .float32, X'⟩ c) 0 := by
  suffices h : HasDerivAt (fun τ => channelSum ⟨s, .float32, X τ⟩ c) (channelSum ⟨s, .float32, X'⟩ c) 0 from
    h.div_const (channelVolume (⟨s, .float32, X'⟩ : Tensor ℝ) : ℝ)
  refine hasDerivAt_boxSum s (f := fun τ i => if i.getD 1 0 = c then X τ i else 0) fun i hi => ?_
  split
  · exact hX i hi
  · exact hasDerivAt_const _ _

/-- The velocity of the variance. -/
noncomputable def varRate (s : List Nat) (X0 X' : List Nat → ℝ) (c : Nat) : ℝ :=
  (boxSum s fun i => if i.getD 1 0 = c then 2 * (X0 i - channelMean ⟨s, .float32, X0⟩ c) *
    (X' i - channelMean ⟨s, .float32, X'⟩ c) else 0) / (channelVolume (⟨s, .float32, X0⟩ : Tensor ℝ) : ℝ)

theorem path_var (hX : ∀ i, InBounds i s → HasDerivAt (fun τ => X τ i) (X' i) 0) (c : Nat) :
    HasDerivAt (fun τ => channelVar ⟨s, .float32, X τ⟩ c) (varRate s (X 0) X' c) 0 := by
  suffices h : HasDerivAt (fun τ => boxSum s fun i => if i.getD 1 0 = c then (X τ i - channelMean ⟨s, .float32, X τ⟩ c) ^ 2 else 0)
      (boxSum s fun i => if i.getD 1 0 = c then 2 * (X 0 i - channelMean ⟨s, .float32, X 0⟩ c) *
        (X' i - channelMean ⟨s, .float32, X'⟩ c) else 0) 0 from
    h.div_const (channelVolume (⟨s, .float32, X 0⟩ : Tensor ℝ) : ℝ)
  refine hasDerivAt_boxSum s fun i hi => ?_
  split
  · refine (((hX i hi).sub (path_mean hX c)).pow 2).congr_deriv ?_
    simp only [Pi.sub_apply]
    norm_num
  · exact hasDerivAt_const _ _

/-- The velocity of the normalised input. -/
noncomputable def hatRate (eps : ℝ) (batch : Bool) (ms : (Nat → ℝ) × (Nat → ℝ)) (s : List Nat) (X0 X' : List Nat → ℝ)
    (i : List Nat) : ℝ :=
  if batch then
    ((X' i - channelMean ⟨s, .float32, X'⟩ (i.getD 1 0)) * √(channelVar ⟨s, .float32, X0⟩ (i.getD 1 0) + eps) -
      (X0 i - channelMean ⟨s, .float32, X0⟩ (i.getD 1 0)) *
        (varRate s X0 X' (i.getD 1 0) / (2 * √(channelVar ⟨s, .float32, X0⟩ (i.getD 1 0) + eps)))) /
      √(channelVar ⟨s, .float32, X0⟩ (i.getD 1 0) + eps) ^ 2
  else X' i / √(ms.2 (i.getD 1 0) + eps)

/-- The statistics used. -/
noncomputable def usedBy (batch : Bool) (ms : (Nat → ℝ) × (Nat → ℝ)) (s : List Nat) (X : List Nat → ℝ) : (Nat → ℝ) × (Nat → ℝ) :=
  if batch then (channelMean ⟨s, .float32, X⟩, channelVar ⟨s, .float32, X⟩) else ms

theorem path_hat {eps : ℝ} (he : 0 < eps) (batch : Bool) (ms : (Nat → ℝ) × (Nat → ℝ))
    (hX : ∀ i, InBounds i s → HasDerivAt (fun τ => X τ i) (X' i) 0) {i : List Nat} (hi : InBounds i s) :
    HasDerivAt (fun τ => (seqHat Real.sqrt eps (usedBy batch ms s (X τ)) ⟨s, .float32, X τ⟩).val i)
      (hatRate eps batch ms s (X 0) X' i) 0 := by
  unfold usedBy hatRate
  cases batch with
  | false =>
    simp only [Bool.false_eq_true, if_false]
    exact ((hX i hi).sub_const _).div_const _
  | true =>
    simp only [if_true]
    have hp : 0 < channelVar ⟨s, .float32, X 0⟩ (i.getD 1 0) + eps := by
      have := channelVar_nonneg ⟨s, .float32, X 0⟩ (i.getD 1 0)
      linarith
    exact ((hX i hi).sub (path_mean hX _)).div (((path_var hX _).add_const eps).sqrt hp.ne') (Real.sqrt_pos.2 hp).ne'

/-- The rate of the whole layer. -/
theorem norm_rate {eps : ℝ} (he : 0 < eps) (affine batch : Bool) (ms : (Nat → ℝ) × (Nat → ℝ)) (gamma beta d e : Nat → ℝ)
    (h2 : 2 ≤ s.length) (hX : ∀ i, InBounds i s → HasDerivAt (fun τ => X τ i) (X' i) 0) :
    ∃ Z' : List Nat → ℝ, (∀ i, InBounds i s → HasDerivAt (fun τ => (seqNorm Real.sqrt eps affine (fun k => gamma k + τ * d k)
      (fun k => beta k + τ * e k) (usedBy batch ms s (X τ)) ⟨s, .float32, X τ⟩).val i) (Z' i) 0) ∧
    ∀ Y : List Nat → ℝ, (boxSum s fun i => Y i * Z' i) =
      (boxSum s fun i => (seqNormGrad Real.sqrt eps affine gamma batch (usedBy batch ms s (X 0)) ⟨s, .float32, X 0⟩
        ⟨s, .float32, Y⟩).val i * X' i) +
      if affine then
        (∑ k ∈ Finset.range (s.getD 1 0), channelSum (timesT ⟨s, .float32, Y⟩
          (seqHat Real.sqrt eps (usedBy batch ms s (X 0)) ⟨s, .float32, X 0⟩)) k * d k) +
        ∑ k ∈ Finset.range (s.getD 1 0), channelSum ⟨s, .float32, Y⟩ k * e k
      else 0 := by
  refine ⟨fun i => (if affine then gamma (i.getD 1 0) else 1) * hatRate eps batch ms s (X 0) X' i +
    if affine then d (i.getD 1 0) * (seqHat Real.sqrt eps (usedBy batch ms s (X 0)) ⟨s, .float32, X 0⟩).val i + e (i.getD 1 0)
      else 0, fun i hi => ?_, fun Y => ?_⟩
  · have hh := path_hat he batch ms hX hi
    cases affine with
    | false =>
      simp only [Bool.false_eq_true, if_false, one_mul, add_zero]
      exact hh
    | true =>
      simp only [if_true]
      refine (((hasDerivAt_line (gamma (i.getD 1 0)) (d (i.getD 1 0)) 0).mul hh).add
        (hasDerivAt_line (beta (i.getD 1 0)) (e (i.getD 1 0)) 0)).congr_deriv ?_
      simp only [zero_mul, add_zero]
      ring
  · simp only [mul_add, boxSum_add]
    refine congrArg₂ (· + ·) ?_ ?_
    · set X0 := X 0
      have e0 : (fun i => X0 i + 0 * X' i) = X0 := by funext i; simp
      have hl : ∀ i, InBounds i s → HasDerivAt (fun τ => X0 i + τ * X' i) (X' i) 0 := fun i _ => hasDerivAt_line _ _ _
      have h1 : HasDerivAt (fun τ => boxSum s fun i => Y i * (seqNorm Real.sqrt eps affine gamma beta
          (usedBy batch ms s fun i => X0 i + τ * X' i) ⟨s, .float32, fun i => X0 i + τ * X' i⟩).val i)
          (boxSum s fun i => Y i * ((if affine then gamma (i.getD 1 0) else 1) * hatRate eps batch ms s X0 X' i)) 0 := by
        refine hasDerivAt_boxSum s fun i hi => ?_
        have hh := path_hat (X := fun τ i => X0 i + τ * X' i) he batch ms hl hi
        simp only [e0] at hh
        cases affine with
        | false =>
          simp only [Bool.false_eq_true, if_false, one_mul]
          exact hh.const_mul (Y i)
        | true =>
          simp only [if_true]
          exact ((hh.const_mul (gamma (i.getD 1 0))).add_const (beta (i.getD 1 0))).const_mul (Y i)
      refine h1.unique ?_
      cases batch with
      | true =>
        exact C64_derivative (X := ⟨s, .float32, X0⟩) (H := ⟨s, .float32, X'⟩) eps affine gamma beta ⟨s, .float32, Y⟩ h2 rfl
          fun c _ => by have := channelVar_nonneg ⟨s, .float32, X0⟩ c; linarith
      | false =>
        exact C64_derivative_tracked (X := ⟨s, .float32, X0⟩) (H := ⟨s, .float32, X'⟩) eps affine gamma beta ms ⟨s, .float32, Y⟩
    · cases affine with
      | false => simp [boxSum_zero]
      | true =>
        simp only [if_true]
        have p1 := channel_pair s .float32 d (timesT ⟨s, .float32, Y⟩
          (seqHat Real.sqrt eps (usedBy batch ms s (X 0)) ⟨s, .float32, X 0⟩)).val h2
        have p2 := channel_pair s .float32 e Y h2
        simp only [mul_comm (channelSum _ _)]
        refine Eq.trans ?_ (congrArg₂ (· + ·) p1 p2)
        rw [← boxSum_add]
        refine boxSum_congr fun i _ => ?_
        simp only [timesT]
        ring

end

/-! ## One layer -/

/-- What the shape of the input must be. -/
def XLayer.Takes : XLayer ℝ β → List Nat → Prop
  | .base l, s => l.Takes s
  | .up _ size p _ gy, s => ∃ P : Cart, UpCase P size p s gy ∧ s.length = P.shape.length
  | .norm _ _ _ _ _ _ _ _, s => 2 ≤ s.length

theorem xmove_zero (dW dB : List Nat → ℝ) (l : XLayer ℝ β) : l.move dW dB 0 = l := by
  cases l with
  | base l => simp [XLayer.move, move_zero]
  | up => rfl
  | norm => simp [XLayer.move]

theorem xseq_shape_move (dW dB : List Nat → ℝ) (τ : ℝ) (l : XLayer ℝ β) (s : List Nat) (X X0 : List Nat → ℝ) :
    ((l.move dW dB τ).seq (s, X)).1 = (l.seq (s, X0)).1 := by
  cases l with
  | base l => exact seq_shape_move dW dB τ l s X X0
  | up => rfl
  | norm => rfl

theorem xseq_shape (l : XLayer ℝ β) (s : List Nat) (X X0 : List Nat → ℝ) : (l.seq (s, X)).1 = (l.seq (s, X0)).1 := by
  cases l with
  | base l => exact seq_shape l s X X0
  | up => rfl
  | norm => rfl

theorem seqUsed_eq (track training : Bool) (sq : SeqState ℝ) (s : List Nat) (X : List Nat → ℝ) :
    seqUsed track training sq ⟨s, .float32, X⟩ = usedBy (training || !track) (sq.mean, sq.var) s X := by
  cases track <;> cases training <;> rfl

theorem XLayer.rate_layer (l : XLayer ℝ β) {s : List Nat} (hs : l.Takes s) (hf : l.Smooth) (dW dB : List Nat → ℝ)
    {X : ℝ → List Nat → ℝ} {X' : List Nat → ℝ} (hX : ∀ i, InBounds i s → HasDerivAt (fun τ => X τ i) (X' i) 0) :
    ∃ Z' : List Nat → ℝ, (∀ i, InBounds i (l.seq (s, X 0)).1 →
      HasDerivAt (fun τ => ((l.move dW dB τ).seq (s, X τ)).2 i) (Z' i) 0) ∧
    ∀ Y, (boxSum (l.seq (s, X 0)).1 fun i => Y i * Z' i) =
      (boxSum s fun i => l.adj (s, X 0) Y i * X' i) + l.rate dW dB (s, X 0) Y := by
  cases l with
  | base l => exact l.rate_layer hs hf dW dB hX
  | up c size p B gy =>
    obtain ⟨P, hc, hl⟩ := hs
    have hD := hc.dims
    refine ⟨torchInterp p s gy X', fun o ho => ?_, fun Y => ?_⟩
    · replace ho : InBounds o gy := ho
      have e := fun x => interp_expand p (x := x) (by omega) (by rw [hc.out.shape.2]; omega) ho hc.lead (hc.inside hl ho)
      show HasDerivAt (fun τ => torchInterp p s gy (X τ) o) _ 0
      rw [e X']
      simp only [e (X _)]
      exact hasDerivAt_boxSum s fun q hq => (hX q hq).mul_const _
    · show _ = _ + (0 : ℝ)
      rw [add_zero]
      have e := interp_transpose hc hl X' Y
      simp only [mul_comm (Y _)]
      show boxSum gy _ = _
      rw [← e]
      exact boxSum_congr fun i _ => mul_comm _ _
  | norm c cs cb ca N sq gamma beta =>
    obtain ⟨h1, h2⟩ := hf
    obtain ⟨Z', z1, z2⟩ := norm_rate h2 N.M.affine (N.training || !N.M.track) (sq.mean, sq.var) gamma beta (fun k => dW [k])
      (fun k => dB [k]) hs hX
    refine ⟨Z', fun i hi => ?_, fun Y => (z2 Y).trans ?_⟩
    · simp only [XLayer.move, XLayer.seq, seqUsed_eq, h1]
      exact z1 i hi
    · simp only [XLayer.adj, XLayer.rate, seqUsed_eq, h1]

/-! ## All layers -/

/-- The layers take the shapes they are given. -/
def XNetTakes : List (XLayer ℝ β) → List Nat → Prop
  | [], _ => True
  | l :: ls, s => l.Takes s ∧ XNetTakes ls (l.seq (s, fun _ => 0)).1

theorem xnet_rate {Φ : (List Nat → ℝ) → ℝ} {Y : List Nat → ℝ} (ls : List (XLayer ℝ β)) : ∀ {s : List Nat}
    {X : ℝ → List Nat → ℝ} {X' : List Nat → ℝ} (δ : Nat → (List Nat → ℝ) × (List Nat → ℝ)), XNetTakes ls s →
    (∀ l ∈ ls, l.Smooth) → GradientAt Φ (xseqNet ls (s, X 0)).1 (xseqNet ls (s, X 0)).2 Y →
    (∀ i, InBounds i s → HasDerivAt (fun τ => X τ i) (X' i) 0) →
    HasDerivAt (fun τ => Φ (xseqNet (xmoveNet ls δ τ) (s, X τ)).2)
      ((boxSum s fun i => xadjNet ls (s, X 0) Y i * X' i) + xnetRate ls δ (s, X 0) Y) 0 := by
  induction ls with
  | nil =>
    intro s X X' δ _ _ hΦ hX
    show HasDerivAt _ (_ + (0 : ℝ)) 0
    rw [add_zero]
    exact hΦ X X' rfl hX
  | cons l ls ih =>
    intro s X X' δ ht hs hΦ hX
    obtain ⟨Z', hZ, hr⟩ := l.rate_layer ht.1 (hs l (by simp)) (δ 0).1 (δ 0).2 hX
    have e0 : ((l.move (δ 0).1 (δ 0).2 0).seq (s, X 0)) = l.seq (s, X 0) := by rw [xmove_zero]
    have key := ih (s := (l.seq (s, X 0)).1) (X := fun τ => ((l.move (δ 0).1 (δ 0).2 τ).seq (s, X τ)).2) (X' := Z')
      (fun j => δ (j + 1)) (by rw [xseq_shape l s (X 0) fun _ => 0]; exact ht.2) (fun l' h' => hs l' (by simp [h']))
      (by
        simp only [e0]
        exact hΦ) hZ
    simp only [e0] at key
    rw [hr, add_assoc] at key
    refine key.congr_of_eventuallyEq (Filter.Eventually.of_forall fun τ => ?_)
    show Φ (xseqNet (xmoveNet ls _ τ) ((l.move (δ 0).1 (δ 0).2 τ).seq (s, X τ))).2 = _
    rw [← xseq_shape_move (δ 0).1 (δ 0).2 τ l s (X τ) (X 0)]

variable {W : List Nat} {P P' : Cart} {L L' : Layout} {t : TorchDtype}

theorem XFits.takes {l : XLayer ℝ β} {s : List Nat} (h : XFits W t P L l L') (hp : Placed W P L s) : l.Takes s := by
  cases h with
  | base h => exact h.takes hp
  | up c B hc ho hf hl =>
    obtain ⟨wf, lay, sub, rfl⟩ := hp
    have e := Layout.balanced_global hl.symm wf.pos
    show ∃ P : Cart, _ ∧ _
    rw [e]
    exact ⟨_, hc, hl⟩
  | norm c cs cb ca hN hb =>
    obtain ⟨wf, lay, sub, rfl⟩ := hp
    show 2 ≤ L.global.length
    rw [L.length_global, ← L.length_pshape, lay]
    exact hN.made.two

theorem XNetFits.takes {ls : List (XLayer ℝ β)} (h : XNetFits W t P L ls P' L') : ∀ {s : List Nat}, Placed W P L s →
    XNetTakes ls s := by
  induction h with
  | nil => exact fun _ => trivial
  | cons h hs ih => exact fun hp => ⟨h.takes hp, ih (h.placed hp _)⟩

/-- C73, networks with interpolation and batch norm: let `Y` be the gradient of the function `Φ` of the output.  When the input
moves with velocity `X'` and the parameters of all layers with the velocities `δ`, then `Φ` of the output of the sequential
network changes at the rate of the gradients of C80 and C81 times the velocities; in training mode the mean and the variance of the
batch move along. -/
theorem C73_derivative_norm {ls : List (XLayer ℝ β)} (hP : P.WF) (hL : L.pshape = P.shape) (hW : ∀ w ∈ P.members, w ∈ W)
    (hn : XNetFits W t P L ls P' L') (hs : ∀ l ∈ ls, l.Smooth) {Φ : (List Nat → ℝ) → ℝ} {X : ℝ → List Nat → ℝ}
    {X' Y : List Nat → ℝ} (hΦ : GradientAt Φ (xseqNet ls (L.global, X 0)).1 (xseqNet ls (L.global, X 0)).2 Y)
    (hX : ∀ i, InBounds i L.global → HasDerivAt (fun τ => X τ i) (X' i) 0)
    (δ : Nat → (List Nat → ℝ) × (List Nat → ℝ)) :
    HasDerivAt (fun τ => Φ (xseqNet (xmoveNet ls δ τ) (L.global, X τ)).2)
      ((boxSum L.global fun i => xadjNet ls (L.global, X 0) Y i * X' i) + xnetRate ls δ (L.global, X 0) Y) 0 :=
  xnet_rate ls δ (hn.takes ⟨hP, hL, hW, rfl⟩) hs hΦ hX

/-! ## A worked case -/

/-- Two workers with one sample each of one channel. -/
def exRP : Cart := ⟨[0, 1], [2, 1], some 0⟩

theorem exRP_wf : exRP.WF := ⟨by decide, by decide, by decide⟩

/-- A batch norm with `eps = 3` as made by `__init__`. -/
noncomputable def exRM : BatchNorm ℝ := ⟨exRP, ⟨[0], [1, 1], some 0⟩, 1, 3, none, true, true⟩

theorem exRM_new : newBatchNorm exRP 1 (3 : ℝ) none true true 0 = some exRM := rfl

/-- In training mode, with its initial buffers and parameters. -/
noncomputable def exRL : NormLayer ℝ :=
  ⟨exRM, Real.sqrt, true, initialStates exRP 1, fun w => initialParam exRM 2 ((localFeatures exRP 1 w).getD 0) 1 w,
    fun w => initialParam exRM 2 ((localFeatures exRP 1 w).getD 0) 0 w, true⟩

/-- Batch norm and square. -/
noncomputable def exRX : List (XLayer ℝ Nat) :=
  [.norm 7 8 9 10 exRL ⟨fun _ => 0, fun _ => 1, 0⟩ (fun _ => 1) fun _ => 0, .base (.map (fun x => x ^ 2) fun x => 2 * x)]

theorem exRX_fits : XNetFits [0, 1] .float32 exRP [[1, 1], [1]] exRX exRP [[1, 1], [1]] := by
  obtain ⟨a, -⟩ := newBatchNorm_with (bs := channelBlocks exRP 1) exRP_wf ⟨0, rfl⟩ exRM_new (by decide)
  have e : ([[1, 1], [1]] : List (List Nat)).getD 1 [] = channelBlocks exRP 1 := by decide
  have hN : NormOK exRL [[1, 1], [1]] .float32 ⟨fun _ => (0 : ℝ), fun _ => 1, 0⟩ (fun _ => 1) fun _ => 0 := by
    refine ⟨?_, fun _ => ?_, fun _ => ?_, fun _ => ?_⟩
    · rw [e]; exact a
    · rw [e]; exact C48_initial a 1
    · rw [e]; exact C48_initial a 0
    · rw [e]; exact C49_initial exRP_wf (by decide) 1
  exact .cons (.norm 7 8 9 10 hN fun _ => e) (.cons (.base (.map _ _)) .nil)

/-- The inputs are 1 and 3, so the mean is 2 and the variance 1, and the normalised second input is 1 / 2.  When the second input
moves, its result moves at the rate 2 · 1 / 2 · 3 / 16: the mean and the variance move as well. -/
example : HasDerivAt (fun τ => (xseqNet exRX ([2, 1], fun i => if i = [1, 0] then 3 + τ else 1)).2 [1, 0]) (3 / 16) 0 := by
  have h := C73_derivative_norm (X := fun τ i => if i = [1, 0] then 3 + τ else 1) (X' := fun i => if i = [1, 0] then 1 else 0)
    (Y := fun i => if i = [1, 0] then 1 else 0) (Φ := fun Z => boxSum [2, 1] fun i => if i = [1, 0] then Z i else 0)
    exRP_wf rfl (by decide) exRX_fits
    (by
      intro l hl
      simp only [exRX, List.mem_cons, List.not_mem_nil, or_false] at hl
      rcases hl with rfl | rfl
      · exact ⟨rfl, by norm_num [exRL, exRM]⟩
      · intro x
        simpa using hasDerivAt_pow 2 x)
    (gradientAt_sum (φ := fun i x => if i = [1, 0] then x else 0) fun i _ => by
      split
      · exact hasDerivAt_id _
      · exact hasDerivAt_const _ _)
    (fun i _ => by
      split
      · simpa using (hasDerivAt_id (0 : ℝ)).const_add 3
      · exact hasDerivAt_const _ _)
    (fun _ => (fun _ => 0, fun _ => 0))
  refine (h.congr_deriv ?_).congr_of_eventuallyEq (Filter.Eventually.of_forall fun τ => ?_)
  · have h4 : √(4 : ℝ) = 2 := by rw [show (4 : ℝ) = 2 ^ 2 by norm_num]; exact Real.sqrt_sq (by norm_num)
    have eg : Layout.global [[1, 1], [1]] = [2, 1] := by decide
    simp [eg, exRX, exRL, exRM, xnetRate, XLayer.rate, TLayer.rate, xadjNet, XLayer.adj, TLayer.adj, XLayer.seq, seqUsed, seqNorm,
      seqNormGrad, seqHat, timesT, channelMean, channelVar, channelSquares, channelSum, channelVolume,
      boxSum, Finset.sum_range_succ]
    norm_num [h4]
  · have eg : Layout.global [[1, 1], [1]] = [2, 1] := by decide
    have e0 : ∀ τ, xmoveNet exRX (fun _ => (fun _ => 0, fun _ => 0)) τ = exRX := by
      intro τ
      simp [exRX, xmoveNet, XLayer.move, TLayer.move]
    simp only [e0, eg]
    simp [boxSum]

end Verif.Net
