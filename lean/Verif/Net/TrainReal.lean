import Verif.Net.TrainProps
import Verif.Grad.NormReal
import Verif.Grad.Limits

/-!
# C73: the gradients of the sequential network are derivatives

Over the reals: move the parameters of all layers along lines and the input along any differentiable path; then every
function of the output, with gradient `Y` at the output, changes at the rate of the gradients of C72 times the
velocities.
-/

namespace Verif.Net

variable {β : Type}

/-! ## Specification -/

/-- The layer with its weight moved by `τ` times `dW` and its bias by `τ` times `dB`. -/
def TLayer.move (dW dB : List Nat → ℝ) (τ : ℝ) : TLayer ℝ β → TLayer ℝ β
  | .conv c cw cb C rgw B => .conv c cw cb { C with
      weight := ⟨C.weight.shape, C.weight.dtype, fun i => C.weight.val i + τ * dW i⟩
      bias := C.bias.map fun b => ⟨b.shape, b.dtype, fun i => b.val i + τ * dB i⟩ } rgw B
  | .lin c cy A rgp weight bias => .lin c cy A rgp (fun i => weight i + τ * dW i) fun i => bias i + τ * dB i
  | .chan c cy C weight bias rgp Wt bi =>
    .chan c cy C weight bias rgp (fun i => Wt i + τ * dW i) fun i => bi i + τ * dB i
  | .gen c cw cb cx cy C weight bias rgp B Wt bi =>
    .gen c cw cb cx cy C weight bias rgp B (fun i => Wt i + τ * dW i) fun i => bi i + τ * dB i
  | l => l

/-- All layers moved; `δ j` are the velocities of the weight and the bias of layer `j`. -/
noncomputable def moveNet : List (TLayer ℝ β) → (Nat → (List Nat → ℝ) × (List Nat → ℝ)) → ℝ → List (TLayer ℝ β)
  | [], _, _ => []
  | l :: ls, δ, τ => l.move (δ 0).1 (δ 0).2 τ :: moveNet ls (fun j => δ (j + 1)) τ

/-- The gradients of the parameters, as in `TLayer.Grads`, times the velocities. -/
noncomputable def TLayer.rate (dW dB : List Nat → ℝ) : TLayer ℝ β → List Nat × (List Nat → ℝ) → (List Nat → ℝ) → ℝ
  | .conv _ _ _ C _ _, (s, X), Y =>
    (∑ co ∈ Finset.range C.Co, ∑ c ∈ Finset.range (C.Ci / C.groups), boxSum C.W.k fun κ =>
      torchConvGradW C.W C.groups C.Ci C.Co s X Y (co :: c :: κ) * dW (co :: c :: κ)) +
    if C.bias.isSome then ∑ co ∈ Finset.range C.Co, torchConvGradB C.W C.Co s Y [co] * dB [co] else 0
  | .lin _ _ A _ _ _, (s, X), Y =>
    (∑ o ∈ Finset.range A.outFeatures, ∑ i ∈ Finset.range A.inFeatures, denseGradW (s.headD 0) X Y [o, i] * dW [o, i]) +
    if A.useBias then ∑ o ∈ Finset.range A.outFeatures, denseGradB (s.headD 0) Y [o] * dB [o] else 0
  | .chan _ _ C _ _ _ _ _, (s, X), Y =>
    (∑ co ∈ Finset.range C.Co, ∑ c ∈ Finset.range C.Ci, boxSum C.W.k fun κ =>
      torchConvGradW C.W 1 C.Ci C.Co s X Y (co :: c :: κ) * dW (co :: c :: κ)) +
    if C.useBias then ∑ co ∈ Finset.range C.Co, torchConvGradB C.W C.Co s Y [co] * dB [co] else 0
  | .gen _ _ _ _ _ C _ _ _ _ _ _, (s, X), Y =>
    (∑ co ∈ Finset.range C.Co, ∑ c ∈ Finset.range C.Ci, boxSum C.W.k fun κ =>
      torchConvGradW C.W 1 C.Ci C.Co s X Y (co :: c :: κ) * dW (co :: c :: κ)) +
    if C.useBias then ∑ co ∈ Finset.range C.Co, torchConvGradB C.W C.Co s Y [co] * dB [co] else 0
  | _, _, _ => 0

/-- The same for all layers. -/
noncomputable def netRate : List (TLayer ℝ β) → (Nat → (List Nat → ℝ) × (List Nat → ℝ)) → List Nat × (List Nat → ℝ) →
    (List Nat → ℝ) → ℝ
  | [], _, _, _ => 0
  | l :: ls, δ, x, Y => l.rate (δ 0).1 (δ 0).2 x (tadjNet ls (l.seq x) Y) + netRate ls (fun j => δ (j + 1)) (l.seq x) Y

/-- The entrywise functions have the derivatives that are used. -/
def TLayer.Smooth : TLayer ℝ β → Prop
  | .map f df => ∀ x, HasDerivAt f (df x) x
  | _ => True

/-- `Y` is the gradient of `Φ` at the tensor `Z0` of shape `s`. -/
def GradientAt (Φ : (List Nat → ℝ) → ℝ) (s : List Nat) (Z0 Y : List Nat → ℝ) : Prop :=
  ∀ (Z : ℝ → List Nat → ℝ) (Z' : List Nat → ℝ), Z 0 = Z0 →
    (∀ i, InBounds i s → HasDerivAt (fun τ => Z τ i) (Z' i) 0) →
    HasDerivAt (fun τ => Φ (Z τ)) (boxSum s fun i => Y i * Z' i) 0

/-! ## Proofs -/

/-- What the shape of the input must be. -/
def TLayer.Takes : TLayer ℝ β → List Nat → Prop
  | .conv _ _ _ _ _ _, s => ∃ b c n, s = b :: c :: n
  | .flat, s => s ≠ []
  | .lin _ _ A _ _ _, s => ∃ b, s = [b, A.inFeatures]
  | .chan _ _ _ _ _ _ _ _, s => ∃ b c n, s = b :: c :: n
  | .gen _ _ _ _ _ _ _ _ _ _ _ _, s => ∃ b c n, s = b :: c :: n
  | _, _ => True

theorem move_zero (dW dB : List Nat → ℝ) (l : TLayer ℝ β) : l.move dW dB 0 = l := by
  cases l with
  | conv c cw cb C rgw B =>
    obtain ⟨Wn, g, ci, co, wt, bs⟩ := C
    cases bs <;> simp [TLayer.move]
  | lin => simp [TLayer.move]
  | chan => simp [TLayer.move]
  | gen => simp [TLayer.move]
  | _ => rfl

theorem moveNet_zero (ls : List (TLayer ℝ β)) (δ : Nat → (List Nat → ℝ) × (List Nat → ℝ)) : moveNet ls δ 0 = ls := by
  induction ls generalizing δ with
  | nil => rfl
  | cons l ls ih => rw [moveNet, move_zero, ih]

theorem seq_shape_move (dW dB : List Nat → ℝ) (τ : ℝ) (l : TLayer ℝ β) (s : List Nat) (X X0 : List Nat → ℝ) :
    ((l.move dW dB τ).seq (s, X)).1 = (l.seq (s, X0)).1 := by
  cases l <;> rfl

theorem hasDerivAt_line (a d : ℝ) (τ : ℝ) : HasDerivAt (fun τ => a + τ * d) d τ := by
  simpa using ((hasDerivAt_id τ).mul_const d).const_add a

theorem hasDerivAt_winRead {shape s d p o κ : List Nat} {X : ℝ → List Nat → ℝ} {X' : List Nat → ℝ}
    (hX : ∀ i, InBounds i shape → HasDerivAt (fun τ => X τ i) (X' i) 0) :
    HasDerivAt (fun τ => winRead 0 shape s d p (X τ) o κ) (winRead 0 shape s d p X' o κ) 0 := by
  unfold winRead extend
  split
  · next h => exact hX _ (inBoundsI_cast.1 (by rw [toNat_cast h]; exact h))
  · exact hasDerivAt_const _ _

theorem boxSum_flat (shape : List Nat) (f : Nat → List Nat → ℝ) :
    ∑ k ∈ Finset.range shape.prod, f k (getCoords shape k) = boxSum shape fun l => f (flatC shape l) l := by
  rw [sum_range_list, ← map_flatC_rangeIndex, boxSum_eq_list, List.map_map]
  refine congrArg List.sum (List.map_congr_left fun l hl => ?_)
  simp only [Function.comp, getCoords_flatC (mem_rangeIndex.1 hl)]

/-- A convolution. -/
theorem conv_rate (Q : WinParams) (g ci co : Nat) (wt dW : List Nat → ℝ) {bt : ℝ → Nat → ℝ} {db : Nat → ℝ}
    (hb : ∀ c, HasDerivAt (fun τ => bt τ c) (db c) 0) {b ch : Nat} {n : List Nat} {X : ℝ → List Nat → ℝ}
    {X' : List Nat → ℝ} (hX : ∀ i, InBounds i (b :: ch :: n) → HasDerivAt (fun τ => X τ i) (X' i) 0) :
    ∃ Z' : List Nat → ℝ, (∀ i, InBounds i (torchConvShape Q co (b :: ch :: n)) →
      HasDerivAt (fun τ => torchConv Q g ci co (fun i => wt i + τ * dW i) (bt τ) (b :: ch :: n) (X τ) i) (Z' i) 0) ∧
    ∀ Y, (boxSum (torchConvShape Q co (b :: ch :: n)) fun i => Y i * Z' i) =
      (boxSum (b :: ch :: n) fun i => torchConvGradX Q g ci co wt (b :: ch :: n) Y i * X' i) +
      (∑ o ∈ Finset.range co, ∑ c ∈ Finset.range (ci / g), boxSum Q.k fun κ =>
        torchConvGradW Q g ci co (b :: ch :: n) (X 0) Y (o :: c :: κ) * dW (o :: c :: κ)) +
      ∑ o ∈ Finset.range co, torchConvGradB Q co (b :: ch :: n) Y [o] * db o := by
  refine ⟨fun o => torchConv Q g ci co wt (fun _ => 0) (b :: ch :: n) X' o +
    torchConv Q g ci co dW (fun _ => 0) (b :: ch :: n) (X 0) o +
    torchConv Q g ci co (fun _ => 0) db (b :: ch :: n) (X 0) o, fun i hi => ?_, fun Y => ?_⟩
  · match i, hi with
    | bi :: co :: o, _ =>
      simp only [torchConv, zero_mul, boxSum_zero, Finset.sum_const_zero, add_zero, zero_add]
      rw [add_comm, ← Finset.sum_add_distrib]
      refine HasDerivAt.fun_add (hb co) (HasDerivAt.fun_sum fun cc _ => ?_)
      rw [← boxSum_add]
      refine hasDerivAt_boxSum _ fun κ _ => ?_
      refine ((hasDerivAt_line (wt (co :: cc :: κ)) (dW (co :: cc :: κ)) 0).mul (hasDerivAt_winRead hX)).congr_deriv ?_
      simp only [zero_mul, add_zero]
      ring
  · simp only [mul_add, boxSum_add]
    have e1 := conv_transpose Q g ci co wt (b :: ch :: n) X' Y
    have e2 := C61_torch_weight Q g ci co dW b ch n (X 0) Y
    have e3 := C61_torch_bias Q g ci co db b ch n (X 0) Y
    simp only [mul_comm (Y _)]
    rw [← e1, ← e2, ← e3]
    refine congrArg₂ (· + ·) (congrArg₂ (· + ·) (boxSum_congr fun i _ => mul_comm _ _) ?_) ?_
    · exact Finset.sum_congr rfl fun co _ => Finset.sum_congr rfl fun cc _ => boxSum_congr fun κ _ => mul_comm _ _
    · exact Finset.sum_congr rfl fun co _ => mul_comm _ _

/-- One layer. -/
theorem TLayer.rate_layer (l : TLayer ℝ β) {s : List Nat} (hs : l.Takes s) (hf : l.Smooth) (dW dB : List Nat → ℝ)
    {X : ℝ → List Nat → ℝ} {X' : List Nat → ℝ} (hX : ∀ i, InBounds i s → HasDerivAt (fun τ => X τ i) (X' i) 0) :
    ∃ Z' : List Nat → ℝ, (∀ i, InBounds i (l.seq (s, X 0)).1 →
      HasDerivAt (fun τ => ((l.move dW dB τ).seq (s, X τ)).2 i) (Z' i) 0) ∧
    ∀ Y, (boxSum (l.seq (s, X 0)).1 fun i => Y i * Z' i) =
      (boxSum s fun i => l.adj (s, X 0) Y i * X' i) + l.rate dW dB (s, X 0) Y := by
  cases l with
  | map f df =>
    refine ⟨fun i => df (X 0 i) * X' i, fun i hi => (hf (X 0 i)).comp 0 (hX i hi), fun Y => ?_⟩
    show _ = _ + (0 : ℝ)
    rw [add_zero]
    exact boxSum_congr fun i _ => by simp only [TLayer.adj]; ring
  | conv c cw cb C rgw B =>
    obtain ⟨b, ch, n, rfl⟩ := hs
    obtain ⟨Z', h1, h2⟩ := conv_rate C.W C.groups C.Ci C.Co C.weight.val dW
      (bt := fun τ => biasOf (C.bias.map fun b => (⟨b.shape, b.dtype, fun i => b.val i + τ * dB i⟩ : Tensor ℝ)))
      (db := fun co => if C.bias.isSome then dB [co] else 0) (fun co => by
        cases C.bias with
        | none => exact hasDerivAt_const _ _
        | some bs => exact hasDerivAt_line _ _ _) hX
    refine ⟨Z', h1, fun Y => (h2 Y).trans ?_⟩
    show _ = _ + (_ + ite _ _ _)
    rw [add_assoc]
    cases C.bias <;> simp [TLayer.adj]
  | chan c cy C weight bias rgp Wt bi =>
    obtain ⟨b, ch, n, rfl⟩ := hs
    obtain ⟨Z', h1, h2⟩ := conv_rate C.W 1 C.Ci C.Co Wt dW (bt := fun τ c => if C.useBias then bi [c] + τ * dB [c] else 0)
      (db := fun co => if C.useBias then dB [co] else 0) (fun co => by
        cases C.useBias
        · exact hasDerivAt_const _ _
        · exact hasDerivAt_line _ _ _) hX
    refine ⟨Z', h1, fun Y => (h2 Y).trans ?_⟩
    show _ = _ + (_ + ite _ _ _)
    rw [add_assoc, Nat.div_one]
    cases C.useBias <;> simp [TLayer.adj]
  | gen c cw cb cx cy C weight bias rgp B Wt bi =>
    obtain ⟨b, ch, n, rfl⟩ := hs
    obtain ⟨Z', h1, h2⟩ := conv_rate C.W 1 C.Ci C.Co Wt dW (bt := fun τ c => if C.useBias then bi [c] + τ * dB [c] else 0)
      (db := fun co => if C.useBias then dB [co] else 0) (fun co => by
        cases C.useBias
        · exact hasDerivAt_const _ _
        · exact hasDerivAt_line _ _ _) hX
    refine ⟨Z', h1, fun Y => (h2 Y).trans ?_⟩
    show _ = _ + (_ + ite _ _ _)
    rw [add_assoc, Nat.div_one]
    cases C.useBias <;> simp [TLayer.adj]
  | avg c Q B =>
    refine ⟨torchAvgPool Q s X', fun i hi => ?_, fun Y => ?_⟩
    · exact (hasDerivAt_boxSum _ fun κ _ => hasDerivAt_winRead hX).div_const _
    · show _ = _ + (0 : ℝ)
      have e := avg_transpose Q s X' Y
      simp only [mul_comm (Y _)]
      rw [add_zero]
      show boxSum (torchPoolShape Q s) _ = _
      rw [← e]
      exact boxSum_congr fun i _ => mul_comm _ _
  | flat =>
    match s, hs with
    | m :: s, _ =>
      refine ⟨flatOp (m :: s) X', fun i hi => ?_, fun Y => ?_⟩
      · match i, hi with
        | [a, k], hi => exact hX _ ⟨hi.1, (getCoords_spec hi.2.1).1⟩
      · show _ = _ + (0 : ℝ)
        rw [add_zero]
        show (∑ a ∈ Finset.range m, ∑ k ∈ Finset.range s.prod, Y [a, k] * X' (a :: getCoords s k)) =
          ∑ a ∈ Finset.range m, boxSum s fun l => Y [a, flatC s l] * X' (a :: l)
        exact Finset.sum_congr rfl fun a _ => boxSum_flat s fun k l => Y [a, k] * X' (a :: l)
  | rep c Py pb B =>
    refine ⟨X', hX, fun Y => ?_⟩
    show _ = _ + (0 : ℝ)
    rw [add_zero]
    rfl
  | lin c cy A rgp weight bias =>
    obtain ⟨b, rfl⟩ := hs
    refine ⟨fun o => (∑ k ∈ Finset.range A.inFeatures, (X' [o.getD 0 0, k] * weight [o.getD 1 0, k] +
      X 0 [o.getD 0 0, k] * dW [o.getD 1 0, k])) + if A.useBias then dB [o.getD 1 0] else 0, fun i hi => ?_, fun Y => ?_⟩
    · match i, hi with
      | [a, o], hi =>
        refine HasDerivAt.fun_add (HasDerivAt.fun_sum fun k hk => ?_) ?_
        · refine ((hX [a, k] ⟨hi.1, Finset.mem_range.1 hk, trivial⟩).mul (hasDerivAt_line (weight [o, k]) (dW [o, k]) 0)).congr_deriv ?_
          simp
        · show HasDerivAt (fun τ => if A.useBias = true then bias [o] + τ * dB [o] else 0) _ 0
          cases A.useBias
          · exact hasDerivAt_const _ _
          · exact hasDerivAt_line _ _ _
    · show (∑ a ∈ Finset.range b, ∑ o ∈ Finset.range A.outFeatures, Y [a, o] *
          ((∑ k ∈ Finset.range A.inFeatures, (X' [a, k] * weight [o, k] + X 0 [a, k] * dW [o, k])) +
            if A.useBias then dB [o] else 0)) =
        (∑ a ∈ Finset.range b, ∑ k ∈ Finset.range A.inFeatures,
          (∑ o ∈ Finset.range A.outFeatures, Y [a, o] * weight [o, k]) * X' [a, k]) +
        ((∑ o ∈ Finset.range A.outFeatures, ∑ i ∈ Finset.range A.inFeatures,
          (∑ a ∈ Finset.range b, Y [a, o] * X 0 [a, i]) * dW [o, i]) +
        if A.useBias then ∑ o ∈ Finset.range A.outFeatures, (∑ a ∈ Finset.range b, Y [a, o]) * dB [o] else 0)
      simp only [mul_add, Finset.sum_add_distrib, Finset.mul_sum, Finset.sum_mul]
      rw [add_assoc]
      refine congrArg₂ (· + ·) (Finset.sum_congr rfl fun a _ => ?_) (congrArg₂ (· + ·) ?_ ?_)
      · rw [Finset.sum_comm]
        exact Finset.sum_congr rfl fun k _ => Finset.sum_congr rfl fun o _ => by ring
      · rw [Finset.sum_comm]
        refine Finset.sum_congr rfl fun o _ => ?_
        rw [Finset.sum_comm]
        exact Finset.sum_congr rfl fun k _ => Finset.sum_congr rfl fun a _ => by ring
      · cases A.useBias
        · simp
        · exact Finset.sum_comm

/-- The layers take the shapes they are given. -/
def NetTakes : List (TLayer ℝ β) → List Nat → Prop
  | [], _ => True
  | l :: ls, s => l.Takes s ∧ NetTakes ls (l.seq (s, fun _ => 0)).1

theorem seq_shape (l : TLayer ℝ β) (s : List Nat) (X X0 : List Nat → ℝ) : (l.seq (s, X)).1 = (l.seq (s, X0)).1 := by
  cases l <;> rfl

/-- All layers. -/
theorem net_rate {Φ : (List Nat → ℝ) → ℝ} {Y : List Nat → ℝ} (ls : List (TLayer ℝ β)) : ∀ {s : List Nat}
    {X : ℝ → List Nat → ℝ} {X' : List Nat → ℝ} (δ : Nat → (List Nat → ℝ) × (List Nat → ℝ)), NetTakes ls s →
    (∀ l ∈ ls, l.Smooth) → GradientAt Φ (tseqNet ls (s, X 0)).1 (tseqNet ls (s, X 0)).2 Y →
    (∀ i, InBounds i s → HasDerivAt (fun τ => X τ i) (X' i) 0) →
    HasDerivAt (fun τ => Φ (tseqNet (moveNet ls δ τ) (s, X τ)).2)
      ((boxSum s fun i => tadjNet ls (s, X 0) Y i * X' i) + netRate ls δ (s, X 0) Y) 0 := by
  induction ls with
  | nil =>
    intro s X X' δ _ _ hΦ hX
    show HasDerivAt _ (_ + (0 : ℝ)) 0
    rw [add_zero]
    exact hΦ X X' rfl hX
  | cons l ls ih =>
    intro s X X' δ ht hs hΦ hX
    obtain ⟨Z', hZ, hr⟩ := l.rate_layer ht.1 (hs l (by simp)) (δ 0).1 (δ 0).2 hX
    have e0 : ((l.move (δ 0).1 (δ 0).2 0).seq (s, X 0)) = l.seq (s, X 0) := by rw [move_zero]
    have key := ih (s := (l.seq (s, X 0)).1) (X := fun τ => ((l.move (δ 0).1 (δ 0).2 τ).seq (s, X τ)).2) (X' := Z')
      (fun j => δ (j + 1)) (by rw [seq_shape l s (X 0) fun _ => 0]; exact ht.2) (fun l' h' => hs l' (by simp [h']))
      (by
        simp only [e0]
        exact hΦ) hZ
    simp only [e0] at key
    rw [hr, add_assoc] at key
    refine key.congr_of_eventuallyEq (Filter.Eventually.of_forall fun τ => ?_)
    show Φ (tseqNet (moveNet ls _ τ) ((l.move (δ 0).1 (δ 0).2 τ).seq (s, X τ))).2 = _
    rw [← seq_shape_move (δ 0).1 (δ 0).2 τ l s (X τ) (X 0)]

variable {W : List Nat} {P P' : Cart} {L L' : Layout}

theorem TFits.takes {l : TLayer ℝ β} {s : List Nat} (h : TFits W P L l L') (hp : Placed W P L s) : l.Takes s := by
  obtain ⟨wf, lay, sub, glob⟩ := hp
  have hlen : L.global.length = P.shape.length := by rw [L.length_global, ← L.length_pshape, lay]
  subst glob
  cases h with
  | conv c cw cb C rgw B hC hD =>
    rw [hD] at hlen
    match Layout.global L, hlen with
    | b :: c :: n, _ => exact ⟨b, c, n, rfl⟩
  | flat hs =>
    rw [hs] at hlen
    exact List.ne_nil_of_length_pos (by rw [hlen]; simp)
  | @lin Po Pi b c cy A rgp weight bias hv =>
    exact ⟨b, Layout.balanced_global rfl fun n hn => wf.pos n (hv.shx ▸ hn)⟩
  | chan c cy C weight bias rgp Wt bi hv h1 hSp hN =>
    exact ⟨_, _, _, Layout.balanced_global (by rw [hv.shx]; simp [hSp, hN]) hv.wfx.pos⟩
  | gen c cw cb cx cy C weight bias rgp Bf Wt bi hW hv hSp hg hG => exact ⟨_, _, _, hG⟩
  | _ => trivial

theorem TNetFits.takes {ls : List (TLayer ℝ β)} (h : TNetFits W P L ls P' L') : ∀ {s : List Nat}, Placed W P L s →
    NetTakes ls s := by
  induction h with
  | nil => exact fun _ => trivial
  | cons h hs ih => exact fun hp => ⟨h.takes hp, ih (h.placed hp _)⟩

/-- C73: let `Y` be the gradient of the function `Φ` of the output.  When the input moves with velocity `X'` and the
parameters of all layers with the velocities `δ`, then `Φ` of the output of the sequential network changes at the rate of
the gradients of C72 times the velocities. -/
theorem C73_derivative {ls : List (TLayer ℝ β)} (hP : P.WF) (hL : L.pshape = P.shape) (hW : ∀ w ∈ P.members, w ∈ W)
    (hn : TNetFits W P L ls P' L') (hs : ∀ l ∈ ls, l.Smooth) {Φ : (List Nat → ℝ) → ℝ} {X : ℝ → List Nat → ℝ}
    {X' Y : List Nat → ℝ} (hΦ : GradientAt Φ (tseqNet ls (L.global, X 0)).1 (tseqNet ls (L.global, X 0)).2 Y)
    (hX : ∀ i, InBounds i L.global → HasDerivAt (fun τ => X τ i) (X' i) 0)
    (δ : Nat → (List Nat → ℝ) × (List Nat → ℝ)) :
    HasDerivAt (fun τ => Φ (tseqNet (moveNet ls δ τ) (L.global, X τ)).2)
      ((boxSum L.global fun i => tadjNet ls (L.global, X 0) Y i * X' i) + netRate ls δ (L.global, X 0) Y) 0 :=
  net_rate ls δ (hn.takes ⟨hP, hL, hW, rfl⟩) hs hΦ hX

/-- Entrywise functions, e.g. the terms of a loss, have a gradient. -/
theorem gradientAt_sum {s : List Nat} {φ : List Nat → ℝ → ℝ} {Z0 Y : List Nat → ℝ}
    (h : ∀ i, InBounds i s → HasDerivAt (φ i) (Y i) (Z0 i)) : GradientAt (fun Z => boxSum s fun i => φ i (Z i)) s Z0 Y :=
  fun Z Z' h0 hZ => hasDerivAt_boxSum _ fun i hi => by
    subst h0
    exact (h i hi).comp (0 : ℝ) (hZ i hi)

/-! ## A worked case -/

/-- Two features into one, on workers 1 (input), 0 and 2 (weight) and 3 (output). -/
noncomputable def exRA : LinearLayer ℝ :=
  ⟨⟨[1, 2], [1, 2], some 0⟩, ⟨[3], [1, 1], some 0⟩, ⟨[0, 2], [1, 2], some 0⟩, false, false, 2, 1, true,
    fun v _ => if v = 0 then 1 else 2, fun _ _ => 5⟩

/-- `(x₀ + 2 x₁ + 5)²`. -/
noncomputable def exRNet : List (TLayer ℝ Nat) :=
  [.lin 7 7 exRA true (fun c => ((c.getD 1 0 + 1 : Nat) : ℝ)) fun _ => 5, .map (fun x => x ^ 2) fun x => 2 * x]

theorem exRNet_fits : TNetFits [0, 1, 2, 3] exRA.Px (Layout.balanced [1, 2] [1, 2]) exRNet exRA.Py
    (Layout.balanced [1, 1] [1, 1]) := by
  have hv : LinearValid exRA 1 2 :=
    ⟨⟨by decide, by decide, by decide⟩, ⟨by decide, by decide, by decide⟩, ⟨by decide, by decide, by decide⟩,
      rfl, rfl, rfl, ⟨_, rfl, rfl, rfl⟩, by simp [exRA], by simp [exRA], by simp [exRA]⟩
  refine .cons (.lin (b := 1) _ _ _ _ _ _ hv ⟨fun v hv => ?_, fun v hv => ?_⟩ (by simp [exRA]) (by simp [exRA]))
    (.cons (.map _ _) .nil)
  · have : v = 0 ∨ v = 2 := by simpa [exRA] using hv
    rcases this with rfl | rfl <;>
    · intro k hk i hi
      obtain rfl : i = 0 := by simpa [exRA, subsize, Cart.coord, getCoords] using hi
      simp [exRA, Cart.coord, getCoords, startIdx]
      try norm_num
  · intro _ k hk
    rfl

/-- At `x = (1, 1)` the output changes at the rate `2 · 8 · 1` when the second weight moves. -/
example : HasDerivAt (fun τ => (tseqNet (moveNet exRNet (fun _ => (fun c => if c = [0, 1] then 1 else 0, fun _ => 0)) τ)
    ([1, 2], fun _ => 1)).2 [0, 0]) 16 0 := by
  have h := C73_derivative (X := fun _ _ => 1) (X' := fun _ => 0) (Y := fun _ => 1) (Φ := fun Z => boxSum [1, 1] Z)
    ⟨by decide, by decide, by decide⟩ rfl (by decide) exRNet_fits
    (by
      intro l hl
      simp only [exRNet, List.mem_cons, List.not_mem_nil, or_false] at hl
      rcases hl with rfl | rfl
      · trivial
      · intro x
        simpa using hasDerivAt_pow 2 x)
    (gradientAt_sum (φ := fun _ x => x) fun i _ => hasDerivAt_id _) (fun i _ => hasDerivAt_const _ _)
    (fun _ => (fun c => if c = [0, 1] then 1 else 0, fun _ => 0))
  have e : Layout.global (Layout.balanced [1, 2] [1, 2]) = [1, 2] := by decide
  rw [e] at h
  refine (h.congr_deriv ?_).congr_of_eventuallyEq (Filter.Eventually.of_forall fun τ => ?_)
  · simp [exRNet, netRate, TLayer.rate, tadjNet, TLayer.adj, TLayer.seq, denseOp, denseGradW, denseGradB, exRA, boxSum,
      Finset.sum_range_succ]
    norm_num
  · simp [boxSum]

end Verif.Net
