import Verif.Linear.Train
import Verif.Grad.NormReal

/-!
# C67: the sequential back-propagation gives derivatives

Over the reals, what `seqBackprop` hands to the optimizer are the derivatives of the loss: for parameters and input
that move along any differentiable path, the loss changes at the rate of the gradients times the velocities.
-/

namespace Verif

/-- A layer whose parameters move with the time; `dW` and `dβ` are their velocities. -/
structure MovingLayer where
  nin : Nat
  nout : Nat
  useBias : Bool
  W : ℝ → List Nat → ℝ
  β : ℝ → List Nat → ℝ
  dW : List Nat → ℝ
  dβ : List Nat → ℝ
  act : ℝ → ℝ
  dact : ℝ → ℝ

/-- The layer at time `t`. -/
def MovingLayer.at (m : MovingLayer) (t : ℝ) : SeqLayer ℝ ℝ := ⟨m.nin, m.nout, m.useBias, m.W t, m.β t, m.act, m.dact⟩

/-- The parameters have their velocities at time `t`, and `dact` is the derivative of the activation. -/
structure MovingLayer.Smooth (m : MovingLayer) (t : ℝ) : Prop where
  weight : ∀ o i, HasDerivAt (fun t => m.W t [o, i]) (m.dW [o, i]) t
  bias : ∀ o, HasDerivAt (fun t => m.β t [o]) (m.dβ [o]) t
  act : ∀ z, HasDerivAt m.act (m.dact z) z

/-- Each layer takes as many features as the previous one gives. -/
def MovingChain : Nat → List MovingLayer → Nat → Prop
  | n, [], n' => n = n'
  | n, m :: ms, n' => m.nin = n ∧ MovingChain m.nout ms n'

/-- The rate of change of the loss due to the parameters of the layers, when `gs` have the gradients as parameters. -/
def paramRate : List MovingLayer → List (SeqLayer ℝ ℝ) → ℝ
  | m :: ms, g :: gs =>
    (boxSum [m.nout, m.nin] fun c => g.W c * m.dW c) +
      (if m.useBias then boxSum [m.nout] fun c => g.β c * m.dβ c else 0) + paramRate ms gs
  | _, _ => 0

theorem boxSum_snoc (bs : List Nat) (n : Nat) (f : List Nat → ℝ) :
    boxSum (bs ++ [n]) f = boxSum bs fun b => ∑ o ∈ Finset.range n, f (b ++ [o]) := by
  induction bs generalizing f with
  | nil => rfl
  | cons m bs ih =>
    show (∑ i ∈ Finset.range m, boxSum (bs ++ [n]) fun l => f (i :: l)) = _
    simp only [ih]
    rfl

theorem inBounds_snoc {bs : List Nat} {n : Nat} {i : List Nat} (h : InBounds i (bs ++ [n])) :
    ∃ b o, i = b ++ [o] ∧ InBounds b bs ∧ o < n := by
  induction bs generalizing i with
  | nil => match i, h with
    | [o], h => exact ⟨[], o, rfl, trivial, h.1⟩
  | cons m bs ih => match i, h with
    | a :: i, h =>
      obtain ⟨b, o, rfl, hb, ho⟩ := ih h.2
      exact ⟨a :: b, o, rfl, ⟨h.1, hb⟩, ho⟩

theorem snoc_inBounds {bs : List Nat} {n : Nat} {b : List Nat} {o : Nat} (h : InBounds b bs) (ho : o < n) :
    InBounds (b ++ [o]) (bs ++ [n]) := by
  induction bs generalizing b with
  | nil => match b, h with
    | [], _ => exact ⟨ho, trivial⟩
  | cons m bs ih => match b, h with
    | a :: b, h => exact ⟨h.1, ih h.2⟩

/-- C67, gradients: along any differentiable path of the input `X` and of all parameters, the function `Φ` of the output
(whose gradient is `top`) changes at the rate of the back-propagated gradients times the velocities. -/
theorem C67_derivative {bs : List Nat} {n' : Nat} {Φ : (List Nat → ℝ) → ℝ} {top : (List Nat → ℝ) → List Nat → ℝ} {t : ℝ}
    (hΦ : ∀ (Y : ℝ → List Nat → ℝ) (Y' : List Nat → ℝ),
      (∀ i, InBounds i (bs ++ [n']) → HasDerivAt (fun t => Y t i) (Y' i) t) →
      HasDerivAt (fun t => Φ (Y t)) (boxSum (bs ++ [n']) fun i => top (Y t) i * Y' i) t)
    {ms : List MovingLayer} {n : Nat} (hc : MovingChain n ms n') (hs : ∀ m ∈ ms, m.Smooth t)
    {X : ℝ → List Nat → ℝ} {X' : List Nat → ℝ}
    (hX : ∀ i, InBounds i (bs ++ [n]) → HasDerivAt (fun t => X t i) (X' i) t) :
    HasDerivAt (fun t => Φ (seqForward id (ms.map fun m => m.at t) (X t)))
      ((boxSum (bs ++ [n]) fun i =>
          (seqBackprop id (fun _ g => g) bs top (ms.map fun m => m.at t) (X t)).1 i * X' i) +
        paramRate ms (seqBackprop id (fun _ g => g) bs top (ms.map fun m => m.at t) (X t)).2) t := by
  induction ms generalizing n X X' with
  | nil =>
    obtain rfl : n = n' := hc
    simpa [seqForward, seqBackprop, paramRate] using hΦ X X' hX
  | cons m ms ih =>
    obtain ⟨rfl, hc⟩ := hc
    have hm := hs m (by simp)
    let Z' : List Nat → ℝ := fun i =>
      (∑ k ∈ Finset.range m.nin, (X' (i.dropLast ++ [k]) * m.W t [i.getLastD 0, k] +
        X t (i.dropLast ++ [k]) * m.dW [i.getLastD 0, k])) + if m.useBias then m.dβ [i.getLastD 0] else 0
    have hZ : ∀ i, InBounds i (bs ++ [m.nout]) → HasDerivAt (fun t => (m.at t).pre id (X t) i) (Z' i) t := by
      intro i hi
      obtain ⟨b, o, rfl, hb, ho⟩ := inBounds_snoc hi
      show HasDerivAt (fun t => (∑ k ∈ Finset.range m.nin, X t ((b ++ [o]).dropLast ++ [k]) *
        m.W t [(b ++ [o]).getLastD 0, k]) + if m.useBias then m.β t [(b ++ [o]).getLastD 0] else 0) _ t
      refine HasDerivAt.fun_add (HasDerivAt.fun_sum fun k hk => ?_) ?_
      · simp only [List.dropLast_concat, List.getLastD_concat]
        exact (hX _ (snoc_inBounds hb (Finset.mem_range.1 hk))).mul (hm.weight o k)
      · show HasDerivAt (fun t => if m.useBias then m.β t [(b ++ [o]).getLastD 0] else 0) _ t
        simp only [List.getLastD_concat]
        cases m.useBias
        · exact hasDerivAt_const _ _
        · exact hm.bias o
    have hA : ∀ i, InBounds i (bs ++ [m.nout]) → HasDerivAt (fun t => m.act ((m.at t).pre id (X t) i))
        (m.dact ((m.at t).pre id (X t) i) * Z' i) t := fun i hi => (hm.act _).comp t (hZ i hi)
    have key := ih hc (fun m' h' => hs m' (by simp [h'])) hA
    refine key.congr_deriv ?_
    show _ = _ + (_ + _ + _)
    set r := seqBackprop id (fun _ g => g) bs top (ms.map fun m => m.at t)
      (fun i => m.act ((m.at t).pre id (X t) i)) with hr
    let dZ : List Nat → ℝ := fun i => r.1 i * m.dact ((m.at t).pre id (X t) i)
    rw [← add_assoc]
    refine congrArg₂ (· + ·) ?_ rfl
    have e1 : (boxSum (bs ++ [m.nout]) fun i => r.1 i * (m.dact ((m.at t).pre id (X t) i) * Z' i)) =
        boxSum bs fun b => ∑ o ∈ Finset.range m.nout,
          ((∑ k ∈ Finset.range m.nin, dZ (b ++ [o]) * m.W t [o, k] * X' (b ++ [k])) +
            (∑ k ∈ Finset.range m.nin, dZ (b ++ [o]) * X t (b ++ [k]) * m.dW [o, k]) +
            if m.useBias then dZ (b ++ [o]) * m.dβ [o] else 0) := by
      rw [boxSum_snoc]
      refine boxSum_congr fun b _ => Finset.sum_congr rfl fun o _ => ?_
      rw [← mul_assoc, ← Finset.sum_add_distrib]
      show dZ (b ++ [o]) * Z' (b ++ [o]) = _
      simp only [Z', List.dropLast_concat, List.getLastD_concat, mul_add, Finset.mul_sum]
      refine congrArg₂ (· + ·) (Finset.sum_congr rfl fun k _ => by ring) ?_
      split <;> simp
    rw [e1]
    simp only [Finset.sum_add_distrib, boxSum_add]
    have e2 : (boxSum bs fun b => ∑ o ∈ Finset.range m.nout, ∑ k ∈ Finset.range m.nin,
        dZ (b ++ [o]) * m.W t [o, k] * X' (b ++ [k])) =
        boxSum (bs ++ [m.nin]) fun i => (∑ o ∈ Finset.range m.nout, dZ (i.dropLast ++ [o]) *
          m.W t [o, i.getLastD 0]) * X' i := by
      rw [boxSum_snoc]
      refine boxSum_congr fun b _ => ?_
      rw [Finset.sum_comm]
      refine Finset.sum_congr rfl fun k _ => ?_
      simp only [List.dropLast_concat, List.getLastD_concat, Finset.sum_mul]
    have e3 : (boxSum bs fun b => ∑ o ∈ Finset.range m.nout, ∑ k ∈ Finset.range m.nin,
        dZ (b ++ [o]) * X t (b ++ [k]) * m.dW [o, k]) =
        boxSum [m.nout, m.nin] fun c => (boxSum bs fun b => dZ (b ++ [c.getD 0 0]) * X t (b ++ [c.getD 1 0])) *
          m.dW c := by
      simp only [boxSum_sum, boxSum_mul_right, boxSum]
      rfl
    have e4 : (boxSum bs fun b => ∑ o ∈ Finset.range m.nout,
        if m.useBias then dZ (b ++ [o]) * m.dβ [o] else 0) =
        if m.useBias then boxSum [m.nout] fun c => (boxSum bs fun b => dZ (b ++ [c.getD 0 0])) * m.dβ c else 0 := by
      cases m.useBias
      · simp [boxSum_zero]
      · simp only [boxSum_sum, boxSum_mul_right, boxSum, if_true]
        rfl
    rw [e2, e3, e4, add_assoc]
    refine congrArg₂ (· + ·) rfl (congrArg₂ (· + ·) rfl ?_)
    show _ = if m.useBias then boxSum [m.nout] fun c =>
      (if m.useBias then (boxSum bs fun b => dZ (b ++ [c.getD 0 0])) else m.β t c) * m.dβ c else 0
    cases m.useBias <;> rfl

/-- The losses of C46 as functions of the output satisfy the hypothesis of `C67_derivative`, with the gradient that
`seqTrain` uses. -/
theorem C67_loss_derivative {b n' : Nat} {dt : TorchDtype} {ell dell : ℝ → ℝ → ℝ} {red : String} {T : Tensor ℝ}
    (hell : ∀ x y, HasDerivAt (fun x => ell x y) (dell x y) x) (hT : T.shape = [b, n'])
    (hr : red = "sum" ∨ red = "mean" ∨ red = "batchmean") {t : ℝ} (Y : ℝ → List Nat → ℝ) (Y' : List Nat → ℝ)
    (hY : ∀ i, InBounds i ([b] ++ [n']) → HasDerivAt (fun t => Y t i) (Y' i) t) :
    HasDerivAt (fun t => ((torchLoss ell red ⟨[b, n'], dt, Y t⟩ T).map fun l => l.val []).getD 0)
      (boxSum ([b] ++ [n']) fun i =>
        (torchLossGrad dell red ⟨[b, n'], dt, Y t⟩ T ⟨[], dt, fun _ => 1⟩).val i * Y' i) t := by
  have h1 : HasDerivAt (fun t => boxSum [b, n'] fun i => ell (Y t i) (T.val i))
      (boxSum [b, n'] fun i => dell (Y t i) (T.val i) * Y' i) t :=
    hasDerivAt_boxSum _ fun i hi => (hell _ _).comp t (hY i hi)
  have e : ∀ c : ℝ, (boxSum [b, n'] fun i => 1 / c * dell (Y t i) (T.val i) * Y' i) =
      (boxSum [b, n'] fun i => dell (Y t i) (T.val i) * Y' i) / c := by
    intro c
    simp only [mul_assoc, boxSum_mul_left]
    ring
  rcases hr with rfl | rfl | rfl
  · simpa [torchLoss, torchLossGrad, hT] using h1
  · have := h1.div_const ((b * n' : ℕ) : ℝ)
    rw [← e] at this
    simpa [torchLoss, torchLossGrad, hT] using this
  · have := h1.div_const (b : ℝ)
    rw [← e] at this
    simpa [torchLoss, torchLossGrad, hT] using this

/-- The squared error. -/
example : ∀ x y : ℝ, HasDerivAt (fun x => (x - y) * (x - y)) (2 * (x - y)) x := by
  intro x y
  have := ((hasDerivAt_id x).sub_const y).mul ((hasDerivAt_id x).sub_const y)
  refine this.congr_deriv ?_
  simp
  ring

/-- Two layers, the first with the activation `z ↦ z²`; one weight moves. -/
def exMoving : List MovingLayer :=
  [⟨2, 3, true, fun t c => if c = [1, 0] then t else 1, fun _ _ => 1, fun c => if c = [1, 0] then 1 else 0, fun _ => 0,
    fun z => z * z, fun z => 2 * z⟩,
   ⟨3, 1, false, fun _ _ => 1, fun _ _ => 0, fun _ => 0, fun _ => 0, id, fun _ => 1⟩]

example : MovingChain 2 exMoving 1 := ⟨rfl, rfl, rfl⟩

example (t : ℝ) : ∀ m ∈ exMoving, m.Smooth t := by
  intro m hm
  simp only [exMoving, List.mem_cons, List.not_mem_nil, or_false] at hm
  rcases hm with rfl | rfl
  · refine ⟨fun o i => ?_, fun o => hasDerivAt_const _ _, fun z => ?_⟩
    · by_cases h : [o, i] = [1, 0]
      · simp only [h, if_true]
        exact hasDerivAt_id t
      · simp only [h, if_false]
        exact hasDerivAt_const _ _
    · refine ((hasDerivAt_id z).mul (hasDerivAt_id z)).congr_deriv ?_
      simp
      ring
  · exact ⟨fun _ _ => hasDerivAt_const _ _, fun _ => hasDerivAt_const _ _, fun z => hasDerivAt_id z⟩

end Verif
