import Verif.Grad.Props

/-!
# The PyTorch gradients; what is lost with entries `-inf`; worked cases
-/

namespace Verif

open Exchange

/-! ## What the sequential gradients are -/

theorem foldr_sup_le {F : Type} [LinearOrder F] [OrderBot F] {l : List F} {b : F} (h : ∀ a ∈ l, a ≤ b) :
    l.foldr (· ⊔ ·) ⊥ ≤ b := by
  induction l with
  | nil => exact bot_le
  | cons a l ih =>
    exact sup_le (h a (List.mem_cons_self ..)) (ih fun c hc => h c (List.mem_cons_of_mem _ hc))

theorem le_foldr_sup {F : Type} [LinearOrder F] [OrderBot F] {l : List F} {a : F} (h : a ∈ l) :
    a ≤ l.foldr (· ⊔ ·) ⊥ := by
  induction l with
  | nil => cases h
  | cons b l ih =>
    rcases List.mem_cons.1 h with rfl | h
    · exact le_sup_left
    · exact le_trans (ih h) le_sup_right

theorem fold_spec {F : Type} [LinearOrder F] [OrderBot F] (p : List Nat → Prop) [DecidablePred p] (u : List Nat → F)
    (cs : List (List Nat)) :
    (cs.foldl (maxStep p u) none = none ∧ ∀ c ∈ cs, ¬ p c) ∨
    ∃ κ as bs, cs.foldl (maxStep p u) none = some κ ∧ cs = as ++ κ :: bs ∧ p κ ∧ (∀ a ∈ as, p a → u a < u κ) ∧
      ∀ b ∈ bs, p b → u b ≤ u κ := by
  induction cs using List.reverseRecOn with
  | nil => exact Or.inl ⟨rfl, by simp⟩
  | append_singleton cs c ih =>
    rw [List.foldl_append, List.foldl_cons, List.foldl_nil]
    rcases ih with ⟨e, hn⟩ | ⟨κ, as, bs, e, hc, hp, ha, hb⟩
    · rw [e]
      by_cases hpc : p c
      · refine Or.inr ⟨c, cs, [], by simp [maxStep, hpc], rfl, hpc, fun a h1 h2 => absurd h2 (hn a h1), by simp⟩
      · refine Or.inl ⟨by simp [maxStep, hpc], ?_⟩
        intro d hd
        rcases List.mem_append.1 hd with hd | hd
        · exact hn d hd
        · rw [List.mem_singleton.1 hd]; exact hpc
    · rw [e]
      by_cases hpc : p c
      · by_cases hlt : u κ < u c
        · refine Or.inr ⟨c, cs, [], by simp [maxStep, hpc, hlt], rfl, hpc, ?_, by simp⟩
          intro a h1 h2
          rw [hc] at h1
          rcases List.mem_append.1 h1 with h1 | h1
          · exact lt_trans (ha a h1 h2) hlt
          · rcases List.mem_cons.1 h1 with rfl | h1
            · exact hlt
            · exact lt_of_le_of_lt (hb a h1 h2) hlt
        · refine Or.inr ⟨κ, as, bs ++ [c], by simp [maxStep, hpc, hlt], by simp [hc], hp, ha, ?_⟩
          intro b h1 h2
          rcases List.mem_append.1 h1 with h1 | h1
          · exact hb b h1 h2
          · rw [List.mem_singleton.1 h1]; exact not_lt.1 hlt
      · refine Or.inr ⟨κ, as, bs ++ [c], by simp [maxStep, hpc], by simp [hc], hp, ha, ?_⟩
        intro b h1 h2
        rcases List.mem_append.1 h1 with h1 | h1
        · exact hb b h1 h2
        · rw [List.mem_singleton.1 h1] at h2; exact absurd h2 hpc

/-- The cell receiving the gradient of a window is inside the tensor, holds the maximum of the window, and is the
first such cell; no cell does only if the window reads nothing but padding. -/
theorem C60_torch_maximum {F : Type} [LinearOrder F] [OrderBot F] (W : WinParams) (shape : List Nat) (x : List Nat → F)
    (o : List Nat) :
    let pos κ := winPos (1 :: 1 :: W.s) (1 :: 1 :: W.d) (0 :: 0 :: W.p) o (0 :: 0 :: κ)
    match maxCell W shape x o with
    | none => ∀ κ, InBounds κ W.k → ¬ InBoundsI (pos κ) shape
    | some κ => InBounds κ W.k ∧ InBoundsI (pos κ) shape ∧ x ((pos κ).map Int.toNat) = torchMaxPool W shape x o ∧
        ∃ before after, kernelCells W.k = before ++ κ :: after ∧
          ∀ κ' ∈ before, InBoundsI (pos κ') shape → x ((pos κ').map Int.toNat) < x ((pos κ).map Int.toNat) := by
  intro pos
  rw [maxCell_eq]
  rcases fold_spec (fun κ => InBoundsI (pos κ) shape) (fun κ => winRead ⊥ shape (1 :: 1 :: W.s) (1 :: 1 :: W.d)
    (0 :: 0 :: W.p) x o (0 :: 0 :: κ)) (kernelCells W.k) with ⟨e, hn⟩ | ⟨κ, as, bs, e, hc, hp, ha, hb⟩
  · rw [e]
    exact fun κ hκ => hn κ (mem_kernelCells.2 hκ)
  · rw [e]
    have hm : κ ∈ kernelCells W.k := by rw [hc]; simp
    have hval : ∀ κ, InBoundsI (pos κ) shape → winRead ⊥ shape (1 :: 1 :: W.s) (1 :: 1 :: W.d)
        (0 :: 0 :: W.p) x o (0 :: 0 :: κ) = x ((pos κ).map Int.toNat) := by
      intro κ h
      unfold winRead extend
      rw [if_pos h]
    refine ⟨mem_kernelCells.1 hm, hp, ?_, as, bs, hc, fun κ' h1 h2 => ?_⟩
    · rw [← hval κ hp]
      apply le_antisymm
      · exact le_foldr_sup (List.mem_map.2 ⟨κ, hm, rfl⟩)
      · apply foldr_sup_le
        intro a h1
        obtain ⟨κ', h2, rfl⟩ := List.mem_map.1 h1
        by_cases hp' : InBoundsI (pos κ') shape
        · rw [hc] at h2
          rcases List.mem_append.1 h2 with h2 | h2
          · exact le_of_lt (ha κ' h2 hp')
          · rcases List.mem_cons.1 h2 with rfl | h2
            · exact le_refl _
            · exact hb κ' h2 hp'
        · rw [show winRead ⊥ shape (1 :: 1 :: W.s) (1 :: 1 :: W.d) (0 :: 0 :: W.p) x o (0 :: 0 :: κ') = ⊥ from
            if_neg hp']
          exact bot_le
    · rw [← hval κ hp, ← hval κ' h2]
      exact ha κ' h1 h2

/-- The gradient of the weight is the transpose of the convolution as a function of the weight. -/
theorem C61_torch_weight {R : Type} [CommSemiring R] (W : WinParams) (gr Ci Co : Nat) (wt : List Nat → R)
    (b c : Nat) (n : List Nat) (x dy : List Nat → R) :
    (∑ co ∈ Finset.range Co, ∑ ch ∈ Finset.range (Ci / gr), boxSum W.k fun κ =>
      wt (co :: ch :: κ) * torchConvGradW W gr Ci Co (b :: c :: n) x dy (co :: ch :: κ)) =
    boxSum (torchConvShape W Co (b :: c :: n)) fun o =>
      torchConv W gr Ci Co wt (fun _ => 0) (b :: c :: n) x o * dy o := by
  simp only [torchConvGradW, torchConvShape, boxSum, torchConv, zero_add]
  have key : ∀ co ∈ Finset.range Co, ∀ (f : Nat → List Nat → R),
      (∑ bi ∈ Finset.range b, ∑ co' ∈ Finset.range Co, boxSum (torchOut W n) fun o =>
        if co' = co then f bi o else 0) = ∑ bi ∈ Finset.range b, boxSum (torchOut W n) (f bi) := by
    intro co hco f
    refine Finset.sum_congr rfl fun bi _ => ?_
    rw [Finset.sum_eq_single_of_mem co hco fun co' _ hne => by simp [hne, boxSum_zero]]
    simp
  rw [Finset.sum_congr rfl fun co hco => Finset.sum_congr rfl fun ch _ => boxSum_congr fun κ _ => by rw [key co hco]]
  rw [Finset.sum_comm (s := Finset.range b)]
  refine Finset.sum_congr rfl fun co _ => ?_
  simp only [Finset.mul_sum, boxSum_sum, ← boxSum_mul_left, Finset.sum_mul, ← boxSum_mul_right]
  rw [Finset.sum_comm]
  refine Finset.sum_congr rfl fun bi _ => Finset.sum_congr rfl fun ch _ => ?_
  rw [boxSum_comm]
  refine boxSum_congr fun o _ => boxSum_congr fun κ _ => ?_
  ring

/-- The gradient of the bias is the transpose of the convolution as a function of the bias. -/
theorem C61_torch_bias {R : Type} [CommSemiring R] (W : WinParams) (gr Ci Co : Nat) (bias : Nat → R)
    (b c : Nat) (n : List Nat) (x dy : List Nat → R) :
    (∑ co ∈ Finset.range Co, bias co * torchConvGradB W Co (b :: c :: n) dy [co]) =
    boxSum (torchConvShape W Co (b :: c :: n)) fun o =>
      torchConv W gr Ci Co (fun _ => 0) bias (b :: c :: n) x o * dy o := by
  simp only [torchConvGradB, torchConvShape, boxSum, torchConv, zero_mul, boxSum_zero, Finset.sum_const_zero, add_zero]
  have key : ∀ co ∈ Finset.range Co, ∀ (f : Nat → List Nat → R),
      (∑ bi ∈ Finset.range b, ∑ co' ∈ Finset.range Co, boxSum (torchOut W n) fun o =>
        if co' = co then f bi o else 0) = ∑ bi ∈ Finset.range b, boxSum (torchOut W n) (f bi) := by
    intro co hco f
    refine Finset.sum_congr rfl fun bi _ => ?_
    rw [Finset.sum_eq_single_of_mem co hco fun co' _ hne => by simp [hne, boxSum_zero]]
    simp
  rw [Finset.sum_congr rfl fun co hco => by rw [key co hco]]
  rw [Finset.sum_comm (s := Finset.range b)]
  refine Finset.sum_congr rfl fun co _ => ?_
  simp only [Finset.mul_sum, ← boxSum_mul_left]

/-! ## Entries `-inf` -/

/-- One worker, one cell; kernel size 2, padding 1. -/
def infP : Cart := ⟨[0], [1, 1, 1], some 0⟩
def infW : WinParams := ⟨[2], [1], [1], [1]⟩
def infL : Layout := Layout.balanced infP.shape [1, 1, 1]
def infS : Nat → List Nat × TorchDtype × Bool := fun w => (infL.shapeAt ((infP.index w).getD []), .float32, true)

theorem inf_input : WinInput infP infW infL infS (fun _ _ => (⊥ : WithBot Int)) (fun _ => ⊥) .float32 true := by
  refine ⟨⟨by decide, rfl, by decide⟩, by decide, by decide, fun w _ idx e => ?_, fun w _ idx e l _ => rfl⟩
  simp only [infS, e, Option.getD_some]

/-- C60 is false for maximum pooling of entries `-inf`: the layer pads with `-inf`, a padding cell is found
before the entry, and the gradient is lost with the padding.  Here both windows contain the only entry, so its
gradient should be 2; the layer computes 1. -/
theorem C60_maximum_false :
    poolParams false 1 [2] [1] [1] [1] = some infW ∧ WinLimits infP infW infL ∧
    torchPoolShape infW infL.global = [1, 1, 2] ∧
    torchMaxPoolGrad infW infL.global (fun _ => (⊥ : WithBot Int)) (fun _ => (1 : Int)) [0, 0, 0] = 2 ∧
    ∀ {β : Type} (dt : NpKey) (junk : Nat → β) (ops : Nat → List (MgrOp β)) (eager eager' : Bool) (k k' : Nat)
      (U : Nat → WinSetup) (S : Nat → HaloSetup) (g : GState (List Nat → WithBot Int) (List Nat → WithBot Int))
      (g' : GState (List Nat → Int) (List Nat → Int)),
      WinRun infP infW ⊥ infS (fun _ _ => ⊥) dt junk ops eager k U S g →
      WinBack infP infS U S (maxLocalGrad infP infW infS (fun _ _ => ⊥) U g fun _ _ => (1 : Int)) eager' k' g' →
      (g.ws 0).phase = haloPhases infP → (g'.ws 0).phase = haloPhases infP →
      inputGrad infP infS U g' 0 [0, 0, 0] = 1 := by
  refine ⟨by decide, ?_, by decide, by decide, ?_⟩
  · intro j hj
    change j < 3 at hj
    interval_cases j
    · exact (reach_single (n := 1) (by decide) (by decide) (by decide) : AxisLimits 1 1 0 1 [1])
    · exact (reach_single (n := 1) (by decide) (by decide) (by decide) : AxisLimits 1 1 0 1 [1])
    · exact (reach_single (n := 1) (by decide) (by decide) (by decide) : AxisLimits 2 1 1 1 [1])
  · intro β dt junk ops eager eager' k k' U S g g' A B hA hB
    obtain ⟨T, hT, hU, hsh, -, hS⟩ := A.facts inf_input
    have hp := winDims_plan inf_input
    have hok : (winPlan infP infW infL).OK := plan_ok_always hp
    have dn := hS.done hok.wf
    have hi : InBounds (getCoords infP.shape 0) infP.shape := by decide
    have hUe := hU 0 (by decide)
    have ht : (U 0).total = [(0, 0), (0, 0), (1, 1)] := by
      have t0 := total_getD inf_input hT (r := 0) (by decide) (show 0 < infP.shape.length by decide)
      have t1 := total_getD inf_input hT (r := 0) (by decide) (show 1 < infP.shape.length by decide)
      have t2 := total_getD inf_input hT (r := 0) (by decide) (show 2 < infP.shape.length by decide)
      simp only at t0 t1 t2
      rw [← hUe] at t0 t1 t2
      obtain ⟨tl, t0⟩ := t0
      have e : (U 0).total = [(U 0).total.getD 0 (0, 0), (U 0).total.getD 1 (0, 0), (U 0).total.getD 2 (0, 0)] := by
        match h : (U 0).total, tl with
        | [a, b, c], _ => rfl
      rw [e, t0, t1.2, t2.2]
      decide
    have hn : (U 0).info.needed = [(0, 1), (0, 1), (0, 3)] := by
      have hl : ((U 0).info.needed).length = 3 := by rw [hUe]; rfl
      have n0 := needed_eq hp hT hi (show 0 < infP.shape.length by decide)
      have n1 := needed_eq hp hT hi (show 1 < infP.shape.length by decide)
      have n2 := needed_eq hp hT hi (show 2 < infP.shape.length by decide)
      simp only at n0 n1 n2
      have hUi : (U 0).info = exchangeInfo (winDims infP infW infL) (some T) (getCoords infP.shape 0) := by rw [hUe]
      rw [← hUi] at n0 n1 n2
      have e : (U 0).info.needed = [(U 0).info.needed.getD 0 (0, 0), (U 0).info.needed.getD 1 (0, 0),
          (U 0).info.needed.getD 2 (0, 0)] := by
        match h : (U 0).info.needed, hl with
        | [a, b, c], _ => rfl
      rw [e, n0, n1, n2]
      decide
    have eA := async_final (HaloPlan.fwd_matched hok dn) (HaloPlan.fwd_commutes hok dn) A.exec (w := 0) (by decide) hA
    have eB := async_final (HaloPlan.bwd_matched hok dn) HaloPlan.bwd_commutes B (w := 0) (by decide) hB
    rw [show haloPhases (winPlan infP infW infL).P = 0 from rfl] at eA eB
    change (g.ws 0).st = ((U 0).padInput ⊥ [1, 1, 1] fun _ => ⊥).2 at eA
    change (g'.ws 0).st = (U 0).selectGrad (winPaddedShape infP infS U 0) _ at eB
    have hps : winPaddedShape infP infS U 0 = [1, 1, 3] := by
      show ((U 0).padInput () [1, 1, 1] fun _ => ()).1 = _
      unfold WinSetup.padInput
      rw [ht]
      decide
    have hI : localInput infP ⊥ infS (fun _ _ => (⊥ : WithBot Int)) U g 0 = ([1, 1, 3], fun _ => ⊥) := by
      show (U 0).select ((U 0).padInput ⊥ [1, 1, 1] fun _ => ⊥).1 (g.ws 0).st = _
      rw [eA]
      unfold WinSetup.select WinSetup.padInput
      rw [ht, hn]
      refine Prod.ext (by decide) ?_
      funext l
      split
      · rfl
      · show extend ⊥ _ (fun _ => ⊥) _ = ⊥
        unfold extend
        split <;> rfl
    unfold inputGrad
    rw [eB, hps]
    unfold maxLocalGrad
    rw [hI]
    show (U 0).padGrad [1, 1, 1] _ [0, 0, 0] = 1
    unfold WinSetup.padGrad WinSetup.selectGrad
    rw [ht, hn]
    decide

/-! ## Worked cases -/

theorem exW_limits : WinLimits exWP exWW exWL :=
  WinReach.limits (nd := 2) (pk := [3]) (ps := [2, 1]) (pp := [1]) (pd := [1]) exW_wf rfl (by decide) rfl exW_reach
    (by decide)

/-- The blocks of a gradient of an output of shape `N`. -/
def exWdy {R : Type} (N : List Nat) (G : List Nat → R) : Nat → List Nat → R :=
  fun r o => G (shiftBy ((Layout.balanced exWP.shape N).startAt (getCoords exWP.shape r)) o)

/-- The six workers of `exWP`, convolution of a 2 x 2 x 9 x 8 tensor: both passes run to the end, and then rank 4
holds its block of the gradient of the input and the root holds the gradients of the weight and of the bias. -/
example (G : List Nat → Int) : ∃ k U S g k' g', WinRun exWP exWC.W 0 exWs (exWx exWX) (.inst .float64) (fun _ => (0 : Nat))
      (fun _ => []) false k U S g ∧
    WinBack exWP exWs U S (convLocalGradX exWP exWC true exWs (exWx exWX) U g (exWdy [2, 4, 5, 8] G)) true k' g' ∧
    (∀ r, r < 6 → (g'.ws r).phase = haloPhases exWP) ∧
    featureGradX exWP exWC exWs U (exWdy [2, 4, 5, 8] G) g' 4 [1, 1, 3, 2] =
      torchConvGradX exWW 2 2 4 exWC.weight.val exWn G [1, 1, 8, 5] ∧
    (∃ z, featureGradW exWP exWC true exWs (exWx exWX) U g (exWdy [2, 4, 5, 8] G) 5 = some z ∧ z.shape = [4, 1, 3, 3] ∧
      z.val [3, 0, 2, 1] = torchConvGradW exWW 2 2 4 exWn exWX G [3, 0, 2, 1]) ∧
    ∃ z, featureGradB exWP exWC ⟨[4], .float32, fun l => l.sum⟩ true exWs (exWx exWX) U g (exWdy [2, 4, 5, 8] G) 5 =
      some z ∧ z.shape = [4] ∧ z.val [3] = torchConvGradB exWW 4 exWn G [3] := by
  obtain ⟨U, S, R⟩ := C39_starts (exW_input exWX) (0 : Int) (.inst .float64) (fun _ => (0 : Nat)) (fun _ => []) false
  obtain ⟨k, g, R', -, hf⟩ := C39_completes (exW_input exWX) R
  have hG : OutGrads exWP (torchConvShape exWC.W exWC.Co exWL.global) (exWdy [2, 4, 5, 8] G) G := fun r _ o _ => rfl
  obtain ⟨k', g', B, -, hf'⟩ := C60_completes (exW_input exWX) R' (Exec.refl _ : WinBack exWP exWs U S
    (convLocalGradX exWP exWC true exWs (exWx exWX) U g (exWdy [2, 4, 5, 8] G)) true 0 _)
  have hW : winParams 2 [3] [2, 1] [1] [1] = some exWC.W := by decide
  refine ⟨k, U, S, g, k', g', R', B, hf', ?_, ?_, ?_⟩
  · exact (C60_convolution exWC hW rfl rfl ⟨0, rfl⟩ (by decide) (exW_input exWX) rfl (fun _ => exW_limits)
      (fun _ => R') true hG (fun _ => B) (r := 4) (by decide) (fun _ => hf' 4 (by decide)) [1, 1, 3, 2] (by decide))
  · obtain ⟨z, h1, h2, -, h3⟩ := (C61_weight exWC hW rfl rfl ⟨0, rfl⟩ (by decide) (exW_input exWX) rfl
      (fun _ => exW_limits) (fun _ => R') (fun _ => hf) true hG).1
    exact ⟨z, h1, h2, h3 3 0 [2, 1] (by decide) (by decide) (by decide)⟩
  · obtain ⟨z, h1, h2, -, h3⟩ := (C61_bias exWC ⟨[4], .float32, fun l => l.sum⟩ hW rfl rfl ⟨0, rfl⟩ (by decide)
      (exW_input exWX) rfl (fun _ => exW_limits) (fun _ => R') (fun _ => hf) true hG).1
    exact ⟨z, h1, h2, h3 3 (by decide)⟩

/-- Average pooling with the same windows. -/
example (X G : List Nat → ℚ) : ∃ k U S g k' g', WinRun exWP exWW 0 exWs (exWx X) (.inst .float64) (fun _ => (0 : Nat))
      (fun _ => []) true k U S g ∧
    WinBack exWP exWs U S (avgLocalGrad exWP exWW exWs (exWx X) U g (exWdy [2, 2, 5, 8] G)) false k' g' ∧
    inputGrad exWP exWs U g' 4 [1, 1, 3, 2] = torchAvgPoolGrad exWW exWn G [1, 1, 8, 5] := by
  obtain ⟨U, S, R⟩ := C39_starts (exW_input X) 0 (.inst .float64) (fun _ => (0 : Nat)) (fun _ => []) true
  obtain ⟨k, g, R', -, hf⟩ := C39_completes (exW_input X) R
  have hG : OutGrads exWP (torchPoolShape exWW exWL.global) (exWdy [2, 2, 5, 8] G) G := fun r _ o _ => rfl
  obtain ⟨k', g', B, -, hf'⟩ := C60_completes (exW_input X) R' (Exec.refl _ : WinBack exWP exWs U S
    (avgLocalGrad exWP exWW exWs (exWx X) U g (exWdy [2, 2, 5, 8] G)) false 0 _)
  exact ⟨k, U, S, g, k', g', R', B, C60_average (show poolParams true 2 [3] [2, 1] [1] [1] = some exWW by decide)
    rfl (exW_input X) exW_limits R' hG B (r := 4) (by decide) (hf' 4 (by decide)) [1, 1, 3, 2] (by decide)⟩

/-- Maximum pooling with the same windows, of integers (all above `⊥`, which stands for `-inf`). -/
example (X G : List Nat → Int) : ∃ k U S g k' g', WinRun exWP exWW ⊥ exWs (exWx fun q => (X q : WithBot Int))
      (.inst .float64) (fun _ => (0 : Nat)) (fun _ => []) true k U S g ∧
    WinBack exWP exWs U S (maxLocalGrad exWP exWW exWs (exWx fun q => (X q : WithBot Int)) U g
      (exWdy [2, 2, 5, 8] G)) false k' g' ∧
    inputGrad exWP exWs U g' 4 [1, 1, 3, 2] =
      torchMaxPoolGrad exWW exWn (fun q => (X q : WithBot Int)) G [1, 1, 8, 5] := by
  obtain ⟨U, S, R⟩ := C39_starts (exW_input fun q => (X q : WithBot Int)) ⊥ (.inst .float64) (fun _ => (0 : Nat))
    (fun _ => []) true
  obtain ⟨k, g, R', -, hf⟩ := C39_completes (exW_input _) R
  have hG : OutGrads exWP (torchPoolShape exWW exWL.global) (exWdy [2, 2, 5, 8] G) G := fun r _ o _ => rfl
  obtain ⟨k', g', B, -, hf'⟩ := C60_completes (exW_input fun q => (X q : WithBot Int)) R'
    (Exec.refl _ : WinBack exWP exWs U S (maxLocalGrad exWP exWW exWs (exWx fun q => (X q : WithBot Int)) U g
      (exWdy [2, 2, 5, 8] G)) false 0 _)
  exact ⟨k, U, S, g, k', g', R', B, C60_maximum_partial
    (show poolParams false 2 [3] [2, 1] [1] [1] = some exWW by decide)
    rfl (exW_input _) exW_limits (fun q _ => WithBot.coe_ne_bot) R' hG B hf (r := 4) (by decide) (hf' 4 (by decide))
    [1, 1, 3, 2] (by decide)⟩

end Verif
