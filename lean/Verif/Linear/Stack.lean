import Verif.Linear.Model
import Verif.Collective.Props
import Verif.Repartition.Props

/-!
# Broadcast, local operator, sum-reduction: what every worker gets
-/

namespace Verif

section
variable {R : Type} [AddCommMonoid R] {Lx Ly : PairLayer} {I : Inputs R}
  {op : Nat → Tensor R → Option (Tensor R)} {rg : Nat → Bool} {O : Nat → Tensor R}

/-- What is known of the two layers, the inputs and the local operator: the tensors have a batch
dimension, and `O v` is what the local operator of `v` makes of the tensor of its source. -/
structure Stack (Lx Ly : PairLayer) (I : Inputs R) (op : Nat → Tensor R → Option (Tensor R))
    (O : Nat → Tensor R) : Prop where
  bcast : BcastLayer Lx
  reduce : ReduceLayer Ly
  joint : Ly.Px = Lx.Py
  batch : ∀ u, u ∈ Lx.Px.members ∨ u ∈ Lx.Py.members ∨ u ∈ Ly.Py.members → (I.x u).shape ≠ []
  out : ∀ v ∈ Lx.Py.members, ∀ r ∈ Lx.Px.members, Lx.Feeds r v → op v (I.x r) = some (O v)
  outBatch : ∀ v ∈ Lx.Py.members, (O v).shape ≠ []
  kinds : ReduceInputs Ly O

theorem shape_ne_nil_of_prod {s : List Nat} (h : s.prod = 0) : s ≠ [] := by
  rintro rfl
  simp at h

omit [AddCommMonoid R] in
theorem Stack.hasBatch (h : Stack Lx Ly I op O) : HasBatch Lx I.x := fun _ u hu =>
  h.batch u (hu.elim Or.inl fun h => Or.inr (Or.inl h))

theorem Stack.mid_worker (h : Stack Lx Ly I op O) {v : Nat} (hv : v ∈ Lx.Py.members) :
    midTensor Lx I op v = some (O v) := by
  obtain ⟨r, hr, hf, -, e⟩ := (C22_forward Lx h.bcast I h.hasBatch).1 v hv
  rw [midTensor, if_pos hv, e, Option.bind_some, h.out v hv r hr hf]

theorem Stack.mid_source (h : Stack Lx Ly I op O) {v : Nat} (hx : v ∈ Lx.Px.members)
    (hv : v ∉ Lx.Py.members) : ∃ z, midTensor Lx I op v = some z ∧ z.shape.prod = 0 := by
  rw [midTensor, if_neg hv]
  exact (C22_forward Lx h.bcast I h.hasBatch).2.1 v hx hv

theorem Stack.mid_other (h : Stack Lx Ly I op O) {v : Nat} (hx : v ∉ Lx.Px.members)
    (hv : v ∉ Lx.Py.members) : midTensor Lx I op v = some (I.x v) := by
  rw [midTensor, if_neg hv]
  exact (C22_forward Lx h.bcast I h.hasBatch).2.2 v hx hv

theorem Stack.mid_some (h : Stack Lx Ly I op O) (v : Nat) : (midTensor Lx I op v).isSome := by
  by_cases hv : v ∈ Lx.Py.members
  · rw [h.mid_worker hv]; rfl
  · by_cases hx : v ∈ Lx.Px.members
    · obtain ⟨z, e, -⟩ := h.mid_source hx hv
      rw [e]; rfl
    · rw [h.mid_other hx hv]; rfl

theorem Stack.mid_inputs (h : Stack Lx Ly I op O) {v : Nat} (hv : v ∈ Lx.Py.members) :
    (midInputs Lx I op rg).x v = O v := by
  simp only [midInputs, h.mid_worker hv, Option.getD_some]

theorem Stack.mid_batch (h : Stack Lx Ly I op O) {v : Nat}
    (hu : v ∈ Lx.Px.members ∨ v ∈ Lx.Py.members ∨ v ∈ Ly.Py.members) :
    ((midInputs Lx I op rg).x v).shape ≠ [] := by
  by_cases hv : v ∈ Lx.Py.members
  · rw [h.mid_inputs hv]; exact h.outBatch v hv
  · by_cases hx : v ∈ Lx.Px.members
    · obtain ⟨z, e, hz⟩ := h.mid_source hx hv
      simp only [midInputs, e, Option.getD_some]
      exact shape_ne_nil_of_prod hz
    · simp only [midInputs, h.mid_other hx hv, Option.getD_some]
      exact h.batch v hu

theorem Stack.mid_kinds (h : Stack Lx Ly I op O) : ReduceInputs Ly (midInputs Lx I op rg).x := by
  intro r hr u hu v hv h1 h2
  rw [h.mid_inputs (h.joint ▸ hu), h.mid_inputs (h.joint ▸ hv)]
  exact h.kinds r hr u hu v hv h1 h2

theorem Stack.mid_hasBatch (h : Stack Lx Ly I op O) : HasBatch Ly (midInputs Lx I op rg).x := fun _ _ hu =>
  h.mid_batch (hu.elim (fun h' => Or.inr (Or.inl (h.joint ▸ h'))) fun h => Or.inr (Or.inr h))

/-- Forward: a worker of `P_y` gets the sum of the local results of the workers of `P_w` it collects, any
other worker of the layer a tensor without entries, workers outside keep their tensor. -/
theorem Stack.forward (h : Stack Lx Ly I op O) :
    (∀ u ∈ Ly.Py.members, ∃ v ∈ Lx.Py.members, Ly.Collects u v ∧
      stackForward Lx Ly I op rg u = some ⟨(O v).shape, (O v).dtype, fun i =>
        ((Lx.Py.members.filter fun v => decide (Ly.Collects u v)).map fun v => (O v).val i).sum⟩) ∧
    (∀ w, w ∈ Lx.Px.members ∨ w ∈ Lx.Py.members → w ∉ Ly.Py.members →
      ∃ z, stackForward Lx Ly I op rg w = some z ∧ z.shape.prod = 0) ∧
    (∀ w, w ∉ Lx.Px.members → w ∉ Lx.Py.members → w ∉ Ly.Py.members →
      stackForward Lx Ly I op rg w = some (I.x w)) := by
  have hall : ((layerWorkers Lx Ly).all fun v => (midTensor Lx I op v).isSome) = true :=
    List.all_eq_true.2 fun v _ => h.mid_some v
  obtain ⟨f1, f2, f3⟩ := C23_forward Ly h.reduce (midInputs Lx I op rg) h.mid_kinds h.mid_hasBatch
  refine ⟨fun u hu => ?_, fun w hw hy => ?_, fun w h1 h2 h3 => ?_⟩
  · obtain ⟨v, hv, hc, e⟩ := f1 u hu
    refine ⟨v, h.joint ▸ hv, hc, ?_⟩
    rw [stackForward, if_neg (fun hh => hh.2.1 hu), if_pos hall, e, h.mid_inputs (h.joint ▸ hv)]
    congr 2
    funext i
    rw [h.joint]
    congr 1
    refine List.map_congr_left fun v' hv' => ?_
    rw [h.mid_inputs (List.mem_of_mem_filter hv')]
  · rw [stackForward, if_neg (fun hh => hw.elim hh.1 hh.2.2), if_pos hall]
    by_cases hv : w ∈ Lx.Py.members
    · exact f2 w (h.joint.symm ▸ hv) hy
    · obtain ⟨z, e, hz⟩ := h.mid_source (hw.resolve_right hv) hv
      refine ⟨z, ?_, hz⟩
      rw [f3 w (by rw [h.joint]; exact hv) hy]
      simp only [midInputs, e, Option.getD_some]
  · rw [stackForward, if_pos ⟨h1, h3, h2⟩]

/-- The collectives of forward cannot deadlock. -/
theorem Stack.terminates (h : Stack Lx Ly I op O) :
    SafeRun (groupUnion Lx.Px.members Lx.Py.members) (bcastActs Lx I) ∧
    SafeRun (groupUnion Ly.Px.members Ly.Py.members) (reduceActs Ly (midInputs Lx I op rg)) :=
  ⟨(C22_terminates Lx h.bcast I I.x h.hasBatch h.hasBatch).1,
    (C23_terminates Ly h.reduce (midInputs Lx I op rg) (midInputs Lx I op rg).x h.mid_kinds h.mid_hasBatch
      h.mid_hasBatch).1⟩

/-! ## Backward -/

variable {opB : Nat → Tensor R → Tensor R → Tensor R} {y : Nat → Tensor R}

/-- What is known of the output gradients and of the backward of the local operator. -/
structure StackGrads (Lx Ly : PairLayer) (I : Inputs R) (O : Nat → Tensor R)
    (opB : Nat → Tensor R → Tensor R → Tensor R) (y : Nat → Tensor R) : Prop where
  fits : ReduceGrads Ly O y
  batch : ∀ u, u ∈ Lx.Px.members ∨ u ∈ Lx.Py.members ∨ u ∈ Ly.Py.members → (y u).shape ≠ []
  back : ∀ v x dy, (opB v x dy).shape = x.shape ∧ (opB v x dy).dtype = x.dtype

/-- The gradient that reaches the local operator of a worker is the one of the worker of `P_y` that
collects its result. -/
theorem Stack.midGrad_worker (h : Stack Lx Ly I op O) (hg : StackGrads Lx Ly I O opB y) {v : Nat}
    (hv : v ∈ Lx.Py.members) :
    ∃ u ∈ Ly.Py.members, Ly.Collects u v ∧ midGrad Lx Ly I op rg y v = some (y u) := by
  have hfit : ReduceGrads Ly (midInputs Lx I op rg).x y := fun r hr v hv hc => by
    rw [h.mid_inputs (h.joint ▸ hv)]; exact hg.fits r hr v hv hc
  have hb : HasBatch Ly y := fun _ u hu =>
    hg.batch u (hu.elim (fun h' => Or.inr (Or.inl (h.joint ▸ h'))) fun h => Or.inr (Or.inr h))
  obtain ⟨r, hr, hc, -, e⟩ := (C23_backward Ly h.reduce (midInputs Lx I op rg) y h.mid_kinds hfit hb).1 v
    (h.joint.symm ▸ hv)
  exact ⟨r, hr, hc, e⟩

theorem Stack.midGrad_other (h : Stack Lx Ly I op O) (hg : StackGrads Lx Ly I O opB y) {v : Nat}
    (hv : v ∉ Lx.Py.members) : (v ∈ Ly.Py.members → ∃ z, midGrad Lx Ly I op rg y v = some z ∧ z.shape.prod = 0) ∧
    (v ∉ Ly.Py.members → midGrad Lx Ly I op rg y v = some (y v)) := by
  have hfit : ReduceGrads Ly (midInputs Lx I op rg).x y := fun r hr v hv hc => by
    rw [h.mid_inputs (h.joint ▸ hv)]; exact hg.fits r hr v hv hc
  have hb : HasBatch Ly y := fun _ u hu =>
    hg.batch u (hu.elim (fun h' => Or.inr (Or.inl (h.joint ▸ h'))) fun h => Or.inr (Or.inr h))
  refine ⟨fun hy => (C23_backward Ly h.reduce (midInputs Lx I op rg) y h.mid_kinds hfit hb).2 v hy
    (by rw [h.joint]; exact hv), fun hy => ?_⟩
  unfold midGrad reduceBackward PairLayer.run
  split
  · rfl
  · rw [if_pos ⟨by rw [h.joint]; exact hv, hy⟩]

/-- Backward: a worker of `P_x` gets the sum of the input gradients of the workers of `P_w` it feeds, each
computed from the gradient of the one worker of `P_y` that collects its result. -/
theorem Stack.backward (h : Stack Lx Ly I op O) (hg : StackGrads Lx Ly I O opB y)
    (dy : Nat → Tensor R) (hdy : ∀ v ∈ Lx.Py.members, ∀ u ∈ Ly.Py.members, Ly.Collects u v → dy v = y u) :
    (∀ r ∈ Lx.Px.members, stackBackward Lx Ly I op opB rg y r = some ⟨(I.x r).shape, (I.x r).dtype, fun i =>
      ((Lx.Py.members.filter fun v => decide (Lx.Feeds r v)).map fun v =>
        (opB v (I.x r) (dy v)).val i).sum⟩) ∧
    (∀ w, w ∈ Ly.Py.members ∨ w ∈ Lx.Py.members → w ∉ Lx.Px.members →
      ∃ z, stackBackward Lx Ly I op opB rg y w = some z ∧ z.shape.prod = 0) ∧
    SafeRun (groupUnion Ly.Px.members Ly.Py.members) (reduceBackActs Ly (midInputs Lx I op rg) y) ∧
    SafeRun (groupUnion Lx.Px.members Lx.Py.members) (bcastBackActs Lx I fun v =>
      (inGrad Lx Ly I op opB rg y v).getD ⟨[], .float64, fun _ => 0⟩) := by
  have hw : ∀ v ∈ Lx.Py.members, ∃ r ∈ Lx.Px.members, Lx.Feeds r v ∧
      inGrad Lx Ly I op opB rg y v = some (opB v (I.x r) (dy v)) := by
    intro v hv
    obtain ⟨r, hr, hf, -, e⟩ := (C22_forward Lx h.bcast I h.hasBatch).1 v hv
    obtain ⟨u, hu, hc, e'⟩ := h.midGrad_worker (rg := rg) hg hv
    refine ⟨r, hr, hf, ?_⟩
    simp only [inGrad, if_pos hv, e, e', hdy v hv u hu hc]
  have hsome : ∀ v, (inGrad Lx Ly I op opB rg y v).isSome := by
    intro v
    by_cases hv : v ∈ Lx.Py.members
    · obtain ⟨r, -, -, e⟩ := hw v hv
      rw [e]; rfl
    · rw [inGrad, if_neg hv]
      by_cases hy : v ∈ Ly.Py.members
      · obtain ⟨z, e, -⟩ := (h.midGrad_other (rg := rg) hg hv).1 hy
        rw [e]; rfl
      · rw [(h.midGrad_other (rg := rg) hg hv).2 hy]; rfl
  have hall : ((layerWorkers Lx Ly).all fun v => (inGrad Lx Ly I op opB rg y v).isSome) = true :=
    List.all_eq_true.2 fun v _ => hsome v
  have hval : ∀ v ∈ Lx.Py.members, ∀ r ∈ Lx.Px.members, Lx.Feeds r v →
      inGrad Lx Ly I op opB rg y v = some (opB v (I.x r) (dy v)) := by
    intro v hv r hr hf
    obtain ⟨r', hr', hf', e⟩ := hw v hv
    have : r = r' := by
      rw [(h.bcast.rel hr hv).1 hf |>.symm, (h.bcast.rel hr' hv).1 hf' |>.symm]
    rw [this]; exact e
  have hbg : BcastGrads Lx I.x fun v => (inGrad Lx Ly I op opB rg y v).getD ⟨[], .float64, fun _ => 0⟩ := by
    intro r hr v hv hf
    simp only [hval v hv r hr hf, Option.getD_some]
    exact hg.back v _ _
  have hbb : HasBatch Lx fun v => (inGrad Lx Ly I op opB rg y v).getD ⟨[], .float64, fun _ => 0⟩ := by
    intro _ v hu
    by_cases hv : v ∈ Lx.Py.members
    · obtain ⟨r, hr, -, e⟩ := hw v hv
      simp only [e, Option.getD_some, (hg.back v _ _).1]
      exact h.batch r (Or.inl hr)
    · have hx := hu.resolve_right hv
      simp only [inGrad, if_neg hv]
      by_cases hy : v ∈ Ly.Py.members
      · obtain ⟨z, e, hz⟩ := (h.midGrad_other (rg := rg) hg hv).1 hy
        rw [e]; exact shape_ne_nil_of_prod hz
      · rw [(h.midGrad_other (rg := rg) hg hv).2 hy]
        exact hg.batch v (Or.inl hx)
  obtain ⟨b1, b2⟩ := C22_backward Lx h.bcast I _ hbg hbb
  have hb : HasBatch Ly y := fun _ u hu =>
    hg.batch u (hu.elim (fun h' => Or.inr (Or.inl (h.joint ▸ h'))) fun h => Or.inr (Or.inr h))
  refine ⟨fun r hr => ?_, fun w hw' hx => ?_,
    (C23_terminates Ly h.reduce (midInputs Lx I op rg) y h.mid_kinds h.mid_hasBatch hb).2,
    (C22_terminates Lx h.bcast I _ h.hasBatch hbb).2⟩
  · rw [stackBackward, if_neg (fun hh => hh.1 hr), if_pos hall, b1 r hr]
    congr 2
    funext i
    congr 1
    refine List.map_congr_left fun v hv => ?_
    have hv1 := List.mem_of_mem_filter hv
    have hv2 : Lx.Feeds r v := of_decide_eq_true (List.mem_filter.1 hv).2
    rw [hval v hv1 r hr hv2, Option.getD_some]
  · rw [stackBackward, if_neg (fun hh => hw'.elim hh.2.1 hh.2.2), if_pos hall]
    by_cases hv : w ∈ Lx.Py.members
    · exact b2 w hv hx
    · obtain ⟨z, e, hz⟩ := (h.midGrad_other (rg := rg) hg hv).1 (hw'.resolve_right hv)
      refine ⟨z, ?_, hz⟩
      unfold bcastBackward PairLayer.run
      have hin : inGrad Lx Ly I op opB rg y w = some z := by rw [inGrad, if_neg hv, e]
      split
      · simp only [hin, Option.getD_some]
      · rw [if_pos ⟨hx, hv⟩]
        simp only [hin, Option.getD_some]

end

/-! ## Sums over the workers of a partition -/

theorem members_filter_sum {M : Type} [AddCommMonoid M] {P : Cart} (hP : P.WF) (p : List Nat → Prop)
    [DecidablePred p] (f : List Nat → M) :
    ((P.members.filter fun v => decide (p (P.coord v))).map fun v => f (P.coord v)).sum =
      boxSum P.shape fun c => if p c then f c else 0 := by
  rw [boxSum_eq_list, ← map_coords_members hP.nodup hP.size, List.map_map]
  show _ = (P.members.map fun v => if p (P.coord v) then f (P.coord v) else 0).sum
  induction P.members with
  | nil => rfl
  | cons a l ih =>
    by_cases h : p (P.coord a)
    · simp [h, ih]
    · simp [h, ih]

theorem boxSum_pick {M : Type} [AddCommMonoid M] {S s : List Nat} (hs : InBounds s S) (f : List Nat → M) :
    (boxSum S fun c => if c = s then f c else 0) = f s := by
  induction S generalizing s f with
  | nil =>
    cases s with
    | nil => simp [boxSum]
    | cons _ _ => exact hs.elim
  | cons n S ih =>
    cases s with
    | nil => exact hs.elim
    | cons a s =>
      obtain ⟨h1, h2⟩ := hs
      show (∑ i ∈ Finset.range n, boxSum S fun l => if i :: l = a :: s then f (i :: l) else 0) = _
      rw [Finset.sum_eq_single_of_mem a (Finset.mem_range.2 h1)]
      · rw [← ih h2 fun l => f (a :: l)]
        simp
      · intro i _ hi
        refine Eq.trans ?_ (boxSum_zero S)
        congr 1
        funext l
        rw [if_neg]
        intro e
        injection e with e1 e2
        exact hi e1

/-- The sum over all blocks of an even cut is the sum over all cells. -/
theorem sum_even {M : Type} [AddCommMonoid M] {P : Nat} (hP : 0 < P) (n : Nat) (F : Nat → M) :
    (∑ j ∈ Finset.range P, ∑ l ∈ Finset.range (subsize P j n), F (startIdx P j n + l)) =
      ∑ g ∈ Finset.range n, F g := by
  have h := sum_blocks ((List.range P).map fun i => subsize P i n) F
  have hs : ((List.range P).map fun i => subsize P i n).sum = n := by
    have := balanced_take_sum P n P (Nat.le_refl _)
    rw [List.take_of_length_le (by simp)] at this
    rw [this, startIdx_top hP]
  rw [hs, List.length_map, List.length_range] at h
  rw [← h]
  refine Finset.sum_congr rfl fun j hj => ?_
  have hj' := Finset.mem_range.1 hj
  rw [balanced_take_sum P n j (by omega)]
  have : (((List.range P).map fun i => subsize P i n).getD j 0) = subsize P j n := by
    simp [List.getD_eq_getElem?_getD, hj']
  rw [this]

theorem inBounds_two {c : List Nat} {a b : Nat} (h : InBounds c [a, b]) :
    ∃ i j, c = [i, j] ∧ i < a ∧ j < b := by
  match c, h with
  | [i, j], h => exact ⟨i, j, rfl, h.1, h.2.1⟩
  | [], h => exact h.elim
  | [_], h => exact h.2.elim
  | _ :: _ :: _ :: _, h => exact h.2.2.elim

end Verif
