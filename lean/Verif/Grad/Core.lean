import Verif.Grad.Model
import Verif.Window.Limits
import Verif.Linear.Stack

/-!
# The backward pass up to the local operator

The gradient of the input is the image of the gradients of the local operators under the transpose of padding,
exchange and selection.
-/

namespace Verif

open Exchange

/-! ## Sums -/

theorem boxSum_mul_left {R : Type} [CommSemiring R] (s : List Nat) (a : R) (f : List Nat → R) :
    (boxSum s fun l => a * f l) = a * boxSum s f := by
  induction s generalizing f with
  | nil => rfl
  | cons n s ih => simp only [boxSum, ih, Finset.mul_sum]

theorem boxSum_mul_right {R : Type} [CommSemiring R] (s : List Nat) (a : R) (f : List Nat → R) :
    (boxSum s fun l => f l * a) = boxSum s f * a := by
  simp only [mul_comm _ a, boxSum_mul_left]

theorem sum_range_list {M : Type} [AddCommMonoid M] (n : Nat) (f : Nat → M) :
    ∑ r ∈ Finset.range n, f r = ((List.range n).map f).sum := by
  induction n with
  | zero => rfl
  | succ n ih => rw [Finset.sum_range_succ, ih, List.range_succ]; simp

/-- Sums over ranks are sums over indices. -/
theorem ranks_sum {M : Type} [AddCommMonoid M] (S : List Nat) (f : List Nat → M) :
    ∑ r ∈ Finset.range S.prod, f (getCoords S r) = boxSum S f := by
  rw [boxSum_eq_list, ← map_coords_members (ms := List.range S.prod) List.nodup_range (by simp), List.map_map,
    sum_range_list]
  congr 1
  apply List.map_congr_left
  intro i hi
  have hi : i < S.prod := by simpa using hi
  have : (List.range S.prod).idxOf i = i := by
    have := List.Nodup.idxOf_getElem (xs := List.range S.prod) List.nodup_range i (by simpa using hi)
    rwa [List.getElem_range] at this
  simp [this]

theorem map_cast_inj {a b : List Nat} (h : (a.map fun n : Nat => (n : Int)) = b.map fun n : Nat => (n : Int)) : a = b :=
  List.map_injective_iff.2 (fun _ _ h => Int.ofNat_inj.1 h) h

theorem inBoundsI_cast {l s : List Nat} : InBoundsI (l.map fun n : Nat => (n : Int)) s ↔ InBounds l s := by
  induction s generalizing l with
  | nil => cases l <;> simp [InBoundsI, InBounds]
  | cons n s ih =>
    cases l with
    | nil => simp [InBoundsI, InBounds]
    | cons a l => simp [InBoundsI, InBounds, ih]

theorem toNat_cast {pos : List Int} {s : List Nat} (h : InBoundsI pos s) :
    ((pos.map Int.toNat).map fun n : Nat => (n : Int)) = pos := by
  induction s generalizing pos with
  | nil => cases pos with
    | nil => rfl
    | cons _ _ => exact h.elim
  | cons n s ih =>
    cases pos with
    | nil => exact h.elim
    | cons a l =>
      simp only [List.map_cons, ih h.2, Int.toNat_of_nonneg h.1.1]

/-- What a position contributes to the pairing with `x`. -/
theorem boxSum_atCell {R : Type} [CommSemiring R] (shape : List Nat) (x : List Nat → R) (pos : List Int) (a : R) :
    (boxSum shape fun m => x m * atCell pos m a) = extend 0 shape x pos * a := by
  unfold extend atCell
  by_cases hb : InBoundsI pos shape
  · rw [if_pos hb]
    have hc : InBounds (pos.map Int.toNat) shape := by rw [← inBoundsI_cast, toNat_cast hb]; exact hb
    rw [← boxSum_pick hc (fun m => x m * a)]
    refine boxSum_congr fun m hm => ?_
    by_cases he : m = pos.map Int.toNat
    · rw [if_pos he, he, if_pos (toNat_cast hb).symm]
    · rw [if_neg he, if_neg, mul_zero]
      intro h
      apply he
      apply map_cast_inj
      rw [toNat_cast hb, h]
  · rw [if_neg hb, zero_mul]
    refine (boxSum_congr fun m hm => ?_).trans (boxSum_zero shape)
    rw [if_neg, mul_zero]
    intro h
    apply hb
    rw [h]
    exact inBoundsI_cast.2 hm

/-! ## Padding and selection -/

theorem padGrad_spec {R : Type} {U : WinSetup} {shape : List Nat} (hl : U.total.length = shape.length)
    (z : List Nat → R) {l : List Nat} (hb : InBounds l shape) :
    U.padGrad shape z l = z ((List.range shape.length).map fun j => (U.total.getD j (0, 0)).1 + l.getD j 0) := by
  unfold WinSetup.padGrad
  split
  · rename_i hz
    congr 1
    apply eq_of_getD
    · rw [hb.length_eq]; simp
    · intro j hj
      rw [hb.length_eq] at hj
      rw [getD_map_range _ _ hj]
      have hj' : j < U.total.length := by rw [hl]; exact hj
      have := sum_eq_zero_iff_forall hz _ (List.mem_map.2 ⟨U.total[j], List.getElem_mem hj', rfl⟩)
      rw [List.getD_eq_getElem _ _ hj']
      omega
  · unfold torchPadGrad
    congr 1
    apply List.map_congr_left
    intro j hj
    have := toTorchPadding_getD (pad := U.total) (j := j) (by rw [hl]; exact List.mem_range.1 hj)
    rw [← hl, this.1]

/-- The gradient of padding is its transpose. -/
theorem pad_adjoint {R : Type} [CommSemiring R] {U : WinSetup} {shape : List Nat} (hl : U.total.length = shape.length)
    (y z : List Nat → R) :
    (boxSum (U.padInput 0 shape y).1 fun l => (U.padInput 0 shape y).2 l * z l) =
      boxSum shape fun l => y l * U.padGrad shape z l := by
  obtain ⟨s1, s2⟩ := padInput_spec hl (0 : R) y
  let sl : Slices := (List.range shape.length).map fun j =>
    ((U.total.getD j (0, 0)).1, (U.total.getD j (0, 0)).1 + shape.getD j 0)
  have hsl : sl.length = shape.length := by simp [sl]
  have hg : ∀ j, j < shape.length → sl.getD j (0, 0) =
      ((U.total.getD j (0, 0)).1, (U.total.getD j (0, 0)).1 + shape.getD j 0) := fun j hj => getD_map_range _ _ hj
  have hfst : ∀ j, j < shape.length → (sl.map Prod.fst).getD j 0 = (U.total.getD j (0, 0)).1 := by
    intro j hj
    have : sl.map Prod.fst = (List.range shape.length).map fun j => (U.total.getD j (0, 0)).1 := by
      simp [sl, Function.comp_def]
    rw [this, getD_map_range _ _ hj]
  have hdiff : (sl.map fun p => p.2 - p.1) = shape := by
    apply eq_of_getD
    · simp [hsl]
    · intro j hj
      have hj' : j < shape.length := by simpa [hsl] using hj
      have : (sl.map fun p => p.2 - p.1) = (List.range shape.length).map fun j => shape.getD j 0 := by
        simp [sl, Function.comp_def]
      rw [this, getD_map_range _ _ hj']
  have hpl : (U.padInput 0 shape y).1.length = shape.length := by rw [s1]; simp
  have hpg : ∀ j, j < shape.length → (U.padInput 0 shape y).1.getD j 0 =
      (U.total.getD j (0, 0)).1 + shape.getD j 0 + (U.total.getD j (0, 0)).2 := by
    intro j hj
    rw [s1, getD_map_range _ _ hj]
  have step : (boxSum (U.padInput 0 shape y).1 fun l => (U.padInput 0 shape y).2 l * z l) =
      boxSum (U.padInput 0 shape y).1 fun l => if InSlices sl l then
        y ((List.range shape.length).map fun j => l.getD j 0 - (U.total.getD j (0, 0)).1) * z l else 0 := by
    refine boxSum_congr fun l hb => ?_
    rw [s2 l hb]
    have hb' := inBounds_iff.1 hb
    rw [hpl] at hb'
    by_cases hi : InSlices sl l
    · rw [if_pos hi]
      obtain ⟨-, h2⟩ := inSlices_iff.1 hi
      congr 1
      apply extend_inside
      · rw [inBounds_iff]
        refine ⟨by simp, fun j hj => ?_⟩
        rw [getD_map_range _ _ hj]
        have := h2 j (by rw [hsl]; exact hj)
        rw [hg j hj] at this
        omega
      · simp
      · intro j hj
        have hj' : j < shape.length := by simpa using hj
        have := h2 j (by rw [hsl]; exact hj')
        rw [hg j hj'] at this
        rw [getD_map_range _ _ hj', getD_map_range _ _ hj']
        omega
    · rw [if_neg hi]
      rw [inSlices_iff, not_and] at hi
      have := hi (by rw [hsl, hb'.1])
      push Not at this
      obtain ⟨j, hj, hjj⟩ := this
      rw [hsl] at hj
      rw [extend_outside hj, zero_mul]
      rw [getD_map_range _ _ hj]
      rw [hg j hj] at hjj
      by_cases hc : (U.total.getD j (0, 0)).1 ≤ l.getD j 0
      · have := hjj hc
        simp only at this
        omega
      · omega
  rw [step, boxSum_slice (by rw [hsl, hpl]), hdiff]
  · refine boxSum_congr fun l hb => ?_
    have hb' := inBounds_iff.1 hb
    rw [padGrad_spec hl z hb]
    congr 2
    · apply eq_of_getD
      · simp [hb'.1]
      · intro j hj
        have hj' : j < shape.length := by simpa using hj
        rw [getD_map_range _ _ hj', getD_shiftBy (by simp [hsl, hj']) (by rw [hb'.1]; exact hj'), hfst j hj']
        omega
    · apply eq_of_getD
      · rw [length_shiftBy (by simp [hsl, hb'.1])]; simp [hsl]
      · intro j hj
        have hj' : j < shape.length := by
          rw [length_shiftBy (by simp [hsl, hb'.1])] at hj; simpa [hsl] using hj
        rw [getD_map_range _ _ hj', getD_shiftBy (by simp [hsl, hj']) (by rw [hb'.1]; exact hj'), hfst j hj']
  · intro j hj
    rw [hsl] at hj
    rw [hg j hj, hpg j hj]
    simp only
    omega

theorem pyBound_le (s : Nat) (a : Int) : pyBound s a ≤ s := by
  unfold pyBound
  split
  · omega
  · exact Nat.min_le_right _ _

/-- The gradient of a selection is its transpose. -/
theorem select_adjoint {R : Type} [CommSemiring R] {U : WinSetup} {shape : List Nat}
    (hl : U.info.needed.length = shape.length) (y z : List Nat → R) :
    (boxSum shape fun l => y l * U.selectGrad shape z l) =
      boxSum (U.select shape y).1 fun m => (U.select shape y).2 m * z m := by
  have hsl : (pySlices shape U.info.needed).length = shape.length := by
    rw [pySlices, List.length_zipWith, hl, Nat.min_self]
  show _ = boxSum ((pySlices shape U.info.needed).map fun p => p.2 - p.1) fun m =>
    readSlice (pySlices shape U.info.needed) y m * z m
  rw [show (boxSum shape fun l => y l * U.selectGrad shape z l) = boxSum shape fun l =>
    if InSlices (pySlices shape U.info.needed) l then
      y l * z (List.zipWith (· - ·) l ((pySlices shape U.info.needed).map Prod.fst)) else 0 from
    boxSum_congr fun l _ => by
      unfold WinSetup.selectGrad writeSlice
      split
      · rfl
      · rw [mul_zero]]
  rw [boxSum_slice hsl]
  · refine boxSum_congr fun m hm => ?_
    have hml : m.length = ((pySlices shape U.info.needed).map Prod.fst).length := by
      rw [hm.length_eq]; simp
    congr 1
    congr 1
    apply eq_of_getD
    · rw [List.length_zipWith, length_shiftBy hml, hml, Nat.min_self]
    · intro j hj
      rw [List.length_zipWith, length_shiftBy hml, Nat.min_self] at hj
      rw [getD_zipWith_sub (by rw [length_shiftBy hml]; exact hj) hj,
        getD_shiftBy hj (by rw [hml]; exact hj)]
      omega
  · intro j hj
    rw [hsl] at hj
    rw [List.getD_eq_getElem _ _ (by rw [hsl]; exact hj), List.getD_eq_getElem _ _ hj]
    unfold pySlices
    rw [List.getElem_zipWith]
    exact pyBound_le _ _

/-! ## The run -/

section
variable {α R : Type} [CommSemiring R] {P : Cart} {W : WinParams} {L : Layout}
  {localS : Nat → List Nat × TorchDtype × Bool}
  {x : Nat → List Nat → α} {X : List Nat → α} {y : Nat → List Nat → R} {Y : List Nat → R} {t : TorchDtype} {rg : Bool}
  {β : Type} {dt : NpKey} {junk : Nat → β} {ops : Nat → List (MgrOp β)} {eager eager' : Bool} {k k' : Nat}
  {U : Nat → WinSetup} {S : Nat → HaloSetup} {g : GState (List Nat → α) (List Nat → α)} {v : α}
  {gl : Nat → List Nat → R} {g' : GState (List Nat → R) (List Nat → R)}

omit [CommSemiring R] in
/-- Other data of the same layout. -/
theorem WinInput.replace (h : WinInput P W L localS x X t rg) (Y : List Nat → R) :
    WinInput P W L localS (fun v l => Y (shiftBy (L.startAt ((P.index v).getD [])) l)) Y t rg := by
  refine ⟨h.wf, h.layout, h.plen, h.loc, fun v _ idx hi l _ => ?_⟩
  rw [hi]
  rfl

omit [CommSemiring R] in
/-- The setup of a run does not depend on the entries: other data can be run with it, to the end. -/
theorem WinRun.again (h : WinInput P W L localS x X t rg) (A : WinRun P W v localS x dt junk ops eager k U S g)
    (hy : WinInput P W L localS y Y t rg) (v' : R) :
    ∃ k2 g2, WinRun P W v' localS y dt junk ops eager k2 U S g2 ∧
      ∀ r, r < P.members.length → (g2.ws r).phase = haloPhases P := by
  obtain ⟨-, -, -, s1, -⟩ := setup_facts h v A.setup
  obtain ⟨-, -, -, s2, -⟩ := setup_facts hy v' A.setup
  have A0 : WinRun P W v' localS y dt junk ops eager 0 U S (GState.init fun r =>
      ((U r).padInput v' (localS (P.members.getD r 0)).1 (y (P.members.getD r 0))).2) := by
    refine ⟨A.setup, fun r hr => ?_, .refl _⟩
    rw [s2 r hr, ← s1 r hr]
    exact A.halo r hr
  obtain ⟨k2, g2, B, -, hf⟩ := C39_completes hy A0
  exact ⟨k2, g2, B, hf⟩

/-- Setup fixes the shapes. -/
theorem setup_lengths (h : WinInput P W L localS x X t rg)
    (A : ∀ r, r < P.members.length → winSetup P W localS (P.members.getD r 0) = some (U r)) {r : Nat}
    (hr : r < P.members.length) :
    (U r).total.length = P.shape.length ∧ (U r).info.needed.length = P.shape.length ∧
    (localS (P.members.getD r 0)).1 = L.shapeAt (getCoords P.shape r) ∧
    (L.shapeAt (getCoords P.shape r)).length = P.shape.length ∧
    winPaddedShape P localS U r = (winPlan P W L).shape r := by
  have hu : WinInput P W L localS (fun _ _ => ()) (fun _ => ()) t rg := ⟨h.wf, h.layout, h.plen, h.loc, fun _ _ _ _ _ _ => rfl⟩
  obtain ⟨T, hT, hU, s1, -⟩ := setup_facts hu () A
  have hp := winDims_plan h
  obtain ⟨m1, m2⟩ := member_spec h.wf hr
  have hi : InBounds (getCoords P.shape r) P.shape := (getCoords_spec (by rw [← h.wf.size]; exact hr)).1
  refine ⟨?_, ?_, by rw [h.loc _ m1 _ m2], ?_, s1 r hr⟩
  · rw [hU r hr]
    show (List.zipWith _ _ _).length = _
    rw [List.length_zipWith]
    show min (localPadding _ _ _).length (haloShape true (winDims P W L) (some T) _).length = _
    simp [localPadding, haloShape, hp.len]
  · rw [hU r hr]
    show (neededRanges _ _).length = _
    rw [neededRanges, List.length_zipWith]
    simp [haloShape, hp.len]
  · rw [Layout.length_shapeAt (by rw [h.length, hi.length_eq]), h.length]

/-- Padding, exchange and selection against their gradients. -/
theorem window_adjoint (hy : WinInput P W L localS y Y t rg) {g2 : GState (List Nat → R) (List Nat → R)}
    (A : WinRun P W 0 localS y dt junk ops eager k U S g2)
    (hA : ∀ r, r < P.members.length → (g2.ws r).phase = haloPhases P)
    (B : WinBack P localS U S gl eager' k' g')
    (hB : ∀ r, r < P.members.length → (g'.ws r).phase = haloPhases P) :
    (∑ w ∈ Finset.range P.members.length, boxSum (localInput P 0 localS y U g2 w).1 fun m =>
      (localInput P 0 localS y U g2 w).2 m * gl w m) =
    ∑ w ∈ Finset.range P.members.length, boxSum (L.shapeAt (getCoords P.shape w)) fun l =>
      y (P.members.getD w 0) l * inputGrad P localS U g' w l := by
  obtain ⟨T, hT, hU, hsh, hst, hS⟩ := A.facts hy
  have hok : (winPlan P W L).OK := plan_ok_always (winDims_plan hy)
  have adj := C36_adjoint hok hS _ _ A.exec B fun w hw => ⟨hA w hw, hB w hw⟩
  calc _ = ∑ w ∈ Finset.range P.members.length, boxSum ((winPlan P W L).shape w) fun l =>
        (g2.ws w).st l * (U w).selectGrad (winPaddedShape P localS U w) (gl w) l := by
          refine Finset.sum_congr rfl fun w hw => ?_
          have hw := Finset.mem_range.1 hw
          obtain ⟨l1, l2, l3, l4, l5⟩ := setup_lengths hy A.setup hw
          unfold localInput
          rw [hsh w hw, l5, ← select_adjoint]
          rw [l2, HaloPlan.length_shape]
          rfl
    _ = _ := adj
    _ = _ := by
          refine Finset.sum_congr rfl fun w hw => ?_
          have hw : w < P.members.length := Finset.mem_range.1 hw
          obtain ⟨l1, l2, l3, l4, l5⟩ := setup_lengths hy A.setup hw
          rw [← hsh w hw, pad_adjoint (by rw [l3, l4, l1]), l3]
          rw [inputGrad, l3]

/-- The gradient of an entry of the input: the pairing of the gradients of the local operators with what the
workers get when that entry is 1 and all others are 0. -/
theorem pull_back (h : WinInput P W L localS x X t rg) (A : WinRun P W v localS x dt junk ops eager k U S g)
    (B : WinBack P localS U S gl eager' k' g') {r : Nat} (hr : r < P.members.length)
    (hfin : (g'.ws r).phase = haloPhases P) {l : List Nat} (hl : InBounds l (L.shapeAt (getCoords P.shape r))) :
    let Y : List Nat → R := fun q => if q = shiftBy (L.startAt (getCoords P.shape r)) l then 1 else 0
    let y : Nat → List Nat → R := fun v l => Y (shiftBy (L.startAt ((P.index v).getD [])) l)
    WinInput P W L localS y Y t rg ∧ ∃ k2 g2, WinRun P W 0 localS y dt junk ops eager k2 U S g2 ∧
      (∀ r, r < P.members.length → (g2.ws r).phase = haloPhases P) ∧
      inputGrad P localS U g' r l = ∑ w ∈ Finset.range P.members.length,
        boxSum (localInput P 0 localS y U g2 w).1 fun m => (localInput P 0 localS y U g2 w).2 m * gl w m := by
  intro Y y
  have hy : WinInput P W L localS y Y t rg := h.replace Y
  obtain ⟨k2, g2, A2, hA2⟩ := A.again h hy 0
  refine ⟨hy, k2, g2, A2, hA2, ?_⟩
  obtain ⟨T, hT, hU, hsh, hst, hS⟩ := A2.facts hy
  have hok : (winPlan P W L).OK := plan_ok_always (winDims_plan hy)
  have dn := hS.done hok.wf
  obtain ⟨k3, g3, B3, -, hB3⟩ := completes (HaloPlan.bwd_matched hok dn) HaloPlan.bwd_commutes B
  have hsame : inputGrad P localS U g' r l = inputGrad P localS U g3 r l := by
    unfold inputGrad
    rw [async_final (HaloPlan.bwd_matched hok dn) HaloPlan.bwd_commutes B hr hfin,
      async_final (HaloPlan.bwd_matched hok dn) HaloPlan.bwd_commutes B3 hr (hB3 r hr)]
  rw [window_adjoint hy A2 hA2 B3 hB3, hsame]
  have hidx : ∀ w, w < P.members.length → InBounds (getCoords P.shape w) P.shape ∧
      (getCoords P.shape w).length = L.length := fun w hw => by
    have := (getCoords_spec (shape := P.shape) (r := w) (by rw [← h.wf.size]; exact hw)).1
    exact ⟨this, by rw [h.length, this.length_eq]⟩
  have hbox := (Layout.inBox_shift (hidx r hr).2).2 hl
  have hin : InBounds (shiftBy (L.startAt (getCoords P.shape r)) l) L.global :=
    (L.unique_owner _).2 _ (by rw [h.layout]; exact (hidx r hr).1) hbox.2
  have key : ∀ w, w < P.members.length → ∀ l', InBounds l' (L.shapeAt (getCoords P.shape w)) →
      y (P.members.getD w 0) l' * inputGrad P localS U g3 w l' =
        if shiftBy (L.startAt (getCoords P.shape w)) l' = shiftBy (L.startAt (getCoords P.shape r)) l then
          inputGrad P localS U g3 r l else 0 := by
    intro w hw l' hl'
    have hbox' := (Layout.inBox_shift (hidx w hw).2).2 hl'
    obtain ⟨-, m2⟩ := member_spec h.wf hw
    have ey : y (P.members.getD w 0) l' = if shiftBy (L.startAt (getCoords P.shape w)) l' =
        shiftBy (L.startAt (getCoords P.shape r)) l then 1 else 0 := by
      show Y (shiftBy (L.startAt ((P.index (P.members.getD w 0)).getD [])) l') = _
      rw [m2]
      rfl
    rw [ey]
    split
    · rename_i he
      rw [one_mul]
      rw [he] at hbox'
      have hi := ((L.unique_owner _).1 hin).unique ⟨by rw [h.layout]; exact (hidx w hw).1, hbox'.2⟩
        ⟨by rw [h.layout]; exact (hidx r hr).1, hbox.2⟩
      have hwr : w = r := by
        have e1 := (getCoords_spec (shape := P.shape) (r := w) (by rw [← h.wf.size]; exact hw)).2
        have e2 := (getCoords_spec (shape := P.shape) (r := r) (by rw [← h.wf.size]; exact hr)).2
        rw [← e1, ← e2, hi]
      subst hwr
      have : l' = l := shiftBy_inj (by rw [Layout.length_startAt (hidx w hw).2, hl'.length_eq, Layout.length_shapeAt (hidx w hw).2])
        (by rw [Layout.length_startAt (hidx w hw).2, hl.length_eq, Layout.length_shapeAt (hidx w hw).2]) he
      rw [this]
    · rw [zero_mul]
  rw [Finset.sum_congr rfl fun w hw => boxSum_congr fun l' hl' => key w (Finset.mem_range.1 hw) l' hl',
    h.wf.size, ranks_sum P.shape fun idx => boxSum (L.shapeAt idx) fun l' =>
      if shiftBy (L.startAt idx) l' = shiftBy (L.startAt (getCoords P.shape r)) l then
        inputGrad P localS U g3 r l else 0, ← h.layout,
    L.sum_tiles fun q => if q = shiftBy (L.startAt (getCoords L.pshape r)) l then inputGrad P localS U g3 r l else 0,
    boxSum_pick (by rw [h.layout]; exact hin) fun _ => inputGrad P localS U g3 r l]

end

end Verif
