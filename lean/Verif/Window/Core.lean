import Verif.Window.Lemmas

/-!
# Sliding-window layers: padded input, halo exchange and selection deliver what the windows read
-/

namespace Verif

open Exchange

/-! ## Padding -/

theorem flatPairs_length (l : List (Nat × Nat)) : (l.flatMap fun p => [p.1, p.2]).length = 2 * l.length := by
  induction l with
  | nil => rfl
  | cons a l ih => rw [List.flatMap_cons, List.length_append, ih, List.length_cons]; simp; omega

theorem flatPairs_getD (l : List (Nat × Nat)) {i : Nat} (hi : i < l.length) :
    (l.flatMap fun p => [p.1, p.2]).getD (2 * i) 0 = (l.getD i (0, 0)).1 ∧
    (l.flatMap fun p => [p.1, p.2]).getD (2 * i + 1) 0 = (l.getD i (0, 0)).2 := by
  induction l generalizing i with
  | nil => simp at hi
  | cons a l ih =>
    cases i with
    | zero => exact ⟨rfl, rfl⟩
    | succ i =>
      have := ih (i := i) (by simpa using hi)
      rw [List.flatMap_cons, show 2 * (i + 1) = 2 * i + 1 + 1 by omega]
      simpa using this

theorem toTorchPadding_getD {pad : List (Nat × Nat)} {j : Nat} (hj : j < pad.length) :
    (toTorchPadding pad).getD (2 * (pad.length - 1 - j)) 0 = (pad.getD j (0, 0)).1 ∧
    (toTorchPadding pad).getD (2 * (pad.length - 1 - j) + 1) 0 = (pad.getD j (0, 0)).2 := by
  have h := flatPairs_getD pad.reverse (i := pad.length - 1 - j) (by rw [List.length_reverse]; omega)
  have e : pad.reverse.getD (pad.length - 1 - j) (0, 0) = pad.getD j (0, 0) := by
    rw [List.getD_eq_getElem _ _ (by rw [List.length_reverse]; omega), List.getElem_reverse,
      List.getD_eq_getElem _ _ hj]
    congr 1
    omega
  rw [e] at h
  exact h

theorem inBoundsI_iff {a : List Int} {s : List Nat} :
    InBoundsI a s ↔ a.length = s.length ∧ ∀ j, j < s.length → 0 ≤ a.getD j 0 ∧ a.getD j 0 < s.getD j 0 := by
  induction s generalizing a with
  | nil => cases a <;> simp [InBoundsI]
  | cons n ns ih =>
    cases a with
    | nil => simp [InBoundsI]
    | cons x xs =>
      simp only [InBoundsI, ih, List.length_cons, Nat.add_right_cancel_iff]
      constructor
      · rintro ⟨h1, h2, h3⟩
        refine ⟨h2, fun j hj => ?_⟩
        cases j with
        | zero => simpa using h1
        | succ j => simpa using h3 j (by omega)
      · rintro ⟨h1, h2⟩
        exact ⟨by simpa using h2 0 (by omega), h1, fun j hj => by simpa using h2 (j + 1) (by omega)⟩

theorem eq_map_toNat {a : List Int} {b : List Nat} (hl : a.length = b.length)
    (h : ∀ j, j < b.length → a.getD j 0 = (b.getD j 0 : Nat)) : a.map Int.toNat = b := by
  apply eq_of_getD
  · simpa using hl
  · intro j hj
    rw [List.length_map, hl] at hj
    rw [List.getD_eq_getElem _ _ (by simpa [hl] using hj), List.getElem_map]
    have := h j hj
    rw [List.getD_eq_getElem _ _ (by rw [hl]; exact hj)] at this
    rw [this, Int.toNat_natCast]

/-- Reading inside. -/
theorem extend_inside {α : Type} {v : α} {shape : List Nat} {x : List Nat → α} {pos : List Int} {b : List Nat}
    (hb : InBounds b shape) (hl : pos.length = b.length)
    (h : ∀ j, j < b.length → pos.getD j 0 = (b.getD j 0 : Nat)) : extend v shape x pos = x b := by
  have hb' := inBounds_iff.1 hb
  unfold extend
  rw [if_pos, eq_map_toNat hl h]
  rw [inBoundsI_iff]
  refine ⟨by rw [hl, hb'.1], fun j hj => ?_⟩
  rw [h j (by rw [hb'.1]; exact hj)]
  have := hb'.2 j hj
  omega

theorem extend_outside {α : Type} {v : α} {shape : List Nat} {x : List Nat → α} {pos : List Int} {j : Nat}
    (hj : j < shape.length) (h : pos.getD j 0 < 0 ∨ (shape.getD j 0 : Int) ≤ pos.getD j 0) :
    extend v shape x pos = v := by
  unfold extend
  rw [if_neg]
  intro hc
  have := (inBoundsI_iff.1 hc).2 j hj
  omega

/-! ## The padded input -/

section
variable {α : Type} {P : Cart} {W : WinParams} {L : Layout} {localS : Nat → List Nat × TorchDtype × Bool}
  {x : Nat → List Nat → α} {X : List Nat → α} {t : TorchDtype} {rg : Bool}

theorem torchPad_shape {pad : List (Nat × Nat)} {shape : List Nat} (hl : pad.length = shape.length) (v : α)
    (x : List Nat → α) : (torchPad (toTorchPadding pad) v shape x).1 =
      (List.range shape.length).map fun j =>
        (pad.getD j (0, 0)).1 + shape.getD j 0 + (pad.getD j (0, 0)).2 := by
  unfold torchPad
  apply List.map_congr_left
  intro j hj
  have := toTorchPadding_getD (pad := pad) (j := j) (by rw [hl]; exact List.mem_range.1 hj)
  simp only [← hl, this.1, this.2]

theorem torchPad_val {pad : List (Nat × Nat)} {shape : List Nat} (hl : pad.length = shape.length) (v : α)
    (x : List Nat → α) (l : List Nat) : (torchPad (toTorchPadding pad) v shape x).2 l =
      extend v shape x ((List.range shape.length).map fun j => (l.getD j 0 : Int) - (pad.getD j (0, 0)).1) := by
  unfold torchPad
  simp only
  congr 1
  apply List.map_congr_left
  intro j hj
  have := toTorchPadding_getD (pad := pad) (j := j) (by rw [hl]; exact List.mem_range.1 hj)
  simp only [← hl, this.1]

theorem sum_eq_zero_iff_forall {l : List Nat} (h : l.sum = 0) : ∀ n ∈ l, n = 0 := by
  induction l with
  | nil => simp
  | cons a l ih =>
    rw [List.sum_cons] at h
    intro n hn
    rcases List.mem_cons.1 hn with rfl | hn
    · omega
    · exact ih (by omega) n hn

/-- Padding is skipped only when it does nothing. -/
theorem padInput_spec {U : WinSetup} {shape : List Nat} (hl : U.total.length = shape.length) (v : α)
    (x : List Nat → α) :
    (U.padInput v shape x).1 = ((List.range shape.length).map fun j =>
        (U.total.getD j (0, 0)).1 + shape.getD j 0 + (U.total.getD j (0, 0)).2) ∧
    ∀ l, InBounds l (U.padInput v shape x).1 → (U.padInput v shape x).2 l =
      extend v shape x ((List.range shape.length).map fun j =>
        (l.getD j 0 : Int) - (U.total.getD j (0, 0)).1) := by
  unfold WinSetup.padInput
  split
  · rename_i hz
    have h0 : ∀ j, j < shape.length → (U.total.getD j (0, 0)).1 = 0 ∧ (U.total.getD j (0, 0)).2 = 0 := by
      intro j hj
      have hj' : j < U.total.length := by rw [hl]; exact hj
      have := sum_eq_zero_iff_forall hz ((U.total.getD j (0, 0)).1 + (U.total.getD j (0, 0)).2)
        (List.mem_map.2 ⟨U.total.getD j (0, 0), by
          rw [List.getD_eq_getElem _ _ hj']; exact List.getElem_mem _, rfl⟩)
      omega
    refine ⟨?_, fun l hb => ?_⟩
    · apply eq_of_getD
      · simp
      · intro j hj
        have hj' : j < shape.length := hj
        rw [getD_map_range _ _ hj', (h0 j hj').1, (h0 j hj').2, Nat.zero_add, Nat.add_zero]
    · simp only at hb ⊢
      have hb' := inBounds_iff.1 hb
      rw [extend_inside hb (by simp [hb'.1])]
      intro j hj
      rw [hb'.1] at hj
      rw [getD_map_range _ _ hj, (h0 j hj).1]
      omega
  · exact ⟨torchPad_shape hl v x, fun l _ => torchPad_val hl v x l⟩

/-- The input continued by `v`, on the cells of the padded global tensor. -/
def paddedGlobal (v : α) (gp G : List Nat) (X : List Nat → α) : List Nat → α := fun l =>
  extend v G X ((List.range G.length).map fun j => (l.getD j 0 : Int) - gp.getD j 0)

theorem winDims_plan (h : WinInput P W L localS x X t rg) :
    PlanDims P (padLayout (globalPadding P.shape.length W.p) L) (winDims P W L) :=
  haloDims_plan h.wf (by rw [pshape_padLayout h.gplen, h.layout]) _ _ _ _

/-- The plan of the exchange. -/
def winPlan (P : Cart) (W : WinParams) (L : Layout) : HaloPlan :=
  HaloPlan.ofDims P (padLayout (globalPadding P.shape.length W.p) L) (winDims P W L)

variable {β : Type} {dt : NpKey} {junk : Nat → β} {ops : Nat → List (MgrOp β)} {eager : Bool} {k : Nat}
  {U : Nat → WinSetup} {S : Nat → HaloSetup} {g : GState (List Nat → α) (List Nat → α)} {v : α}

theorem total_getD (h : WinInput P W L localS x X t rg) {T : Table}
    (hT : T.Describes (padLayout (globalPadding P.shape.length W.p) L)) {r : Nat}
    (hr : r < P.members.length) {j : Nat} (hj : j < P.shape.length) :
    let idx := getCoords P.shape r
    let gp := globalPadding P.shape.length W.p
    let u : WinSetup := ⟨localPadding P.shape idx gp, exchangeInfo (winDims P W L) (some T) idx⟩
    u.total.length = P.shape.length ∧
    u.total.getD j (0, 0) =
      ((if idx.getD j 0 = 0 then gp.getD j 0 else 0) + (winPlan P W L).lw j (idx.getD j 0),
        (if idx.getD j 0 + 1 = P.shape.getD j 0 then gp.getD j 0 else 0) +
          (winPlan P W L).rw j (idx.getD j 0)) := by
  intro idx gp u
  have hi : InBounds idx P.shape := (getCoords_spec (by rw [← h.wf.size]; exact hr)).1
  have hp := winDims_plan h
  have l1 : (localPadding P.shape idx gp).length = P.shape.length := by simp [localPadding]
  have l2 : (exchangeInfo (winDims P W L) (some T) idx).recv.length = P.shape.length := by
    show (haloShape true (winDims P W L) (some T) idx).length = _
    simp [haloShape, hp.len]
  refine ⟨by show (List.zipWith _ _ _).length = _; rw [List.length_zipWith, l1, l2, Nat.min_self], ?_⟩
  show (List.zipWith _ _ _).getD j (0, 0) = _
  rw [List.getD_eq_getElem _ _ (by rw [List.length_zipWith, l1, l2, Nat.min_self]; exact hj),
    List.getElem_zipWith]
  have e1 := localPadding_getD (idx := idx) (gp := gp) hj
  rw [List.getD_eq_getElem _ _ (by rw [l1]; exact hj)] at e1
  have e2 := recv_plan hp hT hi hj
  change (exchangeInfo (winDims P W L) (some T) idx).recv.getD j (0, 0) = _ at e2
  rw [List.getD_eq_getElem _ _ (by rw [l2]; exact hj)] at e2
  rw [e1, e2]
  simp [winPlan]

/-- What the setups give. -/
theorem setup_facts (h : WinInput P W L localS x X t rg) (v : α)
    (R : ∀ r, r < P.members.length → winSetup P W localS (P.members.getD r 0) = some (U r)) :
    ∃ T : Table, T.Describes (padLayout (globalPadding P.shape.length W.p) L) ∧
      (∀ r, r < P.members.length → U r =
        ⟨localPadding P.shape (getCoords P.shape r) (globalPadding P.shape.length W.p),
          exchangeInfo (winDims P W L) (some T) (getCoords P.shape r)⟩) ∧
      (∀ r, r < P.members.length →
        ((U r).padInput v (localS (P.members.getD r 0)).1 (x (P.members.getD r 0))).1 =
          (winPlan P W L).shape r) ∧
      (∀ r, r < P.members.length → ∀ b,
        InBounds b ((winPlan P W L).L.shapeAt (getCoords P.shape r)) →
        ((U r).padInput v (localS (P.members.getD r 0)).1 (x (P.members.getD r 0))).2
          (shiftBy ((List.range (winPlan P W L).D).map fun j =>
            (winPlan P W L).lw j ((winPlan P W L).co r j)) b) =
          paddedGlobal v (globalPadding P.shape.length W.p) L.global X
            (shiftBy ((winPlan P W L).L.startAt (getCoords P.shape r)) b)) := by
  obtain ⟨T, hT, hU⟩ := winSetup_spec h
  have hp := winDims_plan h
  have hUr : ∀ r, r < P.members.length → U r =
        ⟨localPadding P.shape (getCoords P.shape r) (globalPadding P.shape.length W.p),
          exchangeInfo (winDims P W L) (some T) (getCoords P.shape r)⟩ := fun r hr =>
    Option.some.inj ((R r hr).symm.trans (hU r hr))
  have hlocal : ∀ r, r < P.members.length → (localS (P.members.getD r 0)).1 = L.shapeAt (getCoords P.shape r) := by
    intro r hr
    obtain ⟨m1, m2⟩ := member_spec h.wf hr
    rw [h.loc _ m1 _ m2]
  have hlen : ∀ r, r < P.members.length → (getCoords P.shape r).length = L.length := by
    intro r hr
    rw [length_getCoords, h.length]
  have hshape : ∀ r, r < P.members.length →
        ((U r).padInput v (localS (P.members.getD r 0)).1 (x (P.members.getD r 0))).1 =
          (winPlan P W L).shape r := by
    intro r hr
    have hi : InBounds (getCoords P.shape r) P.shape := (getCoords_spec (by rw [← h.wf.size]; exact hr)).1
    have hls : (L.shapeAt (getCoords P.shape r)).length = P.shape.length := by
      rw [Layout.length_shapeAt (hlen r hr), h.length]
    rcases Nat.eq_zero_or_pos P.shape.length with h0 | h0
    · have : P.shape = [] := List.length_eq_zero_iff.1 h0
      have hz : (L.shapeAt (getCoords P.shape r)) = [] := List.length_eq_zero_iff.1 (by rw [hls, h0])
      have ht : (U r).total = [] := by
        rw [hUr r hr]
        show List.zipWith _ _ _ = _
        simp [localPadding, this]
      rw [(padInput_spec (by rw [hlocal r hr, ht, hz]; rfl) v _).1, hlocal r hr, hz]
      simp [HaloPlan.shape, winPlan, HaloPlan.ofDims, this]
    · have hl := (total_getD h hT hr h0).1
      rw [← hUr r hr] at hl
      rw [(padInput_spec (by rw [hlocal r hr, hl, hls]) v _).1, hlocal r hr, hls]
      apply List.map_congr_left
      intro j hj
      have hj' := List.mem_range.1 hj
      have e := (total_getD h hT hr hj').2
      rw [← hUr r hr] at e
      have hjL : j < L.length := by rw [h.length]; exact hj'
      have hb : (L.getD j []).length = P.shape.getD j 0 := by rw [← pshape_getD hjL, h.layout]
      rw [e, (L.shapeAt_getD _ (hlen r hr) j hjL).1]
      show _ = (winPlan P W L).lw j _ + ((padLayout _ L).getD j []).getD _ 0 + (winPlan P W L).rw j _
      rw [padLayout_getD h.gplen hjL, HaloPlan.co]
      rw [padList_getD _ _ (by rw [hb]; exact inBounds_getD hi hj'), hb]
      show _ = (winPlan P W L).lw j ((getCoords P.shape r).getD j 0) + _ +
        (winPlan P W L).rw j ((getCoords P.shape r).getD j 0)
      rw [show (winPlan P W L).P.shape = P.shape from rfl]
      omega
  refine ⟨T, hT, hUr, hshape, ?_⟩
  · intro r hr b hb
    have hi : InBounds (getCoords P.shape r) P.shape := (getCoords_spec (by rw [← h.wf.size]; exact hr)).1
    obtain ⟨m1, m2⟩ := member_spec h.wf hr
    have hls : (L.shapeAt (getCoords P.shape r)).length = P.shape.length := by
      rw [Layout.length_shapeAt (hlen r hr), h.length]
    have hpl : (winPlan P W L).L.length = P.shape.length := by
      show (padLayout _ L).length = _
      rw [length_padLayout h.gplen, h.length]
    have hlen' : (getCoords P.shape r).length = (winPlan P W L).L.length := by
      rw [hpl, hi.length_eq]
    have hb' := inBounds_iff.1 hb
    rw [Layout.length_shapeAt hlen', hpl] at hb'
    have hstl : ((winPlan P W L).L.startAt (getCoords P.shape r)).length = P.shape.length := by
      rw [Layout.length_startAt hlen', hpl]
    have hsl : (L.startAt (getCoords P.shape r)).length = P.shape.length := by
      rw [Layout.length_startAt (hlen r hr), h.length]
    have htl : (U r).total.length = (localS (P.members.getD r 0)).1.length := by
      rw [hlocal r hr, hls]
      rcases Nat.eq_zero_or_pos P.shape.length with h0 | h0
      · rw [hUr r hr]
        show (List.zipWith _ _ _).length = _
        simp [localPadding, h0]
      · have hl := (total_getD h hT hr h0).1
        rw [← hUr r hr] at hl
        exact hl
    -- the facts of one dimension
    have key : ∀ j, j < P.shape.length →
        let c := (getCoords P.shape r).getD j 0
        let gp := (globalPadding P.shape.length W.p).getD j 0
        let bs := L.getD j []
        ((U r).total.getD j (0, 0)).1 = (if c = 0 then gp else 0) + (winPlan P W L).lw j ((winPlan P W L).co r j) ∧
        b.getD j 0 < bs.getD c 0 + (if c = 0 then gp else 0) + (if c + 1 = bs.length then gp else 0) ∧
        ((winPlan P W L).L.startAt (getCoords P.shape r)).getD j 0 = (bs.take c).sum + (if 0 < c then gp else 0) ∧
        (L.startAt (getCoords P.shape r)).getD j 0 = (bs.take c).sum ∧
        (L.shapeAt (getCoords P.shape r)).getD j 0 = bs.getD c 0 ∧
        L.global.getD j 0 = bs.sum ∧ (bs.take c).sum + bs.getD c 0 ≤ bs.sum ∧
        (c + 1 = bs.length → (bs.take c).sum + bs.getD c 0 = bs.sum) := by
      intro j hj c gp bs
      have hjL : j < L.length := by rw [h.length]; exact hj
      have hbl : bs.length = P.shape.getD j 0 := by rw [← pshape_getD hjL, h.layout]
      have hcl : c < bs.length := by rw [hbl]; exact inBounds_getD hi hj
      have e := (total_getD h hT hr hj).2
      rw [← hUr r hr] at e
      have e1 := (L.shapeAt_getD _ (hlen r hr) j hjL)
      have e2 := (winPlan P W L).L.shapeAt_getD _ hlen' j (by rw [hpl]; exact hj)
      have e3 : (winPlan P W L).L.getD j [] = padList gp bs := padLayout_getD h.gplen hjL
      have hbb := hb'.2 j hj
      rw [e2.1, e3, padList_getD _ _ hcl] at hbb
      have hs := take_sum_succ bs c
      have hle := take_sum_le bs (c + 1)
      refine ⟨by rw [e]; rfl, hbb, ?_, e1.2.1, e1.1, global_getD hjL, by omega, fun hc => ?_⟩
      · rw [e2.2.1, e3, padList_take _ _ hcl]
      · rw [← hs, hc, List.take_of_length_le (Nat.le_refl _)]
    have hbl : b.length = P.shape.length := hb'.1
    have hmem : InBounds (shiftBy ((List.range (winPlan P W L).D).map fun j =>
            (winPlan P W L).lw j ((winPlan P W L).co r j)) b)
        ((U r).padInput v (localS (P.members.getD r 0)).1 (x (P.members.getD r 0))).1 := by
      rw [hshape r hr, inBounds_iff, HaloPlan.length_shape]
      have hl1 : (shiftBy ((List.range (winPlan P W L).D).map fun j =>
            (winPlan P W L).lw j ((winPlan P W L).co r j)) b).length = P.shape.length := by
        rw [length_shiftBy (by rw [hbl]; simp; rfl)]
        simp; rfl
      refine ⟨hl1, fun j hj => ?_⟩
      have hj' : j < P.shape.length := hj
      rw [getD_shiftBy (by simpa using hj) (by rw [hbl]; exact hj), getD_map_range _ _ hj,
        HaloPlan.shape_getD hj, HaloPlan.size, HaloPlan.x]
      have e2 := ((winPlan P W L).L.shapeAt_getD _ hlen' j (by rw [hpl]; exact hj')).1
      have hbb := hb'.2 j hj'
      rw [e2] at hbb
      change b.getD j 0 < ((winPlan P W L).L.getD j []).getD ((winPlan P W L).co r j) 0 at hbb
      omega
    rw [(padInput_spec htl v _).2 _ hmem, hlocal r hr, hls]
    unfold paddedGlobal
    rw [Layout.length_global, h.length]
    have hpos1 : ∀ j, j < P.shape.length → ((List.range P.shape.length).map fun j =>
        ((shiftBy ((List.range (winPlan P W L).D).map fun j =>
            (winPlan P W L).lw j ((winPlan P W L).co r j)) b).getD j 0 : Int) -
          ((U r).total.getD j (0, 0)).1).getD j 0 =
        (b.getD j 0 : Int) - (if (getCoords P.shape r).getD j 0 = 0 then
          (globalPadding P.shape.length W.p).getD j 0 else 0 : Nat) := by
      intro j hj
      have hj' : j < (winPlan P W L).D := hj
      rw [getD_map_range _ _ hj, getD_shiftBy (by simpa using hj') (by rw [hbl]; exact hj),
        getD_map_range _ _ hj', (key j hj).1]
      push_cast
      omega
    have hpos2 : ∀ j, j < P.shape.length → ((List.range P.shape.length).map fun j =>
        ((shiftBy ((winPlan P W L).L.startAt (getCoords P.shape r)) b).getD j 0 : Int) -
          ((globalPadding P.shape.length W.p).getD j 0 : Nat)).getD j 0 =
        ((L.startAt (getCoords P.shape r)).getD j 0 : Int) + b.getD j 0 -
          (if (getCoords P.shape r).getD j 0 = 0 then
          (globalPadding P.shape.length W.p).getD j 0 else 0 : Nat) := by
      intro j hj
      have hk := key j hj
      rw [getD_map_range _ _ hj, getD_shiftBy (by rw [hstl]; exact hj) (by rw [hbl]; exact hj),
        hk.2.2.1, hk.2.2.2.1]
      by_cases hc : (getCoords P.shape r).getD j 0 = 0
      · rw [if_pos hc, if_neg (by omega)]
        omega
      · rw [if_neg hc, if_pos (by omega)]
        omega
    by_cases hin : ∀ j, j < P.shape.length →
        (if (getCoords P.shape r).getD j 0 = 0 then
          (globalPadding P.shape.length W.p).getD j 0 else 0) ≤ b.getD j 0 ∧
        b.getD j 0 - (if (getCoords P.shape r).getD j 0 = 0 then
          (globalPadding P.shape.length W.p).getD j 0 else 0) < (L.shapeAt (getCoords P.shape r)).getD j 0
    · -- a cell of the block
      let b' : List Nat := (List.range P.shape.length).map fun j =>
        b.getD j 0 - (if (getCoords P.shape r).getD j 0 = 0 then
          (globalPadding P.shape.length W.p).getD j 0 else 0)
      have hb'l : b'.length = P.shape.length := by simp [b']
      have hbb : InBounds b' (L.shapeAt (getCoords P.shape r)) := by
        rw [inBounds_iff, hls]
        refine ⟨hb'l, fun j hj => ?_⟩
        rw [getD_map_range _ _ hj]
        exact (hin j hj).2
      rw [extend_inside hbb (by simp [hb'l]), extend_inside (b := shiftBy (L.startAt (getCoords P.shape r)) b')]
      · exact h.data _ m1 _ m2 _ hbb
      · rw [inBounds_iff, Layout.length_global, h.length, length_shiftBy (by rw [hb'l, hsl]), hsl]
        refine ⟨rfl, fun j hj => ?_⟩
        have hk := key j hj
        rw [getD_shiftBy (by rw [hsl]; exact hj) (by rw [hb'l]; exact hj), getD_map_range _ _ hj,
          hk.2.2.2.1, hk.2.2.2.2.2.1]
        have := (hin j hj).2
        rw [hk.2.2.2.2.1] at this
        have := hk.2.2.2.2.2.2.1
        omega
      · rw [length_shiftBy (by rw [hb'l, hsl]), hsl]; simp
      · intro j hj
        rw [length_shiftBy (by rw [hb'l, hsl]), hsl] at hj
        rw [hpos2 j hj, getD_shiftBy (by rw [hsl]; exact hj) (by rw [hb'l]; exact hj), getD_map_range _ _ hj]
        have := (hin j hj).1
        omega
      · intro j hj
        rw [hb'l] at hj
        rw [hpos1 j hj, getD_map_range _ _ hj]
        have := (hin j hj).1
        omega
    · -- a cell of the explicit padding
      obtain ⟨j, hnj⟩ := Classical.not_forall.1 hin
      obtain ⟨hj, hnot⟩ := Classical.not_imp.1 hnj
      have hk := key j hj
      rw [extend_outside (j := j) (by rw [hls]; exact hj), extend_outside (j := j)]
      · rw [Layout.length_global, h.length]; exact hj
      · rw [hpos2 j hj, hk.2.2.2.1, hk.2.2.2.2.2.1]
        rw [hk.2.2.2.2.1] at hnot
        have h2 := hk.2.1
        have h3 := hk.2.2.2.2.2.2.2
        by_cases hc : (getCoords P.shape r).getD j 0 = 0
        · simp only [hc, if_true] at hnot h2 h3 ⊢
          have hst : (List.take 0 (L.getD j [])).sum = 0 := by simp
          by_cases hlt : b.getD j 0 < (globalPadding P.shape.length W.p).getD j 0
          · left; omega
          · right
            by_cases hl : 0 + 1 = (L.getD j []).length
            · have := h3 hl
              omega
            · rw [if_neg hl] at h2
              omega
        · simp only [hc, if_false] at hnot h2 h3 ⊢
          right
          by_cases hl : (getCoords P.shape r).getD j 0 + 1 = (L.getD j []).length
          · have := h3 hl
            omega
          · rw [if_neg hl] at h2
            omega
      · rw [hpos1 j hj]
        omega

/-- A run determines the widths, and its halo layers are set up as planned. -/
theorem WinRun.facts (h : WinInput P W L localS x X t rg)
    (R : WinRun P W v localS x dt junk ops eager k U S g) :
    ∃ T : Table, T.Describes (padLayout (globalPadding P.shape.length W.p) L) ∧
      (∀ r, r < P.members.length → U r =
        ⟨localPadding P.shape (getCoords P.shape r) (globalPadding P.shape.length W.p),
          exchangeInfo (winDims P W L) (some T) (getCoords P.shape r)⟩) ∧
      (∀ r, r < P.members.length →
        ((U r).padInput v (localS (P.members.getD r 0)).1 (x (P.members.getD r 0))).1 =
          (winPlan P W L).shape r) ∧
      (∀ r, r < P.members.length → ∀ b,
        InBounds b ((winPlan P W L).L.shapeAt (getCoords P.shape r)) →
        ((U r).padInput v (localS (P.members.getD r 0)).1 (x (P.members.getD r 0))).2
          (shiftBy ((List.range (winPlan P W L).D).map fun j =>
            (winPlan P W L).lw j ((winPlan P W L).co r j)) b) =
          paddedGlobal v (globalPadding P.shape.length W.p) L.global X
            (shiftBy ((winPlan P W L).L.startAt (getCoords P.shape r)) b)) ∧
      (winPlan P W L).SetUp dt junk ops S := by
  obtain ⟨T, hT, hUr, hshape, hval⟩ := setup_facts h v R.setup
  refine ⟨T, hT, hUr, hshape, hval, fun r hr => ?_⟩
  have hp := winDims_plan h
  have hh := R.halo r hr
  rw [hshape r hr] at hh
  rw [hUr r hr] at hh
  have e := widths_plan hp hT (r := r) (by rw [← h.wf.size]; exact hr)
  simp only at hh
  rw [e] at hh
  exact hh

end

end Verif
