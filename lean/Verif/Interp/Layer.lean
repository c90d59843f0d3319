import Verif.Interp.Local
import Verif.Window.Limits

/-!
# `DistributedUpsample`: setup, halos, exchange and selection
-/

namespace Verif

open Exchange

section
variable {K : Type} [Field K] [LinearOrder K] [FloorRing K]

theorem map3_getD (f : Nat → Nat → Nat → Nat) {a b c : List Nat} (h1 : a.length = b.length)
    (h2 : b.length = c.length) {j : Nat} (hj : j < a.length) :
    (map3 f a b c).getD j 0 = f (a.getD j 0) (b.getD j 0) (c.getD j 0) := by
  induction a generalizing b c j with
  | nil => simp at hj
  | cons x xs ih =>
    cases b with
    | nil => simp at h1
    | cons y ys =>
      cases c with
      | nil => simp at h2
      | cons z zs =>
        cases j with
        | zero => rfl
        | succ j => simpa [map3] using ih (by simpa using h1) (by simpa using h2) (by simpa using hj)

/-- The input of the layer is a global tensor `X` of shape `gx` cut evenly over `P`. -/
structure UpInput (P : Cart) (gx : List Nat) (localS : Nat → List Nat × TorchDtype × Bool)
    (x : Nat → List Nat → K) (X : List Nat → K) (t : TorchDtype) (rg : Bool) : Prop where
  wf : P.WF
  len : gx.length = P.shape.length
  loc : ∀ v ∈ P.members, ∀ idx, P.index v = some idx →
    localS v = ((Layout.balanced P.shape gx).shapeAt idx, t, rg)
  data : ∀ v ∈ P.members, ∀ idx, P.index v = some idx →
    ∀ l, InBounds l ((Layout.balanced P.shape gx).shapeAt idx) →
      x v l = X (shiftBy ((Layout.balanced P.shape gx).startAt idx) l)

/-- The plan of the exchange. -/
def upPlan (P : Cart) (p : InterpParams K) (gx gy : List Nat) : HaloPlan where
  P := P
  L := Layout.balanced P.shape gx
  lw j c := (interpHalo1 true p j (P.shape.getD j 0) c (gx.getD j 0) (gy.getD j 0)).1.toNat
  rw j c := (interpHalo1 true p j (P.shape.getD j 0) c (gx.getD j 0) (gy.getD j 0)).2.toNat

variable {P : Cart} {p : InterpParams K} {gx gy : List Nat}

theorem interpHalo1_true (j n i gi go : Nat) :
    interpHalo1 true p j n i gi go = (max (interpHalo1 false p j n i gi go).1 0,
      max (interpHalo1 false p j n i gi go).2 0) := by
  simp [interpHalo1]

theorem interpHalo_getD (nn : Bool) {idx : List Nat} {j : Nat} (hj : j < P.shape.length) :
    (interpHalo nn p P.shape gx gy idx).getD j (0, 0) =
      interpHalo1 nn p j (P.shape.getD j 0) (idx.getD j 0) (gx.getD j 0) (gy.getD j 0) := by
  rw [interpHalo, getD_map_range _ _ hj]

theorem upRecv_plan {idx : List Nat} {j : Nat} (hj : j < P.shape.length) :
    (interpHalo true p P.shape gx gy idx).getD j (0, 0) =
      (((upPlan P p gx gy).lw j (idx.getD j 0) : Int), ((upPlan P p gx gy).rw j (idx.getD j 0) : Int)) := by
  rw [interpHalo_getD true hj, interpHalo1_true]
  simp only [upPlan, interpHalo1_true]
  congr 1 <;> omega

theorem upSend_plan {idx : List Nat} (hi : InBounds idx P.shape) {j : Nat} (hj : j < P.shape.length) :
    (interpSend p P.shape gx gy idx).getD j (0, 0) =
      ((((upPlan P p gx gy).width j (idx.getD j 0)).lsend : Int),
        (((upPlan P p gx gy).width j (idx.getD j 0)).rsend : Int)) := by
  have hlen : j < idx.length := by rw [hi.length_eq]; exact hj
  rw [interpSend, getD_map_range _ _ hj]
  simp only [HaloPlan.width]
  congr 1
  · split
    · rw [upRecv_plan hj, getD_set_eq hlen]
    · rfl
  · show (if _ then _ else _) = ((if _ then _ else _ : Nat) : Int)
    rw [show (upPlan P p gx gy).Pd j = P.shape.getD j 0 from rfl]
    split
    · rw [upRecv_plan hj, getD_set_eq hlen]
    · rfl

theorem upWidths_plan {r : Nat} (hr : r < P.shape.prod) :
    (interpInfo p P.shape gx gy (getCoords P.shape r)).widths = (upPlan P p gx gy).widths r := by
  have hi := (getCoords_spec hr).1
  have e1 : interpHalo true p P.shape gx gy (getCoords P.shape r) = (List.range P.shape.length).map fun j =>
      (((upPlan P p gx gy).lw j ((getCoords P.shape r).getD j 0) : Int),
        ((upPlan P p gx gy).rw j ((getCoords P.shape r).getD j 0) : Int)) := by
    conv_lhs => rw [interpHalo]
    apply List.map_congr_left
    intro j hj
    have := upRecv_plan (p := p) (gx := gx) (gy := gy) (idx := getCoords P.shape r) (List.mem_range.1 hj)
    rw [interpHalo_getD true (List.mem_range.1 hj)] at this
    exact this
  have e2 : interpSend p P.shape gx gy (getCoords P.shape r) = (List.range P.shape.length).map fun j =>
      ((((upPlan P p gx gy).width j ((getCoords P.shape r).getD j 0)).lsend : Int),
        (((upPlan P p gx gy).width j ((getCoords P.shape r).getD j 0)).rsend : Int)) := by
    conv_lhs => rw [interpSend]
    apply List.map_congr_left
    intro j hj
    have := upSend_plan (p := p) (gx := gx) (gy := gy) hi (List.mem_range.1 hj)
    rw [interpSend, getD_map_range _ _ (List.mem_range.1 hj)] at this
    exact this
  show List.zipWith _ (interpHalo true p P.shape gx gy (getCoords P.shape r))
    (interpSend p P.shape gx gy (getCoords P.shape r)) = _
  rw [e1, e2, List.zipWith_map, List.zipWith_self]
  unfold HaloPlan.widths
  apply List.map_congr_left
  intro j _
  rfl

/-- Nothing outward at the boundary. -/
theorem upPlan_boundary (hw : P.WF) {j : Nat} (hj : j < P.shape.length) :
    (upPlan P p gx gy).lw j 0 = 0 ∧ (upPlan P p gx gy).rw j (P.shape.getD j 0 - 1) = 0 := by
  have hpos : 0 < P.shape.getD j 0 := by
    rw [List.getD_eq_getElem _ _ hj]; exact hw.pos _ (List.getElem_mem hj)
  have hs : stopIdx (P.shape.getD j 0) (P.shape.getD j 0 - 1) (gx.getD j 0) = gx.getD j 0 := by
    rw [← startIdx_succ, show P.shape.getD j 0 - 1 + 1 = P.shape.getD j 0 by omega, startIdx_top hpos]
  constructor
  · simp only [upPlan, interpHalo1, if_true, startIdx_zero]
    omega
  · simp only [upPlan, interpHalo1, if_true, hs]
    omega

theorem upPlan_ok (hw : P.WF) (hl : gx.length = P.shape.length) (hf : (upPlan P p gx gy).Fits) :
    (upPlan P p gx gy).OK where
  wf := hw
  layout := Layout.balanced_pshape hl.symm
  left0 j hj := (upPlan_boundary hw hj).1
  right0 j hj := (upPlan_boundary hw hj).2
  rangel j hj c hc := by have := hf.left j hj c hc; omega
  ranger j hj c hc := by have := hf.right j hj c hc; omega

/-- Blocks of the plan. -/
theorem upPlan_blocks (hl : gx.length = P.shape.length) {j c : Nat} (hj : j < P.shape.length)
    (hc : c < P.shape.getD j 0) :
    (upPlan P p gx gy).x j c = subsize (P.shape.getD j 0) c (gx.getD j 0) ∧
    (upPlan P p gx gy).st j c = startIdx (P.shape.getD j 0) c (gx.getD j 0) := by
  unfold HaloPlan.x HaloPlan.st
  rw [show (upPlan P p gx gy).L = Layout.balanced P.shape gx from rfl, balanced_blocks hl.symm hj]
  unfold evenBlocks
  rw [getD_map_range _ _ hc, balanced_take_sum _ _ _ (by omega)]
  exact ⟨rfl, rfl⟩

/-! ## Setup -/

variable {localS : Nat → List Nat × TorchDtype × Bool} {x : Nat → List Nat → K} {X : List Nat → K}
  {t : TorchDtype} {rg : Bool} {size : Option (List Nat)}

/-- What setup stores on rank `r`. -/
def upFacts (P : Cart) (p : InterpParams K) (gx gy : List Nat) (r : Nat) : UpSetup :=
  let idx := getCoords P.shape r
  ⟨gx, gy, interpInfo p P.shape gx gy idx,
    (List.range P.shape.length).map fun j => neededStart p j (gx.getD j 0) (gy.getD j 0)
      (startIdx (P.shape.getD j 0) (idx.getD j 0) (gy.getD j 0) : Nat),
    (List.range P.shape.length).map fun j => neededStop p j (gx.getD j 0) (gy.getD j 0)
      ((stopIdx (P.shape.getD j 0) (idx.getD j 0) (gy.getD j 0) : Nat) - 1),
    map3 startIdx P.shape idx gy, map3 stopIdx P.shape idx gy⟩

theorem upSetup_spec (h : UpInput P gx localS x X t rg) (hgy : upsampleShape size p.scale gx = some gy)
    (hly : gy.length = P.shape.length)
    (hfac : ∀ j, j < P.shape.length → (mixinFac p j (gx.getD j 0) (gy.getD j 0)).isSome) {r : Nat}
    (hr : r < P.members.length) :
    upSetup P size p localS (P.members.getD r 0) = some (upFacts P p gx gy r) := by
  obtain ⟨m1, m2⟩ := member_spec h.wf hr
  obtain ⟨w0, h0, hm⟩ := h.wf.head
  obtain ⟨hG, -, -⟩ := C08_global_structure P h.wf (Layout.balanced P.shape gx)
    (Layout.balanced_pshape h.len.symm) localS t rg h.loc P.members w0 h0 hm
  have hi : InBounds (getCoords P.shape r) P.shape := (getCoords_spec (by rw [← h.wf.size]; exact hr)).1
  have hgl : (Layout.balanced P.shape gx).global = gx := Layout.balanced_global h.len.symm h.wf.pos
  have hmap : ((Layout.balanced P.shape gx).global.map fun n : Nat => (n : Int)).map Int.toNat = gx := by
    rw [hgl, List.map_map]
    exact List.map_id _
  unfold upSetup
  simp only [m2, hG _ m1]
  rw [hmap, hgy]
  simp only [Option.bind_some]
  rw [if_pos]
  · unfold upFacts
    simp only [h.len]
    congr 2
    · apply List.map_congr_left
      intro j hj
      rw [map3_getD _ hi.length_eq.symm (by rw [hi.length_eq, hly]) (List.mem_range.1 hj)]
    · apply List.map_congr_left
      intro j hj
      rw [map3_getD _ hi.length_eq.symm (by rw [hi.length_eq, hly]) (List.mem_range.1 hj)]
  · rw [List.all_eq_true]
    intro j hj
    rw [List.mem_range, h.len] at hj
    exact hfac j hj

omit [LinearOrder K] [FloorRing K] in
/-- Padding is skipped only when it does nothing. -/
theorem upPadInput_spec {U : UpSetup} {shape : List Nat} (hl : U.info.recv.length = shape.length)
    (x : List Nat → K) :
    (U.padInput shape x).1 = ((List.range shape.length).map fun j =>
        (U.info.recv.getD j (0, 0)).1.toNat + shape.getD j 0 + (U.info.recv.getD j (0, 0)).2.toNat) ∧
    ∀ l, InBounds l (U.padInput shape x).1 → (U.padInput shape x).2 l =
      extend 0 shape x ((List.range shape.length).map fun j =>
        (l.getD j 0 : Int) - (U.info.recv.getD j (0, 0)).1.toNat) := by
  have hpl : (U.info.recv.map fun h => (h.1.toNat, h.2.toNat)).length = shape.length := by simp [hl]
  have hpg : ∀ j, j < shape.length → (U.info.recv.map fun h => (h.1.toNat, h.2.toNat)).getD j (0, 0) =
      ((U.info.recv.getD j (0, 0)).1.toNat, (U.info.recv.getD j (0, 0)).2.toNat) := by
    intro j hj
    rw [List.getD_eq_getElem _ _ (by rw [hpl]; exact hj), List.getElem_map,
      List.getD_eq_getElem U.info.recv _ (by rw [hl]; exact hj)]
  unfold UpSetup.padInput
  dsimp only
  split
  · rename_i hz
    have h0 : ∀ j, j < shape.length →
        (U.info.recv.getD j (0, 0)).1.toNat = 0 ∧ (U.info.recv.getD j (0, 0)).2.toNat = 0 := by
      intro j hj
      have hj' : j < (U.info.recv.map fun h => (h.1.toNat, h.2.toNat)).length := by rw [hpl]; exact hj
      have := sum_eq_zero_iff_forall hz (((U.info.recv.map fun h => (h.1.toNat, h.2.toNat)).getD j (0, 0)).1 +
        ((U.info.recv.map fun h => (h.1.toNat, h.2.toNat)).getD j (0, 0)).2)
        (List.mem_map.2 ⟨(U.info.recv.map fun h => (h.1.toNat, h.2.toNat)).getD j (0, 0), by
          rw [List.getD_eq_getElem _ _ hj']; exact List.getElem_mem _, rfl⟩)
      rw [hpg j hj] at this
      simp only at this
      omega
    refine ⟨?_, fun l hb => ?_⟩
    · apply eq_of_getD
      · simp
      · intro j hj
        have hj' : j < shape.length := hj
        rw [getD_map_range _ _ hj', (h0 j hj').1, (h0 j hj').2, Nat.zero_add, Nat.add_zero]
    · simp only at hb ⊢
      have hb' := inBounds_iff.1 hb
      rw [extend_inside hb (by simp [hb'.1])]
      intro j hj
      rw [hb'.1] at hj
      rw [getD_map_range _ _ hj, (h0 j hj).1]
      omega
  · refine ⟨?_, fun l _ => ?_⟩
    · rw [torchPad_shape hpl]
      apply List.map_congr_left
      intro j hj
      rw [hpg j (List.mem_range.1 hj)]
    · rw [torchPad_val hpl]
      congr 1
      apply List.map_congr_left
      intro j hj
      rw [hpg j (List.mem_range.1 hj)]

theorem length_interpHalo (nn : Bool) (idx : List Nat) :
    (interpHalo nn p P.shape gx gy idx).length = P.shape.length := by simp [interpHalo]

/-- Shape and content of the padded input. -/
theorem upPadded (h : UpInput P gx localS x X t rg) {r : Nat} (hr : r < P.members.length) :
    ((upFacts P p gx gy r).padInput (localS (P.members.getD r 0)).1 (x (P.members.getD r 0))).1 =
      (upPlan P p gx gy).shape r ∧
    ∀ b, InBounds b ((upPlan P p gx gy).L.shapeAt (getCoords P.shape r)) →
      ((upFacts P p gx gy r).padInput (localS (P.members.getD r 0)).1 (x (P.members.getD r 0))).2
        (shiftBy ((List.range (upPlan P p gx gy).D).map fun j =>
          (upPlan P p gx gy).lw j ((upPlan P p gx gy).co r j)) b) =
        X (shiftBy ((upPlan P p gx gy).L.startAt (getCoords P.shape r)) b) := by
  obtain ⟨m1, m2⟩ := member_spec h.wf hr
  have hi : InBounds (getCoords P.shape r) P.shape := (getCoords_spec (by rw [← h.wf.size]; exact hr)).1
  have bl := balanced_lengths h.len.symm hi
  have hrl : (upFacts P p gx gy r).info.recv.length = (localS (P.members.getD r 0)).1.length := by
    rw [h.loc _ m1 _ m2, bl.1]
    exact length_interpHalo true _
  have hrg : ∀ j, j < P.shape.length → (upFacts P p gx gy r).info.recv.getD j (0, 0) =
      (((upPlan P p gx gy).lw j ((upPlan P p gx gy).co r j) : Int),
        ((upPlan P p gx gy).rw j ((upPlan P p gx gy).co r j) : Int)) := fun j hj => upRecv_plan hj
  obtain ⟨s1, s2⟩ := upPadInput_spec hrl (x (P.members.getD r 0))
  have hloc : (localS (P.members.getD r 0)).1 = (Layout.balanced P.shape gx).shapeAt (getCoords P.shape r) := by
    rw [h.loc _ m1 _ m2]
  have hshape : ((upFacts P p gx gy r).padInput (localS (P.members.getD r 0)).1 (x (P.members.getD r 0))).1 =
      (upPlan P p gx gy).shape r := by
    rw [s1, hloc, bl.1]
    apply List.map_congr_left
    intro j hj
    have hj' := List.mem_range.1 hj
    have hc : (upPlan P p gx gy).co r j < P.shape.getD j 0 := inBounds_getD hi hj'
    rw [hrg j hj', (balanced_getD h.len.symm hi hj').1, HaloPlan.size, (upPlan_blocks h.len hj' hc).1]
    simp only [Int.toNat_natCast]
    rfl
  refine ⟨hshape, fun b hb => ?_⟩
  have hb' := inBounds_iff.1 hb
  have bl' : ((upPlan P p gx gy).L.shapeAt (getCoords P.shape r)).length = P.shape.length := bl.1
  rw [bl'] at hb'
  have hbl : b.length = P.shape.length := hb'.1
  have hmem : InBounds (shiftBy ((List.range (upPlan P p gx gy).D).map fun j =>
          (upPlan P p gx gy).lw j ((upPlan P p gx gy).co r j)) b)
      ((upFacts P p gx gy r).padInput (localS (P.members.getD r 0)).1 (x (P.members.getD r 0))).1 := by
    rw [hshape, inBounds_iff, HaloPlan.length_shape]
    have hl1 : (shiftBy ((List.range (upPlan P p gx gy).D).map fun j =>
          (upPlan P p gx gy).lw j ((upPlan P p gx gy).co r j)) b).length = P.shape.length := by
      rw [length_shiftBy (by rw [hbl]; simp; rfl)]
      simp; rfl
    refine ⟨hl1, fun j hj => ?_⟩
    have hj' : j < P.shape.length := hj
    rw [getD_shiftBy (by simpa using hj) (by rw [hbl]; exact hj), getD_map_range _ _ hj,
      HaloPlan.shape_getD hj, HaloPlan.size]
    have hbb := hb'.2 j hj'
    have hc : (upPlan P p gx gy).co r j < P.shape.getD j 0 := inBounds_getD hi hj'
    change _ < ((Layout.balanced P.shape gx).shapeAt (getCoords P.shape r)).getD j 0 at hbb
    rw [(balanced_getD h.len.symm hi hj').1] at hbb
    rw [(upPlan_blocks h.len hj' hc).1]
    change b.getD j 0 < subsize (P.shape.getD j 0) ((upPlan P p gx gy).co r j) (gx.getD j 0) at hbb
    omega
  rw [s2 _ hmem]
  change InBounds b ((Layout.balanced P.shape gx).shapeAt (getCoords P.shape r)) at hb
  rw [hloc, bl.1, extend_inside (b := b) hb (by simp [hbl])]
  · exact h.data _ m1 _ m2 b hb
  · intro j hj
    rw [hbl] at hj
    have hj' : j < (upPlan P p gx gy).D := hj
    rw [getD_map_range _ _ hj, getD_shiftBy (by simpa using hj') (by rw [hbl]; exact hj),
      getD_map_range _ _ hj', hrg j hj]
    simp only [Int.toNat_natCast]
    omega

variable {β : Type} {dt : NpKey} {junk : Nat → β} {ops : Nat → List (MgrOp β)} {eager : Bool} {k : Nat}
  {U : Nat → UpSetup} {S : Nat → HaloSetup} {g : GState (List Nat → K) (List Nat → K)}

/-- The widths handed to the halo layers are those of the plan. -/
theorem UpRun.setUp (h : UpInput P gx localS x X t rg)
    (hU : ∀ r, r < P.members.length → U r = upFacts P p gx gy r)
    (R : UpRun P size p localS x dt junk ops eager k U S g) : (upPlan P p gx gy).SetUp dt junk ops S := by
  intro r hr
  have hh := R.halo r hr
  rw [hU r hr, (upPadded h hr).1] at hh
  have e := upWidths_plan (p := p) (gx := gx) (gy := gy) (r := r) (by rw [← h.wf.size]; exact hr)
  change haloSetup P ((interpInfo p P.shape gx gy (getCoords P.shape r)).widths) _ _ _ _ _ = _ at hh
  rw [e] at hh
  exact hh

/-- After the exchange every cell of the padded tensor holds its global value. -/
theorem UpRun.ghosts (h : UpInput P gx localS x X t rg)
    (hU : ∀ r, r < P.members.length → U r = upFacts P p gx gy r) (hf : (upPlan P p gx gy).Fits)
    (R : UpRun P size p localS x dt junk ops eager k U S g) {r : Nat} (hr : r < P.members.length)
    (hfin : (g.ws r).phase = haloPhases P) :
    ∀ l, InBounds l ((upPlan P p gx gy).shape r) →
      (g.ws r).st l = X (shiftBy ((upPlan P p gx gy).origin r) l) := by
  intro l hl
  refine (C35_ghosts (upPlan_ok h.wf h.len hf) hf (R.setUp h hU) X _ ?_ R.exec hr hfin l hl).2
  intro w hw b hb
  rw [hU w hw]
  exact (upPadded h hw).2 b hb

/-! ## Selection -/

/-- First needed cell of rank `r` in dimension `j`. -/
def upStart (P : Cart) (p : InterpParams K) (gx gy : List Nat) (r j : Nat) : Int :=
  neededStart p j (gx.getD j 0) (gy.getD j 0)
    (startIdx (P.shape.getD j 0) ((getCoords P.shape r).getD j 0) (gy.getD j 0) : Nat)

/-- End of the needed cells of rank `r` in dimension `j`. -/
def upStop (P : Cart) (p : InterpParams K) (gx gy : List Nat) (r j : Nat) : Int :=
  neededStop p j (gx.getD j 0) (gy.getD j 0)
    ((stopIdx (P.shape.getD j 0) ((getCoords P.shape r).getD j 0) (gy.getD j 0) : Nat) - 1)

/-- The slice of one dimension. -/
theorem select_dim (h : UpInput P gx localS x X t rg) {r : Nat}
    (hr : r < P.members.length) {j : Nat} (hj : j < P.shape.length)
    (hse : upStart P p gx gy r j ≤ upStop P p gx gy r j) :
    let q := (pySlices ((upPlan P p gx gy).shape r) (upFacts P p gx gy r).info.needed).getD j (0, 0)
    ((upPlan P p gx gy).origin r).getD j 0 + (q.1 : Int) = upStart P p gx gy r j ∧
    ((upPlan P p gx gy).origin r).getD j 0 + (q.2 : Int) = upStop P p gx gy r j ∧
    q.2 ≤ ((upPlan P p gx gy).shape r).getD j 0 := by
  have hi : InBounds (getCoords P.shape r) P.shape := (getCoords_spec (by rw [← h.wf.size]; exact hr)).1
  have hc : (getCoords P.shape r).getD j 0 < P.shape.getD j 0 := inBounds_getD hi hj
  have h0 : 0 ≤ upStart P p gx gy r j := le_max_left _ _
  have ho := HaloPlan.origin_getD (H := upPlan P p gx gy) (r := r) (j := j) hj
  have hco : (upPlan P p gx gy).co r j = (getCoords P.shape r).getD j 0 := rfl
  have hshl : ((upPlan P p gx gy).shape r).length = P.shape.length := HaloPlan.length_shape r
  have hshg := HaloPlan.shape_getD (H := upPlan P p gx gy) (r := r) (j := j) hj
  have hn : (upFacts P p gx gy r).info.needed = interpRanges (map3 subsize P.shape (getCoords P.shape r) gx)
      (interpHalo false p P.shape gx gy (getCoords P.shape r)) := rfl
  have hm3 : (map3 subsize P.shape (getCoords P.shape r) gx).length = P.shape.length :=
    map3_length _ _ _ _ hi.length_eq.symm (by rw [hi.length_eq, h.len])
  have hnl : (upFacts P p gx gy r).info.needed.length = P.shape.length := by
    rw [hn, interpRanges, List.length_zipWith, hm3, length_interpHalo, Nat.min_self]
  have hng : (upFacts P p gx gy r).info.needed.getD j (0, 0) =
      (let hh := interpHalo1 false p j (P.shape.getD j 0) ((getCoords P.shape r).getD j 0) (gx.getD j 0) (gy.getD j 0)
       (-1 * min 0 hh.1, (subsize (P.shape.getD j 0) ((getCoords P.shape r).getD j 0) (gx.getD j 0) : Int) +
        max 0 hh.1 + hh.2)) := by
    rw [hn, interpRanges, List.getD_eq_getElem _ _ (by
      rw [List.length_zipWith, hm3, length_interpHalo, Nat.min_self]; exact hj), List.getElem_zipWith]
    have e1 := map3_getD subsize hi.length_eq.symm (by rw [hi.length_eq, h.len]) hj (c := gx)
    rw [List.getD_eq_getElem _ _ (by rw [hm3]; exact hj)] at e1
    have e2 := interpHalo_getD (p := p) (gx := gx) (gy := gy) (idx := getCoords P.shape r) false hj
    rw [List.getD_eq_getElem _ _ (by rw [length_interpHalo]; exact hj)] at e2
    rw [e1, e2]
  intro q
  have hq : q = (pyBound (((upPlan P p gx gy).shape r).getD j 0) ((upFacts P p gx gy r).info.needed.getD j (0, 0)).1,
      pyBound (((upPlan P p gx gy).shape r).getD j 0) ((upFacts P p gx gy r).info.needed.getD j (0, 0)).2) := by
    show (List.zipWith _ _ _).getD j (0, 0) = _
    rw [List.getD_eq_getElem _ _ (by rw [List.length_zipWith, hshl, hnl, Nat.min_self]; exact hj),
      List.getElem_zipWith, List.getD_eq_getElem _ _ (by rw [hshl]; exact hj),
      List.getD_eq_getElem _ _ (by rw [hnl]; exact hj)]
  rw [hq, hng, hshg, ho]
  have hlw : ((upPlan P p gx gy).lw j ((upPlan P p gx gy).co r j) : Int) =
      max (interpHalo1 false p j (P.shape.getD j 0) ((getCoords P.shape r).getD j 0) (gx.getD j 0) (gy.getD j 0)).1 0 := by
    have := interpHalo1_true (p := p) j (P.shape.getD j 0) ((getCoords P.shape r).getD j 0) (gx.getD j 0) (gy.getD j 0)
    show ((interpHalo1 true p j _ _ _ _).1.toNat : Int) = _
    rw [hco, this]
    simp only
    omega
  have hrw : ((upPlan P p gx gy).rw j ((upPlan P p gx gy).co r j) : Int) =
      max (interpHalo1 false p j (P.shape.getD j 0) ((getCoords P.shape r).getD j 0) (gx.getD j 0) (gy.getD j 0)).2 0 := by
    have := interpHalo1_true (p := p) j (P.shape.getD j 0) ((getCoords P.shape r).getD j 0) (gx.getD j 0) (gy.getD j 0)
    show ((interpHalo1 true p j _ _ _ _).2.toNat : Int) = _
    rw [hco, this]
    simp only
    omega
  have hb := upPlan_blocks (p := p) (gx := gx) (gy := gy) h.len hj hc
  have hl1 : (interpHalo1 false p j (P.shape.getD j 0) ((getCoords P.shape r).getD j 0) (gx.getD j 0) (gy.getD j 0)).1 =
      (startIdx (P.shape.getD j 0) ((getCoords P.shape r).getD j 0) (gx.getD j 0) : Int) - upStart P p gx gy r j := by
    simp only [interpHalo1, Bool.false_eq_true, if_false, upStart, neededStart]
    omega
  have hr1 : (interpHalo1 false p j (P.shape.getD j 0) ((getCoords P.shape r).getD j 0) (gx.getD j 0) (gy.getD j 0)).2 =
      upStop P p gx gy r j -
      (startIdx (P.shape.getD j 0) ((getCoords P.shape r).getD j 0) (gx.getD j 0) : Int) -
      (subsize (P.shape.getD j 0) ((getCoords P.shape r).getD j 0) (gx.getD j 0) : Int) := by
    simp only [interpHalo1, Bool.false_eq_true, if_false, upStop, neededStop, stopIdx]
    omega
  unfold HaloPlan.size
  rw [hco] at hlw hrw ⊢
  rw [hl1] at hlw
  rw [hr1] at hrw
  dsimp only
  rw [hb.1, hb.2, hl1, hr1]
  generalize upStart P p gx gy r j = s at *
  generalize upStop P p gx gy r j = e at *
  generalize (upPlan P p gx gy).lw j ((getCoords P.shape r).getD j 0) = lw at *
  generalize (upPlan P p gx gy).rw j ((getCoords P.shape r).getD j 0) = rw' at *
  generalize startIdx (P.shape.getD j 0) ((getCoords P.shape r).getD j 0) (gx.getD j 0) = st at *
  generalize subsize (P.shape.getD j 0) ((getCoords P.shape r).getD j 0) (gx.getD j 0) = xx at *
  clear hq hng hshg ho hb hl1 hr1 hco
  unfold pyBound
  rw [if_neg (by omega), if_neg (by omega)]
  omega

end

end Verif
