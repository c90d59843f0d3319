import Verif.Repartition.Setup

/-!
# Repartition: matching, delivery, adjoint, composition, termination (C13–C17)

In all statements `S w` is what setup left on worker `w`, whatever requests and writes its shared
buffer manager has seen before (`ops w`); an execution starts with arbitrary local tensors and is an
arbitrary interleaving.  The worker number in the exchange machine is the rank in the union.
-/

namespace Verif

open Exchange

section
variable {Px Py Pz : Cart} {L : Layout} {localS : Nat → List Nat × TorchDtype × Bool}
  {t : TorchDtype} {rg : Bool} {α β : Type}

/-- Setup has been run on all members of the union. -/
def SetupDone (Px Py : Cart) (localS : Nat → List Nat × TorchDtype × Bool) (junk : Nat → β)
    (ops : Nat → List (MgrOp β)) (S : Nat → RepSetup) : Prop :=
  ∀ w ∈ groupUnion Px.members Py.members,
    repSetup Px Py localS ((Mgr.init : Mgr β).run junk (ops w)) junk w = .value (S w)

/-- C13: setup succeeds for every valid use, on every member of the union, after any history of
the buffer manager; other workers do nothing. -/
theorem C13_setup_succeeds (h : RepValid Px Py L localS t rg) (junk : Nat → β)
    (ops : Nat → List (MgrOp β)) :
    (∃ S, SetupDone Px Py localS junk ops S) ∧
    ∀ w, w ∉ Px.members → w ∉ Py.members →
      ∀ m : Mgr β, repSetup Px Py localS m junk w = .returnsNone := by
  constructor
  · refine ⟨fun w => if hw : w ∈ groupUnion Px.members Py.members then
      (repSetup_eq h junk (ops w) hw).choose else ⟨[], [], [], [], none⟩, ?_⟩
    intro w hw
    simp only [hw, dif_pos]
    exact (repSetup_eq h junk (ops w) hw).choose_spec.1
  · intro w h1 h2 m
    unfold repSetup
    rw [if_pos]
    rw [mem_groupUnion]
    tauto

theorem SetupDone.spec {junk : Nat → β} {ops : Nat → List (MgrOp β)} {S : Nat → RepSetup}
    (hS : SetupDone Px Py localS junk ops S) (h : RepValid Px Py L localS t rg) {w : Nat}
    (hw : w ∈ groupUnion Px.members Py.members) :
    (S w).xy = (if w ∈ Px.members then ovls (groupUnion Px.members Py.members) Px L Py
        (Layout.balanced Py.shape L.global) w else []) ∧
      (S w).yx = (if w ∈ Py.members then ovls (groupUnion Px.members Py.members) Py
        (Layout.balanced Py.shape L.global) Px L w else []) ∧
      (S w).xbufs.map Option.isSome = (S w).xy.map Overlap.needsBuffer ∧
      (S w).ybufs.map Option.isSome = (S w).yx.map Overlap.needsBuffer ∧
      (S w).outShape = (if w ∈ Py.members then
        some ((Layout.balanced Py.shape L.global).shapeAt (Py.coord w)) else none) := by
  obtain ⟨S', h1, h2⟩ := repSetup_eq h junk (ops w) hw
  rw [hS w hw] at h1
  cases h1
  exact h2

theorem SetupDone.fwd {junk : Nat → β} {ops : Nat → List (MgrOp β)} {S : Nat → RepSetup}
    (hS : SetupDone Px Py localS junk ops S) (h : RepValid Px Py L localS t rg) :
    XData (groupUnion Px.members Py.members) Px Py L (Layout.balanced Py.shape L.global)
      (fun w => (S w).xy) (fun w => (S w).yx) (fun w => (S w).xbufs) (fun w => (S w).ybufs) where
  hsnd := fun w hw => by
    rw [(hS.spec h (mem_groupUnion.2 (Or.inl hw))).1, if_pos hw]
  hrcv := fun w hw => by
    rw [(hS.spec h (mem_groupUnion.2 (Or.inr hw))).2.1, if_pos hw]
  hsb := fun w hw => (hS.spec h (mem_groupUnion.2 (Or.inl hw))).2.2.1
  hrb := fun w hw => (hS.spec h (mem_groupUnion.2 (Or.inr hw))).2.2.2.1

theorem SetupDone.bwd {junk : Nat → β} {ops : Nat → List (MgrOp β)} {S : Nat → RepSetup}
    (hS : SetupDone Px Py localS junk ops S) (h : RepValid Px Py L localS t rg) :
    XData (groupUnion Px.members Py.members) Py Px (Layout.balanced Py.shape L.global) L
      (fun w => (S w).yx) (fun w => (S w).xy) (fun w => (S w).ybufs) (fun w => (S w).xbufs) :=
  ⟨(hS.fwd h).hrcv, (hS.fwd h).hsnd, (hS.fwd h).hrb, (hS.fwd h).hsb⟩

/-- C13: an output partition that cuts a dimension of global extent 1 is rejected by every member
of the union, and so are partitions of different dimension. -/
theorem C13_rejected (hx : Px.WF) (hy : Py.WF) (hL : L.pshape = Px.shape)
    (hloc : ∀ v ∈ Px.members, ∀ idx, Px.index v = some idx → localS v = (L.shapeAt idx, t, rg))
    (hbad : Py.shape.length ≠ Px.shape.length ∨
      ∃ d, L.global.getD d 0 = 1 ∧ Py.shape.getD d 0 ≠ 1) (m : Mgr β) (junk : Nat → β) :
    ∀ w ∈ groupUnion Px.members Py.members, repSetup Px Py localS m junk w = .raises := by
  intro w hw
  obtain ⟨w0, h0, hm0⟩ := hx.head
  have hin : w0 ∈ groupUnion Px.members Py.members := mem_groupUnion.2 (Or.inl hm0)
  have ex := sharedShape_eq hx (fun v hv => mem_groupUnion.2 (Or.inl hv)) hw
  have ey := sharedShape_eq hy (fun v hv => mem_groupUnion.2 (Or.inr hv)) hw
  have hg := (C08_global_structure Px hx L hL localS t rg hloc _ w0 h0 hin).2.1 w (Or.inl hw)
  have hG : (L.global.map fun (n : Nat) => (n : Int)).map Int.toNat = L.global := by
    rw [List.map_map]
    conv_rhs => rw [← List.map_id L.global]
    apply List.map_congr_left
    intro n _
    simp
  have hxl : Px.shape.length = L.global.length := by rw [← hL, L.length_pshape, L.length_global]
  unfold repSetup
  simp only [hw, not_true_eq_false, if_false, ex, ey, hg, hG, ne_eq]
  by_cases hd : Px.shape.length = Py.shape.length
  · rcases hbad with hb | hb
    · exact absurd hd.symm hb
    · have h1 := (sizeOne_iff L.global Py.shape (by omega)).2 hb
      have h2 : Py.shape.length = L.global.length := by omega
      simp only [hd, h2, not_true_eq_false, if_false, h1, if_true]
  · simp only [hd, not_false_eq_true, if_true]

/-- C13: every worker of `P_x` and every worker of `P_y` agree about the message between them: it
exists exactly when their blocks have a common cell, both sides see the same message shape, and
each side addresses the other by its rank in the union.  Consequently in the forward and in the
adjoint operation a send is posted exactly when the matching receive is, at most one per pair. -/
theorem C13_matched {junk : Nat → β} {ops : Nat → List (MgrOp β)} {S : Nat → RepSetup}
    (h : RepValid Px Py L localS t rg) (hS : SetupDone Px Py localS junk ops S) (zero : α) :
    (∀ w ∈ Px.members, ∀ v ∈ Py.members, ∃ o o',
      (S w).xy[Py.members.idxOf v]? = some o ∧ (S v).yx[Px.members.idxOf w]? = some o' ∧
      o.sh = o'.sh ∧
      (o.sl.isSome ↔ ∃ c, InBox (L.startAt (Px.coord w)) (L.stopAt (Px.coord w)) c ∧
        InBox (computeStartIndex Py.shape (Py.coord v) L.global)
          (computeStopIndex Py.shape (Py.coord v) L.global) c) ∧
      (o'.sl.isSome ↔ o.sl.isSome) ∧
      (o.sl.isSome → (w = v → o.partner = .self ∧ o'.partner = .self) ∧
        (w ≠ v → o.partner = .rank ((groupUnion Px.members Py.members).idxOf v) ∧
          o'.partner = .rank ((groupUnion Px.members Py.members).idxOf w)))) ∧
    Matched (repForward zero Px Py S) (groupUnion Px.members Py.members).length 1 ∧
    Matched (repBackward zero Px Py S) (groupUnion Px.members Py.members).length 1 := by
  have ok := h.ok
  refine ⟨?_, xfer_matched ok (hS.fwd h), xfer_matched ok.symm (hS.bwd h)⟩
  intro w hw v hv
  have hl : Py.shape.length = L.global.length := by
    rw [h.dims, ← h.layout, L.length_pshape, L.length_global]
  have a1 := L.length_startAt (coord_len ok.shA w)
  have a2 := L.length_stopAt (coord_len ok.shA w)
  have b1 := Layout.length_startAt (coord_len ok.shB v)
  have b2 := Layout.length_stopAt (coord_len ok.shB v)
  have hl0 := ok.len
  have hbs := Layout.balanced_startAt hl (coords_inBounds h.wfy hv)
  have e1 : (S w).xy[Py.members.idxOf v]? = some (ovl (groupUnion Px.members Py.members)
      (L.startAt (Px.coord w)) (L.stopAt (Px.coord w)) (Layout.balanced Py.shape L.global) Py w v) := by
    rw [(hS.fwd h).hsnd w hw, ovls, List.getElem?_map,
      List.getElem?_eq_getElem (List.idxOf_lt_length_of_mem hv), List.getElem_idxOf]
    rfl
  have e2 : (S v).yx[Px.members.idxOf w]? = some (ovl (groupUnion Px.members Py.members)
      ((Layout.balanced Py.shape L.global).startAt (Py.coord v))
      ((Layout.balanced Py.shape L.global).stopAt (Py.coord v)) L Px v w) := by
    rw [(hS.fwd h).hrcv v hv, ovls, List.getElem?_map,
      List.getElem?_eq_getElem (List.idxOf_lt_length_of_mem hw), List.getElem_idxOf]
    rfl
  refine ⟨_, _, e1, e2, ?_⟩
  have hnone := C03_none_iff (L.startAt (Px.coord w)) (L.stopAt (Px.coord w))
    ((Layout.balanced Py.shape L.global).startAt (Py.coord v))
    ((Layout.balanced Py.shape L.global).stopAt (Py.coord v)) (by omega) (by omega) (by omega)
  have hsym := C03_symmetric (L.startAt (Px.coord w)) (L.stopAt (Px.coord w))
    ((Layout.balanced Py.shape L.global).startAt (Py.coord v))
    ((Layout.balanced Py.shape L.global).stopAt (Py.coord v)) (by omega) (by omega) (by omega)
  change _ ∧ (_ ↔ ∃ c, _ ∧ InBox (computeStartIndex Py.shape (getCoords _ _) L.global) _ c) ∧ _
  rw [← hbs.1, show computeStopIndex Py.shape (Py.coord v) L.global = _ from hbs.2.symm]
  change _ ∧ (_ ↔ ∃ c, _ ∧ InBox ((Layout.balanced Py.shape L.global).startAt (Py.coord v))
    ((Layout.balanced Py.shape L.global).stopAt (Py.coord v)) c) ∧ _
  unfold ovl
  cases hi : intersectionSlice (L.startAt (Px.coord w)) (L.stopAt (Px.coord w))
    ((Layout.balanced Py.shape L.global).startAt (Py.coord v))
    ((Layout.balanced Py.shape L.global).stopAt (Py.coord v)) with
  | none =>
    rw [hsym.1.1 hi]
    have := hnone.1 hi
    simp only [Option.isSome_none, Bool.false_eq_true, false_iff]
    exact ⟨trivial, this, trivial, fun hf => hf.elim⟩
  | some sl =>
    cases hj : intersectionSlice ((Layout.balanced Py.shape L.global).startAt (Py.coord v))
      ((Layout.balanced Py.shape L.global).stopAt (Py.coord v)) (L.startAt (Px.coord w))
      (L.stopAt (Px.coord w)) with
    | none => rw [hsym.1.2 hj] at hi; cases hi
    | some sl' =>
      have hex : ∃ g, InBox (L.startAt (Px.coord w)) (L.stopAt (Px.coord w)) g ∧
          InBox ((Layout.balanced Py.shape L.global).startAt (Py.coord v))
            ((Layout.balanced Py.shape L.global).stopAt (Py.coord v)) g := by
        by_contra hc
        rw [hnone.2 hc] at hi
        cases hi
      simp only [Option.isSome_some, true_iff]
      refine ⟨(hsym.2 sl sl' hi hj).1, hex, trivial, fun _ => ⟨?_, ?_⟩⟩
      · intro he; simp [he]
      · intro he; simp [he, Ne.symm he]

/-- C14: in every execution, a worker of `P_y` that has finished holds exactly its balanced block of
the global input tensor `X`, and its output has the shape of that block. -/
theorem C14_delivery {junk : Nat → β} {ops : Nat → List (MgrOp β)} {S : Nat → RepSetup}
    (h : RepValid Px Py L localS t rg) (hS : SetupDone Px Py localS junk ops S) (zero : α)
    (X : List Nat → α) (st0 : Nat → XSt α)
    (hst : ∀ u ∈ Px.members, ∀ l, InBounds l (L.shapeAt (Px.coord u)) →
      (st0 ((groupUnion Px.members Py.members).idxOf u)).inp l =
        X (shiftBy (L.startAt (Px.coord u)) l))
    {eager : Bool} {k : Nat} {g : GState (XSt α) (List Nat → α)}
    (hex : Exec (repForward zero Px Py S) (groupUnion Px.members Py.members).length 1 eager k
      (GState.init st0) g)
    {w : Nat} (hw : w ∈ Py.members)
    (hfin : (g.ws ((groupUnion Px.members Py.members).idxOf w)).phase = 1) :
    (S w).outShape = some (computeSubshape Py.shape (Py.coord w) L.global) ∧
    ∀ l, InBounds l (computeSubshape Py.shape (Py.coord w) L.global) →
      (g.ws ((groupUnion Px.members Py.members).idxOf w)).st.out l =
        X (shiftBy (computeStartIndex Py.shape (Py.coord w) L.global) l) := by
  have ok := h.ok
  have hl : Py.shape.length = L.global.length := by
    rw [h.dims, ← h.layout, L.length_pshape, L.length_global]
  have hwU : w ∈ groupUnion Px.members Py.members := mem_groupUnion.2 (Or.inr hw)
  have hsa : (Layout.balanced Py.shape L.global).shapeAt (Py.coord w) = _ :=
    Layout.balanced_shapeAt hl (coords_inBounds h.wfy hw)
  have hst' : (Layout.balanced Py.shape L.global).startAt (Py.coord w) = _ :=
    (Layout.balanced_startAt hl (coords_inBounds h.wfy hw)).1
  have hfwd := hS.fwd h
  constructor
  · rw [(hS.spec h hwU).2.2.2.2, if_pos hw, hsa]
  · intro l hlb
    have hf := async_final (xfer_matched ok hfwd) (xfer_commutes ok hfwd) hex
      (List.idxOf_lt_length_of_mem hwU) hfin
    rw [hf]
    have := xfer_lock (zero := zero) ok hfwd X st0 hst hw l (by rw [hsa]; exact hlb)
    rw [hst'] at this
    exact this

/-- C15: in every execution of the adjoint, a worker of `P_x` that has finished holds exactly its
block, in the original and possibly unbalanced layout, of the global gradient `Y`. -/
theorem C15_backward {junk : Nat → β} {ops : Nat → List (MgrOp β)} {S : Nat → RepSetup}
    (h : RepValid Px Py L localS t rg) (hS : SetupDone Px Py localS junk ops S) (zero : α)
    (Y : List Nat → α) (st0 : Nat → XSt α)
    (hst : ∀ w ∈ Py.members, ∀ l, InBounds l (computeSubshape Py.shape (Py.coord w) L.global) →
      (st0 ((groupUnion Px.members Py.members).idxOf w)).inp l =
        Y (shiftBy (computeStartIndex Py.shape (Py.coord w) L.global) l))
    {eager : Bool} {k : Nat} {g : GState (XSt α) (List Nat → α)}
    (hex : Exec (repBackward zero Px Py S) (groupUnion Px.members Py.members).length 1 eager k
      (GState.init st0) g)
    {u : Nat} (hu : u ∈ Px.members)
    (hfin : (g.ws ((groupUnion Px.members Py.members).idxOf u)).phase = 1) :
    ∀ l, InBounds l (L.shapeAt (Px.coord u)) →
      (g.ws ((groupUnion Px.members Py.members).idxOf u)).st.out l =
        Y (shiftBy (L.startAt (Px.coord u)) l) := by
  have ok := h.ok
  have hl : Py.shape.length = L.global.length := by
    rw [h.dims, ← h.layout, L.length_pshape, L.length_global]
  have huU : u ∈ groupUnion Px.members Py.members := mem_groupUnion.2 (Or.inl hu)
  have hbwd := hS.bwd h
  intro l hlb
  have hf := async_final (xfer_matched ok.symm hbwd) (xfer_commutes ok.symm hbwd) hex
    (List.idxOf_lt_length_of_mem huU) hfin
  rw [hf]
  refine xfer_lock (zero := zero) ok.symm hbwd Y st0 ?_ hu l hlb
  intro w hw l hl'
  have hsa : (Layout.balanced Py.shape L.global).shapeAt (Py.coord w) = _ :=
    Layout.balanced_shapeAt hl (coords_inBounds h.wfy hw)
  have hst' : (Layout.balanced Py.shape L.global).startAt (Py.coord w) = _ :=
    (Layout.balanced_startAt hl (coords_inBounds h.wfy hw)).1
  rw [hst']
  exact hst w hw l (by rw [hsa] at hl'; exact hl')

/-- Any family of local tensors is the decomposition of a global one. -/
theorem exists_global {P : Cart} {L : Layout} (hP : P.WF) (hL : L.pshape = P.shape) [Inhabited α]
    (x : Nat → List Nat → α) :
    ∃ X : List Nat → α, ∀ u ∈ P.members, ∀ l, InBounds l (L.shapeAt (P.coord u)) →
      x u l = X (shiftBy (L.startAt (P.coord u)) l) := by
  classical
  refine ⟨fun g => if hg : ∃ p : Nat × List Nat, p.1 ∈ P.members ∧
      InBounds p.2 (L.shapeAt (P.coord p.1)) ∧ shiftBy (L.startAt (P.coord p.1)) p.2 = g then
      x hg.choose.1 hg.choose.2 else default, ?_⟩
  intro u hu l hl
  have hg : ∃ p : Nat × List Nat, p.1 ∈ P.members ∧
      InBounds p.2 (L.shapeAt (P.coord p.1)) ∧ shiftBy (L.startAt (P.coord p.1)) p.2 =
        shiftBy (L.startAt (P.coord u)) l := ⟨(u, l), hu, hl, rfl⟩
  simp only [hg, dif_pos]
  obtain ⟨h1, h2, h3⟩ := hg.choose_spec
  have hlen := coord_len hL u
  have hb1 := (L.inBox_shift (coord_len hL hg.choose.1)).2 h2
  have hb2 := (L.inBox_shift hlen).2 hl
  have ib : ∀ v ∈ P.members, InBounds (P.coord v) L.pshape := by
    intro v hv; rw [hL]; exact coords_inBounds hP hv
  rw [h3] at hb1
  obtain ⟨i, _, hi⟩ := (L.unique_owner _).1 ((L.unique_owner _).2 _ (ib u hu) hb2.2)
  have e1 := hi _ ⟨ib _ h1, hb1.2⟩
  have e2 := hi _ ⟨ib u hu, hb2.2⟩
  have heq : hg.choose.1 = u := coords_inj hP h1 hu (e1.trans e2.symm)
  have hl2 : hg.choose.2 = l := by
    rw [heq] at h3
    apply shiftBy_inj _ _ h3
    · rw [L.length_startAt hlen]; exact hb1.1
    · rw [L.length_startAt hlen]; exact hb2.1
  rw [heq, hl2]

/-- The sum of a quantity over all blocks of a layout is its sum over the global tensor. -/
theorem members_sum {M : Type} [AddCommMonoid M] {P : Cart} {L : Layout} (hP : P.WF)
    (hL : L.pshape = P.shape) (f : List Nat → M) :
    (P.members.map fun u => boxSum (L.shapeAt (P.coord u)) fun l =>
      f (shiftBy (L.startAt (P.coord u)) l)).sum = boxSum L.global f := by
  rw [← L.sum_tiles f, hL, boxSum_eq_list, ← map_coords_members hP.nodup hP.size, List.map_map]
  rfl

/-- C15: `⟨F x, y⟩ = ⟨x, F* y⟩` for all local tensors `x` over `P_x`, `y` over `P_y` and all
completed executions of forward and adjoint. -/
theorem C15_adjoint [CommSemiring α] {junk : Nat → β} {ops : Nat → List (MgrOp β)}
    {S : Nat → RepSetup}
    (h : RepValid Px Py L localS t rg) (hS : SetupDone Px Py localS junk ops S)
    (x y : Nat → List Nat → α) (st0 st0' : Nat → XSt α)
    (hx : ∀ u ∈ Px.members, (st0 ((groupUnion Px.members Py.members).idxOf u)).inp = x u)
    (hy : ∀ w ∈ Py.members, (st0' ((groupUnion Px.members Py.members).idxOf w)).inp = y w)
    {e e' : Bool} {k k' : Nat} {g g' : GState (XSt α) (List Nat → α)}
    (hex : Exec (repForward 0 Px Py S) (groupUnion Px.members Py.members).length 1 e k
      (GState.init st0) g)
    (hex' : Exec (repBackward 0 Px Py S) (groupUnion Px.members Py.members).length 1 e' k'
      (GState.init st0') g')
    (hfin : ∀ r, r < (groupUnion Px.members Py.members).length →
      (g.ws r).phase = 1 ∧ (g'.ws r).phase = 1) :
    (Py.members.map fun w => boxSum (computeSubshape Py.shape (Py.coord w) L.global) fun l =>
        (g.ws ((groupUnion Px.members Py.members).idxOf w)).st.out l * y w l).sum =
      (Px.members.map fun u => boxSum (L.shapeAt (Px.coord u)) fun l =>
        x u l * (g'.ws ((groupUnion Px.members Py.members).idxOf u)).st.out l).sum := by
  have ok := h.ok
  have hl : Py.shape.length = L.global.length := by
    rw [h.dims, ← h.layout, L.length_pshape, L.length_global]
  have hsa : ∀ w ∈ Py.members, (Layout.balanced Py.shape L.global).shapeAt (Py.coord w) =
      computeSubshape Py.shape (Py.coord w) L.global := fun w hw =>
    Layout.balanced_shapeAt hl (coords_inBounds h.wfy hw)
  have hst' : ∀ w ∈ Py.members, (Layout.balanced Py.shape L.global).startAt (Py.coord w) =
      computeStartIndex Py.shape (Py.coord w) L.global := fun w hw =>
    (Layout.balanced_startAt hl (coords_inBounds h.wfy hw)).1
  have hin : Inhabited α := ⟨0⟩
  obtain ⟨X, hX⟩ := exists_global (L := L) h.wfx h.layout x
  obtain ⟨Y, hY⟩ := exists_global (L := Layout.balanced Py.shape L.global) h.wfy ok.shB y
  have hidx : ∀ {w}, w ∈ groupUnion Px.members Py.members →
      (groupUnion Px.members Py.members).idxOf w < (groupUnion Px.members Py.members).length :=
    fun hw => List.idxOf_lt_length_of_mem hw
  have hF : ∀ w ∈ Py.members, ∀ l, InBounds l (computeSubshape Py.shape (Py.coord w) L.global) →
      (g.ws ((groupUnion Px.members Py.members).idxOf w)).st.out l =
        X (shiftBy (computeStartIndex Py.shape (Py.coord w) L.global) l) := fun w hw =>
    (C14_delivery h hS 0 X st0 (fun u hu l hl => by rw [hx u hu]; exact hX u hu l hl) hex hw
      (hfin _ (hidx (ok.subB w hw))).1).2
  have hB : ∀ u ∈ Px.members, ∀ l, InBounds l (L.shapeAt (Px.coord u)) →
      (g'.ws ((groupUnion Px.members Py.members).idxOf u)).st.out l =
        Y (shiftBy (L.startAt (Px.coord u)) l) := fun u hu =>
    C15_backward h hS 0 Y st0' (fun w hw l hl => by
      rw [hy w hw, ← hst' w hw]; exact hY w hw l (by rw [hsa w hw]; exact hl)) hex' hu
      (hfin _ (hidx (ok.subA u hu))).2
  have s1 := members_sum (L := L) h.wfx h.layout (fun c => X c * Y c)
  have s2 := members_sum (L := Layout.balanced Py.shape L.global) h.wfy ok.shB (fun c => X c * Y c)
  rw [← ok.glob] at s2
  refine Eq.trans ?_ (s2.trans (s1.symm.trans ?_))
  · congr 1
    apply List.map_congr_left
    intro w hw
    rw [hsa w hw, hst' w hw]
    apply boxSum_congr
    intro l hlb
    rw [hF w hw l hlb, hY w hw l (by rw [hsa w hw]; exact hlb), hst' w hw]
  · congr 1
    apply List.map_congr_left
    intro u hu
    apply boxSum_congr
    intro l hlb
    rw [hB u hu l hlb, hX u hu l hlb]

/-- C15: applying the adjoint to the output of the forward operation returns every input worker its
own input. -/
theorem C15_adjoint_inverts {junk : Nat → β} {ops : Nat → List (MgrOp β)} {S : Nat → RepSetup}
    (h : RepValid Px Py L localS t rg) (hS : SetupDone Px Py localS junk ops S) (zero : α)
    (st0 st0' : Nat → XSt α)
    {e e' : Bool} {k k' : Nat} {g g' : GState (XSt α) (List Nat → α)}
    (hex : Exec (repForward zero Px Py S) (groupUnion Px.members Py.members).length 1 e k
      (GState.init st0) g)
    (hfin : ∀ r, r < (groupUnion Px.members Py.members).length → (g.ws r).phase = 1)
    (hst' : ∀ w ∈ Py.members, (st0' ((groupUnion Px.members Py.members).idxOf w)).inp =
      (g.ws ((groupUnion Px.members Py.members).idxOf w)).st.out)
    (hex' : Exec (repBackward zero Px Py S) (groupUnion Px.members Py.members).length 1 e' k'
      (GState.init st0') g')
    {u : Nat} (hu : u ∈ Px.members)
    (hfin' : (g'.ws ((groupUnion Px.members Py.members).idxOf u)).phase = 1) :
    ∀ l, InBounds l (L.shapeAt (Px.coord u)) →
      (g'.ws ((groupUnion Px.members Py.members).idxOf u)).st.out l =
        (st0 ((groupUnion Px.members Py.members).idxOf u)).inp l := by
  have hin : Inhabited α := ⟨zero⟩
  obtain ⟨X, hX⟩ := exists_global (L := L) h.wfx h.layout
    (fun u => (st0 ((groupUnion Px.members Py.members).idxOf u)).inp)
  intro l hlb
  rw [C15_backward h hS zero X st0' (fun w hw l hl => ?_) hex' hu hfin' l hlb, hX u hu l hlb]
  rw [hst' w hw]
  exact (C14_delivery h hS zero X st0 hX hex hw
    (hfin _ (List.idxOf_lt_length_of_mem (h.ok.subB w hw)))).2 l hl

/-- C16: repartitioning `P_x → P_y` and then `P_y → P_z` gives every worker of `P_z` the same tensor
as repartitioning `P_x → P_z` directly. -/
theorem C16_compose {junk : Nat → β} {ops1 ops2 ops3 : Nat → List (MgrOp β)}
    {S1 S2 S3 : Nat → RepSetup} {localS2 : Nat → List Nat × TorchDtype × Bool}
    (h1 : RepValid Px Py L localS t rg)
    (h2 : RepValid Py Pz (Layout.balanced Py.shape L.global) localS2 t rg)
    (h3 : RepValid Px Pz L localS t rg)
    (hS1 : SetupDone Px Py localS junk ops1 S1) (hS2 : SetupDone Py Pz localS2 junk ops2 S2)
    (hS3 : SetupDone Px Pz localS junk ops3 S3) (zero : α)
    (x : Nat → List Nat → α) (a b c : Nat → XSt α)
    {e1 e2 e3 : Bool} {k1 k2 k3 : Nat} {g1 g2 g3 : GState (XSt α) (List Nat → α)}
    (ha : ∀ u ∈ Px.members, (a ((groupUnion Px.members Py.members).idxOf u)).inp = x u)
    (hc : ∀ u ∈ Px.members, (c ((groupUnion Px.members Pz.members).idxOf u)).inp = x u)
    (hx1 : Exec (repForward zero Px Py S1) (groupUnion Px.members Py.members).length 1 e1 k1
      (GState.init a) g1)
    (hf1 : ∀ r, r < (groupUnion Px.members Py.members).length → (g1.ws r).phase = 1)
    (hb : ∀ w ∈ Py.members, (b ((groupUnion Py.members Pz.members).idxOf w)).inp =
      (g1.ws ((groupUnion Px.members Py.members).idxOf w)).st.out)
    (hx2 : Exec (repForward zero Py Pz S2) (groupUnion Py.members Pz.members).length 1 e2 k2
      (GState.init b) g2)
    (hx3 : Exec (repForward zero Px Pz S3) (groupUnion Px.members Pz.members).length 1 e3 k3
      (GState.init c) g3)
    {w : Nat} (hw : w ∈ Pz.members)
    (hf2 : (g2.ws ((groupUnion Py.members Pz.members).idxOf w)).phase = 1)
    (hf3 : (g3.ws ((groupUnion Px.members Pz.members).idxOf w)).phase = 1) :
    (S2 w).outShape = (S3 w).outShape ∧
    ∀ l, InBounds l (computeSubshape Pz.shape (Pz.coord w) L.global) →
      (g2.ws ((groupUnion Py.members Pz.members).idxOf w)).st.out l =
        (g3.ws ((groupUnion Px.members Pz.members).idxOf w)).st.out l := by
  have hin : Inhabited α := ⟨zero⟩
  have hl : Py.shape.length = L.global.length := by
    rw [h1.dims, ← h1.layout, L.length_pshape, L.length_global]
  have hglob : (Layout.balanced Py.shape L.global).global = L.global :=
    Layout.balanced_global hl h1.wfy.pos
  obtain ⟨X, hX⟩ := exists_global (L := L) h1.wfx h1.layout x
  have d3 := C14_delivery h3 hS3 zero X c (fun u hu l hl => by rw [hc u hu]; exact hX u hu l hl)
    hx3 hw hf3
  have d2 := C14_delivery h2 hS2 zero X b (fun v hv l hlb => by
    rw [hb v hv]
    have hsa : (Layout.balanced Py.shape L.global).shapeAt (Py.coord v) =
        computeSubshape Py.shape (Py.coord v) L.global :=
      Layout.balanced_shapeAt hl (coords_inBounds h1.wfy hv)
    have hst' : (Layout.balanced Py.shape L.global).startAt (Py.coord v) =
        computeStartIndex Py.shape (Py.coord v) L.global :=
      (Layout.balanced_startAt hl (coords_inBounds h1.wfy hv)).1
    rw [hst']
    exact (C14_delivery h1 hS1 zero X a (fun u hu l hl => by rw [ha u hu]; exact hX u hu l hl) hx1 hv
      (hf1 _ (List.idxOf_lt_length_of_mem (h1.ok.subB v hv)))).2 l (by rw [← hsa]; exact hlb))
    hx2 hw hf2
  rw [hglob] at d2
  exact ⟨by rw [d2.1, d3.1], fun l hlb => by rw [d2.2 l hlb, d3.2 l hlb]⟩

/-- C16: with balanced input, repartitioning to `P_y` and back to `P_x` is the identity. -/
theorem C16_round_trip {ns : List Nat} {junk : Nat → β} {ops1 ops2 : Nat → List (MgrOp β)}
    {S1 S2 : Nat → RepSetup} {localS2 : Nat → List Nat × TorchDtype × Bool}
    (h1 : RepValid Px Py (Layout.balanced Px.shape ns) localS t rg)
    (hns : Px.shape.length = ns.length)
    (h2 : RepValid Py Px (Layout.balanced Py.shape ns) localS2 t rg)
    (hS1 : SetupDone Px Py localS junk ops1 S1) (hS2 : SetupDone Py Px localS2 junk ops2 S2)
    (zero : α) (x : Nat → List Nat → α) (a b : Nat → XSt α)
    {e1 e2 : Bool} {k1 k2 : Nat} {g1 g2 : GState (XSt α) (List Nat → α)}
    (ha : ∀ u ∈ Px.members, (a ((groupUnion Px.members Py.members).idxOf u)).inp = x u)
    (hx1 : Exec (repForward zero Px Py S1) (groupUnion Px.members Py.members).length 1 e1 k1
      (GState.init a) g1)
    (hf1 : ∀ r, r < (groupUnion Px.members Py.members).length → (g1.ws r).phase = 1)
    (hb : ∀ w ∈ Py.members, (b ((groupUnion Py.members Px.members).idxOf w)).inp =
      (g1.ws ((groupUnion Px.members Py.members).idxOf w)).st.out)
    (hx2 : Exec (repForward zero Py Px S2) (groupUnion Py.members Px.members).length 1 e2 k2
      (GState.init b) g2)
    {u : Nat} (hu : u ∈ Px.members)
    (hf2 : (g2.ws ((groupUnion Py.members Px.members).idxOf u)).phase = 1) :
    ∀ l, InBounds l (computeSubshape Px.shape (Px.coord u) ns) →
      (g2.ws ((groupUnion Py.members Px.members).idxOf u)).st.out l = x u l := by
  have hin : Inhabited α := ⟨zero⟩
  have hgx : (Layout.balanced Px.shape ns).global = ns := Layout.balanced_global hns h1.wfx.pos
  have hl : Py.shape.length = ns.length := by rw [h1.dims, hns]
  have hgy : (Layout.balanced Py.shape ns).global = ns := Layout.balanced_global hl h1.wfy.pos
  obtain ⟨X, hX⟩ := exists_global (L := Layout.balanced Px.shape ns) h1.wfx h1.layout x
  have d2 := C14_delivery h2 hS2 zero X b (fun v hv l hlb => by
    rw [hb v hv]
    have hsa : (Layout.balanced Py.shape ns).shapeAt (Py.coord v) =
        computeSubshape Py.shape (Py.coord v) ns :=
      Layout.balanced_shapeAt hl (coords_inBounds h1.wfy hv)
    have hst' : (Layout.balanced Py.shape ns).startAt (Py.coord v) =
        computeStartIndex Py.shape (Py.coord v) ns :=
      (Layout.balanced_startAt hl (coords_inBounds h1.wfy hv)).1
    have d1 := (C14_delivery h1 hS1 zero X a
      (fun u hu l hl => by rw [ha u hu]; exact hX u hu l hl) hx1 hv
      (hf1 _ (List.idxOf_lt_length_of_mem (h1.ok.subB v hv)))).2 l
    rw [hgx] at d1
    rw [hst']
    exact d1 (by rw [← hsa]; exact hlb)) hx2 hu hf2
  rw [hgy] at d2
  intro l hlb
  rw [d2.2 l hlb, hX u hu l]
  · rw [show (Layout.balanced Px.shape ns).startAt (Px.coord u) = _ from
      (Layout.balanced_startAt hns (coords_inBounds h1.wfx hu)).1]
    rfl
  · rw [show (Layout.balanced Px.shape ns).shapeAt (Px.coord u) = _ from
      Layout.balanced_shapeAt hns (coords_inBounds h1.wfx hu)]
    exact hlb

/-- C17: forward and adjoint never deadlock (also when sends only complete after the matching
receive is posted), every execution is bounded, and when a worker leaves the operation every one of
its requests is complete; every execution can be continued to the end. -/
theorem C17_terminates {junk : Nat → β} {ops : Nat → List (MgrOp β)} {S : Nat → RepSetup}
    (h : RepValid Px Py L localS t rg) (hS : SetupDone Px Py localS junk ops S) (zero : α)
    (prog : Nat → Nat → Phase (XSt α) (List Nat → α))
    (hprog : prog = repForward zero Px Py S ∨ prog = repBackward zero Px Py S)
    (st0 : Nat → XSt α) {eager : Bool} {k : Nat} {g : GState (XSt α) (List Nat → α)}
    (hex : Exec prog (groupUnion Px.members Py.members).length 1 eager k (GState.init st0) g) :
    ((∃ r, r < (groupUnion Px.members Py.members).length ∧ (g.ws r).phase < 1) →
      ∃ g', Step prog (groupUnion Px.members Py.members).length 1 eager g g') ∧
    k ≤ ((List.range (groupUnion Px.members Py.members).length).map fun r =>
      2 * (prog 0 r).total + 2).sum ∧
    (∀ g', Step prog (groupUnion Px.members Py.members).length 1 eager g g' →
      ∀ r, r < (groupUnion Px.members Py.members).length → (g'.ws r).phase ≠ (g.ws r).phase →
        ∀ i, (prog 0 r).Active i → i ∈ (g.ws r).done) ∧
    (∃ k' g', Exec prog (groupUnion Px.members Py.members).length 1 eager k' (GState.init st0) g' ∧
      k ≤ k' ∧ ∀ r, r < (groupUnion Px.members Py.members).length → (g'.ws r).phase = 1) := by
  have ok := h.ok
  have hM : Matched prog (groupUnion Px.members Py.members).length 1 := by
    rcases hprog with rfl | rfl
    · exact xfer_matched ok (hS.fwd h)
    · exact xfer_matched ok.symm (hS.bwd h)
  have hC : Commutes prog (groupUnion Px.members Py.members).length 1 := by
    rcases hprog with rfl | rfl
    · exact xfer_commutes ok (hS.fwd h)
    · exact xfer_commutes ok.symm (hS.bwd h)
  have hphase : ∀ p r, prog p r = prog 0 r := by
    intro p r; rcases hprog with rfl | rfl <;> rfl
  refine ⟨fun hw => no_deadlock hM hC hex hw, ?_, ?_, completes hM hC hex⟩
  · have := bounded hM hC hex
    simpa [List.range_succ, hphase] using this
  · intro g' hs r hr hne i hi
    exact requests_complete hM hC hex hs hr hne i (by rw [hphase]; exact hi)

end

/-! ## A concrete case: an unbalanced 5-vector on workers 0, 1 moved to workers 2, 1, 3 -/

/-- Input partition of the example. -/
def exPx : Cart := ⟨[0, 1], [2], some 0⟩
/-- Output partition of the example. -/
def exPy : Cart := ⟨[2, 1, 3], [3], some 0⟩
/-- Unbalanced input layout of the example. -/
def exL : Layout := [[4, 1]]
/-- Local structures of the example. -/
def exS : Nat → List Nat × TorchDtype × Bool := fun v => (if v = 0 then [4] else [1], .float32, true)

theorem exRepValid : RepValid exPx exPy exL exS .float32 true where
  wfx := ⟨by decide, by decide, by decide⟩
  wfy := ⟨by decide, by decide, by decide⟩
  layout := rfl
  dims := rfl
  pos := by decide
  ones := by
    intro d hd
    cases d with
    | zero => simp [exL, Layout.global] at hd
    | succ d => simp [exL, Layout.global] at hd
  loc := by
    intro v hv idx hidx
    have : v = 0 ∨ v = 1 := by simpa [exPx] using hv
    rcases this with rfl | rfl
    · have he : idx = [0] := (Option.some.inj hidx).symm
      subst he; rfl
    · have he : idx = [1] := (Option.some.inj hidx).symm
      subst he; rfl

example : ∃ S, SetupDone exPx exPy exS (fun _ => (0 : Nat)) (fun _ => []) S :=
  (C13_setup_succeeds exRepValid _ _).1

example : repSetup exPx exPy exS (Mgr.init : Mgr Nat) (fun _ => 0) 0 = .value
    ⟨[⟨some [(0, 2)], [2], .rank 2⟩, ⟨some [(2, 4)], [2], .rank 1⟩, ⟨none, [], .none⟩], [],
      [some 0, some 1, none], [], none⟩ := by decide

example : repSetup exPx exPy exS (Mgr.init : Mgr Nat) (fun _ => 0) 1 = .value
    ⟨[⟨none, [], .none⟩, ⟨none, [], .none⟩, ⟨some [(0, 1)], [1], .rank 3⟩],
      [⟨some [(0, 2)], [2], .rank 0⟩, ⟨none, [], .none⟩],
      [none, none, some 0], [some 1, none], some [2]⟩ := by decide

example : repSetup exPx ⟨[0, 1], [2, 1], some 0⟩ exS (Mgr.init : Mgr Nat) (fun _ => 0) 0 = .raises := by
  decide

end Verif
