import Verif.Repartition.Lemmas

/-! # What setup of a repartition computes -/

namespace Verif

open Exchange

/-- A valid use of `Repartition(P_x, P_y)`: well-formed partitions of the same positive dimension,
the input distributed according to a (possibly unbalanced) layout over `P_x`, all blocks of one
dtype, and no dimension of global extent 1 that is cut by `P_y`. -/
structure RepValid (Px Py : Cart) (L : Layout) (localS : Nat → List Nat × TorchDtype × Bool)
    (t : TorchDtype) (rg : Bool) : Prop where
  wfx : Px.WF
  wfy : Py.WF
  layout : L.pshape = Px.shape
  dims : Py.shape.length = Px.shape.length
  pos : Px.shape ≠ []
  ones : ∀ d, L.global.getD d 0 = 1 → Py.shape.getD d 0 = 1
  loc : ∀ v ∈ Px.members, ∀ idx, Px.index v = some idx → localS v = (L.shapeAt idx, t, rg)

theorem mem_groupUnion {a b : List Nat} {w : Nat} : w ∈ groupUnion a b ↔ w ∈ a ∨ w ∈ b := by
  simp only [groupUnion, List.mem_append, List.mem_filter, Bool.not_eq_true',
    List.contains_eq_mem, decide_eq_false_iff_not]
  tauto

theorem nodup_groupUnion {a b : List Nat} (ha : a.Nodup) (hb : b.Nodup) : (groupUnion a b).Nodup := by
  refine List.Nodup.append ha (hb.filter _) ?_
  intro w hw hw'
  simp [List.mem_filter, hw] at hw'

theorem Cart.WF.head {P : Cart} (h : P.WF) : ∃ w0, P.members.head? = some w0 ∧ w0 ∈ P.members := by
  have : 0 < P.members.length := by
    rw [h.size]
    have : ∀ l : List Nat, (∀ n ∈ l, 0 < n) → 0 < l.prod := by
      intro l
      induction l with
      | nil => intro _; simp
      | cons x xs ih =>
        intro hl
        rw [List.prod_cons]
        exact Nat.mul_pos (hl x (by simp)) (ih fun n hn => hl n (by simp [hn]))
    exact this _ h.pos
  cases hm : P.members with
  | nil => simp [hm] at this
  | cons x xs => exact ⟨x, rfl, by simp⟩

theorem sharedShape_eq {U : List Nat} {P : Cart} (hP : P.WF) (hsub : ∀ v ∈ P.members, v ∈ U)
    {w : Nat} (hw : w ∈ U) : sharedShape U P w = .value ⟨.int64, [P.shape.length], P.shape⟩ := by
  obtain ⟨w0, h0, hm⟩ := hP.head
  refine (C29_broadcast_data U P.members 0 w0 _ _ hP.nodup ?_ (hsub w0 hm) ?_).1 w hw
  · rw [← List.head?_eq_getElem?]; exact h0
  · simp [hm]

theorem sizeOne_iff (G P : List Nat) (h : P.length = G.length) :
    1 ∈ ((G.zip P).filter fun p => p.1 != p.2).map Prod.fst ↔
      ∃ d, G.getD d 0 = 1 ∧ P.getD d 0 ≠ 1 := by
  constructor
  · intro hm
    obtain ⟨p, hp, h1⟩ := List.mem_map.1 hm
    obtain ⟨hp1, hp2⟩ := List.mem_filter.1 hp
    obtain ⟨d, hd, he⟩ := List.getElem_of_mem hp1
    have hd1 : d < G.length := by simp at hd; omega
    have hd2 : d < P.length := by omega
    rw [List.getElem_zip] at he
    refine ⟨d, ?_, ?_⟩
    · simp [hd1, ← h1, ← he]
    · simp only [List.getD_eq_getElem?_getD, List.getElem?_eq_getElem hd2, Option.getD_some]
      rw [← he] at hp2 h1
      simp only [bne_iff_ne] at hp2
      intro hh
      exact hp2 (h1.trans hh.symm)
  · rintro ⟨d, h1, h2⟩
    have hd : d < G.length := by
      by_contra hc
      simp [List.getD_eq_getElem?_getD, List.getElem?_eq_none (Nat.le_of_not_lt hc)] at h1
    have hd2 : d < P.length := by omega
    simp only [List.getD_eq_getElem?_getD, List.getElem?_eq_getElem hd2,
      List.getElem?_eq_getElem hd, Option.getD_some] at h1 h2
    refine List.mem_map.2 ⟨(G[d], P[d]), List.mem_filter.2 ⟨?_, ?_⟩, h1⟩
    · have : d < (G.zip P).length := by simp; omega
      have := List.getElem_mem this
      rwa [List.getElem_zip] at this
    · simp only [bne_iff_ne]
      rw [h1]
      exact fun hh => h2 hh.symm

section
variable {Px Py : Cart} {L : Layout} {localS : Nat → List Nat × TorchDtype × Bool}
  {t : TorchDtype} {rg : Bool}

theorem RepValid.ok (h : RepValid Px Py L localS t rg) :
    XferOK (groupUnion Px.members Py.members) Px Py L (Layout.balanced Py.shape L.global) := by
  have hl : Py.shape.length = L.global.length := by
    rw [h.dims, ← h.layout, L.length_pshape, L.length_global]
  exact ⟨nodup_groupUnion h.wfx.nodup h.wfy.nodup, h.wfx, h.wfy, h.layout,
    Layout.balanced_pshape hl, (Layout.balanced_global hl h.wfy.pos).symm,
    fun v hv => mem_groupUnion.2 (Or.inl hv), fun v hv => mem_groupUnion.2 (Or.inr hv)⟩

theorem ovls_shape {U : List Nat} {PA PB : Cart} {LA LB : Layout} (ok : XferOK U PA PB LA LB)
    (hpos : 0 < LA.length) {w : Nat} {o : Overlap} (ho : o ∈ ovls U PA LA PB LB w)
    (hn : o.needsBuffer = true) : o.sh ≠ [] := by
  obtain ⟨v, hv, rfl⟩ := List.mem_map.1 ho
  have a1 := LA.length_startAt (coord_len ok.shA w)
  have a2 := LA.length_stopAt (coord_len ok.shA w)
  have b1 := LB.length_startAt (coord_len ok.shB v)
  have b2 := LB.length_stopAt (coord_len ok.shB v)
  have hl0 := ok.len
  unfold ovl at hn ⊢
  cases hi : intersectionSlice (LA.startAt (PA.coord w)) (LA.stopAt (PA.coord w))
      (LB.startAt (PB.coord v)) (LB.stopAt (PB.coord v)) with
  | none => rw [hi] at hn; simp [Overlap.needsBuffer] at hn
  | some sl =>
    simp only
    have hex : ∃ g, InBox (LA.startAt (PA.coord w)) (LA.stopAt (PA.coord w)) g ∧
        InBox (LB.startAt (PB.coord v)) (LB.stopAt (PB.coord v)) g := by
      by_contra hc
      rw [(C03_none_iff _ _ _ _ (by omega) (by omega) (by omega)).2 hc] at hi
      cases hi
    obtain ⟨g, hg1, hg2⟩ := hex
    obtain ⟨e1, e2⟩ := exists_shift hg1
    have := (C03_slice_cells _ _ _ _ (by omega) (by omega) (by omega) sl hi _).2
      ⟨e2, by rw [e1]; exact hg1, by rw [e1]; exact hg2⟩
    have hlen := (inSlices_le this).1
    intro hnil
    have h0 : sl.length = 0 := by
      have := congrArg List.length hnil
      simpa [sliceShape] using this
    rw [e2] at hlen
    simp at hlen
    omega

/-- Setup in closed form. -/
theorem repSetup_eq {β : Type} (h : RepValid Px Py L localS t rg) (junk : Nat → β)
    (ops : List (MgrOp β)) {w : Nat} (hw : w ∈ groupUnion Px.members Py.members) :
    ∃ S, repSetup Px Py localS ((Mgr.init : Mgr β).run junk ops) junk w = .value S ∧
      S.xy = (if w ∈ Px.members then ovls (groupUnion Px.members Py.members) Px L Py
        (Layout.balanced Py.shape L.global) w else []) ∧
      S.yx = (if w ∈ Py.members then ovls (groupUnion Px.members Py.members) Py
        (Layout.balanced Py.shape L.global) Px L w else []) ∧
      S.xbufs.map Option.isSome = S.xy.map Overlap.needsBuffer ∧
      S.ybufs.map Option.isSome = S.yx.map Overlap.needsBuffer ∧
      S.outShape = (if w ∈ Py.members then
        some ((Layout.balanced Py.shape L.global).shapeAt (Py.coord w)) else none) := by
  have ok := h.ok
  have hl : Py.shape.length = L.global.length := by
    rw [h.dims, ← h.layout, L.length_pshape, L.length_global]
  obtain ⟨w0, h0, hm0⟩ := h.wfx.head
  have hin : w0 ∈ groupUnion Px.members Py.members := mem_groupUnion.2 (Or.inl hm0)
  have hx := sharedShape_eq h.wfx ok.subA hw
  have hy := sharedShape_eq h.wfy ok.subB hw
  have hg := (C08_global_structure Px h.wfx L h.layout localS t rg h.loc _ w0 h0 hin).2.1 w
    (Or.inl hw)
  obtain ⟨T, hT1, hT2, _, hT4⟩ := C07_gathered_table Px h.wfx (fun v => (localS v).1) _ w0 h0 hin
  have hTw := hT2 w hw
  have hG : (L.global.map fun (n : Nat) => (n : Int)).map Int.toNat = L.global := by
    rw [List.map_map]
    conv_rhs => rw [← List.map_id L.global]
    apply List.map_congr_left
    intro n _
    simp
  have hD : L.global.length = L.length := L.length_global
  have hxl : Px.shape.length = L.length := by rw [← h.layout, L.length_pshape]
  obtain ⟨dt, hdt, _⟩ := C31_torch_numpy_roundtrip t
  -- the two tables
  have hxt : Table.Describes (fun idx d => ((T.entry (idx ++ [d])).getD 0).toNat) L := by
    intro idx hi d hd
    rw [h.layout] at hi
    have hlt : flatC Px.shape idx < Px.members.length := by rw [h.wfx.size]; exact flatC_lt hi
    have hcoord : Px.coord (Px.members[flatC Px.shape idx]) = idx := by
      rw [Cart.coord, h.wfx.nodup.idxOf_getElem, getCoords_flatC hi]
    have hmem := List.getElem_mem hlt
    have hindex : Px.index (Px.members[flatC Px.shape idx]) = some idx := by
      rw [Cart.index_eq hmem, hcoord]
    have := hT4 _ hmem idx hindex d (by omega)
    simp only
    rw [this, h.loc _ hmem idx hindex]
    simp only [Option.getD_some, Int.toNat_natCast]
    exact (L.shapeAt_getD idx (by rw [hi.length_eq, hxl]) d hd).1
  have hyt := balancedTable_describes hl
  have hYl : (Layout.balanced Py.shape L.global).length = L.length := ok.len.symm
  have rx : ∀ v ∈ Px.members,
      tableRow L.length (startIndices L.length (fun idx d => ((T.entry (idx ++ [d])).getD 0).toNat))
        (Px.coord v) = L.startAt (Px.coord v) ∧
      tableRow L.length (stopIndices L.length (fun idx d => ((T.entry (idx ++ [d])).getD 0).toNat))
        (Px.coord v) = L.stopAt (Px.coord v) := by
    intro v hv
    have := startStop_eq L _ hxt (Px.coord v) (by rw [h.layout]; exact coords_inBounds h.wfx hv)
    exact ⟨this.2, this.1⟩
  have ry : ∀ v ∈ Py.members,
      tableRow L.length (startIndices L.length (balancedTable Py.shape L.global)) (Py.coord v) =
        (Layout.balanced Py.shape L.global).startAt (Py.coord v) ∧
      tableRow L.length (stopIndices L.length (balancedTable Py.shape L.global)) (Py.coord v) =
        (Layout.balanced Py.shape L.global).stopAt (Py.coord v) := by
    intro v hv
    have := startStop_eq _ _ hyt (Py.coord v) (by rw [ok.shB]; exact coords_inBounds h.wfy hv)
    rw [hYl] at this
    exact ⟨this.2, this.1⟩
  -- the two overlap lists
  have hxy : sideOverlaps L.length (Px.index w)
      (startIndices L.length (fun idx d => ((T.entry (idx ++ [d])).getD 0).toNat))
      (stopIndices L.length (fun idx d => ((T.entry (idx ++ [d])).getD 0).toNat)) Py.shape
      (startIndices L.length (balancedTable Py.shape L.global))
      (stopIndices L.length (balancedTable Py.shape L.global))
      (Py.index w) (gatheredRanks (groupUnion Px.members Py.members) Py) =
      some (if w ∈ Px.members then ovls (groupUnion Px.members Py.members) Px L Py
        (Layout.balanced Py.shape L.global) w else []) := by
    by_cases hwx : w ∈ Px.members
    · rw [Cart.index_eq hwx, if_pos hwx, sideOverlaps]
      rw [(rx w hwx).1, (rx w hwx).2, overlapList_eq (LB := Layout.balanced Py.shape L.global)
        h.wfy ok.subB (fun v hv => (ry v hv).1) (fun v hv => (ry v hv).2)]
      rfl
    · rw [Cart.index_none hwx, if_neg hwx, sideOverlaps]
  have hyx : sideOverlaps L.length (Py.index w)
      (startIndices L.length (balancedTable Py.shape L.global))
      (stopIndices L.length (balancedTable Py.shape L.global)) Px.shape
      (startIndices L.length (fun idx d => ((T.entry (idx ++ [d])).getD 0).toNat))
      (stopIndices L.length (fun idx d => ((T.entry (idx ++ [d])).getD 0).toNat))
      (Px.index w) (gatheredRanks (groupUnion Px.members Py.members) Px) =
      some (if w ∈ Py.members then ovls (groupUnion Px.members Py.members) Py
        (Layout.balanced Py.shape L.global) Px L w else []) := by
    by_cases hwy : w ∈ Py.members
    · rw [Cart.index_eq hwy, if_pos hwy, sideOverlaps]
      rw [(ry w hwy).1, (ry w hwy).2, overlapList_eq (LB := L)
        h.wfx ok.subA (fun v hv => (rx v hv).1) (fun v hv => (rx v hv).2)]
      rfl
    · rw [Cart.index_none hwy, if_neg hwy, sideOverlaps]
  -- buffers
  have hLpos : 0 < L.length := by
    rw [← hxl]; exact List.length_pos_iff.2 h.pos
  obtain ⟨m', xb, yb, hal, hsx, hsy, _⟩ := C12_repartition_buffers junk ops
    (if w ∈ Px.members then ovls (groupUnion Px.members Py.members) Px L Py
        (Layout.balanced Py.shape L.global) w else [])
    (if w ∈ Py.members then ovls (groupUnion Px.members Py.members) Py
        (Layout.balanced Py.shape L.global) Px L w else []) dt (by
      intro o ho hn
      rcases List.mem_append.1 ho with ho | ho
      · split at ho
        · exact ovls_shape ok hLpos ho hn
        · simp at ho
      · split at ho
        · exact ovls_shape ok.symm (by omega) ho hn
        · simp at ho)
  have hone : ¬ (1 ∈ ((L.global.zip Py.shape).filter fun p => p.1 != p.2).map Prod.fst) := by
    rw [sizeOne_iff _ _ hl]
    rintro ⟨d, h1, h2⟩
    exact h2 (h.ones d h1)
  have hnb : (fun o : Overlap => o.sl.isSome && decide (o.partner ≠ .self)) =
      Overlap.needsBuffer := by
    funext o; simp only [Overlap.needsBuffer]; congr 1; cases o.partner <;> simp
  refine ⟨⟨_, _, xb, yb, (Py.index w).map fun i => computeSubshape Py.shape i L.global⟩, ?_, rfl, rfl,
    ?_, ?_, ?_⟩
  · unfold repSetup
    simp only [hw, not_true_eq_false, if_false, hx, hy, hg, hG, hD, h.dims, hxl, ne_eq, hone, hTw,
      hxy, hyx, hdt, hal]
    rfl
  · rw [hnb] at hsx; exact hsx
  · rw [hnb] at hsy; exact hsy
  · by_cases hwy : w ∈ Py.members
    · rw [Cart.index_eq hwy, if_pos hwy, Cart.coord,
        Layout.balanced_shapeAt hl (coords_inBounds h.wfy hwy)]
      rfl
    · rw [Cart.index_none hwy, if_neg hwy]
      rfl

end

end Verif
