import Verif.Window.Model
import Verif.Halo.Limits

/-!
# Sliding-window layers: padded layout, setup, padded input
-/

namespace Verif

open Exchange

/-! ## Padded layouts -/

/-- Block lengths when `p` cells are added before the first and after the last block. -/
def padList (p : Nat) (bs : List Nat) : List Nat :=
  (List.range bs.length).map fun i =>
    bs.getD i 0 + (if i = 0 then p else 0) + (if i + 1 = bs.length then p else 0)

theorem length_padList (p : Nat) (bs : List Nat) : (padList p bs).length = bs.length := by simp [padList]

theorem padList_getD (p : Nat) (bs : List Nat) {c : Nat} (hc : c < bs.length) :
    (padList p bs).getD c 0 =
      bs.getD c 0 + (if c = 0 then p else 0) + (if c + 1 = bs.length then p else 0) := by
  rw [padList, getD_map_range _ _ hc]

theorem padList_take (p : Nat) (bs : List Nat) {c : Nat} (hc : c < bs.length) :
    ((padList p bs).take c).sum = (bs.take c).sum + (if 0 < c then p else 0) := by
  induction c with
  | zero => simp
  | succ c ih =>
    rw [take_sum_succ, take_sum_succ, ih (by omega), padList_getD p bs (by omega),
      if_neg (show ¬ c + 1 = bs.length by omega), if_pos (Nat.succ_pos c)]
    by_cases h0 : c = 0
    · simp [h0]
    · rw [if_neg h0, if_pos (by omega)]
      omega

theorem padList_end (p : Nat) (bs : List Nat) {c : Nat} (hc : c < bs.length) :
    ((padList p bs).take (c + 1)).sum =
      (bs.take (c + 1)).sum + p + (if c + 1 = bs.length then p else 0) := by
  rw [take_sum_succ, take_sum_succ, padList_take p bs hc, padList_getD p bs hc]
  by_cases h0 : c = 0
  · simp [h0]
  · rw [if_neg h0, if_pos (by omega)]
    omega

theorem padList_sum (p : Nat) {bs : List Nat} (h : 0 < bs.length) : (padList p bs).sum = bs.sum + 2 * p := by
  have h1 := padList_end p bs (c := bs.length - 1) (by omega)
  rw [show bs.length - 1 + 1 = bs.length by omega, if_pos rfl, List.take_of_length_le (by rw [length_padList]),
    List.take_of_length_le (Nat.le_refl _)] at h1
  omega

/-- Padding of the whole layout. -/
def padLayout (gp : List Nat) (L : Layout) : Layout := List.zipWith padList gp L

theorem length_padLayout {gp : List Nat} {L : Layout} (h : gp.length = L.length) :
    (padLayout gp L).length = L.length := by simp [padLayout, h]

theorem padLayout_getD {gp : List Nat} {L : Layout} (h : gp.length = L.length) {j : Nat} (hj : j < L.length) :
    (padLayout gp L).getD j [] = padList (gp.getD j 0) (L.getD j []) := by
  rw [padLayout, List.getD_eq_getElem _ _ (by simp [h]; exact hj), List.getElem_zipWith,
    List.getD_eq_getElem _ _ (by rw [h]; exact hj), List.getD_eq_getElem _ _ hj]

theorem pshape_padLayout {gp : List Nat} {L : Layout} (h : gp.length = L.length) :
    (padLayout gp L).pshape = L.pshape := by
  induction L generalizing gp with
  | nil => cases gp <;> simp [padLayout, Layout.pshape]
  | cons bs L ih =>
    cases gp with
    | nil => simp at h
    | cons p gp =>
      have := ih (gp := gp) (by simpa using h)
      simp only [padLayout, Layout.pshape, List.zipWith_cons_cons, List.map_cons, length_padList] at this ⊢
      rw [this]

theorem pshape_getD {L : Layout} {j : Nat} (hj : j < L.length) :
    L.pshape.getD j 0 = (L.getD j []).length := by
  rw [Layout.pshape, List.getD_eq_getElem _ _ (by simpa using hj), List.getElem_map,
    List.getD_eq_getElem _ _ hj]

theorem global_getD {L : Layout} {j : Nat} (hj : j < L.length) :
    L.global.getD j 0 = (L.getD j []).sum := by
  rw [Layout.global, List.getD_eq_getElem _ _ (by simpa using hj), List.getElem_map,
    List.getD_eq_getElem _ _ hj]

theorem global_padLayout {gp : List Nat} {L : Layout} (h : gp.length = L.length)
    (hpos : ∀ n ∈ L.pshape, 0 < n) :
    (padLayout gp L).global = List.zipWith (fun (n : Int) (p : Nat) => (n + 2 * p).toNat)
      (L.global.map fun (n : Nat) => (n : Int)) gp := by
  apply eq_of_getD
  · simp [padLayout, Layout.global, h]
  · intro j hj
    rw [Layout.length_global, length_padLayout h] at hj
    rw [global_getD (by rw [length_padLayout h]; exact hj), padLayout_getD h hj, padList_sum]
    · rw [List.getD_eq_getElem (List.zipWith _ _ _) _ (by simp [Layout.global, h]; exact hj),
        List.getElem_zipWith, List.getElem_map]
      have e := global_getD hj
      rw [List.getD_eq_getElem _ _ (by rw [Layout.length_global]; exact hj)] at e
      rw [e, List.getD_eq_getElem gp _ (by rw [h]; exact hj)]
      omega
    · rw [← pshape_getD hj, List.getD_eq_getElem _ _ (by rw [Layout.length_pshape]; exact hj)]
      exact hpos _ (List.getElem_mem _)

/-! ## What the caller guarantees -/

/-- The input of the layer is a global tensor `X` cut over `P` according to `L`; `v` are world ranks. -/
structure WinInput {α : Type} (P : Cart) (W : WinParams) (L : Layout)
    (localS : Nat → List Nat × TorchDtype × Bool) (x : Nat → List Nat → α) (X : List Nat → α)
    (t : TorchDtype) (rg : Bool) : Prop where
  wf : P.WF
  layout : L.pshape = P.shape
  plen : W.p.length ≤ P.shape.length
  loc : ∀ v ∈ P.members, ∀ idx, P.index v = some idx → localS v = (L.shapeAt idx, t, rg)
  data : ∀ v ∈ P.members, ∀ idx, P.index v = some idx → ∀ l, InBounds l (L.shapeAt idx) →
    x v l = X (shiftBy (L.startAt idx) l)

theorem length_globalPadding {D : Nat} {p : List Nat} (h : p.length ≤ D) : (globalPadding D p).length = D := by
  simp [globalPadding]; omega

theorem member_spec {P : Cart} (h : P.WF) {r : Nat} (hr : r < P.members.length) :
    P.members.getD r 0 ∈ P.members ∧ P.index (P.members.getD r 0) = some (getCoords P.shape r) := by
  have hm : P.members.getD r 0 ∈ P.members := by
    rw [List.getD_eq_getElem _ _ hr]; exact List.getElem_mem _
  refine ⟨hm, ?_⟩
  have hi : P.members.idxOf (P.members.getD r 0) = r := by
    rw [List.getD_eq_getElem _ _ hr]
    exact h.nodup.idxOf_getElem r hr
  simp only [Cart.index, rankOf, hm, hi, cartesianIndex, if_true, Option.map_some]

section
variable {α : Type} {P : Cart} {W : WinParams} {L : Layout} {localS : Nat → List Nat × TorchDtype × Bool}
  {x : Nat → List Nat → α} {X : List Nat → α} {t : TorchDtype} {rg : Bool}

theorem WinInput.length (h : WinInput P W L localS x X t rg) : L.length = P.shape.length := by
  rw [← h.layout, L.length_pshape]

theorem WinInput.gplen (h : WinInput P W L localS x X t rg) :
    (globalPadding P.shape.length W.p).length = L.length := by
  rw [length_globalPadding h.plen, h.length]

theorem localPadding_getD {Ps idx gp : List Nat} {j : Nat} (hj : j < Ps.length) :
    (localPadding Ps idx gp).getD j (0, 0) = (if idx.getD j 0 = 0 then gp.getD j 0 else 0,
      if idx.getD j 0 + 1 = Ps.getD j 0 then gp.getD j 0 else 0) := by
  rw [localPadding, getD_map_range _ _ hj]

/-- The local shapes with explicit padding are the blocks of the padded layout. -/
theorem shapeAfterPad_eq {idx gp : List Nat} (hL : L.pshape = P.shape) (hg : gp.length = L.length)
    (hi : InBounds idx P.shape) {j : Nat} (hj : j < P.shape.length) :
    (shapeAfterPad (L.shapeAt idx) (localPadding P.shape idx gp)).getD j 0 =
      ((padLayout gp L).getD j []).getD (idx.getD j 0) 0 := by
  have hLl : L.length = P.shape.length := by rw [← hL, L.length_pshape]
  have hl : idx.length = L.length := by rw [hLl, hi.length_eq]
  have hjL : j < L.length := by rw [hLl]; exact hj
  have h1 : j < (L.shapeAt idx).length := by rw [Layout.length_shapeAt hl]; exact hjL
  have h2 : j < (localPadding P.shape idx gp).length := by simp [localPadding]; exact hj
  have hb : (L.getD j []).length = P.shape.getD j 0 := by rw [← pshape_getD hjL, hL]
  rw [shapeAfterPad, List.getD_eq_getElem _ _ (by rw [List.length_zipWith]; omega), List.getElem_zipWith,
    padLayout_getD hg hjL, padList_getD _ _ (by rw [hb]; exact inBounds_getD hi hj)]
  have e1 := (L.shapeAt_getD idx hl j hjL).1
  rw [List.getD_eq_getElem _ _ h1] at e1
  have e2 := localPadding_getD (idx := idx) (gp := gp) hj
  rw [List.getD_eq_getElem _ _ h2] at e2
  rw [e1, e2, hb]
  omega

/-- The parameters handed to `_compute_exchange_info`. -/
def winDims (P : Cart) (W : WinParams) (L : Layout) : List HaloDim :=
  haloDims P.shape (padLayout (globalPadding P.shape.length W.p) L).global W.k W.s (W.p.map fun _ => 0) W.d

/-- What setup computes: the exchange of the padded layout. -/
theorem winSetup_spec (h : WinInput P W L localS x X t rg) :
    ∃ T : Table, T.Describes (padLayout (globalPadding P.shape.length W.p) L) ∧
      ∀ r, r < P.members.length → winSetup P W localS (P.members.getD r 0) =
        some ⟨localPadding P.shape (getCoords P.shape r) (globalPadding P.shape.length W.p),
          exchangeInfo (winDims P W L) (some T) (getCoords P.shape r)⟩ := by
  obtain ⟨w0, h0, hm⟩ := h.wf.head
  obtain ⟨T, -, -, hT2, hT3⟩ := C07_gathered_table P h.wf
    (fun v => shapeAfterPad (localS v).1
      (localPadding P.shape ((P.index v).getD []) (globalPadding P.shape.length W.p))) P.members w0 h0 hm
  obtain ⟨hG, -, -⟩ := C08_global_structure P h.wf L h.layout localS t rg h.loc P.members w0 h0 hm
  refine ⟨fun idx d => ((T.entry (idx ++ [d])).getD 0).toNat, ?_, ?_⟩
  · intro idx hi d hd
    rw [pshape_padLayout h.gplen, h.layout] at hi
    rw [length_padLayout h.gplen, h.length] at hd
    obtain ⟨r, hr, e⟩ : ∃ r, r < P.shape.prod ∧ getCoords P.shape r = idx :=
      ⟨flatC P.shape idx, flatC_lt hi, getCoords_flatC hi⟩
    rw [← h.wf.size] at hr
    obtain ⟨m1, m2⟩ := member_spec h.wf hr
    rw [e] at m2
    have := hT3 _ m1 idx m2 d hd
    rw [m2, h.loc _ m1 idx m2] at this
    show ((T.entry (idx ++ [d])).getD 0).toNat = _
    rw [this, Option.getD_some, Option.getD_some, Int.toNat_natCast, shapeAfterPad_eq h.layout h.gplen hi hd]
  · intro r hr
    obtain ⟨m1, m2⟩ := member_spec h.wf hr
    unfold winSetup
    simp only [m2, hG _ m1, (hT2 _ m1).2]
    rw [winDims, global_padLayout h.gplen (by rw [h.layout]; exact h.wf.pos)]

end

end Verif
