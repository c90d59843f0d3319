import Verif.Halo.Wide

/-!
# Halo exchange: too wide halos (C37), outputs that are not the balanced share (C38), worked cases
-/

namespace Verif

open Exchange

variable {P : Cart} {L : Layout} {qs : List HaloDim} {t : Table} {β : Type}

/-- The parameters assembled by `_compute_exchange_info` (`halo_mixin.py:23-49`) belong to the
partition and the layout if the global shape passed in is that of the layout. -/
theorem haloDims_plan (hw : P.WF) (hL : L.pshape = P.shape) (ks ss ps ds : List Nat) :
    PlanDims P L (haloDims P.shape L.global ks ss ps ds) := by
  have hlen : L.global.length = P.shape.length := by
    rw [L.length_global, ← hL, L.length_pshape]
  refine ⟨hw, hL, by simp [haloDims, hlen], fun j hj => ?_, fun j hj => ?_⟩
  · rw [haloDims, getD_map_range _ _ (by rw [hlen]; exact hj)]
  · rw [haloDims, getD_map_range _ _ (by rw [hlen]; exact hj)]
    have hl' : j < L.length := by rw [← L.length_pshape, hL]; exact hj
    simp only [Layout.global]
    rw [List.getD_eq_getElem _ _ (by simpa using hl'), List.getElem_map, List.getD_eq_getElem _ _ hl']

/-- Without the optional argument the widths are those for the balanced layout. -/
theorem C34_default_balanced (h : PlanDims P L qs) (ht : t.Describes L)
    (hb : ∀ j, j < P.shape.length →
      L.getD j [] = (List.range (P.shape.getD j 0)).map fun i => subsize (P.shape.getD j 0) i (qs.getD j default).N)
    {idx : List Nat} (hi : InBounds idx P.shape) :
    exchangeInfo qs none idx = exchangeInfo qs (some t) idx := by
  have hs : ∀ nn idx, InBounds idx P.shape → haloShape nn qs none idx = haloShape nn qs (some t) idx := by
    intro nn idx hi
    apply List.ext_getElem
    · simp [haloShape]
    · intro j h1 h2
      have hj : j < P.shape.length := by simpa [haloShape, h.len] using h1
      have e := recv_eq h ht hi hj nn
      rw [List.getD_eq_getElem _ _ h2] at e
      rw [e]
      have hlt := inBounds_getD hi hj
      simp only [haloShape, List.getElem_map, List.getElem_range, h.workers j hj]
      rw [hb j hj, balanced_take_sum _ _ _ (by omega), getD_map_range _ _ hlt]
  have hx : ((List.range qs.length).map fun j =>
      subsize (qs.getD j default).P (idx.getD j 0) (qs.getD j default).N) =
      (List.range qs.length).map fun j => t idx j := by
    apply List.map_congr_left
    intro j hj
    have hj' : j < P.shape.length := by rw [← h.len]; exact List.mem_range.1 hj
    rw [ht idx (by rw [h.layout]; exact hi) j (by rw [layout_length h]; exact hj'), hb j hj',
      getD_map_range _ _ (inBounds_getD hi hj'), h.workers j hj']
  have hsend : sendShape qs none idx = sendShape qs (some t) idx := by
    unfold sendShape
    apply List.map_congr_left
    intro j hj
    have hj' : j < P.shape.length := by rw [← h.len]; exact List.mem_range.1 hj
    have hlt := inBounds_getD hi hj'
    simp only
    congr 1
    · split
      · rw [hs _ _ (inBounds_set hi (by omega))]
      · rfl
    · split
      · rename_i c
        rw [h.workers j hj'] at c
        rw [hs _ _ (inBounds_set hi c)]
      · rfl
  simp only [exchangeInfo, hs _ _ hi, hx, hsend]

/-! ## C37 -/

section
variable {H : HaloPlan} {S : Nat → HaloSetup} {dt : NpKey} {junk : Nat → β}
  {ops : Nat → List (MgrOp β)} {α : Type}

theorem copyRaises_self (s : List Nat) : copyRaises s s = false := by
  unfold copyRaises
  have : (List.zipWith (fun a b => a == b || b == 1) s s).all id = true := by
    induction s with
    | nil => rfl
    | cons a s ih => simp only [List.zipWith_cons_cons, List.all_cons, ih]; simp
  rw [this]
  simp

theorem copyRaises_of {a b : List Nat} {j : Nat} (ha : j < a.length) (h1 : a.getD j 0 ≠ b.getD j 0)
    (h2 : b.getD j 0 ≠ 1) : copyRaises a b = true := by
  unfold copyRaises
  by_cases hl : a.length = b.length
  · have hb : j < b.length := by omega
    rw [List.getD_eq_getElem _ _ ha, List.getD_eq_getElem _ _ hb] at h1
    rw [List.getD_eq_getElem _ _ hb] at h2
    have hf : (List.zipWith (fun a b => a == b || b == 1) a b).all id = false := by
      rw [List.all_eq_false]
      refine ⟨false, ?_, by simp⟩
      have hz : j < (List.zipWith (fun a b => a == b || b == 1) a b).length := by
        rw [List.length_zipWith]; omega
      have := List.getElem_mem hz
      rw [List.getElem_zipWith] at this
      have e : (a[j] == b[j] || b[j] == 1) = false := by simp [h1, h2]
      rwa [e] at this
    rw [hf]
    simp
  · simp [hl]

/-- As long as messages are taken from inside the neighbour's padded tensor, nothing raises. -/
theorem no_raise (h : H.OK) (hS : H.SetUp dt junk ops S) {r : Nat} (hr : r < H.n) (i : Nat) (reg : Region) :
    (S r).packRaises i reg = false := by
  have dn := hS.done h.wf
  unfold HaloSetup.packRaises
  rw [dn.shape r hr, dn.ws r hr, HaloPlan.intSliceShape_eq, HaloPlan.cells_map h dn hr,
    copyRaises_self, Bool.and_false]

/-- C37, partial: a piece that does not lie inside the sender's padded tensor is rejected: copying it
into the send buffer raises (unless indexing cuts it to a single row, which NumPy would repeat).

Full statement: whenever a halo is wider than the block next to it, either the data is right or an
error is raised; false, see `C37_false`.  That the data is right when the halos fit is `C35_ghosts`. -/
theorem C37_rejected_partial (hw : H.P.WF) (hS : H.SetUp dt junk ops S) {r i : Nat} (hr : r < H.n)
    (hi : i < H.D) {reg : Region}
    (hreg : (reg = .lbulk ∧ H.x i (H.co r i) + H.rw i (H.co r i) < (H.width i (H.co r i)).lsend) ∨
      (reg = .rbulk ∧ H.lw i (H.co r i) + H.x i (H.co r i) < (H.width i (H.co r i)).rsend))
    (hpos : 0 < H.size i (H.co r i))
    (hb : (S r).has i reg = true)
    (h1 : (((S r).cells i reg).getD i (0, 0)).2 - (((S r).cells i reg).getD i (0, 0)).1 ≠ 1) :
    (S r).packRaises i reg = true := by
  have dn := hS.done hw
  unfold HaloSetup.packRaises
  rw [hb, Bool.true_and, dn.shape r hr, dn.ws r hr, HaloPlan.intSliceShape_eq]
  have hlc : i < ((S r).cells i reg).length := by rw [HaloPlan.length_cells dn hr]; exact hi
  have em : (((S r).cells i reg).map fun p => p.2 - p.1).getD i 0 =
      (((S r).cells i reg).getD i (0, 0)).2 - (((S r).cells i reg).getD i (0, 0)).1 := by
    rw [List.getD_eq_getElem _ _ (by simpa using hlc), List.getElem_map, List.getD_eq_getElem _ _ hlc]
  apply copyRaises_of (j := i) (by rw [HaloPlan.length_msgShape]; exact hi)
  · rw [em, HaloPlan.msgShape, getD_map_range _ _ hi]
    simp only [Nat.lt_irrefl, if_false, if_true]
    have ec : ((S r).cells i reg).getD i (0, 0) =
        (pyBound (H.size i (H.co r i)) (regionSlice reg (H.size i (H.co r i)) (H.width i (H.co r i))).1,
         pyBound (H.size i (H.co r i)) (regionSlice reg (H.size i (H.co r i)) (H.width i (H.co r i))).2) := by
      have hl1 : i < (H.shape r).length := by rw [HaloPlan.length_shape]; exact hi
      have hl2 : i < (haloSlice (H.shape r) (H.widths r) i reg).length := by
        simp [haloSlice, HaloPlan.length_shape]; exact hi
      rw [HaloSetup.cells, dn.shape r hr, dn.ws r hr, pySlices,
        List.getD_eq_getElem _ _ (by rw [List.length_zipWith]; omega), List.getElem_zipWith]
      have g1 := HaloPlan.shape_getD (H := H) (r := r) hi
      rw [List.getD_eq_getElem _ _ hl1] at g1
      have g2 : (haloSlice (H.shape r) (H.widths r) i reg).getD i (0, 0) =
          regionSlice reg (H.size i (H.co r i)) (H.width i (H.co r i)) := by
        rw [haloSlice, HaloPlan.length_shape, getD_map_range _ _ hi]
        simp only [Nat.lt_irrefl, if_false, if_true, HaloPlan.shape_getD hi, HaloPlan.width_getD hi]
      rw [List.getD_eq_getElem _ _ hl2] at g2
      rw [g1, g2]
    rw [ec]
    have e1 : (H.width i (H.co r i)).lrecv = H.lw i (H.co r i) := rfl
    have e2 : (H.width i (H.co r i)).rrecv = H.rw i (H.co r i) := rfl
    unfold HaloPlan.size at hpos ⊢
    rcases hreg with ⟨rfl, hc⟩ | ⟨rfl, hc⟩
    · simp only [HaloPlan.msgWidth, regionSlice, e1, pyBound]
      split <;> split <;> omega
    · simp only [HaloPlan.msgWidth, regionSlice, e2, pyBound]
      split <;> split <;> omega
  · rw [em]; exact h1

/-- C37: what happens with computed widths that are too large, in general.  If no block is empty and
some halo is wider than the block next to it, nothing raises, and there is a cell of some worker's
padded tensor, inside the global tensor, that in every completed execution holds the value `z` the
halos were filled with before the exchange, whatever the global tensor `X` is. -/
theorem C37_silent (h : PlanDims P L qs)
    (hx : ∀ j, j < P.shape.length → ∀ c, c < P.shape.getD j 0 → 0 < (L.getD j []).getD c 0)
    (hf : ¬ (HaloPlan.ofDims P L qs).Fits) (hS : (HaloPlan.ofDims P L qs).SetUp dt junk ops S) :
    let H := HaloPlan.ofDims P L qs
    (∀ r, r < H.n → ∀ i reg, (S r).packRaises i reg = false) ∧
    ∃ w l, w < H.n ∧ InBounds l (H.shape w) ∧ InBounds (shiftBy (H.origin w) l) L.global ∧
      ∀ (z : α) (st0 : Nat → List Nat → α),
        (∀ r, r < H.n → ∀ l, InBounds l (H.shape r) → (¬ ∃ b, InBounds b (L.shapeAt (getCoords P.shape r)) ∧
          l = shiftBy ((List.range H.D).map fun j => H.lw j (H.co r j)) b) → st0 r l = z) →
        ∀ (eager : Bool) (k : Nat) (g : GState (List Nat → α) (List Nat → α)),
          Exec (haloForward S) H.n (haloPhases H.P) eager k (GState.init st0) g →
          (g.ws w).phase = haloPhases H.P → (g.ws w).st l = z := by
  intro H
  have ok : H.OK := plan_ok_always h
  have dn := hS.done ok.wf
  refine ⟨fun r hr i reg => no_raise ok hS hr i reg, ?_⟩
  obtain ⟨w, hw, l, hl, s, hs, l', hl', hb, e⟩ := HaloPlan.stale (α := α) ok dn hx hf
  refine ⟨w, l, hw, hl, plan_inside h hw hl, fun z st0 hz eager k g hex hfin => ?_⟩
  rw [async_final (HaloPlan.fwd_matched ok dn) (HaloPlan.fwd_commutes ok dn) hex hw hfin, e st0]
  apply hz s hs l' hl'
  rintro ⟨b, hb1, rfl⟩
  apply hb
  intro j _ hj
  have hi := (getCoords_spec (shape := P.shape) (r := s) (by rw [← h.wf.size]; exact hs)).1
  have hl2 : (getCoords P.shape s).length = L.length := by rw [layout_length h, hi.length_eq]
  have hsl := Layout.length_shapeAt hl2
  have hbl : b.length = P.shape.length := by rw [hb1.length_eq, hsl, layout_length h]
  have hj' : j < P.shape.length := hj
  rw [getD_shiftBy (by simp; exact hj) (by rw [hbl]; exact hj), getD_map_range _ _ hj]
  have h1 := (inBounds_iff.1 hb1).2 j (by rw [hsl, layout_length h]; exact hj)
  have h2 : (L.shapeAt (getCoords P.shape s)).getD j 0 = H.x j (H.co s j) :=
    (L.shapeAt_getD _ hl2 j (by rw [layout_length h]; exact hj)).1
  rw [h2] at h1
  omega

/-- Three cells over three workers, kernel 5, padding 2: the padded blocks have 3, 1 and 3 cells. -/
def wideP : Cart := ⟨[0, 1, 2], [3], some 0⟩
def wideL : Layout := [padBlocks 3 3 2]
def wideQ : List HaloDim := haloDims [3] [7] [5] [1] [0] [1]
def wideH : HaloPlan := HaloPlan.ofDims wideP wideL wideQ

theorem wide_dims : PlanDims wideP wideL wideQ :=
  haloDims_plan (P := wideP) (L := wideL) ⟨by decide, rfl, by decide⟩ rfl _ _ _ _

theorem wide_ok : wideH.OK := plan_ok_always wide_dims

/-- C37 is false: with three cells over three workers, kernel size 5 and padding 2, all parameters are
accepted, no copy raises, and in every completed execution worker 0 ends up with a cell that does not
hold the value of the global tensor: worker 1 has one cell of its own and passes on a halo cell that
has not been filled. -/
theorem C37_false : PlanDims wideP wideL wideQ ∧ (∀ q ∈ wideQ, q.Valid) ∧
    (wideQ.getD 0 default).N = 3 + 2 * 2 ∧
    ∀ (S : Nat → HaloSetup), wideH.SetUp dt junk ops S →
      (∀ r, r < wideH.n → ∀ i reg, (S r).packRaises i reg = false) ∧
      ∃ (X : List Nat → Nat) (st0 : Nat → List Nat → Nat),
        (∀ w, w < wideH.n → ∀ l, InBounds l (wideH.L.shapeAt (getCoords wideH.P.shape w)) →
          st0 w (shiftBy ((List.range wideH.D).map fun j => wideH.lw j (wideH.co w j)) l) =
            X (shiftBy (wideH.L.startAt (getCoords wideH.P.shape w)) l)) ∧
        ∀ (eager : Bool) (k : Nat) (g : GState (List Nat → Nat) (List Nat → Nat)),
          Exec (haloForward S) wideH.n (haloPhases wideH.P) eager k (GState.init st0) g →
          (g.ws 0).phase = haloPhases wideH.P →
          ∃ l, InBounds l (wideH.shape 0) ∧ InBounds (shiftBy (wideH.origin 0) l) wideH.L.global ∧
            (g.ws 0).st l ≠ X (shiftBy (wideH.origin 0) l) := by
  refine ⟨wide_dims, ?_, rfl, ?_⟩
  · intro q hq
    have : q = ⟨3, 7, 5, 1, 0, 1⟩ := by
      have e : wideQ = [⟨3, 7, 5, 1, 0, 1⟩] := by decide
      rw [e] at hq
      simpa using hq
    subst this
    exact ⟨by decide, by decide, by decide, rfl, by decide⟩
  · intro S hS
    refine ⟨fun r hr i reg => no_raise wide_ok hS hr i reg, ?_⟩
    -- cell `c` of the global tensor holds `c + 1`; halos hold 0
    refine ⟨fun l => l.getD 0 0 + 1, fun w l =>
      if wideH.lw 0 w ≤ l.getD 0 0 ∧ l.getD 0 0 < wideH.lw 0 w + wideH.x 0 w then
        wideH.st 0 w + (l.getD 0 0 - wideH.lw 0 w) + 1 else 0, ?_, ?_⟩
    · intro w hw l hl
      change w < 3 at hw
      have hl1 : ∃ a, l = [a] := by
        have := hl.length_eq
        cases l with
        | nil => interval_cases w <;> simp [wideH, HaloPlan.ofDims, wideL, wideP, Layout.shapeAt,
            getCoords, InBounds] at hl
        | cons a l =>
          cases l with
          | nil => exact ⟨a, rfl⟩
          | cons b l => interval_cases w <;> simp [wideH, HaloPlan.ofDims, wideL, wideP, Layout.shapeAt,
              getCoords, InBounds] at hl
      obtain ⟨a, rfl⟩ := hl1
      have hx : a < wideH.x 0 w := by
        interval_cases w <;> exact hl.1
      have hc : wideH.co w 0 = w := by interval_cases w <;> rfl
      have e1 : (shiftBy ((List.range wideH.D).map fun j => wideH.lw j (wideH.co w j)) [a]).getD 0 0 =
          wideH.lw 0 w + a := by
        show (shiftBy [wideH.lw 0 (wideH.co w 0)] [a]).getD 0 0 = _
        rw [hc]; rfl
      have e2 : (shiftBy (wideH.L.startAt (getCoords wideH.P.shape w)) [a]).getD 0 0 =
          wideH.st 0 w + a := by
        interval_cases w <;> rfl
      simp only [e1, e2]
      rw [if_pos (by omega)]
      omega
    · intro eager k g hex hfin
      have dn := hS.done wide_ok.wf
      have h0 : 0 < wideH.n := by decide
      have hD : 0 < wideH.D := by decide
      have hph : haloPhases wideH.P = 1 := by decide
      refine ⟨[4], ?_, ?_, ?_⟩
      · exact ⟨by decide, trivial⟩
      · exact ⟨by decide, trivial⟩
      · rw [async_final (HaloPlan.fwd_matched wide_ok dn) (HaloPlan.fwd_commutes wide_ok dn) hex h0 hfin,
          hph]
        have hm : InSlices ((S 0).cells 0 .rghost) [4] := by
          rw [HaloPlan.mem_cells wide_ok dn h0]
          refine ⟨rfl, fun j hj => ?_⟩
          have h0 : j = 0 := by change j < 1 at hj; omega
          subst h0
          decide
        obtain ⟨s, hs⟩ := HaloPlan.right_of_mem wide_ok dn hD h0 (Or.inl hm)
        obtain ⟨hsn, hs2, -⟩ := (HaloPlan.nb_spec wide_ok dn h0 hD).2.2.2 s hs
        have hs1 : s = 1 := by
          change s < 3 at hsn
          have : wideH.co s 0 = 1 := hs2
          interval_cases s
          · exact absurd this (by decide)
          · rfl
          · exact absurd this (by decide)
        subst hs1
        rw [HaloPlan.fwd_rghost (p := 0) wide_ok dn hD h0 hm hs]
        have e := HaloPlan.moved_getD (i := 0) wide_ok dn h0 hsn hD (l := [4]) rfl .rghost .lbulk
        have e' : wideH.low 0 1 .lbulk 0 + ([4].getD 0 0 - wideH.low 0 0 .rghost 0) = 3 := by decide
        rw [e'] at e
        show (if wideH.lw 0 1 ≤ List.getD _ 0 0 ∧ _ then _ else 0) ≠ _
        rw [e]
        decide

end

/-! ## C38: counterexamples -/

/-- C38 is false for padding wider than the kernel reaches: four cells over four workers, kernel size
1, padding 2.  Worker 0 holds three padded cells and produces three outputs, its balanced share of
the eight outputs is two; output 2 is also produced by worker 1. -/
theorem C38_false_padding :
    let P : Cart := ⟨[0, 1, 2, 3], [4], some 0⟩
    let L : Layout := [padBlocks 4 4 2]
    let qs := haloDims [4] L.global [1] [1] [0] [1]
    let t : Table := fun idx d => (L.getD d []).getD (idx.getD d 0) 0
    let nd := (exchangeInfo qs (some t) [0]).needed.getD 0 (0, 0)
    PlanDims P L qs ∧ t.Describes L ∧ (∀ q ∈ qs, q.Valid) ∧
      windows (nd.2 - nd.1).toNat 1 1 1 = 3 ∧ subsize 4 0 (outShape (qs.getD 0 default)) = 2 := by
  refine ⟨haloDims_plan ⟨by decide, rfl, by decide⟩ rfl _ _ _ _, fun _ _ _ _ => rfl, ?_, by decide,
    by decide⟩
  intro q hq
  have : q = ⟨4, 8, 1, 1, 0, 1⟩ := by
    have e : haloDims [4] (Layout.global [padBlocks 4 4 2]) [1] [1] [0] [1] = [⟨4, 8, 1, 1, 0, 1⟩] := by
      decide
    rw [e] at hq
    simpa using hq
  subst this
  exact ⟨by decide, by decide, by decide, rfl, by decide⟩

/-- C38 is false for an unbalanced input: blocks of 6 and 2 cells, kernel size 1, no padding.  Worker
0 produces six outputs, its balanced share is four. -/
theorem C38_false_unbalanced :
    let P : Cart := ⟨[0, 1], [2], some 0⟩
    let L : Layout := [[6, 2]]
    let qs := haloDims [2] L.global [1] [1] [0] [1]
    let t : Table := fun idx d => (L.getD d []).getD (idx.getD d 0) 0
    let nd := (exchangeInfo qs (some t) [0]).needed.getD 0 (0, 0)
    PlanDims P L qs ∧ t.Describes L ∧ (∀ q ∈ qs, q.Valid) ∧
      windows (nd.2 - nd.1).toNat 1 1 1 = 6 ∧ subsize 2 0 (outShape (qs.getD 0 default)) = 4 := by
  refine ⟨haloDims_plan ⟨by decide, rfl, by decide⟩ rfl _ _ _ _, fun _ _ _ _ => rfl, ?_, by decide,
    by decide⟩
  intro q hq
  have : q = ⟨2, 8, 1, 1, 0, 1⟩ := by
    have e : haloDims [2] (Layout.global [[6, 2]]) [1] [1] [0] [1] = [⟨2, 8, 1, 1, 0, 1⟩] := by decide
    rw [e] at hq
    simpa using hq
  subst this
  exact ⟨by decide, by decide, by decide, rfl, by decide⟩

/-! ## Worked cases -/

/-- Six workers in a 2 x 3 grid, 9 x 8 input padded by 1, kernel 3 x 3, strides 2 and 1. -/
def exHP : Cart := ⟨[0, 1, 2, 3, 4, 5], [2, 3], some 0⟩
def exHL : Layout := [padBlocks 2 9 1, padBlocks 3 8 1]
def exHQ : List HaloDim := haloDims exHP.shape exHL.global [3, 3] [2, 1] [0, 0] [1, 1]
def exHH : HaloPlan := HaloPlan.ofDims exHP exHL exHQ
def exHT : Table := fun idx d => (exHL.getD d []).getD (idx.getD d 0) 0

theorem exH_dims : PlanDims exHP exHL exHQ :=
  haloDims_plan (P := exHP) (L := exHL) ⟨by decide, rfl, by decide⟩ (by decide) _ _ _ _
theorem exH_table : exHT.Describes exHL := fun _ _ _ _ => rfl
theorem exH_fits : exHH.Fits where
  left j hj c hc := by
    change j < 2 at hj
    interval_cases j
    · change c + 1 < 2 at hc
      have hc' : c < 1 := by omega
      interval_cases c; decide
    · change c + 1 < 3 at hc
      have hc' : c < 2 := by omega
      interval_cases c <;> decide
  right j hj c hc := by
    change j < 2 at hj
    interval_cases j
    · change c + 1 < 2 at hc
      have hc' : c < 1 := by omega
      interval_cases c; decide
    · change c + 1 < 3 at hc
      have hc' : c < 2 := by omega
      interval_cases c <;> decide
theorem exH_ok : exHH.OK := plan_ok exH_dims exH_fits

example : (exchangeInfo exHQ (some exHT) [0, 1]).recv = [(0, 1), (1, 1)] := by decide
example : (exchangeInfo exHQ (some exHT) [0, 1]).send = [(0, 0), (1, 1)] := by decide
example : (exchangeInfo exHQ (some exHT) [1, 2]).needed = [(0, 5), (0, 4)] := by decide
example : exHH.shape 1 = [7, 5] := by decide
example : exHH.origin 4 = [6, 3] := by decide
example : haloPhases exHP = 2 := by decide
example : ∃ S, exHH.SetUp (β := Nat) (.inst .float64) (fun _ => 0) (fun _ => []) S := C35_setup exH_ok.wf _ _ _
example : ∀ q ∈ exHQ, q.Valid := by
  have e : exHQ = [⟨2, 11, 3, 2, 0, 1⟩, ⟨3, 10, 3, 1, 0, 1⟩] := by decide
  rw [e]
  intro q hq
  rcases List.mem_cons.1 hq with rfl | hq
  · exact ⟨by decide, by decide, by decide, rfl, by decide⟩
  · rw [List.mem_singleton] at hq
    subst hq
    exact ⟨by decide, by decide, by decide, rfl, by decide⟩
example : 0 < subsize 2 1 (outShape ⟨2, 11, 3, 2, 0, 1⟩) := by decide
/-- The hypotheses of `C37_silent` hold for three cells over three workers. -/
example : ¬ wideH.Fits := fun h => absurd (h.right 0 (by decide) 0 (by decide)) (by decide)
example : ∀ j, j < wideP.shape.length → ∀ c, c < wideP.shape.getD j 0 → 0 < (wideL.getD j []).getD c 0 := by
  intro j hj c hc
  have h0 : j = 0 := by change j < 1 at hj; omega
  subst h0
  change c < 3 at hc
  interval_cases c <;> decide

/-- Widths given by hand: worker 0 wants three cells from worker 1, who has two. -/
def handH : HaloPlan := ⟨⟨[0, 1], [2], some 0⟩, [[4, 2]], fun _ _ => 0, fun _ c => if c = 0 then 3 else 0⟩

example {β : Type} {S : Nat → HaloSetup} {dt : NpKey} {junk : Nat → β} {ops : Nat → List (MgrOp β)}
    (hS : handH.SetUp dt junk ops S) : (S 1).packRaises 0 .lbulk = true := by
  have hw : handH.P.WF := ⟨by decide, rfl, by decide⟩
  have dn := hS.done hw
  refine C37_rejected_partial hw hS (by decide) (by decide) (Or.inl ⟨rfl, by decide⟩) (by decide) ?_ ?_
  · rw [dn.has 1 (by decide) 0 (by decide)]; decide
  · rw [HaloSetup.cells, dn.shape 1 (by decide), dn.ws 1 (by decide)]; decide

/-- A piece that runs past the tensor: one cell per worker, width 3. -/
example : copyRaises [3] [2] = true := by decide

end Verif
