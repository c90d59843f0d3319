import Verif.Halo.Setup
import Mathlib.Tactic.IntervalCases

/-!
# Halo exchange: C34 - C38

`HaloPlan` describes an exchange independently of the code: partition, layout of the bulk, and how
many cells beyond its block every block index wants on the left and on the right.  `PlanDims`: the
parameters of `_compute_exchange_info` belong to a partition and a layout of the input;
`HaloPlan.ofDims`: the widths it computes.
-/

namespace Verif

open Exchange

variable {P : Cart} {L : Layout} {qs : List HaloDim} {t : Table} {β : Type}

/-! ## C34 -/

/-- C34: in every dimension, what a worker sends to its right neighbour is what that neighbour wants
on its left and conversely; at the boundary nothing is wanted and nothing is sent outward. -/
theorem C34_widths (h : PlanDims P L qs) (ht : t.Describes L) {idx : List Nat}
    (hi : InBounds idx P.shape) {j : Nat} (hj : j < P.shape.length) :
    (idx.getD j 0 + 1 < P.shape.getD j 0 →
      ((exchangeInfo qs (some t) idx).send.getD j (0, 0)).2 =
        ((exchangeInfo qs (some t) (idx.set j (idx.getD j 0 + 1))).recv.getD j (0, 0)).1 ∧
      ((exchangeInfo qs (some t) (idx.set j (idx.getD j 0 + 1))).send.getD j (0, 0)).1 =
        ((exchangeInfo qs (some t) idx).recv.getD j (0, 0)).2) ∧
    (idx.getD j 0 = 0 → ((exchangeInfo qs (some t) idx).recv.getD j (0, 0)).1 = 0 ∧
      ((exchangeInfo qs (some t) idx).send.getD j (0, 0)).1 = 0) ∧
    (idx.getD j 0 + 1 = P.shape.getD j 0 →
      ((exchangeInfo qs (some t) idx).recv.getD j (0, 0)).2 = 0 ∧
      ((exchangeInfo qs (some t) idx).send.getD j (0, 0)).2 = 0) ∧
    0 ≤ ((exchangeInfo qs (some t) idx).recv.getD j (0, 0)).1 ∧
    0 ≤ ((exchangeInfo qs (some t) idx).recv.getD j (0, 0)).2 := by
  have hlen : j < idx.length := by rw [hi.length_eq]; exact hj
  have hb := plan_boundary h hj
  have hlt := inBounds_getD hi hj
  have e : ∀ idx, (exchangeInfo qs (some t) idx).recv = haloShape true qs (some t) idx := fun _ => rfl
  have e' : ∀ idx, (exchangeInfo qs (some t) idx).send = sendShape qs (some t) idx := fun _ => rfl
  simp only [e, e']
  refine ⟨fun hn => ?_, fun h0 => ?_, fun h0 => ?_, ?_, ?_⟩
  · have hi' := inBounds_set hi hn
    rw [send_plan h ht hi hj, send_plan h ht hi' hj, recv_plan h ht hi hj, recv_plan h ht hi' hj,
      getD_set_eq hlen]
    simp only [HaloPlan.width]
    rw [show (HaloPlan.ofDims P L qs).Pd j = P.shape.getD j 0 from rfl, if_pos hn,
      if_pos (by omega), Nat.add_sub_cancel]
    exact ⟨rfl, rfl⟩
  · rw [recv_plan h ht hi hj, send_plan h ht hi hj, h0]
    exact ⟨congrArg (fun n : Nat => (n : Int)) hb.1, rfl⟩
  · rw [recv_plan h ht hi hj, send_plan h ht hi hj]
    have e2 : idx.getD j 0 = P.shape.getD j 0 - 1 := by omega
    refine ⟨by rw [e2]; exact congrArg (fun n : Nat => (n : Int)) hb.2, ?_⟩
    simp only [HaloPlan.width]
    rw [if_neg (by rw [show (HaloPlan.ofDims P L qs).Pd j = P.shape.getD j 0 from rfl]; omega)]
    rfl
  · rw [recv_plan h ht hi hj]; exact Int.natCast_nonneg _
  · rw [recv_plan h ht hi hj]; exact Int.natCast_nonneg _

/-- The shape of the local tensor after `F.pad` with the halo. -/
def paddedShape (x : List Nat) (recv : List (Int × Int)) : List Nat :=
  List.zipWith (fun (x : Nat) (w : Int × Int) => (w.1 + x + w.2).toNat) x recv

theorem paddedShape_plan (h : PlanDims P L qs) (ht : t.Describes L) {r : Nat}
    (hr : r < P.shape.prod) :
    paddedShape (L.shapeAt (getCoords P.shape r)) (exchangeInfo qs (some t) (getCoords P.shape r)).recv =
      (HaloPlan.ofDims P L qs).shape r := by
  have hi := (getCoords_spec hr).1
  have hl : (getCoords P.shape r).length = L.length := by rw [layout_length h, hi.length_eq]
  have hL1 : (L.shapeAt (getCoords P.shape r)).length = P.shape.length := by
    rw [Layout.length_shapeAt hl, layout_length h]
  have hL2 : (exchangeInfo qs (some t) (getCoords P.shape r)).recv.length = P.shape.length := by
    show (haloShape true qs (some t) _).length = _
    simp [haloShape, h.len]
  apply eq_of_getD
  · rw [paddedShape, List.length_zipWith, hL1, hL2, HaloPlan.length_shape]
    simp [HaloPlan.ofDims]
  · intro j hj
    rw [paddedShape, List.length_zipWith, hL1, hL2, Nat.min_self] at hj
    have e1 := (L.shapeAt_getD _ hl j (by rw [layout_length h]; exact hj)).1
    have e2 := recv_plan h ht hi hj
    change (exchangeInfo qs (some t) (getCoords P.shape r)).recv.getD j (0, 0) = _ at e2
    rw [List.getD_eq_getElem _ _ (by rw [hL1]; exact hj)] at e1
    rw [List.getD_eq_getElem _ _ (by rw [hL2]; exact hj)] at e2
    rw [paddedShape, List.getD_eq_getElem _ _ (by rw [List.length_zipWith, hL1, hL2]; simpa using hj),
      List.getElem_zipWith, e1, e2, HaloPlan.shape_getD (H := HaloPlan.ofDims P L qs) hj]
    simp only [HaloPlan.size, HaloPlan.co, HaloPlan.x, HaloPlan.ofDims]
    omega

/-- C34: for a worker and its right neighbour the four message shapes agree in all dimensions, the
same messages have a buffer on both sides, and the tags are those the other side uses. -/
theorem C34_shapes (h : PlanDims P L qs) (ht : t.Describes L) {dt : NpKey} {junk : Nat → β}
    {ops ops' : List (MgrOp β)} {r r' i : Nat} {nb : List (Option Nat × Option Nat)} {l : Option Nat}
    {S S' : HaloSetup}
    (hr : r < P.shape.prod) (hi : i < P.shape.length) (hnb : neighborRanks P r = some nb)
    (hri : nb[i]? = some (l, some r'))
    (hS : haloSetup P (exchangeInfo qs (some t) (getCoords P.shape r)).widths dt
      ((Mgr.init : Mgr β).run junk ops) junk (paddedShape (L.shapeAt (getCoords P.shape r))
        (exchangeInfo qs (some t) (getCoords P.shape r)).recv) r = some S)
    (hS' : haloSetup P (exchangeInfo qs (some t) (getCoords P.shape r')).widths dt
      ((Mgr.init : Mgr β).run junk ops') junk (paddedShape (L.shapeAt (getCoords P.shape r'))
        (exchangeInfo qs (some t) (getCoords P.shape r')).recv) r' = some S') :
    intSliceShape (haloSlice S.shape S.ws i .rghost) = intSliceShape (haloSlice S'.shape S'.ws i .lbulk) ∧
    intSliceShape (haloSlice S.shape S.ws i .rbulk) = intSliceShape (haloSlice S'.shape S'.ws i .lghost) ∧
    S.has i .rghost = S'.has i .lbulk ∧ S.has i .rbulk = S'.has i .lghost ∧
    S.peer i .rghost = some r' ∧ S'.peer i .lghost = some r ∧
    haloTag true .rghost = haloTag false .lbulk ∧ haloTag true .lghost = haloTag false .rbulk := by
  let H := HaloPlan.ofDims P L qs
  have hwf : H.P.WF := h.wf
  have hrn : r < H.n := by show r < P.members.length; rw [h.wf.size]; exact hr
  obtain ⟨nb', e1, -, e3⟩ := C28_neighbors P r hr
  rw [hnb] at e1
  cases e1
  obtain ⟨l', u', p1, -, -, -, p5⟩ := e3 i hi
  rw [hri] at p1
  cases p1
  obtain ⟨hr', c1, c2⟩ := p5 r' rfl
  have hrn' : r' < H.n := by show r' < P.members.length; rw [h.wf.size]; exact hr'
  obtain ⟨s, a1, a2, a3, a4, a5⟩ := H.haloSetup_spec hwf dt junk ops hrn
  obtain ⟨s', b1, b2, b3, b4, b5⟩ := H.haloSetup_spec hwf dt junk ops' hrn'
  rw [widths_plan h ht hr, paddedShape_plan h ht hr] at hS
  rw [widths_plan h ht hr', paddedShape_plan h ht hr'] at hS'
  have es : s = S := Option.some.inj (a1.symm.trans hS)
  have es' : s' = S' := Option.some.inj (b1.symm.trans hS')
  subst es es'
  have hlt : H.co r' i < H.Pd i := inBounds_getD (getCoords_spec hr').1 hi
  have ec : H.co r' i = H.co r i + 1 := c1
  have w1 : H.msgWidth .rghost i (H.co r i) = H.msgWidth .lbulk i (H.co r' i) := by
    simp only [HaloPlan.msgWidth, HaloPlan.width]
    rw [if_pos (by omega), ec, Nat.add_sub_cancel]
  have w2 : H.msgWidth .rbulk i (H.co r i) = H.msgWidth .lghost i (H.co r' i) := by
    simp only [HaloPlan.msgWidth, HaloPlan.width]
    rw [if_pos (by omega), ec]
  have m1 : H.msgShape i r .rghost = H.msgShape i r' .lbulk ∧
      H.msgShape i r .rbulk = H.msgShape i r' .lghost := by
    constructor
    all_goals
      unfold HaloPlan.msgShape
      apply List.map_congr_left
      intro j _
      by_cases d1 : j < i
      · simp only [d1, if_true]
        rw [show H.co r' j = H.co r j from c2 j (by omega)]
      · by_cases d2 : j = i
        · subst d2
          simp only [d1, if_false, if_true]
          assumption
        · simp only [d1, d2, if_false]
          rw [show H.co r' j = H.co r j from c2 j d2]
  refine ⟨?_, ?_, ?_, ?_, ?_, ?_, rfl, rfl⟩
  · rw [a2, a3, b2, b3, HaloPlan.intSliceShape_eq, HaloPlan.intSliceShape_eq, m1.1]
  · rw [a2, a3, b2, b3, HaloPlan.intSliceShape_eq, HaloPlan.intSliceShape_eq, m1.2]
  · rw [Bool.eq_iff_iff, a5 i hi, b5 i hi, w1, m1.1]
  · rw [Bool.eq_iff_iff, a5 i hi, b5 i hi, w2, m1.2]
  · have : nb = s.nb := Option.some.inj (hnb.symm.trans a4)
    subst this
    show (s.nb.getD i (none, none)).2 = some r'
    rw [List.getD_eq_getElem?_getD, hri]; rfl
  · have hsym := C28_symmetric P r r' i hr hr' hi nb s'.nb hnb b4
    obtain ⟨nb', f1, f2, -⟩ := C28_neighbors P r' hr'
    rw [show neighborRanks P r' = some s'.nb from b4] at f1
    cases f1
    have hl : i < s'.nb.length := by rw [f2]; exact hi
    rw [hri, List.getElem?_eq_getElem hl] at hsym
    simp only [Option.map_some, Option.some.injEq, true_iff] at hsym
    show (s'.nb.getD i (none, none)).1 = some r
    rw [List.getD_eq_getElem _ _ hl]
    exact hsym

/-! ## C35 -/

section
variable {H : HaloPlan} {S : Nat → HaloSetup} {dt : NpKey} {junk : Nat → β}
  {ops : Nat → List (MgrOp β)} {α : Type}

/-- Setup succeeds on every worker, whatever happened to its buffer manager before. -/
theorem C35_setup (h : H.P.WF) (dt : NpKey) (junk : Nat → β) (ops : Nat → List (MgrOp β)) :
    ∃ S, H.SetUp dt junk ops S := by
  refine ⟨fun r => (haloSetup H.P (H.widths r) dt ((Mgr.init : Mgr β).run junk (ops r)) junk
    (H.shape r) r).getD ⟨[], [], [], []⟩, fun r hr => ?_⟩
  obtain ⟨s, hs, -⟩ := H.haloSetup_spec h dt junk (ops r) hr
  simp only [hs, Option.getD_some]

/-- C35: let every worker hold its block of a global tensor `X` in the bulk of its padded tensor,
anything in the halo.  If no halo is wider than the block it is taken from, then in every execution,
once a worker has finished, every cell of its padded tensor, corners included, lies in the global
tensor and holds the value of `X` there. -/
theorem C35_ghosts (h : H.OK) (hf : H.Fits) (hS : H.SetUp dt junk ops S) (X : List Nat → α)
    (st0 : Nat → List Nat → α)
    (h0 : ∀ w, w < H.n → ∀ l, InBounds l (H.L.shapeAt (getCoords H.P.shape w)) →
      st0 w (shiftBy ((List.range H.D).map fun j => H.lw j (H.co w j)) l) =
        X (shiftBy (H.L.startAt (getCoords H.P.shape w)) l))
    {eager : Bool} {k : Nat} {g : GState (List Nat → α) (List Nat → α)}
    (hex : Exec (haloForward S) H.n (haloPhases H.P) eager k (GState.init st0) g)
    {w : Nat} (hw : w < H.n) (hfin : (g.ws w).phase = haloPhases H.P) :
    ∀ l, InBounds l (H.shape w) →
      InBounds (shiftBy (H.origin w) l) H.L.global ∧ (g.ws w).st l = X (shiftBy (H.origin w) l) := by
  intro l hl
  have dn := hS.done h.wf
  refine ⟨HaloPlan.inside h hf hw hl, ?_⟩
  rw [async_final (HaloPlan.fwd_matched h dn) (HaloPlan.fwd_commutes h dn) hex hw hfin]
  refine HaloPlan.fwd_final h hf dn X ?_ w hw l hl
  clear hl l hfin hw w
  intro w hw l hl hb
  have hlen : l.length = H.D := by rw [(inBounds_iff.1 hl).1, HaloPlan.length_shape]
  have hi := (getCoords_spec (shape := H.P.shape) (by rw [← H.n_eq h]; exact hw)).1
  have hLl : H.L.length = H.D := by rw [← H.L.length_pshape, h.layout]
  have hl2 : (getCoords H.P.shape w).length = H.L.length := by rw [hLl, hi.length_eq]
  have hrel : ∀ j, j < H.D →
      (List.zipWith (· - ·) l ((List.range H.D).map fun j => H.lw j (H.co w j))).getD j 0 =
        l.getD j 0 - H.lw j (H.co w j) := by
    intro j hj
    rw [getD_zipWith_sub (by rw [hlen]; exact hj) (by simpa using hj), getD_map_range _ _ hj]
  have hrl : (List.zipWith (· - ·) l ((List.range H.D).map fun j => H.lw j (H.co w j))).length = H.D := by
    simp [hlen]
  have key := h0 w hw (List.zipWith (· - ·) l ((List.range H.D).map fun j => H.lw j (H.co w j))) (by
    rw [inBounds_iff, Layout.length_shapeAt hl2, hLl, hrl]
    refine ⟨rfl, fun j hj => ?_⟩
    rw [hrel j hj, (H.L.shapeAt_getD _ hl2 j (by rw [hLl]; exact hj)).1]
    have := hb j (Nat.zero_le _) hj
    unfold HaloPlan.x HaloPlan.co at this
    unfold HaloPlan.co
    omega)
  have e1 : shiftBy ((List.range H.D).map fun j => H.lw j (H.co w j))
      (List.zipWith (· - ·) l ((List.range H.D).map fun j => H.lw j (H.co w j))) = l := by
    apply eq_of_getD
    · rw [length_shiftBy (by rw [hrl]; simp), hlen]; simp
    · intro j hj
      rw [length_shiftBy (by rw [hrl]; simp)] at hj
      replace hj : j < H.D := by simpa using hj
      rw [getD_shiftBy (by simpa using hj) (by rw [hrl]; exact hj), hrel j hj, getD_map_range _ _ hj]
      have := hb j (Nat.zero_le _) hj
      omega
  have e2 : shiftBy (H.L.startAt (getCoords H.P.shape w))
      (List.zipWith (· - ·) l ((List.range H.D).map fun j => H.lw j (H.co w j))) =
      shiftBy (H.origin w) l := by
    have hsl : (H.L.startAt (getCoords H.P.shape w)).length = H.D := by
      rw [Layout.length_startAt hl2, hLl]
    apply eq_of_getD
    · rw [length_shiftBy (by rw [hrl, hsl]), length_shiftBy (by rw [hlen]; simp [HaloPlan.origin]), hsl]
      simp [HaloPlan.origin]
    · intro j hj
      rw [length_shiftBy (by rw [hrl, hsl]), hsl] at hj
      rw [getD_shiftBy (by rw [hsl]; exact hj) (by rw [hrl]; exact hj), hrel j hj,
        getD_shiftBy (by simpa [HaloPlan.origin] using hj) (by rw [hlen]; exact hj),
        HaloPlan.origin_getD hj, (H.L.shapeAt_getD _ hl2 j (by rw [hLl]; exact hj)).2.1]
      have h1 := hb j (Nat.zero_le _) hj
      have h2 := HaloPlan.lw_le_st h hf hw hj
      unfold HaloPlan.st HaloPlan.co at h2 ⊢
      unfold HaloPlan.co at h1
      omega
  rw [e1, e2] at key
  exact key

/-- C35: no execution of the exchange is stuck or infinite, with buffered or unbuffered sends; this
does not need the halos to fit. -/
theorem C35_terminates (h : H.OK) (hS : H.SetUp dt junk ops S) (st0 : Nat → List Nat → α)
    {eager : Bool} {k : Nat} {g : GState (List Nat → α) (List Nat → α)}
    (hex : Exec (haloForward S) H.n (haloPhases H.P) eager k (GState.init st0) g) :
    ((∃ w, w < H.n ∧ (g.ws w).phase < haloPhases H.P) →
      ∃ g', Step (haloForward S) H.n (haloPhases H.P) eager g g') ∧
    k ≤ ((List.range H.n).map fun _ => 10 * haloPhases H.P).sum := by
  have dn := hS.done h.wf
  refine ⟨no_deadlock (HaloPlan.fwd_matched h dn) (HaloPlan.fwd_commutes h dn) hex, ?_⟩
  have := bounded (HaloPlan.fwd_matched h dn) (HaloPlan.fwd_commutes h dn) hex
  have e : ∀ w, ((List.range (haloPhases H.P)).map fun p =>
      2 * ((haloForward (α := α) S) p w).total + 2).sum = 10 * haloPhases H.P := by
    intro w
    rw [show (fun p => 2 * ((haloForward (α := α) S) p w).total + 2) = fun _ => 10 from rfl,
      List.map_const', List.sum_replicate, List.length_range]
    simp [Nat.mul_comm]
  simp only [e] at this
  exact this

/-! ## C36 -/

/-- C36: `⟨H x, y⟩ = ⟨x, H* y⟩` over all cells of all padded tensors, for all completed executions of
the exchange and of its adjoint; the halos need only be taken from inside the neighbour's tensor. -/
theorem C36_adjoint [CommSemiring α] (h : H.OK) (hS : H.SetUp dt junk ops S)
    (x y : Nat → List Nat → α) {e e' : Bool} {k k' : Nat}
    {g g' : GState (List Nat → α) (List Nat → α)}
    (hex : Exec (haloForward S) H.n (haloPhases H.P) e k (GState.init x) g)
    (hex' : Exec (haloBackward H.D S) H.n (haloPhases H.P) e' k' (GState.init y) g')
    (hfin : ∀ w, w < H.n → (g.ws w).phase = haloPhases H.P ∧ (g'.ws w).phase = haloPhases H.P) :
    ∑ w ∈ Finset.range H.n, boxSum (H.shape w) (fun l => (g.ws w).st l * y w l) =
      ∑ w ∈ Finset.range H.n, boxSum (H.shape w) fun l => x w l * (g'.ws w).st l := by
  have dn := hS.done h.wf
  have hadj := HaloPlan.all_adjoint (st0 := x) (st0' := y) h dn
  unfold HaloPlan.inner at hadj
  rw [Finset.sum_congr rfl fun w hw => by
      rw [async_final (HaloPlan.fwd_matched h dn) (HaloPlan.fwd_commutes h dn) hex
        (Finset.mem_range.1 hw) (hfin w (Finset.mem_range.1 hw)).1],
    hadj]
  exact (Finset.sum_congr rfl fun w hw => by
    rw [async_final (HaloPlan.bwd_matched h dn) HaloPlan.bwd_commutes hex'
      (Finset.mem_range.1 hw) (hfin w (Finset.mem_range.1 hw)).2]).symm

/-- C36: when no halo is wider than the block it belongs to, the adjoint leaves zero in every halo
cell. -/
theorem C36_cleared [AddCommMonoid α] (h : H.OK) (hf : H.Fits) (hS : H.SetUp dt junk ops S)
    (y : Nat → List Nat → α) {e : Bool} {k : Nat} {g : GState (List Nat → α) (List Nat → α)}
    (hex : Exec (haloBackward H.D S) H.n (haloPhases H.P) e k (GState.init y) g) {w : Nat}
    (hw : w < H.n) (hfin : (g.ws w).phase = haloPhases H.P) {l : List Nat}
    (hl : InBounds l (H.shape w))
    (hg : ∃ j, j < H.D ∧ (l.getD j 0 < H.lw j (H.co w j) ∨
      H.lw j (H.co w j) + H.x j (H.co w j) ≤ l.getD j 0)) : (g.ws w).st l = 0 := by
  have dn := hS.done h.wf
  obtain ⟨j, hj, hc⟩ := hg
  have h2 := (inBounds_iff.1 hl).2 j (by rw [HaloPlan.length_shape]; exact hj)
  rw [HaloPlan.shape_getD hj, HaloPlan.size] at h2
  rw [async_final (HaloPlan.bwd_matched h dn) HaloPlan.bwd_commutes hex hw hfin]
  unfold haloPhases
  split
  · rename_i h1
    have := HaloPlan.single h h1 hw hj
    omega
  · apply HaloPlan.bwd_clear h hf dn _ (Nat.le_refl _) w hw l hl
    intro hb
    have := hb j (by show H.D - H.D ≤ j; omega) hj
    omega

/-- C36: the adjoint terminates as the exchange does. -/
theorem C36_terminates [AddCommMonoid α] (h : H.OK) (hS : H.SetUp dt junk ops S)
    (st0 : Nat → List Nat → α) {eager : Bool} {k : Nat} {g : GState (List Nat → α) (List Nat → α)}
    (hex : Exec (haloBackward H.D S) H.n (haloPhases H.P) eager k (GState.init st0) g) :
    ((∃ w, w < H.n ∧ (g.ws w).phase < haloPhases H.P) →
      ∃ g', Step (haloBackward H.D S) H.n (haloPhases H.P) eager g g') ∧
    k ≤ ((List.range H.n).map fun _ => 10 * haloPhases H.P).sum := by
  have dn := hS.done h.wf
  refine ⟨no_deadlock (HaloPlan.bwd_matched h dn) HaloPlan.bwd_commutes hex, ?_⟩
  have := bounded (HaloPlan.bwd_matched h dn) HaloPlan.bwd_commutes hex
  have e : ∀ w, ((List.range (haloPhases H.P)).map fun p =>
      2 * ((haloBackward (α := α) H.D S) p w).total + 2).sum = 10 * haloPhases H.P := by
    intro w
    rw [show (fun p => 2 * ((haloBackward (α := α) H.D S) p w).total + 2) = fun _ => 10 from rfl,
      List.map_const', List.sum_replicate, List.length_range]
    simp [Nat.mul_comm]
  simp only [e] at this
  exact this

end

/-! ## C38 -/

/-- Number of windows of a kernel of size `k`, dilation `d`, stride `s` in an input of length `len`
(torch, no padding), when at least one fits. -/
def windows (len k s d : Nat) : Nat := (len - (d * (k - 1) + 1)) / s + 1

theorem windows_arith {s Y y span len : Nat} {E : Int} (hs : 0 < s) (hy : 0 < y)
    (hlen : (len : Int) = max E (s * (Y + y - 1) + span : Nat) - (s * Y : Nat)) :
    (len - span) / s + 1 = y ↔ E < (s * (Y + y) + span : Nat) := by
  obtain ⟨y, rfl⟩ : ∃ z, y = z + 1 := ⟨y - 1, by omega⟩
  rw [show Y + (y + 1) - 1 = Y + y by omega] at hlen
  rw [show Y + (y + 1) = Y + y + 1 by omega, Nat.add_right_cancel_iff, Nat.div_eq_iff hs,
    Nat.mul_comm y s, Nat.mul_add s (Y + y) 1, Nat.mul_one]
  rw [Nat.mul_add] at hlen ⊢
  constructor
  · rintro ⟨h1, h2⟩
    omega
  · intro h1
    omega

/-- The part of the padded tensor handed to the operator, in terms of the layout. -/
theorem needed_eq (h : PlanDims P L qs) (ht : t.Describes L) {idx : List Nat}
    (hi : InBounds idx P.shape) {j : Nat} (hj : j < P.shape.length) :
    let q := qs.getD j default
    let x : Int := (L.getD j []).getD (idx.getD j 0) 0
    let w := halo1 false q (idx.getD j 0) ((L.getD j []).take (idx.getD j 0)).sum
      ((L.getD j []).getD (idx.getD j 0) 0)
    (exchangeInfo qs (some t) idx).needed.getD j (0, 0) = (-1 * min 0 w.1, x + max 0 w.1 + max 0 w.2) := by
  intro q x w
  show (neededRanges _ _).getD j (0, 0) = _
  have hl1 : j < (haloShape false qs (some t) idx).length := by simp [haloShape, h.len]; exact hj
  have e1 := recv_eq h ht hi hj false
  rw [List.getD_eq_getElem _ _ hl1] at e1
  rw [neededRanges, List.getD_eq_getElem _ _ (by
    rw [List.length_zipWith]; simp only [List.length_map, List.length_range, Nat.lt_min]
    exact ⟨by rw [h.len]; exact hj, hl1⟩), List.getElem_zipWith, e1]
  have e2 : ((List.range qs.length).map fun j => match some t with
      | some t => t idx j
      | none => subsize (qs.getD j default).P (idx.getD j 0) (qs.getD j default).N).getD j 0 =
      (L.getD j []).getD (idx.getD j 0) 0 := by
    rw [getD_map_range _ _ (by rw [h.len]; exact hj)]
    exact ht idx (by rw [h.layout]; exact hi) j (by rw [layout_length h]; exact hj)
  rw [List.getD_eq_getElem _ _ (by simp [h.len]; exact hj)] at e2
  rw [e2]

/-- C38: for every layout of the input, every worker with outputs `Y ≤ o < Y + y` and every dimension:
the part of the padded tensor handed to the operator is a non-empty range `a ≤ b` of it, begins at the
input cell `s * Y` that the first output reads first, and contains every cell `s * o + d * κ` its
outputs read. -/
theorem C38_ranges (h : PlanDims P L qs) (ht : t.Describes L) {idx : List Nat}
    (hi : InBounds idx P.shape) {j : Nat} (hj : j < P.shape.length)
    (hv : (qs.getD j default).Valid)
    (hy : 0 < subsize (qs.getD j default).P (idx.getD j 0) (outShape (qs.getD j default))) :
    let q := qs.getD j default
    let e := exchangeInfo qs (some t) idx
    let rv := e.recv.getD j (0, 0)
    let nd := e.needed.getD j (0, 0)
    let X : Int := ((L.getD j []).take (idx.getD j 0)).sum
    let x : Int := (L.getD j []).getD (idx.getD j 0) 0
    let Y := startIdx q.P (idx.getD j 0) (outShape q)
    let y := subsize q.P (idx.getD j 0) (outShape q)
    0 ≤ nd.1 ∧ nd.1 < nd.2 ∧ nd.2 = rv.1 + x + rv.2 ∧
    X - rv.1 + nd.1 = q.s * Y ∧
    (∀ o, Y ≤ o → o < Y + y → ∀ κ, κ < q.k →
      X - rv.1 + nd.1 ≤ (q.s * o + q.d * κ : Nat) ∧ ((q.s * o + q.d * κ : Nat) : Int) < X - rv.1 + nd.2) ∧
    (windows (nd.2 - nd.1).toNat q.k q.s q.d = y ↔ X + x < (q.s * (Y + y) + q.span : Nat)) := by
  intro q e rv nd X x Y y
  have hlen : j < idx.length := by rw [hi.length_eq]; exact hj
  have hlt : idx.getD j 0 < q.P := by
    show _ < (qs.getD j default).P
    rw [h.workers j hj]; exact inBounds_getD hi hj
  have hrv : rv = halo1 true q (idx.getD j 0) ((L.getD j []).take (idx.getD j 0)).sum
      ((L.getD j []).getD (idx.getD j 0) 0) := recv_eq h ht hi hj true
  have hnd : nd = (-1 * min 0 (halo1 false q (idx.getD j 0) ((L.getD j []).take (idx.getD j 0)).sum
      ((L.getD j []).getD (idx.getD j 0) 0)).1, x + max 0 (halo1 false q (idx.getD j 0)
        ((L.getD j []).take (idx.getD j 0)).sum ((L.getD j []).getD (idx.getD j 0) 0)).1 +
        max 0 (halo1 false q (idx.getD j 0) ((L.getD j []).take (idx.getD j 0)).sum
      ((L.getD j []).getD (idx.getD j 0) 0)).2) := needed_eq h ht hi hj
  obtain ⟨g1, g2⟩ := hv.halo (X := ((L.getD j []).take (idx.getD j 0)).sum)
    (x := (L.getD j []).getD (idx.getD j 0) 0) hlt hy
  obtain ⟨m1, m2⟩ := halo1_max q (idx.getD j 0) ((L.getD j []).take (idx.getD j 0)).sum
    ((L.getD j []).getD (idx.getD j 0) 0)
  have hst : startIdx q.P (idx.getD j 0 + 1) (outShape q) = Y + y := startIdx_succ _ _ _
  have r1 : rv.1 = max (X - (q.s * Y : Nat)) 0 := by rw [hrv, m1, g1]
  have r2 : rv.2 = max ((q.s * (Y + y - 1) + q.span : Nat) - (X + x)) 0 := by rw [hrv, m2, g2, hst]
  have n1 : nd.1 = -1 * min 0 (X - (q.s * Y : Nat)) := by rw [hnd, g1]
  have n2 : nd.2 = x + max 0 (X - (q.s * Y : Nat)) +
      max 0 ((q.s * (Y + y - 1) + q.span : Nat) - (X + x)) := by rw [hnd, g1, g2, hst]
  have hy' : 0 < y := hy
  have hspan : 0 < q.span := Nat.succ_pos _
  have hm : q.s * Y ≤ q.s * (Y + y - 1) := Nat.mul_le_mul_left _ (by omega)
  have hmul : q.s * (Y + y) = q.s * (Y + y - 1) + q.s := by
    rw [show Y + y = Y + y - 1 + 1 by omega, Nat.mul_add, Nat.mul_one, Nat.add_sub_cancel]
  have hsp := hv.s
  have hx0 : 0 ≤ x := Int.natCast_nonneg _
  have hX0 : 0 ≤ X := Int.natCast_nonneg _
  have hb : X - rv.1 + nd.2 = max (X + x) (q.s * (Y + y - 1) + q.span : Nat) := by
    rw [r1, n2]; omega
  have ha : X - rv.1 + nd.1 = (q.s * Y : Nat) := by rw [r1, n1]; omega
  refine ⟨by omega, by omega, by omega, by rw [ha]; push_cast; rfl, ?_, ?_⟩
  · intro o ho1 ho2 κ hκ
    have a1 : q.s * Y ≤ q.s * o := Nat.mul_le_mul_left _ ho1
    have a2 : q.s * o ≤ q.s * (Y + y - 1) := Nat.mul_le_mul_left _ (by omega)
    have a3 : q.d * κ ≤ q.d * (q.k - 1) := Nat.mul_le_mul_left _ (by omega)
    have a4 : q.span = q.d * (q.k - 1) + 1 := rfl
    rw [ha, hb]
    omega
  · have hlen2 : ((nd.2 - nd.1).toNat : Int) = max (X + x) (q.s * (Y + y - 1) + q.span : Nat) -
        (q.s * Y : Nat) := by omega
    exact windows_arith hsp hy' hlen2

/-- Block lengths after padding: `p` cells are added to the first and to the last block of a balanced
decomposition (`conv_feature.py:268, 345-355`, `pooling.py:179, 264-274`). -/
def padBlocks (P n p : Nat) : List Nat :=
  (List.range P).map fun i => subsize P i n + (if i = 0 then p else 0) + (if i + 1 = P then p else 0)

theorem padBlocks_take (P n p c : Nat) (hc : c < P) :
    ((padBlocks P n p).take c).sum = startIdx P c n + (if 0 < c then p else 0) := by
  induction c with
  | zero => simp [startIdx_zero]
  | succ c ih =>
    rw [take_sum_succ, ih (by omega), padBlocks, getD_map_range _ _ (by omega), startIdx_succ]
    unfold stopIdx
    rw [if_neg (show ¬ c + 1 = P by omega)]
    rcases Nat.eq_zero_or_pos c with rfl | h0
    · simp [Nat.add_assoc]
    · rw [if_pos h0, if_neg (by omega), if_pos (by omega)]
      omega

/-- The end of a padded block. -/
theorem padBlocks_end (P n p c : Nat) (hc : c < P) :
    ((padBlocks P n p).take c).sum + (padBlocks P n p).getD c 0 =
      startIdx P (c + 1) n + p + (if c + 1 = P then p else 0) := by
  rw [padBlocks_take P n p c hc, padBlocks, getD_map_range _ _ hc, startIdx_succ]
  unfold stopIdx
  rcases Nat.eq_zero_or_pos c with rfl | h0
  · simp; omega
  · rw [if_pos h0, if_neg (by omega)]
    omega

theorem padBlocks_sum (P n p : Nat) (hP : 0 < P) : (padBlocks P n p).sum = n + 2 * p := by
  have h := padBlocks_end P n p (P - 1) (by omega)
  rw [← take_sum_succ, show P - 1 + 1 = P by omega, if_pos rfl, startIdx_top hP] at h
  have : (padBlocks P n p).take P = padBlocks P n p := by
    apply List.take_of_length_le
    simp [padBlocks]
  rw [this] at h
  omega

/-- C38, partial: if the input is balanced and padded by at most `d * (k - 1)` cells on each side,
the local operator produces exactly the worker's balanced share of the outputs.

Full statement: the same for every layout of the input and every padding; it is false
(`C38_false_padding`, `C38_false_unbalanced`) because a right halo that is negative is not cut off. -/
theorem C38_outputs_partial (h : PlanDims P L qs) (ht : t.Describes L) {idx : List Nat}
    (hi : InBounds idx P.shape) {j : Nat} (hj : j < P.shape.length)
    (hv : (qs.getD j default).Valid)
    (hy : 0 < subsize (qs.getD j default).P (idx.getD j 0) (outShape (qs.getD j default)))
    {n p : Nat} (hL : L.getD j [] = padBlocks (P.shape.getD j 0) n p)
    (hp : p ≤ (qs.getD j default).d * ((qs.getD j default).k - 1)) :
    let q := qs.getD j default
    let nd := (exchangeInfo qs (some t) idx).needed.getD j (0, 0)
    windows (nd.2 - nd.1).toNat q.k q.s q.d = subsize q.P (idx.getD j 0) (outShape q) := by
  intro q nd
  obtain ⟨-, -, -, -, -, key⟩ := C38_ranges h ht hi hj hv hy
  refine key.2 ?_
  have hlt := inBounds_getD hi hj
  have hPq : q.P = P.shape.getD j 0 := h.workers j hj
  have hP : 0 < q.P := hv.P
  have hend := padBlocks_end (P.shape.getD j 0) n p (idx.getD j 0) hlt
  rw [← hL] at hend
  have hN : q.N = n + 2 * p := by
    have := h.extent j hj
    rw [hL, padBlocks_sum _ _ _ (by omega)] at this
    exact this
  have hout := hv.out_bounds.2
  have hst : startIdx q.P (idx.getD j 0 + 1) (outShape q) =
      startIdx q.P (idx.getD j 0) (outShape q) + subsize q.P (idx.getD j 0) (outShape q) :=
    startIdx_succ _ _ _
  have hspan : q.span = q.d * (q.k - 1) + 1 := rfl
  change p ≤ q.d * (q.k - 1) at hp
  change q.N + 1 ≤ q.s * outShape q + q.span at hout
  rw [← hst]
  have goal : startIdx q.P (idx.getD j 0 + 1) n + p + (if idx.getD j 0 + 1 = P.shape.getD j 0 then p else 0) <
      q.s * startIdx q.P (idx.getD j 0 + 1) (outShape q) + q.span := by
    by_cases c : idx.getD j 0 + 1 = P.shape.getD j 0
    · rw [if_pos c, c, ← hPq, startIdx_top hP, startIdx_top hP]
      omega
    · rw [if_neg c]
      have m1 := startIdx_mul_le (P := q.P) (i := idx.getD j 0 + 1) q.s (outShape q) hP (by omega)
      by_cases c2 : 2 * p ≤ q.d * (q.k - 1)
      · have m2 := startIdx_mono_right (P := q.P) (i := idx.getD j 0 + 1) (a := n)
          (b := q.s * outShape q + (q.d * (q.k - 1) - 2 * p)) hP (by omega)
        have m3 := startIdx_add_le (P := q.P) (i := idx.getD j 0 + 1) (q.s * outShape q)
          (q.d * (q.k - 1) - 2 * p) hP (by omega)
        have m4 := startIdx_le (P := q.P) hP (q.d * (q.k - 1) - 2 * p) (show idx.getD j 0 + 1 ≤ q.P by omega)
        omega
      · have m2 := startIdx_mono_right (P := q.P) (i := idx.getD j 0 + 1) (a := n)
          (b := q.s * outShape q) hP (by omega)
        omega
  have e : ((L.getD j []).take (idx.getD j 0)).sum + (L.getD j []).getD (idx.getD j 0) 0 <
      q.s * startIdx q.P (idx.getD j 0 + 1) (outShape q) + q.span := by
    rw [hend, ← hPq]
    rw [← hPq] at goal
    exact goal
  exact_mod_cast e

end Verif
