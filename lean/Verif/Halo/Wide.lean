import Verif.Halo.Props

/-!
# Halos wider than the neighbouring block

Widths computed by `_compute_exchange_info` always let a worker take its messages from inside its
padded tensor, so nothing is rejected; but a message reaching past the worker's own block contains
halo cells that have not been filled.
-/

namespace Verif

open Exchange

variable {P : Cart} {L : Layout} {qs : List HaloDim}

/-- The needed ranges of consecutive workers move to the right. -/
theorem halo1_mono (q : HaloDim) (i X x x' : Nat) :
    (halo1 true q (i + 1) (X + x) x').1 ≤ (halo1 true q i X x).1 + x ∧
    (halo1 true q i X x).2 ≤ x' + (halo1 true q (i + 1) (X + x) x').2 := by
  have h1 := startIdx_succ q.P i (outShape q)
  have h2 := startIdx_succ q.P (i + 1) (outShape q)
  have h3 : startIdx q.P i (outShape q) ≤ startIdx q.P (i + 1) (outShape q) :=
    startIdx_mono _ _ (by omega)
  have h4 : startIdx q.P (i + 1) (outShape q) ≤ startIdx q.P (i + 1 + 1) (outShape q) :=
    startIdx_mono _ _ (by omega)
  unfold stopIdx at h1 h2
  have m1 : (q.s : Int) * (startIdx q.P i (outShape q) : Int) ≤
      q.s * (startIdx q.P (i + 1) (outShape q) : Int) :=
    Int.mul_le_mul_of_nonneg_left (by exact_mod_cast h3) (Int.natCast_nonneg _)
  have m2 : (q.s : Int) * ((startIdx q.P i (outShape q) : Int) + (subsize q.P i (outShape q) : Int) - 1) ≤
      q.s * ((startIdx q.P (i + 1) (outShape q) : Int) + (subsize q.P (i + 1) (outShape q) : Int) - 1) :=
    Int.mul_le_mul_of_nonneg_left (by omega) (Int.natCast_nonneg _)
  simp only [halo1, if_true, minInput, maxInput]
  push_cast
  omega

/-- Computed widths never make a worker reach outside its padded tensor. -/
theorem plan_ok_always (h : PlanDims P L qs) : (HaloPlan.ofDims P L qs).OK where
  wf := h.wf
  layout := h.layout
  left0 j hj := (plan_boundary h hj).1
  right0 j hj := (plan_boundary h hj).2
  rangel j hj c hc := by
    have := (halo1_mono (qs.getD j default) c ((L.getD j []).take c).sum ((L.getD j []).getD c 0)
      ((L.getD j []).getD (c + 1) 0)).1
    rw [← take_sum_succ] at this
    simp only [HaloPlan.ofDims, HaloPlan.x]
    omega
  ranger j hj c hc := by
    have := (halo1_mono (qs.getD j default) c ((L.getD j []).take c).sum ((L.getD j []).getD c 0)
      ((L.getD j []).getD (c + 1) 0)).2
    rw [← take_sum_succ] at this
    simp only [HaloPlan.ofDims, HaloPlan.x]
    omega

/-- With its halos a block stays inside the global tensor, however wide they are. -/
theorem plan_inside (h : PlanDims P L qs) {w : Nat} (hw : w < (HaloPlan.ofDims P L qs).n) {l : List Nat}
    (hl : InBounds l ((HaloPlan.ofDims P L qs).shape w)) :
    InBounds (shiftBy ((HaloPlan.ofDims P L qs).origin w) l) L.global := by
  have ok := plan_ok_always h
  have hlen : l.length = P.shape.length := by rw [(inBounds_iff.1 hl).1, HaloPlan.length_shape]; rfl
  have hLl : L.length = P.shape.length := layout_length h
  rw [inBounds_iff]
  refine ⟨by rw [length_shiftBy (by rw [hlen]; simp [HaloPlan.origin]; rfl), Layout.length_global, hLl]
             simp [HaloPlan.origin]; rfl, fun j hj => ?_⟩
  rw [Layout.length_global, hLl] at hj
  rw [getD_shiftBy (by simp [HaloPlan.origin]; exact hj) (by rw [hlen]; exact hj),
    HaloPlan.origin_getD hj]
  have h1 := (inBounds_iff.1 hl).2 j (by rw [HaloPlan.length_shape]; exact hj)
  rw [HaloPlan.shape_getD hj] at h1
  have hlt : (HaloPlan.ofDims P L qs).co w j < P.shape.getD j 0 := HaloPlan.co_lt ok hw hj
  generalize hc : (HaloPlan.ofDims P L qs).co w j = c at *
  have hg : L.global.getD j 0 = (L.getD j []).sum := by
    have hl' : j < L.length := by rw [hLl]; exact hj
    unfold Layout.global
    rw [List.getD_eq_getElem _ _ (by simpa using hl'), List.getElem_map, List.getD_eq_getElem _ _ hl']
  have hN := h.extent j hj
  rw [hg, ← hN]
  simp only [HaloPlan.size, HaloPlan.ofDims, HaloPlan.x] at h1
  simp only [HaloPlan.ofDims, HaloPlan.st]
  have hsum : ((L.getD j []).take c).sum + (L.getD j []).getD c 0 ≤ (qs.getD j default).N := by
    rw [hN, ← take_sum_succ]
    conv_rhs => rw [← List.take_append_drop (c + 1) (L.getD j []), List.sum_append]
    omega
  simp only [halo1, if_true] at h1 ⊢
  omega

section
variable {H : HaloPlan} {S : Nat → HaloSetup} {α : Type} {st0 : Nat → List Nat → α}

/-- A cell in the bulk of a dimension is not touched by that dimension's phase. -/
theorem HaloPlan.fwd_keep (h : H.OK) (dn : H.Done S) {p w : Nat} (hp : p < H.D) (hw : w < H.n)
    {l : List Nat} (h1 : H.lw p (H.co w p) ≤ l.getD p 0)
    (h2 : l.getD p 0 < H.lw p (H.co w p) + H.x p (H.co w p)) :
    lock (haloForward S) st0 (p + 1) w l = lock (haloForward S) st0 p w l := by
  apply fwd_other
  · intro hm
    have := ((mem_cells h dn hw .lghost l).1 hm).2 p hp
    rw [msgShape, getD_map_range _ _ hp] at this
    simp only [low, Nat.lt_irrefl, if_false, if_true, msgWidth, width] at this
    omega
  · intro hm
    have := ((mem_cells h dn hw .rghost l).1 hm).2 p hp
    simp only [low, Nat.lt_irrefl, if_false, if_true] at this
    omega

/-- Phases of dimensions in which the cell is in the bulk leave it alone. -/
theorem HaloPlan.fwd_keep_range (h : H.OK) (dn : H.Done S) {w : Nat} (hw : w < H.n) {l : List Nat}
    {a b : Nat} (hab : a ≤ b) (hb : b ≤ H.D)
    (hl : ∀ p, a ≤ p → p < b → H.lw p (H.co w p) ≤ l.getD p 0 ∧
      l.getD p 0 < H.lw p (H.co w p) + H.x p (H.co w p)) :
    lock (haloForward S) st0 b w l = lock (haloForward S) st0 a w l := by
  induction hab with
  | refl => rfl
  | @step b hab ih =>
    rw [fwd_keep h dn (by omega) hw (hl b hab (by omega)).1 (hl b hab (by omega)).2]
    exact ih (by omega) fun p h1 h2 => hl p h1 (by omega)

/-- A worker with a given block index in one dimension. -/
theorem HaloPlan.exists_worker (h : H.OK) {j c : Nat} (hj : j < H.D) (hc : c < H.Pd j) :
    ∃ w, w < H.n ∧ H.co w j = c := by
  have hb : InBounds ((List.replicate H.D 0).set j c) H.P.shape := by
    rw [inBounds_iff]
    refine ⟨by simp, fun k hk => ?_⟩
    by_cases e : j = k
    · subst e
      rw [getD_set_eq (by simpa using hk)]
      exact hc
    · rw [getD_set_ne e, List.getD_eq_getElem _ _ (by simpa using hk), List.getElem_replicate,
        List.getD_eq_getElem _ _ hk]
      exact h.wf.pos _ (List.getElem_mem hk)
  refine ⟨flatC H.P.shape ((List.replicate H.D 0).set j c), ?_, ?_⟩
  · rw [H.n_eq h]; exact flatC_lt hb
  · rw [co, getCoords_flatC hb, getD_set_eq (by simpa using hj)]

theorem HaloPlan.phases_of (h : H.OK) {j c : Nat} (hj : j < H.D) (hc : c + 1 < H.Pd j) :
    haloPhases H.P = H.D := by
  unfold haloPhases
  rw [if_neg]
  intro h1
  have hp : H.P.shape.prod = 1 := by rw [← H.n_eq h, ← h1]
  have hm : H.Pd j ∈ H.P.shape := by
    unfold Pd
    rw [List.getD_eq_getElem _ _ hj]
    exact List.getElem_mem hj
  have hd : H.Pd j ∣ 1 := hp ▸ List.dvd_prod hm
  have := Nat.dvd_one.1 hd
  omega

/-- If a halo is wider than the neighbouring block, some cell of some worker ends up holding what was in
a halo cell at the beginning. -/
theorem HaloPlan.stale (h : H.OK) (dn : H.Done S) (hx : ∀ j, j < H.D → ∀ c, c < H.Pd j → 0 < H.x j c)
    (hf : ¬ H.Fits) :
    ∃ w, w < H.n ∧ ∃ l, InBounds l (H.shape w) ∧ ∃ s, s < H.n ∧ ∃ l', InBounds l' (H.shape s) ∧
      ¬ H.BulkFrom 0 s l' ∧ ∀ (st0 : Nat → List Nat → α),
        lock (haloForward S) st0 (haloPhases H.P) w l = st0 s l' := by
  have hf' : (∃ j, j < H.D ∧ ∃ c, c + 1 < H.Pd j ∧ H.x j c < H.lw j (c + 1)) ∨
      (∃ j, j < H.D ∧ ∃ c, c + 1 < H.Pd j ∧ H.x j (c + 1) < H.rw j c) := by
    by_contra hcon
    rw [not_or] at hcon
    refine hf ⟨fun j hj c hc => ?_, fun j hj c hc => ?_⟩
    · by_contra hlt
      exact hcon.1 ⟨j, hj, c, hc, by omega⟩
    · by_contra hlt
      exact hcon.2 ⟨j, hj, c, hc, by omega⟩
  rcases hf' with ⟨i, hi, c, hc, hlt⟩ | ⟨i, hi, c, hc, hlt⟩
  · -- a left halo
    obtain ⟨w, hw, hwc⟩ := exists_worker h hi hc
    obtain ⟨s, hs⟩ : ∃ s, left S i w = some s := by
      cases hl : left S i w with
      | some s => exact ⟨s, rfl⟩
      | none => have := (nb_spec h dn hw hi).1.1 hl; omega
    obtain ⟨hsn, hsc, hso⟩ := (nb_spec h dn hw hi).2.2.1 s hs
    have hsc' : H.co s i = c := by omega
    have hr := h.rangel i hi c hc
    have hwid : (H.width i c).rsend = H.lw i (c + 1) := by
      show (if _ then _ else _) = _
      rw [if_pos hc]
    let l := (List.range H.D).map fun j =>
      if j = i then H.lw i (c + 1) - H.x i c - 1 else H.lw j (H.co w j)
    have hll : l.length = H.D := by simp [l]
    have hlj : ∀ j, j < H.D → l.getD j 0 =
        if j = i then H.lw i (c + 1) - H.x i c - 1 else H.lw j (H.co w j) :=
      fun j hj => getD_map_range _ _ hj
    have hm : InSlices ((S w).cells i .lghost) l := by
      rw [mem_cells h dn hw]
      refine ⟨hll, fun j hj => ?_⟩
      rw [hlj j hj, msgShape, getD_map_range _ _ hj]
      have hxp := hx j hj _ (co_lt h hw hj)
      by_cases e : j = i
      · subst e
        simp only [low, Nat.lt_irrefl, if_false, if_true, msgWidth, width, hwc]
        omega
      · by_cases e2 : j < i
        · simp only [low, e, e2, if_true, if_false, size]
          omega
        · simp only [low, e, e2, if_false]
          omega
    have hb : InBounds l (H.shape w) := by
      rw [inBounds_iff, length_shape]
      refine ⟨hll, fun j hj => ?_⟩
      have h1 := ((mem_cells h dn hw .lghost l).1 hm).2 j hj
      have h2 := low_le h (i := i) hw hj .lghost
      rw [shape_getD hj]
      omega
    let l' := shiftBy (((S s).cells i .rbulk).map Prod.fst) (rel ((S w).cells i .lghost) l)
    have hl'len : l'.length = H.D := moved_length dn hw hsn hll _ _
    have hl'j : ∀ j, j < H.D → l'.getD j 0 =
        if j = i then H.lw i c - 1 else H.lw j (H.co s j) := by
      intro j hj
      show (shiftBy (((S s).cells i .rbulk).map Prod.fst) (rel ((S w).cells i .lghost) l)).getD j 0 = _
      rw [moved_getD h dn hw hsn hj hll, hlj j hj]
      by_cases e : j = i
      · subst e
        simp only [low, Nat.lt_irrefl, if_false, if_true, hsc', hwid]
        omega
      · by_cases e2 : j < i
        · simp only [low, e, e2, if_true, if_false, hso j e]
          omega
        · simp only [low, e, e2, if_false, hso j e]
          omega
    refine ⟨w, hw, l, hb, s, hsn, l', ?_, ?_, fun st0 => ?_⟩
    · rw [inBounds_iff, length_shape]
      refine ⟨hl'len, fun j hj => ?_⟩
      have hxp := hx j hj _ (co_lt h hsn hj)
      rw [shape_getD hj, hl'j j hj, size]
      by_cases e : j = i
      · subst e
        rw [if_pos rfl, hsc']
        rw [hsc'] at hxp
        omega
      · rw [if_neg e]
        omega
    · intro hbulk
      have := (hbulk i (Nat.zero_le _) hi).1
      rw [hl'j i hi, if_pos rfl, hsc'] at this
      omega
    · rw [phases_of h hi hc, fwd_keep_range h dn hw (a := i + 1) (by omega) (Nat.le_refl _),
        fwd_lghost h dn hi hw hm hs]
      · have := fwd_keep_range (st0 := st0) h dn hsn (l := l') (Nat.zero_le i) (by omega) fun p _ hp => by
          have hxp := hx p (by omega) _ (co_lt h hsn (show p < H.D by omega))
          rw [hl'j p (by omega), if_neg (by omega)]
          omega
        exact this
      · intro p h1 h2
        have hxp := hx p h2 _ (co_lt h hw h2)
        rw [hlj p h2, if_neg (by omega)]
        omega
  · -- a right halo
    obtain ⟨w, hw, hwc⟩ := exists_worker h hi (show c < H.Pd i by omega)
    obtain ⟨s, hs⟩ : ∃ s, right S i w = some s := by
      cases hl : right S i w with
      | some s => exact ⟨s, rfl⟩
      | none => have := (nb_spec h dn hw hi).2.1.1 hl; omega
    obtain ⟨hsn, hsc, hso⟩ := (nb_spec h dn hw hi).2.2.2 s hs
    have hsc' : H.co s i = c + 1 := by omega
    have hr := h.ranger i hi c hc
    let l := (List.range H.D).map fun j =>
      if j = i then H.lw i c + H.x i c + H.x i (c + 1) else H.lw j (H.co w j)
    have hll : l.length = H.D := by simp [l]
    have hlj : ∀ j, j < H.D → l.getD j 0 =
        if j = i then H.lw i c + H.x i c + H.x i (c + 1) else H.lw j (H.co w j) :=
      fun j hj => getD_map_range _ _ hj
    have hm : InSlices ((S w).cells i .rghost) l := by
      rw [mem_cells h dn hw]
      refine ⟨hll, fun j hj => ?_⟩
      rw [hlj j hj, msgShape, getD_map_range _ _ hj]
      have hxp := hx j hj _ (co_lt h hw hj)
      by_cases e : j = i
      · subst e
        simp only [low, Nat.lt_irrefl, if_false, if_true, msgWidth, width, hwc]
        omega
      · by_cases e2 : j < i
        · simp only [low, e, e2, if_true, if_false, size]
          omega
        · simp only [low, e, e2, if_false]
          omega
    have hb : InBounds l (H.shape w) := by
      rw [inBounds_iff, length_shape]
      refine ⟨hll, fun j hj => ?_⟩
      have h1 := ((mem_cells h dn hw .rghost l).1 hm).2 j hj
      have h2 := low_le h (i := i) hw hj .rghost
      rw [shape_getD hj]
      omega
    let l' := shiftBy (((S s).cells i .lbulk).map Prod.fst) (rel ((S w).cells i .rghost) l)
    have hl'len : l'.length = H.D := moved_length dn hw hsn hll _ _
    have hl'j : ∀ j, j < H.D → l'.getD j 0 =
        if j = i then H.lw i (c + 1) + H.x i (c + 1) else H.lw j (H.co s j) := by
      intro j hj
      show (shiftBy (((S s).cells i .lbulk).map Prod.fst) (rel ((S w).cells i .rghost) l)).getD j 0 = _
      rw [moved_getD h dn hw hsn hj hll, hlj j hj]
      by_cases e : j = i
      · subst e
        simp only [low, Nat.lt_irrefl, if_false, if_true, hsc', hwc]
        omega
      · by_cases e2 : j < i
        · simp only [low, e, e2, if_true, if_false, hso j e]
          omega
        · simp only [low, e, e2, if_false, hso j e]
          omega
    refine ⟨w, hw, l, hb, s, hsn, l', ?_, ?_, fun st0 => ?_⟩
    · rw [inBounds_iff, length_shape]
      refine ⟨hl'len, fun j hj => ?_⟩
      have hxp := hx j hj _ (co_lt h hsn hj)
      rw [shape_getD hj, hl'j j hj, size]
      by_cases e : j = i
      · subst e
        rw [if_pos rfl, hsc']
        omega
      · rw [if_neg e]
        omega
    · intro hbulk
      have := (hbulk i (Nat.zero_le _) hi).2
      rw [hl'j i hi, if_pos rfl, hsc'] at this
      omega
    · rw [phases_of h hi hc, fwd_keep_range h dn hw (a := i + 1) (by omega) (Nat.le_refl _),
        fwd_rghost h dn hi hw hm hs]
      · have := fwd_keep_range (st0 := st0) h dn hsn (l := l') (Nat.zero_le i) (by omega) fun p _ hp => by
          have hxp := hx p (by omega) _ (co_lt h hsn (show p < H.D by omega))
          rw [hl'j p (by omega), if_neg (by omega)]
          omega
        exact this
      · intro p h1 h2
        have hxp := hx p h2 _ (co_lt h hw h2)
        rw [hlj p h2, if_neg (by omega)]
        omega

end

end Verif
