import Verif.Halo.Limits

/-!
# What the exchange leaves in every cell, whether the halos fit or not (C37)

A cell of a padded tensor ends up with the value of the global tensor exactly if it lies, in every dimension, in
the worker's own block or in a block next to it; all other cells keep the value the halos were filled with.
-/

namespace Verif

open Exchange

variable {H : HaloPlan} {S : Nat → HaloSetup} {α : Type} {st0 : Nat → List Nat → α}

/-- The global position `i` lies, in every dimension, in the block of the worker at `idx` or in one next to it. -/
def Near (L : Layout) (idx i : List Nat) : Prop :=
  ∀ j, j < idx.length → ((L.getD j []).take (idx.getD j 0 - 1)).sum ≤ i.getD j 0 ∧
    i.getD j 0 < ((L.getD j []).take (idx.getD j 0 + 2)).sum

instance (L : Layout) (idx i : List Nat) : Decidable (Near L idx i) :=
  inferInstanceAs (Decidable (∀ j, j < idx.length → _))

namespace HaloPlan

/-- A halo never reaches before the beginning of the tensor. -/
theorem lw_le_st_always (h : H.OK) {j : Nat} (hj : j < H.D) : ∀ c, c < H.Pd j → H.lw j c ≤ H.st j c := by
  intro c
  induction c with
  | zero => intro _; rw [h.left0 j hj]; omega
  | succ c ih =>
    intro hc
    have h1 := ih (by omega)
    have h2 := h.rangel j hj c hc
    have h3 := H.st_succ j c
    omega

/-- The state of a cell after `p` dimensions: near in those, in the bulk in the others. -/
def Filled (H : HaloPlan) (p w : Nat) (l : List Nat) : Prop :=
  ∀ j, j < H.D →
    if j < p then H.st j (H.co w j - 1) ≤ (H.origin w).getD j 0 + l.getD j 0 ∧
      (H.origin w).getD j 0 + l.getD j 0 < H.st j (H.co w j + 2)
    else H.lw j (H.co w j) ≤ l.getD j 0 ∧ l.getD j 0 < H.lw j (H.co w j) + H.x j (H.co w j)

open Classical in
theorem fwd_exact (h : H.OK) (dn : H.Done S) (X : List Nat → α) (z : α)
    (h0 : ∀ w, w < H.n → ∀ l, InBounds l (H.shape w) →
      st0 w l = if H.BulkFrom 0 w l then X (shiftBy (H.origin w) l) else z) :
    ∀ p, p ≤ H.D → ∀ w, w < H.n → ∀ l, InBounds l (H.shape w) →
      lock (haloForward S) st0 p w l = if H.Filled p w l then X (shiftBy (H.origin w) l) else z := by
  intro p
  induction p with
  | zero =>
    intro _ w hw l hl
    show st0 w l = _
    rw [h0 w hw l hl]
    congr 1
    simp only [BulkFrom, Filled, Nat.zero_le, true_implies, Nat.not_lt_zero, if_false]
  | succ p ih =>
    intro hp w hw l hl
    have hpD : p < H.D := hp
    have hlen : l.length = H.D := by rw [(inBounds_iff.1 hl).1, length_shape]
    have hbd : ∀ j, j < H.D → l.getD j 0 < H.size j (H.co w j) := by
      intro j hj
      have := (inBounds_iff.1 hl).2 j (by rw [length_shape]; exact hj)
      rwa [shape_getD hj] at this
    by_cases hb : H.BulkFrom (p + 1) w l
    · have hlt := co_lt h hw hpD
      have hlwst := lw_le_st_always h hpD _ hlt
      by_cases c1 : l.getD p 0 < H.lw p (H.co w p)
      · -- left ghost
        have hm : InSlices ((S w).cells p .lghost) l := by
          rw [mem_cells h dn hw]
          refine ⟨hlen, fun j hj => ?_⟩
          rw [msgShape, getD_map_range _ _ hj]
          unfold low
          by_cases d1 : j < p
          · simp only [d1, if_true]
            exact ⟨Nat.zero_le _, by have := hbd j hj; omega⟩
          · by_cases d2 : j = p
            · subst d2
              simp only [Nat.lt_irrefl, if_true, if_false, msgWidth, width]
              omega
            · simp only [d1, d2, if_false]
              exact hb j (by omega) hj
        obtain ⟨s, hs⟩ := left_of_mem h dn hpD hw (Or.inl hm)
        obtain ⟨hsn, hs2, hs3⟩ := (nb_spec h dn hw hpD).2.2.1 s hs
        rw [fwd_lghost h dn hpD hw hm hs]
        have hran := h.rangel p hpD (H.co s p) (by omega)
        have hran' := h.ranger p hpD (H.co s p) (by omega)
        rw [hs2] at hran hran'
        have hst := H.st_succ p (H.co s p)
        rw [hs2] at hst
        have hst1 := H.st_succ p (H.co w p)
        have hst2 : H.st p (H.co w p + 2) = _ := H.st_succ p (H.co w p + 1)
        have hlwst' := lw_le_st_always h hpD (H.co s p) (by omega)
        have hrs : (H.width p (H.co s p)).rsend = H.lw p (H.co w p) := by
          show (if H.co s p + 1 < H.Pd p then H.lw p (H.co s p + 1) else 0) = _
          rw [hs2, if_pos hlt]
        have key : ∀ j, j < H.D →
            (shiftBy (((S s).cells p .rbulk).map Prod.fst) (rel ((S w).cells p .lghost) l)).getD j 0 =
            if j = p then H.lw p (H.co s p) + H.x p (H.co s p) - H.lw p (H.co w p) + l.getD p 0
            else l.getD j 0 := by
          intro j hj
          rw [moved_getD h dn hw hsn hj hlen]
          unfold low
          by_cases d1 : j < p
          · simp only [d1, if_true, if_neg (show j ≠ p by omega)]
            omega
          · by_cases d2 : j = p
            · subst d2
              simp only [Nat.lt_irrefl, if_true, if_false, hrs]
              omega
            · simp only [d1, d2, if_false, hs3 j d2]
              have := hb j (by omega) hj
              omega
        have hlen' := moved_length dn (i := p) hw hsn hlen .lghost .rbulk
        rw [ih (by omega) s hsn _ ?_]
        · have e1 : shiftBy (H.origin s) (shiftBy (((S s).cells p .rbulk).map Prod.fst)
              (rel ((S w).cells p .lghost) l)) = shiftBy (H.origin w) l := by
            apply eq_of_getD
            · rw [length_shiftBy (by rw [hlen']; simp [origin]), length_shiftBy (by rw [hlen]; simp [origin])]
              simp [origin]
            · intro j hj
              rw [length_shiftBy (by rw [hlen']; simp [origin])] at hj
              replace hj : j < H.D := by simpa [origin] using hj
              rw [getD_shiftBy (by simpa [origin] using hj) (by rw [hlen']; exact hj), key j hj,
                getD_shiftBy (by simpa [origin] using hj) (by rw [hlen]; exact hj),
                origin_getD hj, origin_getD hj]
              by_cases d2 : j = p
              · subst d2
                simp only [if_true]
                omega
              · simp only [d2, if_false, hs3 j d2]
          rw [e1]
          congr 1
          rw [eq_iff_iff]
          unfold Filled
          refine forall_congr' fun j => forall_congr' fun hj => ?_
          rw [key j hj, origin_getD hj, origin_getD hj]
          by_cases d2 : j = p
          · subst d2
            have ec : H.co w j - 1 = H.co s j := by omega
            simp only [Nat.lt_irrefl, Nat.lt_succ_self, if_true, if_false, ec]
            omega
          · by_cases d1 : j < p
            · simp only [d1, d2, Nat.lt_succ_of_lt d1, if_true, if_false, hs3 j d2]
            · simp only [d1, d2, show ¬ j < p + 1 by omega, if_false, hs3 j d2]
        · rw [inBounds_iff]
          refine ⟨by rw [hlen', length_shape], fun j hj => ?_⟩
          rw [length_shape] at hj
          rw [key j hj, shape_getD hj]
          by_cases d2 : j = p
          · subst d2
            simp only [if_true, size]
            omega
          · simp only [d2, if_false, hs3 j d2]
            exact hbd j hj
      · by_cases c2 : H.lw p (H.co w p) + H.x p (H.co w p) ≤ l.getD p 0
        · -- right ghost
          have hm : InSlices ((S w).cells p .rghost) l := by
            rw [mem_cells h dn hw]
            refine ⟨hlen, fun j hj => ?_⟩
            rw [msgShape, getD_map_range _ _ hj]
            unfold low
            by_cases d1 : j < p
            · simp only [d1, if_true]
              exact ⟨Nat.zero_le _, by have := hbd j hj; omega⟩
            · by_cases d2 : j = p
              · subst d2
                simp only [Nat.lt_irrefl, if_true, if_false, msgWidth, width]
                have := hbd j hj
                unfold size at this
                omega
              · simp only [d1, d2, if_false]
                exact hb j (by omega) hj
          obtain ⟨s, hs⟩ := right_of_mem h dn hpD hw (Or.inl hm)
          obtain ⟨hsn, hs2, hs3⟩ := (nb_spec h dn hw hpD).2.2.2 s hs
          rw [fwd_rghost h dn hpD hw hm hs]
          have hlts := co_lt h hsn hpD
          have hran := h.ranger p hpD (H.co w p) (by omega)
          have hranl := h.rangel p hpD (H.co w p) (by omega)
          rw [← hs2] at hran hranl
          have hst := H.st_succ p (H.co w p)
          have hst1 := H.st_succ p (H.co s p)
          rw [← hs2] at hst
          have hst0 : H.st p (H.co w p - 1) ≤ H.st p (H.co w p) := by
            rcases Nat.eq_zero_or_pos (H.co w p) with e | e
            · rw [e]
            · have := H.st_succ p (H.co w p - 1)
              rw [show H.co w p - 1 + 1 = H.co w p by omega] at this
              omega
          have hlwst' := lw_le_st_always h hpD (H.co s p) hlts
          have key : ∀ j, j < H.D →
              (shiftBy (((S s).cells p .lbulk).map Prod.fst) (rel ((S w).cells p .rghost) l)).getD j 0 =
              if j = p then H.lw p (H.co s p) + (l.getD p 0 - (H.lw p (H.co w p) + H.x p (H.co w p)))
              else l.getD j 0 := by
            intro j hj
            rw [moved_getD h dn hw hsn hj hlen]
            unfold low
            by_cases d1 : j < p
            · simp only [d1, if_true, if_neg (show j ≠ p by omega)]
              omega
            · by_cases d2 : j = p
              · subst d2
                simp only [Nat.lt_irrefl, if_true, if_false]
              · simp only [d1, d2, if_false, hs3 j d2]
                have := hb j (by omega) hj
                omega
          have hlen' := moved_length dn (i := p) hw hsn hlen .rghost .lbulk
          have hbp := hbd p hpD
          unfold size at hbp
          rw [ih (by omega) s hsn _ ?_]
          · have e1 : shiftBy (H.origin s) (shiftBy (((S s).cells p .lbulk).map Prod.fst)
                (rel ((S w).cells p .rghost) l)) = shiftBy (H.origin w) l := by
              apply eq_of_getD
              · rw [length_shiftBy (by rw [hlen']; simp [origin]), length_shiftBy (by rw [hlen]; simp [origin])]
                simp [origin]
              · intro j hj
                rw [length_shiftBy (by rw [hlen']; simp [origin])] at hj
                replace hj : j < H.D := by simpa [origin] using hj
                rw [getD_shiftBy (by simpa [origin] using hj) (by rw [hlen']; exact hj), key j hj,
                  getD_shiftBy (by simpa [origin] using hj) (by rw [hlen]; exact hj),
                  origin_getD hj, origin_getD hj]
                by_cases d2 : j = p
                · subst d2
                  simp only [if_true]
                  omega
                · simp only [d2, if_false, hs3 j d2]
            rw [e1]
            congr 1
            rw [eq_iff_iff]
            unfold Filled
            refine forall_congr' fun j => forall_congr' fun hj => ?_
            rw [key j hj, origin_getD hj, origin_getD hj]
            by_cases d2 : j = p
            · subst d2
              have ec : H.co w j + 2 = H.co s j + 1 := by omega
              simp only [Nat.lt_irrefl, Nat.lt_succ_self, if_true, if_false, ec]
              omega
            · by_cases d1 : j < p
              · simp only [d1, d2, Nat.lt_succ_of_lt d1, if_true, if_false, hs3 j d2]
              · simp only [d1, d2, show ¬ j < p + 1 by omega, if_false, hs3 j d2]
          · rw [inBounds_iff]
            refine ⟨by rw [hlen', length_shape], fun j hj => ?_⟩
            rw [length_shape] at hj
            rw [key j hj, shape_getD hj]
            by_cases d2 : j = p
            · subst d2
              simp only [if_true, size]
              omega
            · simp only [d2, if_false, hs3 j d2]
              exact hbd j hj
        · -- bulk
          rw [fwd_keep h dn hpD hw (by omega) (by omega), ih (by omega) w hw l hl]
          congr 1
          rw [eq_iff_iff]
          unfold Filled
          refine forall_congr' fun j => forall_congr' fun hj => ?_
          by_cases d2 : j = p
          · subst d2
            have hst1 := H.st_succ j (H.co w j)
            have hst2 : H.st j (H.co w j + 2) = _ := H.st_succ j (H.co w j + 1)
            have hst0 : H.st j (H.co w j - 1) ≤ H.st j (H.co w j) := by
              rcases Nat.eq_zero_or_pos (H.co w j) with e | e
              · rw [e]
              · have := H.st_succ j (H.co w j - 1)
                rw [show H.co w j - 1 + 1 = H.co w j by omega] at this
                omega
            simp only [Nat.lt_irrefl, Nat.lt_succ_self, if_true, if_false, origin_getD hj]
            omega
          · by_cases d1 : j < p
            · simp only [d1, Nat.lt_succ_of_lt d1, if_true]
            · simp only [d1, show ¬ j < p + 1 by omega, if_false]
    · -- outside the bulk of a later dimension: not touched
      unfold BulkFrom at hb
      push Not at hb
      obtain ⟨q, hq1, hqD, hq⟩ := hb
      have hout : ∀ reg, reg = .lghost ∨ reg = .rghost → ¬ InSlices ((S w).cells p reg) l := by
        intro reg hreg hm
        have := ((mem_cells h dn hw reg l).1 hm).2 q hqD
        rw [msgShape, getD_map_range _ _ hqD] at this
        simp only [low, show ¬ q < p by omega, show ¬ q = p by omega, if_false] at this
        have := hq this.1
        omega
      rw [fwd_other (hout _ (Or.inl rfl)) (hout _ (Or.inr rfl)), ih (by omega) w hw l hl, if_neg, if_neg]
      · intro hf
        have := hf q hqD
        rw [if_neg (by omega)] at this
        have := hq this.1
        omega
      · intro hf
        have := hf q hqD
        rw [if_neg (by omega)] at this
        have := hq this.1
        omega

/-- The block of a worker with its halos ends inside the tensor. -/
theorem rw_le_sum_always (h : H.OK) {j : Nat} (hj : j < H.D) :
    ∀ d c, c + d + 1 = H.Pd j → H.st j (c + 1) + H.rw j c ≤ (H.L.getD j []).sum := by
  intro d
  induction d with
  | zero =>
    intro c hc
    have h0 := h.right0 j hj
    rw [← hc] at h0
    rw [show c + 0 + 1 - 1 = c by omega] at h0
    rw [h0]
    exact take_sum_le _ _
  | succ d ih =>
    intro c hc
    have h1 := ih (c + 1) (by omega)
    have h2 := h.ranger j hj c (by omega)
    have h3 := H.st_succ j (c + 1)
    omega

theorem inside_always (h : H.OK) {w : Nat} (hw : w < H.n) {l : List Nat} (hl : InBounds l (H.shape w)) :
    InBounds (shiftBy (H.origin w) l) H.L.global := by
  have hLl : H.L.length = H.D := by rw [← H.L.length_pshape, h.layout]
  have hlen : l.length = H.D := by rw [(inBounds_iff.1 hl).1, length_shape]
  rw [inBounds_iff, Layout.length_global, hLl, length_shiftBy (by rw [hlen]; simp [origin])]
  refine ⟨by simp [origin], fun j hj => ?_⟩
  have h1 := (inBounds_iff.1 hl).2 j (by rw [length_shape]; exact hj)
  rw [shape_getD hj, size] at h1
  have hlt := co_lt h hw hj
  have h2 := rw_le_sum_always h hj (H.Pd j - (H.co w j + 1)) (H.co w j) (by omega)
  have h3 := H.st_succ j (H.co w j)
  have h4 := lw_le_st_always h hj _ hlt
  rw [getD_shiftBy (by simpa [origin] using hj) (by rw [hlen]; exact hj), origin_getD hj]
  have hg : H.L.global.getD j 0 = (H.L.getD j []).sum := by
    have hl' : j < H.L.length := by rw [hLl]; exact hj
    unfold Layout.global
    rw [List.getD_eq_getElem _ _ (by simpa using hl'), List.getElem_map, List.getD_eq_getElem _ _ hl']
  rw [hg]
  omega

end HaloPlan

section
variable {β : Type} {dt : NpKey} {junk : Nat → β} {ops : Nat → List (MgrOp β)}

/-- C37: what the exchange leaves in every cell, for any widths a worker can serve from its padded tensor
(computed widths are such, `plan_ok_always`), halos that fit or not.  Let every worker hold its block of the
global tensor `X` in the bulk of its padded tensor and `z` in the halos.  Once a worker has finished, a cell of
its padded tensor, which is at a position `i` of the global tensor, holds `X i` if `i` is in its own block or in a
block next to it in every dimension, and `z` otherwise. -/
theorem C37_cells (h : H.OK) (hS : H.SetUp dt junk ops S) (X : List Nat → α) (z : α) (st0 : Nat → List Nat → α)
    (h0 : ∀ w, w < H.n → ∀ l, InBounds l (H.L.shapeAt (getCoords H.P.shape w)) →
      st0 w (shiftBy ((List.range H.D).map fun j => H.lw j (H.co w j)) l) =
        X (shiftBy (H.L.startAt (getCoords H.P.shape w)) l))
    (hz : ∀ w, w < H.n → ∀ l, InBounds l (H.shape w) →
      (¬ ∃ b, InBounds b (H.L.shapeAt (getCoords H.P.shape w)) ∧
        l = shiftBy ((List.range H.D).map fun j => H.lw j (H.co w j)) b) → st0 w l = z)
    {eager : Bool} {k : Nat} {g : GState (List Nat → α) (List Nat → α)}
    (hex : Exec (haloForward S) H.n (haloPhases H.P) eager k (GState.init st0) g)
    {w : Nat} (hw : w < H.n) (hfin : (g.ws w).phase = haloPhases H.P) :
    ∀ l, InBounds l (H.shape w) →
      InBounds (shiftBy (H.origin w) l) H.L.global ∧
      (g.ws w).st l = if Near H.L (getCoords H.P.shape w) (shiftBy (H.origin w) l)
        then X (shiftBy (H.origin w) l) else z := by
  classical
  intro l hl
  have dn := hS.done h.wf
  refine ⟨HaloPlan.inside_always h hw hl, ?_⟩
  rw [async_final (HaloPlan.fwd_matched h dn) (HaloPlan.fwd_commutes h dn) hex hw hfin]
  have hstart : ∀ w, w < H.n → ∀ l, InBounds l (H.shape w) →
      st0 w l = if H.BulkFrom 0 w l then X (shiftBy (H.origin w) l) else z := by
    clear hl l hfin hw w
    intro w hw l hl
    have hlen : l.length = H.D := by rw [(inBounds_iff.1 hl).1, HaloPlan.length_shape]
    have hi := (getCoords_spec (shape := H.P.shape) (by rw [← H.n_eq h]; exact hw)).1
    have hLl : H.L.length = H.D := by rw [← H.L.length_pshape, h.layout]
    have hl2 : (getCoords H.P.shape w).length = H.L.length := by rw [hLl, hi.length_eq]
    split
    · rename_i hb
      have hrel : ∀ j, j < H.D →
          (List.zipWith (· - ·) l ((List.range H.D).map fun j => H.lw j (H.co w j))).getD j 0 =
            l.getD j 0 - H.lw j (H.co w j) := by
        intro j hj
        rw [getD_zipWith_sub (by rw [hlen]; exact hj) (by simpa using hj), getD_map_range _ _ hj]
      have hrl : (List.zipWith (· - ·) l ((List.range H.D).map fun j => H.lw j (H.co w j))).length = H.D := by
        simp [hlen]
      have key := h0 w hw (List.zipWith (· - ·) l ((List.range H.D).map fun j => H.lw j (H.co w j))) (by
        rw [inBounds_iff, Layout.length_shapeAt hl2, hLl, hrl]
        refine ⟨rfl, fun j hj => ?_⟩
        rw [hrel j hj, (H.L.shapeAt_getD _ hl2 j (by rw [hLl]; exact hj)).1]
        have := hb j (Nat.zero_le _) hj
        unfold HaloPlan.x HaloPlan.co at this
        unfold HaloPlan.co
        omega)
      have e1 : shiftBy ((List.range H.D).map fun j => H.lw j (H.co w j))
          (List.zipWith (· - ·) l ((List.range H.D).map fun j => H.lw j (H.co w j))) = l := by
        apply eq_of_getD
        · rw [length_shiftBy (by rw [hrl]; simp), hlen]; simp
        · intro j hj
          rw [length_shiftBy (by rw [hrl]; simp)] at hj
          replace hj : j < H.D := by simpa using hj
          rw [getD_shiftBy (by simpa using hj) (by rw [hrl]; exact hj), hrel j hj, getD_map_range _ _ hj]
          have := hb j (Nat.zero_le _) hj
          omega
      have e2 : shiftBy (H.L.startAt (getCoords H.P.shape w))
          (List.zipWith (· - ·) l ((List.range H.D).map fun j => H.lw j (H.co w j))) =
          shiftBy (H.origin w) l := by
        have hsl : (H.L.startAt (getCoords H.P.shape w)).length = H.D := by
          rw [Layout.length_startAt hl2, hLl]
        apply eq_of_getD
        · rw [length_shiftBy (by rw [hrl, hsl]), length_shiftBy (by rw [hlen]; simp [HaloPlan.origin]), hsl]
          simp [HaloPlan.origin]
        · intro j hj
          rw [length_shiftBy (by rw [hrl, hsl]), hsl] at hj
          rw [getD_shiftBy (by rw [hsl]; exact hj) (by rw [hrl]; exact hj), hrel j hj,
            getD_shiftBy (by simpa [HaloPlan.origin] using hj) (by rw [hlen]; exact hj),
            HaloPlan.origin_getD hj, (H.L.shapeAt_getD _ hl2 j (by rw [hLl]; exact hj)).2.1]
          have h1 := hb j (Nat.zero_le _) hj
          have h2 := HaloPlan.lw_le_st_always h hj _ (HaloPlan.co_lt h hw hj)
          unfold HaloPlan.st HaloPlan.co at h2 ⊢
          unfold HaloPlan.co at h1
          omega
      rw [e1, e2] at key
      exact key
    · rename_i hb
      apply hz w hw l hl
      rintro ⟨b, hb1, rfl⟩
      apply hb
      intro j _ hj
      have hsl := Layout.length_shapeAt hl2
      have hbl : b.length = H.D := by rw [hb1.length_eq, hsl, hLl]
      rw [getD_shiftBy (by simp; exact hj) (by rw [hbl]; exact hj), getD_map_range _ _ hj]
      have h1 := (inBounds_iff.1 hb1).2 j (by rw [hsl, hLl]; exact hj)
      have h2 : (H.L.shapeAt (getCoords H.P.shape w)).getD j 0 = H.x j (H.co w j) :=
        (H.L.shapeAt_getD _ hl2 j (by rw [hLl]; exact hj)).1
      rw [h2] at h1
      omega
  have hlen : l.length = H.D := by rw [(inBounds_iff.1 hl).1, HaloPlan.length_shape]
  have hi := (getCoords_spec (shape := H.P.shape) (by rw [← H.n_eq h]; exact hw)).1
  have hil : (getCoords H.P.shape w).length = H.D := hi.length_eq
  have hfill : H.Filled H.D w l ↔ Near H.L (getCoords H.P.shape w) (shiftBy (H.origin w) l) := by
    unfold HaloPlan.Filled Near
    rw [hil]
    refine forall_congr' fun j => forall_congr' fun hj => ?_
    rw [if_pos hj, getD_shiftBy (by simpa [HaloPlan.origin] using hj) (by rw [hlen]; exact hj)]
    rfl
  by_cases h1 : H.P.members.length = 1
  · -- a single worker
    rw [show haloPhases H.P = 0 from if_pos h1]
    show st0 w l = _
    have hall : H.BulkFrom 0 w l := by
      intro j _ hj
      obtain ⟨e1, e2⟩ := HaloPlan.single h h1 hw hj
      have := (inBounds_iff.1 hl).2 j (by rw [HaloPlan.length_shape]; exact hj)
      rw [HaloPlan.shape_getD hj, HaloPlan.size] at this
      omega
    rw [hstart w hw l hl, if_pos hall, if_pos]
    rw [← hfill]
    intro j hj
    rw [if_pos hj, HaloPlan.origin_getD hj]
    obtain ⟨e1, e2⟩ := HaloPlan.single h h1 hw hj
    have hb := hall j (Nat.zero_le _) hj
    have hst1 := H.st_succ j (H.co w j)
    have hst2 : H.st j (H.co w j + 2) = _ := H.st_succ j (H.co w j + 1)
    have hst0 : H.st j (H.co w j - 1) ≤ H.st j (H.co w j) := by
      rcases Nat.eq_zero_or_pos (H.co w j) with e | e
      · rw [e]
      · have := H.st_succ j (H.co w j - 1)
        rw [show H.co w j - 1 + 1 = H.co w j by omega] at this
        omega
    omega
  · rw [show haloPhases H.P = H.D from if_neg h1,
      HaloPlan.fwd_exact h dn X z hstart H.D (Nat.le_refl _) w hw l hl]
    congr 1
    exact propext hfill

/-- C37, exact: in every run, for every tensor, a worker ends up with the values of the global tensor in all cells
of its padded tensor, exactly if none of them is beyond the blocks next to its own. -/
theorem C37_iff [Nontrivial α] (h : H.OK) (hS : H.SetUp dt junk ops S) {w : Nat} (hw : w < H.n) :
    (∀ (X : List Nat → α) (z : α) (st0 : Nat → List Nat → α),
      (∀ w, w < H.n → ∀ l, InBounds l (H.L.shapeAt (getCoords H.P.shape w)) →
        st0 w (shiftBy ((List.range H.D).map fun j => H.lw j (H.co w j)) l) =
          X (shiftBy (H.L.startAt (getCoords H.P.shape w)) l)) →
      (∀ w, w < H.n → ∀ l, InBounds l (H.shape w) →
        (¬ ∃ b, InBounds b (H.L.shapeAt (getCoords H.P.shape w)) ∧
          l = shiftBy ((List.range H.D).map fun j => H.lw j (H.co w j)) b) → st0 w l = z) →
      ∀ (eager : Bool) (k : Nat) (g : GState (List Nat → α) (List Nat → α)),
        Exec (haloForward S) H.n (haloPhases H.P) eager k (GState.init st0) g →
        (g.ws w).phase = haloPhases H.P →
        ∀ l, InBounds l (H.shape w) → (g.ws w).st l = X (shiftBy (H.origin w) l)) ↔
    ∀ l, InBounds l (H.shape w) → Near H.L (getCoords H.P.shape w) (shiftBy (H.origin w) l) := by
  classical
  have dn := hS.done h.wf
  constructor
  · intro hall l hl
    by_contra hn
    obtain ⟨a, b, hab⟩ := exists_pair_ne α
    let X : List Nat → α := fun i => if i = shiftBy (H.origin w) l then b else a
    let st0 : Nat → List Nat → α := fun w l =>
      if hb : ∃ b, InBounds b (H.L.shapeAt (getCoords H.P.shape w)) ∧
          l = shiftBy ((List.range H.D).map fun j => H.lw j (H.co w j)) b
      then X (shiftBy (H.L.startAt (getCoords H.P.shape w)) hb.choose) else a
    have h0 : ∀ w, w < H.n → ∀ l, InBounds l (H.L.shapeAt (getCoords H.P.shape w)) →
        st0 w (shiftBy ((List.range H.D).map fun j => H.lw j (H.co w j)) l) =
          X (shiftBy (H.L.startAt (getCoords H.P.shape w)) l) := by
      intro w hw l hl
      have hb : ∃ b, InBounds b (H.L.shapeAt (getCoords H.P.shape w)) ∧
          shiftBy ((List.range H.D).map fun j => H.lw j (H.co w j)) l =
            shiftBy ((List.range H.D).map fun j => H.lw j (H.co w j)) b := ⟨l, hl, rfl⟩
      have hi := (getCoords_spec (shape := H.P.shape) (by rw [← H.n_eq h]; exact hw)).1
      have hLl : H.L.length = H.D := by rw [← H.L.length_pshape, h.layout]
      have hsl : (H.L.shapeAt (getCoords H.P.shape w)).length = H.D := by
        rw [Layout.length_shapeAt (by rw [hLl, hi.length_eq]), hLl]
      have e : hb.choose = l := shiftBy_inj (s := (List.range H.D).map fun j => H.lw j (H.co w j))
        (by rw [hb.choose_spec.1.length_eq, hsl]; simp) (by rw [hl.length_eq, hsl]; simp) hb.choose_spec.2.symm
      show (if hb : _ then _ else _) = _
      rw [dif_pos hb, e]
    have hz : ∀ w, w < H.n → ∀ l, InBounds l (H.shape w) →
        (¬ ∃ b, InBounds b (H.L.shapeAt (getCoords H.P.shape w)) ∧
          l = shiftBy ((List.range H.D).map fun j => H.lw j (H.co w j)) b) → st0 w l = a :=
      fun w _ l _ hb => dif_neg hb
    obtain ⟨k, g, hex, -, hf⟩ := completes (eager := true) (HaloPlan.fwd_matched h dn)
      (HaloPlan.fwd_commutes h dn) (Exec.refl (GState.init st0))
    have e1 := hall X a st0 h0 hz true k g hex (hf w hw) l hl
    rw [(C37_cells h hS X a st0 h0 hz hex hw (hf w hw) l hl).2, if_neg hn] at e1
    exact hab (e1.trans (if_pos rfl))
  · intro hnear X z st0 h0 hz eager k g hex hfin l hl
    rw [(C37_cells h hS X z st0 h0 hz hex hw hfin l hl).2, if_pos (hnear l hl)]

end

/-- Three cells over three workers, kernel size 5 and padding 2 (`wideH`): the padded tensor of worker 0 has five
cells, the last of which is beyond the block next to its own. -/
example : wideH.OK ∧ wideH.shape 0 = [5] ∧ Near wideH.L (getCoords wideH.P.shape 0) (shiftBy (wideH.origin 0) [3]) ∧
    ¬ Near wideH.L (getCoords wideH.P.shape 0) (shiftBy (wideH.origin 0) [4]) := ⟨wide_ok, by decide⟩

/-- All cells of the padded tensor of worker 1 are near. -/
example : wideH.shape 1 = [5] ∧ ∀ a, a < 5 → Near wideH.L (getCoords wideH.P.shape 1) (shiftBy (wideH.origin 1) [a]) := by
  decide

end Verif
