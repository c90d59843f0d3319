import Verif.Halo.Lemmas

/-!
# Halo exchange: one dimension of the forward operation and of the adjoint
-/

namespace Verif

open Exchange

variable {H : HaloPlan} {S : Nat → HaloSetup}

/-- The effect of the two receives of a phase. -/
theorem lock_two {σ μ : Type} {prog : Nat → Nat → Phase σ μ} {st0 : Nat → σ} {p w : Nat}
    {a b : Option Nat} (h : (prog p w).recvs = [a, b]) :
    lock prog st0 (p + 1) w =
      b.elim (a.elim ((prog p w).work (lock prog st0 p w)) fun s =>
          (prog p w).unpack 0 (msg prog st0 p s w) ((prog p w).work (lock prog st0 p w)))
        fun s => (prog p w).unpack 1 (msg prog st0 p s w)
          (a.elim ((prog p w).work (lock prog st0 p w)) fun s =>
            (prog p w).unpack 0 (msg prog st0 p s w) ((prog p w).work (lock prog st0 p w))) := by
  rw [lock_succ, h]
  simp only [List.length_cons, List.length_nil, Nat.zero_add, List.range_succ, List.range_zero,
    List.nil_append, List.cons_append, List.foldl_cons, List.foldl_nil, U, h]
  cases a <;> cases b <;> rfl

namespace HaloPlan

/-- A region with a cell has a buffer. -/
theorem has_of_mem (h : H.OK) (dn : H.Done S) {i r : Nat} (hi : i < H.D) (hr : r < H.n)
    {reg : Region} {l : List Nat} (hl : InSlices ((S r).cells i reg) l) : (S r).has i reg = true := by
  have hm := (mem_cells h dn hr reg l).1 hl
  have hpos : ∀ j, j < H.D → 0 < (H.msgShape i r reg).getD j 0 := by
    intro j hj
    have := hm.2 j hj
    omega
  rw [dn.has r hr i hi]
  constructor
  · have := hpos i hi
    rw [msgShape, getD_map_range _ _ hi] at this
    simpa using this
  · apply prod_pos_of_inBounds (a := List.replicate H.D 0)
    rw [inBounds_iff, length_msgShape, List.length_replicate]
    refine ⟨rfl, fun j hj => ?_⟩
    rw [List.getD_eq_getElem _ _ (by simpa using hj), List.getElem_replicate]
    exact hpos j hj

theorem left_of_mem (h : H.OK) (dn : H.Done S) {i r : Nat} (hi : i < H.D) (hr : r < H.n)
    {l : List Nat} (hl : InSlices ((S r).cells i .lghost) l ∨ InSlices ((S r).cells i .lbulk) l) :
    ∃ s, left S i r = some s := by
  cases hc : left S i r with
  | some s => exact ⟨s, rfl⟩
  | none =>
    have hb := (has_boundary h dn hr hi).1 hc
    rcases hl with hl | hl
    · have := has_of_mem h dn hi hr hl
      rw [hb.1] at this
      exact absurd this (by simp)
    · have := has_of_mem h dn hi hr hl
      rw [hb.2] at this
      exact absurd this (by simp)

theorem right_of_mem (h : H.OK) (dn : H.Done S) {i r : Nat} (hi : i < H.D) (hr : r < H.n)
    {l : List Nat} (hl : InSlices ((S r).cells i .rghost) l ∨ InSlices ((S r).cells i .rbulk) l) :
    ∃ s, right S i r = some s := by
  cases hc : right S i r with
  | some s => exact ⟨s, rfl⟩
  | none =>
    have hb := (has_boundary h dn hr hi).2 hc
    rcases hl with hl | hl
    · have := has_of_mem h dn hi hr hl
      rw [hb.1] at this
      exact absurd this (by simp)
    · have := has_of_mem h dn hi hr hl
      rw [hb.2] at this
      exact absurd this (by simp)

theorem idxOf_snd {a : Option Nat} {b : Nat} (h : a ≠ some b) : [a, some b].idxOf (some b) = 1 := by
  rw [List.idxOf_cons_ne _ h, List.idxOf_cons_self]

theorem req_of_has {i r s : Nat} {reg : Region} (h1 : (S r).has i reg = true)
    (h2 : (S r).peer i reg = some s) : (S r).req i reg = some s := (req_eq S i r reg s).2 ⟨h1, h2⟩

section forward
variable {α : Type} {st0 : Nat → List Nat → α}

/-- The message a worker gets from its left neighbour. -/
theorem fwd_msg_left (h : H.OK) (dn : H.Done S) {p w s : Nat} (hp : p < H.D) (hw : w < H.n)
    (hl : left S p w = some s) (hh : (S w).has p .lghost = true) :
    msg (haloForward S) st0 p s w = readSlice ((S s).cells p .rbulk) (lock (haloForward S) st0 p s) := by
  obtain ⟨hs, -, -⟩ := (nb_spec h dn hw hp).2.2.1 s hl
  have hrt : (S s).peer p .rbulk = some w := (right_iff_left h dn hs hw hp).2 hl
  have hreq : (S s).req p .rbulk = some w :=
    req_of_has (by rw [← (has_left h dn hw hp hl).1]; exact hh) hrt
  have hne : (S s).req p .lbulk ≠ some w := fun e =>
    (pair_facts h dn hp hs w).1 ⟨e, hreq⟩
  show (haloFwdPhase (S s) p).pack ([(S s).req p .lbulk, (S s).req p .rbulk].idxOf (some w)) _ = _
  rw [hreq, idxOf_snd hne]
  rfl

/-- The message a worker gets from its right neighbour. -/
theorem fwd_msg_right (h : H.OK) (dn : H.Done S) {p w s : Nat} (hp : p < H.D) (hw : w < H.n)
    (hl : right S p w = some s) (hh : (S w).has p .rghost = true) :
    msg (haloForward S) st0 p s w = readSlice ((S s).cells p .lbulk) (lock (haloForward S) st0 p s) := by
  obtain ⟨hs, -, -⟩ := (nb_spec h dn hw hp).2.2.2 s hl
  have hrt : left S p s = some w := (right_iff_left h dn hw hs hp).1 hl
  have hreq : (S s).req p .lbulk = some w :=
    req_of_has (by rw [(has_left h dn hs hp hrt).2]; exact hh) hrt
  show (haloFwdPhase (S s) p).pack ([(S s).req p .lbulk, (S s).req p .rbulk].idxOf (some w)) _ = _
  rw [hreq, List.idxOf_cons_self]
  rfl

/-- The local position in a slice. -/
abbrev rel (sl : Slices) (l : List Nat) : List Nat := List.zipWith (· - ·) l (sl.map Prod.fst)

theorem fwd_lghost (h : H.OK) (dn : H.Done S) {p w s : Nat} (hp : p < H.D) (hw : w < H.n)
    {l : List Nat} (hl : InSlices ((S w).cells p .lghost) l) (hs : left S p w = some s) :
    lock (haloForward S) st0 (p + 1) w l = lock (haloForward S) st0 p s
      (shiftBy (((S s).cells p .rbulk).map Prod.fst) (rel ((S w).cells p .lghost) l)) := by
  have hh := has_of_mem h dn hp hw hl
  have hnr : ¬ InSlices ((S w).cells p .rghost) l := fun c => ghosts_disjoint h dn hp hw l hl c
  rw [lock_two (a := (S w).req p .lghost) (b := (S w).req p .rghost) rfl,
    req_of_has hh hs]
  simp only [Option.elim_some]
  rw [fwd_msg_left h dn hp hw hs hh]
  cases (S w).req p .rghost with
  | none => simp [haloForward, haloFwdPhase, writeSlice, hl, readSlice, rel]
  | some t => simp [haloForward, haloFwdPhase, writeSlice, hl, hnr, readSlice, rel]

theorem fwd_rghost (h : H.OK) (dn : H.Done S) {p w s : Nat} (hp : p < H.D) (hw : w < H.n)
    {l : List Nat} (hl : InSlices ((S w).cells p .rghost) l) (hs : right S p w = some s) :
    lock (haloForward S) st0 (p + 1) w l = lock (haloForward S) st0 p s
      (shiftBy (((S s).cells p .lbulk).map Prod.fst) (rel ((S w).cells p .rghost) l)) := by
  have hh := has_of_mem h dn hp hw hl
  rw [lock_two (a := (S w).req p .lghost) (b := (S w).req p .rghost) rfl,
    req_of_has hh hs]
  simp only [Option.elim_some]
  rw [fwd_msg_right h dn hp hw hs hh]
  simp [haloForward, haloFwdPhase, writeSlice, hl, readSlice, rel]

theorem fwd_other {p w : Nat} {l : List Nat} (h1 : ¬ InSlices ((S w).cells p .lghost) l)
    (h2 : ¬ InSlices ((S w).cells p .rghost) l) :
    lock (haloForward S) st0 (p + 1) w l = lock (haloForward S) st0 p w l := by
  rw [lock_two (a := (S w).req p .lghost) (b := (S w).req p .rghost) rfl]
  cases (S w).req p .lghost <;> cases (S w).req p .rghost <;>
    simp [haloForward, haloFwdPhase, writeSlice, h1, h2]

/-- Position of a ghost cell in the neighbour that owns it. -/
theorem moved_getD (h : H.OK) (dn : H.Done S) {i r s j : Nat} (hr : r < H.n) (hs : s < H.n)
    (hj : j < H.D) {l : List Nat} (hl : l.length = H.D) (a b : Region) :
    (shiftBy (((S s).cells i b).map Prod.fst) (rel ((S r).cells i a) l)).getD j 0 =
      H.low i s b j + (l.getD j 0 - H.low i r a j) := by
  rw [getD_shiftBy (by rw [List.length_map, length_cells dn hs]; exact hj)
    (by rw [List.length_zipWith, List.length_map, length_cells dn hr, hl]; simpa using hj),
    starts_getD h dn hs hj, getD_zipWith_sub (by rw [hl]; exact hj)
    (by rw [List.length_map, length_cells dn hr]; exact hj), starts_getD h dn hr hj]

theorem moved_length (dn : H.Done S) {i r s : Nat} (hr : r < H.n) (hs : s < H.n)
    {l : List Nat} (hl : l.length = H.D) (a b : Region) :
    (shiftBy (((S s).cells i b).map Prod.fst) (rel ((S r).cells i a) l)).length = H.D := by
  rw [length_shiftBy (by rw [List.length_zipWith, List.length_map, List.length_map, length_cells dn hr,
    length_cells dn hs, hl]; simp), List.length_map, length_cells dn hs]

theorem origin_getD {r j : Nat} (hj : j < H.D) :
    (H.origin r).getD j 0 = H.st j (H.co r j) - H.lw j (H.co r j) := by
  rw [origin, getD_map_range _ _ hj]

theorem lw_le_st (h : H.OK) (hf : H.Fits) {r j : Nat} (hr : r < H.n) (hj : j < H.D) :
    H.lw j (H.co r j) ≤ H.st j (H.co r j) := by
  have hlt := co_lt h hr hj
  rcases Nat.eq_zero_or_pos (H.co r j) with h0 | h0
  · rw [h0, h.left0 j hj]; omega
  · have := hf.left j hj (H.co r j - 1) (by omega)
    rw [show H.co r j - 1 + 1 = H.co r j by omega] at this
    have h2 := H.st_succ j (H.co r j - 1)
    rw [show H.co r j - 1 + 1 = H.co r j by omega] at h2
    omega

/-- Cell `l` of worker `r` lies in the bulk in all dimensions from `p` on. -/
def BulkFrom (H : HaloPlan) (p r : Nat) (l : List Nat) : Prop :=
  ∀ j, p ≤ j → j < H.D → H.lw j (H.co r j) ≤ l.getD j 0 ∧
    l.getD j 0 < H.lw j (H.co r j) + H.x j (H.co r j)

theorem fwd_inv (h : H.OK) (hf : H.Fits) (dn : H.Done S) (X : List Nat → α)
    (h0 : ∀ w, w < H.n → ∀ l, InBounds l (H.shape w) → H.BulkFrom 0 w l →
      st0 w l = X (shiftBy (H.origin w) l)) :
    ∀ p, p ≤ H.D → ∀ w, w < H.n → ∀ l, InBounds l (H.shape w) → H.BulkFrom p w l →
      lock (haloForward S) st0 p w l = X (shiftBy (H.origin w) l) := by
  intro p
  induction p with
  | zero => exact fun _ => h0
  | succ p ih =>
    intro hp w hw l hl hb
    have hpD : p < H.D := hp
    have hlen : l.length = H.D := by rw [(inBounds_iff.1 hl).1, length_shape]
    have hbd : ∀ j, j < H.D → l.getD j 0 < H.size j (H.co w j) := by
      intro j hj
      have := (inBounds_iff.1 hl).2 j (by rw [length_shape]; exact hj)
      rwa [shape_getD hj] at this
    by_cases c1 : l.getD p 0 < H.lw p (H.co w p)
    · -- left ghost
      have hm : InSlices ((S w).cells p .lghost) l := by
        rw [mem_cells h dn hw]
        refine ⟨hlen, fun j hj => ?_⟩
        rw [msgShape, getD_map_range _ _ hj]
        unfold low
        by_cases d1 : j < p
        · simp only [d1, if_true]
          exact ⟨Nat.zero_le _, by have := hbd j hj; omega⟩
        · by_cases d2 : j = p
          · subst d2
            simp only [Nat.lt_irrefl, if_true, if_false, msgWidth, width]
            omega
          · simp only [d1, d2, if_false]
            exact hb j (by omega) hj
      obtain ⟨s, hs⟩ := left_of_mem h dn hpD hw (Or.inl hm)
      obtain ⟨hsn, hs2, hs3⟩ := (nb_spec h dn hw hpD).2.2.1 s hs
      rw [fwd_lghost h dn hpD hw hm hs]
      have hlt := co_lt h hw hpD
      have hfit := hf.left p hpD (H.co s p) (by omega)
      rw [hs2] at hfit
      have hst := H.st_succ p (H.co s p)
      rw [hs2] at hst
      have hrs : (H.width p (H.co s p)).rsend = H.lw p (H.co w p) := by
        show (if H.co s p + 1 < H.Pd p then H.lw p (H.co s p + 1) else 0) = _
        rw [hs2, if_pos hlt]
      have key : ∀ j, j < H.D →
          (shiftBy (((S s).cells p .rbulk).map Prod.fst) (rel ((S w).cells p .lghost) l)).getD j 0 =
          if j = p then H.lw p (H.co s p) + H.x p (H.co s p) - H.lw p (H.co w p) + l.getD p 0
          else l.getD j 0 := by
        intro j hj
        rw [moved_getD h dn hw hsn hj hlen]
        unfold low
        by_cases d1 : j < p
        · simp only [d1, if_true, if_neg (show j ≠ p by omega)]
          omega
        · by_cases d2 : j = p
          · subst d2
            simp only [Nat.lt_irrefl, if_true, if_false, hrs]
            omega
          · simp only [d1, d2, if_false, hs3 j d2]
            have := hb j (by omega) hj
            omega
      have hlen' := moved_length dn (i := p) hw hsn hlen .lghost .rbulk
      rw [ih (by omega) s hsn _ ?_ ?_]
      · congr 1
        apply eq_of_getD
        · rw [length_shiftBy (by rw [hlen']; simp [origin]), length_shiftBy (by rw [hlen]; simp [origin])]
          simp [origin]
        · intro j hj
          rw [length_shiftBy (by rw [hlen']; simp [origin])] at hj
          replace hj : j < H.D := by simpa [origin] using hj
          rw [getD_shiftBy (by simpa [origin] using hj) (by rw [hlen']; exact hj), key j hj,
            getD_shiftBy (by simpa [origin] using hj) (by rw [hlen]; exact hj),
            origin_getD hj, origin_getD hj]
          have g1 := lw_le_st h hf hsn hj
          have g2 := lw_le_st h hf hw hj
          by_cases d2 : j = p
          · subst d2
            simp only [if_true]
            omega
          · simp only [d2, if_false, hs3 j d2]
      · rw [inBounds_iff]
        refine ⟨by rw [hlen', length_shape], fun j hj => ?_⟩
        rw [length_shape] at hj
        rw [key j hj, shape_getD hj]
        by_cases d2 : j = p
        · subst d2
          simp only [if_true, size]
          omega
        · simp only [d2, if_false, hs3 j d2]
          exact hbd j hj
      · intro j hj hjD
        rw [key j hjD]
        by_cases d2 : j = p
        · subst d2
          simp only [if_true]
          omega
        · simp only [d2, if_false, hs3 j d2]
          exact hb j (by omega) hjD
    · by_cases c2 : H.lw p (H.co w p) + H.x p (H.co w p) ≤ l.getD p 0
      · -- right ghost
        have hm : InSlices ((S w).cells p .rghost) l := by
          rw [mem_cells h dn hw]
          refine ⟨hlen, fun j hj => ?_⟩
          rw [msgShape, getD_map_range _ _ hj]
          unfold low
          by_cases d1 : j < p
          · simp only [d1, if_true]
            exact ⟨Nat.zero_le _, by have := hbd j hj; omega⟩
          · by_cases d2 : j = p
            · subst d2
              simp only [Nat.lt_irrefl, if_true, if_false, msgWidth, width]
              have := hbd j hj
              unfold size at this
              omega
            · simp only [d1, d2, if_false]
              exact hb j (by omega) hj
        obtain ⟨s, hs⟩ := right_of_mem h dn hpD hw (Or.inl hm)
        obtain ⟨hsn, hs2, hs3⟩ := (nb_spec h dn hw hpD).2.2.2 s hs
        rw [fwd_rghost h dn hpD hw hm hs]
        have hlt := co_lt h hsn hpD
        have hfit := hf.right p hpD (H.co w p) (by omega)
        rw [← hs2] at hfit
        have hst := H.st_succ p (H.co w p)
        rw [← hs2] at hst
        have key : ∀ j, j < H.D →
            (shiftBy (((S s).cells p .lbulk).map Prod.fst) (rel ((S w).cells p .rghost) l)).getD j 0 =
            if j = p then H.lw p (H.co s p) + (l.getD p 0 - (H.lw p (H.co w p) + H.x p (H.co w p)))
            else l.getD j 0 := by
          intro j hj
          rw [moved_getD h dn hw hsn hj hlen]
          unfold low
          by_cases d1 : j < p
          · simp only [d1, if_true, if_neg (show j ≠ p by omega)]
            omega
          · by_cases d2 : j = p
            · subst d2
              simp only [Nat.lt_irrefl, if_true, if_false]
            · simp only [d1, d2, if_false, hs3 j d2]
              have := hb j (by omega) hj
              omega
        have hlen' := moved_length dn (i := p) hw hsn hlen .rghost .lbulk
        have hbp := hbd p hpD
        unfold size at hbp
        rw [ih (by omega) s hsn _ ?_ ?_]
        · congr 1
          apply eq_of_getD
          · rw [length_shiftBy (by rw [hlen']; simp [origin]), length_shiftBy (by rw [hlen]; simp [origin])]
            simp [origin]
          · intro j hj
            rw [length_shiftBy (by rw [hlen']; simp [origin])] at hj
            replace hj : j < H.D := by simpa [origin] using hj
            rw [getD_shiftBy (by simpa [origin] using hj) (by rw [hlen']; exact hj), key j hj,
              getD_shiftBy (by simpa [origin] using hj) (by rw [hlen]; exact hj),
              origin_getD hj, origin_getD hj]
            have g1 := lw_le_st h hf hsn hj
            have g2 := lw_le_st h hf hw hj
            by_cases d2 : j = p
            · subst d2
              simp only [if_true]
              omega
            · simp only [d2, if_false, hs3 j d2]
        · rw [inBounds_iff]
          refine ⟨by rw [hlen', length_shape], fun j hj => ?_⟩
          rw [length_shape] at hj
          rw [key j hj, shape_getD hj]
          by_cases d2 : j = p
          · subst d2
            simp only [if_true, size]
            omega
          · simp only [d2, if_false, hs3 j d2]
            exact hbd j hj
        · intro j hj hjD
          rw [key j hjD]
          by_cases d2 : j = p
          · subst d2
            simp only [if_true]
            omega
          · simp only [d2, if_false, hs3 j d2]
            exact hb j (by omega) hjD
      · -- bulk
        have n1 : ¬ InSlices ((S w).cells p .lghost) l := by
          intro c
          have := ((mem_cells h dn hw _ l).1 c).2 p hpD
          rw [msgShape, getD_map_range _ _ hpD] at this
          simp only [low, Nat.lt_irrefl, if_true, if_false, msgWidth, width] at this
          omega
        have n2 : ¬ InSlices ((S w).cells p .rghost) l := by
          intro c
          have := ((mem_cells h dn hw _ l).1 c).2 p hpD
          rw [msgShape, getD_map_range _ _ hpD] at this
          simp only [low, Nat.lt_irrefl, if_true, if_false, msgWidth, width] at this
          omega
        rw [fwd_other n1 n2]
        apply ih (by omega) w hw l hl
        intro j hj hjD
        by_cases d2 : j = p
        · subst d2
          omega
        · exact hb j (by omega) hjD

/-- With a single worker there is nothing to exchange. -/
theorem single (h : H.OK) (h1 : H.n = 1) {r j : Nat} (hr : r < H.n) (hj : j < H.D) :
    H.lw j (H.co r j) = 0 ∧ H.rw j (H.co r j) = 0 := by
  have hp : H.P.shape.prod = 1 := by rw [← H.n_eq h, h1]
  have hone : H.Pd j = 1 := by
    have hm : H.Pd j ∈ H.P.shape := by
      unfold Pd
      rw [List.getD_eq_getElem _ _ hj]
      exact List.getElem_mem hj
    have hd : H.Pd j ∣ 1 := hp ▸ List.dvd_prod hm
    exact Nat.dvd_one.1 hd
  have hc := co_lt h hr hj
  have h0 : H.co r j = 0 := by omega
  have hr0 := h.right0 j hj
  rw [hone] at hr0
  rw [h0]
  exact ⟨h.left0 j hj, hr0⟩

theorem fwd_final (h : H.OK) (hf : H.Fits) (dn : H.Done S) (X : List Nat → α)
    (h0 : ∀ w, w < H.n → ∀ l, InBounds l (H.shape w) → H.BulkFrom 0 w l →
      st0 w l = X (shiftBy (H.origin w) l)) (w : Nat) (hw : w < H.n) (l : List Nat)
    (hl : InBounds l (H.shape w)) :
    lock (haloForward S) st0 (haloPhases H.P) w l = X (shiftBy (H.origin w) l) := by
  unfold haloPhases
  split
  · rename_i h1
    apply h0 w hw l hl
    intro j _ hj
    obtain ⟨e1, e2⟩ := single h h1 hw hj
    have := (inBounds_iff.1 hl).2 j (by rw [length_shape]; exact hj)
    rw [shape_getD hj, size] at this
    omega
  · exact fwd_inv h hf dn X h0 _ (Nat.le_refl _) w hw l hl fun j h1 h2 => absurd h2 (by omega)

end forward

end HaloPlan

end Verif
