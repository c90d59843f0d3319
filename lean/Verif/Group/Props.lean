import Verif.Group.Colors
import Verif.Collective.Machine
import Mathlib.Data.List.GetD

/-!
# Broadcast and reduction partitions: properties C18-C21 and C24
-/

namespace Verif

/-! ## Specification -/

/-- A list read backwards when the flag is set (the effect promised for a transposed partition). -/
def turn (t : Bool) (x : List Nat) : List Nat := if t then x.reverse else x

/-- The broadcast rule: `S`, extended on the left with ones, has in every dimension the extent of
`D` or the extent 1. -/
def BroadcastRule (S D : List Nat) : Prop :=
  S.length ≤ D.length ∧
    ∀ j < S.length, S.getD j 0 = D.getD (D.length - S.length + j) 0 ∨ S.getD j 0 = 1

/-- Position `c` in a partition of shape `S` and position `d` in the larger partition agree in every
dimension where the extent of `S` is not 1 (aligned on the right). -/
def Agree (S c d : List Nat) : Prop :=
  ∀ j < S.length, S.getD j 0 ≠ 1 → c.getD j 0 = d.getD (d.length - S.length + j) 0

/-- What the caller guarantees: two Cartesian partitions of the same root communicator, the smaller
one of at least one dimension, shapes obeying the rule after the requested reversals. -/
structure BcastValid (Ps Pd : Cart) (ts td : Bool) : Prop where
  wfs : Ps.WF
  wfd : Pd.WF
  root : ∃ r, Ps.root = some r ∧ Pd.root = some r
  dim : Ps.shape ≠ []
  rule : BroadcastRule (turn ts Ps.shape) (turn td Pd.shape)

/-- `run` gives every worker its partitions, of which `rootSide` belongs to workers in `roots` and
`leafSide` to workers in `leaves`.  Every leaf is related to exactly one root and every root to some
leaf; the root heads the
group of the leaf; the group of a root holds, besides the root, exactly its leaves; workers outside a
side have no group on that side. -/
structure PairsBy (run : Nat → Res SendRecv) (roots leaves : List Nat)
    (rootSide leafSide : SendRecv → Option (List Nat)) (rel : Nat → Nat → Prop) : Prop where
  unique : ∀ v ∈ leaves, ∃! r, r ∈ roots ∧ rel r v
  onto : ∀ r ∈ roots, ∃ v ∈ leaves, rel r v
  leaf : ∀ v ∈ leaves, ∃ sr g, run v = .value sr ∧ leafSide sr = some g ∧
    ∃ r ∈ roots, rel r v ∧ g.head? = some r ∧ ∀ u, u ∈ g ↔ u = r ∨ (u ∈ leaves ∧ rel r u)
  root : ∀ r ∈ roots, ∃ sr g, run r = .value sr ∧ rootSide sr = some g ∧ g.head? = some r ∧
    ∀ u, u ∈ g ↔ u = r ∨ (u ∈ leaves ∧ rel r u)
  only : ∀ w sr, run w = .value sr → (w ∉ roots → rootSide sr = none) ∧
    (w ∉ leaves → leafSide sr = none)

/-! ## Helpers -/

theorem compat_pad_iff {m : Nat} {t : Bool} {S D : List Nat} (hle : S.length ≤ m)
    (hD : D.length = m) :
    Compat (padShape m t S) D ↔
      ∀ j < S.length, (revIf t S).getD j 0 = D.getD (m - S.length + j) 0 ∨
        (revIf t S).getD j 0 = 1 := by
  have key : ∀ (k : Nat) (X D : List Nat), D.length = k + X.length →
      (Compat (List.replicate k 1 ++ X) D ↔
        ∀ j < X.length, X.getD j 0 = D.getD (k + j) 0 ∨ X.getD j 0 = 1) := by
    intro k
    induction k with
    | zero =>
      intro X D hl
      simp only [List.replicate_zero, List.nil_append, Nat.zero_add]
      induction X generalizing D with
      | nil =>
        have : D = [] := List.length_eq_zero_iff.1 (by simpa using hl)
        subst this
        simp
      | cons x X ih =>
        cases D with
        | nil => simp at hl
        | cons d D =>
          have hc : Compat (x :: X) (d :: D) ↔ (x = d ∨ x = 1) ∧ Compat X D := List.forall₂_cons
          rw [hc, ih D (by simpa using hl)]
          constructor
          · rintro ⟨h1, h2⟩ j hj
            cases j with
            | zero => simpa using h1
            | succ j => simpa using h2 j (by simpa using hj)
          · intro h
            exact ⟨by simpa using h 0 (by simp), fun j hj => by
              simpa using h (j + 1) (by simpa using hj)⟩
    | succ k ih =>
      intro X D hl
      cases D with
      | nil => simp at hl; omega
      | cons d D =>
        have hc : Compat (1 :: (List.replicate k 1 ++ X)) (d :: D) ↔
            (1 = d ∨ 1 = 1) ∧ Compat (List.replicate k 1 ++ X) D := List.forall₂_cons
        rw [List.replicate_succ, List.cons_append, hc, ih X D (by simp at hl; omega)]
        simp only [or_true, true_and]
        apply forall_congr'
        intro j
        rw [show k + 1 + j = (k + j) + 1 by omega, List.getD_cons_succ]
  unfold padShape
  rw [key (m - S.length) (revIf t S) D (by rw [length_revIf]; omega), length_revIf]

theorem rule_iff {ts td : Bool} {S D : List Nat} :
    BroadcastRule (turn ts S) (turn td D) ↔
      S.length ≤ D.length ∧ Compat (padShape D.length ts S) (revIf td D) := by
  have ht : ∀ t x, turn t x = revIf t x := fun _ _ => rfl
  unfold BroadcastRule
  rw [ht, ht, length_revIf, length_revIf]
  constructor
  · rintro ⟨h1, h2⟩
    exact ⟨h1, (compat_pad_iff h1 (length_revIf td D)).2 h2⟩
  · rintro ⟨h1, h2⟩
    exact ⟨h1, (compat_pad_iff h1 (length_revIf td D)).1 h2⟩

theorem agree_iff {m : Nat} {t : Bool} {S c d : List Nat} (hle : S.length ≤ m)
    (hc : c.length = S.length) (hd : d.length = m) :
    (∀ j, (padShape m t S).getD j 0 ≠ 1 → (padIdx m t c).getD j 0 = d.getD j 0) ↔
      Agree (turn t S) (turn t c) d := by
  have ht : ∀ t x, turn t x = revIf t x := fun _ _ => rfl
  unfold Agree padShape padIdx
  rw [ht, ht, hc, hd, length_revIf]
  have hrc : (revIf t c).length = S.length := by rw [length_revIf, hc]
  constructor
  · intro h j hj hne
    have := h (m - S.length + j) (by
      rw [List.getD_append_right _ _ _ _ (by simp)]
      simpa using hne)
    rw [List.getD_append_right _ _ _ _ (by simp)] at this
    simpa using this
  · intro h j hne
    by_cases hj : j < m - S.length
    · exfalso
      apply hne
      rw [List.getD_append _ _ _ _ (by simpa using hj), List.getD_eq_getElem?_getD]
      simp [hj]
    · by_cases hj2 : j < m
      · have := h (j - (m - S.length)) (by omega) (by
          rw [List.getD_append_right _ _ _ _ (by simp; omega)] at hne
          simpa using hne)
        rw [List.getD_append_right _ _ _ _ (by simp; omega)]
        rw [show m - S.length + (j - (m - S.length)) = j by omega] at this
        simpa using this
      · rw [List.getD_eq_default _ _ (by simp [hrc]; omega), List.getD_eq_default _ _ (by omega)]

/-- Colour of the small side over shapes as computed by the code. -/
def colS (Ps Pd : Cart) (ts td : Bool) : Nat → Int :=
  smallFlat ts (matchMask (padShape Pd.shape.length ts Ps.shape) (revIf td Pd.shape))
    (padShape Pd.shape.length ts Ps.shape) Ps

/-- Colour of the big side. -/
def colD (Ps Pd : Cart) (ts td : Bool) : Nat → Int :=
  bigFlat td (matchMask (padShape Pd.shape.length ts Ps.shape) (revIf td Pd.shape))
    (revIf td Pd.shape) Pd

section
variable {Ps Pd : Cart} {ts td : Bool}

theorem BcastValid.le (h : BcastValid Ps Pd ts td) : Ps.shape.length ≤ Pd.shape.length :=
  (rule_iff.1 h.rule).1

theorem BcastValid.compat (h : BcastValid Ps Pd ts td) :
    Compat (padShape Pd.shape.length ts Ps.shape) (revIf td Pd.shape) := (rule_iff.1 h.rule).2

theorem BcastValid.cross (h : BcastValid Ps Pd ts td) :
    CrossOK (groupUnion Ps.members Pd.members) Ps.members Pd.members (colS Ps Pd ts td)
      (colD Ps Pd ts td) :=
  cross_ok (nodup_groupUnion h.wfs.nodup h.wfd.nodup) h.wfs h.wfd
    (fun _ hv => mem_groupUnion.2 (Or.inl hv)) (fun _ hv => mem_groupUnion.2 (Or.inr hv)) h.dim h.le
    h.compat

theorem BcastValid.crossR (h : BcastValid Pd Ps td ts) :
    CrossOK (groupUnion Ps.members Pd.members) Pd.members Ps.members (colS Pd Ps td ts)
      (colD Pd Ps td ts) :=
  cross_ok (nodup_groupUnion h.wfd.nodup h.wfs.nodup) h.wfs h.wfd
    (fun _ hv => mem_groupUnion.2 (Or.inr hv)) (fun _ hv => mem_groupUnion.2 (Or.inl hv)) h.dim h.le
    h.compat

theorem rows_eq (U : List Nat) (f : Nat → Int) :
    (allgatherData U 1 fun v => [f v]) = U.map fun v => [f v] :=
  C29_allgather U 1 _ fun _ _ => rfl

theorem broadcast_eq (h : BcastValid Ps Pd ts td) {w : Nat} (hw : w ∈ Ps.members ∨ w ∈ Pd.members) :
    ∃ sr, broadcastPartitions Ps Pd ts td w = .value sr ∧
      SRSpec (groupUnion Ps.members Pd.members) Ps.members Pd.members (colS Ps Pd ts td)
        (colD Ps Pd ts td) w sr.send sr.recv sr.creations := by
  obtain ⟨r, hr1, hr2⟩ := h.root
  have hU : w ∈ groupUnion Ps.members Pd.members := mem_groupUnion.2 hw
  have hx := sharedShape_eq h.wfs (U := groupUnion Ps.members Pd.members)
    (fun _ hv => mem_groupUnion.2 (Or.inl hv)) hU
  have hy := sharedShape_eq h.wfd (U := groupUnion Ps.members Pd.members)
    (fun _ hv => mem_groupUnion.2 (Or.inr hv)) hU
  have hmm : mismatch (padShape Pd.shape.length ts Ps.shape) (revIf td Pd.shape) = false :=
    (mismatch_eq_false h.compat.length_eq).2 h.compat
  obtain ⟨sr, h1, h2⟩ := h.cross.sendRecv_root hw
  refine ⟨sr, ?_, h2⟩
  rw [← h1]
  unfold broadcastPartitions
  rw [if_neg (by tauto)]
  simp only [createUnion, hr1, hr2, identicalComm, beq_self_eq_true, Bool.not_true,
    Bool.false_eq_true, if_false, hx, hy, padTail_shape h.dim, hmm, rows_eq, gt_iff_lt,
    Nat.not_lt.2 h.le]
  rfl

theorem reduction_eq (h : BcastValid Pd Ps td ts) {w : Nat} (hw : w ∈ Ps.members ∨ w ∈ Pd.members) :
    ∃ sr, reductionPartitions Ps Pd ts td w = .value sr ∧
      SRSpec (groupUnion Ps.members Pd.members) Pd.members Ps.members (colS Pd Ps td ts)
        (colD Pd Ps td ts) w sr.recv sr.send sr.creations := by
  obtain ⟨r, hr1, hr2⟩ := h.root
  have hU : w ∈ groupUnion Ps.members Pd.members := mem_groupUnion.2 hw
  have hx := sharedShape_eq h.wfd (U := groupUnion Ps.members Pd.members)
    (fun _ hv => mem_groupUnion.2 (Or.inl hv)) hU
  have hy := sharedShape_eq h.wfs (U := groupUnion Ps.members Pd.members)
    (fun _ hv => mem_groupUnion.2 (Or.inr hv)) hU
  have hmm : mismatch (padShape Ps.shape.length td Pd.shape) (revIf ts Ps.shape) = false :=
    (mismatch_eq_false h.compat.length_eq).2 h.compat
  obtain ⟨sr, h1, h2⟩ := h.crossR.sendRecv_leaf hw.symm
  refine ⟨sr, ?_, h2⟩
  rw [← h1]
  unfold reductionPartitions
  rw [if_neg (by tauto)]
  simp only [createUnion, hr1, hr2, identicalComm, beq_self_eq_true, Bool.not_true,
    Bool.false_eq_true, if_false, hx, hy, padTail_shape h.dim, hmm, rows_eq, gt_iff_lt,
    Nat.not_lt.2 h.le, matchMask_comm (revIf ts Ps.shape)]
  rfl

theorem broadcast_inactive {w : Nat} (h1 : w ∉ Ps.members) (h2 : w ∉ Pd.members) :
    broadcastPartitions Ps Pd ts td w = .returnsNone := by
  unfold broadcastPartitions
  rw [if_pos ⟨h1, h2⟩]

theorem reduction_inactive {w : Nat} (h1 : w ∉ Ps.members) (h2 : w ∉ Pd.members) :
    reductionPartitions Ps Pd ts td w = .returnsNone := by
  unfold reductionPartitions
  rw [if_pos ⟨h1, h2⟩]

/-- The pairing follows any relation that describes equality of colours. -/
theorem pairsBy_of {U R D : List Nat} {cr cd : Nat → Int} (h : CrossOK U R D cr cd)
    {run : Nat → Res SendRecv} {a b : SendRecv → Option (List Nat)}
    (hrun : ∀ w, w ∈ R ∨ w ∈ D → ∃ sr, run w = .value sr ∧
      SRSpec U R D cr cd w (a sr) (b sr) sr.creations)
    (hout : ∀ w, w ∉ R → w ∉ D → run w = .returnsNone)
    {rel : Nat → Nat → Prop} (hrel : ∀ r ∈ R, ∀ v ∈ D, (cr r = cd v ↔ rel r v))
    (honto : ∀ r ∈ R, ∃ v ∈ D, cr r = cd v) :
    PairsBy run R D a b rel := by
  have hmem : ∀ r ∈ R, ∀ u, u ∈ grp U cr cd r ↔ u = r ∨ (u ∈ D ∧ rel r u) := by
    intro r hr u
    rw [h.mem_grp hr]
    constructor
    · rintro (h1 | ⟨h1, h2⟩)
      · exact Or.inl h1
      · refine Or.inr ⟨h1, (hrel r hr u h1).1 ?_⟩
        rw [← h2]; exact (h.rootOf_spec h1).2
    · rintro (h1 | ⟨h1, h2⟩)
      · exact Or.inl h1
      · exact Or.inr ⟨h1, h.rootOf_eq h1 hr ((hrel r hr u h1).2 h2)⟩
  refine ⟨?_, fun r hr => (honto r hr).imp fun v hv => ⟨hv.1, (hrel r hr v hv.1).1 hv.2⟩,
    ?_, ?_, ?_⟩
  · intro v hv
    have hs := h.rootOf_spec hv
    refine ⟨_, ⟨hs.1, (hrel _ hs.1 v hv).1 hs.2⟩, ?_⟩
    rintro r' ⟨h1, h2⟩
    exact (h.rootOf_eq hv h1 ((hrel _ h1 v hv).2 h2)).symm
  · intro v hv
    obtain ⟨sr, h1, h2⟩ := hrun v (Or.inr hv)
    have hs := h.rootOf_spec hv
    refine ⟨sr, _, h1, by rw [h2.leafSide, if_pos hv], _, hs.1, (hrel _ hs.1 v hv).1 hs.2, rfl, ?_⟩
    exact hmem _ hs.1
  · intro r hr
    obtain ⟨sr, h1, h2⟩ := hrun r (Or.inl hr)
    exact ⟨sr, _, h1, by rw [h2.rootSide, if_pos hr], rfl, hmem r hr⟩
  · intro w sr hw
    by_cases hin : w ∈ R ∨ w ∈ D
    · obtain ⟨sr', h1, h2⟩ := hrun w hin
      rw [h1] at hw
      cases hw
      exact ⟨fun hn => by rw [h2.rootSide, if_neg hn], fun hn => by rw [h2.leafSide, if_neg hn]⟩
    · rw [hout w (fun hh => hin (Or.inl hh)) (fun hh => hin (Or.inr hh))] at hw
      cases hw

theorem colS_eq (h : BcastValid Ps Pd ts td) {r : Nat} (hr : r ∈ Ps.members) :
    colS Ps Pd ts td r =
      (flatIndex ts (matchMask (padShape Pd.shape.length ts Ps.shape) (revIf td Pd.shape))
        (padShape Pd.shape.length ts Ps.shape) (padIdx Pd.shape.length ts (Ps.coord r)) : Int) := by
  unfold colS smallFlat
  rw [Cart.index_eq hr]
  simp only [length_padShape h.le]
  rw [padTail_idx]
  rw [length_coord]
  exact fun e => h.dim (List.length_eq_zero_iff.1 e)

theorem colS_rank (h : BcastValid Ps Pd ts td) {r : Nat} (hr : r ∈ Ps.members) :
    colS Ps Pd ts td r = (Ps.members.idxOf r : Int) := by
  rw [colS_eq h hr, flatIndex_small (coord_in h.wfs hr) h.compat]
  unfold Cart.coord
  rw [(getCoords_spec (h.wfs.size ▸ List.idxOf_lt_length_of_mem hr)).2]

theorem agree_same (h : BcastValid Ps Pd ts td) (hst : ts = td) {r v : Nat} (hr : r ∈ Ps.members)
    (hv : v ∈ Pd.members) :
    colS Ps Pd ts td r = colD Ps Pd ts td v ↔
      Agree (turn ts Ps.shape) (turn ts (Ps.coord r)) (turn td (Pd.coord v)) := by
  subst hst
  rw [colS_eq h hr]
  unfold colD
  rw [bigFlat_eq hv]
  have hb := inBounds_revIf (t := ts) (coord_in h.wfd hv)
  have hin : InBounds (padIdx Pd.shape.length ts (Ps.coord r))
      (padShape Pd.shape.length ts Ps.shape) := inBounds_pad (coord_in h.wfs hr)
  rw [Int.ofNat_inj, flatIndex_inj (keep_shape_eq h.compat.length_eq) hin hb,
    keep_eq_iff h.compat hin hb]
  exact agree_iff h.le (length_coord _ _) (by rw [length_revIf, length_coord])

theorem exists_fill {mask : List Bool} {D m : List Nat} (hl : mask.length = D.length)
    (hpos : ∀ n ∈ D, 0 < n) (hm : InBounds m (keepDims mask D)) :
    ∃ d, InBounds d D ∧ keepDims mask d = m := by
  induction mask generalizing D m with
  | nil =>
    cases D with
    | nil =>
      cases m with
      | nil => exact ⟨[], trivial, rfl⟩
      | cons _ _ => exact hm.elim
    | cons _ _ => simp at hl
  | cons b bs ih =>
    cases D with
    | nil => simp at hl
    | cons n ns =>
      have hl' : bs.length = ns.length := by simpa using hl
      have hp' : ∀ k ∈ ns, 0 < k := fun k hk => hpos k (by simp [hk])
      cases b with
      | false =>
        obtain ⟨d, h1, h2⟩ := ih hl' hp' (m := m) (by simpa [keepDims] using hm)
        exact ⟨0 :: d, ⟨hpos n (by simp), h1⟩, by simp [keepDims, h2]⟩
      | true =>
        cases m with
        | nil => simp [keepDims, InBounds] at hm
        | cons i is =>
          have hm' : i < n ∧ InBounds is (keepDims bs ns) := by
            simpa [keepDims, InBounds] using hm
          obtain ⟨d, h1, h2⟩ := ih hl' hp' hm'.2
          exact ⟨i :: d, ⟨hm'.1, h1⟩, by simp [keepDims, h2]⟩

theorem exists_member_at {P : Cart} (h : P.WF) {c : List Nat} (hc : InBounds c P.shape) :
    ∃ v ∈ P.members, P.coord v = c := by
  have hlt : flatC P.shape c < P.members.length := by rw [h.size]; exact flatC_lt hc
  refine ⟨P.members[flatC P.shape c], List.getElem_mem _, ?_⟩
  unfold Cart.coord
  rw [h.nodup.idxOf_getElem, getCoords_flatC hc]

theorem BcastValid.onto (h : BcastValid Ps Pd ts td) :
    ∀ r ∈ Ps.members, ∃ v ∈ Pd.members, colS Ps Pd ts td r = colD Ps Pd ts td v := by
  intro r hr
  have hlen := h.compat.length_eq
  have hk := keep_shape_eq hlen
  have hlt : flatIndex ts (matchMask (padShape Pd.shape.length ts Ps.shape) (revIf td Pd.shape))
      (padShape Pd.shape.length ts Ps.shape) (padIdx Pd.shape.length ts (Ps.coord r)) <
      (keepDims (matchMask (padShape Pd.shape.length ts Ps.shape) (revIf td Pd.shape))
        (revIf td Pd.shape)).prod := by
    rw [← hk]
    exact flatIndex_lt (inBounds_pad (coord_in h.wfs hr))
  have hmask := length_matchMask hlen
  rw [hlen] at hmask
  have hpos : ∀ n ∈ revIf td Pd.shape, 0 < n := by
    intro n hn
    apply h.wfd.pos
    cases td
    · exact hn
    · exact List.mem_reverse.1 hn
  have hex : ∃ m, InBounds m (keepDims
      (matchMask (padShape Pd.shape.length ts Ps.shape) (revIf td Pd.shape)) (revIf td Pd.shape)) ∧
      (if td then cartesianIndexF (keepDims
        (matchMask (padShape Pd.shape.length ts Ps.shape) (revIf td Pd.shape))
        (revIf td Pd.shape)) m else cartesianIndexC (keepDims
        (matchMask (padShape Pd.shape.length ts Ps.shape) (revIf td Pd.shape))
        (revIf td Pd.shape)) m) =
      flatIndex ts (matchMask (padShape Pd.shape.length ts Ps.shape) (revIf td Pd.shape))
      (padShape Pd.shape.length ts Ps.shape) (padIdx Pd.shape.length ts (Ps.coord r)) := by
    cases td
    · exact (C04_bijection_c _).2.2 _ hlt
    · exact (C04_bijection_f _).2.2 _ hlt
  obtain ⟨m, hm1, hm2⟩ := hex
  obtain ⟨d, hd1, hd2⟩ := exists_fill hmask hpos hm1
  have hrr : ∀ x : List Nat, revIf td (revIf td x) = x := by
    intro x; cases td <;> simp [revIf]
  obtain ⟨v, hv, hvc⟩ := exists_member_at h.wfd (c := revIf td d) (by
    have := inBounds_revIf (t := td) hd1
    rwa [hrr] at this)
  refine ⟨v, hv, ?_⟩
  rw [colS_eq h hr, ← hm2]
  unfold colD
  rw [bigFlat_eq hv, hvc, hrr]
  unfold flatIndex
  rw [hd2]

end

/-! ## C18 -/

/-- C18: without transposition each destination worker is served by exactly the source worker whose
position agrees with its own wherever the source extent is not one, and a source serves exactly those
destinations, for all shapes obeying the rule and all placements. -/
theorem C18_broadcast_pairs (Px Py : Cart) (h : BcastValid Px Py false false) :
    PairsBy (broadcastPartitions Px Py false false) Px.members Py.members
      SendRecv.send SendRecv.recv fun w v => Agree Px.shape (Px.coord w) (Py.coord v) :=
  pairsBy_of h.cross (fun _ hw => broadcast_eq h hw)
    (fun _ h1 h2 => broadcast_inactive h1 h2) (fun _ hr _ hv => agree_same h rfl hr hv) h.onto

/-- C18 for reductions: the roles are exchanged, the destination being the smaller side. -/
theorem C18_reduction_pairs (Px Py : Cart) (h : BcastValid Py Px false false) :
    PairsBy (reductionPartitions Px Py false false) Py.members Px.members
      SendRecv.recv SendRecv.send fun w v => Agree Py.shape (Py.coord w) (Px.coord v) :=
  pairsBy_of h.crossR (fun _ hw => reduction_eq h hw.symm)
    (fun _ h1 h2 => reduction_inactive h2 h1) (fun _ hr _ hv => agree_same h rfl hr hv) h.onto

/-- A `1 x 3` partition on workers 4,5,6 and a `2 x 3` partition on workers 0..5. -/
def exBx : Cart := ⟨[4, 5, 6], [3], some 0⟩
def exBy : Cart := ⟨[0, 1, 2, 3, 4, 5], [2, 3], some 0⟩

theorem exB_valid : BcastValid exBx exBy false false :=
  ⟨⟨by decide, by decide, by decide⟩, ⟨by decide, by decide, by decide⟩, ⟨0, rfl, rfl⟩, by decide,
    by decide, by decide⟩

/-- Worker 4 is both a source and a destination of another source. -/
example : broadcastPartitions exBx exBy false false 4 =
    .value ⟨some [4, 0, 3], some [5, 4, 1], [(0, [4, 0, 3]), (1, [5, 4, 1])]⟩ := by decide

example : reductionPartitions exBy exBx false false 4 =
    .value ⟨some [5, 1, 4], some [4, 0, 3], [(4, [4, 0, 3]), (5, [5, 1, 4])]⟩ := by decide

/-! ## C19 -/

/-- C19: creating broadcast partitions raises exactly when the rule fails, and produces partitions
otherwise, for every participating worker, all shapes and flags. -/
theorem C19_broadcast_rejects (Px Py : Cart) (ts td : Bool) (wfx : Px.WF) (wfy : Py.WF)
    (hroot : ∃ r, Px.root = some r ∧ Py.root = some r) (hdim : Px.shape ≠ [])
    (w : Nat) (hw : w ∈ Px.members ∨ w ∈ Py.members) :
    (broadcastPartitions Px Py ts td w = .raises ↔
      ¬ BroadcastRule (turn ts Px.shape) (turn td Py.shape)) ∧
    (BroadcastRule (turn ts Px.shape) (turn td Py.shape) →
      ∃ sr, broadcastPartitions Px Py ts td w = .value sr) := by
  have hpos : BroadcastRule (turn ts Px.shape) (turn td Py.shape) →
      ∃ sr, broadcastPartitions Px Py ts td w = .value sr := by
    intro hr
    obtain ⟨sr, h1, _⟩ := broadcast_eq ⟨wfx, wfy, hroot, hdim, hr⟩ hw
    exact ⟨sr, h1⟩
  refine ⟨⟨?_, ?_⟩, hpos⟩
  · intro hraise hr
    obtain ⟨sr, h1⟩ := hpos hr
    rw [h1] at hraise
    cases hraise
  · intro hr
    obtain ⟨r, hr1, hr2⟩ := hroot
    have hU : w ∈ groupUnion Px.members Py.members := mem_groupUnion.2 hw
    have hx := sharedShape_eq wfx (U := groupUnion Px.members Py.members)
      (fun _ hv => mem_groupUnion.2 (Or.inl hv)) hU
    have hy := sharedShape_eq wfy (U := groupUnion Px.members Py.members)
      (fun _ hv => mem_groupUnion.2 (Or.inr hv)) hU
    unfold broadcastPartitions
    rw [if_neg (by tauto)]
    simp only [createUnion, hr1, hr2, identicalComm, beq_self_eq_true, Bool.not_true,
      Bool.false_eq_true, if_false, hx, hy, padTail_shape hdim, gt_iff_lt]
    by_cases hle : Px.shape.length ≤ Py.shape.length
    · rw [if_neg (Nat.not_lt.2 hle)]
      have : ¬ Compat (padShape Py.shape.length ts Px.shape) (revIf td Py.shape) :=
        fun hc => hr (rule_iff.2 ⟨hle, hc⟩)
      rw [if_pos]
      by_contra hm
      exact this ((mismatch_eq_false (by rw [length_padShape hle, length_revIf])).1
        (by simpa using hm))
    · rw [if_pos (Nat.lt_of_not_le hle)]

/-- C19 for reductions. -/
theorem C19_reduction_rejects (Px Py : Cart) (ts td : Bool) (wfx : Px.WF) (wfy : Py.WF)
    (hroot : ∃ r, Py.root = some r ∧ Px.root = some r) (hdim : Py.shape ≠ [])
    (w : Nat) (hw : w ∈ Px.members ∨ w ∈ Py.members) :
    (reductionPartitions Px Py ts td w = .raises ↔
      ¬ BroadcastRule (turn td Py.shape) (turn ts Px.shape)) ∧
    (BroadcastRule (turn td Py.shape) (turn ts Px.shape) →
      ∃ sr, reductionPartitions Px Py ts td w = .value sr) := by
  have hpos : BroadcastRule (turn td Py.shape) (turn ts Px.shape) →
      ∃ sr, reductionPartitions Px Py ts td w = .value sr := by
    intro hr
    obtain ⟨sr, h1, _⟩ := reduction_eq ⟨wfy, wfx, hroot, hdim, hr⟩ hw
    exact ⟨sr, h1⟩
  refine ⟨⟨?_, ?_⟩, hpos⟩
  · intro hraise hr
    obtain ⟨sr, h1⟩ := hpos hr
    rw [h1] at hraise
    cases hraise
  · intro hr
    obtain ⟨r, hr1, hr2⟩ := hroot
    have hU : w ∈ groupUnion Px.members Py.members := mem_groupUnion.2 hw
    have hx := sharedShape_eq wfx (U := groupUnion Px.members Py.members)
      (fun _ hv => mem_groupUnion.2 (Or.inl hv)) hU
    have hy := sharedShape_eq wfy (U := groupUnion Px.members Py.members)
      (fun _ hv => mem_groupUnion.2 (Or.inr hv)) hU
    unfold reductionPartitions
    rw [if_neg (by tauto)]
    simp only [createUnion, hr1, hr2, identicalComm, beq_self_eq_true, Bool.not_true,
      Bool.false_eq_true, if_false, hx, hy, padTail_shape hdim, gt_iff_lt]
    by_cases hle : Py.shape.length ≤ Px.shape.length
    · rw [if_neg (Nat.not_lt.2 hle)]
      have : ¬ Compat (padShape Px.shape.length td Py.shape) (revIf ts Px.shape) :=
        fun hc => hr (rule_iff.2 ⟨hle, hc⟩)
      rw [if_pos]
      by_contra hm
      exact this ((mismatch_eq_false (by rw [length_padShape hle, length_revIf])).1
        (by simpa using hm))
    · rw [if_pos (Nat.lt_of_not_le hle)]

instance (S D : List Nat) : Decidable (BroadcastRule S D) := by
  unfold BroadcastRule; infer_instance

/-- Example 5 and 6 of the documentation are refused; example 6 works transposed. -/
example : ¬ BroadcastRule [1, 1, 3] [3, 3, 2] ∧ ¬ BroadcastRule [1, 3] [3, 1] ∧
    BroadcastRule (turn true [1, 3]) [3, 1] := by decide
example : broadcastPartitions ⟨[0, 1, 2], [1, 3], some 0⟩ ⟨[0, 1, 2], [3, 1], some 0⟩ false false 1 =
    .raises := by decide

/-! ## C20 -/

/-- What consistent entry into communicator creation means: each creation entered by a worker
contains it, has no repeated member, starts with its root (whose union rank is the tag), and every
member enters exactly the same creation; one tag never stands for two groups; the creations of a
worker are exactly its partitions. -/
structure ConsistentGroups (run : Nat → Res SendRecv) (U roots : List Nat) : Prop where
  same : ∀ w sr t g, run w = .value sr → (t, g) ∈ sr.creations →
    g.Nodup ∧ w ∈ g ∧ (∃ r ∈ roots, g.head? = some r ∧ U[t]? = some r) ∧
      ∀ u ∈ g, ∃ sr', run u = .value sr' ∧ (t, g) ∈ sr'.creations
  tags : ∀ w sr w' sr' t g g', run w = .value sr → run w' = .value sr' → (t, g) ∈ sr.creations →
    (t, g') ∈ sr'.creations → g = g'
  exact : ∀ w sr, run w = .value sr → sr.creations.Nodup ∧
    ∀ g, (∃ t, (t, g) ∈ sr.creations) ↔ sr.send = some g ∨ sr.recv = some g

theorem consistent_of {U R D : List Nat} {cr cd : Nat → Int} (h : CrossOK U R D cr cd)
    {run : Nat → Res SendRecv} {a b : SendRecv → Option (List Nat)}
    (hab : ∀ sr g, (a sr = some g ∨ b sr = some g) ↔ (sr.send = some g ∨ sr.recv = some g))
    (hrun : ∀ w, w ∈ R ∨ w ∈ D → ∃ sr, run w = .value sr ∧
      SRSpec U R D cr cd w (a sr) (b sr) sr.creations)
    (hout : ∀ w, w ∉ R → w ∉ D → run w = .returnsNone) : ConsistentGroups run U R := by
  have hall : ∀ w sr, run w = .value sr → (w ∈ R ∨ w ∈ D) ∧
      SRSpec U R D cr cd w (a sr) (b sr) sr.creations := by
    intro w sr hw
    by_cases hin : w ∈ R ∨ w ∈ D
    · obtain ⟨sr', h1, h2⟩ := hrun w hin
      rw [h1] at hw
      cases hw
      exact ⟨hin, h2⟩
    · rw [hout w (fun hh => hin (Or.inl hh)) (fun hh => hin (Or.inr hh))] at hw
      cases hw
  -- every creation is the group of a root
  have hroot : ∀ w sr t g, run w = .value sr → (t, g) ∈ sr.creations →
      ∃ r ∈ R, g = grp U cr cd r ∧ t = U.idxOf r ∧ (w = r ∨ (w ∈ D ∧ rootOf R cr cd w = r)) := by
    intro w sr t g hw hm
    obtain ⟨hin, hs⟩ := hall w sr hw
    obtain ⟨h1, h2⟩ := (hs.mem t g).1 hm
    rcases h1 with h1 | h1
    · rw [hs.rootSide] at h1
      split at h1
      · rename_i hR
        cases h1
        exact ⟨w, hR, rfl, h2, Or.inl rfl⟩
      · cases h1
    · rw [hs.leafSide] at h1
      split at h1
      · rename_i hD
        cases h1
        exact ⟨_, (h.rootOf_spec hD).1, rfl, h2, Or.inr ⟨hD, rfl⟩⟩
      · cases h1
  refine ⟨?_, ?_, ?_⟩
  · intro w sr t g hw hm
    obtain ⟨r, hr, rfl, rfl, hwr⟩ := hroot w sr t g hw hm
    refine ⟨h.nodup_grp r, (h.mem_grp hr).2 hwr, ⟨r, hr, rfl, ?_⟩, ?_⟩
    · have hlt := List.idxOf_lt_length_of_mem (h.subR r hr)
      rw [List.getElem?_eq_getElem hlt, List.getElem_idxOf]
    · intro u hu
      rcases (h.mem_grp hr).1 hu with rfl | ⟨hD, hur⟩
      · obtain ⟨sr', h1, h2⟩ := hrun u (Or.inl hr)
        refine ⟨sr', h1, (h2.mem _ _).2 ⟨Or.inl ?_, rfl⟩⟩
        rw [h2.rootSide, if_pos hr]
      · obtain ⟨sr', h1, h2⟩ := hrun u (Or.inr hD)
        refine ⟨sr', h1, (h2.mem _ _).2 ⟨Or.inr ?_, rfl⟩⟩
        rw [h2.leafSide, if_pos hD, hur]
  · intro w sr w' sr' t g g' hw hw' hm hm'
    obtain ⟨r, hr, rfl, rfl, _⟩ := hroot w sr t g hw hm
    obtain ⟨r', hr', rfl, he, _⟩ := hroot w' sr' _ g' hw' hm'
    rw [(List.idxOf_inj (h.subR r hr)).1 he]
  · intro w sr hw
    obtain ⟨hin, hs⟩ := hall w sr hw
    refine ⟨hs.order.imp fun hlt he => ?_, fun g => ?_⟩
    · rw [he] at hlt; exact Nat.lt_irrefl _ hlt
    · rw [← hab]
      constructor
      · rintro ⟨t, ht⟩; exact ((hs.mem t g).1 ht).1
      · intro hg; exact ⟨_, (hs.mem _ g).2 ⟨hg, rfl⟩⟩

/-- C20: all workers that join a broadcast group compute the identical ordered member list. -/
theorem C20_broadcast_groups (Px Py : Cart) (ts td : Bool) (h : BcastValid Px Py ts td) :
    ConsistentGroups (broadcastPartitions Px Py ts td) (groupUnion Px.members Py.members)
      Px.members :=
  consistent_of h.cross (a := SendRecv.send) (b := SendRecv.recv) (fun _ _ => Iff.rfl)
    (fun _ hw => broadcast_eq h hw) (fun _ h1 h2 => broadcast_inactive h1 h2)

/-- C20 for reductions. -/
theorem C20_reduction_groups (Px Py : Cart) (ts td : Bool) (h : BcastValid Py Px td ts) :
    ConsistentGroups (reductionPartitions Px Py ts td) (groupUnion Px.members Py.members)
      Py.members :=
  consistent_of h.crossR (a := SendRecv.recv) (b := SendRecv.send) (fun _ _ => or_comm)
    (fun _ hw => reduction_eq h hw.symm) (fun _ h1 h2 => reduction_inactive h2 h1)

/-! ## C21 -/

/-- The communicator creations a worker enters, each a blocking collective over its group
(`partition.py:402-436`). -/
def creationProg (run : Nat → Res SendRecv) (w : Nat) : List (Coll.Instr (Nat × List Nat)) :=
  match run w with
  | .value sr => sr.creations.flatMap fun c => [.post c, .wait c]
  | _ => []

theorem creation_ordered {run : Nat → Res SendRecv} {U roots W : List Nat}
    (h : ConsistentGroups run U roots)
    (hinc : ∀ w sr, run w = .value sr → sr.creations.Pairwise fun p q => p.1 < q.1)
    (hW : ∀ w sr, run w = .value sr → w ∈ W) :
    Coll.Ordered W (creationProg run) (fun c => c.2) (fun c => c.1) := by
  have hmem : ∀ w i, i ∈ creationProg run w → ∃ sr, run w = .value sr ∧
      ∃ c ∈ sr.creations, i = .post c ∨ i = .wait c := by
    intro w i hi
    unfold creationProg at hi
    split at hi
    · rename_i sr hr
      obtain ⟨c, hc, h1⟩ := List.mem_flatMap.1 hi
      exact ⟨sr, hr, c, hc, by simpa using h1⟩
    · simp at hi
  refine ⟨?_, ?_⟩
  · intro w _ c hc u hu
    obtain ⟨sr, hr, c', hc', he⟩ := hmem w _ hc
    rcases he with he | he
    · cases he
    · cases he
      obtain ⟨_, _, _, h4⟩ := h.same w sr c.1 c.2 hr hc'
      obtain ⟨sr', h5, h6⟩ := h4 u hu
      refine ⟨hW u sr' h5, ?_⟩
      unfold creationProg
      rw [h5]
      exact List.mem_flatMap.2 ⟨c, h6, by simp⟩
  · intro w _
    unfold creationProg
    split
    · rename_i sr hr
      rw [List.pairwise_flatMap]
      refine ⟨?_, ?_⟩
      · intro c _
        simp
      · refine (hinc w sr hr).imp ?_
        intro p q hpq a ha b hb c' c ha' hb'
        subst ha' hb'
        simp at ha hb
        rw [ha, hb]
        exact hpq
    · exact List.Pairwise.nil

/-- C21: creating all communicators of a broadcast cannot deadlock: in every state in which some
worker has not finished its creations some worker can take a step, whatever early completions the
library allows; every execution is bounded and can be continued to the end. -/
theorem C21_broadcast_creation (Px Py : Cart) (ts td : Bool) (h : BcastValid Px Py ts td)
    (early : (Nat → Nat) → Nat → (Nat × List Nat) → Prop) :
    let W := groupUnion Px.members Py.members
    let prog := creationProg (broadcastPartitions Px Py ts td)
    (∀ pc w, w ∈ W → pc w < (prog w).length →
      ∃ pc', Coll.Step W prog (fun c => c.2) early pc pc') ∧
    (∀ n pc, Coll.Exec W prog (fun c => c.2) early n (fun _ => 0) pc →
      n ≤ (W.map fun w => (prog w).length).sum ∧
      ∃ m pc', Coll.Exec W prog (fun c => c.2) early m pc pc' ∧ Coll.Finished W prog pc') := by
  intro W prog
  have hW : ∀ w sr, broadcastPartitions Px Py ts td w = .value sr → w ∈ W := by
    intro w sr hw
    by_contra hn
    rw [broadcast_inactive (fun hh => hn (mem_groupUnion.2 (Or.inl hh)))
      (fun hh => hn (mem_groupUnion.2 (Or.inr hh)))] at hw
    cases hw
  have hinc : ∀ w sr, broadcastPartitions Px Py ts td w = .value sr →
      sr.creations.Pairwise fun p q => p.1 < q.1 := by
    intro w sr hw
    obtain ⟨sr', h1, h2⟩ := broadcast_eq h (mem_groupUnion.1 (hW w sr hw))
    rw [h1] at hw
    cases hw
    exact h2.order
  have ho := creation_ordered (C20_broadcast_groups Px Py ts td h) hinc hW
  have hnd : W.Nodup := nodup_groupUnion h.wfs.nodup h.wfd.nodup
  exact ⟨fun pc w hw hlt => Coll.no_deadlock ho pc w hw hlt,
    fun n pc he => ⟨Coll.exec_bounded hnd he, Coll.completes ho hnd he⟩⟩

/-- C21 for reductions. -/
theorem C21_reduction_creation (Px Py : Cart) (ts td : Bool) (h : BcastValid Py Px td ts)
    (early : (Nat → Nat) → Nat → (Nat × List Nat) → Prop) :
    let W := groupUnion Px.members Py.members
    let prog := creationProg (reductionPartitions Px Py ts td)
    (∀ pc w, w ∈ W → pc w < (prog w).length →
      ∃ pc', Coll.Step W prog (fun c => c.2) early pc pc') ∧
    (∀ n pc, Coll.Exec W prog (fun c => c.2) early n (fun _ => 0) pc →
      n ≤ (W.map fun w => (prog w).length).sum ∧
      ∃ m pc', Coll.Exec W prog (fun c => c.2) early m pc pc' ∧ Coll.Finished W prog pc') := by
  intro W prog
  have hW : ∀ w sr, reductionPartitions Px Py ts td w = .value sr → w ∈ W := by
    intro w sr hw
    by_contra hn
    rw [reduction_inactive (fun hh => hn (mem_groupUnion.2 (Or.inl hh)))
      (fun hh => hn (mem_groupUnion.2 (Or.inr hh)))] at hw
    cases hw
  have hinc : ∀ w sr, reductionPartitions Px Py ts td w = .value sr →
      sr.creations.Pairwise fun p q => p.1 < q.1 := by
    intro w sr hw
    obtain ⟨sr', h1, h2⟩ := reduction_eq h (mem_groupUnion.1 (hW w sr hw))
    rw [h1] at hw
    cases hw
    exact h2.order
  have ho := creation_ordered (C20_reduction_groups Px Py ts td h) hinc hW
  have hnd : W.Nodup := nodup_groupUnion h.wfd.nodup h.wfs.nodup
  exact ⟨fun pc w hw hlt => Coll.no_deadlock ho pc w hw hlt,
    fun n pc he => ⟨Coll.exec_bounded hnd he, Coll.completes ho hnd he⟩⟩

/-- Worker 4 really creates two communicators, in the order of their roots. -/
example : creationProg (broadcastPartitions exBx exBy false false) 4 =
    [.post (0, [4, 0, 3]), .wait (0, [4, 0, 3]), .post (1, [5, 4, 1]), .wait (1, [5, 4, 1])] := by
  decide

/-! ## C24 -/

/-- C24 when both or neither side is transposed: workers are paired by agreement of the reversed
positions. -/
theorem C24_same_flags (Px Py : Cart) (t : Bool) (h : BcastValid Px Py t t) :
    PairsBy (broadcastPartitions Px Py t t) Px.members Py.members
      SendRecv.send SendRecv.recv
      (fun w v => Agree (turn t Px.shape) (turn t (Px.coord w)) (turn t (Py.coord v))) :=
  pairsBy_of h.cross (fun _ hw => broadcast_eq h hw)
    (fun _ h1 h2 => broadcast_inactive h1 h2) (fun _ hr _ hv => agree_same h rfl hr hv) h.onto

theorem flatC_eq_sum {X Y : List Nat} (h1 : (X.filter fun n => n != 1).length ≤ 1)
    (h : InBounds Y X) : flatC X Y = Y.sum := by
  induction X generalizing Y with
  | nil => cases Y with
    | nil => rfl
    | cons _ _ => exact h.elim
  | cons n ns ih =>
    cases Y with
    | nil => exact h.elim
    | cons i is =>
      by_cases hn : n = 1
      · subst hn
        have hi : i = 0 := by have := h.1; omega
        have : (ns.filter fun n => n != 1).length ≤ 1 := by simpa using h1
        simp [flatC, hi, ih this h.2]
      · have h0 : ns.filter (fun n => n != 1) = [] := by
          have : (n != 1) = true := by simpa using hn
          rw [List.filter_cons_of_pos (p := fun n => n != 1) this] at h1
          exact List.length_eq_zero_iff.1 (by simp at h1 ⊢; exact h1)
        have hp : ns.prod = 1 := by
          rw [List.filter_eq_nil_iff] at h0
          apply List.prod_eq_one
          intro x hx
          simpa using h0 x hx
        have := ih (by rw [h0]; simp) h.2
        simp [flatC, hp, this]

theorem filter_keepDims_le (mask : List Bool) (X : List Nat) :
    ((keepDims mask X).filter fun n => n != 1).length ≤ (X.filter fun n => n != 1).length := by
  induction mask generalizing X with
  | nil => simp [keepDims]
  | cons m ms ih =>
    cases X with
    | nil => simp [keepDims]
    | cons x xs =>
      have := ih xs
      by_cases hx : x = 1
      · cases m <;> simpa [keepDims, hx] using this
      · have hx' : (x != 1) = true := by simpa using hx
        rw [List.filter_cons_of_pos (p := fun n => n != 1) (l := xs) hx']
        cases m
        · simp only [keepDims, Bool.false_eq_true, if_false, List.length_cons]
          omega
        · simp only [keepDims, if_true]
          rw [List.filter_cons_of_pos (p := fun n => n != 1) hx']
          simp only [List.length_cons]
          omega

theorem cartF_eq_C {X Y : List Nat} (h1 : (X.filter fun n => n != 1).length ≤ 1)
    (h : InBounds Y X) : cartesianIndexF X Y = cartesianIndexC X Y := by
  rw [cartesianIndexF_eq, cartesianIndexC_eq_flatC h.length_eq,
    cartesianIndexC_eq_flatC h.reverse.length_eq, flatC_eq_sum h1 h,
    flatC_eq_sum (by rw [List.filter_reverse, List.length_reverse]; exact h1) h.reverse,
    List.sum_reverse]

theorem flatIndex_flag {t t' : Bool} {mask : List Bool} {X Y : List Nat}
    (h1 : (X.filter fun n => n != 1).length ≤ 1) (h : InBounds Y X) :
    flatIndex t mask X Y = flatIndex t' mask X Y := by
  have := cartF_eq_C (Nat.le_trans (filter_keepDims_le mask X) h1) (keep_inBounds (mask := mask) h)
  cases t <;> cases t' <;> simp [flatIndex, this]

theorem flatIndex_flag' {t t' : Bool} {mask : List Bool} {X Y : List Nat}
    (h1 : ((keepDims mask X).filter fun n => n != 1).length ≤ 1) (h : InBounds Y X) :
    flatIndex t mask X Y = flatIndex t' mask X Y := by
  have := cartF_eq_C h1 (keep_inBounds (mask := mask) h)
  cases t <;> cases t' <;> simp [flatIndex, this]

theorem agree_one {Ps Pd : Cart} {ts td : Bool} (h : BcastValid Ps Pd ts td)
    (h1 : (Ps.shape.filter fun n => n != 1).length ≤ 1) {r v : Nat} (hr : r ∈ Ps.members)
    (hv : v ∈ Pd.members) :
    colS Ps Pd ts td r = colD Ps Pd ts td v ↔
      Agree (turn ts Ps.shape) (turn ts (Ps.coord r)) (turn td (Pd.coord v)) := by
  rw [colS_eq h hr]
  unfold colD
  rw [bigFlat_eq hv]
  have hb := inBounds_revIf (t := td) (coord_in h.wfd hv)
  have hin : InBounds (padIdx Pd.shape.length ts (Ps.coord r))
      (padShape Pd.shape.length ts Ps.shape) := inBounds_pad (coord_in h.wfs hr)
  have hp : ((padShape Pd.shape.length ts Ps.shape).filter fun n => n != 1).length ≤ 1 := by
    unfold padShape
    rw [List.filter_append, List.length_append]
    have : (List.replicate (Pd.shape.length - Ps.shape.length) 1).filter (fun n => n != 1) = [] := by
      rw [List.filter_eq_nil_iff]
      intro x hx
      simp [List.eq_of_mem_replicate hx]
    rw [this]
    cases ts
    · simpa [revIf] using h1
    · simpa [revIf, List.filter_reverse] using h1
  rw [flatIndex_flag (t := ts) (t' := td) hp hin, Int.ofNat_inj,
    flatIndex_inj (keep_shape_eq h.compat.length_eq) hin hb, keep_eq_iff h.compat hin hb]
  exact agree_iff h.le (length_coord _ _) (by rw [length_revIf, length_coord])

/-- C24, the part that holds: the pairing by reversed positions is realised for any flags when at
most one extent of the smaller partition differs from one.  Missing: two or more such extents with
exactly one flag set, where the statement is false (`C24_false`). -/
theorem C24_transposed_partial (Px Py : Cart) (ts td : Bool) (h : BcastValid Px Py ts td)
    (h1 : ts = td ∨ (Px.shape.filter fun n => n != 1).length ≤ 1) :
    PairsBy (broadcastPartitions Px Py ts td) Px.members Py.members
      SendRecv.send SendRecv.recv
      (fun w v => Agree (turn ts Px.shape) (turn ts (Px.coord w)) (turn td (Py.coord v))) :=
  pairsBy_of h.cross (fun _ hw => broadcast_eq h hw)
    (fun _ a b => broadcast_inactive a b)
    (fun _ hr _ hv => h1.elim (fun e => agree_same h e hr hv) (fun e => agree_one h e hr hv)) h.onto

/-- The same for reductions. -/
theorem C24_transposed_reduction_partial (Px Py : Cart) (ts td : Bool) (h : BcastValid Py Px td ts)
    (h1 : td = ts ∨ (Py.shape.filter fun n => n != 1).length ≤ 1) :
    PairsBy (reductionPartitions Px Py ts td) Py.members Px.members
      SendRecv.recv SendRecv.send
      (fun w v => Agree (turn td Py.shape) (turn td (Py.coord w)) (turn ts (Px.coord v))) :=
  pairsBy_of h.crossR (fun _ hw => reduction_eq h hw.symm)
    (fun _ a b => reduction_inactive b a)
    (fun _ hr _ hv => h1.elim (fun e => agree_same h e hr hv) (fun e => agree_one h e hr hv)) h.onto

/-- A `3 x 2` partition broadcast, transposed, to a `2 x 3` partition. -/
def exTx : Cart := ⟨[0, 1, 2, 3, 4, 5], [3, 2], some 0⟩
def exTy : Cart := ⟨[6, 7, 8, 9, 10, 11], [2, 3], some 0⟩

theorem exT_valid : BcastValid exTx exTy true false :=
  ⟨⟨by decide, by decide, by decide⟩, ⟨by decide, by decide, by decide⟩, ⟨0, rfl, rfl⟩, by decide,
    by decide, by decide⟩

/-- C24 is false in general: with `transpose_src` alone, the worker at position (0,1) of the
`2 x 3` destination is served by the worker at position (0,1) of the `3 x 2` source, whose reversed
position is (1,0). -/
theorem C24_false : ¬ ∀ (Px Py : Cart) (ts td : Bool), BcastValid Px Py ts td →
    PairsBy (broadcastPartitions Px Py ts td) Px.members Py.members
      SendRecv.send SendRecv.recv
      (fun w v => Agree (turn ts Px.shape) (turn ts (Px.coord w)) (turn td (Py.coord v))) := by
  intro hall
  have h := hall exTx exTy true false exT_valid
  obtain ⟨sr, g, h1, h2, r, hr, hrel, hh, _⟩ := h.leaf 7 (by decide)
  have h3 : broadcastPartitions exTx exTy true false 7 =
      .value ⟨none, some [1, 7], [(1, [1, 7])]⟩ := by decide
  rw [h3] at h1
  cases h1
  have : r = 1 := by
    have h4 : some [1, 7] = some g := h2
    cases h4
    simpa using hh.symm
  subst this
  have := hrel 0 (by decide) (by decide)
  exact absurd this (by decide)

/-- What `transpose_src` alone does for every valid pair of shapes: the source behaves as a partition
of the reversed shape whose workers keep their rank order. -/
theorem C24_src_is_reshape (Px Py : Cart) (h : BcastValid Px Py true false) :
    PairsBy (broadcastPartitions Px Py true false) Px.members Py.members
      SendRecv.send SendRecv.recv
      (fun w v => Agree Px.shape.reverse (getCoords Px.shape.reverse (Px.members.idxOf w))
        (Py.coord v)) := by
  refine pairsBy_of h.cross (fun _ hw => broadcast_eq h hw)
    (fun _ a b => broadcast_inactive a b) ?_ h.onto
  intro r hr v hv
  rw [colS_rank h hr]
  unfold colD
  rw [bigFlat_eq hv]
  have hb := inBounds_revIf (t := false) (coord_in h.wfd hv)
  have hlt : Px.members.idxOf r < Px.shape.reverse.prod := by
    rw [List.prod_reverse, ← h.wfs.size]; exact List.idxOf_lt_length_of_mem hr
  obtain ⟨hc1, hc2⟩ := getCoords_spec hlt
  -- the small side seen with the reversed shape, untransposed
  have hp : padShape Py.shape.length true Px.shape = padShape Py.shape.length false Px.shape.reverse := by
    simp [padShape, revIf]
  have hcomp := h.compat
  rw [hp] at hcomp ⊢
  have hfi := flatIndex_small hc1 hcomp
  rw [hc2] at hfi
  have hin : InBounds (padIdx Py.shape.length false (getCoords Px.shape.reverse (Px.members.idxOf r)))
      (padShape Py.shape.length false Px.shape.reverse) := inBounds_pad hc1
  conv_lhs => lhs; rw [← hfi]
  rw [Int.ofNat_inj, flatIndex_inj (keep_shape_eq hcomp.length_eq) hin hb,
    keep_eq_iff hcomp hin hb]
  exact agree_iff (t := false) (by simpa only [List.length_reverse] using h.le) (length_getCoords _ _)
    ((length_revIf _ _).trans (length_coord _ _))

end Verif
