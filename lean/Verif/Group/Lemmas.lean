import Verif.Group.Model
import Verif.Repartition.Setup

/-!
# Helper lemmas about cross-partition groups
-/

namespace Verif

/-! ## Groups from colours -/

/-- Colours of the two sides over the union: the root side is injectively coloured and every leaf's
colour occurs. -/
structure CrossOK (U R D : List Nat) (cr cd : Nat → Int) : Prop where
  nd : U.Nodup
  subR : ∀ v ∈ R, v ∈ U
  subD : ∀ v ∈ D, v ∈ U
  crIn : ∀ v ∈ R, 0 ≤ cr v
  crOut : ∀ v, v ∉ R → cr v = -1
  cdIn : ∀ v ∈ D, 0 ≤ cd v
  cdOut : ∀ v, v ∉ D → cd v = -1
  inj : ∀ v ∈ R, ∀ v' ∈ R, cr v = cr v' → v = v'
  root : ∀ v ∈ D, ∃ r ∈ R, cr r = cd v

/-- The group of root `r`. -/
def grp (U : List Nat) (cr cd : Nat → Int) (r : Nat) : List Nat :=
  r :: U.filter fun v => cd v == cr r && v != r

/-- The root of leaf `w`. -/
def rootOf (R : List Nat) (cr cd : Nat → Int) (w : Nat) : Nat :=
  (R.find? fun r => cr r == cd w).getD w

section cross
variable {U R D : List Nat} {cr cd : Nat → Int}

theorem CrossOK.rootOf_spec (h : CrossOK U R D cr cd) {w : Nat} (hw : w ∈ D) :
    rootOf R cr cd w ∈ R ∧ cr (rootOf R cr cd w) = cd w := by
  obtain ⟨r, hr, he⟩ := h.root w hw
  unfold rootOf
  cases hf : R.find? fun r => cr r == cd w with
  | none =>
    rw [List.find?_eq_none] at hf
    exact absurd (by simpa using he) (hf r hr)
  | some x =>
    exact ⟨List.mem_of_find?_eq_some hf, by simpa using List.find?_some hf⟩

theorem CrossOK.rootOf_eq (h : CrossOK U R D cr cd) {w r : Nat} (hw : w ∈ D) (hr : r ∈ R)
    (he : cr r = cd w) : rootOf R cr cd w = r :=
  have := h.rootOf_spec hw
  h.inj _ this.1 _ hr (this.2.trans he.symm)

theorem CrossOK.mem_grp (h : CrossOK U R D cr cd) {r v : Nat} (hr : r ∈ R) :
    v ∈ grp U cr cd r ↔ v = r ∨ (v ∈ D ∧ rootOf R cr cd v = r) := by
  unfold grp
  rw [List.mem_cons, List.mem_filter]
  simp only [Bool.and_eq_true, beq_iff_eq, bne_iff_ne]
  constructor
  · rintro (h1 | ⟨_, h2, _⟩)
    · exact Or.inl h1
    · right
      have hv : v ∈ D := by
        by_contra hv
        have h3 := h.cdOut v hv
        have h4 := h.crIn r hr
        omega
      exact ⟨hv, h.rootOf_eq hv hr h2.symm⟩
  · rintro (h1 | ⟨h1, h2⟩)
    · exact Or.inl h1
    · by_cases hv : v = r
      · exact Or.inl hv
      · refine Or.inr ⟨h.subD v h1, ?_, hv⟩
        have := (h.rootOf_spec h1).2
        rw [h2] at this
        exact this.symm

theorem CrossOK.nodup_grp (h : CrossOK U R D cr cd) (r : Nat) : (grp U cr cd r).Nodup := by
  unfold grp
  rw [List.nodup_cons]
  exact ⟨by simp, h.nd.filter _⟩

theorem grp_inj {r r' : Nat} (h : grp U cr cd r = grp U cr cd r') : r = r' := by
  unfold grp at h
  exact (List.cons.inj h).1

theorem map_getD_range (U : List Nat) : (List.range U.length).map (fun i => U.getD i 0) = U := by
  apply List.ext_getElem
  · simp
  · intro i h1 h2
    simp [h2]

theorem whereAll_map (U : List Nat) (f : Nat → Int) (c : Int) :
    whereAll (U.map fun v => [f v]) c =
      (List.range U.length).filter fun i => f (U.getD i 0) == c := by
  unfold whereAll
  rw [List.length_map]
  apply List.filter_congr
  intro i hi
  have hi' : i < U.length := List.mem_range.1 hi
  simp [hi']

theorem map_whereAll (U : List Nat) (f : Nat → Int) (c : Int) :
    (whereAll (U.map fun v => [f v]) c).map (fun i => U.getD i 0) =
      U.filter fun v => f v == c := by
  rw [whereAll_map]
  conv_rhs => rw [← map_getD_range U]
  rw [List.filter_map]
  rfl

theorem CrossOK.where_root (h : CrossOK U R D cr cd) {r : Nat} (hr : r ∈ R) :
    (whereAll (U.map fun v => [cr v]) (cr r)).head? = some (U.idxOf r) := by
  have hm : U.idxOf r ∈ whereAll (U.map fun v => [cr v]) (cr r) := by
    rw [whereAll_map, List.mem_filter, List.mem_range]
    exact ⟨List.idxOf_lt_length_of_mem (h.subR r hr), by rw [getD_idxOf (h.subR r hr)]; simp⟩
  cases hl : whereAll (U.map fun v => [cr v]) (cr r) with
  | nil => rw [hl] at hm; simp at hm
  | cons x xs =>
    have hx : x ∈ whereAll (U.map fun v => [cr v]) (cr r) := by rw [hl]; simp
    rw [whereAll_map, List.mem_filter, List.mem_range] at hx
    obtain ⟨hx1, hx2⟩ := hx
    have hx3 : cr (U.getD x 0) = cr r := by simpa using hx2
    have hR : U.getD x 0 ∈ R := by
      by_contra hn
      have h3 := h.crOut _ hn
      have h4 := h.crIn r hr
      omega
    have := h.inj _ hR _ hr hx3
    rw [← this, idxOf_getD h.nd hx1]
    rfl

theorem CrossOK.crossGroup_eq (h : CrossOK U R D cr cd) {r : Nat} (hr : r ∈ R) :
    crossGroup U true (cr r) (U.map fun v => [cr v]) (U.map fun v => [cd v]) =
      some (some ((grp U cr cd r).map U.idxOf, grp U cr cd r)) := by
  unfold crossGroup
  simp only [Bool.not_true, Bool.false_eq_true, if_false, h.where_root hr]
  have hidx : U.idxOf r < U.length := List.idxOf_lt_length_of_mem (h.subR r hr)
  have hranks : (U.idxOf r ::
      (whereAll (U.map fun v => [cd v]) (cr r)).filter fun k => k != U.idxOf r) =
        (grp U cr cd r).map U.idxOf := by
    unfold grp
    rw [List.map_cons]
    congr 1
    rw [whereAll_map, List.filter_filter]
    have : U.filter (fun v => cd v == cr r && v != r) =
        (((List.range U.length).map fun i => U.getD i 0)).filter
          (fun v => cd v == cr r && v != r) := by rw [map_getD_range]
    rw [this, List.filter_map, List.map_map]
    have h2 : ((List.range U.length).filter
        ((fun v => cd v == cr r && v != r) ∘ fun i => U.getD i 0)).map
          (U.idxOf ∘ fun i => U.getD i 0) =
        ((List.range U.length).filter
          ((fun v => cd v == cr r && v != r) ∘ fun i => U.getD i 0)).map id := by
      apply List.map_congr_left
      intro i hi
      have := List.mem_range.1 (List.mem_filter.1 hi).1
      exact idxOf_getD h.nd this
    rw [h2, List.map_id]
    apply List.filter_congr
    intro i hi
    have hi' := List.mem_range.1 hi
    have : (i != U.idxOf r) = (U.getD i 0 != r) := by
      rw [Bool.eq_iff_iff, bne_iff_ne, bne_iff_ne]
      constructor
      · intro hne he
        apply hne
        rw [← he, idxOf_getD h.nd hi']
      · intro hne he
        apply hne
        rw [he, getD_idxOf (h.subR r hr)]
    simp only [Function.comp_apply]
    rw [this, Bool.and_comm]
  rw [hranks]
  have hsub : ∀ v ∈ grp U cr cd r, v ∈ U := by
    intro v hv
    rcases (h.mem_grp hr).1 hv with rfl | hv
    · exact h.subR _ hr
    · exact h.subD _ hv.1
  unfold groupIncl
  rw [if_pos]
  · simp only [Option.map_some, Option.some.injEq, Prod.mk.injEq, true_and, List.map_map]
    conv_rhs => rw [← List.map_id (grp U cr cd r)]
    apply List.map_congr_left
    intro v hv
    exact getD_idxOf (hsub v hv)
  · refine ⟨?_, ?_⟩
    · rw [List.nodup_map_iff_inj_on (h.nodup_grp r)]
      intro a ha b hb hab
      exact (List.idxOf_inj (hsub a ha)).1 hab
    · intro k hk
      obtain ⟨v, hv, rfl⟩ := List.mem_map.1 hk
      exact List.idxOf_lt_length_of_mem (hsub v hv)

/-- What a worker ends up with, `rootSide` and `leafSide` being the two partitions. -/
structure SRSpec (U R D : List Nat) (cr cd : Nat → Int) (w : Nat) (a b : Option (List Nat))
    (cs : List (Nat × List Nat)) : Prop where
  rootSide : a = if w ∈ R then some (grp U cr cd w) else none
  leafSide : b = if w ∈ D then some (grp U cr cd (rootOf R cr cd w)) else none
  order : cs.Pairwise fun p q => p.1 < q.1
  mem : ∀ t g, (t, g) ∈ cs ↔ (a = some g ∨ b = some g) ∧ t = U.idxOf (g.headD 0)

theorem CrossOK.idx_ne (h : CrossOK U R D cr cd) {a b : Nat} (ha : a ∈ R) (hne : a ≠ b) :
    U.idxOf a ≠ U.idxOf b := fun he => hne ((List.idxOf_inj (h.subR a ha)).1 he)

theorem CrossOK.sendRecv_root (h : CrossOK U R D cr cd) {w : Nat} (hw : w ∈ R ∨ w ∈ D) :
    ∃ sr, sendRecvOf
        (crossGroup U (R.contains w) (cr w) (U.map fun v => [cr v]) (U.map fun v => [cd v]))
        (crossGroup U (D.contains w) (cd w) (U.map fun v => [cr v]) (U.map fun v => [cd v])) =
        .value sr ∧ SRSpec U R D cr cd w sr.send sr.recv sr.creations := by
  have hh : ∀ r, (grp U cr cd r).headD 0 = r := fun r => rfl
  have hm : ∀ r, ((grp U cr cd r).map U.idxOf).headD 0 = U.idxOf r := fun r => rfl
  by_cases hR : w ∈ R
  · by_cases hD : w ∈ D
    · have h1 := h.crossGroup_eq hR
      have h2 := h.crossGroup_eq (h.rootOf_spec hD).1
      rw [(h.rootOf_spec hD).2] at h2
      simp only [List.contains_eq_mem, hR, hD, decide_true, h1, h2, sendRecvOf, createSendRecv]
      by_cases he : rootOf R cr cd w = w
      · rw [he]
        simp only [ne_eq, not_true_eq_false, if_false]
        refine ⟨_, rfl, ?_⟩
        refine ⟨by simp [hR], by simp [hD, he], by simp, ?_⟩
        intro t g
        simp only [List.mem_singleton, Prod.mk.injEq, hm, Option.some.injEq]
        constructor
        · rintro ⟨h1, rfl⟩; exact ⟨Or.inl rfl, by rw [hh]; exact h1⟩
        · rintro ⟨h1 | h1, rfl⟩ <;> (subst h1; exact ⟨rfl, rfl⟩)
      · have hne : grp U cr cd w ≠ grp U cr cd (rootOf R cr cd w) := fun hg => he (grp_inj hg).symm
        have hidx := h.idx_ne (h.rootOf_spec hD).1 he
        simp only [hm]
        rw [if_pos hne]
        by_cases hlt : U.idxOf (rootOf R cr cd w) < U.idxOf w
        · rw [if_pos hlt]
          refine ⟨_, rfl, by simp [hR], by simp [hD], by simpa using hlt, ?_⟩
          intro t g
          simp only [List.mem_cons, Prod.mk.injEq, List.not_mem_nil, or_false, Option.some.injEq]
          constructor
          · rintro (⟨rfl, rfl⟩ | ⟨rfl, rfl⟩)
            · exact ⟨Or.inr rfl, by rw [hh]⟩
            · exact ⟨Or.inl rfl, by rw [hh]⟩
          · rintro ⟨rfl | rfl, rfl⟩
            · exact Or.inr ⟨by rw [hh], rfl⟩
            · exact Or.inl ⟨by rw [hh], rfl⟩
        · rw [if_neg hlt]
          refine ⟨_, rfl, by simp [hR], by simp [hD], by simp; omega, ?_⟩
          intro t g
          simp only [List.mem_cons, Prod.mk.injEq, List.not_mem_nil, or_false, Option.some.injEq]
          constructor
          · rintro (⟨rfl, rfl⟩ | ⟨rfl, rfl⟩)
            · exact ⟨Or.inl rfl, by rw [hh]⟩
            · exact ⟨Or.inr rfl, by rw [hh]⟩
          · rintro ⟨rfl | rfl, rfl⟩
            · exact Or.inl ⟨by rw [hh], rfl⟩
            · exact Or.inr ⟨by rw [hh], rfl⟩
    · have h1 := h.crossGroup_eq hR
      simp only [List.contains_eq_mem, hR, hD, decide_true, decide_false, h1]
      rw [show crossGroup U false (cd w) (U.map fun v => [cr v]) (U.map fun v => [cd v]) = some none
        from rfl]
      refine ⟨_, rfl, by simp [hR], by simp [hD], by simp, ?_⟩
      intro t g
      simp only [List.mem_singleton, Prod.mk.injEq, hm, Option.some.injEq, reduceCtorEq, or_false]
      constructor
      · rintro ⟨rfl, rfl⟩; exact ⟨rfl, rfl⟩
      · rintro ⟨rfl, rfl⟩; exact ⟨rfl, rfl⟩
  · have hD : w ∈ D := hw.resolve_left hR
    have h2 := h.crossGroup_eq (h.rootOf_spec hD).1
    rw [(h.rootOf_spec hD).2] at h2
    simp only [List.contains_eq_mem, hR, hD, decide_true, decide_false, h2]
    rw [show crossGroup U false (cr w) (U.map fun v => [cr v]) (U.map fun v => [cd v]) = some none
        from rfl]
    refine ⟨_, rfl, by simp [hR], by simp [hD], by simp, ?_⟩
    intro t g
    simp only [List.mem_singleton, Prod.mk.injEq, hm, Option.some.injEq, reduceCtorEq, false_or]
    constructor
    · rintro ⟨rfl, rfl⟩; exact ⟨rfl, rfl⟩
    · rintro ⟨rfl, rfl⟩; exact ⟨rfl, rfl⟩

/-- Swapping the arguments of `createSendRecv` swaps the partitions; the order of creation is still
increasing. -/
theorem CrossOK.sendRecv_leaf (h : CrossOK U R D cr cd) {w : Nat} (hw : w ∈ R ∨ w ∈ D) :
    ∃ sr, sendRecvOf
        (crossGroup U (D.contains w) (cd w) (U.map fun v => [cr v]) (U.map fun v => [cd v]))
        (crossGroup U (R.contains w) (cr w) (U.map fun v => [cr v]) (U.map fun v => [cd v])) =
        .value sr ∧ SRSpec U R D cr cd w sr.recv sr.send sr.creations := by
  obtain ⟨sr, he, hs⟩ := h.sendRecv_root hw
  have hx : ∀ a, crossGroup U (R.contains w) (cr w) (U.map fun v => [cr v])
      (U.map fun v => [cd v]) = some (some a) → a.1 = a.2.map U.idxOf := by
    intro a ha
    by_cases hR : w ∈ R
    · simp only [List.contains_eq_mem, hR, decide_true, h.crossGroup_eq hR, Option.some.injEq] at ha
      subst ha; rfl
    · simp [crossGroup, hR] at ha
  have hy : ∀ a, crossGroup U (D.contains w) (cd w) (U.map fun v => [cr v])
      (U.map fun v => [cd v]) = some (some a) → a.1 = a.2.map U.idxOf := by
    intro a ha
    by_cases hD : w ∈ D
    · have h2 := h.crossGroup_eq (h.rootOf_spec hD).1
      rw [(h.rootOf_spec hD).2] at h2
      simp only [List.contains_eq_mem, hD, decide_true, h2, Option.some.injEq] at ha
      subst ha; rfl
    · simp [crossGroup, hD] at ha
  generalize crossGroup U (R.contains w) (cr w) _ _ = x at he hx ⊢
  generalize crossGroup U (D.contains w) (cd w) _ _ = y at he hy ⊢
  match x, y, he with
  | some none, some none, he => simp [sendRecvOf, createSendRecv] at he
  | some (some a), some none, he =>
    simp only [sendRecvOf, createSendRecv, Res.value.injEq] at he ⊢
    subst he
    exact ⟨_, rfl, hs⟩
  | some none, some (some b), he =>
    simp only [sendRecvOf, createSendRecv, Res.value.injEq] at he ⊢
    subst he
    exact ⟨_, rfl, hs⟩
  | some (some a), some (some b), he =>
    simp only [sendRecvOf, createSendRecv] at he ⊢
    by_cases hg : a.2 = b.2
    · have hg' : b.2 = a.2 := hg.symm
      simp only [hg, ne_eq, not_true_eq_false, if_false, Res.value.injEq] at he ⊢
      subst he
      refine ⟨_, rfl, hs.rootSide, hs.leafSide, by simp, ?_⟩
      intro t g
      rw [← hs.mem]
      rw [hx a rfl, hy b rfl, hg]
    · have hg' : b.2 ≠ a.2 := fun e => hg e.symm
      simp only [ne_eq, hg, not_false_eq_true, if_true, hg'] at he ⊢
      by_cases hlt : b.1.headD 0 < a.1.headD 0
      · rw [if_pos hlt] at he
        rw [if_neg (by omega)]
        simp only [Res.value.injEq] at he ⊢
        subst he
        exact ⟨_, rfl, hs⟩
      · rw [if_neg hlt] at he
        simp only [Res.value.injEq] at he
        subst he
        have := hs.order
        simp only [List.pairwise_cons, List.mem_singleton, forall_eq, List.not_mem_nil,
          false_imp_iff, implies_true, List.Pairwise.nil, and_true] at this
        rw [if_pos this]
        exact ⟨_, rfl, hs⟩

end cross

end Verif
