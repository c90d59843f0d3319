import Verif.Group.Lemmas

/-!
# Helper lemmas: flat indices on the matching dimensions
-/

namespace Verif

/-- Dimension by dimension the extents agree or the first is 1. -/
abbrev Compat (S D : List Nat) : Prop := List.Forall₂ (fun s d => s = d ∨ s = 1) S D

theorem mismatch_eq_false {S D : List Nat} (h : S.length = D.length) :
    mismatch S D = false ↔ Compat S D := by
  induction S generalizing D with
  | nil =>
    cases D with
    | nil => simp [mismatch]
    | cons _ _ => simp at h
  | cons s S ih =>
    cases D with
    | nil => simp at h
    | cons d D =>
      have h' : S.length = D.length := by simpa using h
      have hc : Compat (s :: S) (d :: D) ↔ (s = d ∨ s = 1) ∧ Compat S D := List.forall₂_cons
      rw [hc, ← ih h']
      unfold mismatch
      simp only [List.zip_cons_cons, List.any_cons, Bool.or_eq_false_iff, Bool.and_eq_false_iff,
        bne_eq_false_iff_eq]

theorem matchMask_cons (s d : Nat) (S D : List Nat) :
    matchMask (s :: S) (d :: D) = (s == d) :: matchMask S D := rfl

theorem matchMask_comm (S D : List Nat) : matchMask S D = matchMask D S := by
  unfold matchMask
  apply List.zipWith_comm_of_comm
  intro a b
  rw [Bool.eq_iff_iff, beq_iff_eq, beq_iff_eq]
  exact eq_comm

theorem keep_shape_eq {S D : List Nat} (h : S.length = D.length) :
    keepDims (matchMask S D) S = keepDims (matchMask S D) D := by
  induction S generalizing D with
  | nil => cases D <;> simp [matchMask, keepDims]
  | cons s S ih =>
    cases D with
    | nil => simp at h
    | cons d D =>
      rw [matchMask_cons]
      simp only [keepDims, ih (D := D) (by simpa using h)]
      by_cases he : s = d
      · simp [he]
      · simp [he]

theorem keep_prod {S D : List Nat} (h : Compat S D) :
    (keepDims (matchMask S D) S).prod = S.prod := by
  induction h with
  | nil => rfl
  | @cons s d S D hsd _ ih =>
    rw [matchMask_cons]
    by_cases he : s = d
    · simp [keepDims, he, ih]
    · have : s = 1 := hsd.resolve_left he
      subst this
      simp [keepDims, he, ih]

theorem keep_flatC {S D : List Nat} (h : Compat S D) {c : List Nat} (hc : InBounds c S) :
    flatC (keepDims (matchMask S D) S) (keepDims (matchMask S D) c) = flatC S c := by
  induction h generalizing c with
  | nil => cases c with
    | nil => rfl
    | cons _ _ => exact hc.elim
  | @cons s d S D hsd hSD ih =>
    cases c with
    | nil => exact hc.elim
    | cons i is =>
      rw [matchMask_cons]
      by_cases he : s = d
      · simp only [keepDims, he, beq_self_eq_true, if_true, flatC]
        rw [ih hc.2, keep_prod hSD]
      · have h1 : s = 1 := hsd.resolve_left he
        subst h1
        have hi : i = 0 := by have := hc.1; omega
        simp only [keepDims, beq_eq_false_iff_ne.2 he, Bool.false_eq_true, if_false, ih hc.2, flatC,
          hi, Nat.zero_mul, Nat.zero_add]

theorem keep_inBounds {mask : List Bool} {c S : List Nat} (h : InBounds c S) :
    InBounds (keepDims mask c) (keepDims mask S) := by
  induction mask generalizing c S with
  | nil => cases c <;> cases S <;> simp [keepDims, InBounds]
  | cons m ms ih =>
    cases c with
    | nil => cases S with
      | nil => simp [keepDims, InBounds]
      | cons _ _ => exact h.elim
    | cons i is =>
      cases S with
      | nil => exact h.elim
      | cons n ns =>
        cases m
        · simpa [keepDims] using ih h.2
        · simp only [keepDims, if_true]
          exact ⟨h.1, ih h.2⟩

theorem keepDims_append {α : Type} {m1 m2 : List Bool} {a b : List α} (h : m1.length = a.length) :
    keepDims (m1 ++ m2) (a ++ b) = keepDims m1 a ++ keepDims m2 b := by
  induction m1 generalizing a with
  | nil =>
    cases a with
    | nil => simp [keepDims]
    | cons _ _ => simp at h
  | cons m ms ih =>
    cases a with
    | nil => simp at h
    | cons x xs =>
      simp only [List.cons_append, keepDims, ih (a := xs) (by simpa using h)]
      split <;> simp

theorem keepDims_reverse {α : Type} {mask : List Bool} {a : List α} (h : mask.length = a.length) :
    keepDims mask.reverse a.reverse = (keepDims mask a).reverse := by
  induction mask generalizing a with
  | nil => cases a <;> simp [keepDims]
  | cons m ms ih =>
    cases a with
    | nil => simp at h
    | cons x xs =>
      have h' : ms.length = xs.length := by simpa using h
      rw [List.reverse_cons, List.reverse_cons, keepDims_append (by simp [h']), ih h']
      simp only [keepDims]
      split <;> simp

theorem matchMask_reverse {S D : List Nat} (h : S.length = D.length) :
    (matchMask S D).reverse = matchMask S.reverse D.reverse := by
  unfold matchMask
  rw [List.reverse_zipWith h]

theorem length_matchMask {S D : List Nat} (h : S.length = D.length) :
    (matchMask S D).length = S.length := by
  unfold matchMask; simp [h]

theorem length_keepDims_eq {α β : Type} {mask : List Bool} {a : List α} {b : List β}
    (h : a.length = b.length) : (keepDims mask a).length = (keepDims mask b).length := by
  induction mask generalizing a b with
  | nil => rfl
  | cons m ms ih =>
    cases a with
    | nil => cases b with
      | nil => rfl
      | cons _ _ => simp at h
    | cons x xs =>
      cases b with
      | nil => simp at h
      | cons y ys =>
        have := ih (a := xs) (b := ys) (by simpa using h)
        cases m <;> simp [keepDims, this]

theorem Compat.reverse {S D : List Nat} (h : Compat S D) : Compat S.reverse D.reverse :=
  List.rel_reverse h

theorem flatC_ones_left (k : Nat) (S c : List Nat) :
    flatC (List.replicate k 1 ++ S) (List.replicate k 0 ++ c) = flatC S c := by
  induction k with
  | zero => rfl
  | succ k ih => simp [List.replicate_succ, flatC, ih]

theorem flatC_ones (k : Nat) : flatC (List.replicate k 1) (List.replicate k 0) = 0 := by
  induction k with
  | zero => rfl
  | succ k ih => simp [List.replicate_succ, flatC, ih]

theorem flatC_ones_right (k : Nat) {S c : List Nat} (h : InBounds c S) :
    flatC (S ++ List.replicate k 1) (c ++ List.replicate k 0) = flatC S c := by
  induction S generalizing c with
  | nil => cases c with
    | nil => exact flatC_ones k
    | cons _ _ => exact h.elim
  | cons n ns ih =>
    cases c with
    | nil => exact h.elim
    | cons i is =>
      simp only [List.cons_append, flatC, ih h.2, List.prod_append, List.prod_replicate, one_pow,
        Nat.mul_one]

theorem inBounds_ones (k : Nat) : InBounds (List.replicate k 0) (List.replicate k 1) := by
  induction k with
  | zero => trivial
  | succ k ih => exact ⟨by omega, ih⟩

/-- Shape of the smaller side after transposition and padding. -/
def padShape (m : Nat) (t : Bool) (S : List Nat) : List Nat :=
  List.replicate (m - S.length) 1 ++ revIf t S

/-- Index on the smaller side after transposition and padding. -/
def padIdx (m : Nat) (t : Bool) (c : List Nat) : List Nat :=
  List.replicate (m - c.length) 0 ++ revIf t c

theorem length_revIf (t : Bool) (x : List Nat) : (revIf t x).length = x.length := by
  cases t <;> simp [revIf]

theorem length_padShape {m : Nat} {t : Bool} {S : List Nat} (h : S.length ≤ m) :
    (padShape m t S).length = m := by
  simp [padShape, length_revIf]; omega

theorem padTail_shape {m : Nat} {t : Bool} {S : List Nat} (h : S ≠ []) :
    padTail m 1 (revIf t S) = some (padShape m t S) := by
  have : S.length ≠ 0 := fun e => h (List.length_eq_zero_iff.1 e)
  simp [padTail, padShape, length_revIf, this]

theorem padTail_idx {m : Nat} {t : Bool} {c : List Nat} (h : c.length ≠ 0) :
    padTail m 0 (revIf t c) = some (padIdx m t c) := by
  simp [padTail, padIdx, length_revIf, h]

theorem inBounds_revIf {t : Bool} {c S : List Nat} (h : InBounds c S) :
    InBounds (revIf t c) (revIf t S) := by
  cases t
  · exact h
  · exact h.reverse

theorem inBounds_pad {m : Nat} {t : Bool} {c S : List Nat} (h : InBounds c S) :
    InBounds (padIdx m t c) (padShape m t S) := by
  unfold padIdx padShape
  rw [h.length_eq]
  exact inBounds_append (inBounds_ones _) (inBounds_revIf h)

theorem prod_padShape (m : Nat) (t : Bool) (S : List Nat) : (padShape m t S).prod = S.prod := by
  unfold padShape
  cases t <;> simp [revIf, List.prod_reverse]

/-- On the smaller side the flat index is the rank, whatever the transposition flag. -/
theorem flatIndex_small {m : Nat} {t : Bool} {c S D : List Nat} (hc : InBounds c S)
    (h : Compat (padShape m t S) D) :
    flatIndex t (matchMask (padShape m t S) D) (padShape m t S) (padIdx m t c) = flatC S c := by
  have hin : InBounds (padIdx m t c) (padShape m t S) := inBounds_pad hc
  have hlen := h.length_eq
  unfold flatIndex
  cases t
  · simp only [Bool.false_eq_true, if_false]
    rw [cartesianIndexC_eq_flatC (length_keepDims_eq hin.length_eq), keep_flatC h hin]
    unfold padShape padIdx
    rw [hc.length_eq]
    exact flatC_ones_left _ _ _
  · simp only [if_true]
    rw [cartesianIndexF_eq, ← keepDims_reverse (length_matchMask hlen),
      ← keepDims_reverse ((length_matchMask hlen).trans hin.length_eq.symm), matchMask_reverse hlen,
      cartesianIndexC_eq_flatC (length_keepDims_eq (by simp [hin.length_eq])),
      keep_flatC h.reverse hin.reverse]
    unfold padShape padIdx
    rw [hc.length_eq]
    simp only [revIf, if_true, List.reverse_append, List.reverse_reverse, List.reverse_replicate]
    exact flatC_ones_right _ hc

theorem flatIndex_lt {t : Bool} {mask : List Bool} {c S : List Nat} (h : InBounds c S) :
    flatIndex t mask S c < (keepDims mask S).prod := by
  unfold flatIndex
  have := keep_inBounds (mask := mask) h
  cases t
  · simp only [Bool.false_eq_true, if_false]
    exact (C04_bijection_c _).1 _ this
  · simp only [if_true]
    exact (C04_bijection_f _).1 _ this

theorem flatIndex_inj {t : Bool} {mask : List Bool} {a b S S' : List Nat}
    (hS : keepDims mask S = keepDims mask S') (ha : InBounds a S) (hb : InBounds b S') :
    flatIndex t mask S a = flatIndex t mask S' b ↔ keepDims mask a = keepDims mask b := by
  have h1 := keep_inBounds (mask := mask) ha
  have h2 := keep_inBounds (mask := mask) hb
  unfold flatIndex
  rw [hS] at h1 ⊢
  constructor
  · cases t
    · simp only [Bool.false_eq_true, if_false]
      exact (C04_bijection_c _).2.1 _ _ h1 h2
    · simp only [if_true]
      exact (C04_bijection_f _).2.1 _ _ h1 h2
  · intro h; rw [h]

section
variable {Ps Pd : Cart} {ts td : Bool}

theorem length_coord (P : Cart) (v : Nat) : (P.coord v).length = P.shape.length :=
  length_getCoords _ _

theorem coord_in (h : Ps.WF) {v : Nat} (hv : v ∈ Ps.members) : InBounds (Ps.coord v) Ps.shape :=
  coords_inBounds h hv

theorem smallFlat_eq (h : Ps.WF) (hne : Ps.shape ≠ []) {D : List Nat}
    (hle : Ps.shape.length ≤ D.length) (hc : Compat (padShape D.length ts Ps.shape) D) {v : Nat}
    (hv : v ∈ Ps.members) :
    smallFlat ts (matchMask (padShape D.length ts Ps.shape) D) (padShape D.length ts Ps.shape) Ps v =
      (Ps.members.idxOf v : Int) := by
  unfold smallFlat
  have h0 : (Ps.coord v).length ≠ 0 := by
    rw [length_coord]; exact fun e => hne (List.length_eq_zero_iff.1 e)
  rw [Cart.index_eq hv]
  simp only [length_padShape hle, padTail_idx h0]
  rw [flatIndex_small (coord_in h hv) hc]
  unfold Cart.coord
  rw [(getCoords_spec (h.size ▸ List.idxOf_lt_length_of_mem hv)).2]

theorem smallFlat_none {mask : List Bool} {S : List Nat} {v : Nat} (hv : v ∉ Ps.members) :
    smallFlat ts mask S Ps v = -1 := by
  unfold smallFlat
  rw [Cart.index_none hv]

theorem bigFlat_eq {mask : List Bool} {S : List Nat} {v : Nat} (hv : v ∈ Pd.members) :
    bigFlat td mask S Pd v = (flatIndex td mask S (revIf td (Pd.coord v)) : Int) := by
  unfold bigFlat
  rw [Cart.index_eq hv]

theorem bigFlat_none {mask : List Bool} {S : List Nat} {v : Nat} (hv : v ∉ Pd.members) :
    bigFlat td mask S Pd v = -1 := by
  unfold bigFlat
  rw [Cart.index_none hv]

/-- The colours of the small side `Ps` and the big side `Pd`. -/
theorem cross_ok {U : List Nat} (hU : U.Nodup) (hs : Ps.WF) (hd : Pd.WF)
    (subS : ∀ v ∈ Ps.members, v ∈ U) (subD : ∀ v ∈ Pd.members, v ∈ U) (hne : Ps.shape ≠ [])
    (hle : Ps.shape.length ≤ Pd.shape.length)
    (hc : Compat (padShape Pd.shape.length ts Ps.shape) (revIf td Pd.shape)) :
    CrossOK U Ps.members Pd.members
      (smallFlat ts (matchMask (padShape Pd.shape.length ts Ps.shape) (revIf td Pd.shape))
        (padShape Pd.shape.length ts Ps.shape) Ps)
      (bigFlat td (matchMask (padShape Pd.shape.length ts Ps.shape) (revIf td Pd.shape))
        (revIf td Pd.shape) Pd) := by
  have hlen : (revIf td Pd.shape).length = Pd.shape.length := length_revIf _ _
  have hsm : ∀ v ∈ Ps.members, smallFlat ts
      (matchMask (padShape Pd.shape.length ts Ps.shape) (revIf td Pd.shape))
        (padShape Pd.shape.length ts Ps.shape) Ps v = (Ps.members.idxOf v : Int) := by
    intro v hv
    have := smallFlat_eq (ts := ts) (D := revIf td Pd.shape) hs hne (by rw [hlen]; exact hle)
      (by rw [hlen]; exact hc) hv
    rw [hlen] at this
    exact this
  refine ⟨hU, subS, subD, ?_, fun v hv => smallFlat_none hv, ?_, fun v hv => bigFlat_none hv, ?_, ?_⟩
  · intro v hv; rw [hsm v hv]; omega
  · intro v hv; rw [bigFlat_eq hv]; omega
  · intro v hv v' hv' he
    rw [hsm v hv, hsm v' hv'] at he
    exact (List.idxOf_inj hv).1 (by exact_mod_cast he)
  · intro v hv
    have h1 := flatIndex_lt (t := td)
      (mask := matchMask (padShape Pd.shape.length ts Ps.shape) (revIf td Pd.shape))
      (inBounds_revIf (t := td) (coord_in hd hv))
    rw [← keep_shape_eq hc.length_eq, keep_prod hc, prod_padShape, ← hs.size] at h1
    refine ⟨_, List.getElem_mem h1, ?_⟩
    rw [hsm _ (List.getElem_mem h1), hs.nodup.idxOf_getElem, bigFlat_eq hv]

end

/-- Equality on the matching dimensions is agreement wherever the small extent is not 1. -/
theorem keep_eq_iff {S D c d : List Nat} (h : Compat S D) (hc : InBounds c S) (hd : InBounds d D) :
    keepDims (matchMask S D) c = keepDims (matchMask S D) d ↔
      ∀ j, S.getD j 0 ≠ 1 → c.getD j 0 = d.getD j 0 := by
  induction h generalizing c d with
  | nil =>
    cases c with
    | nil => cases d with
      | nil => simp [keepDims, matchMask]
      | cons _ _ => exact hd.elim
    | cons _ _ => exact hc.elim
  | @cons s e S D hse hSD ih =>
    cases c with
    | nil => exact hc.elim
    | cons i is =>
      cases d with
      | nil => exact hd.elim
      | cons k ks =>
        rw [matchMask_cons]
        have hiff := ih hc.2 hd.2
        have split : (∀ j, (s :: S).getD j 0 ≠ 1 → (i :: is).getD j 0 = (k :: ks).getD j 0) ↔
            (s ≠ 1 → i = k) ∧ ∀ j, S.getD j 0 ≠ 1 → is.getD j 0 = ks.getD j 0 := by
          constructor
          · intro hh
            exact ⟨by simpa using hh 0, fun j => by simpa using hh (j + 1)⟩
          · rintro ⟨h1, h2⟩ j
            cases j with
            | zero => simpa using h1
            | succ j => simpa using h2 j
        rw [split, ← hiff]
        by_cases he : s = e
        · subst he
          simp only [keepDims, beq_self_eq_true, if_true, List.cons.injEq]
          constructor
          · rintro ⟨h1, h2⟩; exact ⟨fun _ => h1, h2⟩
          · rintro ⟨h1, h2⟩
            refine ⟨?_, h2⟩
            by_cases h3 : s = 1
            · have := hc.1; have := hd.1; omega
            · exact h1 h3
        · have h1 : s = 1 := hse.resolve_left he
          subst h1
          simp [keepDims, he]

end Verif
