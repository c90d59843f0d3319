import Verif.Spec
import Verif.Slicing.Model
import Mathlib.Data.List.Nodup
import Mathlib.Algebra.BigOperators.Group.List.Basic
import Mathlib.Tactic.Ring

/-! Helper lemmas on the slicing model. -/

namespace Verif

/-! ## One dimension -/

theorem startIdx_zero (P n : Nat) : startIdx P 0 n = 0 := by simp [startIdx]

theorem startIdx_succ (P i n : Nat) : startIdx P (i + 1) n = stopIdx P i n := by
  unfold startIdx stopIdx startIdx subsize
  rw [Nat.mul_add]
  split <;> omega

theorem startIdx_top {P : Nat} (hP : 0 < P) (n : Nat) : startIdx P P n = n := by
  unfold startIdx
  have h1 := Nat.div_add_mod n P
  have h2 := Nat.mod_lt n hP
  rw [Nat.min_eq_right (Nat.le_of_lt h2), Nat.mul_comm]
  exact h1

theorem startIdx_le_succ (P i n : Nat) : startIdx P i n ≤ startIdx P (i + 1) n := by
  rw [startIdx_succ]; exact Nat.le_add_right _ _

theorem startIdx_mono (P n : Nat) {i j : Nat} (h : i ≤ j) : startIdx P i n ≤ startIdx P j n := by
  induction h with
  | refl => exact Nat.le_refl _
  | step _ ih => exact Nat.le_trans ih (startIdx_le_succ _ _ _)

theorem startIdx_le {P : Nat} (hP : 0 < P) (n : Nat) {i : Nat} (h : i ≤ P) : startIdx P i n ≤ n := by
  have := startIdx_mono P n h
  rwa [startIdx_top hP] at this

/-- Finding the block of a cell for any monotone sequence of block boundaries. -/
theorem exists_block (s : Nat → Nat) (P : Nat) (g : Nat)
    (h0 : s 0 ≤ g) (hg : g < s P) : ∃ i, i < P ∧ s i ≤ g ∧ g < s (i + 1) := by
  induction P with
  | zero => omega
  | succ P ih =>
    by_cases hlt : g < s P
    · obtain ⟨i, hi, h1, h2⟩ := ih hlt
      exact ⟨i, by omega, h1, h2⟩
    · exact ⟨P, by omega, by omega, hg⟩

theorem block_unique (s : Nat → Nat) (mono : ∀ i, s i ≤ s (i + 1)) {g i j : Nat}
    (hi1 : s i ≤ g) (hi2 : g < s (i + 1)) (hj1 : s j ≤ g) (hj2 : g < s (j + 1)) : i = j := by
  have hm : ∀ a b, a ≤ b → s a ≤ s b := by
    intro a b hab
    induction hab with
    | refl => exact Nat.le_refl _
    | step _ ih => exact Nat.le_trans ih (mono _)
  rcases Nat.lt_trichotomy i j with h | h | h
  · have := hm (i + 1) j h; omega
  · exact h
  · have := hm (j + 1) i h; omega

/-! ## Several dimensions -/

theorem map3_length (f : Nat → Nat → Nat → Nat) (a b c : List Nat) (h1 : a.length = b.length)
    (h2 : b.length = c.length) : (map3 f a b c).length = a.length := by
  induction a generalizing b c with
  | nil => cases b <;> simp [map3]
  | cons x xs ih =>
    cases b with
    | nil => simp at h1
    | cons y ys =>
      cases c with
      | nil => simp at h2
      | cons z zs =>
        simp only [map3, List.length_cons]
        simp only [List.length_cons, Nat.add_right_cancel_iff] at h1 h2
        rw [ih ys zs h1 h2]

theorem computeStopIndex_cons (P i n : Nat) (Ps is ns : List Nat) :
    computeStopIndex (P :: Ps) (i :: is) (n :: ns) = stopIdx P i n :: computeStopIndex Ps is ns := by
  simp [computeStopIndex, computeStartIndex, computeSubshape, map3, stopIdx]

theorem computeStartIndex_cons (P i n : Nat) (Ps is ns : List Nat) :
    computeStartIndex (P :: Ps) (i :: is) (n :: ns) =
      startIdx P i n :: computeStartIndex Ps is ns := rfl

theorem computeSubshape_cons (P i n : Nat) (Ps is ns : List Nat) :
    computeSubshape (P :: Ps) (i :: is) (n :: ns) =
      subsize P i n :: computeSubshape Ps is ns := rfl

theorem InBounds.length_eq : {a b : List Nat} → InBounds a b → a.length = b.length
  | [], [], _ => rfl
  | _ :: _, _ :: _, h => by simp [InBounds.length_eq h.2]
  | [], _ :: _, h => h.elim
  | _ :: _, [], h => h.elim

theorem InBox.length_eq : {a b c : List Nat} → InBox a b c → a.length = c.length ∧ b.length = c.length
  | [], [], [], _ => ⟨rfl, rfl⟩
  | _ :: _, _ :: _, _ :: _, h => by
    have := InBox.length_eq h.2
    simp [this.1, this.2]
  | [], [], _ :: _, h => h.elim
  | [], _ :: _, _, h => h.elim
  | _ :: _, [], _, h => h.elim
  | _ :: _, _ :: _, [], h => h.elim

/-! ## Enumeration -/

theorem mem_rangeIndex {shape idx : List Nat} : idx ∈ rangeIndex shape ↔ InBounds idx shape := by
  induction shape generalizing idx with
  | nil => cases idx <;> simp [rangeIndex, InBounds]
  | cons n ns ih =>
    cases idx with
    | nil => simp [rangeIndex, InBounds]
    | cons i is =>
      simp only [rangeIndex, List.mem_flatMap, List.mem_range, List.mem_map, InBounds]
      constructor
      · rintro ⟨a, ha, b, hb, hab⟩
        cases hab
        exact ⟨ha, ih.1 hb⟩
      · rintro ⟨h1, h2⟩
        exact ⟨i, h1, is, ih.2 h2, rfl⟩

theorem nodup_rangeIndex (shape : List Nat) : (rangeIndex shape).Nodup := by
  induction shape with
  | nil => simp [rangeIndex]
  | cons n ns ih =>
    unfold rangeIndex
    rw [List.nodup_flatMap]
    refine ⟨fun i _ => (List.nodup_map_iff fun a b h => by simpa using h).2 ih, ?_⟩
    refine List.Pairwise.imp ?_ (List.pairwise_lt_range (n := n))
    intro a b hab
    simp only [Function.onFun, List.disjoint_left, List.mem_map]
    rintro x ⟨y, _, rfl⟩ ⟨z, _, hz⟩
    simp only [List.cons.injEq] at hz
    omega

theorem length_rangeIndex (shape : List Nat) : (rangeIndex shape).length = shape.prod := by
  induction shape with
  | nil => simp [rangeIndex]
  | cons n ns ih =>
    simp only [rangeIndex, List.length_flatMap, List.length_map, ih, List.prod_cons]
    simp

/-- Recursive form of the row-major flat index. -/
def flatC : List Nat → List Nat → Nat
  | _ :: ns, i :: is => i * ns.prod + flatC ns is
  | _, _ => 0

theorem foldl_horner (ps : List (Nat × Nat)) (a : Nat) :
    ps.foldl (fun acc p => acc * p.1 + p.2) a =
      a * (ps.map Prod.fst).prod + ps.foldl (fun acc p => acc * p.1 + p.2) 0 := by
  induction ps generalizing a with
  | nil => simp
  | cons p ps ih =>
    simp only [List.foldl_cons, List.map_cons, List.prod_cons, Nat.zero_mul, Nat.zero_add]
    rw [ih (a * p.1 + p.2), ih p.2]
    ring

theorem cartesianIndexC_eq_flatC {shape idx : List Nat} (h : idx.length = shape.length) :
    cartesianIndexC shape idx = flatC shape idx := by
  induction shape generalizing idx with
  | nil => cases idx <;> simp [cartesianIndexC, flatC]
  | cons n ns ih =>
    cases idx with
    | nil => simp at h
    | cons i is =>
      simp only [List.length_cons, Nat.add_right_cancel_iff] at h
      have hh := ih h
      simp only [cartesianIndexC, List.zip_cons_cons, List.foldl_cons, Nat.zero_mul, Nat.zero_add,
        flatC] at hh ⊢
      rw [foldl_horner, hh, List.map_fst_zip (by omega)]

theorem flatC_lt {shape idx : List Nat} (h : InBounds idx shape) : flatC shape idx < shape.prod := by
  induction shape generalizing idx with
  | nil => cases idx <;> simp [flatC]
  | cons n ns ih =>
    cases idx with
    | nil => exact h.elim
    | cons i is =>
      have h2 := ih h.2
      simp only [flatC, List.prod_cons]
      calc i * ns.prod + flatC ns is < i * ns.prod + ns.prod := by omega
        _ = (i + 1) * ns.prod := by ring
        _ ≤ n * ns.prod := Nat.mul_le_mul_right _ h.1

theorem flatC_inj {shape a b : List Nat} (ha : InBounds a shape) (hb : InBounds b shape)
    (h : flatC shape a = flatC shape b) : a = b := by
  induction shape generalizing a b with
  | nil =>
    cases a with
    | nil => cases b with
      | nil => rfl
      | cons _ _ => exact hb.elim
    | cons _ _ => exact ha.elim
  | cons n ns ih =>
    cases a with
    | nil => exact ha.elim
    | cons i is =>
      cases b with
      | nil => exact hb.elim
      | cons j js =>
        have h1 := flatC_lt ha.2
        have h2 := flatC_lt hb.2
        simp only [flatC] at h
        have hpos : 0 < ns.prod := by omega
        have hd : (i * ns.prod + flatC ns is) / ns.prod = i := by
          rw [Nat.mul_comm, Nat.mul_add_div hpos, Nat.div_eq_of_lt h1, Nat.add_zero]
        have hd' : (j * ns.prod + flatC ns js) / ns.prod = j := by
          rw [Nat.mul_comm, Nat.mul_add_div hpos, Nat.div_eq_of_lt h2, Nat.add_zero]
        have hij : i = j := by rw [← hd, ← hd', h]
        subst hij
        rw [ih ha.2 hb.2 (by omega)]

/-- Row-major position: the `k`-th index of the enumeration has flat index `k`. -/
theorem map_flatC_rangeIndex (shape : List Nat) :
    (rangeIndex shape).map (flatC shape) = List.range shape.prod := by
  induction shape with
  | nil => simp [rangeIndex, flatC]
  | cons n ns ih =>
    simp only [rangeIndex, List.map_flatMap, List.map_map, List.prod_cons]
    have : ∀ i, ((rangeIndex ns).map ((flatC (n :: ns)) ∘ (fun l => i :: l))) =
        (List.range ns.prod).map (fun k => i * ns.prod + k) := by
      intro i
      rw [← ih, List.map_map]
      rfl
    simp only [this]
    induction n with
    | zero => simp
    | succ n ihn =>
      rw [List.range_succ, List.flatMap_append, ihn]
      · simp only [List.flatMap_cons, List.flatMap_nil, List.append_nil]
        rw [Nat.succ_mul, List.range_add]
      · intro i
        rw [← ih, List.map_map]
        rfl

theorem idxOf_rangeIndex {shape idx : List Nat} (h : InBounds idx shape) :
    (rangeIndex shape).idxOf idx = flatC shape idx := by
  have hmem := mem_rangeIndex.2 h
  have hlt : (rangeIndex shape).idxOf idx < (rangeIndex shape).length := List.idxOf_lt_length_of_mem hmem
  have hget : (rangeIndex shape)[(rangeIndex shape).idxOf idx] = idx := List.getElem_idxOf hlt
  have hm := map_flatC_rangeIndex shape
  have hlt' : (rangeIndex shape).idxOf idx < ((rangeIndex shape).map (flatC shape)).length := by
    simpa using hlt
  have h3 : ((rangeIndex shape).map (flatC shape))[(rangeIndex shape).idxOf idx] =
      (rangeIndex shape).idxOf idx := by
    simp only [hm, List.getElem_range]
  rw [List.getElem_map, hget] at h3
  exact h3.symm

theorem getElem_rangeIndex_flatC {shape : List Nat} {k : Nat} (hk : k < (rangeIndex shape).length) :
    flatC shape (rangeIndex shape)[k] = k := by
  have hm := map_flatC_rangeIndex shape
  have hlt' : k < ((rangeIndex shape).map (flatC shape)).length := by simpa using hk
  have h3 : ((rangeIndex shape).map (flatC shape))[k] = k := by simp only [hm, List.getElem_range]
  rwa [List.getElem_map] at h3

end Verif

namespace Verif

/-! ## Boxes and intersections -/

theorem InBounds.reverse {a b : List Nat} (h : InBounds a b) : InBounds a.reverse b.reverse := by
  have key : ∀ {a b c d : List Nat}, InBounds a b → InBounds c d → InBounds (a ++ c) (b ++ d) := by
    intro a
    induction a with
    | nil =>
      intro b c d h1 h2
      cases b with
      | nil => exact h2
      | cons _ _ => exact h1.elim
    | cons x xs ih =>
      intro b c d h1 h2
      cases b with
      | nil => exact h1.elim
      | cons y ys => exact ⟨h1.1, ih h1.2 h2⟩
  induction a generalizing b with
  | nil =>
    cases b with
    | nil => exact h
    | cons _ _ => exact h.elim
  | cons x xs ih =>
    cases b with
    | nil => exact h.elim
    | cons y ys =>
      rw [List.reverse_cons, List.reverse_cons]
      exact key (ih h.2) ⟨h.1, trivial⟩

theorem inBounds_reverse {a b : List Nat} : InBounds a.reverse b.reverse ↔ InBounds a b :=
  ⟨fun h => by simpa using h.reverse, InBounds.reverse⟩

theorem cartesianIndexF_eq (shape idx : List Nat) :
    cartesianIndexF shape idx = cartesianIndexC shape.reverse idx.reverse := rfl

theorem prod_pos_of_inBounds {a b : List Nat} (h : InBounds a b) : 0 < b.prod :=
  Nat.lt_of_le_of_lt (Nat.zero_le _) (flatC_lt h)

/-- The intersection of two boxes, in each dimension the overlap of the two ranges. -/
theorem inBox_inter {xs xe ys ye g : List Nat} :
    (InBox xs xe g ∧ InBox ys ye g) ↔
      InBox (List.zipWith max xs ys) (List.zipWith min xe ye) g ∧
        xs.length = g.length ∧ xe.length = g.length ∧ ys.length = g.length ∧
        ye.length = g.length := by
  induction g generalizing xs xe ys ye with
  | nil =>
    cases xs <;> cases xe <;> cases ys <;> cases ye <;> simp [InBox]
  | cons g gs ih =>
    cases xs <;> cases xe <;> cases ys <;> cases ye <;> simp only [InBox, List.length_nil,
      List.length_cons, List.zipWith] <;> try simp
    rename_i a as b bs c cs d ds
    have := @ih as bs cs ds
    constructor
    · rintro ⟨⟨h1, h2⟩, h3, h4⟩
      have h5 := this.1 ⟨h2, h4⟩
      exact ⟨⟨⟨⟨h1.1, h3.1⟩, h1.2, h3.2⟩, h5.1⟩, h5.2⟩
    · rintro ⟨⟨⟨⟨h1, h2⟩, h3, h4⟩, h5⟩, h6⟩
      have h7 := this.2 ⟨h5, h6⟩
      exact ⟨⟨⟨h1, h3⟩, h7.1⟩, ⟨h2, h4⟩, h7.2⟩

theorem exists_inBox_iff {s e : List Nat} (h : s.length = e.length) :
    (∃ g, InBox s e g) ↔ (List.zipWith (· - ·) e s).prod ≠ 0 := by
  induction s generalizing e with
  | nil =>
    cases e with
    | nil => simp only [List.zipWith_nil_left, List.prod_nil, ne_eq, Nat.one_ne_zero,
        not_false_eq_true, iff_true]; exact ⟨[], trivial⟩
    | cons _ _ => simp at h
  | cons a as ih =>
    cases e with
    | nil => simp at h
    | cons b bs =>
      have h' : as.length = bs.length := by simpa using h
      simp only [List.zipWith_cons_cons, List.prod_cons, ne_eq, Nat.mul_eq_zero, not_or]
      constructor
      · rintro ⟨g, hg⟩
        cases g with
        | nil => exact hg.elim
        | cons g gs =>
          refine ⟨?_, (ih h').1 ⟨gs, hg.2⟩⟩
          have := hg.1
          omega
      · rintro ⟨h1, h2⟩
        obtain ⟨gs, hgs⟩ := (ih h').2 h2
        exact ⟨a :: gs, ⟨⟨Nat.le_refl _, by omega⟩, hgs⟩⟩

theorem inSlices_rel {xs is sh l : List Nat} (hle : List.Forall₂ (· ≤ ·) xs is)
    (hlen : is.length = sh.length) :
    InSlices (assembleSlices (List.zipWith (· - ·) is xs)
        (List.zipWith (· + ·) (List.zipWith (· - ·) is xs) sh)) l ↔
      l.length = xs.length ∧ InBox is (List.zipWith (· + ·) is sh) (shiftBy xs l) := by
  induction hle generalizing sh l with
  | nil =>
    cases l with
    | nil => cases sh <;> simp_all [assembleSlices, InSlices, InBox, shiftBy]
    | cons _ _ => cases sh <;> simp_all [assembleSlices, InSlices, InBox, shiftBy]
  | cons hab _ ih =>
    cases sh with
    | nil => simp at hlen
    | cons n ns =>
      cases l with
      | nil => simp [assembleSlices, InSlices]
      | cons x xs' =>
        have := @ih ns xs' (by simpa using hlen)
        simp only [assembleSlices, List.zipWith_cons_cons, List.zip_cons_cons, InSlices,
          List.length_cons, shiftBy, InBox] at this ⊢
        rw [this]
        constructor
        · rintro ⟨h1, h2, h3⟩
          exact ⟨by omega, by omega, h3⟩
        · rintro ⟨h1, h2, h3⟩
          exact ⟨by omega, by omega, h3⟩

theorem forall2_le_zipWith_max {xs ys : List Nat} (h : xs.length = ys.length) :
    List.Forall₂ (· ≤ ·) xs (List.zipWith max xs ys) := by
  induction xs generalizing ys with
  | nil => cases ys <;> simp
  | cons x xs ih =>
    cases ys with
    | nil => simp at h
    | cons y ys =>
      simp only [List.zipWith_cons_cons, List.forall₂_cons]
      exact ⟨Nat.le_max_left _ _, ih (by simpa using h)⟩

/-- When the intersection is not empty its stop is its start plus its shape. -/
theorem zipWith_add_sub {is ie : List Nat} (h : is.length = ie.length)
    (hne : (List.zipWith (· - ·) ie is).prod ≠ 0) :
    List.zipWith (· + ·) is (List.zipWith (· - ·) ie is) = ie := by
  induction is generalizing ie with
  | nil => cases ie with
    | nil => rfl
    | cons _ _ => simp at h
  | cons a as ih =>
    cases ie with
    | nil => simp at h
    | cons b bs =>
      simp only [List.zipWith_cons_cons, List.prod_cons, ne_eq, Nat.mul_eq_zero, not_or] at hne
      simp only [List.zipWith_cons_cons]
      rw [ih (by simpa using h) hne.2]
      congr 1
      omega

theorem sliceShape_assemble {a b : List Nat} (h : a.length = b.length) :
    sliceShape (assembleSlices a (List.zipWith (· + ·) a b)) = b := by
  induction a generalizing b with
  | nil => cases b with
    | nil => rfl
    | cons _ _ => simp at h
  | cons x xs ih =>
    cases b with
    | nil => simp at h
    | cons y ys =>
      have := ih (b := ys) (by simpa using h)
      simp only [sliceShape, assembleSlices, List.zipWith_cons_cons, List.zip_cons_cons,
        List.map_cons] at this ⊢
      rw [this]
      congr 1
      omega

theorem map_fst_assemble {a b : List Nat} (h : a.length = b.length) :
    (assembleSlices a (List.zipWith (· + ·) a b)).map Prod.fst = a := by
  unfold assembleSlices
  rw [List.map_fst_zip]
  simp [h]

theorem shiftBy_sub {xs is : List Nat} (hle : List.Forall₂ (· ≤ ·) xs is) :
    shiftBy xs (List.zipWith (· - ·) is xs) = is := by
  induction hle with
  | nil => rfl
  | cons hab _ ih =>
    simp only [List.zipWith_cons_cons, shiftBy, ih]
    congr 1
    omega

theorem matchesFilter_iff {idx : List Nat} {f : List (Option Nat)} (h : idx.length = f.length) :
    matchesFilter idx f = true ↔
      ∀ k (hk : k < f.length) (hk' : k < idx.length), ∀ v, f[k] = some v → idx[k] = v := by
  induction idx generalizing f with
  | nil =>
    cases f with
    | nil => simp [matchesFilter]
    | cons _ _ => simp at h
  | cons i is ih =>
    cases f with
    | nil => simp at h
    | cons v fs =>
      have hl : is.length = fs.length := by simpa using h
      cases v with
      | none =>
        simp only [matchesFilter]
        rw [ih hl]
        constructor
        · intro H k hk hk' w hw
          cases k with
          | zero => simp at hw
          | succ k => simpa using H k (by simpa using hk) (by simpa using hk') w (by simpa using hw)
        · intro H k hk hk' w hw
          exact H (k + 1) (by simpa using hk) (by simpa using hk') w (by simpa using hw)
      | some w =>
        simp only [matchesFilter]
        by_cases hiw : i = w
        · subst hiw
          simp only [ne_eq, not_true_eq_false, if_false]
          rw [ih hl]
          constructor
          · intro H k hk hk' w hw
            cases k with
            | zero => simpa using hw
            | succ k =>
              simpa using H k (by simpa using hk) (by simpa using hk') w (by simpa using hw)
          · intro H k hk hk' w hw
            exact H (k + 1) (by simpa using hk) (by simpa using hk') w (by simpa using hw)
        · simp only [ne_eq, hiw, not_false_eq_true, if_true, Bool.false_eq_true, false_iff]
          intro H
          exact hiw (H 0 (by simp) (by simp) w rfl)

theorem pairwise_lex_rangeIndex (shape : List Nat) :
    (rangeIndex shape).Pairwise (List.Lex (· < ·)) := by
  induction shape with
  | nil => simp [rangeIndex]
  | cons n ns ih =>
    unfold rangeIndex
    rw [List.pairwise_flatMap]
    refine ⟨fun i _ => ?_, ?_⟩
    · rw [List.pairwise_map]
      exact ih.imp fun h => List.Lex.cons h
    · refine (List.pairwise_lt_range (n := n)).imp ?_
      intro a b hab x hx y hy
      simp only [List.mem_map] at hx hy
      obtain ⟨x', _, rfl⟩ := hx
      obtain ⟨y', _, rfl⟩ := hy
      exact List.Lex.rel hab

theorem foldl_assign {α : Type} [DecidableEq α] (ps : List (Nat × α)) (init : α → Nat) (idx : α)
    (hnd : (ps.map Prod.snd).Nodup) :
    (∀ k, (k, idx) ∈ ps →
      ps.foldl (fun arr p => fun j => if j = p.2 then p.1 else arr j) init idx = k) ∧
    (idx ∉ ps.map Prod.snd →
      ps.foldl (fun arr p => fun j => if j = p.2 then p.1 else arr j) init idx = init idx) := by
  induction ps generalizing init with
  | nil => simp
  | cons p ps ih =>
    simp only [List.map_cons, List.nodup_cons] at hnd
    have hi := ih (fun j => if j = p.2 then p.1 else init j) hnd.2
    constructor
    · intro k hk
      rw [List.foldl_cons]
      rcases List.mem_cons.1 hk with h | h
      · have hnot : idx ∉ ps.map Prod.snd := by rw [← h] at hnd; exact hnd.1
        rw [hi.2 hnot, ← h]
        simp
      · exact hi.1 k h
    · intro hnot
      simp only [List.map_cons, List.mem_cons, not_or] at hnot
      rw [List.foldl_cons, hi.2 hnot.2, if_neg hnot.1]

end Verif
