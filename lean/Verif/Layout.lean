import Verif.Slicing.Lemmas
import Mathlib.Algebra.BigOperators.Group.Finset.Basic
import Mathlib.Algebra.BigOperators.Intervals

/-!
# Tensor-product layouts (specification side)

A layout describes how a global tensor is cut over a Cartesian partition: for every dimension the
list of block lengths.  This is the specification vocabulary used to state what the decomposition
and data movement code should achieve; it is independent of the model of the code.
-/

namespace Verif

open Finset

/-- One list of block lengths per dimension. -/
abbrev Layout := List (List Nat)

namespace Layout

/-- Shape of the partition. -/
def pshape (L : Layout) : List Nat := L.map List.length

/-- Shape of the global tensor. -/
def global (L : Layout) : List Nat := L.map List.sum

/-- Local shape of the worker with index `idx`. -/
def shapeAt : Layout → List Nat → List Nat
  | bs :: L, i :: is => bs.getD i 0 :: shapeAt L is
  | _, _ => []

/-- First global cell of the worker with index `idx`. -/
def startAt : Layout → List Nat → List Nat
  | bs :: L, i :: is => (bs.take i).sum :: startAt L is
  | _, _ => []

/-- One past the last global cell of the worker with index `idx`. -/
def stopAt : Layout → List Nat → List Nat
  | bs :: L, i :: is => (bs.take (i + 1)).sum :: stopAt L is
  | _, _ => []

/-- The balanced layout of a tensor of shape `ns` over a partition of shape `Ps`: each dimension is
cut into `P` blocks whose lengths differ by at most one, longer ones first. -/
def balanced (Ps ns : List Nat) : Layout :=
  List.zipWith (fun P n => (List.range P).map fun i => subsize P i n) Ps ns

end Layout

/-- Sum over all cells of a box. -/
def boxSum {M : Type*} [AddCommMonoid M] : List Nat → (List Nat → M) → M
  | [], f => f []
  | n :: ns, f => ∑ i ∈ range n, boxSum ns fun l => f (i :: l)

section boxSum
variable {M : Type*} [AddCommMonoid M]

theorem boxSum_eq_list (shape : List Nat) (f : List Nat → M) :
    boxSum shape f = ((rangeIndex shape).map f).sum := by
  induction shape generalizing f with
  | nil => simp [boxSum, rangeIndex]
  | cons n ns ih =>
    simp only [boxSum, rangeIndex, ih]
    rw [List.map_flatMap]
    induction n with
    | zero => simp
    | succ n ihn =>
      rw [Finset.sum_range_succ, ihn, List.range_succ, List.flatMap_append, List.sum_append]
      simp [List.map_map, Function.comp_def]

theorem boxSum_congr {shape : List Nat} {f g : List Nat → M}
    (h : ∀ l, InBounds l shape → f l = g l) : boxSum shape f = boxSum shape g := by
  induction shape generalizing f g with
  | nil => exact h [] trivial
  | cons n ns ih =>
    simp only [boxSum]
    refine Finset.sum_congr rfl fun i hi => ih fun l hl => h _ ⟨Finset.mem_range.1 hi, hl⟩

theorem boxSum_zero (shape : List Nat) : boxSum shape (fun _ => (0 : M)) = 0 := by
  induction shape with
  | nil => rfl
  | cons n ns ih => simp [boxSum, ih]

theorem boxSum_add (shape : List Nat) (f g : List Nat → M) :
    boxSum shape (fun l => f l + g l) = boxSum shape f + boxSum shape g := by
  induction shape generalizing f g with
  | nil => rfl
  | cons n ns ih => simp only [boxSum, ih, Finset.sum_add_distrib]

theorem boxSum_sum {ι : Type*} (s : Finset ι) (shape : List Nat) (f : ι → List Nat → M) :
    boxSum shape (fun l => ∑ i ∈ s, f i l) = ∑ i ∈ s, boxSum shape (f i) := by
  induction shape generalizing f with
  | nil => rfl
  | cons n ns ih =>
    simp only [boxSum]
    rw [Finset.sum_comm]
    exact Finset.sum_congr rfl fun i _ => ih _

theorem boxSum_comm (a b : List Nat) (f : List Nat → List Nat → M) :
    boxSum a (fun l => boxSum b (f l)) = boxSum b fun m => boxSum a fun l => f l m := by
  induction a generalizing f with
  | nil => rfl
  | cons n ns ih =>
    simp only [boxSum]
    rw [boxSum_sum]
    exact Finset.sum_congr rfl fun i _ => ih _

end boxSum

/-! ## One dimension -/

theorem take_sum_succ (bs : List Nat) (i : Nat) :
    (bs.take (i + 1)).sum = (bs.take i).sum + bs.getD i 0 := by
  induction bs generalizing i with
  | nil => simp
  | cons b bs ih =>
    cases i with
    | zero => simp
    | succ i => simp only [List.take_succ_cons, List.sum_cons, ih, List.getD_cons_succ]; omega

theorem take_sum_le (bs : List Nat) (i : Nat) : (bs.take i).sum ≤ bs.sum := by
  induction bs generalizing i with
  | nil => simp
  | cons b bs ih =>
    cases i with
    | zero => simp
    | succ i => simp only [List.take_succ_cons, List.sum_cons]; have := ih i; omega

theorem sum_blocks {M : Type*} [AddCommMonoid M] (bs : List Nat) (F : Nat → M) :
    ∑ i ∈ range bs.length, ∑ l ∈ range (bs.getD i 0), F ((bs.take i).sum + l) =
      ∑ g ∈ range bs.sum, F g := by
  induction bs generalizing F with
  | nil => simp
  | cons b bs ih =>
    rw [List.length_cons, Finset.sum_range_succ', List.sum_cons, Finset.sum_range_add]
    simp only [List.getD_cons_succ, List.take_succ_cons, List.sum_cons, List.getD_cons_zero,
      List.take_zero, List.sum_nil, Nat.zero_add]
    rw [add_comm]
    congr 1
    rw [← ih fun g => F (b + g)]
    simp only [Nat.add_assoc]

/-! ## Tiling -/

theorem Layout.unique_owner (L : Layout) (g : List Nat) :
    (InBounds g L.global → ∃! idx, InBounds idx L.pshape ∧ InBox (L.startAt idx) (L.stopAt idx) g) ∧
    (∀ idx, InBounds idx L.pshape → InBox (L.startAt idx) (L.stopAt idx) g →
      InBounds g L.global) := by
  induction L generalizing g with
  | nil =>
    constructor
    · intro hg
      cases g with
      | nil =>
        refine ⟨[], ⟨trivial, trivial⟩, ?_⟩
        rintro y ⟨hy, _⟩
        cases y with
        | nil => rfl
        | cons _ _ => exact hy.elim
      | cons _ _ => exact hg.elim
    · intro idx h1 h2
      cases idx with
      | nil =>
        cases g with
        | nil => trivial
        | cons _ _ => exact h2.elim
      | cons _ _ => exact h1.elim
  | cons bs L ih =>
    constructor
    · intro hg
      cases g with
      | nil => exact hg.elim
      | cons g gs =>
        obtain ⟨i, hi, h1, h2⟩ := exists_block (fun i => (bs.take i).sum) bs.length g
          (by simp) (by simpa [Layout.global] using hg.1)
        obtain ⟨is, ⟨his1, his2⟩, huniq⟩ := (ih gs).1 hg.2
        refine ⟨i :: is, ⟨⟨hi, his1⟩, ⟨⟨h1, h2⟩, his2⟩⟩, ?_⟩
        rintro y ⟨hy1, hy2⟩
        cases y with
        | nil => exact hy1.elim
        | cons j js =>
          have h3 := hy2.1
          have hji : j = i := block_unique (fun i => (bs.take i).sum)
            (fun i => by rw [take_sum_succ]; omega) h3.1 h3.2 h1 h2
          rw [hji, huniq js ⟨hy1.2, hy2.2⟩]
    · intro idx hidx hbox
      cases idx with
      | nil => exact hidx.elim
      | cons i is =>
        cases g with
        | nil => exact hbox.elim
        | cons g gs =>
          refine ⟨?_, (ih gs).2 is hidx.2 hbox.2⟩
          have h1 := hbox.1.2
          have h2 := take_sum_le bs (i + 1)
          show g < bs.sum
          omega

/-- Summing over all cells of all workers is summing over the global tensor. -/
theorem Layout.sum_tiles {M : Type*} [AddCommMonoid M] (L : Layout) (f : List Nat → M) :
    boxSum L.pshape (fun idx => boxSum (L.shapeAt idx) fun l => f (shiftBy (L.startAt idx) l)) =
      boxSum L.global f := by
  induction L generalizing f with
  | nil => rfl
  | cons bs L ih =>
    show ∑ i ∈ range bs.length, boxSum (Layout.pshape L) (fun is =>
        ∑ l ∈ range (bs.getD i 0), boxSum (Layout.shapeAt L is) fun ls =>
          f (((bs.take i).sum + l) :: shiftBy (Layout.startAt L is) ls)) =
      ∑ g ∈ range bs.sum, boxSum (Layout.global L) fun gs => f (g :: gs)
    rw [← sum_blocks bs fun g => boxSum (Layout.global L) fun gs => f (g :: gs)]
    refine Finset.sum_congr rfl fun i _ => ?_
    rw [boxSum_sum]
    refine Finset.sum_congr rfl fun l _ => ?_
    exact ih fun gs => f (((bs.take i).sum + l) :: gs)

theorem Layout.length_pshape (L : Layout) : L.pshape.length = L.length := by simp [Layout.pshape]
theorem Layout.length_global (L : Layout) : L.global.length = L.length := by simp [Layout.global]

theorem Layout.length_shapeAt {L : Layout} {idx : List Nat} (h : idx.length = L.length) :
    (L.shapeAt idx).length = L.length := by
  induction L generalizing idx with
  | nil => cases idx <;> simp [Layout.shapeAt]
  | cons bs L ih =>
    cases idx with
    | nil => simp at h
    | cons i is => simp only [Layout.shapeAt, List.length_cons]; rw [ih (by simpa using h)]

theorem Layout.length_startAt {L : Layout} {idx : List Nat} (h : idx.length = L.length) :
    (L.startAt idx).length = L.length := by
  induction L generalizing idx with
  | nil => cases idx <;> simp [Layout.startAt]
  | cons bs L ih =>
    cases idx with
    | nil => simp at h
    | cons i is => simp only [Layout.startAt, List.length_cons]; rw [ih (by simpa using h)]

theorem Layout.length_stopAt {L : Layout} {idx : List Nat} (h : idx.length = L.length) :
    (L.stopAt idx).length = L.length := by
  induction L generalizing idx with
  | nil => cases idx <;> simp [Layout.stopAt]
  | cons bs L ih =>
    cases idx with
    | nil => simp at h
    | cons i is => simp only [Layout.stopAt, List.length_cons]; rw [ih (by simpa using h)]

/-- The local cells of a worker are exactly the cells of its box. -/
theorem Layout.inBox_shift {L : Layout} {idx l : List Nat} (h : idx.length = L.length) :
    (l.length = L.length ∧ InBox (L.startAt idx) (L.stopAt idx) (shiftBy (L.startAt idx) l)) ↔
      InBounds l (L.shapeAt idx) := by
  induction L generalizing idx l with
  | nil =>
    cases idx with
    | nil => cases l <;> simp [Layout.startAt, Layout.stopAt, Layout.shapeAt, shiftBy, InBox, InBounds]
    | cons _ _ => simp at h
  | cons bs L ih =>
    cases idx with
    | nil => simp at h
    | cons i is =>
      cases l with
      | nil => simp [Layout.shapeAt, InBounds]
      | cons x xs =>
        have := ih (idx := is) (l := xs) (by simpa using h)
        simp only [Layout.startAt, Layout.stopAt, Layout.shapeAt, shiftBy, InBox, InBounds,
          List.length_cons, Nat.add_right_cancel_iff, ← this, take_sum_succ]
        constructor
        · rintro ⟨h1, h2, h3⟩; exact ⟨by omega, h1, h3⟩
        · rintro ⟨h1, h2, h3⟩; exact ⟨h2, by omega, h3⟩

/-- Every cell of a worker's box is a shifted local cell. -/
theorem exists_shift {s e g : List Nat} (h : InBox s e g) :
    shiftBy s (List.zipWith (· - ·) g s) = g ∧ (List.zipWith (· - ·) g s).length = s.length := by
  induction s generalizing e g with
  | nil =>
    cases e with
    | nil => cases g with
      | nil => exact ⟨rfl, rfl⟩
      | cons _ _ => exact h.elim
    | cons _ _ => exact h.elim
  | cons a as ih =>
    cases e with
    | nil => exact h.elim
    | cons b bs =>
      cases g with
      | nil => exact h.elim
      | cons x xs =>
        have h1 := h.1
        have h2 := ih h.2
        simp only [List.zipWith_cons_cons, shiftBy, h2.1, List.length_cons, h2.2, and_true,
          List.cons.injEq]
        omega

theorem shiftBy_inj {s a b : List Nat} (ha : a.length = s.length) (hb : b.length = s.length)
    (h : shiftBy s a = shiftBy s b) : a = b := by
  induction s generalizing a b with
  | nil =>
    cases a with
    | nil => cases b with
      | nil => rfl
      | cons _ _ => simp at hb
    | cons _ _ => simp at ha
  | cons x xs ih =>
    cases a with
    | nil => simp at ha
    | cons y ys =>
      cases b with
      | nil => simp at hb
      | cons z zs =>
        simp only [shiftBy, List.cons.injEq, Nat.add_left_cancel_iff] at h
        rw [h.1, ih (by simpa using ha) (by simpa using hb) h.2]

theorem length_shiftBy {xs l : List Nat} (h : l.length = xs.length) :
    (shiftBy xs l).length = xs.length := by
  induction xs generalizing l with
  | nil => cases l <;> simp_all [shiftBy]
  | cons x xs ih =>
    cases l with
    | nil => simp at h
    | cons y ys => simp only [shiftBy, List.length_cons]; rw [ih (by simpa using h)]

/-! ## The balanced layout -/

theorem subsize_pos {P c M : Nat} (hP : 0 < P) (h : P ≤ M) : 0 < subsize P c M := by
  have := Nat.div_pos h hP
  unfold subsize
  omega

theorem balanced_take_sum (P n i : Nat) (hi : i ≤ P) :
    (((List.range P).map fun i => subsize P i n).take i).sum = startIdx P i n := by
  induction i with
  | zero => simp [startIdx_zero]
  | succ i ih =>
    rw [take_sum_succ, ih (by omega), startIdx_succ, stopIdx]
    congr 1
    rw [List.getD_eq_getElem?_getD, List.getElem?_map, List.getElem?_range (by omega)]
    rfl

theorem Layout.balanced_cons (P n : Nat) (Ps ns : List Nat) :
    Layout.balanced (P :: Ps) (n :: ns) =
      ((List.range P).map fun i => subsize P i n) :: Layout.balanced Ps ns := rfl

theorem Layout.balanced_pshape {Ps ns : List Nat} (h : Ps.length = ns.length) :
    (Layout.balanced Ps ns).pshape = Ps := by
  induction Ps generalizing ns with
  | nil => cases ns <;> simp [Layout.balanced, Layout.pshape]
  | cons P Ps ih =>
    cases ns with
    | nil => simp at h
    | cons n ns =>
      rw [Layout.balanced_cons]
      have := ih (ns := ns) (by simpa using h)
      simp only [Layout.pshape, List.map_cons, List.length_map, List.length_range] at this ⊢
      rw [this]

theorem Layout.balanced_global {Ps ns : List Nat} (h : Ps.length = ns.length)
    (hpos : ∀ P ∈ Ps, 0 < P) : (Layout.balanced Ps ns).global = ns := by
  induction Ps generalizing ns with
  | nil => cases ns with
    | nil => rfl
    | cons _ _ => simp at h
  | cons P Ps ih =>
    cases ns with
    | nil => simp at h
    | cons n ns =>
      rw [Layout.balanced_cons]
      have := ih (ns := ns) (by simpa using h) fun Q hQ => hpos Q (by simp [hQ])
      have hs := balanced_take_sum P n P (Nat.le_refl _)
      rw [List.take_of_length_le (by simp), startIdx_top (hpos P (by simp))] at hs
      simp only [Layout.global, List.map_cons] at this ⊢
      rw [this, hs]

theorem Layout.balanced_shapeAt {Ps ns idx : List Nat} (h : Ps.length = ns.length)
    (hi : InBounds idx Ps) : (Layout.balanced Ps ns).shapeAt idx = computeSubshape Ps idx ns := by
  induction Ps generalizing ns idx with
  | nil => cases idx <;> cases ns <;> simp [Layout.balanced, Layout.shapeAt, computeSubshape, map3]
  | cons P Ps ih =>
    cases ns with
    | nil => simp at h
    | cons n ns =>
      cases idx with
      | nil => exact hi.elim
      | cons i is =>
        rw [Layout.balanced_cons, computeSubshape_cons, Layout.shapeAt,
          ih (by simpa using h) hi.2]
        congr 1
        rw [List.getD_eq_getElem?_getD, List.getElem?_map, List.getElem?_range hi.1]
        rfl

theorem Layout.balanced_startAt {Ps ns idx : List Nat} (h : Ps.length = ns.length)
    (hi : InBounds idx Ps) :
    (Layout.balanced Ps ns).startAt idx = computeStartIndex Ps idx ns ∧
      (Layout.balanced Ps ns).stopAt idx = computeStopIndex Ps idx ns := by
  induction Ps generalizing ns idx with
  | nil =>
    cases idx with
    | nil => cases ns with
      | nil => exact ⟨rfl, rfl⟩
      | cons _ _ => simp at h
    | cons _ _ => exact hi.elim
  | cons P Ps ih =>
    cases ns with
    | nil => simp at h
    | cons n ns =>
      cases idx with
      | nil => exact hi.elim
      | cons i is =>
        have hh := ih (ns := ns) (by simpa using h) hi.2
        rw [Layout.balanced_cons, computeStartIndex_cons, computeStopIndex_cons, Layout.startAt,
          Layout.stopAt, hh.1, hh.2, balanced_take_sum P n i (Nat.le_of_lt hi.1),
          balanced_take_sum P n (i + 1) hi.1, startIdx_succ]
        exact ⟨rfl, rfl⟩

end Verif
