import Verif.Interp.Model
import Verif.Partition.Lemmas
import Verif.Halo.Lemmas

/-!
# Interpolation kernels: what they compute
-/

namespace Verif

/-! ## Flat data -/

theorem sum_flat {M : Type*} [AddCommMonoid M] (shape : List Nat) (F : Nat → M) :
    ∑ i ∈ Finset.range shape.prod, F i = boxSum shape fun l => F (flatC shape l) := by
  have : (rangeIndex shape).map (fun l => F (flatC shape l)) = ((rangeIndex shape).map (flatC shape)).map F := by
    rw [List.map_map]; rfl
  rw [boxSum_eq_list, this, map_flatC_rangeIndex]
  rfl

section
variable {K : Type}

theorem contiguous_flat {shape l : List Nat} (x : List Nat → K) (h : InBounds l shape) :
    contiguous shape x (flatC shape l) = x l := by
  rw [contiguous, getCoords_flatC h]

/-- The position computed by the nested loops. -/
theorem hornerIdx_eq (c : Nat) {shape idx : List Nat} (h : idx.length = shape.length) (n : Nat) :
    hornerIdx c shape (idx.map fun i : Nat => (i : Int)) = (flatC (n :: shape) (c :: idx) : Nat) := by
  have key : ∀ (shape idx : List Nat) (c : Nat), idx.length = shape.length →
      hornerIdx c shape (idx.map fun i : Nat => (i : Int)) =
        ((List.zip shape idx).foldl (fun a q => a * q.1 + q.2) c : Nat) := by
    intro shape
    induction shape with
    | nil => intro idx c h; simp [hornerIdx]
    | cons n ns ih =>
      intro idx c h
      cases idx with
      | nil => simp at h
      | cons i is =>
        have := ih is (c * n + i) (by simpa using h)
        simp only [hornerIdx, List.zip_cons_cons, List.foldl_cons] at this ⊢
        rw [← this]
        push_cast
        rfl
  rw [key shape idx c h]
  have e := cartesianIndexC_eq_flatC (shape := n :: shape) (idx := c :: idx) (by simpa using h)
  rw [← e]
  simp [cartesianIndexC]

variable [Field K]

/-! ## Terms -/

/-- Weighted sum of the values of `f` over all combinations of terms. -/
def termSum : List (List (Int × K)) → (List Int → K) → K
  | [], f => f []
  | d :: ds, f => (d.map fun t => t.2 * termSum ds fun l => f (t.1 :: l)).sum

theorem sum_map_mul_left {α : Type} (l : List α) (a : K) (f : α → K) :
    (l.map fun x => a * f x).sum = a * (l.map f).sum := by
  induction l with
  | nil => simp
  | cons b l ih => simp [ih, mul_add]

theorem cornerTerms_sum (ts : List (List (Int × K))) (f : List Int → K) :
    ((cornerTerms ts).map fun t => t.2 * f t.1).sum = termSum ts f := by
  induction ts generalizing f with
  | nil => simp [cornerTerms, termSum]
  | cons d ds ih =>
    simp only [cornerTerms, termSum]
    induction d with
    | nil => simp
    | cons t d ihd =>
      rw [List.flatMap_cons, List.map_append, List.sum_append, ihd, List.map_cons, List.sum_cons]
      congr 1
      rw [List.map_map, ← ih, ← sum_map_mul_left]
      congr 1
      apply List.map_congr_left
      intro u _
      simp only [Function.comp]
      ring

/-- Every combination takes its indices from the terms. -/
theorem mem_cornerTerms {ts : List (List (Int × K))} {u : List Int × K} (h : u ∈ cornerTerms ts) :
    u.1.length = ts.length ∧ ∀ j, j < ts.length → ∃ t ∈ ts.getD j [], t.1 = u.1.getD j 0 := by
  induction ts generalizing u with
  | nil =>
    simp only [cornerTerms, List.mem_singleton] at h
    subst h
    exact ⟨rfl, by simp⟩
  | cons d ds ih =>
    simp only [cornerTerms, List.mem_flatMap, List.mem_map] at h
    obtain ⟨t, ht, v, hv, rfl⟩ := h
    obtain ⟨h1, h2⟩ := ih hv
    refine ⟨by simp [h1], fun j hj => ?_⟩
    cases j with
    | zero => exact ⟨t, by simpa using ht, rfl⟩
    | succ j => simpa using h2 j (by simpa using hj)

/-! ## Assignments and accumulations -/

/-- The value assigned by an entry. -/
def entryVal (x : Nat → K) (e : Int × List (Int × K)) : K := (e.2.map fun t => t.2 * x t.1.toNat).sum

theorem kernelForward_apply (es : List (Int × List (Int × K))) (x out : Nat → K)
    (h : (es.map fun e => e.1.toNat).Nodup) (k : Nat) :
    kernelForward es x out k = if k ∈ es.map (fun e => e.1.toNat) then
      (es.map fun e => if e.1.toNat = k then entryVal x e else 0).sum else out k := by
  induction es generalizing out with
  | nil => simp [kernelForward]
  | cons e es ih =>
    rw [List.map_cons, List.nodup_cons] at h
    have := ih (Function.update out e.1.toNat (entryVal x e)) h.2
    change kernelForward es x (Function.update out e.1.toNat (entryVal x e)) k = _
    rw [this, List.map_cons, List.map_cons, List.sum_cons]
    by_cases hk : e.1.toNat = k
    · subst hk
      rw [if_neg h.1, if_pos (List.mem_cons_self ..), if_pos rfl, Function.update_self]
      have hz : (es.map fun e' => if e'.1.toNat = e.1.toNat then entryVal x e' else 0).sum = 0 := by
        rw [List.sum_eq_zero]
        intro a ha
        obtain ⟨e', he', rfl⟩ := List.mem_map.1 ha
        rw [if_neg]
        intro hc
        exact h.1 (hc ▸ List.mem_map_of_mem he')
      rw [hz, add_zero]
    · rw [if_neg hk, zero_add, Function.update_of_ne (Ne.symm hk)]
      have : k ∈ e.1.toNat :: es.map (fun e => e.1.toNat) ↔ k ∈ es.map (fun e => e.1.toNat) := by
        rw [List.mem_cons]
        exact ⟨fun hc => hc.resolve_left (Ne.symm hk), Or.inr⟩
      by_cases hm : k ∈ es.map (fun e => e.1.toNat)
      · rw [if_pos hm, if_pos (this.2 hm)]
      · rw [if_neg hm, if_neg (fun hc => hm (this.1 hc))]

/-- Starting from zeros. -/
theorem kernelForward_zero (es : List (Int × List (Int × K))) (x : Nat → K)
    (h : (es.map fun e => e.1.toNat).Nodup) (k : Nat) :
    kernelForward es x (fun _ => 0) k = (es.map fun e => if e.1.toNat = k then entryVal x e else 0).sum := by
  rw [kernelForward_apply es x _ h]
  split
  · rfl
  · rename_i hk
    rw [List.sum_eq_zero]
    intro a ha
    obtain ⟨e, he, rfl⟩ := List.mem_map.1 ha
    rw [if_neg]
    intro hc
    exact hk (hc ▸ List.mem_map_of_mem he)

theorem accumulate_apply (ts : List (Int × K)) (a : K) (g : Nat → K) (k : Nat) :
    (ts.foldl (fun g t => Function.update g t.1.toNat (g t.1.toNat + t.2 * a)) g) k =
      g k + (ts.map fun t => if t.1.toNat = k then t.2 * a else 0).sum := by
  induction ts generalizing g with
  | nil => simp
  | cons t ts ih =>
    rw [List.foldl_cons, ih, List.map_cons, List.sum_cons, ← add_assoc]
    congr 1
    by_cases hk : t.1.toNat = k
    · subst hk
      rw [Function.update_self, if_pos rfl]
    · rw [Function.update_of_ne (Ne.symm hk), if_neg hk, add_zero]

theorem kernelAdjoint_apply (es : List (Int × List (Int × K))) (y g : Nat → K) (k : Nat) :
    kernelAdjoint es y g k =
      g k + (es.map fun e => (e.2.map fun t => if t.1.toNat = k then t.2 * y e.1.toNat else 0).sum).sum := by
  induction es generalizing g with
  | nil => simp [kernelAdjoint]
  | cons e es ih =>
    change kernelAdjoint es y _ k = _
    rw [ih]
    dsimp only
    rw [accumulate_apply, List.map_cons, List.sum_cons, add_assoc]

theorem sum_list_comm {α : Type} (l : List α) (n : Nat) (F : α → Nat → K) :
    ∑ k ∈ Finset.range n, (l.map fun e => F e k).sum = (l.map fun e => ∑ k ∈ Finset.range n, F e k).sum := by
  induction l with
  | nil => simp
  | cons a l ih => simp [Finset.sum_add_distrib, ih]

/-- Forward and adjoint of the same entries are adjoint. -/
theorem kernel_adjoint (es : List (Int × List (Int × K))) (nIn nOut : Nat) (x y : Nat → K)
    (hk : (es.map fun e => e.1.toNat).Nodup) (ho : ∀ e ∈ es, e.1.toNat < nOut)
    (hi : ∀ e ∈ es, ∀ t ∈ e.2, t.1.toNat < nIn) :
    ∑ k ∈ Finset.range nOut, kernelForward es x (fun _ => 0) k * y k =
      ∑ k ∈ Finset.range nIn, x k * kernelAdjoint es y (fun _ => 0) k := by
  simp only [kernelForward_zero es x hk, kernelAdjoint_apply, zero_add]
  have e1 : ∀ k, (es.map fun e => if e.1.toNat = k then entryVal x e else 0).sum * y k =
      (es.map fun e => if e.1.toNat = k then entryVal x e * y k else 0).sum := by
    intro k
    rw [mul_comm, ← sum_map_mul_left]
    congr 1
    apply List.map_congr_left
    intro e _
    split <;> ring
  have e2 : ∀ k, x k * (es.map fun e =>
      (e.2.map fun t => if t.1.toNat = k then t.2 * y e.1.toNat else 0).sum).sum =
      (es.map fun e => (e.2.map fun t => if t.1.toNat = k then x k * (t.2 * y e.1.toNat) else 0).sum).sum := by
    intro k
    rw [← sum_map_mul_left]
    congr 1
    apply List.map_congr_left
    intro e _
    rw [← sum_map_mul_left]
    congr 1
    apply List.map_congr_left
    intro t _
    split <;> ring
  simp only [e1, e2]
  rw [sum_list_comm, sum_list_comm]
  congr 1
  apply List.map_congr_left
  intro e he
  rw [Finset.sum_ite_eq, if_pos (Finset.mem_range.2 (ho e he)), sum_list_comm, entryVal, mul_comm,
    ← sum_map_mul_left]
  congr 1
  apply List.map_congr_left
  intro t ht
  rw [Finset.sum_ite_eq, if_pos (Finset.mem_range.2 (hi e he t ht))]
  ring

end

/-! ## The entries of the loops -/

section
variable {K : Type} [Field K] [LinearOrder K] [FloorRing K]

theorem outputTerms_length (p : InterpParams K) (ds : List InterpDim) (o : List Nat)
    (h : o.length = ds.length) : (outputTerms p ds o).length = ds.length := by
  induction ds generalizing o with
  | nil => simp [outputTerms]
  | cons d ds ih =>
    cases o with
    | nil => simp at h
    | cons i is => simp only [outputTerms, List.length_cons, ih is (by simpa using h)]

theorem outputTerms_getD (p : InterpParams K) (ds : List InterpDim) (o : List Nat)
    (h : o.length = ds.length) {j : Nat} (hj : j < ds.length) :
    (outputTerms p ds o).getD j [] = dimTerms p (ds.getD j default) (o.getD j 0) := by
  induction ds generalizing o j with
  | nil => simp at hj
  | cons d ds ih =>
    cases o with
    | nil => simp at h
    | cons i is =>
      cases j with
      | zero => rfl
      | succ j => simpa [outputTerms] using ih is (by simpa using h) (j := j) (by simpa using hj)

/-- The entry of row `c` and output `o`. -/
def entryOf (p : InterpParams K) (ds : List InterpDim) (c : Nat) (o : List Nat) : Int × List (Int × K) :=
  (hornerIdx c (ds.map InterpDim.lo) (o.map fun i : Nat => (i : Int)),
    (cornerTerms (outputTerms p ds o)).map fun t => (hornerIdx c (ds.map InterpDim.li) t.1, t.2))

theorem mem_kernelEntries {p : InterpParams K} {nbc : Nat} {ds : List InterpDim}
    {e : Int × List (Int × K)} : e ∈ kernelEntries p nbc ds ↔
      ∃ c o, c < nbc ∧ InBounds o (ds.map InterpDim.lo) ∧ entryOf p ds c o = e := by
  unfold kernelEntries
  simp only [List.mem_flatMap, List.mem_map, List.mem_range, mem_rangeIndex]
  constructor
  · rintro ⟨c, hc, o, ho, rfl⟩; exact ⟨c, o, hc, ho, rfl⟩
  · rintro ⟨c, o, hc, ho, rfl⟩; exact ⟨c, hc, o, ho, rfl⟩

theorem entryOf_pos (p : InterpParams K) (nbc : Nat) (ds : List InterpDim) (c : Nat) {o : List Nat}
    (ho : InBounds o (ds.map InterpDim.lo)) :
    (entryOf p ds c o).1 = (flatC (nbc :: ds.map InterpDim.lo) (c :: o) : Nat) :=
  hornerIdx_eq c ho.length_eq nbc

/-- The output positions, in order: all of them. -/
theorem kernelEntries_keys (p : InterpParams K) (nbc : Nat) (ds : List InterpDim) :
    (kernelEntries p nbc ds).map (fun e => e.1.toNat) = List.range (nbc :: ds.map InterpDim.lo).prod := by
  rw [← map_flatC_rangeIndex]
  unfold kernelEntries
  rw [rangeIndex, List.map_flatMap, List.map_flatMap]
  congr 1
  funext c
  rw [List.map_map, List.map_map]
  apply List.map_congr_left
  intro o ho
  have := entryOf_pos p nbc ds c (mem_rangeIndex.1 ho)
  simp only [Function.comp]
  change (entryOf p ds c o).1.toNat = _
  rw [this, Int.toNat_natCast]

theorem kernelEntries_nodup (p : InterpParams K) (nbc : Nat) (ds : List InterpDim) :
    ((kernelEntries p nbc ds).map fun e => e.1.toNat).Nodup := by
  rw [kernelEntries_keys]
  exact List.nodup_range

/-- The value computed for row `c` and output `o`. -/
theorem kernelForward_entry (p : InterpParams K) (nbc : Nat) (ds : List InterpDim) (x out : Nat → K)
    {c : Nat} {o : List Nat} (hc : c < nbc) (ho : InBounds o (ds.map InterpDim.lo)) :
    kernelForward (kernelEntries p nbc ds) x out (flatC (nbc :: ds.map InterpDim.lo) (c :: o)) =
      termSum (outputTerms p ds o) fun l => x (hornerIdx c (ds.map InterpDim.li) l).toNat := by
  have hnd := kernelEntries_nodup p nbc ds
  have he : entryOf p ds c o ∈ kernelEntries p nbc ds := mem_kernelEntries.2 ⟨c, o, hc, ho, rfl⟩
  have hpos : (entryOf p ds c o).1.toNat = flatC (nbc :: ds.map InterpDim.lo) (c :: o) := by
    rw [entryOf_pos p nbc ds c ho, Int.toNat_natCast]
  rw [kernelForward_apply _ _ _ hnd, if_pos (hpos ▸ List.mem_map_of_mem he), ← hpos]
  have key : ∀ es : List (Int × List (Int × K)), (es.map fun e => e.1.toNat).Nodup →
      ∀ e ∈ es, (es.map fun e' => if e'.1.toNat = e.1.toNat then entryVal x e' else 0).sum = entryVal x e := by
    intro es hes e he
    induction es with
    | nil => cases he
    | cons a es ih =>
      rw [List.map_cons, List.nodup_cons] at hes
      rw [List.map_cons, List.sum_cons]
      rcases List.mem_cons.1 he with rfl | he
      · rw [if_pos rfl, List.sum_eq_zero, add_zero]
        intro v hv
        obtain ⟨e', he', rfl⟩ := List.mem_map.1 hv
        rw [if_neg]
        intro hcc
        exact hes.1 (hcc ▸ List.mem_map_of_mem he')
      · rw [if_neg, zero_add, ih hes.2 he]
        intro hcc
        exact hes.1 (hcc ▸ List.mem_map_of_mem he)
  rw [key _ hnd _ he, entryVal, entryOf, ← cornerTerms_sum]
  simp only [List.map_map]
  rfl

/-- What `kernelDefined` says about the entries. -/
theorem kernelDefined_iff {p : InterpParams K} {nIn nOut nbc : Nat} {ds : List InterpDim} :
    kernelDefined p nIn nOut nbc ds = true ↔
      (p.mode = .linear → (ds.map InterpDim.lo).prod ≠ 0) ∧
      ∀ e ∈ kernelEntries p nbc ds, (∀ d ∈ ds, (kernelFac p d.gi d.go).isSome) ∧
        (0 ≤ e.1 ∧ e.1 < nOut) ∧ ∀ t ∈ e.2, 0 ≤ t.1 ∧ t.1 < nIn := by
  unfold kernelDefined
  simp only [Bool.and_eq_true, Bool.or_eq_true, bne_iff_ne, ne_eq, List.all_eq_true, decide_eq_true_eq]
  constructor
  · rintro ⟨h1, h2⟩
    refine ⟨fun hm => h1.resolve_left (fun hc => hc hm), fun e he => ?_⟩
    obtain ⟨⟨⟨a, b⟩, c⟩, d⟩ := h2 e he
    exact ⟨a, ⟨b, c⟩, d⟩
  · rintro ⟨h1, h2⟩
    refine ⟨?_, fun e he => ?_⟩
    · by_cases hm : p.mode = .linear
      · exact Or.inr (h1 hm)
      · exact Or.inl hm
    · obtain ⟨a, ⟨b, c⟩, d⟩ := h2 e he
      exact ⟨⟨⟨a, b⟩, c⟩, d⟩

theorem interpDims_lo {xs : List Int} {gx ys gy ishape oshape : List Nat} (h : ishape.length = oshape.length) :
    (interpDims xs gx ys gy ishape oshape).map InterpDim.lo = oshape.drop 2 := by
  unfold interpDims
  rw [List.map_map]
  apply List.ext_getElem
  · simp [h]
  · intro j h1 h2
    rw [List.length_drop] at h2
    simp [List.getD_eq_getElem?_getD, List.getElem?_eq_getElem (show j + 2 < oshape.length by omega), Nat.add_comm 2 j]

theorem interpDims_li {xs : List Int} {gx ys gy ishape oshape : List Nat} :
    (interpDims xs gx ys gy ishape oshape).map InterpDim.li = ishape.drop 2 := by
  unfold interpDims
  rw [List.map_map]
  apply List.ext_getElem
  · simp
  · intro j h1 h2
    rw [List.length_drop] at h2
    simp [List.getD_eq_getElem?_getD, List.getElem?_eq_getElem (show j + 2 < ishape.length by omega), Nat.add_comm 2 j]

end

end Verif
