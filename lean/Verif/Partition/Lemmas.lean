import Verif.Partition.Model
import Verif.Slicing.Lemmas
import Mathlib.Data.List.Basic
import Mathlib.Data.List.Nodup

/-! # Helper lemmas on partitions -/

namespace Verif

theorem rankOf_eq_some {ms : List Nat} {w r : Nat} (hnd : ms.Nodup) :
    rankOf ms w = some r ↔ ms[r]? = some w := by
  unfold rankOf
  constructor
  · intro h
    split at h
    · rename_i hw
      cases h
      rw [List.getElem?_eq_getElem (List.idxOf_lt_length_of_mem hw), List.getElem_idxOf]
    · cases h
  · intro h
    obtain ⟨hr, hw⟩ := List.getElem?_eq_some_iff.1 h
    have hmem : w ∈ ms := hw ▸ List.getElem_mem hr
    rw [if_pos hmem, ← hw, hnd.idxOf_getElem]

theorem rankOf_isSome {ms : List Nat} {w : Nat} : (rankOf ms w).isSome ↔ w ∈ ms := by
  unfold rankOf
  split <;> simp_all

theorem length_getCoords (shape : List Nat) (r : Nat) : (getCoords shape r).length = shape.length := by
  induction shape generalizing r with
  | nil => rfl
  | cons n ns ih => simp [getCoords, ih]

theorem getCoords_spec {shape : List Nat} {r : Nat} (h : r < shape.prod) :
    InBounds (getCoords shape r) shape ∧ flatC shape (getCoords shape r) = r := by
  induction shape generalizing r with
  | nil =>
    simp only [List.prod_nil] at h
    exact ⟨trivial, by simp only [flatC]; omega⟩
  | cons n ns ih =>
    rw [List.prod_cons] at h
    have hpos : 0 < ns.prod := Nat.pos_of_ne_zero fun h0 => by simp [h0] at h
    obtain ⟨h1, h2⟩ := ih (Nat.mod_lt r hpos)
    refine ⟨⟨?_, h1⟩, ?_⟩
    · exact Nat.div_lt_of_lt_mul (by rwa [Nat.mul_comm])
    · simp only [getCoords, flatC, h2]
      rw [Nat.mul_comm]; exact Nat.div_add_mod r ns.prod

theorem getCoords_flatC {shape idx : List Nat} (h : InBounds idx shape) :
    getCoords shape (flatC shape idx) = idx := by
  have := getCoords_spec (flatC_lt h)
  exact flatC_inj this.1 h this.2

theorem getCartRank_cast {shape idx : List Nat} (h : InBounds idx shape) :
    getCartRank shape (idx.map fun (n : Nat) => (n : Int)) = some (flatC shape idx) := by
  induction shape generalizing idx with
  | nil =>
    cases idx with
    | nil => rfl
    | cons _ _ => exact h.elim
  | cons n ns ih =>
    cases idx with
    | nil => exact h.elim
    | cons i is =>
      have h1 : i < n := h.1
      simp only [List.map_cons, getCartRank, ih h.2, flatC]
      rw [if_pos (by omega)]
      simp

theorem inBounds_set {idx shape : List Nat} (h : InBounds idx shape) {i v : Nat}
    (hv : v < shape.getD i 0) : InBounds (idx.set i v) shape := by
  induction shape generalizing idx i with
  | nil => simp at hv
  | cons n ns ih =>
    cases idx with
    | nil => exact h.elim
    | cons a as =>
      cases i with
      | zero => exact ⟨by simpa using hv, h.2⟩
      | succ i => exact ⟨h.1, ih h.2 (by simpa using hv)⟩

theorem inBounds_getD {idx shape : List Nat} (h : InBounds idx shape) {i : Nat}
    (hi : i < shape.length) : idx.getD i 0 < shape.getD i 0 := by
  induction shape generalizing idx i with
  | nil => simp at hi
  | cons n ns ih =>
    cases idx with
    | nil => exact h.elim
    | cons a as =>
      cases i with
      | zero => simpa using h.1
      | succ i => simpa using ih h.2 (by simpa using hi)

theorem map_range_update {f : Int} (index : List Nat) (i : Nat) (v : Nat) (hv : (v : Int) = f)
    (hi : i < index.length) :
    ((List.range index.length).map fun j => if j = i then f else ((index.getD j 0 : Nat) : Int)) =
      (index.set i v).map fun (n : Nat) => (n : Int) := by
  apply List.ext_getElem
  · simp
  · intro j h1 h2
    simp only [List.getElem_map, List.getElem_range, List.getElem_set]
    have hj : j < index.length := by simpa using h1
    by_cases hji : j = i
    · subst hji; simp [← hv]
    · rw [if_neg hji, if_neg (Ne.symm hji)]
      simp [List.getD_eq_getElem?_getD, List.getElem?_eq_getElem hj]

theorem neighborPair_eq {shape index : List Nat} (h : InBounds index shape) {i : Nat}
    (hi : i < shape.length) :
    neighborPair shape index i = some
      (if index.getD i 0 = 0 then none
        else some (flatC shape (index.set i (index.getD i 0 - 1))),
       if index.getD i 0 + 1 = shape.getD i 0 then none
        else some (flatC shape (index.set i (index.getD i 0 + 1)))) := by
  have hlen := h.length_eq
  have hi' : i < index.length := by omega
  have hlt := inBounds_getD h hi
  have getl : ∀ f : Int, ((List.range index.length).map fun j =>
      if j = i then f else ((index.getD j 0 : Nat) : Int)).getD i 0 = f := by
    intro f
    rw [List.getD_eq_getElem?_getD, List.getElem?_map, List.getElem?_range hi']
    simp
  have e1 : ((List.range index.length).map fun j =>
      if j = i then (index.getD j 0 : Int) - 1 else ((index.getD j 0 : Nat) : Int)) =
      ((List.range index.length).map fun j =>
      if j = i then (index.getD i 0 : Int) - 1 else ((index.getD j 0 : Nat) : Int)) := by
    apply List.map_congr_left; intro j _; split <;> simp_all
  have e2 : ((List.range index.length).map fun j =>
      if j = i then (index.getD j 0 : Int) + 1 else ((index.getD j 0 : Nat) : Int)) =
      ((List.range index.length).map fun j =>
      if j = i then (index.getD i 0 : Int) + 1 else ((index.getD j 0 : Nat) : Int)) := by
    apply List.map_congr_left; intro j _; split <;> simp_all
  unfold neighborPair
  simp only [e1, e2, getl]
  have hL : (if (-1 : Int) = (index.getD i 0 : Int) - 1 then some none
      else (getCartRank shape ((List.range index.length).map fun j =>
        if j = i then (index.getD i 0 : Int) - 1 else ((index.getD j 0 : Nat) : Int))).map some) =
      some (if index.getD i 0 = 0 then none
        else some (flatC shape (index.set i (index.getD i 0 - 1)))) := by
    by_cases h0 : index.getD i 0 = 0
    · rw [if_pos (by omega), if_pos h0]
    · rw [if_neg (by omega), if_neg h0,
        map_range_update index i (index.getD i 0 - 1) (by omega) hi',
        getCartRank_cast (inBounds_set h (by omega))]
      rfl
  have hR : (if (shape.getD i 0 : Int) = (index.getD i 0 : Int) + 1 then some none
      else (getCartRank shape ((List.range index.length).map fun j =>
        if j = i then (index.getD i 0 : Int) + 1 else ((index.getD j 0 : Nat) : Int))).map some) =
      some (if index.getD i 0 + 1 = shape.getD i 0 then none
        else some (flatC shape (index.set i (index.getD i 0 + 1)))) := by
    by_cases h0 : index.getD i 0 + 1 = shape.getD i 0
    · rw [if_pos (by omega), if_pos h0]
    · rw [if_neg (by omega), if_neg h0,
        map_range_update index i (index.getD i 0 + 1) (by omega) hi',
        getCartRank_cast (inBounds_set h (by omega))]
      rfl
  rw [hL, hR]
  rfl

theorem mapM_eq_some {α β : Type} (f : α → Option β) (g : α → β) (l : List α)
    (h : ∀ a ∈ l, f a = some (g a)) : l.mapM f = some (l.map g) := by
  induction l with
  | nil => rfl
  | cons a l ih =>
    rw [List.mapM_cons, h a (by simp), ih fun b hb => h b (by simp [hb])]
    rfl

theorem getD_set_eq {l : List Nat} {i v : Nat} (h : i < l.length) : (l.set i v).getD i 0 = v := by
  simp [List.getD_eq_getElem?_getD, h]

theorem getD_set_ne {l : List Nat} {i j v : Nat} (h : i ≠ j) :
    (l.set i v).getD j 0 = l.getD j 0 := by
  simp [List.getD_eq_getElem?_getD, List.getElem?_set_ne h]

theorem set_getD_self (l : List Nat) (i : Nat) : l.set i (l.getD i 0) = l := by
  apply List.ext_getElem
  · simp
  · intro j h1 h2
    rw [List.getElem_set]
    split
    · rename_i h; subst h
      simp [List.getD_eq_getElem?_getD, List.getElem?_eq_getElem h2]
    · rfl

/-- Masks split a list. -/
theorem keepDims_ext {α : Type} {keep : List Bool} {a b : List α} (ha : a.length = keep.length)
    (hb : b.length = keep.length) (h1 : keepDims keep a = keepDims keep b)
    (h2 : keepDims (keep.map (!·)) a = keepDims (keep.map (!·)) b) : a = b := by
  induction keep generalizing a b with
  | nil =>
    cases a with
    | nil => cases b with
      | nil => rfl
      | cons _ _ => simp at hb
    | cons _ _ => simp at ha
  | cons k ks ih =>
    cases a with
    | nil => simp at ha
    | cons x xs =>
      cases b with
      | nil => simp at hb
      | cons y ys =>
        cases k with
        | true =>
          simp only [keepDims, if_true, List.map_cons, Bool.not_true, Bool.false_eq_true,
            if_false, List.cons.injEq] at h1 h2
          rw [h1.1, ih (by simpa using ha) (by simpa using hb) h1.2 h2]
        | false =>
          simp only [keepDims, if_true, List.map_cons, Bool.not_false, Bool.false_eq_true,
            if_false, List.cons.injEq] at h1 h2
          rw [h2.1, ih (by simpa using ha) (by simpa using hb) h1 h2.2]

end Verif

namespace Verif

theorem idxOf_map_of_inj {α β : Type} [BEq α] [LawfulBEq α] [BEq β] [LawfulBEq β]
    (f : α → β) {l : List α}
    {a : α} (ha : a ∈ l) (hf : ∀ x ∈ l, f x = f a → x = a) : (l.map f).idxOf (f a) = l.idxOf a := by
  induction l with
  | nil => simp at ha
  | cons x xs ih =>
    by_cases hx : x = a
    · subst hx; simp
    · have hfx : f x ≠ f a := fun h => hx (hf x (by simp) h)
      rw [List.map_cons, List.idxOf_cons_ne _ hfx, List.idxOf_cons_ne _ hx, ih]
      · rcases List.mem_cons.1 ha with h | h
        · exact absurd h.symm hx
        · exact h
      · exact fun y hy => hf y (by simp [hy])

theorem getElem_rangeIndex_eq_getCoords {shape : List Nat} {r : Nat} (hr : r < shape.prod) :
    (rangeIndex shape)[r]? = some (getCoords shape r) := by
  have hr' : r < (rangeIndex shape).length := by rw [length_rangeIndex]; exact hr
  rw [List.getElem?_eq_getElem hr']
  congr 1
  have h1 := getElem_rangeIndex_flatC hr'
  have h2 : InBounds (rangeIndex shape)[r] shape := mem_rangeIndex.1 (List.getElem_mem hr')
  rw [← getCoords_flatC h2, h1]

theorem map_coords_members {ms shape : List Nat} (hnd : ms.Nodup) (hs : ms.length = shape.prod) :
    (ms.map fun v => getCoords shape (ms.idxOf v)) = rangeIndex shape := by
  apply List.ext_getElem
  · simp [length_rangeIndex, hs]
  · intro r h1 h2
    simp only [List.getElem_map]
    have hr : r < ms.length := by simpa using h1
    rw [hnd.idxOf_getElem]
    have := getElem_rangeIndex_eq_getCoords (shape := shape) (r := r) (by omega)
    rw [List.getElem?_eq_getElem h2] at this
    exact (Option.some.inj this).symm

theorem filter_eq_single {n c : Nat} (hc : c < n) (f : Nat → List (List Nat)) :
    ((List.range n).flatMap fun i => if i = c then f i else []) = f c := by
  induction n with
  | zero => omega
  | succ n ih =>
    rw [List.range_succ, List.flatMap_append]
    by_cases h : c = n
    · subst h
      have : ((List.range c).flatMap fun i => if i = c then f i else []) = [] := by
        rw [List.flatMap_eq_nil_iff]
        intro i hi
        rw [if_neg]
        simp only [List.mem_range] at hi
        omega
      rw [this]
      simp
    · rw [ih (by omega)]
      simp [Ne.symm h]

theorem filter_rangeIndex_kept {shape c : List Nat} {keep : List Bool}
    (hk : keep.length = shape.length) (hc : InBounds c shape) :
    ((rangeIndex shape).filter fun idx =>
        keepDims (keep.map (!·)) idx == keepDims (keep.map (!·)) c).map (keepDims keep) =
      rangeIndex (keepDims keep shape) := by
  induction shape generalizing c keep with
  | nil =>
    cases c with
    | nil => cases keep <;> simp_all [rangeIndex, keepDims]
    | cons _ _ => exact hc.elim
  | cons n ns ih =>
    cases c with
    | nil => exact hc.elim
    | cons c cs =>
      cases keep with
      | nil => simp at hk
      | cons k ks =>
        have ih' := ih (c := cs) (keep := ks) (by simpa using hk) hc.2
        rw [rangeIndex, List.filter_flatMap, List.map_flatMap]
        cases k with
        | true =>
          simp only [keepDims, List.map_cons, Bool.not_true, Bool.false_eq_true, if_false, if_true,
            rangeIndex]
          congr 1
          funext i
          rw [← ih', List.filter_map, List.map_map, List.map_map]
          rfl
        | false =>
          have hstep : ∀ i, ((List.map (fun x => i :: x) (rangeIndex ns)).filter fun idx =>
              keepDims (((false :: ks).map (!·))) idx ==
                keepDims (((false :: ks).map (!·))) (c :: cs)).map (keepDims (false :: ks)) =
              if i = c then rangeIndex (keepDims ks ns) else [] := by
            intro i
            by_cases hi : i = c
            · subst hi
              rw [if_pos rfl, ← ih', List.filter_map, List.map_map]
              have hf : (fun idx => keepDims ((false :: ks).map (!·)) (i :: idx) ==
                  keepDims ((false :: ks).map (!·)) (i :: cs)) =
                  (fun idx => keepDims (ks.map (!·)) idx == keepDims (ks.map (!·)) cs) := by
                funext idx
                simp [keepDims]
              simp only [Function.comp_def, hf]
              rfl
            · rw [if_neg hi]
              simp only [List.map_eq_nil_iff, List.filter_eq_nil_iff]
              intro idx hidx
              simp only [List.mem_map] at hidx
              obtain ⟨x, _, rfl⟩ := hidx
              simp [keepDims, hi]
          simp only [hstep]
          rw [filter_eq_single hc.1 fun _ => rangeIndex (keepDims ks ns)]
          simp [keepDims]

/-- Agreement on a mask is agreement on each selected coordinate. -/
theorem keepDims_eq_iff {keep : List Bool} {a b : List Nat} (ha : a.length = keep.length)
    (hb : b.length = keep.length) :
    keepDims keep a = keepDims keep b ↔
      ∀ d, keep.getD d false = true → a.getD d 0 = b.getD d 0 := by
  induction keep generalizing a b with
  | nil =>
    cases a with
    | nil => cases b with
      | nil => simp
      | cons _ _ => simp at hb
    | cons _ _ => simp at ha
  | cons k ks ih =>
    cases a with
    | nil => simp at ha
    | cons x xs =>
      cases b with
      | nil => simp at hb
      | cons y ys =>
        have ih' := ih (a := xs) (b := ys) (by simpa using ha) (by simpa using hb)
        constructor
        · intro h d hd
          cases k with
          | true =>
            simp only [keepDims, if_true, List.cons.injEq] at h
            cases d with
            | zero => simpa using h.1
            | succ d => simpa using ih'.1 h.2 d (by simpa using hd)
          | false =>
            simp only [keepDims, Bool.false_eq_true, if_false] at h
            cases d with
            | zero => simp at hd
            | succ d => simpa using ih'.1 h d (by simpa using hd)
        · intro h
          have h2 := ih'.2 fun d hd => by simpa using h (d + 1) (by simpa using hd)
          cases k with
          | true =>
            simp only [keepDims, if_true, h2, List.cons.injEq, and_true]
            simpa using h 0 (by simp)
          | false => simpa [keepDims] using h2

theorem getD_map_not (keep : List Bool) (d : Nat) (hd : d < keep.length) :
    (keep.map (!·)).getD d false = true ↔ keep.getD d false = false := by
  simp [List.getD_eq_getElem?_getD, List.getElem?_eq_getElem hd]

theorem mem_keepDims {keep : List Bool} {l : List Nat} {x : Nat} (h : x ∈ keepDims keep l) :
    x ∈ l := by
  induction keep generalizing l with
  | nil => simp [keepDims] at h
  | cons k ks ih =>
    cases l with
    | nil => simp [keepDims] at h
    | cons y ys =>
      cases k with
      | true =>
        simp only [keepDims, if_true, List.mem_cons] at h
        rcases h with h | h
        · simp [h]
        · exact List.mem_cons_of_mem _ (ih h)
      | false =>
        simp only [keepDims, Bool.false_eq_true, if_false] at h
        exact List.mem_cons_of_mem _ (ih h)

theorem coords_inBounds {P : Cart} (h : P.WF) {v : Nat} (hv : v ∈ P.members) :
    InBounds (getCoords P.shape (P.members.idxOf v)) P.shape :=
  (getCoords_spec (h.size ▸ List.idxOf_lt_length_of_mem hv)).1

theorem coords_inj {P : Cart} (h : P.WF) {v w : Nat} (hv : v ∈ P.members) (hw : w ∈ P.members)
    (he : getCoords P.shape (P.members.idxOf v) = getCoords P.shape (P.members.idxOf w)) : v = w := by
  have h1 := (getCoords_spec (h.size ▸ List.idxOf_lt_length_of_mem hv)).2
  have h2 := (getCoords_spec (h.size ▸ List.idxOf_lt_length_of_mem hw)).2
  rw [he, h2] at h1
  exact (List.idxOf_inj hv).1 h1.symm

/-- The kept coordinates of the members of a sub-topology, in rank order. -/
theorem map_kept_cartSub {P : Cart} (h : P.WF) {keep : List Bool}
    (hk : keep.length = P.shape.length) {w : Nat} (hw : w ∈ P.members) :
    (cartSub P keep w).members.map
        (fun v => keepDims keep (getCoords P.shape (P.members.idxOf v))) =
      rangeIndex (keepDims keep P.shape) := by
  rw [← filter_rangeIndex_kept hk (coords_inBounds h hw), ← map_coords_members h.nodup h.size,
    List.filter_map, List.map_map]
  rfl

end Verif
