import Verif.Slicing.Lemmas

/-! # Properties C01-C05: decomposition, overlaps, enumeration, filters -/

namespace Verif

/-! ## C01 -/

/-- C01, one dimension: blocks are contiguous from `0` to the global length. -/
theorem C01_contiguous (P n : Nat) (hP : 0 < P) :
    startIdx P 0 n = 0 ∧ (∀ i, stopIdx P i n = startIdx P (i + 1) n) ∧
      stopIdx P (P - 1) n = n := by
  refine ⟨startIdx_zero P n, fun i => (startIdx_succ P i n).symm, ?_⟩
  rw [← startIdx_succ, Nat.sub_add_cancel hP, startIdx_top hP]

/-- C01: every global cell lies in the box of exactly one worker, and boxes contain only global
cells, for every shape and partition shape of equal rank. -/
theorem C01_unique_owner (Ps ns : List Nat) (hlen : Ps.length = ns.length)
    (hpos : ∀ P ∈ Ps, 0 < P) (g : List Nat) :
    (InBounds g ns → ∃! idx, InBounds idx Ps ∧
        InBox (computeStartIndex Ps idx ns) (computeStopIndex Ps idx ns) g) ∧
    (∀ idx, InBounds idx Ps →
        InBox (computeStartIndex Ps idx ns) (computeStopIndex Ps idx ns) g → InBounds g ns) := by
  induction Ps generalizing ns g with
  | nil =>
    cases ns with
    | nil =>
      cases g with
      | nil =>
        refine ⟨fun _ => ⟨[], ⟨trivial, trivial⟩, ?_⟩, fun _ _ _ => trivial⟩
        rintro y ⟨hy, _⟩
        cases y with
        | nil => rfl
        | cons _ _ => exact hy.elim
      | cons _ _ =>
        refine ⟨fun h => h.elim, ?_⟩
        intro idx h1 h2
        cases idx with
        | nil => exact h2.elim
        | cons _ _ => exact h1.elim
    | cons _ _ => simp at hlen
  | cons P Ps ih =>
    cases ns with
    | nil => simp at hlen
    | cons n ns =>
      have hP : 0 < P := hpos P (by simp)
      have hlen' : Ps.length = ns.length := by simpa using hlen
      have hpos' : ∀ Q ∈ Ps, 0 < Q := fun Q hQ => hpos Q (by simp [hQ])
      constructor
      · intro hg
        cases g with
        | nil => exact hg.elim
        | cons g gs =>
          obtain ⟨i, hi, h1, h2⟩ := exists_block (fun i => startIdx P i n) P g
            (by simp [startIdx_zero]) (by simpa [startIdx_top hP] using hg.1)
          obtain ⟨is, ⟨his1, his2⟩, huniq⟩ := (ih ns hlen' hpos' gs).1 hg.2
          refine ⟨i :: is, ⟨⟨hi, his1⟩, ?_⟩, ?_⟩
          · rw [computeStartIndex_cons, computeStopIndex_cons]
            exact ⟨⟨h1, by rw [← startIdx_succ]; exact h2⟩, his2⟩
          · rintro y ⟨hy1, hy2⟩
            cases y with
            | nil => exact hy1.elim
            | cons j js =>
              rw [computeStartIndex_cons, computeStopIndex_cons] at hy2
              have h3 := hy2.1
              have hji : j = i := block_unique (fun i => startIdx P i n)
                (fun i => startIdx_le_succ P i n) h3.1 (by rw [startIdx_succ]; exact h3.2) h1 h2
              rw [hji, huniq js ⟨hy1.2, hy2.2⟩]
      · intro idx hidx hbox
        cases idx with
        | nil => exact hidx.elim
        | cons i is =>
          cases g with
          | nil => rw [computeStartIndex_cons, computeStopIndex_cons] at hbox; exact hbox.elim
          | cons g gs =>
            rw [computeStartIndex_cons, computeStopIndex_cons] at hbox
            refine ⟨?_, (ih ns hlen' hpos' gs).2 is hidx.2 hbox.2⟩
            have h1 := hbox.1.2
            have h2 : stopIdx P i n ≤ n := by
              rw [← startIdx_succ]; exact startIdx_le hP n hidx.1
            omega

/-- Non-trivial instance: a 7 x 5 tensor over a 3 x 2 partition. -/
example : ([3, 2] : List Nat).length = ([7, 5] : List Nat).length ∧ (∀ P ∈ [3, 2], 0 < P) ∧
    InBounds [6, 2] [7, 5] ∧
    InBox (computeStartIndex [3, 2] [2, 0] [7, 5]) (computeStopIndex [3, 2] [2, 0] [7, 5]) [6, 2] := by
  decide

/-! ## C02 -/

/-- C02: lengths differ by at most one and longer blocks come first. -/
theorem C02_balanced (P n i j : Nat) (hij : i ≤ j) :
    subsize P j n ≤ subsize P i n ∧ subsize P i n ≤ subsize P j n + 1 := by
  unfold subsize
  split <;> split <;> omega

/-- C02: the lengths over all workers sum to the global length. -/
theorem C02_sum (P n : Nat) (hP : 0 < P) : ((List.range P).map fun i => subsize P i n).sum = n := by
  have h : ∀ k, ((List.range k).map fun i => subsize P i n).sum = startIdx P k n := by
    intro k
    induction k with
    | zero => simp [startIdx_zero]
    | succ k ih => rw [List.range_succ, List.map_append, List.sum_append, ih, startIdx_succ]; simp [stopIdx]
  rw [h, startIdx_top hP]

/-- C02: a worker of the partition is empty exactly when all cells are used up by the workers
before it (so only with fewer cells than workers). -/
theorem C02_empty_iff (P n i : Nat) (hi : i < P) : subsize P i n = 0 ↔ n ≤ i := by
  unfold subsize
  have hP : 0 < P := by omega
  constructor
  · intro h
    have h1 : n / P = 0 := Nat.eq_zero_of_add_eq_zero_right h
    have h2 : n < P := by
      rcases (Nat.div_eq_zero_iff).1 h1 with h | h
      · omega
      · exact h
    rw [Nat.mod_eq_of_lt h2] at h
    split at h <;> omega
  · intro h
    have h2 : n < P := by omega
    rw [Nat.div_eq_of_lt h2, Nat.mod_eq_of_lt h2, if_neg (by omega)]

example : (List.range 4).map (fun i => subsize 4 i 10) = [3, 3, 2, 2] ∧ subsize 4 3 2 = 0 := by decide

/-! ## C03 -/

/-- C03: the overlap is `None` exactly when the boxes share no cell. -/
theorem C03_none_iff (xs xe ys ye : List Nat) (h1 : xs.length = xe.length)
    (h2 : xs.length = ys.length) (h3 : xs.length = ye.length) :
    intersectionSlice xs xe ys ye = none ↔ ¬ ∃ g, InBox xs xe g ∧ InBox ys ye g := by
  have hl : (List.zipWith max xs ys).length = (List.zipWith min xe ye).length := by simp; omega
  have hex := exists_inBox_iff hl
  have hin : (∃ g, InBox xs xe g ∧ InBox ys ye g) ↔
      ∃ g, InBox (List.zipWith max xs ys) (List.zipWith min xe ye) g := by
    constructor
    · rintro ⟨g, hg⟩
      exact ⟨g, (inBox_inter.1 hg).1⟩
    · rintro ⟨g, hg⟩
      have hlen := hg.length_eq.1
      simp only [List.length_zipWith] at hlen
      exact ⟨g, inBox_inter.2 ⟨hg, by omega, by omega, by omega, by omega⟩⟩
  rw [hin, hex]
  unfold intersectionSlice computeIntersection
  by_cases hz : (List.zipWith (· - ·) (List.zipWith min xe ye) (List.zipWith max xs ys)).prod = 0
  · simp [hz]
  · simp [hz]

/-- C03: otherwise the slice, relative to the first box, selects exactly the common cells. -/
theorem C03_slice_cells (xs xe ys ye : List Nat) (h1 : xs.length = xe.length)
    (h2 : xs.length = ys.length) (h3 : xs.length = ye.length) (sl : Slices)
    (hsl : intersectionSlice xs xe ys ye = some sl) (l : List Nat) :
    InSlices sl l ↔
      l.length = xs.length ∧ InBox xs xe (shiftBy xs l) ∧ InBox ys ye (shiftBy xs l) := by
  unfold intersectionSlice computeIntersection at hsl
  by_cases hz : (List.zipWith (· - ·) (List.zipWith min xe ye) (List.zipWith max xs ys)).prod = 0
  · simp [hz] at hsl
  · simp only [hz, if_false, Option.some.injEq] at hsl
    subst hsl
    rw [inSlices_rel (forall2_le_zipWith_max h2) (by simp; omega),
      zipWith_add_sub (by simp; omega) hz]
    have hsh : ∀ {xs l : List Nat}, l.length = xs.length → (shiftBy xs l).length = xs.length := by
      intro xs
      induction xs with
      | nil => intro l h; cases l <;> simp_all [shiftBy]
      | cons x xs ih =>
        intro l h
        cases l with
        | nil => simp at h
        | cons y ys => simp only [shiftBy, List.length_cons]; rw [ih (by simpa using h)]
    constructor
    · rintro ⟨hl, hb⟩
      have hs := hsh hl
      exact ⟨hl, inBox_inter.2 ⟨hb, by omega, by omega, by omega, by omega⟩⟩
    · rintro ⟨hl, hb⟩
      exact ⟨hl, (inBox_inter.1 hb).1⟩

/-- C03: both sides find an overlap together, with the same message shape, starting at the same
global cell. -/
theorem C03_symmetric (xs xe ys ye : List Nat) (h1 : xs.length = xe.length)
    (h2 : xs.length = ys.length) (h3 : xs.length = ye.length) :
    (intersectionSlice xs xe ys ye = none ↔ intersectionSlice ys ye xs xe = none) ∧
    ∀ slx sly, intersectionSlice xs xe ys ye = some slx → intersectionSlice ys ye xs xe = some sly →
      sliceShape slx = sliceShape sly ∧
      shiftBy xs (slx.map Prod.fst) = shiftBy ys (sly.map Prod.fst) := by
  have hmax : List.zipWith max ys xs = List.zipWith max xs ys :=
    List.zipWith_comm_of_comm (fun a b => Nat.max_comm a b)
  have hmin : List.zipWith min ye xe = List.zipWith min xe ye :=
    List.zipWith_comm_of_comm (fun a b => Nat.min_comm a b)
  by_cases hz : (List.zipWith (· - ·) (List.zipWith min xe ye) (List.zipWith max xs ys)).prod = 0
  · simp [intersectionSlice, computeIntersection, hmax, hmin, hz]
  · constructor
    · simp [intersectionSlice, computeIntersection, hmax, hmin, hz]
    · intro slx sly hx hy
      simp only [intersectionSlice, computeIntersection, hmax, hmin, hz, if_false,
        Option.some.injEq] at hx hy
      subst hx hy
      constructor
      · rw [sliceShape_assemble (by simp; omega), sliceShape_assemble (by simp; omega)]
      · rw [map_fst_assemble (by simp; omega), map_fst_assemble (by simp; omega),
          shiftBy_sub (forall2_le_zipWith_max h2), shiftBy_sub]
        have := forall2_le_zipWith_max h2.symm
        rwa [hmax] at this

/-- C03 for two workers of two balanced decompositions of the same tensor
(`compute_partition_intersection`). -/
theorem C03_partition_intersection (Pr ir Ps is ns : List Nat) (h1 : Pr.length = ns.length)
    (h2 : ir.length = ns.length) (h3 : Ps.length = ns.length) (h4 : is.length = ns.length) :
    (computePartitionIntersection Pr ir Ps is ns = none ↔
      ¬ ∃ g, InBox (computeStartIndex Pr ir ns) (computeStopIndex Pr ir ns) g ∧
        InBox (computeStartIndex Ps is ns) (computeStopIndex Ps is ns) g) ∧
    ∀ sl, computePartitionIntersection Pr ir Ps is ns = some sl → ∀ l,
      (InSlices sl l ↔ l.length = ns.length ∧
        InBox (computeStartIndex Pr ir ns) (computeStopIndex Pr ir ns)
          (shiftBy (computeStartIndex Pr ir ns) l) ∧
        InBox (computeStartIndex Ps is ns) (computeStopIndex Ps is ns)
          (shiftBy (computeStartIndex Pr ir ns) l)) := by
  have l1 : (computeStartIndex Pr ir ns).length = ns.length := by
    rw [computeStartIndex, map3_length _ _ _ _ (by omega) h2, h1]
  have l2 : (computeStartIndex Ps is ns).length = ns.length := by
    rw [computeStartIndex, map3_length _ _ _ _ (by omega) h4, h3]
  have l3 : (computeStopIndex Pr ir ns).length = ns.length := by
    rw [computeStopIndex, List.length_zipWith, l1, computeSubshape,
      map3_length _ _ _ _ (by omega) h2, h1, Nat.min_self]
  have l4 : (computeStopIndex Ps is ns).length = ns.length := by
    rw [computeStopIndex, List.length_zipWith, l2, computeSubshape,
      map3_length _ _ _ _ (by omega) h4, h3, Nat.min_self]
  refine ⟨C03_none_iff _ _ _ _ (by omega) (by omega) (by omega), fun sl hsl l => ?_⟩
  rw [C03_slice_cells _ _ _ _ (by omega) (by omega) (by omega) sl hsl, l1]

example : intersectionSlice [0, 2] [4, 5] [3, 0] [6, 4] = some [(3, 4), (0, 2)] ∧
    intersectionSlice [3, 0] [6, 4] [0, 2] [4, 5] = some [(0, 1), (2, 4)] ∧
    intersectionSlice [0] [4] [4] [6] = none := by decide

/-- C03: the volume of a slice is the number of its cells. -/
theorem C03_volume (sl : Slices) :
    ∃ cells : List (List Nat), cells.Nodup ∧ cells.length = sliceVolume sl ∧
      ∀ i, i ∈ cells ↔ List.Forall₂ (fun (p : Nat × Nat) x => p.1 ≤ x ∧ x < p.2) sl i := by
  induction sl with
  | nil => exact ⟨[[]], by simp, rfl, fun i => by cases i <;> simp⟩
  | cons p sl ih =>
    obtain ⟨cs, h1, h2, h3⟩ := ih
    refine ⟨(List.range' p.1 (p.2 - p.1)).flatMap fun x => cs.map (x :: ·), ?_, ?_, fun i => ?_⟩
    · rw [List.nodup_flatMap]
      refine ⟨fun x _ => (List.nodup_map_iff fun a b e => (List.cons.inj e).2).2 h1, ?_⟩
      refine (List.nodup_range' ..).imp fun {a b} hab => ?_
      intro i ha hb
      obtain ⟨u, -, rfl⟩ := List.mem_map.1 ha
      obtain ⟨v, -, e⟩ := List.mem_map.1 hb
      exact hab (List.cons.inj e).1.symm
    · rw [List.length_flatMap]
      simp only [List.length_map, h2, List.map_const', List.sum_replicate, List.length_range']
      rfl
    · simp only [List.mem_flatMap, List.mem_map, List.mem_range'_1]
      constructor
      · rintro ⟨x, hx, c, hc, rfl⟩
        exact .cons ⟨hx.1, by omega⟩ ((h3 c).1 hc)
      · intro h
        cases h with
        | @cons _ x _ c hx hc => exact ⟨x, ⟨hx.1, by omega⟩, c, (h3 c).2 hc, rfl⟩

/-- Rows 1 to 3 and columns 2 to 3. -/
example : sliceVolume [(1, 4), (2, 4)] = 6 := rfl

/-! ## C04 -/

/-- C04: the enumeration contains exactly the in-bounds indices, each once, in lexicographic
(row-major) order, and there are as many as the product of the extents. -/
theorem C04_enumeration (shape : List Nat) :
    (∀ idx, idx ∈ rangeIndex shape ↔ InBounds idx shape) ∧ (rangeIndex shape).Nodup ∧
      (rangeIndex shape).Pairwise (List.Lex (· < ·)) ∧
      (rangeIndex shape).length = shape.prod :=
  ⟨fun _ => mem_rangeIndex, nodup_rangeIndex shape, pairwise_lex_rangeIndex shape,
    length_rangeIndex shape⟩

/-- C04: the position of an index in the enumeration is its row-major flat index, and the worker
layout array stores exactly that rank. -/
theorem C04_rank (shape idx : List Nat) (h : InBounds idx shape) :
    (rangeIndex shape).idxOf idx = cartesianIndexC shape idx ∧
      workerLayout shape idx = cartesianIndexC shape idx := by
  have h1 : (rangeIndex shape).idxOf idx = cartesianIndexC shape idx := by
    rw [idxOf_rangeIndex h, cartesianIndexC_eq_flatC h.length_eq]
  refine ⟨h1, ?_⟩
  have hmem := mem_rangeIndex.2 h
  have hlt := List.idxOf_lt_length_of_mem hmem
  unfold workerLayout
  have hsnd : (List.zip (List.range (rangeIndex shape).length) (rangeIndex shape)).map Prod.snd =
      rangeIndex shape := by rw [List.map_snd_zip]; simp
  refine (foldl_assign _ _ idx ?_).1 _ ?_
  · rw [hsnd]; exact nodup_rangeIndex shape
  · rw [← h1, List.mem_iff_getElem]
    refine ⟨(rangeIndex shape).idxOf idx, by simpa using hlt, ?_⟩
    rw [List.getElem_zip, List.getElem_range, List.getElem_idxOf hlt]

/-- C04: row-major flat indexing is a bijection between in-bounds indices and `0..size-1`. -/
theorem C04_bijection_c (shape : List Nat) :
    (∀ idx, InBounds idx shape → cartesianIndexC shape idx < shape.prod) ∧
    (∀ a b, InBounds a shape → InBounds b shape →
      cartesianIndexC shape a = cartesianIndexC shape b → a = b) ∧
    (∀ r, r < shape.prod → ∃ idx, InBounds idx shape ∧ cartesianIndexC shape idx = r) := by
  refine ⟨fun idx h => ?_, fun a b ha hb h => ?_, fun r hr => ?_⟩
  · rw [cartesianIndexC_eq_flatC h.length_eq]; exact flatC_lt h
  · rw [cartesianIndexC_eq_flatC ha.length_eq, cartesianIndexC_eq_flatC hb.length_eq] at h
    exact flatC_inj ha hb h
  · rw [← length_rangeIndex] at hr
    have hb : InBounds (rangeIndex shape)[r] shape := mem_rangeIndex.1 (List.getElem_mem hr)
    exact ⟨_, hb, by rw [cartesianIndexC_eq_flatC hb.length_eq, getElem_rangeIndex_flatC]⟩

/-- C04: so is column-major flat indexing. -/
theorem C04_bijection_f (shape : List Nat) :
    (∀ idx, InBounds idx shape → cartesianIndexF shape idx < shape.prod) ∧
    (∀ a b, InBounds a shape → InBounds b shape →
      cartesianIndexF shape a = cartesianIndexF shape b → a = b) ∧
    (∀ r, r < shape.prod → ∃ idx, InBounds idx shape ∧ cartesianIndexF shape idx = r) := by
  have h := C04_bijection_c shape.reverse
  have hp : shape.reverse.prod = shape.prod := List.prod_reverse shape
  rw [hp] at h
  refine ⟨fun idx hi => h.1 _ hi.reverse, fun a b ha hb hab => ?_, fun r hr => ?_⟩
  · exact List.reverse_injective (h.2.1 _ _ ha.reverse hb.reverse hab)
  · obtain ⟨idx, h1, h2⟩ := h.2.2 r hr
    refine ⟨idx.reverse, ?_, ?_⟩
    · have := h1.reverse; rwa [List.reverse_reverse] at this
    · rw [cartesianIndexF_eq, List.reverse_reverse]; exact h2

/-- In column-major order the first coordinate varies fastest. -/
theorem C04_f_first_fastest (n : Nat) (ns : List Nat) (i : Nat) (is : List Nat)
    (h : is.length = ns.length) :
    cartesianIndexF (n :: ns) (i :: is) = cartesianIndexF ns is * n + i := by
  simp only [cartesianIndexF, List.reverse_cons]
  rw [List.zip_append (by simp [h]), List.foldl_append]
  rfl

example : InBounds [1, 2] [2, 3] ∧ cartesianIndexC [2, 3] [1, 2] = 5 ∧
    cartesianIndexF [2, 3] [1, 1] = 3 ∧
    rangeIndex [2, 3] = [[0, 0], [0, 1], [0, 2], [1, 0], [1, 1], [1, 2]] := by decide

/-! ## C05 -/

/-- C05: the filtered enumeration contains exactly the indices agreeing with `index` on the chosen
dimensions (the ones in `dims`, or the others when inverted), in enumeration order. -/
theorem C05_filter (shape index : List Nat) (dims : List Int) (invert : Bool)
    (hix : index.length = shape.length) :
    (∀ idx, idx ∈ filteredRangeIndex shape (assembleIndexFilter index dims invert) ↔
      InBounds idx shape ∧
        ∀ k, k < shape.length → (((k : Int) ∈ dims) ↔ invert = false) → idx[k]? = index[k]?) ∧
    (filteredRangeIndex shape (assembleIndexFilter index dims invert)).Sublist (rangeIndex shape) := by
  refine ⟨fun idx => ?_, List.filter_sublist⟩
  unfold filteredRangeIndex
  rw [List.mem_filter, mem_rangeIndex]
  refine and_congr_right fun hb => ?_
  have hl := hb.length_eq
  have hflen : (assembleIndexFilter index dims invert).length = index.length := by
    simp [assembleIndexFilter]
  rw [matchesFilter_iff (by omega)]
  have hval : ∀ k (hk : k < index.length),
      (assembleIndexFilter index dims invert)[k]'(by omega) =
        if invert then (if (k : Int) ∈ dims then none else some index[k])
        else (if (k : Int) ∈ dims then some index[k] else none) := by
    intro k hk
    simp only [assembleIndexFilter, List.getElem_map, List.getElem_zip, List.getElem_range]
  constructor
  · intro H k hk hd
    have hk1 : k < index.length := by omega
    have hk2 : k < idx.length := by omega
    have := H k (by omega) hk2 (index[k])
    rw [hval k hk1] at this
    rw [List.getElem?_eq_getElem hk2, List.getElem?_eq_getElem hk1, this]
    cases invert with
    | false => simp only [Bool.false_eq_true, if_false]; rw [if_pos (hd.2 rfl)]
    | true =>
      have hn : ¬ (k : Int) ∈ dims := fun h => by simpa using hd.1 h
      simp [hn]
  · intro H k hk hk' v hv
    have hk1 : k < index.length := by omega
    rw [hval k hk1] at hv
    have hd : (((k : Int) ∈ dims) ↔ invert = false) ∧ index[k] = v := by
      cases invert with
      | false =>
        by_cases h : (k : Int) ∈ dims
        · simp [h] at hv; simp [h, hv]
        · simp [h] at hv
      | true =>
        by_cases h : (k : Int) ∈ dims
        · simp [h] at hv
        · simp [h] at hv; simp [h, hv]
    have := H k (by omega) hd.1
    rw [List.getElem?_eq_getElem hk', List.getElem?_eq_getElem hk1] at this
    rw [Option.some.inj this, hd.2]

example : filteredRangeIndex [2, 3] (assembleIndexFilter [1, 2] [0] false) =
      [[1, 0], [1, 1], [1, 2]] ∧
    filteredRangeIndex [2, 3] (assembleIndexFilter [1, 2] [0] true) = [[0, 2], [1, 2]] := by decide

end Verif
