import Verif.Decomp.Model
import Verif.Partition.Props
import Verif.Layout

/-! # Properties of tensor decompositions: C06, C07, C08 -/

namespace Verif

theorem stopIndices_apply (D : Nat) (t : Table) (idx : List Nat) (c : Nat) :
    stopIndices D t idx c =
      if c < D then ((List.range (idx.getD c 0 + 1)).map fun k => t (idx.set c k) c).sum
      else t idx c := by
  unfold stopIndices
  induction D generalizing idx with
  | zero => simp
  | succ D ih =>
    rw [List.range_succ, List.foldl_append]
    simp only [List.foldl_cons, List.foldl_nil, cumsumAxis]
    by_cases hc : c = D
    · subst hc
      rw [if_pos rfl, if_pos (by omega)]
      congr 1
      apply List.map_congr_left
      intro k _
      rw [ih, if_neg (by omega)]
    · rw [if_neg hc, ih]
      by_cases h : c < D
      · rw [if_pos h, if_pos (by omega)]
      · rw [if_neg h, if_neg (by omega)]

theorem shift_apply (D : Nat) (t : Table) (idx : List Nat) (c : Nat) :
    (List.range D).foldl shiftAxis t idx c =
      if c < D then (if idx.getD c 0 = 0 then 0 else t (idx.set c (idx.getD c 0 - 1)) c)
      else t idx c := by
  induction D generalizing idx with
  | zero => simp
  | succ D ih =>
    rw [List.range_succ, List.foldl_append]
    simp only [List.foldl_cons, List.foldl_nil, shiftAxis]
    by_cases hc : c = D
    · subst hc
      have h1 : c < c + 1 := by omega
      have h2 : ¬ c < c := by omega
      simp only [ih, h1, h2, if_true, if_false]
    · rw [if_neg hc, ih]
      by_cases h : c < D
      · have h1 : c < D + 1 := by omega
        simp only [h, h1, if_true]
      · have h1 : ¬ c < D + 1 := by omega
        simp only [h, h1, if_false]

/-- A table of shapes describes a layout: the length of a worker in a dimension depends only on its
coordinate in that dimension and is the block length listed there. -/
def Table.Describes (t : Table) (L : Layout) : Prop :=
  ∀ idx, InBounds idx L.pshape → ∀ d, d < L.length →
    t idx d = (L.getD d []).getD (idx.getD d 0) 0

theorem Layout.shapeAt_getD (L : Layout) (idx : List Nat) (h : idx.length = L.length) (d : Nat)
    (hd : d < L.length) : (L.shapeAt idx).getD d 0 = (L.getD d []).getD (idx.getD d 0) 0 ∧
      (L.startAt idx).getD d 0 = ((L.getD d []).take (idx.getD d 0)).sum ∧
      (L.stopAt idx).getD d 0 = ((L.getD d []).take (idx.getD d 0 + 1)).sum := by
  induction L generalizing idx d with
  | nil => simp at hd
  | cons bs L ih =>
    cases idx with
    | nil => simp at h
    | cons i is =>
      cases d with
      | zero => simp [Layout.shapeAt, Layout.startAt, Layout.stopAt]
      | succ d =>
        have := ih is (by simpa using h) d (by simpa using hd)
        simpa [Layout.shapeAt, Layout.startAt, Layout.stopAt] using this

theorem sum_map_range_getD (bs : List Nat) (i : Nat) :
    ((List.range i).map fun k => bs.getD k 0).sum = (bs.take i).sum := by
  induction i with
  | zero => simp
  | succ i ih => rw [List.range_succ, List.map_append, List.sum_append, ih, take_sum_succ]; simp

theorem eq_of_getD {a b : List Nat} (h : a.length = b.length) (he : ∀ d, d < a.length →
    a.getD d 0 = b.getD d 0) : a = b := by
  apply List.ext_getElem h
  intro i h1 h2
  have := he i h1
  simpa [List.getD_eq_getElem?_getD, List.getElem?_eq_getElem h1,
    List.getElem?_eq_getElem h2] using this

theorem tableRow_getD {D : Nat} (t : Table) (idx : List Nat) {d : Nat} (h : d < D) :
    (tableRow D t idx).getD d 0 = t idx d := by
  simp [tableRow, List.getD_eq_getElem?_getD, List.getElem?_map, List.getElem?_range h]

/-- The computed stop and start indices of a table that describes a layout. -/
theorem startStop_eq (L : Layout) (t : Table) (ht : t.Describes L) (idx : List Nat)
    (hi : InBounds idx L.pshape) :
    tableRow L.length (stopIndices L.length t) idx = L.stopAt idx ∧
      tableRow L.length (startIndices L.length t) idx = L.startAt idx := by
  have hlen : idx.length = L.length := by rw [hi.length_eq, L.length_pshape]
  have hstop : ∀ j, InBounds j L.pshape → ∀ d, d < L.length →
      stopIndices L.length t j d = ((L.getD d []).take (j.getD d 0 + 1)).sum := by
    intro j hj d hd
    have hjl : j.length = L.length := by rw [hj.length_eq, L.length_pshape]
    rw [stopIndices_apply, if_pos hd, ← sum_map_range_getD]
    congr 1
    apply List.map_congr_left
    intro k hk
    have hd' : d < L.pshape.length := by rw [L.length_pshape]; exact hd
    have hlt := inBounds_getD hj hd'
    have hb : InBounds (j.set d k) L.pshape :=
      inBounds_set hj (by have := List.mem_range.1 hk; omega)
    rw [ht _ hb d hd, getD_set_eq (by omega)]
  constructor
  · apply eq_of_getD
    · rw [L.length_stopAt hlen]; simp [tableRow]
    · intro d hd
      have hd' : d < L.length := by simpa [tableRow] using hd
      rw [tableRow_getD _ _ hd', hstop idx hi d hd', (L.shapeAt_getD idx hlen d hd').2.2]
  · apply eq_of_getD
    · rw [L.length_startAt hlen]; simp [tableRow]
    · intro d hd
      have hd' : d < L.length := by simpa [tableRow] using hd
      rw [tableRow_getD _ _ hd', startIndices, shift_apply, if_pos hd',
        (L.shapeAt_getD idx hlen d hd').2.1]
      by_cases h0 : idx.getD d 0 = 0
      · rw [if_pos h0, h0]; simp
      · rw [if_neg h0]
        have hlt := inBounds_getD hi (i := d) (by rw [L.length_pshape]; exact hd')
        have hb : InBounds (idx.set d (idx.getD d 0 - 1)) L.pshape := inBounds_set hi (by omega)
        rw [hstop _ hb d hd', getD_set_eq (by omega)]
        congr 2
        omega

/-! ## C06 -/

/-- C06: for any table of shapes in which a worker's length in a dimension depends only on its
coordinate there, the boxes between computed start and stop indices tile the global tensor: every
global cell lies in exactly one worker's box and no box sticks out. -/
theorem C06_tiling (L : Layout) (t : Table) (ht : t.Describes L) :
    (∀ g, InBounds g L.global → ∃! idx, InBounds idx L.pshape ∧
      InBox (tableRow L.length (startIndices L.length t) idx)
        (tableRow L.length (stopIndices L.length t) idx) g) ∧
    (∀ idx g, InBounds idx L.pshape → InBox (tableRow L.length (startIndices L.length t) idx)
        (tableRow L.length (stopIndices L.length t) idx) g → InBounds g L.global) := by
  constructor
  · intro g hg
    obtain ⟨idx, ⟨h1, h2⟩, hu⟩ := (L.unique_owner g).1 hg
    have hss := startStop_eq L t ht idx h1
    refine ⟨idx, ⟨h1, by rw [hss.1, hss.2]; exact h2⟩, ?_⟩
    rintro j ⟨hj1, hj2⟩
    have hss' := startStop_eq L t ht j hj1
    rw [hss'.1, hss'.2] at hj2
    exact hu j ⟨hj1, hj2⟩
  · intro idx g hi hb
    have hss := startStop_eq L t ht idx hi
    rw [hss.1, hss.2] at hb
    exact (L.unique_owner g).2 idx hi hb

/-- C06: stop minus start is the worker's own shape. -/
theorem C06_extent (L : Layout) (t : Table) (ht : t.Describes L) (idx : List Nat)
    (hi : InBounds idx L.pshape) (d : Nat) (hd : d < L.length) :
    startIndices L.length t idx d + t idx d = stopIndices L.length t idx d := by
  have hss := startStop_eq L t ht idx hi
  have hlen : idx.length = L.length := by rw [hi.length_eq, L.length_pshape]
  have h1 := tableRow_getD (stopIndices L.length t) idx hd
  have h2 := tableRow_getD (startIndices L.length t) idx hd
  rw [hss.1, (L.shapeAt_getD idx hlen d hd).2.2] at h1
  rw [hss.2, (L.shapeAt_getD idx hlen d hd).2.1] at h2
  rw [← h1, ← h2, ht idx hi d hd, take_sum_succ]

theorem balancedTable_apply {Pshape shape idx : List Nat} (h : InBounds idx Pshape) (d : Nat) :
    balancedTable Pshape shape idx d = (map3 subsize Pshape idx shape).getD d 0 := by
  unfold balancedTable
  have key : ∀ (l : List (List Nat)) (init : Table), idx ∈ l ∨
      init idx d = (map3 subsize Pshape idx shape).getD d 0 →
      l.foldl (fun arr idx => fun j d =>
        if j = idx then (map3 subsize Pshape idx shape).getD d 0 else arr j d) init idx d =
        (map3 subsize Pshape idx shape).getD d 0 := by
    intro l
    induction l with
    | nil => intro init h; simpa using h
    | cons x xs ih =>
      intro init h
      rw [List.foldl_cons]
      apply ih
      by_cases hx : idx = x
      · right; rw [if_pos hx, hx]
      · rw [if_neg hx]
        rcases h with h | h
        · rcases List.mem_cons.1 h with h | h
          · exact absurd h hx
          · exact Or.inl h
        · exact Or.inr h
  exact key _ _ (Or.inl (mem_rangeIndex.2 h))

theorem balancedTable_describes {Ps ns : List Nat} (h : Ps.length = ns.length) :
    (balancedTable Ps ns).Describes (Layout.balanced Ps ns) := by
  intro idx hi d hd
  rw [Layout.balanced_pshape h] at hi
  have hL : (Layout.balanced Ps ns).length = Ps.length := by simp [Layout.balanced, h]
  have hlen : idx.length = (Layout.balanced Ps ns).length := by rw [hi.length_eq, hL]
  rw [balancedTable_apply hi, ← ((Layout.balanced Ps ns).shapeAt_getD idx hlen d hd).1,
    Layout.balanced_shapeAt h hi]
  rfl

/-- C06: for balanced shapes the computed start and stop indices are the closed-form ones. -/
theorem C06_balanced_agrees (Ps ns : List Nat) (h : Ps.length = ns.length) (idx : List Nat)
    (hi : InBounds idx Ps) :
    tableRow Ps.length (startIndices Ps.length (balancedTable Ps ns)) idx =
        computeStartIndex Ps idx ns ∧
      tableRow Ps.length (stopIndices Ps.length (balancedTable Ps ns)) idx =
        computeStopIndex Ps idx ns ∧
      tableRow Ps.length (balancedTable Ps ns) idx = computeSubshape Ps idx ns := by
  have hL : (Layout.balanced Ps ns).length = Ps.length := by simp [Layout.balanced, h]
  have hi' : InBounds idx (Layout.balanced Ps ns).pshape := by rwa [Layout.balanced_pshape h]
  have hss := startStop_eq _ _ (balancedTable_describes h) idx hi'
  have hb := Layout.balanced_startAt h hi
  rw [hL] at hss
  refine ⟨by rw [hss.2, hb.1], by rw [hss.1, hb.2], ?_⟩
  have hcs : (computeSubshape Ps idx ns).length = Ps.length :=
    map3_length _ _ _ _ hi.length_eq.symm (by rw [hi.length_eq, h])
  apply eq_of_getD
  · rw [hcs]; simp [tableRow]
  · intro d hd
    have hd' : d < Ps.length := by simpa [tableRow] using hd
    rw [tableRow_getD _ _ hd', balancedTable_apply hi]
    rfl

example : Table.Describes (fun idx d => ([[3, 0, 2], [4, 1]].getD d []).getD (idx.getD d 0) 0)
    [[3, 0, 2], [4, 1]] := fun _ _ _ _ => rfl
example : tableRow 2 (startIndices 2 fun idx d =>
    ([[3, 0, 2], [4, 1]].getD d []).getD (idx.getD d 0) 0) [2, 1] = [3, 4] := by decide
example : tableRow 2 (stopIndices 2 (balancedTable [2, 3] [5, 7])) [1, 1] = [5, 5] := by decide

/-! ## C07 -/

theorem sum_map_single {l : List Nat} (hnd : l.Nodup) {v : Nat} (hv : v ∈ l) (f : Nat → Int)
    (h0 : ∀ u ∈ l, u ≠ v → f u = 0) : (l.map f).sum = f v := by
  induction l with
  | nil => simp at hv
  | cons x xs ih =>
    rw [List.map_cons, List.sum_cons]
    have hnd' := List.nodup_cons.1 hnd
    rcases List.mem_cons.1 hv with h | h
    · subst h
      have : (xs.map f).sum = 0 := by
        apply List.sum_eq_zero
        intro y hy
        obtain ⟨u, hu, rfl⟩ := List.mem_map.1 hy
        exact h0 u (by simp [hu]) fun he => hnd'.1 (he ▸ hu)
      omega
    · rw [ih hnd'.2 h fun u hu => h0 u (by simp [hu]),
        h0 x (by simp) fun he => hnd'.1 (he ▸ h)]
      omega

theorem inBounds_append {a b c d : List Nat} (h1 : InBounds a b) (h2 : InBounds c d) :
    InBounds (a ++ c) (b ++ d) := by
  induction b generalizing a with
  | nil => cases a with
    | nil => exact h2
    | cons _ _ => exact h1.elim
  | cons n ns ih => cases a with
    | nil => exact h1.elim
    | cons x xs => exact ⟨h1.1, ih h1.2⟩

theorem entry_map_rangeIndex {α : Type} (dt : NpScalar) (shape : List Nat) (f : List Nat → α)
    (k : List Nat) (hk : InBounds k shape) :
    NpArr.entry ⟨dt, shape, (rangeIndex shape).map f⟩ k = some (f k) := by
  unfold NpArr.entry
  simp only
  rw [cartesianIndexC_eq_flatC hk.length_eq, List.getElem?_map,
    getElem_rangeIndex_eq_getCoords (flatC_lt hk), getCoords_flatC hk]
  rfl

/-- C07: all workers that ask for the table (the input workers, and the workers of the output
partition, also those outside the input partition) hold the same table, and its row at each input
worker's index is that worker's local shape. -/
theorem C07_gathered_table (P : Cart) (hP : P.WF) (localShape : Nat → List Nat) (S : List Nat)
    (w0 : Nat) (h0 : P.members.head? = some w0) (hin : w0 ∈ S) :
    ∃ T : NpArr Int, T.shape = P.shape ++ [P.shape.length] ∧
      (∀ w ∈ S, unbalancedShapes P (some S) localShape w = .value T) ∧
      (∀ w ∈ P.members, unbalancedShapes P (some S) localShape w = .value T ∧
        unbalancedShapes P none localShape w = .value T) ∧
      (∀ v ∈ P.members, ∀ idx, P.index v = some idx → ∀ d, d < P.shape.length →
        T.entry (idx ++ [d]) = some ((localShape v).getD d 0 : Int)) := by
  let T : NpArr Int := ⟨.int64, P.shape ++ [P.shape.length],
      (rangeIndex (P.shape ++ [P.shape.length])).map fun k =>
        (allreduceData P.members .sum fun u => oneHotShapes P localShape u k).getD 0⟩
  have hg : ∀ v ∈ P.members, gatheredShapes P localShape v = some T := by
    intro v hv
    simp only [gatheredShapes, hv, if_true]
    rfl
  have hroot : P.members[0]? = some w0 := by rw [← List.head?_eq_getElem?]; exact h0
  have hb := C29_broadcast_data S P.members 0 w0 T (gatheredShapes P localShape) hP.nodup hroot hin
    (hg w0 (List.mem_of_getElem? hroot))
  refine ⟨T, rfl, ?_, ?_, ?_⟩
  · intro w hw
    simp only [unbalancedShapes, hw, if_true]
    exact hb.1 w hw
  · intro w hw
    constructor
    · simp only [unbalancedShapes]
      split
      · rename_i hS; exact hb.1 w hS
      · rw [hg w hw]
    · simp only [unbalancedShapes]
      rw [hg w hw]
  · intro v hv idx hidx d hd
    have hidx' : idx = getCoords P.shape (P.members.idxOf v) := by
      simp only [Cart.index, rankOf, hv, if_true, Option.map_some, cartesianIndex,
        Option.some.injEq] at hidx
      exact hidx.symm
    have hib := coords_inBounds hP hv
    rw [← hidx'] at hib
    have hne : P.members ≠ [] := fun h => by simp [h] at hv
    rw [entry_map_rangeIndex _ _ _ _ (inBounds_append hib (c := [d]) (d := [P.shape.length]) ⟨hd, trivial⟩),
      C29_allreduce_sum _ hne, Option.getD_some,
      sum_map_single hP.nodup hv]
    · simp [oneHotShapes, hidx', List.getD_eq_getElem?_getD]
    · intro u hu huv
      simp only [oneHotShapes, List.dropLast_concat]
      rw [if_neg]
      intro he
      exact huv (coords_inj hP hu hv (by rw [← he, hidx']))

example : (Cart.mk [4, 2] [2, 1] (some 0)).WF :=
  ⟨by decide, rfl, by decide⟩
example : (match unbalancedShapes ⟨[4, 2], [2, 1], some 0⟩ (some [0, 2, 4])
    (fun w => if w = 4 then [3, 7] else [2, 7]) 0 with
    | .value T => T.vals
    | _ => []) = [3, 7, 2, 7] := by decide

/-! ## C08 -/

theorem keepOnly_kept (D i : Nat) (hi : i < D) (l : List Nat) (hl : l.length = D) :
    keepDims (keepOnly D i) l = [l.getD i 0] := by
  have key : ∀ (l : List Nat) (f : Nat → Bool) (i : Nat), i < l.length →
      (∀ j, j < l.length → (f j = true ↔ j = i)) →
      keepDims ((List.range l.length).map f) l = [l.getD i 0] := by
    intro l
    induction l with
    | nil => intro f i hi; simp at hi
    | cons x xs ih =>
      intro f i hi hf
      rw [List.length_cons, List.range_succ_eq_map, List.map_cons, List.map_map]
      cases i with
      | zero =>
        have h0 : f 0 = true := (hf 0 (by simp)).2 rfl
        have hnil : ∀ (ys : List Nat) (bs : List Bool), (∀ b ∈ bs, b = false) →
            keepDims bs ys = [] := by
          intro ys bs
          induction bs generalizing ys with
          | nil => intro _; simp [keepDims]
          | cons b bs ihb =>
            intro hb
            cases ys with
            | nil => simp [keepDims]
            | cons y ys =>
              have := hb b (by simp)
              subst this
              simp only [keepDims, Bool.false_eq_true, if_false]
              exact ihb ys fun b hb' => hb b (by simp [hb'])
        simp only [keepDims, h0, if_true, List.getD_cons_zero, List.cons.injEq, true_and]
        apply hnil
        intro b hb
        obtain ⟨j, hj, rfl⟩ := List.mem_map.1 hb
        have hj' : j < xs.length := List.mem_range.1 hj
        cases hfj : f (j + 1) with
        | false => exact hfj
        | true =>
          have := (hf (j + 1) (by simp; omega)).1 hfj
          omega
      | succ i =>
        have h0 : f 0 = false := by
          cases hf0 : f 0 with
          | false => rfl
          | true => have := (hf 0 (by simp)).1 hf0; omega
        simp only [keepDims, h0, Bool.false_eq_true, if_false, List.getD_cons_succ]
        refine ih (f ∘ Nat.succ) i (by simpa using hi) fun j hj => ?_
        have := hf (j + 1) (by simp; omega)
        simp only [Function.comp_apply, Nat.succ_eq_add_one, this]
        omega
  subst hl
  refine key l _ i hi fun j _ => ?_
  simp

theorem length_keepOnly (D i : Nat) : (keepOnly D i).length = D := by simp [keepOnly]

theorem globalShape_eq (P : Cart) (hP : P.WF) (L : Layout) (hL : L.pshape = P.shape)
    (localShape : Nat → List Nat)
    (hloc : ∀ v ∈ P.members, localShape v = L.shapeAt (getCoords P.shape (P.members.idxOf v)))
    (w : Nat) (hw : w ∈ P.members) :
    globalShape P localShape w = L.global.map fun (n : Nat) => (n : Int) := by
  have hlen : L.length = P.shape.length := by rw [← hL, L.length_pshape]
  apply List.ext_getElem
  · simp [globalShape, L.length_global, hlen]
  · intro i h1 h2
    have hi : i < P.shape.length := by simpa [globalShape] using h1
    simp only [globalShape, List.getElem_map, List.getElem_range]
    have hsubwf := (C55_groups P hP (keepOnly P.shape.length i) (length_keepOnly _ _) w hw)
    have hkept := map_kept_cartSub hP (length_keepOnly P.shape.length i) hw
    have hne : (cartSub P (keepOnly P.shape.length i) w).members ≠ [] := by
      intro h
      have := (hsubwf.1 w).2 ⟨hw, fun _ _ _ => rfl⟩
      simp [h] at this
    rw [C29_allreduce_sum _ hne, Option.getD_some]
    have hfun : (cartSub P (keepOnly P.shape.length i) w).members.map
        (fun v => (((localShape v).getD i 0 : Nat) : Int)) =
        ((cartSub P (keepOnly P.shape.length i) w).members.map
          (fun v => keepDims (keepOnly P.shape.length i)
            (getCoords P.shape (P.members.idxOf v)))).map
          (fun k => (((L.getD i []).getD (k.getD 0 0) 0 : Nat) : Int)) := by
      rw [List.map_map]
      apply List.map_congr_left
      intro v hv
      have hvP := ((hsubwf.1 v).1 hv).1
      simp only [Function.comp_apply]
      rw [hloc v hvP, keepOnly_kept _ _ hi _ (length_getCoords _ _),
        (L.shapeAt_getD _ (by rw [length_getCoords, hlen]) i (by omega)).1]
      simp
    rw [hfun, hkept, keepOnly_kept _ _ hi _ rfl]
    have hsh : P.shape.getD i 0 = (L.getD i []).length := by
      rw [← hL]
      simp [Layout.pshape, List.getD_eq_getElem?_getD, List.getElem?_map]
      cases L[i]? <;> rfl
    have hgl : L.global[i]'(by rw [L.length_global]; omega) = (L.getD i []).sum := by
      simp [Layout.global, List.getD_eq_getElem?_getD,
        List.getElem?_eq_getElem (show i < L.length by omega)]
    rw [hsh, hgl]
    have hr : rangeIndex [(L.getD i []).length] =
        (List.range (L.getD i []).length).map fun k => [k] := by
      simp only [rangeIndex, List.map_cons, List.map_nil]
      generalize (L.getD i []).length = m
      induction m with
      | zero => rfl
      | succ m ih => rw [List.range_succ, List.flatMap_append, ih]; simp
    rw [hr, List.map_map]
    have hc : ((fun k => (((L.getD i []).getD (k.getD 0 0) 0 : Nat) : Int)) ∘ fun (k : Nat) => [k]) =
        fun (k : Nat) => (((L.getD i []).getD k 0 : Nat) : Int) := by funext k; simp
    rw [hc]
    have hs := sum_map_range_getD (L.getD i []) (L.getD i []).length
    rw [List.take_length] at hs
    rw [← hs]
    have hcast : ∀ l : List Nat, (l.map fun (n : Nat) => (n : Int)).sum = ((l.sum : Nat) : Int) := by
      intro l
      induction l with
      | nil => rfl
      | cons a l ih => rw [List.map_cons, List.sum_cons, List.sum_cons, ih]; omega
    rw [← hcast, List.map_map]
    rfl

/-- C08: for an input laid out as any tensor product of blocks, the assembled shape is the true
global shape on every input worker, and every worker of the output partition, also outside the
input partition, receives that shape with the dtype and requires-grad status of the input. -/
theorem C08_global_structure (P : Cart) (hP : P.WF) (L : Layout) (hL : L.pshape = P.shape)
    (localS : Nat → List Nat × TorchDtype × Bool) (t : TorchDtype) (rg : Bool)
    (hloc : ∀ v ∈ P.members, ∀ idx, P.index v = some idx → localS v = (L.shapeAt idx, t, rg))
    (S : List Nat) (w0 : Nat) (h0 : P.members.head? = some w0) (hin : w0 ∈ S) :
    (∀ w ∈ P.members, assembleGlobal P none localS w =
      .value ⟨L.global.map fun (n : Nat) => (n : Int), t, rg⟩) ∧
    (∀ w, w ∈ S ∨ w ∈ P.members → assembleGlobal P (some S) localS w =
      .value ⟨L.global.map fun (n : Nat) => (n : Int), t, rg⟩) ∧
    (∀ w, w ∉ S → w ∉ P.members → assembleGlobal P (some S) localS w = .returnsNone) := by
  have hidx : ∀ v ∈ P.members, P.index v = some (getCoords P.shape (P.members.idxOf v)) := by
    intro v hv; simp [Cart.index, rankOf, hv, cartesianIndex]
  have hloc' : ∀ v ∈ P.members,
      (localS v).1 = L.shapeAt (getCoords P.shape (P.members.idxOf v)) := by
    intro v hv; rw [hloc v hv _ (hidx v hv)]
  have hgs := fun w hw => globalShape_eq P hP L hL (fun u => (localS u).1) hloc' w hw
  have hown : ∀ w ∈ P.members, (if w ∈ P.members then
      Res.value (GStruct.mk (globalShape P (fun u => (localS u).1) w) (localS w).2.1 (localS w).2.2)
      else .returnsNone) = .value ⟨L.global.map fun (n : Nat) => (n : Int), t, rg⟩ := by
    intro w hw
    rw [if_pos hw, hgs w hw, hloc w hw _ (hidx w hw)]
  have hroot : P.members[0]? = some w0 := by rw [← List.head?_eq_getElem?]; exact h0
  have hw0 : w0 ∈ P.members := List.mem_of_getElem? hroot
  obtain ⟨n, hn1, hn2⟩ := C31_torch_int_roundtrip t
  refine ⟨?_, ?_, ?_⟩
  · intro w hw
    exact hown w hw
  · intro w hw
    by_cases hS : w ∈ S
    · have b1 := (C29_broadcast_data S P.members 0 w0
        ⟨.int64, [P.shape.length], L.global.map fun (n : Nat) => (n : Int)⟩
        (fun v => if v ∈ P.members then
          some ⟨.int64, [P.shape.length], globalShape P (fun u => (localS u).1) v⟩ else none)
        hP.nodup hroot hin (by simp only [hw0, if_true, hgs w0 hw0])).1 w hS
      have b2 := (C29_broadcast_data S P.members 0 w0
        ⟨.int64, [1], [(n : Int)]⟩
        (fun v => if v ∈ P.members then
          (torchToInt (localS v).2.1).map fun n => ⟨.int64, [1], [(n : Int)]⟩ else none)
        hP.nodup hroot hin (by
          simp only [hw0, if_true]; rw [hloc w0 hw0 _ (hidx w0 hw0)]; simp only [hn1]; rfl)).1 w hS
      have b3 := (C29_broadcast_data S P.members 0 w0
        ⟨.int64, [1], [if rg then (1 : Int) else 0]⟩
        (fun v => if v ∈ P.members then
          some ⟨.int64, [1], [if (localS v).2.2 then 1 else 0]⟩ else none)
        hP.nodup hroot hin (by
          simp only [hw0, if_true]; rw [hloc w0 hw0 _ (hidx w0 hw0)])).1 w hS
      simp only [assembleGlobal, hS, if_true, b1, b2, b3]
      simp only [List.getElem?_cons_zero, Option.bind_some, Int.toNat_natCast, hn2]
      cases rg <;> rfl
    · have hwP : w ∈ P.members := hw.resolve_left hS
      simp only [assembleGlobal, hS, if_false]
      exact hown w hwP
  · intro w hS hwP
    simp [assembleGlobal, hS, hwP]

example : (match assembleGlobal ⟨[4, 2, 3, 1], [2, 2], some 0⟩ (some [0, 4])
    (fun w => (Layout.shapeAt [[3, 1], [5, 0]]
      (getCoords [2, 2] ([4, 2, 3, 1].idxOf w)), .float32, true)) 0 with
    | .value g => some g
    | _ => none) = some ⟨[4, 5], .float32, true⟩ := by decide

end Verif
