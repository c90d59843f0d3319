import Verif.Partition.Lemmas

/-!
# Properties of partitions: union, inclusion, neighbours, data sharing, equality, sub-topologies
-/

namespace Verif

/-! ## C27 -/

/-- C27: the union holds every worker of either partition exactly once; the first partition's
workers keep their ranks; the remaining ones follow in the second partition's order. -/
theorem C27_union (P Q : Part) (r : Nat) (hP : P.members.Nodup) (hQ : Q.members.Nodup)
    (hrP : P.root = some r) (hrQ : Q.root = some r) :
    ∃ U, createUnion P Q = some U ∧ U.root = some r ∧ U.members.Nodup ∧
      (∀ w, w ∈ U.members ↔ w ∈ P.members ∨ w ∈ Q.members) ∧
      (∀ w ∈ P.members, rankOf U.members w = rankOf P.members w) ∧
      (∀ v ∈ Q.members, ∀ w ∈ Q.members, v ∉ P.members → w ∉ P.members →
        (U.members.idxOf v < U.members.idxOf w ↔ Q.members.idxOf v < Q.members.idxOf w)) ∧
      (∀ w ∈ Q.members, w ∉ P.members → P.members.length ≤ U.members.idxOf w) := by
  refine ⟨⟨groupUnion P.members Q.members, P.root⟩, ?_, hrP, ?_, ?_, ?_, ?_, ?_⟩
  · simp [createUnion, identicalComm, hrP, hrQ]
  · refine List.Nodup.append hP (hQ.filter _) ?_
    intro w hw hw'
    simp [List.mem_filter, hw] at hw'
  · intro w
    simp only [groupUnion, List.mem_append, List.mem_filter, Bool.not_eq_true', List.contains_eq_mem,
      decide_eq_false_iff_not]
    by_cases h : w ∈ P.members <;> simp [h]
  · intro w hw
    have : w ∈ groupUnion P.members Q.members := by simp [groupUnion, hw]
    simp only [rankOf, hw, this, if_true]
    rw [groupUnion, List.idxOf_append_of_mem hw]
  · intro v hv w hw hv' hw'
    rw [groupUnion, List.idxOf_append_of_notMem hv', List.idxOf_append_of_notMem hw',
      Nat.add_lt_add_iff_left]
    have key : ∀ l : List Nat, l.Nodup → v ∈ l → w ∈ l →
        ((l.filter fun w => !P.members.contains w).idxOf v <
          (l.filter fun w => !P.members.contains w).idxOf w ↔ l.idxOf v < l.idxOf w) := by
      intro l hl
      induction l with
      | nil => intro h; simp at h
      | cons x xs ih =>
        intro hv1 hw1
        by_cases hxv : x = v
        · subst hxv
          have : (!P.members.contains x) = true := by simp [hv']
          rw [List.filter_cons_of_pos (by exact this)]
          by_cases hxw : x = w
          · subst hxw; simp
          · rw [List.idxOf_cons_self, List.idxOf_cons_self, List.idxOf_cons_ne _ hxw,
              List.idxOf_cons_ne _ hxw]
            simp
        · have hv2 : v ∈ xs := by
            rcases List.mem_cons.1 hv1 with h | h
            · exact absurd h.symm hxv
            · exact h
          by_cases hxw : x = w
          · subst hxw
            have : (!P.members.contains x) = true := by simp [hw']
            rw [List.filter_cons_of_pos (by exact this)]
            simp
          · have hw2 : w ∈ xs := by
              rcases List.mem_cons.1 hw1 with h | h
              · exact absurd h.symm hxw
              · exact h
            have ih' := ih (List.nodup_cons.1 hl).2 hv2 hw2
            by_cases hx : (!P.members.contains x) = true
            · rw [List.filter_cons_of_pos (by exact hx)]
              rw [List.idxOf_cons_ne _ hxv, List.idxOf_cons_ne _ hxw, List.idxOf_cons_ne _ hxv,
                List.idxOf_cons_ne _ hxw]
              simpa using ih'
            · rw [List.filter_cons_of_neg (by exact hx)]
              rw [List.idxOf_cons_ne _ hxv, List.idxOf_cons_ne _ hxw]
              simpa using ih'
    exact key Q.members hQ hv hw
  · intro w _ hw'
    rw [groupUnion, List.idxOf_append_of_notMem hw']
    omega

/-- C27: the first worker of the first partition is rank 0 of the union. -/
theorem C27_first_is_zero (P Q U : Part) (w : Nat) (h : createUnion P Q = some U)
    (hw : P.members.head? = some w) : rankOf U.members w = some 0 := by
  unfold createUnion at h
  split at h
  · cases h
  · cases h
    cases hm : P.members with
    | nil => simp [hm] at hw
    | cons x xs =>
      have : x = w := by simpa [hm] using hw
      subst this
      simp [groupUnion, rankOf]

/-- C27: a union is refused exactly when the two partitions do not descend from one common
root communicator. -/
theorem C27_union_refused (P Q : Part) :
    createUnion P Q = none ↔ ¬ ∃ r, P.root = some r ∧ Q.root = some r := by
  unfold createUnion identicalComm
  cases hP : P.root with
  | none => simp
  | some x =>
    cases hQ : Q.root with
    | none => simp
    | some y =>
      by_cases h : x = y
      · simp [h]
      · simp only [Option.some.injEq, not_exists, not_and]
        simp only [beq_eq_false_iff_ne.2 h, Bool.not_false, if_true, true_iff]
        rintro r rfl hr
        exact h hr.symm

/-- C27: an inclusive sub-partition lists exactly the requested workers in the requested order; it
is refused exactly for repeated or unknown ranks. -/
theorem C27_inclusive (P : Part) (ranks : List Nat) :
    (∀ S, createInclusive P ranks = some S → S.root = P.root ∧ S.members.length = ranks.length ∧
      ∀ k r : Nat, ranks[k]? = some r → S.members[k]? = P.members[r]? ∧ r < P.members.length) ∧
    (createInclusive P ranks = none ↔ ¬ ranks.Nodup ∨ ∃ r ∈ ranks, P.members.length ≤ r) ∧
    (∀ S, P.members.Nodup → createInclusive P ranks = some S → S.members.Nodup) := by
  unfold createInclusive groupIncl
  refine ⟨?_, ?_, ?_⟩
  · intro S hS
    split at hS
    · rename_i hc
      cases hS
      refine ⟨rfl, by simp, fun k r hk => ?_⟩
      have hr := hc.2 r (List.mem_of_getElem? hk)
      refine ⟨?_, hr⟩
      simp [hk, List.getElem?_eq_getElem hr]
    · cases hS
  · split
    · rename_i hc
      simp only [Option.map_some, reduceCtorEq, false_iff, not_or, not_not, not_exists, not_and,
        Nat.not_le]
      exact hc
    · rename_i hc
      simp only [Option.map_none, true_iff]
      by_cases hn : ranks.Nodup
      · right
        by_contra hne
        refine hc ⟨hn, fun r hr => ?_⟩
        by_contra hlt
        exact hne ⟨r, hr, by omega⟩
      · exact Or.inl hn
  · intro S hP hS
    split at hS
    · rename_i hc
      cases hS
      refine List.Nodup.map_on ?_ hc.1
      intro a ha b hb hab
      have h1 := hc.2 a ha
      have h2 := hc.2 b hb
      simp only [List.getD_eq_getElem?_getD, List.getElem?_eq_getElem h1,
        List.getElem?_eq_getElem h2, Option.getD_some] at hab
      exact (hP.getElem_inj_iff).1 hab
    · cases hS

example : createUnion ⟨[4, 1], some 0⟩ ⟨[0, 1, 2], some 0⟩ = some ⟨[4, 1, 0, 2], some 0⟩ := rfl
example : createInclusive ⟨[4, 1, 7], some 0⟩ [2, 0] = some ⟨[7, 4], some 0⟩ := rfl
example : createInclusive ⟨[4, 1, 7], some 0⟩ [2, 2] = none := rfl

/-! ## MPI coordinates and the enumeration -/

/-- C04: the Cartesian coordinates of rank `r` are the `r`-th index of the enumeration, so ranks,
coordinates and the index enumeration of the library agree. -/
theorem C04_mpi_coords (shape : List Nat) (r : Nat) (hr : r < shape.prod) :
    (rangeIndex shape)[r]? = some (getCoords shape r) ∧
      cartesianIndexC shape (getCoords shape r) = r := by
  refine ⟨getElem_rangeIndex_eq_getCoords hr, ?_⟩
  rw [cartesianIndexC_eq_flatC (length_getCoords _ _)]
  exact (getCoords_spec hr).2

example : getCoords [2, 3] 4 = [1, 1] := rfl

/-! ## C28 -/

/-- C28: neighbour lookup succeeds on every member.  In each dimension the left (right) neighbour is
absent exactly at the lower (upper) boundary and otherwise is the member whose coordinates differ by
one in that dimension only. -/
theorem C28_neighbors (P : Cart) (r : Nat) (hr : r < P.shape.prod) :
    ∃ nb, neighborRanks P r = some nb ∧ nb.length = P.shape.length ∧
      ∀ d, d < P.shape.length → ∃ l u, nb[d]? = some (l, u) ∧
        (l = none ↔ (getCoords P.shape r).getD d 0 = 0) ∧
        (u = none ↔ (getCoords P.shape r).getD d 0 + 1 = P.shape.getD d 0) ∧
        (∀ s, l = some s → s < P.shape.prod ∧
          (getCoords P.shape s).getD d 0 + 1 = (getCoords P.shape r).getD d 0 ∧
          ∀ e, e ≠ d → (getCoords P.shape s).getD e 0 = (getCoords P.shape r).getD e 0) ∧
        (∀ s, u = some s → s < P.shape.prod ∧
          (getCoords P.shape s).getD d 0 = (getCoords P.shape r).getD d 0 + 1 ∧
          ∀ e, e ≠ d → (getCoords P.shape s).getD e 0 = (getCoords P.shape r).getD e 0) := by
  have hib := (getCoords_spec hr).1
  have hlen := length_getCoords P.shape r
  refine ⟨_, mapM_eq_some _ _ _ fun d hd =>
    neighborPair_eq hib (List.mem_range.1 hd), by simp, ?_⟩
  intro d hd
  have hlt := inBounds_getD hib hd
  have hdl : d < (getCoords P.shape r).length := by omega
  refine ⟨_, _, by
    rw [List.getElem?_map, List.getElem?_range hd]; rfl, ?_, ?_, ?_, ?_⟩
  · simp
  · simp
  · intro s hs
    split at hs
    · cases hs
    · rename_i h0
      cases hs
      have hb := inBounds_set hib (i := d) (v := (getCoords P.shape r).getD d 0 - 1) (by omega)
      rw [getCoords_flatC hb]
      refine ⟨flatC_lt hb, ?_, fun e he => getD_set_ne (Ne.symm he)⟩
      rw [getD_set_eq hdl]; omega
  · intro s hs
    split at hs
    · cases hs
    · rename_i h0
      cases hs
      have hb := inBounds_set hib (i := d) (v := (getCoords P.shape r).getD d 0 + 1) (by omega)
      rw [getCoords_flatC hb]
      refine ⟨flatC_lt hb, ?_, fun e he => getD_set_ne (Ne.symm he)⟩
      rw [getD_set_eq hdl]

/-- C28: `s` is the right neighbour of `r` exactly when `r` is the left neighbour of `s`. -/
theorem C28_symmetric (P : Cart) (r s d : Nat) (hr : r < P.shape.prod) (hs : s < P.shape.prod)
    (hd : d < P.shape.length) (nr ns : List (Option Nat × Option Nat))
    (hnr : neighborRanks P r = some nr) (hns : neighborRanks P s = some ns) :
    (nr[d]?.map Prod.snd = some (some s)) ↔ (ns[d]?.map Prod.fst = some (some r)) := by
  have ext : ∀ a b : Nat, a < P.shape.prod → b < P.shape.prod →
      (∀ e, (getCoords P.shape a).getD e 0 = (getCoords P.shape b).getD e 0) → a = b := by
    intro a b ha hb hab
    have : getCoords P.shape a = getCoords P.shape b := by
      apply List.ext_getElem
      · rw [length_getCoords, length_getCoords]
      · intro i h1 h2
        have := hab i
        simpa [List.getD_eq_getElem?_getD, List.getElem?_eq_getElem h1,
          List.getElem?_eq_getElem h2] using this
    rw [← (getCoords_spec ha).2, ← (getCoords_spec hb).2, this]
  obtain ⟨nb, hnb, _, hall⟩ := C28_neighbors P r hr
  obtain ⟨nb', hnb', _, hall'⟩ := C28_neighbors P s hs
  rw [hnr] at hnb; cases hnb
  rw [hns] at hnb'; cases hnb'
  obtain ⟨l, u, hlu, hl, hu, hl', hu'⟩ := hall d hd
  obtain ⟨m, v, hmv, hm, hv, hm', hv'⟩ := hall' d hd
  rw [hlu, hmv]
  simp only [Option.map_some, Option.some.injEq]
  constructor
  · intro h
    obtain ⟨_, h1, h2⟩ := hu' s h
    cases hm0 : m with
    | none => have := hm.1 hm0; omega
    | some t =>
      obtain ⟨ht, h3, h4⟩ := hm' t hm0
      congr 1
      refine ext t r ht hr fun e => ?_
      by_cases he : e = d
      · subst he; omega
      · rw [h4 e he, h2 e he]
  · intro h
    obtain ⟨_, h1, h2⟩ := hm' r h
    have hbound := inBounds_getD (getCoords_spec hs).1 hd
    cases hu0 : u with
    | none => have := hu.1 hu0; omega
    | some t =>
      obtain ⟨ht, h3, h4⟩ := hu' t hu0
      congr 1
      refine ext t s ht hs fun e => ?_
      by_cases he : e = d
      · subst he; omega
      · rw [h4 e he, h2 e he]

example : neighborRanks ⟨[5, 6, 7, 8, 9, 3], [2, 3], some 0⟩ 4 =
    some [(some 1, none), (some 3, some 5)] := by decide

/-! ## C29 -/

/-- C29: every member of the calling partition gets the array held by the member with rank `root` of
the partition holding the data, whatever the two rank orders; workers outside get nothing. -/
theorem C29_broadcast_data {α : Type} (S D : List Nat) (root w0 : Nat) (a : NpArr α)
    (data : Nat → Option (NpArr α)) (hD : D.Nodup) (hroot : D[root]? = some w0)
    (hin : w0 ∈ S) (ha : data w0 = some a) :
    (∀ w ∈ S, broadcastData S (some D) root data w = .value a) ∧
    (∀ w, w ∉ S → broadcastData S (some D) root data w = .returnsNone) := by
  have hmemmap : some root ∈ S.map (rankOf D) :=
    List.mem_map.2 ⟨w0, hin, (rankOf_eq_some hD).2 hroot⟩
  have hidx : (S.map (rankOf D)).idxOf (some root) = S.idxOf w0 := by
    rw [← (rankOf_eq_some hD).2 hroot]
    refine idxOf_map_of_inj (rankOf D) hin fun x _ hx => ?_
    rw [(rankOf_eq_some hD).2 hroot, rankOf_eq_some hD, hroot] at hx
    exact (Option.some.inj hx).symm
  have hget : S.getD (S.idxOf w0) 0 = w0 := by
    rw [List.getD_eq_getElem?_getD, List.getElem?_eq_getElem (List.idxOf_lt_length_of_mem hin),
      List.getElem_idxOf]
    rfl
  obtain ⟨n, k, h1, h2, h3⟩ := C31_numpy_int_roundtrip (.inst a.dtype)
  constructor
  · intro w hw
    unfold broadcastData dataRoot
    simp only [hw, not_true_eq_false, if_false, hmemmap, if_true, hidx, hget, ha, h1,
      Option.bind_some, h2, Option.getD_some]
    by_cases hr : rankOf D w = some root
    · rw [if_pos hr]
      rw [rankOf_eq_some hD, hroot] at hr
      cases hr
      simp [ha]
    · rw [if_neg hr, h3]
      rfl
  · intro w hw
    simp [broadcastData, hw]

/-- C29: when no separate data partition is named, `root` is a rank of the calling partition. -/
theorem C29_broadcast_data_self {α : Type} (S : List Nat) (root w0 : Nat) (a : NpArr α)
    (data : Nat → Option (NpArr α)) (hS : S.Nodup) (hroot : S[root]? = some w0)
    (ha : data w0 = some a) :
    ∀ w ∈ S, broadcastData S none root data w = .value a := by
  obtain ⟨n, k, h1, h2, h3⟩ := C31_numpy_int_roundtrip (.inst a.dtype)
  intro w hw
  obtain ⟨hlt, _⟩ := List.getElem?_eq_some_iff.1 hroot
  have hget : S.getD root 0 = w0 := by simp [List.getD_eq_getElem?_getD, hroot]
  unfold broadcastData
  simp only [hw, not_true_eq_false, if_false, hlt, if_true, hget, ha, h1, Option.bind_some, h2,
    Option.getD_none]
  by_cases hr : rankOf S w = some root
  · rw [if_pos hr]
    rw [rankOf_eq_some hS, hroot] at hr
    cases hr
    simp [ha]
  · rw [if_neg hr, h3]
    rfl

/-- C29: the request is refused on every caller exactly when the requested root is not one of the
callers. -/
theorem C29_bad_root_rejected {α : Type} (S D : List Nat) (root : Nat)
    (data : Nat → Option (NpArr α)) (hD : D.Nodup)
    (hbad : ∀ w0, D[root]? = some w0 → w0 ∉ S) :
    ∀ w ∈ S, broadcastData S (some D) root data w = .raises := by
  intro w hw
  have : some root ∉ S.map (rankOf D) := by
    intro h
    obtain ⟨v, hv, hr⟩ := List.mem_map.1 h
    exact hbad v ((rankOf_eq_some hD).1 hr) hv
  simp [broadcastData, dataRoot, hw, this]

/-- C29: gathering returns, in row `r`, the contribution of the member with rank `r`. -/
theorem C29_allgather {α : Type} (S : List Nat) (sz : Nat) (data : Nat → List α)
    (h : ∀ w ∈ S, (data w).length = sz) : allgatherData S sz data = S.map data := by
  unfold allgatherData
  induction S with
  | nil => rfl
  | cons x xs ih =>
    have hx := h x (by simp)
    simp only [List.flatMap_cons, List.length_cons, reshapeRows, List.map_cons]
    rw [← hx, List.take_left, List.drop_left, hx, ih fun w hw => h w (by simp [hw])]

/-- C29: reducing with `sum` gives the sum of all members' contributions. -/
theorem C29_allreduce_sum (S : List Nat) (hS : S ≠ []) (data : Nat → Int) :
    allreduceData S .sum data = some (S.map data).sum := by
  unfold allreduceData
  cases S with
  | nil => exact absurd rfl hS
  | cons x xs =>
    simp only [List.map_cons, List.sum_cons]
    congr 1
    have : ∀ (l : List Int) (a : Int), l.foldl (ReduceOp.apply .sum) a = a + l.sum := by
      intro l
      induction l with
      | nil => simp
      | cons y ys ih =>
        intro a
        rw [List.foldl_cons, ih, List.sum_cons]
        simp only [ReduceOp.apply]
        omega
    exact this _ _

/-- C29: reducing with `max` gives an upper bound that some member contributed. -/
theorem C29_allreduce_max (S : List Nat) (hS : S ≠ []) (data : Nat → Int) :
    ∃ m, allreduceData S .max data = some m ∧ (∀ w ∈ S, data w ≤ m) ∧ ∃ w ∈ S, data w = m := by
  unfold allreduceData
  cases S with
  | nil => exact absurd rfl hS
  | cons x xs =>
    refine ⟨_, rfl, ?_⟩
    have : ∀ (l : List Nat) (a : Int),
        a ≤ (l.map data).foldl (ReduceOp.apply .max) a ∧
        (∀ w ∈ l, data w ≤ (l.map data).foldl (ReduceOp.apply .max) a) ∧
        ((l.map data).foldl (ReduceOp.apply .max) a = a ∨
          ∃ w ∈ l, data w = (l.map data).foldl (ReduceOp.apply .max) a) := by
      intro l
      induction l with
      | nil => intro a; simp
      | cons y ys ih =>
        intro a
        obtain ⟨h1, h2, h3⟩ := ih (Max.max a (data y))
        simp only [List.map_cons, List.foldl_cons]
        have he : ReduceOp.apply .max a (data y) = Max.max a (data y) := rfl
        rw [he]
        refine ⟨by omega, ?_, ?_⟩
        · intro w hw
          rcases List.mem_cons.1 hw with h | h
          · subst h; omega
          · exact h2 w h
        · rcases h3 with h | ⟨w, hw, h⟩
          · rcases Int.le_total a (data y) with hle | hle
            · right; exact ⟨y, by simp, by omega⟩
            · left; omega
          · exact Or.inr ⟨w, by simp [hw], h⟩
    obtain ⟨h1, h2, h3⟩ := this xs (data x)
    refine ⟨?_, ?_⟩
    · intro w hw
      rcases List.mem_cons.1 hw with h | h
      · subst h; exact h1
      · exact h2 w h
    · rcases h3 with h | ⟨w, hw, h⟩
      · exact ⟨x, by simp, h.symm⟩
      · exact ⟨w, by simp [hw], h⟩

example : broadcastData [3, 1, 2] (some [2, 3]) 1
    (fun w => if w = 3 then some ⟨.int64, [2], [10, 20]⟩ else none) 1 =
      Res.value (⟨.int64, [2], [10, 20]⟩ : NpArr Nat) := rfl
example : allgatherData [3, 1] 2 (fun w => [w, w + 1]) = [[3, 4], [1, 2]] := rfl

/-! ## C53 -/

/-- Partition objects a program can hold: created by a constructor, possibly deactivated later. -/
inductive PartObj.Reachable : PartObj → Prop
  | plain (w comm group) : Reachable (PartObj.init w comm group)
  | cart (w comm group shape) : Reachable (PartObj.initCart w comm group shape)
  | deactivate {o} : Reachable o → Reachable o.deactivate

theorem PartObj.Reachable.inv {o : PartObj} (h : o.Reachable) :
    (o.active = true ↔ o.comm.isSome = true) ∧ (o.active = true → o.group.isSome = true ∧
      o.rank.isSome = true) := by
  induction h with
  | plain w comm group =>
    cases comm with
    | none => simp [PartObj.init]
    | some c => cases group <;> simp [PartObj.init]
  | cart w comm group shape =>
    cases comm with
    | none => simp [PartObj.init, PartObj.initCart]
    | some c => cases group <;> simp [PartObj.init, PartObj.initCart]
  | @deactivate o _ ih =>
    have hbase : (o.deactivateBase.active = true ↔ o.deactivateBase.comm.isSome = true) ∧
        (o.deactivateBase.active = true → o.deactivateBase.group.isSome = true ∧
          o.deactivateBase.rank.isSome = true) := by
      unfold PartObj.deactivateBase
      split
      · simp
      · exact ih
    unfold PartObj.deactivate
    split
    · exact hbase
    · exact hbase

/-- C53: partitions compare equal exactly when both are active and have the same communicator, the
same group and the same rank. -/
theorem C53_eq_iff (a b : PartObj) (ha : a.Reachable) (hb : b.Reachable) :
    a.eq b = true ↔ a.active = true ∧ b.active = true ∧ a.comm = b.comm ∧ a.group = b.group ∧
      a.rank = b.rank := by
  have h1 := ha.inv
  have h2 := hb.inv
  unfold PartObj.eq identicalComm identicalGroup
  cases hac : a.comm <;> cases hbc : b.comm <;> cases hag : a.group <;> cases hbg : b.group <;>
    cases har : a.rank <;> cases hbr : b.rank <;> simp_all [and_assoc]

/-- C53: an active partition equals itself, and equality is symmetric. -/
theorem C53_refl_symm (a b : PartObj) (ha : a.Reachable) (hb : b.Reachable) :
    (a.active = true → a.eq a = true) ∧ (a.eq b = b.eq a) := by
  refine ⟨fun h => (C53_eq_iff a a ha ha).2 ⟨h, h, rfl, rfl, rfl⟩, ?_⟩
  have key : a.eq b = true ↔ b.eq a = true := by
    rw [C53_eq_iff a b ha hb, C53_eq_iff b a hb ha]
    constructor
    · rintro ⟨h1, h2, h3, h4, h5⟩; exact ⟨h2, h1, h3.symm, h4.symm, h5.symm⟩
    · rintro ⟨h1, h2, h3, h4, h5⟩; exact ⟨h2, h1, h3.symm, h4.symm, h5.symm⟩
  cases h : a.eq b <;> cases h' : b.eq a <;> simp_all

/-- C53: after deactivation a partition is inactive, without rank, equal to nothing (itself
included), and deactivating again changes nothing. -/
theorem C53_deactivated (a b : PartObj) (ha : a.Reachable) :
    a.deactivate.active = false ∧ a.deactivate.eq b = false ∧ b.eq a.deactivate = false ∧
      a.deactivate.deactivate = a.deactivate ∧ (a.active = true → a.deactivate.rank = none ∧
        a.deactivate.size = -1) := by
  have hinv := ha.deactivate.inv
  have hact : a.deactivate.active = false := by
    unfold PartObj.deactivate PartObj.deactivateBase
    cases h1 : a.cart <;> cases h2 : a.active <;> simp [h2]
  have hcomm : a.deactivate.comm = none := by
    cases h : a.deactivate.comm with
    | none => rfl
    | some c =>
      have := hinv.1.2 (by simp [h])
      rw [hact] at this
      cases this
  refine ⟨hact, ?_, ?_, ?_, ?_⟩
  · simp [PartObj.eq, hcomm]
  · simp [PartObj.eq, hcomm]
  · unfold PartObj.deactivate PartObj.deactivateBase
    cases h1 : a.cart <;> cases h2 : a.active <;> simp [h1, h2]
  · intro h
    unfold PartObj.deactivate PartObj.deactivateBase
    cases h1 : a.cart <;> simp [h]

/-- C53: a Cartesian partition keeps its shape when deactivated; its index is gone. -/
theorem C53_cart_shape_kept (w : Nat) (comm : Option (Nat × List Nat)) (group : Option (List Nat))
    (shape : List Nat) :
    (PartObj.initCart w comm group shape).deactivate.shape =
        shape.map (fun (n : Nat) => (n : Int)) ∧
      (PartObj.initCart w comm group shape).deactivate.index = .none := by
  cases comm <;> exact ⟨rfl, rfl⟩

/-- C53: what a worker of the communicator reads off a new partition: it is active, its rank is its position among the
members, the extents multiply to the number of members, and the index is the rank of a plain partition and the place in
the grid of a Cartesian one.  Outside of the communicator there is no rank and no index. -/
theorem C53_attributes (w c : Nat) (ms : List Nat) (group : Option (List Nat)) (shape : List Nat) (hw : w ∈ ms)
    (hs : shape.prod = ms.length) :
    (∃ r, ms[r]? = some w ∧ (PartObj.init w (some (c, ms)) group).rank = some r ∧
      (PartObj.init w (some (c, ms)) group).index = .scalar (some r) ∧
      (PartObj.initCart w (some (c, ms)) group shape).rank = some r ∧
      ∃ i, (PartObj.initCart w (some (c, ms)) group shape).index = .coords i ∧ InBounds i shape ∧ flatC shape i = r) ∧
    (∀ o, o = PartObj.init w (some (c, ms)) group ∨ o = PartObj.initCart w (some (c, ms)) group shape →
      o.active = true ∧ o.size = (ms.length : Int) ∧ o.shape.prod = o.size ∧ o.comm = some c ∧
      o.group = some (group.getD ms)) ∧
    ∀ o, o = PartObj.init w none group ∨ o = PartObj.initCart w none group shape →
      o.active = false ∧ o.size = -1 ∧ o.rank = none ∧ o.index = .none ∧ o.comm = none := by
  refine ⟨⟨ms.idxOf w, by rw [List.getElem?_eq_getElem (List.idxOf_lt_length_of_mem hw), List.getElem_idxOf], rfl, rfl, rfl, _, rfl, ?_⟩, ?_, ?_⟩
  · exact getCoords_spec (hs ▸ List.idxOf_lt_length_of_mem hw)
  · have hp : ∀ l : List Nat, (l.map fun (n : Nat) => (n : Int)).prod = (l.prod : Nat) := by
      intro l
      induction l with
      | nil => rfl
      | cons a l ih => rw [List.map_cons, List.prod_cons, List.prod_cons, ih]; push_cast; rfl
    rintro o (rfl | rfl)
    · refine ⟨rfl, rfl, ?_, rfl, ?_⟩
      · simp [PartObj.init]
      · cases group <;> rfl
    · refine ⟨rfl, rfl, ?_, rfl, ?_⟩
      · show (shape.map fun (n : Nat) => (n : Int)).prod = (ms.length : Int)
        rw [hp, hs]
      · cases group <;> rfl
  · rintro o (rfl | rfl) <;> exact ⟨rfl, rfl, rfl, rfl, rfl⟩

/-- Worker 4 in a grid of two by two workers; the hypotheses of `C53_attributes`. -/
example : 4 ∈ [1, 4, 0, 7] ∧ [2, 2].prod = [1, 4, 0, 7].length ∧
    (PartObj.initCart 0 (some (9, [1, 4, 0, 7])) none [2, 2]).index = .coords [1, 0] := ⟨by decide, rfl, rfl⟩

example : (PartObj.initCart 4 (some (9, [1, 4])) none [2]).active = true ∧
    (PartObj.initCart 4 (some (9, [1, 4])) none [2]).index = .coords [1] := ⟨rfl, rfl⟩
example : (PartObj.init 4 (some (9, [1, 4])) none).eq (PartObj.init 4 (some (9, [1, 4])) none) = true :=
  rfl
example : (PartObj.init 4 (some (9, [1, 4])) none).eq (PartObj.init 4 (some (8, [1, 4])) none) = false :=
  rfl

/-! ## C55 -/

/-- C55: a sub-topology contains exactly the workers agreeing on all dropped coordinates, each of
its workers builds the same one, and it is again a well-formed Cartesian partition. -/
theorem C55_groups (P : Cart) (h : P.WF) (keep : List Bool) (hk : keep.length = P.shape.length)
    (w : Nat) (hw : w ∈ P.members) :
    (∀ v, v ∈ (cartSub P keep w).members ↔ v ∈ P.members ∧ ∀ d, d < P.shape.length →
      keep.getD d false = false → (getCoords P.shape (P.members.idxOf v)).getD d 0 =
        (getCoords P.shape (P.members.idxOf w)).getD d 0) ∧
    (∀ v ∈ (cartSub P keep w).members, cartSub P keep v = cartSub P keep w) ∧
    (cartSub P keep w).WF := by
  refine ⟨?_, ?_, ?_⟩
  · intro v
    simp only [cartSub, List.mem_filter, beq_iff_eq]
    refine and_congr_right fun _ => ?_
    rw [keepDims_eq_iff (by simp [length_getCoords, hk]) (by simp [length_getCoords, hk])]
    constructor
    · intro hh d hd hkd
      exact hh d ((getD_map_not keep d (by omega)).2 hkd)
    · intro hh d hkd
      by_cases hd : d < keep.length
      · exact hh d (by omega) ((getD_map_not keep d hd).1 hkd)
      · simp [List.getD_eq_getElem?_getD, List.getElem?_eq_none (Nat.le_of_not_lt hd)] at hkd
  · intro v hv
    simp only [cartSub, List.mem_filter, beq_iff_eq] at hv ⊢
    rw [hv.2]
  · refine ⟨h.nodup.filter _, ?_, fun n hn => h.pos n (mem_keepDims hn)⟩
    have := congrArg List.length (map_kept_cartSub h hk hw)
    rw [List.length_map, length_rangeIndex] at this
    exact this

/-- C55: a worker's index in its sub-topology is its index restricted to the kept dimensions. -/
theorem C55_index (P : Cart) (h : P.WF) (keep : List Bool) (hk : keep.length = P.shape.length)
    (w : Nat) (hw : w ∈ P.members) (v : Nat) (hv : v ∈ (cartSub P keep w).members) :
    (cartSub P keep w).index v = (P.index v).map (keepDims keep) := by
  have hvP : v ∈ P.members := by
    simp only [cartSub, List.mem_filter] at hv
    exact hv.1
  simp only [Cart.index, rankOf, hv, hvP, if_true, Option.map_some, cartesianIndex]
  congr 1
  have hmap := map_kept_cartSub h hk hw
  have hsh : (cartSub P keep w).shape = keepDims keep P.shape := rfl
  have hidx : (rangeIndex (keepDims keep P.shape)).idxOf
      (keepDims keep (getCoords P.shape (P.members.idxOf v))) =
      (cartSub P keep w).members.idxOf v := by
    rw [← hmap]
    refine idxOf_map_of_inj
      (fun v => keepDims keep (getCoords P.shape (P.members.idxOf v))) hv fun x hx hxe => ?_
    have hxP : x ∈ P.members := by
      simp only [cartSub, List.mem_filter] at hx
      exact hx.1
    refine coords_inj h hxP hvP (keepDims_ext (keep := keep) (by simp [length_getCoords, hk])
      (by simp [length_getCoords, hk]) hxe ?_)
    simp only [cartSub, List.mem_filter, beq_iff_eq] at hx hv
    rw [hx.2, hv.2]
  have hmem : keepDims keep (getCoords P.shape (P.members.idxOf v)) ∈
      rangeIndex (keepDims keep P.shape) := by
    rw [← hmap]; exact List.mem_map.2 ⟨v, hv, rfl⟩
  have hb := mem_rangeIndex.1 hmem
  rw [idxOf_rangeIndex hb] at hidx
  rw [hsh, ← hidx, getCoords_flatC hb]

example : (cartSub ⟨[10, 11, 12, 13, 14, 15], [2, 3], some 0⟩ [false, true] 14).members =
    [13, 14, 15] := by decide
example : (cartSub ⟨[10, 11, 12, 13, 14, 15], [2, 3], some 0⟩ [true, false] 14).members =
    [11, 14] := by decide

end Verif
