import Verif.AllReduce.Model
import Verif.Collective.Props

/-!
# All-sum-reduction: properties C25 and C26
-/

namespace Verif

/-- Workers `v` and `w` have the same coordinates in every dimension that is not reduced. -/
def SameKept (P : Cart) (axes : List Int) (w v : Nat) : Prop :=
  ∀ k < P.shape.length, (k : Int) ∉ axes → (P.coord v).getD k 0 = (P.coord w).getD k 0

instance (P : Cart) (axes : List Int) (w v : Nat) : Decidable (SameKept P axes w v) := by
  unfold SameKept; infer_instance

/-! ## Helpers -/

section
variable {P : Cart} {axes : List Int}

theorem mem_filtered (h : P.WF) {w v : Nat} (hv : v ∈ P.members) :
    matchesFilter (P.coord v) (assembleIndexFilter (P.coord w) axes true) =
      decide (SameKept P axes w v) := by
  have hb := coord_in h hv
  have h1 := (C05_filter P.shape (P.coord w) axes true (length_coord P w)).1 (P.coord v)
  unfold filteredRangeIndex at h1
  rw [List.mem_filter, mem_rangeIndex] at h1
  rw [Bool.eq_iff_iff, decide_eq_true_iff]
  have h2 : matchesFilter (P.coord v) (assembleIndexFilter (P.coord w) axes true) = true ↔
      ∀ k < P.shape.length, ((k : Int) ∈ axes ↔ true = false) → (P.coord v)[k]? = (P.coord w)[k]? :=
    ⟨fun e => (h1.1 ⟨hb, e⟩).2, fun e => (h1.2 ⟨hb, e⟩).2⟩
  rw [h2]
  unfold SameKept
  constructor
  · intro hh k hk hax
    have := hh k hk (by simp [hax])
    rw [List.getD_eq_getElem?_getD, List.getD_eq_getElem?_getD, this]
  · intro hh k hk hax
    have := hh k hk (by simpa using hax)
    have l1 : k < (P.coord v).length := by rw [length_coord]; exact hk
    have l2 : k < (P.coord w).length := by rw [length_coord]; exact hk
    rw [List.getD_eq_getElem?_getD, List.getD_eq_getElem?_getD, List.getElem?_eq_getElem l1,
      List.getElem?_eq_getElem l2] at this
    rw [List.getElem?_eq_getElem l1, List.getElem?_eq_getElem l2]
    exact congrArg some this

/-- The group of worker `w`. -/
def keptGroup (P : Cart) (axes : List Int) (w : Nat) : List Nat :=
  P.members.filter fun v => decide (SameKept P axes w v)

theorem filtered_eq (h : P.WF) {w : Nat} :
    filteredRangeIndex P.shape (assembleIndexFilter (P.coord w) axes true) =
      (keptGroup P axes w).map P.coord := by
  unfold filteredRangeIndex keptGroup
  rw [← map_coords_members h.nodup h.size]
  show ((P.members.map P.coord).filter _) = _
  rw [List.filter_map]
  congr 1
  exact List.filter_congr fun v hv => mem_filtered h hv

theorem prod_masked (shape : List Nat) (p : Nat → Bool) :
    ((List.range shape.length).map fun k => if p k then shape.getD k 0 else 1).prod =
      (keepDims ((List.range shape.length).map p) shape).prod := by
  induction shape generalizing p with
  | nil => simp [keepDims]
  | cons n ns ih =>
    have := ih fun k => p (k + 1)
    simp only [List.length_cons, List.range_succ_eq_map, List.map_cons, List.map_map,
      List.prod_cons, List.getD_cons_zero]
    have e : ((List.range ns.length).map ((fun k => if p k then (n :: ns).getD k 0 else 1) ∘ Nat.succ))
        = (List.range ns.length).map fun k => if p (k + 1) then ns.getD k 0 else 1 := rfl
    have e2 : (List.range ns.length).map (p ∘ Nat.succ) = (List.range ns.length).map fun k => p (k + 1)
        := rfl
    rw [e, e2, this]
    cases hp : p 0 <;> simp [keepDims]

theorem length_keptGroup (h : P.WF) {w : Nat} (hw : w ∈ P.members) :
    (keptGroup P axes w).length = ((List.range P.shape.length).map fun (k : Nat) =>
      if (k : Int) ∈ axes then P.shape.getD k 0 else 1).prod := by
  let K : List Bool := (List.range P.shape.length).map fun (k : Nat) => decide ((k : Int) ∈ axes)
  have hK : K.length = P.shape.length := by simp [K]
  have hm : keptGroup P axes w = (cartSub P K w).members := by
    unfold keptGroup cartSub
    refine List.filter_congr fun v _ => ?_
    have h1 : ∀ u, (P.coord u).length = (K.map (!·)).length := by
      intro u; rw [length_coord, List.length_map, hK]
    rw [Bool.eq_iff_iff, decide_eq_true_iff, beq_iff_eq]
    have := keepDims_eq_iff (h1 v) (h1 w)
    unfold Cart.coord at this
    rw [this]
    unfold SameKept
    constructor
    · intro hh d hd
      have hlt : d < K.length := by
        by_contra hge
        rw [List.getD_eq_default _ _ (by simpa using hge)] at hd
        cases hd
      rw [getD_map_not _ _ hlt] at hd
      have hd' : (d : Int) ∉ axes := by
        rw [List.getD_eq_getElem?_getD, List.getElem?_eq_getElem hlt] at hd
        simpa [K] using hd
      exact hh d (hK ▸ hlt) hd'
    · intro hh d hd hax
      refine hh d ((getD_map_not _ _ (hK.symm ▸ hd)).2 ?_)
      rw [List.getD_eq_getElem?_getD, List.getElem?_eq_getElem (hK.symm ▸ hd)]
      simpa [K] using hax
  rw [hm, (C55_groups P h K hK w hw).2.2.size]
  have := prod_masked P.shape fun k => decide ((k : Int) ∈ axes)
  simp only [decide_eq_true_eq] at this
  rw [this]
  rfl

theorem nodup_keptGroup (h : P.WF) (w : Nat) : (keptGroup P axes w).Nodup := h.nodup.filter _

/-- The shape of the all-reduction partition. -/
def keptShape (P : Cart) (axes : List Int) : List Nat :=
  (List.range P.shape.length).map fun (k : Nat) => if (k : Int) ∈ axes then P.shape.getD k 0 else 1

theorem allreduction_eq (h : P.WF) (hax : ∀ d ∈ axes, d < P.shape.length) {w : Nat}
    (hw : w ∈ P.members) :
    allreductionPartition P axes w = .value ⟨keptGroup P axes w, keptShape P axes, P.root⟩ := by
  have hflat : ∀ v ∈ P.members, flatC P.shape (P.coord v) = P.members.idxOf v := fun v hv =>
    (getCoords_spec (h.size ▸ List.idxOf_lt_length_of_mem hv)).2
  have hsub : ∀ v ∈ keptGroup P axes w, v ∈ P.members := fun v hv => List.mem_of_mem_filter hv
  unfold allreductionPartition
  rw [Cart.index_eq hw]
  have h0 : (axes.any fun d => decide ((P.shape.length : Int) ≤ d)) = false := by
    rw [List.any_eq_false]
    intro d hd
    have := hax d hd
    simpa using this
  simp only [h0, Bool.false_eq_true, if_false]
  rw [filtered_eq h, mapM_eq_some _ (flatC P.shape) _ fun i hi => ?_]
  · simp only [List.map_map]
    have hr : (keptGroup P axes w).map (flatC P.shape ∘ P.coord) =
        (keptGroup P axes w).map P.members.idxOf :=
      List.map_congr_left fun v hv => hflat v (hsub v hv)
    have hinc : createInclusive ⟨P.members, P.root⟩
        ((keptGroup P axes w).map (flatC P.shape ∘ P.coord)) =
        some ⟨keptGroup P axes w, P.root⟩ := by
      unfold createInclusive groupIncl
      rw [hr, if_pos]
      · simp only [Option.map_some, List.map_map]
        congr 2
        conv_rhs => rw [← List.map_id (keptGroup P axes w)]
        exact List.map_congr_left fun v hv => getD_idxOf (hsub v hv)
      · refine ⟨?_, ?_⟩
        · refine (nodup_keptGroup h w).map_on fun a ha b hb e => ?_
          exact (List.idxOf_inj (hsub a ha)).1 e
        · intro r hr
          obtain ⟨v, hv, rfl⟩ := List.mem_map.1 hr
          exact List.idxOf_lt_length_of_mem (hsub v hv)
    rw [hinc]
    simp only [createCartesian]
    rw [if_pos]
    · rfl
    · refine ⟨?_, (length_keptGroup h hw).symm⟩
      intro n hn
      obtain ⟨k, hk, rfl⟩ := List.mem_map.1 hn
      split
      · have hk' := List.mem_range.1 hk
        rw [List.getD_eq_getElem?_getD, List.getElem?_eq_getElem hk']
        exact h.pos _ (List.getElem_mem hk')
      · exact Nat.one_pos
  · obtain ⟨v, hv, rfl⟩ := List.mem_map.1 hi
    exact getCartRank_cast (coord_in h (hsub v hv))

theorem SameKept.refl (w : Nat) : SameKept P axes w w := fun _ _ _ => rfl
theorem SameKept.symm {w v : Nat} (h : SameKept P axes w v) : SameKept P axes v w :=
  fun k hk ha => (h k hk ha).symm
theorem SameKept.trans {u w v : Nat} (h : SameKept P axes u w) (h' : SameKept P axes w v) :
    SameKept P axes u v := fun k hk ha => (h' k hk ha).trans (h k hk ha)

theorem keptGroup_congr {w v : Nat} (h : SameKept P axes w v) :
    keptGroup P axes v = keptGroup P axes w :=
  List.filter_congr fun _ _ => decide_eq_decide.2 ⟨fun h' => h.trans h', fun h' => h.symm.trans h'⟩

theorem mem_keptGroup {w v : Nat} : v ∈ keptGroup P axes w ↔ v ∈ P.members ∧ SameKept P axes w v := by
  unfold keptGroup
  rw [List.mem_filter, decide_eq_true_iff]

end

/-! ## C25 -/

/-- C25, groups: the all-reduction partition of a worker holds exactly the workers agreeing with it
on all dimensions that are not reduced, among them itself, and all of these build the same
partition. -/
theorem C25_groups (P : Cart) (h : P.WF) (axes : List Int) (hax : ∀ d ∈ axes, d < P.shape.length)
    (w : Nat) (hw : w ∈ P.members) :
    ∃ C, allreductionPartition P axes w = .value C ∧ C.WF ∧
      (∀ v, v ∈ C.members ↔ v ∈ P.members ∧ SameKept P axes w v) ∧ w ∈ C.members ∧
      ∀ v ∈ C.members, allreductionPartition P axes v = .value C := by
  refine ⟨_, allreduction_eq h hax hw, ⟨nodup_keptGroup h w, length_keptGroup h hw, ?_⟩,
    fun v => mem_keptGroup, mem_keptGroup.2 ⟨hw, SameKept.refl w⟩, ?_⟩
  · intro n hn
    obtain ⟨k, hk, rfl⟩ := List.mem_map.1 hn
    split
    · have hk' := List.mem_range.1 hk
      rw [List.getD_eq_getElem?_getD, List.getElem?_eq_getElem hk']
      exact h.pos _ (List.getElem_mem hk')
    · exact Nat.one_pos
  · intro v hv
    obtain ⟨h1, h2⟩ := mem_keptGroup.1 hv
    rw [allreduction_eq h hax h1, keptGroup_congr h2]

/-- The tensors `y` have, on every worker, the shape and type of the tensors `x`, which agree within
groups. -/
def GroupKinds {S : Type} (P : Cart) (axes : List Int) (x y : Nat → Tensor S) : Prop :=
  (∀ w ∈ P.members, ∀ v ∈ P.members, SameKept P axes w v →
    (x v).shape = (x w).shape ∧ (x v).dtype = (x w).dtype) ∧
  ∀ w ∈ P.members, (y w).shape = (x w).shape ∧ (y w).dtype = (x w).dtype

section
variable {S : Type} [AddCommMonoid S] {P : Cart} {axes : List Int} {x y : Nat → Tensor S}

theorem allReduce_calls (h : P.WF) (hax : ∀ d ∈ axes, d < P.shape.length) {w u : Nat}
    (hu : u ∈ keptGroup P axes w) :
    callsOn (allReduceActs P axes x y u) (keptGroup P axes w) = [⟨y u, zerosLike (x u)⟩] := by
  obtain ⟨h1, h2⟩ := mem_keptGroup.1 hu
  unfold allReduceActs
  rw [allreduction_eq h hax h1]
  simp only [keptGroup_congr h2, callsOn_post_eq, callsOn_wait, callsOn_nil]

theorem allReduce_value (h : P.WF) (hax : ∀ d ∈ axes, d < P.shape.length)
    (hk : GroupKinds P axes x y) {w : Nat} (hw : w ∈ P.members) :
    allReduceOut P axes x y w = some ⟨(x w).shape, (x w).dtype,
      fun i => ((keptGroup P axes w).map fun v => (y v).val i).sum⟩ := by
  unfold allReduceOut
  split
  · rename_i hc
    have h1 : P.members.length = 1 := hc.resolve_left (by simpa using hw)
    obtain ⟨m, hm⟩ := List.length_eq_one_iff.1 h1
    have hwm : w = m := by simpa [hm] using hw
    have hg : keptGroup P axes w = [w] := by
      unfold keptGroup
      rw [hm, ← hwm]
      simp [SameKept.refl]
    rw [hg]
    have := hk.2 w hw
    simp only [List.map_cons, List.map_nil, List.sum_cons, List.sum_nil, add_zero, ← this.1,
      ← this.2]
  · rw [allreduction_eq h hax hw]
    simp only []
    rw [matched_eq (f := fun u => ⟨y u, zerosLike (x u)⟩) fun u hu => by
      rw [allReduce_calls h hax hu]; rfl]
    simp only [Option.bind_some, allreduceResult]
    rw [if_pos]
    · simp only [zerosLike, List.map_map]
      rfl
    · rw [List.all_eq_true]
      intro c hc
      obtain ⟨u, hu, rfl⟩ := List.mem_map.1 hc
      obtain ⟨h1, h2⟩ := mem_keptGroup.1 hu
      have a := hk.1 w hw u h1 h2
      have b := hk.2 u h1
      simp [sameKind, zerosLike, a.1, a.2, b.1, b.2]

end

/-- C25, values: forward gives every worker the sum over exactly the workers agreeing with it on the
dimensions that are not reduced; backward the same of the gradients; workers of one group get the
same tensor; other workers keep theirs. -/
theorem C25_sum {S : Type} [AddCommMonoid S] (P : Cart) (h : P.WF) (axes : List Int)
    (hax : ∀ d ∈ axes, d < P.shape.length) (x y : Nat → Tensor S) (hk : GroupKinds P axes x y) :
    (∀ w ∈ P.members, allReduceOut P axes x y w = some ⟨(x w).shape, (x w).dtype, fun i =>
      ((P.members.filter fun v => decide (SameKept P axes w v)).map fun v => (y v).val i).sum⟩) ∧
    (∀ w ∈ P.members, ∀ v ∈ P.members, SameKept P axes w v →
      allReduceOut P axes x y v = allReduceOut P axes x y w) ∧
    (∀ w, w ∉ P.members → allReduceOut P axes x y w = some (y w)) := by
  refine ⟨fun w hw => allReduce_value h hax hk hw, fun w hw v hv hs => ?_, fun w hw => ?_⟩
  · rw [allReduce_value h hax hk hw, allReduce_value h hax hk hv, keptGroup_congr hs,
      (hk.1 w hw v hv hs).1, (hk.1 w hw v hv hs).2]
  · unfold allReduceOut
    rw [if_pos (Or.inl hw)]

/-- C25, self-adjointness: `⟨A x, y⟩ = ⟨x, A y⟩` where `A x` is computed by forward and `A y` by
backward. -/
theorem C25_self_adjoint {S : Type} [CommSemiring S] (P : Cart) (h : P.WF) (axes : List Int)
    (hax : ∀ d ∈ axes, d < P.shape.length) (x y : Nat → Tensor S) (hk : GroupKinds P axes x y) :
    ∃ Ax Ay : Nat → Tensor S,
      (∀ w ∈ P.members, allReduceOut P axes x x w = some (Ax w)) ∧
      (∀ w ∈ P.members, allReduceOut P axes x y w = some (Ay w)) ∧
      (P.members.map fun w => inner (Ax w) (y w)).sum =
        (P.members.map fun w => inner (x w) (Ay w)).sum := by
  have hkx : GroupKinds P axes x x := ⟨hk.1, fun _ _ => ⟨rfl, rfl⟩⟩
  refine ⟨_, _, fun w hw => allReduce_value h hax hkx hw, fun w hw => allReduce_value h hax hk hw, ?_⟩
  -- both sides are double sums over pairs of agreeing workers
  have key : ∀ (f : Nat → Nat → S) (l m : List Nat),
      (l.map fun w => (m.map fun v => f w v).sum).sum =
        (m.map fun v => (l.map fun w => f w v).sum).sum := by
    intro f l m
    induction l with
    | nil => simp
    | cons a l ih => simp only [List.map_cons, List.sum_cons, ih, List.sum_map_add]
  let F : Nat → Nat → S := fun w v =>
    if SameKept P axes w v then boxSum (x w).shape (fun i => (x v).val i * (y w).val i) else 0
  let F' : Nat → Nat → S := fun w v =>
    if SameKept P axes w v then boxSum (x w).shape (fun i => (x w).val i * (y v).val i) else 0
  have h1 : ∀ w ∈ P.members, inner (⟨(x w).shape, (x w).dtype,
      fun i => ((keptGroup P axes w).map fun v => (x v).val i).sum⟩ : Tensor S) (y w) =
      (P.members.map fun v => F w v).sum := by
    intro w _
    show boxSum _ _ = _
    rw [sum_map_ite (p := fun v => SameKept P axes w v), boxSum_list_sum]
    apply boxSum_congr
    intro i _
    rw [List.sum_map_mul_right]
    rfl
  have h2 : ∀ w ∈ P.members, inner (x w) (⟨(x w).shape, (x w).dtype,
      fun i => ((keptGroup P axes w).map fun v => (y v).val i).sum⟩ : Tensor S) =
      (P.members.map fun v => F' w v).sum := by
    intro w _
    show boxSum _ _ = _
    rw [sum_map_ite (p := fun v => SameKept P axes w v), boxSum_list_sum]
    apply boxSum_congr
    intro i _
    rw [List.sum_map_mul_left]
    rfl
  rw [List.map_congr_left h1, List.map_congr_left h2, key F]
  congr 1
  apply List.map_congr_left
  intro v hv
  congr 1
  apply List.map_congr_left
  intro w hw
  show (if _ then _ else _) = if _ then _ else _
  by_cases hs : SameKept P axes w v
  · rw [if_pos hs, if_pos hs.symm, (hk.1 w hw v hv hs).1]
  · rw [if_neg hs, if_neg fun e => hs e.symm]

/-- C25: the collectives cannot deadlock. -/
theorem C25_terminates {S : Type} [AddCommMonoid S] (P : Cart) (h : P.WF) (axes : List Int)
    (hax : ∀ d ∈ axes, d < P.shape.length) (x y : Nat → Tensor S) :
    SafeRun P.members (allReduceActs P axes x y) := by
  have hform : ∀ w ∈ P.members, allReduceActs P axes x y w =
      [.post (keptGroup P axes w) ⟨y w, zerosLike (x w)⟩, .wait (keptGroup P axes w) 0] := by
    intro w hw
    unfold allReduceActs
    rw [allreduction_eq h hax hw]
  refine safe_of h.nodup ?_ ?_ ?_
  · intro w hw g k hm u hu
    rw [hform w hw] at hm
    simp at hm
    obtain ⟨rfl, rfl⟩ := hm
    refine ⟨(mem_keptGroup.1 hu).1, ?_⟩
    rw [allReduce_calls h hax hu]
    simp
  · intro w hw
    rw [hform w hw]
    simp [instrs]
  · intro w hw g k hk
    rw [hform w hw] at hk ⊢
    rw [callsOn_post, callsOn_wait, callsOn_nil] at hk
    split at hk
    · rename_i e
      simp at hk
      simp [e, hk]
    · simp at hk

/-- A `2 x 3` partition on workers 10..15, reduced over dimension 0. -/
def exA : Cart := ⟨[10, 11, 12, 13, 14, 15], [2, 3], some 0⟩

theorem exA_wf : exA.WF := ⟨by decide, by decide, by decide⟩

def exAx : Nat → Tensor Int := fun w => ⟨[2], .float32, fun i => (w : Int) + (i.getD 0 0 : Nat)⟩

example : GroupKinds exA [0] exAx exAx := ⟨fun _ _ _ _ _ => ⟨rfl, rfl⟩, fun _ _ => ⟨rfl, rfl⟩⟩
example : allreductionPartition exA [0] 14 = .value ⟨[11, 14], [2, 1], some 0⟩ := by decide
example : (allReduceOut exA [0] exAx exAx 14).map (fun t => (t.shape, t.val [1])) = some ([2], 27) := by
  decide

/-! ## C26 -/

/-- C26, complement: keeping axes is reducing over the others; giving both or none is rejected. -/
theorem C26_complement (P : Cart) (w : Nat) (k : List Int) :
    (allReduceSetup P none (some k) w = allReduceSetup P (some
        (((List.range P.shape.length).map fun (n : Nat) => (n : Int)).filter fun d => !k.contains d))
      none w) ∧
    (∀ d : Nat, (d : Int) ∈ ((List.range P.shape.length).map fun (n : Nat) => (n : Int)).filter
        (fun d => !k.contains d) ↔ d < P.shape.length ∧ (d : Int) ∉ k) ∧
    (∀ r, allReduceSetup P (some r) (some k) w = .raises) ∧
    allReduceSetup P none none w = .raises := by
  refine ⟨rfl, fun d => ?_, fun r => rfl, rfl⟩
  simp [List.mem_filter]

/-- C26, values: reducing over `r` and keeping `k` give the same results when every dimension of the
partition is in exactly one of the two. -/
theorem C26_keep_eq_reduce {S : Type} [AddCommMonoid S] (P : Cart) (h : P.WF) (r k : List Int)
    (hr : ∀ d ∈ r, d < P.shape.length)
    (hc : ∀ d : Nat, d < P.shape.length → ((d : Int) ∈ r ↔ (d : Int) ∉ k))
    (x y : Nat → Tensor S) (hk : GroupKinds P r x y) :
    ∃ a, axesReduce P.shape.length none (some k) = some a ∧
      ∀ w, allReduceOut P a x y w = allReduceOut P r x y w := by
  refine ⟨_, rfl, fun w => ?_⟩
  set a := ((List.range P.shape.length).map fun (n : Nat) => (n : Int)).filter
    fun d => !k.contains d with ha
  have hmem : ∀ d : Nat, d < P.shape.length → ((d : Int) ∈ a ↔ (d : Int) ∈ r) := by
    intro d hd
    rw [hc d hd, ha]
    simp [List.mem_filter, hd]
  have hss : ∀ w v, SameKept P a w v ↔ SameKept P r w v := by
    intro w v
    unfold SameKept
    exact forall_congr' fun d => forall_congr' fun hd => by rw [hmem d hd]
  have hlt : ∀ d ∈ a, d < P.shape.length := by
    intro d hd
    rw [ha] at hd
    simp only [List.mem_filter, List.mem_map, List.mem_range] at hd
    obtain ⟨⟨n, hn, rfl⟩, _⟩ := hd
    omega
  have hka : GroupKinds P a x y := ⟨fun w hw v hv hs => hk.1 w hw v hv ((hss w v).1 hs), hk.2⟩
  by_cases hw : w ∈ P.members
  · rw [(C25_sum P h a hlt x y hka).1 w hw, (C25_sum P h r hr x y hk).1 w hw]
    simp only [hss]
  · rw [(C25_sum P h a hlt x y hka).2.2 w hw, (C25_sum P h r hr x y hk).2.2 w hw]

/-- C26, rejection, what holds: on a partition of several workers an axis to reduce beyond the last
dimension is rejected by every participating worker.  Missing: negative axes, axes to keep, and
partitions of one worker, for which see `C26_false`. -/
theorem C26_rejects_partial (P : Cart) (r : List Int) (w : Nat) (hw : w ∈ P.members)
    (hsize : P.members.length ≠ 1) (hd : ∃ d ∈ r, (P.shape.length : Int) ≤ d) :
    allReduceSetup P (some r) none w = .raises := by
  obtain ⟨d, hd, hle⟩ := hd
  unfold allReduceSetup axesReduce
  simp only []
  rw [if_neg (by simp [hw, hsize])]
  unfold allreductionPartition
  rw [Cart.index_eq hw]
  simp only []
  rw [if_pos]
  rw [List.any_eq_true]
  exact ⟨d, hd, by simpa using hle⟩

example : allReduceSetup exA (some [0, 2]) none 12 = .raises := by decide

/-- The full claim of C26 on rejection is false: a negative axis is accepted and silently ignored (the
worker is left alone in its group), and so is an axis to keep outside the partition. -/
theorem C26_false :
    (¬ ∀ (P : Cart) (r : List Int) (w : Nat), P.WF → w ∈ P.members → P.members.length ≠ 1 →
      (∃ d ∈ r, d < 0 ∨ (P.shape.length : Int) ≤ d) →
      allReduceSetup P (some r) none w = .raises) ∧
    (¬ ∀ (P : Cart) (k : List Int) (w : Nat), P.WF → w ∈ P.members → P.members.length ≠ 1 →
      (∃ d ∈ k, d < 0 ∨ (P.shape.length : Int) ≤ d) →
      allReduceSetup P none (some k) w = .raises) ∧
    allReduceSetup exA (some [-1]) none 12 = .value ⟨[12], [1, 1], some 0⟩ := by
  refine ⟨fun hh => ?_, fun hh => ?_, by decide⟩
  · have := hh exA [-1] 12 exA_wf (by decide) (by decide) ⟨-1, by simp, Or.inl (by decide)⟩
    revert this; decide
  · have := hh exA [5] 12 exA_wf (by decide) (by decide) ⟨5, by simp, Or.inr (by decide)⟩
    revert this; decide

end Verif
