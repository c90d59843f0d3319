import Verif.Collective.Data

/-!
# Broadcast and sum-reduction layers: properties C22, C23 and C30

Entries range over an arbitrary commutative monoid (data movement) or semiring (adjointness): sums
are exact and their order does not matter, unlike in floating point.
-/

namespace Verif

instance (S c d : List Nat) : Decidable (Agree S c d) := by unfold Agree; infer_instance

/-- What the caller of `Broadcast` guarantees: the placements obey the broadcast rule; two partitions
that compare equal are equal; with a flag on one side only, the source has one dimension that is not
1 (the other case is the subject of C24). -/
structure BcastLayer (L : PairLayer) : Prop where
  valid : BcastValid L.Px L.Py L.ts L.td
  same : L.same = true → L.Px = L.Py
  straight : L.ts = L.td ∨ (L.Px.shape.filter fun n => n != 1).length ≤ 1

/-- The same for `SumReduce`, with the roles of the partitions exchanged. -/
structure ReduceLayer (L : PairLayer) : Prop where
  valid : BcastValid L.Py L.Px L.td L.ts
  same : L.same = true → L.Px = L.Py
  straight : L.td = L.ts ∨ (L.Py.shape.filter fun n => n != 1).length ≤ 1

/-- Destination `v` of the broadcast belongs to source `r`. -/
def PairLayer.Feeds (L : PairLayer) (r v : Nat) : Prop :=
  Agree (turn L.ts L.Px.shape) (turn L.ts (L.Px.coord r)) (turn L.td (L.Py.coord v))

/-- Source `v` of the reduction belongs to destination `r`. -/
def PairLayer.Collects (L : PairLayer) (r v : Nat) : Prop :=
  Agree (turn L.td L.Py.shape) (turn L.td (L.Py.coord r)) (turn L.ts (L.Px.coord v))

instance (L : PairLayer) (r v : Nat) : Decidable (L.Feeds r v) := by
  unfold PairLayer.Feeds; infer_instance

instance (L : PairLayer) (r v : Nat) : Decidable (L.Collects r v) := by
  unfold PairLayer.Collects; infer_instance

/-- With `preserve_batch` the participating workers' tensors have at least one dimension. -/
def HasBatch {S : Type} (L : PairLayer) (x : Nat → Tensor S) : Prop :=
  L.preserveBatch = true → ∀ u, u ∈ L.Px.members ∨ u ∈ L.Py.members → (x u).shape ≠ []

/-- Inner product of the first tensor with the second, over the entries of the first. -/
def inner {S : Type} [Semiring S] (a b : Tensor S) : S := boxSum a.shape fun i => a.val i * b.val i

/-! ## Helpers -/

theorem BcastLayer.rel {L : PairLayer} (h : BcastLayer L) {r v : Nat} (hr : r ∈ L.Px.members)
    (hv : v ∈ L.Py.members) : L.Feeds r v ↔ L.broot v = r :=
  rel_iff_root (bcast_star h.valid) (C24_transposed_partial L.Px L.Py L.ts L.td h.valid h.straight)
    (fun v sr e => by simp only [e, recvOf]) hr hv

theorem BcastLayer.root_mem {L : PairLayer} (h : BcastLayer L) {v : Nat} (hv : v ∈ L.Py.members) :
    L.broot v ∈ L.Px.members := (h.valid.cross.rootOf_spec hv).1

theorem ReduceLayer.rel {L : PairLayer} (h : ReduceLayer L) {r v : Nat} (hr : r ∈ L.Py.members)
    (hv : v ∈ L.Px.members) : L.Collects r v ↔ L.rroot v = r :=
  rel_iff_root (reduce_star h.valid)
    (C24_transposed_reduction_partial L.Px L.Py L.ts L.td h.valid h.straight)
    (fun v sr e => by simp only [e, sendOf]) hr hv

theorem ReduceLayer.root_mem {L : PairLayer} (h : ReduceLayer L) {v : Nat}
    (hv : v ∈ L.Px.members) : L.rroot v ∈ L.Py.members := (h.valid.crossR.rootOf_spec hv).1

theorem HasBatch.hb {S : Type} {L : PairLayer} {x : Nat → Tensor S} (h : HasBatch L x) :
    ∀ u, u ∈ L.Px.members ∨ u ∈ L.Py.members → L.preserveBatch = true → (x u).shape ≠ [] :=
  fun u hu e => h e u hu

theorem boxSum_list_sum {S : Type} [Semiring S] (sh : List Nat) (l : List Nat)
    (f : Nat → List Nat → S) :
    (l.map fun v => boxSum sh (f v)).sum = boxSum sh fun i => (l.map fun v => f v i).sum := by
  induction l with
  | nil => simp [boxSum_zero]
  | cons a l ih => simp only [List.map_cons, List.sum_cons, ih, boxSum_add]

/-- Copying to the leaves and summing over the leaves are adjoint. -/
theorem star_adjoint {S : Type} [Semiring S] {R D : List Nat} (hR : R.Nodup) {root : Nat → Nat}
    (hin : ∀ v ∈ D, root v ∈ R) (x y : Nat → Tensor S) :
    (D.map fun v => inner (x (root v)) (y v)).sum =
      (R.map fun r => boxSum (x r).shape fun i => (x r).val i *
        ((D.filter fun v => decide (root v = r)).map fun v => (y v).val i).sum).sum := by
  rw [sum_by_root hR D hin fun r v => inner (x r) (y v)]
  congr 1
  apply List.map_congr_left
  intro r _
  unfold inner
  rw [boxSum_list_sum]
  congr 1
  funext i
  rw [List.sum_map_mul_left]

/-! ## C22 -/

/-- C22 forward: every destination gets the tensor of the one source it belongs to; a worker that is
only a source gets a tensor without entries; other workers keep their tensor. -/
theorem C22_forward {S : Type} [AddCommMonoid S] (L : PairLayer) (h : BcastLayer L) (I : Inputs S)
    (hb : HasBatch L I.x) :
    (∀ v ∈ L.Py.members, ∃ r ∈ L.Px.members, L.Feeds r v ∧
      (∀ r' ∈ L.Px.members, L.Feeds r' v → r' = r) ∧ bcastForward L I v = some (I.x r)) ∧
    (∀ w ∈ L.Px.members, w ∉ L.Py.members →
      ∃ z, bcastForward L I w = some z ∧ z.shape.prod = 0) ∧
    (∀ w, w ∉ L.Px.members → w ∉ L.Py.members → bcastForward L I w = some (I.x w)) := by
  refine ⟨fun v hv => ?_, fun w hx hy => bcast_forward_other h.valid h.same hb.hb hy hx,
    fun w hx hy => ?_⟩
  · have hr := h.root_mem hv
    exact ⟨L.broot v, hr, (h.rel hr hv).2 rfl, fun r' hr' e => ((h.rel hr' hv).1 e).symm,
      bcast_forward_root h.valid h.same hb.hb hv⟩
  · unfold bcastForward PairLayer.run
    split
    · rfl
    · rw [if_pos ⟨hx, hy⟩]

/-- The gradients `y` fit the outputs of the broadcast of `x`. -/
def BcastGrads {S : Type} (L : PairLayer) (x y : Nat → Tensor S) : Prop :=
  ∀ r ∈ L.Px.members, ∀ v ∈ L.Py.members, L.Feeds r v →
    (y v).shape = (x r).shape ∧ (y v).dtype = (x r).dtype

/-- C22 backward: every source gets the sum of the gradients of its destinations, each counted once;
a worker that is only a destination gets a tensor without entries. -/
theorem C22_backward {S : Type} [AddCommMonoid S] (L : PairLayer) (h : BcastLayer L) (I : Inputs S)
    (y : Nat → Tensor S) (hy : BcastGrads L I.x y) (hb : HasBatch L y) :
    (∀ r ∈ L.Px.members, bcastBackward L I y r = some ⟨(I.x r).shape, (I.x r).dtype, fun i =>
      ((L.Py.members.filter fun v => decide (L.Feeds r v)).map fun v => (y v).val i).sum⟩) ∧
    (∀ w ∈ L.Py.members, w ∉ L.Px.members →
      ∃ z, bcastBackward L I y w = some z ∧ z.shape.prod = 0) := by
  refine ⟨fun r hr => ?_, fun w h1 h2 => bcast_backward_other h.valid h.same hb.hb h2 h1⟩
  rw [bcast_backward_root h.valid h.same
    (fun v hv => hy _ (h.root_mem hv) v hv ((h.rel (h.root_mem hv) hv).2 rfl)) hb.hb hr]
  congr 2
  funext i
  rw [List.filter_congr fun v hv => decide_eq_decide.2 (h.rel hr hv).symm]

/-- C22 adjointness: `⟨B x, y⟩ = ⟨x, B* y⟩`, summed over all destinations and all sources. -/
theorem C22_adjoint {S : Type} [Semiring S] (L : PairLayer) (h : BcastLayer L) (I : Inputs S)
    (y : Nat → Tensor S) (hy : BcastGrads L I.x y) (hbx : HasBatch L I.x) (hby : HasBatch L y) :
    ∃ Bx By : Nat → Tensor S,
      (∀ v ∈ L.Py.members, bcastForward L I v = some (Bx v)) ∧
      (∀ r ∈ L.Px.members, bcastBackward L I y r = some (By r)) ∧
      (L.Py.members.map fun v => inner (Bx v) (y v)).sum =
        (L.Px.members.map fun r => inner (I.x r) (By r)).sum := by
  refine ⟨fun v => I.x (L.broot v), fun r => ⟨(I.x r).shape, (I.x r).dtype, fun i =>
      ((L.Py.members.filter fun v => decide (L.broot v = r)).map fun v => (y v).val i).sum⟩,
    fun v hv => bcast_forward_root h.valid h.same hbx.hb hv,
    fun r hr => bcast_backward_root h.valid h.same
      (fun v hv => hy _ (h.root_mem hv) v hv ((h.rel (h.root_mem hv) hv).2 rfl)) hby.hb hr, ?_⟩
  exact star_adjoint h.valid.wfs.nodup (fun v hv => h.root_mem hv) I.x y

/-- The collectives of forward and backward cannot deadlock. -/
theorem C22_terminates {S : Type} [AddCommMonoid S] (L : PairLayer) (h : BcastLayer L)
    (I : Inputs S) (y : Nat → Tensor S) (hbx : HasBatch L I.x) (hby : HasBatch L y) :
    SafeRun (groupUnion L.Px.members L.Py.members) (bcastActs L I) ∧
    SafeRun (groupUnion L.Px.members L.Py.members) (bcastBackActs L I y) :=
  ⟨copy_safe (bcast_star h.valid) (nodup_groupUnion h.valid.wfs.nodup h.valid.wfd.nodup)
      (fun _ hu => mem_groupUnion.2 hu) hbx.hb fun _ hv => bstruct_zeros h.valid hv,
    sum_safe (zr := fun u => ⟨(I.x u).shape, (I.x u).dtype, fun _ => 0⟩)
      (bcast_star h.valid) (nodup_groupUnion h.valid.wfs.nodup h.valid.wfd.nodup)
      (fun _ hu => mem_groupUnion.2 hu) hby.hb (fun _ _ _ => rfl)
      fun _ hv => bstruct_zeros h.valid hv⟩

/-- Sources 4,5,6 (shape 3), destinations 0..5 (shape 2 x 3). -/
def exBL : PairLayer := ⟨exBx, exBy, false, false, true, false⟩

theorem exBL_ok : BcastLayer exBL := ⟨exB_valid, by simp [exBL], Or.inl rfl⟩

/-- Worker `w` holds a `1 x 2` tensor with entries `10 w` and `10 w + 1`. -/
def exBI : Inputs Int :=
  ⟨fun w => ⟨[1, 2], .float64, fun i => 10 * (w : Int) + (i.getD 1 0 : Nat)⟩, fun _ => true⟩

example : HasBatch exBL exBI.x := fun _ _ _ => by simp [exBI]
example : BcastGrads exBL exBI.x exBI.x := fun _ _ _ _ _ => ⟨rfl, rfl⟩

example : (bcastForward exBL exBI 4).map (fun t => (t.shape, t.val [0, 1])) = some ([1, 2], 51) := by
  decide
example : (bcastForward exBL exBI 6).map (fun t => t.shape) = some [1, 0] := by decide
/-- Source 4 feeds 0 and 3. -/
example : (bcastBackward exBL exBI exBI.x 4).map (fun t => (t.shape, t.val [0, 1])) =
    some ([1, 2], 32) := by decide

/-! ## C23 -/

/-- The sources of one destination hold tensors of one shape and type. -/
def ReduceInputs {S : Type} (L : PairLayer) (x : Nat → Tensor S) : Prop :=
  ∀ r ∈ L.Py.members, ∀ u ∈ L.Px.members, ∀ v ∈ L.Px.members, L.Collects r u → L.Collects r v →
    (x u).shape = (x v).shape ∧ (x u).dtype = (x v).dtype

theorem ReduceInputs.sameKinds {S : Type} {L : PairLayer} (h : ReduceLayer L) {I : Inputs S}
    (hx : ReduceInputs L I.x) : SameKinds L I := fun u hu v hv e =>
  hx _ (h.root_mem hv) u hu v hv ((h.rel (h.root_mem hv) hu).2 e) ((h.rel (h.root_mem hv) hv).2 rfl)

/-- C23 forward: every destination gets the sum over exactly the sources that belong to it, and has
at least one; a worker that is only a source gets a tensor without entries; other workers keep their
tensor. -/
theorem C23_forward {S : Type} [AddCommMonoid S] (L : PairLayer) (h : ReduceLayer L) (I : Inputs S)
    (hx : ReduceInputs L I.x) (hb : HasBatch L I.x) :
    (∀ r ∈ L.Py.members, ∃ u ∈ L.Px.members, L.Collects r u ∧
      reduceForward L I r = some ⟨(I.x u).shape, (I.x u).dtype, fun i =>
        ((L.Px.members.filter fun v => decide (L.Collects r v)).map fun v => (I.x v).val i).sum⟩) ∧
    (∀ w ∈ L.Px.members, w ∉ L.Py.members →
      ∃ z, reduceForward L I w = some z ∧ z.shape.prod = 0) ∧
    (∀ w, w ∉ L.Px.members → w ∉ L.Py.members → reduceForward L I w = some (I.x w)) := by
  have hk := hx.sameKinds h
  refine ⟨fun r hr => ?_, fun w h1 h2 => reduce_forward_other h.valid h.same hk hb.hb h2 h1,
    fun w h1 h2 => ?_⟩
  · obtain ⟨u, hu, e⟩ := ronto h.valid hr
    refine ⟨u, hu, (h.rel hr hu).2 e, ?_⟩
    rw [reduce_forward_root h.valid h.same hk hb.hb hr fun v hv e' => hk v hv u hu (e'.trans e.symm)]
    congr 2
    funext i
    rw [List.filter_congr fun v hv => decide_eq_decide.2 (h.rel hr hv).symm]
  · unfold reduceForward PairLayer.run
    split
    · rfl
    · rw [if_pos ⟨h1, h2⟩]

/-- The gradients `y` fit the outputs of the reduction of `x`. -/
def ReduceGrads {S : Type} (L : PairLayer) (x y : Nat → Tensor S) : Prop :=
  ∀ r ∈ L.Py.members, ∀ v ∈ L.Px.members, L.Collects r v →
    (y r).shape = (x v).shape ∧ (y r).dtype = (x v).dtype

/-- C23 backward: every source gets the gradient of the one destination it belongs to. -/
theorem C23_backward {S : Type} [AddCommMonoid S] (L : PairLayer) (h : ReduceLayer L) (I : Inputs S)
    (y : Nat → Tensor S) (hx : ReduceInputs L I.x) (hy : ReduceGrads L I.x y) (hb : HasBatch L y) :
    (∀ v ∈ L.Px.members, ∃ r ∈ L.Py.members, L.Collects r v ∧
      (∀ r' ∈ L.Py.members, L.Collects r' v → r' = r) ∧ reduceBackward L I y v = some (y r)) ∧
    (∀ w ∈ L.Py.members, w ∉ L.Px.members →
      ∃ z, reduceBackward L I y w = some z ∧ z.shape.prod = 0) := by
  have hk := hx.sameKinds h
  refine ⟨fun v hv => ?_, fun w h1 h2 => reduce_backward_other h.valid h.same hk hb.hb h2 h1⟩
  have hr := h.root_mem hv
  exact ⟨L.rroot v, hr, (h.rel hr hv).2 rfl, fun r' hr' e => ((h.rel hr' hv).1 e).symm,
    reduce_backward_root h.valid h.same hk
      (fun u hu => hy _ (h.root_mem hu) u hu ((h.rel (h.root_mem hu) hu).2 rfl)) hb.hb hv⟩

/-- C23 adjointness. -/
theorem C23_adjoint {S : Type} [CommSemiring S] (L : PairLayer) (h : ReduceLayer L) (I : Inputs S)
    (y : Nat → Tensor S) (hx : ReduceInputs L I.x) (hy : ReduceGrads L I.x y)
    (hbx : HasBatch L I.x) (hby : HasBatch L y) :
    ∃ Rx Ry : Nat → Tensor S,
      (∀ r ∈ L.Py.members, reduceForward L I r = some (Rx r)) ∧
      (∀ v ∈ L.Px.members, reduceBackward L I y v = some (Ry v)) ∧
      (L.Py.members.map fun r => inner (Rx r) (y r)).sum =
        (L.Px.members.map fun v => inner (I.x v) (Ry v)).sum := by
  have hk := hx.sameKinds h
  have hy' : ∀ v ∈ L.Px.members, (y (L.rroot v)).shape = (I.x v).shape ∧
      (y (L.rroot v)).dtype = (I.x v).dtype :=
    fun u hu => hy _ (h.root_mem hu) u hu ((h.rel (h.root_mem hu) hu).2 rfl)
  refine ⟨fun r => ⟨(y r).shape, (y r).dtype, fun i =>
      ((L.Px.members.filter fun v => decide (L.rroot v = r)).map fun v => (I.x v).val i).sum⟩,
    fun v => y (L.rroot v), fun r hr => ?_,
    fun v hv => reduce_backward_root h.valid h.same hk hy' hby.hb hv, ?_⟩
  · exact reduce_forward_root h.valid h.same hk hbx.hb hr fun v hv e => by
      have := hy' v hv
      rw [e] at this
      exact ⟨this.1.symm, this.2.symm⟩
  · have := star_adjoint h.valid.wfs.nodup (fun v hv => h.root_mem hv) y I.x
    refine Eq.trans ?_ (Eq.trans this.symm ?_)
    · congr 1
      apply List.map_congr_left
      intro r _
      exact congrArg _ (funext fun i => mul_comm _ _)
    · congr 1
      apply List.map_congr_left
      intro v hv
      unfold inner
      rw [(hy' v hv).1]
      exact congrArg _ (funext fun i => mul_comm _ _)

/-- The collectives of forward and backward cannot deadlock. -/
theorem C23_terminates {S : Type} [AddCommMonoid S] (L : PairLayer) (h : ReduceLayer L)
    (I : Inputs S) (y : Nat → Tensor S) (hx : ReduceInputs L I.x) (hbx : HasBatch L I.x)
    (hby : HasBatch L y) :
    SafeRun (groupUnion L.Px.members L.Py.members) (reduceActs L I) ∧
    SafeRun (groupUnion L.Px.members L.Py.members) (reduceBackActs L I y) :=
  ⟨sum_safe (zl := fun u => ⟨(I.x u).shape, (I.x u).dtype, fun _ => 0⟩)
      (reduce_star h.valid) (nodup_groupUnion h.valid.wfd.nodup h.valid.wfs.nodup)
      (fun _ hu => mem_groupUnion.2 hu.symm) (fun u hu => hbx.hb u hu.symm)
      (fun _ hu _ => rstruct_zeros h.valid (hx.sameKinds h) hu) (fun _ _ => rfl),
    copy_safe (zz := fun u => ⟨(I.x u).shape, (I.x u).dtype, fun _ => 0⟩)
      (reduce_star h.valid) (nodup_groupUnion h.valid.wfd.nodup h.valid.wfs.nodup)
      (fun _ hu => mem_groupUnion.2 hu.symm) (fun u hu => hby.hb u hu.symm) fun _ _ => rfl⟩

def exRL : PairLayer := ⟨exBy, exBx, false, false, true, false⟩

theorem exRL_ok : ReduceLayer exRL := ⟨exB_valid, by simp [exRL], Or.inl rfl⟩

example : HasBatch exRL exBI.x := fun _ _ _ => by simp [exBI]
example : ReduceInputs exRL exBI.x := fun _ _ _ _ _ _ _ _ => ⟨rfl, rfl⟩
example : ReduceGrads exRL exBI.x exBI.x := fun _ _ _ _ _ => ⟨rfl, rfl⟩

/-- Destination 4, itself a source of destination 5, sums the tensors of 0 and 3. -/
example : (reduceForward exRL exBI 4).map (fun t => (t.shape, t.val [0, 1])) =
    some ([1, 2], 32) := by decide
/-- Destination 6 is not a source: it sums those of 2 and 5 only. -/
example : (reduceForward exRL exBI 6).map (fun t => (t.shape, t.val [0, 0])) =
    some ([1, 2], 70) := by decide
example : (reduceBackward exRL exBI exBI.x 4).map (fun t => (t.shape, t.val [0, 1])) =
    some ([1, 2], 51) := by decide

/-! ## C30 -/

/-- C30 for broadcasts: every destination obtains shape, type and `requires_grad` of the tensor of
its source, whatever they are (also for tensors without dimensions or entries), and also when it is
itself a source; the exchange cannot deadlock. -/
theorem C30_broadcast (L : PairLayer) (h : BcastLayer L) {S : Type} (I : Inputs S) :
    (∀ v ∈ L.Py.members, ∀ r ∈ L.Px.members, L.Feeds r v →
      broadcastStructure (setupIn L.bparts I) v =
        some ⟨some (I.x r).shape, some (I.x r).dtype, some (I.rg r)⟩) ∧
    (∀ w, w ∉ L.Py.members →
      broadcastStructure (setupIn L.bparts I) w = some ⟨none, none, none⟩) ∧
    SafeRun (groupUnion L.Px.members L.Py.members)
      ((setupIn L.bparts I).acts (setupIn L.bparts I).dim) := by
  refine ⟨fun v hv r hr e => ?_, fun w hw => ?_, ?_⟩
  · rw [bstruct h.valid hv, (h.rel hr hv).1 e]
  · apply struct_send_only
    have := (bcast_star h.valid).bEq w
    rw [if_neg hw] at this
    exact this
  · exact star_struct_safe_root (I := setupIn L.bparts I) (bcast_star h.valid)
      (nodup_groupUnion h.valid.wfs.nodup h.valid.wfd.nodup) fun _ hu => mem_groupUnion.2 hu

/-- C30 for reductions, where all sources of a destination send: with one shape and type among them,
every destination obtains these, and `requires_grad` if all or none have it set. -/
theorem C30_reduction (L : PairLayer) (h : ReduceLayer L) {S : Type} (I : Inputs S)
    (hx : ReduceInputs L I.x) :
    (∀ r ∈ L.Py.members, ∀ u ∈ L.Px.members, L.Collects r u →
      ∃ rg, broadcastStructure (setupIn L.rparts I) r =
        some ⟨some (I.x u).shape, some (I.x u).dtype, some rg⟩ ∧
        ((∀ v ∈ L.Px.members, L.Collects r v → I.rg v = I.rg u) → rg = I.rg u)) ∧
    (∀ w, w ∉ L.Py.members →
      broadcastStructure (setupIn L.rparts I) w = some ⟨none, none, none⟩) ∧
    SafeRun (groupUnion L.Px.members L.Py.members)
      ((setupIn L.rparts I).acts (setupIn L.rparts I).dim) := by
  have hk := hx.sameKinds h
  refine ⟨fun r hr u hu e => ?_, fun w hw => ?_, ?_⟩
  · have e' := (h.rel hr hu).1 e
    obtain ⟨rg, h1, h2, h3⟩ := rstruct h.valid hr
      (fun v hv ev => hk v hv u hu (ev.trans e'.symm))
    refine ⟨rg, h1, fun hh => ?_⟩
    cases hg : I.rg u with
    | true => exact h2 fun v hv ev => (hh v hv ((h.rel hr hv).2 ev)).trans hg
    | false => exact h3 fun v hv ev => (hh v hv ((h.rel hr hv).2 ev)).trans hg
  · apply struct_send_only
    have := (reduce_star h.valid).aEq w
    rw [if_neg hw] at this
    exact this
  · exact star_struct_safe_leaf (I := setupIn L.rparts I) (reduce_star h.valid)
      (nodup_groupUnion h.valid.wfd.nodup h.valid.wfs.nodup) (fun _ hu => mem_groupUnion.2 hu.symm)
      (fun r hr => ronto h.valid hr) fun u hu v hv e => congrArg List.length (hk u hu v hv e).1

/-- Sources with tensors of different rank, shape, type: 4 holds a scalar, 5 an empty matrix. -/
def exSI : Inputs Int :=
  ⟨fun w => if w = 4 then ⟨[], .float32, fun _ => 0⟩ else if w = 5 then ⟨[3, 0], .int64, fun _ => 0⟩
    else ⟨[2], .float64, fun _ => 0⟩, fun w => w = 5⟩

example : [0, 1, 2, 3, 4, 5].map (broadcastStructure (setupIn exBL.bparts exSI)) =
    [some ⟨some [], some .float32, some false⟩, some ⟨some [3, 0], some .int64, some true⟩,
     some ⟨some [2], some .float64, some false⟩, some ⟨some [], some .float32, some false⟩,
     some ⟨some [3, 0], some .int64, some true⟩, some ⟨some [2], some .float64, some false⟩] := by
  decide

example : broadcastStructure (setupIn exRL.rparts exBI) 6 =
    some ⟨some [1, 2], some .float64, some true⟩ := by decide

end Verif
