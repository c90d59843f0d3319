import Verif.Loss.Model
import Verif.Linear.Stack
import Mathlib.Data.Rat.Defs
import Mathlib.Algebra.Field.Rat

/-!
# Distributed losses: properties C46 and C47
-/

namespace Verif

/-- The tensors `x w` of the workers are the blocks of the global tensor `X` under the layout `L`. -/
structure Blocks {R : Type} (P : Cart) (L : Layout) (X : Tensor R) (x : Nat → Tensor R) : Prop where
  whole : X.shape = L.global
  shape : ∀ w ∈ P.members, (x w).shape = L.shapeAt (P.coord w)
  dtype : ∀ w ∈ P.members, (x w).dtype = X.dtype
  val : ∀ w ∈ P.members, ∀ l, InBounds l (L.shapeAt (P.coord w)) →
    (x w).val l = X.val (shiftBy (L.startAt (P.coord w)) l)

/-- A partition of at least one dimension, with a layout over it; blocks may have any length. -/
structure Placed (P : Cart) (L : Layout) : Prop where
  wf : P.WF
  root : ∃ r, P.root = some r
  dim : P.shape ≠ []
  layout : L.pshape = P.shape

/-! ## Helpers -/

theorem boxSum_const {M : Type} [CommSemiring M] (s : List Nat) : boxSum s (fun _ => (1 : M)) = (s.prod : M) := by
  induction s with
  | nil => simp [boxSum]
  | cons n s ih => simp [boxSum, ih]

theorem all_zero_iff {l S : List Nat} (h : InBounds l S) :
    (l.all fun c => c == 0) = true ↔ l = List.replicate S.length 0 := by
  rw [List.all_eq_true, List.eq_replicate_iff]
  simp only [beq_iff_eq]
  exact ⟨fun hh => ⟨h.length_eq, hh⟩, fun hh => hh.2⟩

theorem zeros_inBounds {S : List Nat} (h : ∀ n ∈ S, 0 < n) : InBounds (List.replicate S.length 0) S := by
  induction S with
  | nil => trivial
  | cons n S ih => exact ⟨h n (by simp), ih fun m hm => h m (by simp [hm])⟩

section
variable {P : Cart} {L : Layout}

/-- The entries of all blocks together. -/
theorem Placed.sum_volumes (h : Placed P L) :
    (P.members.map fun v => (((L.shapeAt (P.coord v)).prod : Nat) : Int)).sum = (L.global.prod : Nat) := by
  have := members_sum (M := Int) h.wf h.layout fun _ => 1
  simpa only [boxSum_const] using this

/-- The batch sizes of the workers in the first place of all other dimensions. -/
theorem Placed.sum_batches (h : Placed P L) :
    (P.members.map fun v => if ((P.coord v).drop 1).all (fun c => c == 0) then
      (((L.shapeAt (P.coord v)).headD 0 : Nat) : Int) else 0).sum = (L.global.headD 0 : Nat) := by
  have e : (P.members.map fun v => if ((P.coord v).drop 1).all (fun c => c == 0) then
      (((L.shapeAt (P.coord v)).headD 0 : Nat) : Int) else 0).sum =
      boxSum P.shape fun c => if (c.drop 1).all (fun c => c == 0) then
        (((L.shapeAt c).headD 0 : Nat) : Int) else 0 := by
    rw [boxSum_eq_list, ← map_coords_members h.wf.nodup h.wf.size, List.map_map]
    rfl
  rw [e]
  have hpos := h.wf.pos
  have hd := h.dim
  rw [← h.layout] at hpos hd ⊢
  cases L with
  | nil => exact absurd rfl hd
  | cons bs L =>
    show (∑ i ∈ Finset.range bs.length, boxSum (Layout.pshape L) fun l =>
      if l.all (fun c => c == 0) then ((bs.getD i 0 : Nat) : Int) else 0) = ((bs.sum : Nat) : Int)
    have hz : InBounds (List.replicate (Layout.pshape L).length 0) (Layout.pshape L) :=
      zeros_inBounds fun n hn => hpos n (by
        show n ∈ bs.length :: Layout.pshape L
        simp [hn])
    have : ∀ i, (boxSum (Layout.pshape L) fun l =>
        if l.all (fun c => c == 0) then ((bs.getD i 0 : Nat) : Int) else 0) = ((bs.getD i 0 : Nat) : Int) := by
      intro i
      refine Eq.trans (boxSum_congr fun l hl => ?_) (boxSum_pick hz fun _ => ((bs.getD i 0 : Nat) : Int))
      simp only [all_zero_iff hl]
    rw [Finset.sum_congr rfl fun i _ => this i]
    have hs := sum_blocks bs fun _ => (1 : Int)
    simpa using hs

end

section
variable {R : Type} [Field R] {P : Cart} {L : Layout} {X T : Tensor R} {x t : Nat → Tensor R} {M : LossLayer}
  {kl : Bool} {red : String} {ell dell : R → R → R} {rg : Nat → Bool}

theorem newLoss_eq {w0 : Nat} (h0 : P.members.head? = some w0) (hr : red ∈ validReductions kl) :
    newLoss P kl red = some ⟨P, ⟨[w0], List.replicate P.shape.length 1, P.root⟩, kl, red⟩ := by
  obtain ⟨ms, hms⟩ : ∃ ms, P.members = w0 :: ms := by
    cases hm : P.members with
    | nil => simp [hm] at h0
    | cons a l => simp [hm] at h0; exact ⟨l, by rw [h0]⟩
  simp [newLoss, hr, createInclusive, groupIncl, createCartesian, hms]

theorem validReductions_mem (hr : red ∈ validReductions kl) :
    red = "none" ∨ red = "sum" ∨ red = "mean" ∨ (kl = true ∧ red = "batchmean") := by
  cases kl <;> simp [validReductions] at hr <;> tauto

/-- What is known of a layer made by `__init__`. -/
structure Made (P : Cart) (kl : Bool) (red : String) (M : LossLayer) (w0 : Nat) : Prop where
  eq : M = ⟨P, ⟨[w0], List.replicate P.shape.length 1, P.root⟩, kl, red⟩
  head : P.members.head? = some w0
  mem : w0 ∈ P.members
  valid : red ∈ validReductions kl

theorem newLoss_made (h : Placed P L) (hm : newLoss P kl red = some M) : ∃ w0, Made P kl red M w0 := by
  obtain ⟨w0, h0, hmem⟩ := h.wf.head
  have hv : red ∈ validReductions kl := by
    by_contra hc
    simp [newLoss, hc] at hm
  rw [newLoss_eq h0 hv] at hm
  exact ⟨w0, (Option.some.inj hm).symm, h0, hmem, hv⟩

theorem Made.reduceLayer {w0 : Nat} (h : Placed P L) (hM : Made P kl red M w0) : ReduceLayer M.sumReduce := by
  obtain rfl := hM.eq
  obtain ⟨r, hr⟩ := h.root
  refine ⟨⟨⟨by simp [LossLayer.sumReduce], by simp [LossLayer.sumReduce], ?_⟩, h.wf, ⟨r, hr, hr⟩, ?_, ?_⟩,
    by simp [LossLayer.sumReduce], Or.inl rfl⟩
  · intro n hn
    rw [List.eq_of_mem_replicate hn]
    exact Nat.one_pos
  · have := h.dim
    simpa [LossLayer.sumReduce, List.replicate_eq_nil_iff] using this
  · refine ⟨by simp [LossLayer.sumReduce, turn], fun j hj => Or.inr ?_⟩
    have hj' : j < P.shape.length := by simpa [LossLayer.sumReduce, turn] using hj
    simp [LossLayer.sumReduce, turn, List.getD_eq_getElem?_getD, hj']

theorem Made.collects {w0 : Nat} (hM : Made P kl red M w0) (r v : Nat) : M.sumReduce.Collects r v := by
  obtain rfl := hM.eq
  intro j hj hne
  have hj' : j < P.shape.length := by simpa [LossLayer.sumReduce, turn] using hj
  exact absurd (by simp [LossLayer.sumReduce, turn, List.getD_eq_getElem?_getD, hj']) hne

theorem Made.localReduction {w0 : Nat} (hM : Made P kl red M w0) (hn : red ≠ "none") :
    M.localReduction = "sum" := by
  obtain rfl := hM.eq
  simp [LossLayer.localReduction, hn]

/-- The local loss of a worker: the loss of its block of the global tensors. -/
theorem Made.local_value {w0 : Nat} (hM : Made P kl red M w0) (hn : red ≠ "none") (hx : Blocks P L X x)
    (ht : Blocks P L T t) {v : Nat} (hv : v ∈ P.members) :
    M.localLoss ell x t v = some ⟨[], X.dtype, fun _ => boxSum (L.shapeAt (P.coord v)) fun l =>
      ell (X.val (shiftBy (L.startAt (P.coord v)) l)) (T.val (shiftBy (L.startAt (P.coord v)) l))⟩ := by
  rw [LossLayer.localLoss, hM.localReduction hn, torchLoss,
    if_pos ((hx.shape v hv).trans (ht.shape v hv).symm)]
  simp only [hx.dtype v hv]
  congr 2
  funext _
  rw [hx.shape v hv]
  exact boxSum_congr fun l hl => by rw [hx.val v hv l hl, ht.val v hv l hl]

theorem Made.inputs_kind (M : LossLayer) (hx : Blocks P L X x) {v : Nat} (hv : v ∈ P.members) :
    ((M.reduceInputs ell x t rg).x v).shape = [1] ∧ ((M.reduceInputs ell x t rg).x v).dtype = X.dtype :=
  ⟨rfl, hx.dtype v hv⟩

theorem Made.reduceInputs {w0 : Nat} (hM : Made P kl red M w0) (hx : Blocks P L X x) :
    ReduceInputs M.sumReduce (M.reduceInputs ell x t rg).x := by
  have e : M.sumReduce.Px = P := by rw [hM.eq]; rfl
  intro r _ u hu v hv _ _
  rw [e] at hu hv
  exact ⟨rfl, (hx.dtype u hu).trans (hx.dtype v hv).symm⟩

theorem Made.hasBatch (M : LossLayer) : HasBatch M.sumReduce (M.reduceInputs ell x t rg).x :=
  fun _ u _ => by simp [LossLayer.reduceInputs]

/-- The result of the sum-reduction on the first worker. -/
theorem Made.reduced {w0 : Nat} (h : Placed P L) (hM : Made P kl red M w0) (hn : red ≠ "none")
    (hx : Blocks P L X x) (ht : Blocks P L T t) :
    reduceForward M.sumReduce (M.reduceInputs ell x t rg) w0 = some ⟨[1], X.dtype, fun _ =>
      boxSum L.global fun i => ell (X.val i) (T.val i)⟩ := by
  have e : M.sumReduce.Px = P := by rw [hM.eq]; rfl
  have e0 : M.sumReduce.Py.members = [w0] := by rw [hM.eq]; rfl
  obtain ⟨u, hu, -, he⟩ := (C23_forward M.sumReduce (hM.reduceLayer h) (M.reduceInputs ell x t rg)
    (hM.reduceInputs hx) (Made.hasBatch M)).1 w0 (by rw [e0]; simp)
  rw [e] at hu
  rw [he, (Made.inputs_kind M hx hu).1, (Made.inputs_kind M hx hu).2]
  congr 2
  funext i
  rw [← members_sum h.wf h.layout fun i => ell (X.val i) (T.val i), e]
  rw [List.filter_eq_self.2 fun v _ => decide_eq_true (hM.collects w0 v)]
  congr 1
  refine List.map_congr_left fun v hv => ?_
  simp only [LossLayer.reduceInputs, hM.local_value hn hx ht hv, Option.map_some, Option.getD_some]

theorem Made.reduced_other {w0 : Nat} (h : Placed P L) (hM : Made P kl red M w0)
    (hx : Blocks P L X x) {w : Nat} (hw : w ∈ P.members) (hne : w ≠ w0) :
    ∃ z, reduceForward M.sumReduce (M.reduceInputs ell x t rg) w = some z ∧ z.shape.prod = 0 := by
  have e : M.sumReduce.Px = P := by rw [hM.eq]; rfl
  have e0 : M.sumReduce.Py.members = [w0] := by rw [hM.eq]; rfl
  exact (C23_forward M.sumReduce (hM.reduceLayer h) (M.reduceInputs ell x t rg)
    (hM.reduceInputs hx) (Made.hasBatch M)).2.1 w (e ▸ hw) (by rw [e0]; simpa using hne)

/-- The divisor of a reduction: what the sequential loss divides by. -/
def lossDivisor (red : String) (shape : List Nat) : Nat :=
  if red = "mean" then shape.prod else if red = "batchmean" then shape.headD 0 else 1

omit [Field R] in
theorem Made.norm {w0 : Nat} (h : Placed P L) (hM : Made P kl red M w0) (hx : Blocks P L X x) :
    M.normalization (fun v => (x v).shape) = some ((lossDivisor red L.global : Nat) : Int) := by
  obtain rfl := hM.eq
  have hne : P.members ≠ [] := by
    intro e
    have := hM.mem
    simp [e] at this
  rcases validReductions_mem hM.valid with rfl | rfl | rfl | ⟨rfl, rfl⟩
  · simp [LossLayer.normalization, lossDivisor]
  · simp [LossLayer.normalization, lossDivisor]
  · rw [LossLayer.normalization, if_pos rfl, C29_allreduce_sum _ hne]
    have := h.sum_volumes
    simp only [lossDivisor, if_true]
    rw [← this]
    congr 2
    exact List.map_congr_left fun v hv => by rw [hx.shape v hv]
  · rw [LossLayer.normalization, if_neg (by show ¬ ("batchmean" = "mean"); decide), if_pos ⟨rfl, rfl⟩, C29_allreduce_sum _ hne]
    have := h.sum_batches
    have e : lossDivisor "batchmean" L.global = L.global.headD 0 := rfl
    rw [e, ← this]
    congr 2
    exact List.map_congr_left fun v hv => by
      rw [hx.shape v hv, Cart.index_eq hv]; rfl

theorem Made.pre_root {w0 : Nat} (h : Placed P L) (hM : Made P kl red M w0) (hn : red ≠ "none")
    (hx : Blocks P L X x) (ht : Blocks P L T t) :
    M.preCorrector ell x t rg w0 = some ⟨[], X.dtype, fun _ =>
      (boxSum L.global fun i => ell (X.val i) (T.val i)) / ((lossDivisor red L.global : Nat) : R)⟩ := by
  have e0 : w0 ∈ M.P0.members := by rw [hM.eq]; simp
  rw [LossLayer.preCorrector, hM.reduced h hn hx ht, Option.bind_some, if_pos e0, hM.norm h hx]
  simp

theorem Made.pre_other {w0 : Nat} (h : Placed P L) (hM : Made P kl red M w0)
    (hx : Blocks P L X x) {w : Nat} (hw : w ∈ P.members) (hne : w ≠ w0) :
    ∃ z, M.preCorrector ell x t rg w = some z ∧ z.shape.prod = 0 := by
  obtain ⟨z, hz, h0⟩ := hM.reduced_other (ell := ell) (t := t) (rg := rg) h hx hw hne
  have e0 : w ∉ M.P0.members := by rw [hM.eq]; simpa using hne
  exact ⟨z, by rw [LossLayer.preCorrector, hz, Option.bind_some, if_neg e0], h0⟩

theorem torchLoss_value (hs : X.shape = T.shape) (hn : red ≠ "none") (hr : red ∈ validReductions kl)
    (hd : X.shape ≠ []) :
    torchLoss ell red X T = some ⟨[], X.dtype, fun _ =>
      (boxSum X.shape fun i => ell (X.val i) (T.val i)) / ((lossDivisor red X.shape : Nat) : R)⟩ := by
  unfold torchLoss
  rw [if_pos hs]
  rcases validReductions_mem hr with rfl | rfl | rfl | ⟨rfl, rfl⟩
  · exact absurd rfl hn
  · simp [lossDivisor]
  · simp [lossDivisor]
  · cases e : X.shape with
    | nil => exact absurd e hd
    | cons b s => simp [lossDivisor]

/-! ## C46 -/

omit [Field R] in
/-- C46, construction: a layer can be made for exactly the reductions of its class. -/
theorem C46_created (P : Cart) (L : Layout) (h : Placed P L) (kl : Bool) (red : String) :
    (newLoss P kl red).isSome ↔
      red = "none" ∨ red = "mean" ∨ red = "sum" ∨ (red = "batchmean" ∧ kl = true) := by
  obtain ⟨w0, h0, -⟩ := h.wf.head
  constructor
  · intro hs
    obtain ⟨M, hM⟩ := Option.isSome_iff_exists.1 hs
    obtain ⟨_, hm⟩ := newLoss_made h hM
    rcases validReductions_mem hm.valid with h | h | h | h <;> tauto
  · intro hr
    rw [newLoss_eq h0]
    · rfl
    · rcases hr with rfl | rfl | rfl | ⟨rfl, rfl⟩
      iterate 3 cases kl <;> simp [validReductions]
      simp [validReductions]

/-- C46, reduction `none`: every worker returns its block of the sequential loss. -/
theorem C46_none (h : Placed P L) (hm : newLoss P kl "none" = some M) (hx : Blocks P L X x)
    (ht : Blocks P L T t) :
    ∃ y z, torchLoss ell "none" X T = some y ∧ Blocks P L y z ∧
      ∀ w ∈ P.members, lossForward M ell x t rg w = some (z w) := by
  obtain ⟨w0, hM⟩ := newLoss_made h hm
  obtain rfl := hM.eq
  refine ⟨⟨X.shape, X.dtype, fun i => ell (X.val i) (T.val i)⟩,
    fun w => ⟨(x w).shape, (x w).dtype, fun i => ell ((x w).val i) ((t w).val i)⟩,
    by rw [torchLoss, if_pos (hx.whole.trans ht.whole.symm)], ⟨hx.whole, hx.shape, hx.dtype, ?_⟩, ?_⟩
  · intro w hw l hl
    simp only [hx.val w hw l hl, ht.val w hw l hl]
  · intro w hw
    rw [lossForward, if_neg (by simpa using hw), if_pos rfl, LossLayer.localLoss]
    simp only [LossLayer.localReduction, if_true]
    rw [torchLoss, if_pos ((hx.shape w hw).trans (ht.shape w hw).symm)]

/-- C46, other reductions: the first worker of `P_x` returns the sequential loss of the global tensors, the
other workers the number 0, for blocks of any size.  The collectives cannot deadlock. -/
theorem C46_reduced (h : Placed P L) (hm : newLoss P kl red = some M) (hn : red ≠ "none")
    (hx : Blocks P L X x) (ht : Blocks P L T t) :
    ∃ y w0, torchLoss ell red X T = some y ∧ y.shape = [] ∧ P.members.head? = some w0 ∧
      (∃ z, lossForward M ell x t rg w0 = some z ∧ z.shape = [] ∧ z.dtype = y.dtype ∧
        z.val [] = y.val []) ∧
      (∀ w ∈ P.members, w ≠ w0 → ∃ z, lossForward M ell x t rg w = some z ∧ z.shape = [] ∧ z.val [] = 0) ∧
      SafeRun P.members (reduceActs M.sumReduce (M.reduceInputs ell x t rg)) := by
  obtain ⟨w0, hM⟩ := newLoss_made h hm
  have hdim : X.shape ≠ [] := by
    rw [hx.whole]
    intro e
    apply h.dim
    rw [← h.layout]
    rw [← List.length_eq_zero_iff] at e ⊢
    rw [Layout.length_pshape, ← Layout.length_global, e]
  have hall : (M.P.members.all fun v => (M.localLoss ell x t v).isSome) = true := by
    rw [List.all_eq_true]
    intro v hv
    have hv' : v ∈ P.members := by rw [hM.eq] at hv; exact hv
    rw [hM.local_value hn hx ht hv']
    rfl
  have hmem : ∀ w, w ∈ P.members → w ∈ M.P.members := fun w hw => by rw [hM.eq]; exact hw
  have hred : M.reduction ≠ "none" := by rw [hM.eq]; exact hn
  refine ⟨_, w0, torchLoss_value (hx.whole.trans ht.whole.symm) hn hM.valid hdim, rfl, hM.head, ?_, ?_, ?_⟩
  · refine ⟨⟨[], X.dtype, fun _ => (boxSum X.shape fun i => ell (X.val i) (T.val i)) /
      ((lossDivisor red X.shape : Nat) : R)⟩, ?_, rfl, rfl, rfl⟩
    rw [lossForward, if_neg (fun hh => hh (hmem w0 hM.mem)), if_neg hred, if_pos hall,
      hM.pre_root h hn hx ht, hx.whole]
    rfl
  · intro w hw hne
    obtain ⟨z, hz, h0⟩ := hM.pre_other (ell := ell) (t := t) (rg := rg) h hx hw hne
    refine ⟨⟨[], .float32, fun _ => 0⟩, ?_, rfl, rfl⟩
    rw [lossForward, if_neg (fun hh => hh (hmem w hw)), if_neg hred, if_pos hall, hz, Option.map_some,
      correctorForward, if_pos h0]
  · have hs := (C23_terminates M.sumReduce (hM.reduceLayer h) (M.reduceInputs ell x t rg)
      (M.reduceInputs ell x t rg).x (hM.reduceInputs hx) (Made.hasBatch M) (Made.hasBatch M)).1
    have eu : groupUnion M.sumReduce.Px.members M.sumReduce.Py.members = P.members := by
      rw [hM.eq]
      simp [LossLayer.sumReduce, groupUnion, hM.mem]
    rwa [eu] at hs

/-- C46, gradients: from any gradient of the loss on the first worker, and whatever the other workers start
with, every worker obtains its block of the gradient of the sequential loss.  The collectives cannot
deadlock. -/
theorem C46_backward (h : Placed P L) (hm : newLoss P kl red = some M) (hn : red ≠ "none")
    (hx : Blocks P L X x) (ht : Blocks P L T t) (g : Nat → Tensor R) (w0 : Nat)
    (h0 : P.members.head? = some w0) (hg : (g w0).shape = [] ∧ (g w0).dtype = X.dtype) :
    (∃ d, Blocks P L (torchLossGrad dell red X T (g w0)) d ∧
      ∀ w ∈ P.members, lossBackward M ell dell x t rg g w = some (d w)) ∧
    SafeRun P.members (reduceBackActs M.sumReduce (M.reduceInputs ell x t rg)
      (fun v => (M.reduceGrads ell x t rg g v).getD ⟨[], .float64, fun _ => 0⟩)) := by
  obtain ⟨w0', hM⟩ := newLoss_made h hm
  obtain rfl : w0 = w0' := Option.some.inj (h0.symm.trans hM.head)
  have hred : M.reduction ≠ "none" := by rw [hM.eq]; exact hn
  have hmem : ∀ w, w ∈ P.members → w ∈ M.P.members := fun w hw => by rw [hM.eq]; exact hw
  have e : M.sumReduce.Px = P := by rw [hM.eq]; rfl
  have e0 : M.sumReduce.Py.members = [w0] := by rw [hM.eq]; rfl
  have eroot : M.reduceGrads ell x t rg g w0 = some ⟨[1], X.dtype, fun i =>
      if i.headD 0 = 0 then (g w0).val (i.drop 1) / ((lossDivisor red L.global : Nat) : R) else 0⟩ := by
    have hw : w0 ∈ M.P0.members := by rw [hM.eq]; simp
    rw [LossLayer.reduceGrads, hM.pre_root h hn hx ht, Option.bind_some, correctorBackward,
      if_neg (by simp), Option.bind_some, if_pos hw, hM.norm h hx, hg.1, hg.2]
    simp
  have eother : ∀ w ∈ P.members, w ≠ w0 → ∃ z, M.reduceGrads ell x t rg g w = some z ∧ z.shape ≠ [] := by
    intro w hw hne
    obtain ⟨z, hz, hz0⟩ := hM.pre_other (ell := ell) (t := t) (rg := rg) h hx hw hne
    have hw0 : w ∉ M.P0.members := by rw [hM.eq]; simpa using hne
    rw [LossLayer.reduceGrads, hz, Option.bind_some, correctorBackward, if_pos hz0]
    cases hs : z.shape with
    | nil => simp [hs] at hz0
    | cons b s => exact ⟨⟨[b, 0], .float32, fun _ => 0⟩, by simp [hw0], by simp⟩
  have hsome : ∀ v ∈ P.members, ∃ z, M.reduceGrads ell x t rg g v = some z ∧ z.shape ≠ [] := by
    intro v hv
    by_cases hv0 : v = w0
    · subst hv0
      exact ⟨_, eroot, by simp⟩
    · exact eother v hv hv0
  have hall : (M.P.members.all fun v => (M.reduceGrads ell x t rg g v).isSome) = true := by
    rw [List.all_eq_true]
    intro v hv
    obtain ⟨z, hz, -⟩ := hsome v (by rw [hM.eq] at hv; exact hv)
    rw [hz]; rfl
  have hfit : ReduceGrads M.sumReduce (M.reduceInputs ell x t rg).x
      (fun v => (M.reduceGrads ell x t rg g v).getD ⟨[], .float64, fun _ => 0⟩) := by
    intro r hr v hv _
    rw [e0, List.mem_singleton] at hr
    rw [e] at hv
    subst hr
    simp only [eroot, Option.getD_some]
    exact ⟨rfl, (hx.dtype v hv).symm⟩
  have hb : HasBatch M.sumReduce (fun v => (M.reduceGrads ell x t rg g v).getD ⟨[], .float64, fun _ => 0⟩) := by
    intro _ u hu
    have hu' : u ∈ P.members := by
      rcases hu with hu | hu
      · rwa [e] at hu
      · rw [e0, List.mem_singleton] at hu
        rw [hu]; exact hM.mem
    obtain ⟨z, hz, hz0⟩ := hsome u hu'
    simp only [hz, Option.getD_some]
    exact hz0
  refine ⟨⟨fun w => ⟨(x w).shape, (x w).dtype, fun i =>
    (g w0).val [] / ((lossDivisor red L.global : Nat) : R) * dell ((x w).val i) ((t w).val i)⟩,
    ⟨hx.whole, hx.shape, hx.dtype, ?_⟩, ?_⟩, ?_⟩
  · intro w hw l hl
    simp only [hx.val w hw l hl, ht.val w hw l hl, torchLossGrad, hx.whole]
    rcases validReductions_mem hM.valid with rfl | rfl | rfl | ⟨rfl, rfl⟩
    · exact absurd rfl hn
    · simp [lossDivisor]
    · simp [lossDivisor]
    · simp [lossDivisor]
  · intro w hw
    obtain ⟨r, hr, -, -, hv⟩ := (C23_backward M.sumReduce (hM.reduceLayer h) (M.reduceInputs ell x t rg) _
      (hM.reduceInputs hx) hfit hb).1 w (e ▸ hw)
    rw [e0, List.mem_singleton] at hr
    subst hr
    rw [lossBackward, if_neg (fun hh => hh (hmem w hw)), if_neg hred, if_pos hall, hv, Option.map_some,
      eroot, hM.localReduction hn]
    rfl
  · have hs := (C23_terminates M.sumReduce (hM.reduceLayer h) (M.reduceInputs ell x t rg) _
      (hM.reduceInputs hx) (Made.hasBatch M) hb).2
    have eu : groupUnion M.sumReduce.Px.members M.sumReduce.Py.members = P.members := by
      rw [hM.eq]
      simp [LossLayer.sumReduce, groupUnion, hM.mem]
    rwa [eu] at hs

/-- C46, gradients for reduction `none`. -/
theorem C46_backward_none (h : Placed P L) (hm : newLoss P kl "none" = some M)
    (hx : Blocks P L X x) (ht : Blocks P L T t) (G : Tensor R) (g : Nat → Tensor R) (hg : Blocks P L G g) :
    ∃ d, Blocks P L (torchLossGrad dell "none" X T G) d ∧
      ∀ w ∈ P.members, lossBackward M ell dell x t rg g w = some (d w) := by
  obtain ⟨w0, hM⟩ := newLoss_made h hm
  obtain rfl := hM.eq
  refine ⟨fun w => torchLossGrad dell "none" (x w) (t w) (g w), ⟨hx.whole, hx.shape, hx.dtype, ?_⟩, ?_⟩
  · intro w hw l hl
    simp only [torchLossGrad, hx.val w hw l hl, ht.val w hw l hl, hg.val w hw l hl]
  · intro w hw
    rw [lossBackward, if_neg (by simpa using hw), if_pos rfl]

/-! ### A worked case -/

end

/-- Workers 3, 1, 4, 2 as 2 x 2, blocks of unequal size of a 3 x 4 tensor. -/
def exLP : Cart := ⟨[3, 1, 4, 2], [2, 2], some 0⟩
def exLL : Layout := [[2, 1], [1, 3]]

theorem exL_placed : Placed exLP exLL :=
  ⟨⟨by decide, by decide, by decide⟩, ⟨0, rfl⟩, by decide, by decide⟩

def exLX : Tensor Rat := ⟨[3, 4], .float64, fun i => (i.getD 0 0 : Nat) + 2 * (i.getD 1 0 : Nat)⟩
def exLT : Tensor Rat := ⟨[3, 4], .float64, fun i => (i.getD 1 0 : Nat)⟩

/-- The block of worker `w`. -/
def blockOf {R : Type} (P : Cart) (L : Layout) (X : Tensor R) (w : Nat) : Tensor R :=
  ⟨L.shapeAt (P.coord w), X.dtype, fun l => X.val (shiftBy (L.startAt (P.coord w)) l)⟩

theorem blockOf_blocks {R : Type} (P : Cart) (L : Layout) (X : Tensor R) (h : X.shape = L.global) :
    Blocks P L X (blockOf P L X) := ⟨h, fun _ _ => rfl, fun _ _ => rfl, fun _ _ _ _ => rfl⟩

example : Blocks exLP exLL exLX (blockOf exLP exLL exLX) := blockOf_blocks _ _ _ rfl

/-- Squared differences; the KL divergence layer accepts `batchmean` too. -/
def exSq (a b : Rat) : Rat := (a - b) * (a - b)

example : (newLoss exLP false "mean").isSome ∧ newLoss exLP false "batchmean" = none ∧
    (newLoss exLP true "batchmean").isSome := by decide

def exRun (red : String) (w : Nat) : Option (List Nat × Rat) :=
  (newLoss exLP true red).bind fun M => (lossForward M exSq (blockOf exLP exLL exLX)
    (blockOf exLP exLL exLT) (fun _ => true) w).map fun t => (t.shape, t.val [])

example : exRun "sum" 3 = some ([], 98) ∧ exRun "mean" 3 = some ([], 49 / 6) ∧
    exRun "batchmean" 3 = some ([], 98 / 3) ∧ exRun "mean" 4 = some ([], 0) := by
  decide +kernel

/-- Worker 0 is not part of the partition. -/
example : exRun "sum" 0 = none := by decide +kernel

/-- Gradient of the mean on worker 4, whose block starts at `[2, 0]`; the gradient of the loss is 12 on the
first worker and anything elsewhere. -/
example : ((newLoss exLP true "mean").bind fun M => (lossBackward M exSq (fun a b => 2 * (a - b))
    (blockOf exLP exLL exLX) (blockOf exLP exLL exLT) (fun _ => true)
    (fun w => ⟨[], .float64, fun _ => if w = 3 then 12 else 5⟩) 4).map fun t => (t.shape, t.val [0, 0])) =
    some ([1, 1], 4) := by decide +kernel

example : (torchLoss exSq "batchmean" exLX exLT).map (fun t => t.val []) = some (98 / 3) := by
  decide +kernel

section
variable {R : Type} [Field R] {P : Cart} {L : Layout} {X T : Tensor R} {x t : Nat → Tensor R} {M : LossLayer}
  {kl : Bool} {red : String} {ell : R → R → R} {rg : Nat → Bool}

/-! ## C47 -/

/-- C47 does not hold: the call raises an exception on every worker outside `P_x`, whatever the loss, the
reduction, the partition and the tensors. -/
theorem C47_false (P : Cart) (kl : Bool) (red : String) (M : LossLayer) (hm : newLoss P kl red = some M)
    (w : Nat) (hw : w ∉ P.members) (ell : R → R → R) (x t : Nat → Tensor R) (rg : Nat → Bool) :
    ¬ ∃ z, lossForward M ell x t rg w = some z ∧ z.shape.prod = 0 := by
  have e : M.P = P := by
    unfold newLoss at hm
    split at hm
    · obtain ⟨b, -, hb⟩ := Option.bind_eq_some_iff.1 hm
      obtain ⟨c, -, hc⟩ := Option.map_eq_some_iff.1 hb
      rw [← hc]
    · simp at hm
  rw [lossForward, e, if_pos hw]
  simp

/-- C47, the part that holds: the workers of `P_x` other than the first, which have no part of the result,
get a number that is not zero-volume, and their gradient is discarded (`C46_backward`). -/
theorem C47_inside_partial (h : Placed P L) (hm : newLoss P kl red = some M) (hn : red ≠ "none")
    (hx : Blocks P L X x) (ht : Blocks P L T t) (w : Nat) (hw : w ∈ P.members) :
    ∃ z, lossForward M ell x t rg w = some z ∧ z.shape = [] := by
  obtain ⟨y, w0, -, -, -, ⟨z, hz, hs, -⟩, ho, -⟩ := C46_reduced (ell := ell) (rg := rg) h hm hn hx ht
  by_cases e : w = w0
  · exact ⟨z, e ▸ hz, hs⟩
  · obtain ⟨z, hz, hs, -⟩ := ho w hw e
    exact ⟨z, hz, hs⟩

end

end Verif
