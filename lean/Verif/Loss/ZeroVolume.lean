import Verif.Loss.Props

/-!
# Tensors without entries: property C52
-/

namespace Verif

/-- Shape of a tensor without entries for a worker whose tensor has shape `s`: the first extent is kept when
asked for. -/
def emptyShape (preserveBatch : Bool) (s : List Nat) : List Nat :=
  if preserveBatch then [s.headD 0, 0] else [0]

section
variable {S : Type} [AddCommMonoid S]

theorem zeroVolume_shape {pb : Bool} {t : Tensor S} (h : pb = true → t.shape ≠ []) :
    zeroVolume pb t = some ⟨emptyShape pb t.shape, .float32, fun _ => 0⟩ := by
  unfold zeroVolume emptyShape
  cases pb with
  | false => rfl
  | true =>
    cases hs : t.shape with
    | nil => exact absurd hs (h rfl)
    | cons b s => rfl

/-- C52, broadcast: a worker of the source partition outside the destination gets a tensor without entries
that keeps the batch size of its input when asked for; so does, for the gradient, a worker of the destination
outside the source. -/
theorem C52_broadcast (L : PairLayer) (h : BcastLayer L) (I : Inputs S) (y : Nat → Tensor S)
    (hbx : HasBatch L I.x) (hby : HasBatch L y) :
    (∀ w ∈ L.Px.members, w ∉ L.Py.members →
      bcastForward L I w = some ⟨emptyShape L.preserveBatch (I.x w).shape, .float32, fun _ => 0⟩) ∧
    (∀ w ∈ L.Py.members, w ∉ L.Px.members →
      bcastBackward L I y w = some ⟨emptyShape L.preserveBatch (y w).shape, .float32, fun _ => 0⟩) := by
  have hid : ∀ {w : Nat}, (w ∈ L.Px.members ∧ w ∉ L.Py.members) ∨ (w ∈ L.Py.members ∧ w ∉ L.Px.members) →
      L.identity = false := by
    intro w hw
    rw [Bool.eq_false_iff]
    intro hi
    have e := h.same (PairLayer.identity_iff.1 hi).1
    rw [e] at hw
    tauto
  refine ⟨fun w hx hv => ?_, fun w hv hx => ?_⟩
  · unfold bcastForward
    rw [brun h.valid (Or.inl hx) (hid (Or.inl ⟨hx, hv⟩))]
    unfold copyOut
    rw [zeroVolume_shape fun e => hbx e w (Or.inl hx)]
    have := (bcast_star h.valid).bEq w
    rw [if_neg hv] at this
    change recvOf (L.bparts w) = none at this
    rw [this]
  · unfold bcastBackward
    rw [brun h.valid (Or.inr hv) (hid (Or.inr ⟨hv, hx⟩))]
    unfold sumOut
    rw [zeroVolume_shape fun e => hby e w (Or.inr hv)]
    have := (bcast_star h.valid).aEq w
    rw [if_neg hx] at this
    change sendOf (L.bparts w) = none at this
    rw [this]

/-- C52, sum-reduction. -/
theorem C52_reduction (L : PairLayer) (h : ReduceLayer L) (I : Inputs S) (y : Nat → Tensor S)
    (hx : ReduceInputs L I.x) (hbx : HasBatch L I.x) (hby : HasBatch L y) :
    (∀ w ∈ L.Px.members, w ∉ L.Py.members →
      reduceForward L I w = some ⟨emptyShape L.preserveBatch (I.x w).shape, .float32, fun _ => 0⟩) ∧
    (∀ w ∈ L.Py.members, w ∉ L.Px.members →
      reduceBackward L I y w = some ⟨emptyShape L.preserveBatch (y w).shape, .float32, fun _ => 0⟩) := by
  have hk := hx.sameKinds h
  have hid : ∀ {w : Nat}, (w ∈ L.Px.members ∧ w ∉ L.Py.members) ∨ (w ∈ L.Py.members ∧ w ∉ L.Px.members) →
      L.identity = false := by
    intro w hw
    rw [Bool.eq_false_iff]
    intro hi
    have e := h.same (PairLayer.identity_iff.1 hi).1
    rw [e] at hw
    tauto
  refine ⟨fun w hx hv => ?_, fun w hv hx => ?_⟩
  · unfold reduceForward
    rw [rrun h.valid hk (Or.inl hx) (hid (Or.inl ⟨hx, hv⟩))]
    unfold sumOut
    rw [zeroVolume_shape fun e => hbx e w (Or.inl hx)]
    have := (reduce_star h.valid).aEq w
    rw [if_neg hv] at this
    change recvOf (L.rparts w) = none at this
    rw [this]
  · unfold reduceBackward
    rw [rrun h.valid hk (Or.inr hv) (hid (Or.inr ⟨hv, hx⟩))]
    unfold copyOut
    rw [zeroVolume_shape fun e => hby e w (Or.inr hv)]
    have := (reduce_star h.valid).bEq w
    rw [if_neg hx] at this
    change sendOf (L.rparts w) = none at this
    rw [this]

/-- C52: workers of neither partition hand their tensor, or their gradient, on. -/
theorem C52_outside (L : PairLayer) (I : Inputs S) (y : Nat → Tensor S) {w : Nat}
    (hx : w ∉ L.Px.members) (hy : w ∉ L.Py.members) :
    bcastForward L I w = some (I.x w) ∧ bcastBackward L I y w = some (y w) ∧
    reduceForward L I w = some (I.x w) ∧ reduceBackward L I y w = some (y w) := by
  refine ⟨?_, ?_, ?_, ?_⟩ <;>
    · first | unfold bcastForward | unfold bcastBackward | unfold reduceForward | unfold reduceBackward
      unfold PairLayer.run
      rw [if_pos (c := _ ∧ _) ⟨hx, hy⟩, ite_self]

end

/-- Worker 6 is a source only and keeps the batch size 1 of its `1 x 2` tensor; worker 3 is a destination
only. -/
example : (bcastForward exBL exBI 6).map (fun t => t.shape) = some [1, 0] ∧
    (bcastBackward exBL exBI exBI.x 3).map (fun t => t.shape) = some [1, 0] := by decide

/-! ## Repartition -/

section
variable {R : Type} [Zero R]

/-- Result of `Repartition` on worker `w` once its transfers are done: `nn/repartition.py:345-346` for a worker
of neither partition, `functional/repartition.py:132-139`, `172-174`, `207-212` forward and `271-278`,
`308-310`, `345-350` backward.  `T` is the partition that receives, `sh` the shape of the block `w` receives,
`t` the global type, `x` its tensor, `st` its data.  `none`: `shape[0]` of a tensor without dimensions. -/
def repResult (pb : Bool) (Px Py T : Cart) (sh : Option (List Nat)) (t : TorchDtype) (x : Tensor R)
    (st : XSt R) (w : Nat) : Option (Tensor R) :=
  if w ∉ Px.members ∧ w ∉ Py.members then some x
  else
    let empty : Option (Tensor R) :=
      if pb then
        match x.shape with
        | b :: _ => some ⟨[b, 0], t, fun _ => 0⟩
        | [] => none
      else some ⟨[0], t, fun _ => 0⟩
    empty.bind fun z =>
      if w ∈ T.members then sh.map fun sh => ⟨sh, t, st.out⟩ else some z

/-- C52, repartition: of the workers of the two partitions, those that do not receive return a tensor without
entries; workers of neither hand their tensor on. -/
theorem C52_repartition (pb : Bool) (Px Py : Cart) (sh : Nat → Option (List Nat)) (t : TorchDtype)
    (x : Nat → Tensor R) (st : Nat → XSt R) (w : Nat) (hb : pb = true → (x w).shape ≠ []) :
    (w ∈ Px.members → w ∉ Py.members →
      repResult pb Px Py Py (sh w) t (x w) (st w) w = some ⟨emptyShape pb (x w).shape, t, fun _ => 0⟩) ∧
    (w ∈ Py.members → w ∉ Px.members →
      repResult pb Px Py Px (sh w) t (x w) (st w) w = some ⟨emptyShape pb (x w).shape, t, fun _ => 0⟩) ∧
    (w ∉ Px.members → w ∉ Py.members → ∀ T, repResult pb Px Py T (sh w) t (x w) (st w) w = some (x w)) := by
  have he : (if pb then
      match (x w).shape with
      | b :: _ => some (⟨[b, 0], t, fun _ => 0⟩ : Tensor R)
      | [] => none
    else some ⟨[0], t, fun _ => 0⟩) = some ⟨emptyShape pb (x w).shape, t, fun _ => 0⟩ := by
    unfold emptyShape
    cases pb with
    | false => rfl
    | true =>
      cases hs : (x w).shape with
      | nil => exact absurd hs (hb rfl)
      | cons b s => rfl
  refine ⟨fun hx hy => ?_, fun hy hx => ?_, fun hx hy T => ?_⟩
  · rw [repResult, if_neg (fun h => h.1 hx)]
    simp only [he, Option.bind_some, if_neg hy]
  · rw [repResult, if_neg (fun h => h.2 hy)]
    simp only [he, Option.bind_some, if_neg hx]
  · rw [repResult, if_pos ⟨hx, hy⟩]

/-- Workers that receive return a tensor of the shape of their block. -/
theorem C52_repartition_block {β : Type} {Px Py : Cart} {L : Layout}
    {localS : Nat → List Nat × TorchDtype × Bool} {t : TorchDtype} {rg : Bool} {junk : Nat → β}
    {ops : Nat → List (MgrOp β)} {S : Nat → RepSetup} (h : RepValid Px Py L localS t rg)
    (hS : SetupDone Px Py localS junk ops S) (pb : Bool) (x : Nat → Tensor R) (st : XSt R) {w : Nat}
    (hy : w ∈ Py.members) (hb : pb = true → (x w).shape ≠ []) :
    ∃ z, repResult pb Px Py Py (S w).outShape t (x w) st w = some z ∧
      z.shape = computeSubshape Py.shape (Py.coord w) L.global := by
  have hl : Py.shape.length = L.global.length := by
    rw [h.dims, ← h.layout, L.length_pshape, L.length_global]
  have ho := (hS.spec h (mem_groupUnion.2 (Or.inr hy))).2.2.2.2
  have hsa : (Layout.balanced Py.shape L.global).shapeAt (Py.coord w) = _ :=
    Layout.balanced_shapeAt hl (coords_inBounds h.wfy hy)
  rw [if_pos hy, hsa] at ho
  refine ⟨⟨computeSubshape Py.shape (Py.coord w) L.global, t, st.out⟩, ?_, rfl⟩
  rw [repResult, if_neg (fun h => h.2 hy)]
  cases pb with
  | false => simp [hy, ho, Cart.coord]
  | true =>
    cases hs : (x w).shape with
    | nil => exact absurd hs (hb rfl)
    | cons b s => simp [hy, ho, Cart.coord]

/-- Worker 2 sends only, worker 5 takes no part. -/
example : (repResult true ⟨[1, 2], [2], some 0⟩ ⟨[1], [1], some 0⟩ ⟨[1], [1], some 0⟩ none .float64
      (⟨[3, 4], .float64, fun _ => 7⟩ : Tensor Int) ⟨fun _ => 0, fun _ => 0⟩ 2).map (fun t => t.shape) = some [3, 0] ∧
    (repResult true ⟨[1, 2], [2], some 0⟩ ⟨[1], [1], some 0⟩ ⟨[1], [1], some 0⟩ none .float64
      (⟨[3, 4], .float64, fun _ => 7⟩ : Tensor Int) ⟨fun _ => 0, fun _ => 0⟩ 5).map (fun t => t.shape) = some [3, 4] := by
  decide

/-! ## The zero-volume corrector -/

/-- C52, corrector: a tensor with entries is handed on unchanged, and so is its gradient; a tensor without
entries becomes the number 0, and its gradient, whatever it is, a tensor without entries of the same first
extent. -/
theorem C52_corrector (t g : Tensor R) :
    (t.shape.prod ≠ 0 → correctorForward t = t ∧ correctorBackward t g = some g) ∧
    (t.shape.prod = 0 → (correctorForward t).shape = [] ∧ (correctorForward t).val [] = 0 ∧
      ∃ z, correctorBackward t g = some z ∧ z.shape = [t.shape.headD 0, 0]) := by
  refine ⟨fun h => ⟨by rw [correctorForward, if_neg h], by rw [correctorBackward, if_neg h]⟩, fun h => ?_⟩
  refine ⟨by rw [correctorForward, if_pos h], by rw [correctorForward, if_pos h], ?_⟩
  rw [correctorBackward, if_pos h]
  cases hs : t.shape with
  | nil => simp [hs] at h
  | cons b s => exact ⟨_, rfl, rfl⟩

end

example : correctorForward (⟨[1, 0], .float32, fun _ => 7⟩ : Tensor Int) = ⟨[], .float32, fun _ => 0⟩ := by
  simp [correctorForward]

end Verif
