import Verif.Linear.Stack

/-!
# The linear layer: property C42
-/

namespace Verif

section
variable {R : Type}

/-- What `DistributedLinear` asks of its caller: Cartesian partitions of one root communicator with the
documented shapes `1 x P_in`, `1 x P_out` and `P_out x P_in`; partitions that compare equal are equal;
no worker is left without input features. -/
structure LinearValid (L : LinearLayer R) (Po Pi : Nat) : Prop where
  wfx : L.Px.WF
  wfy : L.Py.WF
  wfw : L.Pw.WF
  shx : L.Px.shape = [1, Pi]
  shy : L.Py.shape = [1, Po]
  shw : L.Pw.shape = [Po, Pi]
  root : ∃ ρ, L.Px.root = some ρ ∧ L.Py.root = some ρ ∧ L.Pw.root = some ρ
  sx : L.sx = true → L.Px = L.Pw
  sy : L.sy = true → L.Pw = L.Py
  features : Pi ≤ L.inFeatures

/-- Worker `u` takes part in the layer. -/
def LinearLayer.Active (L : LinearLayer R) (u : Nat) : Prop :=
  u ∈ L.Px.members ∨ u ∈ L.Pw.members ∨ u ∈ L.Py.members

/-- `X` is the global tensor with leading dimensions `bs` whose last dimension, of length `n`, is cut
evenly over the second dimension of `P`: the `x u` are its blocks. -/
structure BlocksOf (P : Cart) (parts n : Nat) (bs : List Nat) (dt : TorchDtype) (X : List Nat → R)
    (x : Nat → Tensor R) : Prop where
  shape : ∀ u ∈ P.members, (x u).shape = bs ++ [subsize parts ((P.coord u).getD 1 0) n]
  dtype : ∀ u ∈ P.members, (x u).dtype = dt
  val : ∀ u ∈ P.members, ∀ b, InBounds b bs → ∀ i < subsize parts ((P.coord u).getD 1 0) n,
    (x u).val (b ++ [i]) = X (b ++ [startIdx parts ((P.coord u).getD 1 0) n + i])

/-- The local parameters are the blocks of the global weight `W` and, on the first column, of the global
bias `β`. -/
structure ParamBlocks (L : LinearLayer R) (Po Pi : Nat) (W β : List Nat → R) : Prop where
  weight : ∀ v ∈ L.Pw.members, ∀ k < subsize Po ((L.Pw.coord v).getD 0 0) L.outFeatures,
    ∀ i < subsize Pi ((L.Pw.coord v).getD 1 0) L.inFeatures,
      L.weight v [k, i] = W [startIdx Po ((L.Pw.coord v).getD 0 0) L.outFeatures + k,
        startIdx Pi ((L.Pw.coord v).getD 1 0) L.inFeatures + i]
  bias : ∀ v ∈ L.Pw.members, (L.Pw.coord v).getD 1 0 = 0 →
    ∀ k < subsize Po ((L.Pw.coord v).getD 0 0) L.outFeatures,
      L.bias v [k] = β [startIdx Po ((L.Pw.coord v).getD 0 0) L.outFeatures + k]

variable {L : LinearLayer R} {Po Pi : Nat} {W β X Y : List Nat → R} {I : Inputs R} {bs : List Nat}
  {dt : TorchDtype} {rg : Nat → Bool} {y : Nat → Tensor R}

namespace LinearValid

theorem parts_pos (h : LinearValid L Po Pi) : 0 < Po ∧ 0 < Pi := by
  have := h.wfw.pos
  rw [h.shw] at this
  exact ⟨this Po (by simp), this Pi (by simp)⟩

theorem coordX (h : LinearValid L Po Pi) {r : Nat} (hr : r ∈ L.Px.members) :
    ∃ j, L.Px.coord r = [0, j] ∧ j < Pi := by
  have := coords_inBounds h.wfx hr
  rw [h.shx] at this
  obtain ⟨i, j, e, h1, h2⟩ := inBounds_two this
  refine ⟨j, ?_, h2⟩
  rw [Cart.coord, h.shx, e, Nat.lt_one_iff.1 h1]

theorem coordY (h : LinearValid L Po Pi) {r : Nat} (hr : r ∈ L.Py.members) :
    ∃ o, L.Py.coord r = [0, o] ∧ o < Po := by
  have := coords_inBounds h.wfy hr
  rw [h.shy] at this
  obtain ⟨i, j, e, h1, h2⟩ := inBounds_two this
  refine ⟨j, ?_, h2⟩
  rw [Cart.coord, h.shy, e, Nat.lt_one_iff.1 h1]

theorem coordW (h : LinearValid L Po Pi) {v : Nat} (hv : v ∈ L.Pw.members) :
    ∃ o j, L.Pw.coord v = [o, j] ∧ o < Po ∧ j < Pi := by
  have := coords_inBounds h.wfw hv
  rw [h.shw] at this
  obtain ⟨i, j, e, h1, h2⟩ := inBounds_two this
  refine ⟨i, j, ?_, h1, h2⟩
  rw [Cart.coord, h.shw, e]

theorem bcast (h : LinearValid L Po Pi) : BcastLayer L.xBroadcast := by
  obtain ⟨ρ, h1, -, h3⟩ := h.root
  refine ⟨⟨h.wfx, h.wfw, ⟨ρ, h1, h3⟩, ?_, ?_⟩, h.sx, Or.inl rfl⟩
  · show L.Px.shape ≠ []
    rw [h.shx]; simp
  · show BroadcastRule L.Px.shape L.Pw.shape
    rw [h.shx, h.shw]
    refine ⟨Nat.le_refl _, fun j hj => ?_⟩
    match j, hj with
    | 0, _ => exact Or.inr rfl
    | 1, _ => exact Or.inl rfl

theorem reduce (h : LinearValid L Po Pi) : ReduceLayer L.ySumReduce := by
  obtain ⟨ρ, -, h2, h3⟩ := h.root
  refine ⟨⟨h.wfy, h.wfw, ⟨ρ, h2, h3⟩, ?_, ?_⟩, h.sy, Or.inr ?_⟩
  · show L.Py.shape ≠ []
    rw [h.shy]; simp
  · show BroadcastRule L.Py.shape L.Pw.shape.reverse
    rw [h.shy, h.shw]
    refine ⟨Nat.le_refl _, fun j hj => ?_⟩
    match j, hj with
    | 0, _ => exact Or.inr rfl
    | 1, _ => exact Or.inl rfl
  · show (L.Py.shape.filter fun n => n != 1).length ≤ 1
    rw [h.shy]
    exact List.length_filter_le (fun n => n != 1) [Po]

theorem feeds (h : LinearValid L Po Pi) {r v : Nat} (hr : r ∈ L.Px.members) (hv : v ∈ L.Pw.members) :
    L.xBroadcast.Feeds r v ↔ (L.Px.coord r).getD 1 0 = (L.Pw.coord v).getD 1 0 := by
  obtain ⟨j, ej, hj⟩ := h.coordX hr
  obtain ⟨o', j', ev, -, hj'⟩ := h.coordW hv
  show Agree L.Px.shape (L.Px.coord r) (L.Pw.coord v) ↔ _
  rw [h.shx, ej, ev]
  constructor
  · intro ha
    by_cases hp : Pi = 1
    · show j = j'
      omega
    · exact ha 1 (by simp) hp
  · intro e k hk hne
    match k, hk with
    | 0, _ => exact absurd rfl hne
    | 1, _ => exact e

theorem collects (h : LinearValid L Po Pi) {u v : Nat} (hu : u ∈ L.Py.members) (hv : v ∈ L.Pw.members) :
    L.ySumReduce.Collects u v ↔ (L.Pw.coord v).getD 0 0 = (L.Py.coord u).getD 1 0 := by
  obtain ⟨o, eo, ho⟩ := h.coordY hu
  obtain ⟨o', j', ev, ho', -⟩ := h.coordW hv
  show Agree L.Py.shape (L.Py.coord u) (L.Pw.coord v).reverse ↔ _
  rw [h.shy, eo, ev]
  constructor
  · intro ha
    by_cases hp : Po = 1
    · show o' = o
      omega
    · exact (ha 1 (by simp) hp).symm
  · intro e k hk hne
    match k, hk with
    | 0, _ => exact absurd rfl hne
    | 1, _ => exact e.symm

theorem localIn (h : LinearValid L Po Pi) {v : Nat} (hv : v ∈ L.Pw.members) :
    L.localIn v = subsize Pi ((L.Pw.coord v).getD 1 0) L.inFeatures := by
  rw [LinearLayer.localIn, Cart.index_eq hv, h.shw]
  rfl

theorem localOut (h : LinearValid L Po Pi) {v : Nat} (hv : v ∈ L.Pw.members) :
    L.localOut v = subsize Po ((L.Pw.coord v).getD 0 0) L.outFeatures := by
  rw [LinearLayer.localOut, Cart.index_eq hv, h.shw]
  rfl

theorem localBias (h : LinearValid L Po Pi) {v : Nat} (hv : v ∈ L.Pw.members) :
    L.localBias v = true ↔ (L.Pw.coord v).getD 1 0 = 0 ∧ L.useBias = true := by
  obtain ⟨o, j, ev, -, -⟩ := h.coordW hv
  rw [LinearLayer.localBias, Cart.index_eq hv, Option.getD_some, ev]
  show (if j = 0 then L.useBias else false) = true ↔ j = 0 ∧ _
  by_cases hj : j = 0 <;> simp [hj]

end LinearValid

section
variable [AddCommMonoid R] [Mul R]

/-- The local result of worker `v` of `P_w`. -/
def linearMid (L : LinearLayer R) (I : Inputs R) (bs : List Nat) (dt : TorchDtype) (v : Nat) : Tensor R :=
  ⟨bs ++ [L.localOut v], dt, fun i =>
    (∑ k ∈ Finset.range (L.localIn v),
      (I.x (L.xBroadcast.broot v)).val (i.dropLast ++ [k]) * L.weight v [i.getLastD 0, k]) +
      if L.localBias v then L.bias v [i.getLastD 0] else 0⟩

theorem linear_stack (h : LinearValid L Po Pi) (hx : BlocksOf L.Px Pi L.inFeatures bs dt X I.x)
    (hs : ∀ u, L.Active u → (I.x u).shape ≠ []) :
    Stack L.xBroadcast L.ySumReduce I L.sublinear (linearMid L I bs dt) := by
  refine ⟨h.bcast, h.reduce, rfl, hs, fun v hv r hr hf => ?_, fun v _ => by simp [linearMid], ?_⟩
  · have hv' : v ∈ L.Pw.members := hv
    have hr' : r ∈ L.Px.members := hr
    have e := (h.feeds hr' hv').1 hf
    have er : L.xBroadcast.broot v = r := (h.bcast.rel hr hv).1 hf
    have es := hx.shape r hr'
    unfold LinearLayer.sublinear torchLinear
    rw [if_pos]
    · rw [es, List.dropLast_concat, hx.dtype r hr', linearMid, er]
    · refine ⟨?_, by rw [es, List.getLast?_concat, h.localIn hv', e]⟩
      rw [h.localIn hv']
      exact subsize_pos h.parts_pos.2 h.features
  · intro u hu v hv w hw h1 h2
    have e1 := (h.collects hu hv).1 h1
    have e2 := (h.collects hu hw).1 h2
    refine ⟨?_, rfl⟩
    show bs ++ [L.localOut v] = bs ++ [L.localOut w]
    rw [h.localOut hv, h.localOut hw, e1, e2]

/-- C42 forward: with evenly cut inputs and the blocks of `W` and `β` as local parameters, the worker of
`P_y` at position `o` gets the `o`-th block of `X Wᵀ + β`; the other workers of the layer get tensors
without entries. -/
theorem C42_forward (h : LinearValid L Po Pi) (hp : ParamBlocks L Po Pi W β)
    (hx : BlocksOf L.Px Pi L.inFeatures bs dt X I.x) (hs : ∀ u, L.Active u → (I.x u).shape ≠ []) :
    (∃ out : Nat → Tensor R, (∀ u ∈ L.Py.members, linearForward L I rg u = some (out u)) ∧
      BlocksOf L.Py Po L.outFeatures bs dt (fun i => (∑ k ∈ Finset.range L.inFeatures,
        X (i.dropLast ++ [k]) * W [i.getLastD 0, k]) + if L.useBias then β [i.getLastD 0] else 0) out) ∧
    (∀ w, L.Active w → w ∉ L.Py.members → ∃ z, linearForward L I rg w = some z ∧ z.shape.prod = 0) ∧
    (∀ w, ¬ L.Active w → linearForward L I rg w = some (I.x w)) := by
  have st := linear_stack h hx hs
  obtain ⟨f1, f2, f3⟩ := st.forward (rg := rg)
  obtain ⟨hPo, hPi⟩ := h.parts_pos
  refine ⟨?_, fun w hw hy => f2 w (hw.elim Or.inl fun hh => hh.elim Or.inr fun h => absurd h hy) hy,
    fun w hw => f3 w (fun hh => hw (Or.inl hh)) (fun hh => hw (Or.inr (Or.inl hh)))
      fun hh => hw (Or.inr (Or.inr hh))⟩
  have key : ∀ u ∈ L.Py.members, ∃ t, linearForward L I rg u = some t ∧
      t.shape = bs ++ [subsize Po ((L.Py.coord u).getD 1 0) L.outFeatures] ∧ t.dtype = dt ∧
      ∀ b, InBounds b bs → ∀ k < subsize Po ((L.Py.coord u).getD 1 0) L.outFeatures,
        t.val (b ++ [k]) = (∑ i ∈ Finset.range L.inFeatures, X (b ++ [i]) *
          W [startIdx Po ((L.Py.coord u).getD 1 0) L.outFeatures + k, i]) +
          if L.useBias then β [startIdx Po ((L.Py.coord u).getD 1 0) L.outFeatures + k] else 0 := by
    intro u hu
    obtain ⟨v, hv, hc, e⟩ := f1 u hu
    have hv' : v ∈ L.Pw.members := hv
    refine ⟨_, e, ?_, rfl, fun b hb k hk => ?_⟩
    · show bs ++ [L.localOut v] = _
      rw [h.localOut hv', (h.collects hu hv').1 hc]
    obtain ⟨o, eo, ho⟩ := h.coordY hu
    rw [eo] at hk ⊢
    simp only [List.getD_cons_succ, List.getD_cons_zero] at hk ⊢
    -- the contribution of the worker at position `c`
    let g : List Nat → R := fun c =>
      (∑ i ∈ Finset.range (subsize Pi (c.getD 1 0) L.inFeatures),
        X (b ++ [startIdx Pi (c.getD 1 0) L.inFeatures + i]) *
          W [startIdx Po (c.getD 0 0) L.outFeatures + k, startIdx Pi (c.getD 1 0) L.inFeatures + i]) +
        if c.getD 1 0 = 0 ∧ L.useBias = true then β [startIdx Po (c.getD 0 0) L.outFeatures + k] else 0
    have hsum : ((L.Pw.members.filter fun v => decide (L.ySumReduce.Collects u v)).map fun v =>
        (linearMid L I bs dt v).val (b ++ [k])).sum =
        ((L.Pw.members.filter fun v => decide ((L.Pw.coord v).getD 0 0 = o)).map fun v =>
          g (L.Pw.coord v)).sum := by
      have hfil : (L.Pw.members.filter fun v => decide (L.ySumReduce.Collects u v)) =
          L.Pw.members.filter fun v => decide ((L.Pw.coord v).getD 0 0 = o) :=
        List.filter_congr fun v hv => decide_eq_decide.2 (by rw [h.collects hu hv, eo]; rfl)
      rw [hfil]
      congr 1
      refine List.map_congr_left fun v hv => ?_
      have hv1 : v ∈ L.Pw.members := List.mem_of_mem_filter hv
      have hv2 : (L.Pw.coord v).getD 0 0 = o := of_decide_eq_true (List.mem_filter.1 hv).2
      have hr : L.xBroadcast.broot v ∈ L.Px.members := h.bcast.root_mem hv1
      have hf := (h.feeds hr hv1).1 ((h.bcast.rel hr hv1).2 rfl)
      simp only [linearMid, List.dropLast_concat, List.getLastD_concat, g]
      congr 1
      · rw [h.localIn hv1]
        refine Finset.sum_congr rfl fun i hi => ?_
        have hi' := Finset.mem_range.1 hi
        rw [hx.val _ hr b hb i (by rw [hf]; exact hi'), hf, hp.weight v hv1 k (by rw [hv2]; exact hk) i hi']
      · by_cases hB : L.localBias v = true
        · have hB' := (h.localBias hv1).1 hB
          rw [if_pos hB, if_pos hB', hp.bias v hv1 hB'.1 k (by rw [hv2]; exact hk)]
        · rw [if_neg hB, if_neg fun hh => hB ((h.localBias hv1).2 hh)]
    refine hsum.trans ?_
    rw [members_filter_sum h.wfw (fun c => c.getD 0 0 = o) g, h.shw]
    show (∑ a ∈ Finset.range Po, ∑ j ∈ Finset.range Pi, if a = o then g [a, j] else 0) = _
    rw [Finset.sum_eq_single_of_mem o (Finset.mem_range.2 ho) fun a _ ha => by simp [ha]]
    simp only [if_pos, g, List.getD_cons_succ, List.getD_cons_zero, Finset.sum_add_distrib]
    congr 1
    · exact sum_even hPi L.inFeatures fun i => X (b ++ [i]) * W [startIdx Po o L.outFeatures + k, i]
    · rw [Finset.sum_eq_single_of_mem 0 (Finset.mem_range.2 hPi) fun j _ hj => by simp [hj]]
      by_cases hB : L.useBias = true <;> simp [hB]
  have : Nonempty (Tensor R) := ⟨I.x 0⟩
  choose! out hout using key
  refine ⟨out, fun u hu => (hout u hu).1, fun u hu => (hout u hu).2.1, fun u hu => (hout u hu).2.2.1,
    fun u hu b hb k hk => ?_⟩
  rw [(hout u hu).2.2.2 b hb k hk]
  simp only [List.dropLast_concat, List.getLastD_concat]

end

variable [CommSemiring R]

theorem linear_grads (h : LinearValid L Po Pi) (hy : BlocksOf L.Py Po L.outFeatures bs dt Y y)
    (hs : ∀ u, L.Active u → (y u).shape ≠ []) :
    StackGrads L.xBroadcast L.ySumReduce I (linearMid L I bs dt)
      (fun v x dy => torchLinearGradInput (L.localOut v) (L.weight v) x dy) y := by
  refine ⟨fun u hu v hv hc => ?_, hs, fun v x dy => ⟨rfl, rfl⟩⟩
  refine ⟨?_, hy.dtype u hu⟩
  show _ = bs ++ [L.localOut v]
  rw [hy.shape u hu, h.localOut hv, (h.collects hu hv).1 hc]

/-- C42 backward: with evenly cut output gradients `Y` the worker of `P_x` at position `j` gets the `j`-th
block of the gradient `Y W` of the input; the other workers of the layer get tensors without entries. -/
theorem C42_backward (h : LinearValid L Po Pi) (hp : ParamBlocks L Po Pi W β)
    (hx : BlocksOf L.Px Pi L.inFeatures bs dt X I.x) (hs : ∀ u, L.Active u → (I.x u).shape ≠ [])
    (hy : BlocksOf L.Py Po L.outFeatures bs dt Y y) (hs' : ∀ u, L.Active u → (y u).shape ≠ []) :
    (∃ dx : Nat → Tensor R, (∀ r ∈ L.Px.members, linearBackward L I rg y r = some (dx r)) ∧
      BlocksOf L.Px Pi L.inFeatures bs dt (fun i => ∑ o ∈ Finset.range L.outFeatures,
        Y (i.dropLast ++ [o]) * W [o, i.getLastD 0]) dx) ∧
    (∀ w, L.Active w → w ∉ L.Px.members →
      ∃ z, linearBackward L I rg y w = some z ∧ z.shape.prod = 0) := by
  have st := linear_stack h hx hs
  obtain ⟨hPo, hPi⟩ := h.parts_pos
  obtain ⟨b1, b2, -⟩ := st.backward (rg := rg) (linear_grads (I := I) h hy hs')
    (fun v => y (L.ySumReduce.rroot v)) (fun v hv u hu hc => by rw [(h.reduce.rel hu hv).1 hc])
  refine ⟨⟨_, b1, hx.shape, hx.dtype, fun r hr b hb i hi => ?_⟩,
    fun w hw hn => b2 w (hw.elim (fun hh => absurd hh hn) fun hh => hh.elim Or.inr Or.inl) hn⟩
  obtain ⟨j, ej, hj⟩ := h.coordX hr
  rw [ej] at hi ⊢
  simp only [List.getD_cons_succ, List.getD_cons_zero, List.dropLast_concat, List.getLastD_concat] at hi ⊢
  let g : List Nat → R := fun c =>
    ∑ k ∈ Finset.range (subsize Po (c.getD 0 0) L.outFeatures),
      Y (b ++ [startIdx Po (c.getD 0 0) L.outFeatures + k]) *
        W [startIdx Po (c.getD 0 0) L.outFeatures + k, startIdx Pi (c.getD 1 0) L.inFeatures + i]
  have hsum : ((L.Pw.members.filter fun v => decide (L.xBroadcast.Feeds r v)).map fun v =>
      (torchLinearGradInput (L.localOut v) (L.weight v) (I.x r) (y (L.ySumReduce.rroot v))).val
        (b ++ [i])).sum =
      ((L.Pw.members.filter fun v => decide ((L.Pw.coord v).getD 1 0 = j)).map fun v =>
        g (L.Pw.coord v)).sum := by
    have hfil : (L.Pw.members.filter fun v => decide (L.xBroadcast.Feeds r v)) =
        L.Pw.members.filter fun v => decide ((L.Pw.coord v).getD 1 0 = j) :=
      List.filter_congr fun v hv => decide_eq_decide.2 (by rw [h.feeds hr hv, ej]; exact eq_comm)
    rw [hfil]
    congr 1
    refine List.map_congr_left fun v hv => ?_
    have hv1 : v ∈ L.Pw.members := List.mem_of_mem_filter hv
    have hv2 : (L.Pw.coord v).getD 1 0 = j := of_decide_eq_true (List.mem_filter.1 hv).2
    have hu : L.ySumReduce.rroot v ∈ L.Py.members := h.reduce.root_mem hv1
    have hc := (h.collects hu hv1).1 ((h.reduce.rel hu hv1).2 rfl)
    simp only [torchLinearGradInput, List.dropLast_concat, List.getLastD_concat, g]
    rw [h.localOut hv1]
    refine Finset.sum_congr rfl fun k hk => ?_
    have hk' := Finset.mem_range.1 hk
    rw [hy.val _ hu b hb k (by rw [← hc]; exact hk'), ← hc,
      hp.weight v hv1 k hk' i (by rw [hv2]; exact hi)]
  refine hsum.trans ?_
  rw [members_filter_sum h.wfw (fun c => c.getD 1 0 = j) g, h.shw]
  show (∑ a ∈ Finset.range Po, ∑ j' ∈ Finset.range Pi, if j' = j then g [a, j'] else 0) = _
  rw [← sum_even hPo L.outFeatures]
  refine Finset.sum_congr rfl fun a _ => ?_
  rw [Finset.sum_eq_single_of_mem j (Finset.mem_range.2 hj) fun a _ ha => by simp [ha], if_pos rfl]
  rfl

/-- C42 parameters: every worker of `P_w` gets its block of the gradient `Yᵀ X` of the weight; the workers
of the first column, and only these, have a bias (if the layer has one) and get their block of its
gradient. -/
theorem C42_parameters (h : LinearValid L Po Pi)
    (hx : BlocksOf L.Px Pi L.inFeatures bs dt X I.x) (hs : ∀ u, L.Active u → (I.x u).shape ≠ [])
    (hy : BlocksOf L.Py Po L.outFeatures bs dt Y y) (hs' : ∀ u, L.Active u → (y u).shape ≠ []) :
    ∀ v ∈ L.Pw.members, ∃ dw db, linearParamGrads L I rg y v = some (dw, db) ∧
      (∀ k < subsize Po ((L.Pw.coord v).getD 0 0) L.outFeatures,
        ∀ i < subsize Pi ((L.Pw.coord v).getD 1 0) L.inFeatures,
          dw [k, i] = boxSum bs fun b =>
            Y (b ++ [startIdx Po ((L.Pw.coord v).getD 0 0) L.outFeatures + k]) *
              X (b ++ [startIdx Pi ((L.Pw.coord v).getD 1 0) L.inFeatures + i])) ∧
      (db.isSome ↔ (L.Pw.coord v).getD 1 0 = 0 ∧ L.useBias = true) ∧
      (∀ f, db = some f → ∀ k < subsize Po ((L.Pw.coord v).getD 0 0) L.outFeatures,
        f [k] = boxSum bs fun b => Y (b ++ [startIdx Po ((L.Pw.coord v).getD 0 0) L.outFeatures + k])) := by
  intro v hv
  have st := linear_stack h hx hs
  obtain ⟨r, hr, hf, -, e⟩ := (C22_forward L.xBroadcast h.bcast I st.hasBatch).1 v hv
  obtain ⟨u, hu, hc, e'⟩ := st.midGrad_worker (rg := rg) (linear_grads (I := I) h hy hs') hv
  have hr' : r ∈ L.Px.members := hr
  have hf' := (h.feeds hr' hv).1 hf
  have hc' := (h.collects hu hv).1 hc
  refine ⟨_, _, by rw [linearParamGrads, e, e'], fun k hk i hi => ?_, ?_, fun f hf k hk => ?_⟩
  · show boxSum (I.x r).shape.dropLast _ = _
    rw [hx.shape r hr', List.dropLast_concat]
    refine boxSum_congr fun b hb => ?_
    show (y u).val (b ++ [k]) * (I.x r).val (b ++ [i]) = _
    rw [hy.val u hu b hb k (by rw [← hc']; exact hk), hx.val r hr' b hb i (by rw [hf']; exact hi), hc', hf']
  · rw [← h.localBias hv]
    by_cases hB : L.localBias v = true <;> simp [hB]
  · by_cases hB : L.localBias v = true
    · rw [if_pos hB] at hf
      cases hf
      show boxSum (y u).shape.dropLast _ = _
      rw [hy.shape u hu, List.dropLast_concat]
      refine boxSum_congr fun b hb => ?_
      show (y u).val (b ++ [k]) = _
      rw [hy.val u hu b hb k (by rw [← hc']; exact hk), hc']
    · rw [if_neg hB] at hf
      cases hf

/-- C42: the collectives of forward and backward cannot deadlock. -/
theorem C42_terminates (h : LinearValid L Po Pi)
    (hx : BlocksOf L.Px Pi L.inFeatures bs dt X I.x) (hs : ∀ u, L.Active u → (I.x u).shape ≠ [])
    (hy : BlocksOf L.Py Po L.outFeatures bs dt Y y) (hs' : ∀ u, L.Active u → (y u).shape ≠ []) :
    SafeRun (groupUnion L.Px.members L.Pw.members) (bcastActs L.xBroadcast I) ∧
    SafeRun (groupUnion L.Pw.members L.Py.members)
      (reduceActs L.ySumReduce (midInputs L.xBroadcast I L.sublinear rg)) ∧
    SafeRun (groupUnion L.Pw.members L.Py.members)
      (reduceBackActs L.ySumReduce (midInputs L.xBroadcast I L.sublinear rg) y) ∧
    SafeRun (groupUnion L.Px.members L.Pw.members) (bcastBackActs L.xBroadcast I fun v =>
      (inGrad L.xBroadcast L.ySumReduce I L.sublinear
        (fun v x dy => torchLinearGradInput (L.localOut v) (L.weight v) x dy) rg y v).getD
          ⟨[], .float64, fun _ => 0⟩) := by
  have st := linear_stack h hx hs
  obtain ⟨-, -, b3, b4⟩ := st.backward (rg := rg) (linear_grads (I := I) h hy hs')
    (fun v => y (L.ySumReduce.rroot v)) (fun v hv u hu hc => by rw [(h.reduce.rel hu hv).1 hc])
  exact ⟨(st.terminates (rg := rg)).1, (st.terminates (rg := rg)).2, b3, b4⟩

end

/-! ## A worked case -/

/-- Five input features over workers 4, 5; three output features over workers 0, 6; weights over workers
0 to 3.  `W[o, i] = 10 o + i`, `β[o] = 100 o`. -/
def exLin : LinearLayer Int :=
  ⟨⟨[4, 5], [1, 2], some 0⟩, ⟨[0, 6], [1, 2], some 0⟩,
    ⟨[0, 1, 2, 3], [2, 2], some 0⟩, false, false, 5, 3, true,
    fun v c => 10 * (2 * (v / 2 : Nat) + c.getD 0 0 : Nat) + (3 * (v % 2 : Nat) + c.getD 1 0 : Nat),
    fun v c => 100 * (2 * (v / 2 : Nat) + c.getD 0 0 : Nat)⟩

/-- `X[b, i] = b + i`; workers outside `P_x` hold tensors without entries. -/
def exLinIn : Inputs Int :=
  ⟨fun w => ⟨if w = 4 then [2, 3] else if w = 5 then [2, 2] else [2, 0], .float64, fun i =>
    ((i.getD 0 0 + (if w = 5 then 3 else 0) + i.getD 1 0 : Nat) : Int)⟩, fun _ => true⟩

theorem exLin_valid : LinearValid exLin 2 2 :=
  ⟨⟨by decide, by decide, by decide⟩, ⟨by decide, by decide, by decide⟩, ⟨by decide, by decide, by decide⟩,
    rfl, rfl, rfl, ⟨_, rfl, rfl, rfl⟩, by decide, by decide, by decide⟩

example : ParamBlocks exLin 2 2 (fun c => 10 * (c.getD 0 0 : Int) + (c.getD 1 0 : Int))
    (fun c => 100 * (c.getD 0 0 : Int)) := by
  refine ⟨fun v hv => ?_, fun v hv => ?_⟩ <;>
    (have : v = 0 ∨ v = 1 ∨ v = 2 ∨ v = 3 := by simpa [exLin] using hv
     rcases this with rfl | rfl | rfl | rfl)
  all_goals first
    | (intro k hk i hi
       show (_ : Int) = _
       simp [exLin, Cart.coord, getCoords, startIdx])
    | (intro _ k hk
       simp [exLin, Cart.coord, getCoords, startIdx])

example : BlocksOf exLin.Px 2 5 [2] .float64 (fun c => (c.getD 0 0 : Int) + (c.getD 1 0 : Int)) exLinIn.x := by
  refine ⟨?_, fun _ _ => rfl, ?_⟩
  · decide
  · intro u hu b hb i hi
    match b, hb with
    | [b], _ =>
      have : u = 4 ∨ u = 5 := by simpa [exLin] using hu
      rcases this with rfl | rfl <;> simp [exLin, exLinIn, Cart.coord, getCoords, startIdx]; omega

example : ∀ u, (exLinIn.x u).shape ≠ [] := by
  intro u
  simp only [exLinIn]
  split
  · simp
  · split <;> simp

/-- Output feature 2 for the second sample: `20*1 + 21*2 + 22*3 + 23*4 + 24*5 + 200`. -/
example : (linearForward exLin exLinIn (fun _ => true) 6).map (fun t => (t.shape, t.val [1, 0])) =
    some ([2, 1], 540) := by decide
example : (linearForward exLin exLinIn (fun _ => true) 4).map (fun t => t.shape) = some [2, 0] := by decide

end Verif
