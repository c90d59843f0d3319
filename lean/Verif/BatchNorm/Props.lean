import Verif.BatchNorm.Forward

/-!
# C48, C49, C59: batch norm
-/

namespace Verif

section
variable {R : Type} {P : Cart} {bs : List Nat} {M : BatchNorm R}

/-- Lengths of the channel blocks `__init__` expects. -/
def channelBlocks (P : Cart) (numFeatures : Nat) : List Nat :=
  (List.range (P.shape.getD 1 0)).map fun i => subsize (P.shape.getD 1 0) i numFeatures

/-- The buffers of all workers after `__init__`. -/
def initialStates [Zero R] [One R] (P : Cart) (numFeatures w : Nat) : BNState R :=
  initialState P.shape.length ((localFeatures P numFeatures w).getD 0)

theorem balanced_extents {Ps ns : List Nat} (h : Ps.length = ns.length) {d : Nat} (hd : d < Ps.length) :
    (Layout.balanced Ps ns).getD d [] =
      (List.range (Ps.getD d 0)).map fun i => subsize (Ps.getD d 0) i (ns.getD d 0) := by
  induction Ps generalizing ns d with
  | nil => simp at hd
  | cons p Ps ih =>
    cases ns with
    | nil => simp at h
    | cons n ns =>
      rw [Layout.balanced_cons]
      cases d with
      | zero => rfl
      | succ d =>
        simp only [List.getD_cons_succ]
        exact ih (by simpa using h) (by simpa using hd)

theorem stop_sub_start {L : Layout} {idx : List Nat} (h : idx.length = L.length) {d : Nat} (hd : d < L.length) :
    (L.stopAt idx).getD d 0 - (L.startAt idx).getD d 0 = (L.shapeAt idx).getD d 0 := by
  obtain ⟨a, b, c⟩ := L.shapeAt_getD idx h d hd
  rw [a, b, c, take_sum_succ]
  omega

/-- The number of local features is that of the worker's channel block. -/
theorem localFeatures_eq (hP : P.WF) (h2 : 2 ≤ P.shape.length) (nf : Nat) {w : Nat} (hw : w ∈ P.members) :
    localFeatures P nf w = some ((channelBlocks P nf).getD ((P.coord w).getD 1 0) 0) := by
  have hb : InBounds (P.coord w) P.shape := coords_inBounds hP hw
  have hl : P.shape.length = (P.shape.set 1 nf).length := by simp
  have hLl : (Layout.balanced P.shape (P.shape.set 1 nf)).length = P.shape.length := by
    rw [← Layout.length_pshape, Layout.balanced_pshape hl]
  rw [localFeatures, Cart.index_eq hw, Option.map_some]
  have hc : (P.coord w).length = (Layout.balanced P.shape (P.shape.set 1 nf)).length := by
    rw [hb.length_eq, hLl]
  have e := stop_sub_start hc (d := 1) (by omega)
  rw [(Layout.balanced_startAt hl hb).1, (Layout.balanced_startAt hl hb).2] at e
  have e' : (computeStopIndex P.shape (P.coord w) (P.shape.set 1 nf)).getD 1 0 -
      (computeStartIndex P.shape (P.coord w) (P.shape.set 1 nf)).getD 1 0 = _ := e
  refine congrArg some (e'.trans ?_)
  rw [(Layout.shapeAt_getD _ _ hc 1 (by omega)).1, balanced_extents hl (by omega), channelBlocks,
    getD_set _ (by omega), if_pos rfl]

theorem channelBlocks_sum (h : 0 < P.shape.getD 1 0) (nf : Nat) : (channelBlocks P nf).sum = nf := by
  have := Layout.balanced_global (Ps := [P.shape.getD 1 0]) (ns := [nf]) rfl (by simpa using h)
  rw [Layout.balanced_cons] at this
  simpa [Layout.global, channelBlocks, Layout.balanced] using this

theorem shape_pos (hP : P.WF) {d : Nat} (hd : d < P.shape.length) : 0 < P.shape.getD d 0 := by
  rw [List.getD_eq_getElem?_getD, List.getElem?_eq_getElem hd]
  exact hP.pos _ (List.getElem_mem hd)

/-- What `__init__` makes. -/
theorem newBatchNorm_with (hP : P.WF) (hr : ∃ r, P.root = some r) {nf : Nat} {eps : R} {momentum : Option R}
    {affine track : Bool} {w : Nat} (hm : newBatchNorm P nf eps momentum affine track w = some M)
    (hbs : bs.sum = nf) :
    BNWith P bs M ∧ M.numFeatures = nf ∧ M.eps = eps ∧ M.momentum = momentum ∧ M.affine = affine ∧
      M.track = track := by
  rw [newBatchNorm] at hm
  split at hm
  · cases hm
  · next h2 =>
    obtain ⟨Q, eQ, hQ⟩ := sumPartition_spec hP (by omega)
    rw [eQ] at hm
    cases hf : localFeatures P nf w with
    | none => rw [hf] at hm; cases hm
    | some k =>
      rw [hf] at hm
      obtain rfl : M = ⟨P, Q, nf, eps, momentum, affine, track⟩ := (Option.some.inj hm).symm
      exact ⟨⟨hP, hr, by omega, rfl, hQ, hbs⟩, rfl, rfl, rfl, rfl, rfl⟩

/-- **C59, as intended**: every worker can create the layer, as for the other layers. -/
def C59_full : Prop := ∀ (P : Cart), P.WF → (∃ r, P.root = some r) → 2 ≤ P.shape.length →
  ∀ (nf : Nat) (affine track : Bool) (w : Nat), ∃ M, newBatchNorm P nf (1 : Int) none affine track w = some M

/-- C59 on the workers of the partition: they all make the same layer, whose sums and parameters are kept on
the first worker of every channel block. -/
theorem C59_inside_partial (hP : P.WF) (h2 : 2 ≤ P.shape.length) (nf : Nat) (eps : R)
    (momentum : Option R) (affine track : Bool) :
    ∃ M, (∀ w ∈ P.members, newBatchNorm P nf eps momentum affine track w = some M) ∧
      (∀ w ∈ P.members, w ∈ M.Psum.members ↔ ∀ d, d < P.shape.length → d ≠ 1 → (P.coord w).getD d 0 = 0) ∧
      ∀ w ∈ P.members, localFeatures P nf w = some ((channelBlocks P nf).getD ((P.coord w).getD 1 0) 0) := by
  obtain ⟨Q, eQ, hQ⟩ := sumPartition_spec hP h2
  refine ⟨⟨P, Q, nf, eps, momentum, affine, track⟩, fun w hw => ?_, hQ.pos, fun w hw => localFeatures_eq hP h2 nf hw⟩
  rw [newBatchNorm, if_neg (by omega), localFeatures_eq hP h2 nf hw, eQ]
  rfl

/-- C59 outside the partition: creating the layer always raises an exception. -/
theorem C59_outside (nf : Nat) (eps : R) (momentum : Option R) (affine track : Bool) (w : Nat)
    (hw : w ∉ P.members) : newBatchNorm P nf eps momentum affine track w = none := by
  rw [newBatchNorm]
  split
  · rfl
  · rw [localFeatures, Cart.index_none hw]
    rfl

variable [Field R]

/-- **C48, statistics**: for blocks of any lengths every worker obtains, for each of its channels, the mean and
the variance of that channel in the whole tensor. -/
theorem C48_statistics {L : Layout} (h : Placed P L) {nf : Nat} {eps : R} {momentum : Option R}
    {affine track : Bool} {v : Nat} (hm : newBatchNorm P nf eps momentum affine track v = some M) {X : Tensor R}
    {x : Nat → Tensor R} (hx : Blocks P L X x) (rg : Nat → Bool) (w : Nat) (hw : w ∈ P.members) :
    ∃ m s, bnStats M (channelVolume X : Nat) x rg w = some (m, s) ∧
      m.shape = channelShape P.shape.length ((x w).shape.getD 1 0) ∧ s.shape = m.shape ∧
      ∀ l, InBounds l (x w).shape →
        m.val (clip m.shape l) = channelMean X ((shiftBy (L.startAt (P.coord w)) l).getD 1 0) ∧
        s.val (clip s.shape l) = channelVar X ((shiftBy (L.startAt (P.coord w)) l).getD 1 0) := by
  have hM := ((newBatchNorm_with h.wf h.root hm (bs := [nf]) (by simp)).1).made h.layout
  obtain ⟨m, s, e, h1, h2⟩ := hM.stats (rg := rg) hx hw
  have c1 := (held_iff hM _ w m).1 h1
  have c2 := (held_iff hM _ w s).1 h2
  have hsh : (x w).shape.getD 1 0 = chCount P L w := by rw [hx.shape w hw]; rfl
  have hlen := hM.block_length hx hw
  have hL : L.length = P.shape.length := by rw [← h.layout, L.length_pshape]
  have two := hM.two
  refine ⟨m, s, e, by rw [hsh, c1.shape], by rw [c1.shape, c2.shape], fun l hl => ?_⟩
  have hk : l.getD 1 0 < chCount P L w := by
    rw [← hsh]; exact (inBounds_iff.1 hl).2 1 (by omega)
  have hll : l.length = P.shape.length := hl.length_eq.trans hlen
  have pos : (shiftBy (L.startAt (P.coord w)) l).getD 1 0 = chStart P L w + l.getD 1 0 :=
    getD_shiftBy (by rw [Layout.length_startAt (coord_len h.layout w)]; omega) (by omega)
  rw [pos]
  exact ⟨c1.clip two hll hk, c2.clip two hll hk⟩

variable [DecidableEq R]

/-- **C48, outputs**: in every mode the workers return the blocks of the sequential result. -/
theorem C48_forward (h : BNWith P bs M) {c : BNCall R} (hc : c.OK P bs M) (sqrt : R → R) {s : SeqState R}
    {st : Nat → BNState R} (hs : M.track = true → Running P bs s st) :
    ∃ y, Blocks P c.L (seqNorm sqrt M.eps M.affine c.gamma c.beta (seqUsed M.track c.training s c.X) c.X) y ∧
      ∀ w ∈ P.members, ∃ st', c.run M sqrt st w = some (y w, st') := by
  have one : ∀ w ∈ P.members, ∃ y st', c.run M sqrt st w = some (y, st') ∧
      y.shape = c.L.shapeAt (P.coord w) ∧ y.dtype = c.X.dtype ∧ ∀ l, InBounds l (c.L.shapeAt (P.coord w)) →
        y.val l = (seqNorm sqrt M.eps M.affine c.gamma c.beta (seqUsed M.track c.training s c.X) c.X).val
          (shiftBy (c.L.startAt (P.coord w)) l) := by
    intro w hw
    obtain ⟨m, v, st', e, em, ev, -⟩ := hc.used h hw hs
    have hmade := h.made hc.layout
    rw [← hc.channels] at em ev
    obtain ⟨y, ey, h1, h2, h3⟩ := hmade.apply (rg := c.rg) sqrt hc.blocks
      (fun ha => by rw [hc.channels]; exact hc.gamma ha) (fun ha => by rw [hc.channels]; exact hc.beta ha) hw em ev
    exact ⟨y, st', by rw [hc.run h sqrt hw, e, Option.bind_some, ey, Option.map_some], h1, h2, h3⟩
  classical
  refine ⟨fun w => if hw : w ∈ P.members then (one w hw).choose else ⟨[], .float32, fun _ => 0⟩,
    ⟨hc.blocks.whole, fun w hw => ?_, fun w hw => ?_, fun w hw => ?_⟩, fun w hw => ?_⟩ <;>
    simp only [dif_pos hw] <;> obtain ⟨st', e, h1, h2, h3⟩ := (one w hw).choose_spec
  · exact h1
  · exact h2
  · exact h3
  · exact ⟨st', e⟩

/-- C48, another number of channels than `num_features` is refused. -/
theorem C48_features {L : Layout} (h : Placed P L) (hM : M.P = P) {X : Tensor R} {x : Nat → Tensor R}
    (hx : Blocks P L X x) {rg : Nat → Bool} {b : Bool} (hrg : ∀ v ∈ P.members, rg v = b)
    (hn : X.shape.getD 1 0 ≠ M.numFeatures) (h2 : 2 ≤ P.shape.length) (sqrt : R → R) (training : Bool)
    (st : Nat → BNState R) (g b' : Nat → Tensor R) (w : Nat) (hw : w ∈ P.members) :
    bnForward M sqrt training st g b' x rg w = none := by
  obtain ⟨w0, h0⟩ : ∃ w0, P.members.head? = some w0 := by
    cases hP : P.members with
    | nil => rw [hP] at hw; cases hw
    | cons a l => exact ⟨a, rfl⟩
  have hg := (C08_global_structure P h.wf L h.layout (fun v => ((x v).shape, (x v).dtype, rg v)) X.dtype b
    (fun v hv idx e => by
      have : P.coord v = idx := by rw [Cart.index_eq hv] at e; exact Option.some.inj e
      rw [← this, ← hx.shape v hv, hx.dtype v hv, hrg v hv]) [w0] w0 h0 (by simp)).1 w hw
  have hL : L.length = P.shape.length := by rw [← h.layout, L.length_pshape]
  rw [bnForward, hM, hg]
  have e1 : (L.global.map fun (n : Nat) => (n : Int)).getD 1 0 = (X.shape.getD 1 0 : Nat) := by
    rw [hx.whole, List.getD_eq_getElem?_getD, List.getElem?_map, List.getD_eq_getElem?_getD,
      List.getElem?_eq_getElem (by rw [Layout.length_global]; omega)]
    rfl
  simp only [e1, ne_eq, Nat.cast_inj, hn, not_false_eq_true, if_true]

omit [DecidableEq R] in
/-- C48, the collectives of one average cannot deadlock. -/
theorem C48_terminates {L : Layout} (h : BNMade P L M) {X : Tensor R} {x : Nat → Tensor R} (hx : Blocks P L X x)
    (rg : Nat → Bool) (V : Int) :
    SafeRun (groupUnion P.members M.Psum.members)
      (reduceActs M.sr ⟨fun u => localSums P.shape.length (x u), rg⟩) ∧
    SafeRun (groupUnion M.Psum.members P.members)
      (bcastActs M.bc ⟨fun v => (bnAverage M V x rg v).getD ⟨[], .float64, fun _ => 0⟩, rg⟩) := by
  have a := (C23_terminates M.sr h.srLayer ⟨fun u => localSums M.P.shape.length (x u), rg⟩ _ (h.srInputs hx)
    (h.srBatch hx) (h.srBatch hx)).1
  have b := (C22_terminates M.bc h.bcLayer
    ⟨fun v => (bnAverage M V x rg v).getD ⟨[], .float64, fun _ => 0⟩, rg⟩ _ (h.average_all hx V).2
    (h.average_all (rg := rg) hx V).2).1
  have ea : groupUnion M.sr.Px.members M.sr.Py.members = groupUnion P.members M.Psum.members := by
    rw [← h.part]; rfl
  have eb : groupUnion M.bc.Px.members M.bc.Py.members = groupUnion M.Psum.members P.members := by
    rw [← h.part]; rfl
  rw [ea, h.part] at a
  rw [eb] at b
  exact ⟨a, b⟩

/-! ## Histories -/

omit [DecidableEq R] in
/-- The buffers after `__init__` hold means 0 and variances 1. -/
theorem C49_initial (hP : P.WF) (h2 : 2 ≤ P.shape.length) (nf : Nat) :
    Running P (channelBlocks P nf) ⟨fun _ => (0 : R), fun _ => 1, 0⟩ (initialStates P nf) := by
  intro w hw
  rw [initialStates, localFeatures_eq hP h2 nf hw]
  exact ⟨⟨rfl, fun _ _ => rfl⟩, ⟨rfl, fun _ _ => rfl⟩⟩

omit [DecidableEq R] in
/-- The parameters after `__init__` hold the same value for every channel. -/
theorem C48_initial (h : BNWith P (channelBlocks P M.numFeatures) M) (value : R) :
    Param P M.Psum (channelBlocks P M.numFeatures) .float32 (fun _ => value)
      (fun w => initialParam M P.shape.length ((localFeatures P M.numFeatures w).getD 0) value w) := by
  refine ⟨fun r hr => ?_, fun v _ => ?_⟩
  · simp only [initialParam, if_pos hr, localFeatures_eq h.wf h.two M.numFeatures (h.sum.sub r hr)]
    exact ⟨⟨rfl, fun _ _ => rfl⟩, trivial⟩
  · simp only [initialParam]
    split
    · intro e
      have := congrArg List.length e
      rw [length_channelShape, List.length_nil] at this
      have := h.two
      omega
    · simp

/-- **C49, as intended**: after any history the buffers are those of the sequential layer, whose running
variance is updated with the unbiased variance of the batch. -/
def C49_full : Prop := ∀ (P : Cart) (bs : List Nat) (M : BatchNorm ℚ), BNWith P bs M → M.track = true →
  ∀ (sqrt : ℚ → ℚ) (s : SeqState ℚ) (st : Nat → BNState ℚ), Running P bs s st →
  (∀ w ∈ P.members, (st w).seen = s.seen) → ∀ cs : List (BNCall ℚ), (∀ c ∈ cs, c.OK P bs M) →
    Running P bs (seqStates M.momentum M.track channelVarUnbiased s cs) (bnStates M sqrt st cs)

/-- C49 with the biased variance, and momentum zero excluded: after any history of calls, in any modes, the
buffers hold the sequential running statistics. -/
theorem C49_history_partial [CharZero R] (h : BNWith P bs M) (h0 : M.momentum ≠ some 0)
    (sqrt : R → R) (cs : List (BNCall R)) (hcs : ∀ c ∈ cs, c.OK P bs M) (s : SeqState R) (st : Nat → BNState R)
    (hs : Running P bs s st) (hseen : ∀ w ∈ P.members, (st w).seen = s.seen) :
    Running P bs (seqStates M.momentum M.track channelVar s cs) (bnStates M sqrt st cs) := by
  replace hseen : ∀ w ∈ P.members, M.momentum = none → (st w).seen = s.seen := fun w hw _ => hseen w hw
  induction cs generalizing s st with
  | nil => exact hs
  | cons c cs ih =>
    have hc := hcs c List.mem_cons_self
    rw [seqStates, bnStates]
    have one : ∀ w ∈ P.members, ∃ y st', c.run M sqrt st w = some (y, st') ∧
        (Held P bs (if c.training && M.track then seqUpdate M.momentum s (channelMean c.X) (channelVar c.X)
          else s).mean w st'.mean ∧
        Held P bs (if c.training && M.track then seqUpdate M.momentum s (channelMean c.X) (channelVar c.X)
          else s).var w st'.var) ∧
        (M.momentum = none → st'.seen = (if c.training && M.track then
          seqUpdate M.momentum s (channelMean c.X) (channelVar c.X) else s).seen) := by
      intro w hw
      obtain ⟨m, v, st', e, em, ev, hu⟩ := hc.used h hw (fun _ => hs)
      have hmade := h.made hc.layout
      have em' := em
      have ev' := ev
      rw [← hc.channels] at em' ev'
      obtain ⟨y, ey, -⟩ := hmade.apply (rg := c.rg) sqrt hc.blocks
        (fun ha => by rw [hc.channels]; exact hc.gamma ha) (fun ha => by rw [hc.channels]; exact hc.beta ha)
        hw em' ev'
      refine ⟨y, st', by rw [hc.run h sqrt hw, e, Option.bind_some, ey, Option.map_some], ?_⟩
      by_cases ht : (c.training && M.track) = true
      · rw [if_pos ht] at hu
        have ht' : (M.track && !c.training) = false := by
          rw [Bool.and_eq_true] at ht; simp [ht.1]
        simp only [seqUsed, ht', Bool.false_eq_true, if_false] at em ev
        obtain ⟨st'', e', h1, h2⟩ := update_held h0 h.two (hs w hw) (hseen w hw) em ev
        rw [hu] at e'
        obtain rfl : st' = st'' := Option.some.inj e'
        rw [if_pos ht]
        exact ⟨h1, h2⟩
      · rw [if_neg ht] at hu ⊢
        rw [hu]
        exact ⟨hs w hw, hseen w hw⟩
    refine ih (fun c' hc' => hcs c' (List.mem_cons_of_mem _ hc')) _ _ (fun w hw => ?_) fun w hw hn => ?_ <;>
      obtain ⟨y, st', e, h1, h2⟩ := one w hw <;> simp only [e, Option.map_some, Option.getD_some]
    · exact h1
    · exact h2 hn

omit [DecidableEq R] in
/-- The cumulative mean is the arithmetic mean of the batch means. -/
theorem seqStates_cumulative [CharZero R] (var : Tensor R → Nat → R) (cs : List (BNCall R))
    (ht : ∀ c ∈ cs, c.training = true) (s : SeqState R) (k : Nat) :
    (seqStates none true var s cs).mean k * ((s.seen : R) + cs.length) =
      s.mean k * s.seen + (cs.map fun c => channelMean c.X k).sum ∧
    (seqStates none true var s cs).var k * ((s.seen : R) + cs.length) =
      s.var k * s.seen + (cs.map fun c => var c.X k).sum := by
  induction cs generalizing s with
  | nil => simp [seqStates]
  | cons c cs ih =>
    rw [seqStates, if_pos (by simp [ht c List.mem_cons_self])]
    have h := ih (fun c' hc' => ht c' (List.mem_cons_of_mem _ hc'))
      (seqUpdate none s (channelMean c.X) (var c.X))
    have hk : ((s.seen : R) + 1) ≠ 0 := by exact_mod_cast Nat.succ_ne_zero s.seen
    have e : (((seqUpdate none s (channelMean c.X) (var c.X)).seen : Nat) : R) + (cs.length : R) =
        (s.seen : R) + ((c :: cs).length : R) := by
      simp only [seqUpdate, List.length_cons, Nat.cast_add, Nat.cast_one]
      ring
    rw [e] at h
    rw [h.1, h.2]
    simp only [seqUpdate, List.map_cons, List.sum_cons, Nat.cast_add, Nat.cast_one]
    constructor <;> field_simp <;> ring

/-- C49 without momentum: after any non-empty history of training calls, the running mean of a new layer is the
arithmetic mean of the means of the batches, on every worker and for each of its channels; the running variance
is that of their biased variances. -/
theorem C49_cumulative_partial [CharZero R] (h : BNWith P (channelBlocks P M.numFeatures) M)
    (h0 : M.momentum = none) (htr : M.track = true) (sqrt : R → R) (cs : List (BNCall R)) (hne : cs ≠ [])
    (hcs : ∀ c ∈ cs, c.OK P (channelBlocks P M.numFeatures) M) (ht : ∀ c ∈ cs, c.training = true) (w : Nat)
    (hw : w ∈ P.members) :
    Held P (channelBlocks P M.numFeatures) (fun k => (cs.map fun c => channelMean c.X k).sum / (cs.length : R)) w
      (bnStates M sqrt (initialStates P M.numFeatures) cs w).mean ∧
    Held P (channelBlocks P M.numFeatures) (fun k => (cs.map fun c => channelVar c.X k).sum / (cs.length : R)) w
      (bnStates M sqrt (initialStates P M.numFeatures) cs w).var := by
  have hr := C49_history_partial h (by rw [h0]; simp) sqrt cs hcs _ _
    (C49_initial h.wf h.two M.numFeatures) (fun _ _ => rfl) w hw
  rw [h0, htr] at hr
  have hl : (cs.length : R) ≠ 0 := by
    have : cs.length ≠ 0 := fun e => hne (List.length_eq_zero_iff.1 e)
    exact_mod_cast this
  have key := seqStates_cumulative channelVar cs ht (⟨fun _ => (0 : R), fun _ => 1, 0⟩ : SeqState R)
  have e1 : (seqStates none true channelVar (⟨fun _ => (0 : R), fun _ => 1, 0⟩ : SeqState R) cs).mean =
      fun k => (cs.map fun c => channelMean c.X k).sum / (cs.length : R) := by
    funext k
    have := (key k).1
    rw [eq_div_iff hl]
    simpa using this
  have e2 : (seqStates none true channelVar (⟨fun _ => (0 : R), fun _ => 1, 0⟩ : SeqState R) cs).var =
      fun k => (cs.map fun c => channelVar c.X k).sum / (cs.length : R) := by
    funext k
    have := (key k).2
    rw [eq_div_iff hl]
    simpa using this
  rw [e1, e2] at hr
  exact hr

omit [Field R] [DecidableEq R] in
theorem Held.unique {f f' : Nat → R} {w : Nat} {t : Tensor R} (h2 : 2 ≤ P.shape.length) (h : Held P bs f w t)
    (h' : Held P bs f' w t) {j : Nat} (hj : j < bs.getD ((P.coord w).getD 1 0) 0) :
    f ((bs.take ((P.coord w).getD 1 0)).sum + j) = f' ((bs.take ((P.coord w).getD 1 0)).sum + j) := by
  have e : (storePos P.shape.length j).getD 1 0 = j := by rw [getD_storePos h2, if_pos rfl]
  have hb : InBounds (storePos P.shape.length j) (channelShape P.shape.length (bs.getD ((P.coord w).getD 1 0) 0)) := by
    refine inBounds_iff.2 ⟨by simp [storePos, length_channelShape], fun d hd => ?_⟩
    rw [length_channelShape] at hd
    rw [getD_storePos h2, getD_channelShape h2 hd]
    split <;> omega
  have a := h.val (storePos P.shape.length j) hb
  have b := h'.val (storePos P.shape.length j) hb
  rw [e] at a b
  exact a.symm.trans b

/-- A momentum of zero is treated like no momentum: the cumulative average. -/
theorem C49_momentum_zero [CharZero R] (h : BNWith P bs M) (h0 : M.momentum = some 0)
    (sqrt : R → R) (cs : List (BNCall R)) (hcs : ∀ c ∈ cs, c.OK P bs M) (s : SeqState R) (st : Nat → BNState R)
    (hs : Running P bs s st) (hseen : ∀ w ∈ P.members, (st w).seen = s.seen) :
    Running P bs (seqStates none M.track channelVar s cs) (bnStates M sqrt st cs) := by
  obtain ⟨P', Q, nf, eps, mom, aff, tr⟩ := M
  obtain rfl : mom = some 0 := h0
  have eu : ∀ (st : BNState R) (m v : Tensor R), updateStats (some 0) st m v = updateStats none st m v := by
    intro st m v
    simp only [updateStats, ne_eq, not_true_eq_false, if_false]
  have er : ∀ (c : BNCall R) (st : Nat → BNState R) (w : Nat), c.run ⟨P', Q, nf, eps, some 0, aff, tr⟩ sqrt st w =
      c.run ⟨P', Q, nf, eps, none, aff, tr⟩ sqrt st w := by
    intro c st w
    simp only [BNCall.run, bnForward, bnUsed, eu]
    rfl
  have es : ∀ (cs : List (BNCall R)) (st : Nat → BNState R), bnStates ⟨P', Q, nf, eps, some 0, aff, tr⟩ sqrt st cs =
      bnStates ⟨P', Q, nf, eps, none, aff, tr⟩ sqrt st cs := by
    intro cs
    induction cs with
    | nil => exact fun _ => rfl
    | cons c cs ih =>
      intro st
      rw [bnStates, bnStates, ih]
      simp only [er]
  rw [es]
  exact C49_history_partial (M := ⟨P', Q, nf, eps, none, aff, tr⟩) ⟨h.wf, h.root, h.two, h.part, h.sum, h.features⟩
    (by simp) sqrt cs (fun c hc => ⟨(hcs c hc).layout, (hcs c hc).channels, (hcs c hc).blocks, (hcs c hc).rg,
      (hcs c hc).gamma, (hcs c hc).beta⟩) s st hs hseen

end

/-! ## Witnesses and examples -/

/-- One worker. -/
def exN1 : Cart := ⟨[0], [1, 1], some 0⟩

theorem exN1_wf : exN1.WF := ⟨by decide, by decide, by decide⟩

/-- A batch of the two numbers 1 and 3, one channel. -/
def exN1X : Tensor ℚ := ⟨[2, 1], .float64, fun i => if i.getD 0 0 = 0 then 1 else 3⟩

def exN1call : BNCall ℚ :=
  ⟨true, [[2], [1]], exN1X, fun _ => exN1X, fun _ => false, fun _ => 1, fun _ => 0, fun _ => exN1X, fun _ => exN1X⟩

theorem exN1_layer (momentum : Option ℚ) : ∃ M, BNWith exN1 [1] M ∧ M.numFeatures = 1 ∧ M.momentum = momentum ∧
    M.affine = false ∧ M.track = true ∧ exN1call.OK exN1 [1] M := by
  obtain ⟨M, hm, -⟩ := C59_inside_partial exN1_wf (by decide) 1 (0 : ℚ) momentum false true
  obtain ⟨a, b, -, d, e, f⟩ := newBatchNorm_with (bs := [1]) exN1_wf ⟨0, rfl⟩ (hm 0 (by decide)) (by decide)
  refine ⟨M, a, b, d, e, f, rfl, rfl, ⟨rfl, ?_, fun _ _ => rfl, ?_⟩, ⟨false, fun _ _ => rfl⟩, ?_, ?_⟩
  · intro w hw
    obtain rfl : w = 0 := by simpa [exN1] using hw
    decide
  · intro w hw l hl
    obtain rfl : w = 0 := by simpa [exN1] using hw
    have e0 : Layout.startAt exN1call.L (exN1.coord 0) = [0, 0] := by decide
    have e1 : Layout.shapeAt exN1call.L (exN1.coord 0) = [2, 1] := by decide
    rw [e1] at hl
    rw [e0, exN1call]
    show exN1X.val l = exN1X.val _
    congr 1
    obtain ⟨a, b, rfl⟩ : ∃ a b, l = [a, b] := List.length_eq_two.1 hl.length_eq
    simp [shiftBy]
  · rw [e]; intro h; cases h
  · rw [e]; intro h; cases h

theorem exN1_start : Running exN1 [1] ⟨fun _ => (0 : ℚ), fun _ => 1, 0⟩ (initialStates exN1 1) :=
  C49_initial (R := ℚ) exN1_wf (by decide) 1

/-- **C49 is false of the code**: the running variance is updated with the biased variance.  With momentum 1/2
and the batch 1, 3 it becomes 1 where the sequential layer has 3/2. -/
theorem C49_false : ¬ C49_full := by
  intro H
  obtain ⟨M, h, -, hmom, -, htr, hc⟩ := exN1_layer (some (1 / 2))
  have hcs : ∀ c ∈ [exN1call], c.OK exN1 [1] M := by simpa using hc
  have a := (H exN1 [1] M h htr id _ _ exN1_start (fun _ _ => rfl) [exN1call] hcs 0 (by decide)).2
  have b := (C49_history_partial h (by rw [hmom]; decide +kernel) id [exN1call] hcs _ _ exN1_start
    (fun _ _ => rfl) 0 (by decide)).2
  have e := a.unique h.two b (j := 0) (by decide)
  rw [hmom, htr] at e
  exact absurd e (by decide +kernel)

/-- The running mean is wrong for momentum zero: it becomes 2 where the sequential layer keeps 0. -/
theorem C49_false_momentum : ∃ M, BNWith exN1 [1] M ∧ M.momentum = some 0 ∧ exN1call.OK exN1 [1] M ∧
    Held exN1 [1] (fun _ => (2 : ℚ)) 0 (bnStates M id (initialStates exN1 1) [exN1call] 0).mean ∧
    (seqStates (some 0) true channelVarUnbiased (⟨fun _ => (0 : ℚ), fun _ => 1, 0⟩ : SeqState ℚ)
      [exN1call]).mean 0 = 0 := by
  obtain ⟨M, h, -, hmom, -, htr, hc⟩ := exN1_layer (some 0)
  have hcs : ∀ c ∈ [exN1call], c.OK exN1 [1] M := by simpa using hc
  refine ⟨M, h, hmom, hc, ?_, by decide +kernel⟩
  have b := (C49_momentum_zero h hmom id [exN1call] hcs _ _ exN1_start (fun _ _ => rfl) 0 (by decide)).1
  rw [htr] at b
  refine ⟨b.shape, fun i hi => (b.val i hi).trans ?_⟩
  have hk := (inBounds_channel (by decide) hi).2
  have : i.getD 1 0 = 0 := by
    have : ([1].getD ((exN1.coord 0).getD 1 0) 0) = 1 := by decide
    omega
  rw [this]
  decide +kernel

/-- **C59 is false of the code**: the layer cannot be created on a worker outside the partition. -/
theorem C59_false : ¬ C59_full := by
  intro H
  obtain ⟨M, e⟩ := H exN1 exN1_wf ⟨0, rfl⟩ (by decide) 1 false false 1
  rw [C59_outside _ _ _ _ _ _ (by decide)] at e
  cases e

/-- Six workers, 2 x 3; three channels in blocks of 2, 0 and 1, batches in blocks of 1 and 3. -/
def exN6 : Cart := ⟨[4, 2, 0, 1, 3, 5], [2, 3], some 7⟩

theorem exN6_placed : Placed exN6 [[1, 3], [2, 0, 1]] :=
  ⟨⟨by decide, by decide, by decide⟩, ⟨7, rfl⟩, by decide, rfl⟩

def exN6X : Tensor ℚ := ⟨[4, 3], .float64, fun i => (i.getD 0 0 * 10 + i.getD 1 0 : Nat)⟩

def exN6x (w : Nat) : Tensor ℚ :=
  ⟨Layout.shapeAt [[1, 3], [2, 0, 1]] (exN6.coord w), .float64,
    fun l => exN6X.val (shiftBy (Layout.startAt [[1, 3], [2, 0, 1]] (exN6.coord w)) l)⟩

theorem exN6_blocks : Blocks exN6 [[1, 3], [2, 0, 1]] exN6X exN6x :=
  ⟨rfl, fun _ _ => rfl, fun _ _ => rfl, fun _ _ _ _ => rfl⟩

/-- C48: mean and variance of the last channel, held by workers 0 and 5. -/
example : ∃ M : BatchNorm ℚ, newBatchNorm exN6 3 1 none true true 5 = some M ∧
    ((bnStats M 4 exN6x (fun _ => false) 5).map fun s => (s.1.val [0, 0], s.2.val [0, 0])) = some (17, 125) ∧
    channelMean exN6X 2 = 17 ∧ channelVar exN6X 2 = 125 :=
  ⟨_, rfl, by decide +kernel, by decide +kernel, by decide +kernel⟩

example : ∃ M : BatchNorm ℚ, newBatchNorm exN6 3 1 none true true 5 = some M ∧ M.Psum.members = [4, 2, 0] :=
  ⟨_, rfl, by decide⟩

/-- A training call of a layer with parameters, each channel on its own workers. -/
def exN6call (M : BatchNorm ℚ) : BNCall ℚ :=
  ⟨true, [[1, 3], [1, 1, 1]], ⟨[4, 3], .float32, exN6X.val⟩,
    fun w => ⟨Layout.shapeAt [[1, 3], [1, 1, 1]] (exN6.coord w), .float32,
      fun l => exN6X.val (shiftBy (Layout.startAt [[1, 3], [1, 1, 1]] (exN6.coord w)) l)⟩,
    fun _ => true, fun _ => 1, fun _ => 0,
    fun w => initialParam M 2 ((localFeatures exN6 M.numFeatures w).getD 0) 1 w,
    fun w => initialParam M 2 ((localFeatures exN6 M.numFeatures w).getD 0) 0 w⟩

/-- The hypotheses of `C48_forward`, `C49_history_partial` and `C49_cumulative_partial` together. -/
example : ∃ M : BatchNorm ℚ, newBatchNorm exN6 3 1 none true true 5 = some M ∧
    BNWith exN6 (channelBlocks exN6 M.numFeatures) M ∧
    (exN6call M).OK exN6 (channelBlocks exN6 M.numFeatures) M ∧
    Running exN6 (channelBlocks exN6 M.numFeatures) ⟨fun _ => (0 : ℚ), fun _ => 1, 0⟩ (initialStates exN6 3) := by
  obtain ⟨M, hm, -⟩ := C59_inside_partial exN6_placed.wf (by decide) 3 (1 : ℚ) none true true
  have h5 := hm 5 (by decide)
  obtain ⟨a, b, -, -, -, -⟩ := newBatchNorm_with (bs := channelBlocks exN6 3) exN6_placed.wf exN6_placed.root h5
    (by decide)
  rw [← b] at a
  refine ⟨M, h5, a, ⟨rfl, ?_, ⟨rfl, fun _ _ => rfl, fun _ _ => rfl, fun _ _ _ _ => rfl⟩,
    ⟨true, fun _ _ => rfl⟩, fun _ => C48_initial a 1, fun _ => C48_initial a 0⟩, ?_⟩
  · rw [b]; show [1, 1, 1] = channelBlocks exN6 3; decide
  · rw [b]; exact C49_initial exN6_placed.wf (by decide) 3

/-- The third channel of the training call: worker 5 computes with `sqrt v` replaced by `v`. -/
example : ∃ M : BatchNorm ℚ, newBatchNorm exN6 3 1 none true true 5 = some M ∧
    (((exN6call M).run M id (initialStates exN6 3) 5).map fun y => (y.1.shape, y.1.val [2, 0], y.2.mean.val [0, 0])) =
      some ([3, 1], 15 / 126, 17) :=
  ⟨_, rfl, by decide +kernel⟩

end Verif
