import Verif.Net.DecoderProps

/-!
# C81: training steps of networks with batch norm

Progress, termination and the gradient of the input are in `C80`, whose networks may contain batch norms; here are the output
and the gradients of the parameters of a batch norm at any place of such a network.
-/

namespace Verif.Net

section
variable {F β : Type} [Field F] [LinearOrder F] [FloorRing F]
variable {W : List Nat} {P P' : Cart} {L L' : Layout} {l : XLayer F β} {l1 l2 : List (XLayer F β)} {t : TorchDtype}
  {X Y : List Nat → F}

/-- Networks in front of and after a layer. -/
theorem XNetFits.split (h : XNetFits W t P L (l1 ++ l :: l2) P' L') :
    ∃ P1 L1 L2, XNetFits W t P L l1 P1 L1 ∧ XFits W t P1 L1 l L2 ∧ XNetFits W t (l.out P1) L2 l2 P' L' := by
  induction l1 generalizing P L with
  | nil =>
    cases h with
    | cons h hs => exact ⟨_, _, _, .nil, h, hs⟩
  | cons a l1 ih =>
    cases h with
    | cons h hs =>
      obtain ⟨P1, L1, L2, h1, h2, h3⟩ := ih hs
      exact ⟨P1, L1, L2, .cons h h1, h2, h3⟩

/-- The gradients of the parameters of a layer after other layers. -/
theorem XNetGrads.split {P1 : Cart} {L1 : Layout} {x : List Nat × (List Nat → F)}
    {grs : List (Nat → Nat → Option (Tensor F))} (h : XNetFits W t P L l1 P1 L1)
    (hg : XNetGrads P (l1 ++ l :: l2) x Y grs) :
    ∃ gr, grs[l1.length]? = some gr ∧
      l.Grads P1 (xseqNet l1 x) (xadjNet l2 (l.seq (xseqNet l1 x)) Y) gr := by
  induction h generalizing x grs with
  | nil =>
    obtain ⟨gr, grs', rfl, h1, -⟩ := hg
    exact ⟨gr, rfl, h1⟩
  | cons h hs ih =>
    obtain ⟨gr, grs', rfl, -, h2⟩ := hg
    obtain ⟨gr', e, h3⟩ := ih h2
    exact ⟨gr', by simpa using e, h3⟩

variable [IsStrictOrderedRing F]
variable {S : Nat → NSt F} {seed : Nat → Tensor F → Tensor F} {n : Nat} {c cs cb ca : Nat} {N : NormLayer F} {sq : SeqState F}
  {gamma beta : Nat → F}

/-- C81, output: after the forward pass every worker of the last partition holds its part of what the layers after the batch
norm make of the normalised, scaled and shifted output of the layers in front of it.  Mean and variance are those of the
whole batch (all workers), or the running ones in evaluation mode. -/
theorem C81_output (ht : t = .float32 ∨ t = .float64) (hP : P.WF) (hL : L.pshape = P.shape) (hW : ∀ w ∈ P.members, w ∈ W)
    (hn : XNetFits W t P L (l1 ++ .norm c cs cb ca N sq gamma beta :: l2) P' L') (hS : Holds W P L t X S)
    (ha : N.M.affine = true) {U : Tensor F} (hU : (U.shape, U.val) = xseqNet l1 (L.global, X)) {m v : Nat → F}
    (hm : if N.M.track = true ∧ N.training = false then m = sq.mean ∧ v = sq.var else m = channelMean U ∧ v = channelVar U)
    {early : GState (NSt F) (NMsg F) → Nat → Nat → Prop} {g : GState (NSt F) (NMsg F)}
    (he : Exec W (xnetCuts P (l1 ++ .norm c cs cb ca N sq gamma beta :: l2)).flatten early n (GState.init S) g) {w : Nat}
    (hw : w ∈ W) (hp : (g.ws w).phase = (xnetCuts P (l1 ++ .norm c cs cb ca N sq gamma beta :: l2)).flatten.length) :
    (g.ws w).st.err = false ∧ (w ∈ P'.members → (g.ws w).st.t.shape = L'.shapeAt (P'.coord w) ∧ (g.ws w).st.t.dtype = t ∧
      ∀ l, InBounds l (L'.shapeAt (P'.coord w)) →
        (g.ws w).st.t.val l = (xseqNet l2 (U.shape, fun i =>
          gamma (i.getD 1 0) * ((U.val i - m (i.getD 1 0)) / N.sqrt (v (i.getD 1 0) + N.M.eps)) + beta (i.getD 1 0))).2
          (shiftBy (L'.startAt (P'.coord w)) l)) := by
  have h := C80_forward ht hP hL hW hn hS he hw hp
  obtain ⟨us, ud, uv⟩ := U
  have hU : (us, uv) = xseqNet l1 (L.global, X) := hU
  have e : seqUsed N.M.track N.training sq ⟨us, .float32, uv⟩ = (m, v) := by
    rw [seqUsed]
    cases h1 : N.M.track <;> cases h2 : N.training <;> simp [h1, h2] at hm ⊢ <;> exact ⟨hm.1.symm, hm.2.symm⟩
  have e1 : xseqNet (l1 ++ .norm c cs cb ca N sq gamma beta :: l2) (L.global, X) = xseqNet l2 (us, fun i =>
      gamma (i.getD 1 0) * ((uv i - m (i.getD 1 0)) / N.sqrt (v (i.getD 1 0) + N.M.eps)) + beta (i.getD 1 0)) := by
    have e2 : (XLayer.norm c cs cb ca N sq gamma beta : XLayer F β).seq (us, uv) = (us, fun i =>
        gamma (i.getD 1 0) * ((uv i - m (i.getD 1 0)) / N.sqrt (v (i.getD 1 0) + N.M.eps)) + beta (i.getD 1 0)) := by
      simp only [XLayer.seq, e, seqNorm, ha, if_true]
    rw [← e2, hU, xseqNet, List.foldl_append]
    rfl
  rw [e1] at h
  exact h

/-- C81, gradients: let `U` be the input of the batch norm and `D` the gradient of its output, both of the sequential
network.  A worker that stores channels has, after both passes, the sums over the batch of `D` times the normalised `U` as
gradient of `gamma` and the sums of `D` as gradient of `beta` of its channels; the other workers of the partition have
gradients without entries, workers outside have none. -/
theorem C81_gradients (ht : t = .float32 ∨ t = .float64) (hP : P.WF) (hL : L.pshape = P.shape) (hW : ∀ w ∈ P.members, w ∈ W)
    (hn : XNetFits W t P L (l1 ++ .norm c cs cb ca N sq gamma beta :: l2) P' L') (hS : Holds W P L t X S)
    (hseed : SeedsGrad W P' L' t (xseqNet (l1 ++ .norm c cs cb ca N sq gamma beta :: l2) (L.global, X)).2 Y seed)
    (ha : N.M.affine = true) (hr : N.rgp = true) {U D : Tensor F} (hU : (U.shape, U.val) = xseqNet l1 (L.global, X))
    (hD : D.shape = U.shape ∧ D.val = xadjNet l2 (XLayer.seq (.norm c cs cb ca N sq gamma beta : XLayer F β)
      (U.shape, U.val)) Y) {m v : Nat → F}
    (hm : if N.M.track = true ∧ N.training = false then m = sq.mean ∧ v = sq.var else m = channelMean U ∧ v = channelVar U)
    {early : GState (BSt F) (NMsg F) → Nat → Nat → Prop} {g : GState (BSt F) (NMsg F)}
    (he : Exec W (xtrainProg P (l1 ++ .norm c cs cb ca N sq gamma beta :: l2) seed) early n
      (GState.init fun w => ⟨S w, [], []⟩) g) {w : Nat} (hw : w ∈ W)
    (hp : (g.ws w).phase = (xtrainProg P (l1 ++ .norm c cs cb ca N sq gamma beta :: l2) seed).length) :
    ∃ gr, (g.ws w).st.grads[l1.length]? = some gr ∧
      (w ∈ N.M.Psum.members → (∃ z, gr 0 = some z ∧ Held N.M.P (channelBlocks N.M.P N.M.numFeatures)
          (fun k => boxSum U.shape fun i => if i.getD 1 0 = k then
            D.val i * ((U.val i - m k) / N.sqrt (v k + N.M.eps)) else 0) w z) ∧
        ∃ z, gr 1 = some z ∧ Held N.M.P (channelBlocks N.M.P N.M.numFeatures)
          (fun k => boxSum U.shape fun i => if i.getD 1 0 = k then D.val i else 0) w z) ∧
      (w ∉ N.M.Psum.members → ∀ i z, gr i = some z → w ∈ N.M.P.members ∧ z.shape.prod = 0) := by
  obtain ⟨P1, L1, L2, n1, n2, -⟩ := hn.split
  obtain ⟨grs, hg, hres⟩ := C80_result ht hP hL hW hn hS hseed
  obtain ⟨gr, e1, hG⟩ := hg.split n1
  obtain ⟨-, e2, -⟩ := hres early n g he w hw hp
  obtain ⟨us, ud, uv⟩ := U
  obtain ⟨ds, dd, dv⟩ := D
  obtain ⟨rfl, rfl⟩ : ds = us ∧ dv = _ := hD
  have hU : (ds, uv) = xseqNet l1 (L.global, X) := hU
  have e : seqUsed N.M.track N.training sq ⟨ds, .float32, uv⟩ = (m, v) := by
    rw [seqUsed]
    cases h1 : N.M.track <;> cases h2 : N.training <;> simp [h1, h2] at hm ⊢ <;> exact ⟨hm.1.symm, hm.2.symm⟩
  rw [← hU] at hG
  cases n2 with
  | norm c cs cb ca h hb =>
    obtain ⟨hG1, hG2⟩ := hG
    refine ⟨gr w, by rw [e2, List.getElem?_map, e1]; rfl, fun hs => ?_, fun hs i z hz => ?_⟩
    · obtain ⟨⟨z, q1, q2⟩, z', q3, q4⟩ := hG1 ha hr w hs
      refine ⟨⟨z, q1, ?_⟩, z', q3, q4⟩
      rw [e] at q2
      have e3 : (channelSum (timesT (⟨ds, .float32, xadjNet l2 (XLayer.seq (.norm c cs cb ca N sq gamma beta : XLayer F β)
          (ds, uv)) Y⟩ : Tensor F) (seqHat N.sqrt N.M.eps (m, v) ⟨ds, .float32, uv⟩))) =
          fun k => boxSum ds fun i => if i.getD 1 0 = k then
            xadjNet l2 (XLayer.seq (.norm c cs cb ca N sq gamma beta : XLayer F β) (ds, uv)) Y i *
              ((uv i - m k) / N.sqrt (v k + N.M.eps)) else 0 := by
        funext k
        rw [channelSum]
        refine congrArg (boxSum ds) (funext fun i => ?_)
        split
        · next hk =>
          subst hk
          rfl
        · rfl
      rw [e3] at q2
      exact q2
    · obtain ⟨h1, -, -, -, h5⟩ := hG2 w i z hz
      exact ⟨h1, h5 hs⟩

end

/-! ## Worked cases -/

/-- A batch norm of three channels as made by `__init__` on `squareP`: `eps = 1`, cumulative running statistics. -/
def exNM : BatchNorm ℚ := ⟨squareP, ⟨[0], [1, 1, 1, 1], some 0⟩, 3, 1, none, true, true⟩

theorem exNM_new : ∀ w ∈ squareP.members, newBatchNorm squareP 3 1 none true true w = some exNM := by
  intro w hw
  have hw : w ∈ [0, 1, 2, 3] := hw
  simp only [List.mem_cons, List.not_mem_nil, or_false] at hw
  rcases hw with rfl | rfl | rfl | rfl <;> rfl

/-- In training mode, with its initial buffers and parameters; `sqrt v` is replaced by `v`. -/
def exNL : NormLayer ℚ :=
  ⟨exNM, id, true, initialStates squareP 3, fun w => initialParam exNM 4 ((localFeatures squareP 3 w).getD 0) 1 w,
    fun w => initialParam exNM 4 ((localFeatures squareP 3 w).getD 0) 0 w, true⟩

/-- The layer of the network, with the sequential values. -/
def exNX : XLayer ℚ Nat := .norm 7 8 9 10 exNL ⟨fun _ => 0, fun _ => 1, 0⟩ (fun _ => 1) fun _ => 0

theorem exNL_ok : NormOK exNL exUL .float32 ⟨fun _ => (0 : ℚ), fun _ => 1, 0⟩ (fun _ => 1) fun _ => 0 := by
  obtain ⟨a, -⟩ := newBatchNorm_with (bs := channelBlocks squareP 3) squareP_wf ⟨0, rfl⟩ (exNM_new 0 (by decide)) (by decide)
  have e : exUL.getD 1 [] = channelBlocks squareP 3 := by decide
  refine ⟨?_, fun _ => ?_, fun _ => ?_, fun _ => ?_⟩
  · rw [e]; exact a
  · rw [e]; exact C48_initial a 1
  · rw [e]; exact C48_initial a 0
  · rw [e]; exact C49_initial squareP_wf (by decide) 3

/-- Convolution, batch norm, square, bilinear interpolation, convolution. -/
def exNNet : List (XLayer ℚ Nat) := exUNet.take 1 ++ exNX :: exUNet.drop 1

theorem exNNet_fits :
    XNetFits [0, 1, 2, 3] .float32 squareP exUL exNNet squareP (Layout.balanced squareP.shape [2, 1, 16, 11]) :=
  .cons (.base (exUC_fits 3 8 7 (by decide) (by decide) (by decide) (by decide)))
    (.cons (.norm 7 8 9 10 exNL_ok fun _ => by decide) (.cons (.base (.map _ _)) (.cons (.sizes 7 exB square_sizes rfl)
      (.cons (.base (exUC_fits 1 16 11 (by decide) (by decide) (by decide) (by decide))) .nil))))

/-- The gradient of half the sum of the squares of the output is the output. -/
theorem exNSeed : SeedsGrad [0, 1, 2, 3] squareP (Layout.balanced squareP.shape [2, 1, 16, 11]) .float32
    (xseqNet exNNet (exUL.global, exUX)).2 (xseqNet exNNet (exUL.global, exUX)).2 fun _ z => z :=
  ⟨fun _ _ _ h => h, fun _ _ _ _ h2 h3 => ⟨rfl, h2, h3⟩⟩

/-- All executions of this training step end, whatever the library does early.  Then worker 0, which stores the parameters,
has the gradients of scale and shift of channel 2, sums over the inputs of all four workers; worker 3 has tensors without
entries. -/
example (early : GState (BSt ℚ) (NMsg ℚ) → Nat → Nat → Prop) (U D : Tensor ℚ)
    (hU : (U.shape, U.val) = xseqNet (exUNet.take 1) (exUL.global, exUX))
    (hD : D.shape = U.shape ∧ D.val = xadjNet (exUNet.drop 1) (exNX.seq (U.shape, U.val))
      (xseqNet exNNet (exUL.global, exUX)).2) :
    ∃ n g, Exec [0, 1, 2, 3] (xtrainProg squareP exNNet fun _ z => z) early n (GState.init fun w => ⟨exUS w, [], []⟩) g ∧
      (∃ gr z z', (g.ws 0).st.grads[1]? = some gr ∧ gr 0 = some z ∧ gr 1 = some z' ∧
        (z.val [0, 2, 0, 0] = boxSum U.shape fun i => if i.getD 1 0 = 2 then
          D.val i * ((U.val i - channelMean U 2) / (channelVar U 2 + 1)) else 0) ∧
        z'.val [0, 2, 0, 0] = boxSum U.shape fun i => if i.getD 1 0 = 2 then D.val i else 0) ∧
      ∃ gr, (g.ws 3).st.grads[1]? = some gr ∧ ∀ i z, gr i = some z → z.shape.prod = 0 := by
  obtain ⟨n, g, -, he, hf⟩ := (C80_terminates (early := early) (.inl rfl) (by decide) squareP_wf rfl (by decide) exNNet_fits
    exUS_holds exNSeed).2 0 _ (.refl _)
  have h := fun (w : Nat) (hw : w ∈ [0, 1, 2, 3]) => C81_gradients (l1 := exUNet.take 1) (l2 := exUNet.drop 1) (.inl rfl)
    squareP_wf rfl (by decide) exNNet_fits exUS_holds exNSeed rfl rfl hU hD (m := channelMean U) (v := channelVar U)
    ⟨rfl, rfl⟩ he hw (hf w hw)
  obtain ⟨gr, e, h0, -⟩ := h 0 (by decide)
  obtain ⟨gr', e', -, h3⟩ := h 3 (by decide)
  obtain ⟨⟨z, e0, q0⟩, z', e1, q1⟩ := h0 (by decide)
  exact ⟨n, g, he, ⟨gr, z, z', e, e0, e1, q0.val [0, 2, 0, 0] (by decide), q1.val [0, 2, 0, 0] (by decide)⟩, gr', e', fun i z hz =>
    (h3 (by decide) i z hz).2⟩

/-- The hypotheses of `C81_output` on a partition that cuts the channels as well. -/
example : ∃ N : NormLayer ℚ, N.M.affine = true ∧ N.M.P = exN6 ∧
    XNetFits [0, 1, 2, 3, 4, 5] .float32 exN6 [[1, 3], [1, 1, 1]] ([.base (.map (fun x => x * x) fun x => 2 * x)] ++
      .norm 1 2 3 4 N ⟨fun _ => 0, fun _ => 1, 0⟩ (fun _ => 1) (fun _ => 0) :: [] : List (XLayer ℚ Nat)) exN6
      [[1, 3], [1, 1, 1]] := by
  obtain ⟨M, hm, -⟩ := C59_inside_partial exN6_placed.wf (by decide) 3 (1 : ℚ) none true true
  obtain ⟨a, b, -, -, d, -⟩ := newBatchNorm_with (bs := channelBlocks exN6 3) exN6_placed.wf exN6_placed.root
    (hm 5 (by decide)) (by decide)
  have hp := a.part
  rw [← b] at a
  have e : List.getD [[1, 3], [1, 1, 1]] 1 [] = channelBlocks exN6 M.numFeatures := by rw [b]; decide
  refine ⟨⟨M, id, true, initialStates exN6 3,
    fun w => initialParam M exN6.shape.length ((localFeatures exN6 M.numFeatures w).getD 0) 1 w,
    fun w => initialParam M exN6.shape.length ((localFeatures exN6 M.numFeatures w).getD 0) 0 w, true⟩, d, hp,
    .cons (.base (.map _ _)) (.cons ?_ .nil)⟩
  have h := XFits.norm (W := [0, 1, 2, 3, 4, 5]) (β := Nat) (t := .float32) (L := [[1, 3], [1, 1, 1]]) (N := ⟨M, id, true,
    initialStates exN6 3, fun w => initialParam M exN6.shape.length ((localFeatures exN6 M.numFeatures w).getD 0) 1 w,
    fun w => initialParam M exN6.shape.length ((localFeatures exN6 M.numFeatures w).getD 0) 0 w, true⟩)
    (sq := ⟨fun _ => 0, fun _ => 1, 0⟩) (gamma := fun _ => 1) (beta := fun _ => 0) 1 2 3 4 ?_ fun _ => ?_
  · have e : M.P = exN6 := hp
    rw [e] at h
    exact h
  · refine ⟨?_, fun _ => ?_, fun _ => ?_, fun _ => ?_⟩
    · show BNWith M.P _ M
      rw [hp, e]; exact a
    · show Param M.P M.Psum _ _ _ _
      rw [hp, e]; exact C48_initial a 1
    · show Param M.P M.Psum _ _ _ _
      rw [hp, e]; exact C48_initial a 0
    · show Running M.P _ _ _
      rw [hp, e, b]; exact C49_initial exN6_placed.wf (by decide) 3
  · show _ = channelBlocks M.P M.numFeatures
    rw [hp]
    exact e

end Verif.Net
