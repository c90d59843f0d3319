import Verif.Net.XTrain
import Verif.Net.LoopProps
import Verif.Net.NormProps

/-!
# C83: networks with interpolation and batch norm that are called and trained repeatedly, in training and in evaluation mode
-/

namespace Verif.Net

section
variable {F β : Type} [Field F] [LinearOrder F] [FloorRing F] [IsStrictOrderedRing F]
variable {W : List Nat} {P P' : Cart} {L L' : Layout} {ls : List (XLayer F β)} {t : TorchDtype} {rg : Nat → Bool}
  {T : Nat → Nat → Nat → Tensor F} {σ : Nat → Tensor F} {early : GState (LSt F) (NMsg F) → Nat → Nat → Prop} {n : Nat}
  {g : GState (LSt F) (NMsg F)} {js : List (Bool × Job F)} {ks : List (Bool × Task F)}

theorem xjobs_run (ht : t = .float32 ∨ t = .float64) (hP : P.WF) (hL : L.pshape = P.shape) (hW : ∀ w ∈ P.members, w ∈ W)
    (hn : XNetFits W t P L ls P' L') (hm : ∀ l ∈ ls, l.Moves) (hT : XStoresNet P t T (fun _ _ => 0) 0 ls)
    (hj : List.Forall₂ (fun j k => j.1 = k.1 ∧ j.2.Does W P (fun _ => L) P' (fun _ => L') t rg k.2) js ks)
    (hσ : ∀ j ∈ js, ∀ w, (j.2.x w).shape = (σ w).shape ∧ (j.2.x w).dtype = (σ w).dtype) :
    ∃ K, ProgOK W (xjobsProg P ls rg js) (fun w => LSt.fresh (T w)) ∧
      XReady W P ls P' L' t T K (xnetAfter ls ks) (xoutsOf ls ks) (run (xjobsProg P ls rg js) fun w => LSt.fresh (T w)) := by
  have hp : Placed W P L L.global := ⟨hP, hL, hW, rfl⟩
  obtain ⟨K, hK⟩ := hn.steady T 0 (fun w => feed (σ w) (rg w)) hp
  exact ⟨K, XReady.jobs hK hn ht hp hm hj (XReady.init K hT) fun j h => same_structure (hσ j h)⟩

/-- C83, results: a network with interpolations and batch norms is called and trained in any order, each time in training or in
evaluation mode, with inputs of the same structure; they require gradients if there are training steps.  Whatever the
interleaving, a worker that has done all jobs has seen no exception, stores its blocks of the parameters and of the running
statistics of the sequential network after the same tasks, and if it belongs to the last partition it holds its parts of the
results of the calls, each with the parameters, the statistics and the mode of its time. -/
theorem C83_result (ht : t = .float32 ∨ t = .float64) (hP : P.WF) (hL : L.pshape = P.shape) (hW : ∀ w ∈ P.members, w ∈ W)
    (hn : XNetFits W t P L ls P' L') (hm : ∀ l ∈ ls, l.Moves) (hT : XStoresNet P t T (fun _ _ => 0) 0 ls)
    (hj : List.Forall₂ (fun j k => j.1 = k.1 ∧ j.2.Does W P (fun _ => L) P' (fun _ => L') t rg k.2) js ks)
    (hσ : ∀ j ∈ js, ∀ w, (j.2.x w).shape = (σ w).shape ∧ (j.2.x w).dtype = (σ w).dtype)
    (_hr : (∃ j ∈ js, j.2.back = true) → ∀ w ∈ W, rg w = true) :
    ∃ T' seen, XStoresNet P t T' seen 0 (xnetAfter ls ks) ∧
    ∀ early n g, Exec W (xjobsProg P ls rg js) early n (GState.init fun w => LSt.fresh (T w)) g →
    ∀ w ∈ W, (g.ws w).phase = (xjobsProg P ls rg js).length →
      (g.ws w).st.bad = false ∧ (g.ws w).st.b.s.err = false ∧ (g.ws w).st.θ = T' w ∧ (g.ws w).st.seen = seen w ∧
      HoldsOuts P' (fun _ => L') t w (g.ws w).st.outs (xoutsOf ls ks) := by
  obtain ⟨K, ok, hR⟩ := xjobs_run ht hP hL hW hn hm hT hj hσ
  refine ⟨_, _, hR.stores, fun early n g he w hw hp => ?_⟩
  rw [result ok he hw hp]
  exact ⟨(hR.calm w hw).1, (hR.calm w hw).2, rfl, rfl, hR.outs w hw⟩

/-- C83, progress: as long as a worker has not done all jobs some worker can go on. -/
theorem C83_progress (ht : t = .float32 ∨ t = .float64) (hP : P.WF) (hL : L.pshape = P.shape) (hW : ∀ w ∈ P.members, w ∈ W)
    (hn : XNetFits W t P L ls P' L') (hm : ∀ l ∈ ls, l.Moves) (hT : XStoresNet P t T (fun _ _ => 0) 0 ls)
    (hj : List.Forall₂ (fun j k => j.1 = k.1 ∧ j.2.Does W P (fun _ => L) P' (fun _ => L') t rg k.2) js ks)
    (hσ : ∀ j ∈ js, ∀ w, (j.2.x w).shape = (σ w).shape ∧ (j.2.x w).dtype = (σ w).dtype)
    (_hr : (∃ j ∈ js, j.2.back = true) → ∀ w ∈ W, rg w = true)
    (he : Exec W (xjobsProg P ls rg js) early n (GState.init fun w => LSt.fresh (T w)) g)
    (hw : ∃ w ∈ W, (g.ws w).phase < (xjobsProg P ls rg js).length) : ∃ g', Step W (xjobsProg P ls rg js) early g g' := by
  obtain ⟨K, ok, -⟩ := xjobs_run ht hP hL hW hn hm hT hj hσ
  exact no_deadlock ok he hw

/-- C83, termination: there is a bound on the number of steps of all executions, and every execution can be continued
until all workers have done all jobs. -/
theorem C83_terminates (ht : t = .float32 ∨ t = .float64) (hW' : W.Nodup) (hP : P.WF) (hL : L.pshape = P.shape)
    (hW : ∀ w ∈ P.members, w ∈ W) (hn : XNetFits W t P L ls P' L') (hm : ∀ l ∈ ls, l.Moves)
    (hT : XStoresNet P t T (fun _ _ => 0) 0 ls)
    (hj : List.Forall₂ (fun j k => j.1 = k.1 ∧ j.2.Does W P (fun _ => L) P' (fun _ => L') t rg k.2) js ks)
    (hσ : ∀ j ∈ js, ∀ w, (j.2.x w).shape = (σ w).shape ∧ (j.2.x w).dtype = (σ w).dtype)
    (_hr : (∃ j ∈ js, j.2.back = true) → ∀ w ∈ W, rg w = true) :
    (∃ N, ∀ n g, Exec W (xjobsProg P ls rg js) early n (GState.init fun w => LSt.fresh (T w)) g → n ≤ N) ∧
    ∀ n g, Exec W (xjobsProg P ls rg js) early n (GState.init fun w => LSt.fresh (T w)) g →
      ∃ n' g', n ≤ n' ∧ Exec W (xjobsProg P ls rg js) early n' (GState.init fun w => LSt.fresh (T w)) g' ∧
        ∀ w ∈ W, (g'.ws w).phase = (xjobsProg P ls rg js).length := by
  obtain ⟨K, ok, -⟩ := xjobs_run ht hP hL hW hn hm hT hj hσ
  exact ⟨⟨_, fun n g he => bounded ok hW' he⟩, fun n g he => completes ok hW' he⟩

end

/-! ## A worked case -/

/-- The parameters of the workers for `exNNet`: those of the convolutions are on worker 0, those of the batch norm as `__init__`
makes them. -/
def exXPar (w i p : Nat) : Tensor ℚ :=
  if i = 1 then
    if p = 0 then exNL.g w else if p = 1 then exNL.b w else if p = 2 then (exNL.st w).mean else (exNL.st w).var
  else if w = 0 ∧ p = 0 then (if i = 0 then (exUC 3).weight else (exUC 1).weight) else ⟨[0], .float32, fun _ => 0⟩

theorem exXPar_stores : XStoresNet squareP .float32 exXPar (fun _ _ => 0) 0 exNNet := by
  have conv : ∀ Co i, exXPar 0 i 0 = (exUC Co).weight → i ≠ 1 →
      TLayer.Stores squareP (fun w => exXPar w i) (.conv 7 8 9 (exUC Co) true exB : TLayer ℚ Nat) := by
    intro Co i e hi
    refine ⟨⟨e, by simp [exUC]⟩, nofun, fun w _ p => ?_⟩
    have h : ∀ w, (exXPar w i p).dtype = .float32 := by
      intro w
      unfold exXPar
      rw [if_neg hi]
      split_ifs <;> rfl
    exact (h w).trans (h _).symm
  have e : exUL.getD 1 [] = channelBlocks squareP 3 := by decide
  have hok := exNL_ok
  refine ⟨conv 3 0 rfl (by decide), ⟨fun ha => ⟨?_, ?_, fun w hw => ?_⟩, fun ht => ⟨?_, fun _ _ _ => rfl⟩⟩, trivial, trivial,
    conv 1 4 rfl (by decide), trivial⟩
  · have := hok.gamma ha
    rw [e] at this
    exact this
  · have := hok.beta ha
    rw [e] at this
    exact this
  · show (exNL.g w).bare = (exNL.b w).bare
    refine tensor_bare.2 ?_
    simp only [exNL, initialParam]
    split <;> exact ⟨rfl, rfl⟩
  · have := hok.running ht
    rw [e] at this
    exact this

/-- The input of worker `w`: `X[b, c, i, j] = a j - i`, cut over `squareP`. -/
def exXX (a : ℚ) (w : Nat) : Tensor ℚ :=
  ⟨exUL.shapeAt (squareP.coord w), .float32, fun l =>
    a * ((shiftBy (exUL.startAt (squareP.coord w)) l).getD 3 0 : ℚ) - ((shiftBy (exUL.startAt (squareP.coord w)) l).getD 2 0 : ℚ)⟩

theorem exXX_holds (a : ℚ) : Holds [0, 1, 2, 3] squareP exUL .float32 (fun i => a * (i.getD 3 0 : ℚ) - (i.getD 2 0 : ℚ))
    fun w => feed (exXX a w) true :=
  ⟨fun _ _ => rfl, fun w _ => shapeAt_ne_nil (by decide) (by decide) w, ⟨true, fun _ _ => rfl⟩, fun _ _ _ _ => rfl⟩


/-- The weights of the convolution and the layers behind the batch norm are not needed to say what becomes of it. -/
theorem exNX_after (C : ConvLayer ℚ) (rest : List (XLayer ℚ Nat)) (s : List Nat) (X X' : List Nat → ℚ) {T : Nat → Nat → Nat → Tensor ℚ}
    {seen : Nat → Nat → Nat} {U D : Tensor ℚ} {l : XLayer ℚ Nat} (hl : l = .base (.conv 7 8 9 C true exB))
    (hr : rest.map (XLayer.inMode true) = rest) (hU : (U.shape, U.val) = l.seq (s, X))
    (hD : D.val = xadjNet rest (exNX.seq (U.shape, U.val)) (xseqNet (l :: exNX :: rest) (s, X)).2)
    (h : XStoresNet squareP .float32 T seen 0 (xnetAfter (l :: exNX :: rest)
      [(true, .train s X (fun Z => Z) (fun a d => a - d / 10)), (false, .eval s X')])) :
    (T 3 1 2).val [0, 2, 0, 0] = channelMean U 2 ∧
    (T 0 1 0).val [0, 2, 0, 0] = 1 - (boxSum U.shape fun i => if i.getD 1 0 = 2 then
          D.val i * ((U.val i - channelMean U 2) / (channelVar U 2 + 1)) else 0) / 10 := by
  obtain ⟨us, ud, uv⟩ := U
  obtain ⟨ds, dd, dv⟩ := D
  simp only at hU hD
  have e : (exNX.inMode true) = exNX := rfl
  have e1 : l.inMode true = l := by rw [hl]; rfl
  have e2 : xnetAfter (l :: exNX :: rest) [(true, .train s X (fun Z => Z) (fun a d => a - d / 10)), (false, .eval s X')] =
      xnoteNet ((xstepNet (fun a d => a - d / 10) (l :: exNX :: rest) (s, X) (xseqNet (l :: exNX :: rest) (s, X)).2).map
        (XLayer.inMode false)) (s, X') := by
    simp only [xnetAfter, List.foldl, xnext, List.map_cons, e1, hr, e]
  rw [e2] at h
  generalize (xseqNet (l :: exNX :: rest) (s, X)).2 = Y at h hD
  obtain ⟨-, h, -⟩ := h
  rw [← hU, ← hD] at h
  generalize ((XLayer.inMode false _).seq _ : List Nat × (List Nat → ℚ)) = x at h
  subst hl
  replace h : XLayer.Stores squareP .float32 (fun w => T w 1) (fun w => seen w 1) (.norm 7 8 9 10 { exNL with training := false }
      (seqUpdate none ⟨fun _ => 0, fun _ => 1, 0⟩ (channelMean ⟨us, .float32, uv⟩) (channelVar ⟨us, .float32, uv⟩))
      (fun k => 1 - channelSum (timesT ⟨us, .float32, dv⟩
        (seqHat id 1 (channelMean ⟨us, .float32, uv⟩, channelVar ⟨us, .float32, uv⟩) ⟨us, .float32, uv⟩)) k / 10)
      (fun k => 0 - channelSum ⟨us, .float32, dv⟩ k / 10) : XLayer ℚ Nat) := h
  obtain ⟨s1, s2⟩ := h
  constructor
  · refine (((s2 rfl).1 3 (by decide)).1.val [0, 2, 0, 0] (by decide)).trans ?_
    show (1 - 1 / (((0 : ℕ) : ℚ) + 1)) * 0 + 1 / (((0 : ℕ) : ℚ) + 1) * channelMean ⟨us, .float32, uv⟩ 2 = channelMean ⟨us, ud, uv⟩ 2
    norm_num
    rfl
  · refine (((s1 rfl).1.held 0 (by decide)).1.val [0, 2, 0, 0] (by decide)).trans ?_
    show (1 : ℚ) - channelSum _ 2 / 10 = _
    refine congrArg (fun z : ℚ => 1 - z / 10) ?_
    rw [channelSum]
    refine congrArg (boxSum us) (funext fun i => ?_)
    split
    · next hk =>
      show dv i * ((uv i - channelMean ⟨us, .float32, uv⟩ (i.getD 1 0)) / (channelVar ⟨us, .float32, uv⟩ (i.getD 1 0) + 1)) = _
      rw [hk]
      rfl
    · rfl

/-- A training step with learning rate 1/10 in training mode and a call in evaluation mode: afterwards worker 3 stores the mean
of channel 2 of the only batch as running mean, worker 0 the new scale of channel 2, and worker 3 holds its part of the result
of the network with the new parameters and the running statistics. -/
example (early : GState (LSt ℚ) (NMsg ℚ) → Nat → Nat → Prop) :
    ∃ n g, Exec [0, 1, 2, 3] (xjobsProg squareP exNNet (fun _ => true)
        [(true, .train (exXX 1) (fun _ z => z) (fun a d => a - d / 10)), (false, .eval (exXX 2))]) early n
        (GState.init fun w => LSt.fresh (exXPar w)) g ∧
      ∃ (X X' : List Nat → ℚ) (U D : Tensor ℚ) (new : List (XLayer ℚ Nat)),
        (U.shape, U.val) = xseqNet (exUNet.take 1) (exUL.global, X) ∧
        D.val = xadjNet (exUNet.drop 1) (exNX.seq (U.shape, U.val)) (xseqNet exNNet (exUL.global, X)).2 ∧
        new = xstepNet (fun a d => a - d / 10) exNNet (exUL.global, X) (xseqNet exNNet (exUL.global, X)).2 ∧
        ((g.ws 3).st.θ 1 2).val [0, 2, 0, 0] = channelMean U 2 ∧
        ((g.ws 0).st.θ 1 0).val [0, 2, 0, 0] = 1 - (boxSum U.shape fun i => if i.getD 1 0 = 2 then
          D.val i * ((U.val i - channelMean U 2) / (channelVar U 2 + 1)) else 0) / 10 ∧
        ∃ z, (g.ws 3).st.outs = [z] ∧
          z.val [1, 0, 7, 3] = (xseqNet (new.map (XLayer.inMode false)) (exUL.global, X')).2 [1, 0, 15, 9] := by
  have hj : List.Forall₂ (fun (j : Bool × Job ℚ) (k : Bool × Task ℚ) => j.1 = k.1 ∧ j.2.Does [0, 1, 2, 3] squareP (fun _ => exUL) squareP
      (fun _ => Layout.balanced squareP.shape [2, 1, 16, 11]) .float32 (fun _ => true) k.2)
      [(true, .train (exXX 1) (fun _ z => z) (fun a d => a - d / 10)), (false, .eval (exXX 2))]
      [(true, .train exUL.global (fun i => 1 * (i.getD 3 0 : ℚ) - (i.getD 2 0 : ℚ)) (fun Z => Z) (fun a d => a - d / 10)),
        (false, .eval exUL.global fun i => 2 * (i.getD 3 0 : ℚ) - (i.getD 2 0 : ℚ))] :=
    .cons ⟨rfl, rfl, exXX_holds 1, fun _ => ⟨fun _ _ _ h => h, fun _ _ _ _ h2 h3 => ⟨rfl, h2, h3⟩⟩, rfl⟩
      (.cons ⟨rfl, rfl, exXX_holds 2⟩ .nil)
  have hσ : ∀ j ∈ [(true, Job.train (exXX 1) (fun _ z => z) (fun a d => a - d / 10)), (false, .eval (exXX 2))], ∀ w,
      (j.2.x w).shape = (exXX 0 w).shape ∧ (j.2.x w).dtype = (exXX 0 w).dtype := by
    intro x hx w
    simp only [List.mem_cons, List.not_mem_nil, or_false] at hx
    rcases hx with rfl | rfl <;> exact ⟨rfl, rfl⟩
  have hm : ∀ l ∈ exNNet, l.Moves := by
    intro l hl
    have : l ∈ exNNet → l.Moves := by
      simp only [exNNet, exUNet, List.take, List.drop, List.cons_append, List.nil_append, List.mem_cons, List.not_mem_nil, or_false]
      rintro (rfl | rfl | rfl | rfl | rfl)
      · trivial
      · exact fun _ h => by cases h
      · trivial
      · trivial
      · trivial
    exact this hl
  obtain ⟨n, g, -, he, hf⟩ := (C83_terminates (early := early) (.inl rfl) (by decide) squareP_wf rfl (by decide) exNNet_fits hm
    exXPar_stores hj hσ fun _ _ _ => rfl).2 0 _ (.refl _)
  obtain ⟨T', seen, hT', hr⟩ := C83_result (.inl rfl) squareP_wf rfl (by decide) exNNet_fits hm exXPar_stores hj hσ fun _ _ _ => rfl
  have r0 := hr early n g he 0 (by decide) (hf 0 (by decide))
  have r3 := hr early n g he 3 (by decide) (hf 3 (by decide))
  obtain ⟨q1, q2⟩ := exNX_after (U := ⟨_, .float32, _⟩) (D := ⟨[], .float32, _⟩) (exUC 3)
    (exUNet.drop 1) _ _ _ rfl rfl rfl rfl hT'
  refine ⟨n, g, he, fun i => 1 * (i.getD 3 0 : ℚ) - (i.getD 2 0 : ℚ), fun i => 2 * (i.getD 3 0 : ℚ) - (i.getD 2 0 : ℚ),
    _, _, _, rfl, rfl, rfl, (congrArg (fun θ => (θ 1 2).val [0, 2, 0, 0]) r3.2.2.1).trans q1,
    (congrArg (fun θ => (θ 1 0).val [0, 2, 0, 0]) r0.2.2.1).trans q2, ?_⟩
  obtain ⟨z, hz, ho⟩ : ∃ z, (g.ws 3).st.outs = [z] ∧ _ := by
    have h := r3.2.2.2.2
    generalize (g.ws 3).st.outs = o at h
    cases h with
    | cons h h' => cases h'; exact ⟨_, rfl, h⟩
  exact ⟨z, hz, (ho (by decide)).2.2 [1, 0, 7, 3] (by decide)⟩

end Verif.Net
