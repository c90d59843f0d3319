import Verif.Net.Live
import Verif.Net.TrainProps

/-!
# C74: backward passes when the input does not require gradients on all workers
-/

namespace Verif.Net

section
variable {F β : Type} [Field F]
variable {W : List Nat} {P P' : Cart} {L L' : Layout} {ls : List (TLayer F β)} {t : TorchDtype} {X Y : List Nat → F}
  {S : Nat → NSt F} {seed : Nat → Tensor F → Tensor F} {early : GState (BSt F) (NMsg F) → Nat → Nat → Prop} {n : Nat}
  {g : GState (BSt F) (NMsg F)}

/-- The input of the network requires gradients on all workers, or on none and then the first layer with parameters has
some on every worker. -/
def Uniform (W : List Nat) (P : Cart) (ls : List (TLayer F β)) (S : Nat → NSt F) : Prop :=
  (∀ w ∈ W, (S w).rg = true) ∨ (∀ w ∈ W, (S w).rg = false) ∧ Covers W P ls

/-- The reference program, its results. -/
theorem TNetFits.trainL (hn : TNetFits W P L ls P' L') (hP : P.WF) (hL : L.pshape = P.shape) (hW : ∀ w ∈ P.members, w ∈ W)
    (hS : Holds W P L t X S) (hseed : SeedsGrad W P' L' t (tseqNet ls (L.global, X)).2 Y seed) (hu : Uniform W P ls S) :
    ∃ prog, Agree W (trainProgL P ls (fun w => (S w).rg) seed) prog ∧ ProgOK W prog (fun w => ⟨S w, [], []⟩) ∧
      (∀ w ∈ W, (run prog (fun w => ⟨S w, [], []⟩) w).s.err = false) ∧
      ((∀ w ∈ W, (S w).rg = true) →
        HoldsG W P L t (tadjNet ls (L.global, X) Y) fun w => (run prog (fun w => ⟨S w, [], []⟩) w).s) ∧
      ∃ grs, NetGrads P ls (L.global, X) Y grs ∧ ∀ w, (run prog (fun w => ⟨S w, [], []⟩) w).grads = grs.map fun gr => gr w := by
  by_cases hr : ∀ w ∈ W, (S w).rg = true
  · obtain ⟨ok, hH, hg⟩ := hn.train (seed := seed) (Y := Y) ⟨hP, hL, hW, rfl⟩ hS fun Z hZ => hseed.holdsG hZ
    exact ⟨_, Agree.append (Agree.refl _) (.cons (fun _ _ => rfl) (netBackL_live ls P hr)), ok, hH.calm, fun _ => hH, hg⟩
  · obtain ⟨hd, hc⟩ := hu.resolve_left hr
    obtain ⟨ok, he, hg⟩ := hn.train_dead (seed := seed) (Y := Y) ⟨hP, hL, hW, rfl⟩ hS fun Z hZ => hseed.holdsG hZ
    exact ⟨_, Agree.append (Agree.refl _) (.cons (fun _ _ => rfl) (netBackL_dead ls P hd hc)), ok, he, fun h => absurd h hr, hg⟩

omit [Field F] in
/-- The workers at which tensors begin to require gradients are those that have a tensor for the first parameter of the layer,
whose gradient `C74_partial` speaks of. -/
theorem C74_owns (P : Cart) (l : TLayer F β) (w : Nat) : l.owns P w = l.has P w 0 := by
  cases l <;> simp [TLayer.owns, TLayer.has]

/-- C74, results: if the input requires gradients on all workers, or on none and the first layer with parameters has
some on every worker, then a worker that has performed both passes, under any interleaving, has seen no exception, and
the gradients of its parameters are what the sequential network says.  If the input requires gradients, the workers of
the first partition hold their parts of its gradient. -/
theorem C74_partial (hP : P.WF) (hL : L.pshape = P.shape) (hW : ∀ w ∈ P.members, w ∈ W) (hn : TNetFits W P L ls P' L')
    (hS : Holds W P L t X S) (hseed : SeedsGrad W P' L' t (tseqNet ls (L.global, X)).2 Y seed) (hu : Uniform W P ls S) :
    ∃ grs, NetGrads P ls (L.global, X) Y grs ∧
    ∀ early n g, Exec W (trainProgL P ls (fun w => (S w).rg) seed) early n (GState.init fun w => ⟨S w, [], []⟩) g →
    ∀ w ∈ W, (g.ws w).phase = (trainProgL P ls (fun w => (S w).rg) seed).length →
      (g.ws w).st.s.err = false ∧ ((g.ws w).st.grads = grs.map fun gr => gr w) ∧
      ((∀ w ∈ W, (S w).rg = true) → w ∈ P.members →
        (g.ws w).st.s.t.shape = L.shapeAt (P.coord w) ∧ (g.ws w).st.s.t.dtype = t ∧
        ∀ l, InBounds l (L.shapeAt (P.coord w)) →
          (g.ws w).st.s.t.val l = tadjNet ls (L.global, X) Y (shiftBy (L.startAt (P.coord w)) l)) := by
  obtain ⟨prog, ha, ok, he, hH, grs, hg, hr⟩ := hn.trainL hP hL hW hS hseed hu
  refine ⟨grs, hg, fun early n g hx w hw hp => ?_⟩
  rw [result ok (ha.exec hx) hw (hp.trans ha.length_eq)]
  exact ⟨he w hw, hr w, fun h hm => ⟨((hH h).parts w hm).1, ((hH h).parts w hm).2, (hH h).data w hm⟩⟩

/-- C74, progress: under the same conditions some worker can go on as long as one has not performed both passes. -/
theorem C74_progress_partial (hP : P.WF) (hL : L.pshape = P.shape) (hW : ∀ w ∈ P.members, w ∈ W)
    (hn : TNetFits W P L ls P' L') (hS : Holds W P L t X S)
    (hseed : SeedsGrad W P' L' t (tseqNet ls (L.global, X)).2 Y seed) (hu : Uniform W P ls S)
    (he : Exec W (trainProgL P ls (fun w => (S w).rg) seed) early n (GState.init fun w => ⟨S w, [], []⟩) g)
    (hw : ∃ w ∈ W, (g.ws w).phase < (trainProgL P ls (fun w => (S w).rg) seed).length) :
    ∃ g', Step W (trainProgL P ls (fun w => (S w).rg) seed) early g g' := by
  obtain ⟨prog, ha, ok, -⟩ := hn.trainL hP hL hW hS hseed hu
  obtain ⟨w, hw, hlt⟩ := hw
  obtain ⟨g', hs⟩ := no_deadlock ok (ha.exec he) ⟨w, hw, ha.length_eq ▸ hlt⟩
  exact ⟨g', ha.symm.step hs⟩

/-- C74, termination: under the same conditions there is a bound on the number of steps of all executions, and every
execution can be continued until all workers have performed both passes. -/
theorem C74_terminates_partial (hW' : W.Nodup) (hP : P.WF) (hL : L.pshape = P.shape) (hW : ∀ w ∈ P.members, w ∈ W)
    (hn : TNetFits W P L ls P' L') (hS : Holds W P L t X S)
    (hseed : SeedsGrad W P' L' t (tseqNet ls (L.global, X)).2 Y seed) (hu : Uniform W P ls S) :
    (∃ N, ∀ n g, Exec W (trainProgL P ls (fun w => (S w).rg) seed) early n (GState.init fun w => ⟨S w, [], []⟩) g → n ≤ N) ∧
    ∀ n g, Exec W (trainProgL P ls (fun w => (S w).rg) seed) early n (GState.init fun w => ⟨S w, [], []⟩) g →
      ∃ n' g', n ≤ n' ∧
        Exec W (trainProgL P ls (fun w => (S w).rg) seed) early n' (GState.init fun w => ⟨S w, [], []⟩) g' ∧
        ∀ w ∈ W, (g'.ws w).phase = (trainProgL P ls (fun w => (S w).rg) seed).length := by
  obtain ⟨prog, ha, ok, -⟩ := hn.trainL hP hL hW hS hseed hu
  refine ⟨⟨_, fun n g he => bounded ok hW' (ha.exec he)⟩, fun n g he => ?_⟩
  obtain ⟨n', g', h1, h2, h3⟩ := completes ok hW' (ha.exec he)
  exact ⟨n', g', h1, ha.symm.exec h2, fun w hw => (h3 w hw).trans ha.length_eq.symm⟩

end

/-! ## Worked cases -/

/-- The convolution that comes first in `exTNet` has parameters on all four workers; the input requires no gradients, and
all executions end, with the gradients of the parameters. -/
example (early : GState (BSt ℚ) (NMsg ℚ) → Nat → Nat → Prop) :
    ∃ n g, Exec [0, 1, 2, 3] (trainProgL exP0 exTNet (fun w => (exTS w).rg) fun _ z => z) early n
        (GState.init fun w => ⟨exTS w, [], []⟩) g ∧
      ∃ g1 g2 g3 g4 g5 g6, (g.ws 0).st.grads = [g1, g2, g3, g4, g5, g6] ∧
        (∃ z, g1 0 = some z ∧ z.shape = [2, 1, 3, 3]) ∧ ∃ z, g6 0 = some z ∧ z.shape = [2, 9] := by
  have hu : Uniform [0, 1, 2, 3] exP0 exTNet exTS := .inr ⟨fun _ _ => rfl, by
    show ∀ w ∈ [0, 1, 2, 3], exP0.members.contains w = true
    decide⟩
  obtain ⟨n, g, -, he, hf⟩ := (C74_terminates_partial (early := early) (by decide) exP0_wf rfl (by decide) exTNet_fits
    exTS_holds exTSeed hu).2 0 _ (.refl _)
  obtain ⟨grs, hg, hr⟩ := C74_partial exP0_wf rfl (by decide) exTNet_fits exTS_holds exTSeed hu
  obtain ⟨-, h2, -⟩ := hr early n g he 0 (by decide) (hf 0 (by decide))
  obtain ⟨g1, _, rfl, ⟨⟨z1, q1, q2, -⟩, -⟩, g2, _, rfl, c2, g3, _, rfl, c3, g4, _, rfl, c4, g5, _, rfl, c5, g6, _, rfl,
    ⟨c6, -⟩, rfl⟩ := hg
  obtain ⟨z6, r1, r2, -⟩ := c6 0 (by simp [exTA])
  refine ⟨n, g, he, _, _, _, _, _, _, h2, ⟨z1, q1, q2⟩, z6, r1, r2.trans ?_⟩
  simp [exTA, Cart.coord, getCoords]
  decide

/-! ## A pipeline -/

/-- A linear layer whose input and parameters are on worker 0, its output on worker 1. -/
def exPipe1 : LinearLayer ℚ :=
  ⟨⟨[0], [1, 1], some 0⟩, ⟨[1], [1, 1], some 0⟩, ⟨[0], [1, 1], some 0⟩, true, false, 2, 2, true,
    fun _ c => (c.getD 0 0 + c.getD 1 0 : ℚ), fun _ c => (c.getD 0 0 : ℚ)⟩

/-- A linear layer on worker 1. -/
def exPipe2 : LinearLayer ℚ :=
  ⟨⟨[1], [1, 1], some 0⟩, ⟨[1], [1, 1], some 0⟩, ⟨[1], [1, 1], some 0⟩, true, true, 2, 2, true,
    fun _ c => (c.getD 0 0 + c.getD 1 0 : ℚ), fun _ c => (c.getD 0 0 : ℚ)⟩

/-- The two layers. -/
def exPipe : List (TLayer ℚ Nat) :=
  [.lin 7 8 exPipe1 true (fun c => (c.getD 0 0 + c.getD 1 0 : ℚ)) fun c => (c.getD 0 0 : ℚ),
    .lin 9 10 exPipe2 true (fun c => (c.getD 0 0 + c.getD 1 0 : ℚ)) fun c => (c.getD 0 0 : ℚ)]

theorem exPipe_fits : TNetFits [0, 1] exPipe1.Px (Layout.balanced [1, 1] [3, 2]) exPipe exPipe2.Py
    (Layout.balanced [1, 1] [3, 2]) := by
  refine .cons (.lin (b := 3) (Po := 1) (Pi := 1) _ _ _ _ _ _ ?_ ?_ (by decide) (by decide)) (.cons (P := exPipe2.Px)
    (.lin (b := 3) (Po := 1) (Pi := 1) _ _ _ _ _ _ ?_ ?_ (by decide) (by decide)) .nil)
  · exact ⟨⟨by decide, by decide, by decide⟩, ⟨by decide, by decide, by decide⟩, ⟨by decide, by decide, by decide⟩,
      rfl, rfl, rfl, ⟨_, rfl, rfl, rfl⟩, by simp [exPipe1], by simp [exPipe1], by simp [exPipe1]⟩
  · refine ⟨fun v hv => ?_, fun v hv => ?_⟩ <;> (obtain rfl : v = 0 := by simpa [exPipe1] using hv)
    · intro k hk i hi
      simp [exPipe1, Cart.coord, getCoords, startIdx]
    · intro _ k hk
      simp [exPipe1, Cart.coord, getCoords, startIdx]
  · exact ⟨⟨by decide, by decide, by decide⟩, ⟨by decide, by decide, by decide⟩, ⟨by decide, by decide, by decide⟩,
      rfl, rfl, rfl, ⟨_, rfl, rfl, rfl⟩, by simp [exPipe2], by simp [exPipe2], by simp [exPipe2]⟩
  · refine ⟨fun v hv => ?_, fun v hv => ?_⟩ <;> (obtain rfl : v = 1 := by simpa [exPipe2] using hv)
    · intro k hk i hi
      simp [exPipe2, Cart.coord, getCoords, startIdx]
    · intro _ k hk
      simp [exPipe2, Cart.coord, getCoords, startIdx]

/-- The input: on worker 0; worker 1 has an array without entries. -/
def exPipeS (w : Nat) : NSt ℚ :=
  ⟨⟨if w = 0 then [3, 2] else [0], .float32, fun l => (l.sum : ℚ)⟩, false, false, fun _ => noInfo, noInfo,
    ⟨fun _ => 0, fun _ => 0⟩, fun _ => (⟨[], .float32, fun _ => 0⟩, false)⟩

theorem exPipeS_holds : Holds [0, 1] exPipe1.Px (Layout.balanced [1, 1] [3, 2]) .float32 (fun l => (l.sum : ℚ)) exPipeS := by
  refine ⟨fun _ _ => rfl, fun w _ => ?_, ⟨false, fun v hv => ?_⟩, fun v hv l hl => ?_⟩
  · show (if w = 0 then [3, 2] else [0]) ≠ []
    split <;> simp
  · obtain rfl : v = 0 := by simpa [exPipe1] using hv
    decide
  · obtain rfl : v = 0 := by simpa [exPipe1] using hv
    show ((l.sum : Nat) : ℚ) = _
    have e : (Layout.balanced [1, 1] [3, 2]).startAt (exPipe1.Px.coord 0) = [0, 0] := by decide
    have e' : (Layout.balanced [1, 1] [3, 2]).shapeAt (exPipe1.Px.coord 0) = [3, 2] := by decide
    rw [e'] at hl
    rw [e]
    match l, hl with
    | [a, b], _ => simp [shiftBy]

/-- Phases without requests. -/
theorem quiet_ok {σ μ : Type} {W : List Nat} {ph : Nat → σ → Phase σ μ} {S : Nat → σ}
    (h : ∀ w x, (ph w x).reqs = [] ∧ (ph w x).order = none) : PhaseOK W ph S := by
  constructor
  · intro w _; rw [(h w _).1]; exact List.nodup_nil
  · intro w _ r hr; rw [(h w _).1] at hr; cases hr
  · intro w _ r hr; rw [(h w _).1] at hr; cases hr
  · intro w _ r hr; rw [(h w _).1] at hr; cases hr
  · intro w _; rw [(h w _).1]; exact List.Pairwise.nil
  · intro w _ l hl; rw [(h w _).2] at hl; cases hl

theorem gate_quiet {σ τ μ C : Type} {ctx : σ → C} {ℓ : Lens σ τ} {ph : C → Nat → τ → Phase τ μ} {b : Nat → Bool}
    (h : ∀ T w x, (ph T w x).reqs = [] ∧ (ph T w x).order = none) (w : Nat) (x : σ) :
    (ctxPhase ctx ℓ (fun T w x => if b w then ph T w x else idlePhase) w x).reqs = [] ∧
    (ctxPhase ctx ℓ (fun T w x => if b w then ph T w x else idlePhase) w x).order = none := by
  simp only [ctxPhase]
  split
  · rw [(h ..).1, (h ..).2]
    exact ⟨rfl, rfl⟩
  · exact ⟨rfl, rfl⟩

/-- What comes after the forward pass, up to the adjoint of the sum-reduction of the first layer. -/
def exPipeMid : Prog (BSt ℚ) (NMsg ℚ) :=
  seedPhase (fun _ z => z) :: TLayer.backL exPipe2.Px (TLayer.liveOut exPipe1.Px (exPipe.getD 0 .flat) fun w => (exPipeS w).rg)
    (exPipe.getD 1 .flat)

/-- The adjoint of the sum-reduction of the first layer, performed by worker 0 only. -/
def exPipeAdj : Nat → BSt ℚ → Phase (BSt ℚ) (NMsg ℚ) :=
  ctxPhase BSt.tape fwdLens fun T w x =>
    if TLayer.liveOut exPipe1.Px (exPipe.getD 0 .flat) (fun w => (exPipeS w).rg) w then
      copyPhase 8 (fun w => recvOf (exPipe1.ySumReduce.rparts w)) (fun w => sendOf (exPipe1.ySumReduce.rparts w))
        exPipe1.ySumReduce.preserveBatch tenLens (fun _ _ => ownAt 0 T) w x
    else idlePhase

theorem exPipe_prog : ∃ q, trainProgL exPipe1.Px exPipe (fun w => (exPipeS w).rg) (fun _ z => z) =
    (tapeProg (netCuts exPipe1.Px exPipe) ++ exPipeMid) ++ exPipeAdj :: q ∧
    ∀ ph ∈ q, ∀ w x, (ph w x).reqs = [] := by
  have i1 : exPipe1.xBroadcast.identity = true := by decide
  have i2 : exPipe1.ySumReduce.identity = false := by decide
  refine ⟨backProg (CProg.gate (TLayer.liveOut exPipe1.Px (exPipe.getD 0 .flat) fun w => (exPipeS w).rg)
    [opBackPhase exPipe1.xBroadcast.Py.members 1 (linGrad exPipe1)]) ++
      [dropPhase ((exPipe.getD 0 .flat).cuts exPipe1.Px).length ((exPipe.getD 0 .flat).has exPipe1.Px)], ?_, ?_⟩
  · have e : TLayer.backL exPipe1.Px (fun w => (exPipeS w).rg) (exPipe.getD 0 .flat) = exPipeAdj ::
        (backProg (CProg.gate (TLayer.liveOut exPipe1.Px (exPipe.getD 0 .flat) fun w => (exPipeS w).rg)
          [opBackPhase exPipe1.xBroadcast.Py.members 1 (linGrad exPipe1)]) ++
        [dropPhase ((exPipe.getD 0 .flat).cuts exPipe1.Px).length ((exPipe.getD 0 .flat).has exPipe1.Px)]) := by
      show backProg ((stackSegs 7 8 exPipe1.xBroadcast exPipe1.ySumReduce (linGrad exPipe1)).flatMap _) ++ _ = _
      simp only [stackSegs, reduceBack, bcastBack, i1, i2, if_true, Bool.false_eq_true, if_false]
      rfl
    show _ ++ seedPhase _ :: (([] ++ TLayer.backL exPipe2.Px _ (exPipe.getD 1 .flat)) ++
      TLayer.backL exPipe1.Px (fun w => (exPipeS w).rg) (exPipe.getD 0 .flat)) = _
    rw [e, List.nil_append, exPipeMid, List.append_assoc, List.cons_append]
    rfl
  · intro ph h w x
    have h : ph ∈ [_, _] := h
    simp only [List.mem_cons, List.not_mem_nil, or_false] at h
    rcases h with rfl | rfl
    · exact (gate_quiet (fun _ _ _ => ⟨rfl, rfl⟩) w x).1
    · rfl

theorem exPipeMid_quiet : ∀ ph ∈ exPipeMid, ∀ w x, (ph w x).reqs = [] ∧ (ph w x).order = none := by
  have i1 : exPipe2.xBroadcast.identity = true := by decide
  have i2 : exPipe2.ySumReduce.identity = true := by decide
  intro ph h w x
  rcases List.mem_cons.1 h with rfl | h
  · exact ⟨rfl, rfl⟩
  · have h : ph ∈ backProg ((stackSegs 9 10 exPipe2.xBroadcast exPipe2.ySumReduce (linGrad exPipe2)).flatMap _) ++ [_] := h
    simp only [stackSegs, reduceBack, bcastBack, i1, i2, if_true] at h
    have h : ph ∈ [_, _] := h
    simp only [List.mem_cons, List.not_mem_nil, or_false] at h
    rcases h with rfl | rfl
    · exact gate_quiet (fun _ _ _ => ⟨rfl, rfl⟩) w x
    · exact ⟨rfl, rfl⟩

/-- Without this condition the claim is false: two linear layers, the first with its parameters on worker 0 and its
output on worker 1, the second on worker 1; the input requires no gradients.  Everything `C72_result` asks for holds, but
in no execution does worker 0 end its backward pass: it takes part in the adjoint of the sum-reduction, worker 1 does
not, since what it passes into the sum-reduction requires no gradients there. -/
theorem C74_false : ∃ (W : List Nat) (P P' : Cart) (L L' : Layout) (ls : List (TLayer ℚ Nat)) (X Y : List Nat → ℚ)
    (S : Nat → NSt ℚ) (seed : Nat → Tensor ℚ → Tensor ℚ),
    W.Nodup ∧ P.WF ∧ L.pshape = P.shape ∧ (∀ w ∈ P.members, w ∈ W) ∧ TNetFits W P L ls P' L' ∧
    Holds W P L .float32 X S ∧ SeedsGrad W P' L' .float32 (tseqNet ls (L.global, X)).2 Y seed ∧
    ∃ w ∈ W, ∀ early n g, Exec W (trainProgL P ls (fun w => (S w).rg) seed) early n (GState.init fun w => ⟨S w, [], []⟩) g →
      (g.ws w).phase < (trainProgL P ls (fun w => (S w).rg) seed).length := by
  refine ⟨[0, 1], exPipe1.Px, exPipe2.Py, Layout.balanced [1, 1] [3, 2], Layout.balanced [1, 1] [3, 2], exPipe,
    fun l => (l.sum : ℚ), _, exPipeS, fun _ z => z, by decide, ⟨by decide, by decide, by decide⟩, by decide, by decide,
    exPipe_fits, exPipeS_holds, ⟨fun _ _ _ h => h, fun _ _ _ _ h2 h3 => ⟨rfl, h2, h3⟩⟩, 0, by decide, fun early n g he => ?_⟩
  obtain ⟨q, hq, hno⟩ := exPipe_prog
  rw [hq] at he ⊢
  have hp : Placed [0, 1] exPipe1.Px (Layout.balanced [1, 1] [3, 2]) (Layout.global (Layout.balanced [1, 1] [3, 2])) :=
    ⟨⟨by decide, by decide, by decide⟩, by decide, by decide, rfl⟩
  obtain ⟨o1, -⟩ := (exPipe_fits.forward (t := .float32) (X := fun l => (l.sum : ℚ)) hp).2 exPipeS exPipeS_holds
  obtain ⟨o2, -⟩ := tape_run (netCuts exPipe1.Px exPipe) (fun w => (⟨exPipeS w, [], []⟩ : BSt ℚ)) o1
  have ok : ProgOK [0, 1] (tapeProg (netCuts exPipe1.Px exPipe) ++ exPipeMid) fun w => (⟨exPipeS w, [], []⟩ : BSt ℚ) := by
    refine progOK_append.2 ⟨o2, ?_⟩
    have key : ∀ (l : Prog (BSt ℚ) (NMsg ℚ)) (B : Nat → BSt ℚ),
        (∀ ph ∈ l, ∀ w x, (ph w x).reqs = [] ∧ (ph w x).order = none) → ProgOK [0, 1] l B := by
      intro l
      induction l with
      | nil => exact fun _ _ => trivial
      | cons ph l ih =>
        exact fun B h => ⟨quiet_ok (h ph (List.mem_cons_self ..)), ih _ fun ph' h' => h ph' (List.mem_cons_of_mem _ h')⟩
    exact key _ _ exPipeMid_quiet
  have h0 : ∀ x : BSt ℚ, ∃ r : Req (BSt ℚ) (NMsg ℚ), (exPipeAdj 0 x).reqs[0]? = some r ∧ r.key = .coll 8 [1, 0] ∧ r.deps = [1] :=
    fun x => ⟨_, rfl, rfl, rfl⟩
  have h1 : ∀ x : BSt ℚ, (exPipeAdj 1 x).reqs = [] := fun x => rfl
  obtain ⟨r, hr, hk, hd⟩ := h0 (run (tapeProg (netCuts exPipe1.Px exPipe) ++ exPipeMid) (fun w => ⟨exPipeS w, [], []⟩) 0)
  have := never_passes ok (a := 0) (u := 1) (by decide) (by decide) hr (by rw [hk]; decide) (by rw [hk]; decide)
    (by rw [hd]; decide) (q := q) (fun ph hph x r' hr' => ?_) he
  · rw [List.length_append (as := _ ++ _), List.length_cons]
    omega
  · rcases List.mem_cons.1 hph with rfl | hph
    · rw [h1] at hr'
      cases hr'
    · rw [hno ph hph] at hr'
      cases hr'

end Verif.Net
