import Verif.Net.Batch
import Verif.Net.LoopProps

/-!
# C77: networks in calls and training steps with different batch sizes
-/

namespace Verif.Net

section
variable {F β : Type} [Field F]
variable {W : List Nat} {P P' : Cart} {L L' : List Nat → Layout} {ls : List (TLayer F β)} {t : TorchDtype} {rg : Nat → Bool}
  {T : Nat → Nat → Nat → Tensor F} {early : GState (LSt F) (NMsg F) → Nat → Nat → Prop} {n : Nat}
  {g : GState (LSt F) (NMsg F)} {js : List (Job F)} {ks : List (Task F)}

/-- The inputs of the jobs differ, apart from their entries, only in the batch size: worker `w` passes tensors of shape
`b :: rest w` and type `d w`, with the same `b` on all workers. -/
def OnlyBatch (rest : Nat → List Nat) (d : Nat → TorchDtype) (js : List (Job F)) : Prop :=
  ∀ j ∈ js, ∃ b, ∀ w, (j.x w).shape = b :: rest w ∧ (j.x w).dtype = d w

theorem Job.Does.holds {j : Job F} {k : Task F} (h : j.Does W P L P' L' t rg k) :
    (L k.shape).global = k.shape ∧ ∃ X, Holds W P (L k.shape) t X fun w => feed (j.x w) (rg w) := by
  match j, k, h with
  | .eval x, .eval s X, h => exact ⟨h.1, X, h.2⟩
  | .train x seed opt, .train s X Y opt', h => exact ⟨h.1, X, h.2.1⟩

theorem batches_run (hP : P.WF) (hW : ∀ w ∈ P.members, w ∈ W) (h1 : P.shape.head? = some 1) (hk : ∀ l ∈ ls, l.KeepsBatch)
    (hn : ∀ k ∈ ks, (L k.shape).pshape = P.shape ∧ TNetFits W P (L k.shape) ls P' (L' k.shape))
    (hT : StoresNet P T 0 ls) (hj : List.Forall₂ (Job.Does W P L P' L' t rg) js ks)
    {rest : Nat → List Nat} {d : Nat → TorchDtype} (hb : OnlyBatch rest d js)
    (hu : (∃ j ∈ js, j.back = true) → (∀ w ∈ W, rg w = true) ∨ (∀ w ∈ W, rg w = false) ∧ Covers W P ls) :
    ∃ prog M, Agree W (jobsProg P ls rg js) prog ∧ ProgOK W prog (fun w => LSt.fresh (T w)) ∧
      Ready W P ls P' L' t T M (netAfter ls ks) (outsOf ls ks) (run prog fun w => LSt.fresh (T w)) := by
  refine Ready.jobs hP hW hu hj (Ready.init hT) ?_ hn
  refine alike_batches (E := netProfile P (netWith P T 0 ls)) (σ := fun b w => ⟨b :: rest w, d w, fun _ => 0⟩) fun j hjm => ?_
  obtain ⟨b, hbj⟩ := hb j hjm
  obtain ⟨i, hi, rfl⟩ := List.mem_iff_getElem.1 hjm
  have hi' : i < ks.length := hj.length_eq ▸ hi
  obtain ⟨hg, X, hX⟩ := (List.Forall₂.get hj hi hi').holds
  obtain ⟨hl, hf⟩ := hn _ (List.getElem_mem hi')
  have hbare : ∀ w, (js[i].x w).bare = (⟨b :: rest w, d w, fun _ => 0⟩ : Tensor F).bare := fun w => tensor_bare.2 (hbj w)
  refine ⟨b, hbare, ?_⟩
  rw [← keeps_like hbare]
  have hf' := hf.kin (List.forall₂_same.2 fun l _ => Kin.refl l) hT
  have hp : Placed W P (L ks[i].shape) ks[i].shape := ⟨hP, hl, hW, hg⟩
  have hH : Heads W b fun w => feed (js[i].x w) (rg w) := fun w _ => by
    show (js[i].x w).shape.head? = _
    rw [(hbj w).1]
    rfl
  refine (hf'.steady hp h1 (keepsBatch_net T hk P 0) ?_ hX hH).1
  obtain ⟨w0, -, hm0⟩ := hP.head
  have hs : ∃ b', ks[i].shape.head? = some b' := by
    have hlen : ks[i].shape.length = P.shape.length := by rw [← hp.global, Layout.length_global, ← Layout.length_pshape, hp.layout]
    cases hks : ks[i].shape with
    | nil =>
      rw [hks] at hlen
      rw [List.eq_nil_of_length_eq_zero hlen.symm] at h1
      cases h1
    | cons a _ => exact ⟨a, rfl⟩
  obtain ⟨b', hb'⟩ := hs
  have e : (js[i].x w0).shape.head? = some b' := hX.heads hp h1 hb' w0 hm0
  rw [(hbj w0).1] at e
  rw [hb', ← e]
  rfl

/-- C77, results: a network whose partitions do not cut the batch dimension, and whose repartitions pass on the batch size to
workers without data (`preserve_batch`), is called and trained in any order with inputs of any batch sizes, e.g. a smaller
last batch.  Workers without a part of the input pass tensors without entries that have the batch size.  Whatever the
interleaving, a worker that has done all jobs has seen no exception, stores its blocks of the parameters of the sequential
network after the same tasks, and if it belongs to the last partition it holds its parts of the results of the calls. -/
theorem C77_result (hP : P.WF) (hW : ∀ w ∈ P.members, w ∈ W) (h1 : P.shape.head? = some 1) (hk : ∀ l ∈ ls, l.KeepsBatch)
    (hn : ∀ k ∈ ks, (L k.shape).pshape = P.shape ∧ TNetFits W P (L k.shape) ls P' (L' k.shape))
    (hT : StoresNet P T 0 ls) (hj : List.Forall₂ (Job.Does W P L P' L' t rg) js ks)
    {rest : Nat → List Nat} {d : Nat → TorchDtype} (hb : OnlyBatch rest d js)
    (hu : (∃ j ∈ js, j.back = true) → (∀ w ∈ W, rg w = true) ∨ (∀ w ∈ W, rg w = false) ∧ Covers W P ls) :
    ∃ T', StoresNet P T' 0 (netAfter ls ks) ∧
    ∀ early n g, Exec W (jobsProg P ls rg js) early n (GState.init fun w => LSt.fresh (T w)) g →
    ∀ w ∈ W, (g.ws w).phase = (jobsProg P ls rg js).length →
      (g.ws w).st.bad = false ∧ (g.ws w).st.b.s.err = false ∧ (g.ws w).st.θ = T' w ∧
      HoldsOuts P' L' t w (g.ws w).st.outs (outsOf ls ks) := by
  obtain ⟨prog, M, ha, ok, hR⟩ := batches_run hP hW h1 hk hn hT hj hb hu
  refine ⟨_, hR.stores, fun early n g he w hw hp => ?_⟩
  rw [result ok (ha.exec he) hw (hp.trans ha.length_eq)]
  exact ⟨(hR.calm w hw).1, (hR.calm w hw).2, rfl, hR.outs w hw⟩

/-- C77, progress: as long as a worker has not done all jobs some worker can go on. -/
theorem C77_progress (hP : P.WF) (hW : ∀ w ∈ P.members, w ∈ W) (h1 : P.shape.head? = some 1) (hk : ∀ l ∈ ls, l.KeepsBatch)
    (hn : ∀ k ∈ ks, (L k.shape).pshape = P.shape ∧ TNetFits W P (L k.shape) ls P' (L' k.shape))
    (hT : StoresNet P T 0 ls) (hj : List.Forall₂ (Job.Does W P L P' L' t rg) js ks)
    {rest : Nat → List Nat} {d : Nat → TorchDtype} (hb : OnlyBatch rest d js)
    (hu : (∃ j ∈ js, j.back = true) → (∀ w ∈ W, rg w = true) ∨ (∀ w ∈ W, rg w = false) ∧ Covers W P ls)
    (he : Exec W (jobsProg P ls rg js) early n (GState.init fun w => LSt.fresh (T w)) g)
    (hw : ∃ w ∈ W, (g.ws w).phase < (jobsProg P ls rg js).length) : ∃ g', Step W (jobsProg P ls rg js) early g g' := by
  obtain ⟨prog, M, ha, ok, -⟩ := batches_run hP hW h1 hk hn hT hj hb hu
  obtain ⟨w, hw, hlt⟩ := hw
  obtain ⟨g', hs⟩ := no_deadlock ok (ha.exec he) ⟨w, hw, ha.length_eq ▸ hlt⟩
  exact ⟨g', ha.symm.step hs⟩

/-- C77, termination: there is a bound on the number of steps of all executions, and every execution can be continued
until all workers have done all jobs. -/
theorem C77_terminates (hW' : W.Nodup) (hP : P.WF) (hW : ∀ w ∈ P.members, w ∈ W) (h1 : P.shape.head? = some 1)
    (hk : ∀ l ∈ ls, l.KeepsBatch)
    (hn : ∀ k ∈ ks, (L k.shape).pshape = P.shape ∧ TNetFits W P (L k.shape) ls P' (L' k.shape))
    (hT : StoresNet P T 0 ls) (hj : List.Forall₂ (Job.Does W P L P' L' t rg) js ks)
    {rest : Nat → List Nat} {d : Nat → TorchDtype} (hb : OnlyBatch rest d js)
    (hu : (∃ j ∈ js, j.back = true) → (∀ w ∈ W, rg w = true) ∨ (∀ w ∈ W, rg w = false) ∧ Covers W P ls) :
    (∃ N, ∀ n g, Exec W (jobsProg P ls rg js) early n (GState.init fun w => LSt.fresh (T w)) g → n ≤ N) ∧
    ∀ n g, Exec W (jobsProg P ls rg js) early n (GState.init fun w => LSt.fresh (T w)) g →
      ∃ n' g', n ≤ n' ∧ Exec W (jobsProg P ls rg js) early n' (GState.init fun w => LSt.fresh (T w)) g' ∧
        ∀ w ∈ W, (g'.ws w).phase = (jobsProg P ls rg js).length := by
  obtain ⟨prog, M, ha, ok, -⟩ := batches_run hP hW h1 hk hn hT hj hb hu
  refine ⟨⟨_, fun n g he => bounded ok hW' (ha.exec he)⟩, fun n g he => ?_⟩
  obtain ⟨n', g', h1, h2, h3⟩ := completes ok hW' (ha.exec he)
  exact ⟨n', g', h1, ha.symm.exec h2, fun w hw => (h3 w hw).trans ha.length_eq.symm⟩

end

/-! ## A worked case -/

/-- `exTNet` with inputs of one item. -/
def exL0b : Layout := Layout.balanced exP0.shape [1, 1, 6, 6]

theorem exTNet_fits_one : TNetFits [0, 1, 2, 3] exP0 exL0b exTNet exTA.Py (Layout.balanced [1, 2] [1, 3]) := by
  refine .cons (.conv (nd := 2) (pk := [3]) (ps := [1]) (pp := [1]) (pd := [1]) _ _ _ _ _ _ rfl rfl rfl ⟨_, rfl⟩
    (by simp [exTC]) (by simp [exTC]) (by simp [exTC, exL0b]; decide) (by simp [exP0]) ?_) ?_
  · intro _ j hj
    have hj : j < 4 := hj
    interval_cases j
    · exact reach_single (n := 1) (by decide) (by decide) (by decide)
    · exact reach_single (n := 1) (by decide) (by decide) (by decide)
    · exact reach_unit_stride (P := 2) (n := 6) (k := 3) (p := 1) (d := 1) (by decide) (by decide) (by decide)
        (by decide) (by decide) (by decide)
    · exact reach_unit_stride (P := 2) (n := 6) (k := 3) (p := 1) (d := 1) (by decide) (by decide) (by decide)
        (by decide) (by decide) (by decide)
  refine .cons (.map _ _) ?_
  refine .cons (.avg (nd := 2) (pk := [2]) (ps := [2]) (pp := [0]) (pd := [1]) _ _ _ rfl rfl ?_) ?_
  · have e : Layout.balanced exP0.shape (torchConvShape exTC.W exTC.Co exL0b.global) = [[1], [2], [3, 3], [3, 3]] := by decide
    rw [e]
    have ax : AxisLimits 2 2 0 1 [3, 3] := by
      refine ⟨by decide, by decide, by decide, by decide, fun c h0 hc => ?_, fun c hc => ?_, fun c hc => ?_⟩
      · simp at hc; omega
      · simp at hc
      · obtain rfl : c = 0 := by simp at hc; omega
        decide
    intro j hj
    have hj : j < 4 := hj
    interval_cases j
    · exact reach_single (n := 1) (by decide) (by decide) (by decide)
    · exact reach_single (n := 2) (by decide) (by decide) (by decide)
    · exact ax
    · exact ax
  have e : (Layout.balanced exP0.shape (torchPoolShape exQ
      (Layout.global (Layout.balanced exP0.shape (torchConvShape exTC.W exTC.Co exL0b.global))))).global = [1, 2, 3, 3] := by
    decide
  refine .cons (.rep _ _ _ _ ⟨by decide, by decide, by decide⟩ rfl (by decide) ?_ (by decide)) ?_
  · show ∀ d, (Layout.global (Layout.balanced exP0.shape _)).getD d 0 = 1 → _
    rw [e]
    intro d hd
    match d, hd with
    | 0, _ => rfl
    | 1, hd | 2, hd | 3, hd => simp at hd
    | _ + 4, hd => simp at hd
  refine .cons (.flat (a := 1) (b := 2) (k := 2) rfl) ?_
  change TNetFits _ exTA.Px (flatLayout (Layout.balanced exP1.shape (Layout.global (Layout.balanced exP0.shape _)))) _ _ _
  rw [e]
  have e2 : flatLayout (Layout.balanced exP1.shape [1, 2, 3, 3]) = Layout.balanced [1, 2] [1, exTA.inFeatures] := by decide
  rw [e2]
  exact .cons (.lin _ _ _ _ _ _ exTA_valid exTA_params (by simp [exTA]) (by simp [exTA])) .nil

/-- The input of worker `w` with `b` items: `X[., c, i, j] = a j - i`. -/
def exTY (b : Nat) (a : ℚ) (w : Nat) : Tensor ℚ :=
  ⟨[b, 1, 3, 3], .float32, fun l =>
    a * ((shiftBy ((Layout.balanced exP0.shape [b, 1, 6, 6]).startAt (exP0.coord w)) l).getD 3 0 : ℚ) -
      ((shiftBy ((Layout.balanced exP0.shape [b, 1, 6, 6]).startAt (exP0.coord w)) l).getD 2 0 : ℚ)⟩

theorem exTY_holds {b : Nat} (h : ∀ w ∈ exP0.members, [b, 1, 3, 3] = (Layout.balanced exP0.shape [b, 1, 6, 6]).shapeAt (exP0.coord w))
    (a : ℚ) : Holds [0, 1, 2, 3] exP0 (Layout.balanced exP0.shape [b, 1, 6, 6]) .float32
      (fun i => a * (i.getD 3 0 : ℚ) - (i.getD 2 0 : ℚ)) fun w => feed (exTY b a w) false :=
  ⟨fun _ _ => rfl, fun w _ => by simp [feed, exTY], ⟨false, fun v hv => Prod.ext (h v hv) rfl⟩, fun _ _ _ _ => rfl⟩

/-- A training step with two items, then a call with one: all modules do their setup twice, and worker 2 holds its part of
the result of the network with the new parameters. -/
example (early : GState (LSt ℚ) (NMsg ℚ) → Nat → Nat → Prop) :
    ∃ n g, Exec [0, 1, 2, 3] (jobsProg exP0 exTNet (fun _ => false)
        [.train (exTY 2 1) (fun _ z => z) (fun a d => a - d / 10), .eval (exTY 1 2)]) early n
        (GState.init fun w => LSt.fresh (exTPar w)) g ∧
      ∃ X X' : List Nat → ℚ, ∃ new, new = updNet (fun a d => a - d / 10) exTNet ([2, 1, 6, 6], X)
          (tseqNet exTNet ([2, 1, 6, 6], X)).2 ∧
        ∃ z, (g.ws 2).st.outs = [z] ∧ z.shape = [1, 1] ∧ z.val [0, 0] = (tseqNet new ([1, 1, 6, 6], X')).2 [0, 2] := by
  have hj : List.Forall₂ (Job.Does [0, 1, 2, 3] exP0 (fun s => Layout.balanced exP0.shape s) exTA.Py
      (fun s => Layout.balanced [1, 2] [s.headD 0, 3]) .float32 fun _ => false)
      [.train (exTY 2 1) (fun _ z => z) (fun a d => a - d / 10), .eval (exTY 1 2)]
      [.train [2, 1, 6, 6] (fun i => 1 * (i.getD 3 0 : ℚ) - (i.getD 2 0 : ℚ)) (fun Z => Z) (fun a d => a - d / 10),
        .eval [1, 1, 6, 6] fun i => 2 * (i.getD 3 0 : ℚ) - (i.getD 2 0 : ℚ)] :=
    .cons ⟨by decide, exTY_holds (by decide) 1, fun _ => ⟨fun _ _ _ h => h, fun _ _ _ _ h2 h3 => ⟨rfl, h2, h3⟩⟩, rfl⟩
      (.cons ⟨by decide, exTY_holds (by decide) 2⟩ .nil)
  have hn : ∀ k ∈ ([.train [2, 1, 6, 6] (fun i => 1 * (i.getD 3 0 : ℚ) - (i.getD 2 0 : ℚ)) (fun Z => Z) (fun a d => a - d / 10),
        .eval [1, 1, 6, 6] fun i => 2 * (i.getD 3 0 : ℚ) - (i.getD 2 0 : ℚ)] : List (Task ℚ)),
      (Layout.balanced exP0.shape k.shape).pshape = exP0.shape ∧ TNetFits [0, 1, 2, 3] exP0
        (Layout.balanced exP0.shape k.shape) exTNet exTA.Py (Layout.balanced [1, 2] [k.shape.headD 0, 3]) := by
    intro k hk
    simp only [List.mem_cons, List.not_mem_nil, or_false] at hk
    rcases hk with rfl | rfl
    · exact ⟨rfl, exTNet_fits⟩
    · exact ⟨rfl, exTNet_fits_one⟩
  have hb : OnlyBatch (fun _ => [1, 3, 3]) (fun _ => .float32)
      [Job.train (exTY 2 1) (fun _ z => z) (fun a d => a - d / 10), .eval (exTY 1 2)] := by
    intro x hx
    simp only [List.mem_cons, List.not_mem_nil, or_false] at hx
    rcases hx with rfl | rfl
    · exact ⟨2, fun _ => ⟨rfl, rfl⟩⟩
    · exact ⟨1, fun _ => ⟨rfl, rfl⟩⟩
  have hk : ∀ l ∈ exTNet, l.KeepsBatch := by
    intro l hl
    simp only [exTNet, List.mem_cons, List.not_mem_nil, or_false] at hl
    rcases hl with rfl | rfl | rfl | rfl | rfl | rfl
    case inr.inr.inr.inl => exact ⟨rfl, rfl⟩
    all_goals trivial
  have hu : (∃ j ∈ [Job.train (exTY 2 1) (fun _ z => z) (fun a d => a - d / 10), .eval (exTY 1 2)], j.back = true) →
      (∀ w ∈ [0, 1, 2, 3], (fun _ => false) w = true) ∨
      (∀ w ∈ [0, 1, 2, 3], (fun _ => false) w = false) ∧ Covers [0, 1, 2, 3] exP0 exTNet := fun _ => .inr ⟨fun _ _ => rfl, by
    show ∀ w ∈ [0, 1, 2, 3], exP0.members.contains w = true
    decide⟩
  obtain ⟨n, g, -, he, hf⟩ := (C77_terminates (early := early) (by decide) exP0_wf (by decide) rfl hk hn exTPar_stores
    hj hb hu).2 0 _ (.refl _)
  obtain ⟨T', hT', hr⟩ := C77_result exP0_wf (by decide) rfl hk hn exTPar_stores hj hb hu
  have r2 := hr early n g he 2 (by decide) (hf 2 (by decide))
  refine ⟨n, g, he, fun i => 1 * (i.getD 3 0 : ℚ) - (i.getD 2 0 : ℚ), fun i => 2 * (i.getD 3 0 : ℚ) - (i.getD 2 0 : ℚ), _, rfl, ?_⟩
  obtain ⟨z, hz, ho⟩ : ∃ z, (g.ws 2).st.outs = [z] ∧ _ := by
    have h := r2.2.2.2
    generalize (g.ws 2).st.outs = o at h
    cases h with
    | cons h h' => cases h'; exact ⟨_, rfl, h⟩
  exact ⟨z, hz, (ho (by decide)).1.trans (by decide), (ho (by decide)).2.2 [0, 0] (by decide)⟩

end Verif.Net
