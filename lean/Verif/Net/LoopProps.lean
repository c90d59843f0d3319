import Verif.Net.Loop

/-!
# C75, C76: networks that are called repeatedly, and trained
-/

namespace Verif.Net

section
variable {F β : Type} [Field F]
variable {W : List Nat} {P P' : Cart} {L L' : Layout} {ls : List (TLayer F β)} {t : TorchDtype} {rg : Nat → Bool}
  {T : Nat → Nat → Nat → Tensor F} {σ : Nat → Tensor F} {early : GState (LSt F) (NMsg F) → Nat → Nat → Prop} {n : Nat}
  {g : GState (LSt F) (NMsg F)}

/-! ## Repeated calls -/

section
variable {xs : List (Nat → Tensor F)} {Xs : List (List Nat → F)}

omit [Field F] in
theorem same_structure {j : Job F} (h : ∀ w, (j.x w).shape = (σ w).shape ∧ (j.x w).dtype = (σ w).dtype) (w : Nat) :
    (j.x w).bare = (σ w).bare := tensor_bare.2 (h w)

theorem evals_next (s : List Nat) (Xs : List (List Nat → F)) : netAfter ls (Xs.map (Task.eval s)) = ls := by
  induction Xs with
  | nil => rfl
  | cons X Xs ih => exact ih

theorem evals_outs (s : List Nat) (Xs : List (List Nat → F)) :
    outsOf ls (Xs.map (Task.eval s)) = Xs.map fun X => (s, (tseqNet ls (s, X)).2) := by
  induction Xs with
  | nil => rfl
  | cons X Xs ih => exact congrArg (_ :: ·) ih

theorem evals_run (hP : P.WF) (hL : L.pshape = P.shape) (hW : ∀ w ∈ P.members, w ∈ W) (hn : TNetFits W P L ls P' L')
    (hT : StoresNet P T 0 ls) (hx : List.Forall₂ (fun x X => Holds W P L t X fun w => feed (x w) (rg w)) xs Xs)
    (hσ : ∀ x ∈ xs, ∀ w, (x w).shape = (σ w).shape ∧ (x w).dtype = (σ w).dtype) :
    ∃ prog M, Agree W (jobsProg P ls rg (xs.map .eval)) prog ∧ ProgOK W prog (fun w => LSt.fresh (T w)) ∧
      Ready W P ls P' (fun _ => L') t T M ls (Xs.map fun X => (L.global, (tseqNet ls (L.global, X)).2))
        (run prog fun w => LSt.fresh (T w)) := by
  have hj : List.Forall₂ (Job.Does W P (fun _ => L) P' (fun _ => L') t rg) (xs.map .eval) (Xs.map (.eval L.global)) :=
    List.forall₂_map_left_iff.2 (List.forall₂_map_right_iff.2 (hx.imp fun _ _ h => ⟨rfl, h⟩))
  have hb : (∃ j ∈ xs.map Job.eval, j.back = true) → (∀ w ∈ W, rg w = true) ∨ (∀ w ∈ W, rg w = false) ∧ Covers W P ls := by
    rintro ⟨j, h, hb⟩
    obtain ⟨x, -, rfl⟩ := List.mem_map.1 h
    cases hb
  obtain ⟨prog, M, h1, h2, h3⟩ := Ready.jobs hP hW hb hj (Ready.init hT) (alike_same (σ := σ) fun j h => by
    obtain ⟨x, hm, rfl⟩ := List.mem_map.1 h
    exact same_structure (hσ x hm)) fun _ _ => ⟨hL, hn⟩
  rw [evals_next, evals_outs] at h3
  exact ⟨prog, M, h1, h2, h3⟩

/-- C75, results: a network is called any number of times with inputs of the same structure; in the first call every module
does its setup, in the later ones it uses what it has kept.  Whatever the interleaving, a worker that has performed all
calls has seen no exception, and if it belongs to the last partition it holds its part of the result of every call. -/
theorem C75_result (hP : P.WF) (hL : L.pshape = P.shape) (hW : ∀ w ∈ P.members, w ∈ W) (hn : TNetFits W P L ls P' L')
    (hT : StoresNet P T 0 ls) (hx : List.Forall₂ (fun x X => Holds W P L t X fun w => feed (x w) (rg w)) xs Xs)
    (hσ : ∀ x ∈ xs, ∀ w, (x w).shape = (σ w).shape ∧ (x w).dtype = (σ w).dtype)
    (he : Exec W (jobsProg P ls rg (xs.map .eval)) early n (GState.init fun w => LSt.fresh (T w)) g) {w : Nat} (hw : w ∈ W)
    (hp : (g.ws w).phase = (jobsProg P ls rg (xs.map .eval)).length) :
    (g.ws w).st.bad = false ∧ (g.ws w).st.b.s.err = false ∧
    (g.ws w).st.outs.length = xs.length ∧
    (w ∈ P'.members → ∀ (k : Nat) (X : List Nat → F), Xs[k]? = some X → ∃ z, (g.ws w).st.outs[k]? = some z ∧
      z.shape = L'.shapeAt (P'.coord w) ∧ z.dtype = t ∧
      ∀ l, InBounds l (L'.shapeAt (P'.coord w)) →
        z.val l = (tseqNet ls (L.global, X)).2 (shiftBy (L'.startAt (P'.coord w)) l)) := by
  obtain ⟨prog, M, ha, ok, hR⟩ := evals_run hP hL hW hn hT hx hσ
  rw [result ok (ha.exec he) hw (hp.trans ha.length_eq)]
  have ho := hR.outs w hw
  refine ⟨(hR.calm w hw).1, (hR.calm w hw).2, ?_, fun hm k X hk => ?_⟩
  · rw [ho.length_eq, List.length_map, hx.length_eq]
  · have hk' : (Xs.map fun X => (L.global, (tseqNet ls (L.global, X)).2))[k]? = some (L.global, (tseqNet ls (L.global, X)).2) := by simp [hk]
    have hlt := (List.getElem?_eq_some_iff.1 hk').1
    have hlt' : k < ((run prog fun w => LSt.fresh (T w)) w).outs.length := ho.length_eq ▸ hlt
    have := List.Forall₂.get ho hlt' hlt
    rw [List.get_eq_getElem, List.get_eq_getElem, (List.getElem?_eq_some_iff.1 hk').2] at this
    exact ⟨_, List.getElem?_eq_getElem hlt', this hm⟩

/-- C75, progress: as long as a worker has not performed all calls some worker can go on. -/
theorem C75_progress (hP : P.WF) (hL : L.pshape = P.shape) (hW : ∀ w ∈ P.members, w ∈ W) (hn : TNetFits W P L ls P' L')
    (hT : StoresNet P T 0 ls) (hx : List.Forall₂ (fun x X => Holds W P L t X fun w => feed (x w) (rg w)) xs Xs)
    (hσ : ∀ x ∈ xs, ∀ w, (x w).shape = (σ w).shape ∧ (x w).dtype = (σ w).dtype)
    (he : Exec W (jobsProg P ls rg (xs.map .eval)) early n (GState.init fun w => LSt.fresh (T w)) g)
    (hw : ∃ w ∈ W, (g.ws w).phase < (jobsProg P ls rg (xs.map .eval)).length) :
    ∃ g', Step W (jobsProg P ls rg (xs.map .eval)) early g g' := by
  obtain ⟨prog, M, ha, ok, -⟩ := evals_run hP hL hW hn hT hx hσ
  obtain ⟨w, hw, hlt⟩ := hw
  obtain ⟨g', hs⟩ := no_deadlock ok (ha.exec he) ⟨w, hw, ha.length_eq ▸ hlt⟩
  exact ⟨g', ha.symm.step hs⟩

/-- C75, termination: there is a bound on the number of steps of all executions, and every execution can be continued
until all workers have performed all calls. -/
theorem C75_terminates (hW' : W.Nodup) (hP : P.WF) (hL : L.pshape = P.shape) (hW : ∀ w ∈ P.members, w ∈ W)
    (hn : TNetFits W P L ls P' L') (hT : StoresNet P T 0 ls)
    (hx : List.Forall₂ (fun x X => Holds W P L t X fun w => feed (x w) (rg w)) xs Xs)
    (hσ : ∀ x ∈ xs, ∀ w, (x w).shape = (σ w).shape ∧ (x w).dtype = (σ w).dtype) :
    (∃ N, ∀ n g, Exec W (jobsProg P ls rg (xs.map .eval)) early n (GState.init fun w => LSt.fresh (T w)) g → n ≤ N) ∧
    ∀ n g, Exec W (jobsProg P ls rg (xs.map .eval)) early n (GState.init fun w => LSt.fresh (T w)) g →
      ∃ n' g', n ≤ n' ∧ Exec W (jobsProg P ls rg (xs.map .eval)) early n' (GState.init fun w => LSt.fresh (T w)) g' ∧
        ∀ w ∈ W, (g'.ws w).phase = (jobsProg P ls rg (xs.map .eval)).length := by
  obtain ⟨prog, M, ha, ok, -⟩ := evals_run hP hL hW hn hT hx hσ
  refine ⟨⟨_, fun n g he => bounded ok hW' (ha.exec he)⟩, fun n g he => ?_⟩
  obtain ⟨n', g', h1, h2, h3⟩ := completes ok hW' (ha.exec he)
  exact ⟨n', g', h1, ha.symm.exec h2, fun w hw => (h3 w hw).trans ha.length_eq.symm⟩

end

/-! ## Training -/

section
variable {js : List (Job F)} {ks : List (Task F)}

theorem train_run (hP : P.WF) (hL : L.pshape = P.shape) (hW : ∀ w ∈ P.members, w ∈ W) (hn : TNetFits W P L ls P' L')
    (hT : StoresNet P T 0 ls) (hj : List.Forall₂ (Job.Does W P (fun _ => L) P' (fun _ => L') t rg) js ks)
    (hσ : ∀ j ∈ js, ∀ w, (j.x w).shape = (σ w).shape ∧ (j.x w).dtype = (σ w).dtype)
    (hu : (∀ w ∈ W, rg w = true) ∨ (∀ w ∈ W, rg w = false) ∧ Covers W P ls) :
    ∃ prog M, Agree W (jobsProg P ls rg js) prog ∧ ProgOK W prog (fun w => LSt.fresh (T w)) ∧
      Ready W P ls P' (fun _ => L') t T M (netAfter ls ks) (outsOf ls ks) (run prog fun w => LSt.fresh (T w)) :=
  Ready.jobs hP hW (fun _ => hu) hj (Ready.init hT) (alike_same (σ := σ) fun j h => same_structure (hσ j h)) fun _ _ => ⟨hL, hn⟩

/-- C76, results: a network is called and trained in any order, with inputs of the same structure.  The input requires
gradients on all workers, or on none and then the first layer with parameters has some on every worker.  Whatever the
interleaving, a worker that has done all jobs has seen no exception, stores its blocks of the parameters of the sequential
network after the same tasks, and if it belongs to the last partition it holds its parts of the results of the calls, each
with the parameters of its time. -/
theorem C76_result (hP : P.WF) (hL : L.pshape = P.shape) (hW : ∀ w ∈ P.members, w ∈ W) (hn : TNetFits W P L ls P' L')
    (hT : StoresNet P T 0 ls) (hj : List.Forall₂ (Job.Does W P (fun _ => L) P' (fun _ => L') t rg) js ks)
    (hσ : ∀ j ∈ js, ∀ w, (j.x w).shape = (σ w).shape ∧ (j.x w).dtype = (σ w).dtype)
    (hu : (∀ w ∈ W, rg w = true) ∨ (∀ w ∈ W, rg w = false) ∧ Covers W P ls) :
    ∃ T', StoresNet P T' 0 (netAfter ls ks) ∧
    ∀ early n g, Exec W (jobsProg P ls rg js) early n (GState.init fun w => LSt.fresh (T w)) g →
    ∀ w ∈ W, (g.ws w).phase = (jobsProg P ls rg js).length →
      (g.ws w).st.bad = false ∧ (g.ws w).st.b.s.err = false ∧ (g.ws w).st.θ = T' w ∧
      HoldsOuts P' (fun _ => L') t w (g.ws w).st.outs (outsOf ls ks) := by
  obtain ⟨prog, M, ha, ok, hR⟩ := train_run hP hL hW hn hT hj hσ hu
  refine ⟨_, hR.stores, fun early n g he w hw hp => ?_⟩
  rw [result ok (ha.exec he) hw (hp.trans ha.length_eq)]
  exact ⟨(hR.calm w hw).1, (hR.calm w hw).2, rfl, hR.outs w hw⟩

/-- C76, progress: as long as a worker has not done all jobs some worker can go on. -/
theorem C76_progress (hP : P.WF) (hL : L.pshape = P.shape) (hW : ∀ w ∈ P.members, w ∈ W) (hn : TNetFits W P L ls P' L')
    (hT : StoresNet P T 0 ls) (hj : List.Forall₂ (Job.Does W P (fun _ => L) P' (fun _ => L') t rg) js ks)
    (hσ : ∀ j ∈ js, ∀ w, (j.x w).shape = (σ w).shape ∧ (j.x w).dtype = (σ w).dtype)
    (hu : (∀ w ∈ W, rg w = true) ∨ (∀ w ∈ W, rg w = false) ∧ Covers W P ls)
    (he : Exec W (jobsProg P ls rg js) early n (GState.init fun w => LSt.fresh (T w)) g)
    (hw : ∃ w ∈ W, (g.ws w).phase < (jobsProg P ls rg js).length) : ∃ g', Step W (jobsProg P ls rg js) early g g' := by
  obtain ⟨prog, M, ha, ok, -⟩ := train_run hP hL hW hn hT hj hσ hu
  obtain ⟨w, hw, hlt⟩ := hw
  obtain ⟨g', hs⟩ := no_deadlock ok (ha.exec he) ⟨w, hw, ha.length_eq ▸ hlt⟩
  exact ⟨g', ha.symm.step hs⟩

/-- C76, termination: there is a bound on the number of steps of all executions, and every execution can be continued
until all workers have done all jobs. -/
theorem C76_terminates (hW' : W.Nodup) (hP : P.WF) (hL : L.pshape = P.shape) (hW : ∀ w ∈ P.members, w ∈ W)
    (hn : TNetFits W P L ls P' L') (hT : StoresNet P T 0 ls) (hj : List.Forall₂ (Job.Does W P (fun _ => L) P' (fun _ => L') t rg) js ks)
    (hσ : ∀ j ∈ js, ∀ w, (j.x w).shape = (σ w).shape ∧ (j.x w).dtype = (σ w).dtype)
    (hu : (∀ w ∈ W, rg w = true) ∨ (∀ w ∈ W, rg w = false) ∧ Covers W P ls) :
    (∃ N, ∀ n g, Exec W (jobsProg P ls rg js) early n (GState.init fun w => LSt.fresh (T w)) g → n ≤ N) ∧
    ∀ n g, Exec W (jobsProg P ls rg js) early n (GState.init fun w => LSt.fresh (T w)) g →
      ∃ n' g', n ≤ n' ∧ Exec W (jobsProg P ls rg js) early n' (GState.init fun w => LSt.fresh (T w)) g' ∧
        ∀ w ∈ W, (g'.ws w).phase = (jobsProg P ls rg js).length := by
  obtain ⟨prog, M, ha, ok, -⟩ := train_run hP hL hW hn hT hj hσ hu
  refine ⟨⟨_, fun n g he => bounded ok hW' (ha.exec he)⟩, fun n g he => ?_⟩
  obtain ⟨n', g', h1, h2, h3⟩ := completes ok hW' (ha.exec he)
  exact ⟨n', g', h1, ha.symm.exec h2, fun w hw => (h3 w hw).trans ha.length_eq.symm⟩

end

end

/-! ## A worked case -/

/-- The parameters of the workers for `exTNet`: those of the convolution are on worker 0, those of the linear layer on all. -/
def exTPar (w i p : Nat) : Tensor ℚ :=
  if i = 0 then
    if w = 0 then (if p = 0 then exTC.weight else ⟨[2], .float32, fun l => -(l.sum : ℚ)⟩) else ⟨[0], .float32, fun _ => 0⟩
  else if p = 0 then ⟨[subsize 2 ((exTA.Pw.coord w).getD 0 0) 3, subsize 2 ((exTA.Pw.coord w).getD 1 0) 18], .float32, exTA.weight w⟩
  else ⟨[subsize 2 ((exTA.Pw.coord w).getD 0 0) 3], .float32, exTA.bias w⟩

theorem exTPar_stores : StoresNet exP0 exTPar 0 exTNet := by
  refine ⟨⟨⟨rfl, rfl⟩, fun b hb => ?_, fun w _ i => ?_⟩, trivial, trivial, trivial, trivial, ⟨fun w hw => ⟨rfl, ?_⟩,
    fun w hw h0 => ⟨fun _ => rfl, ?_⟩⟩, trivial⟩
  · obtain rfl : _ = b := Option.some.inj hb
    exact ⟨rfl, rfl⟩
  · show (exTPar w 0 i).dtype = (exTPar 0 0 i).dtype
    have h : ∀ w, (exTPar w 0 i).dtype = .float32 := by
      intro w
      unfold exTPar
      split_ifs <;> rfl
    rw [h, h]
  · exact exTA_params.weight w hw
  · exact exTA_params.bias w hw h0

/-- The input of worker `w`: `X[b, c, i, j] = a j - i`, cut over `exP0`. -/
def exTX (a : ℚ) (w : Nat) : Tensor ℚ :=
  ⟨exL0.shapeAt (exP0.coord w), .float32, fun l =>
    a * ((shiftBy (exL0.startAt (exP0.coord w)) l).getD 3 0 : ℚ) - ((shiftBy (exL0.startAt (exP0.coord w)) l).getD 2 0 : ℚ)⟩

theorem exTX_holds (a : ℚ) : Holds [0, 1, 2, 3] exP0 exL0 .float32 (fun i => a * (i.getD 3 0 : ℚ) - (i.getD 2 0 : ℚ))
    fun w => feed (exTX a w) false :=
  ⟨fun _ _ => rfl, fun w _ => shapeAt_ne_nil (by decide) (by decide) w, ⟨false, fun _ _ => rfl⟩, fun _ _ _ _ => rfl⟩

/-- Two calls with different entries: all executions can be brought to an end, and then worker 2 holds its part of the
second result. -/
example (early : GState (LSt ℚ) (NMsg ℚ) → Nat → Nat → Prop) :
    ∃ n g, Exec [0, 1, 2, 3] (jobsProg exP0 exTNet (fun _ => false) ([exTX 1, exTX 2].map .eval)) early n
        (GState.init fun w => LSt.fresh (exTPar w)) g ∧
      (g.ws 2).st.outs.length = 2 ∧ ∃ z, (g.ws 2).st.outs[1]? = some z ∧ z.shape = [2, 1] ∧
        z.val [1, 0] = (tseqNet exTNet (exL0.global, fun i => 2 * (i.getD 3 0 : ℚ) - (i.getD 2 0 : ℚ))).2 [1, 2] := by
  have hx : List.Forall₂ (fun x X => Holds [0, 1, 2, 3] exP0 exL0 .float32 X fun w => feed (x w) false) [exTX 1, exTX 2]
      [fun i => 1 * (i.getD 3 0 : ℚ) - (i.getD 2 0 : ℚ), fun i => 2 * (i.getD 3 0 : ℚ) - (i.getD 2 0 : ℚ)] :=
    .cons (exTX_holds 1) (.cons (exTX_holds 2) .nil)
  have hσ : ∀ x ∈ [exTX 1, exTX 2], ∀ w, (x w).shape = (exTX 0 w).shape ∧ (x w).dtype = (exTX 0 w).dtype := by
    intro x hx w
    simp only [List.mem_cons, List.not_mem_nil, or_false] at hx
    rcases hx with rfl | rfl <;> exact ⟨rfl, rfl⟩
  obtain ⟨n, g, -, he, hf⟩ := (C75_terminates (early := early) (by decide) exP0_wf rfl (by decide) exTNet_fits exTPar_stores
    hx hσ).2 0 _ (.refl _)
  obtain ⟨-, -, h3, h4⟩ := C75_result exP0_wf rfl (by decide) exTNet_fits exTPar_stores hx hσ he (w := 2) (by decide)
    (hf 2 (by decide))
  obtain ⟨z, z1, z2, -, z3⟩ := h4 (by decide) 1 _ rfl
  refine ⟨n, g, he, h3, z, z1, z2.trans (by decide), ?_⟩
  exact z3 [1, 0] (by decide)

/-- A training step with learning rate 1/10 and another call: afterwards worker 0 stores the new weight of the convolution,
worker 3 its block of the new weight of the linear layer, and worker 2 holds its part of the result of the network with
the new parameters. -/
example (early : GState (LSt ℚ) (NMsg ℚ) → Nat → Nat → Prop) :
    ∃ n g, Exec [0, 1, 2, 3] (jobsProg exP0 exTNet (fun _ => false)
        [.train (exTX 1) (fun _ z => z) (fun a d => a - d / 10), .eval (exTX 2)]) early n
        (GState.init fun w => LSt.fresh (exTPar w)) g ∧
      ∃ X X' : List Nat → ℚ, ∃ new, new = updNet (fun a d => a - d / 10) exTNet (exL0.global, X)
          (tseqNet exTNet (exL0.global, X)).2 ∧
        ((g.ws 0).st.θ 0 0).val [1, 0, 1, 1] = 3 - torchConvGradW exTC.W 1 1 2 exL0.global X
          (tadjNet (exTNet.drop 1) (tseqNet (exTNet.take 1) (exL0.global, X)) (tseqNet exTNet (exL0.global, X)).2) [1, 0, 1, 1] / 10 ∧
        ((g.ws 3).st.θ 5 0).val [0, 4] = 15 - denseGradW 2
          (tseqNet (exTNet.take 5) (exL0.global, X)).2
          (tseqNet exTNet (exL0.global, X)).2 [2, 13] / 10 ∧
        ∃ z, (g.ws 2).st.outs = [z] ∧ z.val [1, 0] = (tseqNet new (exL0.global, X')).2 [1, 2] := by
  have hj : List.Forall₂ (Job.Does [0, 1, 2, 3] exP0 (fun _ => exL0) exTA.Py (fun _ => Layout.balanced [1, 2] [2, 3]) .float32
      fun _ => false)
      [.train (exTX 1) (fun _ z => z) (fun a d => a - d / 10), .eval (exTX 2)]
      [.train exL0.global (fun i => 1 * (i.getD 3 0 : ℚ) - (i.getD 2 0 : ℚ)) (fun Z => Z) (fun a d => a - d / 10),
        .eval exL0.global fun i => 2 * (i.getD 3 0 : ℚ) - (i.getD 2 0 : ℚ)] :=
    .cons ⟨rfl, exTX_holds 1, fun _ => ⟨fun _ _ _ h => h, fun _ _ _ _ h2 h3 => ⟨rfl, h2, h3⟩⟩, rfl⟩ (.cons ⟨rfl, exTX_holds 2⟩ .nil)
  have hσ : ∀ j ∈ [Job.train (exTX 1) (fun _ z => z) (fun a d => a - d / 10), .eval (exTX 2)], ∀ w,
      (j.x w).shape = (exTX 0 w).shape ∧ (j.x w).dtype = (exTX 0 w).dtype := by
    intro x hx w
    simp only [List.mem_cons, List.not_mem_nil, or_false] at hx
    rcases hx with rfl | rfl <;> exact ⟨rfl, rfl⟩
  have hu : (∀ w ∈ [0, 1, 2, 3], (fun _ => false) w = true) ∨
      (∀ w ∈ [0, 1, 2, 3], (fun _ => false) w = false) ∧ Covers [0, 1, 2, 3] exP0 exTNet := .inr ⟨fun _ _ => rfl, by
    show ∀ w ∈ [0, 1, 2, 3], exP0.members.contains w = true
    decide⟩
  obtain ⟨n, g, -, he, hf⟩ := (C76_terminates (early := early) (by decide) exP0_wf rfl (by decide) exTNet_fits exTPar_stores
    hj hσ hu).2 0 _ (.refl _)
  obtain ⟨T', hT', hr⟩ := C76_result exP0_wf rfl (by decide) exTNet_fits exTPar_stores hj hσ hu
  have r0 := hr early n g he 0 (by decide) (hf 0 (by decide))
  have r2 := hr early n g he 2 (by decide) (hf 2 (by decide))
  have r3 := hr early n g he 3 (by decide) (hf 3 (by decide))
  obtain ⟨⟨⟨s1, -⟩, -⟩, -, -, -, -, ⟨s6, -⟩, -⟩ := hT'
  refine ⟨n, g, he, fun i => 1 * (i.getD 3 0 : ℚ) - (i.getD 2 0 : ℚ), fun i => 2 * (i.getD 3 0 : ℚ) - (i.getD 2 0 : ℚ), _, rfl,
    ?_, ?_, ?_⟩
  · rw [r0.2.2.1]
    refine (congrArg (fun z : Tensor ℚ => z.val [1, 0, 1, 1]) s1).trans ?_
    have hb : InBounds [1, 0, 1, 1] [2, 1, 3, 3] := by decide
    refine (if_pos (e := exTC.weight.val [1, 0, 1, 1]) hb).trans ?_
    have h3 : exTC.weight.val [1, 0, 1, 1] = 3 := by norm_num [exTC]
    show exTC.weight.val [1, 0, 1, 1] - _ / 10 = _
    rw [h3]
    rfl
  · rw [r3.2.2.1]
    refine ((s6 3 (by decide)).2 0 (by decide) 4 (by decide)).trans ?_
    show (((2 + 13 : Nat) : ℚ)) - _ / 10 = _
    rw [show ((2 + 13 : Nat) : ℚ) = 15 by norm_num]
    rfl
  · obtain ⟨z, hz, ho⟩ : ∃ z, (g.ws 2).st.outs = [z] ∧ _ := by
      have h := r2.2.2.2
      generalize (g.ws 2).st.outs = o at h
      cases h with
      | cons h h' => cases h'; exact ⟨_, rfl, h⟩
    exact ⟨z, hz, (ho (by decide)).2.2 [1, 0] (by decide)⟩

end Verif.Net
