import Verif.Net.Learn
import Verif.Net.BatchProps

/-!
# C78: training with a distributed loss
-/

namespace Verif.Net

section
variable {F β : Type} [Field F]
variable {W : List Nat} {P P' : Cart} {L L' : List Nat → Layout} {ls : List (TLayer F β)} {t : TorchDtype} {rg : Nat → Bool}
  {T : Nat → Nat → Nat → Tensor F} {early : GState (LSt F) (NMsg F) → Nat → Nat → Prop} {n : Nat}
  {g : GState (LSt F) (NMsg F)} {as : List (Act F)} {ps : List (Plan F)} {N : NetLoss F} {kl : Bool} {red : String}

/-- The inputs have one structure, or they differ only in the batch size, no partition cuts the batch dimension, and workers
without data are told the batch size. -/
def Regular (P : Cart) (ls : List (TLayer F β)) (xs : List (Nat → Tensor F)) : Prop :=
  (∃ σ : Nat → List Nat × TorchDtype, ∀ x ∈ xs, ∀ w, (x w).shape = (σ w).1 ∧ (x w).dtype = (σ w).2) ∨
  (P.shape.head? = some 1 ∧ (∀ l ∈ ls, l.KeepsBatch) ∧
    ∃ (rest : Nat → List Nat) (d : Nat → TorchDtype), ∀ x ∈ xs, ∃ b, ∀ w, (x w).shape = b :: rest w ∧ (x w).dtype = d w)

/-- What the network and the loss keep in acts with the batch sizes `b` and `b'`. -/
theorem keeps_batches {a a' : Act F} {p p' : Plan F} {w0 b b' : Nat} {rest : Nat → List Nat} {d : Nat → TorchDtype}
    (hP : P.WF) (hW : ∀ w ∈ P.members, w ∈ W) (hT : StoresNet P T 0 ls) (hM : Made P' kl red N.M w0) (hr : red ≠ "none")
    (hroot : ∃ r, P'.root = some r) (hd : P'.shape ≠ []) (h1 : P.shape.head? = some 1) (hk : ∀ l ∈ ls, l.KeepsBatch)
    (hn : (L p.shape).pshape = P.shape ∧ TNetFits W P (L p.shape) ls P' (L' p.shape))
    (hn' : (L p'.shape).pshape = P.shape ∧ TNetFits W P (L p'.shape) ls P' (L' p'.shape))
    (h : a.Does W P L P' L' t rg p) (h' : a'.Does W P L P' L' t rg p')
    (hb : ∀ w, (a.x w).shape = b :: rest w ∧ (a.x w).dtype = d w)
    (hb' : ∀ w, (a'.x w).shape = b' :: rest w ∧ (a'.x w).dtype = d w) :
    ∀ (k : Nat) m m', (actKeeps P ls T rg N a)[k]? = some m → (actKeeps P ls T rg N a')[k]? = some m' → Decides m m' := by
  by_cases hbb : b = b'
  · subst hbb
    exact keeps_same hT hP hW hM hn hn' h h' fun w => tensor_bare.2
      ⟨(hb w).1.trans (hb' w).1.symm, (hb w).2.trans (hb' w).2.symm⟩
  have key : ∀ {a : Act F} {p : Plan F} {b : Nat}, (L p.shape).pshape = P.shape ∧ TNetFits W P (L p.shape) ls P' (L' p.shape) →
      a.Does W P L P' L' t rg p → (∀ w, (a.x w).shape = b :: rest w ∧ (a.x w).dtype = d w) →
      List.Forall₂ (Entry.Matches b) (netProfile P (netWith P T 0 ls)) (keeps P ls T a.x rg) ∧ Heads W b (netOut P ls T a.x rg) := by
    intro a p b hn h hb
    obtain ⟨hg, X, hX⟩ := h.holds
    have hf' := hn.2.kin (List.forall₂_same.2 fun l _ => Kin.refl l) hT
    have hp : Placed W P (L p.shape) p.shape := ⟨hP, hn.1, hW, hg⟩
    refine hf'.steady hp h1 (keepsBatch_net T hk P 0) ?_ hX fun w _ => ?_
    · obtain ⟨w1, -, hm1⟩ := hP.head
      have hs : ∃ c, p.shape.head? = some c := by
        have hlen : p.shape.length = P.shape.length := by rw [← hp.global, Layout.length_global, ← Layout.length_pshape, hp.layout]
        cases hks : p.shape with
        | nil =>
          rw [hks] at hlen
          rw [List.eq_nil_of_length_eq_zero hlen.symm] at h1
          cases h1
        | cons c _ => exact ⟨c, rfl⟩
      obtain ⟨c, hc⟩ := hs
      have e : (a.x w1).shape.head? = some c := hX.heads hp h1 hc w1 hm1
      rw [(hb w1).1] at e
      rw [hc, ← e]
      rfl
    · show (a.x w).shape.head? = _
      rw [(hb w).1]
      rfl
  obtain ⟨k1, k2⟩ := key hn h hb
  obtain ⟨k1', k2'⟩ := key hn' h' hb'
  refine keeps_pair (fun k m m' hm hm' => ?_) ?_
  · obtain ⟨hlt, rfl⟩ := List.getElem?_eq_some_iff.1 hm
    obtain ⟨hlt', rfl⟩ := List.getElem?_eq_some_iff.1 hm'
    have hlE : k < (netProfile P (netWith P T 0 ls)).length := k1.length_eq ▸ hlt
    exact (k1.get hlE hlt).decides (k1'.get hlE hlt') hbb
  · rintro x tgt opt x' tgt' opt' rfl rfl k m m' hm hm'
    match p, p', h, h' with
    | .learn s X Y _, .learn s' X' Y' _, h, h' =>
      obtain ⟨hs, hX, ht, -⟩ := h
      obtain ⟨hs', hX', ht', -⟩ := h'
      obtain ⟨q, hO⟩ := out_holds hT hP hn.1 hW hn.2 hs hX
      obtain ⟨q', hO'⟩ := out_holds hT hP hn'.1 hW hn'.2 hs' hX'
      have D := loss_decides (N := N) ⟨q.wf, hroot, hd, q.layout⟩ ⟨q'.wf, hroot, hd, q'.layout⟩ hM hr q.sub hO hO' ht ht' k2 k2' hbb
      obtain ⟨hlt, rfl⟩ := List.getElem?_eq_some_iff.1 hm
      obtain ⟨hlt', rfl⟩ := List.getElem?_eq_some_iff.1 hm'
      exact D.get hlt hlt'

theorem learn_run (hP : P.WF) (hW : ∀ w ∈ P.members, w ∈ W) (hP' : P'.WF) (hroot : ∃ r, P'.root = some r) (hd : P'.shape ≠ [])
    (hN : newLoss P' kl red = some N.M) (hr : red ≠ "none")
    (hn : ∀ p ∈ ps, (L p.shape).pshape = P.shape ∧ TNetFits W P (L p.shape) ls P' (L' p.shape))
    (hT : StoresNet P T 0 ls) (ha : List.Forall₂ (Act.Does W P L P' L' t rg) as ps) (hx : Regular P ls (as.map Act.x))
    (hu : (∃ a ∈ as, a.back = true) → (∀ w ∈ W, rg w = true) ∨ (∀ w ∈ W, rg w = false) ∧ Covers W P ls) :
    ∃ prog M, Agree W (actsProg P ls rg N as) prog ∧ ProgOK W prog (fun w => LSt.fresh (T w)) ∧
      Armed W P ls P' L' t T M (planned N.dell red t ls ps) (planOuts N.dell red t ls ps) (planLosses N.ell N.dell red t ls ps)
        (run prog fun w => LSt.fresh (T w)) := by
  obtain ⟨w0, hM⟩ : ∃ w0, Made P' kl red N.M w0 := by
    obtain ⟨w0, h0, hmem⟩ := hP'.head
    have hv : red ∈ validReductions kl := by
      by_contra hc
      simp [newLoss, hc] at hN
    rw [newLoss_eq h0 hv] at hN
    exact ⟨w0, (Option.some.inj hN).symm, h0, hmem, hv⟩
  refine Armed.acts hM hr hroot hd hP hW hu ha (Armed.init hT) (actAlike_of fun a h a' h' => ?_) hn
  have plan : ∀ a ∈ as, ∃ p ∈ ps, a.Does W P L P' L' t rg p := by
    intro a h
    obtain ⟨i, hi, rfl⟩ := List.mem_iff_getElem.1 h
    have hi' : i < ps.length := ha.length_eq ▸ hi
    exact ⟨_, List.getElem_mem hi', ha.get hi hi'⟩
  obtain ⟨p, hp, hap⟩ := plan a h
  obtain ⟨p', hp', hap'⟩ := plan a' h'
  rcases hx with ⟨σ, hσ⟩ | ⟨h1, hk, rest, d, hb⟩
  · refine keeps_same hT hP hW hM (hn p hp) (hn p' hp') hap hap' fun w => tensor_bare.2 ?_
    have e := hσ _ (List.mem_map_of_mem h) w
    have e' := hσ _ (List.mem_map_of_mem h') w
    exact ⟨e.1.trans e'.1.symm, e.2.trans e'.2.symm⟩
  · obtain ⟨b, hb1⟩ := hb _ (List.mem_map_of_mem h)
    obtain ⟨b', hb2⟩ := hb _ (List.mem_map_of_mem h')
    exact keeps_batches hP hW hT hM hr hroot hd h1 hk (hn p hp) (hn p' hp') hap hap' hb1 hb2

/-- C78, results: a network with a distributed loss at its end (reduction `mean`, `sum` or `batchmean`) is called and trained
in any order.  Whatever the interleaving, a worker that has done everything has seen no exception, stores its blocks of the
parameters that sequential training with PyTorch's loss gives, holds its parts of the results of the calls, and has stored
the sequential losses if it is the first worker of the partition of the loss, zeros if it is another one. -/
theorem C78_result (hP : P.WF) (hW : ∀ w ∈ P.members, w ∈ W) (hP' : P'.WF) (hroot : ∃ r, P'.root = some r) (hd : P'.shape ≠ [])
    (hN : newLoss P' kl red = some N.M) (hr : red ≠ "none")
    (hn : ∀ p ∈ ps, (L p.shape).pshape = P.shape ∧ TNetFits W P (L p.shape) ls P' (L' p.shape))
    (hT : StoresNet P T 0 ls) (ha : List.Forall₂ (Act.Does W P L P' L' t rg) as ps) (hx : Regular P ls (as.map Act.x))
    (hu : (∃ a ∈ as, a.back = true) → (∀ w ∈ W, rg w = true) ∨ (∀ w ∈ W, rg w = false) ∧ Covers W P ls) :
    ∃ T', StoresNet P T' 0 (planned N.dell red t ls ps) ∧
    ∀ early n g, Exec W (actsProg P ls rg N as) early n (GState.init fun w => LSt.fresh (T w)) g →
    ∀ w ∈ W, (g.ws w).phase = (actsProg P ls rg N as).length →
      (g.ws w).st.bad = false ∧ (g.ws w).st.b.s.err = false ∧ (g.ws w).st.θ = T' w ∧
      HoldsOuts P' L' t w (g.ws w).st.outs (planOuts N.dell red t ls ps) ∧
      HoldsLosses P' w (g.ws w).st.losses (planLosses N.ell N.dell red t ls ps) := by
  obtain ⟨prog, M, hg, ok, hR⟩ := learn_run hP hW hP' hroot hd hN hr hn hT ha hx hu
  refine ⟨_, hR.ready.stores, fun early n g he w hw hp => ?_⟩
  rw [result ok (hg.exec he) hw (hp.trans hg.length_eq)]
  exact ⟨(hR.ready.calm w hw).1, (hR.ready.calm w hw).2, rfl, hR.ready.outs w hw, hR.losses w⟩

/-- C78, progress: as long as a worker is not done some worker can go on. -/
theorem C78_progress (hP : P.WF) (hW : ∀ w ∈ P.members, w ∈ W) (hP' : P'.WF) (hroot : ∃ r, P'.root = some r) (hd : P'.shape ≠ [])
    (hN : newLoss P' kl red = some N.M) (hr : red ≠ "none")
    (hn : ∀ p ∈ ps, (L p.shape).pshape = P.shape ∧ TNetFits W P (L p.shape) ls P' (L' p.shape))
    (hT : StoresNet P T 0 ls) (ha : List.Forall₂ (Act.Does W P L P' L' t rg) as ps) (hx : Regular P ls (as.map Act.x))
    (hu : (∃ a ∈ as, a.back = true) → (∀ w ∈ W, rg w = true) ∨ (∀ w ∈ W, rg w = false) ∧ Covers W P ls)
    (he : Exec W (actsProg P ls rg N as) early n (GState.init fun w => LSt.fresh (T w)) g)
    (hw : ∃ w ∈ W, (g.ws w).phase < (actsProg P ls rg N as).length) : ∃ g', Step W (actsProg P ls rg N as) early g g' := by
  obtain ⟨prog, M, hg, ok, -⟩ := learn_run hP hW hP' hroot hd hN hr hn hT ha hx hu
  obtain ⟨w, hw, hlt⟩ := hw
  obtain ⟨g', hs⟩ := no_deadlock ok (hg.exec he) ⟨w, hw, hg.length_eq ▸ hlt⟩
  exact ⟨g', hg.symm.step hs⟩

/-- C78, termination: there is a bound on the number of steps of all executions, and every execution can be continued
until all workers are done. -/
theorem C78_terminates (hW' : W.Nodup) (hP : P.WF) (hW : ∀ w ∈ P.members, w ∈ W) (hP' : P'.WF) (hroot : ∃ r, P'.root = some r)
    (hd : P'.shape ≠ []) (hN : newLoss P' kl red = some N.M) (hr : red ≠ "none")
    (hn : ∀ p ∈ ps, (L p.shape).pshape = P.shape ∧ TNetFits W P (L p.shape) ls P' (L' p.shape))
    (hT : StoresNet P T 0 ls) (ha : List.Forall₂ (Act.Does W P L P' L' t rg) as ps) (hx : Regular P ls (as.map Act.x))
    (hu : (∃ a ∈ as, a.back = true) → (∀ w ∈ W, rg w = true) ∨ (∀ w ∈ W, rg w = false) ∧ Covers W P ls) :
    (∃ B, ∀ n g, Exec W (actsProg P ls rg N as) early n (GState.init fun w => LSt.fresh (T w)) g → n ≤ B) ∧
    ∀ n g, Exec W (actsProg P ls rg N as) early n (GState.init fun w => LSt.fresh (T w)) g →
      ∃ n' g', n ≤ n' ∧ Exec W (actsProg P ls rg N as) early n' (GState.init fun w => LSt.fresh (T w)) g' ∧
        ∀ w ∈ W, (g'.ws w).phase = (actsProg P ls rg N as).length := by
  obtain ⟨prog, M, hg, ok, -⟩ := learn_run hP hW hP' hroot hd hN hr hn hT ha hx hu
  refine ⟨⟨_, fun n g he => bounded ok hW' (hg.exec he)⟩, fun n g he => ?_⟩
  obtain ⟨n', g', h1, h2, h3⟩ := completes ok hW' (hg.exec he)
  exact ⟨n', g', h1, hg.symm.exec h2, fun w hw => (h3 w hw).trans hg.length_eq.symm⟩

end

/-! ## A worked case -/

/-- Mean squared error at the end of `exTNet`. -/
def exMSE : NetLoss ℚ :=
  ⟨7, 8, ⟨exTA.Py, ⟨[0], [1, 1], some 0⟩, false, "mean"⟩, fun a b => (a - b) * (a - b), fun a b => 2 * (a - b)⟩

/-- The target with `b` items, and the workers' blocks. -/
def exTgt (b : Nat) : Tensor ℚ := ⟨[b, 3], .float32, fun i => i.getD 1 0⟩

def exTgtAt (b w : Nat) : Tensor ℚ :=
  ⟨(Layout.balanced [1, 2] [b, 3]).shapeAt (exTA.Py.coord w), .float32, fun l =>
    (exTgt b).val (shiftBy ((Layout.balanced [1, 2] [b, 3]).startAt (exTA.Py.coord w)) l)⟩

theorem exTgt_blocks {b : Nat} (h : (Layout.balanced [1, 2] [b, 3]).global = [b, 3]) :
    Blocks exTA.Py (Layout.balanced [1, 2] [b, 3]) (exTgt b) (exTgtAt b) :=
  ⟨h.symm, fun _ _ => rfl, fun _ _ => rfl, fun _ _ _ _ => rfl⟩

/-- The loss is the one the constructor makes. -/
theorem exMSE_made : newLoss exTA.Py false "mean" = some exMSE.M := by decide

/-- A training step with two items, then one with one item, whose loss is that of the network with the new parameters;
worker 0 stores both losses, worker 2 zeros. -/
example (early : GState (LSt ℚ) (NMsg ℚ) → Nat → Nat → Prop) :
    ∃ n g, Exec [0, 1, 2, 3] (actsProg exP0 exTNet (fun _ => false) exMSE
        [.learn (exTY 2 1) (exTgtAt 2) (fun a d => a - d / 10), .learn (exTY 1 2) (exTgtAt 1) (fun a d => a - d / 10)]) early n
        (GState.init fun w => LSt.fresh (exTPar w)) g ∧
      ∃ X X' : List Nat → ℚ, ∃ new, new = updNet (fun a d => a - d / 10) exTNet ([2, 1, 6, 6], X)
          (torchLossGrad (fun a b => 2 * (a - b)) "mean" (outTensor .float32 exTNet [2, 1, 6, 6] X) (exTgt 2)
            ⟨[], .float32, fun _ => 1⟩).val ∧
        (g.ws 0).st.losses.map some =
          [torchLoss (fun a b => (a - b) * (a - b)) "mean" (outTensor .float32 exTNet [2, 1, 6, 6] X) (exTgt 2),
            torchLoss (fun a b => (a - b) * (a - b)) "mean" (outTensor .float32 new [1, 1, 6, 6] X') (exTgt 1)] ∧
        (g.ws 2).st.losses = [⟨[], .float32, fun _ => 0⟩, ⟨[], .float32, fun _ => 0⟩] := by
  have ha : List.Forall₂ (Act.Does [0, 1, 2, 3] exP0 (fun s => Layout.balanced exP0.shape s) exTA.Py
      (fun s => Layout.balanced [1, 2] [s.headD 0, 3]) .float32 fun _ => false)
      [.learn (exTY 2 1) (exTgtAt 2) (fun a d => a - d / 10), .learn (exTY 1 2) (exTgtAt 1) (fun a d => a - d / 10)]
      [.learn [2, 1, 6, 6] (fun i => 1 * (i.getD 3 0 : ℚ) - (i.getD 2 0 : ℚ)) (exTgt 2) (fun a d => a - d / 10),
        .learn [1, 1, 6, 6] (fun i => 2 * (i.getD 3 0 : ℚ) - (i.getD 2 0 : ℚ)) (exTgt 1) (fun a d => a - d / 10)] :=
    .cons ⟨by decide, exTY_holds (by decide) 1, exTgt_blocks (by decide), rfl⟩
      (.cons ⟨by decide, exTY_holds (by decide) 2, exTgt_blocks (by decide), rfl⟩ .nil)
  have hn : ∀ p ∈ ([.learn [2, 1, 6, 6] (fun i => 1 * (i.getD 3 0 : ℚ) - (i.getD 2 0 : ℚ)) (exTgt 2) (fun a d => a - d / 10),
        .learn [1, 1, 6, 6] (fun i => 2 * (i.getD 3 0 : ℚ) - (i.getD 2 0 : ℚ)) (exTgt 1) (fun a d => a - d / 10)] : List (Plan ℚ)),
      (Layout.balanced exP0.shape p.shape).pshape = exP0.shape ∧ TNetFits [0, 1, 2, 3] exP0
        (Layout.balanced exP0.shape p.shape) exTNet exTA.Py (Layout.balanced [1, 2] [p.shape.headD 0, 3]) := by
    intro k hk
    simp only [List.mem_cons, List.not_mem_nil, or_false] at hk
    rcases hk with rfl | rfl
    · exact ⟨rfl, exTNet_fits⟩
    · exact ⟨rfl, exTNet_fits_one⟩
  have hk : ∀ l ∈ exTNet, l.KeepsBatch := by
    intro l hl
    simp only [exTNet, List.mem_cons, List.not_mem_nil, or_false] at hl
    rcases hl with rfl | rfl | rfl | rfl | rfl | rfl
    case inr.inr.inr.inl => exact ⟨rfl, rfl⟩
    all_goals trivial
  have hx : Regular exP0 exTNet ([Act.learn (exTY 2 1) (exTgtAt 2) (fun a d => a - d / 10),
      .learn (exTY 1 2) (exTgtAt 1) (fun a d => a - d / 10)].map Act.x) := by
    refine .inr ⟨rfl, hk, fun _ => [1, 3, 3], fun _ => .float32, fun x hx => ?_⟩
    simp only [List.map_cons, List.map_nil, Act.x, List.mem_cons, List.not_mem_nil, or_false] at hx
    rcases hx with rfl | rfl
    · exact ⟨2, fun _ => ⟨rfl, rfl⟩⟩
    · exact ⟨1, fun _ => ⟨rfl, rfl⟩⟩
  have hu : (∃ a ∈ [Act.learn (exTY 2 1) (exTgtAt 2) (fun a d => a - d / 10),
        .learn (exTY 1 2) (exTgtAt 1) (fun a d => a - d / 10)], a.back = true) →
      (∀ w ∈ [0, 1, 2, 3], (fun _ => false) w = true) ∨
      (∀ w ∈ [0, 1, 2, 3], (fun _ => false) w = false) ∧ Covers [0, 1, 2, 3] exP0 exTNet := fun _ => .inr ⟨fun _ _ => rfl, by
    show ∀ w ∈ [0, 1, 2, 3], exP0.members.contains w = true
    decide⟩
  have hwf : exTA.Py.WF := ⟨by decide, by decide, by decide⟩
  obtain ⟨n, g, -, he, hf⟩ := (C78_terminates (early := early) (by decide) exP0_wf (by decide) hwf ⟨_, rfl⟩ (by decide)
    exMSE_made (by decide) hn exTPar_stores ha hx hu).2 0 _ (.refl _)
  obtain ⟨T', hT', hr⟩ := C78_result exP0_wf (by decide) hwf ⟨_, rfl⟩ (by decide) exMSE_made (by decide) hn exTPar_stores ha hx hu
  have r0 := (hr early n g he 0 (by decide) (hf 0 (by decide))).2.2.2.2
  have r2 := (hr early n g he 2 (by decide) (hf 2 (by decide))).2.2.2.2
  exact ⟨n, g, he, fun i => 1 * (i.getD 3 0 : ℚ) - (i.getD 2 0 : ℚ), fun i => 2 * (i.getD 3 0 : ℚ) - (i.getD 2 0 : ℚ), _, rfl,
    r0.1 rfl, r2.2 (by decide) (by decide)⟩

end Verif.Net
