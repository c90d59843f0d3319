import Verif.Net.Norm
import Verif.Net.Train

/-!
# Networks: the forward pass of batch norm
-/

namespace Verif.Net

variable {F : Type} [Field F]

section
variable {W : List Nat} {M : BatchNorm F} {L : Layout} {X : Tensor F} {S : Nat → NSt F} {x : Nat → Tensor F}
  {rg : Nat → Bool}

/-- Mean and variance: what the workers hold afterwards, and what is on the tape. -/
theorem both_run (cs cb : Nat) (h : BNMade M.P L M) (hx : Blocks M.P L X x) (hxs : ∀ v ∈ M.P.members, (S v).t = x v)
    (hW : ∀ w ∈ M.P.members, w ∈ W)
    {ρ : Bool} (hr : ∀ v ∈ M.P.members, (S v).rg = ρ)
    (hV : ∀ v ∈ M.P.members, normVolume M (S v).info v = some ((channelVolume X : Nat) : Int)) :
    ProgOK W (bothCuts cs cb M).flatten S ∧
    (∀ w ∈ W, (run (bothCuts cs cb M).flatten S w).t = (S w).t ∧ (run (bothCuts cs cb M).flatten S w).rg = (S w).rg ∧
      (run (bothCuts cs cb M).flatten S w).err = (S w).err ∧ (run (bothCuts cs cb M).flatten S w).info = (S w).info) ∧
    (∀ v ∈ M.P.members,
      bnMean M (channelVolume X : Nat) x rg v =
        some ((run (bothCuts cs cb M).flatten S v).par 2).1 ∧
      bnMean M (channelVolume X : Nat) (devOf M (channelVolume X : Nat) x rg) rg v =
        some ((run (bothCuts cs cb M).flatten S v).par 3).1) ∧
    ChKept M L X.dtype (fun v => (run (bothCuts cs cb M).flatten S v).str) (fun r => parAt 3 0 (snaps (bothCuts cs cb M) S r)) ∧
    (∀ v ∈ M.P.members, Info.same (parAt 3 2 (snaps (bothCuts cs cb M) S v)) (chInfo M.P L X.dtype v)) ∧
    ChKept M L X.dtype (fun v => strAt 3 (snaps (bothCuts cs cb M) S v)) (fun r => parAt 2 4 (snaps (bothCuts cs cb M) S r)) ∧
    ∀ v ∈ M.P.members, Info.same (parAt 2 6 (snaps (bothCuts cs cb M) S v)) (chInfo M.P L X.dtype v) := by
  obtain ⟨d1, d2, d3⟩ := dev_blocks (rg := rg) h hx
  -- sums of the input
  obtain ⟨B1, hB1⟩ : ∃ B1, B1 = sync (normSumsPhase M) S := ⟨_, rfl⟩
  have r1 : ∀ v, B1 v = if v ∈ M.P.members then (parLens 2).set (localSums M.P.shape.length (S v).t, (S v).rg) (S v) else S v :=
    fun v => by rw [hB1]; rfl
  have f1 : ∀ v, (B1 v).t = (S v).t ∧ (B1 v).rg = (S v).rg ∧ (B1 v).err = (S v).err ∧ (B1 v).info = (S v).info := by
    intro v
    rw [r1]
    split <;> exact ⟨rfl, rfl, rfl, rfl⟩
  have p1 : ∀ v ∈ M.P.members, (B1 v).par 2 = (localSums M.P.shape.length (x v), ρ) := by
    intro v hv
    rw [r1, if_pos hv, hr v hv, hxs v hv]
    exact (parLens 2).get_set (localSums M.P.shape.length (x v), ρ) (S v)
  -- the mean
  obtain ⟨o4, Y4, s4, r4, y4, k4⟩ := stat_run (S := B1) (rg := rg) cs cb 2 h hx hW (ρ := ρ) p1
    (fun v hv => by rw [(f1 v).2.2.2]; exact hV v hv)
  obtain ⟨B4, hB4⟩ : ∃ B4, B4 = run (statCuts cs cb M 2).flatten B1 := ⟨_, rfl⟩
  rw [← hB4] at r4
  have f4 : ∀ v ∈ W, (B4 v).t = (S v).t ∧ (B4 v).rg = (S v).rg ∧ (B4 v).err = (S v).err ∧ (B4 v).info = (S v).info ∧
      (B4 v).str = s4 v := by
    intro v hv
    obtain ⟨a, b, c, d⟩ := f1 v
    rw [r4 v hv]
    exact ⟨a, b, c, d, rfl⟩
  have p4 : ∀ v ∈ M.P.members, (B4 v).par 2 = Y4 v := by
    intro v hv
    rw [r4 v (hW v hv)]
    exact (parLens 2).get_set _ _
  -- sums of the squares
  obtain ⟨B5, hB5⟩ : ∃ B5, B5 = sync (normSquaresPhase M) B4 := ⟨_, rfl⟩
  have r5 : ∀ v ∈ M.P.members, B5 v = (parLens 3).set (localSums M.P.shape.length
      (devOf M (channelVolume X : Nat) x rg v), ρ) (B4 v) := by
    intro v hv
    obtain ⟨m, e1, -, e2⟩ := d1 v hv
    have em : m = (Y4 v).1 := Option.some.inj (e1.symm.trans (y4 v hv).1)
    rw [hB5]
    show (if v ∈ M.P.members then _ else _) = _
    rw [if_pos hv, p4 v hv, (f4 v (hW v hv)).1, hxs v hv, ← em, e2, (f4 v (hW v hv)).2.1, hr v hv, (y4 v hv).2, Bool.or_self]
  have r5' : ∀ v, v ∉ M.P.members → B5 v = B4 v := fun v hv => by
    rw [hB5]
    exact if_neg hv
  have f5 : ∀ v ∈ W, (B5 v).t = (S v).t ∧ (B5 v).rg = (S v).rg ∧ (B5 v).err = (S v).err ∧ (B5 v).info = (S v).info := by
    intro v hv
    obtain ⟨a, b, c, d, -⟩ := f4 v hv
    by_cases hm : v ∈ M.P.members
    · rw [r5 v hm]
      exact ⟨a, b, c, d⟩
    · rw [r5' v hm]
      exact ⟨a, b, c, d⟩
  have p5 : ∀ v ∈ M.P.members, (B5 v).par 3 = (localSums M.P.shape.length
      (devOf M (channelVolume X : Nat) x rg v), ρ) ∧ (B5 v).par 2 = Y4 v := by
    intro v hv
    rw [r5 v hv]
    refine ⟨?_, p4 v hv⟩
    exact (parLens 3).get_set (localSums M.P.shape.length (devOf M (channelVolume X : Nat) x rg v), ρ) (B4 v)
  -- the variance
  obtain ⟨o8, Y8, s8, r8, y8, k8⟩ := stat_run (S := B5) (rg := rg) cs cb 3 h d2 hW (ρ := ρ) (fun v hv => (p5 v hv).1)
    (fun v hv => by rw [(f5 v (hW v hv)).2.2.2]; exact hV v hv)
  obtain ⟨B8, hB8⟩ : ∃ B8, B8 = run (statCuts cs cb M 3).flatten B5 := ⟨_, rfl⟩
  rw [← hB8] at r8
  have hrun : run (bothCuts cs cb M).flatten S = B8 := by
    have e : (bothCuts cs cb M).flatten = [normSumsPhase M] ++ ((statCuts cs cb M 2).flatten ++
        ([normSquaresPhase M] ++ (statCuts cs cb M 3).flatten)) := by
      simp [bothCuts]
    rw [e, run_append, run_append, run_append, hB8, hB5, hB4, hB1]
    rfl
  have hsn : ∀ w, snaps (bothCuts cs cb M) S w =
      [run (reduceProg cs M.sr (parLens 3) ++ [normDivPhase M 3]) B5 w, run (reduceProg cs M.sr (parLens 3)) B5 w, B5 w, B4 w,
        run (reduceProg cs M.sr (parLens 2) ++ [normDivPhase M 2]) B1 w, run (reduceProg cs M.sr (parLens 2)) B1 w, B1 w, S w] := by
    intro w
    have e4 : B4 = run (bcastProg cb M.bc (parLens 2)) (run [normDivPhase M 2] (run (reduceProg cs M.sr (parLens 2)) B1)) := by
      rw [hB4, statCuts, List.flatten_cons, List.flatten_cons, List.flatten_cons, List.flatten_nil, List.append_nil, run_append,
        run_append]
    rw [run_append, run_append, hB5, e4, hB1]
    rfl
  rw [hrun]
  refine ⟨?_, fun w hw => ?_, fun v hv => ?_, ⟨fun v hv => ?_, fun r hr' => ?_⟩, fun v hv => ?_, ⟨fun v hv => ?_, fun r hr' => ?_⟩,
    fun v hv => ?_⟩
  · have e : (bothCuts cs cb M).flatten = [normSumsPhase M] ++ ((statCuts cs cb M 2).flatten ++
        ([normSquaresPhase M] ++ (statCuts cs cb M 3).flatten)) := by
      simp [bothCuts]
    rw [e]
    refine progOK_append.2 ⟨⟨localPhase_ok _, trivial⟩, ?_⟩
    show ProgOK W _ (sync (normSumsPhase M) S)
    rw [← hB1]
    refine progOK_append.2 ⟨o4, ?_⟩
    rw [← hB4]
    refine progOK_append.2 ⟨⟨localPhase_ok _, trivial⟩, ?_⟩
    show ProgOK W _ (sync (normSquaresPhase M) B4)
    rw [← hB5]
    exact o8
  · obtain ⟨a, b, c, d⟩ := f5 w hw
    rw [r8 w hw]
    exact ⟨a, b, c, d⟩
  · have e2 : (B8 v).par 2 = Y4 v := by
      rw [r8 v (hW v hv)]
      exact (p5 v hv).2
    have e3 : (B8 v).par 3 = Y8 v := by
      rw [r8 v (hW v hv)]
      exact (parLens 3).get_set _ _
    rw [e2, e3]
    exact ⟨(y4 v hv).1, (y8 v hv).1⟩
  · rw [r8 v (hW v hv)]
    exact k8.str v hv
  · rw [hsn]
    exact k8.inp r hr'
  · rw [hsn]
    show Info.same (infoOf (parLens 3) (B5 v)) _
    have e : (parLens 3).get (B5 v) = _ := (p5 v hv).1
    unfold infoOf
    rw [e, (h.sums d2 hv).1, (h.sums d2 hv).2]
    exact ⟨rfl, rfl⟩
  · rw [hsn]
    show Info.same (B4 v).str _
    rw [(f4 v (hW v hv)).2.2.2.2]
    exact k4.str v hv
  · rw [hsn]
    exact k4.inp r hr'
  · rw [hsn]
    show Info.same (infoOf (parLens 2) (B1 v)) _
    have e : (parLens 2).get (B1 v) = _ := p1 v hv
    unfold infoOf
    rw [e, (h.sums hx hv).1, (h.sums hx hv).2]
    exact ⟨rfl, rfl⟩

end

/-! ## The whole layer -/

/-- The layer is made for its partition and the channel blocks of `L`; parameters and buffers hold the sequential ones. -/
structure NormOK (N : NormLayer F) (L : Layout) (t : TorchDtype) (s : SeqState F) (gamma beta : Nat → F) : Prop where
  made : BNWith N.M.P (L.getD 1 []) N.M
  gamma : N.M.affine = true → Param N.M.P N.M.Psum (L.getD 1 []) t gamma N.g
  beta : N.M.affine = true → Param N.M.P N.M.Psum (L.getD 1 []) t beta N.b
  running : N.M.track = true → Running N.M.P (L.getD 1 []) s N.st

/-- The statistics and parameters the workers have used. -/
structure NormVals (N : NormLayer F) (V : Int) (x : Nat → Tensor F) (rg : Nat → Bool) (m s g b : Nat → Tensor F) : Prop where
  mean : N.batch = true → ∀ v ∈ N.M.P.members, bnMean N.M V x rg v = some (m v)
  var : N.batch = true → ∀ v ∈ N.M.P.members, bnMean N.M V (devOf N.M V x rg) rg v = some (s v)
  stored : N.batch = false → ∀ v ∈ N.M.P.members, m v = (N.st v).mean ∧ s v = (N.st v).var
  gamma : N.M.affine = true → ∀ v ∈ N.M.P.members, bcastForward N.M.bc ⟨N.g, rg⟩ v = some (g v)
  beta : N.M.affine = true → ∀ v ∈ N.M.P.members, bcastForward N.M.bc ⟨N.b, rg⟩ v = some (b v)

/-- What the forward pass has left on the tape. -/
structure NormTape (N : NormLayer F) (L : Layout) (d : TorchDtype) (V : Int) (x m s g b : Nat → Tensor F)
    (T : Nat → List (NSt F)) : Prop where
  last : ∀ v ∈ N.M.P.members, ∃ A, (T v)[0]? = some A ∧ A.t = x v ∧ (A.par 2).1 = m v ∧ (A.par 3).1 = s v ∧
    normVolume N.M A.info v = some V ∧ (N.M.affine = true → (A.par 0).1 = g v ∧ (A.par 1).1 = b v)
  beta : N.M.affine = true → ChKept N.M L d (fun v => strAt 0 (T v)) fun r => parAt 1 1 (T r)
  gamma : N.M.affine = true → ChKept N.M L d (fun v => strAt 1 (T v)) fun r => parAt 0 2 (T r)
  var : N.batch = true → ChKept N.M L d (fun v => strAt 3 (T v)) fun r => parAt 3 4 (T r)
  squares : N.batch = true → ∀ v ∈ N.M.P.members, Info.same (parAt 3 6 (T v)) (chInfo N.M.P L d v)
  mean : N.batch = true → ChKept N.M L d (fun v => strAt 7 (T v)) fun r => parAt 2 8 (T r)
  sums : N.batch = true → ∀ v ∈ N.M.P.members, Info.same (parAt 2 10 (T v)) (chInfo N.M.P L d v)

section
variable {W : List Nat} {N : NormLayer F} {L : Layout} {t : TorchDtype} {X : List Nat → F} {S : Nat → NSt F}

omit [Field F] in
theorem Holds.normBlocks {P : Cart} (h : Holds W P L t X S) : Blocks P L ⟨L.global, t, X⟩ fun w => (S w).t := by
  obtain ⟨rg, hrg⟩ := h.parts
  exact ⟨rfl, fun v hv => congrArg Prod.fst (hrg v hv), fun v hv => congrArg (·.2.1) (hrg v hv), h.data⟩

theorem var_held {M : BatchNorm F} {G : Tensor F} {x : Nat → Tensor F} {rg : Nat → Bool} (h : BNMade M.P L M)
    (hx : Blocks M.P L G x) {v : Nat} (hv : v ∈ M.P.members) :
    ∃ s, bnMean M (channelVolume G : Nat) (devOf M (channelVolume G : Nat) x rg) rg v = some s ∧
      Held M.P (L.getD 1 []) (channelVar G) v s := by
  obtain ⟨m, s, e, -, hs⟩ := h.stats (rg := rg) hx hv
  rw [bnStats] at e
  split at e
  · obtain ⟨t, e1, e2⟩ := Option.bind_eq_some_iff.1 e
    obtain ⟨s', e4, e3⟩ := Option.map_eq_some_iff.1 e2
    obtain rfl : s' = s := (Prod.mk.inj e3).2
    exact ⟨s', by rw [← (dev_blocks h hx).2.2 v hv]; exact e4, hs⟩
  · cases e

theorem NormVals.held {sq : SeqState F} {gamma beta : Nat → F} {G : Tensor F} {x m s g b : Nat → Tensor F} {rg : Nat → Bool}
    (hvals : NormVals N (channelVolume G : Nat) x rg m s g b) (hok : NormOK N L t sq gamma beta) (hm : BNMade N.M.P L N.M)
    (hx : Blocks N.M.P L G x) {v : Nat} (hv : v ∈ N.M.P.members) :
    Held N.M.P (L.getD 1 []) (seqUsed N.M.track N.training sq G).1 v (m v) ∧
    Held N.M.P (L.getD 1 []) (seqUsed N.M.track N.training sq G).2 v (s v) := by
  cases hb : N.batch with
  | true =>
    have e : (N.M.track && !N.training) = false := by
      have : (N.training || !N.M.track) = true := hb
      revert this
      cases N.training <;> cases N.M.track <;> decide
    obtain ⟨m', e1, hm', -⟩ := (dev_blocks (rg := rg) hm hx).1 v hv
    obtain ⟨s', e2, hs'⟩ := var_held (rg := rg) hm hx hv
    obtain rfl := Option.some.inj ((hvals.mean hb v hv).symm.trans e1)
    obtain rfl := Option.some.inj ((hvals.var hb v hv).symm.trans e2)
    rw [seqUsed, e]
    exact ⟨hm', hs'⟩
  | false =>
    have e : (N.M.track && !N.training) = true := by
      have : (N.training || !N.M.track) = false := hb
      revert this
      cases N.training <;> cases N.M.track <;> decide
    obtain ⟨e1, e2⟩ := hvals.stored hb v hv
    rw [seqUsed, e, e1, e2]
    exact hok.running (Bool.and_eq_true_iff.1 e).1 v hv

/-- A call of the layer. -/
def normCall (N : NormLayer F) (L : Layout) (t : TorchDtype) (X : List Nat → F) (gamma beta : Nat → F) (S : Nat → NSt F) :
    BNCall F := ⟨N.training, L, ⟨L.global, t, X⟩, fun w => (S w).t, fun w => (S w).rg, gamma, beta, N.g, N.b⟩

omit [Field F] in
theorem normCall_ok {s : SeqState F} {gamma beta : Nat → F} (hok : NormOK N L t s gamma beta) (hL : L.pshape = N.M.P.shape)
    (h : Holds W N.M.P L t X S) : (normCall N L t X gamma beta S).OK N.M.P (L.getD 1 []) N.M := by
  obtain ⟨rg, hrg⟩ := h.parts
  exact ⟨hL, rfl, h.normBlocks, ⟨rg, fun v hv => congrArg (·.2.2) (hrg v hv)⟩, hok.gamma, hok.beta⟩

omit [Field F] in
/-- The setup: every worker knows the volume. -/
theorem normSetup_run (c : Nat) {s : SeqState F} {gamma beta : Nat → F} (hok : NormOK N L t s gamma beta)
    (hL : L.pshape = N.M.P.shape) (hW : ∀ w ∈ N.M.P.members, w ∈ W) (h : Holds W N.M.P L t X S) :
    ProgOK W (joinProg c N.M.P (List.range N.M.P.shape.length) ++ [normCheckPhase N.M]) S ∧
    Frame W S (run (joinProg c N.M.P (List.range N.M.P.shape.length) ++ [normCheckPhase N.M]) S) ∧
    ∀ v ∈ N.M.P.members,
      normVolume N.M (run (joinProg c N.M.P (List.range N.M.P.shape.length) ++ [normCheckPhase N.M]) S v).info v =
        some ((channelVolume (⟨L.global, t, X⟩ : Tensor F) : Nat) : Int) := by
  obtain ⟨o, f, hi⟩ := join_run c hW (List.range N.M.P.shape.length) S
  obtain ⟨A, hA⟩ : ∃ A, A = run (joinProg c N.M.P (List.range N.M.P.shape.length)) S := ⟨_, rfl⟩
  rw [← hA] at f hi
  have hv : ∀ v ∈ N.M.P.members, normVolume N.M (A v).info v =
      some ((channelVolume (⟨L.global, t, X⟩ : Tensor F) : Nat) : Int) := by
    intro v hv
    rw [normVolume_congr hv (f' := fun u => (S u).own) fun i hi' u hu =>
      hi v hv u (by simp only [cartSub, List.mem_filter] at hu; exact hu.1) (Or.inr ⟨i, List.mem_range.2 hi', hu⟩)]
    exact (normCall_ok hok hL h).volume hok.made hv
  have hrun : ∀ w, run (joinProg c N.M.P (List.range N.M.P.shape.length) ++ [normCheckPhase N.M]) S w = A w := by
    intro w
    rw [run_append, ← hA]
    show (if w ∈ N.M.P.members then if (normVolume N.M (A w).info w).isSome then A w else _ else A w) = _
    split
    · next hw =>
      rw [hv w hw]
      rfl
    · rfl
  refine ⟨progOK_append.2 ⟨o, localPhase_ok _, trivial⟩, fun w hw => ?_, fun v hv' => ?_⟩
  · rw [hrun]
    exact f w hw
  · rw [hrun]
    exact hv v hv'

theorem bnorm_run (c cs cb ca : Nat) {sq : SeqState F} {gamma beta : Nat → F} (hok : NormOK N L t sq gamma beta)
    (hL : L.pshape = N.M.P.shape) (hW : ∀ w ∈ N.M.P.members, w ∈ W) (h : Holds W N.M.P L t X S) :
    ProgOK W (normCuts c cs cb ca N).flatten S ∧
    Holds W N.M.P L t (seqNorm N.sqrt N.M.eps N.M.affine gamma beta
      (seqUsed N.M.track N.training sq ⟨L.global, t, X⟩) ⟨L.global, t, X⟩).val (run (normCuts c cs cb ca N).flatten S) ∧
    (∀ v ∈ N.M.P.members, (run (normCuts c cs cb ca N).flatten S v).rg = ((S v).rg || (N.M.affine && N.rgp))) ∧
    ∃ m s g b, NormVals N (channelVolume (⟨L.global, t, X⟩ : Tensor F) : Nat) (fun w => (S w).t) (fun w => (S w).rg) m s g b ∧
      (∀ v ∈ N.M.P.members, ((run (normCuts c cs cb ca N).flatten S v).par 2).1 = m v ∧
        ((run (normCuts c cs cb ca N).flatten S v).par 3).1 = s v) ∧
      ∀ T : Nat → List (NSt F), (∀ w ∈ W, ∃ rest, T w = snaps (normCuts c cs cb ca N) S w ++ rest) →
        NormTape N L t (channelVolume (⟨L.global, t, X⟩ : Tensor F) : Nat) (fun w => (S w).t) m s g b T := by
  have hm := hok.made.made hL
  have hx : Blocks N.M.P L (⟨L.global, t, X⟩ : Tensor F) fun w => (S w).t := h.normBlocks
  obtain ⟨ρ, hρ⟩ := h.parts
  have hrg : ∀ v ∈ N.M.P.members, (S v).rg = ρ := fun v hv => congrArg (·.2.2) (hρ v hv)
  set G : Tensor F := ⟨L.global, t, X⟩ with hG
  -- setup
  obtain ⟨o1, f1, v1⟩ := normSetup_run c hok hL hW h
  obtain ⟨A1, hA1⟩ : ∃ A1, A1 = run (joinProg c N.M.P (List.range N.M.P.shape.length) ++ [normCheckPhase N.M]) S := ⟨_, rfl⟩
  rw [← hA1] at f1 v1
  -- statistics
  obtain ⟨Q, hQ⟩ : ∃ Q : List (Prog (NSt F) (NMsg F)), Q = if N.batch then bothCuts cs cb N.M else [] := ⟨_, rfl⟩
  obtain ⟨A9, hA9⟩ : ∃ A9, A9 = run Q.flatten A1 := ⟨_, rfl⟩
  have hstat : ProgOK W Q.flatten A1 ∧
      (∀ w ∈ W, (A9 w).t = (S w).t ∧ (A9 w).rg = (S w).rg ∧ (A9 w).err = (S w).err) ∧
      (∀ v ∈ N.M.P.members, normVolume N.M (A9 v).info v = some ((channelVolume G : Nat) : Int)) ∧
      (N.batch = true → (∀ v ∈ N.M.P.members,
          bnMean N.M (channelVolume G : Nat) (fun w => (S w).t) (fun w => (S w).rg) v = some ((A9 v).par 2).1 ∧
          bnMean N.M (channelVolume G : Nat) (devOf N.M (channelVolume G : Nat) (fun w => (S w).t) fun w => (S w).rg)
            (fun w => (S w).rg) v = some ((A9 v).par 3).1) ∧
        ChKept N.M L t (fun v => (A9 v).str) (fun r => parAt 3 0 (snaps Q A1 r)) ∧
        (∀ v ∈ N.M.P.members, Info.same (parAt 3 2 (snaps Q A1 v)) (chInfo N.M.P L t v)) ∧
        ChKept N.M L t (fun v => strAt 3 (snaps Q A1 v)) (fun r => parAt 2 4 (snaps Q A1 r)) ∧
        ∀ v ∈ N.M.P.members, Info.same (parAt 2 6 (snaps Q A1 v)) (chInfo N.M.P L t v)) := by
    cases hb : N.batch with
    | false =>
      rw [hb] at hQ
      subst hQ
      subst hA9
      exact ⟨trivial, fun w hw => ⟨(f1 w hw).1, (f1 w hw).2.1, (f1 w hw).2.2.1⟩, v1, fun e => by cases e⟩
    | true =>
      rw [hb] at hQ
      have hQ : Q = bothCuts cs cb N.M := hQ
      obtain ⟨a1, a2, a3, a4, a5, a6, a7⟩ := both_run (S := A1) (x := fun w => (S w).t) (rg := fun w => (S w).rg) cs cb hm hx
        (fun v hv => (f1 v (hW v hv)).1) hW (ρ := ρ) (fun v hv => (f1 v (hW v hv)).2.1.trans (hrg v hv)) v1
      rw [hQ] at hA9 ⊢
      rw [← hA9] at a2 a3 a4
      refine ⟨a1, fun w hw => ?_, fun v hv => ?_, fun _ => ⟨a3, a4, a5, a6, a7⟩⟩
      · obtain ⟨b1, b2, b3, -⟩ := a2 w hw
        exact ⟨b1.trans (f1 w hw).1, b2.trans (f1 w hw).2.1, b3.trans (f1 w hw).2.2.1⟩
      · rw [(a2 v (hW v hv)).2.2.2]
        exact v1 v hv
  obtain ⟨o9, f9, v9, stat9⟩ := hstat
  -- the stored tensors
  obtain ⟨A10, hA10⟩ : ∃ A10, A10 = sync (normLoadPhase N) A9 := ⟨_, rfl⟩
  have r10 : ∀ v, A10 v = if v ∈ N.M.P.members then
      { A9 v with
        par := fun j =>
          if j = 0 ∧ N.M.affine then (N.g v, N.rgp)
        else if j = 1 ∧ N.M.affine then (N.b v, N.rgp)
        else if j = 2 ∧ N.batch = false then ((N.st v).mean, false)
        else if j = 3 ∧ N.batch = false then ((N.st v).var, false)
        else (A9 v).par j } else A9 v := fun v => by rw [hA10]; rfl
  have f10 : ∀ w ∈ W, (A10 w).t = (S w).t ∧ (A10 w).rg = (S w).rg ∧ (A10 w).err = (S w).err ∧ (A10 w).info = (A9 w).info := by
    intro w hw
    obtain ⟨b1, b2, b3⟩ := f9 w hw
    rw [r10]
    split <;> exact ⟨b1, b2, b3, rfl⟩
  -- the broadcasts
  obtain ⟨p11, hp11⟩ : ∃ p : Prog (NSt F) (NMsg F), p = if N.M.affine then bcastProg ca N.M.bc (parLens 0) else [] := ⟨_, rfl⟩
  obtain ⟨p12, hp12⟩ : ∃ p : Prog (NSt F) (NMsg F), p = if N.M.affine then bcastProg ca N.M.bc (parLens 1) else [] := ⟨_, rfl⟩
  obtain ⟨A11, hA11⟩ : ∃ A11, A11 = run p11 A10 := ⟨_, rfl⟩
  obtain ⟨A12, hA12⟩ : ∃ A12, A12 = run p12 A11 := ⟨_, rfl⟩
  have hpar : ProgOK W p11 A10 ∧ ProgOK W p12 A11 ∧
      (∀ w ∈ W, (A12 w).t = (S w).t ∧ (A12 w).rg = (S w).rg ∧ (A12 w).err = (S w).err ∧ (A12 w).info = (A9 w).info ∧
        (A12 w).par 2 = (A10 w).par 2 ∧ (A12 w).par 3 = (A10 w).par 3) ∧
      (N.M.affine = true → (∀ v ∈ N.M.P.members,
          bcastForward N.M.bc ⟨N.g, fun w => (S w).rg⟩ v = some ((A12 v).par 0).1 ∧
          bcastForward N.M.bc ⟨N.b, fun w => (S w).rg⟩ v = some ((A12 v).par 1).1) ∧
        ChKept N.M L t (fun v => (A12 v).str) (fun r => infoOf (parLens 1) (A11 r)) ∧
        ChKept N.M L t (fun v => (A11 v).str) (fun r => infoOf (parLens 0) (A10 r))) := by
    cases ha : N.M.affine with
    | false =>
      rw [ha] at hp11 hp12
      subst hp11 hp12
      subst hA12 hA11
      exact ⟨trivial, trivial, fun w hw => ⟨(f10 w hw).1, (f10 w hw).2.1, (f10 w hw).2.2.1, (f10 w hw).2.2.2, rfl, rfl⟩,
        fun e => by cases e⟩
    | true =>
      rw [ha] at hp11 hp12
      have hp11 : p11 = bcastProg ca N.M.bc (parLens 0) := hp11
      have hp12 : p12 = bcastProg ca N.M.bc (parLens 1) := hp12
      obtain ⟨a1, Y1, s1, a2, a3, a4⟩ := normParam_run (S := A10) (rg := fun w => (S w).rg) ca 0 hm hW (hok.gamma ha) (ρ := N.rgp)
        (fun v hv => by rw [r10, if_pos hv]; simp [ha])
      rw [← hp11, ← hA11] at a2
      rw [← hp11] at a1
      have e1 : ∀ v ∈ N.M.P.members, (A11 v).par 1 = (N.b v, N.rgp) := by
        intro v hv
        rw [a2 v (hW v hv)]
        show (A10 v).par 1 = _
        rw [r10, if_pos hv]
        simp [ha]
      obtain ⟨b1, Y2, s2, b2, b3, b4⟩ := normParam_run (S := A11) (rg := fun w => (S w).rg) ca 1 hm hW (hok.beta ha) (ρ := N.rgp) e1
      rw [← hp12, ← hA12] at b2
      rw [← hp12] at b1
      have fr : ∀ w ∈ W, (A12 w).t = (S w).t ∧ (A12 w).rg = (S w).rg ∧ (A12 w).err = (S w).err ∧ (A12 w).info = (A9 w).info ∧
          (A12 w).par 2 = (A10 w).par 2 ∧ (A12 w).par 3 = (A10 w).par 3 ∧ (A12 w).par 0 = Y1 w ∧ (A12 w).par 1 = Y2 w ∧
          (A12 w).str = s2 w ∧ (A11 w).str = s1 w := by
        intro w hw
        obtain ⟨c1, c2, c3, c4⟩ := f10 w hw
        rw [b2 w hw, a2 w hw]
        exact ⟨c1, c2, c3, c4, rfl, rfl, rfl, rfl, rfl, rfl⟩
      refine ⟨a1, b1, fun w hw => ?_, fun _ => ⟨fun v hv => ?_, ⟨fun v hv => ?_, b4.inp⟩, fun v hv => ?_, a4.inp⟩⟩
      · obtain ⟨c1, c2, c3, c4, c5, c6, -⟩ := fr w hw
        exact ⟨c1, c2, c3, c4, c5, c6⟩
      · obtain ⟨-, -, -, -, -, -, c7, c8, -⟩ := fr v (hW v hv)
        rw [c7, c8]
        exact ⟨a3 v hv, b3 v hv⟩
      · obtain ⟨-, -, -, -, -, -, -, -, c9, -⟩ := fr v (hW v hv)
        rw [c9]
        exact b4.str v hv
      · obtain ⟨-, -, -, -, -, -, -, -, -, c10⟩ := fr v (hW v hv)
        rw [c10]
        exact a4.str v hv
  obtain ⟨o11, o12, f12, par12⟩ := hpar
  have hst : ∀ v ∈ N.M.P.members, (N.batch = true → (A12 v).par 2 = (A9 v).par 2 ∧ (A12 v).par 3 = (A9 v).par 3) ∧
      (N.batch = false → ((A12 v).par 2).1 = (N.st v).mean ∧ ((A12 v).par 3).1 = (N.st v).var) := by
    intro v hv
    obtain ⟨-, -, -, -, c5, c6⟩ := f12 v (hW v hv)
    rw [c5, c6, r10, if_pos hv]
    refine ⟨fun e => ?_, fun e => ?_⟩ <;> simp [e]
  have hvals : NormVals N (channelVolume G : Nat) (fun w => (S w).t) (fun w => (S w).rg) (fun v => ((A12 v).par 2).1)
      (fun v => ((A12 v).par 3).1) (fun v => ((A12 v).par 0).1) fun v => ((A12 v).par 1).1 := by
    refine ⟨fun e v hv => ?_, fun e v hv => ?_, fun e v hv => (hst v hv).2 e, fun e v hv => ((par12 e).1 v hv).1,
      fun e v hv => ((par12 e).1 v hv).2⟩
    · rw [((hst v hv).1 e).1]
      exact ((stat9 e).1 v hv).1
    · rw [((hst v hv).1 e).2]
      exact ((stat9 e).1 v hv).2
  -- the tape
  have hcuts : normCuts c cs cb ca N = [joinProg c N.M.P (List.range N.M.P.shape.length) ++ [normCheckPhase N.M]] ++ (Q ++
      [[normLoadPhase N], p11, p12, [normApplyPhase N]]) := by
    rw [hp11, hp12, hQ]
    simp [normCuts]
  have hsn : ∀ w, snaps (normCuts c cs cb ca N) S w = [A12 w, A11 w, A10 w, A9 w] ++ (snaps Q A1 w ++ [S w]) := by
    intro w
    have e1 : run [joinProg c N.M.P (List.range N.M.P.shape.length) ++ [normCheckPhase N.M]].flatten S = A1 := by
      rw [hA1]
      simp
    rw [hcuts, snaps_append, e1, snaps_append, ← hA9, hA12, hA11, hA10]
    simp [snaps, run]
  have hrun : run (normCuts c cs cb ca N).flatten S = sync (normApplyPhase N) A12 := by
    rw [hcuts, hA12, hA11, hA10, hA9, hA1]
    simp only [List.flatten_append, List.flatten_cons, List.flatten_nil, List.append_nil, run_append]
    rfl
  have hout : ∀ v ∈ N.M.P.members, ∃ y, normOut N (S v).t ((A12 v).par 2).1 ((A12 v).par 3).1 ((A12 v).par 0).1
      ((A12 v).par 1).1 = some y ∧ y.shape = L.shapeAt (N.M.P.coord v) ∧ y.dtype = t ∧
      ∀ l, InBounds l (L.shapeAt (N.M.P.coord v)) → y.val l = (seqNorm N.sqrt N.M.eps N.M.affine gamma beta
        (seqUsed N.M.track N.training sq G) G).val (shiftBy (L.startAt (N.M.P.coord v)) l) := by
    intro v hv
    have held := hvals.held hok hm hx hv
    obtain ⟨y, ey, y1, y2, y3⟩ := hm.apply (rg := fun w => (S w).rg) N.sqrt hx hok.gamma hok.beta hv held.1 held.2
    refine ⟨y, ?_, y1, y2, y3⟩
    rw [bnApply] at ey
    obtain ⟨d, ed, ey⟩ := Option.bind_eq_some_iff.1 ey
    obtain ⟨z, ez, ey⟩ := Option.bind_eq_some_iff.1 ey
    rw [normOut, bnNormal, ed, Option.bind_some, ez, Option.bind_some]
    cases ha : N.M.affine with
    | false =>
      rw [ha] at ey
      exact ey
    | true =>
      rw [ha, if_pos rfl, ((par12 ha).1 v hv).1, ((par12 ha).1 v hv).2, Option.bind_some, Option.bind_some] at ey
      exact ey
  have hfin : ∀ v ∈ N.M.P.members, ∃ y, normOut N (S v).t ((A12 v).par 2).1 ((A12 v).par 3).1 ((A12 v).par 0).1
      ((A12 v).par 1).1 = some y ∧
      sync (normApplyPhase N) A12 v = { A12 v with t := y, rg := (A12 v).rg || (N.M.affine && N.rgp) } := by
    intro v hv
    obtain ⟨y, ey, -⟩ := hout v hv
    refine ⟨y, ey, ?_⟩
    show (if v ∈ N.M.P.members then _ else _) = _
    rw [if_pos hv, (f12 v (hW v hv)).1, ey]
  have hfin' : ∀ v, v ∉ N.M.P.members → sync (normApplyPhase N) A12 v = A12 v := fun v hv => if_neg hv
  have hone : ∀ v ∈ N.M.P.members, (sync (normApplyPhase N) A12 v).t.shape = L.shapeAt (N.M.P.coord v) ∧
      (sync (normApplyPhase N) A12 v).t.dtype = t ∧ (sync (normApplyPhase N) A12 v).rg = (ρ || (N.M.affine && N.rgp)) ∧
      ∀ l, InBounds l (L.shapeAt (N.M.P.coord v)) → (sync (normApplyPhase N) A12 v).t.val l =
        (seqNorm N.sqrt N.M.eps N.M.affine gamma beta (seqUsed N.M.track N.training sq G) G).val
          (shiftBy (L.startAt (N.M.P.coord v)) l) := by
    intro v hv
    obtain ⟨y, ey, e⟩ := hfin v hv
    obtain ⟨y', ey', y1, y2, y3⟩ := hout v hv
    obtain rfl := Option.some.inj (ey.symm.trans ey')
    rw [e]
    refine ⟨y1, y2, ?_, y3⟩
    show ((A12 v).rg || _) = _
    rw [(f12 v (hW v hv)).2.1, hrg v hv]
  have herr : ∀ w ∈ W, (sync (normApplyPhase N) A12 w).err = (S w).err := by
    intro w hw
    by_cases hmw : w ∈ N.M.P.members
    · obtain ⟨y, -, e⟩ := hfin w hmw
      rw [e]
      exact (f12 w hw).2.2.1
    · rw [hfin' w hmw]
      exact (f12 w hw).2.2.1
  refine ⟨?_, ?_, fun v hv => ?_, _, _, _, _, hvals, fun v hv => ?_, fun T hT => ?_⟩
  · have e : (normCuts c cs cb ca N).flatten = (joinProg c N.M.P (List.range N.M.P.shape.length) ++ [normCheckPhase N.M]) ++
        (Q.flatten ++ ([normLoadPhase N] ++ (p11 ++ (p12 ++ [normApplyPhase N])))) := by
      rw [hcuts]
      simp
    rw [e]
    refine progOK_append.2 ⟨o1, ?_⟩
    rw [← hA1]
    refine progOK_append.2 ⟨o9, ?_⟩
    rw [← hA9]
    refine progOK_append.2 ⟨⟨localPhase_ok _, trivial⟩, ?_⟩
    show ProgOK W _ (sync (normLoadPhase N) A9)
    rw [← hA10]
    refine progOK_append.2 ⟨o11, ?_⟩
    rw [← hA11]
    refine progOK_append.2 ⟨o12, ?_⟩
    exact ⟨localPhase_ok _, trivial⟩
  · rw [hrun]
    refine ⟨fun w hw => (herr w hw).trans (h.calm w hw), fun w hw => ?_, ⟨ρ || (N.M.affine && N.rgp), fun v hv => ?_⟩,
      fun v hv => (hone v hv).2.2.2⟩
    · by_cases hmw : w ∈ N.M.P.members
      · have e : (S w).t.shape = L.shapeAt (N.M.P.coord w) := congrArg Prod.fst (hρ w hmw)
        rw [(hone w hmw).1, ← e]
        exact h.batch w hw
      · rw [hfin' w hmw, (f12 w hw).1]
        exact h.batch w hw
    · obtain ⟨c1, c2, c3, -⟩ := hone v hv
      show (_, _, _) = _
      rw [c1, c2, c3]
  · rw [hrun, (hone v hv).2.2.1, hrg v hv]
  · obtain ⟨y, -, e⟩ := hfin v hv
    rw [hrun, e]
    exact ⟨rfl, rfl⟩
  · have tt : ∀ w ∈ W, ∃ rest, T w = [A12 w, A11 w, A10 w, A9 w] ++ (snaps Q A1 w ++ rest) := by
      intro w hw
      obtain ⟨rest, e⟩ := hT w hw
      exact ⟨[S w] ++ rest, by rw [e, hsn]; simp⟩
    have hQl : N.batch = true → Q = bothCuts cs cb N.M := fun e => by rw [hQ, e]; rfl
    have low : ∀ w ∈ W, (T w)[0]? = some (A12 w) ∧ (T w)[1]? = some (A11 w) ∧ (T w)[2]? = some (A10 w) ∧
        (T w)[3]? = some (A9 w) := by
      intro w hw
      obtain ⟨rest, e⟩ := tt w hw
      rw [e]
      exact ⟨rfl, rfl, rfl, rfl⟩
    have high : N.batch = true → ∀ w ∈ W, ∀ k < 8, (T w)[4 + k]? = (snaps (bothCuts cs cb N.M) A1 w)[k]? := by
      intro hb w hw k hk
      obtain ⟨rest, e⟩ := tt w hw
      rw [e, hQl hb, List.getElem?_append_right (by simp), List.getElem?_append_left (by
        rw [length_snaps]
        simpa [bothCuts, statCuts] using hk)]
      simp
    have hi : N.batch = true → ∀ w ∈ W, ∀ i, ∀ k < 8, parAt i (4 + k) (T w) = parAt i k (snaps (bothCuts cs cb N.M) A1 w) ∧
        strAt (4 + k) (T w) = strAt k (snaps (bothCuts cs cb N.M) A1 w) := by
      intro hb w hw i k hk
      unfold parAt strAt
      rw [high hb w hw k hk]
      exact ⟨rfl, rfl⟩
    have hsub : ∀ r ∈ N.M.Psum.members, r ∈ W := fun r hr => hW r (hm.sum.sub r hr)
    refine ⟨fun v hv => ⟨A12 v, (low v (hW v hv)).1, (f12 v (hW v hv)).1, rfl, rfl, ?_, fun _ => ⟨rfl, rfl⟩⟩,
      fun ha => ⟨fun v hv => ?_, fun r hr => ?_⟩, fun ha => ⟨fun v hv => ?_, fun r hr => ?_⟩,
      fun hb => ⟨fun v hv => ?_, fun r hr => ?_⟩, fun hb v hv => ?_, fun hb => ⟨fun v hv => ?_, fun r hr => ?_⟩, fun hb v hv => ?_⟩
    · rw [(f12 v (hW v hv)).2.2.2.1]
      exact v9 v hv
    · rw [strAt, (low v (hW v hv)).1]
      exact (par12 ha).2.1.str v hv
    · rw [parAt, (low r (hsub r hr)).2.1]
      exact (par12 ha).2.1.inp r hr
    · rw [strAt, (low v (hW v hv)).2.1]
      exact (par12 ha).2.2.str v hv
    · rw [parAt, (low r (hsub r hr)).2.2.1]
      exact (par12 ha).2.2.inp r hr
    · rw [strAt, (low v (hW v hv)).2.2.2]
      exact (stat9 hb).2.1.str v hv
    · rw [(hi hb r (hsub r hr) 3 0 (by decide)).1]
      have st9 := stat9 hb
      rw [hQl hb] at st9
      exact st9.2.1.inp r hr
    · rw [(hi hb v (hW v hv) 3 2 (by decide)).1]
      have st9 := stat9 hb
      rw [hQl hb] at st9
      exact st9.2.2.1 v hv
    · rw [(hi hb v (hW v hv) 3 3 (by decide)).2]
      have st9 := stat9 hb
      rw [hQl hb] at st9
      exact st9.2.2.2.1.str v hv
    · rw [(hi hb r (hsub r hr) 2 4 (by decide)).1]
      have st9 := stat9 hb
      rw [hQl hb] at st9
      exact st9.2.2.2.1.inp r hr
    · rw [(hi hb v (hW v hv) 2 6 (by decide)).1]
      have st9 := stat9 hb
      rw [hQl hb] at st9
      exact st9.2.2.2.2 v hv

end

end Verif.Net
