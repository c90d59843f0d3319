import Verif.Net.Loop
import Verif.Loss.Props

/-!
# Networks: a distributed loss at the end

`nn/loss.py`: the modules a loss consists of as pieces of the forward pass, and the backward pass from the loss to the
gradient of the output of the network (`Verif.Loss.Model`, here with the messages).
-/

namespace Verif.Net

variable {F β : Type} [Field F]

/-! ## Programs -/

/-- A loss with the numbers of its communicators: that of `P_x` and that of its sum-reduction; `ell` is the elementwise loss,
`dell` its derivative. -/
structure NetLoss (F : Type) where
  c : Nat
  cy : Nat
  M : LossLayer
  ell : F → F → F
  dell : F → F → F

/-- Is there a factor to be found in the setup (`loss.py:85`, `244`, `248`)? -/
def _root_.Verif.LossLayer.scaled (M : LossLayer) : Bool :=
  decide (M.reduction = "mean") || (M.kl && decide (M.reduction = "batchmean"))

/-- `loss.py:66-91`, `225-258`; `allreduce_data` as an exchange of the structures, which every worker adds up
(`NetLoss.factor`). -/
def normProg (N : NetLoss F) : Prog (NSt F) (NMsg F) :=
  if N.M.scaled then [gatherPhase N.c (fun w => decide (w ∈ N.M.P.members)) fun _ => N.M.P.members] else []

/-- The setup of the loss. -/
def normMod (N : NetLoss F) : Mod F :=
  ⟨NSt.own, fun w => decide (w ∈ N.M.P.members), fun _ => if N.M.scaled then .info else .none, normProg N, []⟩

/-- `loss.py:159-171`: the local loss with shape `(1,)`.  Simplification: workers outside `P_x` do not call the loss, they
would get an exception (C47_false). -/
def lossOpPhase (N : NetLoss F) (tgt : Nat → Tensor F) : Nat → NSt F → Phase (NSt F) (NMsg F) := localPhase fun w x =>
  if w ∈ N.M.P.members then
    match torchLoss N.ell N.M.localReduction x.t (tgt w) with
    | some l => (parLens 0).set (⟨[1], l.dtype, fun _ => l.val []⟩, x.rg) x
    | none => { x with err := true }
  else x

/-- `self.normalization_factor`. -/
def NetLoss.factor (N : NetLoss F) (x : NSt F) : Option Int := N.M.normalization fun v => (x.info v).1

/-- `loss.py:174-177`: the tensor handed to the zero-volume corrector. -/
def NetLoss.pre (N : NetLoss F) (w : Nat) (x : NSt F) : Option (Tensor F) :=
  if w ∈ N.M.P0.members then
    (N.factor x).map fun n => ⟨(x.par 0).1.shape.drop 1, (x.par 0).1.dtype, fun i => (x.par 0).1.val (0 :: i) / (n : F)⟩
  else some (x.par 0).1

/-- `loss.py:174-179`. -/
def lossEndPhase (N : NetLoss F) : Nat → NSt F → Phase (NSt F) (NMsg F) := localPhase fun w x =>
  if w ∈ N.M.P.members then
    match N.pre w x with
    | some p => (parLens 0).set (correctorForward p, (x.par 0).2) x
    | none => { x with err := true }
  else x

/-- A call of the loss: setup, local loss, sum-reduction, division and zero-volume corrector. -/
def lossMods (N : NetLoss F) (tgt : Nat → Tensor F) : List (Mod F) :=
  [normMod N, plainMod [lossOpPhase N tgt], reduceMod N.cy N.M.sumReduce (parLens 0), plainMod [lossEndPhase N]]

/-- Backward from the loss to the sum-reduction: `loss.backward()` starts with 1 (`loss.py:174-179` and
`zero_volume_corrector.py:82-87`).  The tape: before the division. -/
def NetLoss.seed (N : NetLoss F) (T : List (NSt F)) (w : Nat) (x : NSt F) : NSt F :=
  if w ∈ N.M.P.members then
    match (T[0]?).bind fun A => (N.pre w A).bind fun p => (correctorBackward p ⟨[], (x.par 0).1.dtype, fun _ => 1⟩).bind fun c =>
        if w ∈ N.M.P0.members then
          (N.factor A).map fun n => ⟨1 :: c.shape, c.dtype, fun i => if i.headD 0 = 0 then c.val (i.drop 1) / (n : F) else 0⟩
        else some c with
    | some g => (parLens 0).set (g, false) x
    | none => { x with err := true }
  else x

/-- PyTorch's gradient of the local loss.  The tape: before the local loss. -/
def NetLoss.grad (N : NetLoss F) (tgt : Nat → Tensor F) (T : List (NSt F)) (w : Nat) (x : NSt F) : NSt F :=
  if w ∈ N.M.P.members then
    match T[2]? with
    | some A => { x with
        t := torchLossGrad N.dell N.M.localReduction A.t (tgt w) ⟨[], (x.par 0).1.dtype, fun _ => (x.par 0).1.val [0]⟩ }
    | none => { x with err := true }
  else x

/-- The backward pass of a loss. -/
def lossBack (N : NetLoss F) (tgt : Nat → Tensor F) : CProg (List (NSt F)) (NSt F) (NMsg F) :=
  (fun T => localPhase (N.seed T)) :: (reduceBack N.cy N.M.sumReduce (parLens 0) (parAt 0 1) ++
    [fun T => localPhase (N.grad tgt T)])

/-! ## Forward -/

variable {W : List Nat} {P : Cart} {K : Layout} {t : TorchDtype} {S : Nat → NSt F} {Z : List Nat → F} {N : NetLoss F}
  {tgt : Nat → Tensor F} {T : Tensor F} {kl : Bool} {red : String} {w0 : Nat}

omit [Field F] in
theorem Holds.asBlocks (h : Holds W P K t Z S) : Blocks P K ⟨K.global, t, Z⟩ fun w => (S w).t := by
  obtain ⟨rg, hp⟩ := h.parts
  exact ⟨rfl, fun w hw => congrArg Prod.fst (hp w hw), fun w hw => congrArg (·.2.1) (hp w hw), h.data⟩

omit [Field F] in
theorem normalization_congr {M : LossLayer} {sh sh' : Nat → List Nat} (h : M.scaled = true → ∀ v ∈ M.P.members, sh v = sh' v) :
    M.normalization sh = M.normalization sh' := by
  unfold LossLayer.normalization allreduceData
  unfold LossLayer.scaled at h
  split
  · next e =>
    have h := h (by simp [e])
    rw [List.map_congr_left fun v hv => by rw [h v hv]]
  · split
    · next e =>
      have h := h (by simp [e])
      rw [List.map_congr_left fun v hv => by rw [h v hv]]
    · rfl

/-- The states between the steps of a call. -/
structure LossRun (W : List Nat) (P : Cart) (K : Layout) (t : TorchDtype) (Z : List Nat → F) (N : NetLoss F)
    (tgt : Nat → Tensor F) (T : Tensor F) (red : String) (w0 : Nat) (S S1 S2 S3 S4 : Nat → NSt F) : Prop where
  frame : Frame W S S1
  op : ∀ w ∈ P.members, infoOf (parLens 0) (S2 w) = ([1], t, (S w).rg)
  factor : ∀ w ∈ P.members, N.factor (S3 w) = some ((lossDivisor red K.global : Nat) : Int)
  root : N.pre w0 (S3 w0) = some ⟨[], t, fun _ =>
    (boxSum K.global fun i => N.ell (Z i) (T.val i)) / ((lossDivisor red K.global : Nat) : F)⟩
  other : ∀ w ∈ P.members, w ≠ w0 → ∃ z, N.pre w (S3 w) = some z ∧ z.shape.prod = 0
  calm2 : ∀ w ∈ W, (S2 w).err = (S w).err
  calm : ∀ w ∈ W, (S4 w).err = (S w).err
  same : ∀ w ∈ W, (S4 w).t = (S w).t
  dtype : ((S4 w0).par 0).1 = ⟨[], t, fun _ =>
    (boxSum K.global fun i => N.ell (Z i) (T.val i)) / ((lossDivisor red K.global : Nat) : F)⟩
  zeros : ∀ w ∈ P.members, w ≠ w0 → ((S4 w).par 0).1 = ⟨[], .float32, fun _ => 0⟩

omit [Field F] in
theorem norm_run (hP : N.M.P = P) (hW : ∀ w ∈ P.members, w ∈ W) (S : Nat → NSt F) :
    ProgOK W (normProg N) S ∧ Frame W S (run (normProg N) S) ∧
    (N.M.scaled = true → ∀ w ∈ P.members, ∀ v ∈ P.members, (run (normProg N) S w).info v = (S v).own) ∧
    ∀ w, w ∉ P.members → w ∈ W → run (normProg N) S w = S w := by
  subst hP
  unfold normProg
  have hg := grouped_const (W := W) hW (deps := N.M.P.members) fun _ h => h
  cases N.M.scaled with
  | false => exact ⟨trivial, Frame.refl W S, (fun h => absurd h (by simp)), fun _ _ _ => rfl⟩
  | true =>
    rw [if_pos rfl]
    obtain ⟨h1, h2⟩ := gather_quiet (c := N.c) hg S
    refine ⟨⟨h1, trivial⟩, h2, fun _ w hw v hv => ?_, fun w hw hww => ?_⟩
    · show (sync (gatherPhase N.c _ _) S w).info v = _
      rw [gatherPhase, collPhase_sync hg (hW w hw), if_pos (by simpa using hw)]
      dsimp only
      rw [if_pos hv, List.getElem?_map, List.getElem?_idxOf hv]
      rfl
    · show sync (gatherPhase N.c _ _) S w = _
      rw [gatherPhase, collPhase_sync hg hww, if_neg (by simpa using hw)]

theorem loss_run (h : Verif.Placed P K) (hM : Made P kl red N.M w0) (hn : red ≠ "none") (hW : ∀ w ∈ P.members, w ∈ W)
    (hS : Holds W P K t Z S) (ht : Blocks P K T tgt) :
    ProgOK W ((lossMods N tgt).map Mod.prog).flatten S ∧ ∃ S1 S2 S3 S4, 
      (∀ w, snaps ((lossMods N tgt).map Mod.prog) S w = [S3 w, S2 w, S1 w, S w]) ∧
      run ((lossMods N tgt).map Mod.prog).flatten S = S4 ∧
      LossRun W P K t Z N tgt T red w0 S S1 S2 S3 S4 := by
  have hP : N.M.P = P := by rw [hM.eq]
  have hP0 : N.M.P0.members = [w0] := by rw [hM.eq]
  have hPx : N.M.sumReduce.Px = P := by rw [hM.eq]; rfl
  have hPy : N.M.sumReduce.Py.members = [w0] := hP0
  have ep : (lossMods N tgt).map Mod.prog = [normProg N, [lossOpPhase N tgt], reduceProg N.cy N.M.sumReduce (parLens 0),
      [lossEndPhase N]] := by
    simp only [lossMods, List.map_cons, List.map_nil, plainMod_prog, reduceMod_prog]
    simp [Mod.prog, normMod]
  rw [ep]
  obtain ⟨o1, f1, i1, u1⟩ := norm_run (N := N) hP hW S
  obtain ⟨S1, hS1⟩ : ∃ S1, S1 = run (normProg N) S := ⟨_, rfl⟩
  rw [← hS1] at f1 i1 u1
  obtain ⟨rg, hrg⟩ := hS.parts
  -- the local loss
  obtain ⟨S2, hS2⟩ : ∃ S2, S2 = sync (lossOpPhase N tgt) S1 := ⟨_, rfl⟩
  have e2 : ∀ w ∈ P.members, S2 w = (parLens 0).set (⟨[1], t, fun _ => boxSum (K.shapeAt (P.coord w)) fun l =>
      N.ell (Z (shiftBy (K.startAt (P.coord w)) l)) (T.val (shiftBy (K.startAt (P.coord w)) l))⟩, rg) (S1 w) := by
    intro w hw
    have hl := hM.local_value (ell := N.ell) hn hS.asBlocks ht hw
    unfold LossLayer.localLoss at hl
    rw [hS2]
    show (if w ∈ N.M.P.members then _ else _) = _
    rw [hP, if_pos hw, (f1 w (hW w hw)).1, hl, (f1 w (hW w hw)).2.1]
    have : (S w).rg = rg := congrArg (·.2.2) (hrg w hw)
    rw [this]
  have n2 : ∀ w, w ∉ P.members → S2 w = S1 w := by
    intro w hw
    rw [hS2]
    show (if w ∈ N.M.P.members then _ else _) = _
    rw [hP, if_neg hw]
  have k2 : ∀ w ∈ P.members, infoOf (parLens 0) (S2 w) = ([1], t, rg) := by
    intro w hw
    rw [e2 w hw]
    unfold infoOf
    rw [(parLens 0).get_set]
  -- the sum
  obtain ⟨o3, Y, s, r3, y1, y2, y3⟩ := reduce_run (W := W) (S := S2) (ℓ := parLens 0) N.cy (hM.reduceLayer h) (by rw [hPx]; exact hW)
    (by rw [hPy]; simpa using hW w0 hM.mem) (slot_par 0) (fun hb => by
      intro u hu
      have hu : u ∈ P.members := by
        rw [hPx, hPy] at hu
        rcases hu with hu | hu
        · exact hu
        · rw [List.mem_singleton.1 hu]; exact hM.mem
      have := k2 u hu
      have e : (((parLens 0).get (S2 u)).1.shape) = [1] := congrArg Prod.fst this
      rw [e]
      simp) (i := fun _ => ([1], t, rg)) (by rw [hPx]; exact k2)
  obtain ⟨S3, hS3⟩ : ∃ S3, S3 = run (reduceProg N.cy N.M.sumReduce (parLens 0)) S2 := ⟨_, rfl⟩
  rw [← hS3] at r3
  have hroot : ∀ v ∈ P.members, N.M.sumReduce.rroot v = w0 := by
    intro v hv
    have := (hM.reduceLayer h).root_mem (v := v) (by rw [hPx]; exact hv)
    rw [hPy] at this
    exact List.mem_singleton.1 this
  have yr : Y w0 = (⟨[1], t, fun _ => boxSum K.global fun i => N.ell (Z i) (T.val i)⟩, rg) := by
    rw [y1 w0 (by rw [hPy]; simp), hPx]
    rw [List.filter_eq_self.2 fun v hv => decide_eq_true (hroot v hv)]
    congr 2
    funext j
    rw [← members_sum h.wf h.layout fun i => N.ell (Z i) (T.val i)]
    congr 1
    refine List.map_congr_left fun v hv => ?_
    rw [e2 v hv, (parLens 0).get_set]
  have i3 : ∀ w ∈ P.members, (S3 w).info = (S1 w).info := by
    intro w hw
    rw [r3 w (hW w hw), e2 w hw]
    rfl
  have p3 : ∀ w ∈ P.members, (S3 w).par 0 = Y w := by
    intro w hw
    rw [r3 w (hW w hw)]
    exact (parLens 0).get_set _ _
  have factor : ∀ w ∈ P.members, N.factor (S3 w) = some ((lossDivisor red K.global : Nat) : Int) := by
    intro w hw
    rw [← hM.norm h hS.asBlocks]
    unfold NetLoss.factor
    refine normalization_congr fun hsc v hv => ?_
    rw [hP] at hv
    rw [i3 w hw, i1 hsc w hw v hv]
    rfl
  have root : N.pre w0 (S3 w0) = some ⟨[], t, fun _ =>
      (boxSum K.global fun i => N.ell (Z i) (T.val i)) / ((lossDivisor red K.global : Nat) : F)⟩ := by
    unfold NetLoss.pre
    rw [if_pos (by rw [hP0]; simp), factor w0 hM.mem, p3 w0 hM.mem, yr]
    simp
  have other : ∀ w ∈ P.members, w ≠ w0 → ∃ z, N.pre w (S3 w) = some z ∧ z.shape.prod = 0 := by
    intro w hw hne
    refine ⟨(Y w).1, ?_, (y2 w (by rw [hPx]; exact hw) (by rw [hPy]; simpa using hne)).prod⟩
    unfold NetLoss.pre
    rw [if_neg (by rw [hP0]; simpa using hne), p3 w hw]
  -- the end
  obtain ⟨S4, hS4⟩ : ∃ S4, S4 = sync (lossEndPhase N) S3 := ⟨_, rfl⟩
  have e4 : ∀ w ∈ P.members, ∀ p, N.pre w (S3 w) = some p →
      S4 w = (parLens 0).set (correctorForward p, ((S3 w).par 0).2) (S3 w) := by
    intro w hw p hp
    rw [hS4]
    show (if w ∈ N.M.P.members then _ else _) = _
    rw [hP, if_pos hw, hp]
  have n4 : ∀ w, w ∉ P.members → S4 w = S3 w := by
    intro w hw
    rw [hS4]
    show (if w ∈ N.M.P.members then _ else _) = _
    rw [hP, if_neg hw]
  have keep : ∀ w ∈ W, (S4 w).err = (S w).err ∧ (S4 w).t = (S w).t := by
    intro w hw
    have h3 : (S3 w).err = (S2 w).err ∧ (S3 w).t = (S2 w).t := by rw [r3 w hw]; exact ⟨rfl, rfl⟩
    have h2 : (S2 w).err = (S1 w).err ∧ (S2 w).t = (S1 w).t := by
      by_cases hm : w ∈ P.members
      · rw [e2 w hm]; exact ⟨rfl, rfl⟩
      · rw [n2 w hm]; exact ⟨rfl, rfl⟩
    have h4 : (S4 w).err = (S3 w).err ∧ (S4 w).t = (S3 w).t := by
      by_cases hm : w ∈ P.members
      · obtain ⟨p, hp⟩ : ∃ p, N.pre w (S3 w) = some p := by
          by_cases e : w = w0
          · rw [e]; exact ⟨_, root⟩
          · obtain ⟨z, hz, -⟩ := other w hm e
            exact ⟨z, hz⟩
        rw [e4 w hm p hp]
        exact ⟨rfl, rfl⟩
      · rw [n4 w hm]; exact ⟨rfl, rfl⟩
    exact ⟨h4.1.trans (h3.1.trans (h2.1.trans (f1 w hw).2.2.1)), h4.2.trans (h3.2.trans (h2.2.trans (f1 w hw).1))⟩
  refine ⟨?_, S1, S2, S3, S4, fun w => ?_, ?_, ⟨f1, fun w hw => ?_, factor, root, other, ?_, ?_, ?_, ?_, ?_⟩⟩
  · show ProgOK W (normProg N ++ (_ :: (reduceProg N.cy N.M.sumReduce (parLens 0) ++ [lossEndPhase N]))) S
    rw [progOK_append, ← hS1]
    refine ⟨o1, localPhase_ok _, ?_⟩
    rw [← hS2, progOK_append]
    exact ⟨o3, localPhase_ok _, trivial⟩
  · simp only [snaps, hS3, hS2, hS1]
    rfl
  · show run (normProg N ++ (_ :: (reduceProg N.cy N.M.sumReduce (parLens 0) ++ [lossEndPhase N]))) S = _
    rw [run_append, ← hS1]
    show run (reduceProg N.cy N.M.sumReduce (parLens 0) ++ [lossEndPhase N]) (sync (lossOpPhase N tgt) S1) = _
    rw [← hS2, run_append, ← hS3, hS4]
    rfl
  · rw [k2 w hw, ← show (S w).rg = rg from congrArg (·.2.2) (hrg w hw)]
  · intro w hw
    refine Eq.trans ?_ (f1 w hw).2.2.1
    by_cases hm : w ∈ P.members
    · rw [e2 w hm]; rfl
    · rw [n2 w hm]
  · exact fun w hw => (keep w hw).1
  · exact fun w hw => (keep w hw).2
  · rw [e4 w0 hM.mem _ root]
    refine (congrArg Prod.fst ((parLens 0).get_set _ (S3 w0))).trans ?_
    rw [correctorForward, if_neg (by simp)]
  · intro w hw hne
    obtain ⟨z, hz, hz0⟩ := other w hw hne
    rw [e4 w hw _ hz]
    refine (congrArg Prod.fst ((parLens 0).get_set _ (S3 w))).trans ?_
    rw [correctorForward, if_pos hz0]

/-! ## Backward -/

theorem torchLossGrad_value (dell : F → F → F) (hn : red ≠ "none") (hr : red ∈ validReductions kl) (x y : Tensor F) (d : TorchDtype)
    (i : List Nat) : (torchLossGrad dell red x y ⟨[], d, fun _ => 1⟩).val i =
      1 / ((lossDivisor red x.shape : Nat) : F) * dell (x.val i) (y.val i) := by
  rcases validReductions_mem hr with rfl | rfl | rfl | ⟨rfl, rfl⟩
  · exact absurd rfl hn
  · simp [torchLossGrad, lossDivisor]
  · simp [torchLossGrad, lossDivisor]
  · simp [torchLossGrad, lossDivisor]

theorem lossBack_run {S1 S2 S3 S4 : Nat → NSt F} {T' : Nat → List (NSt F)} (h : Verif.Placed P K) (hM : Made P kl red N.M w0)
    (hn : red ≠ "none") (hW : ∀ w ∈ P.members, w ∈ W) (hS : Holds W P K t Z S) (ht : Blocks P K T tgt)
    (R : LossRun W P K t Z N tgt T red w0 S S1 S2 S3 S4) (hT : ∀ w ∈ W, ∃ rest, T' w = [S3 w, S2 w, S1 w, S w] ++ rest) :
    ProgOK W ((lossBack N tgt).at T') S4 ∧
    HoldsG W P K t (torchLossGrad N.dell red ⟨K.global, t, Z⟩ T ⟨[], t, fun _ => 1⟩).val (run ((lossBack N tgt).at T') S4) := by
  have hP : N.M.P = P := by rw [hM.eq]
  have hP0 : N.M.P0.members = [w0] := by rw [hM.eq]
  have hPx : N.M.sumReduce.Px = P := by rw [hM.eq]; rfl
  have hPy : N.M.sumReduce.Py.members = [w0] := hP0
  have hT0 : ∀ w ∈ W, (T' w)[0]? = some (S3 w) ∧ parAt 0 1 (T' w) = infoOf (parLens 0) (S2 w) ∧ (T' w)[2]? = some (S1 w) := by
    intro w hw
    obtain ⟨rest, e⟩ := hT w hw
    rw [e]
    exact ⟨rfl, rfl, rfl⟩
  -- from the loss
  obtain ⟨G1, hG1⟩ : ∃ G1, G1 = sync (localPhase (μ := NMsg F) fun w => N.seed (T' w) w) S4 := ⟨_, rfl⟩
  have g1 : ∀ w ∈ P.members, ∃ g, G1 w = (parLens 0).set (g, false) (S4 w) ∧ g.shape ≠ [] ∧
      (w = w0 → g.shape = [1] ∧ g.dtype = t ∧ g.val [0] = 1 / ((lossDivisor red K.global : Nat) : F)) := by
    intro w hw
    have e : G1 w = N.seed (T' w) w (S4 w) := by rw [hG1]; rfl
    rw [NetLoss.seed, hP, if_pos hw, (hT0 w (hW w hw)).1, Option.bind_some] at e
    by_cases hne : w = w0
    · subst hne
      rw [R.root, Option.bind_some, correctorBackward, if_neg (by simp), Option.bind_some, if_pos (by rw [hP0]; simp),
        R.factor w hw, R.dtype] at e
      exact ⟨_, e, by simp, fun _ => ⟨rfl, rfl, by simp⟩⟩
    · obtain ⟨z, hz, h0⟩ := R.other w hw hne
      obtain ⟨b, s, hs⟩ : ∃ b s, z.shape = b :: s := by
        cases hs : z.shape with
        | nil => rw [hs] at h0; simp at h0
        | cons b s => exact ⟨b, s, rfl⟩
      rw [hz, Option.bind_some, correctorBackward, if_pos h0] at e
      simp only [hs] at e
      rw [Option.bind_some, if_neg (by rw [hP0]; simpa using hne)] at e
      exact ⟨_, e, by simp, fun h => absurd h hne⟩
  have g1n : ∀ w, w ∉ P.members → G1 w = S4 w := by
    intro w hw
    have e : G1 w = N.seed (T' w) w (S4 w) := by rw [hG1]; rfl
    rw [e, NetLoss.seed, hP, if_neg hw]
  have hroot : ∀ v ∈ P.members, N.M.sumReduce.rroot v = w0 := by
    intro v hv
    have := (hM.reduceLayer h).root_mem (v := v) (by rw [hPx]; exact hv)
    rw [hPy] at this
    exact List.mem_singleton.1 this
  -- the adjoint of the sum
  obtain ⟨g0, e0, -, q0⟩ := g1 w0 hM.mem
  obtain ⟨q1, q2, q3⟩ := q0 rfl
  obtain ⟨o2, Y, r2, y1, -, y3⟩ := reduceBack_run (W := W) (S := G1) (T := T') (ℓ := parLens 0) N.cy (hM.reduceLayer h)
    (by rw [hPx]; exact hW) (by rw [hPy]; simpa using hW w0 hM.mem) (fun _ u hu => by
      have hu : u ∈ P.members := by
        rw [hPx, hPy] at hu
        rcases hu with hu | hu
        · exact hu
        · rw [List.mem_singleton.1 hu]; exact hM.mem
      obtain ⟨g, e, hg, -⟩ := g1 u hu
      show ((parLens 0).get (G1 u)).1.shape ≠ []
      rw [e, (parLens 0).get_set]
      exact hg) (buf := parAt 0 1) (by
        rw [hPx]
        intro v hv
        rw [(hT0 v (hW v hv)).2.1, R.op v hv, hroot v hv, e0]
        unfold infoOf
        rw [(parLens 0).get_set]
        exact ⟨q1.symm, q2.symm⟩)
  obtain ⟨G2, hG2⟩ : ∃ G2, G2 = run ((reduceBack N.cy N.M.sumReduce (parLens 0) (parAt 0 1)).at T') G1 := ⟨_, rfl⟩
  rw [← hG2] at r2
  have p2 : ∀ w ∈ P.members, ((G2 w).par 0).1 = g0 := by
    intro w hw
    rw [r2 w (hW w hw)]
    refine (congrArg Prod.fst ((parLens 0).get_set _ (G1 w))).trans ?_
    rw [y1 w (by rw [hPx]; exact hw), hroot w hw, e0, (parLens 0).get_set]
  have k2 : ∀ w ∈ W, (G2 w).err = (S w).err ∧ (G2 w).t = (S w).t := by
    intro w hw
    have h1 : (G1 w).err = (S4 w).err ∧ (G1 w).t = (S4 w).t := by
      by_cases hm : w ∈ P.members
      · obtain ⟨g, e, -⟩ := g1 w hm
        rw [e]; exact ⟨rfl, rfl⟩
      · rw [g1n w hm]; exact ⟨rfl, rfl⟩
    rw [r2 w hw]
    exact ⟨h1.1.trans (R.calm w hw), h1.2.trans (R.same w hw)⟩
  -- the local loss
  obtain ⟨G3, hG3⟩ : ∃ G3, G3 = sync (localPhase (μ := NMsg F) fun w => N.grad tgt (T' w) w) G2 := ⟨_, rfl⟩
  have g3 : ∀ w ∈ P.members, G3 w = { G2 w with
      t := torchLossGrad N.dell "sum" (S w).t (tgt w) ⟨[], g0.dtype, fun _ => g0.val [0]⟩ } := by
    intro w hw
    have e : G3 w = N.grad tgt (T' w) w (G2 w) := by rw [hG3]; rfl
    rw [NetLoss.grad, hP, if_pos hw, (hT0 w (hW w hw)).2.2] at e
    dsimp only at e
    rw [e, p2 w hw, hM.localReduction hn, (R.frame w (hW w hw)).1]
  have g3n : ∀ w, w ∉ P.members → G3 w = G2 w := by
    intro w hw
    have e : G3 w = N.grad tgt (T' w) w (G2 w) := by rw [hG3]; rfl
    rw [e, NetLoss.grad, hP, if_neg hw]
  have er : run ((lossBack N tgt).at T') S4 = G3 := by
    rw [lossBack]
    show run (CProg.at (_ ++ _) T') (sync (localPhase (μ := NMsg F) fun w => N.seed (T' w) w) S4) = _
    rw [← hG1, CProg.at_append, run_append, ← hG2, hG3]
    rfl
  constructor
  · rw [lossBack]
    refine ⟨localPhase_ok _, ?_⟩
    show ProgOK W (CProg.at (_ ++ _) T') (sync (localPhase (μ := NMsg F) fun w => N.seed (T' w) w) S4)
    rw [← hG1, CProg.at_append, progOK_append]
    exact ⟨o2, localPhase_ok _, trivial⟩
  · rw [er]
    have hb := hS.asBlocks
    refine ⟨fun w hw => ?_, fun w hw => ?_, fun w hw => ?_, fun w hw l hl => ?_⟩
    · by_cases hm : w ∈ P.members
      · rw [g3 w hm]
        exact (k2 w hw).1.trans (hS.calm w hw)
      · rw [g3n w hm]
        exact (k2 w hw).1.trans (hS.calm w hw)
    · by_cases hm : w ∈ P.members
      · rw [g3 w hm]
        exact hS.batch w hw
      · rw [g3n w hm, (k2 w hw).2]
        exact hS.batch w hw
    · rw [g3 w hw]
      exact ⟨hb.shape w hw, hb.dtype w hw⟩
    · rw [g3 w hw, torchLossGrad_value N.dell hn hM.valid]
      show g0.val [0] * N.dell ((S w).t.val l) ((tgt w).val l) = _
      rw [q3, hS.data w hw l hl, ht.val w hw l hl]

end Verif.Net
