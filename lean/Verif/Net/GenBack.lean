import Verif.Net.ChanBack

/-!
# Networks: backward of the general convolution

Autograd goes through `conv_general.py:536-589` in reverse order: sum-reduction, local convolution, broadcast of the
input, broadcasts of bias and weight, selection, halo exchange, padding.
-/

namespace Verif.Net

variable {F β : Type}

/-- A program that uses the tape from entry `k` on. -/
def CProg.from (k : Nat) (prog : CProg (List (NSt F)) (NSt F) (NMsg F)) : CProg (List (NSt F)) (NSt F) (NMsg F) :=
  prog.map fun ph T => ph (T.drop k)

theorem CProg.from_at (k : Nat) (prog : CProg (List (NSt F)) (NSt F) (NMsg F)) (T : Nat → List (NSt F)) :
    (prog.from k).at T = prog.at fun u => (T u).drop k := by
  simp only [CProg.from, CProg.at, List.map_map]
  rfl

/-- The stored parameter `i` (`conv_general.py:303-345`), as `storedProg` loads it. -/
def storedLoad [AddCommMonoid F] (P Q : Cart) (i : Nat) (a : Nat → Tensor F) (rg : Bool) : Nat → NSt F → Phase (NSt F) (NMsg F) :=
  localPhase fun w x => if w ∈ Q.members then (parLens i).set ((storedParam P a rg).x w, rg) x else x

/-- The forward pass of `conv_general.py:536-589` with its setup, cut. -/
def genCuts [AddCommMonoid F] [Mul F] (c cw cb cx cy : Nat) (C : ChanConv) (weight bias : Nat → Tensor F) (rgp : Bool) (B : Bufs β) :
    List (Prog (NSt F) (NMsg F)) :=
  match castPartitions false C.Px C.Py C.Pw with
  | none => [failProg C.union]
  | some (x, y) =>
    if C.Pw.members.length = 1 then [serialConvProg C (fun w => (weight w).val) (fun w => (bias w).val) rgp]
    else
      match weightRoot C.Pw, biasPart C.Pw, biasRoot C.Pw with
      | some Pwr, some Pb, some Pbr =>
        [setupPartProg c x C.union, exchangeProg c x C.W 0 B, [winOpPhase x C.W 0 neededOp],
          [storedLoad Pwr C.Pw 0 weight rgp], bcastProg cw (paramLayer Pwr C.Pw) (parLens 0)] ++
        ((if C.useBias then [[storedLoad Pbr Pb 1 bias rgp], bcastProg cb (paramLayer Pbr Pb) (parLens 1)] else []) ++
          stackCuts cx cy (chanBroadcast x C.Pw) (chanReduce C.Pw y) (genOp C Pb))
      | _, _, _ => [failProg C.union]

theorem genCuts_flatten [AddCommMonoid F] [Mul F] (c cw cb cx cy : Nat) (C : ChanConv) (weight bias : Nat → Tensor F) (rgp : Bool)
    (B : Bufs β) : (genCuts c cw cb cx cy C weight bias rgp B).flatten = genProg c cw cb cx cy C weight bias rgp B := by
  unfold genCuts genProg
  rcases castPartitions false C.Px C.Py C.Pw with _ | ⟨x, y⟩
  · simp
  · simp only
    by_cases e : C.Pw.members.length = 1
    · rw [if_pos e, if_pos e]
      simp
    · rw [if_neg e, if_neg e]
      rcases weightRoot C.Pw with _ | Pwr
      · simp
      · rcases biasPart C.Pw with _ | Pb
        · simp
        · rcases biasRoot C.Pw with _ | Pbr
          · simp
          · by_cases hb : C.useBias = true <;> simp [hb, storedProg, storedLoad, stackCuts, stackProgS]

section
variable [CommSemiring F]

/-- Gradients of the local layer of worker `w` (`conv_general.py:570-585`): the layer has a bias where one is received. -/
def genOpGrad (C : ChanConv) (Pb : Cart) (w : Nat) (K : NSt F) : NSt F → NSt F :=
  convGrads C.W.noPad C.groups ((C.localChannels w).getD 1 0) ((C.localChannels w).getD 0 0) (K.par 0).1 (K.par 1).1
    (decide (w ∈ Pb.members) && C.useBias) K

/-- Backward of `conv_general.py:536-589`.  The tape, with bias: before the sum-reduction (0), the local layer (1), the
broadcast of the input (2), the broadcast of the bias (3), its loading (4), the broadcast of the weight (5), its loading
(6), the selection (7). -/
def genBack (c cw cb cx cy : Nat) (C : ChanConv) (weight bias : Nat → Tensor F) (B : Bufs β) :
    CProg (List (NSt F)) (NSt F) (NMsg F) :=
  match castPartitions false C.Px C.Py C.Pw with
  | none => (failProg C.union).map fun ph _ => ph
  | some (x, y) =>
    if C.Pw.members.length = 1 then serialConvBack C weight bias
    else
      match weightRoot C.Pw, biasPart C.Pw, biasRoot C.Pw with
      | some Pwr, some Pb, some Pbr =>
        stackBackProg cx cy (chanBroadcast x C.Pw) (chanReduce C.Pw y) (genOpGrad C Pb) ++
        ((if C.useBias then bcastBack cb (paramLayer Pbr Pb) (parLens 1) (strAt 2) (parAt 1 3) ++
            bcastBack cw (paramLayer Pwr C.Pw) (parLens 0) (strAt 4) (parAt 0 5)
          else bcastBack cw (paramLayer Pwr C.Pw) (parLens 0) (strAt 2) (parAt 0 3)) ++
        (winBack c x C.W 0 B (fun _ _ y => y.val) (fun _ _ _ p => p)).from (if C.useBias then 7 else 5))
      | _, _, _ => (failProg C.union).map fun ph _ => ph

/-- The gradients of the layer's parameters: every worker that stores a parameter has, in the shape of its parameter, its
block of the gradient of the sequential convolution; the others that receive one have tensors without entries. -/
structure GenGrads (C : ChanConv) (Po Pi : Nat) (weight bias : Nat → Tensor F) (shape : List Nat) (X Y : List Nat → F)
    (gr : Nat → Nat → Tensor F) : Prop where
  weight : ∀ v ∈ C.Pw.members, (∀ i ∈ (C.Pw.coord v).drop 2, i = 0) → (gr v 0).shape = (weight v).shape ∧
    ∀ k < subsize Po ((C.Pw.coord v).getD 0 0) C.Co, ∀ c < subsize Pi ((C.Pw.coord v).getD 1 0) C.Ci,
      ∀ κ, InBounds κ C.W.k → (gr v 0).val (k :: c :: κ) = torchConvGradW C.W 1 C.Ci C.Co shape X Y
        ((startIdx Po ((C.Pw.coord v).getD 0 0) C.Co + k) :: (startIdx Pi ((C.Pw.coord v).getD 1 0) C.Ci + c) :: κ)
  bias : C.useBias = true → ∀ v ∈ C.Pw.members, (∀ i ∈ (C.Pw.coord v).drop 1, i = 0) → (gr v 1).shape = (bias v).shape ∧
    ∀ k < subsize Po ((C.Pw.coord v).getD 0 0) C.Co, (gr v 1).val [k] =
      torchConvGradB C.W C.Co shape Y [startIdx Po ((C.Pw.coord v).getD 0 0) C.Co + k]
  others : ∀ v ∈ C.Pw.members, (¬ (∀ i ∈ (C.Pw.coord v).drop 2, i = 0) → (gr v 0).shape.prod = 0) ∧
    (C.useBias = true → (C.Pw.coord v).getD 1 0 = 0 → ¬ (∀ i ∈ (C.Pw.coord v).drop 1, i = 0) → (gr v 1).shape.prod = 0)

end

section
variable [AddCommMonoid F] {W : List Nat} {P Q : Cart} {S G : Nat → NSt F} {T : Nat → List (NSt F)}

/-- The broadcast of a stored parameter: what is on the tape. -/
theorem stored_tape (c i : Nat) (a : Nat → Tensor F) (rg : Bool) (hL : BcastLayer (paramLayer P Q))
    (hPQ : ∀ w ∈ P.members, w ∈ Q.members) (hW : ∀ w ∈ Q.members, w ∈ W) (S : Nat → NSt F) :
    (∀ w ∈ P.members, infoOf (parLens i) (sync (storedLoad P Q i a rg) S w) = ((a w).shape, (a w).dtype, rg)) ∧
    (∀ v ∈ Q.members, (run (storedProg c P Q i a rg) S v).par i = (a ((paramLayer P Q).broot v), rg)) ∧
    ((paramLayer P Q).identity = false → ∀ v ∈ Q.members, (run (storedProg c P Q i a rg) S v).str =
      ((a ((paramLayer P Q).broot v)).shape, (a ((paramLayer P Q).broot v)).dtype, rg)) := by
  obtain ⟨S1, hS1⟩ : ∃ S1, S1 = sync (storedLoad P Q i a rg) S := ⟨_, rfl⟩
  have r1 : ∀ w, S1 w = if w ∈ Q.members then (parLens i).set ((storedParam P a rg).x w, rg) (S w) else S w :=
    fun w => by rw [hS1]; rfl
  have e1 : ∀ w ∈ P.members, (parLens i).get (S1 w) = (a w, rg) := by
    intro w hw
    rw [r1, if_pos (hPQ w hw), (parLens i).get_set]
    simp [storedParam, hw]
  have e2 : ∀ w ∈ P.members, infoOf (parLens i) (S1 w) = ((a w).shape, (a w).dtype, rg) := by
    intro w hw
    unfold infoOf
    rw [e1 w hw]
  obtain ⟨o2, Y, s, r2, y1, y2, y3, hs⟩ := bcast_run (S := S1) (ℓ := parLens i) c hL
    (fun w hw => hW w (hPQ w hw)) hW (slot_par i) (fun h => by simp [paramLayer] at h)
  have hrun : ∀ w, run (storedProg c P Q i a rg) S w = run (bcastProg c (paramLayer P Q) (parLens i)) S1 w := by
    intro w
    rw [hS1]
    rfl
  refine ⟨fun w hw => hS1 ▸ e2 w hw, fun v hv => ?_, fun hid v hv => ?_⟩
  · rw [hrun, r2 v (hW v hv)]
    show (parLens i).get ((parLens i).set (Y v) (S1 v)) = _
    rw [(parLens i).get_set, y1 v hv, e1 _ (hL.root_mem hv)]
  · rw [hrun, r2 v (hW v hv)]
    show s v = _
    rw [hs hid v hv, e2 _ (hL.root_mem hv)]

/-- The adjoint of the broadcast of a stored parameter: every storing worker gets the sum over the workers it sends to. -/
theorem storedBack_run (c i js jp : Nat) (a : Nat → Tensor F) (rg : Bool) (hL : BcastLayer (paramLayer P Q))
    (hPQ : ∀ w ∈ P.members, w ∈ Q.members) (hW : ∀ w ∈ Q.members, w ∈ W) (gw : Nat → List Nat → F)
    (hg : ∀ v ∈ Q.members, ((G v).par i).1 =
      ⟨(a ((paramLayer P Q).broot v)).shape, (a ((paramLayer P Q).broot v)).dtype, gw v⟩)
    (hs : (paramLayer P Q).identity = false → ∀ v ∈ Q.members, strAt js (T v) =
      ((a ((paramLayer P Q).broot v)).shape, (a ((paramLayer P Q).broot v)).dtype, rg))
    (hp : ∀ r ∈ P.members, parAt i jp (T r) = ((a r).shape, (a r).dtype, rg)) :
    ProgOK W ((bcastBack c (paramLayer P Q) (parLens i) (strAt js) (parAt i jp)).at T) G ∧
    (∀ w ∈ W, (run ((bcastBack c (paramLayer P Q) (parLens i) (strAt js) (parAt i jp)).at T) G w).t = (G w).t ∧
      (run ((bcastBack c (paramLayer P Q) (parLens i) (strAt js) (parAt i jp)).at T) G w).err = (G w).err ∧
      ∀ j, j ≠ i → (run ((bcastBack c (paramLayer P Q) (parLens i) (strAt js) (parAt i jp)).at T) G w).par j = (G w).par j) ∧
    (∀ r ∈ P.members, ((run ((bcastBack c (paramLayer P Q) (parLens i) (strAt js) (parAt i jp)).at T) G r).par i).1 =
      ⟨(a r).shape, (a r).dtype, fun l => ((Q.members.filter fun v => decide (Agree P.shape (P.coord r) (Q.coord v))).map
        fun v => gw v l).sum⟩) ∧
    ∀ v ∈ Q.members, v ∉ P.members →
      ((run ((bcastBack c (paramLayer P Q) (parLens i) (strAt js) (parAt i jp)).at T) G v).par i).1.shape.prod = 0 := by
  obtain ⟨o, Y, r1, y1, y2, y3⟩ := bcastBack_run (S := G) (T := T) (ℓ := parLens i) c hL
    (fun w hw => hW w (hPQ w hw)) hW (fun h => by simp [paramLayer] at h) (lf := strAt js) (rt := parAt i jp)
    (fun v hv => by
      rw [hp _ (hL.root_mem hv)]
      unfold infoOf
      show ((G v).par i).1.shape = _ ∧ ((G v).par i).1.dtype = _
      rw [hg v hv]
      exact ⟨rfl, rfl⟩)
    (fun hid r hr hrq e => by
      rw [hs hid r hrq, hp r hr, e]
      exact ⟨rfl, rfl⟩)
  refine ⟨o, fun w hw => ?_, fun r hr => ?_, fun v hv hn => ?_⟩
  · rw [r1 w hw]
    refine ⟨rfl, rfl, fun j hj => ?_⟩
    simp [parLens, hj]
  · rw [r1 r (hW r (hPQ r hr))]
    show ((parLens i).get ((parLens i).set _ _)).1 = _
    rw [(parLens i).get_set, y1 r hr, hp r hr]
    show Tensor.mk _ _ _ = Tensor.mk _ _ _
    congr 1
    funext l
    show ((Q.members.filter fun v => decide ((paramLayer P Q).broot v = r)).map fun v => ((G v).par i).1.val l).sum = _
    have hf : (Q.members.filter fun v => decide ((paramLayer P Q).broot v = r)) =
        Q.members.filter fun v => decide (Agree P.shape (P.coord r) (Q.coord v)) :=
      List.filter_congr fun v hv => decide_eq_decide.2 (hL.rel hr hv).symm
    rw [hf]
    congr 1
    refine List.map_congr_left fun v hv => ?_
    rw [hg v (List.mem_of_mem_filter hv)]
  · rw [r1 v (hW v hv)]
    show ((parLens i).get ((parLens i).set _ _)).1.shape.prod = 0
    rw [(parLens i).get_set]
    exact y2 v hv hn

end

section
variable [CommSemiring F] {W : List Nat} {C : ChanConv} {Po Pi : Nat} {Sp : List Nat} {B : Nat} {N : List Nat} {L : Layout}
  {t : TorchDtype} {X Y : List Nat → F} {S G : Nat → NSt F} {T : Nat → List (NSt F)} {weight bias : Nat → Tensor F}
  {Wt bi : List Nat → F} {nd : Nat} {pk ps pp pd : List Nat}

theorem genBack_run (c cw cb cx cy : Nat) (rgp : Bool) (Bf : Bufs β) (hW : winParams nd pk ps pp pd = some C.W)
    (h : ChanValid C Po Pi Sp) (hSp : Sp.length = nd) (hg : C.groups = 1) (hL : L.pshape = C.Px.shape)
    (hG : L.global = B :: C.Ci :: N)
    (hfit : C.Pw.members.length = 1 → ∀ j, j < nd →
      C.W.d.getD j 0 * (C.W.k.getD j 0 - 1) + 1 ≤ N.getD j 0 + 2 * C.W.p.getD j 0)
    (hl : C.Pw.members.length ≠ 1 → WinLimits C.Px C.W L) (hp : StoredParams C Po Pi weight bias Wt bi)
    (place : C.Pw.members.length = 1 → C.Px.members = C.Pw.members ∧ C.Py.members = C.Pw.members)
    (hx : ∀ w ∈ C.Px.members, w ∈ W) (hw : ∀ w ∈ C.Pw.members, w ∈ W) (hy : ∀ w ∈ C.Py.members, w ∈ W)
    (hS : Holds W C.Px L t X S)
    (hGr : HoldsG W C.Py (Layout.balanced C.Py.shape (torchConvShape C.W C.Co (B :: C.Ci :: N))) t Y G)
    (hT : ∀ w ∈ W, ∃ rest, T w = snaps (genCuts c cw cb cx cy C weight bias rgp Bf) S w ++ rest) :
    ProgOK W ((genBack c cw cb cx cy C weight bias Bf).at T) G ∧
    HoldsG W C.Px L t (torchConvGradX C.W 1 C.Ci C.Co Wt (B :: C.Ci :: N) Y)
      (run ((genBack c cw cb cx cy C weight bias Bf).at T) G) ∧
    GenGrads C Po Pi weight bias (B :: C.Ci :: N) X Y
      fun w i => ((run ((genBack c cw cb cx cy C weight bias Bf).at T) G w).par i).1 := by
  have hkn : C.W.k.length = nd := (winParams_length hW).1
  have hgl : C.Px.shape.length = (B :: C.Ci :: N).length := by rw [← hG, Layout.length_global, ← Layout.length_pshape, hL]
  have hN : N.length = nd := by
    rw [h.shx] at hgl
    simp at hgl
    omega
  have hD : C.Px.shape.length = nd + 2 := by rw [h.shx]; simp [hSp]
  have hplen : C.W.p.length ≤ C.Px.shape.length := by
    obtain ⟨-, -, ⟨h, -⟩, -⟩ := C39_parameters.1 hW
    omega
  obtain ⟨rg, hrg⟩ := hS.parts
  have h0 := hS.winInput (Q := C.W) h.wfx hL hplen hrg
  by_cases h1w : C.Pw.members.length = 1
  · have hpx : C.Px.members.length = 1 := by rw [(place h1w).1]; exact h1w
    have hones : ∀ n ∈ C.Pw.shape, n = 1 := fun n hn =>
      Nat.dvd_one.1 (show n ∣ 1 by rw [← h1w, h.wfw.size]; exact List.dvd_prod hn)
    have hz : ∀ v ∈ C.Pw.members, ∀ i ∈ C.Pw.coord v, i = 0 := by
      intro v hv i hi
      have hb : InBounds (C.Pw.coord v) C.Pw.shape := coords_inBounds h.wfw hv
      obtain ⟨j, hj, rfl⟩ := List.mem_iff_getElem.1 hi
      have hj' : j < C.Pw.shape.length := by rw [← hb.length_eq]; exact hj
      have := inBounds_getD hb hj'
      rw [List.getD_eq_getElem _ _ hj, List.getD_eq_getElem _ _ hj', hones _ (List.getElem_mem _)] at this
      omega
    have hp' : ChanParams C Po Pi (fun v => (weight v).val) (fun v => (bias v).val) Wt bi :=
      ⟨fun v hv => hp.weight v hv fun i hi => hz v hv i (List.mem_of_mem_drop hi),
        fun v hv _ => hp.bias v hv fun i hi => hz v hv i (List.mem_of_mem_drop hi)⟩
    have hE := serial_blocks h h0 hG hpx
    have hE' : EvenBlocks C.Px (B :: C.Ci :: N) t X (inputsOf S).x := by
      refine ⟨fun u hu => ?_, fun u hu => ?_, hE.val⟩
      · have := hE.shape u hu
        rwa [gathered_own hu] at this
      · have := hE.dtype u hu
        rwa [gathered_own hu] at this
    have hprog : genBack c cw cb cx cy C weight bias Bf = serialConvBack C weight bias := by
      unfold genBack
      rw [h.cast false (by simp)]
      exact if_pos h1w
    have hcuts : genCuts c cw cb cx cy C weight bias rgp Bf =
        [serialConvProg C (fun w => (weight w).val) (fun w => (bias w).val) rgp] := by
      unfold genCuts
      rw [h.cast false (by simp)]
      exact if_pos h1w
    rw [hprog]
    obtain ⟨q1, q2, q3, q4⟩ := serialConvBack_run h (hSp.trans hkn.symm) (hN.trans hkn.symm) hg h1w (place h1w)
      (by rw [hkn]; exact hfit h1w) hp' hx hE' hS.batch hGr (T := T) (fun w hww => by
        obtain ⟨rest, e⟩ := hT w hww
        rw [e, hcuts]
        rfl)
    refine ⟨q1, ⟨q2.calm, q2.batch, fun u hu => ?_, fun u hu l hb => ?_⟩, fun v hv _ => q3 v hv,
      fun hb v hv hd => q4 hb v hv (hd _ (by
        obtain ⟨o, j, s, ev, -⟩ := h.coordW hv
        rw [ev]; simp)), fun v hv => ⟨fun hn => ?_, fun _ _ hn => ?_⟩⟩
    · have hi0 : C.Px.members.idxOf u < C.Px.members.length := List.idxOf_lt_length_of_mem hu
      obtain ⟨s1, -⟩ := single_block (L := Layout.balanced C.Px.shape (B :: C.Ci :: N)) h.wfx
        (Layout.balanced_pshape hgl) hpx hi0
      obtain ⟨s3, -⟩ := single_block h.wfx hL hpx hi0
      obtain ⟨a1, a2⟩ := q2.parts u hu
      refine ⟨a1.trans ?_, a2⟩
      show Layout.shapeAt _ (getCoords _ _) = Layout.shapeAt _ (getCoords _ _)
      rw [s1, s3, Layout.balanced_global hgl h.wfx.pos, hG]
    · have hi0 : C.Px.members.idxOf u < C.Px.members.length := List.idxOf_lt_length_of_mem hu
      obtain ⟨s1, s2⟩ := single_block (L := Layout.balanced C.Px.shape (B :: C.Ci :: N)) h.wfx
        (Layout.balanced_pshape hgl) hpx hi0
      obtain ⟨s3, s4⟩ := single_block h.wfx hL hpx hi0
      rw [Layout.balanced_global hgl h.wfx.pos] at s1 s2
      rw [hG] at s3 s4
      change InBounds l (L.shapeAt (getCoords _ _)) at hb
      rw [s3] at hb
      refine (q2.data u hu l (by change InBounds l (Layout.shapeAt _ (getCoords _ _)); rw [s1]; exact hb)).trans ?_
      show torchConvGradX _ _ _ _ _ _ _ (shiftBy (Layout.startAt _ (getCoords _ _)) l) =
        torchConvGradX _ _ _ _ _ _ _ (shiftBy (L.startAt (getCoords _ _)) l)
      rw [s2 l hb, s4 l hb]
    · exact absurd (fun i hi => hz v hv i (List.mem_of_mem_drop hi)) hn
    · exact absurd (fun i hi => hz v hv i (List.mem_of_mem_drop hi)) hn
  · obtain ⟨Pwr, Pb, Pbr, e1, e2, e3, Lw, Lb, wt, b, hop, hcp, hwt⟩ := general_received (rgp := rgp) h hg hp
    obtain ⟨Pwr', ew, -, shw, -, memw, cow⟩ := h.weightRoot
    obtain ⟨Pb', eb, wfb, shb, -, memb, cob⟩ := h.biasPart
    obtain ⟨Pbr', er, -, shr, -, memr, cor⟩ := h.biasRoot
    obtain rfl := Option.some.inj (ew.symm.trans e1)
    obtain rfl := Option.some.inj (eb.symm.trans e2)
    obtain rfl := Option.some.inj (er.symm.trans e3)
    have hbw : ∀ v ∈ Pb'.members, v ∈ C.Pw.members := fun v hv => ((memb v).1 hv).1
    have hrw : ∀ v ∈ Pwr'.members, v ∈ C.Pw.members := fun v hv => ((memw v).1 hv).1
    have hrb : ∀ v ∈ Pbr'.members, v ∈ Pb'.members := fun v hv => by
      obtain ⟨m1, m2⟩ := (memr v).1 hv
      refine (memb v).2 ⟨m1, ?_⟩
      obtain ⟨o, j, s, ev, -⟩ := h.coordW m1
      rw [ev] at m2 ⊢
      exact m2 j (by simp)
    have hU : ∀ w ∈ C.union, w ∈ W := by
      intro w hw'
      simp only [ChanConv.union, mem_groupUnion] at hw'
      rcases hw' with (hw' | hw') | hw'
      · exact hw w hw'
      · exact hx w hw'
      · exact hy w hw'
    -- setup
    obtain ⟨-, f1, i1⟩ := setupPart_run c h.wfx hU px_union S
    obtain ⟨S1, hS1⟩ : ∃ S1, S1 = run (setupPartProg c C.Px C.union) S := ⟨_, rfl⟩
    rw [← hS1] at f1 i1
    have hg1 : gathered C.Px S1 = gathered C.Px S := f1.gathered hx
    have hin1 : WinInput C.Px C.W L (gathered C.Px S1) (fun w => (S1 w).t.val) X t rg := by
      refine ⟨h0.wf, h0.layout, h0.plen, hg1 ▸ h0.loc, fun v hv => ?_⟩
      rw [(f1 v (hx v hv)).1]
      exact h0.data v hv
    -- exchange
    let A : Nat → NSt F → Prop := fun r x => x.t.shape.length = nd + 2 ∧ x.t.dtype = t ∧ x.rg = rg ∧
      torchPoolShape C.W.noPad x.t.shape =
        (Layout.balanced C.Px.shape (torchPoolShape C.W (B :: C.Ci :: N))).shapeAt (getCoords C.Px.shape r) ∧
      (∀ j, j < nd → C.W.d.getD j 0 * (C.W.k.getD j 0 - 1) + 1 ≤ x.t.shape.getD (j + 2) 0) ∧
      (∀ o κ, InBounds o ((Layout.balanced C.Px.shape (torchPoolShape C.W (B :: C.Ci :: N))).shapeAt (getCoords C.Px.shape r)) →
        InBounds κ C.W.k →
        winRead 0 x.t.shape (1 :: 1 :: C.W.s) (1 :: 1 :: C.W.d) (0 :: 0 :: C.W.noPad.p) x.t.val o (0 :: 0 :: κ) =
        winRead 0 (B :: C.Ci :: N) (1 :: 1 :: C.W.s) (1 :: 1 :: C.W.d) (0 :: 0 :: C.W.p) X
          (shiftBy ((Layout.balanced C.Px.shape (torchPoolShape C.W (B :: C.Ci :: N))).startAt (getCoords C.Px.shape r)) o)
          (0 :: 0 :: κ)) ∧
      ∃ U g, (∀ q, q < C.Px.members.length → winSetup C.Px C.W (gathered C.Px S1) (C.Px.members.getD q 0) = some (U q)) ∧
        x.t.shape = (localInput C.Px 0 (gathered C.Px S1) (fun w => (S1 w).t.val) U g r).1
    obtain ⟨-, er2, t2, a2⟩ := winOp_run c 0 Bf neededOp hx (fun w hw => (i1 w hw).trans hg1.symm) hin1 (A := A)
      (fun U Sx k g R r hr hf a => by
        refine ⟨_, rfl, fun x => ?_⟩
        obtain ⟨l1, l2, l3⟩ := local_windows hW hD hin1 (hl h1w) R hr hf
        rw [hG] at l2 l3
        exact ⟨l1, (gathered_dtype hr).symm.trans (congrArg (·.2.1) (hin1.loc _ (getD_mem hr) _ (Cart.index_eq (getD_mem hr)))),
          gathered_rg hin1 hr, l2, fun j hj => local_fit hW hD hin1 (hl h1w).reach R hr hf hj, l3, U, g, R.setup, rfl⟩)
    rw [run_append] at er2 t2 a2
    obtain ⟨S2, hS2⟩ : ∃ S2, S2 = run [winOpPhase C.Px C.W 0 neededOp] (run (exchangeProg c C.Px C.W 0 Bf) S1) := ⟨_, rfl⟩
    rw [← hS2] at er2 t2 a2
    -- parameters
    obtain ⟨-, f3, p3⟩ := stored_run cw 0 weight rgp Lw hrw hw S2
    obtain ⟨ti3, tp3, ts3⟩ := stored_tape cw 0 weight rgp Lw hrw hw S2
    obtain ⟨S3, hS3⟩ : ∃ S3, S3 = run (storedProg cw Pwr' C.Pw 0 weight rgp) S2 := ⟨_, rfl⟩
    rw [← hS3] at f3 p3 tp3 ts3
    have hb : ∃ S4, (∀ w ∈ W, (S4 w).t = (S3 w).t ∧ (S4 w).rg = (S3 w).rg ∧ (S4 w).err = (S3 w).err ∧ (S4 w).par 0 = (S3 w).par 0) ∧
        (C.useBias = true → ∀ v ∈ Pb'.members, (∃ r,
          bcastForward (paramLayer Pbr' Pb') (storedParam Pbr' bias rgp) v = some (bias r) ∧ (S4 v).par 1 = (bias r, rgp)) ∧
          (S4 v).par 1 = (bias ((paramLayer Pbr' Pb').broot v), rgp)) ∧
        (∀ w ∈ W, ∃ rest, T w = snaps (stackCuts cx cy (chanBroadcast C.Px C.Pw) (chanReduce C.Pw C.yCast) (genOp C Pb')) S4 w ++ rest) ∧
        (∀ w ∈ W, ((T w).drop (if C.useBias then 7 else 5))[0]? = some (run (exchangeProg c C.Px C.W 0 Bf) S1 w)) ∧
        (C.useBias = true →
          ((paramLayer Pbr' Pb').identity = false → ∀ v ∈ Pb'.members, strAt 2 (T v) =
            ((bias ((paramLayer Pbr' Pb').broot v)).shape, (bias ((paramLayer Pbr' Pb').broot v)).dtype, rgp)) ∧
          (∀ r ∈ Pbr'.members, parAt 1 3 (T r) = ((bias r).shape, (bias r).dtype, rgp)) ∧
          ((paramLayer Pwr' C.Pw).identity = false → ∀ v ∈ C.Pw.members, strAt 4 (T v) =
            ((weight ((paramLayer Pwr' C.Pw).broot v)).shape, (weight ((paramLayer Pwr' C.Pw).broot v)).dtype, rgp)) ∧
          ∀ r ∈ Pwr'.members, parAt 0 5 (T r) = ((weight r).shape, (weight r).dtype, rgp)) ∧
        (C.useBias = false →
          ((paramLayer Pwr' C.Pw).identity = false → ∀ v ∈ C.Pw.members, strAt 2 (T v) =
            ((weight ((paramLayer Pwr' C.Pw).broot v)).shape, (weight ((paramLayer Pwr' C.Pw).broot v)).dtype, rgp)) ∧
          ∀ r ∈ Pwr'.members, parAt 0 3 (T r) = ((weight r).shape, (weight r).dtype, rgp)) := by
      cases hu : C.useBias with
      | true =>
        obtain ⟨-, f4, p4⟩ := stored_run cb 1 bias rgp Lb hrb (fun w hw' => hw w (hbw w hw')) S3
        obtain ⟨ti4, tp4, ts4⟩ := stored_tape cb 1 bias rgp Lb hrb (fun w hw' => hw w (hbw w hw')) S3
        obtain ⟨S4, hS4⟩ : ∃ S4, S4 = run (storedProg cb Pbr' Pb' 1 bias rgp) S3 := ⟨_, rfl⟩
        rw [← hS4] at f4 p4 tp4 ts4
        have hsn : ∀ w, snaps (genCuts c cw cb cx cy C weight bias rgp Bf) S w =
            snaps (stackCuts cx cy (chanBroadcast C.Px C.Pw) (chanReduce C.Pw C.yCast) (genOp C Pb')) S4 w ++
              [sync (storedLoad Pbr' Pb' 1 bias rgp) S3 w, S3 w, sync (storedLoad Pwr' C.Pw 0 weight rgp) S2 w, S2 w,
                run (exchangeProg c C.Px C.W 0 Bf) S1 w, S1 w, S w] := by
          intro w
          unfold genCuts
          rw [h.cast false (by simp)]
          simp only
          rw [if_neg h1w, e1, e2, e3]
          simp only
          rw [if_pos hu, hS4, hS3, hS2, hS1]
          rfl
        have hTT : ∀ w ∈ W, ∃ a0 a1 rest, T w = [a0, a1, S4 w, sync (storedLoad Pbr' Pb' 1 bias rgp) S3 w, S3 w,
            sync (storedLoad Pwr' C.Pw 0 weight rgp) S2 w, S2 w, run (exchangeProg c C.Px C.W 0 Bf) S1 w] ++ rest := by
          intro w hww
          obtain ⟨rest, e⟩ := hT w hww
          rw [hsn w] at e
          exact ⟨_, _, [S1 w, S w] ++ rest, e⟩
        refine ⟨S4, fun w hww => ?_, fun _ v hv => ⟨p4 v hv, tp4 v hv⟩, fun w hww => ?_, fun w hww => ?_, fun _ =>
          ⟨fun hid v hv => ?_, fun r hr => ?_, fun hid v hv => ?_, fun r hr => ?_⟩, fun hh => by cases hh⟩
        · obtain ⟨b1, b2, b3, b4⟩ := f4 w hww
          exact ⟨b1, b2, b3, b4 0 (by omega)⟩
        · obtain ⟨rest, e⟩ := hT w hww
          rw [hsn w, List.append_assoc] at e
          exact ⟨_, e⟩
        · obtain ⟨a0, a1, rest, e⟩ := hTT w hww
          rw [e]
          rfl
        · obtain ⟨a0, a1, rest, e⟩ := hTT v (hw v (hbw v hv))
          rw [e]
          exact ts4 hid v hv
        · obtain ⟨a0, a1, rest, e⟩ := hTT r (hw r (hbw r (hrb r hr)))
          rw [e]
          exact ti4 r hr
        · obtain ⟨a0, a1, rest, e⟩ := hTT v (hw v hv)
          rw [e]
          exact ts3 hid v hv
        · obtain ⟨a0, a1, rest, e⟩ := hTT r (hw r (hrw r hr))
          rw [e]
          exact ti3 r hr
      | false =>
        have hu' : ¬ C.useBias = true := by simp [hu]
        have hsn : ∀ w, snaps (genCuts c cw cb cx cy C weight bias rgp Bf) S w =
            snaps (stackCuts cx cy (chanBroadcast C.Px C.Pw) (chanReduce C.Pw C.yCast) (genOp C Pb')) S3 w ++
              [sync (storedLoad Pwr' C.Pw 0 weight rgp) S2 w, S2 w,
                run (exchangeProg c C.Px C.W 0 Bf) S1 w, S1 w, S w] := by
          intro w
          unfold genCuts
          rw [h.cast false (by simp)]
          simp only
          rw [if_neg h1w, e1, e2, e3]
          simp only
          rw [if_neg hu', hS3, hS2, hS1]
          rfl
        have hTT : ∀ w ∈ W, ∃ a0 a1 rest, T w = [a0, a1, S3 w,
            sync (storedLoad Pwr' C.Pw 0 weight rgp) S2 w, S2 w, run (exchangeProg c C.Px C.W 0 Bf) S1 w] ++ rest := by
          intro w hww
          obtain ⟨rest, e⟩ := hT w hww
          rw [hsn w] at e
          exact ⟨_, _, [S1 w, S w] ++ rest, e⟩
        refine ⟨S3, fun w _ => ⟨rfl, rfl, rfl, rfl⟩, fun hh => (by cases hh), fun w hww => ?_, fun w hww => ?_,
          fun hh => (by cases hh), fun _ => ⟨fun hid v hv => ?_, fun r hr => ?_⟩⟩
        · obtain ⟨rest, e⟩ := hT w hww
          rw [hsn w, List.append_assoc] at e
          exact ⟨_, e⟩
        · obtain ⟨a0, a1, rest, e⟩ := hTT w hww
          rw [e]
          rfl
        · obtain ⟨a0, a1, rest, e⟩ := hTT v (hw v hv)
          rw [e]
          exact ts3 hid v hv
        · obtain ⟨a0, a1, rest, e⟩ := hTT r (hw r (hrw r hr))
          rw [e]
          exact ti3 r hr
    obtain ⟨S4, f4, p4, hT4, hT7, tb, tn⟩ := hb
    have hkeep : ∀ w ∈ W, (S4 w).t = (S2 w).t ∧ (S4 w).rg = (S2 w).rg := by
      intro w hw
      obtain ⟨a1, a2, -, -⟩ := f4 w hw
      obtain ⟨b1, b2, -, -⟩ := f3 w hw
      exact ⟨a1.trans b1, a2.trans b2⟩
    have hA : ∀ v ∈ C.Px.members, A (C.Px.members.idxOf v) (S4 v) := by
      intro v hv
      have := a2 _ (List.idxOf_lt_length_of_mem hv)
      rw [getD_idxOf hv] at this
      obtain ⟨k1, k2⟩ := hkeep v (hx v hv)
      simp only [A] at this ⊢
      rw [k1, k2]
      exact this
    have hTw : WindowsOf C C.W.noPad B N t X (inputsOf S4).x := by
      refine ⟨fun r hr => ?_, fun r hr => (hA r hr).2.1, fun r hr => (hA r hr).2.2.2.1, fun r hr j hj => ?_,
        fun r hr => (hA r hr).2.2.2.2.2.1⟩
      · rw [hkn]
        exact (hA r hr).1
      · rw [hkn] at hj
        rw [show C.W.noPad.p.getD j 0 = 0 from zeros_getD C.W.p j, Nat.mul_zero, Nat.add_zero]
        exact (hA r hr).2.2.2.2.1 j hj
    have hne : ∀ w ∈ W, (S4 w).t.shape ≠ [] := by
      intro w hww
      by_cases hm : w ∈ C.Px.members
      · intro e
        have := (hA w hm).1
        rw [e] at this
        simp at this
      · rw [(hkeep w hww).1, t2 w hww hm, (f1 w hww).1]
        exact hS.batch w hww
    have act : ∀ u, C.Active u → u ∈ W := fun u hu => hu.elim (hx u) fun hh => hh.elim (hw u) (hy u)
    have hs : ∀ u, C.Active u → ((inputsOf S4).x u).shape ≠ [] := fun u hu => hne u (act u hu)
    have hsy : ∀ u, C.Active u → (G u).t.shape ≠ [] := fun u hu => hGr.batch u (act u hu)
    have hyb := hGr.even
    have hopS : ∀ w ∈ C.Pw.members, ∀ x : NSt F, x.par = (S4 w).par → genOp C Pb' w x =
        (generalLocal C Pwr' Pb' Pbr' weight bias rgp w x.t).map fun y => (y, x.rg || rgp) := by
      intro w hwm x hpar
      obtain ⟨r, q1, q2⟩ := p3 w hwm
      rw [genOp, generalLocal, q1, Option.bind_some, hpar, (f4 w (hw w hwm)).2.2.2, q2]
      by_cases hB : w ∈ Pb'.members ∧ C.useBias = true
      · obtain ⟨⟨r', q3, q4⟩, -⟩ := p4 hB.2 w hB.1
        rw [if_pos hB, if_pos hB, q3, Option.bind_some, q4]
        simp
      · rw [if_neg hB, if_neg hB]
    have hp0 : ∀ w ∈ C.Pw.members, (S4 w).par 0 = (weight ((paramLayer Pwr' C.Pw).broot w), rgp) := fun w hwm =>
      ((f4 w (hw w hwm)).2.2.2).trans (tp3 w hwm)
    have hwtv : ∀ w ∈ C.Pw.members, ((S4 w).par 0).1.val = wt w := by
      intro w hwm
      obtain ⟨a, ea, ew'⟩ := hwt w hwm
      obtain ⟨r, q1, q2⟩ := p3 w hwm
      rw [(f4 w (hw w hwm)).2.2.2, q2, ← ew']
      rw [Option.some.inj (q1.symm.trans ea)]
    have gr := chan_grads (I := inputsOf S4) (wt := wt) (b := b) (W' := C.W.noPad) h hTw hyb hsy
      (opB := fun v => convGradInput C.W.noPad C.groups ((C.localChannels v).getD 1 0) ((C.localChannels v).getD 0 0)
        ((S4 v).par 0).1.val)
      (fun _ _ _ => ⟨rfl, rfl⟩)
    obtain ⟨o, g1, g2, g3, g4, g5, -⟩ := stackBack_run (T := T) cx cy rgp
      (chan_stack h (W' := C.W.noPad) ⟨rfl, rfl, rfl⟩ hTw hop hs) hopS hx hw hy gr
      (opG := genOpGrad C Pb') (fun w _ K x e => ⟨by
        show Tensor.mk _ _ _ = Tensor.mk _ _ _
        rw [e], rfl⟩) hT4
    obtain ⟨G1, hG1⟩ : ∃ G1, G1 = run ((stackBackProg cx cy (chanBroadcast C.Px C.Pw) (chanReduce C.Pw C.yCast)
      (genOpGrad C Pb')).at T) G := ⟨_, rfl⟩
    rw [← hG1] at g1 g2 g3 g4 g5
    -- gradients of the parameters on the workers that received them
    let gw : Nat → List Nat → F := fun v => torchConvGradW C.W.noPad C.groups ((C.localChannels v).getD 1 0)
      ((C.localChannels v).getD 0 0) ((inputsOf S4).x ((chanBroadcast C.Px C.Pw).broot v)).shape
      ((inputsOf S4).x ((chanBroadcast C.Px C.Pw).broot v)).val (chanDy C (fun w => (G w).t) v).val
    let gb : Nat → List Nat → F := fun v => torchConvGradB C.W.noPad ((C.localChannels v).getD 0 0)
      ((inputsOf S4).x ((chanBroadcast C.Px C.Pw).broot v)).shape (chanDy C (fun w => (G w).t) v).val
    have hgw : ∀ v ∈ C.Pw.members, ((G1 v).par 0).1 =
        ⟨(weight ((paramLayer Pwr' C.Pw).broot v)).shape, (weight ((paramLayer Pwr' C.Pw).broot v)).dtype, gw v⟩ := by
      intro v hv
      obtain ⟨K, x, q1, q2, q3, -, q5⟩ := g5 v hv
      rw [q5]
      simp only [genOpGrad, convGrads]
      rw [q1, q2, q3, hp0 v hv]
      rfl
    have hgb : C.useBias = true → ∀ v ∈ Pb'.members, ((G1 v).par 1).1 =
        ⟨(bias ((paramLayer Pbr' Pb').broot v)).shape, (bias ((paramLayer Pbr' Pb').broot v)).dtype, gb v⟩ := by
      intro hu v hv
      obtain ⟨K, x, q1, q2, q3, -, q5⟩ := g5 v (hbw v hv)
      rw [q5]
      simp only [genOpGrad, convGrads, hv, hu, decide_true, Bool.and_self, if_true]
      rw [q1, q2, q3, (p4 hu v hv).2]
      rfl
    -- the adjoint broadcasts of the parameters
    have hmid : ∃ G2, ProgOK W (CProg.at (if C.useBias then bcastBack cb (paramLayer Pbr' Pb') (parLens 1) (strAt 2) (parAt 1 3) ++
            bcastBack cw (paramLayer Pwr' C.Pw) (parLens 0) (strAt 4) (parAt 0 5)
          else bcastBack cw (paramLayer Pwr' C.Pw) (parLens 0) (strAt 2) (parAt 0 3)) T) G1 ∧
        run (CProg.at (if C.useBias then bcastBack cb (paramLayer Pbr' Pb') (parLens 1) (strAt 2) (parAt 1 3) ++
            bcastBack cw (paramLayer Pwr' C.Pw) (parLens 0) (strAt 4) (parAt 0 5)
          else bcastBack cw (paramLayer Pwr' C.Pw) (parLens 0) (strAt 2) (parAt 0 3)) T) G1 = G2 ∧
        (∀ w ∈ W, (G2 w).t = (G1 w).t ∧ (G2 w).err = (G1 w).err) ∧
        GenGrads C Po Pi weight bias (B :: C.Ci :: N) X Y fun w i => ((G2 w).par i).1 := by
      have hsw : ∀ r ∈ Pwr'.members, ∀ k < subsize Po ((C.Pw.coord r).getD 0 0) C.Co,
          ∀ c < subsize Pi ((C.Pw.coord r).getD 1 0) C.Ci, ∀ κ, InBounds κ C.W.k →
          ((C.Pw.members.filter fun v => decide (Agree Pwr'.shape (Pwr'.coord r) (C.Pw.coord v))).map fun v =>
            gw v (k :: c :: κ)).sum = torchConvGradW C.W 1 C.Ci C.Co (B :: C.Ci :: N) X Y
              ((startIdx Po ((C.Pw.coord r).getD 0 0) C.Co + k) :: (startIdx Pi ((C.Pw.coord r).getD 1 0) C.Ci + c) :: κ) := by
        intro r hr k hk c hc κ hκ
        rw [cow r hr, shw]
        exact stored_weight h hg (hSp.trans hN.symm) hTw hyb (hrw r hr) hk hc hκ
      have hsb : ∀ r ∈ Pbr'.members, ∀ k < subsize Po ((C.Pw.coord r).getD 0 0) C.Co,
          ((Pb'.members.filter fun v => decide (Agree Pbr'.shape (Pbr'.coord r) (Pb'.coord v))).map fun v => gb v [k]).sum =
            torchConvGradB C.W C.Co (B :: C.Ci :: N) Y [startIdx Po ((C.Pw.coord r).getD 0 0) C.Co + k] := by
        intro r hr k hk
        rw [cor r hr, shr]
        exact stored_bias h (hSp.trans hN.symm) hTw hyb wfb shb memb cob (hbw r (hrb r hr))
          ((memb r).1 (hrb r hr)).2 hk
      cases hu : C.useBias with
      | true =>
        obtain ⟨q1, q2, q3, q4⟩ := tb hu
        obtain ⟨s1, s2, s3, s4⟩ := storedBack_run (G := G1) (T := T) cb 1 2 3 bias rgp Lb hrb
          (fun w hw' => hw w (hbw w hw')) gb (hgb hu) q1 q2
        rw [if_pos rfl, CProg.at_append, progOK_append, run_append]
        generalize run ((bcastBack cb (paramLayer Pbr' Pb') (parLens 1) (strAt 2) (parAt 1 3)).at T) G1 = Gb at s2 s3 s4 ⊢
        obtain ⟨u1, u2, u3, u4⟩ := storedBack_run (G := Gb) (T := T) cw 0 4 5 weight rgp Lw hrw hw gw
          (fun v hv => by rw [(s2 v (hw v hv)).2.2 0 (by omega)]; exact hgw v hv) q3 q4
        refine ⟨_, ⟨s1, u1⟩, rfl, fun w hw => ⟨(u2 w hw).1.trans (s2 w hw).1, (u2 w hw).2.1.trans (s2 w hw).2.1⟩,
          fun v hv hz => ?_, fun _ v hv hz => ?_, fun v hv => ⟨fun hn => u4 v hv fun hh => hn ((memw v).1 hh).2, fun _ hj hn => ?_⟩⟩
        · have hr : v ∈ Pwr'.members := (memw v).2 ⟨hv, hz⟩
          rw [u3 v hr]
          exact ⟨rfl, hsw v hr⟩
        · have hr : v ∈ Pbr'.members := (memr v).2 ⟨hv, hz⟩
          rw [(u2 v (hw v hv)).2.2 1 (by omega), s3 v hr]
          exact ⟨rfl, hsb v hr⟩
        · rw [(u2 v (hw v hv)).2.2 1 (by omega)]
          exact s4 v ((memb v).2 ⟨hv, hj⟩) fun hh => hn ((memr v).1 hh).2
      | false =>
        obtain ⟨q1, q2⟩ := tn hu
        obtain ⟨u1, u2, u3, u4⟩ := storedBack_run (G := G1) (T := T) cw 0 2 3 weight rgp Lw hrw hw gw hgw q1 q2
        rw [if_neg (by simp)]
        refine ⟨_, u1, rfl, fun w hw => ⟨(u2 w hw).1, (u2 w hw).2.1⟩,
          fun v hv hz => ?_, fun hh => absurd (hu.symm.trans hh) (by simp), fun v hv =>
            ⟨fun hn => u4 v hv fun hh => hn ((memw v).1 hh).2, fun hh => absurd (hu.symm.trans hh) (by simp)⟩⟩
        have hr : v ∈ Pwr'.members := (memw v).2 ⟨hv, hz⟩
        rw [u3 v hr]
        exact ⟨rfl, hsw v hr⟩
    obtain ⟨G2, o2, hG2, t3, gg⟩ := hmid
    -- the adjoint exchange
    obtain ⟨o3, w1, w2, a, U, Sx, k, g, R, hf, hb⟩ := winBack_run (G := G2)
      (T := fun u => (T u).drop (if C.useBias then 7 else 5)) c 0 Bf hx
      (fun w hw => (i1 w hw).trans hg1.symm) hin1 (fun _ _ y => y.val) (fun _ _ _ p => p) hT7
    obtain ⟨k', g', Bk, hr⟩ := hb _ fun _ _ => rfl
    obtain ⟨G3, hG3⟩ : ∃ G3, G3 = run ((winBack c C.Px C.W 0 Bf (fun _ _ y => y.val) (fun _ _ _ p => p)).at
      fun u => (T u).drop (if C.useBias then 7 else 5)) G2 := ⟨_, rfl⟩
    rw [← hG3] at w1 w2 hr
    have hprog : genBack c cw cb cx cy C weight bias Bf =
        stackBackProg cx cy (chanBroadcast C.Px C.Pw) (chanReduce C.Pw C.yCast) (genOpGrad C Pb') ++
        ((if C.useBias then bcastBack cb (paramLayer Pbr' Pb') (parLens 1) (strAt 2) (parAt 1 3) ++
            bcastBack cw (paramLayer Pwr' C.Pw) (parLens 0) (strAt 4) (parAt 0 5)
          else bcastBack cw (paramLayer Pwr' C.Pw) (parLens 0) (strAt 2) (parAt 0 3)) ++
        (winBack c C.Px C.W 0 Bf (fun _ _ y => y.val) (fun _ _ _ p => p)).from (if C.useBias then 7 else 5)) := by
      unfold genBack
      rw [h.cast false (by simp)]
      simp only
      rw [if_neg h1w, e1, e2, e3]
    have hrun : run ((genBack c cw cb cx cy C weight bias Bf).at T) G = G3 := by
      rw [hprog, CProg.at_append, CProg.at_append, CProg.from_at, run_append, run_append, ← hG1, hG2, hG3]
    have hpar : ∀ w ∈ W, (G3 w).par = (G2 w).par := by
      intro w hww
      by_cases hm : w ∈ C.Px.members
      · have := (hr _ (List.idxOf_lt_length_of_mem hm)).2.2
        rwa [getD_idxOf hm] at this
      · rw [w2 w hww hm]
    rw [hrun]
    refine ⟨?_, ⟨fun w hww => ?_, fun w hww => ?_, fun u hu => ?_, fun u hu l hb => ?_⟩, fun v hv hz => ?_, fun hb v hv hz => ?_,
      fun v hv => ?_⟩
    · rw [hprog, CProg.at_append, CProg.at_append, CProg.from_at, progOK_append, progOK_append, ← hG1, hG2]
      exact ⟨o, o2, o3⟩
    · rw [w1 w hww, (t3 w hww).2, g1 w hww]
      exact hGr.calm w hww
    · by_cases hm : w ∈ C.Px.members
      · have := (hr _ (List.idxOf_lt_length_of_mem hm)).2.1
        rw [getD_idxOf hm] at this
        rw [this, (f1 w hww).1]
        exact hS.batch w hww
      · rw [w2 w hww hm, (t3 w hww).1]
        by_cases hm' : w ∈ C.Py.members ∨ w ∈ C.Pw.members
        · exact shape_ne_nil_of_prod (g3 w hww hm' hm)
        · rw [not_or] at hm'
          rw [g4 w hww hm hm'.2 hm'.1]
          exact hGr.batch w hww
    · have := (hr _ (List.idxOf_lt_length_of_mem hu)).2.1
      rw [getD_idxOf hu] at this
      rw [this, (f1 u (hx u hu)).1]
      exact ⟨congrArg Prod.fst (hrg u hu), congrArg (·.2.1) (hrg u hu)⟩
    · obtain ⟨ph, this, -⟩ := hr _ (List.idxOf_lt_length_of_mem hu)
      rw [getD_idxOf hu] at this
      rw [this]
      refine general_assemble hW h hSp hin1 hG (hl h1w) R hcp hyb Bk (fun q hq => ?_) hu ph hb
      have hm := getD_mem (M := C.Px.members) hq
      rw [(t3 _ (hx _ hm)).1, g2 _ hm]
      obtain ⟨U', g'', hU', hsh⟩ := (hA _ hm).2.2.2.2.2.2
      rw [idxOf_getD h.wfx.nodup hq] at hsh
      have hUq : U' q = U q := Option.some.inj ((hU' q hq).symm.trans (R.setup q hq))
      have hsh' : (S4 (C.Px.members.getD q 0)).t.shape =
          (localInput C.Px 0 (gathered C.Px S1) (fun w => (S1 w).t.val) U g q).1 := by
        rw [hsh, localInput_shape (v := (0 : F)) (v' := (0 : F)) (g := g'') (g' := g) hin1 hin1 hU' hq]
        unfold localInput
        rw [hUq]
      rw [← hsh']
      funext i
      unfold chanDx
      show (List.map _ (List.filter _ C.Pw.members)).sum = _
      congr 1
      refine List.map_congr_left fun v hv => ?_
      have hv' := List.mem_of_mem_filter hv
      obtain ⟨q0, q1⟩ := h.localChannels hv'
      show torchConvGradX _ _ _ _ _ _ _ _ = _
      rw [q0, q1, hg, hwtv v hv']
      rfl
    · rw [hpar v (hw v hv)]
      exact gg.weight v hv hz
    · rw [hpar v (hw v hv)]
      exact gg.bias hb v hv hz
    · rw [hpar v (hw v hv)]
      exact gg.others v hv

end

end Verif.Net
