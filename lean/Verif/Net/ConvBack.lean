import Verif.Net.WinBack

/-!
# Networks: backward of the feature-distributed convolution

Autograd goes through `conv_feature.py:357-393` in reverse order: the local convolution, the exchange, then the
broadcasts of bias and weight.
-/

namespace Verif.Net

variable {F β : Type}

/-- Structure of parameter `i` kept as entry `j` of the tape. -/
def parAt (i j : Nat) (T : List (NSt F)) : Info := (T[j]?.map (infoOf (parLens i))).getD noInfo

/-- The forward pass of `conv_feature.py:357-393`, cut. -/
def convCuts [AddCommMonoid F] [Mul F] (c cw cb : Nat) (P : Cart) (C : ConvLayer F) (rgw : Bool) (B : Bufs β) :
    List (Prog (NSt F) (NMsg F)) :=
  if P.members.length = 1 then
    [[opPhase P.members (fun _ x => torchConvLayer C.W C.groups C.Ci C.Co C.bias.isSome C.weight.val
      (fun l => biasOf C.bias (l.getD 0 0)) x) rgw]]
  else [setupProg c P, [loadPhase P 0 C.weight rgw], bcastProg cw (paramBcast P) (parLens 0)] ++
    ((match C.bias with
      | some b => [[loadPhase P 1 b rgw], bcastProg cb (paramBcast P) (parLens 1)]
      | none => []) ++ [exchangeProg c P C.W 0 B, [winOpPhase P C.W 0 (convOp C)]])

/-- Gradients of the parameters of a convolution with the input `I`: of the weight (parameter 0) and the bias
(parameter 1).  `A`: the weight and bias used. -/
def convParGrad [CommSemiring F] (C : ConvLayer F) (V : WinParams) (A : Nat → Tensor F × Bool) (I : List Nat × (List Nat → F))
    (y : Tensor F) (p : Nat → Tensor F × Bool) : Nat → Tensor F × Bool
  | 0 => (⟨(A 0).1.shape, (A 0).1.dtype, torchConvGradW V C.groups C.Ci C.Co I.1 I.2 y.val⟩, false)
  | 1 => if C.bias.isSome then (⟨(A 1).1.shape, (A 1).1.dtype, torchConvGradB V C.Co I.1 y.val⟩, false) else p 1
  | i => p i

/-- The gradients of PyTorch's layer, when there is only one worker (`conv_feature.py:370-371`). -/
def convBackOne [CommSemiring F] (P : Cart) (C : ConvLayer F) (T : List (NSt F)) : Nat → NSt F → Phase (NSt F) (NMsg F) :=
  localPhase fun w x =>
    if w ∈ P.members then
      match T[0]? with
      | some A => { x with
          t := ⟨A.t.shape, A.t.dtype, torchConvGradX C.W C.groups C.Ci C.Co C.weight.val A.t.shape x.t.val⟩
          par := convParGrad C C.W (fun
            | 0 => (C.weight, false)
            | _ => (C.bias.getD C.weight, false)) (A.t.shape, A.t.val) x.t x.par }
      | none => { x with err := true }
    else x

/-- Backward of `conv_feature.py:357-393`. -/
def convBack [CommSemiring F] (c cw cb : Nat) (P : Cart) (C : ConvLayer F) (B : Bufs β) :
    CProg (List (NSt F)) (NSt F) (NMsg F) :=
  if P.members.length = 1 then [convBackOne P C]
  else winBack c P C.W 0 B
      (fun A I y => torchConvGradX C.W.noPad C.groups C.Ci C.Co (A.par 0).1.val I.1 y.val)
      (fun A => convParGrad C C.W.noPad A.par) ++
    (match C.bias with
      | some _ => bcastBack cb (paramBcast P) (parLens 1) (strAt 1) (parAt 1 2) ++
          bcastBack cw (paramBcast P) (parLens 0) (strAt 3) (parAt 0 4)
      | none => bcastBack cw (paramBcast P) (parLens 0) (strAt 1) (parAt 0 2))

section
variable [AddCommMonoid F] {W : List Nat} {P : Cart} {S G : Nat → NSt F} {T : Nat → List (NSt F)}

theorem convCuts_flatten [Mul F] (c cw cb : Nat) (C : ConvLayer F) (rgw : Bool) (B : Bufs β) :
    (convCuts c cw cb P C rgw B).flatten = convProg c cw cb P C rgw B := by
  unfold convCuts convProg
  split
  · simp
  · cases C.bias <;> simp [paramProg]

/-- The broadcast of parameter `i`: what is on the tape. -/
theorem param_tape (c i : Nat) (a : Tensor F) (rgw : Bool) (hP : P.WF) (hroot : ∃ ρ, P.root = some ρ)
    (hD : 0 < P.shape.length) (hW : ∀ w ∈ P.members, w ∈ W) (S : Nat → NSt F) :
    infoOf (parLens i) (sync (loadPhase P i a rgw) S (P.members.getD 0 0)) = (a.shape, a.dtype, rgw) ∧
    (run (paramProg c P i a rgw) S (P.members.getD 0 0)).str = (a.shape, a.dtype, rgw) := by
  have hl := paramBcast_layer hP hroot hD
  obtain ⟨w0, h0, hm0⟩ := hP.head
  have hw0 : P.members.getD 0 0 = w0 := by
    rw [List.head?_eq_getElem?] at h0
    rw [List.getD_eq_getElem?_getD, h0]
    rfl
  have hmem : ∀ w ∈ (paramBcast P).Px.members, w = P.members.getD 0 0 := fun w hw => by
    simpa [paramBcast, rootCart] using hw
  obtain ⟨S1, hS1⟩ : ∃ S1, S1 = sync (loadPhase P i a rgw) S := ⟨_, rfl⟩
  have r1 : ∀ w, S1 w = if w ∈ P.members then (parLens i).set ((rootParam P a rgw).x w,
      if w = P.members.getD 0 0 then rgw else false) (S w) else S w := fun w => by rw [hS1]; rfl
  have e1 : infoOf (parLens i) (S1 (P.members.getD 0 0)) = (a.shape, a.dtype, rgw) := by
    rw [r1, hw0, if_pos hm0, if_pos rfl]
    unfold infoOf
    rw [(parLens i).get_set]
    simp [rootParam, ← hw0]
  obtain ⟨o2, Y, s, r2, y1, y2, y3, hs⟩ := bcast_run (S := S1) (ℓ := parLens i) c hl
    (fun w hw => by rw [hmem w hw, hw0]; exact hW _ hm0) hW (slot_par i) (fun h => by simp [paramBcast] at h)
  refine ⟨hS1 ▸ e1, ?_⟩
  show (run (bcastProg c (paramBcast P) (parLens i)) (sync (loadPhase P i a rgw) S) _).str = _
  rw [← hS1, r2 _ (by rw [hw0]; exact hW _ hm0)]
  show s _ = _
  have hm : P.members.getD 0 0 ∈ P.members := by rw [hw0]; exact hm0
  rw [hs rfl _ hm, hmem _ (hl.root_mem hm), e1]

/-- The adjoint of the broadcast of a parameter: the first worker gets the sum of the workers' gradients. -/
theorem paramBack_run (c i js jp : Nat) (a : Tensor F) (rgw : Bool) (hP : P.WF) (hroot : ∃ ρ, P.root = some ρ)
    (hD : 0 < P.shape.length) (hW : ∀ w ∈ P.members, w ∈ W) (gw : Nat → List Nat → F)
    (hg : ∀ r, r < P.members.length → ((G (P.members.getD r 0)).par i).1 = ⟨a.shape, a.dtype, gw r⟩)
    (hs : strAt js (T (P.members.getD 0 0)) = (a.shape, a.dtype, rgw))
    (hp : parAt i jp (T (P.members.getD 0 0)) = (a.shape, a.dtype, rgw)) :
    ProgOK W ((bcastBack c (paramBcast P) (parLens i) (strAt js) (parAt i jp)).at T) G ∧
    (∀ w ∈ W, (run ((bcastBack c (paramBcast P) (parLens i) (strAt js) (parAt i jp)).at T) G w).t = (G w).t ∧
      (run ((bcastBack c (paramBcast P) (parLens i) (strAt js) (parAt i jp)).at T) G w).err = (G w).err ∧
      ∀ j, j ≠ i → (run ((bcastBack c (paramBcast P) (parLens i) (strAt js) (parAt i jp)).at T) G w).par j = (G w).par j) ∧
    ((run ((bcastBack c (paramBcast P) (parLens i) (strAt js) (parAt i jp)).at T) G (P.members.getD 0 0)).par i).1 =
      ⟨a.shape, a.dtype, fun l => ∑ r ∈ Finset.range P.members.length, gw r l⟩ ∧
    ∀ v ∈ P.members, v ≠ P.members.getD 0 0 →
      ((run ((bcastBack c (paramBcast P) (parLens i) (strAt js) (parAt i jp)).at T) G v).par i).1.shape.prod = 0 := by
  have hl := paramBcast_layer hP hroot hD
  have hm0 : P.members.getD 0 0 ∈ P.members := by
    obtain ⟨w0, h0, hm0⟩ := hP.head
    exact getD_mem (List.length_pos_of_mem hm0)
  have hmem : ∀ w ∈ (paramBcast P).Px.members, w = P.members.getD 0 0 := fun w hw => by
    simpa [paramBcast, rootCart] using hw
  have hbr : ∀ v ∈ P.members, (paramBcast P).broot v = P.members.getD 0 0 := fun v hv => hmem _ (hl.root_mem hv)
  obtain ⟨o, Y, r1, y1, y2, y3⟩ := bcastBack_run (S := G) (T := T) (ℓ := parLens i) c hl
    (fun w hw => by rw [hmem w hw]; exact hW _ hm0) hW (fun h => by simp [paramBcast] at h) (lf := strAt js) (rt := parAt i jp)
    (fun v hv => by
      have hv' : v ∈ P.members := hv
      have := hg _ (List.idxOf_lt_length_of_mem hv')
      rw [getD_idxOf hv'] at this
      rw [hbr v hv', hp]
      unfold infoOf
      show ((G v).par i).1.shape = _ ∧ ((G v).par i).1.dtype = _
      rw [this]
      exact ⟨rfl, rfl⟩)
    (fun _ r hr _ _ => by
      rw [hmem r hr, hs, hp]
      exact ⟨rfl, rfl⟩)
  refine ⟨o, fun w hw => ?_, ?_, fun v hv hne => ?_⟩
  · rw [r1 w hw]
    refine ⟨rfl, rfl, fun j hj => ?_⟩
    simp [parLens, hj]
  · rw [r1 _ (hW _ hm0)]
    show ((parLens i).get ((parLens i).set _ _)).1 = _
    rw [(parLens i).get_set, y1 _ (by simp [paramBcast, rootCart]), hp]
    show Tensor.mk _ _ _ = Tensor.mk _ _ _
    congr 1
    funext l
    show (((P.members.filter fun v => decide ((paramBcast P).broot v = P.members.getD 0 0)).map fun v =>
      ((G v).par i).1.val l).sum) = _
    rw [List.filter_eq_self.2 fun v hv => by simpa using hbr v hv, sum_range_list]
    congr 1
    apply List.ext_getElem
    · simp
    · intro j h1 h2
      have hj : j < P.members.length := by simpa using h1
      have := hg j hj
      rw [List.getD_eq_getElem _ _ hj] at this
      rw [List.getElem_map, List.getElem_map, List.getElem_range, this]
  · rw [r1 v (hW v hv)]
    show ((parLens i).get ((parLens i).set _ _)).1.shape.prod = 0
    rw [(parLens i).get_set]
    exact y2 v hv fun h => hne (hmem v h)

end

section
variable [CommSemiring F] {W : List Nat} {P : Cart} {L : Layout} {t : TorchDtype} {X Y : List Nat → F} {S G : Nat → NSt F}
  {T : Nat → List (NSt F)}

/-- The gradients of the layer's parameters: those of the sequential convolution on the first worker, tensors without
entries on the others. -/
structure ConvGrads (P : Cart) (C : ConvLayer F) (shape : List Nat) (X Y : List Nat → F)
    (gr : Nat → Nat → Tensor F) : Prop where
  weight : (gr (P.members.getD 0 0) 0).shape = C.weight.shape ∧ ∀ co c κ, co < C.Co → c < C.Ci / C.groups →
    InBounds κ C.W.k → (gr (P.members.getD 0 0) 0).val (co :: c :: κ) =
      torchConvGradW C.W C.groups C.Ci C.Co shape X Y (co :: c :: κ)
  bias : ∀ b, C.bias = some b → (gr (P.members.getD 0 0) 1).shape = b.shape ∧
    ∀ co, co < C.Co → (gr (P.members.getD 0 0) 1).val [co] = torchConvGradB C.W C.Co shape Y [co]
  others : ∀ v ∈ P.members, v ≠ P.members.getD 0 0 → (gr v 0).shape.prod = 0 ∧
    (C.bias.isSome = true → (gr v 1).shape.prod = 0)

theorem convBack_run (c cw cb : Nat) (C : ConvLayer F) (rgw : Bool) (B : Bufs β) {nd : Nat}
    {pk ps pp pd : List Nat} (hC : winParams nd pk ps pp pd = some C.W) (hD : P.shape.length = nd + 2)
    (hch : P.shape.getD 1 0 = 1) (hroot : ∃ ρ, P.root = some ρ)
    (hgr : 0 < C.groups ∧ C.groups ∣ C.Ci ∧ C.groups ∣ C.Co)
    (hCi : L.global.getD 1 0 = C.Ci) (hl : P.members.length ≠ 1 → WinLimits P C.W L) (hP : P.WF) (hL : L.pshape = P.shape)
    (hW : ∀ w ∈ P.members, w ∈ W) (h : Holds W P L t X S)
    (hG : HoldsG W P (Layout.balanced P.shape (torchConvShape C.W C.Co L.global)) t Y G)
    (hT : ∀ w ∈ W, ∃ rest, T w = snaps (convCuts c cw cb P C rgw B) S w ++ rest) :
    ProgOK W ((convBack c cw cb P C B).at T) G ∧
    HoldsG W P L t (torchConvGradX C.W C.groups C.Ci C.Co C.weight.val L.global Y) (run ((convBack c cw cb P C B).at T) G) ∧
    ConvGrads P C L.global X Y fun w i => ((run ((convBack c cw cb P C B).at T) G w).par i).1 := by
  have hplen : C.W.p.length ≤ P.shape.length := by
    obtain ⟨-, -, ⟨h, -⟩, -⟩ := C39_parameters.1 hC
    omega
  have hD0 : 0 < P.shape.length := by omega
  obtain ⟨rg, hrg⟩ := h.parts
  have h0 := h.winInput (Q := C.W) hP hL hplen hrg
  have hog := HoldsG.outGrads hP hG
  have hm0 : 0 < P.members.length := by
    obtain ⟨w0, -, hm0⟩ := hP.head
    exact List.length_pos_of_mem hm0
  by_cases h1 : P.members.length = 1
  · -- one worker
    have hsn : ∀ w ∈ W, (T w)[0]? = some (S w) := by
      intro w hw
      obtain ⟨rest, e⟩ := hT w hw
      rw [e, convCuts, if_pos h1]
      rfl
    have hprog : (convBack c cw cb P C B).at T = [fun u => convBackOne P C (T u) u] := by
      unfold convBack
      rw [if_pos h1]
      rfl
    have hrun : ∀ w ∈ W, run ((convBack c cw cb P C B).at T) G w = if w ∈ P.members then { G w with
          t := ⟨(S w).t.shape, (S w).t.dtype, torchConvGradX C.W C.groups C.Ci C.Co C.weight.val (S w).t.shape (G w).t.val⟩
          par := convParGrad C C.W (fun
            | 0 => (C.weight, false)
            | _ => (C.bias.getD C.weight, false)) ((S w).t.shape, (S w).t.val) (G w).t (G w).par } else G w := by
      intro w hw
      rw [hprog]
      show (if w ∈ P.members then match (T w)[0]? with | some A => _ | none => _ else _) = _
      rw [hsn w hw]
    obtain ⟨U, Sx, R0⟩ := C39_starts h0 0 B.dt B.junk B.ops true
    have hroot0 : P.members.getD 0 0 ∈ P.members := getD_mem hm0
    have hi0 : P.members.idxOf (P.members.getD 0 0) = 0 := idxOf_getD hP.nodup hm0
    have hloc0 : (gathered P S (P.members.getD 0 0)).1 = (S (P.members.getD 0 0)).t.shape := by
      rw [gathered_own hroot0]
      rfl
    refine ⟨?_, HoldsG.finish h hG (fun w hw => ?_) (fun w hw hn => by rw [hrun w hw, if_neg hn]) fun r hr => ?_, ?_, ?_, ?_⟩
    · rw [hprog]
      exact ⟨localPhase_ok fun w y => (convBackOne P C (T w) w y).work y, trivial⟩
    · rw [hrun w hw]
      split <;> rfl
    · have hm := getD_mem (M := P.members) hr
      rw [hrun _ (hW _ hm), if_pos hm]
      refine ⟨rfl, rfl, fun l hb => ?_⟩
      have := C60_convolution (eager' := true) (k' := 0) (g' := Exchange.GState.init fun _ _ => 0) C hC hD hch hroot hgr h0 hCi hl
        (fun hn => absurd h1 hn) (dt := B.dt) (junk := B.junk) (ops := B.ops) (eager := true) (k := 0) (U := U) (S := Sx)
        (g := Exchange.GState.init fun _ _ => 0) rgw hog (fun hn => absurd h1 hn) hr (fun hn => absurd h1 hn) l hb
      unfold featureGradX at this
      rw [if_pos h1, gathered_own hm] at this
      exact this
    · obtain ⟨⟨z, hz, z1, -, z2⟩, -⟩ := C61_weight C hC hD hch hroot hgr h0 hCi hl
        (fun hn => absurd h1 hn) (dt := B.dt) (junk := B.junk) (ops := B.ops) (eager := true) (k := 0) (U := U) (S := Sx)
        (g := Exchange.GState.init fun _ _ => 0) (fun hn => absurd h1 hn) rgw hog
      unfold featureGradW at hz
      rw [if_pos h1, hi0, hloc0] at hz
      cases hz
      rw [hrun _ (hW _ hroot0), if_pos hroot0]
      exact ⟨rfl, z2⟩
    · intro b hb
      obtain ⟨⟨z, hz, z1, -, z2⟩, -⟩ := C61_bias C b hC hD hch hroot hgr h0 hCi hl
        (fun hn => absurd h1 hn) (dt := B.dt) (junk := B.junk) (ops := B.ops) (eager := true) (k := 0) (U := U) (S := Sx)
        (g := Exchange.GState.init fun _ _ => 0) (fun hn => absurd h1 hn) rgw hog
      unfold featureGradB at hz
      rw [if_pos h1, hi0, hloc0] at hz
      cases hz
      rw [hrun _ (hW _ hroot0), if_pos hroot0]
      simp only [convParGrad, hb, Option.isSome_some, if_true, Option.getD_some]
      exact ⟨trivial, z2⟩
    · intro v hv hne
      exfalso
      apply hne
      obtain ⟨a, ha⟩ := List.length_eq_one_iff.1 h1
      rw [ha] at hv ⊢
      simpa using hv
  · -- several workers
    have hroot0 : P.members.getD 0 0 ∈ P.members := getD_mem hm0
    obtain ⟨-, f1, i1⟩ := setup_run c hW S
    generalize hS1 : run (setupProg c P) S = S1 at f1 i1
    obtain ⟨-, f2, p2⟩ := param_run cw 0 C.weight rgw hP hroot hD0 hW S1
    obtain ⟨u2, v2⟩ := param_tape cw 0 C.weight rgw hP hroot hD0 hW S1
    obtain ⟨S2, hS2⟩ : ∃ S2, S2 = run (paramProg cw P 0 C.weight rgw) S1 := ⟨_, rfl⟩
    rw [← hS2] at f2 p2 v2
    have hb : ∃ S3, (∀ w ∈ W, (S3 w).t = (S2 w).t ∧ (S3 w).rg = (S2 w).rg ∧
          (S3 w).info = (S2 w).info ∧ (S3 w).par 0 = (S2 w).par 0) ∧
        (∀ b, C.bias = some b → ∀ w ∈ P.members, (S3 w).par 1 = (b, rgw)) ∧
        (∀ w ∈ W, (T w)[0]? = some (run (exchangeProg c P C.W 0 B) S3 w)) ∧
        (C.bias = none → strAt 1 (T (P.members.getD 0 0)) = (C.weight.shape, C.weight.dtype, rgw) ∧
          parAt 0 2 (T (P.members.getD 0 0)) = (C.weight.shape, C.weight.dtype, rgw)) ∧
        ∀ b, C.bias = some b → strAt 1 (T (P.members.getD 0 0)) = (b.shape, b.dtype, rgw) ∧
          parAt 1 2 (T (P.members.getD 0 0)) = (b.shape, b.dtype, rgw) ∧
          strAt 3 (T (P.members.getD 0 0)) = (C.weight.shape, C.weight.dtype, rgw) ∧
          parAt 0 4 (T (P.members.getD 0 0)) = (C.weight.shape, C.weight.dtype, rgw) := by
      cases hbias : C.bias with
      | none =>
        have hsn : ∀ w, snaps (convCuts c cw cb P C rgw B) S w = [run (exchangeProg c P C.W 0 B) S2 w, S2 w,
            sync (loadPhase P 0 C.weight rgw) S1 w, S1 w, S w] := by
          intro w
          unfold convCuts
          rw [if_neg h1, hbias, hS2, ← hS1]
          rfl
        simp only [hsn] at hT
        refine ⟨S2, fun w _ => ⟨rfl, rfl, rfl, rfl⟩, fun b hb => by simp at hb, fun w hw => ?_, fun _ => ?_,
          fun b hb => by simp at hb⟩
        · obtain ⟨rest, e⟩ := hT w hw
          rw [e]
          rfl
        · obtain ⟨rest, e⟩ := hT _ (hW _ hroot0)
          rw [e]
          exact ⟨v2, u2⟩
      | some b =>
        obtain ⟨-, f3, p3⟩ := param_run cb 1 b rgw hP hroot hD0 hW S2
        obtain ⟨u3, v3⟩ := param_tape cb 1 b rgw hP hroot hD0 hW S2
        obtain ⟨S3, hS3⟩ : ∃ S3, S3 = run (paramProg cb P 1 b rgw) S2 := ⟨_, rfl⟩
        rw [← hS3] at f3 p3 v3
        have hsn : ∀ w, snaps (convCuts c cw cb P C rgw B) S w = [run (exchangeProg c P C.W 0 B) S3 w, S3 w,
            sync (loadPhase P 1 b rgw) S2 w, S2 w, sync (loadPhase P 0 C.weight rgw) S1 w, S1 w, S w] := by
          intro w
          unfold convCuts
          rw [if_neg h1, hbias, hS3, hS2, ← hS1]
          rfl
        simp only [hsn] at hT
        refine ⟨S3, fun w hw => ?_, fun b' hb' => ?_, fun w hw => ?_, fun hb => by simp at hb, fun b' hb' => ?_⟩
        · obtain ⟨a1, a2, -, a4, a5⟩ := f3 w hw
          exact ⟨a1, a2, a4, a5 0 (by omega)⟩
        · cases hb'
          exact p3
        · obtain ⟨rest, e⟩ := hT w hw
          rw [e]
          rfl
        · cases hb'
          obtain ⟨rest, e⟩ := hT _ (hW _ hroot0)
          rw [e]
          exact ⟨v3, u3, v2, u2⟩
    obtain ⟨S3, f3, p3, hT0, ta, tb⟩ := hb
    have hkeep : ∀ w ∈ W, (S3 w).t = (S w).t ∧ (S3 w).rg = (S w).rg ∧ (S3 w).info = (S1 w).info := by
      intro w hw
      obtain ⟨a1, a2, a4, -⟩ := f3 w hw
      obtain ⟨b1, b2, -, b4, -⟩ := f2 w hw
      obtain ⟨c1, c2, -, -⟩ := f1 w hw
      exact ⟨a1.trans (b1.trans c1), a2.trans (b2.trans c2), a4.trans b4⟩
    have hg : gathered P S3 = gathered P S := by
      funext v
      unfold gathered
      split
      · next hv =>
        obtain ⟨a1, a2, -⟩ := hkeep v (hW v hv)
        rw [NSt.own, NSt.own, a1, a2]
      · rfl
    have h3 : WinInput P C.W L (gathered P S3) (fun w => (S3 w).t.val) X t rg := by
      refine ⟨h0.wf, h0.layout, h0.plen, hg ▸ h0.loc, fun v hv => ?_⟩
      rw [(hkeep v (hW v hv)).1]
      exact h0.data v hv
    have hp0 : ∀ w ∈ P.members, (S3 w).par 0 = (C.weight, rgw) := fun w hm => ((f3 w (hW w hm)).2.2.2).trans (p2 w hm)
    obtain ⟨o, e1, e2, a, U, Sx, k, g, R, hf, hb⟩ := winBack_run (G := G) (T := T) c 0 B hW
      (fun w hw => ((hkeep w (hW w hw)).2.2.trans (i1 w hw)).trans hg.symm) h3
      (fun A I y => torchConvGradX C.W.noPad C.groups C.Ci C.Co (A.par 0).1.val I.1 y.val)
      (fun A => convParGrad C C.W.noPad A.par) hT0
    obtain ⟨k', g', Bk, hr⟩ := hb (convLocalGradX P C rgw (gathered P S3) (fun w => (S3 w).t.val) U g
      fun r => (G (P.members.getD r 0)).t.val) (by
        intro r hr'
        unfold convLocalGradX
        rw [paramBcast_forward hP hroot hD0 C.weight rgw hr']
        show _ = torchConvGradX _ _ _ _ ((S3 (P.members.getD r 0)).par 0).1.val _ _
        rw [hp0 _ (getD_mem hr')])
    have hprog : (convBack c cw cb P C B).at T = (winBack c P C.W 0 B
      (fun A I y => torchConvGradX C.W.noPad C.groups C.Ci C.Co (A.par 0).1.val I.1 y.val)
      (fun A => convParGrad C C.W.noPad A.par)).at T ++ CProg.at (match C.bias with
        | some _ => bcastBack cb (paramBcast P) (parLens 1) (strAt 1) (parAt 1 2) ++
          bcastBack cw (paramBcast P) (parLens 0) (strAt 3) (parAt 0 4)
        | none => bcastBack cw (paramBcast P) (parLens 0) (strAt 1) (parAt 0 2)) T := by
      unfold convBack
      rw [if_neg h1, CProg.at_append]
    generalize hG1 : run ((winBack c P C.W 0 B
      (fun A I y => torchConvGradX C.W.noPad C.groups C.Ci C.Co (A.par 0).1.val I.1 y.val)
      (fun A => convParGrad C C.W.noPad A.par)).at T) G = G1 at e1 e2 hr
    have hrun : run ((convBack c cw cb P C B).at T) G = run (CProg.at (match C.bias with
        | some _ => bcastBack cb (paramBcast P) (parLens 1) (strAt 1) (parAt 1 2) ++
          bcastBack cw (paramBcast P) (parLens 0) (strAt 3) (parAt 0 4)
        | none => bcastBack cw (paramBcast P) (parLens 0) (strAt 1) (parAt 0 2)) T) G1 := by
      rw [hprog, run_append, hG1]
    -- the gradient of the input
    have hgx : HoldsG W P L t (torchConvGradX C.W C.groups C.Ci C.Co C.weight.val L.global Y) G1 := by
      refine HoldsG.finish h hG e1 (fun w hw hn => by rw [e2 w hw hn]) fun r hr' => ?_
      obtain ⟨q1, q2, -⟩ := hr r hr'
      rw [q2, (hkeep _ (hW _ (getD_mem hr'))).1]
      refine ⟨rfl, rfl, fun l hb => ?_⟩
      have := C60_convolution C hC hD hch hroot hgr h3 hCi hl (fun _ => R) rgw hog (fun _ => Bk) hr' (fun _ => q1) l hb
      unfold featureGradX at this
      rw [if_neg h1] at this
      exact this
    have keep : ∀ G2 : Nat → NSt F, (∀ w ∈ W, (G2 w).t = (G1 w).t ∧ (G2 w).err = (G1 w).err) →
        HoldsG W P L t (torchConvGradX C.W C.groups C.Ci C.Co C.weight.val L.global Y) G2 := by
      intro G2 hk
      refine ⟨fun w hw => (hk w hw).2.trans (hgx.calm w hw), fun w hw => ?_, fun v hv => ?_, fun v hv => ?_⟩
      · rw [(hk w hw).1]; exact hgx.batch w hw
      · rw [(hk v (hW v hv)).1]; exact hgx.parts v hv
      · rw [(hk v (hW v hv)).1]; exact hgx.data v hv
    -- the gradients of the parameters
    let gw : Nat → List Nat → F := fun r => torchConvGradW C.W.noPad C.groups C.Ci C.Co
      (localInput P 0 (gathered P S3) (fun w => (S3 w).t.val) U g r).1
      (localInput P 0 (gathered P S3) (fun w => (S3 w).t.val) U g r).2 (G (P.members.getD r 0)).t.val
    let gb : Nat → List Nat → F := fun r => torchConvGradB C.W.noPad C.Co
      (localInput P 0 (gathered P S3) (fun w => (S3 w).t.val) U g r).1 (G (P.members.getD r 0)).t.val
    have hgw : ∀ r, r < P.members.length → ((G1 (P.members.getD r 0)).par 0).1 = ⟨C.weight.shape, C.weight.dtype, gw r⟩ := by
      intro r hr'
      rw [(hr r hr').2.2]
      show Tensor.mk ((S3 (P.members.getD r 0)).par 0).1.shape ((S3 (P.members.getD r 0)).par 0).1.dtype _ = _
      rw [hp0 _ (getD_mem hr')]
    have hgb : ∀ b, C.bias = some b → ∀ r, r < P.members.length →
        ((G1 (P.members.getD r 0)).par 1).1 = ⟨b.shape, b.dtype, gb r⟩ := by
      intro b hb r hr'
      rw [(hr r hr').2.2]
      simp only [convParGrad, hb, Option.isSome_some, if_true]
      show Tensor.mk ((S3 (P.members.getD r 0)).par 1).1.shape ((S3 (P.members.getD r 0)).par 1).1.dtype _ = _
      rw [p3 b hb _ (getD_mem hr')]
    have hsw : ∀ co c κ, co < C.Co → c < C.Ci / C.groups → InBounds κ C.W.k →
        (∑ r ∈ Finset.range P.members.length, gw r (co :: c :: κ)) =
          torchConvGradW C.W C.groups C.Ci C.Co L.global X Y (co :: c :: κ) := by
      intro co c κ hco hc hκ
      exact weight_gather hC hD hch hgr h3 hCi (hl h1) R hf hog hco hc hκ
    have hsb : ∀ b, C.bias = some b → ∀ co, co < C.Co → (∑ r ∈ Finset.range P.members.length, gb r [co]) =
        torchConvGradB C.W C.Co L.global Y [co] := by
      intro b hb co hco
      obtain ⟨⟨z, hz, z1, -, z2⟩, -⟩ := C61_bias C b hC hD hch hroot hgr h3 hCi hl (fun _ => R) (fun _ => hf) rgw hog
      unfold featureGradB at hz
      rw [if_neg h1, (param_backward hP hroot hD0 b rgw gb).1] at hz
      cases hz
      exact z2 co hco
    rw [hrun, hprog]
    cases hbias : C.bias with
    | none =>
      dsimp only
      obtain ⟨q1, q2⟩ := ta hbias
      obtain ⟨s1, s2, s3, s4⟩ := paramBack_run (G := G1) (T := T) cw 0 1 2 C.weight rgw hP hroot hD0 hW gw hgw q1 q2
      refine ⟨?_, keep _ fun w hw => ⟨(s2 w hw).1, (s2 w hw).2.1⟩, ?_, fun b hb => ?_, fun v hv hne => ⟨s4 v hv hne, fun hb => ?_⟩⟩
      · rw [progOK_append, hG1]
        exact ⟨o, s1⟩
      · rw [s3]
        exact ⟨rfl, hsw⟩
      · rw [hbias] at hb; cases hb
      · rw [hbias] at hb; cases hb
    | some b =>
      dsimp only
      obtain ⟨q1, q2, q3, q4⟩ := tb b hbias
      obtain ⟨s1, s2, s3, s4⟩ := paramBack_run (G := G1) (T := T) cb 1 1 2 b rgw hP hroot hD0 hW gb (hgb b hbias) q1 q2
      rw [CProg.at_append, run_append]
      generalize hG2 : run ((bcastBack cb (paramBcast P) (parLens 1) (strAt 1) (parAt 1 2)).at T) G1 = G2 at s2 s3 s4
      obtain ⟨u1, u2, u3, u4⟩ := paramBack_run (G := G2) (T := T) cw 0 3 4 C.weight rgw hP hroot hD0 hW gw
        (fun r hr' => by rw [(s2 _ (hW _ (getD_mem hr'))).2.2 0 (by omega)]; exact hgw r hr') q3 q4
      refine ⟨?_, keep _ fun w hw => ⟨(u2 w hw).1.trans (s2 w hw).1, (u2 w hw).2.1.trans (s2 w hw).2.1⟩, ?_, fun b' hb' => ?_,
        fun v hv hne => ⟨u4 v hv hne, fun _ => ?_⟩⟩
      · rw [progOK_append, hG1, progOK_append, hG2]
        exact ⟨o, s1, u1⟩
      · rw [u3]
        exact ⟨rfl, hsw⟩
      · rw [hbias] at hb'
        cases hb'
        rw [(u2 _ (hW _ hroot0)).2.2 1 (by omega), s3]
        exact ⟨rfl, hsb b hbias⟩
      · rw [(u2 _ (hW _ hv)).2.2 1 (by omega)]
        exact s4 v hv hne

end

end Verif.Net
