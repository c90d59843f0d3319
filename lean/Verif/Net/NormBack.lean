import Verif.Net.NormRun

/-!
# Networks: backward of batch norm

Autograd goes through `batchnorm.py:188-233` in reverse order: shift, scale and normalisation, the broadcasts of the parameters,
then variance and mean, if they are those of the batch.
-/

namespace Verif.Net

variable {F : Type} [Field F]

/-- A local step of the backward pass; `A` are the local data before `batchnorm.py:225`, kept in the forward pass. -/
def normBackPhase (M : BatchNorm F) (f : Nat → NSt F → NSt F → Option (NSt F)) (T : List (NSt F)) :
    Nat → NSt F → Phase (NSt F) (NMsg F) :=
  localPhase fun w x => if w ∈ M.P.members then
    match T[0]?.bind fun A => f w A x with
    | some y => y
    | none => { x with err := true } else x

/-- Backward of `batchnorm.py:228-233`: gradients of `beta` (slot 1), of `gamma` (slot 0) and of the normalised tensor. -/
def applyBack (N : NormLayer F) (A x : NSt F) : Option (NSt F) :=
  if N.M.affine then
    (bnNormal N.M N.sqrt A.t ((A.par 2).1, (A.par 3).1)).bind fun y => (torchZip (fun a b => a * b) x.t y).bind fun u =>
      (torchZip (fun a g => a * g) x.t (A.par 0).1).map fun d =>
        (parLens 0).set (sumTo (A.par 0).1.shape u, false) ((parLens 1).set (sumTo (A.par 1).1.shape x.t, false) { x with t := d })
  else some x

/-- Backward of `batchnorm.py:225` with stored statistics. -/
def normalBack (N : NormLayer F) (A x : NSt F) : Option (NSt F) :=
  (bnNormalGrad N.M N.sqrt ((A.par 2).1, (A.par 3).1) x.t).map fun d => { x with t := d }

/-- Backward of `batchnorm.py:225` with the statistics of the batch: gradients of the variance (slot 3) and of
`input - mean`. -/
def varBack (N : NormLayer F) (A x : NSt F) : Option (NSt F) :=
  (bnVarGrad N.M N.sqrt A.t ((A.par 2).1, (A.par 3).1) x.t).bind fun ds =>
    (bnNormalGrad N.M N.sqrt ((A.par 2).1, (A.par 3).1) x.t).map fun d => (parLens 3).set (ds, false) { x with t := d }

/-- Backward of `batchnorm.py:158` and of the local sums of the squares (`133-136`): gradients of the mean (slot 2) and of the
input, so far. -/
def devBack (A x : NSt F) : Option (NSt F) :=
  (bnDeviationGrad A.t (A.par 2).1 (expandTo A.t.shape (x.par 3).1)).map fun de =>
    (parLens 2).set (⟨(A.par 2).1.shape, x.t.dtype, fun i =>
        -(sumTo (A.par 2).1.shape de).val i - (sumTo (A.par 2).1.shape x.t).val i⟩, false)
      { x with t := ⟨A.t.shape, x.t.dtype, fun i => de.val i + x.t.val i⟩ }

/-- Backward of the local sums (`batchnorm.py:133-136`). -/
def sumBack (A x : NSt F) : Option (NSt F) :=
  some { x with t := ⟨A.t.shape, x.t.dtype, fun i => (expandTo A.t.shape (x.par 2).1).val i + x.t.val i⟩ }

/-- Backward of the division (`batchnorm.py:138`) in slot `i`. -/
def divBack (M : BatchNorm F) (i w : Nat) (A x : NSt F) : Option (NSt F) :=
  (normVolume M A.info w).map fun (V : Int) => (parLens i).set
    (⟨(x.par i).1.shape, (x.par i).1.dtype, fun j => (x.par i).1.val j / (V : F)⟩, (x.par i).2) x

/-- Backward of an average (`batchnorm.py:137-139`) in slot `i`; entry `k` of the tape is the one after its broadcast. -/
def statBack (cs cb : Nat) (M : BatchNorm F) (i k : Nat) : CProg (List (NSt F)) (NSt F) (NMsg F) :=
  bcastBack cb M.bc (parLens i) (strAt k) (parAt i (k + 1)) ++ ([normBackPhase M (divBack M i)] ++
    reduceBack cs M.sr (parLens i) (parAt i (k + 3)))

/-- Backward of the broadcasts of the parameters (`batchnorm.py:229-230`). -/
def paramsBack (ca : Nat) (M : BatchNorm F) : CProg (List (NSt F)) (NSt F) (NMsg F) :=
  if M.affine then bcastBack ca M.bc (parLens 1) (strAt 0) (parAt 1 1) ++ bcastBack ca M.bc (parLens 0) (strAt 1) (parAt 0 2)
  else []

/-- Backward of the normalisation and the statistics. -/
def statsBack (cs cb : Nat) (N : NormLayer F) : CProg (List (NSt F)) (NSt F) (NMsg F) :=
  if N.batch then [normBackPhase N.M fun _ => varBack N] ++ (statBack cs cb N.M 3 3 ++ ([normBackPhase N.M fun _ => devBack] ++
    (statBack cs cb N.M 2 7 ++ [normBackPhase N.M fun _ => sumBack])))
  else [normBackPhase N.M fun _ => normalBack N]

/-- Backward of `batchnorm.py:188-233`. -/
def normBack (cs cb ca : Nat) (N : NormLayer F) : CProg (List (NSt F)) (NSt F) (NMsg F) :=
  [normBackPhase N.M fun _ => applyBack N] ++ (paramsBack ca N.M ++ statsBack cs cb N)

/-! ## Helpers -/

omit [Field F] in
theorem backPhase_sync {M : BatchNorm F} {f : Nat → NSt F → NSt F → Option (NSt F)} {T : Nat → List (NSt F)} {G : Nat → NSt F}
    {w : Nat} (hw : w ∈ M.P.members) {A y : NSt F} (hA : (T w)[0]? = some A) (hf : f w A (G w) = some y) :
    sync (fun u => normBackPhase M f (T u) u) G w = y := by
  have e : ((T w)[0]?.bind fun A => f w A (G w)) = some y := by rw [hA, Option.bind_some, hf]
  show (if w ∈ M.P.members then _ else _) = _
  rw [if_pos hw, e]

omit [Field F] in
theorem backPhase_other {M : BatchNorm F} {f : Nat → NSt F → NSt F → Option (NSt F)} {T : Nat → List (NSt F)} {G : Nat → NSt F}
    {w : Nat} (hw : w ∉ M.P.members) : sync (fun u => normBackPhase M f (T u) u) G w = G w := if_neg hw

omit [Field F] in
theorem backPhase_ok {W : List Nat} {M : BatchNorm F} (f : Nat → NSt F → NSt F → Option (NSt F)) (T : Nat → List (NSt F))
    (G : Nat → NSt F) : PhaseOK W (fun u => normBackPhase M f (T u) u) G :=
  localPhase_ok fun w y => (normBackPhase M f (T w) w y).work y

theorem gatherAll_some {ws : List Nat} {f : Nat → Option (Tensor F)} {y : Nat → Tensor F} (h : gatherAll ws f = some y) :
    (y = fun v => (f v).getD ⟨[], .float64, fun _ => 0⟩) ∧ ∀ v ∈ ws, f v = some (y v) := by
  unfold gatherAll at h
  split at h
  · next hs =>
    have e := Option.some.inj h
    refine ⟨e.symm, fun v hv => ?_⟩
    obtain ⟨t, et⟩ := Option.isSome_iff_exists.1 (List.all_eq_true.1 hs v hv)
    rw [← e]
    simp only [et, Option.getD_some]
  · cases h

section
variable {W : List Nat} {M : BatchNorm F} {L : Layout} {X : Tensor F} {x : Nat → Tensor F} {rg : Nat → Bool}
  {G : Nat → NSt F} {T : Nat → List (NSt F)}

/-- The adjoint of a broadcast of values of channels. -/
theorem chBack_run (ca i js jp : Nat) (h : BNMade M.P L M) (hW : ∀ w ∈ M.P.members, w ∈ W) {d : TorchDtype}
    (hk : ChKept M L d (fun v => strAt js (T v)) fun r => parAt i jp (T r)) {dm : Nat → Tensor F}
    (hg : ∀ v ∈ M.P.members, ((G v).par i).1 = dm v ∧ (dm v).shape = channelShape M.P.shape.length (chCount M.P L v) ∧
      (dm v).dtype = d) :
    ProgOK W ((bcastBack ca M.bc (parLens i) (strAt js) (parAt i jp)).at T) G ∧ ∃ Y : Nat → Tensor F × Bool,
      (∀ w ∈ W, run ((bcastBack ca M.bc (parLens i) (strAt js) (parAt i jp)).at T) G w = (parLens i).set (Y w) (G w)) ∧
      (∀ r ∈ M.Psum.members, (Y r).1 = ⟨channelShape M.P.shape.length (chCount M.P L r), d, fun j =>
        ((M.P.members.filter fun v => decide (M.bc.broot v = r)).map fun v => (dm v).val j).sum⟩) ∧
      (∀ w ∈ M.P.members, w ∉ M.Psum.members → (Y w).1.shape.prod = 0) ∧
      (∀ w, w ∉ M.P.members → Y w = (G w).par i) ∧
      ∀ (a : Nat → Tensor F) (rg : Nat → Bool), (∀ r ∈ M.Psum.members,
          (a r).shape = channelShape M.P.shape.length (chCount M.P L r) ∧ (a r).dtype = d) →
        (∀ r ∈ M.Psum.members, bcastBackward M.bc ⟨a, rg⟩ dm r = some (Y r).1) ∧
        ∀ w ∈ M.P.members, w ∉ M.Psum.members → ∃ z, bcastBackward M.bc ⟨a, rg⟩ dm w = some z ∧ z.shape.prod = 0 := by
  have hsub := h.sum.sub
  have hfeed : ∀ v ∈ M.P.members, chCount M.P L (M.bc.broot v) = chCount M.P L v := by
    intro v hv
    have hr := h.bcLayer.root_mem (v := v) hv
    exact (ch_congr h.placed h.two ((h.feeds hr hv).1 ((h.bcLayer.rel hr hv).2 rfl))).1
  have hne : ∀ u, u ∈ M.Psum.members ∨ u ∈ M.P.members → (dm u).shape ≠ [] := by
    intro u hu
    have hu' : u ∈ M.P.members := hu.elim (fun h => hsub u h) id
    rw [(hg u hu').2.1]
    exact channelShape_ne h.two
  obtain ⟨o, Y, r1, y1, y2, y3⟩ := bcastBack_run (S := G) (T := T) (ℓ := parLens i) ca h.bcLayer
    (fun r hr => hW r (hsub r hr)) hW (fun _ u hu => by
      have hu' : u ∈ M.P.members := hu.elim (fun h => hsub u h) id
      show ((G u).par i).1.shape ≠ []
      rw [(hg u hu').1]
      exact hne u hu) (lf := strAt js) (rt := parAt i jp)
    (fun v hv => by
      have hv' : v ∈ M.P.members := hv
      obtain ⟨e1, e2⟩ := hk.inp _ (h.bcLayer.root_mem hv)
      obtain ⟨g1, g2, g3⟩ := hg v hv'
      refine ⟨?_, ?_⟩
      · show ((G v).par i).1.shape = _
        rw [g1, g2, e1, chInfo, hfeed v hv']
      · show ((G v).par i).1.dtype = _
        rw [g1, g3, e2, chInfo])
    (fun _ r hr hr' _ => ⟨(hk.str r hr').1.trans (hk.inp r hr).1.symm, (hk.str r hr').2.trans (hk.inp r hr).2.symm⟩)
  have y1' : ∀ r ∈ M.Psum.members, (Y r).1 = ⟨channelShape M.P.shape.length (chCount M.P L r), d, fun j =>
        ((M.P.members.filter fun v => decide (M.bc.broot v = r)).map fun v => (dm v).val j).sum⟩ := by
    intro r hr
    obtain ⟨e1, e2⟩ := hk.inp r hr
    have e : ∀ j, ((M.bc.Py.members.filter fun v => decide (M.bc.broot v = r)).map fun v => ((parLens i).get (G v)).1.val j) =
        (M.P.members.filter fun v => decide (M.bc.broot v = r)).map fun v => (dm v).val j :=
      fun j => List.map_congr_left fun v hv => by
        show ((G v).par i).1.val j = _
        rw [(hg v (List.mem_of_mem_filter hv)).1]
    rw [y1 r hr, e1, e2]
    simp only [e]
    rfl
  refine ⟨o, Y, r1, y1', y2, fun w hw => y3 w (fun h' => hw (hsub w h')) hw, fun a rg ha => ⟨fun r hr => ?_, fun w hw hn => ?_⟩⟩
  · rw [bcast_backward_root (I := ⟨a, rg⟩) h.bcLayer.valid h.bcLayer.same (fun v hv => by
      have hv' : v ∈ M.P.members := hv
      obtain ⟨-, g2, g3⟩ := hg v hv'
      obtain ⟨a1, a2⟩ := ha _ (h.bcLayer.root_mem hv)
      show _ = (a _).shape ∧ _ = (a _).dtype
      rw [a1, a2, g2, g3, hfeed v hv']
      exact ⟨rfl, rfl⟩) (fun u hu _ => hne u hu) hr, y1' r hr]
    show some (Tensor.mk (a r).shape (a r).dtype _) = _
    rw [(ha r hr).1, (ha r hr).2]
    rfl
  · exact bcast_backward_other h.bcLayer.valid h.bcLayer.same (fun u hu _ => hne u hu) hn hw

/-- The adjoint of an average. -/
theorem statBack_run (cs cb i k : Nat) (h : BNMade M.P L M) (hx : Blocks M.P L X x) (hW : ∀ w ∈ M.P.members, w ∈ W) {V : Int}
    (hk : ChKept M L X.dtype (fun v => strAt k (T v)) fun r => parAt i (k + 1) (T r))
    (hb : ∀ v ∈ M.P.members, Info.same (parAt i (k + 3) (T v)) (chInfo M.P L X.dtype v))
    (hV : ∀ v ∈ M.P.members, ∃ A, (T v)[0]? = some A ∧ normVolume M A.info v = some V) {dm : Nat → Tensor F}
    (hg : ∀ v ∈ M.P.members, ((G v).par i).1 = dm v ∧ (dm v).shape = channelShape M.P.shape.length (chCount M.P L v) ∧
      (dm v).dtype = X.dtype) :
    ProgOK W ((statBack cs cb M i k).at T) G ∧ ∃ Y : Nat → Tensor F × Bool,
      (∀ w ∈ W, run ((statBack cs cb M i k).at T) G w = (parLens i).set (Y w) (G w)) ∧
      ∀ v ∈ M.P.members, bnMeanGrad M V x rg dm v = some (expandTo (x v).shape (Y v).1) := by
  have hsub := h.sum.sub
  have hcol : ∀ v ∈ M.P.members, chCount M.P L (M.sr.rroot v) = chCount M.P L v := by
    intro v hv
    have hr := h.srLayer.root_mem (v := v) hv
    exact (ch_congr h.placed h.two ((h.collects hr hv).1 ((h.srLayer.rel hr hv).2 rfl))).1
  obtain ⟨o1, Y1, r1, y1, v1, u1, m1⟩ := chBack_run (G := G) cb i k (k + 1) h hW hk hg
  obtain ⟨G1, hG1⟩ : ∃ G1, G1 = run ((bcastBack cb M.bc (parLens i) (strAt k) (parAt i (k + 1))).at T) G := ⟨_, rfl⟩
  rw [← hG1] at r1
  obtain ⟨G2, hG2⟩ : ∃ G2, G2 = sync (fun u => normBackPhase M (divBack M i) (T u) u) G1 := ⟨_, rfl⟩
  have r2 : ∀ w ∈ M.P.members, G2 w = (parLens i).set (⟨(Y1 w).1.shape, (Y1 w).1.dtype,
      fun j => (Y1 w).1.val j / (V : F)⟩, (Y1 w).2) (G w) := by
    intro w hw
    obtain ⟨A, hA, hAV⟩ := hV w hw
    have e : (G1 w).par i = Y1 w := by
      rw [r1 w (hW w hw)]
      show (parLens i).get ((parLens i).set (Y1 w) (G w)) = _
      rw [(parLens i).get_set]
    rw [hG2, backPhase_sync hw hA (y := (parLens i).set (⟨(Y1 w).1.shape, (Y1 w).1.dtype,
      fun j => (Y1 w).1.val j / (V : F)⟩, (Y1 w).2) (G1 w)) (by rw [divBack, hAV, Option.map_some, e]), r1 w (hW w hw),
      (parLens i).set_set]
  have g2 : ∀ w ∈ M.P.members, (parLens i).get (G2 w) = (⟨(Y1 w).1.shape, (Y1 w).1.dtype,
      fun j => (Y1 w).1.val j / (V : F)⟩, (Y1 w).2) := fun w hw => by rw [r2 w hw, (parLens i).get_set]
  have hne : ∀ u ∈ M.P.members, (Y1 u).1.shape ≠ [] := by
    intro u hu
    by_cases hs : u ∈ M.Psum.members
    · rw [y1 u hs]
      exact channelShape_ne h.two
    · exact shape_ne_of_prod (v1 u hu hs)
  obtain ⟨o3, Y3, r3, y3, -, u3⟩ := reduceBack_run (S := G2) (T := T) (ℓ := parLens i) cs h.srLayer hW
    (fun r hr => hW r (hsub r hr)) (fun _ u hu => by
      have hu' : u ∈ M.P.members := hu.elim id fun h => hsub u h
      show ((parLens i).get (G2 u)).1.shape ≠ []
      rw [g2 u hu']
      exact hne u hu') (buf := parAt i (k + 3)) (fun v hv => by
      have hv' : v ∈ M.P.members := hv
      have hr := h.srLayer.root_mem (v := v) hv
      obtain ⟨b1, b2⟩ := hb v hv'
      unfold infoOf
      rw [g2 _ (hsub _ hr), y1 _ hr]
      refine ⟨b1.trans ?_, b2⟩
      show channelShape _ (chCount M.P L v) = channelShape _ (chCount M.P L (M.sr.rroot v))
      rw [hcol v hv'])
  have hflat : (statBack cs cb M i k).at T = (bcastBack cb M.bc (parLens i) (strAt k) (parAt i (k + 1))).at T ++
      ([fun u => normBackPhase M (divBack M i) (T u) u] ++ (reduceBack cs M.sr (parLens i) (parAt i (k + 3))).at T) := by
    rw [statBack, CProg.at_append, CProg.at_append]
    rfl
  have hrun : run ((statBack cs cb M i k).at T) G = run ((reduceBack cs M.sr (parLens i) (parAt i (k + 3))).at T) G2 := by
    rw [hflat, run_append, run_append, hG2, hG1]
    rfl
  refine ⟨?_, fun w => if w ∈ M.P.members then Y3 w else (G w).par i, fun w hw => ?_, fun v hv => ?_⟩
  · rw [hflat]
    refine progOK_append.2 ⟨o1, backPhase_ok _ _ _, ?_⟩
    rw [← hG1, ← hG2]
    exact o3
  · rw [hrun, r3 w hw]
    by_cases hm : w ∈ M.P.members
    · simp only [if_pos hm]
      rw [r2 w hm, (parLens i).set_set]
    · have hn : w ∉ M.Psum.members := fun h' => hm (hsub w h')
      have e2 : G2 w = G1 w := by rw [hG2]; exact backPhase_other hm
      simp only [if_neg hm]
      rw [u3 w hm hn, (parLens i).set_get, e2, r1 w hw, u1 w hm]
  · simp only [if_pos hv]
    have hr := h.srLayer.root_mem (v := v) hv
    obtain ⟨b1, b2⟩ := m1 (fun u => (bnAverage M V x rg u).getD ⟨[], .float64, fun _ => 0⟩) rg (fun r hr => by
      obtain ⟨m, e, hdt, hc⟩ := h.average_store (rg := rg) hx V hr
      simp only [e, Option.getD_some]
      exact ⟨hc.shape, hdt⟩)
    have hst : ∀ r ∈ M.Psum.members, bnAverageGrad M V x rg dm r = some ⟨(Y1 r).1.shape, (Y1 r).1.dtype,
        fun j => (Y1 r).1.val j / (V : F)⟩ := fun r hr => by rw [bnAverageGrad, b1 r hr, Option.map_some]
    obtain ⟨y, ey, hy⟩ := gatherAll_spec (ws := M.P.members) (f := bnAverageGrad M V x rg dm)
      (p := fun v z => z.shape ≠ [] ∧ (v ∈ M.Psum.members → z = ⟨(Y1 v).1.shape, (Y1 v).1.dtype,
        fun j => (Y1 v).1.val j / (V : F)⟩)) fun u hu => by
        by_cases hs : u ∈ M.Psum.members
        · exact ⟨_, hst u hs, hne u hu, fun _ => rfl⟩
        · obtain ⟨z, ez, hz⟩ := b2 u hu hs
          exact ⟨⟨z.shape, z.dtype, fun j => z.val j / (V : F)⟩, by rw [bnAverageGrad, ez, Option.map_some],
            shape_ne_of_prod hz, fun h' => absurd h' hs⟩
    rw [bnMeanGrad, ey, Option.bind_some, reduce_backward_root (I := ⟨fun u => localSums M.P.shape.length (x u), rg⟩)
      h.srLayer.valid h.srLayer.same ((h.srInputs hx).sameKinds h.srLayer) (fun u hu => by
        have hu' : u ∈ M.P.members := hu
        have hru := h.srLayer.root_mem (v := u) hu
        rw [(hy _ (hsub _ hru)).2 hru, y1 _ hru, hcol u hu']
        show _ = (localSums _ (x u)).shape ∧ _ = (localSums _ (x u)).dtype
        rw [(h.sums hx hu').1, (h.sums hx hu').2]
        exact ⟨rfl, rfl⟩) (fun u hu _ => (hy u (hu.elim id fun h => hsub u h)).1) hv, Option.map_some,
      (hy _ (hsub _ hr)).2 hr, y3 v hv, g2 _ (hsub _ hr)]

end

/-! ## The whole layer -/

section
variable {W : List Nat} {N : NormLayer F} {L : Layout} {t : TorchDtype} {G : Nat → NSt F} {T : Nat → List (NSt F)}
  {X : Tensor F} {x m s g b : Nat → Tensor F} {rg : Nat → Bool}

omit [Field F] in
theorem torchZip_dtype {f : F → F → F} {a b y : Tensor F} (h : torchZip f a b = some y) : y.dtype = a.dtype := by
  obtain ⟨s, -, e⟩ := Option.map_eq_some_iff.1 h
  rw [← e]

/-- Shape and type of the gradient of the variance. -/
theorem varGrad_info {M : BatchNorm F} {sqrt : F → F} {x dz d : Tensor F} {ms : Tensor F × Tensor F}
    (h : bnVarGrad M sqrt x ms dz = some d) : d.shape = ms.2.shape ∧ d.dtype = dz.dtype := by
  obtain ⟨y, -, h⟩ := Option.bind_eq_some_iff.1 h
  obtain ⟨u, e1, h⟩ := Option.bind_eq_some_iff.1 h
  obtain ⟨z, e2, h⟩ := Option.bind_eq_some_iff.1 h
  obtain ⟨d', e3, s1, -⟩ := BNMade.zip_blocks (fun a b => a / (2 * sqrt (b + M.eps))) (a := sumTo ms.2.shape z) (b := ms.2) rfl
  obtain rfl := Option.some.inj (h.symm.trans e3)
  exact ⟨s1, (torchZip_dtype h).trans ((torchZip_dtype e2).trans (torchZip_dtype e1))⟩

/-- The adjoint of normalisation and statistics. -/
theorem statsBack_run (cs cb : Nat) (hm : BNMade N.M.P L N.M) (hx : Blocks N.M.P L X x) (hW : ∀ w ∈ N.M.P.members, w ∈ W)
    (hvals : NormVals N (channelVolume X : Nat) x rg m s g b)
    (hheld : ∀ v ∈ N.M.P.members, (m v).shape = channelShape N.M.P.shape.length (chCount N.M.P L v) ∧
      (s v).shape = channelShape N.M.P.shape.length (chCount N.M.P L v))
    (ht : NormTape N L X.dtype (channelVolume X : Nat) x m s g b T) {dz a : Nat → Tensor F}
    (hz : ∀ v ∈ N.M.P.members, (G v).t = dz v ∧ (dz v).dtype = X.dtype)
    (ha : ∀ w ∈ N.M.P.members, (if !N.training && N.M.track then bnNormalGrad N.M N.sqrt ((N.st w).mean, (N.st w).var) (dz w)
      else bnBatchGrad N.M N.sqrt (channelVolume X : Nat) x rg dz w) = some (a w)) :
    ProgOK W ((statsBack cs cb N).at T) G ∧
    ∀ w ∈ W, (run ((statsBack cs cb N).at T) G w).err = (G w).err ∧
      (run ((statsBack cs cb N).at T) G w).t = (if w ∈ N.M.P.members then a w else (G w).t) ∧
      ∀ i < 2, (run ((statsBack cs cb N).at T) G w).par i = (G w).par i := by
  have hlast := ht.last
  have : Nonempty (NSt F) := ⟨G 0⟩
  choose! A hA using hlast
  cases hb : N.batch with
  | false =>
    have e : (!N.training && N.M.track) = true := by
      have : (N.training || !N.M.track) = false := hb
      revert this
      cases N.training <;> cases N.M.track <;> decide
    have hprog : (statsBack cs cb N).at T = [fun u => normBackPhase N.M (fun _ => normalBack N) (T u) u] := by
      rw [statsBack, hb]
      rfl
    rw [hprog]
    refine ⟨⟨backPhase_ok _ _ _, trivial⟩, fun w hw => ?_⟩
    show (sync _ G w).err = _ ∧ (sync _ G w).t = _ ∧ ∀ i < 2, (sync _ G w).par i = _
    by_cases hmw : w ∈ N.M.P.members
    · obtain ⟨h0, -, h2, h3, -⟩ := hA w hmw
      have := ha w hmw
      rw [if_pos e] at this
      rw [backPhase_sync hmw h0 (y := { G w with t := a w }) (by
        obtain ⟨e1, e2⟩ := hvals.stored hb w hmw
        show (bnNormalGrad _ _ _ _).map _ = _
        rw [h2, h3, e1, e2, (hz w hmw).1, this, Option.map_some]), if_pos hmw]
      exact ⟨rfl, rfl, fun _ _ => rfl⟩
    · rw [backPhase_other hmw, if_neg hmw]
      exact ⟨rfl, rfl, fun _ _ => rfl⟩
  | true =>
    have e : (!N.training && N.M.track) = false := by
      have : (N.training || !N.M.track) = true := hb
      revert this
      cases N.training <;> cases N.M.track <;> decide
    simp only [e, Bool.false_eq_true, if_false] at ha
    obtain ⟨w0, -, hw0⟩ := hm.placed.wf.head
    -- the tensors of the backward pass
    have h0 := ha w0 hw0
    obtain ⟨m', em, h0⟩ := Option.bind_eq_some_iff.1 h0
    obtain ⟨s', es, h0⟩ := Option.bind_eq_some_iff.1 h0
    obtain ⟨e', ee, h0⟩ := Option.bind_eq_some_iff.1 h0
    obtain ⟨ds, eds, h0⟩ := Option.bind_eq_some_iff.1 h0
    obtain ⟨de, ede, h0⟩ := Option.bind_eq_some_iff.1 h0
    obtain ⟨d, ed, -⟩ := Option.bind_eq_some_iff.1 h0
    simp only [bnBatchGrad, em, es, ee, eds, ede, ed, Option.bind_some] at ha
    obtain ⟨fm, gm⟩ := gatherAll_some em
    obtain ⟨-, gs⟩ := gatherAll_some es
    obtain ⟨-, ge⟩ := gatherAll_some ee
    obtain ⟨-, gds⟩ := gatherAll_some eds
    obtain ⟨-, gde⟩ := gatherAll_some ede
    obtain ⟨-, gd⟩ := gatherAll_some ed
    obtain ⟨d1, d2, d3⟩ := dev_blocks (rg := rg) hm hx
    have qm : ∀ v ∈ N.M.P.members, m' v = m v := fun v hv =>
      Option.some.inj ((gm v hv).symm.trans (hvals.mean hb v hv))
    have qs : ∀ v ∈ N.M.P.members, s' v = s v := fun v hv => by
      have := gs v hv
      rw [fm, d3 v hv, hvals.var hb v hv] at this
      exact (Option.some.inj this).symm
    have qe : ∀ v ∈ N.M.P.members, e' v = devOf N.M (channelVolume X : Nat) x rg v := fun v hv => by
      obtain ⟨m1, e1, -, e2⟩ := d1 v hv
      have := ge v hv
      rw [Option.some.inj ((gm v hv).symm.trans e1), e2] at this
      exact (Option.some.inj this).symm
    have hxe : Blocks N.M.P L ⟨X.shape, X.dtype, fun i => (X.val i - channelMean X (i.getD 1 0)) ^ 2⟩ e' := by
      refine ⟨d2.whole, fun v hv => ?_, fun v hv => ?_, fun v hv => ?_⟩ <;> rw [qe v hv]
      · exact d2.shape v hv
      · exact d2.dtype v hv
      · exact d2.val v hv
    have hes : ∀ v ∈ N.M.P.members, (e' v).shape = (x v).shape := fun v hv => (hxe.shape v hv).trans (hx.shape v hv).symm
    have hV : ∀ v ∈ N.M.P.members, ∃ A, (T v)[0]? = some A ∧ normVolume N.M A.info v = some ((channelVolume X : Nat) : Int) :=
      fun v hv => ⟨A v, (hA v hv).1, (hA v hv).2.2.2.2.1⟩
    -- the variance
    obtain ⟨G1, hG1⟩ : ∃ G1, G1 = sync (fun u => normBackPhase N.M (fun _ => varBack N) (T u) u) G := ⟨_, rfl⟩
    have r1 : ∀ v ∈ N.M.P.members, G1 v = (parLens 3).set (ds v, false) { G v with t := d v } := by
      intro v hv
      obtain ⟨h0, h1, h2, h3, -⟩ := hA v hv
      have g1 := gds v hv
      have g2 := gd v hv
      rw [qm v hv, qs v hv] at g1 g2
      rw [hG1]
      refine backPhase_sync hv h0 ?_
      rw [varBack, h1, h2, h3, (hz v hv).1, g1, Option.bind_some, g2, Option.map_some]
    have u1 : ∀ v, v ∉ N.M.P.members → G1 v = G v := fun v hv => by rw [hG1]; exact backPhase_other hv
    obtain ⟨o2, Y2, r2, y2⟩ := statBack_run (G := G1) (T := T) (rg := rg) cs cb 3 3 hm hxe hW (V := (channelVolume X : Nat)) (ht.var hb)
      (ht.squares hb) hV (dm := ds) (fun v hv => by
        obtain ⟨i1, i2⟩ := varGrad_info (gds v hv)
        refine ⟨?_, i1.trans ?_, i2.trans (hz v hv).2⟩
        · rw [r1 v hv]
          rfl
        · show (s' v).shape = _
          rw [qs v hv]
          exact (hheld v hv).2)
    obtain ⟨G2, hG2⟩ : ∃ G2, G2 = run ((statBack cs cb N.M 3 3).at T) G1 := ⟨_, rfl⟩
    rw [← hG2] at r2
    -- the deviations
    obtain ⟨G3, hG3⟩ : ∃ G3, G3 = sync (fun u => normBackPhase N.M (fun _ => devBack) (T u) u) G2 := ⟨_, rfl⟩
    have r3 : ∀ v ∈ N.M.P.members, G3 v = (parLens 2).set (⟨(m' v).shape, (d v).dtype, fun i =>
        -(sumTo (m' v).shape (de v)).val i - (sumTo (m' v).shape (d v)).val i⟩, false)
        { G2 v with t := ⟨(x v).shape, (d v).dtype, fun i => (de v).val i + (d v).val i⟩ } := by
      intro v hv
      obtain ⟨h0, h1, h2, h3, -⟩ := hA v hv
      have g1 := gde v hv
      rw [y2 v hv, Option.bind_some, hes v hv, qm v hv] at g1
      have p3 : ((G2 v).par 3).1 = (Y2 v).1 := by
        rw [r2 v (hW v hv)]
        rfl
      have pt : (G2 v).t = d v := by
        rw [r2 v (hW v hv), r1 v hv]
        rfl
      rw [hG3]
      refine backPhase_sync hv h0 ?_
      rw [devBack, h1, h2, p3, pt, g1, Option.map_some, qm v hv]
    have u3 : ∀ v, v ∉ N.M.P.members → G3 v = G2 v := fun v hv => by rw [hG3]; exact backPhase_other hv
    obtain ⟨o4, Y4, r4, y4⟩ := statBack_run (G := G3) (T := T) (rg := rg) cs cb 2 7 hm hx hW (V := (channelVolume X : Nat)) (ht.mean hb)
      (ht.sums hb) hV (dm := fun v => ⟨(m' v).shape, (d v).dtype, fun i =>
        -(sumTo (m' v).shape (de v)).val i - (sumTo (m' v).shape (d v)).val i⟩) (fun v hv => by
        refine ⟨?_, ?_, ?_⟩
        · rw [r3 v hv]
          rfl
        · show (m' v).shape = _
          rw [qm v hv]
          exact (hheld v hv).1
        · exact (torchZip_dtype (gd v hv)).trans (hz v hv).2)
    obtain ⟨G4, hG4⟩ : ∃ G4, G4 = run ((statBack cs cb N.M 2 7).at T) G3 := ⟨_, rfl⟩
    rw [← hG4] at r4
    -- the sums
    obtain ⟨G5, hG5⟩ : ∃ G5, G5 = sync (fun u => normBackPhase N.M (fun _ => sumBack) (T u) u) G4 := ⟨_, rfl⟩
    have r5 : ∀ v ∈ N.M.P.members, G5 v = { G4 v with t := a v } := by
      intro v hv
      obtain ⟨h0, h1, -⟩ := hA v hv
      have p2 : ((G4 v).par 2).1 = (Y4 v).1 := by
        rw [r4 v (hW v hv)]
        rfl
      have pt : (G4 v).t = ⟨(x v).shape, (d v).dtype, fun i => (de v).val i + (d v).val i⟩ := by
        rw [r4 v (hW v hv), r3 v hv]
        rfl
      have g1 := ha v hv
      rw [y4 v hv, Option.map_some] at g1
      rw [hG5]
      refine backPhase_sync hv h0 ?_
      rw [sumBack, h1, p2, pt, ← Option.some.inj g1]
      simp only [add_assoc]
    have u5 : ∀ v, v ∉ N.M.P.members → G5 v = G4 v := fun v hv => by rw [hG5]; exact backPhase_other hv
    have hprog : (statsBack cs cb N).at T = [fun u => normBackPhase N.M (fun _ => varBack N) (T u) u] ++
        ((statBack cs cb N.M 3 3).at T ++ ([fun u => normBackPhase N.M (fun _ => devBack) (T u) u] ++
        ((statBack cs cb N.M 2 7).at T ++ [fun u => normBackPhase N.M (fun _ => sumBack) (T u) u]))) := by
      rw [statsBack, hb, if_pos rfl, CProg.at_append, CProg.at_append, CProg.at_append, CProg.at_append]
      rfl
    have hrun : run ((statsBack cs cb N).at T) G = G5 := by
      rw [hprog, run_append, run_append, run_append, run_append, hG5, hG4, hG3, hG2, hG1]
      rfl
    refine ⟨?_, fun w hw => ?_⟩
    · rw [hprog]
      refine progOK_append.2 ⟨⟨backPhase_ok _ _ _, trivial⟩, ?_⟩
      show ProgOK W _ (sync _ G)
      rw [← hG1]
      refine progOK_append.2 ⟨o2, ?_⟩
      rw [← hG2]
      refine progOK_append.2 ⟨⟨backPhase_ok _ _ _, trivial⟩, ?_⟩
      show ProgOK W _ (sync _ G2)
      rw [← hG3]
      exact progOK_append.2 ⟨o4, backPhase_ok _ _ _, trivial⟩
    · rw [hrun]
      by_cases hmw : w ∈ N.M.P.members
      · rw [r5 w hmw, r4 w hw, r3 w hmw, r2 w hw, r1 w hmw, if_pos hmw]
        refine ⟨rfl, rfl, fun i hi => ?_⟩
        have : i ≠ 2 ∧ i ≠ 3 := by omega
        simp [parLens, this.1, this.2]
      · rw [u5 w hmw, r4 w hw, u3 w hmw, r2 w hw, u1 w hmw, if_neg hmw]
        refine ⟨rfl, rfl, fun i hi => ?_⟩
        have : i ≠ 2 ∧ i ≠ 3 := by omega
        simp [parLens, this.1, this.2]

/-- The statistics used, as in the model of the forward pass. -/
theorem NormVals.used [DecidableEq F] {c : BNCall F} (hvals : NormVals N (channelVolume X : Nat) x rg m s g b)
    (hm : BNMade N.M.P L N.M) (hx : Blocks N.M.P L X x) (ht : c.training = N.training) {v : Nat} (hv : v ∈ N.M.P.members)
    {u : (Tensor F × Tensor F) × BNState F}
    (h : bnUsed N.M c.training (channelVolume X : Nat) N.st x rg v = some u) : u.1 = (m v, s v) := by
  have hstat : N.batch = true → ∀ u', bnStats N.M (channelVolume X : Nat) x rg v = some u' → u' = (m v, s v) := by
    intro hb u' h
    rw [bnStats] at h
    split at h
    · obtain ⟨m', e1, h⟩ := Option.bind_eq_some_iff.1 h
      obtain ⟨s', e2, h⟩ := Option.map_eq_some_iff.1 h
      rw [(dev_blocks (rg := rg) hm hx).2.2 v hv, hvals.var hb v hv] at e2
      rw [hvals.mean hb v hv] at e1
      rw [← h, Option.some.inj e1, Option.some.inj e2]
    · cases h
  have hb : N.batch = (N.training || !N.M.track) := rfl
  rw [bnUsed, ht] at h
  cases htr : N.training with
  | true =>
    rw [htr] at h hb
    obtain ⟨u', e1, h⟩ := Option.bind_eq_some_iff.1 h
    have e := hstat hb u' e1
    split at h
    · obtain ⟨st', -, h⟩ := Option.map_eq_some_iff.1 h
      rw [← h, e]
    · rw [← Option.some.inj h, e]
  | false =>
    rw [htr] at h hb
    cases hk : N.M.track with
    | true =>
      rw [hk] at h hb
      rw [← Option.some.inj h, (hvals.stored hb v hv).1, (hvals.stored hb v hv).2]
    | false =>
      rw [hk] at h hb
      obtain ⟨u', e1, h⟩ := Option.map_eq_some_iff.1 h
      rw [← h, hstat hb u' e1]

end

section
variable [CharZero F] [DecidableEq F] {W : List Nat} {N : NormLayer F} {L : Layout} {t : TorchDtype} {X Y : List Nat → F}
  {S G : Nat → NSt F} {T : Nat → List (NSt F)}

/-- Gradients of the parameters: on the workers that store them those of the sequential layer; the others have tensors
without entries. -/
structure NormGrads (N : NormLayer F) (L : Layout) (t : TorchDtype) (sq : SeqState F) (X Y : List Nat → F)
    (gr : Nat → Nat → Tensor F) : Prop where
  beta : N.M.affine = true → ∀ r ∈ N.M.Psum.members, (gr r 1).dtype = t ∧
    Held N.M.P (L.getD 1 []) (channelSum ⟨L.global, t, Y⟩) r (gr r 1)
  gamma : N.M.affine = true → ∀ r ∈ N.M.Psum.members, (gr r 0).dtype = t ∧
    Held N.M.P (L.getD 1 []) (channelSum (timesT ⟨L.global, t, Y⟩ (seqHat N.sqrt N.M.eps
      (seqUsed N.M.track N.training sq ⟨L.global, t, X⟩) ⟨L.global, t, X⟩))) r (gr r 0)
  others : N.M.affine = true → ∀ w ∈ N.M.P.members, w ∉ N.M.Psum.members → (gr w 0).shape.prod = 0 ∧ (gr w 1).shape.prod = 0

theorem normBack_run (c cs cb ca : Nat) {sq : SeqState F} {gamma beta : Nat → F} (hok : NormOK N L t sq gamma beta)
    (hL : L.pshape = N.M.P.shape) (hW : ∀ w ∈ N.M.P.members, w ∈ W) (h : Holds W N.M.P L t X S)
    (hG : HoldsG W N.M.P L t Y G) (hT : ∀ w ∈ W, ∃ rest, T w = snaps (normCuts c cs cb ca N) S w ++ rest) :
    ProgOK W ((normBack cs cb ca N).at T) G ∧
    HoldsG W N.M.P L t (seqNormGrad N.sqrt N.M.eps N.M.affine gamma N.batch
      (seqUsed N.M.track N.training sq ⟨L.global, t, X⟩) ⟨L.global, t, X⟩ ⟨L.global, t, Y⟩).val
      (run ((normBack cs cb ca N).at T) G) ∧
    NormGrads N L t sq X Y fun w i => ((run ((normBack cs cb ca N).at T) G w).par i).1 := by
  have hm := hok.made.made hL
  have hx : Blocks N.M.P L (⟨L.global, t, X⟩ : Tensor F) fun w => (S w).t := h.normBlocks
  have hy : Blocks N.M.P L (⟨L.global, t, Y⟩ : Tensor F) fun w => (G w).t :=
    ⟨rfl, fun v hv => (hG.parts v hv).1, fun v hv => (hG.parts v hv).2, hG.data⟩
  obtain ⟨-, -, -, m, s, g, b, hvals, -, htape⟩ := bnorm_run c cs cb ca hok hL hW h
  have ht := htape T hT
  have hc := normCall_ok hok hL h
  set D : Tensor F := ⟨L.global, t, X⟩ with hD
  set E : Tensor F := ⟨L.global, t, Y⟩ with hE
  have hheld := fun v hv => hvals.held hok hm hx (v := v) hv
  have hsh : ∀ v ∈ N.M.P.members, (m v).shape = channelShape N.M.P.shape.length (chCount N.M.P L v) ∧
      (s v).shape = channelShape N.M.P.shape.length (chCount N.M.P L v) := fun v hv =>
    ⟨((held_iff hm _ v _).1 (hheld v hv).1).shape, ((held_iff hm _ v _).1 (hheld v hv).2).shape⟩
  have hlast := ht.last
  have : Nonempty (NSt F) := ⟨G 0⟩
  choose! A hA using hlast
  obtain ⟨rg, hrg⟩ : ∃ rg : Nat → Bool, rg = fun w => (S w).rg := ⟨_, rfl⟩
  obtain ⟨x, hxe⟩ : ∃ x : Nat → Tensor F, x = fun w => (S w).t := ⟨_, rfl⟩
  obtain ⟨dy, hdy⟩ : ∃ dy : Nat → Tensor F, dy = fun w => (G w).t := ⟨_, rfl⟩
  have hdy' : ∀ v, (G v).t = dy v := fun v => by rw [hdy]
  rw [← hrg, ← hxe] at hvals
  rw [← hxe] at ht hx
  rw [← hdy] at hy
  have hcx : (normCall N L t X gamma beta S).x = x := hxe.symm
  have hcr : (normCall N L t X gamma beta S).rg = rg := hrg.symm
  obtain ⟨dz, ez, hz⟩ := hm.scale_back (rg := rg) hy hok.gamma
  have gz := (gatherAll_some ez).2
  obtain ⟨a, ha, ea⟩ := C64_input hok.made hc N.sqrt hok.running hy rfl
  have ea' : ∀ w ∈ N.M.P.members, (if !N.training && N.M.track then
      bnNormalGrad N.M N.sqrt ((N.st w).mean, (N.st w).var) (dz w)
      else bnBatchGrad N.M N.sqrt (channelVolume D : Nat) x rg dz w) = some (a w) := by
    intro w hw
    have e := ea w hw
    rw [BNCall.gradX, hc.volume hok.made hw, Option.bind_some, hcx, hcr] at e
    have e : bnGradX N.M N.sqrt N.training (channelVolume D : Nat) N.st N.g x rg dy w = some (a w) := e
    rwa [bnGradX, ez, Option.bind_some] at e
  obtain ⟨G1, hG1⟩ : ∃ G1, G1 = sync (fun u => normBackPhase N.M (fun _ => applyBack N) (T u) u) G := ⟨_, rfl⟩
  obtain ⟨G2, hG2⟩ : ∃ G2, G2 = run ((paramsBack ca N.M).at T) G1 := ⟨_, rfl⟩
  have u1 : ∀ v, v ∉ N.M.P.members → G1 v = G v := fun v hv => by rw [hG1]; exact backPhase_other hv
  have hpar : ProgOK W ((paramsBack ca N.M).at T) G1 ∧
      (∀ w ∈ W, (G2 w).err = (G w).err ∧ (G2 w).t = if w ∈ N.M.P.members then dz w else (G w).t) ∧
      NormGrads N L t sq X Y fun w i => ((G2 w).par i).1 := by
    cases haf : N.M.affine with
    | false =>
      have hp : (paramsBack ca N.M).at T = [] := by
        rw [paramsBack, haf]
        rfl
      have r1 : ∀ v, G1 v = G v := by
        intro v
        by_cases hv : v ∈ N.M.P.members
        · rw [hG1]
          refine backPhase_sync hv (hA v hv).1 ?_
          rw [applyBack, haf]
          rfl
        · exact u1 v hv
      rw [hp] at hG2 ⊢
      have hG2 : G2 = G1 := hG2
      refine ⟨trivial, fun w hw => ?_, fun e => absurd (haf.symm.trans e) (by decide), fun e => absurd (haf.symm.trans e) (by decide),
        fun e => absurd (haf.symm.trans e) (by decide)⟩
      rw [hG2, r1]
      refine ⟨rfl, ?_⟩
      split
      · next hv =>
        have := gz w hv
        rw [bnScaleGrad, haf] at this
        rw [hdy' w]
        exact Option.some.inj this
      · rfl
    | true =>
      -- the gradients of the parameters on one worker
      obtain ⟨fb, hfb⟩ : ∃ fb : Nat → Option (Tensor F), fb = fun v => (bcastForward N.M.bc ⟨N.b, rg⟩ v).map fun b =>
        sumTo b.shape (dy v) := ⟨_, rfl⟩
      obtain ⟨fg, hfg⟩ : ∃ fg : Nat → Option (Tensor F), fg = fun v => (bcastForward N.M.bc ⟨N.g, rg⟩ v).bind fun g =>
        (bnUsed N.M N.training (channelVolume D : Nat) N.st x rg v).bind fun u => (bnNormal N.M N.sqrt (x v) u.1).bind fun y =>
          (torchZip (fun a b => a * b) (dy v) y).map fun t => sumTo g.shape t := ⟨_, rfl⟩
      have vb : ∀ v ∈ N.M.P.members, fb v = some (sumTo (b v).shape (dy v)) := fun v hv => by
        rw [hfb]
        simp only [hvals.beta haf v hv, Option.map_some]
      have vg : ∀ v ∈ N.M.P.members, ∃ y u, bnNormal N.M N.sqrt (x v) (m v, s v) = some y ∧
          torchZip (fun a b => a * b) (dy v) y = some u ∧ fg v = some (sumTo (g v).shape u) := by
        intro v hv
        obtain ⟨y, ey, y1, -⟩ := hm.normal N.sqrt hx hv (hheld v hv).1 (hheld v hv).2
        obtain ⟨u, eu, -⟩ := BNMade.zip_blocks (fun a b : F => a * b) (a := dy v) (b := y)
          ((hy.shape v hv).trans ((hx.shape v hv).symm.trans y1.symm))
        obtain ⟨m1, s1, st1, e1, -⟩ := hc.used hok.made hv hok.running
        rw [hcx, hcr] at e1
        have e2 := hvals.used (c := normCall N L t X gamma beta S) hm hx rfl hv e1
        have e1 : bnUsed N.M N.training (channelVolume D : Nat) N.st x rg v = some ((m1, s1), st1) := e1
        refine ⟨y, u, ey, eu, ?_⟩
        rw [hfg]
        simp only [hvals.gamma haf v hv, e1, Option.bind_some]
        simp only at e2
        rw [e2, ey, Option.bind_some, eu, Option.map_some]
      obtain ⟨db, hdb⟩ : ∃ db : Nat → Tensor F, db = fun v => (fb v).getD ⟨[], .float64, fun _ => 0⟩ := ⟨_, rfl⟩
      obtain ⟨dg, hdg⟩ : ∃ dg : Nat → Tensor F, dg = fun v => (fg v).getD ⟨[], .float64, fun _ => 0⟩ := ⟨_, rfl⟩
      have qb : gatherAll N.M.P.members fb = some db := by rw [hdb]; exact gatherAll_eq fun v hv => ⟨_, vb v hv⟩
      have qg : gatherAll N.M.P.members fg = some dg := by
        rw [hdg]
        exact gatherAll_eq fun v hv => by
          obtain ⟨-, u, -, -, e⟩ := vg v hv
          exact ⟨_, e⟩
      have r1 : ∀ v ∈ N.M.P.members, G1 v = (parLens 0).set (dg v, false) ((parLens 1).set (db v, false) { G v with t := dz v }) := by
        intro v hv
        obtain ⟨h0, h1, h2, h3, -, h4⟩ := hA v hv
        obtain ⟨y, u, ey, eu, e⟩ := vg v hv
        have e1 := gz v hv
        rw [bnScaleGrad, if_pos haf, hvals.gamma haf v hv, Option.bind_some] at e1
        have h1 : (A v).t = x v := by rw [h1, hxe]
        rw [hG1]
        refine backPhase_sync hv h0 ?_
        rw [applyBack, if_pos haf, h1, h2, h3, (h4 haf).1, (h4 haf).2, ey, Option.bind_some, hdy' v, eu, Option.bind_some, e1,
          Option.map_some, hdg, hdb]
        simp only [e, vb v hv, Option.getD_some]
      have shb : ∀ v ∈ N.M.P.members, (db v).shape = channelShape N.M.P.shape.length (chCount N.M.P L v) ∧ (db v).dtype = t := by
        intro v hv
        obtain ⟨b', e1, -, e2⟩ := hm.param (rg := rg) (hok.beta haf) hv
        obtain rfl := Option.some.inj (e1.symm.trans (hvals.beta haf v hv))
        rw [hdb]
        simp only [vb v hv, Option.getD_some]
        exact ⟨((held_iff hm _ v _).1 e2).shape, hy.dtype v hv⟩
      have shg : ∀ v ∈ N.M.P.members, (dg v).shape = channelShape N.M.P.shape.length (chCount N.M.P L v) ∧ (dg v).dtype = t := by
        intro v hv
        obtain ⟨g', e1, -, e2⟩ := hm.param (rg := rg) (hok.gamma haf) hv
        obtain rfl := Option.some.inj (e1.symm.trans (hvals.gamma haf v hv))
        obtain ⟨y, u, ey, eu, e⟩ := vg v hv
        rw [hdg]
        simp only [e, Option.getD_some]
        exact ⟨((held_iff hm _ v _).1 e2).shape, (torchZip_dtype eu).trans (hy.dtype v hv)⟩
      -- the broadcasts
      obtain ⟨o2, Y2, r2, -, q2, w2, b2⟩ := chBack_run (G := G1) (T := T) ca 1 0 1 hm hW (d := t) (ht.beta haf) (dm := db)
        (fun v hv => ⟨by rw [r1 v hv]; rfl, shb v hv⟩)
      obtain ⟨K, hK⟩ : ∃ K, K = run ((bcastBack ca N.M.bc (parLens 1) (strAt 0) (parAt 1 1)).at T) G1 := ⟨_, rfl⟩
      rw [← hK] at r2
      obtain ⟨o3, Y3, r3, -, q3, w3, b3⟩ := chBack_run (G := K) (T := T) ca 0 1 2 hm hW (d := t) (ht.gamma haf) (dm := dg)
        (fun v hv => ⟨by rw [r2 v (hW v hv), r1 v hv]; rfl, shg v hv⟩)
      have hp : (paramsBack ca N.M).at T = (bcastBack ca N.M.bc (parLens 1) (strAt 0) (parAt 1 1)).at T ++
          (bcastBack ca N.M.bc (parLens 0) (strAt 1) (parAt 0 2)).at T := by
        rw [paramsBack, if_pos haf, CProg.at_append]
      have hrun : G2 = run ((bcastBack ca N.M.bc (parLens 0) (strAt 1) (parAt 0 2)).at T) K := by
        rw [hG2, hp, run_append, hK]
      rw [← hrun] at r3
      refine ⟨?_, fun w hw => ?_, fun _ r hr => ?_, fun _ r hr => ?_, fun _ w hw hn => ?_⟩
      · rw [hp]
        refine progOK_append.2 ⟨o2, ?_⟩
        rw [← hK]
        exact o3
      · rw [r3 w hw, r2 w hw]
        by_cases hv : w ∈ N.M.P.members
        · rw [r1 w hv, if_pos hv]
          exact ⟨rfl, rfl⟩
        · rw [u1 w hv, if_neg hv]
          exact ⟨rfl, rfl⟩
      · have hrW := hW r (hm.sum.sub r hr)
        obtain ⟨z, ez, z1, z2⟩ := (C64_beta hok.made hc haf hy rfl).1 r hr
        rw [BNCall.gradBeta, hcr] at ez
        have ez : bnGradBeta N.M N.b rg dy r = some z := ez
        rw [bnGradBeta, ← hfb, qb, Option.bind_some, (b2 N.b rg fun r hr =>
          ⟨((held_iff hm _ r _).1 ((hok.beta haf).held r hr).1).shape, ((hok.beta haf).held r hr).2⟩).1 r hr] at ez
        have e : ((G2 r).par 1).1 = z := by
          rw [r3 r hrW, r2 r hrW, ← Option.some.inj ez]
          rfl
        rw [e]
        exact ⟨z1, z2⟩
      · have hrP := hm.sum.sub r hr
        have hrW := hW r hrP
        obtain ⟨z, ez, z1, z2⟩ := (C64_gamma hok.made hc haf N.sqrt hok.running hy rfl).1 r hr
        rw [BNCall.gradGamma, hc.volume hok.made hrP, Option.bind_some, hcx, hcr] at ez
        have ez : bnGradGamma N.M N.sqrt N.training (channelVolume D : Nat) N.st N.g x rg dy r = some z := ez
        rw [bnGradGamma, ← hfg, qg, Option.bind_some, (b3 N.g rg fun r hr =>
          ⟨((held_iff hm _ r _).1 ((hok.gamma haf).held r hr).1).shape, ((hok.gamma haf).held r hr).2⟩).1 r hr] at ez
        have e : ((G2 r).par 0).1 = z := by
          rw [r3 r hrW, ← Option.some.inj ez]
          rfl
        rw [e]
        exact ⟨z1, z2⟩
      · have hwW := hW w hw
        have e0 : ((G2 w).par 0).1 = (Y3 w).1 := by
          rw [r3 w hwW]
          rfl
        have e1 : ((G2 w).par 1).1 = (Y2 w).1 := by
          rw [r3 w hwW, r2 w hwW]
          rfl
        rw [e0, e1]
        exact ⟨q3 w hw hn, q2 w hw hn⟩
  obtain ⟨o2, f2, g2⟩ := hpar
  obtain ⟨o3, f3⟩ := statsBack_run (G := G2) (T := T) cs cb hm hx hW hvals hsh ht (dz := dz) (a := a)
    (fun v hv => ⟨by rw [(f2 v (hW v hv)).2, if_pos hv], hz.dtype v hv⟩) ea'
  have hprog : (normBack cs cb ca N).at T = [fun u => normBackPhase N.M (fun _ => applyBack N) (T u) u] ++
      ((paramsBack ca N.M).at T ++ (statsBack cs cb N).at T) := by
    rw [normBack, CProg.at_append, CProg.at_append]
    rfl
  have hrun : run ((normBack cs cb ca N).at T) G = run ((statsBack cs cb N).at T) G2 := by
    rw [hprog, run_append, run_append, hG2, hG1]
    rfl
  have tin : ∀ v ∈ N.M.P.members, (run ((statsBack cs cb N).at T) G2 v).t = a v := fun v hv => by
    rw [(f3 v (hW v hv)).2.1, if_pos hv]
  have has : ∀ v ∈ N.M.P.members, (a v).shape = L.shapeAt (N.M.P.coord v) := fun v hv => ha.shape v hv
  refine ⟨?_, ?_, ?_⟩
  · rw [hprog]
    refine progOK_append.2 ⟨⟨backPhase_ok _ _ _, trivial⟩, ?_⟩
    show ProgOK W _ (sync _ G)
    rw [← hG1]
    refine progOK_append.2 ⟨o2, ?_⟩
    rw [← hG2]
    exact o3
  · rw [hrun]
    refine ⟨fun w hw => ?_, fun w hw => ?_, fun v hv => ?_, fun v hv => ?_⟩
    · rw [(f3 w hw).1, (f2 w hw).1]
      exact hG.calm w hw
    · by_cases hv : w ∈ N.M.P.members
      · rw [tin w hv, has w hv, ← (hG.parts w hv).1]
        exact hG.batch w hw
      · rw [(f3 w hw).2.1, if_neg hv, (f2 w hw).2, if_neg hv]
        exact hG.batch w hw
    · rw [tin v hv]
      exact ⟨has v hv, ha.dtype v hv⟩
    · rw [tin v hv]
      exact ha.val v hv
  · rw [hrun]
    refine ⟨fun e r hr => ?_, fun e r hr => ?_, fun e w hw hn => ?_⟩
    · have hrW := hW r (hm.sum.sub r hr)
      rw [(f3 r hrW).2.2 1 (by decide)]
      exact g2.beta e r hr
    · have hrW := hW r (hm.sum.sub r hr)
      rw [(f3 r hrW).2.2 0 (by decide)]
      exact g2.gamma e r hr
    · rw [(f3 w (hW w hw)).2.2 0 (by decide), (f3 w (hW w hw)).2.2 1 (by decide)]
      exact g2.others e w hw hn

end

end Verif.Net
