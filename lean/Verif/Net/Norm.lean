import Verif.Net.ConvBack
import Verif.Grad.NormProps

/-!
# Networks: batch norm

`nn/batchnorm.py` as a program of the network machine: the exchange of the structures, the two averages (each a
sum-reduction, a division and a broadcast), the broadcasts of the parameters, and the local arithmetic.  While the layer
runs, the slots of a worker's parameters hold `gamma` (0), `beta` (1), the mean (2) and the variance (3).

The update of the running statistics (`batchnorm.py:161-186`) is local and has no influence on the result of the call or
the gradients; it is left out here (see C49).
-/

namespace Verif.Net

variable {F : Type}

/-! ## The global shape -/

/-- `tensor_comm.py:107-121`: as `linePhase`, but a worker keeps what it has heard along the other dimensions. -/
def joinLinePhase (c : Nat) (P : Cart) (i : Nat) : Nat → NSt F → Phase (NSt F) (NMsg F) :=
  collPhase c (fun w => decide (w ∈ P.members)) (fun w => (cartSub P (keepOnly P.shape.length i) w).members)
    (fun _ x => .info fun _ => x.own) (fun w => (cartSub P (keepOnly P.shape.length i) w).members) fun w ms x =>
    { x with info := fun v => if v ∈ (cartSub P (keepOnly P.shape.length i) w).members then
        match ms[(cartSub P (keepOnly P.shape.length i) w).members.idxOf v]? with
        | some (.info f) => f v
        | _ => noInfo
      else x.info v }

/-- `tensor_comm.py:105-121`, along the dimensions `ds`. -/
def joinProg (c : Nat) (P : Cart) (ds : List Nat) : Prog (NSt F) (NMsg F) :=
  ds.flatMap fun i => [subPhase c P, joinLinePhase c P i]

section
variable {W : List Nat} {P : Cart}

theorem joinLine_sync (c : Nat) (hW : ∀ w ∈ P.members, w ∈ W) (i : Nat) (S : Nat → NSt F) :
    PhaseOK W (joinLinePhase c P i) S ∧ Frame W S (sync (joinLinePhase c P i) S) ∧
    ∀ w ∈ P.members, ∀ v, (sync (joinLinePhase c P i) S w).info v =
      if v ∈ (cartSub P (keepOnly P.shape.length i) w).members then (S v).own else (S w).info v := by
  have h := grouped_line hW i
  refine ⟨collPhase_ok h, fun w hw => ?_, fun w hw v => ?_⟩
  · rw [joinLinePhase, collPhase_sync h hw]
    split <;> exact ⟨rfl, rfl, rfl, rfl, rfl⟩
  · rw [joinLinePhase, collPhase_sync h (hW w hw), if_pos (by simpa using hw)]
    show (if _ then _ else _) = _
    by_cases hv : v ∈ (cartSub P (keepOnly P.shape.length i) w).members
    · simp only [hv, if_true]
      rw [List.getElem?_map, getElem?_idxOf hv]
      rfl
    · simp only [hv, if_false]

theorem join_run (c : Nat) (hW : ∀ w ∈ P.members, w ∈ W) (ds : List Nat) (S : Nat → NSt F) :
    ProgOK W (joinProg c P ds) S ∧ Frame W S (run (joinProg c P ds) S) ∧
    ∀ w ∈ P.members, ∀ v ∈ P.members, ((S w).info v = (S v).own ∨
      ∃ i ∈ ds, v ∈ (cartSub P (keepOnly P.shape.length i) w).members) →
      (run (joinProg c P ds) S w).info v = (S v).own := by
  induction ds generalizing S with
  | nil => exact ⟨trivial, Frame.refl W S, fun w _ v _ h => by
    rcases h with h | ⟨i, hi, -⟩
    · exact h
    · simp at hi⟩
  | cons i ds ih =>
    obtain ⟨a1, a2⟩ := sub_quiet c hW S
    have a3 : ∀ w ∈ W, sync (subPhase c P) S w = S w := fun w hw => by
      rw [subPhase, collPhase_sync (grouped_const (deps := P.members) hW fun _ hu => hu) hw]
      split <;> rfl
    obtain ⟨b1, b2, b3⟩ := joinLine_sync c hW i (sync (subPhase c P) S)
    obtain ⟨c1, c2, c3⟩ := ih (sync (joinLinePhase c P i) (sync (subPhase c P) S))
    refine ⟨⟨a1, b1, c1⟩, (a2.trans b2).trans c2, fun w hw v hv h => ?_⟩
    have ev : (sync (joinLinePhase c P i) (sync (subPhase c P) S) v).own = (S v).own := (a2.trans b2).own (hW v hv)
    rw [← ev]
    refine c3 w hw v hv ?_
    rw [ev, b3 w hw v]
    split
    · left
      rw [a3 v (hW v hv)]
    · next hn =>
      rw [a3 w (hW w hw)]
      rcases h with h | ⟨j, hj, h⟩
      · exact Or.inl h
      · rcases List.mem_cons.1 hj with rfl | hj
        · exact absurd h hn
        · exact Or.inr ⟨j, hj, h⟩

end

/-! ## Programs -/

/-- `batchnorm.py:198-207`: the volume a worker computes from the structures it has heard of; `none`: an exception. -/
def normVolume (M : BatchNorm F) (f : Nat → Info) (w : Nat) : Option Int :=
  match assembleGlobal M.P none f w with
  | .value g => if g.shape.getD 1 0 ≠ (M.numFeatures : Int) then none else some (featureVolume g.shape)
  | _ => none

/-- A batch norm with what the workers store: buffers, parameters and the `requires_grad` of the parameters. -/
structure NormLayer (F : Type) where
  M : BatchNorm F
  sqrt : F → F
  training : Bool
  st : Nat → BNState F
  g : Nat → Tensor F
  b : Nat → Tensor F
  rgp : Bool

/-- `batchnorm.py:210-222`: are the statistics of the batch computed? -/
def NormLayer.batch (N : NormLayer F) : Bool := N.training || !N.M.track

section
variable [Field F]

/-- `batchnorm.py:198-203`: the assertion on the number of channels. -/
def normCheckPhase (M : BatchNorm F) : Nat → NSt F → Phase (NSt F) (NMsg F) :=
  localPhase fun w x => if w ∈ M.P.members then
    if (normVolume M x.info w).isSome then x else { x with err := true } else x

/-- `batchnorm.py:133-136`: the local sums of the input, into slot 2. -/
def normSumsPhase (M : BatchNorm F) : Nat → NSt F → Phase (NSt F) (NMsg F) :=
  localPhase fun w x => if w ∈ M.P.members then
    (parLens 2).set (localSums M.P.shape.length x.t, x.rg) x else x

/-- `batchnorm.py:138`: the division by the volume. -/
def normDivPhase (M : BatchNorm F) (i : Nat) : Nat → NSt F → Phase (NSt F) (NMsg F) :=
  localPhase fun w x => if w ∈ M.P.members then
    match normVolume M x.info w with
    | some V => (parLens i).set (⟨(x.par i).1.shape, (x.par i).1.dtype, fun j => (x.par i).1.val j / (V : F)⟩, (x.par i).2) x
    | none => { x with err := true } else x

/-- `batchnorm.py:158`, `133-136`: the local sums of the squared deviations, into slot 3. -/
def normSquaresPhase (M : BatchNorm F) : Nat → NSt F → Phase (NSt F) (NMsg F) :=
  localPhase fun w x => if w ∈ M.P.members then
    match bnDeviation x.t (x.par 2).1 with
    | some e => (parLens 3).set (localSums M.P.shape.length e, x.rg || (x.par 2).2) x
    | none => { x with err := true } else x

/-- The stored parameters, and the buffers if they are used (`batchnorm.py:215-219`). -/
def normLoadPhase (N : NormLayer F) : Nat → NSt F → Phase (NSt F) (NMsg F) :=
  localPhase fun w x => if w ∈ N.M.P.members then
    { x with par := fun j =>
        if j = 0 ∧ N.M.affine then (N.g w, N.rgp)
        else if j = 1 ∧ N.M.affine then (N.b w, N.rgp)
        else if j = 2 ∧ N.batch = false then ((N.st w).mean, false)
        else if j = 3 ∧ N.batch = false then ((N.st w).var, false)
        else x.par j } else x

/-- `batchnorm.py:225-233` on one worker: `m`, `s` mean and variance, `g`, `b` the parameters received. -/
def normOut (N : NormLayer F) (x m s g b : Tensor F) : Option (Tensor F) :=
  (bnNormal N.M N.sqrt x (m, s)).bind fun y =>
    if N.M.affine then (torchZip (fun g y => g * y) g y).bind fun z => torchZip (fun z b => z + b) z b else some y

/-- `batchnorm.py:225-233`. -/
def normApplyPhase (N : NormLayer F) : Nat → NSt F → Phase (NSt F) (NMsg F) :=
  localPhase fun w x => if w ∈ N.M.P.members then
    match normOut N x.t (x.par 2).1 (x.par 3).1 (x.par 0).1 (x.par 1).1 with
    | some y => { x with t := y, rg := x.rg || (N.M.affine && N.rgp) }
    | none => { x with err := true } else x

/-- `batchnorm.py:137-139`: an average of the tensor in slot `i`, cut.  `cs`, `cb`: the channels of the sum-reduction and
the broadcast. -/
def statCuts (cs cb : Nat) (M : BatchNorm F) (i : Nat) : List (Prog (NSt F) (NMsg F)) :=
  [reduceProg cs M.sr (parLens i), [normDivPhase M i], bcastProg cb M.bc (parLens i)]

/-- `batchnorm.py:211-212`: mean and variance, cut. -/
def bothCuts (cs cb : Nat) (M : BatchNorm F) : List (Prog (NSt F) (NMsg F)) :=
  ([normSumsPhase M] :: statCuts cs cb M 2) ++ ([normSquaresPhase M] :: statCuts cs cb M 3)

/-- `batchnorm.py:188-233` `forward` with the setup that precedes it (`batchnorm.py:103-117`), cut. -/
def normCuts (c cs cb ca : Nat) (N : NormLayer F) : List (Prog (NSt F) (NMsg F)) :=
  [joinProg c N.M.P (List.range N.M.P.shape.length) ++ [normCheckPhase N.M]] ++
  (if N.batch then bothCuts cs cb N.M else []) ++ [[normLoadPhase N]] ++
  [if N.M.affine then bcastProg ca N.M.bc (parLens 0) else [],
    if N.M.affine then bcastProg ca N.M.bc (parLens 1) else [], [normApplyPhase N]]

end

/-! ## An average -/

theorem getD_allreduce_congr {S : List Nat} {op : ReduceOp} {f g : Nat → Int} (h : ∀ v ∈ S, f v = g v) :
    allreduceData S op f = allreduceData S op g := by
  unfold allreduceData
  rw [List.map_congr_left h]

/-- The volume depends on the structures along the worker's lines. -/
theorem normVolume_congr {M : BatchNorm F} {f f' : Nat → Info} {w : Nat} (hw : w ∈ M.P.members)
    (h : ∀ i < M.P.shape.length, ∀ v ∈ (cartSub M.P (keepOnly M.P.shape.length i) w).members, f v = f' v) :
    normVolume M f w = normVolume M f' w := by
  have e : globalShape M.P (fun u => (f u).1) w = globalShape M.P (fun u => (f' u).1) w := by
    unfold globalShape
    refine List.map_congr_left fun i hi => ?_
    have : ∀ v ∈ (cartSub M.P (keepOnly M.P.shape.length i) w).members,
        (((f v).1.getD i 0 : Nat) : Int) = (((f' v).1.getD i 0 : Nat) : Int) := fun v hv => by
      rw [h i (List.mem_range.1 hi) v hv]
    rw [getD_allreduce_congr this]
  unfold normVolume assembleGlobal
  simp only [hw, if_true, e]

section
variable [Field F] {W : List Nat} {M : BatchNorm F} {L : Layout} {X : Tensor F} {x : Nat → Tensor F} {rg : Nat → Bool}
  {S : Nat → NSt F}

/-- Shape and type of the statistics of worker `v`. -/
def chInfo (P : Cart) (L : Layout) (d : TorchDtype) (v : Nat) : Info := (channelShape P.shape.length (chCount P L v), d, false)

theorem shape_ne_of_prod {s : List Nat} (h : s.prod = 0) : s ≠ [] := by
  rintro rfl
  simp at h

theorem channelShape_ne {n c : Nat} (hn : 2 ≤ n) : channelShape n c ≠ [] := fun e => by
  have := congrArg List.length e
  rw [length_channelShape, List.length_nil] at this
  omega

omit [Field F] in
theorem set_str_set {ℓ : Lens (NSt F) (Tensor F × Bool)} (sl : Slot ℓ) (y z : Tensor F × Bool) (x : NSt F) (s u : Info) :
    ({ ℓ.set y { ℓ.set z x with str := s } with str := u } : NSt F) = { ℓ.set y x with str := u } := by
  rw [sl.set_str, ℓ.set_set]

theorem divPhase_sync (i : Nat) (S : Nat → NSt F) {V : Int} {w : Nat} (hw : w ∈ M.P.members)
    (hV : normVolume M (S w).info w = some V) :
    sync (normDivPhase M i) S w = (parLens i).set (⟨((S w).par i).1.shape, ((S w).par i).1.dtype,
      fun j => ((S w).par i).1.val j / (V : F)⟩, ((S w).par i).2) (S w) := by
  show (if w ∈ M.P.members then _ else _) = _
  rw [if_pos hw, hV]

theorem divPhase_other (i : Nat) (S : Nat → NSt F) {w : Nat} (hw : w ∉ M.P.members) :
    sync (normDivPhase M i) S w = S w := if_neg hw

/-- What the broadcast of an average, or of a parameter, has left on the tape. -/
structure ChKept (M : BatchNorm F) (L : Layout) (d : TorchDtype) (str inp : Nat → Info) : Prop where
  str : ∀ v ∈ M.P.members, Info.same (str v) (chInfo M.P L d v)
  inp : ∀ r ∈ M.Psum.members, Info.same (inp r) (chInfo M.P L d r)

theorem stat_run (cs cb i : Nat) (h : BNMade M.P L M) (hx : Blocks M.P L X x) (hW : ∀ w ∈ M.P.members, w ∈ W) {V : Int}
    {ρ : Bool} (hs : ∀ v ∈ M.P.members, (S v).par i = (localSums M.P.shape.length (x v), ρ))
    (hV : ∀ v ∈ M.P.members, normVolume M (S v).info v = some V) :
    ProgOK W (statCuts cs cb M i).flatten S ∧ ∃ (Y : Nat → Tensor F × Bool) (s : Nat → Info),
      (∀ w ∈ W, run (statCuts cs cb M i).flatten S w = { (parLens i).set (Y w) (S w) with str := s w }) ∧
      (∀ v ∈ M.P.members, bnMean M V x rg v = some (Y v).1 ∧ (Y v).2 = ρ) ∧
      ChKept M L X.dtype s fun r => infoOf (parLens i) (run (reduceProg cs M.sr (parLens i) ++ [normDivPhase M i]) S r) := by
  have hsub := h.sum.sub
  have hgs : ∀ v ∈ M.P.members, (parLens i).get (S v) = (localSums M.P.shape.length (x v), ρ) := hs
  -- the sum-reduction
  have hb1 : HasBatch M.sr fun w => ((parLens i).get (S w)).1 := by
    intro _ u hu
    have hu' : u ∈ M.P.members := hu.elim id fun h => hsub u h
    show ((parLens i).get (S u)).1.shape ≠ []
    rw [hgs u hu', (h.sums hx hu').2]
    exact channelShape_ne h.two
  have hcol : ∀ v ∈ M.P.members, chCount M.P L (M.sr.rroot v) = chCount M.P L v := by
    intro v hv
    have hr := h.srLayer.root_mem (v := v) hv
    exact (ch_congr h.placed h.two ((h.collects hr hv).1 ((h.srLayer.rel hr hv).2 rfl))).1
  have hfeed : ∀ v ∈ M.P.members, chCount M.P L (M.bc.broot v) = chCount M.P L v := by
    intro v hv
    have hr := h.bcLayer.root_mem (v := v) hv
    exact (ch_congr h.placed h.two ((h.feeds hr hv).1 ((h.bcLayer.rel hr hv).2 rfl))).1
  obtain ⟨o1, Y1, s1, r1, y1, v1, u1⟩ := reduce_run (S := S) (ℓ := parLens i) cs h.srLayer hW (fun r hr => hW r (hsub r hr))
    (slot_par i) hb1 (i := fun r => (channelShape M.P.shape.length (chCount M.P L r), X.dtype, ρ)) (fun v hv => by
      unfold infoOf
      rw [hgs v hv, (h.sums hx hv).1, (h.sums hx hv).2, hcol v hv])
  obtain ⟨S1, hS1⟩ : ∃ S1, S1 = run (reduceProg cs M.sr (parLens i)) S := ⟨_, rfl⟩
  rw [← hS1] at r1
  -- the division
  have r2 : ∀ w ∈ M.P.members, sync (normDivPhase M i) S1 w = (parLens i).set (⟨(Y1 w).1.shape, (Y1 w).1.dtype,
      fun j => (Y1 w).1.val j / (V : F)⟩, (Y1 w).2) (S1 w) := by
    intro w hw
    have e : (S1 w).par i = Y1 w := by
      rw [r1 w (hW w hw)]
      show (parLens i).get ((parLens i).set (Y1 w) (S w)) = _
      rw [(parLens i).get_set]
    rw [divPhase_sync i S1 hw (V := V) (by rw [r1 w (hW w hw)]; exact hV w hw), e]
  obtain ⟨S2, hS2⟩ : ∃ S2, S2 = sync (normDivPhase M i) S1 := ⟨_, rfl⟩
  rw [← hS2] at r2
  have hg2 : ∀ w ∈ M.P.members, (parLens i).get (S2 w) = (⟨(Y1 w).1.shape, (Y1 w).1.dtype,
      fun j => (Y1 w).1.val j / (V : F)⟩, (Y1 w).2) := fun w hw => by rw [r2 w hw, (parLens i).get_set]
  -- the broadcast
  have hb2 : HasBatch M.bc fun w => ((parLens i).get (S2 w)).1 := by
    intro _ u hu
    have hu' : u ∈ M.P.members := hu.elim (fun h => hsub u h) id
    show ((parLens i).get (S2 u)).1.shape ≠ []
    rw [hg2 u hu']
    by_cases hs' : u ∈ M.Psum.members
    · rw [y1 u hs']
      exact channelShape_ne h.two
    · exact shape_ne_of_prod (v1 u hu' hs').prod
  obtain ⟨o3, Y3, s3, r3, y3, -, u3, z3⟩ := bcast_run (S := S2) (ℓ := parLens i) cb h.bcLayer (fun r hr => hW r (hsub r hr)) hW
    (slot_par i) hb2
  have havg : ∀ r ∈ M.Psum.members, bnAverage M V x rg r = some ⟨(Y1 r).1.shape, (Y1 r).1.dtype,
      fun j => (Y1 r).1.val j / (V : F)⟩ := by
    intro r hr
    rw [bnAverage, reduce_forward_root (I := ⟨fun u => localSums M.P.shape.length (x u), rg⟩) h.srLayer.valid h.srLayer.same
      ((h.srInputs hx).sameKinds h.srLayer) (h.srBatch hx).hb hr
      (sh := channelShape M.P.shape.length (chCount M.P L r)) (dt := X.dtype) (fun v hv e => by
        have hv' : v ∈ M.P.members := hv
        show (localSums _ (x v)).shape = _ ∧ (localSums _ (x v)).dtype = _
        rw [(h.sums hx hv').1, (h.sums hx hv').2, ← e, hcol v hv']
        exact ⟨rfl, rfl⟩), Option.map_some, y1 r hr]
    have e : ∀ j, ((M.sr.Px.members.filter fun v => decide (M.sr.rroot v = r)).map fun v => ((parLens i).get (S v)).1.val j) =
        (M.sr.Px.members.filter fun v => decide (M.sr.rroot v = r)).map fun v => (localSums M.P.shape.length (x v)).val j :=
      fun j => List.map_congr_left fun v hv => by rw [hgs v (List.mem_of_mem_filter hv)]
    simp only [e]
  have hinfo : ∀ r ∈ M.Psum.members, infoOf (parLens i) (S2 r) =
      (channelShape M.P.shape.length (chCount M.P L r), X.dtype, ρ) := by
    intro r hr
    unfold infoOf
    rw [hg2 r (hsub r hr), y1 r hr]
  have hflat : (statCuts cs cb M i).flatten = reduceProg cs M.sr (parLens i) ++ ([normDivPhase M i] ++ bcastProg cb M.bc (parLens i)) := by
    simp [statCuts]
  have hrun : run (statCuts cs cb M i).flatten S = run (bcastProg cb M.bc (parLens i)) S2 := by
    rw [hflat, run_append, run_append, hS2, hS1]
    rfl
  refine ⟨?_, fun w => if w ∈ M.P.members then Y3 w else (parLens i).get (S w), s3, fun w hw => ?_, fun v hv => ?_, fun v hv => ?_,
    fun r hr => ?_⟩
  · rw [hflat]
    refine progOK_append.2 ⟨o1, localPhase_ok _, ?_⟩
    rw [← hS1, ← hS2]
    exact o3
  · rw [hrun, r3 w hw]
    by_cases hm : w ∈ M.P.members
    · simp only [if_pos hm]
      rw [r2 w hm, (parLens i).set_set, r1 w hw]
      exact set_str_set (slot_par i) _ _ _ _ _
    · have hn : w ∉ M.Psum.members := fun h' => hm (hsub w h')
      have e1 : Y1 w = (parLens i).get (S w) := u1 w hm hn
      have e2 : S2 w = S1 w := by rw [hS2]; exact divPhase_other i S1 hm
      simp only [if_neg hm]
      rw [u3 w hn hm, (parLens i).set_get, e2, r1 w hw, e1]
  · simp only [if_pos hv]
    rw [y3 v hv]
    have hr := h.bcLayer.root_mem (v := v) hv
    obtain ⟨hall, hb⟩ := h.average_all (rg := rg) hx V
    rw [bnMean, if_pos hall, bcast_forward_root (I := ⟨fun v => (bnAverage M V x rg v).getD ⟨[], .float64, fun _ => 0⟩, rg⟩)
      h.bcLayer.valid h.bcLayer.same hb.hb hv]
    simp only
    rw [havg _ hr, hg2 _ (hsub _ hr), y1 _ hr]
    exact ⟨rfl, rfl⟩
  · show Info.same (s3 v) _
    rw [z3 rfl v hv, hinfo _ (h.bcLayer.root_mem (v := v) hv), hfeed v hv]
    exact ⟨rfl, rfl⟩
  · have e : run (reduceProg cs M.sr (parLens i) ++ [normDivPhase M i]) S = S2 := by
      rw [run_append, hS2, hS1]
      rfl
    simp only [e]
    rw [hinfo r hr]
    exact ⟨rfl, rfl⟩

/-- The broadcast of a parameter. -/
theorem normParam_run (ca i : Nat) (h : BNMade M.P L M) (hW : ∀ w ∈ M.P.members, w ∈ W) {d : TorchDtype} {f : Nat → F}
    {p : Nat → Tensor F} (hp : Param M.P M.Psum (L.getD 1 []) d f p) {ρ : Bool}
    (hs : ∀ v ∈ M.P.members, (S v).par i = (p v, ρ)) :
    ProgOK W (bcastProg ca M.bc (parLens i)) S ∧ ∃ (Y : Nat → Tensor F × Bool) (s : Nat → Info),
      (∀ w ∈ W, run (bcastProg ca M.bc (parLens i)) S w = { (parLens i).set (Y w) (S w) with str := s w }) ∧
      (∀ v ∈ M.P.members, bcastForward M.bc ⟨p, rg⟩ v = some (Y v).1) ∧
      ChKept M L d s fun r => infoOf (parLens i) (S r) := by
  have hsub := h.sum.sub
  have hgs : ∀ v ∈ M.P.members, (parLens i).get (S v) = (p v, ρ) := hs
  have hb : HasBatch M.bc p := fun _ u hu => hp.batch u (hu.elim (fun h => hsub u h) id)
  have hb' : HasBatch M.bc fun w => ((parLens i).get (S w)).1 := by
    intro e u hu
    have hu' : u ∈ M.P.members := hu.elim (fun h => hsub u h) id
    show ((parLens i).get (S u)).1.shape ≠ []
    rw [hgs u hu']
    exact hb e u hu
  have hfeed : ∀ v ∈ M.P.members, chCount M.P L (M.bc.broot v) = chCount M.P L v := by
    intro v hv
    have hr := h.bcLayer.root_mem (v := v) hv
    exact (ch_congr h.placed h.two ((h.feeds hr hv).1 ((h.bcLayer.rel hr hv).2 rfl))).1
  obtain ⟨o, Y, s, r1, y1, -, -, z1⟩ := bcast_run (S := S) (ℓ := parLens i) ca h.bcLayer (fun r hr => hW r (hsub r hr)) hW
    (slot_par i) hb'
  have hinfo : ∀ r ∈ M.Psum.members, infoOf (parLens i) (S r) =
      (channelShape M.P.shape.length (chCount M.P L r), d, ρ) := by
    intro r hr
    unfold infoOf
    rw [hgs r (hsub r hr), (hp.held r hr).2, ((held_iff h _ r _).1 (hp.held r hr).1).shape]
  refine ⟨o, Y, s, r1, fun v hv => ?_, fun v hv => ?_, fun r hr => ?_⟩
  · rw [bcast_forward_root (I := ⟨p, rg⟩) h.bcLayer.valid h.bcLayer.same hb.hb hv, y1 v hv,
      hgs _ (hsub _ (h.bcLayer.root_mem (v := v) hv))]
  · rw [z1 rfl v hv, hinfo _ (h.bcLayer.root_mem (v := v) hv), hfeed v hv]
    exact ⟨rfl, rfl⟩
  · rw [hinfo r hr]
    exact ⟨rfl, rfl⟩

/-! ## Mean and variance -/

/-- The squared deviations as the model of `_compute_var` has them. -/
def devOf (M : BatchNorm F) (V : Int) (x : Nat → Tensor F) (rg : Nat → Bool) (v : Nat) : Tensor F :=
  (bnDeviation (x v) ((bnMean M V x rg v).getD ⟨[], .float64, fun _ => 0⟩)).getD ⟨[], .float64, fun _ => 0⟩

/-- The workers hold blocks of the squared deviations, and the model goes through. -/
theorem dev_blocks (h : BNMade M.P L M) (hx : Blocks M.P L X x) :
    (∀ v ∈ M.P.members, ∃ m, bnMean M (channelVolume X : Nat) x rg v = some m ∧ Held M.P (L.getD 1 []) (channelMean X) v m ∧
      bnDeviation (x v) m = some (devOf M (channelVolume X : Nat) x rg v)) ∧
    Blocks M.P L ⟨X.shape, X.dtype, fun i => (X.val i - channelMean X (i.getD 1 0)) ^ 2⟩
      (devOf M (channelVolume X : Nat) x rg) ∧
    ∀ v ∈ M.P.members, bnVar M (channelVolume X : Nat) x
      (fun v => (bnMean M (channelVolume X : Nat) x rg v).getD ⟨[], .float64, fun _ => 0⟩) rg v =
        bnMean M (channelVolume X : Nat) (devOf M (channelVolume X : Nat) x rg) rg v := by
  have one : ∀ v ∈ M.P.members, ∃ m d, bnMean M (channelVolume X : Nat) x rg v = some m ∧
      Held M.P (L.getD 1 []) (channelMean X) v m ∧ bnDeviation (x v) m = some d ∧ d.shape = (x v).shape ∧ d.dtype = X.dtype ∧
      ∀ l, InBounds l (x v).shape →
        d.val l = (fun i : List Nat => (X.val i - channelMean X (i.getD 1 0)) ^ 2) (shiftBy (L.startAt (M.P.coord v)) l) := by
    intro v hv
    obtain ⟨m, s, e, hm, -⟩ := h.stats (rg := rg) hx hv
    rw [bnStats] at e
    split at e
    · obtain ⟨t, e1, e2⟩ := Option.bind_eq_some_iff.1 e
      obtain ⟨s', -, e3⟩ := Option.map_eq_some_iff.1 e2
      obtain rfl : t = m := (Prod.mk.inj e3).1
      obtain ⟨d, ed, d1, d2, d3⟩ := h.zip_held (fun a b => (a - b) ^ 2) hx hv hm
      exact ⟨t, d, e1, hm, ed, d1, d2, d3⟩
    · cases e
  have hdev : ∀ v ∈ M.P.members, ∃ m d, bnMean M (channelVolume X : Nat) x rg v = some m ∧ bnDeviation (x v) m = some d ∧
      devOf M (channelVolume X : Nat) x rg v = d := by
    intro v hv
    obtain ⟨m, d, e1, -, e2, -⟩ := one v hv
    exact ⟨m, d, e1, e2, by rw [devOf, e1, Option.getD_some, e2, Option.getD_some]⟩
  refine ⟨fun v hv => ?_, BNMade.blocks_of hx fun v hv => ?_, fun v hv => ?_⟩
  · obtain ⟨m, d, e1, hm, e2, -⟩ := one v hv
    exact ⟨m, e1, hm, by rw [devOf, e1, Option.getD_some, e2, Option.getD_some]⟩
  · obtain ⟨m, d, e1, -, e2, d1, d2, d3⟩ := one v hv
    rw [devOf, e1, Option.getD_some, e2, Option.getD_some]
    exact ⟨d1, d2, d3⟩
  · rw [bnVar, if_pos]
    · rfl
    · rw [List.all_eq_true]
      intro u hu
      obtain ⟨m, d, e1, e2, -⟩ := hdev u hu
      rw [e1, Option.getD_some, e2]
      rfl

end

end Verif.Net
