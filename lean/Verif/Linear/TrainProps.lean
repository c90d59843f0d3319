import Verif.Linear.Train
import Verif.Linear.Props
import Verif.Loss.Props
import Mathlib.Data.Rat.Floor

/-!
# C67: training a distributed network of linear layers
-/

namespace Verif

section
variable {R σ : Type}

/-! ## Hypotheses -/

/-- The workers store the blocks of the parameters (and optimizer data) of the sequential layer `s`. -/
structure StateBlocks (ℓ : NetLayer R σ) (s : SeqLayer R σ) (Po Pi : Nat) : Prop where
  nin : ℓ.frame.inFeatures = s.nin
  nout : ℓ.frame.outFeatures = s.nout
  useBias : ℓ.frame.useBias = s.useBias
  act : ℓ.act = s.act
  dact : ℓ.dact = s.dact
  weight : ∀ v ∈ ℓ.frame.Pw.members, ∀ k < subsize Po ((ℓ.frame.Pw.coord v).getD 0 0) s.nout,
    ∀ i < subsize Pi ((ℓ.frame.Pw.coord v).getD 1 0) s.nin,
      ℓ.wst v [k, i] = s.W [startIdx Po ((ℓ.frame.Pw.coord v).getD 0 0) s.nout + k,
        startIdx Pi ((ℓ.frame.Pw.coord v).getD 1 0) s.nin + i]
  bias : ∀ v ∈ ℓ.frame.Pw.members, (ℓ.frame.Pw.coord v).getD 1 0 = 0 →
    ∀ k < subsize Po ((ℓ.frame.Pw.coord v).getD 0 0) s.nout,
      ℓ.bst v [k] = s.β [startIdx Po ((ℓ.frame.Pw.coord v).getD 0 0) s.nout + k]

/-- The layers `ls` are the distributed form of `ss`: each satisfies the conditions of C42, and takes its input as its
predecessor leaves it.  `P`, `parts`, `n`: partition, its length and the number of features of the input;
`P'`, `parts'`, `n'` of the output. -/
inductive NetOk : Cart → Nat → Nat → List (NetLayer R σ) → List (SeqLayer R σ) → Cart → Nat → Nat → Prop
  | nil (P parts n) : NetOk P parts n [] [] P parts n
  | cons (ℓ ls s ss Po Pi P' parts' n') : LinearValid ℓ.frame Po Pi → StateBlocks ℓ s Po Pi →
      NetOk ℓ.frame.Py Po s.nout ls ss P' parts' n' →
      NetOk ℓ.frame.Px Pi s.nin (ℓ :: ls) (s :: ss) P' parts' n'

/-! ## One layer -/

variable {val : σ → R} {ℓ : NetLayer R σ} {s : SeqLayer R σ} {Po Pi : Nat}

theorem LinearValid.lin (h : LinearValid ℓ.frame Po Pi) (val : σ → R) : LinearValid (ℓ.lin val) Po Pi :=
  ⟨h.wfx, h.wfy, h.wfw, h.shx, h.shy, h.shw, h.root, h.sx, h.sy, h.features⟩

theorem StateBlocks.params (h : StateBlocks ℓ s Po Pi) (val : σ → R) :
    ParamBlocks (ℓ.lin val) Po Pi (fun c => val (s.W c)) (fun c => val (s.β c)) := by
  refine ⟨fun v hv k hk i hi => ?_, fun v hv h0 k hk => ?_⟩
  · change k < subsize Po ((ℓ.frame.Pw.coord v).getD 0 0) ℓ.frame.outFeatures at hk
    change i < subsize Pi ((ℓ.frame.Pw.coord v).getD 1 0) ℓ.frame.inFeatures at hi
    change val (ℓ.wst v [k, i]) = val (s.W [startIdx Po ((ℓ.frame.Pw.coord v).getD 0 0) ℓ.frame.outFeatures + k,
      startIdx Pi ((ℓ.frame.Pw.coord v).getD 1 0) ℓ.frame.inFeatures + i])
    rw [h.nin] at hi ⊢
    rw [h.nout] at hk ⊢
    rw [h.weight v hv k hk i hi]
  · change k < subsize Po ((ℓ.frame.Pw.coord v).getD 0 0) ℓ.frame.outFeatures at hk
    change val (ℓ.bst v [k]) = val (s.β [startIdx Po ((ℓ.frame.Pw.coord v).getD 0 0) ℓ.frame.outFeatures + k])
    rw [h.nout] at hk ⊢
    rw [h.bias v hv h0 k hk]

theorem ne_nil_of_prod_zero {s : List Nat} (h : s.prod = 0) : s ≠ [] := by
  rintro rfl
  simp at h

theorem BlocksOf.congr {P : Cart} {parts n : Nat} {bs : List Nat} {dt : TorchDtype} {X X' : List Nat → R}
    {x : Nat → Tensor R} (h : BlocksOf P parts n bs dt X x) (e : X = X') : BlocksOf P parts n bs dt X' x := e ▸ h

theorem BlocksOf.act {P : Cart} {parts n : Nat} {bs : List Nat} {dt : TorchDtype} {X : List Nat → R}
    {x : Nat → Tensor R} (h : BlocksOf P parts n bs dt X x) (f : R → R) :
    BlocksOf P parts n bs dt (fun i => f (X i)) (fun w => actForward f (x w)) :=
  ⟨h.shape, h.dtype, fun u hu b hb i hi => congrArg f (h.val u hu b hb i hi)⟩

theorem BlocksOf.actBack [Mul R] {P : Cart} {parts n : Nat} {bs : List Nat} {dt : TorchDtype} {Z D : List Nat → R}
    {z d : Nat → Tensor R} (hz : BlocksOf P parts n bs dt Z z) (hd : BlocksOf P parts n bs dt D d) (df : R → R) :
    BlocksOf P parts n bs dt (fun i => D i * df (Z i)) (fun w => actBackward df (z w) (d w)) :=
  ⟨hd.shape, hd.dtype, fun u hu b hb i hi => by
    simp only [actBackward, hd.val u hu b hb i hi, hz.val u hu b hb i hi]⟩

variable [CommSemiring R] {bs : List Nat} {dt : TorchDtype} {rg : Nat → Bool} {X : List Nat → R}
  {x : Nat → Tensor R}

theorem layer_forward (h : LinearValid ℓ.frame Po Pi) (hp : StateBlocks ℓ s Po Pi)
    (hx : BlocksOf ℓ.frame.Px Pi s.nin bs dt X x) (hs : ∀ u, (x u).shape ≠ []) :
    (∃ z : Nat → Tensor R, ∀ w, linearForward (ℓ.lin val) ⟨x, rg⟩ rg w = some (z w)) ∧
    ∀ z : Nat → Tensor R, (∀ w, linearForward (ℓ.lin val) ⟨x, rg⟩ rg w = some (z w)) →
      BlocksOf ℓ.frame.Py Po s.nout bs dt (s.pre val X) z ∧ ∀ u, (z u).shape ≠ [] := by
  have hx' : BlocksOf (ℓ.lin val).Px Pi (ℓ.lin val).inFeatures bs dt X (Inputs.mk x rg).x := by
    change BlocksOf ℓ.frame.Px Pi ℓ.frame.inFeatures bs dt X x
    rw [hp.nin]; exact hx
  obtain ⟨⟨out, h1, h2⟩, h3, h4⟩ := C42_forward (rg := rg) (h.lin val) (hp.params val) hx' fun u _ => hs u
  have hall : ∀ w, ∃ t, linearForward (ℓ.lin val) ⟨x, rg⟩ rg w = some t := by
    intro w
    by_cases hy : w ∈ (ℓ.lin val).Py.members
    · exact ⟨_, h1 w hy⟩
    · by_cases ha : (ℓ.lin val).Active w
      · obtain ⟨t, ht, -⟩ := h3 w ha hy
        exact ⟨t, ht⟩
      · exact ⟨_, h4 w ha⟩
  choose z hz using hall
  refine ⟨⟨z, hz⟩, fun z hz => ⟨?_, fun u => ?_⟩⟩
  · have e : ∀ u ∈ ℓ.frame.Py.members, z u = out u := fun u hu =>
      Option.some.inj ((hz u).symm.trans (h1 u hu))
    have h2' : BlocksOf ℓ.frame.Py Po s.nout bs dt (s.pre val X) out := by
      have := h2
      change BlocksOf ℓ.frame.Py Po ℓ.frame.outFeatures bs dt (fun i =>
        (∑ k ∈ Finset.range ℓ.frame.inFeatures, X (i.dropLast ++ [k]) * val (s.W [i.getLastD 0, k])) +
          if ℓ.frame.useBias then val (s.β [i.getLastD 0]) else 0) out at this
      rw [hp.nin, hp.nout, hp.useBias] at this
      exact this
    exact ⟨fun u hu => e u hu ▸ h2'.shape u hu, fun u hu => e u hu ▸ h2'.dtype u hu,
      fun u hu => e u hu ▸ h2'.val u hu⟩
  · by_cases hy : u ∈ (ℓ.lin val).Py.members
    · rw [Option.some.inj ((hz u).symm.trans (h1 u hy)), h2.shape u hy]
      simp
    · by_cases ha : (ℓ.lin val).Active u
      · obtain ⟨t, ht, h0⟩ := h3 u ha hy
        rw [Option.some.inj ((hz u).symm.trans ht)]
        exact ne_nil_of_prod_zero h0
      · rw [Option.some.inj ((hz u).symm.trans (h4 u ha))]
        exact hs u

theorem layer_backward {upd : σ → R → σ} (h : LinearValid ℓ.frame Po Pi) (hp : StateBlocks ℓ s Po Pi)
    (hx : BlocksOf ℓ.frame.Px Pi s.nin bs dt X x) (hs : ∀ u, (x u).shape ≠ []) {D : List Nat → R}
    {d : Nat → Tensor R} (hd : BlocksOf ℓ.frame.Py Po s.nout bs dt D d) (hds : ∀ u, (d u).shape ≠ []) :
    (∃ (g : Nat → ParamGrads R) (dx : Nat → Tensor R), (∀ v ∈ ℓ.frame.Pw.members, linearParamGrads (ℓ.lin val) ⟨x, rg⟩ rg d v = some (g v)) ∧
      ∀ w, linearBackward (ℓ.lin val) ⟨x, rg⟩ rg d w = some (dx w)) ∧
    ∀ (g : Nat → ParamGrads R) (dx : Nat → Tensor R), (∀ v ∈ ℓ.frame.Pw.members, linearParamGrads (ℓ.lin val) ⟨x, rg⟩ rg d v = some (g v)) →
      (∀ w, linearBackward (ℓ.lin val) ⟨x, rg⟩ rg d w = some (dx w)) →
      BlocksOf ℓ.frame.Px Pi s.nin bs dt
        (fun i => ∑ o ∈ Finset.range s.nout, D (i.dropLast ++ [o]) * val (s.W [o, i.getLastD 0])) dx ∧
      (∀ u, (dx u).shape ≠ []) ∧
      StateBlocks (ℓ.update upd g)
        { s with
          W := fun c => upd (s.W c) (boxSum bs fun b => D (b ++ [c.getD 0 0]) * X (b ++ [c.getD 1 0]))
          β := fun c => if s.useBias then upd (s.β c) (boxSum bs fun b => D (b ++ [c.getD 0 0])) else s.β c }
        Po Pi := by
  have hx' : BlocksOf (ℓ.lin val).Px Pi (ℓ.lin val).inFeatures bs dt X (Inputs.mk x rg).x := by
    change BlocksOf ℓ.frame.Px Pi ℓ.frame.inFeatures bs dt X x
    rw [hp.nin]; exact hx
  have hd' : BlocksOf (ℓ.lin val).Py Po (ℓ.lin val).outFeatures bs dt D d := by
    change BlocksOf ℓ.frame.Py Po ℓ.frame.outFeatures bs dt D d
    rw [hp.nout]; exact hd
  obtain ⟨⟨out, h1, h2⟩, h3⟩ := C42_backward (rg := rg) (h.lin val) (hp.params val) hx' (fun u _ => hs u) hd'
    fun u _ => hds u
  have hpar := C42_parameters (rg := rg) (h.lin val) hx' (fun u _ => hs u) hd' fun u _ => hds u
  have h4 : ∀ w, ¬ (ℓ.lin val).Active w → linearBackward (ℓ.lin val) ⟨x, rg⟩ rg d w = some (d w) := by
    intro w hw
    rw [linearBackward, stackBackward, if_pos]
    exact ⟨fun hh => hw (Or.inl hh), fun hh => hw (Or.inr (Or.inr hh)), fun hh => hw (Or.inr (Or.inl hh))⟩
  have hall : ∀ w, ∃ t, linearBackward (ℓ.lin val) ⟨x, rg⟩ rg d w = some t := by
    intro w
    by_cases hy : w ∈ (ℓ.lin val).Px.members
    · exact ⟨_, h1 w hy⟩
    · by_cases ha : (ℓ.lin val).Active w
      · obtain ⟨t, ht, -⟩ := h3 w ha hy
        exact ⟨t, ht⟩
      · exact ⟨_, h4 w ha⟩
  have hg : ∀ v, ∃ g, v ∈ ℓ.frame.Pw.members → linearParamGrads (ℓ.lin val) ⟨x, rg⟩ rg d v = some g := by
    intro v
    by_cases hv : v ∈ ℓ.frame.Pw.members
    · obtain ⟨dw, db, e, -⟩ := hpar v hv
      exact ⟨_, fun _ => e⟩
    · exact ⟨(fun _ => 0, none), fun hh => absurd hh hv⟩
  choose dx hdx using hall
  choose g hg using hg
  refine ⟨⟨g, dx, hg, hdx⟩, fun g dx hg hdx => ⟨?_, fun u => ?_, ?_⟩⟩
  · have e : ∀ u ∈ ℓ.frame.Px.members, dx u = out u := fun u hu =>
      Option.some.inj ((hdx u).symm.trans (h1 u hu))
    have h2' := h2
    change BlocksOf ℓ.frame.Px Pi ℓ.frame.inFeatures bs dt (fun i => ∑ o ∈ Finset.range ℓ.frame.outFeatures,
      D (i.dropLast ++ [o]) * val (s.W [o, i.getLastD 0])) out at h2'
    rw [hp.nin, hp.nout] at h2'
    exact ⟨fun u hu => e u hu ▸ h2'.shape u hu, fun u hu => e u hu ▸ h2'.dtype u hu,
      fun u hu => e u hu ▸ h2'.val u hu⟩
  · by_cases hy : u ∈ (ℓ.lin val).Px.members
    · rw [Option.some.inj ((hdx u).symm.trans (h1 u hy)), h2.shape u hy]
      simp
    · by_cases ha : (ℓ.lin val).Active u
      · obtain ⟨t, ht, h0⟩ := h3 u ha hy
        rw [Option.some.inj ((hdx u).symm.trans ht)]
        exact ne_nil_of_prod_zero h0
      · rw [Option.some.inj ((hdx u).symm.trans (h4 u ha))]
        exact hds u
  · refine ⟨hp.nin, hp.nout, hp.useBias, hp.act, hp.dact, fun v hv k hk i hi => ?_, fun v hv h0 k hk => ?_⟩
    · obtain ⟨dw, db, e, hw, -⟩ := hpar v hv
      have eg : g v = (dw, db) := Option.some.inj ((hg v hv).symm.trans e)
      have hw' := hw k (by change _ < subsize Po _ ℓ.frame.outFeatures; rw [hp.nout]; exact hk) i
        (by change _ < subsize Pi _ ℓ.frame.inFeatures; rw [hp.nin]; exact hi)
      change upd (ℓ.wst v [k, i]) ((g v).1 [k, i]) = upd _ _
      rw [eg, hp.weight v hv k hk i hi]
      change upd _ (dw [k, i]) = _
      rw [hw']
      change upd _ (boxSum bs fun b => D (b ++ [startIdx Po ((ℓ.frame.Pw.coord v).getD 0 0) ℓ.frame.outFeatures + k])
        * X (b ++ [startIdx Pi ((ℓ.frame.Pw.coord v).getD 1 0) ℓ.frame.inFeatures + i])) = _
      rw [hp.nin, hp.nout]
      rfl
    · obtain ⟨dw, db, e, -, hsome, hb⟩ := hpar v hv
      have eg : g v = (dw, db) := Option.some.inj ((hg v hv).symm.trans e)
      change (match (g v).2 with
        | some db => upd (ℓ.bst v [k]) (db [k])
        | none => ℓ.bst v [k]) = if s.useBias then _ else _
      rw [eg, hp.bias v hv h0 k hk]
      dsimp only
      by_cases hB : s.useBias = true
      · obtain ⟨f, hf⟩ := Option.isSome_iff_exists.1 (hsome.2 ⟨h0, hp.useBias.trans hB⟩)
        rw [hf, if_pos hB]
        dsimp only
        have hb' := hb f hf k (by change _ < subsize Po _ ℓ.frame.outFeatures; rw [hp.nout]; exact hk)
        rw [hb']
        change upd _ (boxSum bs fun b =>
          D (b ++ [startIdx Po ((ℓ.frame.Pw.coord v).getD 0 0) ℓ.frame.outFeatures + k])) = _
        rw [hp.nout]
        rfl
      · have hn : db = none := by
          rw [← Option.not_isSome_iff_eq_none]
          intro hh
          exact hB (hp.useBias.symm.trans (hsome.1 hh).2)
        rw [hn, if_neg hB]
        rfl

/-! ## The layers of a network -/

theorem net_forward {P P' : Cart} {parts n parts' n' : Nat} {ls : List (NetLayer R σ)} {ss : List (SeqLayer R σ)}
    (h : NetOk P parts n ls ss P' parts' n') :
    ∀ {X : List Nat → R} {x : Nat → Tensor R}, BlocksOf P parts n bs dt X x → (∀ u, (x u).shape ≠ []) →
    (∃ tr y, NetForward val rg ls x tr y) ∧
    ∀ tr y, NetForward val rg ls x tr y →
      BlocksOf P' parts' n' bs dt (seqForward val ss X) y ∧ ∀ u, (y u).shape ≠ [] := by
  induction h with
  | nil P parts n =>
    intro X x hx hs
    refine ⟨⟨_, _, .nil x⟩, fun tr y hy => ?_⟩
    cases hy
    exact ⟨hx, hs⟩
  | cons ℓ ls s ss Po Pi P' parts' n' hv hp _ ih =>
    intro X x hx hs
    obtain ⟨⟨z, hz⟩, hall⟩ := layer_forward (val := val) (rg := rg) hv hp hx hs
    constructor
    · obtain ⟨hzb, hzs⟩ := hall z hz
      obtain ⟨⟨tr, y, hy⟩, -⟩ := ih (hzb.act ℓ.act) (fun u => hzs u)
      exact ⟨_, _, .cons ℓ ls x z tr y hz hy⟩
    · intro tr y hy
      cases hy with
      | cons _ _ _ z tr y hz hy =>
        obtain ⟨hzb, hzs⟩ := hall z hz
        have := (ih (hzb.act ℓ.act) (fun u => hzs u)).2 tr y hy
        rw [seqForward, ← hp.act]
        exact this

theorem net_backward {upd : σ → R → σ} {top : (List Nat → R) → List Nat → R} {P P' : Cart}
    {parts n parts' n' : Nat} {ls : List (NetLayer R σ)} {ss : List (SeqLayer R σ)}
    (h : NetOk P parts n ls ss P' parts' n') :
    ∀ {X : List Nat → R} {x : Nat → Tensor R}, BlocksOf P parts n bs dt X x → (∀ u, (x u).shape ≠ []) →
    ∀ tr y dy, NetForward val rg ls x tr y →
    BlocksOf P' parts' n' bs dt (top (seqForward val ss X)) dy → (∀ u, (dy u).shape ≠ []) →
    (∃ gs dx, NetBackward val rg ls tr dy gs dx) ∧
    ∀ gs dx, NetBackward val rg ls tr dy gs dx →
      BlocksOf P parts n bs dt (seqBackprop val upd bs top ss X).1 dx ∧ (∀ u, (dx u).shape ≠ []) ∧
      NetOk P parts n (List.zipWith (NetLayer.update upd) ls gs) (seqBackprop val upd bs top ss X).2
        P' parts' n' := by
  induction h with
  | nil P parts n =>
    intro X x hx hs tr y dy hy hd hds
    cases hy
    refine ⟨⟨_, _, .nil dy⟩, fun gs dx hb => ?_⟩
    cases hb
    exact ⟨hd, hds, .nil P parts n⟩
  | cons ℓ ls s ss Po Pi P' parts' n' hv hp _ ih =>
    intro X x hx hs tr y dy hy hd hds
    cases hy with
    | cons _ _ _ z tr y hz hy =>
      obtain ⟨hzb, hzs⟩ := (layer_forward (val := val) (rg := rg) hv hp hx hs).2 z hz
      have hd' : BlocksOf P' parts' n' bs dt (top (seqForward val ss fun i => ℓ.act (s.pre val X i))) dy := by
        rw [seqForward, ← hp.act] at hd
        exact hd
      obtain ⟨⟨gs, d, hb⟩, hall⟩ := ih (hzb.act ℓ.act) (fun u => hzs u) tr y dy hy hd' hds
      have hlayer := fun (d : Nat → Tensor R) (h1 : BlocksOf ℓ.frame.Py Po s.nout bs dt
            (seqBackprop val upd bs top ss fun i => ℓ.act (s.pre val X i)).1 d) (h2 : ∀ u, (d u).shape ≠ []) =>
        layer_backward (val := val) (rg := rg) (upd := upd) hv hp hx hs
          (hzb.actBack h1 ℓ.dact) (fun u => h2 u)
      constructor
      · obtain ⟨h1, h2, -⟩ := hall gs d hb
        obtain ⟨⟨g, dx, e1, e2⟩, -⟩ := hlayer d h1 h2
        exact ⟨_, _, .cons ℓ ls x z tr dy gs d g dx hb e1 e2⟩
      · intro gs dx hb
        cases hb with
        | cons _ _ _ _ _ _ gs d g dx hb e1 e2 =>
          obtain ⟨h1, h2, h3⟩ := hall gs d hb
          obtain ⟨r1, r2, r3⟩ := (hlayer d h1 h2).2 g dx e1 e2
          rw [hp.act, hp.dact] at r1 r3
          rw [hp.act] at h3
          exact ⟨r1, r2, .cons (ℓ.update upd g) _ _ _ Po Pi P' parts' n' hv r3 h3⟩

end

/-! ## The loss -/

section
variable {R : Type} {P : Cart} {parts n b : Nat} {dt : TorchDtype} {Y : List Nat → R} {y : Nat → Tensor R}

/-- The partition of the output of a network, as the loss layer takes it. -/
structure OutOk (P : Cart) (parts : Nat) : Prop where
  wf : P.WF
  shape : P.shape = [1, parts]
  root : ∃ r, P.root = some r

theorem OutOk.pos (h : OutOk P parts) : 0 < parts := by
  have := h.wf.pos
  rw [h.shape] at this
  exact this parts (by simp)

theorem OutOk.placed (h : OutOk P parts) (b n : Nat) : Placed P (Layout.balanced [1, parts] [b, n]) :=
  ⟨h.wf, h.root, by rw [h.shape]; simp, by rw [Layout.balanced_pshape (by simp), h.shape]⟩

theorem OutOk.block (h : OutOk P parts) {w : Nat} (hw : w ∈ P.members) :
    (Layout.balanced [1, parts] [b, n]).shapeAt (P.coord w) = [b, subsize parts ((P.coord w).getD 1 0) n] ∧
    (Layout.balanced [1, parts] [b, n]).startAt (P.coord w) = [0, startIdx parts ((P.coord w).getD 1 0) n] := by
  have hc : InBounds (P.coord w) P.shape := coords_inBounds h.wf hw
  rw [h.shape] at hc
  obtain ⟨i, j, e, hi, hj⟩ := inBounds_two hc
  obtain rfl : i = 0 := by omega
  rw [Layout.balanced_shapeAt (by simp) hc, (Layout.balanced_startAt (by simp) hc).1, e]
  simp [computeSubshape, computeStartIndex, map3, subsize, startIdx, Nat.mod_one]

theorem OutOk.blocks (h : OutOk P parts) (hy : BlocksOf P parts n [b] dt Y y) :
    Blocks P (Layout.balanced [1, parts] [b, n]) ⟨[b, n], dt, Y⟩ y := by
  refine ⟨?_, fun w hw => ?_, hy.dtype, fun w hw l hl => ?_⟩
  · rw [Layout.balanced_global (by simp)]
    intro p hp
    have := h.pos
    simp only [List.mem_cons, List.not_mem_nil, or_false] at hp
    omega
  · rw [hy.shape w hw, (h.block hw).1]
    rfl
  · rw [(h.block hw).1] at hl
    obtain ⟨i, j, rfl, hi, hj⟩ := inBounds_two hl
    rw [(h.block hw).2]
    have := hy.val w hw [i] ⟨hi, trivial⟩ j hj
    simpa [shiftBy] using this

theorem OutOk.of_blocks (h : OutOk P parts) {T : Tensor R}
    (hy : Blocks P (Layout.balanced [1, parts] [b, n]) T y) : BlocksOf P parts n [b] T.dtype T.val y := by
  refine ⟨fun w hw => ?_, hy.dtype, fun w hw c hc i hi => ?_⟩
  · rw [hy.shape w hw, (h.block hw).1]
    rfl
  · match c, hc with
    | [c], hc =>
      have := hy.val w hw [c, i] (by rw [(h.block hw).1]; exact ⟨hc.1, hi, trivial⟩)
      rw [(h.block hw).2] at this
      simpa [shiftBy] using this

end

/-! ## C67 -/

section
variable {R σ : Type} [Field R] {val : σ → R} {upd : σ → R → σ} {rg : Nat → Bool} {M : LossLayer}
  {ell dell : R → R → R} {P P' : Cart} {parts n parts' n' b : Nat} {dt : TorchDtype} {kl : Bool} {red : String}
  {ls : List (NetLayer R σ)} {ss : List (SeqLayer R σ)}

/-- The losses of the workers of `P`: the first worker has the sequential loss `l`, the others the number 0. -/
def LossIs (P : Cart) (out : Nat → Tensor R) (l : Option (Tensor R)) : Prop :=
  ∃ w0 y, P.members.head? = some w0 ∧ l = some y ∧ y.shape = [] ∧ (out w0).shape = [] ∧
    (out w0).dtype = y.dtype ∧ (out w0).val [] = y.val [] ∧
    ∀ w ∈ P.members, w ≠ w0 → (out w).shape = [] ∧ (out w).val [] = 0

theorem torchLoss_dtype {red : String} {X T y : Tensor R} (h : torchLoss ell red X T = some y) :
    y.dtype = X.dtype := by
  unfold torchLoss at h
  split at h
  · split at h
    · simp only [Option.some.injEq] at h; rw [← h]
    · simp only [Option.some.injEq] at h; rw [← h]
    · simp only [Option.some.injEq] at h; rw [← h]
    · split at h
      · simp only [Option.some.injEq] at h; rw [← h]
      · simp at h
    · simp at h
  · simp at h

/-- C67, one step: it succeeds, and every successful step gives the sequential loss and leaves the workers with the
blocks of the sequentially updated parameters. -/
theorem C67_step (h : NetOk P parts n ls ss P' parts' n') (ho : OutOk P' parts')
    (hm : newLoss P' kl red = some M) (hn : red ≠ "none") {X : List Nat → R} {x : Nat → Tensor R}
    (hx : BlocksOf P parts n [b] dt X x) (hs : ∀ u, (x u).shape ≠ []) {T : Tensor R} {t : Nat → Tensor R}
    (ht : Blocks P' (Layout.balanced [1, parts'] [b, n']) T t) :
    (∃ ls' out, TrainStep val upd rg M ell dell x t ls ls' out) ∧
    ∀ ls' out, TrainStep val upd rg M ell dell x t ls ls' out →
      LossIs P' out (torchLoss ell red ⟨[b, n'], dt, seqForward val ss X⟩ T) ∧
      NetOk P parts n ls' (seqBackprop val upd [b]
        (fun Y => (torchLossGrad dell red ⟨[b, n'], dt, Y⟩ T ⟨[], dt, fun _ => 1⟩).val) ss X).2 P' parts' n' := by
  have hP := ho.placed b n'
  obtain ⟨w0, hM⟩ := newLoss_made hP hm
  have hMP : M.P = P' := by rw [hM.eq]
  have loss : ∀ (y out : Nat → Tensor R), BlocksOf P' parts' n' [b] dt (seqForward val ss X) y →
      (∀ w ∈ M.P.members, lossForward M ell y t rg w = some (out w)) →
      LossIs P' out (torchLoss ell red ⟨[b, n'], dt, seqForward val ss X⟩ T) := by
    intro y out hy hout
    obtain ⟨Y, w0', e, es, e0, ⟨z, z1, z2, z3, z4⟩, eo, -⟩ :=
      C46_reduced (ell := ell) (rg := rg) hP hm hn (ho.blocks hy) ht
    rw [hMP] at hout
    have hw0 : w0' ∈ P'.members := List.mem_of_mem_head? e0
    have ez : out w0' = z := Option.some.inj ((hout w0' hw0).symm.trans z1)
    refine ⟨w0', Y, e0, e, es, ez ▸ z2, ez ▸ z3, ez ▸ z4, fun w hw hne => ?_⟩
    obtain ⟨z', z1', z2', z3'⟩ := eo w hw hne
    have ez' : out w = z' := Option.some.inj ((hout w hw).symm.trans z1')
    exact ⟨ez' ▸ z2', ez' ▸ z3'⟩
  have grad : ∀ (y out : Nat → Tensor R), BlocksOf P' parts' n' [b] dt (seqForward val ss X) y →
      (∀ w ∈ M.P.members, lossForward M ell y t rg w = some (out w)) →
      ∃ d, BlocksOf P' parts' n' [b] dt
          (torchLossGrad dell red ⟨[b, n'], dt, seqForward val ss X⟩ T ⟨[], dt, fun _ => 1⟩).val d ∧
        ∀ w ∈ M.P.members, lossBackward M ell dell y t rg
          (fun w => ⟨(out w).shape, (out w).dtype, fun _ => 1⟩) w = some (d w) := by
    intro y out hy hout
    obtain ⟨w0', Y, e0, e, -, e1, e2, -⟩ := loss y out hy hout
    obtain ⟨⟨d, hd, hd'⟩, -⟩ := C46_backward (ell := ell) (dell := dell) (rg := rg) hP hm hn (ho.blocks hy) ht
      (fun w => ⟨(out w).shape, (out w).dtype, fun _ => 1⟩) w0' e0 ⟨e1, e2.trans (torchLoss_dtype e)⟩
    exact ⟨d, ho.of_blocks hd, by rw [hMP]; exact hd'⟩
  obtain ⟨hex, hall⟩ := net_forward (val := val) (rg := rg) h hx hs
  constructor
  · obtain ⟨tr, y, hf⟩ := hex
    obtain ⟨hy, hys⟩ := hall tr y hf
    have hout : ∀ w, ∃ o, w ∈ M.P.members → lossForward M ell y t rg w = some o := by
      intro w
      by_cases hw : w ∈ M.P.members
      · obtain ⟨Y, w0', -, -, -, ⟨z, z1, -⟩, eo, -⟩ :=
          C46_reduced (ell := ell) (rg := rg) hP hm hn (ho.blocks hy) ht
        by_cases hne : w = w0'
        · exact ⟨z, fun _ => hne ▸ z1⟩
        · obtain ⟨z', z1', -⟩ := eo w (hMP ▸ hw) hne
          exact ⟨z', fun _ => z1'⟩
      · exact ⟨⟨[], dt, fun _ => 0⟩, fun hh => absurd hh hw⟩
    choose out hout using hout
    obtain ⟨d, hd, hd'⟩ := grad y out hy hout
    let dy : Nat → Tensor R := fun w => if w ∈ M.P.members then d w else ⟨[0], dt, fun _ => 0⟩
    have edy : ∀ w ∈ M.P.members, dy w = d w := fun w hw => if_pos hw
    have hdy : BlocksOf P' parts' n' [b] dt
        (torchLossGrad dell red ⟨[b, n'], dt, seqForward val ss X⟩ T ⟨[], dt, fun _ => 1⟩).val dy :=
      ⟨fun u hu => by rw [edy u (hMP ▸ hu)]; exact hd.shape u hu,
        fun u hu => by rw [edy u (hMP ▸ hu)]; exact hd.dtype u hu,
        fun u hu => by rw [edy u (hMP ▸ hu)]; exact hd.val u hu⟩
    have hds : ∀ u, (dy u).shape ≠ [] := by
      intro u
      by_cases hu : u ∈ M.P.members
      · rw [hdy.shape u (hMP ▸ hu)]; simp
      · simp [dy, hu]
    obtain ⟨⟨gs, dx, hb⟩, -⟩ := net_backward (upd := upd)
      (top := fun Y => (torchLossGrad dell red ⟨[b, n'], dt, Y⟩ T ⟨[], dt, fun _ => 1⟩).val)
      h hx hs tr y dy hf hdy hds
    exact ⟨_, out, tr, y, dy, gs, dx, hf, hout, fun w hw => by rw [edy w hw]; exact hd' w hw,
      fun w _ => hds w, hb, rfl⟩
  · rintro ls' out ⟨tr, y, dy, gs, dx, hf, hout, hdl, hdo, hb, rfl⟩
    obtain ⟨hy, hys⟩ := hall tr y hf
    refine ⟨loss y out hy hout, ?_⟩
    obtain ⟨d, hd, hd'⟩ := grad y out hy hout
    have edy : ∀ w ∈ M.P.members, dy w = d w := fun w hw => Option.some.inj ((hdl w hw).symm.trans (hd' w hw))
    have hdy : BlocksOf P' parts' n' [b] dt
        (torchLossGrad dell red ⟨[b, n'], dt, seqForward val ss X⟩ T ⟨[], dt, fun _ => 1⟩).val dy :=
      ⟨fun u hu => by rw [edy u (hMP ▸ hu)]; exact hd.shape u hu,
        fun u hu => by rw [edy u (hMP ▸ hu)]; exact hd.dtype u hu,
        fun u hu => by rw [edy u (hMP ▸ hu)]; exact hd.val u hu⟩
    have hds : ∀ u, (dy u).shape ≠ [] := by
      intro u
      by_cases hu : u ∈ M.P.members
      · rw [hdy.shape u (hMP ▸ hu)]; simp
      · exact hdo u hu
    exact ((net_backward (upd := upd)
      (top := fun Y => (torchLossGrad dell red ⟨[b, n'], dt, Y⟩ T ⟨[], dt, fun _ => 1⟩).val)
      h hx hs tr y dy hf hdy hds).2 gs dx hb).2.2

/-- The workers hold the blocks of the inputs and targets of the batches. -/
def BatchesOf (P : Cart) (parts n : Nat) (P' : Cart) (parts' n' b : Nat) (dt : TorchDtype) :
    List ((Nat → Tensor R) × (Nat → Tensor R)) → List ((List Nat → R) × Tensor R) → Prop :=
  List.Forall₂ fun d s => BlocksOf P parts n [b] dt s.1 d.1 ∧ (∀ u, (d.1 u).shape ≠ []) ∧
    Blocks P' (Layout.balanced [1, parts'] [b, n']) s.2 d.2

/-- C67: training a network of any depth with any number of batches succeeds, and every successful run gives at every
step the sequential loss and ends with the blocks of the parameters of sequential training. -/
theorem C67_training (h : NetOk P parts n ls ss P' parts' n') (ho : OutOk P' parts')
    (hm : newLoss P' kl red = some M) (hn : red ≠ "none")
    {batches : List ((Nat → Tensor R) × (Nat → Tensor R))} {sbatches : List ((List Nat → R) × Tensor R)}
    (hb : BatchesOf P parts n P' parts' n' b dt batches sbatches) :
    (∃ ls' outs, Train val upd rg M ell dell batches ls ls' outs) ∧
    ∀ ls' outs, Train val upd rg M ell dell batches ls ls' outs →
      List.Forall₂ (LossIs P') outs (seqTrain val upd b n' dt red ell dell sbatches ss).2 ∧
      NetOk P parts n ls' (seqTrain val upd b n' dt red ell dell sbatches ss).1 P' parts' n' := by
  induction hb generalizing ls ss with
  | nil =>
    refine ⟨⟨ls, [], .nil ls⟩, fun ls' outs ht => ?_⟩
    cases ht
    exact ⟨.nil, h⟩
  | @cons d s batches sbatches hd _ ih =>
    obtain ⟨x, t⟩ := d
    obtain ⟨X, T⟩ := s
    obtain ⟨hx, hs, ht⟩ := hd
    obtain ⟨⟨ls1, out, h1⟩, hall⟩ := C67_step (val := val) (upd := upd) (rg := rg) (ell := ell) (dell := dell)
      h ho hm hn hx hs ht
    constructor
    · obtain ⟨⟨ls2, outs, h2⟩, -⟩ := ih (hall ls1 out h1).2
      exact ⟨ls2, _, .cons x t batches ls ls1 ls2 out outs h1 h2⟩
    · intro ls' outs hr
      cases hr with
      | cons _ _ _ _ ls1 _ out outs h1 h2 =>
        obtain ⟨r1, r2⟩ := hall ls1 out h1
        obtain ⟨q1, q2⟩ := (ih r2).2 _ _ h2
        exact ⟨.cons r1 q1, q2⟩

end

/-! ## A worked case -/

/-- The layer whose workers store the blocks of `s`. -/
def exNetLayer {R σ : Type} (frame : LinearLayer R) (s : SeqLayer R σ) (Po Pi : Nat) : NetLayer R σ :=
  ⟨frame,
    fun v c => s.W [startIdx Po ((frame.Pw.coord v).getD 0 0) s.nout + c.getD 0 0,
      startIdx Pi ((frame.Pw.coord v).getD 1 0) s.nin + c.getD 1 0],
    fun v c => s.β [startIdx Po ((frame.Pw.coord v).getD 0 0) s.nout + c.getD 0 0], s.act, s.dact⟩

theorem exNetLayer_blocks {R σ : Type} (frame : LinearLayer R) (s : SeqLayer R σ) (Po Pi : Nat)
    (h1 : frame.inFeatures = s.nin) (h2 : frame.outFeatures = s.nout) (h3 : frame.useBias = s.useBias) :
    StateBlocks (exNetLayer frame s Po Pi) s Po Pi :=
  ⟨h1, h2, h3, rfl, rfl, fun _ _ _ _ _ _ => rfl, fun _ _ _ _ _ => rfl⟩

/-- Five features over workers 4, 5 become three features over workers 0, 6, with weights over workers 0 to 3 ... -/
def exFrame1 : LinearLayer ℚ :=
  ⟨⟨[4, 5], [1, 2], some 0⟩, ⟨[0, 6], [1, 2], some 0⟩, ⟨[0, 1, 2, 3], [2, 2], some 0⟩, false, false, 5, 3, true,
    fun _ _ => 0, fun _ _ => 0⟩

/-- ... and then two features over workers 3, 1, with weights over workers 5, 1, 6, 0, without bias. -/
def exFrame2 : LinearLayer ℚ :=
  ⟨⟨[0, 6], [1, 2], some 0⟩, ⟨[3, 1], [1, 2], some 0⟩, ⟨[5, 1, 6, 0], [2, 2], some 0⟩, false, false, 3, 2, false,
    fun _ _ => 0, fun _ _ => 0⟩

/-- Numbers with momentum; the first layer squares its results, the second one does not. -/
def exSeq1 : SeqLayer ℚ (ℚ × ℚ) :=
  ⟨5, 3, true, fun c => (c.getD 0 0 - c.getD 1 0, 0), fun c => (c.getD 0 0, 0), fun z => z * z, fun z => 2 * z⟩
def exSeq2 : SeqLayer ℚ (ℚ × ℚ) :=
  ⟨3, 2, false, fun c => (1 + c.getD 0 0 * c.getD 1 0, 0), fun _ => (0, 0), id, fun _ => 1⟩
def exSeq : List (SeqLayer ℚ (ℚ × ℚ)) := [exSeq1, exSeq2]
def exNet : List (NetLayer ℚ (ℚ × ℚ)) := [exNetLayer exFrame1 exSeq1 2 2, exNetLayer exFrame2 exSeq2 2 2]

theorem exNet_ok : NetOk ⟨[4, 5], [1, 2], some 0⟩ 2 5 exNet exSeq ⟨[3, 1], [1, 2], some 0⟩ 2 2 := by
  refine .cons (exNetLayer exFrame1 exSeq1 2 2) _ _ _ 2 2 _ _ _ ?_ (exNetLayer_blocks exFrame1 exSeq1 2 2 rfl rfl rfl)
    (.cons (exNetLayer exFrame2 exSeq2 2 2) _ _ _ 2 2 _ _ _ ?_ (exNetLayer_blocks exFrame2 exSeq2 2 2 rfl rfl rfl)
      (.nil _ _ _))
  · exact ⟨⟨by decide, by decide, by decide⟩, ⟨by decide, by decide, by decide⟩, ⟨by decide, by decide, by decide⟩,
      rfl, rfl, rfl, ⟨_, rfl, rfl, rfl⟩, by decide, by decide, by decide⟩
  · exact ⟨⟨by decide, by decide, by decide⟩, ⟨by decide, by decide, by decide⟩, ⟨by decide, by decide, by decide⟩,
      rfl, rfl, rfl, ⟨_, rfl, rfl, rfl⟩, by decide, by decide, by decide⟩

theorem exOut_ok : OutOk ⟨[3, 1], [1, 2], some 0⟩ 2 := ⟨⟨by decide, by decide, by decide⟩, rfl, ⟨_, rfl⟩⟩

/-- Blocks of a batch of two samples. -/
def exBlocks (P : Cart) (n : Nat) (X : List Nat → ℚ) : Nat → Tensor ℚ := fun w =>
  ⟨[2, if w ∈ P.members then subsize 2 ((P.coord w).getD 1 0) n else 0], .float64, fun i =>
    X [i.getD 0 0, startIdx 2 ((P.coord w).getD 1 0) n + i.getD 1 0]⟩

theorem exBlocks_ok (P : Cart) (n : Nat) (X : List Nat → ℚ) : BlocksOf P 2 n [2] .float64 X (exBlocks P n X) := by
  refine ⟨fun u hu => by simp [exBlocks, hu], fun _ _ => rfl, fun u hu b hb i hi => ?_⟩
  match b, hb with
  | [b], _ => simp [exBlocks]

/-- Inputs and targets of two batches. -/
def exSeqBatches : List ((List Nat → ℚ) × Tensor ℚ) :=
  [(fun c => c.getD 0 0 + c.getD 1 0, ⟨[2, 2], .float64, fun c => c.getD 0 0⟩),
    (fun c => c.getD 0 0 * c.getD 1 0 - 1, ⟨[2, 2], .float64, fun c => c.getD 1 0⟩)]

def exBatches : List ((Nat → Tensor ℚ) × (Nat → Tensor ℚ)) :=
  exSeqBatches.map fun s => (exBlocks ⟨[4, 5], [1, 2], some 0⟩ 5 s.1, exBlocks ⟨[3, 1], [1, 2], some 0⟩ 2 s.2.val)

theorem exBatches_ok : BatchesOf ⟨[4, 5], [1, 2], some 0⟩ 2 5 ⟨[3, 1], [1, 2], some 0⟩ 2 2 2 .float64 exBatches
    exSeqBatches :=
  .cons ⟨exBlocks_ok _ _ _, fun _ => by simp [exBlocks], exOut_ok.blocks (exBlocks_ok _ _ _)⟩
    (.cons ⟨exBlocks_ok _ _ _, fun _ => by simp [exBlocks], exOut_ok.blocks (exBlocks_ok _ _ _)⟩ .nil)

/-- Gradient descent with momentum 1/2 and step 1/1000. -/
def exUpd (s : ℚ × ℚ) (g : ℚ) : ℚ × ℚ := (s.1 - (s.2 / 2 + g) / 1000, s.2 / 2 + g)

/-- The mean squared error of the first batch, sequentially. -/
example : ((seqTrain Prod.fst exUpd 2 2 .float64 "mean" (fun a b => (a - b) * (a - b)) (fun a b => 2 * (a - b))
    exSeqBatches exSeq).2.map fun l => l.map fun t => t.val []).head? = some (some (18720591 / 4)) := by
  decide +kernel

example : ∃ M, newLoss ⟨[3, 1], [1, 2], some 0⟩ false "mean" = some M ∧
    ∃ ls' outs, Train Prod.fst exUpd (fun _ => true) M (fun a b => (a - b) * (a - b)) (fun a b => 2 * (a - b))
      exBatches exNet ls' outs :=
  ⟨_, rfl, (C67_training (kl := false) (red := "mean") exNet_ok exOut_ok rfl (by decide) exBatches_ok).1⟩

end Verif
