import Verif.Net.XNorm

/-!
# Networks with interpolation and batch norm that are called again and again: one layer

As `Verif.Net.Update`.  A batch norm has buffers besides its parameters, the running mean and variance, which change in every
forward pass in training mode (`batchnorm.py:161-186, 209-214`).  A network may be called in training mode and in evaluation
mode, and the modules of a batch norm keep the same in both.
-/

namespace Verif.Net

variable {F β : Type}

/-! ## Workers without a part in a batch norm -/

section
variable [Field F]

/-- Workers without a part in a broadcast do nothing. -/
theorem bcast_idle (c : Nat) (L : PairLayer) (ℓ : Lens (NSt F) (Tensor F × Bool)) {w : Nat} (hw : L.active w = false)
    (S : Nat → NSt F) : run (bcastProg c L ℓ) S w = S w := by
  unfold bcastProg
  split
  · rfl
  · have h1 : ∀ S : Nat → NSt F, run [createPhase c L, structPhase c (fun w => sendOf (L.bparts w)) (fun w => recvOf (L.bparts w)) ℓ] S w =
        S w := by
      refine fun S => idle_run (act := L.active) (fun ph hp => ?_) hw S
      rcases List.mem_cons.1 hp with rfl | hp
      · exact coll_idle fun _ h => h
      · rw [List.mem_singleton.1 hp]
        exact struct_idle c _ ℓ (bparts_idle L)
    have h2 : ∀ S : Nat → NSt F, sync (copyPhase c (fun w => sendOf (L.bparts w)) (fun w => recvOf (L.bparts w)) L.preserveBatch ℓ
        fun _ x => x.str) S w = S w := by
      intro S
      unfold sync
      simp only [copyPhase, pairPhase, bparts_idle L w hw]
      rfl
    exact (h2 _).trans (h1 S)

/-- Workers without a part in a sum-reduction do nothing. -/
theorem reduce_idle (c : Nat) (L : PairLayer) (ℓ : Lens (NSt F) (Tensor F × Bool)) {w : Nat} (hw : L.active w = false)
    (S : Nat → NSt F) : run (reduceProg c L ℓ) S w = S w := by
  unfold reduceProg
  split
  · rfl
  · have h1 : ∀ S : Nat → NSt F, run [createPhase c L, structPhase c (fun w => sendOf (L.rparts w)) (fun w => recvOf (L.rparts w)) ℓ] S w =
        S w := by
      refine fun S => idle_run (act := L.active) (fun ph hp => ?_) hw S
      rcases List.mem_cons.1 hp with rfl | hp
      · exact coll_idle fun _ h => h
      · rw [List.mem_singleton.1 hp]
        exact struct_idle c _ ℓ (rparts_idle L)
    have h2 : ∀ S : Nat → NSt F, sync (sumPhase c (fun w => sendOf (L.rparts w)) (fun w => recvOf (L.rparts w)) L.preserveBatch ℓ
        (fun _ x => infoOf ℓ x) fun _ x => x.str) S w = S w := by
      intro S
      unfold sync
      simp only [sumPhase, pairPhase, rparts_idle L w hw]
      rfl
    exact (h2 _).trans (h1 S)

omit [Field F] in
theorem join_idle (c : Nat) (P : Cart) (ds : List Nat) : ∀ ph ∈ joinProg (F := F) c P ds, IdlePh (fun w => decide (w ∈ P.members)) ph := by
  intro ph hp
  obtain ⟨i, -, hp⟩ := List.mem_flatMap.1 hp
  rcases List.mem_cons.1 hp with rfl | hp
  · exact coll_idle fun _ h => h
  · rw [List.mem_singleton.1 hp]
    exact coll_idle fun _ h => h

/-- Workers outside of the partition do nothing. -/
theorem norm_idle (c cs cb ca : Nat) {N : NormLayer F} {L : Layout} (h : BNMade N.M.P L N.M) {w : Nat} (hw : w ∉ N.M.P.members)
    (S : Nat → NSt F) : run (normCuts c cs cb ca N).flatten S w = S w := by
  have hsr : N.M.sr.active w = false := Bool.eq_false_iff.2 fun e => hw ((sr_active h).1 e)
  have hbc : N.M.bc.active w = false := Bool.eq_false_iff.2 fun e => hw ((bc_active h).1 e)
  have hd : decide (w ∈ N.M.P.members) = false := decide_eq_false hw
  have r : ∀ c i (S : Nat → NSt F), run (reduceProg c N.M.sr (parLens i)) S w = S w := fun c i S => reduce_idle c _ _ hsr S
  have b : ∀ c i (S : Nat → NSt F), run (bcastProg c N.M.bc (parLens i)) S w = S w := fun c i S => bcast_idle c _ _ hbc S
  have loc : ∀ (f : Nat → NSt F → NSt F) (S : Nat → NSt F),
      run [localPhase (μ := NMsg F) fun w x => if w ∈ N.M.P.members then f w x else x] S w = S w :=
    fun f S => if_neg hw
  have hj : ∀ S : Nat → NSt F, run (joinProg c N.M.P (List.range N.M.P.shape.length)) S w = S w :=
    fun S => idle_run (join_idle c _ _) hd S
  have fl : ∀ (ps : List (Prog (NSt F) (NMsg F))), (∀ p ∈ ps, ∀ S : Nat → NSt F, run p S w = S w) →
      ∀ S : Nat → NSt F, run ps.flatten S w = S w := by
    intro ps
    induction ps with
    | nil => exact fun _ _ => rfl
    | cons p ps ih =>
      intro hp S
      rw [List.flatten_cons, run_append, ih (fun q hq => hp q (List.mem_cons_of_mem _ hq)), hp p List.mem_cons_self]
  have st : ∀ i, ∀ p ∈ statCuts cs cb N.M i, ∀ S : Nat → NSt F, run p S w = S w := by
    intro i p hp S
    simp only [statCuts, List.mem_cons, List.not_mem_nil, or_false] at hp
    rcases hp with rfl | rfl | rfl
    · exact r _ _ _
    · exact loc _ _
    · exact b _ _ _
  refine fl _ (fun p hp S => ?_) S
  unfold normCuts at hp
  rcases List.mem_append.1 hp with hp | hp
  · rcases List.mem_append.1 hp with hp | hp
    · rcases List.mem_append.1 hp with hp | hp
      · rw [List.mem_singleton.1 hp, run_append]
        exact (loc _ _).trans (hj S)
      · split at hp
        · rcases List.mem_append.1 hp with hp | hp
          · rcases List.mem_cons.1 hp with rfl | hp
            · exact loc _ _
            · exact st 2 p hp S
          · rcases List.mem_cons.1 hp with rfl | hp
            · exact loc _ _
            · exact st 3 p hp S
        · cases hp
    · rw [List.mem_singleton.1 hp]
      exact loc _ _
  · simp only [List.mem_cons, List.not_mem_nil, or_false] at hp
    rcases hp with rfl | rfl | rfl
    · split
      · exact b _ _ _
      · rfl
    · split
      · exact b _ _ _
      · rfl
    · exact loc _ _

end

/-! ## Programs -/

section
variable [Field F]

/-- A worker after the `forward` of a layer: what it has stored in local variables is gone. -/
def NSt.scope (x : NSt F) : NSt F := { feed x.t x.rg with err := x.err }

/-- The end of the `forward` of a layer. -/
def scopePhase : Nat → LSt F → Phase (LSt F) (NMsg F) :=
  localPhase fun _ c => { c with b := { c.b with s := c.b.s.scope } }

variable [LinearOrder F]

/-- `batchnorm.py:161-186, 209-214`: the update of the running statistics, from the mean and the variance of the batch.  The code
does it before it normalises the input; mean and variance are still the same afterwards. -/
def XLayer.statsPhase (i : Nat) : XLayer F β → Nat → LSt F → Phase (LSt F) (NMsg F)
  | .norm _ _ _ _ N _ _ _ => localPhase fun w c => if w ∈ N.M.P.members then
      if N.training && N.M.track then
        match updateStats N.M.momentum ⟨c.θ i 2, c.θ i 3, c.seen i⟩ (c.b.s.par 2).1 (c.b.s.par 3).1 with
        | some st => { c with
            θ := fun j p => if j = i then if p = 2 then st.mean else if p = 3 then st.var else c.θ j p else c.θ j p
            seen := fun j => if j = i then st.seen else c.seen j }
        | none => { c with b := { c.b with s := { c.b.s with err := true } } }
      else c
    else c
  | _ => localPhase fun _ c => c

variable [FloorRing F]

/-- The call of layer `i`. -/
def callLayer (P : Cart) (i : Nat) (l : XLayer F β) : Prog (LSt F) (NMsg F) :=
  callSlots i l.slot 0 (l.cmods P) ++ [l.statsPhase i, scopePhase]

/-- The forward pass of a network; its first layer is layer `i`. -/
def callNet (P : Cart) : Nat → List (XLayer F β) → Prog (LSt F) (NMsg F)
  | _, [] => []
  | i, l :: ls => callLayer P i l ++ callNet (l.out P) (i + 1) ls

end

/-! ## Specification: the sequential layer -/

section
variable [Field F]

/-- The layer after a call with the input `x`: in training mode a batch norm that tracks statistics has seen it. -/
def XLayer.note : XLayer F β → List Nat × (List Nat → F) → XLayer F β
  | .norm c cs cb ca N sq gamma beta, (s, X) => .norm c cs cb ca N
      (if N.training && N.M.track then seqUpdate N.M.momentum sq (channelMean ⟨s, .float32, X⟩) (channelVar ⟨s, .float32, X⟩) else sq)
      gamma beta
  | l, _ => l

/-- The layer after an update of its parameters, as `TLayer.upd`. -/
def XLayer.upd (opt : F → F → F) : XLayer F β → List Nat × (List Nat → F) → (List Nat → F) → XLayer F β
  | .base l, x, Y => .base (l.upd opt x Y)
  | .up c size p B gy, _, _ => .up c size p B gy
  | .norm c cs cb ca N sq gamma beta, (s, X), Y => .norm c cs cb ca N sq
      (if N.M.affine && N.rgp then fun k => opt (gamma k) (channelSum (timesT ⟨s, .float32, Y⟩
        (seqHat N.sqrt N.M.eps (seqUsed N.M.track N.training sq ⟨s, .float32, X⟩) ⟨s, .float32, X⟩)) k) else gamma)
      (if N.M.affine && N.rgp then fun k => opt (beta k) (channelSum ⟨s, .float32, Y⟩ k) else beta)

/-- The workers store the parameters and the running statistics of the layer: `θ w p` is parameter `p` of worker `w`, `seen w` its
`inputs_seen`.  A batch norm has `gamma` (0) and `beta` (1) in blocks on the workers of `P_sum`, and the running statistics
(2, 3) in blocks on all workers (`batchnorm.py:57, 74-101`). -/
def XLayer.Stores (P : Cart) (t : TorchDtype) (θ : Nat → Nat → Tensor F) (seen : Nat → Nat) : XLayer F β → Prop
  | .base l => l.Stores P θ
  | .up _ _ _ _ _ => True
  | .norm _ _ _ _ N sq gamma beta =>
    (N.M.affine = true → Param P N.M.Psum (channelBlocks P N.M.numFeatures) t gamma (fun w => θ w 0) ∧
      Param P N.M.Psum (channelBlocks P N.M.numFeatures) t beta (fun w => θ w 1) ∧
      ∀ w ∈ P.members, (θ w 0).bare = (θ w 1).bare) ∧
    (N.M.track = true → Running P (channelBlocks P N.M.numFeatures) sq (fun w => ⟨θ w 2, θ w 3, seen w⟩) ∧
      (N.M.momentum = none → ∀ w ∈ P.members, seen w = sq.seen))

/-- The momentum of a batch norm that tracks statistics is not 0 (see C49). -/
def XLayer.Moves : XLayer F β → Prop
  | .norm _ _ _ _ N _ _ _ => N.M.track = true → N.M.momentum ≠ some 0
  | _ => True

end

/-! ## Layers of one kind -/

/-- The same layer with other parameters and statistics of the sequential network, and perhaps in the other mode. -/
inductive XKin : XLayer F β → XLayer F β → Prop
  | base {l l' : TLayer F β} (h : Kin l l') : XKin (.base l) (.base l')
  | up (c : Nat) (size : Option (List Nat)) (p : InterpParams F) (B : Bufs β) (gy : List Nat) :
      XKin (.up c size p B gy) (.up c size p B gy)
  | norm (c cs cb ca : Nat) (N : NormLayer F) (tr : Bool) (sq : SeqState F) (gamma beta : Nat → F) (sq' : SeqState F)
      (gamma' beta' : Nat → F) :
      XKin (.norm c cs cb ca N sq gamma beta) (.norm c cs cb ca { N with training := tr } sq' gamma' beta')

theorem XKin.refl (l : XLayer F β) : XKin l l := by
  cases l with
  | base l => exact .base (Kin.refl l)
  | up => exact .up ..
  | norm c cs cb ca N sq gamma beta => exact .norm c cs cb ca N N.training sq gamma beta sq gamma beta

theorem XKin.trans {a b c : XLayer F β} (h : XKin a b) (h' : XKin b c) : XKin a c := by
  cases h with
  | base h => cases h' with | base h' => exact .base (h.trans h')
  | up => exact h'
  | norm c cs cb ca N tr sq gamma beta sq' gamma' beta' =>
    cases h' with
    | norm _ _ _ _ _ tr'' _ _ _ sq'' gamma'' beta'' => exact .norm c cs cb ca N tr'' sq gamma beta sq'' gamma'' beta''

theorem kin_inMode (tr : Bool) (l : XLayer F β) : XKin l (l.inMode tr) := by
  cases l with
  | base | up => exact XKin.refl _
  | norm c cs cb ca N sq gamma beta => exact .norm c cs cb ca N tr sq gamma beta sq gamma beta

theorem XKin.out {l g : XLayer F β} (h : XKin l g) (P : Cart) : g.out P = l.out P := by
  cases h with
  | base h => exact h.out P
  | up | norm => rfl

theorem XKin.inMode {l g : XLayer F β} (h : XKin l g) (tr : Bool) : XKin (l.inMode tr) (g.inMode tr) := by
  cases h with
  | base h => exact .base h
  | up => exact .up ..
  | norm c cs cb ca N tr' sq gamma beta sq' gamma' beta' =>
    exact .norm c cs cb ca { N with training := tr } tr sq gamma beta sq' gamma' beta'

theorem inMode_inMode (tr tr' : Bool) (l : XLayer F β) : (l.inMode tr).inMode tr' = l.inMode tr' := by cases l <;> rfl

section
variable [Field F] {l g : XLayer F β} {P : Cart} {θ θ' : Nat → Nat → Tensor F} {t : TorchDtype} {seen : Nat → Nat} {W : List Nat}
  {L L' : Layout} {s : List Nat} {X Y : List Nat → F}

theorem kin_note (l : XLayer F β) (x : List Nat × (List Nat → F)) : XKin l (l.note x) := by
  cases l with
  | base | up => exact XKin.refl _
  | norm c cs cb ca N sq gamma beta => exact .norm c cs cb ca N N.training sq gamma beta _ gamma beta

theorem xkin_upd (opt : F → F → F) (l : XLayer F β) (x : List Nat × (List Nat → F)) (Y : List Nat → F) : XKin l (l.upd opt x Y) := by
  cases l with
  | base l => exact .base (kin_upd opt l x Y)
  | up => exact .up ..
  | norm c cs cb ca N sq gamma beta => exact .norm c cs cb ca N N.training sq gamma beta sq _ _

theorem XKin.moves (h : XKin l g) (hl : l.Moves) : g.Moves := by
  cases h with
  | base | up => trivial
  | norm => exact hl

omit [Field F] in
/-- Only the first two parameters of a layer of `Train` matter. -/
theorem TLayer.withPar_low (P : Cart) (l : TLayer F β) (h : ∀ w p, p < 2 → θ w p = θ' w p) : l.withPar P θ = l.withPar P θ' := by
  have h0 : ∀ w, θ w 0 = θ' w 0 := fun w => h w 0 (by omega)
  have h1 : ∀ w, θ w 1 = θ' w 1 := fun w => h w 1 (by omega)
  cases l <;> simp only [TLayer.withPar, h0, h1]

variable [LinearOrder F] [FloorRing F]

/-- The parts of the program do not depend on the parameters of the sequential network. -/
theorem XKin.parts (h : XKin l g) (tr : Bool) (P : Cart) (θ : Nat → Nat → Tensor F) :
    ((g.inMode tr).withPar P θ).mods P = ((l.inMode tr).withPar P θ).mods P ∧
    ((g.inMode tr).withPar P θ).cuts P = ((l.inMode tr).withPar P θ).cuts P ∧
    ((g.inMode tr).withPar P θ).has P = ((l.inMode tr).withPar P θ).has P ∧
    ((g.inMode tr).withPar P θ).adjProg P = ((l.inMode tr).withPar P θ).adjProg P ∧
    (g.inMode tr).slot = (l.inMode tr).slot := by
  cases h with
  | base h =>
    obtain ⟨h1, -, h2, h3, h4⟩ := h.parts P θ
    exact ⟨h1, h2, h3, h4, rfl⟩
  | up | norm => exact ⟨rfl, rfl, rfl, rfl, rfl⟩

omit [Field F] [LinearOrder F] [FloorRing F] in
theorem XLayer.OneType.of [Field F] (hk : XKin l g) (h : g.Stores P t θ seen) (tr : Bool) : (l.inMode tr).OneType P θ := by
  cases hk with
  | base hk =>
    have := TLayer.Stores.oneType (h : TLayer.Stores P θ _)
    cases hk <;> exact this
  | up | norm => trivial

omit [Field F] [LinearOrder F] [FloorRing F] in
theorem XLayer.stores_inMode (tr : Bool) (h : g.Stores P t θ seen) : (g.inMode tr).Stores P t θ seen := by
  cases g <;> exact h

theorem XFits.kin (h : XFits W t P L l L') (hk : XKin l g) (hs : g.Stores P t θ seen) : XFits W t P L (g.withPar P θ) L' := by
  cases h with
  | base h =>
    cases hk with
    | base hk => exact .base (h.kin hk hs)
  | up c B hc ho hf hl =>
    cases hk
    exact .up c B hc ho hf hl
  | @norm L c cs cb ca N sq gamma beta h hb =>
    cases hk with
    | norm _ _ _ _ _ tr _ _ _ sq' gamma' beta' =>
      refine .norm (N := { N with training := tr, st := _, g := _, b := _ }) c cs cb ca
        ⟨h.made, fun ha => ?_, fun ha => ?_, fun ht => ?_⟩ hb
      · have := (hs.1 ha).1
        rw [← hb (.inl ha)] at this
        exact this
      · have := (hs.1 ha).2.1
        rw [← hb (.inl ha)] at this
        exact this
      · have := (hs.2 ht).1
        rw [← hb (.inr ht)] at this
        exact this

/-- The sequential result and gradient. -/
theorem XLayer.Stores.seq_adj (h : g.Stores P t θ seen) : (g.withPar P θ).seq = g.seq ∧ (g.withPar P θ).adj = g.adj := by
  cases g with
  | base l =>
    have := TLayer.Stores.seq_adj (h : TLayer.Stores P θ _)
    exact ⟨funext fun x => congrFun this.1 x, funext fun x => funext fun Y => congrFun (congrFun this.2 x) Y⟩
  | up | norm => exact ⟨rfl, rfl⟩

end

end Verif.Net
