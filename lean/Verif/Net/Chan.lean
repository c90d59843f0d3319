import Verif.Net.Window
import Verif.Conv.Props

/-!
# Networks: convolutions distributed over channels

The channel-distributed (`nn/conv_channel.py`) and the general convolution (`nn/conv_general.py`) as programs of the
network machine.
-/

namespace Verif.Net

variable {F β : Type}

/-- An exception on every worker of the layer. -/
def failProg (D : List Nat) : Prog (NSt F) (NMsg F) :=
  [localPhase fun w x => if w ∈ D then { x with err := true } else x]

/-! ## Programs -/

section
variable [AddCommMonoid F] [Mul F]

/-- `conv_channel.py:338-339`, `conv_general.py:548-549`: one worker in `P_w`.  Only for all three partitions on this
worker; workers of `P_x` or `P_y` outside `P_w` would wait for ever (see `channelForward`). -/
def serialConvProg (C : ChanConv) (weight bias : Nat → List Nat → F) (rgp : Bool) : Prog (NSt F) (NMsg F) :=
  [opPhase C.Pw.members (fun w x => torchConvLayer C.W C.groups C.Ci C.Co C.useBias (weight w) (bias w) x) rgp]

/-- `conv_channel.py:323-348` `forward`. -/
def chanProg (c cy : Nat) (C : ChanConv) (weight bias : Nat → List Nat → F) (rgp : Bool) : Prog (NSt F) (NMsg F) :=
  match castPartitions true C.Px C.Py C.Pw with
  | none => failProg C.union
  | some (x, y) =>
    if C.Pw.members.length = 1 then serialConvProg C weight bias rgp
    else stackProg c cy (chanBroadcast x C.Pw) (chanReduce C.Pw y) (channelLocal C weight bias) rgp

/-- The stored parameter `i` (`conv_general.py:303-345`) and its broadcast from `P` to `Q` (`conv_general.py:571-579`). -/
def storedProg (c : Nat) (P Q : Cart) (i : Nat) (a : Nat → Tensor F) (rg : Bool) : Prog (NSt F) (NMsg F) :=
  (localPhase fun w x => if w ∈ Q.members then (parLens i).set ((storedParam P a rg).x w, rg) x else x) ::
    bcastProg c (paramLayer P Q) (parLens i)

/-- The local layer with the weight and bias received (`conv_general.py:571-585`). -/
def genOp (C : ChanConv) (Pb : Cart) (w : Nat) (x : NSt F) : Option (Tensor F × Bool) :=
  if w ∈ Pb.members ∧ C.useBias then
    (torchConvLayer C.W.noPad C.groups ((C.localChannels w).getD 1 0) ((C.localChannels w).getD 0 0) true
      (x.par 0).1.val (x.par 1).1.val x.t).map fun y => (y, x.rg || (x.par 0).2 || (x.par 1).2)
  else
    (torchConvLayer C.W.noPad C.groups ((C.localChannels w).getD 1 0) ((C.localChannels w).getD 0 0) false
      (x.par 0).1.val (fun _ => 0) x.t).map fun y => (y, x.rg || (x.par 0).2)

/-- `conv_general.py:553-569`: what is handed to `x_broadcast`. -/
def neededOp (x : NSt F) (I : List Nat × (List Nat → F)) : Option (Tensor F × Bool) := some (⟨I.1, x.t.dtype, I.2⟩, x.rg)

/-- `conv_general.py:536-589` `forward`, with the setup that precedes it (`conv_general.py:429-479`).  `c`, `cw`, `cb`,
`cx`, `cy`: the channels of halo exchange, broadcasts and sum-reduction.  The workers of `P_x` compute paddings and halos
as `winSetup` does (`generalSetup_eq`). -/
def genProg (c cw cb cx cy : Nat) (C : ChanConv) (weight bias : Nat → Tensor F) (rgp : Bool) (B : Bufs β) :
    Prog (NSt F) (NMsg F) :=
  match castPartitions false C.Px C.Py C.Pw with
  | none => failProg C.union
  | some (x, y) =>
    if C.Pw.members.length = 1 then serialConvProg C (fun w => (weight w).val) (fun w => (bias w).val) rgp
    else
      match weightRoot C.Pw, biasPart C.Pw, biasRoot C.Pw with
      | some Pwr, some Pb, some Pbr =>
        setupPartProg c x C.union ++ (exchangeProg c x C.W 0 B ++ [winOpPhase x C.W 0 neededOp]) ++
          storedProg cw Pwr C.Pw 0 weight rgp ++ (if C.useBias then storedProg cb Pbr Pb 1 bias rgp else []) ++
          stackProgS cx cy (chanBroadcast x C.Pw) (chanReduce C.Pw y) (genOp C Pb)
      | _, _, _ => failProg C.union

end

/-! ## Channels only -/

section
variable {W : List Nat} {P : Cart} {t : TorchDtype} {X : List Nat → F} {S : Nat → NSt F} {G : List Nat}

theorem Holds.even (h : Holds W P (Layout.balanced P.shape G) t X S) : EvenBlocks P G t X (inputsOf S).x := by
  obtain ⟨rg, hrg⟩ := h.parts
  exact ⟨fun u hu => congrArg Prod.fst (hrg u hu), fun u hu => congrArg (·.2.1) (hrg u hu), h.data⟩

theorem EvenBlocks.holds {out : Nat → Tensor F} (h : EvenBlocks P G t X out) (hl : P.shape.length = G.length)
    (h0 : P.shape ≠ []) {rg : Bool} (calm : ∀ w ∈ W, (S w).err = false)
    (hin : ∀ u ∈ P.members, (S u).t = out u ∧ (S u).rg = rg) (hout : ∀ w ∈ W, w ∉ P.members → (S w).t.shape ≠ []) :
    Holds W P (Layout.balanced P.shape G) t X S := by
  refine ⟨calm, fun w hw => ?_, ⟨rg, fun u hu => ?_⟩, fun u hu l hl => ?_⟩
  · by_cases hm : w ∈ P.members
    · rw [(hin w hm).1, h.shape w hm]
      intro e
      have := Layout.length_shapeAt (coord_len (Layout.balanced_pshape hl) w)
      rw [e, ← Layout.length_pshape, Layout.balanced_pshape hl] at this
      exact h0 (List.length_eq_zero_iff.1 this.symm)
    · exact hout w hw hm
  · rw [NSt.own, (hin u hu).1, (hin u hu).2, h.shape u hu, h.dtype u hu]
  · rw [(hin u hu).1]
    exact h.val u hu l hl

variable [AddCommMonoid F] [Mul F] {C : ChanConv} {Po Pi : Nat} {Sp : List Nat} {B : Nat} {N : List Nat}
  {wt b : Nat → List Nat → F} {Wt bi : List Nat → F}

theorem conv_out_len (h : ChanValid C Po Pi Sp) (hSp : Sp.length = C.W.k.length) (hN : N.length = C.W.k.length) :
    C.Py.shape.length = (torchConvShape C.W C.Co (B :: C.Ci :: N)).length := by
  rw [show torchConvShape C.W C.Co (B :: C.Ci :: N) = B :: C.Co :: torchOut C.W N from rfl, h.shy]
  simp [length_torchOut, hSp, hN]

/-- One worker for everything. -/
theorem serialConv_run (rgp : Bool) (h : ChanValid C Po Pi Sp) (hSp : Sp.length = C.W.k.length)
    (hN : N.length = C.W.k.length) (hg : C.groups = 1) (h1w : C.Pw.members.length = 1)
    (place : C.Px.members = C.Pw.members ∧ C.Py.members = C.Pw.members)
    (hfit : ∀ j, j < C.W.k.length →
      C.W.d.getD j 0 * (C.W.k.getD j 0 - 1) + 1 ≤ N.getD j 0 + 2 * C.W.p.getD j 0)
    (hp : ChanParams C Po Pi wt b Wt bi) (hE : EvenBlocks C.Px (B :: C.Ci :: N) t X (inputsOf S).x)
    (calm : ∀ w ∈ W, (S w).err = false) (batch : ∀ w ∈ W, (S w).t.shape ≠ []) :
    ProgOK W (serialConvProg C wt b rgp) S ∧
    Holds W C.Py (Layout.balanced C.Py.shape (torchConvShape C.W C.Co (B :: C.Ci :: N))) t
      (torchConv C.W 1 C.Ci C.Co Wt (fun c => if C.useBias then bi [c] else 0) (B :: C.Ci :: N) X)
      (run (serialConvProg C wt b rgp) S) := by
  obtain ⟨px, py⟩ := place
  obtain ⟨w, hw⟩ := List.length_eq_one_iff.1 h1w
  rw [hw] at px py
  have hones : ∀ n ∈ C.Pw.shape, n = 1 := fun n hn =>
    Nat.dvd_one.1 (show n ∣ 1 by rw [← h1w, h.wfw.size]; exact List.dvd_prod hn)
  have h1 : ∀ n ∈ Sp, n = 1 := fun n hn => hones n (by rw [h.shw]; simp [hn])
  obtain ⟨y, e, y1, y2, y3⟩ := channel_serial h hw px py (channel_windows h h1 hSp hN hfit hE) hp
  have hrun : ∀ u, run (serialConvProg C wt b rgp) S u = if u = w then tenLens.set (y, (S w).rg || rgp) (S w) else S u := by
    intro u
    show (if u ∈ C.Pw.members then _ else _) = _
    rw [hw]
    by_cases hu : u = w
    · subst hu
      rw [if_pos (by simp), if_pos rfl, hg]
      have e' : torchConvLayer C.W 1 C.Ci C.Co C.useBias (wt u) (b u) (S u).t = some y := e
      beta_reduce
      rw [e']
    · rw [if_neg (by simpa using hu), if_neg hu]
  refine ⟨⟨localPhase_ok _, trivial⟩, EvenBlocks.holds (out := fun _ => y) (rg := (S w).rg || rgp) ⟨?_, ?_, ?_⟩
    (conv_out_len h hSp hN) (by rw [h.shy]; simp) (fun u hu => ?_) (fun u hu => ?_) fun u hu hn => ?_⟩
  · intro u hu
    obtain rfl : u = w := by rw [py] at hu; simpa using hu
    exact y1
  · exact fun _ _ => y2
  · intro u hu
    obtain rfl : u = w := by rw [py] at hu; simpa using hu
    exact y3
  · rw [hrun]
    split
    · next e => exact calm w (e ▸ hu)
    · exact calm u hu
  · obtain rfl : u = w := by rw [py] at hu; simpa using hu
    rw [hrun, if_pos rfl]
    exact ⟨rfl, rfl⟩
  · rw [hrun, if_neg (by rw [py] at hn; simpa using hn)]
    exact batch u hu

theorem chan_run (c cy : Nat) (rgp : Bool) (h : ChanValid C Po Pi Sp) (h1 : ∀ n ∈ Sp, n = 1)
    (hSp : Sp.length = C.W.k.length) (hN : N.length = C.W.k.length) (hg : C.groups = 1)
    (hfit : ∀ j, j < C.W.k.length →
      C.W.d.getD j 0 * (C.W.k.getD j 0 - 1) + 1 ≤ N.getD j 0 + 2 * C.W.p.getD j 0)
    (hp : ChanParams C Po Pi wt b Wt bi)
    (place : C.Pw.members.length = 1 → C.Px.members = C.Pw.members ∧ C.Py.members = C.Pw.members)
    (hx : ∀ w ∈ C.Px.members, w ∈ W) (hw : ∀ w ∈ C.Pw.members, w ∈ W) (hy : ∀ w ∈ C.Py.members, w ∈ W)
    (hS : Holds W C.Px (Layout.balanced C.Px.shape (B :: C.Ci :: N)) t X S) :
    ProgOK W (chanProg c cy C wt b rgp) S ∧
    Holds W C.Py (Layout.balanced C.Py.shape (torchConvShape C.W C.Co (B :: C.Ci :: N))) t
      (torchConv C.W 1 C.Ci C.Co Wt (fun c => if C.useBias then bi [c] else 0) (B :: C.Ci :: N) X)
      (run (chanProg c cy C wt b rgp) S) := by
  unfold chanProg
  rw [h.cast true fun _ => h1]
  show ProgOK W (if _ then _ else _) S ∧ Holds _ _ _ _ _ (run (if _ then _ else _) S)
  split
  · next h1w => exact serialConv_run rgp h hSp hN hg h1w (place h1w) hfit hp hS.even hS.calm hS.batch
  · next h1w =>
    obtain ⟨rg, hrg⟩ := hS.parts
    have hT := channel_windows h h1 hSp hN hfit hS.even
    have hs : ∀ u, u ∈ C.Px.members ∨ u ∈ C.Pw.members ∨ u ∈ C.Py.members → ((inputsOf S).x u).shape ≠ [] :=
      fun u hu => hS.batch u (hu.elim (hx u) fun hh => hh.elim (hw u) (hy u))
    obtain ⟨o, e1, e2, e3, e4⟩ := stack_run (ρ := rg) c cy rgp
      (chan_stack h (W' := C.W) ⟨rfl, rfl, rfl⟩ hT (channel_local (wt := wt) (b := b) h hg) hs)
      (fun w hw => congrArg (·.2.2) (hrg w hw)) hx hw hy (fun _ => false)
    obtain ⟨f1, -⟩ := chan_forward (rg := fun _ => false) h (W' := C.W) ⟨rfl, rfl, rfl⟩ hT (channel_local h hg) hp hs
    refine ⟨o, EvenBlocks.holds
      (out := fun u => (run (stackProg c cy (chanBroadcast C.Px C.Pw) (chanReduce C.Pw C.yCast) (channelLocal C wt b) rgp) S u).t)
      (rg := rg || rgp) ⟨fun u hu => ?_, fun u hu => ?_, fun u hu => ?_⟩
      (conv_out_len h hSp hN) (by rw [h.shy]; simp) (fun u hu => (e1 u hu).trans (hS.calm u hu)) (fun u hu => ⟨rfl, (e2 u hu).2⟩)
      fun u hu hn => ?_⟩
    · obtain ⟨y, ey, y1, -⟩ := f1 u hu
      rw [Option.some.inj ((e2 u hu).1.symm.trans ey)]
      exact y1
    · obtain ⟨y, ey, -, y2, -⟩ := f1 u hu
      rw [Option.some.inj ((e2 u hu).1.symm.trans ey)]
      exact y2
    · obtain ⟨y, ey, -, -, y3⟩ := f1 u hu
      rw [Option.some.inj ((e2 u hu).1.symm.trans ey)]
      exact y3
    · by_cases hm : u ∈ C.Px.members ∨ u ∈ C.Pw.members
      · exact shape_ne_nil_of_prod (e3 u hu hm hn)
      · rw [not_or] at hm
        rw [e4 u hu hm.1 hm.2 hn]
        exact hS.batch u hu

end

/-! ## Channels and features -/

section
variable [AddCommMonoid F] {W : List Nat} {P Q : Cart} {S : Nat → NSt F}

/-- The broadcast of parameter `i` changes nothing else. -/
theorem stored_run (c i : Nat) (a : Nat → Tensor F) (rg : Bool) (hL : BcastLayer (paramLayer P Q))
    (hPQ : ∀ w ∈ P.members, w ∈ Q.members) (hW : ∀ w ∈ Q.members, w ∈ W) (S : Nat → NSt F) :
    ProgOK W (storedProg c P Q i a rg) S ∧ (∀ w ∈ W, (run (storedProg c P Q i a rg) S w).t = (S w).t ∧
      (run (storedProg c P Q i a rg) S w).rg = (S w).rg ∧ (run (storedProg c P Q i a rg) S w).err = (S w).err ∧
      ∀ j, j ≠ i → (run (storedProg c P Q i a rg) S w).par j = (S w).par j) ∧
    ∀ v ∈ Q.members, ∃ r, bcastForward (paramLayer P Q) (storedParam P a rg) v = some (a r) ∧
      (run (storedProg c P Q i a rg) S v).par i = (a r, rg) := by
  obtain ⟨ld, hld⟩ : ∃ ld : Nat → NSt F → Phase (NSt F) (NMsg F), ld = localPhase fun w x =>
    if w ∈ Q.members then (parLens i).set ((storedParam P a rg).x w, rg) x else x := ⟨_, rfl⟩
  obtain ⟨S1, hS1⟩ : ∃ S1, S1 = sync ld S := ⟨_, rfl⟩
  have r1 : ∀ w, S1 w = if w ∈ Q.members then (parLens i).set ((storedParam P a rg).x w, rg) (S w) else S w :=
    fun w => by rw [hS1, hld]; rfl
  obtain ⟨o2, Y, s, r2, y1, y2, y3, -⟩ := bcast_run (S := S1) (ℓ := parLens i) c hL
    (fun w hw => hW w (hPQ w hw)) hW (slot_par i) (fun h => by simp [paramLayer] at h)
  have hrun : ∀ w, run (storedProg c P Q i a rg) S w = run (bcastProg c (paramLayer P Q) (parLens i)) S1 w := by
    intro w
    rw [hS1, hld]
    rfl
  refine ⟨⟨localPhase_ok _, by rw [← hld, ← hS1]; exact o2⟩, fun w hw => ?_, fun v hv => ?_⟩
  · rw [hrun, r2 w hw, r1]
    split
    · refine ⟨rfl, rfl, rfl, fun j hj => ?_⟩
      simp [parLens, hj]
    · refine ⟨rfl, rfl, rfl, fun j hj => ?_⟩
      simp [parLens, hj]
  · have hr : (paramLayer P Q).broot v ∈ P.members := hL.root_mem hv
    have ex : (storedParam P a rg).x ((paramLayer P Q).broot v) = a ((paramLayer P Q).broot v) := by
      simp [storedParam, hr]
    have hb : HasBatch (paramLayer P Q) (storedParam P a rg).x := fun h => by simp [paramLayer] at h
    refine ⟨_, (bcast_forward_root hL.valid hL.same hb.hb hv).trans (congrArg some ex), ?_⟩
    rw [hrun, r2 v (hW v hv)]
    show ((parLens i).get ((parLens i).set (Y v) (S1 v))) = _
    rw [(parLens i).get_set, y1 v hv, r1, if_pos (hPQ _ hr), (parLens i).get_set, ex]

variable [Mul F] {C : ChanConv} {Po Pi : Nat} {Sp : List Nat} {B : Nat} {N : List Nat} {L : Layout} {t : TorchDtype}
  {X : List Nat → F} {weight bias : Nat → Tensor F} {Wt bi : List Nat → F} {nd : Nat} {pk ps pp pd : List Nat}

/-- The states before broadcast, local operator and sum-reduction: after the setup, with the windows, with the weights,
with the biases. -/
structure GenMid (W : List Nat) (c cw cb : Nat) (C : ChanConv) (Po Pi : Nat) (weight bias : Nat → Tensor F) (rgp : Bool)
    (Bf : Bufs β) (Wt bi : List Nat → F) (B : Nat) (N : List Nat) (t : TorchDtype) (X : List Nat → F) (S : Nat → NSt F)
    (Pwr Pb Pbr : Cart) (wt b : Nat → List Nat → F) (rg : Bool) (S1 S2 S3 S4 : Nat → NSt F) : Prop where
  root : weightRoot C.Pw = some Pwr
  part : biasPart C.Pw = some Pb
  broot : biasRoot C.Pw = some Pbr
  layerW : BcastLayer (paramLayer Pwr C.Pw)
  layerB : BcastLayer (paramLayer Pbr Pb)
  subW : ∀ v ∈ Pwr.members, v ∈ C.Pw.members
  subB : ∀ v ∈ Pbr.members, v ∈ Pb.members
  subP : ∀ v ∈ Pb.members, v ∈ C.Pw.members
  union : ∀ w ∈ C.union, w ∈ W
  run1 : run (setupPartProg c C.Px C.union) S = S1
  run2 : run (exchangeProg c C.Px C.W 0 Bf ++ [winOpPhase C.Px C.W 0 neededOp]) S1 = S2
  run3 : run (storedProg cw Pwr C.Pw 0 weight rgp) S2 = S3
  run4 : run (if C.useBias then storedProg cb Pbr Pb 1 bias rgp else []) S3 = S4
  ok1 : ProgOK W (setupPartProg c C.Px C.union) S
  ok2 : ProgOK W (exchangeProg c C.Px C.W 0 Bf ++ [winOpPhase C.Px C.W 0 neededOp]) S1
  ok3 : ProgOK W (storedProg cw Pwr C.Pw 0 weight rgp) S2
  ok4 : ProgOK W (if C.useBias then storedProg cb Pbr Pb 1 bias rgp else []) S3
  err2 : ∀ w ∈ W, (S2 w).err = (S w).err
  keep3 : ∀ w ∈ W, (S3 w).t = (S2 w).t ∧ (S3 w).rg = (S2 w).rg ∧ (S3 w).err = (S2 w).err
  keep4 : ∀ w ∈ W, (S4 w).t = (S2 w).t ∧ (S4 w).rg = (S2 w).rg ∧ (S4 w).err = (S2 w).err
  out2 : ∀ w ∈ W, w ∉ C.Px.members → (S2 w).t = (S w).t
  flags : ∀ w ∈ C.Px.members, (S4 w).rg = rg
  windows : WindowsOf C C.W.noPad B N t X (inputsOf S4).x
  nonempty : ∀ w ∈ W, (S4 w).t.shape ≠ []
  oper : ∀ w ∈ C.Pw.members, ∀ x : NSt F, x.par = (S4 w).par → genOp C Pb w x =
    (generalLocal C Pwr Pb Pbr weight bias rgp w x.t).map fun y => (y, x.rg || rgp)
  convs : LocalConvs C Po Pi C.W.noPad wt b (generalLocal C Pwr Pb Pbr weight bias rgp)
  params : ChanParams C Po Pi wt b Wt bi

theorem gen_mid (c cw cb : Nat) (rgp : Bool) (Bf : Bufs β) (hW : winParams nd pk ps pp pd = some C.W)
    (h : ChanValid C Po Pi Sp) (hSp : Sp.length = nd) (hg : C.groups = 1) (hL : L.pshape = C.Px.shape)
    (hG : L.global = B :: C.Ci :: N) (h1w : C.Pw.members.length ≠ 1) (hl : WinLimits C.Px C.W L)
    (hp : StoredParams C Po Pi weight bias Wt bi)
    (hx : ∀ w ∈ C.Px.members, w ∈ W) (hw : ∀ w ∈ C.Pw.members, w ∈ W) (hy : ∀ w ∈ C.Py.members, w ∈ W)
    (hS : Holds W C.Px L t X S) :
    ∃ Pwr Pb Pbr wt b rg S1 S2 S3 S4, GenMid W c cw cb C Po Pi weight bias rgp Bf Wt bi B N t X S Pwr Pb Pbr wt b rg S1 S2 S3 S4 := by
  have hkn : C.W.k.length = nd := (winParams_length hW).1
  have hgl : C.Px.shape.length = (B :: C.Ci :: N).length := by rw [← hG, Layout.length_global, ← Layout.length_pshape, hL]
  have hN : N.length = nd := by
    rw [h.shx] at hgl
    simp at hgl
    omega
  have hD : C.Px.shape.length = nd + 2 := by rw [h.shx]; simp [hSp]
  have hplen : C.W.p.length ≤ C.Px.shape.length := by
    obtain ⟨-, -, ⟨h, -⟩, -⟩ := C39_parameters.1 hW
    omega
  obtain ⟨rg, hrg⟩ := hS.parts
  have h0 := hS.winInput (Q := C.W) h.wfx hL hplen hrg
  obtain ⟨Pwr, Pb, Pbr, e1, e2, e3, Lw, Lb, wt, b, hop, hcp, -⟩ := general_received (rgp := rgp) h hg hp
  obtain ⟨Pwr', ew, -, -, -, memw, -⟩ := h.weightRoot
  obtain ⟨Pb', eb, -, -, -, memb, -⟩ := h.biasPart
  obtain ⟨Pbr', er, -, -, -, memr, -⟩ := h.biasRoot
  obtain rfl := Option.some.inj (ew.symm.trans e1)
  obtain rfl := Option.some.inj (eb.symm.trans e2)
  obtain rfl := Option.some.inj (er.symm.trans e3)
  have hbw : ∀ v ∈ Pb'.members, v ∈ C.Pw.members := fun v hv => ((memb v).1 hv).1
  have hrb : ∀ v ∈ Pbr'.members, v ∈ Pb'.members := fun v hv => by
    obtain ⟨m1, m2⟩ := (memr v).1 hv
    refine (memb v).2 ⟨m1, ?_⟩
    obtain ⟨o, j, s, ev, -⟩ := h.coordW m1
    rw [ev] at m2 ⊢
    exact m2 j (by simp)
  have hU : ∀ w ∈ C.union, w ∈ W := by
    intro w hw'
    simp only [ChanConv.union, mem_groupUnion] at hw'
    rcases hw' with (hw' | hw') | hw'
    · exact hw w hw'
    · exact hx w hw'
    · exact hy w hw'
  -- setup
  obtain ⟨o1, f1, i1⟩ := setupPart_run c h.wfx hU px_union S
  generalize hS1 : run (setupPartProg c C.Px C.union) S = S1 at f1 i1
  have hg1 : gathered C.Px S1 = gathered C.Px S := f1.gathered hx
  have hin1 : WinInput C.Px C.W L (gathered C.Px S1) (fun w => (S1 w).t.val) X t rg := by
    refine ⟨h0.wf, h0.layout, h0.plen, hg1 ▸ h0.loc, fun v hv => ?_⟩
    rw [(f1 v (hx v hv)).1]
    exact h0.data v hv
  -- exchange
  let A : Nat → NSt F → Prop := fun r x => x.t.shape.length = nd + 2 ∧ x.t.dtype = t ∧ x.rg = rg ∧
    torchPoolShape C.W.noPad x.t.shape =
      (Layout.balanced C.Px.shape (torchPoolShape C.W (B :: C.Ci :: N))).shapeAt (getCoords C.Px.shape r) ∧
    (∀ j, j < nd → C.W.d.getD j 0 * (C.W.k.getD j 0 - 1) + 1 ≤ x.t.shape.getD (j + 2) 0) ∧
    ∀ o κ, InBounds o ((Layout.balanced C.Px.shape (torchPoolShape C.W (B :: C.Ci :: N))).shapeAt (getCoords C.Px.shape r)) →
      InBounds κ C.W.k →
      winRead 0 x.t.shape (1 :: 1 :: C.W.s) (1 :: 1 :: C.W.d) (0 :: 0 :: C.W.noPad.p) x.t.val o (0 :: 0 :: κ) =
      winRead 0 (B :: C.Ci :: N) (1 :: 1 :: C.W.s) (1 :: 1 :: C.W.d) (0 :: 0 :: C.W.p) X
        (shiftBy ((Layout.balanced C.Px.shape (torchPoolShape C.W (B :: C.Ci :: N))).startAt (getCoords C.Px.shape r)) o)
        (0 :: 0 :: κ)
  obtain ⟨o2, er2, t2, a2⟩ := winOp_run c 0 Bf neededOp hx (fun w hw => (i1 w hw).trans hg1.symm) hin1 (A := A)
    (fun U Sx k g R r hr hf a => by
      refine ⟨_, rfl, fun x => ?_⟩
      obtain ⟨l1, l2, l3⟩ := local_windows hW hD hin1 (hl) R hr hf
      rw [hG] at l2 l3
      exact ⟨l1, (gathered_dtype hr).symm.trans (congrArg (·.2.1) (hin1.loc _ (getD_mem hr) _ (Cart.index_eq (getD_mem hr)))),
        gathered_rg hin1 hr, l2, fun j hj => local_fit hW hD hin1 hl.reach R hr hf hj, l3⟩)
  generalize hS2 : run (exchangeProg c C.Px C.W 0 Bf ++ [winOpPhase C.Px C.W 0 neededOp]) S1 = S2 at er2 t2 a2
  -- parameters
  obtain ⟨o3, f3, p3⟩ := stored_run cw 0 weight rgp Lw (fun w hw => ((memw w).1 hw).1) hw S2
  generalize hS3 : run (storedProg cw Pwr' C.Pw 0 weight rgp) S2 = S3 at f3 p3
  have hb : ∃ S4, ProgOK W (if C.useBias then storedProg cb Pbr' Pb' 1 bias rgp else []) S3 ∧
      run (if C.useBias then storedProg cb Pbr' Pb' 1 bias rgp else []) S3 = S4 ∧
      (∀ w ∈ W, (S4 w).t = (S3 w).t ∧ (S4 w).rg = (S3 w).rg ∧ (S4 w).err = (S3 w).err ∧ (S4 w).par 0 = (S3 w).par 0) ∧
      (C.useBias = true → ∀ v ∈ Pb'.members, ∃ r,
        bcastForward (paramLayer Pbr' Pb') (storedParam Pbr' bias rgp) v = some (bias r) ∧ (S4 v).par 1 = (bias r, rgp)) := by
    by_cases hu : C.useBias = true
    · obtain ⟨o4, f4, p4⟩ := stored_run cb 1 bias rgp Lb hrb (fun w hw' => hw w (hbw w hw')) S3
      rw [if_pos hu]
      refine ⟨_, o4, rfl, fun w hw => ?_, fun _ => p4⟩
      obtain ⟨b1, b2, b3, b4⟩ := f4 w hw
      exact ⟨b1, b2, b3, b4 0 (by omega)⟩
    · rw [if_neg hu]
      exact ⟨S3, trivial, rfl, fun w _ => ⟨rfl, rfl, rfl, rfl⟩, fun hh => absurd hh hu⟩
  obtain ⟨S4, o4, hS4, f4, p4⟩ := hb
  have hkeep : ∀ w ∈ W, (S4 w).t = (S2 w).t ∧ (S4 w).rg = (S2 w).rg ∧ (S4 w).err = (S2 w).err := by
    intro w hw
    obtain ⟨a1, a2, a3, -⟩ := f4 w hw
    obtain ⟨b1, b2, b3, -⟩ := f3 w hw
    exact ⟨a1.trans b1, a2.trans b2, a3.trans b3⟩
  have hA : ∀ v ∈ C.Px.members, A (C.Px.members.idxOf v) (S4 v) := by
    intro v hv
    have := a2 _ (List.idxOf_lt_length_of_mem hv)
    rw [getD_idxOf hv] at this
    obtain ⟨k1, k2, -⟩ := hkeep v (hx v hv)
    simp only [A] at this ⊢
    rw [k1, k2]
    exact this
  have hT : WindowsOf C C.W.noPad B N t X (inputsOf S4).x := by
    refine ⟨fun r hr => ?_, fun r hr => (hA r hr).2.1, fun r hr => (hA r hr).2.2.2.1, fun r hr j hj => ?_,
      fun r hr => (hA r hr).2.2.2.2.2⟩
    · rw [hkn]
      exact (hA r hr).1
    · rw [hkn] at hj
      rw [show C.W.noPad.p.getD j 0 = 0 from zeros_getD C.W.p j, Nat.mul_zero, Nat.add_zero]
      exact (hA r hr).2.2.2.2.1 j hj
  have hne : ∀ w ∈ W, (S4 w).t.shape ≠ [] := by
    intro w hww
    by_cases hm : w ∈ C.Px.members
    · intro e
      have := (hA w hm).1
      rw [e] at this
      simp at this
    · rw [(hkeep w hww).1, t2 w hww hm, (f1 w hww).1]
      exact hS.batch w hww
  have hopS : ∀ w ∈ C.Pw.members, ∀ x : NSt F, x.par = (S4 w).par → genOp C Pb' w x =
      (generalLocal C Pwr' Pb' Pbr' weight bias rgp w x.t).map fun y => (y, x.rg || rgp) := by
    intro w hwm x hpar
    obtain ⟨r, q1, q2⟩ := p3 w hwm
    rw [genOp, generalLocal, q1, Option.bind_some, hpar, (f4 w (hw w hwm)).2.2.2, q2]
    by_cases hB : w ∈ Pb'.members ∧ C.useBias = true
    · obtain ⟨r', q3, q4⟩ := p4 hB.2 w hB.1
      rw [if_pos hB, if_pos hB, q3, Option.bind_some, q4]
      simp
    · rw [if_neg hB, if_neg hB]
  exact ⟨Pwr', Pb', Pbr', wt, b, rg, S1, S2, S3, S4, e1, e2, e3, Lw, Lb, fun w hw => ((memw w).1 hw).1, hrb, hbw, hU, hS1, hS2, hS3,
    hS4, o1, o2, o3, o4, fun w hw => (er2 w hw).trans (f1 w hw).2.2.1,
    fun w hw => ⟨(f3 w hw).1, (f3 w hw).2.1, (f3 w hw).2.2.1⟩, hkeep,
    fun w hw hn => (t2 w hw hn).trans (f1 w hw).1, fun w hw => (hA w hw).2.2.1, hT, hne, hopS, hop, hcp⟩

theorem gen_run (c cw cb cx cy : Nat) (rgp : Bool) (Bf : Bufs β) (hW : winParams nd pk ps pp pd = some C.W)
    (h : ChanValid C Po Pi Sp) (hSp : Sp.length = nd) (hg : C.groups = 1) (hL : L.pshape = C.Px.shape)
    (hG : L.global = B :: C.Ci :: N)
    (hfit : C.Pw.members.length = 1 → ∀ j, j < nd →
      C.W.d.getD j 0 * (C.W.k.getD j 0 - 1) + 1 ≤ N.getD j 0 + 2 * C.W.p.getD j 0)
    (hl : C.Pw.members.length ≠ 1 → WinLimits C.Px C.W L) (hp : StoredParams C Po Pi weight bias Wt bi)
    (place : C.Pw.members.length = 1 → C.Px.members = C.Pw.members ∧ C.Py.members = C.Pw.members)
    (hx : ∀ w ∈ C.Px.members, w ∈ W) (hw : ∀ w ∈ C.Pw.members, w ∈ W) (hy : ∀ w ∈ C.Py.members, w ∈ W)
    (hS : Holds W C.Px L t X S) :
    ProgOK W (genProg c cw cb cx cy C weight bias rgp Bf) S ∧
    Holds W C.Py (Layout.balanced C.Py.shape (torchConvShape C.W C.Co (B :: C.Ci :: N))) t
      (torchConv C.W 1 C.Ci C.Co Wt (fun c => if C.useBias then bi [c] else 0) (B :: C.Ci :: N) X)
      (run (genProg c cw cb cx cy C weight bias rgp Bf) S) := by
  have hkn : C.W.k.length = nd := (winParams_length hW).1
  have hgl : C.Px.shape.length = (B :: C.Ci :: N).length := by rw [← hG, Layout.length_global, ← Layout.length_pshape, hL]
  have hN : N.length = nd := by
    rw [h.shx] at hgl
    simp at hgl
    omega
  have hD : C.Px.shape.length = nd + 2 := by rw [h.shx]; simp [hSp]
  have hplen : C.W.p.length ≤ C.Px.shape.length := by
    obtain ⟨-, -, ⟨h, -⟩, -⟩ := C39_parameters.1 hW
    omega
  obtain ⟨rg, hrg⟩ := hS.parts
  have h0 := hS.winInput (Q := C.W) h.wfx hL hplen hrg
  unfold genProg
  rw [h.cast false (by simp)]
  show ProgOK W (if _ then _ else _) S ∧ Holds _ _ _ _ _ (run (if _ then _ else _) S)
  split
  · next h1w =>
    have hpx : C.Px.members.length = 1 := by rw [(place h1w).1]; exact h1w
    have hones : ∀ n ∈ C.Pw.shape, n = 1 := fun n hn =>
      Nat.dvd_one.1 (show n ∣ 1 by rw [← h1w, h.wfw.size]; exact List.dvd_prod hn)
    have hz : ∀ v ∈ C.Pw.members, ∀ i ∈ C.Pw.coord v, i = 0 := by
      intro v hv i hi
      have hb : InBounds (C.Pw.coord v) C.Pw.shape := coords_inBounds h.wfw hv
      obtain ⟨j, hj, rfl⟩ := List.mem_iff_getElem.1 hi
      have hj' : j < C.Pw.shape.length := by rw [← hb.length_eq]; exact hj
      have := inBounds_getD hb hj'
      rw [List.getD_eq_getElem _ _ hj, List.getD_eq_getElem _ _ hj', hones _ (List.getElem_mem _)] at this
      omega
    have hp' : ChanParams C Po Pi (fun v => (weight v).val) (fun v => (bias v).val) Wt bi :=
      ⟨fun v hv => hp.weight v hv fun i hi => hz v hv i (List.mem_of_mem_drop hi),
        fun v hv _ => hp.bias v hv fun i hi => hz v hv i (List.mem_of_mem_drop hi)⟩
    have hE := serial_blocks h h0 hG hpx
    have hE' : EvenBlocks C.Px (B :: C.Ci :: N) t X (inputsOf S).x := by
      refine ⟨fun u hu => ?_, fun u hu => ?_, hE.val⟩
      · have := hE.shape u hu
        rwa [gathered_own hu] at this
      · have := hE.dtype u hu
        rwa [gathered_own hu] at this
    exact serialConv_run rgp h (hSp.trans hkn.symm) (hN.trans hkn.symm) hg h1w (place h1w)
      (by rw [hkn]; exact hfit h1w) hp' hE' hS.calm hS.batch
  · next h1w =>
    obtain ⟨Pwr, Pb, Pbr, wt, b, rg, S1, S2, S3, S4, M⟩ := gen_mid c cw cb rgp Bf hW h hSp hg hL hG h1w (hl h1w) hp hx hw hy hS
    rw [M.root, M.part, M.broot]
    have hs : ∀ u, u ∈ C.Px.members ∨ u ∈ C.Pw.members ∨ u ∈ C.Py.members → ((inputsOf S4).x u).shape ≠ [] :=
      fun u hu => M.nonempty u (hu.elim (hx u) fun hh => hh.elim (hw u) (hy u))
    obtain ⟨o5, g1, g2, g3, g4⟩ := stackS_run (ρ := rg) cx cy rgp
      (chan_stack h (W' := C.W.noPad) ⟨rfl, rfl, rfl⟩ M.windows M.convs hs) M.oper
      M.flags hx hw hy (fun _ => false)
    obtain ⟨f5, -⟩ := chan_forward (rg := fun _ => false) h (W' := C.W.noPad) ⟨rfl, rfl, rfl⟩ M.windows M.convs M.params hs
    have five : ∀ p1 p2 p3 p4 p5 : Prog (NSt F) (NMsg F), run p1 S = S1 → run p2 S1 = S2 →
        run p3 S2 = S3 → run p4 S3 = S4 → ProgOK W p1 S → ProgOK W p2 S1 → ProgOK W p3 S2 → ProgOK W p4 S3 →
        ProgOK W p5 S4 → ProgOK W (p1 ++ p2 ++ p3 ++ p4 ++ p5) S ∧ run (p1 ++ p2 ++ p3 ++ p4 ++ p5) S = run p5 S4 := by
      intro p1 p2 p3 p4 p5 q1 q2 q3 q4 k1 k2 k3 k4 k5
      simp only [progOK_append, run_append, q1, q2, q3, q4]
      exact ⟨⟨⟨⟨⟨k1, k2⟩, k3⟩, k4⟩, k5⟩, trivial⟩
    obtain ⟨ok, hrun⟩ := five _ _ _ _ _ M.run1 M.run2 M.run3 M.run4 M.ok1 M.ok2 M.ok3 M.ok4 o5
    refine ⟨ok, ?_⟩
    show Holds _ _ _ _ _ (run (_ ++ _ ++ _ ++ _ ++ _) S)
    rw [hrun]
    refine EvenBlocks.holds
      (out := fun u => (run (stackProgS cx cy (chanBroadcast C.Px C.Pw) (chanReduce C.Pw C.yCast) (genOp C Pb)) S4 u).t)
      (rg := rg || rgp) ⟨fun u hu => ?_, fun u hu => ?_, fun u hu => ?_⟩
      (conv_out_len h (hSp.trans hkn.symm) (hN.trans hkn.symm)) (by rw [h.shy]; simp)
      (fun u hu => ?_) (fun u hu => ⟨rfl, (g2 u hu).2⟩)
      fun u hu hn => ?_
    · obtain ⟨y, ey, y1, -⟩ := f5 u hu
      rw [Option.some.inj ((g2 u hu).1.symm.trans ey)]
      exact y1
    · obtain ⟨y, ey, -, y2, -⟩ := f5 u hu
      rw [Option.some.inj ((g2 u hu).1.symm.trans ey)]
      exact y2
    · obtain ⟨y, ey, -, -, y3⟩ := f5 u hu
      rw [Option.some.inj ((g2 u hu).1.symm.trans ey)]
      exact y3
    · rw [g1 u hu, (M.keep4 u hu).2.2, M.err2 u hu]
      exact hS.calm u hu
    · by_cases hm : u ∈ C.Px.members ∨ u ∈ C.Pw.members
      · exact shape_ne_nil_of_prod (g3 u hu hm hn)
      · rw [not_or] at hm
        rw [g4 u hu hm.1 hm.2 hn]
        exact M.nonempty u hu

end

end Verif.Net
