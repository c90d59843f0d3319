import Verif.Grad.ChanCore

/-!
# C62: gradients of the inputs of channel-distributed and general convolutions
-/

namespace Verif

open Exchange

theorem coord_member {P : Cart} (h : P.WF) {r : Nat} (hr : r < P.members.length) :
    P.coord (P.members.getD r 0) = getCoords P.shape r := by
  obtain ⟨m1, m2⟩ := member_spec h hr
  rw [Cart.index_eq m1] at m2
  exact Option.some.inj m2

section
variable {R : Type} [CommSemiring R]
variable {C : ChanConv} {Po Pi : Nat} {Sp : List Nat} {W' : WinParams} {B : Nat} {N : List Nat}
  {dt : TorchDtype} {X Y : List Nat → R} {I J : Inputs R} {wt b : Nat → List Nat → R} {Wt β G : List Nat → R}
  {y : Nat → Tensor R} {op : Nat → Tensor R → Option (Tensor R)} {rg : Nat → Bool}

/-- The sum of the local gradients of the workers fed by `r`. -/
def chanDx (C : ChanConv) (Po Pi : Nat) (W' : WinParams) (wt : Nat → List Nat → R) (shape : List Nat)
    (y : Nat → Tensor R) (r : Nat) (m : List Nat) : R :=
  ((C.Pw.members.filter fun v => decide ((chanBroadcast C.Px C.Pw).Feeds r v)).map fun v =>
    torchConvGradX W' 1 (subsize Pi ((C.Pw.coord v).getD 1 0) C.Ci) (subsize Po ((C.Pw.coord v).getD 0 0) C.Co)
      (wt v) shape (chanDy C y v).val m).sum

theorem chan_grads (h : ChanValid C Po Pi Sp) (hT : WindowsOf C W' B N dt X I.x)
    (hy : EvenBlocks C.Py (torchConvShape C.W C.Co (B :: C.Ci :: N)) dt G y)
    (hs : ∀ u, C.Active u → (y u).shape ≠ [])
    {opB : Nat → Tensor R → Tensor R → Tensor R}
    (back : ∀ v x dy, (opB v x dy).shape = x.shape ∧ (opB v x dy).dtype = x.dtype) :
    StackGrads (chanBroadcast C.Px C.Pw) (chanReduce C.Pw C.yCast) I (chanMid C Po Pi W' dt I wt b) opB y := by
  refine ⟨fun r hr v hv hc => ?_, hs, back⟩
  have hv' : v ∈ C.Pw.members := hv
  obtain ⟨o, j, s, ev, ho, hj, -⟩ := h.coordW hv'
  have e : (chanReduce C.Pw C.yCast).rroot v = r := (h.reduce.rel hr hv).1 hc
  obtain ⟨d1, d2, -⟩ := chanDy_val h hy hv' ev ho
  rw [chanDy, e] at d1 d2
  exact ⟨by rw [d1, chanMid_shape h hT hv' ev hj], d2⟩

/-- Backward pass through reduction, local layers and broadcast. -/
theorem chan_backward (h : ChanValid C Po Pi Sp) (hW : W'.k = C.W.k ∧ W'.s = C.W.s ∧ W'.d = C.W.d)
    (hT : WindowsOf C W' B N dt X I.x) (hop : LocalConvs C Po Pi W' wt b op)
    (hs : ∀ u, C.Active u → (I.x u).shape ≠ [])
    (hy : EvenBlocks C.Py (torchConvShape C.W C.Co (B :: C.Ci :: N)) dt G y)
    (hsy : ∀ u, C.Active u → (y u).shape ≠ [])
    {opB : Nat → Tensor R → Tensor R → Tensor R}
    (back : ∀ v x dy, (opB v x dy).shape = x.shape ∧ (opB v x dy).dtype = x.dtype)
    (hopB : ∀ v ∈ C.Pw.members, ∀ x dy, (opB v x dy).val =
      torchConvGradX W' 1 (subsize Pi ((C.Pw.coord v).getD 1 0) C.Ci) (subsize Po ((C.Pw.coord v).getD 0 0) C.Co)
        (wt v) x.shape dy.val) :
    (∀ r ∈ C.Px.members, stackBackward (chanBroadcast C.Px C.Pw) (chanReduce C.Pw C.yCast) I op opB rg y r =
      some ⟨(I.x r).shape, (I.x r).dtype, chanDx C Po Pi W' wt (I.x r).shape y r⟩) ∧
    (∀ w, C.Active w → w ∉ C.Px.members →
      ∃ z, stackBackward (chanBroadcast C.Px C.Pw) (chanReduce C.Pw C.yCast) I op opB rg y w = some z ∧
        z.shape.prod = 0) ∧
    SafeRun (groupUnion C.Pw.members C.Py.members)
      (reduceBackActs (chanReduce C.Pw C.yCast) (midInputs (chanBroadcast C.Px C.Pw) I op rg) y) ∧
    SafeRun (groupUnion C.Px.members C.Pw.members) (bcastBackActs (chanBroadcast C.Px C.Pw) I fun v =>
      (inGrad (chanBroadcast C.Px C.Pw) (chanReduce C.Pw C.yCast) I op opB rg y v).getD
        ⟨[], .float64, fun _ => 0⟩) := by
  have st := chan_stack h hW hT hop hs
  obtain ⟨f1, f2, f3, f4⟩ := st.backward (rg := rg) (chan_grads (opB := opB) h hT hy hsy back) (chanDy C y)
    (fun v hv u hu hc => by rw [chanDy, (h.reduce.rel hu hv).1 hc])
  refine ⟨fun r hr => ?_, fun w hw hn => f2 w ?_ hn, f3, f4⟩
  · rw [f1 r hr]
    congr 2
    funext i
    unfold chanDx
    congr 1
    refine List.map_congr_left fun v hv => ?_
    rw [hopB v (List.mem_of_mem_filter hv)]
  · rcases hw with hw | hw | hw
    · exact absurd hw hn
    · exact Or.inr hw
    · exact Or.inl hw

/-- Without a distribution of the features the sums are the blocks of the sequential gradient. -/
theorem channel_dx (h : ChanValid C Po Pi Sp) (h1 : ∀ n ∈ Sp, n = 1) (hSp : Sp.length = C.W.k.length)
    (hN : N.length = C.W.k.length)
    (hfit : ∀ j, j < C.W.k.length →
      C.W.d.getD j 0 * (C.W.k.getD j 0 - 1) + 1 ≤ N.getD j 0 + 2 * C.W.p.getD j 0)
    (hx : EvenBlocks C.Px (B :: C.Ci :: N) dt X I.x) (hp : ChanParams C Po Pi wt b Wt β)
    (hy : EvenBlocks C.Py (torchConvShape C.W C.Co (B :: C.Ci :: N)) dt G y) :
    EvenBlocks C.Px (B :: C.Ci :: N) dt (torchConvGradX C.W 1 C.Ci C.Co Wt (B :: C.Ci :: N) G) fun r =>
      (⟨(I.x r).shape, (I.x r).dtype, chanDx C Po Pi C.W wt (I.x r).shape y r⟩ : Tensor R) := by
  refine ⟨hx.shape, hx.dtype, fun r hr l hl => ?_⟩
  have hM : C.Px.shape.length = (B :: C.Ci :: N).length := by rw [h.shx]; simp [hSp, hN]
  have hP : C.Px.shape.length = (torchPoolShape C.W (B :: C.Ci :: N)).length := by
    rw [hM]
    simp [torchPoolShape, length_torchOut]
  have hi : C.Px.members.idxOf r < C.Px.members.length := List.idxOf_lt_length_of_mem hr
  have key := assemble_blocks (dx := fun w => chanDx C Po Pi C.W wt (I.x (C.Px.members.getD w 0)).shape y
      (C.Px.members.getD w 0)) h.wfx hM hP
    (T := convPair C.W C.Co (B :: C.Ci :: N) Wt G) (fun Y => convPair_sum C.W B C.Ci C.Co N Wt G Y) ?_ hi hl
  · simp only [List.getD_eq_getElem _ _ hi, List.getElem_idxOf hi] at key
    exact key
  · intro Y w hw
    have hm := (member_spec h.wfx hw).1
    have hc := coord_member h.wfx hw
    let J : Inputs R := ⟨fun u => ⟨(I.x u).shape, (I.x u).dtype, fun l =>
      Y (shiftBy ((Layout.balanced C.Px.shape (B :: C.Ci :: N)).startAt (C.Px.coord u)) l)⟩, fun _ => true⟩
    have hJ : EvenBlocks C.Px (B :: C.Ci :: N) dt Y J.x := ⟨hx.shape, hx.dtype, fun _ _ _ _ => rfl⟩
    have := chan_pair (J := J) h ⟨rfl, rfl, rfl⟩ (channel_windows h h1 hSp hN hfit hJ) hp hy hm
    rw [hc] at this
    rw [← this, ← hc, ← hx.shape _ hm]
    rfl

theorem ChanConv.Active.not {C : ChanConv} {w : Nat} (h : C.Active w) :
    ¬ (w ∉ C.Px.members ∧ w ∉ C.Py.members ∧ w ∉ C.Pw.members) := by
  rintro ⟨a, b, c⟩
  rcases h with h | h | h
  · exact a h
  · exact c h
  · exact b h

/-- Facts about the only worker of a sequential layer. -/
theorem single_worker (h : ChanValid C Po Pi Sp) {w : Nat} (hw : C.Pw.members = [w]) (hx : C.Px.members = [w])
    (hy : C.Py.members = [w]) : Po = 1 ∧ Pi = 1 ∧ (∀ n ∈ Sp, n = 1) ∧
      (∃ s, C.Pw.coord w = 0 :: 0 :: s ∧ InBounds s Sp ∧ ∀ i ∈ s, i = 0) ∧
      (chanBroadcast C.Px C.Pw).Feeds w w ∧ (chanReduce C.Pw C.yCast).rroot w = w := by
  have hw' : w ∈ C.Pw.members := by rw [hw]; simp
  have hx' : w ∈ C.Px.members := by rw [hx]; simp
  have hones : ∀ n ∈ C.Pw.shape, n = 1 := fun n hn =>
    Nat.dvd_one.1 (show n ∣ 1 by rw [← (show C.Pw.members.length = 1 by rw [hw]; rfl), h.wfw.size]; exact List.dvd_prod hn)
  rw [h.shw] at hones
  obtain ⟨o, j, s, ev, ho, hj, hs⟩ := h.coordW hw'
  have p1 : Po = 1 := hones _ (by simp)
  have p2 : Pi = 1 := hones _ (by simp)
  have p3 : ∀ n ∈ Sp, n = 1 := fun n hn => hones _ (by simp [hn])
  have o0 : o = 0 := by omega
  have j0 : j = 0 := by omega
  subst o0 j0
  refine ⟨p1, p2, p3, ⟨s, ev, hs, fun i hi => ?_⟩, ?_, ?_⟩
  · obtain ⟨q, hq, rfl⟩ := List.mem_iff_getElem.1 hi
    have hq' : q < Sp.length := by rw [← hs.length_eq]; exact hq
    have := inBounds_getD hs hq'
    rw [List.getD_eq_getElem _ _ hq, List.getD_eq_getElem _ _ hq', p3 _ (List.getElem_mem _)] at this
    omega
  · have : (chanBroadcast C.Px C.Pw).broot w = w := by
      have := (broot_coord h hw' ev).1
      rw [hx] at this
      simpa using this
    exact (h.bcast.rel hx' hw').2 this
  · have : (chanReduce C.Pw C.yCast).rroot w ∈ C.Py.members := h.reduce.root_mem hw'
    rw [hy] at this
    simpa using this

theorem single_dx (h : ChanValid C Po Pi Sp) {w : Nat} (hw : C.Pw.members = [w]) (hx : C.Px.members = [w])
    (hy : C.Py.members = [w]) (shape : List Nat) :
    chanDx C Po Pi W' wt shape y w = torchConvGradX W' 1 C.Ci C.Co (wt w) shape (y w).val := by
  obtain ⟨rfl, rfl, -, ⟨s, ev, -⟩, hf, hr⟩ := single_worker h hw hx hy
  funext m
  unfold chanDx chanDy
  rw [hw]
  simp [hf, ev, hr, subsize_one]

/-- C62, channel-distributed convolution: with the blocks of a global output gradient `G` on the workers of `P_y`
the workers of `P_x` get the blocks of the gradient of the sequential convolution with respect to its input, the other
workers of the layer get tensors without entries, and workers outside the layer keep what they had. -/
theorem C62_channel (h : ChanValid C Po Pi Sp) (h1 : ∀ n ∈ Sp, n = 1) (hSp : Sp.length = C.W.k.length)
    (hN : N.length = C.W.k.length) (hg : C.groups = 1)
    (hfit : ∀ j, j < C.W.k.length →
      C.W.d.getD j 0 * (C.W.k.getD j 0 - 1) + 1 ≤ N.getD j 0 + 2 * C.W.p.getD j 0)
    (hx : EvenBlocks C.Px (B :: C.Ci :: N) dt X I.x) (hp : ChanParams C Po Pi wt b Wt β)
    (hs : ∀ u, C.Active u → (I.x u).shape ≠ [])
    (hy : EvenBlocks C.Py (torchConvShape C.W C.Co (B :: C.Ci :: N)) dt G y)
    (hsy : ∀ u, C.Active u → (y u).shape ≠ [])
    (place : C.Pw.members.length = 1 → C.Px.members = C.Pw.members ∧ C.Py.members = C.Pw.members) :
    (∃ dx : Nat → Tensor R, (∀ r ∈ C.Px.members, channelGradX C wt b I rg y r = some (dx r)) ∧
      EvenBlocks C.Px (B :: C.Ci :: N) dt (torchConvGradX C.W 1 C.Ci C.Co Wt (B :: C.Ci :: N) G) dx) ∧
    (∀ w, C.Active w → w ∉ C.Px.members → ∃ z, channelGradX C wt b I rg y w = some z ∧ z.shape.prod = 0) ∧
    (∀ w, ¬ C.Active w → channelGradX C wt b I rg y w = some (y w)) := by
  have hT := channel_windows h h1 hSp hN hfit hx
  have hcast := h.cast true fun _ => h1
  have hdx := channel_dx h h1 hSp hN hfit hx hp hy
  have hout : ∀ w, ¬ C.Active w → channelGradX C wt b I rg y w = some (y w) := by
    intro w hw
    rw [channelGradX, if_pos]
    exact ⟨fun hh => hw (Or.inl hh), fun hh => hw (Or.inr (Or.inr hh)), fun hh => hw (Or.inr (Or.inl hh))⟩
  by_cases h1w : C.Pw.members.length = 1
  · obtain ⟨px, py⟩ := place h1w
    obtain ⟨w, hw⟩ := List.length_eq_one_iff.1 h1w
    rw [hw] at px py
    refine ⟨⟨_, fun r hr => ?_, hdx⟩, fun v hv hn => ?_, hout⟩
    · have hrw : r = w := by rw [px] at hr; simpa using hr
      subst hrw
      rw [channelGradX, if_neg (ChanConv.Active.not (Or.inl hr)), hcast]
      simp only
      rw [if_pos h1w, if_pos (by rw [hw]; simp), hg, convGradInput, single_dx h hw px py]
    · exfalso
      apply hn
      rw [px]
      rcases hv with hv | hv | hv
      · rwa [px] at hv
      · rwa [hw] at hv
      · rwa [py] at hv
  · obtain ⟨f1, f2, -⟩ := chan_backward (rg := rg) (W' := C.W) h ⟨rfl, rfl, rfl⟩ hT (channel_local (b := b) h hg)
      hs hy hsy
      (opB := fun v => convGradInput C.W C.groups ((C.localChannels v).getD 1 0) ((C.localChannels v).getD 0 0)
        (wt v)) (fun v x dy => ⟨rfl, rfl⟩) (fun v hv x dy => by
        obtain ⟨e0, e1⟩ := h.localChannels hv
        rw [convGradInput, e0, e1, hg])
    have e : ∀ w, C.Active w → channelGradX C wt b I rg y w =
        stackBackward (chanBroadcast C.Px C.Pw) (chanReduce C.Pw C.yCast) I (channelLocal C wt b) (fun v =>
          convGradInput C.W C.groups ((C.localChannels v).getD 1 0) ((C.localChannels v).getD 0 0) (wt v))
          rg y w := by
      intro w hw
      rw [channelGradX, if_neg hw.not, hcast]
      simp only
      rw [if_neg h1w]
    refine ⟨⟨_, fun r hr => ?_, hdx⟩, fun w hw hn => ?_, hout⟩
    · rw [e r (Or.inl hr), f1 r hr]
    · rw [e w hw]
      exact f2 w hw hn

/-- C62: the collectives of the backward pass cannot deadlock. -/
theorem C62_channel_terminates (h : ChanValid C Po Pi Sp) (h1 : ∀ n ∈ Sp, n = 1) (hSp : Sp.length = C.W.k.length)
    (hN : N.length = C.W.k.length) (hg : C.groups = 1)
    (hfit : ∀ j, j < C.W.k.length →
      C.W.d.getD j 0 * (C.W.k.getD j 0 - 1) + 1 ≤ N.getD j 0 + 2 * C.W.p.getD j 0)
    (hx : EvenBlocks C.Px (B :: C.Ci :: N) dt X I.x) (hs : ∀ u, C.Active u → (I.x u).shape ≠ [])
    (hy : EvenBlocks C.Py (torchConvShape C.W C.Co (B :: C.Ci :: N)) dt G y)
    (hsy : ∀ u, C.Active u → (y u).shape ≠ []) :
    SafeRun (groupUnion C.Pw.members C.Py.members) (reduceBackActs (chanReduce C.Pw C.yCast)
      (midInputs (chanBroadcast C.Px C.Pw) I (channelLocal C wt b) rg) y) ∧
    SafeRun (groupUnion C.Px.members C.Pw.members) (bcastBackActs (chanBroadcast C.Px C.Pw) I fun v =>
      (inGrad (chanBroadcast C.Px C.Pw) (chanReduce C.Pw C.yCast) I (channelLocal C wt b) (fun v =>
        convGradInput C.W C.groups ((C.localChannels v).getD 1 0) ((C.localChannels v).getD 0 0) (wt v)) rg y v).getD
        ⟨[], .float64, fun _ => 0⟩) := by
  exact (chan_backward (rg := rg) (W' := C.W) h ⟨rfl, rfl, rfl⟩ (channel_windows h h1 hSp hN hfit hx)
    (channel_local (b := b) h hg) hs hy hsy
      (opB := fun v => convGradInput C.W C.groups ((C.localChannels v).getD 1 0) ((C.localChannels v).getD 0 0)
        (wt v)) (fun v x dy => ⟨rfl, rfl⟩) (fun v hv x dy => by
        obtain ⟨e0, e1⟩ := h.localChannels hv
        rw [convGradInput, e0, e1, hg])).2.2

end

end Verif
