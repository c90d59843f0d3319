import Verif.Grad.ChanProps

/-!
# C62: gradients of the input of the general convolution
-/

namespace Verif

open Exchange

section
variable {R : Type} [CommSemiring R] {C : ChanConv} {Po Pi : Nat} {Sp : List Nat} {L : Layout} {B : Nat}
  {N : List Nat} {localS : Nat → List Nat × TorchDtype × Bool} {inp : Nat → List Nat → R} {X : List Nat → R}
  {t : TorchDtype} {rg0 : Bool} {nd : Nat} {pk ps pp pd : List Nat} {γ : Type} {dt : NpKey} {junk : Nat → γ}
  {ops : Nat → List (MgrOp γ)} {eager eager' : Bool} {k k' : Nat} {U : Nat → WinSetup} {S : Nat → HaloSetup}
  {g g' : GState (List Nat → R) (List Nat → R)} {rgx rg : Nat → Bool} {weight bias : Nat → Tensor R} {rgp : Bool}
  {Wt β G : List Nat → R} {y : Nat → Tensor R} {gl : Nat → List Nat → R}

theorem generalInputs_batch {W' : WinParams} (hT : WindowsOf C W' B N t X (generalInputs C.Px localS inp U g rgx).x)
    (hs : ∀ u, C.Active u → (localS u).1 ≠ []) (u : Nat) (hu : C.Active u) :
    ((generalInputs C.Px localS inp U g rgx).x u).shape ≠ [] := by
  by_cases hx : u ∈ C.Px.members
  · intro h0
    have := hT.rank u hx
    rw [h0] at this
    simp at this
  · simp only [generalInputs, if_neg hx]
    exact hs u hu

/-- The gradients on the far side of the halo exchange. -/
theorem general_backward (hW : winParams nd pk ps pp pd = some C.W) (h : ChanValid C Po Pi Sp)
    (hSp : Sp.length = nd) (hg : C.groups = 1) (hin : WinInput C.Px C.W L localS inp X t rg0)
    (hG : L.global = B :: C.Ci :: N) (hl : WinLimits C.Px C.W L)
    (E : GeneralRun C C.Px localS inp dt junk ops eager k U S g)
    (hfin : ∀ r, r < C.Px.members.length → (g.ws r).phase = haloPhases C.Px)
    (hp : StoredParams C Po Pi weight bias Wt β) (hs : ∀ u, C.Active u → (localS u).1 ≠ [])
    (hy : EvenBlocks C.Py (torchConvShape C.W C.Co (B :: C.Ci :: N)) t G y)
    (hsy : ∀ u, C.Active u → (y u).shape ≠ []) :
    ∃ Pwr Pb Pbr, weightRoot C.Pw = some Pwr ∧ biasPart C.Pw = some Pb ∧ biasRoot C.Pw = some Pbr ∧
    ∃ wt b, ChanParams C Po Pi wt b Wt β ∧
      LocalConvs C Po Pi C.W.noPad wt b (generalLocal C Pwr Pb Pbr weight bias rgp) ∧
    (∀ r ∈ C.Px.members, generalGradIn C C.Px C.yCast Pwr Pb Pbr weight bias rgp localS inp U g rgx rg y r =
      some ⟨((generalInputs C.Px localS inp U g rgx).x r).shape,
        ((generalInputs C.Px localS inp U g rgx).x r).dtype,
        chanDx C Po Pi C.W.noPad wt ((generalInputs C.Px localS inp U g rgx).x r).shape y r⟩) ∧
    (∀ w, C.Active w → w ∉ C.Px.members →
      ∃ z, generalGradIn C C.Px C.yCast Pwr Pb Pbr weight bias rgp localS inp U g rgx rg y w = some z ∧
        z.shape.prod = 0) ∧
    SafeRun (groupUnion C.Pw.members C.Py.members) (reduceBackActs (chanReduce C.Pw C.yCast)
      (midInputs (chanBroadcast C.Px C.Pw) (generalInputs C.Px localS inp U g rgx)
        (generalLocal C Pwr Pb Pbr weight bias rgp) rg) y) ∧
    SafeRun (groupUnion C.Px.members C.Pw.members) (bcastBackActs (chanBroadcast C.Px C.Pw)
      (generalInputs C.Px localS inp U g rgx) fun v =>
      (inGrad (chanBroadcast C.Px C.Pw) (chanReduce C.Pw C.yCast) (generalInputs C.Px localS inp U g rgx)
        (generalLocal C Pwr Pb Pbr weight bias rgp) (generalLocalGradX C Pwr weight rgp) rg y v).getD
        ⟨[], .float64, fun _ => 0⟩) := by
  obtain ⟨Pwr, Pb, Pbr, e1, e2, e3, -, -, wt, b, hop, hcp, hwt⟩ := general_received (rgp := rgp) h hg hp
  have hT := general_windows (rgx := rgx) hW h hSp hin hG hl E hfin
  refine ⟨Pwr, Pb, Pbr, e1, e2, e3, wt, b, hcp, hop, ?_⟩
  refine chan_backward (rg := rg) (W' := C.W.noPad) h ⟨rfl, rfl, rfl⟩ hT hop (generalInputs_batch hT hs) hy hsy
    (opB := generalLocalGradX C Pwr weight rgp) (fun v x dy => ?_) fun v hv x dy => ?_
  · unfold generalLocalGradX
    split <;> exact ⟨rfl, rfl⟩
  · obtain ⟨a, ea, ew⟩ := hwt v hv
    obtain ⟨c0, c1⟩ := h.localChannels hv
    rw [generalLocalGradX, ea]
    show (convGradInput _ _ _ _ _ _ _).val = _
    rw [convGradInput, c0, c1, hg, ew]

/-- C62, general convolution, on the far side of the halo exchange: every worker of `P_x` gets a gradient of the shape
of its local input, no exception is raised. -/
theorem C62_general_exchanged (hW : winParams nd pk ps pp pd = some C.W) (h : ChanValid C Po Pi Sp)
    (hSp : Sp.length = nd) (hg : C.groups = 1) (hin : WinInput C.Px C.W L localS inp X t rg0)
    (hG : L.global = B :: C.Ci :: N) (hl : WinLimits C.Px C.W L)
    (E : GeneralRun C C.Px localS inp dt junk ops eager k U S g)
    (hfin : ∀ r, r < C.Px.members.length → (g.ws r).phase = haloPhases C.Px)
    (hp : StoredParams C Po Pi weight bias Wt β) (hs : ∀ u, C.Active u → (localS u).1 ≠ [])
    (hy : EvenBlocks C.Py (torchConvShape C.W C.Co (B :: C.Ci :: N)) t G y)
    (hsy : ∀ u, C.Active u → (y u).shape ≠ []) {r : Nat} (hr : r < C.Px.members.length) :
    ∃ a, generalExchanged C weight bias rgp localS inp U g rgx rg y r = some a ∧
      a.shape = (localInput C.Px 0 localS inp U g r).1 ∧ a.dtype = t := by
  obtain ⟨Pwr, Pb, Pbr, e1, e2, e3, wt, b, -, -, f1, -⟩ := general_backward (rgp := rgp) (rgx := rgx) (rg := rg)
    hW h hSp hg hin hG hl E hfin hp hs hy hsy
  have hm := (member_spec h.wfx hr).1
  have hi : C.Px.members.idxOf (C.Px.members.getD r 0) = r := by
    rw [List.getD_eq_getElem _ _ hr]
    exact h.wfx.nodup.idxOf_getElem _ _
  have hT := general_windows (rgx := rgx) hW h hSp hin hG hl E hfin
  refine ⟨_, by
    rw [generalExchanged, h.cast false (by simp), e1, e2, e3]
    exact f1 _ hm, ?_, ?_⟩
  rotate_left
  · exact hT.dtype _ hm
  show ((generalInputs C.Px localS inp U g rgx).x _).shape = _
  simp only [generalInputs, if_pos hm]
  rw [hi]

/-- The adjoint exchange, entered by every worker of `P_x` with the sum of the local gradients. -/
theorem general_assemble {wt b : Nat → List Nat → R} (hW : winParams nd pk ps pp pd = some C.W)
    (h : ChanValid C Po Pi Sp) (hSp : Sp.length = nd)
    (hin : WinInput C.Px C.W L localS inp X t rg0) (hG : L.global = B :: C.Ci :: N) (hl : WinLimits C.Px C.W L)
    (run : WinRun C.Px C.W 0 localS inp dt junk ops eager k U S g) (hcp : ChanParams C Po Pi wt b Wt β)
    (hy : EvenBlocks C.Py (torchConvShape C.W C.Co (B :: C.Ci :: N)) t G y)
    (K : WinBack C.Px localS U S gl eager' k' g')
    (hgl : ∀ q, q < C.Px.members.length → gl q = chanDx C Po Pi C.W.noPad wt
      (localInput C.Px 0 localS inp U g q).1 y (C.Px.members.getD q 0))
    {w : Nat} (hw : w ∈ C.Px.members) (hf : (g'.ws (C.Px.members.idxOf w)).phase = haloPhases C.Px) {l : List Nat}
    (hb : InBounds l (L.shapeAt (C.Px.coord w))) :
    inputGrad C.Px localS U g' (C.Px.members.idxOf w) l =
      torchConvGradX C.W 1 C.Ci C.Co Wt (B :: C.Ci :: N) G (shiftBy (L.startAt (C.Px.coord w)) l) := by
  have hP : C.Px.shape.length = (torchPoolShape C.W (B :: C.Ci :: N)).length := by
    have hgl' : C.Px.shape.length = (B :: C.Ci :: N).length := by rw [← hG, Layout.length_global, hin.length]
    rw [hgl']
    simp [torchPoolShape, length_torchOut]
  refine assemble (t := t) hin run K hP (T := convPair C.W C.Co (B :: C.Ci :: N) Wt G)
    (fun Y => by rw [hG]; exact convPair_sum C.W B C.Ci C.Co N Wt G Y) ?_
    (List.idxOf_lt_length_of_mem hw) hf hb
  intro z Y k2 g2 hz A2 hA2 q hq
  have hm := (member_spec h.wfx hq).1
  have hc := coord_member h.wfx hq
  have hi : C.Px.members.idxOf (C.Px.members.getD q 0) = q := by
    rw [List.getD_eq_getElem _ _ hq]
    exact h.wfx.nodup.idxOf_getElem _ _
  have E2 : GeneralRun C C.Px localS z dt junk ops eager k2 U S g2 :=
    ⟨fun r hr => (generalSetup_eq hz px_union (member_spec hin.wf hr).1).trans (A2.setup r hr), A2.halo, A2.exec⟩
  have hT2 := general_windows (rgx := fun _ => true) hW h hSp hz hG hl E2 hA2
  have hpair := chan_pair (J := generalInputs C.Px localS z U g2 fun _ => true) h (W' := C.W.noPad) ⟨rfl, rfl, rfl⟩ hT2
    hcp hy hm
  rw [hc] at hpair
  rw [← hpair]
  simp only [generalInputs, if_pos hm]
  rw [hi, hgl q hq, localInput_shape (v := (0 : R)) (v' := (0 : R)) (g := g) (g' := g2) hin hz run.setup hq]
  rfl

/-- C62, general convolution: `gl` are the gradients with which the workers of `P_x` enter the adjoint exchange.  When
the exchange is finished on a worker of `P_x`, its gradient is its part of the gradient of the sequential convolution
with respect to the input; the other workers of the layer get tensors without entries, workers outside the layer keep
what they had. -/
theorem C62_general (hW : winParams nd pk ps pp pd = some C.W) (h : ChanValid C Po Pi Sp) (hSp : Sp.length = nd)
    (hg : C.groups = 1) (hin : WinInput C.Px C.W L localS inp X t rg0) (hG : L.global = B :: C.Ci :: N)
    (hfit : ∀ j, j < nd →
      C.W.d.getD j 0 * (C.W.k.getD j 0 - 1) + 1 ≤ N.getD j 0 + 2 * C.W.p.getD j 0)
    (hl : C.Pw.members.length ≠ 1 → WinLimits C.Px C.W L)
    (E : C.Pw.members.length ≠ 1 → GeneralRun C C.Px localS inp dt junk ops eager k U S g)
    (hfin : C.Pw.members.length ≠ 1 → ∀ r, r < C.Px.members.length → (g.ws r).phase = haloPhases C.Px)
    (hp : StoredParams C Po Pi weight bias Wt β) (hs : ∀ u, C.Active u → (localS u).1 ≠ [])
    (hy : EvenBlocks C.Py (torchConvShape C.W C.Co (B :: C.Ci :: N)) t G y)
    (hsy : ∀ u, C.Active u → (y u).shape ≠ [])
    (hgl : C.Pw.members.length ≠ 1 → ∀ r, r < C.Px.members.length →
      (generalExchanged C weight bias rgp localS inp U g rgx rg y r).map Tensor.val = some (gl r))
    (K : C.Pw.members.length ≠ 1 → WinBack C.Px localS U S gl eager' k' g')
    (place : C.Pw.members.length = 1 → C.Px.members = C.Pw.members ∧ C.Py.members = C.Pw.members) :
    (∀ w ∈ C.Px.members, (C.Pw.members.length ≠ 1 → (g'.ws (C.Px.members.idxOf w)).phase = haloPhases C.Px) →
      ∃ a, generalGradX C weight bias rgp localS inp U g rgx rg y g' w = some a ∧
        a.shape = L.shapeAt (C.Px.coord w) ∧ a.dtype = t ∧
        ∀ l, InBounds l (L.shapeAt (C.Px.coord w)) → a.val l =
          torchConvGradX C.W 1 C.Ci C.Co Wt (B :: C.Ci :: N) G (shiftBy (L.startAt (C.Px.coord w)) l)) ∧
    (∀ w, C.Active w → w ∉ C.Px.members →
      ∃ z, generalGradX C weight bias rgp localS inp U g rgx rg y g' w = some z ∧ z.shape.prod = 0) ∧
    (∀ w, ¬ C.Active w → generalGradX C weight bias rgp localS inp U g rgx rg y g' w = some (y w)) := by
  have hkn : C.W.k.length = nd := (winParams_length hW).1
  have hgl' : C.Px.shape.length = (B :: C.Ci :: N).length := by rw [← hG, Layout.length_global, hin.length]
  have hN : N.length = nd := by
    rw [h.shx] at hgl'
    simp at hgl'
    omega
  have hcast := h.cast false (by simp)
  have hout : ∀ w, ¬ C.Active w → generalGradX C weight bias rgp localS inp U g rgx rg y g' w = some (y w) := by
    intro w hw
    rw [generalGradX, if_pos]
    exact ⟨fun hh => hw (Or.inl hh), fun hh => hw (Or.inr (Or.inr hh)), fun hh => hw (Or.inr (Or.inl hh))⟩
  have hloc : ∀ w ∈ C.Px.members, (localS w).1 = L.shapeAt (C.Px.coord w) ∧ (localS w).2.1 = t := by
    intro w hw
    rw [hin.loc w hw _ (Cart.index_eq hw)]
    exact ⟨rfl, rfl⟩
  by_cases h1w : C.Pw.members.length = 1
  · obtain ⟨px, py⟩ := place h1w
    have hpx : C.Px.members.length = 1 := by rw [px]; exact h1w
    obtain ⟨w, hw⟩ := List.length_eq_one_iff.1 h1w
    rw [hw] at px py
    obtain ⟨-, -, h1s, ⟨s, ev, -, hz⟩, -, -⟩ := single_worker h hw px py
    have hz' : ∀ v ∈ C.Pw.members, ∀ i ∈ C.Pw.coord v, i = 0 := by
      intro v hv i hi
      have : v = w := by rw [hw] at hv; simpa using hv
      subst this
      rw [ev] at hi
      simp only [List.mem_cons] at hi
      rcases hi with rfl | rfl | hi
      · rfl
      · rfl
      · exact hz i hi
    have hp' : ChanParams C Po Pi (fun v => (weight v).val) (fun v => (bias v).val) Wt β :=
      ⟨fun v hv => hp.weight v hv fun i hi => hz' v hv i (List.mem_of_mem_drop hi),
        fun v hv _ => hp.bias v hv fun i hi => hz' v hv i (List.mem_of_mem_drop hi)⟩
    have hdx := channel_dx (I := ⟨fun w => (⟨(localS w).1, (localS w).2.1, inp w⟩ : Tensor R), rgx⟩) h h1s
      (hSp.trans hkn.symm) (hN.trans hkn.symm) (by rw [hkn]; exact hfit) (serial_blocks h hin hG hpx) hp' hy
    refine ⟨fun u hu _ => ?_, fun v hv hn => ?_, hout⟩
    · have huw : u = w := by rw [px] at hu; simpa using hu
      subst huw
      refine ⟨_, by
        rw [generalGradX, if_neg (ChanConv.Active.not (Or.inl hu)), hcast]
        simp only
        rw [if_pos h1w, if_pos (by rw [hw]; simp), hg], (hloc u hu).1, (hloc u hu).2, fun l hb => ?_⟩
      · have hi0 : C.Px.members.idxOf u < C.Px.members.length := List.idxOf_lt_length_of_mem hu
        have hval := hdx.val u hu
        have hM : C.Px.shape.length = (B :: C.Ci :: N).length := hgl'
        obtain ⟨s1, s2⟩ := single_block (L := Layout.balanced C.Px.shape (B :: C.Ci :: N)) h.wfx
          (Layout.balanced_pshape hM) hpx hi0
        obtain ⟨s3, s4⟩ := single_block h.wfx hin.layout hpx hi0
        rw [Layout.balanced_global hM h.wfx.pos] at s1 s2
        rw [hG] at s3 s4
        change InBounds l (L.shapeAt (getCoords _ _)) at hb
        rw [s3] at hb
        have := hval l (by change InBounds l (Layout.shapeAt _ (getCoords _ _)); rw [s1]; exact hb)
        change chanDx C Po Pi C.W (fun v => (weight v).val) (localS u).1 y u l = _ at this
        rw [single_dx h hw px py] at this
        refine this.trans ?_
        show torchConvGradX _ _ _ _ _ _ _ (shiftBy (Layout.startAt _ (getCoords _ _)) l) =
          torchConvGradX _ _ _ _ _ _ _ (shiftBy (L.startAt (getCoords _ _)) l)
        rw [s2 l hb, s4 l hb]
    · exfalso
      apply hn
      rw [px]
      rcases hv with hv | hv | hv
      · rwa [px] at hv
      · rwa [hw] at hv
      · rwa [py] at hv
  · obtain ⟨Pwr, Pb, Pbr, e1, e2, e3, wt, b, hcp, -, f1, f2, -⟩ := general_backward (rgp := rgp) (rgx := rgx)
      (rg := rg) hW h hSp hg hin hG (hl h1w) (E h1w) (hfin h1w) hp hs hy hsy
    have run := (E h1w).run hin px_union
    refine ⟨fun w hw hf => ?_, fun w hw hn => ?_, hout⟩
    · refine ⟨_, by
        rw [generalGradX, if_neg (ChanConv.Active.not (Or.inl hw)), hcast]
        simp only
        rw [if_neg h1w, if_pos hw], (hloc w hw).1, (hloc w hw).2, fun l hb => ?_⟩
      · refine general_assemble hW h hSp hin hG (hl h1w) run hcp hy (K h1w) (fun q hq => ?_) hw (hf h1w) hb
        have hm := (member_spec h.wfx hq).1
        have hi : C.Px.members.idxOf (C.Px.members.getD q 0) = q := by
          rw [List.getD_eq_getElem _ _ hq]
          exact h.wfx.nodup.idxOf_getElem _ _
        have := hgl h1w q hq
        rw [generalExchanged, hcast, e1, e2, e3] at this
        simp only at this
        rw [f1 _ hm, Option.map_some, Option.some.injEq] at this
        rw [← this]
        simp only [generalInputs, if_pos hm]
        rw [hi]
    · rw [generalGradX, if_neg hw.not, hcast]
      simp only
      rw [if_neg h1w, if_neg hn, e1, e2, e3]
      exact f2 w hw hn

/-- C62, general convolution: the collectives of the backward pass cannot deadlock, and the adjoint exchange can always
be continued until every worker of `P_x` has finished. -/
theorem C62_general_terminates (hW : winParams nd pk ps pp pd = some C.W) (h : ChanValid C Po Pi Sp)
    (hSp : Sp.length = nd) (hg : C.groups = 1) (hin : WinInput C.Px C.W L localS inp X t rg0)
    (hG : L.global = B :: C.Ci :: N) (hl : WinLimits C.Px C.W L)
    (E : GeneralRun C C.Px localS inp dt junk ops eager k U S g)
    (hfin : ∀ r, r < C.Px.members.length → (g.ws r).phase = haloPhases C.Px)
    (hp : StoredParams C Po Pi weight bias Wt β) (hs : ∀ u, C.Active u → (localS u).1 ≠ [])
    (hy : EvenBlocks C.Py (torchConvShape C.W C.Co (B :: C.Ci :: N)) t G y)
    (hsy : ∀ u, C.Active u → (y u).shape ≠ []) :
    (∃ Pwr Pb Pbr, weightRoot C.Pw = some Pwr ∧ biasPart C.Pw = some Pb ∧ biasRoot C.Pw = some Pbr ∧
    SafeRun (groupUnion C.Pw.members C.Py.members) (reduceBackActs (chanReduce C.Pw C.yCast)
      (midInputs (chanBroadcast C.Px C.Pw) (generalInputs C.Px localS inp U g rgx)
        (generalLocal C Pwr Pb Pbr weight bias rgp) rg) y) ∧
    SafeRun (groupUnion C.Px.members C.Pw.members) (bcastBackActs (chanBroadcast C.Px C.Pw)
      (generalInputs C.Px localS inp U g rgx) fun v =>
      (inGrad (chanBroadcast C.Px C.Pw) (chanReduce C.Pw C.yCast) (generalInputs C.Px localS inp U g rgx)
        (generalLocal C Pwr Pb Pbr weight bias rgp) (generalLocalGradX C Pwr weight rgp) rg y v).getD
        ⟨[], .float64, fun _ => 0⟩)) ∧
    ∀ (gl : Nat → List Nat → R) k' g', WinBack C.Px localS U S gl eager' k' g' →
      ∃ k2 g2, WinBack C.Px localS U S gl eager' k2 g2 ∧ k' ≤ k2 ∧
        ∀ r, r < C.Px.members.length → (g2.ws r).phase = haloPhases C.Px := by
  constructor
  · obtain ⟨Pwr, Pb, Pbr, e1, e2, e3, wt, b, -, -, -, -, s1, s2⟩ := general_backward (rgp := rgp) (rgx := rgx)
      (rg := rg) hW h hSp hg hin hG hl E hfin hp hs hy hsy
    exact ⟨Pwr, Pb, Pbr, e1, e2, e3, s1, s2⟩
  · intro gl k' g' K
    exact C60_completes hin (E.run hin px_union) K

end

end Verif
