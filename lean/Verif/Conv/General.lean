import Verif.Conv.Roots
import Verif.Conv.Channel
import Verif.Window.Limits

/-!
# C44: convolution distributed over channels and features
-/

namespace Verif
open Exchange

/-! ## Global structure and halos -/

theorem px_union {C : ChanConv} (v : Nat) (hv : v ∈ C.Px.members) : v ∈ C.union := by
  simp [ChanConv.union, mem_groupUnion, hv]

theorem generalSetup_eq {α : Type} {C : ChanConv} {P : Cart} {L : Layout}
    {localS : Nat → List Nat × TorchDtype × Bool} {x : Nat → List Nat → α} {X : List Nat → α} {t : TorchDtype}
    {rg : Bool} (h : WinInput P C.W L localS x X t rg) (hU : ∀ v ∈ P.members, v ∈ C.union) {w : Nat}
    (hw : w ∈ P.members) : generalSetup C P localS w = winSetup P C.W localS w := by
  obtain ⟨w0, h0, hm⟩ := h.wf.head
  obtain ⟨g1, g2, -⟩ := C08_global_structure P h.wf L h.layout localS t rg h.loc C.union w0 h0 (hU w0 hm)
  unfold generalSetup winSetup
  rw [g1 w hw, g2 w (Or.inr hw)]
  rfl

theorem GeneralRun.run {R : Type} [AddCommMonoid R] [Mul R] {C : ChanConv} {P : Cart} {L : Layout}
    {localS : Nat → List Nat × TorchDtype × Bool} {x : Nat → List Nat → R} {X : List Nat → R} {t : TorchDtype}
    {rg : Bool} {β : Type} {dt : NpKey} {junk : Nat → β} {ops : Nat → List (MgrOp β)} {eager : Bool} {k : Nat}
    {U : Nat → WinSetup} {S : Nat → HaloSetup} {g : GState (List Nat → R) (List Nat → R)}
    (h : WinInput P C.W L localS x X t rg) (hU : ∀ v ∈ P.members, v ∈ C.union)
    (G : GeneralRun C P localS x dt junk ops eager k U S g) : WinRun P C.W 0 localS x dt junk ops eager k U S g :=
  ⟨fun r hr => (generalSetup_eq h hU (member_spec h.wf hr).1).symm.trans (G.setup r hr), G.halo, G.exec⟩

/-! ## Parameters -/

section
variable {R : Type} [AddCommMonoid R] [Mul R] {C : ChanConv} {Po Pi : Nat} {Sp : List Nat}

/-- The stored parameters are the blocks of the global weight `Wt`, on the workers of `P_w` that come first
along the features, and of the global bias `β`, on those that come first along the input channels too. -/
structure StoredParams (C : ChanConv) (Po Pi : Nat) (weight bias : Nat → Tensor R) (Wt β : List Nat → R) :
    Prop where
  weight : ∀ v ∈ C.Pw.members, (∀ i ∈ (C.Pw.coord v).drop 2, i = 0) →
    ∀ k < subsize Po ((C.Pw.coord v).getD 0 0) C.Co, ∀ c < subsize Pi ((C.Pw.coord v).getD 1 0) C.Ci,
      ∀ κ, InBounds κ C.W.k →
        (weight v).val (k :: c :: κ) = Wt ((startIdx Po ((C.Pw.coord v).getD 0 0) C.Co + k) ::
          (startIdx Pi ((C.Pw.coord v).getD 1 0) C.Ci + c) :: κ)
  bias : ∀ v ∈ C.Pw.members, (∀ i ∈ (C.Pw.coord v).drop 1, i = 0) →
    ∀ k < subsize Po ((C.Pw.coord v).getD 0 0) C.Co,
      (bias v).val [k] = β [startIdx Po ((C.Pw.coord v).getD 0 0) C.Co + k]

omit [Mul R] in
/-- The broadcast of a parameter. -/
theorem param_forward {P Q : Cart} (hL : BcastLayer (paramLayer P Q)) (a : Nat → Tensor R) (rg : Bool) {v : Nat}
    (hv : v ∈ Q.members) : ∃ r ∈ P.members, Agree P.shape (P.coord r) (Q.coord v) ∧
      bcastForward (paramLayer P Q) (storedParam P a rg) v = some (a r) := by
  obtain ⟨r, hr, hf, -, e⟩ := (C22_forward (paramLayer P Q) hL (storedParam P a rg)
    (fun hb => by simp [paramLayer] at hb)).1 v hv
  have hr' : r ∈ P.members := hr
  refine ⟨r, hr', hf, ?_⟩
  rw [e]
  simp [storedParam, hr']

variable {Pwr Pb Pbr : Cart}

theorem weight_layer (h : ChanValid C Po Pi Sp) (wf : Pwr.WF) (sh : Pwr.shape = Po :: Pi :: List.replicate Sp.length 1)
    (ro : Pwr.root = C.Pw.root) : BcastLayer (paramLayer Pwr C.Pw) := by
  obtain ⟨ρ, -, -, h3⟩ := h.root
  refine ⟨⟨wf, h.wfw, ⟨ρ, ro.trans h3, h3⟩, ?_, ?_⟩, by simp [paramLayer], Or.inl rfl⟩
  · show Pwr.shape ≠ []
    rw [sh]; simp
  · show BroadcastRule Pwr.shape C.Pw.shape
    rw [sh, h.shw]
    exact rule_cons (by simp) (Or.inl rfl) (rule_cons (by simp) (Or.inl rfl) (rule_ones _))

theorem bias_layer (h : ChanValid C Po Pi Sp) (wfr : Pbr.WF)
    (shr : Pbr.shape = Po :: 1 :: List.replicate Sp.length 1) (ror : Pbr.root = C.Pw.root) (wf : Pb.WF)
    (sh : Pb.shape = Po :: 1 :: Sp) (ro : Pb.root = C.Pw.root) : BcastLayer (paramLayer Pbr Pb) := by
  obtain ⟨ρ, -, -, h3⟩ := h.root
  refine ⟨⟨wfr, wf, ⟨ρ, ror.trans h3, ro.trans h3⟩, ?_, ?_⟩, by simp [paramLayer], Or.inl rfl⟩
  · show Pbr.shape ≠ []
    rw [shr]; simp
  · show BroadcastRule Pbr.shape Pb.shape
    rw [shr, sh]
    exact rule_cons (by simp) (Or.inl rfl) (rule_cons (by simp) (Or.inl rfl) (rule_ones _))

/-- Positions in a dimension with one worker are equal, in the others they are equal by agreement. -/
theorem agree_lead {n : Nat} {S : List Nat} {c d : Nat} {cs ds : List Nat} (hl : ds.length = S.length)
    (hc : c < n) (hd : d < n) (h : Agree (n :: S) (c :: cs) (d :: ds)) : c = d ∧ Agree S cs ds := by
  obtain ⟨h1, h2⟩ := (agree_cons hl).1 h
  refine ⟨?_, h2⟩
  by_cases hn : n = 1
  · omega
  · exact h1 hn

variable {weight bias : Nat → Tensor R} {rgp : Bool} {Wt β : List Nat → R}

/-- After the broadcasts every worker of `P_w` convolves with its blocks of the global parameters. -/
theorem general_received (h : ChanValid C Po Pi Sp) (hg : C.groups = 1)
    (hp : StoredParams C Po Pi weight bias Wt β) : ∃ Pwr Pb Pbr, weightRoot C.Pw = some Pwr ∧
      biasPart C.Pw = some Pb ∧ biasRoot C.Pw = some Pbr ∧
      BcastLayer (paramLayer Pwr C.Pw) ∧ BcastLayer (paramLayer Pbr Pb) ∧
      ∃ wt b : Nat → List Nat → R, LocalConvs C Po Pi C.W.noPad wt b (generalLocal C Pwr Pb Pbr weight bias rgp) ∧
        ChanParams C Po Pi wt b Wt β ∧ ∀ v ∈ C.Pw.members, ∃ a,
          bcastForward (paramLayer Pwr C.Pw) (storedParam Pwr weight rgp) v = some a ∧ a.val = wt v := by
  obtain ⟨Pwr, ew, wfw, shw, row, memw, cow⟩ := h.weightRoot
  obtain ⟨Pb, eb, wfb, shb, rob, memb, cob⟩ := h.biasPart
  obtain ⟨Pbr, er, wfr, shr, ror, memr, cor⟩ := h.biasRoot
  have Lw := weight_layer h wfw shw row
  have Lb := bias_layer h wfr shr ror wfb shb rob
  refine ⟨Pwr, Pb, Pbr, ew, eb, er, Lw, Lb, ?_⟩
  have kw : ∀ v ∈ C.Pw.members, ∃ r, (r ∈ C.Pw.members ∧ (∀ i ∈ (C.Pw.coord r).drop 2, i = 0) ∧
      (C.Pw.coord r).getD 0 0 = (C.Pw.coord v).getD 0 0 ∧ (C.Pw.coord r).getD 1 0 = (C.Pw.coord v).getD 1 0) ∧
      bcastForward (paramLayer Pwr C.Pw) (storedParam Pwr weight rgp) v = some (weight r) := by
    intro v hv
    obtain ⟨r, hr, ha, e⟩ := param_forward Lw weight rgp hv
    obtain ⟨hr1, hr2⟩ := (memw r).1 hr
    refine ⟨r, ⟨hr1, hr2, ?_⟩, e⟩
    rw [shw, cow r hr] at ha
    obtain ⟨o, j, s, e1, ho, hj, hs⟩ := h.coordW hr1
    obtain ⟨o', j', s', e2, ho', hj', hs'⟩ := h.coordW hv
    rw [e1, e2] at ha ⊢
    have hl' := hs'.length_eq
    obtain ⟨a1, ha⟩ := agree_lead (by simp [hl']) ho ho' ha
    obtain ⟨a2, -⟩ := agree_lead (by simp [hl']) hj hj' ha
    exact ⟨a1, a2⟩
  have kb : ∀ v ∈ Pb.members, ∃ r, (r ∈ C.Pw.members ∧ (∀ i ∈ (C.Pw.coord r).drop 1, i = 0) ∧
      (C.Pw.coord r).getD 0 0 = (C.Pw.coord v).getD 0 0) ∧
      bcastForward (paramLayer Pbr Pb) (storedParam Pbr bias rgp) v = some (bias r) := by
    intro v hv
    obtain ⟨r, hr, ha, e⟩ := param_forward Lb bias rgp hv
    obtain ⟨hr1, hr2⟩ := (memr r).1 hr
    obtain ⟨hv1, hv2⟩ := (memb v).1 hv
    refine ⟨r, ⟨hr1, hr2, ?_⟩, e⟩
    rw [shr, cor r hr, cob v hv] at ha
    obtain ⟨o, j, s, e1, ho, hj, hs⟩ := h.coordW hr1
    obtain ⟨o', j', s', e2, ho', hj', hs'⟩ := h.coordW hv1
    rw [e1, e2] at ha ⊢
    exact (agree_lead (by simp [hs'.length_eq]) ho ho' ha).1
  choose! wr hwr ewr using kw
  choose! br hbr ebr using kb
  refine ⟨fun v => (weight (wr v)).val, fun v => (bias (br v)).val, fun v hv x => ?_,
    ⟨fun v hv k hk c hc κ hκ => ?_, fun v hv hj k hk => ?_⟩, fun v hv => ⟨_, ewr v hv, rfl⟩⟩
  · obtain ⟨e0, e1⟩ := h.localChannels hv
    rw [generalLocal, ewr v hv, Option.bind_some, e0, e1, hg]
    by_cases hB : v ∈ Pb.members ∧ C.useBias = true
    · have ha : C.addsBias v = true := by
        have := ((memb v).1 hB.1).2
        rw [ChanConv.addsBias, this, hB.2]
        rfl
      rw [if_pos hB, ebr v hB.1, Option.bind_some, ha]
    · have ha : C.addsBias v = false := by
        by_contra hh
        have hh : C.addsBias v = true := by simpa using hh
        simp only [ChanConv.addsBias, Bool.and_eq_true, beq_iff_eq] at hh
        exact hB ⟨(memb v).2 ⟨hv, hh.1⟩, hh.2⟩
      rw [if_neg hB, ha]
      simp [torchConvLayer]
  · obtain ⟨h1, h2, h3, h4⟩ := hwr v hv
    rw [← h3, ← h4]
    rw [← h3] at hk
    rw [← h4] at hc
    exact hp.weight (wr v) h1 h2 k hk c hc κ hκ
  · obtain ⟨h1, h2, h3⟩ := hbr v ((memb v).2 ⟨hv, hj⟩)
    rw [← h3]
    rw [← h3] at hk
    exact hp.bias (br v) h1 h2 k hk

theorem general_local (h : ChanValid C Po Pi Sp) (hg : C.groups = 1)
    (hp : StoredParams C Po Pi weight bias Wt β) : ∃ Pwr Pb Pbr, weightRoot C.Pw = some Pwr ∧
      biasPart C.Pw = some Pb ∧ biasRoot C.Pw = some Pbr ∧
      BcastLayer (paramLayer Pwr C.Pw) ∧ BcastLayer (paramLayer Pbr Pb) ∧
      ∃ wt b : Nat → List Nat → R, LocalConvs C Po Pi C.W.noPad wt b (generalLocal C Pwr Pb Pbr weight bias rgp) ∧
        ChanParams C Po Pi wt b Wt β := by
  obtain ⟨Pwr, Pb, Pbr, e1, e2, e3, l1, l2, wt, b, hop, hcp, -⟩ := general_received (rgp := rgp) h hg hp
  exact ⟨Pwr, Pb, Pbr, e1, e2, e3, l1, l2, wt, b, hop, hcp⟩

end

/-! ## Windows -/

section
variable {R : Type} [AddCommMonoid R] [Mul R] {C : ChanConv} {Po Pi : Nat} {Sp : List Nat} {L : Layout} {B : Nat}
  {N : List Nat} {localS : Nat → List Nat × TorchDtype × Bool} {inp : Nat → List Nat → R} {X : List Nat → R}
  {t : TorchDtype} {rg0 : Bool} {nd : Nat} {pk ps pp pd : List Nat} {γ : Type} {dt : NpKey} {junk : Nat → γ}
  {ops : Nat → List (MgrOp γ)} {eager : Bool} {k : Nat} {U : Nat → WinSetup} {S : Nat → HaloSetup}
  {g : GState (List Nat → R) (List Nat → R)} {rgx rg : Nat → Bool} {weight bias : Nat → Tensor R} {rgp : Bool}
  {Wt β : List Nat → R}

theorem general_windows (hW : winParams nd pk ps pp pd = some C.W) (h : ChanValid C Po Pi Sp)
    (hSp : Sp.length = nd) (hin : WinInput C.Px C.W L localS inp X t rg0) (hG : L.global = B :: C.Ci :: N)
    (hl : WinLimits C.Px C.W L) (G : GeneralRun C C.Px localS inp dt junk ops eager k U S g)
    (hfin : ∀ r, r < C.Px.members.length → (g.ws r).phase = haloPhases C.Px) :
    WindowsOf C C.W.noPad B N t X (generalInputs C.Px localS inp U g rgx).x := by
  have run := G.run hin px_union
  have hD : C.Px.shape.length = nd + 2 := by rw [h.shx]; simp [hSp]
  have hkn : C.W.k.length = nd := (winParams_length hW).1
  have lw : ∀ r ∈ C.Px.members, _ := fun r hr =>
    local_windows hW hD hin hl run (List.idxOf_lt_length_of_mem hr) (hfin _ (List.idxOf_lt_length_of_mem hr))
  have ex : ∀ r ∈ C.Px.members, (generalInputs C.Px localS inp U g rgx).x r =
      ⟨(localInput C.Px 0 localS inp U g (C.Px.members.idxOf r)).1, (localS r).2.1,
        (localInput C.Px 0 localS inp U g (C.Px.members.idxOf r)).2⟩ := fun r hr => by
    simp [generalInputs, hr]
  refine ⟨fun r hr => ?_, fun r hr => ?_, fun r hr => ?_, fun r hr j hj => ?_, fun r hr o κ ho hκ => ?_⟩
  · rw [ex r hr, hkn]
    exact (lw r hr).1
  · rw [ex r hr]
    show (localS r).2.1 = t
    rw [hin.loc r hr _ (Cart.index_eq hr)]
  · rw [ex r hr, ← hG]
    exact (lw r hr).2.1
  · rw [hkn] at hj
    rw [ex r hr, show C.W.noPad.p.getD j 0 = 0 from zeros_getD C.W.p j, Nat.mul_zero, Nat.add_zero]
    exact local_fit hW hD hin hl.reach run (List.idxOf_lt_length_of_mem hr) (hfin _ (List.idxOf_lt_length_of_mem hr)) hj
  · rw [ex r hr]
    have := (lw r hr).2.2 o κ
    rw [hG] at this
    exact this ho hκ

omit [AddCommMonoid R] [Mul R] in
/-- With one worker the local tensor is the global one. -/
theorem serial_blocks (h : ChanValid C Po Pi Sp) (hin : WinInput C.Px C.W L localS inp X t rg0)
    (hG : L.global = B :: C.Ci :: N) (h1 : C.Px.members.length = 1) :
    EvenBlocks C.Px (B :: C.Ci :: N) t X fun w => (⟨(localS w).1, (localS w).2.1, inp w⟩ : Tensor R) := by
  have hones : ∀ n ∈ C.Px.shape, n = 1 := by
    have hp := h.wfx.size
    rw [h1] at hp
    intro n hn
    exact Nat.dvd_one.1 (hp ▸ List.dvd_prod hn)
  have hgl : C.Px.shape.length = (B :: C.Ci :: N).length := by
    rw [← hG, Layout.length_global, hin.length]
  have key : ∀ idx, InBounds idx C.Px.shape → L.shapeAt idx = B :: C.Ci :: N ∧
      ∀ p : List Nat, p.length = (B :: C.Ci :: N).length → shiftBy (L.startAt idx) p = p := by
    intro idx hi
    have hlen : idx.length = L.length := by rw [hi.length_eq, hin.length]
    have hz : ∀ j, j < L.length → idx.getD j 0 = 0 ∧ (L.getD j []).length = 1 := by
      intro j hj
      have hjs : j < C.Px.shape.length := by rw [← hin.length]; exact hj
      have := inBounds_getD hi hjs
      have e1 : C.Px.shape.getD j 0 = 1 := by
        rw [List.getD_eq_getElem _ _ hjs]
        exact hones _ (List.getElem_mem _)
      have e2 : C.Px.shape.getD j 0 = (L.getD j []).length := by
        rw [← hin.layout]
        unfold Layout.pshape
        rw [List.getD_eq_getElem _ _ (by rw [List.length_map]; exact hj), List.getElem_map,
          List.getD_eq_getElem _ _ hj]
      omega
    have hst : ∀ j, j < L.length → (L.startAt idx).getD j 0 = 0 := by
      intro j hj
      rw [(L.shapeAt_getD idx hlen j hj).2.1, (hz j hj).1]
      simp
    constructor
    · rw [← hG]
      apply eq_of_getD
      · rw [Layout.length_shapeAt hlen, Layout.length_global]
      · intro j hj
        rw [Layout.length_shapeAt hlen] at hj
        rw [(L.shapeAt_getD idx hlen j hj).1, (hz j hj).1]
        unfold Layout.global
        rw [List.getD_eq_getElem (L.map _) _ (by rw [List.length_map]; exact hj), List.getElem_map]
        have := (hz j hj).2
        rw [List.getD_eq_getElem _ _ hj] at this ⊢
        obtain ⟨a, ea⟩ := List.length_eq_one_iff.1 this
        rw [ea]
        simp
    · intro p hp
      have hsl : (L.startAt idx).length = p.length := by
        rw [Layout.length_startAt hlen, hp, ← hgl, hin.length]
      apply eq_of_getD
      · rw [length_shiftBy hsl.symm, hsl]
      · intro j hj
        rw [length_shiftBy hsl.symm] at hj
        rw [getD_shiftBy hj (by omega), hst j (by rw [← Layout.length_startAt hlen]; exact hj), Nat.zero_add]
  refine ⟨fun w hw => ?_, fun w hw => ?_, fun w hw l hlb => ?_⟩
  · have hi : InBounds (C.Px.coord w) C.Px.shape := coords_inBounds h.wfx hw
    show (localS w).1 = _
    rw [hin.loc w hw _ (Cart.index_eq hw), (key _ hi).1, (ones_block hones hgl hi).1]
  · show (localS w).2.1 = t
    rw [hin.loc w hw _ (Cart.index_eq hw)]
  · have hi : InBounds (C.Px.coord w) C.Px.shape := coords_inBounds h.wfx hw
    rw [(ones_block hones hgl hi).1] at hlb
    have hll := hlb.length_eq
    rw [(ones_block hones hgl hi).2 l hll]
    show inp w l = X l
    rw [hin.data w hw _ (Cart.index_eq hw) l (by rw [(key _ hi).1]; exact hlb), (key _ hi).2 l hll]

/-- C44.  `P_x`, `P_w` and `P_y` have shapes `1 x P_ci x …`, `P_co x P_ci x …` and `1 x P_co x …`; the
workers of `P_x` hold the parts of a global tensor `X`, the storing workers of `P_w` the blocks of `Wt` and
`β`.  When all workers of `P_x` have finished the halo exchange, the workers of `P_y` get the blocks, cut
evenly over channels and features, of the sequential convolution of `X` with `Wt` and `β`, the bias counted
once; the other workers of the layer get tensors without entries. -/
theorem C44_forward (hW : winParams nd pk ps pp pd = some C.W) (h : ChanValid C Po Pi Sp) (hSp : Sp.length = nd)
    (hg : C.groups = 1) (hin : WinInput C.Px C.W L localS inp X t rg0) (hG : L.global = B :: C.Ci :: N)
    (hfit : ∀ j, j < nd →
      C.W.d.getD j 0 * (C.W.k.getD j 0 - 1) + 1 ≤ N.getD j 0 + 2 * C.W.p.getD j 0)
    (hl : C.Pw.members.length ≠ 1 → WinLimits C.Px C.W L)
    (G : C.Pw.members.length ≠ 1 → GeneralRun C C.Px localS inp dt junk ops eager k U S g)
    (hfin : C.Pw.members.length ≠ 1 → ∀ r, r < C.Px.members.length → (g.ws r).phase = haloPhases C.Px)
    (hp : StoredParams C Po Pi weight bias Wt β) (hs : ∀ u, C.Active u → (localS u).1 ≠ [])
    (place : C.Pw.members.length = 1 → C.Px.members = C.Pw.members ∧ C.Py.members = C.Pw.members) :
    (∃ out : Nat → Tensor R,
      (∀ u ∈ C.Py.members, generalForward C weight bias rgp localS inp U g rgx rg u = some (out u)) ∧
      EvenBlocks C.Py (torchConvShape C.W C.Co (B :: C.Ci :: N)) t
        (torchConv C.W 1 C.Ci C.Co Wt (fun c => if C.useBias then β [c] else 0) (B :: C.Ci :: N) X) out) ∧
    (∀ w, C.Active w → w ∉ C.Py.members →
      ∃ z, generalForward C weight bias rgp localS inp U g rgx rg w = some z ∧ z.shape.prod = 0) ∧
    (∀ w, ¬ C.Active w → generalForward C weight bias rgp localS inp U g rgx rg w =
      some ⟨(localS w).1, (localS w).2.1, inp w⟩) := by
  have hact : ∀ w, C.Active w → ¬ (w ∉ C.Px.members ∧ w ∉ C.Py.members ∧ w ∉ C.Pw.members) := by
    rintro w (hw | hw | hw) ⟨a, b, c⟩
    · exact a hw
    · exact c hw
    · exact b hw
  have hkn : C.W.k.length = nd := (winParams_length hW).1
  have hgl : C.Px.shape.length = (B :: C.Ci :: N).length := by rw [← hG, Layout.length_global, hin.length]
  have hN : N.length = nd := by
    rw [h.shx] at hgl
    simp at hgl
    omega
  have hcast := h.cast false (by simp)
  have key : (∀ u ∈ C.Py.members, ∃ y, generalForward C weight bias rgp localS inp U g rgx rg u = some y ∧
      y.shape = (Layout.balanced C.Py.shape (torchConvShape C.W C.Co (B :: C.Ci :: N))).shapeAt (C.Py.coord u) ∧
      y.dtype = t ∧
      ∀ l, InBounds l ((Layout.balanced C.Py.shape (torchConvShape C.W C.Co (B :: C.Ci :: N))).shapeAt
          (C.Py.coord u)) →
        y.val l = torchConv C.W 1 C.Ci C.Co Wt (fun c => if C.useBias then β [c] else 0) (B :: C.Ci :: N) X
          (shiftBy ((Layout.balanced C.Py.shape (torchConvShape C.W C.Co (B :: C.Ci :: N))).startAt
            (C.Py.coord u)) l)) ∧
      ∀ w, C.Active w → w ∉ C.Py.members →
        ∃ z, generalForward C weight bias rgp localS inp U g rgx rg w = some z ∧ z.shape.prod = 0 := by
    by_cases h1w : C.Pw.members.length = 1
    · obtain ⟨px, py⟩ := place h1w
      have hpx : C.Px.members.length = 1 := by rw [px]; exact h1w
      obtain ⟨w, hw⟩ := List.length_eq_one_iff.1 h1w
      rw [hw] at px py
      have hones : ∀ n ∈ C.Pw.shape, n = 1 := fun n hn =>
        Nat.dvd_one.1 (show n ∣ 1 by rw [← h1w, h.wfw.size]; exact List.dvd_prod hn)
      have h1s : ∀ n ∈ Sp, n = 1 := fun n hn => hones n (by rw [h.shw]; simp [hn])
      have hx := serial_blocks h hin hG hpx
      have hT := channel_windows
        (I := ⟨fun w => (⟨(localS w).1, (localS w).2.1, inp w⟩ : Tensor R), rgx⟩) h h1s
        (hSp.trans hkn.symm) (hN.trans hkn.symm) (by rw [hkn]; exact hfit) hx
      have hz : ∀ v ∈ C.Pw.members, ∀ i ∈ C.Pw.coord v, i = 0 := by
        intro v hv i hi
        have hb : InBounds (C.Pw.coord v) C.Pw.shape := coords_inBounds h.wfw hv
        obtain ⟨j, hj, rfl⟩ := List.mem_iff_getElem.1 hi
        have hj' : j < C.Pw.shape.length := by rw [← hb.length_eq]; exact hj
        have := inBounds_getD hb hj'
        rw [List.getD_eq_getElem _ _ hj, List.getD_eq_getElem _ _ hj', hones _ (List.getElem_mem _)] at this
        omega
      have hp' : ChanParams C Po Pi (fun v => (weight v).val) (fun v => (bias v).val) Wt β :=
        ⟨fun v hv => hp.weight v hv fun i hi => hz v hv i (List.mem_of_mem_drop hi),
          fun v hv _ => hp.bias v hv fun i hi => hz v hv i (List.mem_of_mem_drop hi)⟩
      refine ⟨fun u hu => ?_, fun v hv hn => ?_⟩
      · have huw : u = w := by rw [py] at hu; simpa using hu
        subst huw
        obtain ⟨y, e, hy⟩ := channel_serial h hw px py hT hp'
        refine ⟨y, ?_, hy⟩
        rw [generalForward, if_neg (hact u (Or.inr (Or.inr hu))), hcast]
        simp only
        rw [if_pos h1w, if_pos (by rw [hw]; simp), hg]
        exact e
      · exfalso
        apply hn
        rw [py]
        rcases hv with hv | hv | hv
        · rwa [px] at hv
        · rwa [hw] at hv
        · rwa [py] at hv
    · obtain ⟨Pwr, Pb, Pbr, e1, e2, e3, -, -, wt, b, hop, hcp⟩ := general_local (rgp := rgp) h hg hp
      have hT := general_windows (rgx := rgx) hW h hSp hin hG (hl h1w) (G h1w) (hfin h1w)
      have hs' : ∀ u, u ∈ C.Px.members ∨ u ∈ C.Pw.members ∨ u ∈ C.Py.members →
          ((generalInputs C.Px localS inp U g rgx).x u).shape ≠ [] := by
        intro u hu
        by_cases hx : u ∈ C.Px.members
        · intro h0
          have := hT.rank u hx
          rw [h0] at this
          simp at this
        · simp only [generalInputs, if_neg hx]
          exact hs u hu
      obtain ⟨f1, f2⟩ := chan_forward (rg := rg) h (W' := C.W.noPad) ⟨rfl, rfl, rfl⟩ hT hop hcp hs'
      have e : ∀ w, C.Active w → generalForward C weight bias rgp localS inp U g rgx rg w =
          stackForward (chanBroadcast C.Px C.Pw) (chanReduce C.Pw C.yCast) (generalInputs C.Px localS inp U g rgx)
            (generalLocal C Pwr Pb Pbr weight bias rgp) rg w := by
        intro w hw
        rw [generalForward, if_neg (hact w hw), hcast, e1, e2, e3]
        simp only
        rw [if_neg h1w]
      refine ⟨fun u hu => ?_, fun w hw hn => ?_⟩
      · rw [e u (Or.inr (Or.inr hu))]
        exact f1 u hu
      · rw [e w hw]
        exact f2 w (hw.elim Or.inl fun hh => hh.elim Or.inr fun h => absurd h hn) hn
  refine ⟨?_, key.2, fun w hw => ?_⟩
  · have : Nonempty (Tensor R) := ⟨weight 0⟩
    have k1 := key.1
    choose! out hout using k1
    exact ⟨out, fun u hu => (hout u hu).1, fun u hu => (hout u hu).2.1, fun u hu => (hout u hu).2.2.1,
      fun u hu => (hout u hu).2.2.2⟩
  · rw [generalForward, if_pos]
    exact ⟨fun hh => hw (Or.inl hh), fun hh => hw (Or.inr (Or.inr hh)), fun hh => hw (Or.inr (Or.inl hh))⟩

/-- C44: the partitions are accepted, the partitions storing the parameters can be created, and none of the
four collectives after the halo exchange can deadlock. -/
theorem C44_terminates (hW : winParams nd pk ps pp pd = some C.W) (h : ChanValid C Po Pi Sp)
    (hSp : Sp.length = nd) (hg : C.groups = 1) (hin : WinInput C.Px C.W L localS inp X t rg0)
    (hG : L.global = B :: C.Ci :: N) (hl : WinLimits C.Px C.W L)
    (G : GeneralRun C C.Px localS inp dt junk ops eager k U S g)
    (hfin : ∀ r, r < C.Px.members.length → (g.ws r).phase = haloPhases C.Px)
    (hp : StoredParams C Po Pi weight bias Wt β) (hs : ∀ u, C.Active u → (localS u).1 ≠ []) :
    castPartitions false C.Px C.Py C.Pw = some (C.Px, C.yCast) ∧
    ∃ Pwr Pb Pbr, weightRoot C.Pw = some Pwr ∧ biasPart C.Pw = some Pb ∧ biasRoot C.Pw = some Pbr ∧
    SafeRun (groupUnion Pwr.members C.Pw.members) (bcastActs (paramLayer Pwr C.Pw) (storedParam Pwr weight rgp)) ∧
    SafeRun (groupUnion Pbr.members Pb.members) (bcastActs (paramLayer Pbr Pb) (storedParam Pbr bias rgp)) ∧
    SafeRun (groupUnion C.Px.members C.Pw.members)
      (bcastActs (chanBroadcast C.Px C.Pw) (generalInputs C.Px localS inp U g rgx)) ∧
    SafeRun (groupUnion C.Pw.members C.Py.members) (reduceActs (chanReduce C.Pw C.yCast)
      (midInputs (chanBroadcast C.Px C.Pw) (generalInputs C.Px localS inp U g rgx)
        (generalLocal C Pwr Pb Pbr weight bias rgp) rg)) := by
  obtain ⟨Pwr, Pb, Pbr, e1, e2, e3, l1, l2, wt, b, hop, -⟩ := general_local (rgp := rgp) h hg hp
  have hT := general_windows (rgx := rgx) hW h hSp hin hG hl G hfin
  have st := chan_stack (I := generalInputs C.Px localS inp U g rgx) h (W' := C.W.noPad) ⟨rfl, rfl, rfl⟩ hT hop
    (fun u hu => by
      by_cases hx : u ∈ C.Px.members
      · intro h0
        have := hT.rank u hx
        rw [h0] at this
        simp at this
      · simp only [generalInputs, if_neg hx]
        exact hs u hu)
  exact ⟨h.cast false (by simp), Pwr, Pb, Pbr, e1, e2, e3,
    (C22_terminates _ l1 (storedParam Pwr weight rgp) weight (fun hb => by simp [paramLayer] at hb)
      fun hb => by simp [paramLayer] at hb).1,
    (C22_terminates _ l2 (storedParam Pbr bias rgp) bias (fun hb => by simp [paramLayer] at hb)
      fun hb => by simp [paramLayer] at hb).1,
    (st.terminates (rg := rg)).1, (st.terminates (rg := rg)).2⟩

/-- C44: setup raises no exception on any worker of `P_x`, and every run of the halo exchange can be continued
until all of them have finished. -/
theorem C44_exchange (hin : WinInput C.Px C.W L localS inp X t rg0) (dt : NpKey) (junk : Nat → γ)
    (ops : Nat → List (MgrOp γ)) (eager : Bool) :
    (∃ U S, GeneralRun C C.Px localS inp dt junk ops eager 0 U S (GState.init fun r =>
      ((U r).padInput 0 (localS (C.Px.members.getD r 0)).1 (inp (C.Px.members.getD r 0))).2)) ∧
    ∀ k U S g, GeneralRun C C.Px localS inp dt junk ops eager k U S g →
      ∃ k' g', GeneralRun C C.Px localS inp dt junk ops eager k' U S g' ∧ k ≤ k' ∧
        ∀ r, r < C.Px.members.length → (g'.ws r).phase = haloPhases C.Px := by
  have back : ∀ {k U S g}, WinRun C.Px C.W 0 localS inp dt junk ops eager k U S g →
      GeneralRun C C.Px localS inp dt junk ops eager k U S g := fun R =>
    ⟨fun r hr => (generalSetup_eq hin px_union (member_spec hin.wf hr).1).trans (R.setup r hr), R.halo, R.exec⟩
  constructor
  · obtain ⟨U, S, R⟩ := C39_starts hin 0 dt junk ops eager
    exact ⟨U, S, back R⟩
  · intro k U S g G
    obtain ⟨k', g', R, hk, hf⟩ := C39_completes hin (G.run hin px_union)
    exact ⟨k', g', back R, hk, hf⟩

end

end Verif
