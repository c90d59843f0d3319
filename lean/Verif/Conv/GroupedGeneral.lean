import Verif.Conv.Grouped
import Verif.Conv.Examples

/-!
# Groups of the convolution distributed over channels and features (C57)

As `Verif.Conv.Grouped`, for `conv_general.py:290-303`: the local layers get `groups` and the local channel counts.  With
channels that are not partitioned this is the sequential grouped convolution, for every partition of the features.
-/

namespace Verif
open Exchange

section
variable {R : Type} [CommSemiring R] {C : ChanConv} {Po Pi : Nat} {Sp : List Nat} {weight bias : Nat → Tensor R} {rgp : Bool}
  {Wt β : List Nat → R}

/-- The layer without groups. -/
def ChanConv.plain (C : ChanConv) : ChanConv := { C with groups := 1 }

/-- The weights stored for the layer without groups that computes the same. -/
def plainWeight (C : ChanConv) (Po Pi : Nat) (weight : Nat → Tensor R) (v : Nat) : Tensor R :=
  ⟨(weight v).shape, (weight v).dtype, ungroup C.groups (subsize Pi ((C.Pw.coord v).getD 1 0) C.Ci)
    (subsize Po ((C.Pw.coord v).getD 0 0) C.Co) (weight v).val⟩

theorem ChanValid.plain (h : ChanValid C Po Pi Sp) : ChanValid C.plain Po Pi Sp :=
  ⟨h.wfx, h.wfy, h.wfw, h.shx, h.shy, h.shw, h.root, h.channels⟩

omit [CommSemiring R] in
theorem stackForward_congr [AddCommMonoid R] {Lx Ly : PairLayer} {I : Inputs R} {op op' : Nat → Tensor R → Option (Tensor R)}
    {rg : Nat → Bool} (h : ∀ v ∈ Lx.Py.members, op v = op' v) (w : Nat) :
    stackForward Lx Ly I op rg w = stackForward Lx Ly I op' rg w := by
  have e : midTensor Lx I op = midTensor Lx I op' := by
    funext v
    unfold midTensor
    by_cases hv : v ∈ Lx.Py.members
    · rw [if_pos hv, if_pos hv, h v hv]
    · rw [if_neg hv, if_neg hv]
  unfold stackForward midInputs
  rw [e]

/-- The broadcast hands every worker the weights of a worker with the same channels. -/
theorem plain_local (h : ChanValid C Po Pi Sp) (hg : GroupsFit C Po Pi) {Pwr Pb Pbr : Cart}
    (ew : weightRoot C.Pw = some Pwr) {v : Nat} (hv : v ∈ C.Pw.members) :
    generalLocal C Pwr Pb Pbr weight bias rgp v =
      generalLocal C.plain Pwr Pb Pbr (plainWeight C Po Pi weight) bias rgp v := by
  obtain ⟨Pwr', ew', wfw, shw, row, memw, cow⟩ := h.weightRoot
  obtain rfl : Pwr = Pwr' := Option.some.inj (ew.symm.trans ew')
  have Lw := weight_layer h wfw shw row
  have hr : (paramLayer Pwr C.Pw).broot v ∈ Pwr.members := Lw.root_mem hv
  have hf : Agree Pwr.shape (Pwr.coord ((paramLayer Pwr C.Pw).broot v)) (C.Pw.coord v) := (Lw.rel hr hv).2 rfl
  have hb : ∀ a : Nat → Tensor R, bcastForward (paramLayer Pwr C.Pw) (storedParam Pwr a rgp) v =
      some (a ((paramLayer Pwr C.Pw).broot v)) := by
    intro a
    have hB : HasBatch (paramLayer Pwr C.Pw) (storedParam Pwr a rgp).x := fun hb => by simp [paramLayer] at hb
    rw [bcast_forward_root Lw.valid Lw.same hB.hb hv]
    simp [storedParam, hr]
  obtain ⟨hr1, hr2⟩ := (memw _).1 hr
  generalize (paramLayer Pwr C.Pw).broot v = r at hr hf hb hr1 hr2
  rw [shw, cow r hr] at hf
  have hc : (C.Pw.coord r).getD 0 0 = (C.Pw.coord v).getD 0 0 ∧ (C.Pw.coord r).getD 1 0 = (C.Pw.coord v).getD 1 0 := by
    obtain ⟨o, j, s, e1, ho, hj, hs⟩ := h.coordW hr1
    obtain ⟨o', j', s', e2, ho', hj', hs'⟩ := h.coordW hv
    rw [e1, e2] at hf ⊢
    have hl' := hs'.length_eq
    obtain ⟨a1, ha⟩ := agree_lead (by simp [hl']) ho ho' hf
    obtain ⟨a2, -⟩ := agree_lead (by simp [hl']) hj hj' ha
    exact ⟨a1, a2⟩
  obtain ⟨e0, e1⟩ := h.localChannels hv
  have e0' : (C.plain.localChannels v).getD 0 0 = subsize Po ((C.Pw.coord v).getD 0 0) C.Co := e0
  have e1' : (C.plain.localChannels v).getD 1 0 = subsize Pi ((C.Pw.coord v).getD 1 0) C.Ci := e1
  funext x
  obtain ⟨g1, g2⟩ := hg.2 v hv
  rw [generalLocal, generalLocal, hb, show bcastForward (paramLayer Pwr C.plain.Pw)
    (storedParam Pwr (plainWeight C Po Pi weight) rgp) v = _ from hb _, Option.bind_some, Option.bind_some, e0, e1, e0', e1']
  simp only [plainWeight, hc]
  show (if v ∈ Pb.members ∧ C.useBias = true then _ else _) = if v ∈ Pb.members ∧ C.useBias = true then _ else _
  split
  · congr 1
    funext b
    exact torchConvLayer_ungroup hg.1 g1 g2 _ _ _ _
  · exact torchConvLayer_ungroup hg.1 g1 g2 _ _ _ _

variable {localS : Nat → List Nat × TorchDtype × Bool} {inp : Nat → List Nat → R} {U : Nat → WinSetup}
  {g : GState (List Nat → R) (List Nat → R)} {rgx rg : Nat → Bool}

/-- The layer with groups is a layer without. -/
theorem plain_forward (h : ChanValid C Po Pi Sp) (hg : GroupsFit C Po Pi) (w : Nat) :
    generalForward C weight bias rgp localS inp U g rgx rg w =
      generalForward C.plain (plainWeight C Po Pi weight) bias rgp localS inp U g rgx rg w := by
  unfold generalForward
  show (if w ∉ C.Px.members ∧ w ∉ C.Py.members ∧ w ∉ C.Pw.members then _ else _) =
    if w ∉ C.Px.members ∧ w ∉ C.Py.members ∧ w ∉ C.Pw.members then _ else _
  split
  · rfl
  show (match castPartitions false C.Px C.Py C.Pw with | none => none | some (x, y) => _) =
    (match castPartitions false C.Px C.Py C.Pw with | none => none | some (x, y) => _)
  rw [h.cast false (by simp)]
  simp only
  by_cases h1 : C.Pw.members.length = 1
  · rw [if_pos h1, if_pos (show C.plain.Pw.members.length = 1 from h1)]
    by_cases hw : w ∈ C.Pw.members
    · rw [if_pos hw, if_pos (show w ∈ C.plain.Pw.members from hw)]
      have hones : ∀ n ∈ C.Pw.shape, n = 1 := fun n hn =>
        Nat.dvd_one.1 (show n ∣ 1 by rw [← h1, h.wfw.size]; exact List.dvd_prod hn)
      obtain ⟨o, j, s, e, ho, hj, -⟩ := h.coordW hw
      have p1 : Po = 1 := hones Po (by rw [h.shw]; simp)
      have p2 : Pi = 1 := hones Pi (by rw [h.shw]; simp)
      have a1 : subsize Pi ((C.Pw.coord w).getD 1 0) C.Ci = C.Ci := by
        rw [e, p2, show (o :: j :: s).getD 1 0 = 0 by show j = 0; omega, subsize_one]
      have a2 : subsize Po ((C.Pw.coord w).getD 0 0) C.Co = C.Co := by
        rw [e, p1, show (o :: j :: s).getD 0 0 = 0 by show o = 0; omega, subsize_one]
      obtain ⟨g1, g2⟩ := hg.2 w hw
      rw [a1] at g1
      rw [a2] at g2
      simp only [plainWeight, a1, a2]
      exact torchConvLayer_ungroup hg.1 g1 g2 _ _ _ _
    · rw [if_neg hw, if_neg (show w ∉ C.plain.Pw.members from hw)]
  · rw [if_neg h1, if_neg (show C.plain.Pw.members.length ≠ 1 from h1)]
    cases ew : weightRoot C.Pw with
    | none => rw [show weightRoot C.plain.Pw = none from ew]
    | some Pwr =>
      rw [show weightRoot C.plain.Pw = some Pwr from ew]
      show (match some Pwr, biasPart C.Pw, biasRoot C.Pw with | some Pwr, some Pb, some Pbr => _ | _, _, _ => none) =
        (match some Pwr, biasPart C.Pw, biasRoot C.Pw with | some Pwr, some Pb, some Pbr => _ | _, _, _ => none)
      cases biasPart C.Pw with
      | none => rfl
      | some Pb =>
        cases biasRoot C.Pw with
        | none => rfl
        | some Pbr => exact stackForward_congr (fun v hv => plain_local h hg ew hv) w

/-- The global weight `Wt` of an ungrouped convolution: the weight stored for an output and an input channel that have
the same group on their worker, zero otherwise. -/
structure GroupedStored (C : ChanConv) (Po Pi : Nat) (weight bias : Nat → Tensor R) (Wt β : List Nat → R) : Prop where
  weight : ∀ v ∈ C.Pw.members, (∀ i ∈ (C.Pw.coord v).drop 2, i = 0) →
    ∀ k < subsize Po ((C.Pw.coord v).getD 0 0) C.Co, ∀ c < subsize Pi ((C.Pw.coord v).getD 1 0) C.Ci,
      ∀ κ, InBounds κ C.W.k →
        Wt ((startIdx Po ((C.Pw.coord v).getD 0 0) C.Co + k) :: (startIdx Pi ((C.Pw.coord v).getD 1 0) C.Ci + c) :: κ) =
          if k / (subsize Po ((C.Pw.coord v).getD 0 0) C.Co / C.groups) =
              c / (subsize Pi ((C.Pw.coord v).getD 1 0) C.Ci / C.groups) then
            (weight v).val (k :: (c % (subsize Pi ((C.Pw.coord v).getD 1 0) C.Ci / C.groups)) :: κ) else 0
  bias : ∀ v ∈ C.Pw.members, (∀ i ∈ (C.Pw.coord v).drop 1, i = 0) →
    ∀ k < subsize Po ((C.Pw.coord v).getD 0 0) C.Co,
      (bias v).val [k] = β [startIdx Po ((C.Pw.coord v).getD 0 0) C.Co + k]

theorem GroupedStored.plain (h : GroupedStored C Po Pi weight bias Wt β) :
    StoredParams C.plain Po Pi (plainWeight C Po Pi weight) bias Wt β :=
  ⟨fun v hv h0 k hk c hc κ hκ => (h.weight v hv h0 k hk c hc κ hκ).symm, h.bias⟩

variable {nd B : Nat} {pk ps pp pd N : List Nat} {L : Layout} {X : List Nat → R} {t : TorchDtype} {rg0 : Bool}
  {γ : Type} {dt : NpKey} {junk : Nat → γ} {ops : Nat → List (MgrOp γ)} {eager : Bool} {k : Nat} {S : Nat → HaloSetup}

/-- C57, what the layer over channels and features computes: if `groups` divides the channels of every worker, the workers
of `P_y` get the blocks of the ungrouped convolution with the weights `Wt` (`GroupedStored`). -/
theorem C57_general (hW : winParams nd pk ps pp pd = some C.W) (h : ChanValid C Po Pi Sp) (hSp : Sp.length = nd)
    (hg : GroupsFit C Po Pi) (hin : WinInput C.Px C.W L localS inp X t rg0) (hG : L.global = B :: C.Ci :: N)
    (hfit : ∀ j, j < nd →
      C.W.d.getD j 0 * (C.W.k.getD j 0 - 1) + 1 ≤ N.getD j 0 + 2 * C.W.p.getD j 0)
    (hl : C.Pw.members.length ≠ 1 → WinLimits C.Px C.W L)
    (G : C.Pw.members.length ≠ 1 → GeneralRun C C.Px localS inp dt junk ops eager k U S g)
    (hfin : C.Pw.members.length ≠ 1 → ∀ r, r < C.Px.members.length → (g.ws r).phase = haloPhases C.Px)
    (hp : GroupedStored C Po Pi weight bias Wt β) (hs : ∀ u, C.Active u → (localS u).1 ≠ [])
    (place : C.Pw.members.length = 1 → C.Px.members = C.Pw.members ∧ C.Py.members = C.Pw.members) :
    ∃ out : Nat → Tensor R,
      (∀ u ∈ C.Py.members, generalForward C weight bias rgp localS inp U g rgx rg u = some (out u)) ∧
      EvenBlocks C.Py (torchConvShape C.W C.Co (B :: C.Ci :: N)) t
        (torchConv C.W 1 C.Ci C.Co Wt (fun c => if C.useBias then β [c] else 0) (B :: C.Ci :: N) X) out := by
  obtain ⟨⟨out, o1, o2⟩, -⟩ := C44_forward (C := C.plain) (rgp := rgp) (rgx := rgx) (rg := rg) hW h.plain hSp rfl hin hG hfit hl
    (fun hm => ⟨(G hm).setup, (G hm).halo, (G hm).exec⟩) hfin hp.plain hs place
  exact ⟨out, fun u hu => (plain_forward h hg u).trans (o1 u hu), o2⟩

/-- C57, partial: with channels that are not partitioned the layer over channels and features computes the sequential
grouped convolution, for every partition of the features and every number of groups.

Full statement: the same for every channel partition; it is false, `C57_general_wrong`. -/
theorem C57_features_partial (hW : winParams nd pk ps pp pd = some C.W) (h : ChanValid C 1 1 Sp) (hSp : Sp.length = nd)
    (hg : 0 < C.groups ∧ C.groups ∣ C.Ci ∧ C.groups ∣ C.Co) (hin : WinInput C.Px C.W L localS inp X t rg0)
    (hG : L.global = B :: C.Ci :: N)
    (hfit : ∀ j, j < nd →
      C.W.d.getD j 0 * (C.W.k.getD j 0 - 1) + 1 ≤ N.getD j 0 + 2 * C.W.p.getD j 0)
    (hl : C.Pw.members.length ≠ 1 → WinLimits C.Px C.W L)
    (G : C.Pw.members.length ≠ 1 → GeneralRun C C.Px localS inp dt junk ops eager k U S g)
    (hfin : C.Pw.members.length ≠ 1 → ∀ r, r < C.Px.members.length → (g.ws r).phase = haloPhases C.Px)
    {r : Nat} (hr : r ∈ C.Pw.members) (h0 : ∀ i ∈ C.Pw.coord r, i = 0) (hs : ∀ u, C.Active u → (localS u).1 ≠ [])
    (place : C.Pw.members.length = 1 → C.Px.members = C.Pw.members ∧ C.Py.members = C.Pw.members) :
    ∃ out : Nat → Tensor R,
      (∀ u ∈ C.Py.members, generalForward C weight bias rgp localS inp U g rgx rg u = some (out u)) ∧
      EvenBlocks C.Py (torchConvShape C.W C.Co (B :: C.Ci :: N)) t
        (torchConv C.W C.groups C.Ci C.Co (weight r).val (fun c => if C.useBias then (bias r).val [c] else 0)
          (B :: C.Ci :: N) X) out := by
  have hz : ∀ v ∈ C.Pw.members, (C.Pw.coord v).getD 0 0 = 0 ∧ (C.Pw.coord v).getD 1 0 = 0 := by
    intro v hv
    obtain ⟨o, j, s, e, ho, hj, -⟩ := h.coordW hv
    rw [e]
    exact ⟨by show o = 0; omega, by show j = 0; omega⟩
  have hone : ∀ v ∈ C.Pw.members, (∀ i ∈ (C.Pw.coord v).drop 2, i = 0) → v = r := by
    intro v hv hd
    refine coords_inj h.wfw hv hr ?_
    show C.Pw.coord v = C.Pw.coord r
    have hlen : (C.Pw.coord v).length = (C.Pw.coord r).length := by
      have a1 : InBounds (C.Pw.coord v) C.Pw.shape := coords_inBounds h.wfw hv
      have a2 : InBounds (C.Pw.coord r) C.Pw.shape := coords_inBounds h.wfw hr
      rw [a1.length_eq, a2.length_eq]
    have hv0 : ∀ i ∈ C.Pw.coord v, i = 0 := by
      obtain ⟨o, j, s, e, ho, hj, -⟩ := h.coordW hv
      rw [e] at hd ⊢
      intro i hi
      rcases List.mem_cons.1 hi with rfl | hi
      · omega
      · rcases List.mem_cons.1 hi with rfl | hi
        · omega
        · exact hd i hi
    rw [List.eq_replicate_of_mem hv0, List.eq_replicate_of_mem h0, hlen]
  have hfitg : GroupsFit C 1 1 := ⟨hg.1, fun v hv => by
    rw [(hz v hv).1, (hz v hv).2, subsize_one, subsize_one]
    exact hg.2⟩
  have hp : GroupedStored C 1 1 weight bias (ungroup C.groups C.Ci C.Co (weight r).val) (bias r).val := by
    refine ⟨fun v hv hd k hk c hc κ _ => ?_, fun v hv hd k hk => ?_⟩
    · obtain rfl := hone v hv hd
      rw [(hz v hv).1, (hz v hv).2, subsize_one, subsize_one, startIdx_zero, startIdx_zero, Nat.zero_add, Nat.zero_add]
      rfl
    · obtain rfl := hone v hv fun i hi => hd i (by
        rw [show 2 = 1 + 1 from rfl, ← List.drop_drop] at hi
        exact List.mem_of_mem_drop hi)
      rw [(hz v hv).1, startIdx_zero, Nat.zero_add]
  obtain ⟨out, o1, o2⟩ := C57_general (rgp := rgp) (rgx := rgx) (rg := rg) hW h hSp hfitg hin hG hfit hl G hfin hp hs place
  rw [← torchConv_ungroup hg.1 hg.2.1 hg.2.2 h.channels.1 h.channels.2 _ _ rfl] at o2
  exact ⟨out, o1, o2⟩

/-- C57: if `groups` does not divide the channels of some worker, the call raises an exception. -/
theorem C57_general_raises (h : ChanValid C Po Pi Sp) (hm : C.Pw.members.length ≠ 1)
    (hg : ¬ GroupsFit C Po Pi) {w : Nat} (hw : C.Active w) :
    generalForward C weight bias rgp localS inp U g rgx rg w = none := by
  obtain ⟨v, hv, hn⟩ : ∃ v ∈ C.Pw.members, ¬ (0 < C.groups ∧ C.groups ∣ subsize Pi ((C.Pw.coord v).getD 1 0) C.Ci ∧
      C.groups ∣ subsize Po ((C.Pw.coord v).getD 0 0) C.Co) := by
    by_contra hc
    obtain ⟨v, hv⟩ : ∃ v, v ∈ C.Pw.members := by
      obtain ⟨p1, p2, p3⟩ := h.pos
      obtain ⟨v, hv, -⟩ := h.wfw.exists_coord (i := 0 :: 0 :: List.replicate Sp.length 0) (by
        rw [h.shw]
        refine ⟨p1, p2, inBounds_iff.2 ⟨by simp, fun j hj => ?_⟩⟩
        rw [List.getD_eq_getElem _ _ (by simpa using hj), List.getD_eq_getElem _ _ hj, List.getElem_replicate]
        exact p3 _ (List.getElem_mem hj))
      exact ⟨v, hv⟩
    have hc : ∀ v ∈ C.Pw.members, 0 < C.groups ∧ C.groups ∣ subsize Pi ((C.Pw.coord v).getD 1 0) C.Ci ∧
        C.groups ∣ subsize Po ((C.Pw.coord v).getD 0 0) C.Co :=
      fun v hv => Classical.byContradiction fun hn => hc ⟨v, hv, hn⟩
    exact hg ⟨(hc v hv).1, fun v hv => (hc v hv).2⟩
  have hraise : ∀ (Pwr Pb Pbr : Cart) (x : Tensor R), generalLocal C Pwr Pb Pbr weight bias rgp v x = none := by
    intro Pwr Pb Pbr x
    obtain ⟨e0, e1⟩ := h.localChannels hv
    have key : ∀ (hb : Bool) (wt b : List Nat → R), torchConvLayer C.W.noPad C.groups ((C.localChannels v).getD 1 0)
        ((C.localChannels v).getD 0 0) hb wt b x = none := by
      intro hb wt b
      rw [e0, e1]
      exact if_neg fun hh => hn ⟨hh.2.2.1, hh.2.2.2.1, hh.2.2.2.2.1⟩
    unfold generalLocal
    simp only [key]
    simp
  rw [generalForward, if_neg (fun hh => hw.elim hh.1 fun h' => h'.elim hh.2.2 hh.2.1), h.cast false (by simp)]
  simp only
  rw [if_neg hm]
  split
  · rename_i Pwr Pb Pbr _ _ _
    rw [stackForward, if_neg (fun hh => hw.elim hh.1 fun h' => h'.elim hh.2.2 hh.2.1), if_neg]
    rw [List.all_eq_true]
    intro hall
    have := hall v (mem_groupUnion.2 (.inl (mem_groupUnion.2 (.inr hv))))
    rw [midTensor, if_pos (show v ∈ (chanBroadcast C.Px C.Pw).Py.members from hv)] at this
    cases hb : bcastForward (chanBroadcast C.Px C.Pw) (generalInputs C.Px localS inp U g rgx) v with
    | none => rw [hb] at this; cases this
    | some x => rw [hb, Option.bind_some, hraise] at this; cases this
  · rfl

/-- C57 is false of every partition of the channels, also with partitioned features: there are stored weights for which
no sequential convolution with these groups has the outputs of the layer. -/
theorem C57_general_wrong [Nontrivial R] (hW : winParams nd pk ps pp pd = some C.W) (h : ChanValid C Po Pi Sp)
    (hSp : Sp.length = nd) (hg : GroupsFit C Po Pi) (h2 : 2 ≤ C.groups) (hm : Po * Pi ≠ 1)
    (hfit : ∀ j, j < nd →
      C.W.d.getD j 0 * (C.W.k.getD j 0 - 1) + 1 ≤ N.getD j 0 + 2 * C.W.p.getD j 0)
    (hB : 0 < B) {o κ : List Nat} (ho : InBounds o (torchOut C.W N)) (hκ : InBounds κ C.W.k)
    (hr : InBoundsI (winPos C.W.s C.W.d C.W.p o κ) N) (wd : TorchDtype) :
    ∃ weight bias : Nat → Tensor R, ∀ (Wt' : List Nat → R) (β' : Nat → R), ∃ X : List Nat → R,
      ∀ (L : Layout) (localS : Nat → List Nat × TorchDtype × Bool) (inp : Nat → List Nat → R) (U : Nat → WinSetup)
        (S : Nat → HaloSetup) (g : GState (List Nat → R) (List Nat → R)),
      WinInput C.Px C.W L localS inp X t rg0 → L.global = B :: C.Ci :: N → WinLimits C.Px C.W L →
      GeneralRun C C.Px localS inp dt junk ops eager k U S g →
      (∀ r, r < C.Px.members.length → (g.ws r).phase = haloPhases C.Px) → (∀ u, C.Active u → (localS u).1 ≠ []) →
      ∀ (rgp : Bool) (rgx rg : Nat → Bool) (out : Nat → Tensor R),
        (∀ u ∈ C.Py.members, generalForward C weight bias rgp localS inp U g rgx rg u = some (out u)) →
        ¬ EvenBlocks C.Py (torchConvShape C.W C.Co (B :: C.Ci :: N)) t
          (torchConv C.W C.groups C.Ci C.Co Wt' β' (B :: C.Ci :: N) X) out := by
  classical
  obtain ⟨hPo, hPi, hSpos⟩ := h.pos
  obtain ⟨p, j, hp, hj, hK, key⟩ := grouped_differs (R := R) (B := B) h hg h2 hB hκ hr hm
  have hz : InBounds (List.replicate Sp.length 0) Sp := by
    refine inBounds_iff.2 ⟨by simp, fun j hj => ?_⟩
    rw [List.getD_eq_getElem _ _ (by simpa using hj), List.getD_eq_getElem _ _ hj, List.getElem_replicate]
    exact hSpos _ (List.getElem_mem hj)
  obtain ⟨v, hv, ev⟩ := h.wfw.exists_coord (i := p :: j :: List.replicate Sp.length 0) (by rw [h.shw]; exact ⟨hp, hj, hz⟩)
  obtain ⟨v0, hv0, ev0⟩ := h.wfw.exists_coord (i := p :: 0 :: List.replicate Sp.length 0) (by
    rw [h.shw]; exact ⟨hp, hPi, hz⟩)
  have hsi : 0 < subsize Pi j C.Ci := subsize_pos hPi h.channels.1
  have hso : 0 < subsize Po p C.Co := subsize_pos hPo h.channels.2
  let wt : List Nat → R := fun l => if l.drop 2 = κ then 1 else 0
  obtain ⟨Wt, β, hP⟩ := grouped_exists_of (C := C) (Po := Po) (Pi := Pi) (fun _ => wt) (fun _ _ => (0 : R))
    fun _ _ _ _ _ _ => ⟨rfl, rfl⟩
  have hP' : GroupedStored C Po Pi (fun _ => ⟨[], wd, wt⟩) (fun _ => ⟨[], wd, fun _ => 0⟩) Wt β := by
    refine ⟨fun v hv _ => hP.weight v hv, fun v hv h0 k hk => (hP.bias v hv ?_ k hk).symm⟩
    obtain ⟨a, b, s, e, -, -, -⟩ := h.coordW hv
    rw [e] at h0 ⊢
    exact h0 b (by simp)
  refine ⟨fun _ => ⟨[], wd, wt⟩, fun _ => ⟨[], wd, fun _ => 0⟩, fun Wt' β' => ?_⟩
  obtain ⟨X, hX⟩ := key Wt β (by
    intro κ' hκ'
    have := hP.weight v hv 0 (by rw [ev]; exact hso) 0 (by rw [ev]; exact hsi) κ' hκ'
    rw [ev, Nat.zero_div, Nat.zero_div, if_pos rfl] at this
    exact this) (by
    have := hP.bias v0 hv0 (by rw [ev0]; rfl) 0 (by rw [ev0]; exact hso)
    rw [ev0] at this
    exact this) Wt' β'
  have hm1 : C.Pw.members.length ≠ 1 := by
    intro e
    rw [h.wfw.size, h.shw, List.prod_cons, List.prod_cons, ← Nat.mul_assoc] at e
    exact hm (Nat.eq_one_of_mul_eq_one_right e)
  refine ⟨X, fun L localS inp U S g hin hG hl G hfin hs rgp rgx rg out hout hev => hX ?_⟩
  obtain ⟨out', ho', hev'⟩ := C57_general (rgp := rgp) (rgx := rgx) (rg := rg) hW h hSp hg hin hG hfit (fun _ => hl)
    (fun _ => G) (fun _ => hfin) hP' hs fun e => absurd e hm1
  have hNl : N.length = nd := by
    have : C.Px.shape.length = (B :: C.Ci :: N).length := by rw [← hG, Layout.length_global, hin.length]
    rw [h.shx] at this
    simp at this
    omega
  exact hev.agree h.wfy (by rw [h.shy]; simp [torchConvShape, length_torchOut, hSp, hNl]) hev'
    (fun u hu => Option.some.inj ((hout u hu).symm.trans (ho' u hu))) ⟨hB, hK, ho⟩

end

/-! ## Examples -/

/-- Two groups of two channels, the features of length four over two workers, kernel 3, padding 1. -/
def exGr : ChanConv :=
  ⟨⟨[4, 5], [1, 1, 2], some 0⟩, ⟨[0, 6], [1, 1, 2], some 0⟩, ⟨[0, 1], [1, 1, 2], some 0⟩,
    ⟨[3], [1], [1], [1]⟩, 2, 4, 2, true⟩

def exGrL : Layout := Layout.balanced [1, 1, 2] [2, 4, 4]
def exGrS : Nat → List Nat × TorchDtype × Bool := fun w => (exGrL.shapeAt ((exGr.Px.index w).getD [0, 0, 0]), .float32, true)
def exGrX : Nat → List Nat → Int := fun w l => exChX (shiftBy (exGrL.startAt ((exGr.Px.index w).getD [0, 0, 0])) l)

theorem exGr_valid : ChanValid exGr 1 1 [2] :=
  ⟨⟨by decide, by decide, by decide⟩, ⟨by decide, by decide, by decide⟩, ⟨by decide, by decide, by decide⟩,
    rfl, rfl, rfl, ⟨_, rfl, rfl, rfl⟩, by decide⟩

theorem exGr_input : WinInput exGr.Px exGr.W exGrL exGrS exGrX exChX .float32 true := by
  refine ⟨exGr_valid.wfx, by decide, by decide, fun w _ idx e => ?_, fun w _ idx e l _ => ?_⟩
  · simp only [exGrS, e, Option.getD_some]
  · simp only [exGrX, e, Option.getD_some]

theorem exGr_limits : WinLimits exGr.Px exGr.W exGrL := by
  intro j hj
  change j < 3 at hj
  interval_cases j
  · exact (reach_single (n := 2) (by decide) (by decide) (by decide) : AxisLimits 1 1 0 1 [2])
  · exact (reach_single (n := 4) (by decide) (by decide) (by decide) : AxisLimits 1 1 0 1 [4])
  · exact reach_unit_stride (P := 2) (n := 4) (k := 3) (p := 1) (d := 1) (by decide) (by decide) (by decide)
      (by decide) (by decide) (by decide)

/-- The layer runs to the end of the halo exchange; then worker 6 gets its block of the grouped convolution. -/
example : ∃ k U S g y, GeneralRun exGr exGr.Px exGrS exGrX (.inst .float64) (fun _ => (0 : Nat)) (fun _ => []) false k U S g ∧
    generalForward exGr (fun _ => ⟨[2, 2, 3], .float32, exChW⟩) (fun _ => ⟨[2], .float32, exChB⟩) true
      exGrS exGrX U g (fun _ => true) (fun _ => true) 6 = some y ∧
    y.shape = [2, 2, 2] ∧ y.val [1, 1, 1] =
      torchConv exGr.W 2 4 2 exChW (fun c => exChB [c]) [2, 4, 4] exChX [1, 1, 3] := by
  obtain ⟨⟨U, S, R⟩, hc⟩ := C44_exchange exGr_input (.inst .float64) (fun _ => (0 : Nat)) (fun _ => []) false
  obtain ⟨k, g, R', -, hf⟩ := hc _ _ _ _ R
  obtain ⟨out, h1, h2⟩ := C57_features_partial (nd := 1) (B := 2) (N := [4]) (rgp := true) (rgx := fun _ => true)
    (rg := fun _ => true) (weight := fun _ => ⟨[2, 2, 3], .float32, exChW⟩)
    (bias := fun _ => ⟨[2], .float32, exChB⟩) (r := 0)
    (show winParams 1 [3] [1] [1] [1] = some exGr.W by decide) exGr_valid rfl (by decide) exGr_input (by decide)
    (by decide) (fun _ => exGr_limits) (fun _ => R') (fun _ => hf) (by decide) (by decide) (by
      intro u hu
      have : u < 7 := by
        rcases hu with hu | hu | hu <;> revert u <;> decide
      interval_cases u <;> decide)
    (fun h => absurd h (by decide))
  refine ⟨k, U, S, g, out 6, R', h1 6 (by decide), (h2.shape 6 (by decide)).trans (by decide), ?_⟩
  rw [h2.val 6 (by decide) [1, 1, 1] (by decide)]
  rfl

/-- Two groups, four channels over two workers each way, the features of length four over two workers.  Runs
that finish the exchange exist by `C44_exchange`. -/
example (k : Nat) : ∃ weight bias : Nat → Tensor Int, ∀ (Wt' : List Nat → Int) (β' : Nat → Int), ∃ X : List Nat → Int,
    ∀ (L : Layout) (localS : Nat → List Nat × TorchDtype × Bool) (inp : Nat → List Nat → Int) (U : Nat → WinSetup)
      (S : Nat → HaloSetup) (g : GState (List Nat → Int) (List Nat → Int)),
    WinInput exGe.Px exGe.W L localS inp X .float32 true → L.global = [2, 4, 4] → WinLimits exGe.Px exGe.W L →
    GeneralRun { exGe with groups := 2, Ci := 4, Co := 4 } exGe.Px localS inp (.inst .float64) (fun _ => (0 : Nat))
      (fun _ => []) false k U S g →
    (∀ r, r < 4 → (g.ws r).phase = haloPhases exGe.Px) →
    (∀ u, ChanConv.Active { exGe with groups := 2, Ci := 4, Co := 4 } u → (localS u).1 ≠ []) →
    ∀ (rgp : Bool) (rgx rg : Nat → Bool) (out : Nat → Tensor Int),
      (∀ u ∈ exGe.Py.members, generalForward { exGe with groups := 2, Ci := 4, Co := 4 } weight bias rgp localS inp U g
        rgx rg u = some (out u)) →
      ¬ EvenBlocks exGe.Py [2, 4, 4] .float32 (torchConv exGe.W 2 4 4 Wt' β' [2, 4, 4] X) out :=
  C57_general_wrong (C := { exGe with groups := 2, Ci := 4, Co := 4 }) (nd := 1) (Po := 2) (Pi := 2) (Sp := [2]) (N := [4])
    (o := [0]) (κ := [1]) (show winParams 1 [3] [1] [1] [1] = some exGe.W by decide)
    ⟨⟨by decide, by decide, by decide⟩, ⟨by decide, by decide, by decide⟩, ⟨by decide, by decide, by decide⟩,
      rfl, rfl, rfl, ⟨_, rfl, rfl, rfl⟩, by decide⟩ rfl ⟨by decide, by decide⟩ (by decide) (by decide) (by decide)
    (by decide) (by decide) (by decide) (by decide) .float32

/-- Three groups do not divide the channels of the workers of `exGe`: an exception. -/
example (weight bias : Nat → Tensor Int) (rgp : Bool) (localS : Nat → List Nat × TorchDtype × Bool)
    (inp : Nat → List Nat → Int) (U : Nat → WinSetup) (g : GState (List Nat → Int) (List Nat → Int))
    (rgx rg : Nat → Bool) :
    generalForward { exGe with groups := 3 } weight bias rgp localS inp U g rgx rg 0 = none :=
  C57_general_raises (Po := 2) (Pi := 2) (Sp := [2])
    ⟨⟨by decide, by decide, by decide⟩, ⟨by decide, by decide, by decide⟩, ⟨by decide, by decide, by decide⟩,
      rfl, rfl, rfl, ⟨_, rfl, rfl, rfl⟩, by decide⟩ (by decide)
    (fun hh => absurd (hh.2 0 (by decide)).2 (by decide)) (.inr (.inl (by decide)))

end Verif
