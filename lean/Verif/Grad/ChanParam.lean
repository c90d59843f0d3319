import Verif.Grad.GenProps

/-!
# C63: gradients of the parameters of channel-distributed and general convolutions
-/

namespace Verif

open Exchange

section
variable {R : Type} [CommSemiring R]
variable {C : ChanConv} {Po Pi : Nat} {Sp : List Nat} {W' : WinParams} {B : Nat} {N : List Nat}
  {dt : TorchDtype} {X : List Nat → R} {I : Inputs R} {wt b : Nat → List Nat → R} {Wt β G : List Nat → R}
  {y : Nat → Tensor R} {op : Nat → Tensor R → Option (Tensor R)} {rg : Nat → Bool}

/-- What the features of worker coordinate `s` add to the gradient of the weight `co :: c :: κ`. -/
def wTerm (C : ChanConv) (Sp : List Nat) (B : Nat) (N : List Nat) (X G : List Nat → R) (co c : Nat) (κ s : List Nat) :
    R :=
  ∑ bi ∈ Finset.range B, boxSum ((Layout.balanced Sp (torchOut C.W N)).shapeAt s) fun p =>
    G (bi :: co :: shiftBy ((Layout.balanced Sp (torchOut C.W N)).startAt s) p) *
      winRead 0 (B :: C.Ci :: N) (1 :: 1 :: C.W.s) (1 :: 1 :: C.W.d) (0 :: 0 :: C.W.p) X
        (bi :: c :: shiftBy ((Layout.balanced Sp (torchOut C.W N)).startAt s) p) (0 :: 0 :: κ)

/-- What they add to the gradient of the bias `[co]`. -/
def bTerm (C : ChanConv) (Sp : List Nat) (B : Nat) (N : List Nat) (G : List Nat → R) (co : Nat) (s : List Nat) : R :=
  ∑ bi ∈ Finset.range B, boxSum ((Layout.balanced Sp (torchOut C.W N)).shapeAt s) fun p =>
    G (bi :: co :: shiftBy ((Layout.balanced Sp (torchOut C.W N)).startAt s) p)

theorem pick_row {M : Type} [AddCommMonoid M] {n co : Nat} (h : co < n) (f : Nat → M) :
    (∑ c ∈ Finset.range n, if c = co then f c else 0) = f co := by
  rw [Finset.sum_ite_eq' (Finset.range n) co f, if_pos (Finset.mem_range.2 h)]

theorem gradW_cons (W : WinParams) {B Ci Co co : Nat} {n : List Nat} {c : Nat} {κ : List Nat} (x dy : List Nat → R)
    (h : co < Co) : torchConvGradW W 1 Ci Co (B :: Ci :: n) x dy (co :: c :: κ) =
      ∑ bi ∈ Finset.range B, boxSum (torchOut W n) fun p => dy (bi :: co :: p) *
        winRead 0 (B :: Ci :: n) (1 :: 1 :: W.s) (1 :: 1 :: W.d) (0 :: 0 :: W.p) x (bi :: c :: p) (0 :: 0 :: κ) := by
  show (∑ bi ∈ Finset.range B, ∑ co' ∈ Finset.range Co, boxSum (torchOut W n) fun p =>
    if co' = co then dy (bi :: co :: p) * winRead 0 (B :: Ci :: n) (1 :: 1 :: W.s) (1 :: 1 :: W.d) (0 :: 0 :: W.p) x
      (bi :: (co / (Co / 1) * (Ci / 1) + c) :: p) (0 :: 0 :: κ) else 0) = _
  refine Finset.sum_congr rfl fun bi _ => ?_
  rw [Nat.div_one, Nat.div_eq_of_lt h, Nat.zero_mul, Nat.zero_add, ← pick_row h fun _ => boxSum (torchOut W n) _]
  refine Finset.sum_congr rfl fun co' _ => ?_
  by_cases e : co' = co
  · simp only [if_pos e]
  · simp only [if_neg e]
    exact boxSum_zero _

theorem gradB_cons (W : WinParams) {B a Co co : Nat} {n : List Nat} (dy : List Nat → R) (h : co < Co) :
    torchConvGradB W Co (B :: a :: n) dy [co] =
      ∑ bi ∈ Finset.range B, boxSum (torchOut W n) fun p => dy (bi :: co :: p) := by
  show (∑ bi ∈ Finset.range B, ∑ co' ∈ Finset.range Co, boxSum (torchOut W n) fun p =>
    if co' = co then dy (bi :: co :: p) else 0) = _
  refine Finset.sum_congr rfl fun bi _ => ?_
  rw [← pick_row h fun _ => boxSum (torchOut W n) _]
  refine Finset.sum_congr rfl fun co' _ => ?_
  by_cases e : co' = co
  · simp only [if_pos e]
  · simp only [if_neg e]
    exact boxSum_zero _

theorem tiles {Sp M : List Nat} (hl : Sp.length = M.length) (hpos : ∀ n ∈ Sp, 0 < n) (f : List Nat → R) :
    (boxSum Sp fun s => boxSum ((Layout.balanced Sp M).shapeAt s) fun p =>
      f (shiftBy ((Layout.balanced Sp M).startAt s) p)) = boxSum M f := by
  have e := (Layout.balanced Sp M).sum_tiles f
  rw [Layout.balanced_pshape hl, Layout.balanced_global hl hpos] at e
  exact e

theorem wTerm_sum (hl : Sp.length = N.length) (hpos : ∀ n ∈ Sp, 0 < n) {co c : Nat}
    {κ : List Nat} (h : co < C.Co) : boxSum Sp (wTerm C Sp B N X G co c κ) =
      torchConvGradW C.W 1 C.Ci C.Co (B :: C.Ci :: N) X G (co :: c :: κ) := by
  rw [gradW_cons _ _ _ h]
  unfold wTerm
  rw [boxSum_sum]
  refine Finset.sum_congr rfl fun bi _ => ?_
  exact tiles (by rw [length_torchOut]; exact hl) hpos fun p => G (bi :: co :: p) *
    winRead 0 (B :: C.Ci :: N) (1 :: 1 :: C.W.s) (1 :: 1 :: C.W.d) (0 :: 0 :: C.W.p) X (bi :: c :: p) (0 :: 0 :: κ)

theorem bTerm_sum (hl : Sp.length = N.length) (hpos : ∀ n ∈ Sp, 0 < n) {co a : Nat}
    (h : co < C.Co) : boxSum Sp (bTerm C Sp B N G co) = torchConvGradB C.W C.Co (B :: a :: N) G [co] := by
  rw [gradB_cons _ _ h]
  unfold bTerm
  rw [boxSum_sum]
  exact Finset.sum_congr rfl fun bi _ =>
    tiles (by rw [length_torchOut]; exact hl) hpos fun p => G (bi :: co :: p)

theorem startIdx_one (n : Nat) : startIdx 1 0 n = 0 := by simp [startIdx]

/-- The local gradient of the weight. -/
theorem chan_gw (h : ChanValid C Po Pi Sp) (hW : W'.k = C.W.k ∧ W'.s = C.W.s ∧ W'.d = C.W.d)
    (hT : WindowsOf C W' B N dt X I.x)
    (hy : EvenBlocks C.Py (torchConvShape C.W C.Co (B :: C.Ci :: N)) dt G y) {v : Nat} (hv : v ∈ C.Pw.members)
    {o j : Nat} {s : List Nat} (ev : C.Pw.coord v = o :: j :: s) {k c : Nat} (hk : k < subsize Po o C.Co)
    (hc : c < subsize Pi j C.Ci) {κ : List Nat} (hκ : InBounds κ C.W.k) :
    torchConvGradW W' 1 (subsize Pi j C.Ci) (subsize Po o C.Co) (I.x ((chanBroadcast C.Px C.Pw).broot v)).shape
      (I.x ((chanBroadcast C.Px C.Pw).broot v)).val (chanDy C y v).val (k :: c :: κ) =
    wTerm C Sp B N X G (startIdx Po o C.Co + k) (startIdx Pi j C.Ci + c) κ s := by
  obtain ⟨o', j', s', ev', ho, hj, hs⟩ := h.coordW hv
  rw [ev] at ev'
  injection ev' with a1 a2
  injection a2 with a2 a3
  subst a1 a2 a3
  obtain ⟨hr, er⟩ := broot_coord h hv ev
  obtain ⟨n, en, hn⟩ := hT.shape h hr er hj
  obtain ⟨-, -, hdy⟩ := chanDy_val h hy hv ev ho
  have hread := hT.read _ hr
  rw [en] at hread ⊢
  rw [gradW_cons _ _ _ hk]
  unfold wTerm
  rw [subsize_one B] at hread hdy ⊢
  refine Finset.sum_congr rfl fun bi hbi => ?_
  have hbi := Finset.mem_range.1 hbi
  rw [hn]
  refine boxSum_congr fun p hp => ?_
  have := hread (bi :: c :: p) κ (by
    rw [er, h.shx, show torchPoolShape C.W (B :: C.Ci :: N) = B :: C.Ci :: torchOut C.W N from rfl,
      balanced_cons_shapeAt Nat.one_pos, balanced_cons_shapeAt hj, subsize_one]
    exact ⟨hbi, hc, hp⟩) hκ
  rw [hdy bi k p hbi hk hp, hW.2.1, hW.2.2, this, er, h.shx,
    show torchPoolShape C.W (B :: C.Ci :: N) = B :: C.Ci :: torchOut C.W N from rfl,
    balanced_cons_startAt Nat.one_pos, balanced_cons_startAt hj, startIdx_one, Nat.zero_add]
  simp only [shiftBy, Nat.zero_add]

/-- The local gradient of the bias. -/
theorem chan_gb (h : ChanValid C Po Pi Sp) (hT : WindowsOf C W' B N dt X I.x)
    (hy : EvenBlocks C.Py (torchConvShape C.W C.Co (B :: C.Ci :: N)) dt G y) {v : Nat} (hv : v ∈ C.Pw.members)
    {o j : Nat} {s : List Nat} (ev : C.Pw.coord v = o :: j :: s) {k : Nat} (hk : k < subsize Po o C.Co) :
    torchConvGradB W' (subsize Po o C.Co) (I.x ((chanBroadcast C.Px C.Pw).broot v)).shape (chanDy C y v).val [k] =
    bTerm C Sp B N G (startIdx Po o C.Co + k) s := by
  obtain ⟨o', j', s', ev', ho, hj, hs⟩ := h.coordW hv
  rw [ev] at ev'
  injection ev' with a1 a2
  injection a2 with a2 a3
  subst a1 a2 a3
  obtain ⟨hr, er⟩ := broot_coord h hv ev
  obtain ⟨n, en, hn⟩ := hT.shape h hr er hj
  obtain ⟨-, -, hdy⟩ := chanDy_val h hy hv ev ho
  rw [en, gradB_cons _ _ hk]
  unfold bTerm
  rw [subsize_one B] at hdy ⊢
  refine Finset.sum_congr rfl fun bi hbi => ?_
  rw [hn]
  refine boxSum_congr fun p hp => ?_
  rw [hdy bi k p (Finset.mem_range.1 hbi) hk hp, startIdx_one, Nat.zero_add]

/-- What the local layer of a worker of `P_w` was given, and the gradient of its output. -/
theorem chan_local_pair (h : ChanValid C Po Pi Sp) (hW : W'.k = C.W.k ∧ W'.s = C.W.s ∧ W'.d = C.W.d)
    (hT : WindowsOf C W' B N dt X I.x) (hop : LocalConvs C Po Pi W' wt b op)
    (hs : ∀ u, C.Active u → (I.x u).shape ≠ [])
    (hy : EvenBlocks C.Py (torchConvShape C.W C.Co (B :: C.Ci :: N)) dt G y)
    (hsy : ∀ u, C.Active u → (y u).shape ≠ []) {v : Nat} (hv : v ∈ C.Pw.members) :
    (∃ z, bcastForward (chanBroadcast C.Px C.Pw) I v = some z ∧
      z = I.x ((chanBroadcast C.Px C.Pw).broot v)) ∧
    midGrad (chanBroadcast C.Px C.Pw) (chanReduce C.Pw C.yCast) I op rg y v = some (chanDy C y v) := by
  have st := chan_stack h hW hT hop hs
  constructor
  · obtain ⟨r, hr, hf, -, e⟩ := (C22_forward _ h.bcast I st.hasBatch).1 v hv
    exact ⟨_, e, by rw [(h.bcast.rel hr hv).1 hf]⟩
  · obtain ⟨u, hu, hc, e⟩ := st.midGrad_worker (rg := rg) (chan_grads (opB := fun _ x _ => x) h hT hy hsy
      fun _ _ _ => ⟨rfl, rfl⟩) hv
    rw [e, chanDy, (h.reduce.rel hu hv).1 hc]

/-- C63, channel-distributed convolution: every worker of `P_w` gets the blocks, of the shapes of its parameters, of
the gradients of the sequential convolution with respect to the weight and, where there is one, to the bias. -/
theorem C63_channel (h : ChanValid C Po Pi Sp) (h1 : ∀ n ∈ Sp, n = 1) (hSp : Sp.length = C.W.k.length)
    (hN : N.length = C.W.k.length) (hg : C.groups = 1)
    (hfit : ∀ j, j < C.W.k.length →
      C.W.d.getD j 0 * (C.W.k.getD j 0 - 1) + 1 ≤ N.getD j 0 + 2 * C.W.p.getD j 0)
    (hx : EvenBlocks C.Px (B :: C.Ci :: N) dt X I.x)
    (hs : ∀ u, C.Active u → (I.x u).shape ≠ [])
    (hy : EvenBlocks C.Py (torchConvShape C.W C.Co (B :: C.Ci :: N)) dt G y)
    (hsy : ∀ u, C.Active u → (y u).shape ≠ [])
    (place : C.Pw.members.length = 1 → C.Px.members = C.Pw.members ∧ C.Py.members = C.Pw.members)
    {w : Nat} (hw : w ∈ C.Pw.members) :
    ∃ gw gb, channelGradP C wt b I rg y w = some (gw, gb) ∧
      (∀ k < subsize Po ((C.Pw.coord w).getD 0 0) C.Co, ∀ c < subsize Pi ((C.Pw.coord w).getD 1 0) C.Ci,
        ∀ κ, InBounds κ C.W.k → gw (k :: c :: κ) = torchConvGradW C.W 1 C.Ci C.Co (B :: C.Ci :: N) X G
          ((startIdx Po ((C.Pw.coord w).getD 0 0) C.Co + k) ::
            (startIdx Pi ((C.Pw.coord w).getD 1 0) C.Ci + c) :: κ)) ∧
      (¬ (C.useBias = true ∧ (C.Pw.coord w).getD 1 0 = 0) → gb = none) ∧
      (C.useBias = true → (C.Pw.coord w).getD 1 0 = 0 → ∃ f, gb = some f ∧
        ∀ k < subsize Po ((C.Pw.coord w).getD 0 0) C.Co,
          f [k] = torchConvGradB C.W C.Co (B :: C.Ci :: N) G [startIdx Po ((C.Pw.coord w).getD 0 0) C.Co + k]) := by
  have hT := channel_windows h h1 hSp hN hfit hx
  have hcast := h.cast true fun _ => h1
  have hl : Sp.length = N.length := hSp.trans hN.symm
  obtain ⟨o, j, s, ev, ho, hj, hsb⟩ := h.coordW hw
  -- the only position along the features
  have honly : ∀ f : List Nat → R, boxSum Sp f = f s := by
    intro f
    rw [← boxSum_pick hsb f]
    refine boxSum_congr fun t ht => ?_
    rw [if_pos]
    have z : ∀ u : List Nat, InBounds u Sp → ∀ i, i < Sp.length → u.getD i 0 = 0 := by
      intro u hu i hi
      have := inBounds_getD hu hi
      rw [List.getD_eq_getElem Sp _ hi, h1 _ (List.getElem_mem _)] at this
      omega
    refine eq_of_getD (by rw [ht.length_eq, hsb.length_eq]) fun i hi => ?_
    rw [ht.length_eq] at hi
    rw [z t ht i hi, z s hsb i hi]
  have hpos : ∀ n ∈ Sp, 0 < n := fun n hn => by rw [h1 n hn]; exact Nat.one_pos
  have kw : ∀ k < subsize Po o C.Co, ∀ c < subsize Pi j C.Ci, ∀ κ, InBounds κ C.W.k →
      torchConvGradW C.W 1 (subsize Pi j C.Ci) (subsize Po o C.Co)
        (I.x ((chanBroadcast C.Px C.Pw).broot w)).shape (I.x ((chanBroadcast C.Px C.Pw).broot w)).val
        (chanDy C y w).val (k :: c :: κ) =
      torchConvGradW C.W 1 C.Ci C.Co (B :: C.Ci :: N) X G
        ((startIdx Po o C.Co + k) :: (startIdx Pi j C.Ci + c) :: κ) := by
    intro k hk c hc κ hκ
    rw [chan_gw h ⟨rfl, rfl, rfl⟩ hT hy hw ev hk hc hκ, ← wTerm_sum hl hpos (startIdx_add_lt ho hk), honly]
  have kb : ∀ k < subsize Po o C.Co, torchConvGradB C.W (subsize Po o C.Co)
        (I.x ((chanBroadcast C.Px C.Pw).broot w)).shape (chanDy C y w).val [k] =
      torchConvGradB C.W C.Co (B :: C.Ci :: N) G [startIdx Po o C.Co + k] := by
    intro k hk
    rw [chan_gb h hT hy hw ev hk, ← bTerm_sum hl hpos (startIdx_add_lt ho hk), honly]
  rw [ev]
  simp only [List.getD_cons_zero, List.getD_cons_succ]
  by_cases h1w : C.Pw.members.length = 1
  · obtain ⟨px, py⟩ := place h1w
    obtain ⟨w', hw'⟩ := List.length_eq_one_iff.1 h1w
    have : w = w' := by rw [hw'] at hw; simpa using hw
    subst this
    rw [hw'] at px py
    obtain ⟨rfl, rfl, -, ⟨s', ev', -⟩, hf, hr⟩ := single_worker h hw' px py
    have hbr : (chanBroadcast C.Px C.Pw).broot w = w := (h.bcast.rel (by simp [chanBroadcast, px]) hw).1 hf
    have o0 : o = 0 := by omega
    have j0 : j = 0 := by omega
    subst o0 j0
    simp only [hbr, chanDy, hr, subsize_one] at kw kb
    rw [channelGradP, hcast]
    simp only
    rw [if_pos h1w, hg]
    refine ⟨_, _, rfl, ?_, fun hn => ?_, fun hb _ => ⟨_, if_pos hb, ?_⟩⟩
    · rw [subsize_one, subsize_one]
      exact kw
    · rw [if_neg fun hb => hn ⟨hb, trivial⟩]
    · rw [subsize_one]
      exact kb
  · obtain ⟨⟨z, ez, rfl⟩, em⟩ := chan_local_pair (rg := rg) (W' := C.W) h ⟨rfl, rfl, rfl⟩ hT
      (channel_local (wt := wt) (b := b) h hg) hs hy hsy hw
    obtain ⟨e0, e1⟩ := h.localChannels hw
    have hst : C.storesBias w = C.addsBias w := by
      rw [ChanConv.storesBias, ChanConv.addsBias, Cart.index_eq hw, Option.getD_some]
    rw [ev] at e0 e1
    simp only [List.getD_cons_zero, List.getD_cons_succ] at e0 e1
    rw [channelGradP, hcast]
    simp only
    rw [if_neg h1w, ez, em]
    simp only
    rw [e0, e1, hg, hst, ChanConv.addsBias, ev]
    refine ⟨_, _, rfl, kw, fun hn => ?_, fun hb hj0 => ⟨_, if_pos ?_, kb⟩⟩
    · rw [if_neg]
      simp only [List.getD_cons_zero, List.getD_cons_succ, Bool.and_eq_true, beq_iff_eq]
      exact fun hh => hn ⟨hh.2, hh.1⟩
    · simp [hb, hj0]

/-! ## General convolution -/

/-- The adjoint of the broadcast of a parameter. -/
theorem received_backward {P Q : Cart} (hL : BcastLayer (paramLayer P Q)) (a : Nat → Tensor R) (rgp : Bool)
    {loc : Nat → Option (List Nat → R)} {f : Nat → List Nat → R} (hf : ∀ v ∈ Q.members, loc v = some (f v)) :
    (∀ r ∈ P.members, receivedGrad (paramLayer P Q) (storedParam P a rgp) loc r =
      some ⟨(a r).shape, (a r).dtype, fun i => ((Q.members.filter fun v =>
        decide (Agree P.shape (P.coord r) (Q.coord v))).map fun v => f v i).sum⟩) ∧
    ∀ w ∈ Q.members, w ∉ P.members →
      ∃ z, receivedGrad (paramLayer P Q) (storedParam P a rgp) loc w = some z ∧ z.shape.prod = 0 := by
  have hst : ∀ r ∈ P.members, (storedParam P a rgp).x r = a r := fun r hr => by simp [storedParam, hr]
  obtain ⟨b1, b2⟩ := C22_backward (paramLayer P Q) hL (storedParam P a rgp)
    (receivedLocal (paramLayer P Q) (storedParam P a rgp) loc) (fun r hr v hv hfd => by
      have hv' : v ∈ Q.members := hv
      have hr' : r ∈ P.members := hr
      obtain ⟨r', hr2, hfd', -, e⟩ := (C22_forward (paramLayer P Q) hL (storedParam P a rgp)
        (fun hb => by simp [paramLayer] at hb)).1 v hv
      have hrr : r' = r := by
        rw [← (hL.rel hr2 hv).1 hfd', (hL.rel hr hv).1 hfd]
      subst hrr
      simp [receivedLocal, e, hf v hv'])
    (fun hb => by simp [paramLayer] at hb)
  refine ⟨fun r hr => ?_, fun w hw hn => b2 w hw hn⟩
  rw [receivedGrad, b1 r hr, hst r hr]
  congr 2
  funext i
  congr 1
  refine List.map_congr_left fun v hv => ?_
  have hv' : v ∈ Q.members := List.mem_of_mem_filter hv
  obtain ⟨_, -, -, e⟩ := param_forward hL a rgp hv'
  simp only [receivedLocal, e, hf v hv']

theorem pick_two {M : Type} [AddCommMonoid M] {Po Pi o j : Nat} {Sp : List Nat} (ho : o < Po) (hj : j < Pi)
    (F : List Nat → M) :
    (boxSum (Po :: Pi :: Sp) fun c => if c.take 2 = [o, j] then F (c.drop 2) else 0) = boxSum Sp F := by
  show (∑ a ∈ Finset.range Po, ∑ b ∈ Finset.range Pi, boxSum Sp fun s => if [a, b] = [o, j] then F s else 0) = _
  rw [← pick_row ho fun _ => boxSum Sp F]
  refine Finset.sum_congr rfl fun a _ => ?_
  by_cases ha : a = o
  · subst ha
    rw [if_pos rfl, ← pick_row hj fun _ => boxSum Sp F]
    refine Finset.sum_congr rfl fun c _ => ?_
    by_cases hc : c = j
    · simp only [hc, if_true]
    · have : ¬ [a, c] = [a, j] := by simpa using hc
      simp only [if_neg this, if_neg hc]
      exact boxSum_zero _
  · rw [if_neg ha]
    refine Finset.sum_eq_zero fun c _ => ?_
    have : ¬ [a, c] = [o, j] := by simp [ha]
    simp only [if_neg this]
    exact boxSum_zero _

/-- Workers that agree where the storing partition is cut. -/
theorem agree_two {Po Pi o j o' j' : Nat} {Sp s s' : List Nat} (hs : s'.length = Sp.length) (ho : o < Po)
    (hj : j < Pi) (ho' : o' < Po) (hj' : j' < Pi) :
    Agree (Po :: Pi :: List.replicate Sp.length 1) (o :: j :: s) (o' :: j' :: s') ↔
      (o' :: j' :: s').take 2 = [o, j] := by
  constructor
  · intro ha
    obtain ⟨a1, ha⟩ := agree_lead (by simp [hs]) ho ho' ha
    obtain ⟨a2, -⟩ := agree_lead (by simp [hs]) hj hj' ha
    simp [a1, a2]
  · intro e
    simp only [List.take_succ_cons, List.take_zero, List.cons.injEq, and_true] at e
    obtain ⟨rfl, rfl⟩ := e
    rw [agree_cons (by simp [hs]), agree_cons (by simp [hs])]
    refine ⟨fun _ => rfl, fun _ => rfl, fun i hi hn => ?_⟩
    simp only [List.length_replicate] at hi
    simp [hi] at hn

/-- The sum of the local gradients of the weight over the workers that received it. -/
theorem stored_weight (h : ChanValid C Po Pi Sp) (hg : C.groups = 1) (hSN : Sp.length = N.length)
    (hT : WindowsOf C C.W.noPad B N dt X I.x)
    (hy : EvenBlocks C.Py (torchConvShape C.W C.Co (B :: C.Ci :: N)) dt G y) {w : Nat} (hw : w ∈ C.Pw.members)
    {k c : Nat} {κ : List Nat} (hk : k < subsize Po ((C.Pw.coord w).getD 0 0) C.Co)
    (hc : c < subsize Pi ((C.Pw.coord w).getD 1 0) C.Ci) (hκ : InBounds κ C.W.k) :
    ((C.Pw.members.filter fun v => decide (Agree (Po :: Pi :: List.replicate Sp.length 1) (C.Pw.coord w)
      (C.Pw.coord v))).map fun v => torchConvGradW C.W.noPad C.groups ((C.localChannels v).getD 1 0)
        ((C.localChannels v).getD 0 0) (I.x ((chanBroadcast C.Px C.Pw).broot v)).shape
        (I.x ((chanBroadcast C.Px C.Pw).broot v)).val (chanDy C y v).val (k :: c :: κ)).sum =
    torchConvGradW C.W 1 C.Ci C.Co (B :: C.Ci :: N) X G ((startIdx Po ((C.Pw.coord w).getD 0 0) C.Co + k) ::
      (startIdx Pi ((C.Pw.coord w).getD 1 0) C.Ci + c) :: κ) := by
  obtain ⟨o, j, s, ev, ho, hj, hsb⟩ := h.coordW hw
  rw [ev] at hk hc ⊢
  simp only [List.getD_cons_zero, List.getD_cons_succ] at hk hc ⊢
  rw [← wTerm_sum (Sp := Sp) hSN (fun n hn => h.wfw.pos n (by rw [h.shw]; simp [hn]))
    (startIdx_add_lt ho hk), ← pick_two ho hj, ← h.shw, ← members_filter_sum h.wfw]
  have hfil : (C.Pw.members.filter fun v => decide (Agree (Po :: Pi :: List.replicate Sp.length 1) (o :: j :: s)
      (C.Pw.coord v))) = C.Pw.members.filter fun v => decide ((C.Pw.coord v).take 2 = [o, j]) :=
    List.filter_congr fun v hv => decide_eq_decide.2 (by
      obtain ⟨o', j', s', ev', ho', hj', hsb'⟩ := h.coordW hv
      rw [ev']
      exact agree_two hsb'.length_eq ho hj ho' hj')
  rw [hfil]
  congr 1
  refine List.map_congr_left fun v hv => ?_
  have hv1 : v ∈ C.Pw.members := List.mem_of_mem_filter hv
  have hv2 : (C.Pw.coord v).take 2 = [o, j] := of_decide_eq_true (List.mem_filter.1 hv).2
  obtain ⟨o', j', s', ev', ho', hj', hsb'⟩ := h.coordW hv1
  obtain ⟨c0, c1⟩ := h.localChannels hv1
  rw [ev'] at hv2 c0 c1 ⊢
  simp only [List.take_succ_cons, List.take_zero, List.cons.injEq, and_true] at hv2
  obtain ⟨rfl, rfl⟩ := hv2
  simp only [List.getD_cons_zero, List.getD_cons_succ] at c0 c1
  rw [c0, c1, hg, chan_gw (W' := C.W.noPad) h ⟨rfl, rfl, rfl⟩ hT hy hv1 ev' hk hc hκ]
  rfl

/-- The same for the bias. -/
theorem stored_bias (h : ChanValid C Po Pi Sp) (hSN : Sp.length = N.length)
    (hT : WindowsOf C C.W.noPad B N dt X I.x)
    (hy : EvenBlocks C.Py (torchConvShape C.W C.Co (B :: C.Ci :: N)) dt G y) {Pb : Cart} (wfb : Pb.WF)
    (shb : Pb.shape = Po :: 1 :: Sp)
    (memb : ∀ v, v ∈ Pb.members ↔ v ∈ C.Pw.members ∧ (C.Pw.coord v).getD 1 0 = 0)
    (cob : ∀ v ∈ Pb.members, Pb.coord v = C.Pw.coord v) {w : Nat} (hw : w ∈ C.Pw.members)
    (hw0 : (C.Pw.coord w).getD 1 0 = 0) {k : Nat} (hk : k < subsize Po ((C.Pw.coord w).getD 0 0) C.Co) :
    ((Pb.members.filter fun v => decide (Agree (Po :: 1 :: List.replicate Sp.length 1) (C.Pw.coord w)
      (Pb.coord v))).map fun v => torchConvGradB C.W.noPad ((C.localChannels v).getD 0 0)
        (I.x ((chanBroadcast C.Px C.Pw).broot v)).shape (chanDy C y v).val [k]).sum =
    torchConvGradB C.W C.Co (B :: C.Ci :: N) G [startIdx Po ((C.Pw.coord w).getD 0 0) C.Co + k] := by
  obtain ⟨o, j, s, ev, ho, hj, hsb⟩ := h.coordW hw
  rw [ev] at hk hw0 ⊢
  simp only [List.getD_cons_zero, List.getD_cons_succ] at hk hw0 ⊢
  subst hw0
  rw [← bTerm_sum (Sp := Sp) hSN (fun n hn => h.wfw.pos n (by rw [h.shw]; simp [hn]))
    (startIdx_add_lt ho hk), ← pick_two ho Nat.one_pos, ← shb, ← members_filter_sum wfb]
  have hcoord : ∀ v ∈ Pb.members, ∃ o' s', C.Pw.coord v = o' :: 0 :: s' ∧ Pb.coord v = o' :: 0 :: s' ∧ o' < Po ∧
      s'.length = Sp.length := by
    intro v hv
    obtain ⟨hv1, hv2⟩ := (memb v).1 hv
    obtain ⟨o', j', s', ev', ho', -, hsb'⟩ := h.coordW hv1
    rw [ev'] at hv2
    have hj0 : j' = 0 := hv2
    subst hj0
    exact ⟨o', s', ev', (cob v hv).trans ev', ho', hsb'.length_eq⟩
  have hfil : (Pb.members.filter fun v => decide (Agree (Po :: 1 :: List.replicate Sp.length 1) (o :: 0 :: s)
      (Pb.coord v))) = Pb.members.filter fun v => decide ((Pb.coord v).take 2 = [o, 0]) :=
    List.filter_congr fun v hv => decide_eq_decide.2 (by
      obtain ⟨o', s', -, ev', ho', hl'⟩ := hcoord v hv
      rw [ev']
      exact agree_two hl' ho Nat.one_pos ho' Nat.one_pos)
  rw [hfil]
  congr 1
  refine List.map_congr_left fun v hv => ?_
  have hvb : v ∈ Pb.members := List.mem_of_mem_filter hv
  have hv1 : v ∈ C.Pw.members := ((memb v).1 hvb).1
  have hv2 : (Pb.coord v).take 2 = [o, 0] := of_decide_eq_true (List.mem_filter.1 hv).2
  obtain ⟨o', s', ew, eb, ho', -⟩ := hcoord v hvb
  obtain ⟨c0, -⟩ := h.localChannels hv1
  rw [eb] at hv2 ⊢
  rw [ew] at c0
  simp only [List.take_succ_cons, List.take_zero, List.cons.injEq, and_true] at hv2
  subst hv2
  simp only [List.getD_cons_zero] at c0
  rw [c0, chan_gb (W' := C.W.noPad) h hT hy hv1 ew hk]
  rfl

end

section
variable {R : Type} [CommSemiring R] {C : ChanConv} {Po Pi : Nat} {Sp : List Nat} {L : Layout} {B : Nat}
  {N : List Nat} {localS : Nat → List Nat × TorchDtype × Bool} {inp : Nat → List Nat → R} {X : List Nat → R}
  {t : TorchDtype} {rg0 : Bool} {nd : Nat} {pk ps pp pd : List Nat} {γ : Type} {dt : NpKey} {junk : Nat → γ}
  {ops : Nat → List (MgrOp γ)} {eager : Bool} {k : Nat} {U : Nat → WinSetup} {S : Nat → HaloSetup}
  {g : GState (List Nat → R) (List Nat → R)} {rgx rg : Nat → Bool} {weight bias : Nat → Tensor R} {rgp : Bool}
  {Wt β G : List Nat → R} {y : Nat → Tensor R}

theorem general_pair (hW : winParams nd pk ps pp pd = some C.W) (h : ChanValid C Po Pi Sp)
    (hSp : Sp.length = nd) (hg : C.groups = 1) (hin : WinInput C.Px C.W L localS inp X t rg0)
    (hG : L.global = B :: C.Ci :: N) (hl : WinLimits C.Px C.W L)
    (E : GeneralRun C C.Px localS inp dt junk ops eager k U S g)
    (hfin : ∀ r, r < C.Px.members.length → (g.ws r).phase = haloPhases C.Px)
    (hp : StoredParams C Po Pi weight bias Wt β) (hs : ∀ u, C.Active u → (localS u).1 ≠ [])
    (hy : EvenBlocks C.Py (torchConvShape C.W C.Co (B :: C.Ci :: N)) t G y)
    (hsy : ∀ u, C.Active u → (y u).shape ≠ []) {Pwr Pb Pbr : Cart} (e1 : weightRoot C.Pw = some Pwr)
    (e2 : biasPart C.Pw = some Pb) (e3 : biasRoot C.Pw = some Pbr) {v : Nat} (hv : v ∈ C.Pw.members) :
    generalLocalPair C C.Px C.yCast Pwr Pb Pbr weight bias rgp localS inp U g rgx rg y v =
      some ((generalInputs C.Px localS inp U g rgx).x ((chanBroadcast C.Px C.Pw).broot v), chanDy C y v) := by
  obtain ⟨Pwr', Pb', Pbr', e1', e2', e3', -, -, wt, b, hop, -⟩ := general_local (rgp := rgp) h hg hp
  rw [e1] at e1'
  rw [e2] at e2'
  rw [e3] at e3'
  obtain rfl := Option.some.inj e1'
  obtain rfl := Option.some.inj e2'
  obtain rfl := Option.some.inj e3'
  have hT := general_windows (rgx := rgx) hW h hSp hin hG hl E hfin
  obtain ⟨⟨z, ez, rfl⟩, em⟩ := chan_local_pair (rg := rg) (W' := C.W.noPad) h ⟨rfl, rfl, rfl⟩ hT hop
    (generalInputs_batch hT hs) hy hsy hv
  rw [generalLocalPair, ez, em]

/-- The sequential layer on one worker is the channel-distributed one. -/
theorem general_single (hW : winParams nd pk ps pp pd = some C.W) (h : ChanValid C Po Pi Sp) (hSp : Sp.length = nd)
    (hg : C.groups = 1) (hin : WinInput C.Px C.W L localS inp X t rg0) (hG : L.global = B :: C.Ci :: N)
    (hfit : ∀ j, j < nd →
      C.W.d.getD j 0 * (C.W.k.getD j 0 - 1) + 1 ≤ N.getD j 0 + 2 * C.W.p.getD j 0)
    (hs : ∀ u, C.Active u → (localS u).1 ≠ [])
    (hy : EvenBlocks C.Py (torchConvShape C.W C.Co (B :: C.Ci :: N)) t G y)
    (hsy : ∀ u, C.Active u → (y u).shape ≠ []) (h1w : C.Pw.members.length = 1)
    (place : C.Px.members = C.Pw.members ∧ C.Py.members = C.Pw.members) {w : Nat} (hw : w ∈ C.Pw.members) :
    (∀ k < subsize Po ((C.Pw.coord w).getD 0 0) C.Co, ∀ c < subsize Pi ((C.Pw.coord w).getD 1 0) C.Ci,
      ∀ κ, InBounds κ C.W.k → torchConvGradW C.W C.groups C.Ci C.Co (localS w).1 (inp w) (y w).val (k :: c :: κ) =
        torchConvGradW C.W 1 C.Ci C.Co (B :: C.Ci :: N) X G ((startIdx Po ((C.Pw.coord w).getD 0 0) C.Co + k) ::
          (startIdx Pi ((C.Pw.coord w).getD 1 0) C.Ci + c) :: κ)) ∧
    (C.useBias = true → ∀ k < subsize Po ((C.Pw.coord w).getD 0 0) C.Co,
      torchConvGradB C.W C.Co (localS w).1 (y w).val [k] =
        torchConvGradB C.W C.Co (B :: C.Ci :: N) G [startIdx Po ((C.Pw.coord w).getD 0 0) C.Co + k]) ∧
    ∀ i ∈ (C.Pw.coord w), i = 0 := by
  have hkn : C.W.k.length = nd := (winParams_length hW).1
  have hN : N.length = nd := by
    have hgl' : C.Px.shape.length = (B :: C.Ci :: N).length := by rw [← hG, Layout.length_global, hin.length]
    rw [h.shx] at hgl'
    simp at hgl'
    omega
  obtain ⟨px, py⟩ := place
  have hpx : C.Px.members.length = 1 := by rw [px]; exact h1w
  obtain ⟨w', hw'⟩ := List.length_eq_one_iff.1 h1w
  have : w = w' := by rw [hw'] at hw; simpa using hw
  subst this
  obtain ⟨-, -, h1s, ⟨s, ev, -, hz⟩, -, -⟩ := single_worker h hw' (px.trans hw') (py.trans hw')
  obtain ⟨gw, gb, e, k1, -, k2⟩ := C63_channel (rg := fun _ => true) (wt := fun _ _ => (0 : R)) (b := fun _ _ => (0 : R))
    (I := ⟨fun w => (⟨(localS w).1, (localS w).2.1, inp w⟩ : Tensor R), fun _ => true⟩) h h1s
    (hSp.trans hkn.symm) (hN.trans hkn.symm) hg (by rw [hkn]; exact hfit) (serial_blocks h hin hG hpx) hs hy hsy
    (fun _ => ⟨px, py⟩) hw
  rw [channelGradP, h.cast true fun _ => h1s] at e
  simp only at e
  rw [if_pos h1w] at e
  obtain ⟨rfl, rfl⟩ := Prod.mk.inj (Option.some.inj e)
  refine ⟨k1, fun hb => ?_, fun i hi => ?_⟩
  · obtain ⟨f, ef, hf⟩ := k2 hb (by rw [ev]; rfl)
    rw [if_pos hb] at ef
    rw [Option.some.inj ef]
    exact hf
  · rw [ev] at hi
    simp only [List.mem_cons] at hi
    rcases hi with rfl | rfl | hi
    · rfl
    · rfl
    · exact hz i hi

/-- C63, general convolution, weight: every storing worker of `P_w` gets the block, of the shape of its weight, of the
gradient of the sequential convolution; the other workers of `P_w` get tensors without entries. -/
theorem C63_general_weight (hW : winParams nd pk ps pp pd = some C.W) (h : ChanValid C Po Pi Sp)
    (hSp : Sp.length = nd)
    (hg : C.groups = 1) (hin : WinInput C.Px C.W L localS inp X t rg0) (hG : L.global = B :: C.Ci :: N)
    (hfit : ∀ j, j < nd →
      C.W.d.getD j 0 * (C.W.k.getD j 0 - 1) + 1 ≤ N.getD j 0 + 2 * C.W.p.getD j 0)
    (hl : C.Pw.members.length ≠ 1 → WinLimits C.Px C.W L)
    (E : C.Pw.members.length ≠ 1 → GeneralRun C C.Px localS inp dt junk ops eager k U S g)
    (hfin : C.Pw.members.length ≠ 1 → ∀ r, r < C.Px.members.length → (g.ws r).phase = haloPhases C.Px)
    (hp : StoredParams C Po Pi weight bias Wt β) (hs : ∀ u, C.Active u → (localS u).1 ≠ [])
    (hy : EvenBlocks C.Py (torchConvShape C.W C.Co (B :: C.Ci :: N)) t G y)
    (hsy : ∀ u, C.Active u → (y u).shape ≠ [])
    (place : C.Pw.members.length = 1 → C.Px.members = C.Pw.members ∧ C.Py.members = C.Pw.members) :
    (∀ w ∈ C.Pw.members, (∀ i ∈ (C.Pw.coord w).drop 2, i = 0) →
      ∃ z, generalGradW C weight bias rgp localS inp U g rgx rg y w = some z ∧
        z.shape = (weight w).shape ∧ z.dtype = (weight w).dtype ∧
        ∀ k < subsize Po ((C.Pw.coord w).getD 0 0) C.Co, ∀ c < subsize Pi ((C.Pw.coord w).getD 1 0) C.Ci,
          ∀ κ, InBounds κ C.W.k → z.val (k :: c :: κ) = torchConvGradW C.W 1 C.Ci C.Co (B :: C.Ci :: N) X G
            ((startIdx Po ((C.Pw.coord w).getD 0 0) C.Co + k) ::
              (startIdx Pi ((C.Pw.coord w).getD 1 0) C.Ci + c) :: κ)) ∧
    (∀ w ∈ C.Pw.members, ¬ (∀ i ∈ (C.Pw.coord w).drop 2, i = 0) →
      ∃ z, generalGradW C weight bias rgp localS inp U g rgx rg y w = some z ∧ z.shape.prod = 0) := by
  have hcast := h.cast false (by simp)
  have hN : N.length = nd := by
    have hgl' : C.Px.shape.length = (B :: C.Ci :: N).length := by rw [← hG, Layout.length_global, hin.length]
    rw [h.shx] at hgl'
    simp at hgl'
    omega
  by_cases h1w : C.Pw.members.length = 1
  · refine ⟨fun w hw _ => ?_, fun w hw hn => ?_⟩
    · obtain ⟨k1, -, -⟩ := general_single hW h hSp hg hin hG hfit hs hy hsy h1w (place h1w) hw
      refine ⟨⟨(weight w).shape, (weight w).dtype,
        torchConvGradW C.W C.groups C.Ci C.Co (localS w).1 (inp w) (y w).val⟩, by
        rw [generalGradW, hcast]
        simp only
        rw [if_pos h1w], rfl, rfl, k1⟩
    · obtain ⟨-, -, k3⟩ := general_single hW h hSp hg hin hG hfit hs hy hsy h1w (place h1w) hw
      exact absurd (fun i hi => k3 i (List.mem_of_mem_drop hi)) hn
  · obtain ⟨Pwr, e1, wfw, shw, row, memw, cow⟩ := h.weightRoot
    obtain ⟨Pb, e2, -⟩ := h.biasPart
    obtain ⟨Pbr, e3, -⟩ := h.biasRoot
    have hT := general_windows (rgx := rgx) hW h hSp hin hG (hl h1w) (E h1w) (hfin h1w)
    obtain ⟨b1, b2⟩ := received_backward (weight_layer h wfw shw row) weight rgp
      (loc := fun v => (generalLocalPair C C.Px C.yCast Pwr Pb Pbr weight bias rgp localS inp U g rgx rg y v).map
        fun q => torchConvGradW C.W.noPad C.groups ((C.localChannels v).getD 1 0) ((C.localChannels v).getD 0 0)
          q.1.shape q.1.val q.2.val)
      (f := fun v => torchConvGradW C.W.noPad C.groups ((C.localChannels v).getD 1 0)
        ((C.localChannels v).getD 0 0)
        ((generalInputs C.Px localS inp U g rgx).x ((chanBroadcast C.Px C.Pw).broot v)).shape
        ((generalInputs C.Px localS inp U g rgx).x ((chanBroadcast C.Px C.Pw).broot v)).val (chanDy C y v).val)
      (fun v hv => by
        simp only [general_pair (rgp := rgp) (rgx := rgx) (rg := rg) hW h hSp hg hin hG (hl h1w) (E h1w) (hfin h1w) hp
          hs hy hsy e1 e2 e3 hv, Option.map_some])
    have eg : ∀ w, generalGradW C weight bias rgp localS inp U g rgx rg y w =
        receivedGrad (paramLayer Pwr C.Pw) (storedParam Pwr weight rgp) (fun v =>
          (generalLocalPair C C.Px C.yCast Pwr Pb Pbr weight bias rgp localS inp U g rgx rg y v).map fun q =>
            torchConvGradW C.W.noPad C.groups ((C.localChannels v).getD 1 0) ((C.localChannels v).getD 0 0)
              q.1.shape q.1.val q.2.val) w := by
      intro w
      rw [generalGradW, hcast]
      simp only
      rw [if_neg h1w, e1, e2, e3]
    refine ⟨fun w hw hz => ?_, fun w hw hn => ?_⟩
    · have hwr : w ∈ Pwr.members := (memw w).2 ⟨hw, hz⟩
      refine ⟨_, (eg w).trans (b1 w hwr), rfl, rfl, fun k hk c hc κ hκ => ?_⟩
      rw [cow w hwr, shw]
      exact stored_weight h hg (hSp.trans hN.symm) hT hy hw hk hc hκ
    · rw [eg w]
      exact b2 w hw fun hh => hn ((memw w).1 hh).2

/-- C63, general convolution, bias. -/
theorem C63_general_bias (hW : winParams nd pk ps pp pd = some C.W) (h : ChanValid C Po Pi Sp)
    (hSp : Sp.length = nd)
    (hg : C.groups = 1) (hin : WinInput C.Px C.W L localS inp X t rg0) (hG : L.global = B :: C.Ci :: N)
    (hfit : ∀ j, j < nd →
      C.W.d.getD j 0 * (C.W.k.getD j 0 - 1) + 1 ≤ N.getD j 0 + 2 * C.W.p.getD j 0)
    (hl : C.Pw.members.length ≠ 1 → WinLimits C.Px C.W L)
    (E : C.Pw.members.length ≠ 1 → GeneralRun C C.Px localS inp dt junk ops eager k U S g)
    (hfin : C.Pw.members.length ≠ 1 → ∀ r, r < C.Px.members.length → (g.ws r).phase = haloPhases C.Px)
    (hp : StoredParams C Po Pi weight bias Wt β) (hs : ∀ u, C.Active u → (localS u).1 ≠ [])
    (hy : EvenBlocks C.Py (torchConvShape C.W C.Co (B :: C.Ci :: N)) t G y)
    (hsy : ∀ u, C.Active u → (y u).shape ≠ []) (hub : C.useBias = true)
    (place : C.Pw.members.length = 1 → C.Px.members = C.Pw.members ∧ C.Py.members = C.Pw.members) :
    (∀ w ∈ C.Pw.members, (∀ i ∈ (C.Pw.coord w).drop 1, i = 0) →
      ∃ z, generalGradB C weight bias rgp localS inp U g rgx rg y w = some z ∧
        z.shape = (bias w).shape ∧ z.dtype = (bias w).dtype ∧
        ∀ k < subsize Po ((C.Pw.coord w).getD 0 0) C.Co, z.val [k] =
          torchConvGradB C.W C.Co (B :: C.Ci :: N) G [startIdx Po ((C.Pw.coord w).getD 0 0) C.Co + k]) ∧
    (∀ w ∈ C.Pw.members, (C.Pw.coord w).getD 1 0 = 0 → ¬ (∀ i ∈ (C.Pw.coord w).drop 1, i = 0) →
      ∃ z, generalGradB C weight bias rgp localS inp U g rgx rg y w = some z ∧ z.shape.prod = 0) := by
  have hcast := h.cast false (by simp)
  have hN : N.length = nd := by
    have hgl' : C.Px.shape.length = (B :: C.Ci :: N).length := by rw [← hG, Layout.length_global, hin.length]
    rw [h.shx] at hgl'
    simp at hgl'
    omega
  by_cases h1w : C.Pw.members.length = 1
  · refine ⟨fun w hw _ => ?_, fun w hw _ hn => ?_⟩
    · obtain ⟨-, k2, -⟩ := general_single hW h hSp hg hin hG hfit hs hy hsy h1w (place h1w) hw
      refine ⟨⟨(bias w).shape, (bias w).dtype, torchConvGradB C.W C.Co (localS w).1 (y w).val⟩, by
        rw [generalGradB, hcast]
        simp only
        rw [if_pos h1w], rfl, rfl, k2 hub⟩
    · obtain ⟨-, -, k3⟩ := general_single hW h hSp hg hin hG hfit hs hy hsy h1w (place h1w) hw
      exact absurd (fun i hi => k3 i (List.mem_of_mem_drop hi)) hn
  · obtain ⟨Pwr, e1, -⟩ := h.weightRoot
    obtain ⟨Pb, e2, wfb, shb, rob, memb, cob⟩ := h.biasPart
    obtain ⟨Pbr, e3, wfr, shr, ror, memr, cor⟩ := h.biasRoot
    have hT := general_windows (rgx := rgx) hW h hSp hin hG (hl h1w) (E h1w) (hfin h1w)
    obtain ⟨b1, b2⟩ := received_backward (bias_layer h wfr shr ror wfb shb rob) bias rgp
      (loc := fun v => (generalLocalPair C C.Px C.yCast Pwr Pb Pbr weight bias rgp localS inp U g rgx rg y v).map
        fun q => torchConvGradB C.W.noPad ((C.localChannels v).getD 0 0) q.1.shape q.2.val)
      (f := fun v => torchConvGradB C.W.noPad ((C.localChannels v).getD 0 0)
        ((generalInputs C.Px localS inp U g rgx).x ((chanBroadcast C.Px C.Pw).broot v)).shape (chanDy C y v).val)
      (fun v hv => by
        simp only [general_pair (rgp := rgp) (rgx := rgx) (rg := rg) hW h hSp hg hin hG (hl h1w) (E h1w) (hfin h1w) hp
          hs hy hsy e1 e2 e3 ((memb v).1 hv).1, Option.map_some])
    have eg : ∀ w, generalGradB C weight bias rgp localS inp U g rgx rg y w =
        receivedGrad (paramLayer Pbr Pb) (storedParam Pbr bias rgp) (fun v =>
          (generalLocalPair C C.Px C.yCast Pwr Pb Pbr weight bias rgp localS inp U g rgx rg y v).map fun q =>
            torchConvGradB C.W.noPad ((C.localChannels v).getD 0 0) q.1.shape q.2.val) w := by
      intro w
      rw [generalGradB, hcast]
      simp only
      rw [if_neg h1w, e1, e2, e3]
    refine ⟨fun w hw hz => ?_, fun w hw hj0 hn => ?_⟩
    · have hwr : w ∈ Pbr.members := (memr w).2 ⟨hw, hz⟩
      refine ⟨_, (eg w).trans (b1 w hwr), rfl, rfl, fun k hk => ?_⟩
      rw [cor w hwr, shr]
      exact stored_bias h (hSp.trans hN.symm) hT hy wfb shb memb cob hw (hz _ (by
        obtain ⟨o, j, s, ev, -⟩ := h.coordW hw
        rw [ev]; simp)) hk
    · rw [eg w]
      exact b2 w ((memb w).2 ⟨hw, hj0⟩) fun hh => hn ((memr w).1 hh).2

/-- C63: the adjoint broadcasts of the parameters cannot deadlock, whatever the gradients. -/
theorem C63_general_terminates (h : ChanValid C Po Pi Sp) (yw yb : Nat → Tensor R) :
    ∃ Pwr Pb Pbr, weightRoot C.Pw = some Pwr ∧ biasPart C.Pw = some Pb ∧ biasRoot C.Pw = some Pbr ∧
    SafeRun (groupUnion Pwr.members C.Pw.members)
      (bcastBackActs (paramLayer Pwr C.Pw) (storedParam Pwr weight rgp) yw) ∧
    SafeRun (groupUnion Pbr.members Pb.members) (bcastBackActs (paramLayer Pbr Pb) (storedParam Pbr bias rgp) yb) := by
  obtain ⟨Pwr, e1, wfw, shw, row, -⟩ := h.weightRoot
  obtain ⟨Pb, e2, wfb, shb, rob, -⟩ := h.biasPart
  obtain ⟨Pbr, e3, wfr, shr, ror, -⟩ := h.biasRoot
  exact ⟨Pwr, Pb, Pbr, e1, e2, e3,
    (C22_terminates _ (weight_layer h wfw shw row) (storedParam Pwr weight rgp) yw
      (fun hb => by simp [paramLayer] at hb) fun hb => by simp [paramLayer] at hb).2,
    (C22_terminates _ (bias_layer h wfr shr ror wfb shb rob) (storedParam Pbr bias rgp) yb
      (fun hb => by simp [paramLayer] at hb) fun hb => by simp [paramLayer] at hb).2⟩

end

end Verif
