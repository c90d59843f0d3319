import Verif.Conv.Shapes

/-!
# Channel-distributed and general convolution: the sum of the local convolutions
-/

namespace Verif

theorem balanced_cons_shapeAt {P i n : Nat} {Ps is ns : List Nat} (hi : i < P) :
    (Layout.balanced (P :: Ps) (n :: ns)).shapeAt (i :: is) =
      subsize P i n :: (Layout.balanced Ps ns).shapeAt is := by
  show ((List.range P).map fun i => subsize P i n).getD i 0 :: _ = _
  rw [getD_map_range _ _ hi]
  rfl

theorem balanced_cons_startAt {P i n : Nat} {Ps is ns : List Nat} (hi : i < P) :
    (Layout.balanced (P :: Ps) (n :: ns)).startAt (i :: is) =
      startIdx P i n :: (Layout.balanced Ps ns).startAt is := by
  show (((List.range P).map fun i => subsize P i n).take i).sum :: _ = _
  rw [balanced_take_sum _ _ _ (by omega)]
  rfl

theorem startIdx_add_lt {P i n k : Nat} (hi : i < P) (hk : k < subsize P i n) : startIdx P i n + k < n := by
  have h1 : startIdx P (i + 1) n = startIdx P i n + subsize P i n := startIdx_succ P i n
  have h2 := (startIdx_mono P n) (show i + 1 ≤ P by omega)
  rw [startIdx_top (by omega)] at h2
  omega

section
variable {R : Type} [AddCommMonoid R] [Mul R]

/-- The tensors of the workers of `P_x` that the convolution without further padding but `W'.p` is applied
to: its windows read what the windows of the worker's part of the global convolution read. -/
structure WindowsOf (C : ChanConv) (W' : WinParams) (B : Nat) (N : List Nat) (dt : TorchDtype)
    (X : List Nat → R) (T : Nat → Tensor R) : Prop where
  rank : ∀ r ∈ C.Px.members, (T r).shape.length = C.W.k.length + 2
  dtype : ∀ r ∈ C.Px.members, (T r).dtype = dt
  pool : ∀ r ∈ C.Px.members, torchPoolShape W' (T r).shape =
    (Layout.balanced C.Px.shape (torchPoolShape C.W (B :: C.Ci :: N))).shapeAt (C.Px.coord r)
  fit : ∀ r ∈ C.Px.members, ∀ j, j < C.W.k.length →
    C.W.d.getD j 0 * (C.W.k.getD j 0 - 1) + 1 ≤ (T r).shape.getD (j + 2) 0 + 2 * W'.p.getD j 0
  read : ∀ r ∈ C.Px.members, ∀ o κ,
    InBounds o ((Layout.balanced C.Px.shape (torchPoolShape C.W (B :: C.Ci :: N))).shapeAt (C.Px.coord r)) →
    InBounds κ C.W.k →
      winRead 0 (T r).shape (1 :: 1 :: C.W.s) (1 :: 1 :: C.W.d) (0 :: 0 :: W'.p) (T r).val o (0 :: 0 :: κ) =
      winRead 0 (B :: C.Ci :: N) (1 :: 1 :: C.W.s) (1 :: 1 :: C.W.d) (0 :: 0 :: C.W.p) X
        (shiftBy ((Layout.balanced C.Px.shape (torchPoolShape C.W (B :: C.Ci :: N))).startAt (C.Px.coord r)) o)
        (0 :: 0 :: κ)

/-- The parameters used on the workers of `P_w` are the blocks of the global weight `Wt` and, where the
first input channels are, of the global bias `β`. -/
structure ChanParams (C : ChanConv) (Po Pi : Nat) (wt b : Nat → List Nat → R) (Wt β : List Nat → R) :
    Prop where
  weight : ∀ v ∈ C.Pw.members, ∀ k < subsize Po ((C.Pw.coord v).getD 0 0) C.Co,
    ∀ c < subsize Pi ((C.Pw.coord v).getD 1 0) C.Ci, ∀ κ, InBounds κ C.W.k →
      wt v (k :: c :: κ) = Wt ((startIdx Po ((C.Pw.coord v).getD 0 0) C.Co + k) ::
        (startIdx Pi ((C.Pw.coord v).getD 1 0) C.Ci + c) :: κ)
  bias : ∀ v ∈ C.Pw.members, (C.Pw.coord v).getD 1 0 = 0 →
    ∀ k < subsize Po ((C.Pw.coord v).getD 0 0) C.Co,
      b v [k] = β [startIdx Po ((C.Pw.coord v).getD 0 0) C.Co + k]

variable {C : ChanConv} {Po Pi : Nat} {Sp : List Nat} {W' : WinParams} {B : Nat} {N : List Nat}
  {dt : TorchDtype} {X : List Nat → R} {I : Inputs R} {wt b : Nat → List Nat → R} {Wt β : List Nat → R}
  {op : Nat → Tensor R → Option (Tensor R)} {rg : Nat → Bool}

/-- Does worker `v` of `P_w` add the bias? -/
def ChanConv.addsBias (C : ChanConv) (v : Nat) : Bool := (C.Pw.coord v).getD 1 0 == 0 && C.useBias

/-- The local result of worker `v` of `P_w`. -/
def chanMid (C : ChanConv) (Po Pi : Nat) (W' : WinParams) (dt : TorchDtype) (I : Inputs R)
    (wt b : Nat → List Nat → R) (v : Nat) : Tensor R :=
  let x := I.x ((chanBroadcast C.Px C.Pw).broot v)
  let ci := subsize Pi ((C.Pw.coord v).getD 1 0) C.Ci
  let co := subsize Po ((C.Pw.coord v).getD 0 0) C.Co
  ⟨torchConvShape W' co x.shape, dt,
    torchConv W' 1 ci co (wt v) (fun c => if C.addsBias v then b v [c] else 0) x.shape x.val⟩

/-- The local operators are convolutions with the local numbers of channels. -/
def LocalConvs (C : ChanConv) (Po Pi : Nat) (W' : WinParams) (wt b : Nat → List Nat → R)
    (op : Nat → Tensor R → Option (Tensor R)) : Prop :=
  ∀ v ∈ C.Pw.members, ∀ x, op v x =
    torchConvLayer W' 1 (subsize Pi ((C.Pw.coord v).getD 1 0) C.Ci) (subsize Po ((C.Pw.coord v).getD 0 0) C.Co)
      (C.addsBias v) (wt v) (b v) x

omit [Mul R] in
/-- Shape of the tensor of a worker of `P_x` and of what its windows give. -/
theorem WindowsOf.shape (h : ChanValid C Po Pi Sp) (hT : WindowsOf C W' B N dt X I.x) {r : Nat}
    (hr : r ∈ C.Px.members) {j : Nat} {s : List Nat} (e : C.Px.coord r = 0 :: j :: s) (hj : j < Pi) :
    ∃ n, (I.x r).shape = subsize 1 0 B :: subsize Pi j C.Ci :: n ∧
      torchOut W' n = (Layout.balanced Sp (torchOut C.W N)).shapeAt s := by
  obtain ⟨a, c, n, en⟩ := two_heads (hT.rank r hr)
  have hp := hT.pool r hr
  rw [en, e, h.shx] at hp
  rw [show torchPoolShape C.W (B :: C.Ci :: N) = B :: C.Ci :: torchOut C.W N from rfl,
    balanced_cons_shapeAt Nat.one_pos, balanced_cons_shapeAt hj] at hp
  change a :: c :: torchOut W' n = _ at hp
  injection hp with h1 hp
  injection hp with h2 h3
  exact ⟨n, by rw [en, h1, h2], h3⟩

theorem broot_coord (h : ChanValid C Po Pi Sp) {v : Nat} (hv : v ∈ C.Pw.members) {o j : Nat} {s : List Nat}
    (e : C.Pw.coord v = o :: j :: s) : (chanBroadcast C.Px C.Pw).broot v ∈ C.Px.members ∧
      C.Px.coord ((chanBroadcast C.Px C.Pw).broot v) = 0 :: j :: s := by
  have hr : (chanBroadcast C.Px C.Pw).broot v ∈ C.Px.members := h.bcast.root_mem hv
  refine ⟨hr, ?_⟩
  have := (h.feeds hr hv).1 ((h.bcast.rel hr hv).2 rfl)
  rw [this, e]
  rfl

/-- Shape of a local result. -/
theorem chanMid_shape (h : ChanValid C Po Pi Sp) (hT : WindowsOf C W' B N dt X I.x) {v : Nat}
    (hv : v ∈ C.Pw.members) {o j : Nat} {s : List Nat} (e : C.Pw.coord v = o :: j :: s) (hj : j < Pi) :
    (chanMid C Po Pi W' dt I wt b v).shape =
      subsize 1 0 B :: subsize Po o C.Co :: (Layout.balanced Sp (torchOut C.W N)).shapeAt s := by
  obtain ⟨hr, er⟩ := broot_coord h hv e
  obtain ⟨n, en, ho⟩ := hT.shape h hr er hj
  show torchConvShape W' (subsize Po ((C.Pw.coord v).getD 0 0) C.Co) _ = _
  rw [en, e, ← ho]
  rfl

theorem chan_stack (h : ChanValid C Po Pi Sp) (hW : W'.k = C.W.k ∧ W'.s = C.W.s ∧ W'.d = C.W.d)
    (hT : WindowsOf C W' B N dt X I.x) (hop : LocalConvs C Po Pi W' wt b op)
    (hs : ∀ u, u ∈ C.Px.members ∨ u ∈ C.Pw.members ∨ u ∈ C.Py.members → (I.x u).shape ≠ []) :
    Stack (chanBroadcast C.Px C.Pw) (chanReduce C.Pw C.yCast) I op (chanMid C Po Pi W' dt I wt b) := by
  refine ⟨h.bcast, h.reduce, rfl, hs, fun v hv r hr hf => ?_, fun v hv => ?_, ?_⟩
  · have hv' : v ∈ C.Pw.members := hv
    have hr' : r ∈ C.Px.members := hr
    obtain ⟨o, j, s, ev, ho, hj, -⟩ := h.coordW hv'
    have er : (chanBroadcast C.Px C.Pw).broot v = r := (h.bcast.rel hr hv).1 hf
    have ec : C.Px.coord r = 0 :: j :: s := by
      rw [← er]; exact (broot_coord h hv' ev).2
    obtain ⟨n, en, -⟩ := hT.shape h hr' ec hj
    rw [hop v hv', torchConvLayer, if_pos, hT.dtype r hr', chanMid, er]
    obtain ⟨p1, p2, -⟩ := h.pos
    refine ⟨?_, ?_, Nat.one_pos, Nat.one_dvd _, Nat.one_dvd _, ?_, ?_, fun i hi => ?_⟩
    · exact subsize_pos p2 h.channels.1
    · exact subsize_pos p1 h.channels.2
    · rw [hW.1]; exact hT.rank r hr'
    · rw [en, ev]; rfl
    · rw [hW.1] at hi ⊢
      rw [hW.2.2]
      exact hT.fit r hr' i hi
  · obtain ⟨o, j, s, ev, ho, hj, -⟩ := h.coordW hv
    rw [chanMid_shape h hT hv ev hj]
    simp
  · intro u hu v hv w hw h1 h2
    obtain ⟨o, j, s, ev, ho, hj, -⟩ := h.coordW hv
    obtain ⟨o', j', s', ew, ho', hj', -⟩ := h.coordW hw
    have e1 := (h.collects hu hv).1 h1
    have e2 := (h.collects hu hw).1 h2
    rw [ev] at e1
    rw [ew] at e2
    refine ⟨?_, rfl⟩
    rw [chanMid_shape h hT hv ev hj, chanMid_shape h hT hw ew hj']
    have : o = o' := e1.1.trans e2.1.symm
    have hs' : s = s' := e1.2.trans e2.2.symm
    rw [this, hs']

/-- The sum of the local convolutions is the block of the global one. -/
theorem chan_sum (h : ChanValid C Po Pi Sp) (hW : W'.k = C.W.k ∧ W'.s = C.W.s ∧ W'.d = C.W.d)
    (hT : WindowsOf C W' B N dt X I.x) (hp : ChanParams C Po Pi wt b Wt β)
    {u : Nat} (hu : u ∈ C.Py.members) {l : List Nat}
    (hl : InBounds l ((Layout.balanced C.Py.shape (torchConvShape C.W C.Co (B :: C.Ci :: N))).shapeAt
      (C.Py.coord u))) :
    ((C.Pw.members.filter fun v => decide ((chanReduce C.Pw C.yCast).Collects u v)).map fun v =>
      (chanMid C Po Pi W' dt I wt b v).val l).sum =
    torchConv C.W 1 C.Ci C.Co Wt (fun c => if C.useBias then β [c] else 0) (B :: C.Ci :: N) X
      (shiftBy ((Layout.balanced C.Py.shape (torchConvShape C.W C.Co (B :: C.Ci :: N))).startAt
        (C.Py.coord u)) l) := by
  obtain ⟨o, s, eu, -, ho, hs⟩ := h.coordY hu
  obtain ⟨hPo, hPi, -⟩ := h.pos
  rw [h.shy, eu] at hl ⊢
  rw [show torchConvShape C.W C.Co (B :: C.Ci :: N) = B :: C.Co :: torchOut C.W N from rfl] at hl ⊢
  rw [balanced_cons_shapeAt Nat.one_pos, balanced_cons_shapeAt ho] at hl
  rw [balanced_cons_startAt Nat.one_pos, balanced_cons_startAt ho]
  obtain ⟨bi, k, p, rfl, hbi, hk, hpb⟩ := inBounds_cons2 hl
  -- what the window reads at input channel `c`
  let A : Nat → List Nat → R := fun c κ =>
    winRead 0 (B :: C.Ci :: N) (1 :: 1 :: C.W.s) (1 :: 1 :: C.W.d) (0 :: 0 :: C.W.p) X
      ((startIdx 1 0 B + bi) :: c :: shiftBy ((Layout.balanced Sp (torchOut C.W N)).startAt s) p) (0 :: 0 :: κ)
  let F : Nat → R := fun c => boxSum C.W.k fun κ => Wt ((startIdx Po o C.Co + k) :: c :: κ) * A c κ
  let g : List Nat → R := fun c =>
    (if c.getD 1 0 = 0 then (if C.useBias then β [startIdx Po o C.Co + k] else 0) else 0) +
      ∑ i ∈ Finset.range (subsize Pi (c.getD 1 0) C.Ci), F (startIdx Pi (c.getD 1 0) C.Ci + i)
  have hsum : ((C.Pw.members.filter fun v => decide ((chanReduce C.Pw C.yCast).Collects u v)).map fun v =>
      (chanMid C Po Pi W' dt I wt b v).val (bi :: k :: p)).sum =
      ((C.Pw.members.filter fun v => decide ((C.Pw.coord v).getD 0 0 = o ∧ (C.Pw.coord v).drop 2 = s)).map
        fun v => g (C.Pw.coord v)).sum := by
    have hfil : (C.Pw.members.filter fun v => decide ((chanReduce C.Pw C.yCast).Collects u v)) =
        C.Pw.members.filter fun v => decide ((C.Pw.coord v).getD 0 0 = o ∧ (C.Pw.coord v).drop 2 = s) :=
      List.filter_congr fun v hv => decide_eq_decide.2 (by rw [h.collects hu hv, eu]; rfl)
    rw [hfil]
    congr 1
    refine List.map_congr_left fun v hv => ?_
    have hv1 : v ∈ C.Pw.members := List.mem_of_mem_filter hv
    have hv2 : (C.Pw.coord v).getD 0 0 = o ∧ (C.Pw.coord v).drop 2 = s := of_decide_eq_true (List.mem_filter.1 hv).2
    obtain ⟨o', j, s', ev, -, hj, -⟩ := h.coordW hv1
    rw [ev] at hv2
    obtain ⟨e1, e2⟩ := hv2
    change o' = o at e1
    change s' = s at e2
    subst e1 e2
    obtain ⟨hr, er⟩ := broot_coord h hv1 ev
    show torchConv W' 1 (subsize Pi ((C.Pw.coord v).getD 1 0) C.Ci) (subsize Po ((C.Pw.coord v).getD 0 0) C.Co)
      (wt v) (fun c => if C.addsBias v then b v [c] else 0) _ _ (bi :: k :: p) = _
    have hpw := hp.weight v hv1
    have hpb' := hp.bias v hv1
    rw [ev] at hpw hpb' ⊢
    simp only [List.getD_cons_zero, List.getD_cons_succ] at hpw hpb' ⊢
    unfold torchConv
    simp only [g, List.getD_cons_zero, List.getD_cons_succ, Nat.div_one]
    congr 1
    · unfold ChanConv.addsBias
      rw [ev]
      by_cases hj0 : j = 0
      · by_cases hB : C.useBias = true
        · simp [hj0, hB, hpb' hj0 k hk]
        · simp [hB]
      · simp [hj0]
    · refine Finset.sum_congr rfl fun c hc => ?_
      have hc' := Finset.mem_range.1 hc
      simp only [F, A]
      rw [hW.1]
      refine boxSum_congr fun κ hκ => ?_
      rw [hpw k hk c hc' κ hκ, hW.2.1, hW.2.2, Nat.div_eq_of_lt hk, Nat.zero_mul, Nat.zero_add]
      congr 1
      have hread := hT.read _ hr (bi :: c :: p) κ (by
        rw [er, h.shx, show torchPoolShape C.W (B :: C.Ci :: N) = B :: C.Ci :: torchOut C.W N from rfl,
          balanced_cons_shapeAt Nat.one_pos, balanced_cons_shapeAt hj]
        exact ⟨hbi, hc', hpb⟩) hκ
      rw [hread, er, h.shx, show torchPoolShape C.W (B :: C.Ci :: N) = B :: C.Ci :: torchOut C.W N from rfl,
        balanced_cons_startAt Nat.one_pos, balanced_cons_startAt hj]
      rfl
  refine hsum.trans ?_
  rw [members_filter_sum h.wfw (fun c => c.getD 0 0 = o ∧ c.drop 2 = s) g, h.shw]
  show (∑ a ∈ Finset.range Po, ∑ j ∈ Finset.range Pi, boxSum Sp fun t =>
    if a = o ∧ t = s then g (a :: j :: t) else 0) = _
  rw [Finset.sum_eq_single_of_mem o (Finset.mem_range.2 ho) fun a _ ha => by simp [ha, boxSum_zero]]
  refine Eq.trans (Finset.sum_congr rfl (g := fun j => g (o :: j :: s)) fun j _ =>
    Eq.trans (boxSum_congr fun t _ => by simp) (boxSum_pick hs fun t => g (o :: j :: t))) ?_
  simp only [g, List.getD_cons_zero, List.getD_cons_succ, Finset.sum_add_distrib]
  show _ = (if C.useBias then β [startIdx Po o C.Co + k] else 0) + _
  congr 1
  · rw [Finset.sum_eq_single_of_mem 0 (Finset.mem_range.2 hPi) fun j _ hj => by simp [hj]]
    simp
  · rw [sum_even hPi C.Ci F]
    have hlt := startIdx_add_lt ho hk
    simp only [Nat.div_one, Nat.div_eq_of_lt hlt, Nat.zero_mul, Nat.zero_add, F, A]

/-- What every worker gets: the workers of `P_y` their blocks of the global convolution, the other workers
of the layer tensors without entries. -/
theorem chan_forward (h : ChanValid C Po Pi Sp) (hW : W'.k = C.W.k ∧ W'.s = C.W.s ∧ W'.d = C.W.d)
    (hT : WindowsOf C W' B N dt X I.x) (hop : LocalConvs C Po Pi W' wt b op)
    (hp : ChanParams C Po Pi wt b Wt β)
    (hs : ∀ u, u ∈ C.Px.members ∨ u ∈ C.Pw.members ∨ u ∈ C.Py.members → (I.x u).shape ≠ []) :
    (∀ u ∈ C.Py.members, ∃ t,
      stackForward (chanBroadcast C.Px C.Pw) (chanReduce C.Pw C.yCast) I op rg u = some t ∧
      t.shape = (Layout.balanced C.Py.shape (torchConvShape C.W C.Co (B :: C.Ci :: N))).shapeAt (C.Py.coord u) ∧
      t.dtype = dt ∧
      ∀ l, InBounds l ((Layout.balanced C.Py.shape (torchConvShape C.W C.Co (B :: C.Ci :: N))).shapeAt
          (C.Py.coord u)) →
        t.val l = torchConv C.W 1 C.Ci C.Co Wt (fun c => if C.useBias then β [c] else 0) (B :: C.Ci :: N) X
          (shiftBy ((Layout.balanced C.Py.shape (torchConvShape C.W C.Co (B :: C.Ci :: N))).startAt
            (C.Py.coord u)) l)) ∧
    (∀ w, w ∈ C.Px.members ∨ w ∈ C.Pw.members → w ∉ C.Py.members →
      ∃ z, stackForward (chanBroadcast C.Px C.Pw) (chanReduce C.Pw C.yCast) I op rg w = some z ∧
        z.shape.prod = 0) := by
  have st := chan_stack h hW hT hop hs
  obtain ⟨f1, f2, -⟩ := st.forward (rg := rg)
  refine ⟨fun u hu => ?_, fun w hw hy => f2 w hw hy⟩
  obtain ⟨v, hv, hc, e⟩ := f1 u hu
  have hv' : v ∈ C.Pw.members := hv
  refine ⟨_, e, ?_, rfl, fun l hl => chan_sum h hW hT hp hu hl⟩
  obtain ⟨o, s, eu, -, ho, -⟩ := h.coordY hu
  obtain ⟨o', j, s', ev, -, hj, -⟩ := h.coordW hv'
  have e1 := (h.collects hu hv').1 hc
  rw [ev, eu] at e1
  obtain ⟨e1, e2⟩ := e1
  change o' = o at e1
  change s' = s at e2
  subst e1 e2
  show (chanMid C Po Pi W' dt I wt b v).shape = _
  rw [chanMid_shape h hT hv' ev hj, eu, h.shy,
    show torchConvShape C.W C.Co (B :: C.Ci :: N) = B :: C.Co :: torchOut C.W N from rfl,
    balanced_cons_shapeAt Nat.one_pos, balanced_cons_shapeAt ho]

end

end Verif
