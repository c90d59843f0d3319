import Verif.Conv.Core

/-!
# Channel-distributed convolution: property C43
-/

namespace Verif

/-- The tensors `x u` of the workers of `P` are the blocks of the tensor `X` of shape `G`, cut evenly. -/
structure EvenBlocks {R : Type} (P : Cart) (G : List Nat) (dt : TorchDtype) (X : List Nat → R)
    (x : Nat → Tensor R) : Prop where
  shape : ∀ u ∈ P.members, (x u).shape = (Layout.balanced P.shape G).shapeAt (P.coord u)
  dtype : ∀ u ∈ P.members, (x u).dtype = dt
  val : ∀ u ∈ P.members, ∀ l, InBounds l ((Layout.balanced P.shape G).shapeAt (P.coord u)) →
    (x u).val l = X (shiftBy ((Layout.balanced P.shape G).startAt (P.coord u)) l)

/-- Worker `u` takes part in the layer. -/
def ChanConv.Active (C : ChanConv) (u : Nat) : Prop :=
  u ∈ C.Px.members ∨ u ∈ C.Pw.members ∨ u ∈ C.Py.members

/-! ## Windows along dimensions of kernel size 1 -/

theorem winPos_point (s d p o κ : List Nat) (i : Nat) :
    winPos (1 :: s) (1 :: d) (0 :: p) (i :: o) (0 :: κ) = (i : Int) :: winPos s d p o κ := by
  simp only [winPos, List.length_cons, List.range_succ_eq_map, List.map_cons, List.map_map]
  simp [Function.comp_def]

theorem winRead_point {α : Type} (v : α) {n : Nat} (S s d p : List Nat) (x : List Nat → α) {i : Nat}
    (o κ : List Nat) (hi : i < n) :
    winRead v (n :: S) (1 :: s) (1 :: d) (0 :: p) x (i :: o) (0 :: κ) =
      winRead v S s d p (fun l => x (i :: l)) o κ := by
  unfold winRead
  rw [winPos_point]
  unfold extend
  by_cases h : InBoundsI (winPos s d p o κ) S
  · rw [if_pos h, if_pos ⟨⟨by omega, by omega⟩, h⟩]
    simp
  · rw [if_neg h, if_neg fun hh => h hh.2]

theorem winRead_congr {α : Type} {v : α} {S s d p : List Nat} {x y : List Nat → α} (o κ : List Nat)
    (h : ∀ l, InBounds l S → x l = y l) : winRead v S s d p x o κ = winRead v S s d p y o κ := by
  unfold winRead extend
  split
  · rename_i hb
    apply h
    have hb' := inBoundsI_iff.1 hb
    rw [inBounds_iff, List.length_map]
    refine ⟨hb'.1, fun j hj => ?_⟩
    have := hb'.2 j hj
    rw [List.getD_eq_getElem _ _ (by rw [List.length_map, hb'.1]; exact hj), List.getElem_map]
    rw [List.getD_eq_getElem _ _ (by rw [hb'.1]; exact hj)] at this
    omega
  · rfl

theorem subsize_one (n : Nat) : subsize 1 0 n = n := by simp [subsize, Nat.mod_one]

/-- Over a partition with one worker per dimension the only block is everything. -/
theorem ones_block {Sp N s : List Nat} (h1 : ∀ n ∈ Sp, n = 1) (hl : Sp.length = N.length)
    (hs : InBounds s Sp) : (Layout.balanced Sp N).shapeAt s = N ∧
      ∀ p : List Nat, p.length = N.length → shiftBy ((Layout.balanced Sp N).startAt s) p = p := by
  induction Sp generalizing N s with
  | nil =>
    match N, s, hl, hs with
    | [], [], _, _ =>
      refine ⟨rfl, fun p hp => ?_⟩
      rw [List.length_eq_zero_iff.1 hp]
      rfl
  | cons n Sp ih =>
    match N, s, hl, hs with
    | m :: N, i :: s, hl, hs =>
      have hn := h1 n (by simp)
      subst hn
      have hi : i = 0 := Nat.lt_one_iff.1 hs.1
      subst hi
      obtain ⟨e1, e2⟩ := ih (fun n hn => h1 n (by simp [hn])) (by simpa using hl) hs.2
      rw [balanced_cons_shapeAt Nat.one_pos, balanced_cons_startAt Nat.one_pos, e1, subsize_one, startIdx_zero]
      refine ⟨rfl, fun p hp => ?_⟩
      match p, hp with
      | a :: p, hp =>
        rw [shiftBy, Nat.zero_add, e2 p (by simpa using hp)]

section
variable {R : Type} [AddCommMonoid R] [Mul R] {C : ChanConv} {Po Pi : Nat} {Sp : List Nat} {B : Nat} {N : List Nat}
  {dt : TorchDtype} {X : List Nat → R} {I : Inputs R} {wt b : Nat → List Nat → R} {Wt β : List Nat → R}
  {rg : Nat → Bool}

omit [Mul R] in
theorem channel_windows (h : ChanValid C Po Pi Sp) (h1 : ∀ n ∈ Sp, n = 1) (hSp : Sp.length = C.W.k.length)
    (hN : N.length = C.W.k.length)
    (hfit : ∀ j, j < C.W.k.length →
      C.W.d.getD j 0 * (C.W.k.getD j 0 - 1) + 1 ≤ N.getD j 0 + 2 * C.W.p.getD j 0)
    (hx : EvenBlocks C.Px (B :: C.Ci :: N) dt X I.x) : WindowsOf C C.W B N dt X I.x := by
  have hsh : ∀ r ∈ C.Px.members, ∀ j s, C.Px.coord r = 0 :: j :: s → j < Pi → InBounds s Sp →
      (I.x r).shape = subsize 1 0 B :: subsize Pi j C.Ci :: N := by
    intro r hr j s e hj hs
    rw [hx.shape r hr, e, h.shx, balanced_cons_shapeAt Nat.one_pos, balanced_cons_shapeAt hj,
      (ones_block h1 (hSp.trans hN.symm) hs).1]
  refine ⟨fun r hr => ?_, hx.dtype, fun r hr => ?_, fun r hr i hi => ?_, fun r hr o κ ho hκ => ?_⟩
  · obtain ⟨j, s, e, hj, hs⟩ := h.coordX hr
    rw [hsh r hr j s e hj hs]
    simp [hN]
  · obtain ⟨j, s, e, hj, hs⟩ := h.coordX hr
    rw [hsh r hr j s e hj hs, e, h.shx,
      show torchPoolShape C.W (B :: C.Ci :: N) = B :: C.Ci :: torchOut C.W N from rfl,
      balanced_cons_shapeAt Nat.one_pos, balanced_cons_shapeAt hj,
      (ones_block h1 (by rw [length_torchOut, hN, hSp]) hs).1]
    rfl
  · obtain ⟨j, s, e, hj, hs⟩ := h.coordX hr
    rw [hsh r hr j s e hj hs]
    exact hfit i hi
  · obtain ⟨j, s, e, hj, hs⟩ := h.coordX hr
    have hv := hx.val r hr
    rw [e, h.shx, balanced_cons_shapeAt Nat.one_pos, balanced_cons_shapeAt hj, balanced_cons_startAt Nat.one_pos,
      balanced_cons_startAt hj, (ones_block h1 (hSp.trans hN.symm) hs).1] at hv
    have hN' : Sp.length = (torchOut C.W N).length := by rw [length_torchOut, hN, hSp]
    rw [e, h.shx, show torchPoolShape C.W (B :: C.Ci :: N) = B :: C.Ci :: torchOut C.W N from rfl,
      balanced_cons_shapeAt Nat.one_pos, balanced_cons_shapeAt hj, (ones_block h1 hN' hs).1] at ho
    rw [e, h.shx, show torchPoolShape C.W (B :: C.Ci :: N) = B :: C.Ci :: torchOut C.W N from rfl,
      balanced_cons_startAt Nat.one_pos, balanced_cons_startAt hj, hsh r hr j s e hj hs]
    obtain ⟨bi, c, p, rfl, hbi, hc, hp⟩ := inBounds_cons2 ho
    rw [winRead_point _ _ _ _ _ _ _ _ hbi, winRead_point _ _ _ _ _ _ _ _ hc]
    show _ = winRead 0 _ _ _ _ _ ((startIdx 1 0 B + bi) :: (startIdx Pi j C.Ci + c) :: shiftBy _ p) _
    rw [(ones_block h1 hN' hs).2 p hp.length_eq, winRead_point _ _ _ _ _ _ _ _ (startIdx_add_lt Nat.one_pos hbi),
      winRead_point _ _ _ _ _ _ _ _ (startIdx_add_lt hj hc)]
    refine winRead_congr _ _ fun l hl => ?_
    rw [hv (bi :: c :: l) ⟨hbi, hc, hl⟩]
    show X (_ :: _ :: shiftBy _ l) = _
    rw [(ones_block h1 (hSp.trans hN.symm) hs).2 l hl.length_eq]

theorem channel_local (h : ChanValid C Po Pi Sp) (hg : C.groups = 1) :
    LocalConvs C Po Pi C.W wt b (channelLocal C wt b) := by
  intro v hv x
  obtain ⟨e0, e1⟩ := h.localChannels hv
  have hb : C.storesBias v = C.addsBias v := by
    rw [ChanConv.storesBias, ChanConv.addsBias, Cart.index_eq hv, Option.getD_some]
  rw [channelLocal, e0, e1, hg, hb]

/-- One worker for everything: the PyTorch layer on its tensor. -/
theorem channel_serial (h : ChanValid C Po Pi Sp) {w : Nat} (hw : C.Pw.members = [w])
    (hx : C.Px.members = [w]) (hy : C.Py.members = [w]) (hT : WindowsOf C C.W B N dt X I.x)
    (hp : ChanParams C Po Pi wt b Wt β) :
    ∃ t, torchConvLayer C.W 1 C.Ci C.Co C.useBias (wt w) (b w) (I.x w) = some t ∧
      t.shape = (Layout.balanced C.Py.shape (torchConvShape C.W C.Co (B :: C.Ci :: N))).shapeAt (C.Py.coord w) ∧
      t.dtype = dt ∧
      ∀ l, InBounds l ((Layout.balanced C.Py.shape (torchConvShape C.W C.Co (B :: C.Ci :: N))).shapeAt
          (C.Py.coord w)) →
        t.val l = torchConv C.W 1 C.Ci C.Co Wt (fun c => if C.useBias then β [c] else 0) (B :: C.Ci :: N) X
          (shiftBy ((Layout.balanced C.Py.shape (torchConvShape C.W C.Co (B :: C.Ci :: N))).startAt
            (C.Py.coord w)) l) := by
  have hw' : w ∈ C.Pw.members := by rw [hw]; simp
  have hx' : w ∈ C.Px.members := by rw [hx]; simp
  have hy' : w ∈ C.Py.members := by rw [hy]; simp
  have hone : Po = 1 ∧ Pi = 1 := by
    have e := h.wfw.size
    rw [hw, h.shw] at e
    simp only [List.length_singleton, List.prod_cons] at e
    exact ⟨Nat.eq_one_of_mul_eq_one_right e.symm,
      Nat.eq_one_of_mul_eq_one_right (Nat.eq_one_of_mul_eq_one_left e.symm)⟩
  obtain ⟨o, j, s, ev, ho, hj, hs⟩ := h.coordW hw'
  obtain ⟨rfl, rfl⟩ := hone
  have ho0 : o = 0 := Nat.lt_one_iff.1 ho
  have hj0 : j = 0 := Nat.lt_one_iff.1 hj
  subst ho0 hj0
  have hroot : (chanBroadcast C.Px C.Pw).broot w = w := by
    have := (broot_coord h hw' ev).1
    rw [hx] at this
    simpa using this
  have hc : C.Px.coord w = 0 :: 0 :: s := by rw [← hroot]; exact (broot_coord h hw' ev).2
  obtain ⟨n, en, -⟩ := hT.shape h hx' hc Nat.one_pos
  have hadd : C.addsBias w = C.useBias := by simp [ChanConv.addsBias, ev]
  have hval : torchConvLayer C.W 1 C.Ci C.Co C.useBias (wt w) (b w) (I.x w) =
      some (chanMid C 1 1 C.W dt I wt b w) := by
    rw [torchConvLayer, if_pos, hT.dtype w hx', chanMid, hroot, ev, hadd]
    · simp only [List.getD_cons_zero, List.getD_cons_succ, subsize_one]
    · refine ⟨h.channels.1, h.channels.2, Nat.one_pos, Nat.one_dvd _, Nat.one_dvd _, hT.rank w hx', ?_,
        fun i hi => hT.fit w hx' i hi⟩
      rw [en, subsize_one]
      show subsize 1 0 C.Ci = _
      rw [subsize_one]
  obtain ⟨o', s', eu, -, ho', hs'⟩ := h.coordY hy'
  have ho0 : o' = 0 := Nat.lt_one_iff.1 ho'
  subst ho0
  have hss : s = s' := by
    have e1 : ∀ {P : Cart}, P.members = [w] → P.coord w = getCoords P.shape 0 := by
      intro P hP
      rw [Cart.coord, hP]
      simp
    have a := e1 hw
    have c := e1 hy
    rw [ev, h.shw] at a
    rw [eu, h.shy] at c
    injection a.trans c.symm with _ a
    injection a
  subst hss
  have hcol : (chanReduce C.Pw C.yCast).Collects w w := by
    rw [h.collects hy' hw', ev, eu]
    exact ⟨rfl, rfl⟩
  refine ⟨_, hval, ?_, rfl, fun l hl => ?_⟩
  · rw [chanMid_shape h hT hw' ev hj, eu, h.shy,
      show torchConvShape C.W C.Co (B :: C.Ci :: N) = B :: C.Co :: torchOut C.W N from rfl,
      balanced_cons_shapeAt Nat.one_pos, balanced_cons_shapeAt ho']
  · rw [← chan_sum (W' := C.W) h ⟨rfl, rfl, rfl⟩ hT hp hy' hl, hw]
    simp [hcol]

/-- C43: with evenly cut input channels and the blocks of `Wt` and `β` as local parameters, the workers of
`P_y` get the blocks, cut evenly along the output channels, of the sequential convolution of the global
tensor with `Wt` and `β`, the bias counted once; the other workers of the layer get tensors without entries.
A partition `P_w` of one worker needs the three partitions on the same worker. -/
theorem C43_forward (h : ChanValid C Po Pi Sp) (h1 : ∀ n ∈ Sp, n = 1) (hSp : Sp.length = C.W.k.length)
    (hN : N.length = C.W.k.length) (hg : C.groups = 1)
    (hfit : ∀ j, j < C.W.k.length →
      C.W.d.getD j 0 * (C.W.k.getD j 0 - 1) + 1 ≤ N.getD j 0 + 2 * C.W.p.getD j 0)
    (hx : EvenBlocks C.Px (B :: C.Ci :: N) dt X I.x) (hp : ChanParams C Po Pi wt b Wt β)
    (hs : ∀ u, C.Active u → (I.x u).shape ≠ [])
    (place : C.Pw.members.length = 1 → C.Px.members = C.Pw.members ∧ C.Py.members = C.Pw.members) :
    (∃ out : Nat → Tensor R, (∀ u ∈ C.Py.members, channelForward C wt b I rg u = some (out u)) ∧
      EvenBlocks C.Py (torchConvShape C.W C.Co (B :: C.Ci :: N)) dt
        (torchConv C.W 1 C.Ci C.Co Wt (fun c => if C.useBias then β [c] else 0) (B :: C.Ci :: N) X) out) ∧
    (∀ w, C.Active w → w ∉ C.Py.members → ∃ z, channelForward C wt b I rg w = some z ∧ z.shape.prod = 0) ∧
    (∀ w, ¬ C.Active w → channelForward C wt b I rg w = some (I.x w)) := by
  have hT := channel_windows h h1 hSp hN hfit hx
  have hact : ∀ w, C.Active w → ¬ (w ∉ C.Px.members ∧ w ∉ C.Py.members ∧ w ∉ C.Pw.members) := by
    rintro w (hw | hw | hw) ⟨a, b, c⟩
    · exact a hw
    · exact c hw
    · exact b hw
  have key : (∀ u ∈ C.Py.members, ∃ t, channelForward C wt b I rg u = some t ∧
      t.shape = (Layout.balanced C.Py.shape (torchConvShape C.W C.Co (B :: C.Ci :: N))).shapeAt (C.Py.coord u) ∧
      t.dtype = dt ∧
      ∀ l, InBounds l ((Layout.balanced C.Py.shape (torchConvShape C.W C.Co (B :: C.Ci :: N))).shapeAt
          (C.Py.coord u)) →
        t.val l = torchConv C.W 1 C.Ci C.Co Wt (fun c => if C.useBias then β [c] else 0) (B :: C.Ci :: N) X
          (shiftBy ((Layout.balanced C.Py.shape (torchConvShape C.W C.Co (B :: C.Ci :: N))).startAt
            (C.Py.coord u)) l)) ∧
      ∀ w, C.Active w → w ∉ C.Py.members →
        ∃ z, channelForward C wt b I rg w = some z ∧ z.shape.prod = 0 := by
    have hcast := h.cast true fun _ => h1
    by_cases h1w : C.Pw.members.length = 1
    · obtain ⟨px, py⟩ := place h1w
      obtain ⟨w, hw⟩ := List.length_eq_one_iff.1 h1w
      rw [hw] at px py
      refine ⟨fun u hu => ?_, fun v hv hn => ?_⟩
      · have huw : u = w := by rw [py] at hu; simpa using hu
        subst huw
        obtain ⟨t, e, ht⟩ := channel_serial h hw px py hT hp
        refine ⟨t, ?_, ht⟩
        rw [channelForward, if_neg (hact u (Or.inr (Or.inr hu))), hcast]
        simp only
        rw [if_pos h1w, if_pos (by rw [hw]; simp), hg, e]
      · exfalso
        apply hn
        rw [py]
        rcases hv with hv | hv | hv
        · rwa [px] at hv
        · rwa [hw] at hv
        · rwa [py] at hv
    · obtain ⟨f1, f2⟩ := chan_forward (rg := rg) h (W' := C.W) ⟨rfl, rfl, rfl⟩ hT (channel_local h hg) hp hs
      have e : ∀ w, C.Active w → channelForward C wt b I rg w =
          stackForward (chanBroadcast C.Px C.Pw) (chanReduce C.Pw C.yCast) I (channelLocal C wt b) rg w := by
        intro w hw
        rw [channelForward, if_neg (hact w hw), hcast]
        simp only
        rw [if_neg h1w]
      refine ⟨fun u hu => ?_, fun w hw hn => ?_⟩
      · rw [e u (Or.inr (Or.inr hu))]
        exact f1 u hu
      · rw [e w hw]
        exact f2 w (hw.elim Or.inl fun hh => hh.elim Or.inr fun h => absurd h hn) hn
  refine ⟨?_, key.2, fun w hw => ?_⟩
  · have : Nonempty (Tensor R) := ⟨I.x 0⟩
    have k1 := key.1
    choose! out hout using k1
    exact ⟨out, fun u hu => (hout u hu).1, fun u hu => (hout u hu).2.1, fun u hu => (hout u hu).2.2.1,
      fun u hu => (hout u hu).2.2.2⟩
  · rw [channelForward, if_pos]
    exact ⟨fun hh => hw (Or.inl hh), fun hh => hw (Or.inr (Or.inr hh)), fun hh => hw (Or.inr (Or.inl hh))⟩

/-- C43: the collectives of the forward pass cannot deadlock. -/
theorem C43_terminates (h : ChanValid C Po Pi Sp) (h1 : ∀ n ∈ Sp, n = 1) (hSp : Sp.length = C.W.k.length)
    (hN : N.length = C.W.k.length) (hg : C.groups = 1)
    (hfit : ∀ j, j < C.W.k.length →
      C.W.d.getD j 0 * (C.W.k.getD j 0 - 1) + 1 ≤ N.getD j 0 + 2 * C.W.p.getD j 0)
    (hx : EvenBlocks C.Px (B :: C.Ci :: N) dt X I.x) (hs : ∀ u, C.Active u → (I.x u).shape ≠ []) :
    castPartitions true C.Px C.Py C.Pw = some (C.Px, C.yCast) ∧
    SafeRun (groupUnion C.Px.members C.Pw.members) (bcastActs (chanBroadcast C.Px C.Pw) I) ∧
    SafeRun (groupUnion C.Pw.members C.Py.members) (reduceActs (chanReduce C.Pw C.yCast)
      (midInputs (chanBroadcast C.Px C.Pw) I (channelLocal C wt b) rg)) := by
  have st := chan_stack (wt := wt) (b := b) h (W' := C.W) ⟨rfl, rfl, rfl⟩
    (channel_windows h h1 hSp hN hfit hx) (channel_local h hg) hs
  exact ⟨h.cast true fun _ => h1, (st.terminates (rg := rg)).1, (st.terminates (rg := rg)).2⟩

end

end Verif
