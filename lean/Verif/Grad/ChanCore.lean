import Verif.Grad.ChanModel
import Verif.Grad.Props
import Verif.Conv.General

/-!
# Backward passes of channel-distributed convolutions: lemmas
-/

namespace Verif

open Exchange

section
variable {R : Type} [CommSemiring R]

/-- Product of the sequential convolution of `Y` and the gradient `G` of the output, by input channels. -/
def convPair (W : WinParams) (Co : Nat) (shape : List Nat) (Wt G Y : List Nat → R) : List Nat → R
  | b :: c :: o => ∑ co ∈ Finset.range Co, boxSum W.k fun κ =>
      Wt (co :: c :: κ) * winRead 0 shape (1 :: 1 :: W.s) (1 :: 1 :: W.d) (0 :: 0 :: W.p) Y (b :: c :: o) (0 :: 0 :: κ) *
        G (b :: co :: o)
  | _ => 0

theorem convPair_sum (W : WinParams) (B Ci Co : Nat) (N : List Nat) (Wt G Y : List Nat → R) :
    boxSum (torchPoolShape W (B :: Ci :: N)) (convPair W Co (B :: Ci :: N) Wt G Y) =
      boxSum (B :: Ci :: N) fun m => Y m * torchConvGradX W 1 Ci Co Wt (B :: Ci :: N) G m := by
  rw [conv_transpose]
  show (∑ b ∈ Finset.range B, ∑ c ∈ Finset.range Ci, boxSum (torchOut W N) fun o => _) =
    ∑ b ∈ Finset.range B, ∑ co ∈ Finset.range Co, boxSum (torchOut W N) fun o => _
  refine Finset.sum_congr rfl fun b _ => ?_
  simp only [convPair, torchConv, zero_add, Nat.div_one, Finset.sum_mul, boxSum_sum]
  rw [Finset.sum_comm]
  refine Finset.sum_congr rfl fun co hco => Finset.sum_congr rfl fun c _ => ?_
  refine boxSum_congr fun o _ => ?_
  rw [← boxSum_mul_right, Nat.div_eq_of_lt (Finset.mem_range.1 hco), Nat.zero_mul, Nat.zero_add]

variable {C : ChanConv} {Po Pi : Nat} {Sp : List Nat} {W' : WinParams} {B : Nat} {N : List Nat}
  {dt : TorchDtype} {X Y : List Nat → R} {I J : Inputs R} {wt b : Nat → List Nat → R} {Wt β G : List Nat → R}
  {y : Nat → Tensor R} {op : Nat → Tensor R → Option (Tensor R)} {rg : Nat → Bool}

/-- The gradient of the output of the local layer of worker `v`. -/
def chanDy (C : ChanConv) (y : Nat → Tensor R) (v : Nat) : Tensor R := y ((chanReduce C.Pw C.yCast).rroot v)

omit [CommSemiring R] in
theorem chanDy_val (h : ChanValid C Po Pi Sp)
    (hy : EvenBlocks C.Py (torchConvShape C.W C.Co (B :: C.Ci :: N)) dt G y) {v : Nat} (hv : v ∈ C.Pw.members)
    {o j : Nat} {s : List Nat} (e : C.Pw.coord v = o :: j :: s) (ho : o < Po) :
    (chanDy C y v).shape = subsize 1 0 B :: subsize Po o C.Co :: (Layout.balanced Sp (torchOut C.W N)).shapeAt s ∧
    (chanDy C y v).dtype = dt ∧
    ∀ bi k p, bi < subsize 1 0 B → k < subsize Po o C.Co →
      InBounds p ((Layout.balanced Sp (torchOut C.W N)).shapeAt s) →
      (chanDy C y v).val (bi :: k :: p) = G ((startIdx 1 0 B + bi) :: (startIdx Po o C.Co + k) ::
        shiftBy ((Layout.balanced Sp (torchOut C.W N)).startAt s) p) := by
  have hu : (chanReduce C.Pw C.yCast).rroot v ∈ C.Py.members := h.reduce.root_mem hv
  have hc := (h.collects hu hv).1 ((h.reduce.rel hu hv).2 rfl)
  obtain ⟨o', s', eu, -, ho', hs⟩ := h.coordY hu
  rw [e, eu] at hc
  obtain ⟨h1, h2⟩ := hc
  change o = o' at h1
  change s = s' at h2
  subst h1 h2
  have hsh := hy.shape _ hu
  have hval := hy.val _ hu
  rw [eu, h.shy, show torchConvShape C.W C.Co (B :: C.Ci :: N) = B :: C.Co :: torchOut C.W N from rfl,
    balanced_cons_shapeAt Nat.one_pos, balanced_cons_shapeAt ho] at hsh
  rw [eu, h.shy, show torchConvShape C.W C.Co (B :: C.Ci :: N) = B :: C.Co :: torchOut C.W N from rfl,
    balanced_cons_shapeAt Nat.one_pos, balanced_cons_shapeAt ho, balanced_cons_startAt Nat.one_pos,
    balanced_cons_startAt ho] at hval
  exact ⟨hsh, hy.dtype _ hu, fun bi k p hb hk hp => hval (bi :: k :: p) ⟨hb, hk, hp⟩⟩

/-- Pairing any data with the sum of the local gradients of the workers fed by `r`. -/
theorem chan_pair (h : ChanValid C Po Pi Sp) (hW : W'.k = C.W.k ∧ W'.s = C.W.s ∧ W'.d = C.W.d)
    (hT : WindowsOf C W' B N dt Y J.x) (hp : ChanParams C Po Pi wt b Wt β)
    (hy : EvenBlocks C.Py (torchConvShape C.W C.Co (B :: C.Ci :: N)) dt G y) {r : Nat} (hr : r ∈ C.Px.members) :
    (boxSum (J.x r).shape fun m => (J.x r).val m *
      ((C.Pw.members.filter fun v => decide ((chanBroadcast C.Px C.Pw).Feeds r v)).map fun v =>
        torchConvGradX W' 1 (subsize Pi ((C.Pw.coord v).getD 1 0) C.Ci) (subsize Po ((C.Pw.coord v).getD 0 0) C.Co)
          (wt v) (J.x r).shape (chanDy C y v).val m).sum) =
    boxSum ((Layout.balanced C.Px.shape (torchPoolShape C.W (B :: C.Ci :: N))).shapeAt (C.Px.coord r)) fun o =>
      convPair C.W C.Co (B :: C.Ci :: N) Wt G Y
        (shiftBy ((Layout.balanced C.Px.shape (torchPoolShape C.W (B :: C.Ci :: N))).startAt (C.Px.coord r)) o) := by
  obtain ⟨j, s, er, hj, hs⟩ := h.coordX hr
  obtain ⟨hPo, hPi, -⟩ := h.pos
  obtain ⟨n, en, hn⟩ := hT.shape h hr er hj
  -- products by output channel
  let A : Nat → Nat → List Nat → R := fun bi co p =>
    (∑ c ∈ Finset.range (subsize Pi j C.Ci), boxSum C.W.k fun κ => Wt (co :: (startIdx Pi j C.Ci + c) :: κ) *
      winRead 0 (B :: C.Ci :: N) (1 :: 1 :: C.W.s) (1 :: 1 :: C.W.d) (0 :: 0 :: C.W.p) Y
        ((startIdx 1 0 B + bi) :: (startIdx Pi j C.Ci + c) ::
          shiftBy ((Layout.balanced Sp (torchOut C.W N)).startAt s) p) (0 :: 0 :: κ)) *
      G ((startIdx 1 0 B + bi) :: co :: shiftBy ((Layout.balanced Sp (torchOut C.W N)).startAt s) p)
  let F : Nat → Nat → R := fun bi co => boxSum ((Layout.balanced Sp (torchOut C.W N)).shapeAt s) (A bi co)
  let g : List Nat → R := fun c =>
    ∑ bi ∈ Finset.range (subsize 1 0 B), ∑ k ∈ Finset.range (subsize Po (c.getD 0 0) C.Co),
      F bi (startIdx Po (c.getD 0 0) C.Co + k)
  have hsum : (boxSum (J.x r).shape fun m => (J.x r).val m *
      ((C.Pw.members.filter fun v => decide ((chanBroadcast C.Px C.Pw).Feeds r v)).map fun v =>
        torchConvGradX W' 1 (subsize Pi ((C.Pw.coord v).getD 1 0) C.Ci) (subsize Po ((C.Pw.coord v).getD 0 0) C.Co)
          (wt v) (J.x r).shape (chanDy C y v).val m).sum) =
      ((C.Pw.members.filter fun v => decide ((C.Pw.coord v).drop 1 = j :: s)).map
        fun v => g (C.Pw.coord v)).sum := by
    have hfil : (C.Pw.members.filter fun v => decide ((chanBroadcast C.Px C.Pw).Feeds r v)) =
        C.Pw.members.filter fun v => decide ((C.Pw.coord v).drop 1 = j :: s) :=
      List.filter_congr fun v hv => decide_eq_decide.2 (by
        rw [h.feeds hr hv, er, List.cons.injEq]
        exact ⟨fun e => e.2.symm, fun e => ⟨rfl, e.symm⟩⟩)
    rw [hfil]
    simp only [← List.sum_map_mul_left]
    rw [← boxSum_list_sum]
    congr 1
    refine List.map_congr_left fun v hv => ?_
    have hv1 : v ∈ C.Pw.members := List.mem_of_mem_filter hv
    have hv2 : (C.Pw.coord v).drop 1 = j :: s := of_decide_eq_true (List.mem_filter.1 hv).2
    obtain ⟨o, j', s', ev, ho, -, -⟩ := h.coordW hv1
    rw [ev] at hv2
    injection hv2 with e1 e2
    subst e1 e2
    obtain ⟨-, -, hdy⟩ := chanDy_val h hy hv1 ev ho
    have hpw := hp.weight v hv1
    rw [conv_transpose]
    rw [ev] at hpw ⊢
    simp only [List.getD_cons_zero, List.getD_cons_succ, g] at hpw ⊢
    rw [en]
    show (∑ bi ∈ Finset.range (subsize 1 0 B), ∑ k ∈ Finset.range (subsize Po o C.Co), boxSum (torchOut W' n) fun p =>
      _) = _
    refine Finset.sum_congr rfl fun bi hbi => Finset.sum_congr rfl fun k hk => ?_
    have hbi := Finset.mem_range.1 hbi
    have hk := Finset.mem_range.1 hk
    rw [hn]
    refine boxSum_congr fun p hpb => ?_
    show torchConv _ _ _ _ _ _ _ _ (bi :: k :: p) * (chanDy C y v).val (bi :: k :: p) = _
    rw [hdy bi k p hbi hk hpb]
    simp only [A, torchConv, zero_add, Nat.div_one]
    congr 1
    refine Finset.sum_congr rfl fun c hc => ?_
    have hc := Finset.mem_range.1 hc
    rw [hW.1]
    refine boxSum_congr fun κ hκ => ?_
    rw [hpw k hk c hc κ hκ, hW.2.1, hW.2.2, Nat.div_eq_of_lt hk, Nat.zero_mul, Nat.zero_add, ← en]
    congr 1
    have hread := hT.read _ hr (bi :: c :: p) κ (by
      rw [er, h.shx, show torchPoolShape C.W (B :: C.Ci :: N) = B :: C.Ci :: torchOut C.W N from rfl,
        balanced_cons_shapeAt Nat.one_pos, balanced_cons_shapeAt hj]
      exact ⟨hbi, hc, hpb⟩) hκ
    rw [hread, er, h.shx, show torchPoolShape C.W (B :: C.Ci :: N) = B :: C.Ci :: torchOut C.W N from rfl,
      balanced_cons_startAt Nat.one_pos, balanced_cons_startAt hj]
    rfl
  refine hsum.trans ?_
  rw [members_filter_sum h.wfw (fun c => c.drop 1 = j :: s) g, h.shw]
  show (∑ o ∈ Finset.range Po, boxSum (Pi :: Sp) fun t => if t = j :: s then g (o :: t) else 0) = _
  refine Eq.trans (Finset.sum_congr rfl fun o _ =>
    boxSum_pick (S := Pi :: Sp) (s := j :: s) ⟨hj, hs⟩ fun t => g (o :: t)) ?_
  simp only [g, List.getD_cons_zero]
  rw [Finset.sum_comm, er, h.shx, show torchPoolShape C.W (B :: C.Ci :: N) = B :: C.Ci :: torchOut C.W N from rfl,
    balanced_cons_startAt Nat.one_pos, balanced_cons_startAt hj, balanced_cons_shapeAt Nat.one_pos,
    balanced_cons_shapeAt hj]
  show _ = ∑ bi ∈ Finset.range (subsize 1 0 B), ∑ c ∈ Finset.range (subsize Pi j C.Ci),
    boxSum ((Layout.balanced Sp (torchOut C.W N)).shapeAt s) fun p => _
  refine Finset.sum_congr rfl fun bi _ => ?_
  rw [sum_even hPo C.Co (F bi)]
  simp only [F, A, convPair, shiftBy, Finset.sum_mul, boxSum_sum, ← boxSum_mul_right]
  rw [Finset.sum_comm]

/-- The gradient is determined by its products with all data, without halos: `dx w` is the gradient of the block of
rank `w`. -/
theorem assemble_blocks {P : Cart} (hP : P.WF) {M N : List Nat} (hM : P.shape.length = M.length)
    (hN : P.shape.length = N.length) {T : (List Nat → R) → List Nat → R} {Gx : List Nat → R}
    {dx : Nat → List Nat → R}
    (hT : ∀ Y, boxSum N (T Y) = boxSum M fun m => Y m * Gx m)
    (hloc : ∀ (Y : List Nat → R) (w : Nat), w < P.members.length →
      (boxSum ((Layout.balanced P.shape M).shapeAt (getCoords P.shape w)) fun m =>
        Y (shiftBy ((Layout.balanced P.shape M).startAt (getCoords P.shape w)) m) * dx w m) =
      boxSum ((Layout.balanced P.shape N).shapeAt (getCoords P.shape w)) fun o =>
        T Y (shiftBy ((Layout.balanced P.shape N).startAt (getCoords P.shape w)) o))
    {r : Nat} (hr : r < P.members.length) {l : List Nat}
    (hl : InBounds l ((Layout.balanced P.shape M).shapeAt (getCoords P.shape r))) :
    dx r l = Gx (shiftBy ((Layout.balanced P.shape M).startAt (getCoords P.shape r)) l) := by
  have hps := Layout.balanced_pshape hM
  have hi : ∀ {w}, w < P.members.length → InBounds (getCoords P.shape w) P.shape := fun {w} hw =>
    (getCoords_spec (by rw [← hP.size]; exact hw)).1
  have hlen : ∀ {w}, w < P.members.length → (getCoords P.shape w).length = (Layout.balanced P.shape M).length :=
    fun {w} hw => by rw [(hi hw).length_eq, ← Layout.length_pshape (Layout.balanced P.shape M), hps]
  have box : ∀ {w}, w < P.members.length → ∀ {m},
      InBounds m ((Layout.balanced P.shape M).shapeAt (getCoords P.shape w)) →
      InBox ((Layout.balanced P.shape M).startAt (getCoords P.shape w))
        ((Layout.balanced P.shape M).stopAt (getCoords P.shape w))
        (shiftBy ((Layout.balanced P.shape M).startAt (getCoords P.shape w)) m) := fun {w} hw {m} hm =>
    ((Layout.inBox_shift (hlen hw)).2 hm).2
  set q := shiftBy ((Layout.balanced P.shape M).startAt (getCoords P.shape r)) l with hq
  have hin : InBounds q (Layout.balanced P.shape M).global :=
    ((Layout.balanced P.shape M).unique_owner _).2 _ (by rw [hps]; exact hi hr) (box hr hl)
  have hin' := hin
  rw [Layout.balanced_global hM hP.pos] at hin'
  have e : Gx q = boxSum M fun m => (if m = q then 1 else 0) * Gx m := by
    rw [← boxSum_pick hin' Gx]
    refine boxSum_congr fun m _ => ?_
    split <;> simp
  rw [e, ← hT fun m => if m = q then 1 else 0, ← gather_tiles hP hN,
    ← Finset.sum_congr rfl fun w hw => hloc _ w (Finset.mem_range.1 hw),
    Finset.sum_eq_single_of_mem r (Finset.mem_range.2 hr)]
  · rw [← boxSum_pick hl (dx r)]
    refine boxSum_congr fun m hm => ?_
    by_cases hml : m = l
    · rw [hml, if_pos rfl, if_pos hq, one_mul]
    · rw [if_neg hml, if_neg, zero_mul]
      intro hh
      refine hml (shiftBy_inj ?_ ?_ hh)
      · rw [hm.length_eq, Layout.length_shapeAt (hlen hr), Layout.length_startAt (hlen hr)]
      · rw [hl.length_eq, Layout.length_shapeAt (hlen hr), Layout.length_startAt (hlen hr)]
  · intro w hw hne
    have hw := Finset.mem_range.1 hw
    refine (boxSum_congr fun m hm => ?_).trans (boxSum_zero _)
    rw [if_neg, zero_mul]
    intro hh
    obtain ⟨idx, -, hu⟩ := ((Layout.balanced P.shape M).unique_owner q).1 hin
    have e1 := hu (getCoords P.shape r) ⟨by rw [hps]; exact hi hr, box hr hl⟩
    have e2 := hu (getCoords P.shape w) ⟨by rw [hps]; exact hi hw, by rw [← hh]; exact box hw hm⟩
    have h1 := (getCoords_spec (shape := P.shape) (r := r) (by rw [← hP.size]; exact hr)).2
    have h2 := (getCoords_spec (shape := P.shape) (r := w) (by rw [← hP.size]; exact hw)).2
    rw [e1] at h1
    rw [e2] at h2
    exact hne (h2.symm.trans h1)

end

end Verif
