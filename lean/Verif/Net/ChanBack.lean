import Verif.Net.ConvBack
import Verif.Net.Chan
import Verif.Grad.GenProps
import Verif.Grad.ChanParam

/-!
# Networks: backward of the channel-distributed convolution

Autograd goes through `conv_channel.py:323-348` in reverse order.
-/

namespace Verif.Net

variable {F β : Type}

/-- The forward pass of `conv_channel.py:323-348`, cut. -/
def chanCuts [AddCommMonoid F] [Mul F] (c cy : Nat) (C : ChanConv) (weight bias : Nat → List Nat → F) (rgp : Bool) :
    List (Prog (NSt F) (NMsg F)) :=
  match castPartitions true C.Px C.Py C.Pw with
  | none => [failProg C.union]
  | some (x, y) =>
    if C.Pw.members.length = 1 then [serialConvProg C weight bias rgp]
    else stackCuts c cy (chanBroadcast x C.Pw) (chanReduce C.Pw y)
      fun w x => (channelLocal C weight bias w x.t).map fun y => (y, x.rg || rgp)

theorem chanCuts_flatten [AddCommMonoid F] [Mul F] (c cy : Nat) (C : ChanConv) (weight bias : Nat → List Nat → F) (rgp : Bool) :
    (chanCuts c cy C weight bias rgp).flatten = chanProg c cy C weight bias rgp := by
  unfold chanCuts chanProg
  rcases castPartitions true C.Px C.Py C.Pw with _ | ⟨x, y⟩
  · simp
  · simp only
    by_cases e : C.Pw.members.length = 1
    · rw [if_pos e, if_pos e]
      simp
    · rw [if_neg e, if_neg e]
      unfold stackCuts stackProg
      rw [opPhase_eq]
      simp

section
variable [CommSemiring F]

/-- PyTorch's gradients of a convolution with window `V`, weight `wt` and bias `bt`: of its input, its weight
(parameter 0) and, if it has one, its bias (parameter 1).  `K`: before the operator, `x.t`: the gradient of its output. -/
def convGrads (V : WinParams) (groups ci co : Nat) (wt bt : Tensor F) (hasBias : Bool) (K x : NSt F) : NSt F := { x with
  t := convGradInput V groups ci co wt.val K.t x.t
  par := fun
    | 0 => (⟨wt.shape, wt.dtype, torchConvGradW V groups ci co K.t.shape K.t.val x.t.val⟩, false)
    | 1 => if hasBias then (⟨bt.shape, bt.dtype, torchConvGradB V co K.t.shape x.t.val⟩, false) else x.par 1
    | i => x.par i }

/-- Backward of the PyTorch layer alone (`conv_channel.py:338-339`, `conv_general.py:548-549`).  The tape: before the
layer. -/
def serialConvBack (C : ChanConv) (weight bias : Nat → Tensor F) : CProg (List (NSt F)) (NSt F) (NMsg F) :=
  [opBackPhase C.Pw.members 0 fun w => convGrads C.W C.groups C.Ci C.Co (weight w) (bias w) C.useBias]

/-- Gradients of the local layer of worker `w` (`conv_channel.py:213-224`, `343-344`). -/
def chanOpGrad (C : ChanConv) (weight : Nat → Tensor F) (bias : Nat → Tensor F) (w : Nat) : NSt F → NSt F → NSt F :=
  convGrads C.W C.groups ((C.localChannels w).getD 1 0) ((C.localChannels w).getD 0 0) (weight w) (bias w) (C.storesBias w)

/-- Backward of `conv_channel.py:323-348`. -/
def chanBack (c cy : Nat) (C : ChanConv) (weight bias : Nat → Tensor F) : CProg (List (NSt F)) (NSt F) (NMsg F) :=
  match castPartitions true C.Px C.Py C.Pw with
  | none => (failProg C.union).map fun ph _ => ph
  | some (x, y) =>
    if C.Pw.members.length = 1 then serialConvBack C weight bias
    else stackBackProg c cy (chanBroadcast x C.Pw) (chanReduce C.Pw y) (chanOpGrad C weight bias)

/-- The gradients of the layer's parameters: every worker of `P_w` has, in the shapes of its parameters, its blocks of
those of the sequential convolution. -/
structure ChanGrads (C : ChanConv) (Po Pi : Nat) (weight bias : Nat → Tensor F) (shape : List Nat) (X Y : List Nat → F)
    (gr : Nat → Nat → Tensor F) : Prop where
  weight : ∀ v ∈ C.Pw.members, (gr v 0).shape = (weight v).shape ∧
    ∀ k < subsize Po ((C.Pw.coord v).getD 0 0) C.Co, ∀ c < subsize Pi ((C.Pw.coord v).getD 1 0) C.Ci,
      ∀ κ, InBounds κ C.W.k → (gr v 0).val (k :: c :: κ) = torchConvGradW C.W 1 C.Ci C.Co shape X Y
        ((startIdx Po ((C.Pw.coord v).getD 0 0) C.Co + k) :: (startIdx Pi ((C.Pw.coord v).getD 1 0) C.Ci + c) :: κ)
  bias : C.useBias = true → ∀ v ∈ C.Pw.members, (C.Pw.coord v).getD 1 0 = 0 → (gr v 1).shape = (bias v).shape ∧
    ∀ k < subsize Po ((C.Pw.coord v).getD 0 0) C.Co, (gr v 1).val [k] =
      torchConvGradB C.W C.Co shape Y [startIdx Po ((C.Pw.coord v).getD 0 0) C.Co + k]

variable {W : List Nat} {C : ChanConv} {Po Pi : Nat} {Sp : List Nat} {B : Nat} {N : List Nat} {t : TorchDtype}
  {X Y : List Nat → F} {S G : Nat → NSt F} {T : Nat → List (NSt F)} {weight bias : Nat → Tensor F} {Wt bi : List Nat → F}

omit [CommSemiring F] in
theorem HoldsG.even {P : Cart} {N : List Nat} (h : HoldsG W P (Layout.balanced P.shape N) t Y G) :
    EvenBlocks P N t Y fun w => (G w).t :=
  ⟨fun u hu => (h.parts u hu).1, fun u hu => (h.parts u hu).2, h.data⟩

omit [CommSemiring F] in
theorem EvenBlocks.holdsG {P : Cart} {N : List Nat} {out : Nat → Tensor F} (h : EvenBlocks P N t Y out)
    (hl : P.shape.length = N.length) (h0 : P.shape ≠ []) (calm : ∀ w ∈ W, (G w).err = false)
    (hin : ∀ u ∈ P.members, (G u).t = out u) (hout : ∀ w ∈ W, w ∉ P.members → (G w).t.shape ≠ []) :
    HoldsG W P (Layout.balanced P.shape N) t Y G := by
  refine ⟨calm, fun w hw => ?_, fun u hu => ?_, fun u hu l hl => ?_⟩
  · by_cases hm : w ∈ P.members
    · rw [hin w hm, h.shape w hm]
      intro e
      have := Layout.length_shapeAt (coord_len (Layout.balanced_pshape hl) w)
      rw [e, ← Layout.length_pshape, Layout.balanced_pshape hl] at this
      exact h0 (List.length_eq_zero_iff.1 this.symm)
    · exact hout w hw hm
  · rw [hin u hu]
    exact ⟨h.shape u hu, h.dtype u hu⟩
  · rw [hin u hu]
    exact h.val u hu l hl

/-- One worker for everything. -/
theorem serialConvBack_run (h : ChanValid C Po Pi Sp) (hSp : Sp.length = C.W.k.length)
    (hN : N.length = C.W.k.length) (hg : C.groups = 1) (h1w : C.Pw.members.length = 1)
    (place : C.Px.members = C.Pw.members ∧ C.Py.members = C.Pw.members)
    (hfit : ∀ j, j < C.W.k.length →
      C.W.d.getD j 0 * (C.W.k.getD j 0 - 1) + 1 ≤ N.getD j 0 + 2 * C.W.p.getD j 0)
    (hp : ChanParams C Po Pi (fun w => (weight w).val) (fun w => (bias w).val) Wt bi)
    (hx : ∀ w ∈ C.Px.members, w ∈ W)
    (hE : EvenBlocks C.Px (B :: C.Ci :: N) t X (inputsOf S).x) (batch : ∀ w ∈ W, (S w).t.shape ≠ [])
    (hG : HoldsG W C.Py (Layout.balanced C.Py.shape (torchConvShape C.W C.Co (B :: C.Ci :: N))) t Y G)
    (hT : ∀ w ∈ W, (T w)[0]? = some (S w)) :
    ProgOK W ((serialConvBack C weight bias).at T) G ∧
    HoldsG W C.Px (Layout.balanced C.Px.shape (B :: C.Ci :: N)) t
      (torchConvGradX C.W 1 C.Ci C.Co Wt (B :: C.Ci :: N) Y) (run ((serialConvBack C weight bias).at T) G) ∧
    ChanGrads C Po Pi weight bias (B :: C.Ci :: N) X Y fun w i => ((run ((serialConvBack C weight bias).at T) G w).par i).1 := by
  obtain ⟨px, py⟩ := place
  obtain ⟨w, hw⟩ := List.length_eq_one_iff.1 h1w
  have hwm : w ∈ C.Pw.members := by rw [hw]; simp
  have hwW : w ∈ W := hx w (px ▸ hwm)
  have hrun : ∀ u ∈ W, run ((serialConvBack C weight bias).at T) G u = if u = w then
      convGrads C.W C.groups C.Ci C.Co (weight w) (bias w) C.useBias (S w) (G w) else G u := by
    intro u hu
    show (if u ∈ C.Pw.members then match (T u)[0]? with | some A => _ | none => _ else _) = _
    rw [hw, hT u hu]
    by_cases e : u = w
    · subst e
      rw [if_pos (by simp), if_pos rfl]
    · rw [if_neg (by simpa using e), if_neg e]
  have hones : ∀ n ∈ C.Pw.shape, n = 1 := fun n hn =>
    Nat.dvd_one.1 (show n ∣ 1 by rw [← h1w, h.wfw.size]; exact List.dvd_prod hn)
  have h1 : ∀ n ∈ Sp, n = 1 := fun n hn => hones n (by rw [h.shw]; simp [hn])
  have hy := hG.even
  have act : ∀ u, C.Active u → u ∈ W := by
    intro u hu
    have : u ∈ C.Pw.members := hu.elim (fun hh => px ▸ hh) fun hh => hh.elim id fun hh => py ▸ hh
    exact hx u (px ▸ this)
  obtain ⟨gw, gb, e, k1, -, k2⟩ := C63_channel (rg := fun _ => true) (wt := fun w => (weight w).val)
    (b := fun w => (bias w).val) h h1 hSp hN hg hfit hE (fun u hu => batch u (act u hu)) hy
    (fun u hu => hG.batch u (act u hu)) (fun _ => ⟨px, py⟩) hwm
  rw [channelGradP, h.cast true fun _ => h1] at e
  simp only at e
  rw [if_pos h1w] at e
  obtain ⟨rfl, rfl⟩ := Prod.mk.inj (Option.some.inj e)
  have hdx := channel_dx h h1 hSp hN hfit hE hp hy
  have key : ∀ v ∈ C.Pw.members, v = w := fun v hv => by rw [hw] at hv; simpa using hv
  refine ⟨⟨localPhase_ok fun w y => (opBackPhase C.Pw.members 0 (fun w => convGrads C.W C.groups C.Ci C.Co (weight w) (bias w) C.useBias) (T w) w y).work y, trivial⟩,
    EvenBlocks.holdsG hdx (by rw [h.shx]; simp [hSp, hN]) (by rw [h.shx]; simp) (fun u hu => ?_) (fun u hu => ?_) fun u hu hn => ?_,
    fun v hv => ?_, fun hb v hv hj => ?_⟩
  · rw [hrun u hu, ← hG.calm u hu]
    split
    · next e => rw [e]; rfl
    · rfl
  · obtain rfl := key u (px ▸ hu)
    rw [hrun u hwW, if_pos rfl, hg, single_dx h hw (px.trans hw) (py.trans hw)]
    rfl
  · rw [hrun u hu, if_neg fun e => hn (by rw [px, e]; exact hwm)]
    exact hG.batch u hu
  · obtain rfl := key v hv
    rw [hrun v hwW, if_pos rfl]
    exact ⟨rfl, k1⟩
  · obtain rfl := key v hv
    obtain ⟨f, ef, hf⟩ := k2 hb hj
    rw [if_pos hb] at ef
    rw [hrun v hwW, if_pos rfl]
    simp only [convGrads, hb, if_true]
    refine ⟨trivial, fun k hk => ?_⟩
    rw [← hf k hk, ← Option.some.inj ef]
    rfl

theorem chanBack_run (c cy : Nat) (rgp : Bool) (h : ChanValid C Po Pi Sp) (h1 : ∀ n ∈ Sp, n = 1)
    (hSp : Sp.length = C.W.k.length) (hN : N.length = C.W.k.length) (hg : C.groups = 1)
    (hfit : ∀ j, j < C.W.k.length →
      C.W.d.getD j 0 * (C.W.k.getD j 0 - 1) + 1 ≤ N.getD j 0 + 2 * C.W.p.getD j 0)
    (hp : ChanParams C Po Pi (fun w => (weight w).val) (fun w => (bias w).val) Wt bi)
    (place : C.Pw.members.length = 1 → C.Px.members = C.Pw.members ∧ C.Py.members = C.Pw.members)
    (hx : ∀ w ∈ C.Px.members, w ∈ W) (hw : ∀ w ∈ C.Pw.members, w ∈ W) (hy : ∀ w ∈ C.Py.members, w ∈ W)
    (hS : Holds W C.Px (Layout.balanced C.Px.shape (B :: C.Ci :: N)) t X S)
    (hG : HoldsG W C.Py (Layout.balanced C.Py.shape (torchConvShape C.W C.Co (B :: C.Ci :: N))) t Y G)
    (hT : ∀ w ∈ W, ∃ rest, T w = snaps (chanCuts c cy C (fun w => (weight w).val) (fun w => (bias w).val) rgp) S w ++ rest) :
    ProgOK W ((chanBack c cy C weight bias).at T) G ∧
    HoldsG W C.Px (Layout.balanced C.Px.shape (B :: C.Ci :: N)) t
      (torchConvGradX C.W 1 C.Ci C.Co Wt (B :: C.Ci :: N) Y) (run ((chanBack c cy C weight bias).at T) G) ∧
    ChanGrads C Po Pi weight bias (B :: C.Ci :: N) X Y fun w i => ((run ((chanBack c cy C weight bias).at T) G w).par i).1 := by
  by_cases h1w : C.Pw.members.length = 1
  · have hprog : chanBack c cy C weight bias = serialConvBack C weight bias := by
      unfold chanBack
      rw [h.cast true fun _ => h1]
      exact if_pos h1w
    rw [hprog]
    refine serialConvBack_run h hSp hN hg h1w (place h1w) hfit hp hx hS.even hS.batch hG fun w hww => ?_
    obtain ⟨rest, e⟩ := hT w hww
    have : chanCuts c cy C (fun w => (weight w).val) (fun w => (bias w).val) rgp =
        [serialConvProg C (fun w => (weight w).val) (fun w => (bias w).val) rgp] := by
      unfold chanCuts
      rw [h.cast true fun _ => h1]
      exact if_pos h1w
    rw [e, this]
    rfl
  · have hprog : chanBack c cy C weight bias =
        stackBackProg c cy (chanBroadcast C.Px C.Pw) (chanReduce C.Pw C.yCast) (chanOpGrad C weight bias) := by
      unfold chanBack
      rw [h.cast true fun _ => h1]
      exact if_neg h1w
    have hcuts : chanCuts c cy C (fun w => (weight w).val) (fun w => (bias w).val) rgp =
        stackCuts c cy (chanBroadcast C.Px C.Pw) (chanReduce C.Pw C.yCast)
          fun w x => (channelLocal C (fun w => (weight w).val) (fun w => (bias w).val) w x.t).map fun y => (y, x.rg || rgp) := by
      unfold chanCuts
      rw [h.cast true fun _ => h1]
      exact if_neg h1w
    rw [hcuts] at hT
    rw [hprog]
    have act : ∀ u, C.Active u → u ∈ W := fun u hu => hu.elim (hx u) fun hh => hh.elim (hw u) (hy u)
    have hs : ∀ u, C.Active u → ((inputsOf S).x u).shape ≠ [] := fun u hu => hS.batch u (act u hu)
    have hsy : ∀ u, C.Active u → (G u).t.shape ≠ [] := fun u hu => hG.batch u (act u hu)
    have hTw := channel_windows h h1 hSp hN hfit hS.even
    have hyb := hG.even
    have gr := chan_grads (I := inputsOf S) (wt := fun w => (weight w).val) (b := fun w => (bias w).val) (W' := C.W) h hTw hyb hsy
      (opB := fun v => convGradInput C.W C.groups ((C.localChannels v).getD 1 0) ((C.localChannels v).getD 0 0) (weight v).val)
      (fun _ _ _ => ⟨rfl, rfl⟩)
    obtain ⟨o, e1, e2, e3, e4, e5, -⟩ := stackBack_run (T := T) c cy rgp
      (chan_stack h (W' := C.W) ⟨rfl, rfl, rfl⟩ hTw (channel_local h hg) hs) (fun _ _ _ _ => rfl) hx hw hy gr
      (opG := chanOpGrad C weight bias) (fun _ _ _ _ _ => ⟨rfl, rfl⟩) hT
    have hdx := channel_dx h h1 hSp hN hfit hS.even hp hyb
    refine ⟨o, EvenBlocks.holdsG hdx (by rw [h.shx]; simp [hSp, hN]) (by rw [h.shx]; simp) (fun u hu => (e1 u hu).trans (hG.calm u hu))
      (fun r hr => ?_) fun u hu hn => ?_, fun v hv => ?_, fun hb v hv hj => ?_⟩
    · rw [e2 r hr]
      show Tensor.mk _ _ _ = Tensor.mk _ _ _
      congr 1
      funext i
      unfold chanDx
      show (List.map _ (List.filter _ C.Pw.members)).sum = _
      congr 1
      refine List.map_congr_left fun v hv => ?_
      obtain ⟨q0, q1⟩ := h.localChannels (List.mem_of_mem_filter hv)
      show torchConvGradX _ _ _ _ _ _ _ _ = _
      rw [q0, q1, hg]
      rfl
    · by_cases hm : u ∈ C.Py.members ∨ u ∈ C.Pw.members
      · exact shape_ne_nil_of_prod (e3 u hu hm hn)
      · rw [not_or] at hm
        rw [e4 u hu hn hm.2 hm.1]
        exact hG.batch u hu
    all_goals
      obtain ⟨gw, gb, e, k1, -, k2⟩ := C63_channel (rg := fun _ => true) (wt := fun w => (weight w).val)
        (b := fun w => (bias w).val) h h1 hSp hN hg hfit hS.even hs hyb hsy place hv
      obtain ⟨⟨z, ez, rfl⟩, em⟩ := chan_local_pair (rg := fun _ => true) (W' := C.W) h ⟨rfl, rfl, rfl⟩ hTw
        (channel_local (wt := fun w => (weight w).val) (b := fun w => (bias w).val) h hg) hs hyb hsy hv
      rw [channelGradP, h.cast true fun _ => h1] at e
      simp only at e
      rw [if_neg h1w, ez, em] at e
      obtain ⟨rfl, rfl⟩ := Prod.mk.inj (Option.some.inj e)
      obtain ⟨K, x, q1, -, q3, -, q5⟩ := e5 v hv
    · rw [q5]
      refine ⟨rfl, fun k hk c hc κ hκ => ?_⟩
      simp only [chanOpGrad, convGrads]
      rw [q1, q3]
      exact k1 k hk c hc κ hκ
    · obtain ⟨f, ef, hf⟩ := k2 hb hj
      have hst : C.storesBias v = true := by
        by_contra hn
        rw [if_neg hn] at ef
        cases ef
      rw [if_pos hst] at ef
      rw [q5]
      simp only [chanOpGrad, convGrads, hst, if_true]
      refine ⟨trivial, fun k hk => ?_⟩
      rw [q1, q3, ← hf k hk, ← Option.some.inj ef]
      rfl

end

end Verif.Net
