import Verif.BatchNorm.Stats
import Mathlib.Tactic.FieldSimp
import Mathlib.Tactic.Ring
import Mathlib.Algebra.CharZero.Defs

/-!
# Batch norm: specification and one call
-/

namespace Verif

/-! ## The sequential layer -/

section
variable {R : Type} [Field R]

/-- Number of entries of one channel. -/
def channelVolume (X : Tensor R) : Nat := (X.shape.set 1 1).prod

/-- Mean of the entries of channel `c`. -/
def channelMean (X : Tensor R) (c : Nat) : R := channelSum X c / (channelVolume X : R)

/-- Sum of the squared deviations from the mean in channel `c`. -/
def channelSquares (X : Tensor R) (c : Nat) : R :=
  boxSum X.shape fun i => if i.getD 1 0 = c then (X.val i - channelMean X c) ^ 2 else 0

/-- The variance used for normalisation. -/
def channelVar (X : Tensor R) (c : Nat) : R := channelSquares X c / (channelVolume X : R)

/-- The variance that goes into PyTorch's running variance. -/
def channelVarUnbiased (X : Tensor R) (c : Nat) : R := channelSquares X c / ((channelVolume X : R) - 1)

/-- The running statistics of the sequential layer. -/
structure SeqState (R : Type) where
  mean : Nat → R
  var : Nat → R
  seen : Nat

/-- PyTorch's update of the running statistics with the statistics `m`, `v` of a batch: a given momentum is the
weight of the batch, otherwise the batch has the same weight as each earlier one. -/
def seqUpdate (momentum : Option R) (s : SeqState R) (m v : Nat → R) : SeqState R :=
  let a := match momentum with
    | some a => a
    | none => 1 / ((s.seen : R) + 1)
  ⟨fun c => (1 - a) * s.mean c + a * m c, fun c => (1 - a) * s.var c + a * v c, s.seen + 1⟩

/-- The statistics a call uses. -/
def seqUsed (track training : Bool) (s : SeqState R) (X : Tensor R) : (Nat → R) × (Nat → R) :=
  if track && !training then (s.mean, s.var) else (channelMean X, channelVar X)

/-- The sequential result. -/
def seqNorm (sqrt : R → R) (eps : R) (affine : Bool) (gamma beta : Nat → R) (ms : (Nat → R) × (Nat → R))
    (X : Tensor R) : Tensor R :=
  ⟨X.shape, X.dtype, fun i =>
    if affine then
      gamma (i.getD 1 0) * ((X.val i - ms.1 (i.getD 1 0)) / sqrt (ms.2 (i.getD 1 0) + eps)) + beta (i.getD 1 0)
    else (X.val i - ms.1 (i.getD 1 0)) / sqrt (ms.2 (i.getD 1 0) + eps)⟩

end

/-! ## Data of the workers -/

section
variable {R : Type}

/-- Worker `w` holds the values `f` of its channels; `bs`: lengths of the channel blocks. -/
def Held (P : Cart) (bs : List Nat) (f : Nat → R) (w : Nat) (t : Tensor R) : Prop :=
  Chan P.shape.length (bs.getD ((P.coord w).getD 1 0) 0)
    (fun j => f ((bs.take ((P.coord w).getD 1 0)).sum + j)) t

/-- The buffers of all workers hold the running statistics `s`. -/
def Running (P : Cart) (bs : List Nat) (s : SeqState R) (st : Nat → BNState R) : Prop :=
  ∀ w ∈ P.members, Held P bs s.mean w (st w).mean ∧ Held P bs s.var w (st w).var

/-- One call: the global input and the local ones, and the parameters. -/
structure BNCall (R : Type) where
  training : Bool
  L : Layout
  X : Tensor R
  x : Nat → Tensor R
  rg : Nat → Bool
  gamma : Nat → R
  beta : Nat → R
  g : Nat → Tensor R
  b : Nat → Tensor R

/-- The tensor `t` holds the parameter `f`, of data type `d`: on the storing workers its channels, elsewhere some
tensor with a first extent. -/
structure Param (P Psum : Cart) (bs : List Nat) (d : TorchDtype) (f : Nat → R) (t : Nat → Tensor R) : Prop where
  held : ∀ r ∈ Psum.members, Held P bs f r (t r) ∧ (t r).dtype = d
  batch : ∀ v ∈ P.members, (t v).shape ≠ []

/-- A call with blocks of the global input of any layout with the channel blocks `bs`. -/
structure BNCall.OK (P : Cart) (bs : List Nat) (M : BatchNorm R) (c : BNCall R) : Prop where
  layout : c.L.pshape = P.shape
  channels : c.L.getD 1 [] = bs
  blocks : Blocks P c.L c.X c.x
  rg : ∃ b, ∀ v ∈ P.members, c.rg v = b
  gamma : M.affine = true → Param P M.Psum bs c.X.dtype c.gamma c.g
  beta : M.affine = true → Param P M.Psum bs c.X.dtype c.beta c.b

/-- What worker `w` returns in a call, with its buffers. -/
def BNCall.run [Field R] [DecidableEq R] (M : BatchNorm R) (sqrt : R → R) (c : BNCall R) (st : Nat → BNState R)
    (w : Nat) : Option (Tensor R × BNState R) :=
  bnForward M sqrt c.training st c.g c.b c.x c.rg w

/-- The buffers after a history of calls. -/
def bnStates [Field R] [DecidableEq R] (M : BatchNorm R) (sqrt : R → R) (st : Nat → BNState R) :
    List (BNCall R) → Nat → BNState R
  | [] => st
  | c :: cs => bnStates M sqrt (fun w => ((c.run M sqrt st w).map fun y => y.2).getD (st w)) cs

/-- The sequential running statistics after a history; `var`: the variance of a batch that goes into them. -/
def seqStates [Field R] (momentum : Option R) (track : Bool) (var : Tensor R → Nat → R) (s : SeqState R) :
    List (BNCall R) → SeqState R
  | [] => s
  | c :: cs => seqStates momentum track var
      (if c.training && track then seqUpdate momentum s (channelMean c.X) (var c.X) else s) cs

/-- A layer made by `__init__` on a partition with a root, of at least two dimensions; `bs`: its channel blocks. -/
structure BNWith (P : Cart) (bs : List Nat) (M : BatchNorm R) : Prop where
  wf : P.WF
  root : ∃ r, P.root = some r
  two : 2 ≤ P.shape.length
  part : M.P = P
  sum : SumPart P M.Psum
  features : bs.sum = M.numFeatures

variable {P : Cart} {bs : List Nat} {M : BatchNorm R}

theorem BNWith.made (h : BNWith P bs M) {L : Layout} (hL : L.pshape = P.shape) : BNMade P L M :=
  ⟨⟨h.wf, h.root, by intro e; have := h.two; rw [e] at this; simp at this, hL⟩, h.two, h.part, h.sum⟩

variable [Field R]

omit [Field R] in
theorem held_iff {L : Layout} (h : BNMade P L M) (f : Nat → R) (w : Nat) (t : Tensor R) :
    Held P (L.getD 1 []) f w t ↔ Chan P.shape.length (chCount P L w) (fun j => f (chStart P L w + j)) t := by
  rw [Held, (ch_eq h.placed h.two w).1, (ch_eq h.placed h.two w).2]

/-! ## Helpers -/

theorem foldl_mul_cast (l : List Nat) (a : Int) :
    (l.map fun (n : Nat) => (n : Int)).foldl (fun a k => a * k) a = a * (l.prod : Nat) := by
  induction l generalizing a with
  | nil => simp
  | cons n l ih =>
    rw [List.map_cons, List.foldl_cons, ih, List.prod_cons, Nat.cast_mul, mul_assoc]

theorem featureVolume_eq {g : List Nat} (h : 2 ≤ g.length) :
    featureVolume (g.map fun (n : Nat) => (n : Int)) = ((g.set 1 1).prod : Nat) := by
  match g, h with
  | a :: b :: l, _ =>
    rw [featureVolume]
    simp only [List.map_cons, List.drop_succ_cons, List.drop_zero, List.getD_cons_zero, foldl_mul_cast]
    simp

theorem getD_global (L : Layout) {d : Nat} (h : d < L.length) : L.global.getD d 0 = (L.getD d []).sum := by
  rw [Layout.global, List.getD_eq_getElem?_getD, List.getElem?_map, List.getD_eq_getElem?_getD,
    List.getElem?_eq_getElem h]
  rfl

namespace BNMade

variable {L : Layout} {X : Tensor R} {x : Nat → Tensor R} {rg : Nat → Bool}
variable (h : BNMade P L M)
include h

/-- The statistics of a batch. -/
theorem stats (hx : Blocks P L X x) {w : Nat} (hw : w ∈ P.members) :
    ∃ m s, bnStats M (channelVolume X : Nat) x rg w = some (m, s) ∧
      Held P (L.getD 1 []) (channelMean X) w m ∧ Held P (L.getD 1 []) (channelVar X) w s := by
  have hmean : ∀ v ∈ P.members, ∃ m, bnMean M (channelVolume X : Nat) x rg v = some m ∧
      Chan P.shape.length (chCount P L v) (fun j => channelMean X (chStart P L v + j)) m := by
    intro v hv
    obtain ⟨m, e, -, hc⟩ := h.mean (rg := rg) hx (channelVolume X : Nat) hv
    exact ⟨m, e, by simpa [channelMean] using hc⟩
  have hall : (M.P.members.all fun v => (bnMean M (channelVolume X : Nat) x rg v).isSome) = true := by
    rw [List.all_eq_true, h.part]
    intro v hv
    obtain ⟨m, e, -⟩ := hmean v hv
    rw [e]; rfl
  have hdev : ∀ v ∈ P.members, ∃ d, bnDeviation (x v)
      ((bnMean M (channelVolume X : Nat) x rg v).getD ⟨[], .float64, fun _ => 0⟩) = some d ∧
      d.shape = (x v).shape ∧ d.dtype = (x v).dtype ∧
      ∀ i, InBounds i (x v).shape → d.val i = ((x v).val i - channelMean X (chStart P L v + i.getD 1 0)) ^ 2 := by
    intro v hv
    obtain ⟨m, e, hc⟩ := hmean v hv
    rw [e, Option.getD_some]
    have hc' : Chan P.shape.length ((x v).shape.getD 1 0) (fun j => channelMean X (chStart P L v + j)) m := by
      rw [hx.shape v hv]; exact hc
    exact zip_block h.two (fun a b => (a - b) ^ 2) (h.block_length hx hv) hc'
  have hall' : (M.P.members.all fun v => (bnDeviation (x v)
      ((bnMean M (channelVolume X : Nat) x rg v).getD ⟨[], .float64, fun _ => 0⟩)).isSome) = true := by
    rw [List.all_eq_true, h.part]
    intro v hv
    obtain ⟨d, e, -⟩ := hdev v hv
    rw [e]; rfl
  have hb : Blocks P L ⟨X.shape, X.dtype, fun i => (X.val i - channelMean X (i.getD 1 0)) ^ 2⟩
      (fun v => (bnDeviation (x v)
        ((bnMean M (channelVolume X : Nat) x rg v).getD ⟨[], .float64, fun _ => 0⟩)).getD
          ⟨[], .float64, fun _ => 0⟩) := by
    refine ⟨hx.whole, fun v hv => ?_, fun v hv => ?_, fun v hv l hl => ?_⟩ <;>
      obtain ⟨d, e, hs, hd, hval⟩ := hdev v hv <;> simp only [e, Option.getD_some]
    · rw [hs, hx.shape v hv]
    · rw [hd, hx.dtype v hv]
    · rw [hval l (by rw [hx.shape v hv]; exact hl), hx.val v hv l hl]
      have hL : L.length = P.shape.length := by rw [← h.placed.layout, L.length_pshape]
      have h2 := h.two
      rw [getD_shiftBy (by rw [Layout.length_startAt (coord_len h.placed.layout v)]; omega)
        (by have := hl.length_eq; rw [Layout.length_shapeAt (coord_len h.placed.layout v)] at this; omega)]
      rfl
  obtain ⟨m, em, hm⟩ := hmean w hw
  obtain ⟨s, es, -, hs⟩ := h.mean (rg := rg) hb (channelVolume X : Nat) hw
  refine ⟨m, s, ?_, (held_iff h _ w m).2 hm, (held_iff h _ w s).2 ?_⟩
  · rw [bnStats, if_pos hall, em, Option.bind_some, bnVar, if_pos hall', es, Option.map_some]
  · have e : (fun j => channelVar X (chStart P L w + j)) = fun j => channelSum
        (⟨X.shape, X.dtype, fun i => (X.val i - channelMean X (i.getD 1 0)) ^ 2⟩ : Tensor R)
          (chStart P L w + j) / (((channelVolume X : Nat) : Int) : R) := by
      funext j
      rw [channelVar, channelSquares, channelSum, Int.cast_natCast]
      congr 1
      refine boxSum_congr fun i _ => ?_
      split
      · next e =>
        show _ = (X.val i - channelMean X (i.getD 1 0)) ^ 2
        rw [e]
      · rfl
    rw [e]; exact hs

/-- A parameter after its broadcast. -/
theorem param {f : Nat → R} {t : Nat → Tensor R} {d : TorchDtype}
    (hp : Param P M.Psum (L.getD 1 []) d f t) {w : Nat} (hw : w ∈ P.members) :
    ∃ g, bcastForward M.bc ⟨t, rg⟩ w = some g ∧ g.dtype = d ∧ Held P (L.getD 1 []) f w g := by
  have hb : HasBatch M.bc t := by
    intro _ u hu
    refine hp.batch u ?_
    rcases hu with hu | hu
    · exact h.sum.sub u hu
    · rw [← h.part]; exact hu
  have hw' : w ∈ M.bc.Py.members := by show w ∈ M.P.members; rw [h.part]; exact hw
  obtain ⟨r, hr, hf, -, e⟩ := (C22_forward M.bc h.bcLayer ⟨t, rg⟩ hb).1 w hw'
  have ec := (h.feeds hr hw).1 hf
  obtain ⟨hh, hd⟩ := hp.held r hr
  refine ⟨t r, e, hd, ?_⟩
  rw [Held, ec] at hh
  exact hh

/-- Normalisation, scale and shift on one worker. -/
theorem apply (sqrt : R → R) {gamma beta : Nat → R} {g b : Nat → Tensor R} (hx : Blocks P L X x)
    (hg : M.affine = true → Param P M.Psum (L.getD 1 []) X.dtype gamma g)
    (hb : M.affine = true → Param P M.Psum (L.getD 1 []) X.dtype beta b)
    {w : Nat} (hw : w ∈ P.members) {mean var : Nat → R} {m s : Tensor R}
    (hm : Held P (L.getD 1 []) mean w m) (hs : Held P (L.getD 1 []) var w s) :
    ∃ y, bnApply M sqrt g b rg (x w) (m, s) w = some y ∧ y.shape = L.shapeAt (P.coord w) ∧ y.dtype = X.dtype ∧
      ∀ l, InBounds l (L.shapeAt (P.coord w)) →
        y.val l = (seqNorm sqrt M.eps M.affine gamma beta (mean, var) X).val
          (shiftBy (L.startAt (P.coord w)) l) := by
  have hsh := hx.shape w hw
  have hlen := h.block_length hx hw
  have chan : ∀ {f : Nat → R} {t : Tensor R}, Held P (L.getD 1 []) f w t →
      Chan P.shape.length ((x w).shape.getD 1 0) (fun j => f (chStart P L w + j)) t := by
    intro f t ht
    rw [hsh]
    exact (held_iff h f w t).1 ht
  have pos : ∀ l, InBounds l (L.shapeAt (P.coord w)) →
      (shiftBy (L.startAt (P.coord w)) l).getD 1 0 = chStart P L w + l.getD 1 0 := by
    intro l hl
    have hL : L.length = P.shape.length := by rw [← h.placed.layout, L.length_pshape]
    have h2 := h.two
    exact getD_shiftBy (by rw [Layout.length_startAt (coord_len h.placed.layout w)]; omega)
      (by have := hl.length_eq; rw [Layout.length_shapeAt (coord_len h.placed.layout w)] at this; omega)
  obtain ⟨d, ed, ds, dd, dv⟩ := zip_block h.two (fun a b => a - b) hlen (chan hm)
  have chand : ∀ {f : Nat → R} {t : Tensor R}, Held P (L.getD 1 []) f w t →
      Chan P.shape.length (d.shape.getD 1 0) (fun j => f (chStart P L w + j)) t := by
    intro f t ht; rw [ds]; exact chan ht
  obtain ⟨y, ey, ys, yd, yv⟩ := zip_block h.two (fun a b => a / sqrt (b + M.eps)) (ds ▸ hlen) (chand hs)
  have base : ∀ l, InBounds l (L.shapeAt (P.coord w)) → y.val l =
      (X.val (shiftBy (L.startAt (P.coord w)) l) - mean (chStart P L w + l.getD 1 0)) /
        sqrt (var (chStart P L w + l.getD 1 0) + M.eps) := by
    intro l hl
    have hl' : InBounds l (x w).shape := hsh ▸ hl
    rw [yv l (ds ▸ hl'), dv l hl', hx.val w hw l hl]
  rw [bnApply]
  simp only [ed, Option.bind_some, ey]
  by_cases ha : M.affine = true
  · rw [if_pos ha]
    obtain ⟨g', eg, gd, hg'⟩ := h.param (rg := rg) (hg ha) hw
    obtain ⟨b', eb, -, hb'⟩ := h.param (rg := rg) (hb ha) hw
    have ysl : y.shape = (x w).shape := ys.trans ds
    have chany : ∀ {f : Nat → R} {t : Tensor R}, Held P (L.getD 1 []) f w t →
        Chan P.shape.length (y.shape.getD 1 0) (fun j => f (chStart P L w + j)) t := by
      intro f t ht; rw [ysl]; exact chan ht
    obtain ⟨z, ez, zs, zd, zv⟩ := zip_block' h.two (fun g y => g * y) (ysl ▸ hlen) (chany hg')
    have zsl : z.shape = (x w).shape := zs.trans ysl
    have chanz : Chan P.shape.length (z.shape.getD 1 0) (fun j => beta (chStart P L w + j)) b' := by
      rw [zsl]; exact chan hb'
    obtain ⟨o, eo, os, od, ov⟩ := zip_block h.two (fun z b => z + b) (zsl ▸ hlen) chanz
    refine ⟨o, by rw [eg, Option.bind_some, eb, Option.bind_some, ez, Option.bind_some, eo],
      os.trans (zsl.trans hsh), od.trans (zd.trans gd), fun l hl => ?_⟩
    have hl' : InBounds l (x w).shape := hsh ▸ hl
    rw [ov l (zsl ▸ hl'), zv l (ysl ▸ hl'), base l hl, seqNorm]
    simp only [ha, if_true, pos l hl]
  · rw [if_neg ha]
    refine ⟨y, rfl, ys.trans (ds.trans hsh), yd.trans (dd.trans (hx.dtype w hw)), fun l hl => ?_⟩
    rw [base l hl, seqNorm]
    simp only [if_neg ha, pos l hl]

end BNMade

variable [DecidableEq R]

/-- The update on one worker. -/
theorem update_held {momentum : Option R} (h0 : momentum ≠ some 0) [CharZero R] {P : Cart} (h2 : 2 ≤ P.shape.length)
    {w : Nat} {s : SeqState R} {st : BNState R} {m v : Nat → R} {tm tv : Tensor R}
    (hs : Held P bs s.mean w st.mean ∧ Held P bs s.var w st.var) (hseen : momentum = none → st.seen = s.seen)
    (hm : Held P bs m w tm) (hv : Held P bs v w tv) :
    ∃ st', updateStats momentum st tm tv = some st' ∧
      (Held P bs (seqUpdate momentum s m v).mean w st'.mean ∧ Held P bs (seqUpdate momentum s m v).var w st'.var) ∧
      (momentum = none → st'.seen = (seqUpdate momentum s m v).seen) := by
  have congr : ∀ {f f' : Nat → R} {t : Tensor R}, Held P bs f w t → (∀ c, f c = f' c) → Held P bs f' w t := by
    intro f f' t ht e
    rw [← funext e]; exact ht
  cases momentum with
  | none =>
    have hk : ((s.seen : R) + 1) ≠ 0 := by exact_mod_cast Nat.succ_ne_zero s.seen
    obtain ⟨y, ey, hy⟩ := zip_chan h2 (fun b r => (b + (st.seen : R) * r) / ((st.seen : R) + 1)) hm hs.1
    obtain ⟨z, ez, hz⟩ := zip_chan h2 (fun b r => (b + (st.seen : R) * r) / ((st.seen : R) + 1)) hv hs.2
    refine ⟨⟨y, z, st.seen + 1⟩, ?_, ⟨?_, ?_⟩, fun _ => ?_⟩
    · simp only [updateStats, ey, ez, Option.bind_some, Option.map_some]
    · refine congr (f := fun c => (m c + (st.seen : R) * s.mean c) / ((st.seen : R) + 1)) hy fun c => ?_
      rw [hseen rfl]
      simp only [seqUpdate]
      field_simp
      ring
    · refine congr (f := fun c => (v c + (st.seen : R) * s.var c) / ((st.seen : R) + 1)) hz fun c => ?_
      rw [hseen rfl]
      simp only [seqUpdate]
      field_simp
      ring
    · simp only [seqUpdate, hseen rfl]
  | some a =>
    have ha : a ≠ 0 := fun e => h0 (by rw [e])
    obtain ⟨y, ey, hy⟩ := zip_chan h2 (fun r b => (1 - a) * r + a * b) hs.1 hm
    obtain ⟨z, ez, hz⟩ := zip_chan h2 (fun r b => (1 - a) * r + a * b) hs.2 hv
    refine ⟨⟨y, z, st.seen⟩, ?_, ⟨hy, hz⟩, fun e => by cases e⟩
    simp only [updateStats, if_pos ha, ey, ez, Option.bind_some, Option.map_some]

/-- One call, in any mode. -/
theorem BNCall.OK.run (h : BNWith P bs M) {c : BNCall R} (hc : c.OK P bs M) (sqrt : R → R) {w : Nat}
    (hw : w ∈ P.members) (st : Nat → BNState R) :
    c.run M sqrt st w = (bnUsed M c.training (channelVolume c.X : Nat) st c.x c.rg w).bind fun u =>
      (bnApply M sqrt c.g c.b c.rg (c.x w) u.1 w).map fun y => (y, u.2) := by
  have hm := h.made hc.layout
  obtain ⟨b, hb⟩ := hc.rg
  obtain ⟨w0, h0⟩ : ∃ w0, P.members.head? = some w0 := by
    cases hP : P.members with
    | nil => rw [hP] at hw; cases hw
    | cons a l => exact ⟨a, rfl⟩
  have hg := (C08_global_structure P h.wf c.L hc.layout (fun v => ((c.x v).shape, (c.x v).dtype, c.rg v)) c.X.dtype b
    (fun v hv idx e => by
      have : P.coord v = idx := by rw [Cart.index_eq hv] at e; exact Option.some.inj e
      rw [← this, ← hc.blocks.shape v hv, hc.blocks.dtype v hv, hb v hv]) [w0] w0 h0 (by simp)).1 w hw
  have hL : c.L.length = P.shape.length := by rw [← hc.layout, c.L.length_pshape]
  have h2 := h.two
  have hgl : 2 ≤ c.L.global.length := by rw [Layout.length_global]; omega
  rw [BNCall.run, bnForward, h.part, hg]
  have e1 : (c.L.global.map fun (n : Nat) => (n : Int)).getD 1 0 = (M.numFeatures : Int) := by
    rw [List.getD_eq_getElem?_getD, List.getElem?_map, ← h.features, ← hc.channels,
      ← getD_global c.L (by omega), List.getD_eq_getElem?_getD, List.getElem?_eq_getElem (by omega)]
    rfl
  simp only [e1, ne_eq, not_true_eq_false, if_false, featureVolume_eq hgl, channelVolume, hc.blocks.whole]

/-- The update never raises on buffers of the right shape. -/
theorem update_some (momentum : Option R) {P : Cart} (h2 : 2 ≤ P.shape.length) {w : Nat} {s : SeqState R}
    {st : BNState R} {m v : Nat → R} {tm tv : Tensor R}
    (hs : Held P bs s.mean w st.mean ∧ Held P bs s.var w st.var)
    (hm : Held P bs m w tm) (hv : Held P bs v w tv) : ∃ st', updateStats momentum st tm tv = some st' := by
  have avg : ∃ st', updateStats none st tm tv = some st' := by
    obtain ⟨y, ey, hy⟩ := zip_chan h2 (fun b r => (b + (st.seen : R) * r) / ((st.seen : R) + 1)) hm hs.1
    obtain ⟨z, ez, hz⟩ := zip_chan h2 (fun b r => (b + (st.seen : R) * r) / ((st.seen : R) + 1)) hv hs.2
    exact ⟨⟨y, z, st.seen + 1⟩, by simp only [updateStats, ey, ez, Option.bind_some, Option.map_some]⟩
  cases momentum with
  | none => exact avg
  | some a =>
    by_cases ha : a ≠ 0
    · obtain ⟨y, ey, hy⟩ := zip_chan h2 (fun r b => (1 - a) * r + a * b) hs.1 hm
      obtain ⟨z, ez, hz⟩ := zip_chan h2 (fun r b => (1 - a) * r + a * b) hs.2 hv
      exact ⟨⟨y, z, st.seen⟩, by simp only [updateStats, if_pos ha, ey, ez, Option.bind_some, Option.map_some]⟩
    · rw [updateStats, if_neg ha]
      exact avg

/-- The statistics used in a call. -/
theorem BNCall.OK.used (h : BNWith P bs M) {c : BNCall R} (hc : c.OK P bs M) {w : Nat} (hw : w ∈ P.members)
    {s : SeqState R} {st : Nat → BNState R} (hs : M.track = true → Running P bs s st) :
    ∃ m v st', bnUsed M c.training (channelVolume c.X : Nat) st c.x c.rg w = some ((m, v), st') ∧
      Held P bs (seqUsed M.track c.training s c.X).1 w m ∧ Held P bs (seqUsed M.track c.training s c.X).2 w v ∧
      (if c.training && M.track then updateStats M.momentum (st w) m v = some st' else st' = st w) := by
  have hm := h.made hc.layout
  obtain ⟨m, v, e, em, ev⟩ := hm.stats (rg := c.rg) hc.blocks hw
  rw [hc.channels] at em ev
  rw [bnUsed, e]
  cases ht : c.training <;> cases hk : M.track
  · exact ⟨m, v, st w, rfl, em, ev, rfl⟩
  · exact ⟨_, _, st w, rfl, (hs hk w hw).1, (hs hk w hw).2, rfl⟩
  · exact ⟨m, v, st w, rfl, em, ev, rfl⟩
  · obtain ⟨st', e'⟩ := update_some M.momentum h.two (hs hk w hw) em ev
    exact ⟨m, v, st', by simp only [if_true, Option.bind_some, e', Option.map_some], em, ev, e'⟩

end

end Verif
