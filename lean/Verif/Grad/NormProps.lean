import Verif.Grad.NormCore
import Verif.BatchNorm.Props
import Mathlib.Tactic.LinearCombination

/-!
# Backward pass of the batch norm: gradients of the sequential layer (C64)
-/

namespace Verif

/-! ## Specification -/

section
variable {R : Type} [Field R]

/-- The normalised tensor of the sequential layer for statistics `ms`. -/
def seqHat (sqrt : R → R) (eps : R) (ms : (Nat → R) × (Nat → R)) (X : Tensor R) : Tensor R :=
  ⟨X.shape, X.dtype, fun i => (X.val i - ms.1 (i.getD 1 0)) / sqrt (ms.2 (i.getD 1 0) + eps)⟩

/-- Entrywise product. -/
def timesT (a b : Tensor R) : Tensor R := ⟨a.shape, a.dtype, fun i => a.val i * b.val i⟩

/-- Gradient of the input of the sequential layer for the output gradient `dY`.  With the statistics of the batch
the mean of `dY`, and `X^` times the mean of `dY X^`, are taken off. -/
def seqNormGrad (sqrt : R → R) (eps : R) (affine : Bool) (gamma : Nat → R) (batch : Bool)
    (ms : (Nat → R) × (Nat → R)) (X dY : Tensor R) : Tensor R :=
  ⟨X.shape, X.dtype, fun i =>
    let c := i.getD 1 0
    let H := seqHat sqrt eps ms X
    (if affine then gamma c else 1) / sqrt (ms.2 c + eps) *
      (if batch then dY.val i - channelMean dY c - H.val i * channelMean (timesT dY H) c else dY.val i)⟩

end

section
variable {R : Type}

/-- Gradient of the input on worker `w` in a call. -/
def BNCall.gradX [Field R] (M : BatchNorm R) (sqrt : R → R) (c : BNCall R) (st : Nat → BNState R)
    (dy : Nat → Tensor R) (w : Nat) : Option (Tensor R) :=
  (bnVolume M c.x c.rg w).bind fun V => bnGradX M sqrt c.training V st c.g c.x c.rg dy w

/-- Gradient of `gamma` on worker `w` in a call. -/
def BNCall.gradGamma [Field R] [DecidableEq R] (M : BatchNorm R) (sqrt : R → R) (c : BNCall R) (st : Nat → BNState R)
    (dy : Nat → Tensor R) (w : Nat) : Option (Tensor R) :=
  (bnVolume M c.x c.rg w).bind fun V => bnGradGamma M sqrt c.training V st c.g c.x c.rg dy w

/-- Gradient of `beta` on worker `w` in a call. -/
def BNCall.gradBeta [Field R] (M : BatchNorm R) (c : BNCall R) (dy : Nat → Tensor R) (w : Nat) : Option (Tensor R) :=
  bnGradBeta M c.b c.rg dy w

variable [Field R] {P : Cart} {bs : List Nat} {M : BatchNorm R}

omit [Field R] in
theorem BNCall.OK.volume (h : BNWith P bs M) {c : BNCall R} (hc : c.OK P bs M) {w : Nat} (hw : w ∈ P.members) :
    bnVolume M c.x c.rg w = some ((channelVolume c.X : Nat) : Int) := by
  obtain ⟨b, hb⟩ := hc.rg
  obtain ⟨w0, h0⟩ : ∃ w0, P.members.head? = some w0 := by
    cases hP : P.members with
    | nil => rw [hP] at hw; cases hw
    | cons a l => exact ⟨a, rfl⟩
  have hg := (C08_global_structure P h.wf c.L hc.layout (fun v => ((c.x v).shape, (c.x v).dtype, c.rg v)) c.X.dtype b
    (fun v hv idx e => by
      have : P.coord v = idx := by rw [Cart.index_eq hv] at e; exact Option.some.inj e
      rw [← this, ← hc.blocks.shape v hv, hc.blocks.dtype v hv, hb v hv]) [w0] w0 h0 (by simp)).1 w hw
  have hL : c.L.length = P.shape.length := by rw [← hc.layout, c.L.length_pshape]
  have h2 := h.two
  have hgl : 2 ≤ c.L.global.length := by rw [Layout.length_global]; omega
  rw [bnVolume, h.part, hg]
  have e1 : (c.L.global.map fun (n : Nat) => (n : Int)).getD 1 0 = (M.numFeatures : Int) := by
    rw [List.getD_eq_getElem?_getD, List.getElem?_map, ← h.features, ← hc.channels,
      ← getD_global c.L (by omega), List.getD_eq_getElem?_getD, List.getElem?_eq_getElem (by omega)]
    rfl
  simp only [e1, ne_eq, not_true_eq_false, if_false, featureVolume_eq hgl, channelVolume, hc.blocks.whole]

namespace BNMade

variable {L : Layout} {X dY : Tensor R} {x dy : Nat → Tensor R} {rg : Nat → Bool}
variable (h : BNMade P L M)
include h

omit [Field R] h in
/-- Tensors of the shape of the blocks with the entries of a function of the global position. -/
theorem blocks_of (hx : Blocks P L X x) {t : Nat → Tensor R} {dt : TorchDtype} {F : List Nat → R}
    (ht : ∀ v ∈ P.members, (t v).shape = (x v).shape ∧ (t v).dtype = dt ∧ ∀ l, InBounds l (x v).shape →
      (t v).val l = F (shiftBy (L.startAt (P.coord v)) l)) : Blocks P L ⟨X.shape, dt, F⟩ t :=
  ⟨hx.whole, fun v hv => (ht v hv).1.trans (hx.shape v hv), fun v hv => (ht v hv).2.1,
    fun v hv l hl => (ht v hv).2.2 l (by rw [hx.shape v hv]; exact hl)⟩

omit [Field R] in
theorem held_chan {f : Nat → R} {w : Nat} {m : Tensor R} (hx : Blocks P L X x) (hw : w ∈ P.members)
    (hm : Held P (L.getD 1 []) f w m) :
    Chan P.shape.length ((x w).shape.getD 1 0) (fun j => f (chStart P L w + j)) m := by
  rw [hx.shape w hw]
  exact (held_iff h f w m).1 hm

omit [Field R] in
/-- Combination of a block with values of its channels. -/
theorem zip_held (g : R → R → R) {X : Tensor R} {x : Nat → Tensor R} (hx : Blocks P L X x) {f : Nat → R} {w : Nat}
    {m : Tensor R} (hw : w ∈ P.members) (hm : Held P (L.getD 1 []) f w m) :
    ∃ y, torchZip g (x w) m = some y ∧ y.shape = (x w).shape ∧ y.dtype = X.dtype ∧
      ∀ l, InBounds l (x w).shape → y.val l = g (X.val (shiftBy (L.startAt (P.coord w)) l))
        (f ((shiftBy (L.startAt (P.coord w)) l).getD 1 0)) := by
  obtain ⟨y, e, hs, hd, hv⟩ := zip_block h.two g (h.block_length hx hw) (h.held_chan hx hw hm)
  refine ⟨y, e, hs, hd.trans (hx.dtype w hw), fun l hl => ?_⟩
  have hl' : InBounds l (L.shapeAt (P.coord w)) := by rw [← hx.shape w hw]; exact hl
  rw [hv l hl, hx.val w hw l hl', h.start_get hl']

omit [Field R] h in
/-- Combination of two blocks. -/
theorem zip_blocks (g : R → R → R) {a b : Tensor R} (hs : a.shape = b.shape) :
    ∃ y, torchZip g a b = some y ∧ y.shape = a.shape ∧ y.dtype = a.dtype ∧
      ∀ l, InBounds l a.shape → y.val l = g (a.val l) (b.val l) := by
  have hj : joinShape a.shape b.shape = some a.shape := by
    rw [← hs]
    exact joinShape_of rfl rfl fun d _ => joinExtent_self _
  refine ⟨⟨a.shape, a.dtype, fun i => g (a.val (clip a.shape i)) (b.val (clip b.shape i))⟩,
    by rw [torchZip, hj, Option.map_some], rfl, rfl, fun l hl => ?_⟩
  show g (a.val (clip a.shape l)) (b.val (clip b.shape l)) = _
  rw [← hs, clip_inBounds hl]

/-- The gradients of the normalised tensor. -/
theorem scale_back {gamma : Nat → R} {g : Nat → Tensor R} {dt : TorchDtype} (hy : Blocks P L dY dy)
    (hg : M.affine = true → Param P M.Psum (L.getD 1 []) dt gamma g) :
    ∃ dz, (gatherAll M.P.members fun v => bnScaleGrad M g rg (dy v) v) = some dz ∧
      Blocks P L ⟨dY.shape, dY.dtype, fun i => (if M.affine then gamma (i.getD 1 0) else 1) * dY.val i⟩ dz := by
  obtain ⟨dz, e, hz⟩ := gatherAll_spec (ws := M.P.members) (f := fun v => bnScaleGrad M g rg (dy v) v)
    (p := fun v t => t.shape = (dy v).shape ∧ t.dtype = dY.dtype ∧ ∀ l, InBounds l (dy v).shape →
      t.val l = (fun i : List Nat => (if M.affine then gamma (i.getD 1 0) else 1) * dY.val i)
        (shiftBy (L.startAt (P.coord v)) l)) (by
    intro v hv
    rw [h.part] at hv
    show ∃ t, bnScaleGrad M g rg (dy v) v = some t ∧ _
    rw [bnScaleGrad]
    by_cases ha : M.affine = true
    · rw [if_pos ha]
      obtain ⟨g', eg, -, hg'⟩ := h.param (rg := rg) (hg ha) hv
      obtain ⟨y, ey, h1, h2, h3⟩ := h.zip_held (fun a g => a * g) hy hv hg'
      refine ⟨y, by rw [eg, Option.bind_some, ey], h1, h2, fun l hl => ?_⟩
      rw [h3 l hl]
      simp only [ha, if_true]
      ring
    · rw [if_neg ha]
      refine ⟨_, rfl, rfl, hy.dtype v hv, fun l hl => ?_⟩
      simp only [ha, Bool.false_eq_true, if_false, one_mul]
      exact hy.val v hv l (by rw [← hy.shape v hv]; exact hl))
  rw [h.part] at hz
  exact ⟨dz, e, blocks_of hy hz⟩

/-- The normalised tensor on one worker. -/
theorem normal (sqrt : R → R) (hx : Blocks P L X x) {ms : (Nat → R) × (Nat → R)} {m s : Tensor R} {w : Nat}
    (hw : w ∈ P.members) (hm : Held P (L.getD 1 []) ms.1 w m) (hs : Held P (L.getD 1 []) ms.2 w s) :
    ∃ y, bnNormal M sqrt (x w) (m, s) = some y ∧ y.shape = (x w).shape ∧ y.dtype = X.dtype ∧
      ∀ l, InBounds l (x w).shape → y.val l = (seqHat sqrt M.eps ms X).val (shiftBy (L.startAt (P.coord w)) l) := by
  obtain ⟨d, ed, h1, h2, h3⟩ := h.zip_held (fun a b => a - b) hx hw hm
  obtain ⟨y, ey, g1, g2, g3⟩ := zip_block h.two (fun a b => a / sqrt (b + M.eps)) (x := d)
    (by rw [h1]; exact h.block_length hx hw) (by rw [h1]; exact h.held_chan hx hw hs)
  refine ⟨y, by rw [bnNormal, ed, Option.bind_some, ey], g1.trans h1, g2.trans h2, fun l hl => ?_⟩
  have hl' : InBounds l (L.shapeAt (P.coord w)) := by rw [← hx.shape w hw]; exact hl
  rw [g3 l (by rw [h1]; exact hl), h3 l hl, seqHat]
  simp only [h.start_get hl']

/-- The gradient of the variance on one worker: sums of the terms of its entries. -/
theorem var_back (sqrt : R → R) (hx : Blocks P L X x) {dz : Nat → Tensor R} {Z : Tensor R} (hz : Blocks P L Z dz)
    {ms : (Nat → R) × (Nat → R)} {m s : Tensor R} {w : Nat}
    (hw : w ∈ P.members) (hm : Held P (L.getD 1 []) ms.1 w m) (hs : Held P (L.getD 1 []) ms.2 w s)
    {t : Tensor R} (hts : t.shape = (x w).shape) (htv : ∀ l, InBounds l (x w).shape →
      t.val l = (fun i : List Nat => (2 * sqrt (ms.2 (i.getD 1 0) + M.eps))⁻¹ * -(Z.val i * (seqHat sqrt M.eps ms X).val i /
        sqrt (ms.2 (i.getD 1 0) + M.eps))) (shiftBy (L.startAt (P.coord w)) l)) :
    ∃ d, bnVarGrad M sqrt (x w) (m, s) (dz w) = some d ∧ SumsOf P.shape.length t d ∧ d.dtype = Z.dtype := by
  have hzs : (dz w).shape = (x w).shape := (hz.shape w hw).trans (hx.shape w hw).symm
  have hlen := h.block_length hx hw
  obtain ⟨y, ey, y1, -, y3⟩ := h.normal sqrt hx hw hm hs
  obtain ⟨a, ea, a1, a2, a3⟩ := zip_blocks (fun a b => a * b) (hzs.trans y1.symm)
  obtain ⟨u, eu, u1, u2, u3⟩ := zip_block h.two (fun a b => -(a / sqrt (b + M.eps))) (x := a)
    (by rw [a1, hzs]; exact hlen) (by rw [a1, hzs]; exact h.held_chan hx hw hs)
  have hus : u.shape = (x w).shape := u1.trans (a1.trans hzs)
  have hss : s.shape = channelShape P.shape.length (u.shape.getD 1 0) := by
    rw [hus]; exact (h.held_chan hx hw hs).shape
  have hsum := sumTo_sums h.two (t := u) (by rw [hus]; exact hlen)
  rw [← hss] at hsum
  have hc : Chan P.shape.length ((x w).shape.getD 1 0)
      (fun j => boxSum u.shape fun l => if l.getD 1 0 = j then u.val l else 0) (sumTo s.shape u) := by
    rw [← hus]
    exact ⟨hsum.shape, fun i hi => hsum.val i hi⟩
  obtain ⟨d, ed, hd⟩ := zip_chan h.two (fun a b => a / (2 * sqrt (b + M.eps))) hc (h.held_chan hx hw hs)
  refine ⟨d, by rw [bnVarGrad, ey, Option.bind_some, ea, Option.bind_some]; simp only [eu, Option.bind_some]; exact ed,
    ⟨by rw [hts]; exact hd.shape, fun i hi => ?_⟩, ?_⟩
  · rw [hts] at hi ⊢
    rw [hd.val i hi, hus, div_eq_inv_mul, ← boxSum_mul_left]
    refine boxSum_congr fun l hl => ?_
    have hl' : InBounds l (L.shapeAt (P.coord w)) := by rw [← hx.shape w hw]; exact hl
    split
    · next e =>
      rw [htv l hl, u3 l (by rw [a1, hzs]; exact hl), a3 l (by rw [hzs]; exact hl), y3 l hl, hz.val w hw l hl']
      simp only [h.start_get hl', e]
    · simp
  · have hd2 : d.dtype = u.dtype := by
      unfold torchZip at ed
      obtain ⟨sh, -, e⟩ := Option.map_eq_some_iff.1 ed
      rw [← e]
      rfl
    rw [hd2, u2, a2, hz.dtype w hw]

/-- The gradient of the input with the statistics of the batch. -/
theorem batch_back [CharZero R] (sqrt : R → R) (hx : Blocks P L X x) {scale : Nat → R} (hYs : dY.shape = X.shape)
    (hYd : dY.dtype = X.dtype) {dz : Nat → Tensor R}
    (hz : Blocks P L ⟨dY.shape, dY.dtype, fun i => scale (i.getD 1 0) * dY.val i⟩ dz) {w : Nat}
    (hw : w ∈ P.members) :
    ∃ a, bnBatchGrad M sqrt (channelVolume X : Nat) x rg dz w = some a ∧ a.shape = (x w).shape ∧ a.dtype = X.dtype ∧
      ∀ l, InBounds l (x w).shape →
        a.val l = (fun i : List Nat => scale (i.getD 1 0) / sqrt (channelVar X (i.getD 1 0) + M.eps) *
          (dY.val i - channelMean dY (i.getD 1 0) -
            (seqHat sqrt M.eps (channelMean X, channelVar X) X).val i *
              channelMean (timesT dY (seqHat sqrt M.eps (channelMean X, channelVar X) X)) (i.getD 1 0)))
            (shiftBy (L.startAt (P.coord w)) l) := by
  set ms : (Nat → R) × (Nat → R) := (channelMean X, channelVar X) with hms
  set H := seqHat sqrt M.eps ms X with hH
  set q : Nat → R := fun c => sqrt (channelVar X c + M.eps) with hq
  have hstat := fun v (hv : v ∈ P.members) => h.stats (rg := rg) hx hv
  -- mean and variance
  have hmean : ∀ v ∈ M.P.members, ∃ t, bnMean M (channelVolume X : Nat) x rg v = some t ∧
      Held P (L.getD 1 []) (channelMean X) v t := by
    intro v hv
    rw [h.part] at hv
    obtain ⟨m, s, e, hm, -⟩ := hstat v hv
    rw [bnStats] at e
    split at e
    · obtain ⟨t, e1, e2⟩ := Option.bind_eq_some_iff.1 e
      obtain ⟨s', -, e3⟩ := Option.map_eq_some_iff.1 e2
      obtain rfl : t = m := (Prod.mk.inj e3).1
      exact ⟨t, e1, hm⟩
    · cases e
  have em := gatherAll_eq (ws := M.P.members) fun v hv => (hmean v hv).imp fun _ => And.left
  have hvar : ∀ v ∈ M.P.members, ∃ t, bnVar M (channelVolume X : Nat) x
      (fun v => (bnMean M (channelVolume X : Nat) x rg v).getD ⟨[], .float64, fun _ => 0⟩) rg v = some t ∧
      Held P (L.getD 1 []) (channelVar X) v t := by
    intro v hv
    rw [h.part] at hv
    obtain ⟨m, s, e, -, hs⟩ := hstat v hv
    rw [bnStats] at e
    split at e
    · obtain ⟨t, e1, e2⟩ := Option.bind_eq_some_iff.1 e
      obtain ⟨s', e4, e3⟩ := Option.map_eq_some_iff.1 e2
      obtain rfl : s' = s := (Prod.mk.inj e3).2
      exact ⟨s', e4, hs⟩
    · cases e
  obtain ⟨m, hm⟩ : ∃ m, m = fun v => (bnMean M (channelVolume X : Nat) x rg v).getD ⟨[], .float64, fun _ => 0⟩ :=
    ⟨_, rfl⟩
  have hmH : ∀ v ∈ P.members, Held P (L.getD 1 []) ms.1 v (m v) := by
    intro v hv
    obtain ⟨t, e, ht⟩ := hmean v (by rw [h.part]; exact hv)
    rw [hm]
    simp only [e, Option.getD_some]
    exact ht
  rw [← hm] at em hvar
  obtain ⟨s, es, hs⟩ := gatherAll_spec hvar
  rw [h.part] at hs
  have hsH : ∀ v ∈ P.members, Held P (L.getD 1 []) ms.2 v (s v) := hs
  -- squared deviations
  obtain ⟨e, ee, he⟩ := gatherAll_spec (ws := M.P.members) (f := fun v => bnDeviation (x v) (m v))
    (p := fun v t => t.shape = (x v).shape ∧ t.dtype = X.dtype ∧ ∀ l, InBounds l (x v).shape →
      t.val l = (fun i : List Nat => (X.val i - channelMean X (i.getD 1 0)) ^ 2) (shiftBy (L.startAt (P.coord v)) l))
    fun v hv => by
      rw [h.part] at hv
      exact h.zip_held (fun a b => (a - b) ^ 2) hx hv (hmH v hv)
  rw [h.part] at he
  have heB := blocks_of (F := fun i : List Nat => (X.val i - channelMean X (i.getD 1 0)) ^ 2) hx he
  -- gradient of the variance
  set T1 : List Nat → R := fun i => (2 * q (i.getD 1 0))⁻¹ *
    -((scale (i.getD 1 0) * dY.val i) * H.val i / q (i.getD 1 0)) with hT1
  set t1 : Nat → Tensor R := fun v => ⟨(x v).shape, X.dtype, fun l => T1 (shiftBy (L.startAt (P.coord v)) l)⟩ with ht1
  have ht1B : Blocks P L ⟨X.shape, X.dtype, T1⟩ t1 := blocks_of hx fun v _ => ⟨rfl, rfl, fun _ _ => rfl⟩
  obtain ⟨ds, eds, hds⟩ := gatherAll_spec (ws := M.P.members)
    (f := fun v => bnVarGrad M sqrt (x v) (m v, s v) (dz v))
    (p := fun v d => SumsOf P.shape.length (t1 v) d ∧ d.dtype = X.dtype) fun v hv => by
      rw [h.part] at hv
      obtain ⟨d, ed, h1, h2⟩ := h.var_back sqrt hx hz hv (hmH v hv) (hsH v hv) (t := t1 v) rfl fun l _ => rfl
      exact ⟨d, ed, h1, h2.trans hYd⟩
  rw [h.part] at hds
  -- gradient of the deviations
  set De : List Nat → R := fun i => channelSum ⟨X.shape, X.dtype, T1⟩ (i.getD 1 0) / ((channelVolume X : Nat) : R) *
    (2 * (X.val i - channelMean X (i.getD 1 0))) with hDe
  obtain ⟨de, ede, hde⟩ := gatherAll_spec (ws := M.P.members)
    (f := fun v => (bnMeanGrad M (channelVolume X : Nat) e rg ds v).bind fun de => bnDeviationGrad (x v) (m v) de)
    (p := fun v t => t.shape = (x v).shape ∧ t.dtype = X.dtype ∧ ∀ l, InBounds l (x v).shape →
      t.val l = De (shiftBy (L.startAt (P.coord v)) l)) fun v hv => by
      rw [h.part] at hv
      obtain ⟨a, ea, a1, a2, a3⟩ := h.mean_back (rg := rg) heB (channelVolume X : Nat) ht1B hds hv
      obtain ⟨b, eb, b1, b2, b3⟩ := h.zip_held (fun a b => 2 * (a - b)) hx hv (hmH v hv)
      have a1' : a.shape = (x v).shape := a1.trans (he v hv).1
      obtain ⟨y, ey, y1, y2, y3⟩ := zip_blocks (fun g a => g * a) (a := a) (b := b) (a1'.trans b1.symm)
      refine ⟨y, ?_, y1.trans a1', y2.trans a2, fun l hl => ?_⟩
      · show (bnMeanGrad M (channelVolume X : Nat) e rg ds v).bind _ = _
        rw [ea, Option.bind_some, bnDeviationGrad, eb, Option.bind_some, ey]
      · have hl' : InBounds l (L.shapeAt (P.coord v)) := by rw [← hx.shape v hv]; exact hl
        rw [y3 l (by rw [a1']; exact hl), a3 l (by rw [(he v hv).1]; exact hl), b3 l hl, hDe]
        simp only [h.start_get hl', Int.cast_natCast]
        rfl
  rw [h.part] at hde
  -- gradient of the difference
  set D : List Nat → R := fun i => (scale (i.getD 1 0) * dY.val i) / q (i.getD 1 0) with hD
  obtain ⟨d, ed, hd⟩ := gatherAll_spec (ws := M.P.members) (f := fun v => bnNormalGrad M sqrt (m v, s v) (dz v))
    (p := fun v t => t.shape = (x v).shape ∧ t.dtype = X.dtype ∧ ∀ l, InBounds l (x v).shape →
      t.val l = D (shiftBy (L.startAt (P.coord v)) l)) fun v hv => by
      rw [h.part] at hv
      obtain ⟨y, ey, y1, y2, y3⟩ := h.zip_held (fun a b => a / sqrt (b + M.eps)) hz hv (hsH v hv)
      have hzs : (dz v).shape = (x v).shape := (hz.shape v hv).trans (hx.shape v hv).symm
      exact ⟨y, ey, y1.trans hzs, y2.trans hYd, fun l hl => y3 l (by rw [hzs]; exact hl)⟩
  rw [h.part] at hd
  -- gradient of the mean
  set t2 : Nat → Tensor R := fun v => ⟨(x v).shape, X.dtype, fun l => -(de v).val l + -(d v).val l⟩ with ht2
  have ht2B : Blocks P L ⟨X.shape, X.dtype, fun i => -De i + -D i⟩ t2 :=
    blocks_of hx fun v hv => ⟨rfl, rfl, fun l hl => by
      show -(de v).val l + -(d v).val l = _
      rw [(hde v hv).2.2 l hl, (hd v hv).2.2 l hl]⟩
  have hsum : ∀ v ∈ P.members, SumsOf P.shape.length (t2 v) (⟨(m v).shape, (d v).dtype, fun i =>
      -(sumTo (m v).shape (de v)).val i - (sumTo (m v).shape (d v)).val i⟩ : Tensor R) ∧ (d v).dtype = X.dtype := by
    intro v hv
    have hms : (m v).shape = channelShape P.shape.length ((x v).shape.getD 1 0) := (h.held_chan hx hv (hmH v hv)).shape
    have hlen := h.block_length hx hv
    have s1 := sumTo_sums h.two (t := de v) (by rw [(hde v hv).1]; exact hlen)
    have s2 := sumTo_sums h.two (t := d v) (by rw [(hd v hv).1]; exact hlen)
    rw [(hde v hv).1, ← hms] at s1
    rw [(hd v hv).1, ← hms] at s2
    refine ⟨⟨hms, fun i hi => ?_⟩, (hd v hv).2.1⟩
    show -(sumTo (m v).shape (de v)).val i - (sumTo (m v).shape (d v)).val i = boxSum (x v).shape fun l =>
      if l.getD 1 0 = i.getD 1 0 then -(de v).val l + -(d v).val l else 0
    rw [s1.val i (by rw [(hde v hv).1]; exact hi), s2.val i (by rw [(hd v hv).1]; exact hi), (hde v hv).1,
      (hd v hv).1]
    have : ∀ f g : List Nat → R, -boxSum (x v).shape f - boxSum (x v).shape g =
        boxSum (x v).shape fun l => -1 * f l + -1 * g l := by
      intro f g
      rw [boxSum_add, boxSum_mul_left, boxSum_mul_left]
      ring
    rw [this]
    refine boxSum_congr fun l _ => ?_
    split <;> ring
  obtain ⟨a, ea, a1, a2, a3⟩ := h.mean_back (rg := rg) hx (channelVolume X : Nat) ht2B hsum hw
  refine ⟨⟨(x w).shape, (d w).dtype, fun i => a.val i + (de w).val i + (d w).val i⟩, ?_, rfl, (hd w hw).2.1,
    fun l hl => ?_⟩
  · rw [bnBatchGrad, em]
    simp only [Option.bind_some, es]
    rw [ee]
    simp only [Option.bind_some]
    rw [eds]
    simp only [Option.bind_some]
    rw [ede]
    simp only [Option.bind_some]
    rw [ed]
    simp only [Option.bind_some]
    rw [ea, Option.map_some]
  · have hl' : InBounds l (L.shapeAt (P.coord w)) := by rw [← hx.shape w hw]; exact hl
    show a.val l + (de w).val l + (d w).val l = _
    rw [a3 l hl, (hde w hw).2.2 l hl, (hd w hw).2.2 l hl, ← h.start_get hl']
    have hc : (shiftBy (L.startAt (P.coord w)) l).getD 1 0 < X.shape.getD 1 0 := by
      rw [h.start_get hl', hx.whole]
      exact h.channel_lt hl'
    generalize shiftBy (L.startAt (P.coord w)) l = i at hc ⊢
    generalize hci : i.getD 1 0 = c at hc ⊢
    have hX2 : 2 ≤ X.shape.length := by
      have hL : L.length = P.shape.length := by rw [← h.placed.layout, L.length_pshape]
      have := h.two
      rw [hx.whole, Layout.length_global]; omega
    -- the three sums
    have sD : channelSum ⟨X.shape, X.dtype, D⟩ c = scale c / q c * channelSum dY c := by
      have e1 : D = fun i => (scale (i.getD 1 0) / q (i.getD 1 0)) * dY.val i := by
        funext i; simp only [hD]; ring
      have e2 : channelSum dY c = channelSum ⟨X.shape, X.dtype, dY.val⟩ c := by
        unfold channelSum; rw [hYs]
      rw [e1, e2, channelSum_scale X.shape X.dtype dY.val (fun c => scale c / q c) c]
    have sDe : channelSum ⟨X.shape, X.dtype, De⟩ c = 0 := by
      have e1 : De = fun i => (fun c => channelSum ⟨X.shape, X.dtype, T1⟩ c / ((channelVolume X : Nat) : R) * 2)
          (i.getD 1 0) * (X.val i - channelMean X (i.getD 1 0)) := by
        funext i; simp only [hDe]; ring
      rw [e1, channelSum_scale X.shape X.dtype (fun i => X.val i - channelMean X (i.getD 1 0))
        (fun c => channelSum ⟨X.shape, X.dtype, T1⟩ c / ((channelVolume X : Nat) : R) * 2) c,
        channelSum_centred X hX2 hc, mul_zero]
    have sT1 : channelSum ⟨X.shape, X.dtype, T1⟩ c =
        -((2 * q c)⁻¹ * (scale c / q c)) * channelSum (timesT dY H) c := by
      have e1 : T1 = fun i => (fun c => -((2 * q c)⁻¹ * (scale c / q c))) (i.getD 1 0) * (dY.val i * H.val i) := by
        funext i; simp only [hT1]; ring
      have e2 : channelSum (timesT dY H) c = channelSum ⟨X.shape, X.dtype, fun i => dY.val i * H.val i⟩ c := by
        unfold channelSum timesT; rw [hYs]
      rw [e1, e2, channelSum_scale X.shape X.dtype (fun i => dY.val i * H.val i)
        (fun c => -((2 * q c)⁻¹ * (scale c / q c))) c]
    have sum2 : channelSum ⟨X.shape, X.dtype, fun i => -De i + -D i⟩ c = -(scale c / q c * channelSum dY c) := by
      have e1 : (fun i => -De i + -D i) = fun i => (fun _ => -1) (i.getD 1 0) * (De i + D i) := by
        funext i; ring
      rw [e1, channelSum_scale X.shape X.dtype (fun i => De i + D i) (fun _ => -1) c, channelSum_add, sDe, sD]
      ring
    have hvol : (channelVolume dY) = channelVolume X := by unfold channelVolume; rw [hYs]
    have hvol' : channelVolume (timesT dY H) = channelVolume X := by unfold channelVolume timesT; rw [hYs]
    have hHi : H.val i = (X.val i - channelMean X c) / q c := by rw [hH, seqHat]; simp only [hci]; rfl
    have h20 : (2 : R) ≠ 0 := by exact_mod_cast (Nat.succ_ne_zero 1)
    have hDi : De i = channelSum ⟨X.shape, X.dtype, T1⟩ c / ((channelVolume X : Nat) : R) *
        (2 * (X.val i - channelMean X c)) := by simp only [hDe, hci]
    have hDi' : D i = (scale c * dY.val i) / q c := by simp only [hD, hci]
    rw [sum2, hDi, sT1, hDi']
    simp only [hci, channelMean, hvol, hvol', Int.cast_natCast]
    have hHi' : H.val i = (X.val i - channelSum X c / ((channelVolume X : Nat) : R)) / q c := hHi
    rw [hHi', mul_inv]
    show _ = scale c / q c * _
    have two : (2 : R)⁻¹ * 2 = 1 := inv_mul_cancel₀ h20
    simp only [div_eq_mul_inv]
    linear_combination (-(q c)⁻¹ * scale c * (q c)⁻¹ * channelSum (timesT dY H) c * ((channelVolume X : Nat) : R)⁻¹ *
      (X.val i - channelSum X c * ((channelVolume X : Nat) : R)⁻¹)) * two

end BNMade

/-! ## C64 -/

/-- **C64, input**: the workers obtain the blocks of the gradient of the sequential layer, in every mode. -/
theorem C64_input [CharZero R] (h : BNWith P bs M) {c : BNCall R} (hc : c.OK P bs M) (sqrt : R → R) {s : SeqState R}
    {st : Nat → BNState R} (hs : M.track = true → Running P bs s st) {dY : Tensor R} {dy : Nat → Tensor R}
    (hy : Blocks P c.L dY dy) (hd : dY.dtype = c.X.dtype) :
    ∃ g, Blocks P c.L (seqNormGrad sqrt M.eps M.affine c.gamma (c.training || !M.track)
        (seqUsed M.track c.training s c.X) c.X dY) g ∧
      ∀ w ∈ P.members, c.gradX M sqrt st dy w = some (g w) := by
  have hm := h.made hc.layout
  have hYs : dY.shape = c.X.shape := hy.whole.trans hc.blocks.whole.symm
  obtain ⟨dz, ez, hz⟩ := hm.scale_back (rg := c.rg) hy fun ha => by rw [hc.channels]; exact hc.gamma ha
  have one : ∀ w ∈ P.members, ∃ a, c.gradX M sqrt st dy w = some a ∧ a.shape = (c.x w).shape ∧
      a.dtype = c.X.dtype ∧ ∀ l, InBounds l (c.x w).shape →
        a.val l = (seqNormGrad sqrt M.eps M.affine c.gamma (c.training || !M.track)
          (seqUsed M.track c.training s c.X) c.X dY).val (shiftBy (c.L.startAt (P.coord w)) l) := by
    intro w hw
    rw [BNCall.gradX, hc.volume h hw, Option.bind_some, bnGradX, ez, Option.bind_some]
    by_cases hb : (!c.training && M.track) = true
    · rw [if_pos hb]
      have ht : c.training = false := by simpa using (Bool.and_eq_true_iff.1 hb).1
      have hk : M.track = true := (Bool.and_eq_true_iff.1 hb).2
      have hv := (hs hk w hw).2
      rw [← hc.channels] at hv
      obtain ⟨y, ey, y1, y2, y3⟩ := hm.zip_held (fun a b => a / sqrt (b + M.eps)) hz hw hv
      have hzs : (dz w).shape = (c.x w).shape := (hz.shape w hw).trans (hc.blocks.shape w hw).symm
      refine ⟨y, ey, y1.trans hzs, y2.trans hd, fun l hl => ?_⟩
      rw [y3 l (by rw [hzs]; exact hl), seqNormGrad]
      simp only [ht, hk, seqUsed, Bool.not_true, Bool.or_self, Bool.false_eq_true, if_false, Bool.not_false,
        Bool.and_self, if_true]
      ring
    · rw [if_neg hb]
      have hb' : (c.training || !M.track) = true := by
        cases ht : c.training <;> cases hk : M.track <;> simp [ht, hk] at hb ⊢
      have hu : seqUsed M.track c.training s c.X = (channelMean c.X, channelVar c.X) := by
        unfold seqUsed
        rw [if_neg]
        rw [Bool.and_comm]
        exact hb
      obtain ⟨a, ea, a1, a2, a3⟩ := hm.batch_back (rg := c.rg) sqrt hc.blocks
        (scale := fun k => if M.affine then c.gamma k else 1) hYs hd hz hw
      refine ⟨a, ea, a1, a2, fun l hl => ?_⟩
      rw [a3 l hl, hu, seqNormGrad]
      simp only [hb', if_true]
  classical
  refine ⟨fun w => if hw : w ∈ P.members then (one w hw).choose else ⟨[], .float32, fun _ => 0⟩,
    BNMade.blocks_of hc.blocks fun w hw => ?_, fun w hw => ?_⟩
  · simp only [dif_pos hw]
    exact (one w hw).choose_spec.2
  · simp only [dif_pos hw]
    exact (one w hw).choose_spec.1

/-- **C64, shift**: the storing workers obtain the sum of the output gradients over each of their channels; the
others a tensor without entries. -/
theorem C64_beta (h : BNWith P bs M) {c : BNCall R} (hc : c.OK P bs M) (ha : M.affine = true) {dY : Tensor R}
    {dy : Nat → Tensor R} (hy : Blocks P c.L dY dy) (hd : dY.dtype = c.X.dtype) :
    (∀ r ∈ M.Psum.members, ∃ t, c.gradBeta M dy r = some t ∧ t.dtype = c.X.dtype ∧
      Held P bs (channelSum dY) r t) ∧
    (∀ w ∈ P.members, w ∉ M.Psum.members → ∃ t, c.gradBeta M dy w = some t ∧ t.shape.prod = 0) := by
  have hm := h.made hc.layout
  have hp := hc.beta ha
  rw [← hc.channels] at hp
  obtain ⟨db, edb, hdb⟩ := gatherAll_spec (ws := M.P.members)
    (f := fun v => (bcastForward M.bc ⟨c.b, c.rg⟩ v).map fun b => sumTo b.shape (dy v))
    (p := fun v d => SumsOf P.shape.length (dy v) d ∧ d.dtype = c.X.dtype) fun v hv => by
      rw [h.part] at hv
      obtain ⟨b, eb, -, hb⟩ := hm.param (rg := c.rg) hp hv
      refine ⟨sumTo b.shape (dy v), by simp only [eb, Option.map_some], ?_, (hy.dtype v hv).trans hd⟩
      rw [(hm.held_chan hy hv hb).shape]
      exact sumTo_sums h.two (hm.block_length hy hv)
  rw [h.part] at hdb
  obtain ⟨h1, h2⟩ := hm.column_back (rg := c.rg) (a := c.b) (dt := c.X.dtype) hy (fun r hr =>
    ⟨((held_iff hm _ r _).1 (hp.held r hr).1).shape, (hp.held r hr).2⟩) hdb
  refine ⟨fun r hr => ?_, fun w hw hn => ?_⟩
  · obtain ⟨t, et, ht, hch⟩ := h1 r hr
    refine ⟨t, by rw [BNCall.gradBeta, bnGradBeta, edb, Option.bind_some, et], ht, ?_⟩
    rw [← hc.channels]
    exact (held_iff hm _ r _).2 hch
  · obtain ⟨t, et, -, ht⟩ := h2 w hw hn
    exact ⟨t, by rw [BNCall.gradBeta, bnGradBeta, edb, Option.bind_some, et], ht⟩

/-- **C64, scale**: the storing workers obtain the sum of the output gradients times the normalised input over each
of their channels; the others a tensor without entries. -/
theorem C64_gamma [DecidableEq R] (h : BNWith P bs M) {c : BNCall R} (hc : c.OK P bs M) (ha : M.affine = true)
    (sqrt : R → R) {s : SeqState R} {st : Nat → BNState R} (hs : M.track = true → Running P bs s st) {dY : Tensor R}
    {dy : Nat → Tensor R} (hy : Blocks P c.L dY dy) (hd : dY.dtype = c.X.dtype) :
    (∀ r ∈ M.Psum.members, ∃ t, c.gradGamma M sqrt st dy r = some t ∧ t.dtype = c.X.dtype ∧
      Held P bs (channelSum (timesT dY (seqHat sqrt M.eps (seqUsed M.track c.training s c.X) c.X))) r t) ∧
    (∀ w ∈ P.members, w ∉ M.Psum.members → ∃ t, c.gradGamma M sqrt st dy w = some t ∧ t.shape.prod = 0) := by
  have hm := h.made hc.layout
  have hp := hc.gamma ha
  rw [← hc.channels] at hp
  have hYs : dY.shape = c.X.shape := hy.whole.trans hc.blocks.whole.symm
  set H := seqHat sqrt M.eps (seqUsed M.track c.training s c.X) c.X with hH
  set t : Nat → Tensor R := fun v => ⟨(dy v).shape, dY.dtype, fun l => (timesT dY H).val
    (shiftBy (c.L.startAt (P.coord v)) l)⟩ with ht
  have htB : Blocks P c.L (timesT dY H) t := BNMade.blocks_of hy fun v _ => ⟨rfl, rfl, fun _ _ => rfl⟩
  obtain ⟨dg, edg, hdg⟩ := gatherAll_spec (ws := M.P.members)
    (f := fun v => (bcastForward M.bc ⟨c.g, c.rg⟩ v).bind fun g =>
      (bnUsed M c.training (channelVolume c.X : Nat) st c.x c.rg v).bind fun u =>
      (bnNormal M sqrt (c.x v) u.1).bind fun y => (torchZip (fun a b => a * b) (dy v) y).map fun t => sumTo g.shape t)
    (p := fun v d => SumsOf P.shape.length (t v) d ∧ d.dtype = c.X.dtype) fun v hv => by
      rw [h.part] at hv
      obtain ⟨g, eg, -, hg⟩ := hm.param (rg := c.rg) hp hv
      obtain ⟨m, s', st', e, em, ev, -⟩ := hc.used h hv hs
      rw [← hc.channels] at em ev
      obtain ⟨y, ey, y1, -, y3⟩ := hm.normal sqrt hc.blocks hv em ev
      have hss : (dy v).shape = (c.x v).shape := (hy.shape v hv).trans (hc.blocks.shape v hv).symm
      obtain ⟨z, ez, z1, z2, z3⟩ := BNMade.zip_blocks (fun a b : R => a * b) (hss.trans y1.symm)
      refine ⟨sumTo g.shape z, by simp only [eg, e, ey, ez, Option.bind_some, Option.map_some], ?_,
        z2.trans ((hy.dtype v hv).trans hd)⟩
      have hgs := (hm.held_chan hy hv hg).shape
      have hz := sumTo_sums h.two (t := z) (by rw [z1]; exact hm.block_length hy hv)
      rw [z1, ← hgs] at hz
      refine ⟨hgs, fun i hi => ?_⟩
      rw [hz.val i (by rw [z1]; exact hi), z1]
      refine boxSum_congr fun l hl => ?_
      split
      · rw [z3 l hl, y3 l (by rw [← hss]; exact hl), hy.val v hv l (by rw [← hy.shape v hv]; exact hl)]
        rfl
      · rfl
  rw [h.part] at hdg
  obtain ⟨h1, h2⟩ := hm.column_back (rg := c.rg) (a := c.g) (dt := c.X.dtype) htB (fun r hr =>
    ⟨((held_iff hm _ r _).1 (hp.held r hr).1).shape, (hp.held r hr).2⟩) hdg
  have run : ∀ w ∈ P.members, c.gradGamma M sqrt st dy w = bcastBackward M.bc ⟨c.g, c.rg⟩ dg w := fun w hw => by
    rw [BNCall.gradGamma, hc.volume h hw, Option.bind_some, bnGradGamma, edg, Option.bind_some]
  refine ⟨fun r hr => ?_, fun w hw hn => ?_⟩
  · obtain ⟨t, et, ht, hch⟩ := h1 r hr
    refine ⟨t, by rw [run r (h.sum.sub r hr), et], ht, ?_⟩
    rw [← hc.channels]
    exact (held_iff hm _ r _).2 hch
  · obtain ⟨t, et, -, ht⟩ := h2 w hw hn
    exact ⟨t, by rw [run w hw, et], ht⟩

/-- C64, the collectives of the backward pass of one average cannot deadlock. -/
theorem C64_terminates {L : Layout} (h : BNMade P L M) {X : Tensor R} {x : Nat → Tensor R} (hx : Blocks P L X x)
    (rg : Nat → Bool) (V : Int) {dm y : Nat → Tensor R} (hm : ∀ v ∈ P.members, (dm v).shape ≠ [])
    (hy : ∀ v ∈ P.members, (y v).shape ≠ []) :
    SafeRun (groupUnion M.Psum.members P.members)
      (bcastBackActs M.bc ⟨fun v => (bnAverage M V x rg v).getD ⟨[], .float64, fun _ => 0⟩, rg⟩ dm) ∧
    SafeRun (groupUnion P.members M.Psum.members)
      (reduceBackActs M.sr ⟨fun u => localSums P.shape.length (x u), rg⟩ y) := by
  have b := (C22_terminates M.bc h.bcLayer
    ⟨fun v => (bnAverage M V x rg v).getD ⟨[], .float64, fun _ => 0⟩, rg⟩ dm (h.average_all hx V).2
    fun _ u hu => hm u (by
      rcases hu with hu | hu
      · exact h.sum.sub u hu
      · rw [← h.part]; exact hu)).2
  have a := (C23_terminates M.sr h.srLayer ⟨fun u => localSums M.P.shape.length (x u), rg⟩ y (h.srInputs hx)
    (h.srBatch hx) fun _ u hu => hy u (by
      rcases hu with hu | hu
      · rw [← h.part]; exact hu
      · exact h.sum.sub u hu)).2
  have ea : groupUnion M.sr.Px.members M.sr.Py.members = groupUnion P.members M.Psum.members := by
    rw [← h.part]; rfl
  have eb : groupUnion M.bc.Px.members M.bc.Py.members = groupUnion M.Psum.members P.members := by
    rw [← h.part]; rfl
  rw [ea, h.part] at a
  rw [eb] at b
  exact ⟨b, a⟩

end

end Verif
