import Verif.Grad.NormModel
import Verif.BatchNorm.Forward
import Verif.Grad.Core

/-!
# Backward pass of the batch norm: lemmas
-/

namespace Verif

section
variable {R : Type}

theorem gatherAll_spec [Zero R] {ws : List Nat} {f : Nat → Option (Tensor R)} {p : Nat → Tensor R → Prop}
    (h : ∀ v ∈ ws, ∃ t, f v = some t ∧ p v t) : ∃ y, gatherAll ws f = some y ∧ ∀ v ∈ ws, p v (y v) := by
  refine ⟨_, if_pos ?_, fun v hv => ?_⟩
  · rw [List.all_eq_true]
    intro v hv
    obtain ⟨t, e, -⟩ := h v hv
    rw [e]; rfl
  · obtain ⟨t, e, ht⟩ := h v hv
    rw [e]; exact ht

theorem gatherAll_eq [Zero R] {ws : List Nat} {f : Nat → Option (Tensor R)} (h : ∀ v ∈ ws, ∃ t, f v = some t) :
    gatherAll ws f = some fun v => (f v).getD ⟨[], .float64, fun _ => 0⟩ := by
  refine if_pos ?_
  rw [List.all_eq_true]
  intro v hv
  obtain ⟨t, e⟩ := h v hv
  rw [e]; rfl

variable [Field R]

/-- `d` holds, for every channel, the sum of the entries of `t` in it. -/
structure SumsOf (n : Nat) (t d : Tensor R) : Prop where
  shape : d.shape = channelShape n (t.shape.getD 1 0)
  val : ∀ i, InBounds i (channelShape n (t.shape.getD 1 0)) →
    d.val i = boxSum t.shape fun l => if l.getD 1 0 = i.getD 1 0 then t.val l else 0

theorem clip_channel {n k : Nat} (hn : 2 ≤ n) {l i : List Nat} (hl : l.length = n) (hi : i.length = n)
    (hlk : l.getD 1 0 < k) (hik : i.getD 1 0 < k) :
    clip (channelShape n k) l = clip (channelShape n k) i ↔ l.getD 1 0 = i.getD 1 0 := by
  have hc := length_channelShape n k
  have get : ∀ {j : List Nat}, j.length = n → j.getD 1 0 < k → ∀ d < n,
      (clip (channelShape n k) j).getD d 0 = if d = 1 then j.getD 1 0 else 0 := by
    intro j hj hjk d hd
    rw [getD_clip (by omega) (by omega), getD_channelShape hn hd]
    by_cases h1 : d = 1
    · subst h1
      simp only [if_true]
      split <;> omega
    · simp [h1]
  constructor
  · intro e
    have := congrArg (fun s => s.getD 1 0) e
    simp only [get hl hlk 1 (by omega), get hi hik 1 (by omega), if_true] at this
    exact this
  · intro e
    refine eq_of_getD (by rw [length_clip (by omega), length_clip (by omega)]) fun d hd => ?_
    rw [length_clip (by omega), hc] at hd
    rw [get hl hlk d hd, get hi hik d hd, e]

theorem sumTo_sums {n : Nat} (hn : 2 ≤ n) {t : Tensor R} (ht : t.shape.length = n) :
    SumsOf n t (sumTo (channelShape n (t.shape.getD 1 0)) t) := by
  refine ⟨rfl, fun i hb => boxSum_congr fun l hl => ?_⟩
  obtain ⟨hi, hk⟩ := inBounds_channel hn hb
  have h1 : l.getD 1 0 < t.shape.getD 1 0 := (inBounds_iff.1 hl).2 1 (by omega)
  have := clip_channel hn (hl.length_eq.trans ht) hi h1 hk
  by_cases e : l.getD 1 0 = i.getD 1 0
  · rw [if_pos e, if_pos (this.2 e)]
  · rw [if_neg e, if_neg fun h => e (this.1 h)]

/-- Positions of a channel. -/
theorem channel_count {X : List Nat} (h2 : 2 ≤ X.length) {c : Nat} (hc : c < X.getD 1 0) :
    (boxSum X fun i => if i.getD 1 0 = c then (1 : R) else 0) = (((X.set 1 1).prod : Nat) : R) := by
  match X, h2 with
  | a :: b :: s, _ =>
    have hc' : c < b := hc
    show (∑ i ∈ Finset.range a, ∑ j ∈ Finset.range b, boxSum s fun _ => if j = c then (1 : R) else 0) = _
    have inner : (∑ j ∈ Finset.range b, boxSum s fun _ => if j = c then (1 : R) else 0) = ((s.prod : Nat) : R) := by
      rw [Finset.sum_eq_single c]
      · simp only [if_true]
        exact boxSum_const s
      · intro j _ hj
        simp only [if_neg hj]
        exact boxSum_zero s
      · intro h
        exact absurd (Finset.mem_range.2 hc') h
    rw [inner, Finset.sum_const, Finset.card_range, nsmul_eq_mul]
    simp

/-- Linearity of the sum over a channel. -/
theorem channelSum_add (s : List Nat) (d : TorchDtype) (f g : List Nat → R) (c : Nat) :
    channelSum ⟨s, d, fun i => f i + g i⟩ c = channelSum ⟨s, d, f⟩ c + channelSum ⟨s, d, g⟩ c := by
  unfold channelSum
  rw [← boxSum_add]
  refine boxSum_congr fun i _ => ?_
  split <;> simp

theorem channelSum_scale (s : List Nat) (d : TorchDtype) (f : List Nat → R) (a : Nat → R) (c : Nat) :
    channelSum ⟨s, d, fun i => a (i.getD 1 0) * f i⟩ c = a c * channelSum ⟨s, d, f⟩ c := by
  unfold channelSum
  rw [← boxSum_mul_left]
  refine boxSum_congr fun i _ => ?_
  split
  · next e => show a (i.getD 1 0) * f i = a c * f i; rw [e]
  · simp

theorem channelSum_const (s : List Nat) (d : TorchDtype) (h2 : 2 ≤ s.length) (a : Nat → R) {c : Nat}
    (hc : c < s.getD 1 0) :
    channelSum ⟨s, d, fun i => a (i.getD 1 0)⟩ c = a c * (((s.set 1 1).prod : Nat) : R) := by
  have := channelSum_scale s d (fun _ => (1 : R)) a c
  simp only [mul_one] at this
  rw [this, ← channel_count h2 hc]
  rfl

/-- The deviations from the mean add up to zero. -/
theorem channelSum_centred [CharZero R] (X : Tensor R) (h2 : 2 ≤ X.shape.length) {c : Nat}
    (hc : c < X.shape.getD 1 0) : channelSum ⟨X.shape, X.dtype, fun i => X.val i - channelMean X (i.getD 1 0)⟩ c = 0 := by
  have e : (fun i => X.val i - channelMean X (i.getD 1 0)) = fun i => X.val i + -channelMean X (i.getD 1 0) := by
    funext i; ring
  rw [e, channelSum_add, channelSum_const X.shape X.dtype h2 (fun c => -channelMean X c) hc]
  show channelSum X c + _ = 0
  by_cases hv : channelVolume X = 0
  · have hz : channelSum X c = 0 := by
      have hp : X.shape.prod = 0 := by
        unfold channelVolume at hv
        match hs : X.shape, h2 with
        | a :: b :: s, _ =>
          rw [hs] at hv
          simp only [List.set_cons_succ, List.set_cons_zero, List.prod_cons, one_mul] at hv
          rw [List.prod_cons, List.prod_cons, Nat.mul_left_comm, hv, Nat.mul_zero]
      refine (boxSum_congr fun i hi => ?_).trans (boxSum_zero X.shape)
      have : ∃ d, d < X.shape.length ∧ X.shape.getD d 0 = 0 := by
        obtain ⟨d, hd, e⟩ := List.mem_iff_getElem.1 (List.prod_eq_zero_iff.1 hp)
        exact ⟨d, hd, by rw [List.getD_eq_getElem?_getD, List.getElem?_eq_getElem hd]; exact e⟩
      obtain ⟨d, hd, e⟩ := this
      have := (inBounds_iff.1 hi).2 d (by have := hi.length_eq; omega)
      omega
    rw [hz, channelMean, hz]
    simp
  · have hv' : ((channelVolume X : Nat) : R) ≠ 0 := by exact_mod_cast hv
    show channelSum X c + -(channelSum X c / ((channelVolume X : Nat) : R)) * ((channelVolume X : Nat) : R) = 0
    field_simp
    ring

end

/-! ## The layers inside, backwards -/

namespace BNMade

variable {R : Type} [Field R] {P : Cart} {L : Layout} {M : BatchNorm R} {X T : Tensor R} {x t : Nat → Tensor R}
  {rg : Nat → Bool}
variable (h : BNMade P L M)
include h

omit [Field R] in
theorem start_get {w : Nat} {l : List Nat} (hl : InBounds l (L.shapeAt (P.coord w))) :
    (shiftBy (L.startAt (P.coord w)) l).getD 1 0 = chStart P L w + l.getD 1 0 := by
  have hL : L.length = P.shape.length := by rw [← h.placed.layout, L.length_pshape]
  have h2 := h.two
  exact getD_shiftBy (by rw [Layout.length_startAt (coord_len h.placed.layout w)]; omega)
    (by have := hl.length_eq; rw [Layout.length_shapeAt (coord_len h.placed.layout w)] at this; omega)

omit [Field R] in
/-- A global channel of a worker. -/
theorem channel_lt {w : Nat} {l : List Nat} (hl : InBounds l (L.shapeAt (P.coord w))) :
    chStart P L w + l.getD 1 0 < L.global.getD 1 0 := by
  have hL : L.length = P.shape.length := by rw [← h.placed.layout, L.length_pshape]
  have h2 := h.two
  have hl1 : l.getD 1 0 < chCount P L w := inBounds_getD hl (by
    rw [Layout.length_shapeAt (coord_len h.placed.layout w)]; omega)
  rw [(ch_eq h.placed h.two w).1] at hl1
  rw [(ch_eq h.placed h.two w).2, getD_global L (by omega)]
  have a := take_sum_succ (L.getD 1 []) ((P.coord w).getD 1 0)
  have b := take_sum_le (L.getD 1 []) ((P.coord w).getD 1 0 + 1)
  omega

/-- The adjoint of a broadcast adds up the sums of the workers. -/
theorem column_back (ht : Blocks P L T t) {a d : Nat → Tensor R} {dt : TorchDtype}
    (ha : ∀ r ∈ M.Psum.members, (a r).shape = channelShape P.shape.length (chCount P L r) ∧ (a r).dtype = dt)
    (hd : ∀ v ∈ P.members, SumsOf P.shape.length (t v) (d v) ∧ (d v).dtype = dt) :
    (∀ r ∈ M.Psum.members, ∃ g, bcastBackward M.bc ⟨a, rg⟩ d r = some g ∧ g.dtype = dt ∧
      Chan P.shape.length (chCount P L r) (fun j => channelSum T (chStart P L r + j)) g) ∧
    (∀ w ∈ P.members, w ∉ M.Psum.members → ∃ g, bcastBackward M.bc ⟨a, rg⟩ d w = some g ∧ g.shape ≠ [] ∧
      g.shape.prod = 0) := by
  have hmem : M.bc.Py.members = P.members := by show M.P.members = _; rw [h.part]
  have hcnt : ∀ v ∈ P.members, (t v).shape.getD 1 0 = chCount P L v := fun v hv => by rw [ht.shape v hv]; rfl
  have hgr : BcastGrads M.bc a d := by
    intro r hr v hv hf
    rw [hmem] at hv
    have ec := (h.feeds hr hv).1 hf
    rw [(hd v hv).1.shape, (hd v hv).2, (ha r hr).1, (ha r hr).2, hcnt v hv, (ch_congr h.placed h.two ec).1]
    exact ⟨rfl, rfl⟩
  have hb : HasBatch M.bc d := by
    intro _ u hu e
    have hu' : u ∈ P.members := by
      rcases hu with hu | hu
      · exact h.sum.sub u hu
      · rw [← hmem]; exact hu
    have := congrArg List.length e
    rw [(hd u hu').1.shape, length_channelShape, List.length_nil] at this
    have := h.two
    omega
  refine ⟨fun r hr => ?_, fun w hw hn => ?_⟩
  · have e := (C22_backward M.bc h.bcLayer ⟨a, rg⟩ d hgr hb).1 r hr
    refine ⟨_, e, (ha r hr).2, (ha r hr).1, fun i hib => ?_⟩
    obtain ⟨hi, hk⟩ := inBounds_channel h.two hib
    show (List.map _ _).sum = _
    rw [← column_sum h.placed h.two ht hk]
    congr 1
    rw [hmem, List.filter_congr fun v hv => decide_eq_decide.2 (h.feeds hr hv)]
    refine List.map_congr_left fun v hv => ?_
    have hv' := List.mem_of_mem_filter hv
    have ev : (P.coord r).getD 1 0 = (P.coord v).getD 1 0 := by simpa using (List.mem_filter.1 hv).2
    refine (hd v hv').1.val i ?_
    rw [hcnt v hv', ← (ch_congr h.placed h.two ev).1]
    exact hib
  · have hw' : w ∈ M.bc.Py.members := by rw [hmem]; exact hw
    have hba : HasBatch M.bc (fun _ : Nat => (⟨[1], .float32, fun _ => 0⟩ : Tensor R)) := fun _ _ _ => by simp
    have e := bcast_backward_other (I := ⟨a, rg⟩) h.bcLayer.valid h.bcLayer.same hb.hb hn hw'
    obtain ⟨z, ez, hz⟩ := e
    refine ⟨z, ez, fun e0 => ?_, hz⟩
    rw [e0] at hz
    simp at hz

/-- Backward of an average: every worker gets the global sum of the gradients of its channels, divided by the
volume. -/
theorem mean_back (hx : Blocks P L X x) (V : Int) (ht : Blocks P L T t) {d : Nat → Tensor R}
    (hd : ∀ v ∈ P.members, SumsOf P.shape.length (t v) (d v) ∧ (d v).dtype = X.dtype) {w : Nat}
    (hw : w ∈ P.members) :
    ∃ a, bnMeanGrad M V x rg d w = some a ∧ a.shape = (x w).shape ∧ a.dtype = X.dtype ∧
      ∀ l, InBounds l (x w).shape → a.val l = channelSum T (chStart P L w + l.getD 1 0) / (V : R) := by
  have hmem : M.sr.Px.members = P.members := by show M.P.members = _; rw [h.part]
  obtain ⟨h1, h2⟩ := h.column_back (rg := rg) (dt := X.dtype)
    (a := fun v => (bnAverage M V x rg v).getD ⟨[], .float64, fun _ => 0⟩) ht (fun r hr => by
      obtain ⟨m, e, hdt, hc⟩ := h.average_store (rg := rg) hx V hr
      simp only [e, Option.getD_some]
      exact ⟨hc.shape, hdt⟩) hd
  have hall : ∀ v ∈ M.P.members, ∃ g, bnAverageGrad M V x rg d v = some g ∧ (g.shape ≠ [] ∧
      (v ∈ M.Psum.members → g.dtype = X.dtype ∧
        Chan P.shape.length (chCount P L v) (fun j => channelSum T (chStart P L v + j) / (V : R)) g)) := by
    intro v hv
    rw [h.part] at hv
    by_cases hs : v ∈ M.Psum.members
    · obtain ⟨g, e, hdt, hc⟩ := h1 v hs
      refine ⟨⟨g.shape, g.dtype, fun i => g.val i / (V : R)⟩, by rw [bnAverageGrad, e, Option.map_some],
        fun e0 => ?_, fun _ => ⟨hdt, hc.shape, fun i hi => ?_⟩⟩
      · have e0' : g.shape = [] := e0
        have := congrArg List.length e0'
        rw [hc.shape, length_channelShape, List.length_nil] at this
        have := h.two
        omega
      · show g.val i / (V : R) = _
        rw [hc.val i hi]
    · obtain ⟨g, e, hne, -⟩ := h2 v hv hs
      exact ⟨⟨g.shape, g.dtype, fun i => g.val i / (V : R)⟩, by rw [bnAverageGrad, e, Option.map_some], hne,
        fun hs' => absurd hs' hs⟩
  obtain ⟨y, ey, hy⟩ := gatherAll_spec hall
  rw [h.part] at hy
  have hgr : ReduceGrads M.sr (fun u => localSums M.P.shape.length (x u)) y := by
    intro r hr v hv hc
    rw [hmem] at hv
    have ec := (h.collects hr hv).1 hc
    obtain ⟨hdt, hch⟩ := (hy r (h.sum.sub r hr)).2 hr
    simp only [h.part]
    rw [(h.sums hx hv).1, (h.sums hx hv).2, hdt, hch.shape, (ch_congr h.placed h.two ec).1]
    exact ⟨rfl, rfl⟩
  have hb : HasBatch M.sr y := by
    intro _ u hu
    have hu' : u ∈ P.members := by
      rcases hu with hu | hu
      · rw [← hmem]; exact hu
      · exact h.sum.sub u hu
    exact (hy u hu').1
  obtain ⟨r, hr, hc, -, e⟩ := (C23_backward M.sr h.srLayer ⟨fun u => localSums M.P.shape.length (x u), rg⟩ y
    (h.srInputs hx) hgr hb).1 w (by rw [hmem]; exact hw)
  have ec := (h.collects hr hw).1 hc
  obtain ⟨hdt, hch⟩ := (hy r (h.sum.sub r hr)).2 hr
  rw [(ch_congr h.placed h.two ec).1, (ch_congr h.placed h.two ec).2] at hch
  refine ⟨expandTo (x w).shape (y r), by rw [bnMeanGrad, ey, Option.bind_some, e, Option.map_some], rfl, hdt,
    fun l hl => ?_⟩
  have hlen := h.block_length hx hw
  have h2 := h.two
  refine hch.clip h.two (hl.length_eq.trans hlen) ?_
  have := (inBounds_iff.1 hl).2 1 (by have := hl.length_eq; omega)
  rw [hx.shape w hw] at this
  exact this

end BNMade

end Verif
