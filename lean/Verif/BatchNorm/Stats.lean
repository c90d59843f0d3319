import Verif.BatchNorm.Lemmas

/-!
# Batch norm: the statistics of a distributed tensor
-/

namespace Verif

section
variable {R : Type}

/-- A tensor with one value `f c` for every local channel `c`. -/
structure Chan (n k : Nat) (f : Nat → R) (t : Tensor R) : Prop where
  shape : t.shape = channelShape n k
  val : ∀ i, InBounds i (channelShape n k) → t.val i = f (i.getD 1 0)

/-! ## Broadcasting -/

theorem joinExtent_self (a : Nat) : joinExtent a a = some a := by simp [joinExtent]

theorem joinExtent_one (a : Nat) : joinExtent a 1 = some a := by
  unfold joinExtent
  by_cases h : a = 1 <;> simp [h]

theorem joinExtent_one' (a : Nat) : joinExtent 1 a = some a := by
  unfold joinExtent
  by_cases h : 1 = a <;> simp [h]

theorem joinShape_of {a b c : List Nat} (h1 : a.length = c.length) (h2 : b.length = c.length)
    (h : ∀ d, d < c.length → joinExtent (a.getD d 0) (b.getD d 0) = some (c.getD d 0)) :
    joinShape a b = some c := by
  induction c generalizing a b with
  | nil =>
    obtain rfl := List.length_eq_zero_iff.1 h1
    obtain rfl := List.length_eq_zero_iff.1 h2
    rfl
  | cons z c ih =>
    cases a with
    | nil => simp at h1
    | cons x a =>
      cases b with
      | nil => simp at h2
      | cons y b =>
        have h0 : joinExtent x y = some z := h 0 (by simp)
        have hr : joinShape a b = some c := ih (by simpa using h1) (by simpa using h2) fun d hd =>
          h (d + 1) (by simpa using hd)
        rw [joinShape, h0, Option.bind_some, hr, Option.map_some]

theorem length_clip {s i : List Nat} (h : i.length = s.length) : (clip s i).length = s.length := by
  simp [clip, h]

theorem getD_clip {s i : List Nat} {d : Nat} (h : i.length = s.length) (hd : d < s.length) :
    (clip s i).getD d 0 = if s.getD d 0 = 1 then 0 else i.getD d 0 := by
  rw [List.getD_eq_getElem?_getD, List.getD_eq_getElem?_getD, List.getD_eq_getElem?_getD,
    List.getElem?_eq_getElem (by rw [length_clip h]; exact hd), List.getElem?_eq_getElem hd,
    List.getElem?_eq_getElem (by omega)]
  simp [clip]

theorem clip_inBounds {s i : List Nat} (h : InBounds i s) : clip s i = i := by
  have hl := h.length_eq
  refine eq_of_getD (by rw [length_clip hl, hl]) fun d hd => ?_
  rw [length_clip hl] at hd
  rw [getD_clip hl hd]
  have := (inBounds_iff.1 h).2 d hd
  split <;> omega

theorem inBounds_channel {n k : Nat} (hn : 2 ≤ n) {i : List Nat} (h : InBounds i (channelShape n k)) : i.length = n ∧ i.getD 1 0 < k := by
  obtain ⟨h1, h2⟩ := inBounds_iff.1 h
  rw [length_channelShape] at h1 h2
  have := h2 1 (by omega)
  rw [getD_channelShape hn (by omega), if_pos rfl] at this
  exact ⟨h1, this⟩

theorem clip_channel_inBounds {n k : Nat} (hn : 2 ≤ n) {i : List Nat} (hi : i.length = n) (hk : i.getD 1 0 < k) :
    InBounds (clip (channelShape n k) i) (channelShape n k) := by
  have hl : i.length = (channelShape n k).length := by rw [length_channelShape, hi]
  refine inBounds_iff.2 ⟨length_clip hl, fun d hd => ?_⟩
  rw [getD_clip hl hd]
  rw [length_channelShape] at hd
  rw [getD_channelShape hn hd]
  by_cases h1 : d = 1
  · subst h1
    simp only [if_true]
    split <;> omega
  · simp [h1]

/-- Reading a channel tensor at a position whose channel is in range. -/
theorem Chan.clip {n k : Nat} {f : Nat → R} {t : Tensor R} (h : Chan n k f t) (hn : 2 ≤ n) {i : List Nat}
    (hi : i.length = n) (hk : i.getD 1 0 < k) : t.val (clip t.shape i) = f (i.getD 1 0) := by
  have hl : i.length = t.shape.length := by rw [h.shape, length_channelShape, hi]
  have h1 : 1 < t.shape.length := by omega
  have e : (Verif.clip t.shape i).getD 1 0 = i.getD 1 0 := by
    rw [getD_clip hl h1, h.shape, getD_channelShape hn (by omega), if_pos rfl]
    split <;> omega
  rw [h.val _ (by rw [h.shape]; exact clip_channel_inBounds hn hi hk), e]

/-- Combination of a tensor with a channel tensor. -/
theorem zip_block {n : Nat} (hn : 2 ≤ n) (g : R → R → R) {x m : Tensor R} {f : Nat → R}
    (hx : x.shape.length = n) (hm : Chan n (x.shape.getD 1 0) f m) :
    ∃ y, torchZip g x m = some y ∧ y.shape = x.shape ∧ y.dtype = x.dtype ∧
      ∀ i, InBounds i x.shape → y.val i = g (x.val i) (f (i.getD 1 0)) := by
  have hj : joinShape x.shape m.shape = some x.shape := by
    rw [hm.shape]
    refine joinShape_of rfl (by rw [length_channelShape, hx]) fun d hd => ?_
    rw [getD_channelShape hn (by omega)]
    split
    · next e => rw [e, joinExtent_self]
    · exact joinExtent_one _
  refine ⟨⟨x.shape, x.dtype, fun i => g (x.val (clip x.shape i)) (m.val (clip m.shape i))⟩,
    by rw [torchZip, hj, Option.map_some], rfl, rfl, fun i hi => ?_⟩
  show g (x.val (clip x.shape i)) (m.val (clip m.shape i)) = _
  rw [clip_inBounds hi, hm.clip hn (hi.length_eq.trans hx) ((inBounds_iff.1 hi).2 1 (by omega))]

/-- The same with the channel tensor on the left. -/
theorem zip_block' {n : Nat} (hn : 2 ≤ n) (g : R → R → R) {x m : Tensor R} {f : Nat → R}
    (hx : x.shape.length = n) (hm : Chan n (x.shape.getD 1 0) f m) :
    ∃ y, torchZip g m x = some y ∧ y.shape = x.shape ∧ y.dtype = m.dtype ∧
      ∀ i, InBounds i x.shape → y.val i = g (f (i.getD 1 0)) (x.val i) := by
  have hj : joinShape m.shape x.shape = some x.shape := by
    rw [hm.shape]
    refine joinShape_of (by rw [length_channelShape, hx]) rfl fun d hd => ?_
    rw [getD_channelShape hn (by omega)]
    split
    · next e => rw [e, joinExtent_self]
    · exact joinExtent_one' _
  refine ⟨⟨x.shape, m.dtype, fun i => g (m.val (clip m.shape i)) (x.val (clip x.shape i))⟩,
    by rw [torchZip, hj, Option.map_some], rfl, rfl, fun i hi => ?_⟩
  show g (m.val (clip m.shape i)) (x.val (clip x.shape i)) = _
  rw [clip_inBounds hi, hm.clip hn (hi.length_eq.trans hx) ((inBounds_iff.1 hi).2 1 (by omega))]

/-- Combination of two channel tensors. -/
theorem zip_chan {n k : Nat} (hn : 2 ≤ n) (g : R → R → R) {a b : Tensor R} {f f' : Nat → R}
    (ha : Chan n k f a) (hb : Chan n k f' b) :
    ∃ y, torchZip g a b = some y ∧ Chan n k (fun c => g (f c) (f' c)) y := by
  have hj : joinShape a.shape b.shape = some (channelShape n k) := by
    rw [ha.shape, hb.shape]
    exact joinShape_of rfl rfl fun d hd => joinExtent_self _
  refine ⟨⟨channelShape n k, a.dtype, fun i => g (a.val (clip a.shape i)) (b.val (clip b.shape i))⟩,
    by rw [torchZip, hj, Option.map_some], rfl, fun i hib => ?_⟩
  obtain ⟨hi, hk⟩ := inBounds_channel hn hib
  show g (a.val (clip a.shape i)) (b.val (clip b.shape i)) = _
  rw [ha.clip hn hi hk, hb.clip hn hi hk]

end

/-! ## Channels of a layout -/

section
variable {P Q : Cart} {L : Layout}

/-- Number of local channels of worker `w` (`local_num_features`, `batchnorm.py:60-64`). -/
def chCount (P : Cart) (L : Layout) (w : Nat) : Nat := (L.shapeAt (P.coord w)).getD 1 0
/-- First global channel of worker `w` (`start_index[1]`, `batchnorm.py:62-64`). -/
def chStart (P : Cart) (L : Layout) (w : Nat) : Nat := (L.startAt (P.coord w)).getD 1 0

theorem ch_eq (h : Placed P L) (h2 : 2 ≤ P.shape.length) (w : Nat) :
    chCount P L w = (L.getD 1 []).getD ((P.coord w).getD 1 0) 0 ∧
      chStart P L w = ((L.getD 1 []).take ((P.coord w).getD 1 0)).sum := by
  have hl : L.length = P.shape.length := by rw [← h.layout, L.length_pshape]
  have := L.shapeAt_getD (P.coord w) (coord_len h.layout w) 1 (by omega)
  exact ⟨this.1, this.2.1⟩

theorem ch_congr (h : Placed P L) (h2 : 2 ≤ P.shape.length) {v w : Nat}
    (e : (P.coord v).getD 1 0 = (P.coord w).getD 1 0) : chCount P L v = chCount P L w ∧ chStart P L v = chStart P L w := by
  rw [(ch_eq h h2 v).1, (ch_eq h h2 v).2, (ch_eq h h2 w).1, (ch_eq h h2 w).2, e]
  exact ⟨rfl, rfl⟩

/-- Blocks of different channel ranges share no channel. -/
theorem blocks_disjoint (bs : List Nat) {a b j l : Nat} (hj : j < bs.getD a 0) (hl : l < bs.getD b 0)
    (e : (bs.take a).sum + j = (bs.take b).sum + l) : a = b := by
  have mono : ∀ {a b : Nat}, a < b → (bs.take (a + 1)).sum ≤ (bs.take b).sum := by
    intro a b hab
    have : (bs.take (a + 1)) = (bs.take b).take (a + 1) := by
      rw [List.take_take]; congr 1; omega
    rw [this]
    exact take_sum_le _ _
  rcases Nat.lt_trichotomy a b with h | h | h
  · have := mono h
    rw [take_sum_succ] at this
    omega
  · exact h
  · have := mono h
    rw [take_sum_succ] at this
    omega

variable {R : Type} [Field R] {M : BatchNorm R} {X : Tensor R} {x : Nat → Tensor R} {rg : Nat → Bool}

/-- Sum of the entries of channel `c`. -/
def channelSum (X : Tensor R) (c : Nat) : R := boxSum X.shape fun i => if i.getD 1 0 = c then X.val i else 0

/-- The sums of the workers with the channels of `w` make up the global sum. -/
theorem column_sum (h : Placed P L) (h2 : 2 ≤ P.shape.length) (hx : Blocks P L X x) {w : Nat}
    {j : Nat} (hj : j < chCount P L w) :
    ((P.members.filter fun v => decide ((P.coord w).getD 1 0 = (P.coord v).getD 1 0)).map fun v =>
      boxSum (x v).shape fun l => if l.getD 1 0 = j then (x v).val l else 0).sum =
      channelSum X (chStart P L w + j) := by
  have hL : L.length = P.shape.length := by rw [← h.layout, L.length_pshape]
  rw [channelSum, hx.whole, ← members_sum h.wf h.layout]
  have key : ∀ v ∈ P.members,
      (boxSum (L.shapeAt (P.coord v)) fun l =>
        if (shiftBy (L.startAt (P.coord v)) l).getD 1 0 = chStart P L w + j then
          X.val (shiftBy (L.startAt (P.coord v)) l) else 0) =
      if (P.coord w).getD 1 0 = (P.coord v).getD 1 0 then
        boxSum (x v).shape fun l => if l.getD 1 0 = j then (x v).val l else 0 else 0 := by
    intro v hv
    have hls : (L.startAt (P.coord v)).length = L.length := Layout.length_startAt (coord_len h.layout v)
    have hsh : (L.shapeAt (P.coord v)).length = L.length := Layout.length_shapeAt (coord_len h.layout v)
    have hget : ∀ l, InBounds l (L.shapeAt (P.coord v)) →
        (shiftBy (L.startAt (P.coord v)) l).getD 1 0 = chStart P L v + l.getD 1 0 := fun l hl =>
      getD_shiftBy (by omega) (by have := hl.length_eq; omega)
    split
    · next e =>
      rw [hx.shape v hv]
      refine boxSum_congr fun l hl => ?_
      rw [hget l hl, (ch_congr h h2 e).2, hx.val v hv l hl]
      have : (chStart P L v + l.getD 1 0 = chStart P L v + j) ↔ l.getD 1 0 = j := by omega
      simp only [this]
    · next e =>
      refine (boxSum_congr fun l hl => ?_).trans (boxSum_zero (L.shapeAt (P.coord v)))
      rw [hget l hl, if_neg]
      intro e'
      have hl1 : l.getD 1 0 < chCount P L v := (inBounds_iff.1 hl).2 1 (by omega)
      rw [(ch_eq h h2 v).1] at hl1
      rw [(ch_eq h h2 w).1] at hj
      rw [(ch_eq h h2 v).2, (ch_eq h h2 w).2] at e'
      exact e (blocks_disjoint _ hj hl1 e'.symm)
  rw [List.map_congr_left key]
  clear key
  induction P.members with
  | nil => rfl
  | cons a l ih =>
    by_cases e : (P.coord w).getD 1 0 = (P.coord a).getD 1 0
    · rw [List.filter_cons_of_pos (by simpa using e), List.map_cons, List.sum_cons, List.map_cons,
        List.sum_cons, ih, if_pos e]
    · rw [List.filter_cons_of_neg (by simpa using e), List.map_cons, List.sum_cons, ih, if_neg e, zero_add]

/-! ## The layers inside -/

/-- A layer made by `__init__` over a partition with a layout. -/
structure BNMade (P : Cart) (L : Layout) (M : BatchNorm R) : Prop where
  placed : Placed P L
  two : 2 ≤ P.shape.length
  part : M.P = P
  sum : SumPart P M.Psum

theorem sum_rule (h : SumPart P Q) (h2 : 2 ≤ P.shape.length) : BroadcastRule Q.shape P.shape := by
  rw [h.shape]
  refine ⟨by rw [length_channelShape], fun j hj => ?_⟩
  rw [length_channelShape] at hj ⊢
  rw [getD_channelShape h2 hj]
  split
  · next e => left; subst e; congr 1; omega
  · exact Or.inr rfl

theorem sum_valid (hP : Placed P L) (h : SumPart P Q) (h2 : 2 ≤ P.shape.length) : BcastValid Q P false false := by
  obtain ⟨r, hr⟩ := hP.root
  refine ⟨h.wf, hP.wf, ⟨r, h.root.trans hr, hr⟩, ?_, sum_rule h h2⟩
  intro e
  have := congrArg List.length e
  rw [h.shape, length_channelShape, List.length_nil] at this
  omega

theorem sum_agree (hP : P.WF) (h : SumPart P Q) (h2 : 2 ≤ P.shape.length) {r v : Nat} (hr : r ∈ Q.members)
    (hv : v ∈ P.members) : Agree Q.shape (Q.coord r) (P.coord v) ↔ (P.coord r).getD 1 0 = (P.coord v).getD 1 0 := by
  have hcl : (P.coord v).length = P.shape.length := (coords_inBounds hP hv).length_eq
  rw [h.coord r hr, Agree, h.shape, length_channelShape, hcl, Nat.sub_self]
  simp only [Nat.zero_add]
  constructor
  · intro H
    by_cases e : P.shape.getD 1 0 = 1
    · have a : (P.coord r).getD 1 0 < P.shape.getD 1 0 :=
        (inBounds_iff.1 (coords_inBounds hP (h.sub r hr))).2 1 (by omega)
      have b : (P.coord v).getD 1 0 < P.shape.getD 1 0 := (inBounds_iff.1 (coords_inBounds hP hv)).2 1 (by omega)
      omega
    · exact H 1 (by omega) (by rw [getD_channelShape h2 (by omega), if_pos rfl]; exact e)
  · intro e j hj hne
    rw [getD_channelShape h2 hj] at hne
    split at hne
    · next e1 => rw [e1]; exact e
    · exact absurd rfl hne

namespace BNMade

variable (h : BNMade P L M)
include h

omit [Field R] in
theorem bcLayer : BcastLayer M.bc :=
  ⟨by rw [BatchNorm.bc, h.part]; exact sum_valid h.placed h.sum h.two, by simp [BatchNorm.bc], Or.inl rfl⟩

omit [Field R] in
theorem srLayer : ReduceLayer M.sr :=
  ⟨by rw [BatchNorm.sr, h.part]; exact sum_valid h.placed h.sum h.two, by simp [BatchNorm.sr], Or.inl rfl⟩

omit [Field R] in
theorem feeds {r v : Nat} (hr : r ∈ M.Psum.members) (hv : v ∈ P.members) :
    M.bc.Feeds r v ↔ (P.coord r).getD 1 0 = (P.coord v).getD 1 0 := by
  have := sum_agree h.placed.wf h.sum h.two hr hv
  rw [PairLayer.Feeds, BatchNorm.bc, h.part]
  exact this

omit [Field R] in
theorem collects {r v : Nat} (hr : r ∈ M.Psum.members) (hv : v ∈ P.members) :
    M.sr.Collects r v ↔ (P.coord r).getD 1 0 = (P.coord v).getD 1 0 := by
  have := sum_agree h.placed.wf h.sum h.two hr hv
  rw [PairLayer.Collects, BatchNorm.sr, h.part]
  exact this

omit [Field R] in
theorem block_length {v : Nat} (hx : Blocks P L X x) (hv : v ∈ P.members) : (x v).shape.length = P.shape.length := by
  rw [hx.shape v hv, Layout.length_shapeAt (coord_len h.placed.layout v), ← h.placed.layout, L.length_pshape]

theorem sums (hx : Blocks P L X x) {v : Nat} (hv : v ∈ P.members) :
    (localSums P.shape.length (x v)).dtype = X.dtype ∧
    (localSums P.shape.length (x v)).shape = channelShape P.shape.length (chCount P L v) := by
  obtain ⟨a, b, -⟩ := localSums_spec (x v) (h.block_length hx hv) h.two
  exact ⟨a.trans (hx.dtype v hv), by rw [b, hx.shape v hv]; rfl⟩

theorem srInputs (hx : Blocks P L X x) : ReduceInputs M.sr (fun u => localSums M.P.shape.length (x u)) := by
  intro r hr u hu v hv hcu hcv
  have hu' : u ∈ P.members := by rw [← h.part]; exact hu
  have hv' : v ∈ P.members := by rw [← h.part]; exact hv
  have hr' : r ∈ M.Psum.members := hr
  have e := ((h.collects hr' hu').1 hcu).symm.trans ((h.collects hr' hv').1 hcv)
  simp only [h.part]
  rw [(h.sums hx hu').1, (h.sums hx hv').1, (h.sums hx hu').2, (h.sums hx hv').2, (ch_congr h.placed h.two e).1]
  exact ⟨rfl, rfl⟩

theorem srBatch (hx : Blocks P L X x) : HasBatch M.sr (fun u => localSums M.P.shape.length (x u)) := by
  intro _ u hu e
  have hu' : u ∈ P.members := by
    rcases hu with hu | hu
    · rw [← h.part]; exact hu
    · exact h.sum.sub u hu
  have := congrArg List.length e
  simp only [h.part] at this
  rw [(h.sums hx hu').2, length_channelShape, List.length_nil] at this
  have := h.two
  omega

/-- The average on a storing worker. -/
theorem average_store (hx : Blocks P L X x) (V : Int) {r : Nat} (hr : r ∈ M.Psum.members) :
    ∃ m, bnAverage M V x rg r = some m ∧ m.dtype = X.dtype ∧
      Chan P.shape.length (chCount P L r) (fun j => channelSum X (chStart P L r + j) / (V : R)) m := by
  have hrP := h.sum.sub r hr
  obtain ⟨u, hu, hc, e⟩ := (C23_forward M.sr h.srLayer ⟨fun u => localSums M.P.shape.length (x u), rg⟩
    (h.srInputs hx) (h.srBatch hx)).1 r hr
  have hu' : u ∈ P.members := by rw [← h.part]; exact hu
  have ec := (h.collects hr hu').1 hc
  rw [bnAverage, e, Option.map_some]
  refine ⟨_, rfl, ?_, ?_, ?_⟩
  · simp only [h.part]; exact (h.sums hx hu').1
  · simp only [h.part]
    rw [(h.sums hx hu').2, (ch_congr h.placed h.two ec).1]
  · intro i hb
    obtain ⟨hi, hk⟩ := inBounds_channel h.two hb
    show (List.map _ _).sum / (V : R) = _
    rw [← column_sum h.placed h.two hx hk]
    congr 2
    have hmem : M.sr.Px.members = P.members := by rw [← h.part]; rfl
    rw [hmem, List.filter_congr fun v hv => decide_eq_decide.2 (h.collects hr hv)]
    refine List.map_congr_left fun v hv => ?_
    have hv' := List.mem_of_mem_filter hv
    have ev : (P.coord r).getD 1 0 = (P.coord v).getD 1 0 := by simpa using (List.mem_filter.1 hv).2
    simp only [h.part]
    exact (localSums_spec (x v) (h.block_length hx hv') h.two).2.2 i hi (by
      rw [hx.shape v hv']
      have := (ch_congr h.placed h.two ev).1
      unfold chCount at this hk
      omega)

/-- On the other workers the average is a tensor without entries. -/
theorem average_other (hx : Blocks P L X x) (V : Int) {w : Nat} (hw : w ∈ P.members) (hn : w ∉ M.Psum.members) :
    ∃ m, bnAverage M V x rg w = some m ∧ m.shape ≠ [] := by
  have hw' : w ∈ M.sr.Px.members := by show w ∈ M.P.members; rw [h.part]; exact hw
  have e := (C52_reduction M.sr h.srLayer ⟨fun u => localSums M.P.shape.length (x u), rg⟩
    (fun u => localSums M.P.shape.length (x u)) (h.srInputs hx) (h.srBatch hx) (h.srBatch hx)).1 w hw' hn
  rw [bnAverage, e, Option.map_some]
  exact ⟨_, rfl, by simp [emptyShape, BatchNorm.sr]⟩

theorem average_all (hx : Blocks P L X x) (V : Int) :
    (M.P.members.all fun v => (bnAverage M V x rg v).isSome) = true ∧
    HasBatch M.bc (fun v => (bnAverage M V x rg v).getD ⟨[], .float64, fun _ => 0⟩) := by
  have one : ∀ v ∈ P.members, ∃ m, bnAverage M V x rg v = some m ∧ m.shape ≠ [] := by
    intro v hv
    by_cases hs : v ∈ M.Psum.members
    · obtain ⟨m, e, -, hc⟩ := h.average_store (rg := rg) hx V hs
      refine ⟨m, e, fun e0 => ?_⟩
      have := congrArg List.length e0
      rw [hc.shape, length_channelShape, List.length_nil] at this
      have := h.two
      omega
    · exact h.average_other hx V hv hs
  constructor
  · rw [List.all_eq_true]
    intro v hv
    obtain ⟨m, e, -⟩ := one v (by rw [← h.part]; exact hv)
    rw [e]; rfl
  · intro _ u hu
    have hu' : u ∈ P.members := by
      rcases hu with hu | hu
      · exact h.sum.sub u hu
      · rw [← h.part]; exact hu
    obtain ⟨m, e, hm⟩ := one u hu'
    show ((bnAverage M V x rg u).getD _).shape ≠ []
    rw [e]
    exact hm

/-- `_compute_mean` on every worker. -/
theorem mean (hx : Blocks P L X x) (V : Int) {w : Nat} (hw : w ∈ P.members) :
    ∃ m, bnMean M V x rg w = some m ∧ m.dtype = X.dtype ∧
      Chan P.shape.length (chCount P L w) (fun j => channelSum X (chStart P L w + j) / (V : R)) m := by
  obtain ⟨hall, hb⟩ := h.average_all (rg := rg) hx V
  rw [bnMean, if_pos hall]
  have hw' : w ∈ M.bc.Py.members := by show w ∈ M.P.members; rw [h.part]; exact hw
  obtain ⟨r, hr, hf, -, e⟩ := (C22_forward M.bc h.bcLayer
    ⟨fun v => (bnAverage M V x rg v).getD ⟨[], .float64, fun _ => 0⟩, rg⟩ hb).1 w hw'
  have ec := (h.feeds hr hw).1 hf
  obtain ⟨m, em, hd, hc⟩ := h.average_store (rg := rg) hx V hr
  refine ⟨m, ?_, hd, ?_⟩
  · rw [e]
    simp only [em, Option.getD_some]
  · rw [(ch_congr h.placed h.two ec).1, (ch_congr h.placed h.two ec).2] at hc
    exact hc

end BNMade

end

end Verif
