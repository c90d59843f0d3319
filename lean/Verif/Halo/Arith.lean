import Verif.Halo.Data

/-!
# The widths computed by `_compute_exchange_info`
-/

namespace Verif

open Exchange

/-! ## Start indices as a function of the global extent -/

/-- Start indices grow with the extent. -/
theorem startIdx_mono_right {P i a b : Nat} (hP : 0 < P) (h : a ≤ b) :
    startIdx P i a ≤ startIdx P i b := by
  unfold startIdx
  have h1 := Nat.div_add_mod a P
  have h2 := Nat.div_add_mod b P
  have h3 := Nat.mod_lt a hP
  have h4 := Nat.mod_lt b hP
  rcases Nat.lt_or_ge (a / P) (b / P) with c | c
  · have : a / P * i + i ≤ b / P * i := by
      calc a / P * i + i = (a / P + 1) * i := by rw [Nat.add_mul, Nat.one_mul]
        _ ≤ b / P * i := Nat.mul_le_mul_right _ c
    omega
  · have e : a / P = b / P := Nat.le_antisymm (Nat.div_le_div_right h) c
    rw [e] at h1 ⊢
    omega

/-- Start indices are subadditive in the extent. -/
theorem startIdx_add_le {P i : Nat} (a b : Nat) (hP : 0 < P) (hi : i ≤ P) :
    startIdx P i (a + b) ≤ startIdx P i a + startIdx P i b := by
  unfold startIdx
  have h3 := Nat.mod_lt a hP
  have h4 := Nat.mod_lt b hP
  rw [Nat.add_div hP, Nat.add_mod_eq_ite]
  split
  · rename_i c
    rw [Nat.add_mul, Nat.add_mul, Nat.one_mul]
    omega
  · rename_i c
    rw [Nat.add_zero, Nat.add_mul]
    omega

theorem startIdx_mul_le {P i : Nat} (s m : Nat) (hP : 0 < P) (hi : i ≤ P) :
    startIdx P i (s * m) ≤ s * startIdx P i m := by
  induction s with
  | zero => simp [startIdx]
  | succ s ih =>
    rw [Nat.succ_mul, Nat.succ_mul]
    have := startIdx_add_le (P := P) (i := i) (s * m) m hP hi
    omega

/-- A start index is at most the extent. -/
theorem startIdx_le_self {P i : Nat} (n : Nat) (hP : 0 < P) (hi : i ≤ P) : startIdx P i n ≤ n :=
  startIdx_le hP n hi

/-! ## One dimension -/

theorem halo1_nonneg (q : HaloDim) (i X x : Nat) :
    0 ≤ (halo1 true q i X x).1 ∧ 0 ≤ (halo1 true q i X x).2 := by
  simp only [halo1, if_true]
  omega

theorem halo1_max (q : HaloDim) (i X x : Nat) :
    (halo1 true q i X x).1 = max (halo1 false q i X x).1 0 ∧
      (halo1 true q i X x).2 = max (halo1 false q i X x).2 0 := by
  simp [halo1]

theorem halo1_left0 (q : HaloDim) (x : Nat) : (halo1 true q 0 0 x).1 = 0 := by
  simp only [halo1, if_true, startIdx_zero]
  omega

theorem halo1_right0 (q : HaloDim) (i X x : Nat) (h : X + x = q.N) : (halo1 true q i X x).2 = 0 := by
  simp only [halo1, if_true]
  omega

/-- The span of the kernel. -/
def HaloDim.span (q : HaloDim) : Nat := q.d * (q.k - 1) + 1

/-- Parameters that torch accepts, without padding (the callers pad before), with the kernel inside
the input. -/
structure HaloDim.Valid (q : HaloDim) : Prop where
  P : 0 < q.P
  k : 0 < q.k
  s : 0 < q.s
  p : q.p = 0
  fit : q.span ≤ q.N

namespace HaloDim

variable {q : HaloDim}

theorem Valid.out (h : q.Valid) : outShape q = (q.N - q.span) / q.s + 1 := by
  unfold outShape
  have hk := h.k
  have hf := h.fit
  have hp := h.p
  have e : (q.N : Int) + 2 * q.p - q.d * ((q.k : Int) - 1) - 1 = ((q.N - q.span : Nat) : Int) := by
    rw [hp]
    unfold span at hf ⊢
    rw [Int.ofNat_sub hf]
    push_cast [Nat.cast_sub hk]
    ring
  rw [e]
  have : ((q.N - q.span : Nat) : Int) / (q.s : Int) + 1 = (((q.N - q.span) / q.s + 1 : Nat) : Int) := by
    push_cast
    rfl
  rw [this, Int.toNat_natCast]

/-- The last window ends inside the input, and there is no room for another one. -/
theorem Valid.out_bounds (h : q.Valid) :
    q.s * (outShape q - 1) + q.span ≤ q.N ∧ q.N + 1 ≤ q.s * outShape q + q.span := by
  rw [h.out]
  have hs := h.s
  have hf := h.fit
  have h1 := Nat.div_add_mod (q.N - q.span) q.s
  have h2 := Nat.mod_lt (q.N - q.span) hs
  rw [Nat.add_sub_cancel, Nat.mul_add, Nat.mul_one]
  omega

/-- The exact halo of a worker that has outputs. -/
theorem Valid.halo (h : q.Valid) {i X x : Nat} (hi : i < q.P) (hy : 0 < subsize q.P i (outShape q)) :
    (halo1 false q i X x).1 = (X : Int) - (q.s * startIdx q.P i (outShape q) : Nat) ∧
    (halo1 false q i X x).2 =
      (q.s * (startIdx q.P (i + 1) (outShape q) - 1) + q.span : Nat) - ((X : Int) + x) := by
  have hb := h.out_bounds.1
  have hst : startIdx q.P (i + 1) (outShape q) =
      startIdx q.P i (outShape q) + subsize q.P i (outShape q) := startIdx_succ _ _ _
  have hle := startIdx_le h.P (outShape q) (show i + 1 ≤ q.P by omega)
  have hk := h.k
  have hm : q.s * (startIdx q.P (i + 1) (outShape q) - 1) ≤ q.s * (outShape q - 1) :=
    Nat.mul_le_mul_left _ (by omega)
  simp only [halo1, Bool.false_eq_true, if_false, minInput, maxInput, h.p]
  constructor
  · push_cast
    have : (0 : Int) ≤ (q.s : Int) * (startIdx q.P i (outShape q) : Int) :=
      Int.mul_nonneg (Int.natCast_nonneg _) (Int.natCast_nonneg _)
    simp only [Int.sub_zero, Int.max_eq_right this]
  · have e : (q.s : Int) * ((startIdx q.P i (outShape q) : Int) +
        (subsize q.P i (outShape q) : Int) - 1) + (q.d : Int) * ((q.k : Int) - 1) - ((0 : Nat) : Int) =
        ((q.s * (startIdx q.P (i + 1) (outShape q) - 1) + q.span : Nat) : Int) - 1 := by
      unfold span
      push_cast [hst, Nat.cast_sub hk, Nat.cast_sub (show 1 ≤ startIdx q.P i (outShape q) +
        subsize q.P i (outShape q) by omega)]
      ring
    rw [e]
    omega

end HaloDim

/-! ## All dimensions -/

/-- The parameters of the dimensions belong to a partition and a layout. -/
structure PlanDims (P : Cart) (L : Layout) (qs : List HaloDim) : Prop where
  wf : P.WF
  layout : L.pshape = P.shape
  len : qs.length = P.shape.length
  workers : ∀ j, j < P.shape.length → (qs.getD j default).P = P.shape.getD j 0
  extent : ∀ j, j < P.shape.length → (qs.getD j default).N = (L.getD j []).sum

/-- The plan with the computed widths. -/
def HaloPlan.ofDims (P : Cart) (L : Layout) (qs : List HaloDim) : HaloPlan where
  P := P
  L := L
  lw j c := (halo1 true (qs.getD j default) c ((L.getD j []).take c).sum ((L.getD j []).getD c 0)).1.toNat
  rw j c := (halo1 true (qs.getD j default) c ((L.getD j []).take c).sum ((L.getD j []).getD c 0)).2.toNat

variable {P : Cart} {L : Layout} {qs : List HaloDim} {t : Table}

theorem layout_length (h : PlanDims P L qs) : L.length = P.shape.length := by
  rw [← h.layout, L.length_pshape]

theorem block_length (h : PlanDims P L qs) {j : Nat} (hj : j < P.shape.length) :
    (L.getD j []).length = P.shape.getD j 0 := by
  rw [← h.layout]
  unfold Layout.pshape
  have hl : j < L.length := by rw [layout_length h]; exact hj
  rw [List.getD_eq_getElem _ _ hl, List.getD_eq_getElem _ _ (by simpa using hl), List.getElem_map]

theorem localStart_eq (h : PlanDims P L qs) (ht : t.Describes L) {idx : List Nat}
    (hi : InBounds idx P.shape) {j : Nat} (hj : j < P.shape.length) :
    localStart qs.length t idx j = ((L.getD j []).take (idx.getD j 0)).sum := by
  unfold localStart
  have hlt := inBounds_getD hi hj
  have hbl := block_length h hj
  have hpos : ∀ a ∈ P.shape, 0 < a := h.wf.pos
  have key : ∀ c, c ≤ P.shape.getD j 0 →
      ((List.range c).map fun i => t ((List.replicate qs.length 0).set j i) j).sum =
        ((L.getD j []).take c).sum := by
    intro c
    induction c with
    | zero => intro _; simp
    | succ c ih =>
      intro hc
      rw [List.range_succ, List.map_append, List.sum_append, ih (by omega), take_sum_succ]
      congr 1
      simp only [List.map_cons, List.map_nil, List.sum_cons, List.sum_nil, Nat.add_zero]
      have hl : j < (List.replicate qs.length 0).length := by rw [List.length_replicate, h.len]; exact hj
      rw [ht _ ?_ j (by rw [layout_length h]; exact hj), getD_set_eq hl]
      rw [h.layout, inBounds_iff]
      refine ⟨by simp [h.len], fun k hk => ?_⟩
      by_cases e : k = j
      · subst e
        rw [getD_set_eq hl]
        omega
      · rw [getD_set_ne (fun e' => e e'.symm)]
        rw [List.getD_eq_getElem _ _ (by rw [List.length_replicate, h.len]; exact hk),
          List.getElem_replicate, List.getD_eq_getElem _ _ hk]
        exact hpos _ (List.getElem_mem hk)
  exact key _ (by omega)

/-- The receive widths are those of the plan. -/
theorem recv_eq (h : PlanDims P L qs) (ht : t.Describes L) {idx : List Nat}
    (hi : InBounds idx P.shape) {j : Nat} (hj : j < P.shape.length) (nn : Bool) :
    (haloShape nn qs (some t) idx).getD j (0, 0) = halo1 nn (qs.getD j default) (idx.getD j 0)
      ((L.getD j []).take (idx.getD j 0)).sum ((L.getD j []).getD (idx.getD j 0) 0) := by
  rw [haloShape, getD_map_range _ _ (by rw [h.len]; exact hj)]
  simp only [localStart_eq h ht hi hj]
  rw [ht idx (by rw [h.layout]; exact hi) j (by rw [layout_length h]; exact hj)]

theorem recv_plan (h : PlanDims P L qs) (ht : t.Describes L) {idx : List Nat}
    (hi : InBounds idx P.shape) {j : Nat} (hj : j < P.shape.length) :
    (haloShape true qs (some t) idx).getD j (0, 0) =
      (((HaloPlan.ofDims P L qs).lw j (idx.getD j 0) : Int),
        ((HaloPlan.ofDims P L qs).rw j (idx.getD j 0) : Int)) := by
  rw [recv_eq h ht hi hj]
  have := halo1_nonneg (qs.getD j default) (idx.getD j 0)
    ((L.getD j []).take (idx.getD j 0)).sum ((L.getD j []).getD (idx.getD j 0) 0)
  simp only [HaloPlan.ofDims, Int.toNat_of_nonneg this.1, Int.toNat_of_nonneg this.2]

theorem send_plan (h : PlanDims P L qs) (ht : t.Describes L) {idx : List Nat}
    (hi : InBounds idx P.shape) {j : Nat} (hj : j < P.shape.length) :
    (sendShape qs (some t) idx).getD j (0, 0) =
      ((((HaloPlan.ofDims P L qs).width j (idx.getD j 0)).lsend : Int),
        (((HaloPlan.ofDims P L qs).width j (idx.getD j 0)).rsend : Int)) := by
  have hlt := inBounds_getD hi hj
  have hlen : j < idx.length := by rw [hi.length_eq]; exact hj
  rw [sendShape, getD_map_range _ _ (by rw [h.len]; exact hj)]
  simp only [h.workers j hj, HaloPlan.width]
  congr 1
  · split
    · rename_i c
      rw [recv_plan h ht (inBounds_set hi (by omega)) hj, getD_set_eq hlen]
    · rfl
  · show (if _ then _ else _) = ((if _ then _ else _ : Nat) : Int)
    rw [show (HaloPlan.ofDims P L qs).Pd j = P.shape.getD j 0 from rfl]
    split
    · rename_i c
      rw [recv_plan h ht (inBounds_set hi c) hj, getD_set_eq hlen]
    · rfl

/-- The widths handed to the halo layer are those of the plan. -/
theorem widths_plan (h : PlanDims P L qs) (ht : t.Describes L) {r : Nat} (hr : r < P.shape.prod) :
    (exchangeInfo qs (some t) (getCoords P.shape r)).widths = (HaloPlan.ofDims P L qs).widths r := by
  have hi := (getCoords_spec hr).1
  have e1 : (haloShape true qs (some t) (getCoords P.shape r)) = (List.range P.shape.length).map fun j =>
      (((HaloPlan.ofDims P L qs).lw j ((getCoords P.shape r).getD j 0) : Int),
        ((HaloPlan.ofDims P L qs).rw j ((getCoords P.shape r).getD j 0) : Int)) := by
    conv_lhs => rw [haloShape]
    rw [h.len]
    apply List.map_congr_left
    intro j hj
    have := recv_plan h ht hi (List.mem_range.1 hj)
    rw [haloShape, getD_map_range _ _ (by rw [h.len]; exact List.mem_range.1 hj), h.len] at this
    exact this
  have e2 : (sendShape qs (some t) (getCoords P.shape r)) = (List.range P.shape.length).map fun j =>
      ((((HaloPlan.ofDims P L qs).width j ((getCoords P.shape r).getD j 0)).lsend : Int),
        (((HaloPlan.ofDims P L qs).width j ((getCoords P.shape r).getD j 0)).rsend : Int)) := by
    conv_lhs => rw [sendShape, h.len]
    apply List.map_congr_left
    intro j hj
    have := send_plan h ht hi (List.mem_range.1 hj)
    rw [sendShape, getD_map_range _ _ (by rw [h.len]; exact List.mem_range.1 hj)] at this
    exact this
  show List.zipWith _ (haloShape true qs (some t) (getCoords P.shape r))
    (sendShape qs (some t) (getCoords P.shape r)) = _
  rw [e1, e2, List.zipWith_map, List.zipWith_self]
  unfold HaloPlan.widths
  apply List.map_congr_left
  intro j _
  rfl

/-- The plan asks for nothing outward at the boundary. -/
theorem plan_boundary (h : PlanDims P L qs) {j : Nat} (hj : j < P.shape.length) :
    (HaloPlan.ofDims P L qs).lw j 0 = 0 ∧
      (HaloPlan.ofDims P L qs).rw j (P.shape.getD j 0 - 1) = 0 := by
  have hbl := block_length h hj
  have hpos : 0 < P.shape.getD j 0 := by
    rw [List.getD_eq_getElem _ _ hj]; exact h.wf.pos _ (List.getElem_mem hj)
  constructor
  · simp only [HaloPlan.ofDims, List.take_zero, List.sum_nil]
    rw [halo1_left0]; rfl
  · simp only [HaloPlan.ofDims]
    rw [halo1_right0]
    · rfl
    · rw [h.extent j hj]
      have := take_sum_succ (L.getD j []) (P.shape.getD j 0 - 1)
      rw [show P.shape.getD j 0 - 1 + 1 = P.shape.getD j 0 by omega, ← hbl, List.take_length] at this
      rw [← hbl]
      exact this.symm

/-- If every halo fits into the block next to it, the plan is well formed. -/
theorem plan_ok (h : PlanDims P L qs) (hf : (HaloPlan.ofDims P L qs).Fits) :
    (HaloPlan.ofDims P L qs).OK where
  wf := h.wf
  layout := h.layout
  left0 j hj := (plan_boundary h hj).1
  right0 j hj := (plan_boundary h hj).2
  rangel j hj c hc := by have := hf.left j hj c hc; omega
  ranger j hj c hc := by have := hf.right j hj c hc; omega

end Verif
