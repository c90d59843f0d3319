import Verif.Linear.Props

/-!
# C68: partitions the linear layer does not support
-/

namespace Verif

section
variable {R : Type} [CommSemiring R] {L : LinearLayer R} {I : Inputs R} {rg : Nat → Bool}

/-- Three Cartesian partitions of two dimensions of the same root communicator; `sx`, `sy` as in `LinearValid`. -/
structure LinearGiven (L : LinearLayer R) (a q b o Po Pi : Nat) : Prop where
  wfx : L.Px.WF
  wfy : L.Py.WF
  wfw : L.Pw.WF
  shx : L.Px.shape = [a, q]
  shy : L.Py.shape = [b, o]
  shw : L.Pw.shape = [Po, Pi]
  root : ∃ ρ, L.Px.root = some ρ ∧ L.Py.root = some ρ ∧ L.Pw.root = some ρ
  sx : L.sx = true → L.Px = L.Pw
  sy : L.sy = true → L.Pw = L.Py

theorem rule_two {a q Po Pi : Nat} (h : BroadcastRule [a, q] [Po, Pi]) : (a = Po ∨ a = 1) ∧ (q = Pi ∨ q = 1) :=
  ⟨h.2 0 (by simp), h.2 1 (by simp)⟩

theorem two_rule {a q Po Pi : Nat} (h1 : a = Po ∨ a = 1) (h2 : q = Pi ∨ q = 1) : BroadcastRule [a, q] [Po, Pi] := by
  refine ⟨Nat.le_refl _, fun j hj => ?_⟩
  match j, hj with
  | 0, _ => exact h1
  | 1, _ => exact h2

variable {a q b o Po Pi : Nat}

theorem LinearGiven.input_rule (h : LinearGiven L a q b o Po Pi) {v : Nat} (hv : v ∈ L.Pw.members)
    (hs : (midTensor L.xBroadcast I L.sublinear v).isSome) : (a = Po ∨ a = 1) ∧ (q = Pi ∨ q = 1) := by
  obtain ⟨ρ, r1, -, r3⟩ := h.root
  rw [midTensor, if_pos (show v ∈ L.xBroadcast.Py.members from hv)] at hs
  cases e : bcastForward L.xBroadcast I v with
  | none => rw [e] at hs; simp at hs
  | some t =>
    rw [bcastForward, PairLayer.run] at e
    split at e
    · rename_i hid
      have : L.sx = true := by
        simp only [PairLayer.identity, LinearLayer.xBroadcast, Bool.and_eq_true] at hid
        exact hid.1
      have e2 := h.sx this
      have e3 := h.shx
      rw [e2, h.shw] at e3
      simp only [List.cons.injEq, and_true] at e3
      exact ⟨Or.inl e3.1.symm, Or.inl e3.2.symm⟩
    · rw [if_neg (fun hh => hh.2 hv)] at e
      by_cases hr : BroadcastRule L.Px.shape L.Pw.shape
      · rw [h.shx, h.shw] at hr
        exact rule_two hr
      · have hraise := ((C19_broadcast_rejects L.Px L.Pw false false h.wfx h.wfw ⟨ρ, r1, r3⟩
          (by rw [h.shx]; simp) v (Or.inr hv)).1).2 hr
        rw [show L.xBroadcast.bparts v = broadcastPartitions L.Px L.Pw false false v from rfl, hraise] at e
        simp at e

theorem LinearGiven.output_rule (h : LinearGiven L a q b o Po Pi) {J : Inputs R} {u : Nat} (hu : u ∈ L.Py.members)
    (hs : (reduceForward L.ySumReduce J u).isSome) : (b = Pi ∨ b = 1) ∧ (o = Po ∨ o = 1) := by
  obtain ⟨ρ, -, r2, r3⟩ := h.root
  cases e : reduceForward L.ySumReduce J u with
  | none => rw [e] at hs; simp at hs
  | some t =>
    rw [reduceForward, PairLayer.run] at e
    split at e
    · rename_i hid
      simp only [PairLayer.identity, LinearLayer.ySumReduce, Bool.and_eq_true, Bool.or_eq_true, Bool.false_and,
        Bool.not_true, Bool.and_false, Bool.false_eq_true, or_false, beq_iff_eq] at hid
      have e2 := h.sy hid.1
      have e3 := h.wfw.size
      have e4 := h.shy
      rw [← e2, h.shw] at e4
      rw [hid.2, h.shw] at e3
      simp only [List.cons.injEq, and_true] at e4
      have hm : Po * Pi = 1 := by simpa using e3.symm
      have h1 : Po = 1 := Nat.eq_one_of_mul_eq_one_right hm
      have h2 : Pi = 1 := Nat.eq_one_of_mul_eq_one_left hm
      omega
    · rw [if_neg (fun hh => hh.2 hu)] at e
      by_cases hr : BroadcastRule L.Py.shape L.Pw.shape.reverse
      · rw [h.shy, h.shw] at hr
        exact rule_two hr
      · have hraise := ((C19_reduction_rejects L.Pw L.Py true false h.wfw h.wfy ⟨ρ, r2, r3⟩
          (by rw [h.shy]; simp) u (Or.inr hu)).1).2 hr
        rw [show L.ySumReduce.rparts u = reductionPartitions L.Pw L.Py true false u from rfl, hraise] at e
        simp at e

omit [CommSemiring R] in
theorem LinearGiven.localIn (h : LinearGiven L a q b o Po Pi) {v : Nat} (hv : v ∈ L.Pw.members) :
    L.localIn v = subsize Pi ((L.Pw.coord v).getD 1 0) L.inFeatures := by
  rw [LinearLayer.localIn, Cart.index_eq hv, h.shw]
  rfl

/-- C68, partial: if the layer gets through a forward pass on all its workers, with an input cut evenly along its
features, then `P_x` has the documented number of feature blocks, and the other extents are the documented ones or
one of two others: the batch extents may be those of `P_w`, and `P_y` may have a single block.

Full statement: all extents are the documented ones; it is false, `C68_false_sum`, `C68_false_batch`. -/
theorem C68_accepted_partial (h : LinearGiven L a q b o Po Pi) (hn : 0 < L.inFeatures)
    (hx : ∀ u ∈ L.Px.members, (I.x u).shape.getLast? = some (subsize q ((L.Px.coord u).getD 1 0) L.inFeatures))
    (hs : ∀ u, L.Active u → (I.x u).shape ≠ [])
    (hok : ∀ w, L.Active w → ∃ y, linearForward L I rg w = some y) :
    q = Pi ∧ (a = 1 ∨ a = Po) ∧ (o = Po ∨ o = 1) ∧ (b = 1 ∨ b = Pi) := by
  obtain ⟨u0, -, hu0⟩ := h.wfy.head
  obtain ⟨y, hy⟩ := hok u0 (Or.inr (Or.inr hu0))
  rw [linearForward, stackForward, if_neg (fun hh => hh.2.1 hu0)] at hy
  split at hy
  · rename_i hall
    rw [List.all_eq_true] at hall
    have hmid : ∀ v ∈ L.Pw.members, (midTensor L.xBroadcast I L.sublinear v).isSome := fun v hv => by
      refine hall v ?_
      simp only [layerWorkers, groupUnion, List.mem_append, List.mem_filter]
      by_cases hvx : v ∈ L.xBroadcast.Px.members
      · exact Or.inl (Or.inl hvx)
      · exact Or.inl (Or.inr ⟨hv, by simpa using hvx⟩)
    obtain ⟨v0, -, hv0⟩ := h.wfw.head
    obtain ⟨ha, hq⟩ := h.input_rule hv0 (hmid v0 hv0)
    obtain ⟨hb, ho⟩ := h.output_rule hu0 (by rw [hy]; rfl)
    refine ⟨?_, ha.symm, ho, hb.symm⟩
    rcases hq with hq | hq
    · exact hq
    · subst hq
      by_contra hne
      obtain ⟨ρ, r1, -, r3⟩ := h.root
      have hB : BcastLayer L.xBroadcast := by
        refine ⟨⟨h.wfx, h.wfw, ⟨ρ, r1, r3⟩, ?_, ?_⟩, h.sx, Or.inl rfl⟩
        · show L.Px.shape ≠ []
          rw [h.shx]; simp
        · show BroadcastRule L.Px.shape L.Pw.shape
          rw [h.shx, h.shw]
          exact two_rule ha (Or.inr rfl)
      have hpos : 0 < Po ∧ 0 < Pi := by
        have := h.wfw.pos
        rw [h.shw] at this
        exact ⟨this Po (by simp), this Pi (by simp)⟩
      have hP : 1 < Pi := by omega
      obtain ⟨v, hv, hc⟩ : ∃ v ∈ L.Pw.members, (L.Pw.coord v).getD 1 0 = Pi - 1 := by
        obtain ⟨v, hv, e⟩ := exists_member_at h.wfw (c := [0, Pi - 1]) (by rw [h.shw]; exact ⟨hpos.1, by omega, trivial⟩)
        exact ⟨v, hv, by rw [e]; rfl⟩
      obtain ⟨r, hr, -, -, e⟩ := (C22_forward L.xBroadcast hB I
        (fun _ u hu => hs u (hu.elim Or.inl fun h => Or.inr (Or.inl h)))).1 v hv
      have hm := hmid v hv
      rw [midTensor, if_pos (show v ∈ L.xBroadcast.Py.members from hv), e, Option.bind_some, LinearLayer.sublinear, torchLinear] at hm
      split at hm
      · rename_i hh
        have e1 := hh.2
        have hr0 : (L.Px.coord r).getD 1 0 = 0 := by
          have := coords_inBounds h.wfx hr
          rw [h.shx] at this
          obtain ⟨i, j, ec, -, hj⟩ := inBounds_two this
          rw [Cart.coord, h.shx, ec]
          simpa using hj
        rw [hx r hr, h.localIn hv, hc, hr0] at e1
        have e2 : subsize 1 0 L.inFeatures = subsize Pi (Pi - 1) L.inFeatures := Option.some.inj e1
        have hlt := Nat.div_lt_self hn hP
        have hmod := Nat.mod_lt L.inFeatures hpos.2
        have hmod1 := Nat.mod_one L.inFeatures
        rw [subsize, subsize, Nat.div_one, if_neg (show ¬ Pi - 1 < L.inFeatures % Pi by omega)] at e2
        omega
      · simp at hm
  · simp at hy

end

/-! ## The full statement is false -/

/-- `P_x` of shape `1 x 1` and `P_w` of shape `2 x 1` fit, but `P_y` has shape `1 x 1` instead of `1 x 2`.  One
input feature, two output features, `W = [[10], [20]]`. -/
def exSum : LinearLayer Int :=
  ⟨⟨[0], [1, 1], some 0⟩, ⟨[0], [1, 1], some 0⟩, ⟨[0, 1], [2, 1], some 0⟩, false, false, 1, 2, false,
    fun v _ => if v = 0 then 10 else 20, fun _ _ => 0⟩

/-- `X = [[1]]`. -/
def exSumIn : Inputs Int := ⟨fun w => ⟨if w = 0 then [1, 1] else [1, 0], .float64, fun _ => 1⟩, fun _ => true⟩

theorem exSum_given : LinearGiven exSum 1 1 1 1 2 1 :=
  ⟨⟨by decide, by decide, by decide⟩, ⟨by decide, by decide, by decide⟩, ⟨by decide, by decide, by decide⟩,
    rfl, rfl, rfl, ⟨_, rfl, rfl, rfl⟩, by decide, by decide⟩

theorem exSum_active {w : Nat} (h : exSum.Active w) : w = 0 ∨ w = 1 := by
  simp only [LinearLayer.Active, exSum, List.mem_cons, List.not_mem_nil, or_false] at h
  omega

/-- C68 is false: with one output block too few the layer raises nothing; it returns the sum `30` of the two
output features `10` and `20`. -/
theorem C68_false_sum : LinearGiven exSum 1 1 1 1 2 1 ∧
    BlocksOf exSum.Px 1 1 [1] .float64 (fun _ => (1 : Int)) exSumIn.x ∧
    (∀ w, exSum.Active w → ∃ y, linearForward exSum exSumIn (fun _ => true) w = some y) ∧
    ∃ y, linearForward exSum exSumIn (fun _ => true) 0 = some y ∧ y.shape = [1, 1] ∧ y.val [0, 0] = 30 := by
  refine ⟨exSum_given, ⟨by decide, fun _ _ => rfl, fun _ _ _ _ _ _ => rfl⟩, fun w hw => ?_, ?_⟩
  · refine Option.isSome_iff_exists.1 ?_
    rcases exSum_active hw with rfl | rfl <;> decide
  · obtain ⟨y, hy⟩ : ∃ y, linearForward exSum exSumIn (fun _ => true) 0 = some y :=
      Option.isSome_iff_exists.1 (by decide)
    have h : (linearForward exSum exSumIn (fun _ => true) 0).map (fun t => (t.shape, t.val [0, 0])) =
        some ([1, 1], 30) := by decide
    rw [hy] at h
    simp only [Option.map_some, Option.some.injEq, Prod.mk.injEq] at h
    exact ⟨y, hy, h⟩

/-- `P_x` of shape `2 x 1`: the batch is cut in two, a sample on each of the workers 2, 3.  `P_w` of shape
`2 x 1`, `P_y` of shape `1 x 2` on the workers 0, 1, the same layer otherwise. -/
def exBatch : LinearLayer Int :=
  ⟨⟨[2, 3], [2, 1], some 0⟩, ⟨[0, 1], [1, 2], some 0⟩, ⟨[0, 1], [2, 1], some 0⟩, false, false, 1, 2, false,
    fun v _ => if v = 0 then 10 else 20, fun _ _ => 0⟩

/-- `X = [[1], [2]]`. -/
def exBatchIn : Inputs Int :=
  ⟨fun w => ⟨if w = 2 ∨ w = 3 then [1, 1] else [1, 0], .float64, fun _ => if w = 3 then 2 else 1⟩, fun _ => true⟩

theorem exBatch_given : LinearGiven exBatch 2 1 1 2 2 1 :=
  ⟨⟨by decide, by decide, by decide⟩, ⟨by decide, by decide, by decide⟩, ⟨by decide, by decide, by decide⟩,
    rfl, rfl, rfl, ⟨_, rfl, rfl, rfl⟩, by decide, by decide⟩

/-- C68 is false: with the batch cut over `P_x` the layer raises nothing; of the four entries of the output,
`[[10, 20], [20, 40]]`, it computes two: output feature `0` of sample `0` and output feature `1` of sample `1`. -/
theorem C68_false_batch : LinearGiven exBatch 2 1 1 2 2 1 ∧
    (∀ w, exBatch.Active w → ∃ y, linearForward exBatch exBatchIn (fun _ => true) w = some y) ∧
    (∃ y, linearForward exBatch exBatchIn (fun _ => true) 0 = some y ∧ y.shape = [1, 1] ∧ y.val [0, 0] = 10) ∧
    ∃ y, linearForward exBatch exBatchIn (fun _ => true) 1 = some y ∧ y.shape = [1, 1] ∧ y.val [0, 0] = 40 := by
  have get : ∀ w z, (linearForward exBatch exBatchIn (fun _ => true) w).map (fun t => (t.shape, t.val [0, 0])) =
      some ([1, 1], z) → ∃ y, linearForward exBatch exBatchIn (fun _ => true) w = some y ∧ y.shape = [1, 1] ∧
        y.val [0, 0] = z := fun w z h => by
    obtain ⟨y, hy, e⟩ := Option.map_eq_some_iff.1 h
    simp only [Prod.mk.injEq] at e
    exact ⟨y, hy, e⟩
  refine ⟨exBatch_given, fun w hw => Option.isSome_iff_exists.1 ?_, get 0 10 (by decide), get 1 40 (by decide)⟩
  simp only [LinearLayer.Active, exBatch, List.mem_cons, List.not_mem_nil, or_false] at hw
  have : w = 0 ∨ w = 1 ∨ w = 2 ∨ w = 3 := by omega
  rcases this with rfl | rfl | rfl | rfl <;> decide

/-- `P_x` of shape `1 x 2`, `P_w` of shape `1 x 2` and `P_y` of shape `2 x 1` instead of `1 x 1`: two input
features, one output feature, `W = [[10, 20]]`. -/
def exPart : LinearLayer Int :=
  ⟨⟨[2, 3], [1, 2], some 0⟩, ⟨[0, 1], [2, 1], some 0⟩, ⟨[0, 1], [1, 2], some 0⟩, false, false, 2, 1, false,
    fun v _ => if v = 0 then 10 else 20, fun _ _ => 0⟩

theorem exPart_given : LinearGiven exPart 1 2 2 1 1 2 :=
  ⟨⟨by decide, by decide, by decide⟩, ⟨by decide, by decide, by decide⟩, ⟨by decide, by decide, by decide⟩,
    rfl, rfl, rfl, ⟨_, rfl, rfl, rfl⟩, by decide, by decide⟩

/-- C68 is false: with two rows in `P_y` the layer raises nothing and does not sum over the input features; for
`X = [[1, 2]]` the two workers get `10` and `40` instead of one getting `50`. -/
theorem C68_false_terms : LinearGiven exPart 1 2 2 1 1 2 ∧
    (∀ w, exPart.Active w → ∃ y, linearForward exPart exBatchIn (fun _ => true) w = some y) ∧
    (∃ y, linearForward exPart exBatchIn (fun _ => true) 0 = some y ∧ y.shape = [1, 1] ∧ y.val [0, 0] = 10) ∧
    ∃ y, linearForward exPart exBatchIn (fun _ => true) 1 = some y ∧ y.shape = [1, 1] ∧ y.val [0, 0] = 40 := by
  have get : ∀ w z, (linearForward exPart exBatchIn (fun _ => true) w).map (fun t => (t.shape, t.val [0, 0])) =
      some ([1, 1], z) → ∃ y, linearForward exPart exBatchIn (fun _ => true) w = some y ∧ y.shape = [1, 1] ∧
        y.val [0, 0] = z := fun w z h => by
    obtain ⟨y, hy, e⟩ := Option.map_eq_some_iff.1 h
    simp only [Prod.mk.injEq] at e
    exact ⟨y, hy, e⟩
  refine ⟨exPart_given, fun w hw => Option.isSome_iff_exists.1 ?_, get 0 10 (by decide), get 1 40 (by decide)⟩
  simp only [LinearLayer.Active, exPart, List.mem_cons, List.not_mem_nil, or_false] at hw
  have : w = 0 ∨ w = 1 ∨ w = 2 ∨ w = 3 := by omega
  rcases this with rfl | rfl | rfl | rfl <;> decide

/-! ## The hypotheses of the partial theorem hold of a layer that runs -/

example : 0 < exSum.inFeatures ∧
    (∀ u ∈ exSum.Px.members, (exSumIn.x u).shape.getLast? = some (subsize 1 ((exSum.Px.coord u).getD 1 0) exSum.inFeatures)) ∧
    ∀ u, exSum.Active u → (exSumIn.x u).shape ≠ [] :=
  ⟨by decide, by decide, fun u hu => by rcases exSum_active hu with rfl | rfl <;> decide⟩

/-- The documented shapes: the layer of `exLin`. -/
example : LinearGiven exLin 1 2 1 2 2 2 :=
  ⟨exLin_valid.wfx, exLin_valid.wfy, exLin_valid.wfw, rfl, rfl, rfl, exLin_valid.root, exLin_valid.sx, exLin_valid.sy⟩

/-- A refused layer: `P_x` of shape `1 x 1`, `P_w` of shape `1 x 2`, the whole input of two features on worker 2. -/
example : (linearForward (⟨⟨[2], [1, 1], some 0⟩, ⟨[0], [1, 1], some 0⟩, ⟨[0, 1], [1, 2], some 0⟩, false, false, 2, 1,
    false, fun _ _ => (1 : Int), fun _ _ => 0⟩) ⟨fun w => ⟨if w = 2 then [1, 2] else [1, 0], .float64, fun _ => 1⟩,
      fun _ => true⟩ (fun _ => true) 0).isNone := by decide

end Verif
