import Verif.Conv.Shapes

/-!
# General convolution: the partitions that store the parameters
-/

namespace Verif

/-! ## Parts of a Cartesian partition -/

theorem zipIdx_filter_map {α : Type} (l : List Nat) (f : Nat → α) (p : α → Bool) :
    (((l.map f).zipIdx.filter fun c => p c.1).map fun c => l.getD c.2 0) = l.filter fun v => p (f v) := by
  have key : ∀ (m pre : List Nat), (((m.map f).zipIdx pre.length).filter fun c => p c.1).map
      (fun c => (pre ++ m).getD c.2 0) = m.filter fun v => p (f v) := by
    intro m
    induction m with
    | nil => intro pre; rfl
    | cons a m ih =>
      intro pre
      have h := ih (pre ++ [a])
      rw [List.length_append, List.length_singleton, List.append_assoc, List.singleton_append] at h
      rw [List.map_cons, List.zipIdx_cons]
      by_cases ha : p (f a) = true
      · rw [List.filter_cons_of_pos (by simpa using ha), List.filter_cons_of_pos (by simpa using ha),
          List.map_cons, h]
        simp
      · rw [List.filter_cons_of_neg (by simpa using ha), List.filter_cons_of_neg (by simpa using ha), h]
  exact key l []

theorem zipIdx_ranks {α : Type} (l : List α) (p : α → Bool) :
    ((l.zipIdx.filter fun c => p c.1).map fun c => c.2).Nodup ∧
      ∀ r ∈ (l.zipIdx.filter fun c => p c.1).map (fun c => c.2), r < l.length := by
  constructor
  · have hs : List.Sublist ((l.zipIdx.filter fun c => p c.1).map fun c => c.2) (l.zipIdx.map fun c => c.2) :=
      (List.filter_sublist).map _
    refine hs.nodup ?_
    have : (l.zipIdx.map fun c => c.2) = List.range' 0 l.length := List.zipIdx_map_snd 0 l
    rw [this]
    exact List.nodup_range'
  · intro r hr
    obtain ⟨c, hc, rfl⟩ := List.mem_map.1 hr
    have := List.snd_lt_of_mem_zipIdx (List.mem_of_mem_filter hc)
    simpa using this

/-- The workers of `P` satisfying `p` form a partition in which they have the positions they have in `P`. -/
theorem subCart_spec {P : Cart} (hP : P.WF) {p : List Nat → Bool} {shape : List Nat}
    (hpos : ∀ n ∈ shape, 0 < n) (hr : (rangeIndex P.shape).filter p = rangeIndex shape) :
    ∃ Q, subCart P p shape = some Q ∧ Q.WF ∧ Q.shape = shape ∧ Q.root = P.root ∧
      (Q.members = P.members.filter fun v => p (P.coord v)) ∧ ∀ v ∈ Q.members, Q.coord v = P.coord v := by
  have hm : P.members.map P.coord = rangeIndex P.shape := map_coords_members hP.nodup hP.size
  have hfil : ((P.members.filter fun v => p (P.coord v)).map P.coord) = rangeIndex shape := by
    rw [← hr, ← hm, List.filter_map]
    rfl
  have hlen : (P.members.filter fun v => p (P.coord v)).length = shape.prod := by
    rw [← List.length_map (f := P.coord), hfil, length_rangeIndex]
  let Q : Cart := ⟨P.members.filter fun v => p (P.coord v), shape, P.root⟩
  have hQ : Q.WF := ⟨hP.nodup.filter _, hlen, hpos⟩
  refine ⟨Q, ?_, hQ, rfl, rfl, rfl, ?_⟩
  · obtain ⟨n1, n2⟩ := zipIdx_ranks (rangeIndex P.shape) p
    have n3 : ∀ r ∈ ((rangeIndex P.shape).zipIdx.filter fun c => p c.1).map (fun c => c.2), r < P.members.length := by
      intro r hr
      have := n2 r hr
      rwa [length_rangeIndex, ← hP.size] at this
    rw [subCart, createInclusive, groupIncl, if_pos ⟨n1, n3⟩, Option.map_some, Option.bind_some, createCartesian]
    have e : (((rangeIndex P.shape).zipIdx.filter fun c => p c.1).map fun c => c.2).map
        (fun r => P.members.getD r 0) = P.members.filter fun v => p (P.coord v) := by
      rw [List.map_map, ← hm]
      exact zipIdx_filter_map P.members P.coord p
    simp only [e]
    rw [if_pos ⟨hpos, hlen.symm⟩]
  · have h2 : Q.members.map Q.coord = Q.members.map P.coord := by
      have : Q.members.map Q.coord = rangeIndex shape := map_coords_members hQ.nodup hQ.size
      rw [this, ← hfil]
    exact fun v hv => List.map_inj_left.1 h2 v hv

theorem filter_rangeIndex_cons (n : Nat) (S : List Nat) (p : List Nat → Bool) :
    (rangeIndex (n :: S)).filter p =
      (List.range n).flatMap fun i => ((rangeIndex S).filter fun l => p (i :: l)).map (i :: ·) := by
  simp only [rangeIndex, List.filter_flatMap, List.filter_map]
  rfl

theorem filter_zeros {S : List Nat} (hS : ∀ n ∈ S, 0 < n) :
    (rangeIndex S).filter (fun c => c.all fun i => i == 0) = rangeIndex (List.replicate S.length 1) := by
  induction S with
  | nil => rfl
  | cons n S ih =>
    rw [filter_rangeIndex_cons, List.length_cons, List.replicate_succ]
    show _ = (List.range 1).flatMap fun i => (rangeIndex (List.replicate S.length 1)).map (i :: ·)
    obtain ⟨m, rfl⟩ : ∃ m, n = m + 1 := ⟨n - 1, by have := hS n (by simp); omega⟩
    rw [List.range_succ_eq_map, List.flatMap_cons]
    have h0 : ((rangeIndex S).filter fun l => (0 :: l).all fun i => i == 0) =
        rangeIndex (List.replicate S.length 1) := by
      rw [← ih fun n hn => hS n (by simp [hn])]
      simp
    rw [h0, List.flatMap_map]
    have h1 : (List.range m).flatMap (fun i => ((rangeIndex S).filter fun l =>
        (i.succ :: l).all fun i => i == 0).map (i.succ :: ·)) = [] := by
      simp
    rw [h1]
    simp

theorem flatMap_range_congr {α : Type} {n : Nat} {f g : Nat → List α} (h : ∀ i, f i = g i) :
    (List.range n).flatMap f = (List.range n).flatMap g := by
  rw [show f = g from funext h]

variable {C : ChanConv} {Po Pi : Nat} {Sp : List Nat}

/-- The first position along dimension 1. -/
theorem filter_first (S : List Nat) {n : Nat} (hn : 0 < n) (q : List Nat → Bool) :
    (rangeIndex (n :: S)).filter (fun c => c.getD 0 0 == 0 && q (c.drop 1)) =
      ((rangeIndex S).filter q).map (0 :: ·) := by
  rw [filter_rangeIndex_cons]
  obtain ⟨m, rfl⟩ : ∃ m, n = m + 1 := ⟨n - 1, by omega⟩
  rw [List.range_succ_eq_map, List.flatMap_cons, List.flatMap_map]
  have h1 : (List.range m).flatMap (fun i => ((rangeIndex S).filter fun l =>
      ((i.succ :: l).getD 0 0 == 0 && q ((i.succ :: l).drop 1))).map (i.succ :: ·)) = [] := by
    simp
  rw [h1]
  simp

namespace ChanValid

/-- The workers storing the weights. -/
theorem weightRoot (h : ChanValid C Po Pi Sp) : ∃ Q, weightRoot C.Pw = some Q ∧ Q.WF ∧
    Q.shape = Po :: Pi :: List.replicate Sp.length 1 ∧ Q.root = C.Pw.root ∧
    (∀ v, v ∈ Q.members ↔ v ∈ C.Pw.members ∧ ∀ i ∈ (C.Pw.coord v).drop 2, i = 0) ∧
    ∀ v ∈ Q.members, Q.coord v = C.Pw.coord v := by
  obtain ⟨p1, p2, p3⟩ := h.pos
  have hr : (rangeIndex C.Pw.shape).filter (fun c => (c.drop 2).all fun i => i == 0) =
      rangeIndex (Po :: Pi :: List.replicate Sp.length 1) := by
    rw [h.shw, filter_rangeIndex_cons]
    simp only [filter_rangeIndex_cons, List.drop_succ_cons, List.drop_zero, filter_zeros p3]
    rfl
  obtain ⟨Q, e, hQ, hs, hro, hm, hc⟩ := subCart_spec h.wfw (p := fun c => (c.drop 2).all fun i => i == 0)
    (shape := Po :: Pi :: List.replicate Sp.length 1) (by
      intro n hn
      simp only [List.mem_cons, List.mem_replicate] at hn
      rcases hn with rfl | rfl | ⟨-, rfl⟩
      · exact p1
      · exact p2
      · exact Nat.one_pos) hr
  refine ⟨Q, ?_, hQ, hs, hro, fun v => ?_, hc⟩
  · rw [Verif.weightRoot, h.shw]
    exact e
  · rw [hm, List.mem_filter]
    simp

/-- The workers whose local layers have a bias. -/
theorem biasPart (h : ChanValid C Po Pi Sp) : ∃ Q, biasPart C.Pw = some Q ∧ Q.WF ∧
    Q.shape = Po :: 1 :: Sp ∧ Q.root = C.Pw.root ∧
    (∀ v, v ∈ Q.members ↔ v ∈ C.Pw.members ∧ (C.Pw.coord v).getD 1 0 = 0) ∧
    ∀ v ∈ Q.members, Q.coord v = C.Pw.coord v := by
  obtain ⟨p1, p2, p3⟩ := h.pos
  have hr : (rangeIndex C.Pw.shape).filter (fun c => c.getD 1 0 == 0) = rangeIndex (Po :: 1 :: Sp) := by
    rw [h.shw, filter_rangeIndex_cons]
    have := filter_first Sp p2 fun _ => true
    simp only [Bool.and_true, List.filter_true] at this
    simp only [List.getD_cons_succ, this]
    show _ = (List.range Po).flatMap fun i => ((List.range 1).flatMap fun j => (rangeIndex Sp).map (j :: ·)).map (i :: ·)
    simp
  obtain ⟨Q, e, hQ, hs, hro, hm, hc⟩ := subCart_spec h.wfw (p := fun c => c.getD 1 0 == 0)
    (shape := Po :: 1 :: Sp) (by
      intro n hn
      simp only [List.mem_cons] at hn
      rcases hn with rfl | rfl | hn
      · exact p1
      · exact Nat.one_pos
      · exact p3 n hn) hr
  refine ⟨Q, ?_, hQ, hs, hro, fun v => ?_, hc⟩
  · rw [Verif.biasPart, h.shw]
    exact e
  · rw [hm, List.mem_filter, beq_iff_eq]

/-- The workers storing the bias. -/
theorem biasRoot (h : ChanValid C Po Pi Sp) : ∃ Q, biasRoot C.Pw = some Q ∧ Q.WF ∧
    Q.shape = Po :: 1 :: List.replicate Sp.length 1 ∧ Q.root = C.Pw.root ∧
    (∀ v, v ∈ Q.members ↔ v ∈ C.Pw.members ∧ ∀ i ∈ (C.Pw.coord v).drop 1, i = 0) ∧
    ∀ v ∈ Q.members, Q.coord v = C.Pw.coord v := by
  obtain ⟨p1, p2, p3⟩ := h.pos
  have hr : (rangeIndex C.Pw.shape).filter (fun c => (c.drop 1).all fun i => i == 0) =
      rangeIndex (Po :: 1 :: List.replicate Sp.length 1) := by
    rw [h.shw, filter_rangeIndex_cons]
    have := filter_zeros (S := Pi :: Sp) (by
      intro n hn
      simp only [List.mem_cons] at hn
      rcases hn with rfl | hn
      · exact p2
      · exact p3 n hn)
    simp only [List.drop_succ_cons, List.drop_zero, this]
    rfl
  obtain ⟨Q, e, hQ, hs, hro, hm, hc⟩ := subCart_spec h.wfw (p := fun c => (c.drop 1).all fun i => i == 0)
    (shape := Po :: 1 :: List.replicate Sp.length 1) (by
      intro n hn
      simp only [List.mem_cons, List.mem_replicate] at hn
      rcases hn with rfl | rfl | ⟨-, rfl⟩
      · exact p1
      · exact Nat.one_pos
      · exact Nat.one_pos) hr
  refine ⟨Q, ?_, hQ, hs, hro, fun v => ?_, hc⟩
  · rw [Verif.biasRoot, h.shw]
    exact e
  · rw [hm, List.mem_filter]
    simp

end ChanValid

end Verif
