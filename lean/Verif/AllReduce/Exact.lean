import Verif.AllReduce.Props

/-!
# C26: exactly which axes are rejected, and what the others do
-/

namespace Verif

/-- C26, exactly: a worker of a partition of several workers rejects axes to reduce exactly if one of them lies beyond
the last dimension; axes to keep are never rejected. -/
theorem C26_iff (P : Cart) (h : P.WF) (w : Nat) (hw : w ∈ P.members) (hsize : P.members.length ≠ 1) :
    (∀ r, allReduceSetup P (some r) none w = .raises ↔ ∃ d ∈ r, (P.shape.length : Int) ≤ d) ∧
    ∀ k, allReduceSetup P none (some k) w ≠ .raises := by
  have key : ∀ r : List Int, (∀ d ∈ r, d < (P.shape.length : Int)) → allReduceSetup P (some r) none w ≠ .raises := by
    intro r hr e
    obtain ⟨C, hC, -⟩ := C25_groups P h r hr w hw
    simp only [allReduceSetup, axesReduce] at e
    rw [if_neg (by simp [hw, hsize]), hC] at e
    cases e
  refine ⟨fun r => ⟨fun e => ?_, C26_rejects_partial P r w hw hsize⟩, fun k => ?_⟩
  · by_contra H
    exact key r (fun d hd => by by_contra hlt; exact H ⟨d, hd, by omega⟩) e
  · rw [(C26_complement P w k).1]
    refine key _ fun d hd => ?_
    simp only [List.mem_filter, List.mem_map, List.mem_range] at hd
    obtain ⟨⟨n, hn, rfl⟩, _⟩ := hd
    omega

/-- C26, what accepted axes do: negative axes to reduce have no effect on any result, and neither have axes to keep
outside of the dimensions.  Python's meaning of a negative axis, counting from the last dimension, is not given to
them. -/
theorem C26_ignored {S : Type} [AddCommMonoid S] (P : Cart) (h : P.WF) (x y : Nat → Tensor S) (w : Nat) :
    (∀ r : List Int, (∀ d ∈ r, d < P.shape.length) → GroupKinds P r x y →
      allReduceOut P r x y w = allReduceOut P (r.filter fun d => decide (0 ≤ d)) x y w) ∧
    ∀ k : List Int, axesReduce P.shape.length none (some k) =
      axesReduce P.shape.length none (some (k.filter fun d => decide (0 ≤ d ∧ d < P.shape.length))) := by
  refine ⟨fun r hr hk => ?_, fun k => ?_⟩
  · set a := r.filter fun d => decide (0 ≤ d) with ha
    have hss : ∀ w v, SameKept P a w v ↔ SameKept P r w v := by
      intro w v
      unfold SameKept
      refine forall_congr' fun d => forall_congr' fun hd => ?_
      rw [show ((d : Int) ∈ a ↔ (d : Int) ∈ r) by simp [ha, List.mem_filter]]
    have hlt : ∀ d ∈ a, d < P.shape.length := fun d hd => hr d (List.mem_filter.1 hd).1
    have hka : GroupKinds P a x y := ⟨fun w hw v hv hs => hk.1 w hw v hv ((hss w v).1 hs), hk.2⟩
    by_cases hw : w ∈ P.members
    · rw [(C25_sum P h a hlt x y hka).1 w hw, (C25_sum P h r hr x y hk).1 w hw]
      simp only [hss]
    · rw [(C25_sum P h a hlt x y hka).2.2 w hw, (C25_sum P h r hr x y hk).2.2 w hw]
  · simp only [axesReduce, Option.some.injEq]
    refine List.filter_congr fun d hd => ?_
    simp only [List.mem_map, List.mem_range] at hd
    obtain ⟨n, hn, rfl⟩ := hd
    simp [List.mem_filter, hn]

/-- On two by three workers: axis -1 is not rejected, and each worker keeps its own tensor; reduction over the last
dimension would give worker 12 the sum over its row. -/
example : (∀ r, allReduceSetup exA (some r) none 12 = .raises ↔ ∃ d ∈ r, (2 : Int) ≤ d) ∧
    (allReduceOut exA [-1] exAx exAx 12).map (fun t => t.val [1]) = (allReduceOut exA [] exAx exAx 12).map (fun t => t.val [1]) ∧
    (allReduceOut exA [-1] exAx exAx 12).map (fun t => t.val [1]) ≠ (allReduceOut exA [1] exAx exAx 12).map (fun t => t.val [1]) :=
  ⟨(C26_iff exA exA_wf 12 (by decide) (by decide)).1, by decide, by decide⟩

end Verif
