import Verif.Build.Layers
import Verif.Build.Live

/-!
# C82: building the partitions and layers of a network cannot deadlock

The negative results: a general convolution whose weights are on one worker, with the data elsewhere, is never built; and
an exception raised on the workers of `P_x` only leaves the others waiting.
-/

namespace Verif.Build

/-- What the caller guarantees of a line of a script executed by the workers `W`: partitions MPI could have made, of these
workers, with the same root communicator; shapes as documented.  Losses and batch norms need all workers (C47, C59); the
general convolution, if `P_w` has one worker, all its data on that worker. -/
def Line.Fits (W : List Nat) : Line → Prop
  | .partition ranks shape => ranks.Nodup ∧ (∀ r ∈ ranks, r < W.length) ∧ (∀ n ∈ shape, 0 < n) ∧ shape.prod = ranks.length
  | .repartition Px Py => Placed W Px ∧ Placed W Py ∧ (∃ r, Px.cart.root = some r ∧ Py.cart.root = some r) ∧
      Px.cart.shape.length = Py.cart.shape.length
  | .broadcast Px Py ts td => BcastValid Px.cart Py.cart ts td ∧ Placed W Px ∧ Placed W Py
  | .sumReduce Px Py ts td => BcastValid Py.cart Px.cart td ts ∧ Placed W Px ∧ Placed W Py
  | .allReduce P axes => Placed W P ∧ ∀ d ∈ axes, d < P.cart.shape.length
  | .featureConv P => Placed W P
  | .channelConv Px Py Pw => ∃ Po Pi Sp, ConvShapes W true Px Py Pw Po Pi Sp
  | .generalConv Px Py Pw => (∃ Po Pi Sp, ConvShapes W false Px Py Pw Po Pi Sp) ∧ (Pw.cart.members.length = 1 →
      (∀ w ∈ Px.cart.members, w ∈ Pw.cart.members) ∧ ∀ w ∈ Py.cart.members, w ∈ Pw.cart.members)
  | .loss P => Placed W P ∧ ∀ w ∈ W, w ∈ P.cart.members
  | .norm P => Placed W P ∧ (∀ w ∈ W, w ∈ P.cart.members) ∧ 2 ≤ P.cart.shape.length

theorem Line.joint {W : List Nat} (n : List Nat) {l : Line} (h : l.Fits W) :
    ∃ G, Joint W (l.run ⟨[], W⟩ n) (fun _ => ()) G := by
  cases l with
  | partition ranks shape =>
    obtain ⟨h1, h2, h3, h4⟩ := h
    refine inner_joint (c := ⟨[], W⟩) (Q := ⟨ranks.map fun r => W.getD r 0, shape, none⟩) ?_
    have e : createInclusive ⟨W, none⟩ ranks = some ⟨ranks.map fun r => W.getD r 0, none⟩ := by
      unfold createInclusive groupIncl
      rw [if_pos ⟨h1, h2⟩]
      rfl
    rw [show (⟨[], W⟩ : Comm).members = W from rfl, e, Option.bind_some]
    exact if_pos ⟨h3, by rw [List.length_map]; exact h4⟩
  | repartition Px Py => exact newRepartition_joint _ n h.1 h.2.1 h.2.2.1 h.2.2.2
  | broadcast Px Py ts td => exact broadcastSetup_joint _ n h.1 h.2.1.sub h.2.2.sub
  | sumReduce Px Py ts td => exact sumReduceSetup_joint _ n h.1 h.2.1.sub h.2.2.sub
  | allReduce P axes => exact allReduceSetup_joint n h.1.wf h.2 h.1.sub
  | featureConv P => exact newFeatureConv_joint n h
  | channelConv Px Py Pw =>
    obtain ⟨Po, Pi, Sp, h⟩ := h
    exact newChannelConv_joint _ n h
  | generalConv Px Py Pw =>
    obtain ⟨⟨Po, Pi, Sp, h⟩, h'⟩ := h
    exact newGeneralConv_joint _ n h h'
  | loss P => exact newLossLayer_joint n h.1 h.2
  | norm P => exact newNorm_joint n h.1 h.2.1 h.2.2

theorem script_joint {W : List Nat} {ls : List Line} (h : ∀ l ∈ ls, l.Fits W) (k : Nat) :
    ∃ G, Joint W (script ⟨[], W⟩ k ls) (fun _ => ()) G := by
  induction ls generalizing k with
  | nil => exact ⟨[], Joint.skip⟩
  | cons l ls ih =>
    obtain ⟨G, hG⟩ := Line.joint [k] (h l (by simp))
    obtain ⟨H, hH⟩ := ih (fun l hl => h l (by simp [hl])) (k + 1)
    exact ⟨G ++ H, hG.seq hH⟩

/-- C82: building any list of partitions and layers, in the same order on all workers, cannot deadlock, whatever early
completions the library allows: while some worker has not finished some worker can take a step, every execution is bounded
and can be continued to the end. -/
theorem C82_terminates_partial (W : List Nat) (hW : W.Nodup) (ls : List Line) (h : ∀ l ∈ ls, l.Fits W)
    (early : (Nat → Nat) → Nat → (Op × Nat) → Prop) :
    (∀ pc w, w ∈ W → pc w < (program W ls w).length → ∃ pc', Coll.Step W (program W ls) mem early pc pc') ∧
    (∀ n pc, Coll.Exec W (program W ls) mem early n (fun _ => 0) pc →
      n ≤ (W.map fun w => (program W ls w).length).sum ∧
      ∃ m pc', Coll.Exec W (program W ls) mem early m pc pc' ∧ Coll.Finished W (program W ls) pc') := by
  obtain ⟨G, hG⟩ := script_joint h 0
  have ho : Coll.Ordered W (program W ls) mem _ := hG.ordered
  exact ⟨fun pc w hw hlt => Coll.no_deadlock ho pc w hw hlt,
    fun n pc he => ⟨Coll.exec_bounded hW he, Coll.completes ho hW he⟩⟩

/-- C82, matching: no worker raises an exception; and any two members of a communicator (or of a group from which one is
made) make the same calls on it in the same order: the same operations, roots, shapes and results.  All participants of a
call are among the workers. -/
theorem C82_matching_partial (W : List Nat) (ls : List Line) (h : ∀ l ∈ ls, l.Fits W) :
    (∀ w ∈ W, (script ⟨[], W⟩ 0 ls w).res = some ()) ∧
    (∀ w ∈ W, ∀ o ∈ (script ⟨[], W⟩ 0 ls w).ops, w ∈ o.chan.members ∧ ∀ u ∈ o.chan.members, u ∈ W) ∧
    (∀ c : Chan, ∀ w ∈ W, ∀ u ∈ W, w ∈ c.members → u ∈ c.members →
      ((script ⟨[], W⟩ 0 ls w).ops.filter fun o => o.chan == c) =
        (script ⟨[], W⟩ 0 ls u).ops.filter fun o => o.chan == c) := by
  obtain ⟨G, hG⟩ := script_joint h 0
  refine ⟨hG.res, ?_, ?_⟩
  · intro w hw o ho
    rw [hG.ops w hw] at ho
    obtain ⟨h1, h2⟩ := List.mem_filter.1 ho
    exact ⟨by simpa using h2, hG.sub o h1⟩
  · intro c w hw u hu hwc huc
    have key : ∀ v, v ∈ c.members → (mine v G).filter (fun o => o.chan == c) = G.filter fun o => o.chan == c := by
      intro v hv
      unfold mine
      rw [List.filter_filter]
      refine List.filter_congr fun o _ => ?_
      by_cases e : o.chan = c
      · simp [e, hv]
      · simp [e]
    rw [hG.ops w hw, hG.ops u hu, key w hwc, key u huc]

/-- C82, lifetime: whatever the script, and also if exceptions occur, a worker makes all its calls on communicators that
it has got and not yet released: those of all workers, those of given partitions (`E`; or made by an earlier line), and
those of its own making.  (Names of given partitions do not begin with the number of a line.) -/
theorem C82_lifetime (W : List Nat) (ls : List Line) (E : List Comm) (w : Nat)
    (hE : ∀ c ∈ E, ∀ j < ls.length, c.name.head? ≠ some j) (hs : Supplied ⟨[], W⟩ w 0 (⟨[], W⟩ :: E) ls) :
    ∃ L, lives (⟨[], W⟩ :: E) (script ⟨[], W⟩ 0 ls w).ops = some L := by
  refine script_lives ls 0 _ List.mem_cons_self ?_ hs
  intro c hc j _ hj
  rcases List.mem_cons.1 hc with rfl | hc
  · exact fun h => by cases h
  · exact hE c hc j (by omega)

/-! ## Examples -/

/-- A script for five workers: two partitions, a repartition between them, a broadcast in which worker 4 sends to one
group and receives in another, an all-reduction, a general convolution with its data outside of `P_w`, a loss. -/
def exScript : List Line :=
  [.partition [0, 1] [1, 2], .partition [1, 2] [2, 1],
    .repartition ⟨⟨[0, 1], [1, 2], some 0⟩, [0, 1]⟩ ⟨⟨[1, 2], [2, 1], some 0⟩, [1, 1]⟩,
    .broadcast ⟨⟨[4, 0], [2], some 0⟩, [7]⟩ ⟨⟨[0, 4, 1, 2], [2, 2], some 0⟩, [8]⟩ false false,
    .allReduce ⟨⟨[0, 4, 1, 2], [2, 2], some 0⟩, [8]⟩ [0],
    .generalConv ⟨⟨[3], [1, 1, 1], some 0⟩, [9]⟩ ⟨⟨[4, 0], [1, 2, 1], some 0⟩, [10]⟩ ⟨⟨[1, 2], [2, 1, 1], some 0⟩, [11]⟩,
    .loss ⟨⟨[4, 3, 2, 1, 0], [5], some 0⟩, [12]⟩]

theorem placed_of {W : List Nat} {P : CPart} (h1 : P.cart.members.Nodup) (h2 : P.cart.members.length = P.cart.shape.prod)
    (h3 : ∀ n ∈ P.cart.shape, 0 < n) (h4 : ∀ w ∈ P.cart.members, w ∈ W) : Placed W P := ⟨⟨h1, h2, h3⟩, h4⟩

theorem exScript_fits : ∀ l ∈ exScript, l.Fits [0, 1, 2, 3, 4] := by
  intro l hl
  simp only [exScript, List.mem_cons, List.not_mem_nil, or_false] at hl
  rcases hl with rfl | rfl | rfl | rfl | rfl | rfl | rfl
  · show _ ∧ _ ∧ _ ∧ _
    decide
  · show _ ∧ _ ∧ _ ∧ _
    decide
  · exact ⟨placed_of (by decide) (by decide) (by decide) (by decide), placed_of (by decide) (by decide) (by decide) (by decide),
      ⟨0, rfl, rfl⟩, rfl⟩
  · exact ⟨⟨⟨by decide, by decide, by decide⟩, ⟨by decide, by decide, by decide⟩, ⟨0, rfl, rfl⟩, by decide, by decide⟩,
      placed_of (by decide) (by decide) (by decide) (by decide), placed_of (by decide) (by decide) (by decide) (by decide)⟩
  · exact ⟨placed_of (by decide) (by decide) (by decide) (by decide), by decide⟩
  · exact ⟨⟨2, 1, [1], placed_of (by decide) (by decide) (by decide) (by decide),
      placed_of (by decide) (by decide) (by decide) (by decide), placed_of (by decide) (by decide) (by decide) (by decide),
      rfl, rfl, rfl, ⟨0, rfl, rfl, rfl⟩, fun h => by cases h⟩, fun h => absurd h (by decide)⟩
  · exact ⟨placed_of (by decide) (by decide) (by decide) (by decide), by decide⟩

example (early : (Nat → Nat) → Nat → (Op × Nat) → Prop) :=
  C82_terminates_partial [0, 1, 2, 3, 4] (by decide) exScript exScript_fits early

example (w : Nat) (hw : w ∈ [0, 1, 2, 3, 4]) := C82_lifetime [0, 1, 2, 3, 4] exScript
  [⟨[7], [4, 0]⟩, ⟨[8], [0, 4, 1, 2]⟩, ⟨[9], [3]⟩, ⟨[10], [4, 0]⟩, ⟨[11], [1, 2]⟩, ⟨[12], [4, 3, 2, 1, 0]⟩] w (by decide)
  (by simp [Supplied, exScript, Line.given, Line.made, CPart.comm, groupIncl])

/-- A call on a communicator that has been released, or that was never made, is not accepted. -/
example : lives [⟨[], [0, 1]⟩] [⟨.create ⟨[], [0, 1]⟩ [1, 0] 0, .make [0]⟩, ⟨.on ⟨[0], [1, 0]⟩, .free⟩,
      ⟨.on ⟨[0], [1, 0]⟩, .allgather⟩] = none ∧
    lives [⟨[], [0, 1]⟩] [⟨.on ⟨[0], [1, 0]⟩, .allgather⟩] = none := by
  decide

/-- The broadcast on worker 4: the union, twelve calls on it, its own group, that of worker 0, and the release of the
union. -/
example : (broadcastSetup ⟨[], [0, 1, 2, 3, 4]⟩ [3] ⟨⟨[4, 0], [2], some 0⟩, [7]⟩ ⟨⟨[0, 4, 1, 2], [2, 2], some 0⟩, [8]⟩
      false false 4).ops =
    let c : Comm := ⟨[3, 0], [4, 0, 1, 2]⟩
    [⟨.create ⟨[], [0, 1, 2, 3, 4]⟩ [4, 0, 1, 2] 0, .make [3, 0]⟩,
      ⟨.on c, .allgather⟩, ⟨.on c, .bcast 0⟩, ⟨.on c, .bcast 0⟩, ⟨.on c, .bcast 0⟩, ⟨.on c, .bcast 0⟩,
      ⟨.on c, .allgather⟩, ⟨.on c, .bcast 1⟩, ⟨.on c, .bcast 1⟩, ⟨.on c, .bcast 1⟩, ⟨.on c, .bcast 1⟩,
      ⟨.on c, .allgather⟩, ⟨.on c, .allgather⟩, ⟨.create c [4, 0, 1] 0, .make [3, 1, 0]⟩,
      ⟨.create c [0, 4, 2] 1, .make [3, 1, 1]⟩, ⟨.on c, .free⟩] := by
  decide

/-! ## What goes wrong -/

/-- The library completes no receiver of a broadcast whose root never calls it. -/
def Receives (prog : Nat → List (Coll.Instr (Op × Nat))) (early : (Nat → Nat) → Nat → (Op × Nat) → Prop) : Prop :=
  ∀ pc w c r k, early pc w (⟨c, .bcast r⟩, k) → ∃ u, c.members[r]? = some u ∧ Coll.Instr.post (⟨c, .bcast r⟩, k) ∈ prog u

/-- A general convolution with its weights on worker 0 and its data on worker 1. -/
def exAlone : Line :=
  .generalConv ⟨⟨[1], [1, 1, 1], some 0⟩, [7]⟩ ⟨⟨[1], [1, 1, 1], some 0⟩, [7]⟩ ⟨⟨[0], [1, 1, 1], some 0⟩, [8]⟩

/-- C82 is false of such a convolution: its shapes fit and no worker raises an exception, but worker 1 waits for ever, for
the kernel size from worker 0, which has returned (`conv_general.py:194-206`, `365`). -/
theorem C82_false : (∀ w ∈ [0, 1], (script ⟨[], [0, 1]⟩ 0 [exAlone] w).res = some ()) ∧
    (∃ Po Pi Sp, ConvShapes [0, 1] false ⟨⟨[1], [1, 1, 1], some 0⟩, [7]⟩ ⟨⟨[1], [1, 1, 1], some 0⟩, [7]⟩
      ⟨⟨[0], [1, 1, 1], some 0⟩, [8]⟩ Po Pi Sp) ∧
    ∀ early, Receives (program [0, 1] [exAlone]) early → ∀ n pc,
      Coll.Exec [0, 1] (program [0, 1] [exAlone]) mem early n (fun _ => 0) pc →
      pc 1 < (program [0, 1] [exAlone] 1).length := by
  refine ⟨by decide, ⟨1, 1, [1], placed_of (by decide) (by decide) (by decide) (by decide),
      placed_of (by decide) (by decide) (by decide) (by decide), placed_of (by decide) (by decide) (by decide) (by decide),
      rfl, rfl, rfl, ⟨0, rfl, rfl, rfl⟩, fun h => by cases h⟩, ?_⟩
  intro early he n pc hx
  have hp : Coll.Instr.post (⟨.on ⟨[0, 1], [0, 1]⟩, .bcast 0⟩, 4) ∉ program [0, 1] [exAlone] 0 := by decide
  have h1 := never_passes (w := 1) (u := 0) (i := 19) (c := (⟨.on ⟨[0, 1], [0, 1]⟩, .bcast 0⟩, 4)) (by decide) (by decide)
    hp (fun pc hc => by
      obtain ⟨u, hu, hm⟩ := he pc 1 _ _ _ hc
      obtain rfl : 0 = u := by simpa [Chan.members] using hu
      exact hp hm) hx
  have h3 : (program [0, 1] [exAlone] 1).length = 50 := by decide
  omega

/-- A general convolution whose `P_w` has two parts in the input channels, and `P_x` one. -/
def exMisaligned : Line :=
  .generalConv ⟨⟨[0], [1, 1, 1], some 0⟩, [7]⟩ ⟨⟨[0], [1, 1, 1], some 0⟩, [7]⟩ ⟨⟨[0, 1], [1, 2, 1], some 0⟩, [8]⟩

/-- The exception for partitions that do not fit is raised on the workers of `P_x` only (`conv_general.py:156-160`); a
worker that is only in `P_w` waits for ever. -/
theorem C82_exception_false : (script ⟨[], [0, 1]⟩ 0 [exMisaligned] 0).res = none ∧
    (script ⟨[], [0, 1]⟩ 0 [exMisaligned] 1).res = some () ∧
    ∀ early, Receives (program [0, 1] [exMisaligned]) early → ∀ n pc,
      Coll.Exec [0, 1] (program [0, 1] [exMisaligned]) mem early n (fun _ => 0) pc →
      pc 1 < (program [0, 1] [exMisaligned] 1).length := by
  refine ⟨by decide, by decide, ?_⟩
  intro early he n pc hx
  have hp : Coll.Instr.post (⟨.on ⟨[0, 1], [0, 1]⟩, .bcast 0⟩, 4) ∉ program [0, 1] [exMisaligned] 0 := by decide
  have h1 := never_passes (w := 1) (u := 0) (i := 21) (c := (⟨.on ⟨[0, 1], [0, 1]⟩, .bcast 0⟩, 4)) (by decide) (by decide)
    hp (fun pc hc => by
      obtain ⟨u, hu, hm⟩ := he pc 1 _ _ _ hc
      obtain rfl : 0 = u := by simpa [Chan.members] using hu
      exact hp hm) hx
  have h3 : (program [0, 1] [exMisaligned] 1).length = 52 := by decide
  omega

end Verif.Build
