import Verif.Net.Network
import Mathlib.Data.EReal.Inv

/-!
# C69: networks without synchronisation between the layers
-/

namespace Verif.Net

section
variable {F β : Type} [AddCommMonoid F] [Mul F] [Div F] [NatCast F] [SemilatticeSup F] [OrderBot F]
variable {W : List Nat} {P P' : Cart} {L L' : Layout} {ls : List (Layer F β)} {t : TorchDtype} {X : List Nat → F}
  {S : Nat → NSt F} {early : GState (NSt F) (NMsg F) → Nat → Nat → Prop} {n : Nat} {g : GState (NSt F) (NMsg F)}

/-- C69, results: whatever the interleaving, a worker that has performed all its layers has seen no exception, and if it
belongs to the last partition it holds its part of the output of the sequential network. -/
theorem C69_result (hP : P.WF) (hL : L.pshape = P.shape) (hW : ∀ w ∈ P.members, w ∈ W) (hn : NetFits W P L ls P' L')
    (hS : Holds W P L t X S) (he : Exec W (netProg P ls) early n (GState.init S) g) :
    (P'.WF ∧ L'.pshape = P'.shape ∧ L'.global = (seqNet ls (L.global, X)).1) ∧
    ∀ w ∈ W, (g.ws w).phase = (netProg P ls).length → (g.ws w).st.err = false ∧
      (w ∈ P'.members → (g.ws w).st.t.shape = L'.shapeAt (P'.coord w) ∧ (g.ws w).st.t.dtype = t ∧
        ∀ l, InBounds l (L'.shapeAt (P'.coord w)) →
          (g.ws w).st.t.val l = (seqNet ls (L.global, X)).2 (shiftBy (L'.startAt (P'.coord w)) l)) := by
  obtain ⟨⟨a1, a2, -, a4⟩, hr⟩ := hn.realises (t := t) (X := X) ⟨hP, hL, hW, rfl⟩
  refine ⟨⟨a1, a2, a4⟩, fun w hw hp => ?_⟩
  obtain ⟨ok, hH⟩ := hr S hS
  rw [result ok he hw hp]
  obtain ⟨rg, hrg⟩ := hH.parts
  exact ⟨hH.calm w hw, fun hm => ⟨congrArg Prod.fst (hrg w hm), congrArg (·.2.1) (hrg w hm), hH.data w hm⟩⟩

/-- C69, progress: whatever the workers have done so far, as long as one of them has not performed all its layers some
worker can go on. -/
theorem C69_progress (hP : P.WF) (hL : L.pshape = P.shape) (hW : ∀ w ∈ P.members, w ∈ W) (hn : NetFits W P L ls P' L')
    (hS : Holds W P L t X S) (he : Exec W (netProg P ls) early n (GState.init S) g)
    (hw : ∃ w ∈ W, (g.ws w).phase < (netProg P ls).length) : ∃ g', Step W (netProg P ls) early g g' :=
  no_deadlock ((hn.realises (t := t) (X := X) ⟨hP, hL, hW, rfl⟩).2 S hS).1 he hw

/-- C69, termination: there is a bound on the number of steps of all executions, and every execution can be continued
until all workers have performed all their layers. -/
theorem C69_terminates (hW' : W.Nodup) (hP : P.WF) (hL : L.pshape = P.shape) (hW : ∀ w ∈ P.members, w ∈ W)
    (hn : NetFits W P L ls P' L') (hS : Holds W P L t X S) :
    (∃ N, ∀ n g, Exec W (netProg P ls) early n (GState.init S) g → n ≤ N) ∧
    ∀ n g, Exec W (netProg P ls) early n (GState.init S) g →
      ∃ n' g', n ≤ n' ∧ Exec W (netProg P ls) early n' (GState.init S) g' ∧
        ∀ w ∈ W, (g'.ws w).phase = (netProg P ls).length := by
  have ok := ((hn.realises (t := t) (X := X) ⟨hP, hL, hW, rfl⟩).2 S hS).1
  exact ⟨⟨_, fun n g he => bounded ok hW' he⟩, fun n g he => completes ok hW' he⟩

end

/-! ## A worked case -/

/-- No buffers used before. -/
def exB : Bufs Nat := ⟨.inst .float64, fun _ => 0, fun _ => []⟩

/-- Four workers in a 2 x 2 grid of features. -/
def exP0 : Cart := ⟨[0, 1, 2, 3], [1, 1, 2, 2], some 0⟩

/-- A 3 x 3 convolution of one channel into two. -/
noncomputable def exC : ConvLayer EReal :=
  ⟨⟨[3, 3], [1, 1], [1, 1], [1, 1]⟩, 1, 1, 2, ⟨[2, 1, 3, 3], .float32, fun l => (l.sum : EReal)⟩,
    some ⟨[2], .float32, fun l => -(l.sum : EReal)⟩⟩

/-- Maxima over 2 x 2 cells. -/
def exQ : WinParams := ⟨[2, 2], [2, 2], [0, 0], [1, 1]⟩

/-- The channels on workers 3 and 1. -/
def exP1 : Cart := ⟨[3, 1], [1, 2, 1, 1], some 0⟩

/-- Eighteen features into three. -/
noncomputable def exA : LinearLayer EReal :=
  ⟨⟨[3, 1], [1, 2], some 0⟩, ⟨[0, 2], [1, 2], some 0⟩, ⟨[0, 1, 2, 3], [2, 2], some 0⟩, false, false, 18, 3, true,
    fun v c => ((2 * (v / 2) + c.getD 0 0 + (9 * (v % 2) + c.getD 1 0) : Nat) : EReal),
    fun v c => ((2 * (v / 2) + c.getD 0 0 : Nat) : EReal)⟩

/-- Convolution, positive part, pooling, change of partition, flattening, linear layer; all layers use channel 7, except
that the convolution broadcasts its parameters over channels 8 and 9. -/
noncomputable def exNet : List (Layer EReal Nat) :=
  [.conv 7 8 9 exC true exB, .map fun x => x ⊔ 0, .max 7 exQ exB, .rep 7 exP1 true exB, .flat,
    .lin 7 7 exA true (fun c => ((c.getD 0 0 + c.getD 1 0 : Nat) : EReal)) fun c => ((c.getD 0 0 : Nat) : EReal)]

/-- The input, of shape 2 x 1 x 6 x 6. -/
def exL0 : Layout := Layout.balanced exP0.shape [2, 1, 6, 6]

theorem exP0_wf : exP0.WF := ⟨by decide, by decide, by decide⟩

theorem exA_valid : LinearValid exA 2 2 :=
  ⟨⟨by decide, by decide, by decide⟩, ⟨by decide, by decide, by decide⟩, ⟨by decide, by decide, by decide⟩,
    rfl, rfl, rfl, ⟨_, rfl, rfl, rfl⟩, by simp [exA], by simp [exA], by simp [exA]⟩

theorem exA_params : ParamBlocks exA 2 2 (fun c => ((c.getD 0 0 + c.getD 1 0 : Nat) : EReal))
    fun c => ((c.getD 0 0 : Nat) : EReal) := by
  refine ⟨fun v hv => ?_, fun v hv => ?_⟩ <;>
    (have : v = 0 ∨ v = 1 ∨ v = 2 ∨ v = 3 := by simpa [exA] using hv
     rcases this with rfl | rfl | rfl | rfl)
  all_goals first
    | (intro k hk i hi
       simp [exA, Cart.coord, getCoords, startIdx])
    | (intro _ k hk
       simp [exA, Cart.coord, getCoords, startIdx])

theorem exNet_fits : NetFits [0, 1, 2, 3] exP0 exL0 exNet exA.Py (Layout.balanced [1, 2] [2, 3]) := by
  refine .cons (.conv (nd := 2) (pk := [3]) (ps := [1]) (pp := [1]) (pd := [1]) _ _ _ _ _ _ rfl rfl rfl ⟨_, rfl⟩
    (by simp [exC]) (by simp [exC]) (by simp [exC, exL0]; decide) (by simp [exP0]) ?_) ?_
  · intro _ j hj
    have hj : j < 4 := hj
    interval_cases j
    · exact reach_single (n := 2) (by decide) (by decide) (by decide)
    · exact reach_single (n := 1) (by decide) (by decide) (by decide)
    · exact reach_unit_stride (P := 2) (n := 6) (k := 3) (p := 1) (d := 1) (by decide) (by decide) (by decide)
        (by decide) (by decide) (by decide)
    · exact reach_unit_stride (P := 2) (n := 6) (k := 3) (p := 1) (d := 1) (by decide) (by decide) (by decide)
        (by decide) (by decide) (by decide)
  refine .cons (.map _) ?_
  refine .cons (.max (nd := 2) (pk := [2]) (ps := [2]) (pp := [0]) (pd := [1]) _ _ _ rfl rfl ?_) ?_
  · have e : Layout.balanced exP0.shape (torchConvShape exC.W exC.Co exL0.global) = [[2], [2], [3, 3], [3, 3]] := by decide
    rw [e]
    have ax : AxisLimits 2 2 0 1 [3, 3] := by
      refine ⟨by decide, by decide, by decide, by decide, fun c h0 hc => ?_, fun c hc => ?_, fun c hc => ?_⟩
      · simp at hc; omega
      · simp at hc
      · obtain rfl : c = 0 := by simp at hc; omega
        decide
    intro j hj
    have hj : j < 4 := hj
    interval_cases j
    · exact reach_single (n := 2) (by decide) (by decide) (by decide)
    · exact reach_single (n := 2) (by decide) (by decide) (by decide)
    · exact ax
    · exact ax
  have e : (Layout.balanced exP0.shape (torchPoolShape exQ
      (Layout.global (Layout.balanced exP0.shape (torchConvShape exC.W exC.Co exL0.global))))).global = [2, 2, 3, 3] := by
    decide
  refine .cons (.rep _ _ _ _ ⟨by decide, by decide, by decide⟩ rfl (by decide) ?_ (by decide)) ?_
  · show ∀ d, (Layout.global (Layout.balanced exP0.shape _)).getD d 0 = 1 → _
    rw [e]
    intro d hd
    match d, hd with
    | 0, hd | 1, hd | 2, hd | 3, hd => simp at hd
    | _ + 4, hd => simp at hd
  refine .cons (.flat (a := 1) (b := 2) (k := 2) rfl) ?_
  change NetFits _ exA.Px (flatLayout (Layout.balanced exP1.shape (Layout.global (Layout.balanced exP0.shape _)))) _ _ _
  rw [e]
  have e2 : flatLayout (Layout.balanced exP1.shape [2, 2, 3, 3]) = Layout.balanced [1, 2] [2, exA.inFeatures] := by decide
  rw [e2]
  exact .cons (.lin _ _ _ _ _ _ exA_valid exA_params (by simp [exA]) (by simp [exA])) .nil

/-- The input of worker `w`: `X[b, c, i, j] = j - i`, cut over `exP0`. -/
noncomputable def exS (w : Nat) : NSt EReal :=
  ⟨⟨exL0.shapeAt (exP0.coord w), .float32, fun l =>
    ((shiftBy (exL0.startAt (exP0.coord w)) l).getD 3 0 : EReal) - ((shiftBy (exL0.startAt (exP0.coord w)) l).getD 2 0 : EReal)⟩,
    false, false, fun _ => noInfo, noInfo, ⟨fun _ => 0, fun _ => 0⟩, fun _ => (⟨[], .float32, fun _ => 0⟩, false)⟩

theorem exS_holds : Holds [0, 1, 2, 3] exP0 exL0 .float32 (fun i => (i.getD 3 0 : EReal) - (i.getD 2 0 : EReal)) exS :=
  ⟨fun _ _ => rfl, fun w _ => shapeAt_ne_nil (by decide) (by decide) w, ⟨false, fun _ _ => rfl⟩, fun _ _ _ _ => rfl⟩

/-- All executions of this network end, whatever the library does early, and then workers 0 and 2 hold two and one
features of the sequential result. -/
example (early : GState (NSt EReal) (NMsg EReal) → Nat → Nat → Prop) :
    ∃ n g, Exec [0, 1, 2, 3] (netProg exP0 exNet) early n (GState.init exS) g ∧
      (g.ws 2).st.t.shape = [2, 1] ∧ (g.ws 2).st.t.val [1, 0] =
        (seqNet exNet ([2, 1, 6, 6], fun i => (i.getD 3 0 : EReal) - (i.getD 2 0 : EReal))).2 [1, 2] := by
  obtain ⟨n, g, -, he, hf⟩ := (C69_terminates (early := early) (by decide) exP0_wf rfl (by decide) exNet_fits exS_holds).2
    0 _ (.refl _)
  have e2 : exA.Py.coord 2 = [0, 1] := by simp [exA, Cart.coord, getCoords]
  obtain ⟨-, h2⟩ := (C69_result exP0_wf rfl (by decide) exNet_fits exS_holds he).2 2 (by decide) (hf 2 (by decide))
  obtain ⟨h3, -, h5⟩ := h2 (by simp [exA])
  rw [e2] at h3 h5
  exact ⟨n, g, he, h3, h5 [1, 0] (by decide)⟩

/-! ## Convolutions over channels -/

/-- One channel into two, over two workers for the features and four for the output. -/
def exG : ChanConv :=
  ⟨⟨[1, 2], [1, 1, 2], some 0⟩, ⟨[3, 2, 1, 0], [1, 2, 2], some 0⟩, ⟨[0, 1, 2, 3], [2, 1, 2], some 0⟩,
    ⟨[3], [1], [1], [1]⟩, 1, 1, 2, true⟩

/-- The channels on workers 3 and 1. -/
def exP2 : Cart := ⟨[3, 1], [1, 2, 1], some 0⟩

/-- Two channels into three. -/
def exH : ChanConv :=
  ⟨exP2, ⟨[0], [1, 1, 1], some 0⟩, ⟨[2, 0], [1, 2, 1], some 0⟩, ⟨[2], [1], [0], [1]⟩, 1, 2, 3, true⟩

/-- A convolution over channels and features, a change of partition, a convolution over channels. -/
noncomputable def exNetC : List (Layer EReal Nat) :=
  [.gen 7 8 9 7 7 exG (fun v => ⟨[1, 1, 3], .float32, fun l => ((v / 2 + l.getD 0 0 + l.getD 2 0 : Nat) : EReal)⟩)
      (fun v => ⟨[1], .float32, fun l => ((v / 2 + l.getD 0 0 : Nat) : EReal)⟩) true exB
      (fun l => ((l.getD 0 0 + l.getD 2 0 : Nat) : EReal)) (fun l => ((l.getD 0 0 : Nat) : EReal)),
    .rep 7 exP2 true exB,
    .chan 7 7 exH (fun v l => ((l.getD 0 0 + ((if v = 2 then 0 else 1) + l.getD 1 0) : Nat) : EReal))
      (fun _ l => ((l.getD 0 0 : Nat) : EReal)) true
      (fun l => ((l.getD 0 0 + l.getD 1 0 : Nat) : EReal)) (fun l => ((l.getD 0 0 : Nat) : EReal))]

/-- The input, of shape 2 x 1 x 6. -/
def exL1 : Layout := Layout.balanced exG.Px.shape [2, 1, 6]

theorem exG_wf : exG.Px.WF := ⟨by decide, by decide, by decide⟩

theorem exG_valid : ChanValid exG 2 1 [2] :=
  ⟨exG_wf, ⟨by decide, by decide, by decide⟩, ⟨by decide, by decide, by decide⟩, rfl, rfl, rfl, ⟨_, rfl, rfl, rfl⟩,
    by decide⟩

theorem exH_valid : ChanValid exH 1 2 [1] :=
  ⟨⟨by decide, by decide, by decide⟩, ⟨by decide, by decide, by decide⟩, ⟨by decide, by decide, by decide⟩,
    rfl, rfl, rfl, ⟨_, rfl, rfl, rfl⟩, by decide⟩

theorem exNetC_fits : NetFits [0, 1, 2, 3] exG.Px exL1 exNetC exH.Py (Layout.balanced [1, 1, 1] [2, 3, 5]) := by
  refine .cons (.gen (nd := 1) (pk := [3]) (ps := [1]) (pp := [1]) (pd := [1]) (Po := 2) (Pi := 1) (Sp := [2]) (B := 2)
    (N := [6]) _ _ _ _ _ _ _ _ _ _ _ _ rfl exG_valid rfl rfl (by decide) (by decide) ?_ ?_ (by decide) (by decide)
    (by decide)) ?_
  · intro _ j hj
    have hj : j < 3 := hj
    interval_cases j
    · exact reach_single (n := 2) (by decide) (by decide) (by decide)
    · exact reach_single (n := 1) (by decide) (by decide) (by decide)
    · exact reach_unit_stride (P := 2) (n := 6) (k := 3) (p := 1) (d := 1) (by decide) (by decide) (by decide)
        (by decide) (by decide) (by decide)
  · refine ⟨fun v hv hz => ?_, fun v hv hz => ?_⟩ <;>
      (have : v = 0 ∨ v = 1 ∨ v = 2 ∨ v = 3 := by simpa [exG] using hv
       rcases this with rfl | rfl | rfl | rfl)
    all_goals first
      | (intro k hk c hc κ hκ
         simp [exG, Cart.coord, getCoords, startIdx])
      | (intro k hk
         simp [exG, Cart.coord, getCoords, startIdx])
  have e : Layout.global (Layout.balanced exG.Py.shape (torchConvShape exG.W exG.Co exL1.global)) = [2, 2, 6] := by decide
  refine .cons (.rep _ _ _ _ ⟨by decide, by decide, by decide⟩ rfl (by decide) ?_ (by decide)) ?_
  · rw [e]
    intro d hd
    match d, hd with
    | 0, hd | 1, hd | 2, hd => simp at hd
    | _ + 3, hd => simp at hd
  change NetFits _ exH.Px (Layout.balanced exP2.shape (Layout.global (Layout.balanced exG.Py.shape
    (torchConvShape exG.W exG.Co exL1.global)))) _ _ _
  rw [e]
  refine .cons (.chan (Po := 1) (Pi := 2) (Sp := [1]) (B := 2) (N := [6]) _ _ _ _ _ _ _ _ exH_valid (by decide) rfl rfl rfl
    (by decide) ?_ (by decide) (by decide) (by decide)) .nil
  refine ⟨fun v hv => ?_, fun v hv _ => ?_⟩ <;>
    (have : v = 2 ∨ v = 0 := by simpa [exH] using hv
     rcases this with rfl | rfl)
  all_goals first
    | (intro k hk c hc κ hκ
       simp [exH, exP2, Cart.coord, getCoords, startIdx])
    | (intro k hk
       simp [exH, exP2, Cart.coord, getCoords, startIdx])

/-- The input of worker `w`: `X[b, c, i] = i`, cut over `exG.Px`. -/
noncomputable def exS1 (w : Nat) : NSt EReal :=
  ⟨⟨exL1.shapeAt (exG.Px.coord w), .float32, fun l => ((shiftBy (exL1.startAt (exG.Px.coord w)) l).getD 2 0 : EReal)⟩,
    false, false, fun _ => noInfo, noInfo, ⟨fun _ => 0, fun _ => 0⟩, fun _ => (⟨[], .float32, fun _ => 0⟩, false)⟩

theorem exS1_holds : Holds [0, 1, 2, 3] exG.Px exL1 .float32 (fun i => (i.getD 2 0 : EReal)) exS1 :=
  ⟨fun _ _ => rfl, fun w _ => shapeAt_ne_nil (by decide) (by decide) w, ⟨false, fun _ _ => rfl⟩, fun _ _ _ _ => rfl⟩

/-- All executions of this network end, and then worker 0 holds the sequential result. -/
example (early : GState (NSt EReal) (NMsg EReal) → Nat → Nat → Prop) :
    ∃ n g, Exec [0, 1, 2, 3] (netProg exG.Px exNetC) early n (GState.init exS1) g ∧
      (g.ws 0).st.t.shape = [2, 3, 5] ∧ (g.ws 0).st.t.val [1, 2, 4] =
        (seqNet exNetC ([2, 1, 6], fun i => (i.getD 2 0 : EReal))).2 [1, 2, 4] := by
  obtain ⟨n, g, -, he, hf⟩ := (C69_terminates (early := early) (by decide) exG_wf rfl (by decide) exNetC_fits exS1_holds).2
    0 _ (.refl _)
  obtain ⟨-, h2⟩ := (C69_result exG_wf rfl (by decide) exNetC_fits exS1_holds he).2 0 (by decide) (hf 0 (by decide))
  obtain ⟨h3, -, h5⟩ := h2 (by decide)
  exact ⟨n, g, he, h3, h5 [1, 2, 4] (by decide)⟩

end Verif.Net
