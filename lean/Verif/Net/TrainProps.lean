import Verif.Net.Train
import Verif.Net.Props
import Mathlib.Data.Rat.Floor

/-!
# C72: forward and backward passes of networks without synchronisation
-/

namespace Verif.Net

section
variable {F β : Type} [Field F]
variable {W : List Nat} {P P' : Cart} {L L' : Layout} {ls : List (TLayer F β)} {t : TorchDtype} {X Y : List Nat → F}
  {S : Nat → NSt F} {seed : Nat → Tensor F → Tensor F} {early : GState (BSt F) (NMsg F) → Nat → Nat → Prop} {n : Nat}
  {g : GState (BSt F) (NMsg F)}

/-- Every worker of `P` that holds its part of `Z` computes its part of the gradient `Y`, and nobody computes a
0-dimensional tensor. -/
def SeedsGrad (W : List Nat) (P : Cart) (L : Layout) (t : TorchDtype) (Z Y : List Nat → F)
    (seed : Nat → Tensor F → Tensor F) : Prop :=
  (∀ w ∈ W, ∀ z : Tensor F, z.shape ≠ [] → (seed w z).shape ≠ []) ∧
  ∀ w ∈ P.members, ∀ z : Tensor F, z.shape = L.shapeAt (P.coord w) → z.dtype = t →
    (∀ l, InBounds l z.shape → z.val l = Z (shiftBy (L.startAt (P.coord w)) l)) →
    (seed w z).shape = z.shape ∧ (seed w z).dtype = t ∧
    ∀ l, InBounds l z.shape → (seed w z).val l = Y (shiftBy (L.startAt (P.coord w)) l)

omit [Field F] in
theorem SeedsGrad.holdsG {Z : List Nat → F} (h : SeedsGrad W P L t Z Y seed) {S : Nat → NSt F} (hS : Holds W P L t Z S) :
    HoldsG W P L t Y fun w => { S w with t := seed w (S w).t } := by
  obtain ⟨rg, hrg⟩ := hS.parts
  have hs : ∀ v ∈ P.members, (S v).t.shape = L.shapeAt (P.coord v) := fun v hv => congrArg Prod.fst (hrg v hv)
  have key : ∀ v (hv : v ∈ P.members), _ := fun v hv => h.2 v hv (S v).t (hs v hv) (congrArg (·.2.1) (hrg v hv))
    fun l hl => hS.data v hv l (hs v hv ▸ hl)
  exact ⟨hS.calm, fun w hw => h.1 w hw _ (hS.batch w hw), fun v hv => ⟨(key v hv).1.trans (hs v hv), (key v hv).2.1⟩,
    fun v hv l hl => (key v hv).2.2 l (by rw [hs v hv]; exact hl)⟩

/-- C72, results: whatever the interleaving, a worker that has performed the forward and the backward pass has seen no
exception, holds its part of the gradient of the input if it belongs to the first partition, and the gradients of its
parameters are what the sequential network says. -/
theorem C72_result (hP : P.WF) (hL : L.pshape = P.shape) (hW : ∀ w ∈ P.members, w ∈ W) (hn : TNetFits W P L ls P' L')
    (hS : Holds W P L t X S) (hseed : SeedsGrad W P' L' t (tseqNet ls (L.global, X)).2 Y seed) :
    ∃ grs, NetGrads P ls (L.global, X) Y grs ∧
    ∀ early n g, Exec W (trainProg P ls seed) early n (GState.init fun w => ⟨S w, [], []⟩) g →
    ∀ w ∈ W, (g.ws w).phase = (trainProg P ls seed).length →
      (g.ws w).st.s.err = false ∧ ((g.ws w).st.grads = grs.map fun gr => gr w) ∧
      (w ∈ P.members → (g.ws w).st.s.t.shape = L.shapeAt (P.coord w) ∧ (g.ws w).st.s.t.dtype = t ∧
        ∀ l, InBounds l (L.shapeAt (P.coord w)) →
          (g.ws w).st.s.t.val l = tadjNet ls (L.global, X) Y (shiftBy (L.startAt (P.coord w)) l)) := by
  obtain ⟨ok, hH, grs, hg, he⟩ := hn.train (seed := seed) (Y := Y) ⟨hP, hL, hW, rfl⟩ hS fun Z hZ => hseed.holdsG hZ
  refine ⟨grs, hg, fun early n g hx w hw hp => ?_⟩
  rw [result ok hx hw hp]
  exact ⟨hH.calm w hw, he w, fun hm => ⟨(hH.parts w hm).1, (hH.parts w hm).2, hH.data w hm⟩⟩

/-- C72, progress: as long as a worker has not performed both passes some worker can go on. -/
theorem C72_progress (hP : P.WF) (hL : L.pshape = P.shape) (hW : ∀ w ∈ P.members, w ∈ W) (hn : TNetFits W P L ls P' L')
    (hS : Holds W P L t X S) (hseed : SeedsGrad W P' L' t (tseqNet ls (L.global, X)).2 Y seed)
    (he : Exec W (trainProg P ls seed) early n (GState.init fun w => ⟨S w, [], []⟩) g)
    (hw : ∃ w ∈ W, (g.ws w).phase < (trainProg P ls seed).length) : ∃ g', Step W (trainProg P ls seed) early g g' :=
  no_deadlock (hn.train (seed := seed) (Y := Y) ⟨hP, hL, hW, rfl⟩ hS fun _ hZ => hseed.holdsG hZ).1 he hw

/-- C72, termination: there is a bound on the number of steps of all executions, and every execution can be continued
until all workers have performed both passes. -/
theorem C72_terminates (hW' : W.Nodup) (hP : P.WF) (hL : L.pshape = P.shape) (hW : ∀ w ∈ P.members, w ∈ W)
    (hn : TNetFits W P L ls P' L') (hS : Holds W P L t X S)
    (hseed : SeedsGrad W P' L' t (tseqNet ls (L.global, X)).2 Y seed) :
    (∃ N, ∀ n g, Exec W (trainProg P ls seed) early n (GState.init fun w => ⟨S w, [], []⟩) g → n ≤ N) ∧
    ∀ n g, Exec W (trainProg P ls seed) early n (GState.init fun w => ⟨S w, [], []⟩) g →
      ∃ n' g', n ≤ n' ∧ Exec W (trainProg P ls seed) early n' (GState.init fun w => ⟨S w, [], []⟩) g' ∧
        ∀ w ∈ W, (g'.ws w).phase = (trainProg P ls seed).length := by
  have ok := (hn.train (seed := seed) (Y := Y) ⟨hP, hL, hW, rfl⟩ hS fun _ hZ => hseed.holdsG hZ).1
  exact ⟨⟨_, fun n g he => bounded ok hW' he⟩, fun n g he => completes ok hW' he⟩

end

/-! ## A worked case -/

/-- A 3 x 3 convolution of one channel into two. -/
def exTC : ConvLayer ℚ :=
  ⟨⟨[3, 3], [1, 1], [1, 1], [1, 1]⟩, 1, 1, 2, ⟨[2, 1, 3, 3], .float32, fun l => (l.sum : ℚ)⟩,
    some ⟨[2], .float32, fun l => -(l.sum : ℚ)⟩⟩

/-- Eighteen features into three. -/
def exTA : LinearLayer ℚ :=
  ⟨⟨[3, 1], [1, 2], some 0⟩, ⟨[0, 2], [1, 2], some 0⟩, ⟨[0, 1, 2, 3], [2, 2], some 0⟩, false, false, 18, 3, true,
    fun v c => ((2 * (v / 2) + c.getD 0 0 + (9 * (v % 2) + c.getD 1 0) : Nat) : ℚ),
    fun v c => ((2 * (v / 2) + c.getD 0 0 : Nat) : ℚ)⟩

/-- Convolution, square, averages, change of partition, flattening, linear layer. -/
def exTNet : List (TLayer ℚ Nat) :=
  [.conv 7 8 9 exTC true exB, .map (fun x => x * x) (fun x => 2 * x), .avg 7 exQ exB, .rep 7 exP1 true exB, .flat,
    .lin 7 7 exTA true (fun c => ((c.getD 0 0 + c.getD 1 0 : Nat) : ℚ)) fun c => ((c.getD 0 0 : Nat) : ℚ)]

theorem exTA_valid : LinearValid exTA 2 2 :=
  ⟨⟨by decide, by decide, by decide⟩, ⟨by decide, by decide, by decide⟩, ⟨by decide, by decide, by decide⟩,
    rfl, rfl, rfl, ⟨_, rfl, rfl, rfl⟩, by simp [exTA], by simp [exTA], by simp [exTA]⟩

theorem exTA_params : ParamBlocks exTA 2 2 (fun c => ((c.getD 0 0 + c.getD 1 0 : Nat) : ℚ))
    fun c => ((c.getD 0 0 : Nat) : ℚ) := by
  refine ⟨fun v hv => ?_, fun v hv => ?_⟩ <;>
    (have : v = 0 ∨ v = 1 ∨ v = 2 ∨ v = 3 := by simpa [exTA] using hv
     rcases this with rfl | rfl | rfl | rfl)
  all_goals first
    | (intro k hk i hi
       simp [exTA, Cart.coord, getCoords, startIdx])
    | (intro _ k hk
       simp [exTA, Cart.coord, getCoords, startIdx])

theorem exTNet_fits : TNetFits [0, 1, 2, 3] exP0 exL0 exTNet exTA.Py (Layout.balanced [1, 2] [2, 3]) := by
  refine .cons (.conv (nd := 2) (pk := [3]) (ps := [1]) (pp := [1]) (pd := [1]) _ _ _ _ _ _ rfl rfl rfl ⟨_, rfl⟩
    (by simp [exTC]) (by simp [exTC]) (by simp [exTC, exL0]; decide) (by simp [exP0]) ?_) ?_
  · intro _ j hj
    have hj : j < 4 := hj
    interval_cases j
    · exact reach_single (n := 2) (by decide) (by decide) (by decide)
    · exact reach_single (n := 1) (by decide) (by decide) (by decide)
    · exact reach_unit_stride (P := 2) (n := 6) (k := 3) (p := 1) (d := 1) (by decide) (by decide) (by decide)
        (by decide) (by decide) (by decide)
    · exact reach_unit_stride (P := 2) (n := 6) (k := 3) (p := 1) (d := 1) (by decide) (by decide) (by decide)
        (by decide) (by decide) (by decide)
  refine .cons (.map _ _) ?_
  refine .cons (.avg (nd := 2) (pk := [2]) (ps := [2]) (pp := [0]) (pd := [1]) _ _ _ rfl rfl ?_) ?_
  · have e : Layout.balanced exP0.shape (torchConvShape exTC.W exTC.Co exL0.global) = [[2], [2], [3, 3], [3, 3]] := by decide
    rw [e]
    have ax : AxisLimits 2 2 0 1 [3, 3] := by
      refine ⟨by decide, by decide, by decide, by decide, fun c h0 hc => ?_, fun c hc => ?_, fun c hc => ?_⟩
      · simp at hc; omega
      · simp at hc
      · obtain rfl : c = 0 := by simp at hc; omega
        decide
    intro j hj
    have hj : j < 4 := hj
    interval_cases j
    · exact reach_single (n := 2) (by decide) (by decide) (by decide)
    · exact reach_single (n := 2) (by decide) (by decide) (by decide)
    · exact ax
    · exact ax
  have e : (Layout.balanced exP0.shape (torchPoolShape exQ
      (Layout.global (Layout.balanced exP0.shape (torchConvShape exTC.W exTC.Co exL0.global))))).global = [2, 2, 3, 3] := by
    decide
  refine .cons (.rep _ _ _ _ ⟨by decide, by decide, by decide⟩ rfl (by decide) ?_ (by decide)) ?_
  · show ∀ d, (Layout.global (Layout.balanced exP0.shape _)).getD d 0 = 1 → _
    rw [e]
    intro d hd
    match d, hd with
    | 0, hd | 1, hd | 2, hd | 3, hd => simp at hd
    | _ + 4, hd => simp at hd
  refine .cons (.flat (a := 1) (b := 2) (k := 2) rfl) ?_
  change TNetFits _ exTA.Px (flatLayout (Layout.balanced exP1.shape (Layout.global (Layout.balanced exP0.shape _)))) _ _ _
  rw [e]
  have e2 : flatLayout (Layout.balanced exP1.shape [2, 2, 3, 3]) = Layout.balanced [1, 2] [2, exTA.inFeatures] := by decide
  rw [e2]
  exact .cons (.lin _ _ _ _ _ _ exTA_valid exTA_params (by simp [exTA]) (by simp [exTA])) .nil

/-- The input of worker `w`: `X[b, c, i, j] = j - i`, cut over `exP0`. -/
def exTS (w : Nat) : NSt ℚ :=
  ⟨⟨exL0.shapeAt (exP0.coord w), .float32, fun l =>
    ((shiftBy (exL0.startAt (exP0.coord w)) l).getD 3 0 : ℚ) - ((shiftBy (exL0.startAt (exP0.coord w)) l).getD 2 0 : ℚ)⟩,
    false, false, fun _ => noInfo, noInfo, ⟨fun _ => 0, fun _ => 0⟩, fun _ => (⟨[], .float32, fun _ => 0⟩, false)⟩

theorem exTS_holds : Holds [0, 1, 2, 3] exP0 exL0 .float32 (fun i => (i.getD 3 0 : ℚ) - (i.getD 2 0 : ℚ)) exTS :=
  ⟨fun _ _ => rfl, fun w _ => shapeAt_ne_nil (by decide) (by decide) w, ⟨false, fun _ _ => rfl⟩, fun _ _ _ _ => rfl⟩

/-- The gradient of half the sum of the squares of the output is the output. -/
theorem exTSeed : SeedsGrad [0, 1, 2, 3] exTA.Py (Layout.balanced [1, 2] [2, 3]) .float32
    (tseqNet exTNet (exL0.global, fun i => (i.getD 3 0 : ℚ) - (i.getD 2 0 : ℚ))).2
    (tseqNet exTNet (exL0.global, fun i => (i.getD 3 0 : ℚ) - (i.getD 2 0 : ℚ))).2 fun _ z => z :=
  ⟨fun _ _ _ h => h, fun _ _ _ _ h2 h3 => ⟨rfl, h2, h3⟩⟩

/-- All executions of this training step end, whatever the library does early, and then worker 0 holds the gradients of
the weight of the convolution and of its block of the weight of the linear layer, and no gradients of other layers. -/
example (early : GState (BSt ℚ) (NMsg ℚ) → Nat → Nat → Prop) :
    ∃ n g, Exec [0, 1, 2, 3] (trainProg exP0 exTNet fun _ z => z) early n (GState.init fun w => ⟨exTS w, [], []⟩) g ∧
      ∃ g1 g2 g3 g4 g5 g6, (g.ws 0).st.grads = [g1, g2, g3, g4, g5, g6] ∧ g2 0 = none ∧ g5 1 = none ∧
        (∃ z, g1 0 = some z ∧ z.shape = [2, 1, 3, 3]) ∧ ∃ z, g6 0 = some z ∧ z.shape = [2, 9] := by
  obtain ⟨n, g, -, he, hf⟩ := (C72_terminates (early := early) (by decide) exP0_wf rfl (by decide) exTNet_fits exTS_holds
    exTSeed).2 0 _ (.refl _)
  obtain ⟨grs, hg, hr⟩ := C72_result exP0_wf rfl (by decide) exTNet_fits exTS_holds exTSeed
  obtain ⟨-, h2, -⟩ := hr early n g he 0 (by decide) (hf 0 (by decide))
  obtain ⟨g1, _, rfl, ⟨⟨z1, q1, q2, -⟩, -⟩, g2, _, rfl, c2, g3, _, rfl, c3, g4, _, rfl, c4, g5, _, rfl, c5, g6, _, rfl,
    ⟨c6, -⟩, rfl⟩ := hg
  obtain ⟨z6, r1, r2, -⟩ := c6 0 (by simp [exTA])
  refine ⟨n, g, he, _, _, _, _, _, _, h2, c2 0 0, c5 0 1, ⟨z1, q1, q2⟩, z6, r1, r2.trans ?_⟩
  simp [exTA, Cart.coord, getCoords]
  decide

/-! ## Convolutions over channels -/

/-- A convolution over channels and features, squares, a change of partition, a convolution over channels. -/
def exTNetC : List (TLayer ℚ Nat) :=
  [.gen 7 8 9 7 7 exG (fun v => ⟨[1, 1, 3], .float32, fun l => ((v / 2 + l.getD 0 0 + l.getD 2 0 : Nat) : ℚ)⟩)
      (fun v => ⟨[1], .float32, fun l => ((v / 2 + l.getD 0 0 : Nat) : ℚ)⟩) true exB
      (fun l => ((l.getD 0 0 + l.getD 2 0 : Nat) : ℚ)) (fun l => ((l.getD 0 0 : Nat) : ℚ)),
    .map (fun x => x * x) fun x => 2 * x,
    .rep 7 exP2 true exB,
    .chan 7 7 exH
      (fun v => ⟨[3, 1, 2], .float32, fun l => ((l.getD 0 0 + ((if v = 2 then 0 else 1) + l.getD 1 0) : Nat) : ℚ)⟩)
      (fun _ => ⟨[3], .float32, fun l => ((l.getD 0 0 : Nat) : ℚ)⟩) true
      (fun l => ((l.getD 0 0 + l.getD 1 0 : Nat) : ℚ)) (fun l => ((l.getD 0 0 : Nat) : ℚ))]

theorem exTNetC_fits : TNetFits [0, 1, 2, 3] exG.Px exL1 exTNetC exH.Py (Layout.balanced [1, 1, 1] [2, 3, 5]) := by
  refine .cons (.gen (nd := 1) (pk := [3]) (ps := [1]) (pp := [1]) (pd := [1]) (Po := 2) (Pi := 1) (Sp := [2]) (B := 2)
    (N := [6]) _ _ _ _ _ _ _ _ _ _ _ _ rfl exG_valid rfl rfl (by decide) (by decide) ?_ ?_ (by decide) (by decide)
    (by decide)) ?_
  · intro _ j hj
    have hj : j < 3 := hj
    interval_cases j
    · exact reach_single (n := 2) (by decide) (by decide) (by decide)
    · exact reach_single (n := 1) (by decide) (by decide) (by decide)
    · exact reach_unit_stride (P := 2) (n := 6) (k := 3) (p := 1) (d := 1) (by decide) (by decide) (by decide)
        (by decide) (by decide) (by decide)
  · refine ⟨fun v hv hz => ?_, fun v hv hz => ?_⟩ <;>
      (have : v = 0 ∨ v = 1 ∨ v = 2 ∨ v = 3 := by simpa [exG] using hv
       rcases this with rfl | rfl | rfl | rfl)
    all_goals first
      | (intro k hk c hc κ hκ
         simp [exG, Cart.coord, getCoords, startIdx])
      | (intro k hk
         simp [exG, Cart.coord, getCoords, startIdx])
  refine .cons (.map _ _) ?_
  have e : Layout.global (Layout.balanced exG.Py.shape (torchConvShape exG.W exG.Co exL1.global)) = [2, 2, 6] := by decide
  refine .cons (.rep _ _ _ _ ⟨by decide, by decide, by decide⟩ rfl (by decide) ?_ (by decide)) ?_
  · rw [e]
    intro d hd
    match d, hd with
    | 0, hd | 1, hd | 2, hd => simp at hd
    | _ + 3, hd => simp at hd
  change TNetFits _ exH.Px (Layout.balanced exP2.shape (Layout.global (Layout.balanced exG.Py.shape
    (torchConvShape exG.W exG.Co exL1.global)))) _ _ _
  rw [e]
  refine .cons (.chan (Po := 1) (Pi := 2) (Sp := [1]) (B := 2) (N := [6]) _ _ _ _ _ _ _ _ exH_valid (by decide) rfl rfl rfl
    (by decide) ?_ (by decide) (by decide) (by decide)) .nil
  refine ⟨fun v hv => ?_, fun v hv _ => ?_⟩ <;>
    (have : v = 2 ∨ v = 0 := by simpa [exH] using hv
     rcases this with rfl | rfl)
  all_goals first
    | (intro k hk c hc κ hκ
       simp [exH, exP2, Cart.coord, getCoords, startIdx])
    | (intro k hk
       simp [exH, exP2, Cart.coord, getCoords, startIdx])

/-- The input of worker `w`: `X[b, c, i] = i`, cut over `exG.Px`. -/
def exTS1 (w : Nat) : NSt ℚ :=
  ⟨⟨exL1.shapeAt (exG.Px.coord w), .float32, fun l => ((shiftBy (exL1.startAt (exG.Px.coord w)) l).getD 2 0 : ℚ)⟩,
    false, false, fun _ => noInfo, noInfo, ⟨fun _ => 0, fun _ => 0⟩, fun _ => (⟨[], .float32, fun _ => 0⟩, false)⟩

theorem exTS1_holds : Holds [0, 1, 2, 3] exG.Px exL1 .float32 (fun i => (i.getD 2 0 : ℚ)) exTS1 :=
  ⟨fun _ _ => rfl, fun w _ => shapeAt_ne_nil (by decide) (by decide) w, ⟨false, fun _ _ => rfl⟩, fun _ _ _ _ => rfl⟩

theorem exTSeed1 : SeedsGrad [0, 1, 2, 3] exH.Py (Layout.balanced [1, 1, 1] [2, 3, 5]) .float32
    (tseqNet exTNetC (exL1.global, fun i => (i.getD 2 0 : ℚ))).2
    (tseqNet exTNetC (exL1.global, fun i => (i.getD 2 0 : ℚ))).2 fun _ z => z :=
  ⟨fun _ _ _ h => h, fun _ _ _ _ h2 h3 => ⟨rfl, h2, h3⟩⟩

/-- All executions of this training step end, and then worker 2 holds the gradient of its part of the weight of the
first convolution, i.e. of the second output channel, while worker 3, which only receives this weight, holds a gradient
without entries.  For the second convolution worker 0 holds the gradient of the second input channel. -/
example (early : GState (BSt ℚ) (NMsg ℚ) → Nat → Nat → Prop) :
    ∃ n g, Exec [0, 1, 2, 3] (trainProg exG.Px exTNetC fun _ z => z) early n (GState.init fun w => ⟨exTS1 w, [], []⟩) g ∧
      ∃ gr : Nat → List (Nat → Option (Tensor ℚ)), (∀ w ∈ [0, 1, 2, 3], (g.ws w).st.grads = gr w) ∧
        (∃ z, ((gr 2).getD 0 fun _ => none) 0 = some z ∧ z.val [0, 0, 1] =
          torchConvGradW exG.W 1 1 2 [2, 1, 6] (fun i => (i.getD 2 0 : ℚ))
            (tadjNet (exTNetC.drop 1) (tseqNet (exTNetC.take 1) ([2, 1, 6], fun i => (i.getD 2 0 : ℚ)))
              (tseqNet exTNetC ([2, 1, 6], fun i => (i.getD 2 0 : ℚ))).2) [1, 0, 1]) ∧
        (∃ z, ((gr 0).getD 3 fun _ => none) 0 = some z ∧ z.val [2, 0, 1] =
          torchConvGradW exH.W 1 2 3 [2, 2, 6] (tseqNet (exTNetC.take 3) ([2, 1, 6], fun i => (i.getD 2 0 : ℚ))).2
            (tseqNet exTNetC ([2, 1, 6], fun i => (i.getD 2 0 : ℚ))).2 [2, 1, 1]) ∧
        ∀ z, ((gr 3).getD 0 fun _ => none) 0 = some z → z.shape.prod = 0 := by
  obtain ⟨n, g, -, he, hf⟩ := (C72_terminates (early := early) (by decide) exG_wf rfl (by decide) exTNetC_fits exTS1_holds
    exTSeed1).2 0 _ (.refl _)
  obtain ⟨grs, hg, hr⟩ := C72_result exG_wf rfl (by decide) exTNetC_fits exTS1_holds exTSeed1
  obtain ⟨g1, _, rfl, ⟨p1, -, p3⟩, g2, _, rfl, c2, g3, _, rfl, c3, g4, _, rfl, ⟨q1, -⟩, rfl⟩ := hg
  refine ⟨n, g, he, fun w => [g1 w, g2 w, g3 w, g4 w], fun w hw => ((hr early n g he w hw (hf w hw)).2.1), ?_, ?_,
    fun z hz => ?_⟩
  · obtain ⟨z, a, -, b⟩ := p1 2 (by decide) (by decide)
    exact ⟨z, a, b 0 (by decide) 0 (by decide) [1] (by decide)⟩
  · obtain ⟨z, a, -, b⟩ := q1 0 (by decide)
    exact ⟨z, a, b 2 (by decide) 0 (by decide) [1] (by decide)⟩
  · obtain ⟨-, ⟨-, h | h⟩ | ⟨h, -⟩⟩ := p3 3 0 z hz
    · exact absurd (h 1 (by decide)) (by decide)
    · exact h
    · cases h

end Verif.Net
