import Verif.Net.Decoder
import Verif.Net.TrainProps
import Verif.Grad.UpLimits

/-!
# C80: training steps of networks with interpolation
-/

namespace Verif.Net

section
variable {F β : Type} [Field F] [LinearOrder F] [FloorRing F] [IsStrictOrderedRing F]
variable {W : List Nat} {P P' : Cart} {L L' : Layout} {ls : List (XLayer F β)} {t : TorchDtype} {X Y : List Nat → F}
  {S : Nat → NSt F} {seed : Nat → Tensor F → Tensor F} {early : GState (BSt F) (NMsg F) → Nat → Nat → Prop} {n : Nat}
  {g : GState (BSt F) (NMsg F)}

/-- Interpolation may follow if the sizes are as `UpSizes` says. -/
theorem XFits.sizes {gx gy : List Nat} {size : Option (List Nat)} {p : InterpParams F} (c : Nat) (B : Bufs β)
    (h : UpSizes P size p gx gy) (hl : gx.length = P.shape.length) :
    XFits W t P (Layout.balanced P.shape gx) (.up c size p B gy) (Layout.balanced P.shape gy) :=
  .up c B h.case h.outputs (C50_fits h.case hl h.blocks) hl

/-- C80, results: whatever the interleaving, a worker that has performed the forward and the backward pass has seen no
exception, holds its part of the gradient of the input if it belongs to the first partition, and the gradients of its
parameters are what the sequential network says. -/
theorem C80_result (ht : t = .float32 ∨ t = .float64) (hP : P.WF) (hL : L.pshape = P.shape) (hW : ∀ w ∈ P.members, w ∈ W)
    (hn : XNetFits W t P L ls P' L') (hS : Holds W P L t X S)
    (hseed : SeedsGrad W P' L' t (xseqNet ls (L.global, X)).2 Y seed) :
    ∃ grs, XNetGrads P ls (L.global, X) Y grs ∧
    ∀ early n g, Exec W (xtrainProg P ls seed) early n (GState.init fun w => ⟨S w, [], []⟩) g →
    ∀ w ∈ W, (g.ws w).phase = (xtrainProg P ls seed).length →
      (g.ws w).st.s.err = false ∧ ((g.ws w).st.grads = grs.map fun gr => gr w) ∧
      (w ∈ P.members → (g.ws w).st.s.t.shape = L.shapeAt (P.coord w) ∧ (g.ws w).st.s.t.dtype = t ∧
        ∀ l, InBounds l (L.shapeAt (P.coord w)) →
          (g.ws w).st.s.t.val l = xadjNet ls (L.global, X) Y (shiftBy (L.startAt (P.coord w)) l)) := by
  obtain ⟨ok, hH, grs, hg, he⟩ := hn.train (seed := seed) (Y := Y) ht ⟨hP, hL, hW, rfl⟩ hS fun Z hZ => hseed.holdsG hZ
  refine ⟨grs, hg, fun early n g hx w hw hp => ?_⟩
  rw [result ok hx hw hp]
  exact ⟨hH.calm w hw, he w, fun hm => ⟨(hH.parts w hm).1, (hH.parts w hm).2, hH.data w hm⟩⟩

/-- C80, output: the forward pass alone leaves every worker of the last partition with its part of the sequential result. -/
theorem C80_forward (ht : t = .float32 ∨ t = .float64) (hP : P.WF) (hL : L.pshape = P.shape) (hW : ∀ w ∈ P.members, w ∈ W)
    (hn : XNetFits W t P L ls P' L') (hS : Holds W P L t X S) {early : GState (NSt F) (NMsg F) → Nat → Nat → Prop}
    {g : GState (NSt F) (NMsg F)} (he : Exec W (xnetCuts P ls).flatten early n (GState.init S) g) {w : Nat} (hw : w ∈ W)
    (hp : (g.ws w).phase = (xnetCuts P ls).flatten.length) :
    (g.ws w).st.err = false ∧ (w ∈ P'.members → (g.ws w).st.t.shape = L'.shapeAt (P'.coord w) ∧ (g.ws w).st.t.dtype = t ∧
      ∀ l, InBounds l (L'.shapeAt (P'.coord w)) →
        (g.ws w).st.t.val l = (xseqNet ls (L.global, X)).2 (shiftBy (L'.startAt (P'.coord w)) l)) := by
  obtain ⟨ok, hH⟩ := (hn.forward (X := X) ht ⟨hP, hL, hW, rfl⟩).2 S hS
  rw [result ok he hw hp]
  obtain ⟨rg, hrg⟩ := hH.parts
  exact ⟨hH.calm w hw, fun hm => ⟨congrArg Prod.fst (hrg w hm), congrArg (·.2.1) (hrg w hm), hH.data w hm⟩⟩

/-- C80, progress: as long as a worker has not performed both passes some worker can go on. -/
theorem C80_progress (ht : t = .float32 ∨ t = .float64) (hP : P.WF) (hL : L.pshape = P.shape)
    (hW : ∀ w ∈ P.members, w ∈ W) (hn : XNetFits W t P L ls P' L')
    (hS : Holds W P L t X S) (hseed : SeedsGrad W P' L' t (xseqNet ls (L.global, X)).2 Y seed)
    (he : Exec W (xtrainProg P ls seed) early n (GState.init fun w => ⟨S w, [], []⟩) g)
    (hw : ∃ w ∈ W, (g.ws w).phase < (xtrainProg P ls seed).length) : ∃ g', Step W (xtrainProg P ls seed) early g g' :=
  no_deadlock (hn.train (seed := seed) (Y := Y) ht ⟨hP, hL, hW, rfl⟩ hS fun _ hZ => hseed.holdsG hZ).1 he hw

/-- C80, termination: there is a bound on the number of steps of all executions, and every execution can be continued
until all workers have performed both passes. -/
theorem C80_terminates (ht : t = .float32 ∨ t = .float64) (hW' : W.Nodup) (hP : P.WF) (hL : L.pshape = P.shape)
    (hW : ∀ w ∈ P.members, w ∈ W) (hn : XNetFits W t P L ls P' L') (hS : Holds W P L t X S)
    (hseed : SeedsGrad W P' L' t (xseqNet ls (L.global, X)).2 Y seed) :
    (∃ N, ∀ n g, Exec W (xtrainProg P ls seed) early n (GState.init fun w => ⟨S w, [], []⟩) g → n ≤ N) ∧
    ∀ n g, Exec W (xtrainProg P ls seed) early n (GState.init fun w => ⟨S w, [], []⟩) g →
      ∃ n' g', n ≤ n' ∧ Exec W (xtrainProg P ls seed) early n' (GState.init fun w => ⟨S w, [], []⟩) g' ∧
        ∀ w ∈ W, (g'.ws w).phase = (xtrainProg P ls seed).length := by
  have ok := (hn.train (seed := seed) (Y := Y) ht ⟨hP, hL, hW, rfl⟩ hS fun _ hZ => hseed.holdsG hZ).1
  exact ⟨⟨_, fun n g he => bounded ok hW' he⟩, fun n g he => completes ok hW' he⟩

end

/-! ## A worked case -/

/-- 3 x 3 convolutions of three channels into three and into one. -/
def exUC (Co : Nat) : ConvLayer ℚ :=
  ⟨⟨[3, 3], [1, 1], [1, 1], [1, 1]⟩, 1, 3, Co, ⟨[Co, 3, 3, 3], .float32, fun l => (l.sum : ℚ)⟩, none⟩

/-- Convolution, square, bilinear interpolation from 8 x 7 to 16 x 11, convolution: the decoder of a segmentation
network. -/
def exUNet : List (XLayer ℚ Nat) :=
  [.base (.conv 7 8 9 (exUC 3) true exB), .base (.map (fun x => x * x) fun x => 2 * x),
    .up 7 (some [2, 3, 16, 11]) halfLin exB [2, 3, 16, 11], .base (.conv 7 8 9 (exUC 1) true exB)]

/-- The evenly cut tensor of shape [2, 3, 8, 7]. -/
def exUL : Layout := Layout.balanced squareP.shape [2, 3, 8, 7]

theorem exUC_fits (Co m n : Nat) (hCo : 0 < Co) (ho : torchOut (exUC Co).W [m, n] = [m, n]) (hm : 4 ≤ m) (hn : 4 ≤ n) :
    TFits [0, 1, 2, 3] squareP (Layout.balanced squareP.shape [2, 3, m, n]) (.conv 7 8 9 (exUC Co) true exB : TLayer ℚ Nat)
      (Layout.balanced squareP.shape [2, Co, m, n]) := by
  have hg : (Layout.balanced squareP.shape [2, 3, m, n]).global = [2, 3, m, n] :=
    Layout.balanced_global rfl (by decide)
  have := TFits.conv (W := [0, 1, 2, 3]) (P := squareP) (L := Layout.balanced squareP.shape [2, 3, m, n]) (nd := 2)
    (pk := [3]) (ps := [1]) (pp := [1]) (pd := [1]) 7 8 9 (exUC Co) true exB rfl rfl rfl ⟨_, rfl⟩
    ⟨Nat.one_pos, one_dvd _, one_dvd _⟩ ⟨Nat.succ_pos 2, hCo⟩ (by rw [hg]; rfl) (fun h => by simp [squareP] at h) ?_
  · rw [hg] at this
    have e : torchConvShape (exUC Co).W (exUC Co).Co [2, 3, m, n] = [2, Co, m, n] :=
      congrArg (fun l => 2 :: Co :: l) ho
    rwa [e] at this
  · intro _ j hj
    have hj : j < 4 := hj
    interval_cases j
    · exact reach_single (k := 1) (s := 1) (p := 0) (d := 1) (n := 2) (by decide) (by decide) (by decide)
    · exact reach_single (k := 1) (s := 1) (p := 0) (d := 1) (n := 3) (by decide) (by decide) (by decide)
    · exact reach_unit_stride (P := 2) (n := m) (k := 3) (p := 1) (d := 1) (by decide) (by decide) (by decide)
        (by omega) (by omega) (by omega)
    · exact reach_unit_stride (P := 2) (n := n) (k := 3) (p := 1) (d := 1) (by decide) (by decide) (by decide)
        (by omega) (by omega) (by omega)

theorem exUNet_fits : XNetFits [0, 1, 2, 3] .float32 squareP exUL exUNet squareP (Layout.balanced squareP.shape [2, 1, 16, 11]) := by
  exact .cons (.base (exUC_fits 3 8 7 (by decide) (by decide) (by decide) (by decide))) (.cons (.base (.map _ _))
    (.cons (.sizes 7 exB square_sizes rfl) (.cons (.base (exUC_fits 1 16 11 (by decide) (by decide) (by decide) (by decide))) .nil)))

/-- The input of worker `w`: `X[b, c, i, j] = j - i`, cut over `squareP`. -/
def exUS (w : Nat) : NSt ℚ :=
  ⟨⟨exUL.shapeAt (squareP.coord w), .float32, fun l =>
    ((shiftBy (exUL.startAt (squareP.coord w)) l).getD 3 0 : ℚ) - ((shiftBy (exUL.startAt (squareP.coord w)) l).getD 2 0 : ℚ)⟩,
    false, false, fun _ => noInfo, noInfo, ⟨fun _ => 0, fun _ => 0⟩, fun _ => (⟨[], .float32, fun _ => 0⟩, false)⟩

/-- The input. -/
def exUX : List Nat → ℚ := fun i => (i.getD 3 0 : ℚ) - (i.getD 2 0 : ℚ)

theorem exUS_holds : Holds [0, 1, 2, 3] squareP exUL .float32 exUX exUS :=
  ⟨fun _ _ => rfl, fun w _ => shapeAt_ne_nil (by decide) (by decide) w, ⟨false, fun _ _ => rfl⟩, fun _ _ _ _ => rfl⟩

/-- The gradient of half the sum of the squares of the output is the output. -/
theorem exUSeed : SeedsGrad [0, 1, 2, 3] squareP (Layout.balanced squareP.shape [2, 1, 16, 11]) .float32
    (xseqNet exUNet (exUL.global, exUX)).2 (xseqNet exUNet (exUL.global, exUX)).2 fun _ z => z :=
  ⟨fun _ _ _ h => h, fun _ _ _ _ h2 h3 => ⟨rfl, h2, h3⟩⟩

theorem squareP_wf : squareP.WF := ⟨by decide, by decide, by decide⟩

/-- All executions of this training step end, whatever the library does early.  Then worker 3 holds the corner of the
gradient of the input that begins in row 4 and column 4, and worker 0 the gradient of the weight of the first
convolution, which depends on the gradient through the interpolation. -/
example (early : GState (BSt ℚ) (NMsg ℚ) → Nat → Nat → Prop) :
    ∃ n g, Exec [0, 1, 2, 3] (xtrainProg squareP exUNet fun _ z => z) early n (GState.init fun w => ⟨exUS w, [], []⟩) g ∧
      (g.ws 3).st.s.t.val [1, 2, 3, 0] =
        xadjNet exUNet ([2, 3, 8, 7], exUX) (xseqNet exUNet ([2, 3, 8, 7], exUX)).2 [1, 2, 7, 4] ∧
      ∃ g1 g2 g3 g4, (g.ws 0).st.grads = [g1, g2, g3, g4] ∧ g3 0 = none ∧
        ∃ z, g1 0 = some z ∧ z.val [2, 0, 1, 1] = torchConvGradW (exUC 3).W 1 3 3 [2, 3, 8, 7] exUX
          (xadjNet (exUNet.drop 1) (xseqNet (exUNet.take 1) ([2, 3, 8, 7], exUX))
            (xseqNet exUNet ([2, 3, 8, 7], exUX)).2) [2, 0, 1, 1] := by
  obtain ⟨n, g, -, he, hf⟩ := (C80_terminates (early := early) (.inl rfl) (by decide) squareP_wf rfl (by decide) exUNet_fits
    exUS_holds exUSeed).2 0 _ (.refl _)
  obtain ⟨grs, hg, hr⟩ := C80_result (.inl rfl) squareP_wf rfl (by decide) exUNet_fits exUS_holds exUSeed
  have hglob : exUL.global = [2, 3, 8, 7] := by decide
  rw [hglob] at hg hr
  obtain ⟨-, h2, -⟩ := hr early n g he 0 (by decide) (hf 0 (by decide))
  obtain ⟨-, -, h3⟩ := hr early n g he 3 (by decide) (hf 3 (by decide))
  obtain ⟨g1, _, rfl, ⟨⟨z1, q1, q2, q3⟩, -⟩, g2, _, rfl, c2, g3, _, rfl, c3, g4, _, rfl, c4, rfl⟩ := hg
  refine ⟨n, g, he, (h3 (by decide)).2.2 [1, 2, 3, 0] (by decide), _, _, _, _, h2, c3 0 0, z1, q1, ?_⟩
  exact q3 2 0 [1, 1] (by decide) (by decide) (by decide)

end Verif.Net
