import Verif.Conv.Props

/-!
# Worked cases for C43, C44, C45
-/

namespace Verif
open Exchange

/-! ## C43 -/

/-- Five input channels over workers 4, 5; three output channels over workers 0, 6; weights over workers 0 to 3;
kernel size 2, padding 1. -/
def exCh : ChanConv :=
  ⟨⟨[4, 5], [1, 2, 1], some 0⟩, ⟨[0, 6], [1, 2, 1], some 0⟩, ⟨[0, 1, 2, 3], [2, 2, 1], some 0⟩,
    ⟨[2], [1], [1], [1]⟩, 1, 5, 3, true⟩

def exChX : List Nat → Int := fun l => l.getD 1 0 + 10 * l.getD 2 0
def exChW : List Nat → Int := fun l => 10 * l.getD 0 0 + l.getD 1 0 + l.getD 2 0
def exChB : List Nat → Int := fun l => 1000 * l.getD 0 0

/-- Two samples of five channels of four cells. -/
def exChI : Inputs Int :=
  ⟨fun w => ⟨if w = 4 then [2, 3, 4] else if w = 5 then [2, 2, 4] else [2, 0], .float64, fun l =>
    exChX (shiftBy ((Layout.balanced [1, 2, 1] [2, 5, 4]).startAt (exCh.Px.coord w)) l)⟩, fun _ => true⟩

/-- The parameters of worker `v`. -/
def exChWt (C : ChanConv) (v : Nat) (l : List Nat) : Int :=
  exChW ((startIdx 2 ((C.Pw.coord v).getD 0 0) C.Co + l.getD 0 0) ::
    (startIdx 2 ((C.Pw.coord v).getD 1 0) C.Ci + l.getD 1 0) :: l.drop 2)
def exChBs (C : ChanConv) (v : Nat) (l : List Nat) : Int :=
  exChB [startIdx 2 ((C.Pw.coord v).getD 0 0) C.Co + l.getD 0 0]

theorem exCh_valid : ChanValid exCh 2 2 [1] :=
  ⟨⟨by decide, by decide, by decide⟩, ⟨by decide, by decide, by decide⟩, ⟨by decide, by decide, by decide⟩,
    rfl, rfl, rfl, ⟨_, rfl, rfl, rfl⟩, by decide⟩

/-- The hypotheses of `C43_forward` hold. -/
example : ∃ out : Nat → Tensor Int,
    (∀ u ∈ exCh.Py.members, channelForward exCh (exChWt exCh) (exChBs exCh) exChI (fun _ => true) u = some (out u)) ∧
    EvenBlocks exCh.Py [2, 3, 5] .float64
      (torchConv exCh.W 1 5 3 exChW (fun c => exChB [c]) [2, 5, 4] exChX) out :=
  (C43_forward (B := 2) (N := [4]) (Wt := exChW) (β := exChB) exCh_valid (by decide) rfl rfl rfl (by decide)
    ⟨by decide, fun _ _ => rfl, fun _ _ _ _ => rfl⟩
    ⟨fun _ _ _ _ _ _ _ _ => rfl, fun _ _ _ _ _ => rfl⟩
    (fun u _ => by simp only [exChI]; split; · simp
                   · split <;> simp)
    (by decide)).1

/-- Output channel 2, first window of the second sample: only its second cell is inside. -/
example : (channelForward exCh (exChWt exCh) (exChBs exCh) exChI (fun _ => true) 6).map
    (fun t => (t.shape, t.val [1, 0, 0])) =
    some ([2, 1, 5], 2000 + (21 * 0 + 22 * 1 + 23 * 2 + 24 * 3 + 25 * 4)) := by rfl

/-! ## C44 -/

/-- The same channels with four cells over two workers; kernel size 3, padding 1, eight workers for the
weights. -/
def exGe : ChanConv :=
  ⟨⟨[4, 5, 6, 7], [1, 2, 2], some 0⟩, ⟨[0, 6, 8, 9], [1, 2, 2], some 0⟩, ⟨[0, 1, 2, 3, 4, 5, 6, 7], [2, 2, 2], some 0⟩,
    ⟨[3], [1], [1], [1]⟩, 1, 5, 3, true⟩

def exGeL : Layout := Layout.balanced [1, 2, 2] [2, 5, 4]
def exGeS : Nat → List Nat × TorchDtype × Bool := fun w => (exGeL.shapeAt ((exGe.Px.index w).getD [0, 0, 0]), .float32, true)
def exGeX : Nat → List Nat → Int := fun w l => exChX (shiftBy (exGeL.startAt ((exGe.Px.index w).getD [0, 0, 0])) l)

theorem exGe_valid : ChanValid exGe 2 2 [2] :=
  ⟨⟨by decide, by decide, by decide⟩, ⟨by decide, by decide, by decide⟩, ⟨by decide, by decide, by decide⟩,
    rfl, rfl, rfl, ⟨_, rfl, rfl, rfl⟩, by decide⟩

theorem exGe_input : WinInput exGe.Px exGe.W exGeL exGeS exGeX exChX .float32 true := by
  refine ⟨exGe_valid.wfx, by decide, by decide, fun w _ idx e => ?_, fun w _ idx e l _ => ?_⟩
  · simp only [exGeS, e, Option.getD_some]
  · simp only [exGeX, e, Option.getD_some]

theorem exGe_limits : WinLimits exGe.Px exGe.W exGeL := by
  intro j hj
  change j < 3 at hj
  interval_cases j
  · exact (reach_single (n := 2) (by decide) (by decide) (by decide) : AxisLimits 1 1 0 1 [2])
  · exact reach_unit_stride (P := 2) (n := 5) (k := 1) (p := 0) (d := 1) (by decide) (by decide) (by decide)
      (by decide) (by decide) (by decide)
  · exact reach_unit_stride (P := 2) (n := 4) (k := 3) (p := 1) (d := 1) (by decide) (by decide) (by decide)
      (by decide) (by decide) (by decide)

/-- The layer runs to the end of the halo exchange; then worker 9 gets its block. -/
example : ∃ k U S g y, GeneralRun exGe exGe.Px exGeS exGeX (.inst .float64) (fun _ => (0 : Nat)) (fun _ => []) false k U S g ∧
    generalForward exGe (fun v => ⟨[2, 2, 3], .float32, exChWt exGe v⟩) (fun v => ⟨[2], .float32, exChBs exGe v⟩) true
      exGeS exGeX U g (fun _ => true) (fun _ => true) 9 = some y ∧
    y.shape = [2, 1, 2] ∧ y.val [1, 0, 1] =
      torchConv exGe.W 1 5 3 exChW (fun c => exChB [c]) [2, 5, 4] exChX [1, 2, 3] := by
  obtain ⟨⟨U, S, R⟩, hc⟩ := C44_exchange exGe_input (.inst .float64) (fun _ => (0 : Nat)) (fun _ => []) false
  obtain ⟨k, g, R', -, hf⟩ := hc _ _ _ _ R
  obtain ⟨⟨out, h1, h2⟩, -⟩ := C44_forward (nd := 1) (B := 2) (N := [4]) (rgp := true) (rgx := fun _ => true)
    (rg := fun _ => true) (weight := fun v => ⟨[2, 2, 3], .float32, exChWt exGe v⟩)
    (bias := fun v => ⟨[2], .float32, exChBs exGe v⟩) (Wt := exChW) (β := exChB)
    (show winParams 1 [3] [1] [1] [1] = some exGe.W by decide) exGe_valid rfl rfl exGe_input (by decide)
    (by decide) (fun _ => exGe_limits) (fun _ => R') (fun _ => hf)
    ⟨fun _ _ _ _ _ _ _ _ _ => rfl, fun _ _ _ _ _ => rfl⟩ (by
      intro u hu
      have : u < 10 := by
        rcases hu with hu | hu | hu <;> revert u <;> decide
      interval_cases u <;> decide)
    (fun h => absurd h (by decide))
  refine ⟨k, U, S, g, out 9, R', h1 9 (by decide), (h2.shape 9 (by decide)).trans (by decide), ?_⟩
  rw [h2.val 9 (by decide) [1, 0, 1] (by decide)]
  rfl

/-! ## C45 -/

/-- The hypotheses of `C45_channels_rejected` hold for the tensor above. -/
example : ∃ k U S g, WinRun exGe.Px exGe.W 0 exGeS exGeX (.inst .float64) (fun _ => (0 : Nat)) (fun _ => []) false k U S g ∧
    featureForward exGe.Px ⟨exGe.W, 1, 5, 3, ⟨[3, 5, 3], .float32, exChW⟩, none⟩ true exGeS exGeX U g 0 = none := by
  obtain ⟨U, S, R⟩ := C39_starts exGe_input (0 : Int) (.inst .float64) (fun _ => (0 : Nat)) (fun _ => []) false
  obtain ⟨k, g, R', -, hf⟩ := C39_completes exGe_input R
  exact ⟨k, U, S, g, R', (C45_channels_rejected (nd := 1) ⟨exGe.W, 1, 5, 3, ⟨[3, 5, 3], .float32, exChW⟩, none⟩
    (show winParams 1 [3] [1] [1] [1] = some exGe.W by decide) rfl (by decide) exGe_input (by decide) exGe_limits R'
    (r := 0) (by decide) (hf 0 (by decide)) true).2⟩

end Verif
