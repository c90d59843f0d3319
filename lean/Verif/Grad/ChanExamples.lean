import Verif.Grad.ChanParam
import Verif.Conv.Examples

/-!
# Worked cases for C62 and C63
-/

namespace Verif
open Exchange

/-- The blocks of the output gradient `G` for the channel-distributed convolution `exCh`. -/
def exChY (G : List Nat → Int) : Nat → Tensor Int := fun w =>
  ⟨if w = 0 then [2, 2, 5] else if w = 6 then [2, 1, 5] else [2, 0], .float64, fun l =>
    G (shiftBy ((Layout.balanced [1, 2, 1] [2, 3, 5]).startAt (exCh.Py.coord w)) l)⟩

theorem exChY_blocks (G : List Nat → Int) : EvenBlocks exCh.Py [2, 3, 5] .float64 G (exChY G) := by
  refine ⟨fun w hw => ?_, fun _ _ => rfl, fun _ _ _ _ => rfl⟩
  have : w = 0 ∨ w = 6 := by simpa [exCh] using hw
  rcases this with rfl | rfl <;> rfl

theorem exChI_batch (u : Nat) (_ : exCh.Active u) : (exChI.x u).shape ≠ [] := by
  simp only [exChI]
  split
  · simp
  · split <;> simp

theorem exChY_batch (G : List Nat → Int) (u : Nat) (_ : exCh.Active u) : (exChY G u).shape ≠ [] := by
  simp only [exChY]
  split
  · simp
  · split <;> simp

/-- The hypotheses of `C62_channel` hold: worker 5 gets the gradient of the last two of five input channels. -/
example (G : List Nat → Int) : ∃ t,
    channelGradX exCh (exChWt exCh) (exChBs exCh) exChI (fun _ => true) (exChY G) 5 = some t ∧ t.shape = [2, 2, 4] ∧
    t.val [1, 1, 3] = torchConvGradX exCh.W 1 5 3 exChW [2, 5, 4] G [1, 4, 3] := by
  obtain ⟨⟨dx, h1, h2⟩, -⟩ := C62_channel (B := 2) (N := [4]) (Wt := exChW) (β := exChB) (rg := fun _ => true)
    exCh_valid (by decide) rfl rfl rfl (by decide) (I := exChI) (dt := .float64) (X := exChX)
    ⟨by decide, fun _ _ => rfl, fun _ _ _ _ => rfl⟩
    (wt := exChWt exCh) (b := exChBs exCh) ⟨fun _ _ _ _ _ _ _ _ => rfl, fun _ _ _ _ _ => rfl⟩ exChI_batch
    (exChY_blocks G) (exChY_batch G) (by decide)
  exact ⟨dx 5, h1 5 (by decide), (h2.shape 5 (by decide)).trans (by decide), h2.val 5 (by decide) [1, 1, 3] (by decide)⟩

/-- The hypotheses of `C63_channel` hold: worker 2 stores the last output channel for the first three input channels,
and its bias; worker 3 stores no bias. -/
example (G : List Nat → Int) :
    (∃ gw f, channelGradP exCh (exChWt exCh) (exChBs exCh) exChI (fun _ => true) (exChY G) 2 = some (gw, some f) ∧
      gw [0, 2, 1] = torchConvGradW exCh.W 1 5 3 [2, 5, 4] exChX G [2, 2, 1] ∧
      f [0] = torchConvGradB exCh.W 3 [2, 5, 4] G [2]) ∧
    ∃ gw, channelGradP exCh (exChWt exCh) (exChBs exCh) exChI (fun _ => true) (exChY G) 3 = some (gw, none) ∧
      gw [0, 1, 1] = torchConvGradW exCh.W 1 5 3 [2, 5, 4] exChX G [2, 4, 1] := by
  have key := fun {w : Nat} (hw : w ∈ exCh.Pw.members) =>
    C63_channel (B := 2) (N := [4]) (rg := fun _ => true) (wt := exChWt exCh) (b := exChBs exCh)
      exCh_valid (by decide) rfl rfl rfl (by decide) (I := exChI) (dt := .float64) (X := exChX)
      ⟨by decide, fun _ _ => rfl, fun _ _ _ _ => rfl⟩ exChI_batch (exChY_blocks G) (exChY_batch G) (by decide) hw
  constructor
  · obtain ⟨gw, gb, e, k1, -, k2⟩ := key (w := 2) (by decide)
    obtain ⟨f, rfl, hf⟩ := k2 rfl (by decide)
    exact ⟨gw, f, e, k1 0 (by decide) 2 (by decide) [1] (by decide), hf 0 (by decide)⟩
  · obtain ⟨gw, gb, e, k1, k2, -⟩ := key (w := 3) (by decide)
    rw [k2 (by decide)] at e
    exact ⟨gw, e, k1 0 (by decide) 1 (by decide) [1] (by decide)⟩

/-- The blocks of the output gradient `G` for the general convolution `exGe`. -/
def exGeY (G : List Nat → Int) : Nat → Tensor Int := fun w =>
  ⟨(Layout.balanced [1, 2, 2] [2, 3, 4]).shapeAt (exGe.Py.coord w), .float32, fun l =>
    G (shiftBy ((Layout.balanced [1, 2, 2] [2, 3, 4]).startAt (exGe.Py.coord w)) l)⟩

theorem exGe_batch (u : Nat) (hu : exGe.Active u) : (exGeS u).1 ≠ [] := by
  have : u < 10 := by
    rcases hu with hu | hu | hu <;> revert u <;> decide
  interval_cases u <;> decide

theorem exGeY_batch (G : List Nat → Int) (u : Nat) (hu : exGe.Active u) : (exGeY G u).shape ≠ [] := by
  have : u < 10 := by
    rcases hu with hu | hu | hu <;> revert u <;> decide
  show (Layout.balanced [1, 2, 2] [2, 3, 4]).shapeAt (exGe.Py.coord u) ≠ []
  interval_cases u <;> decide

def exGeW (v : Nat) : Tensor Int := ⟨[2, 2, 3], .float32, exChWt exGe v⟩
def exGeB (v : Nat) : Tensor Int := ⟨[2], .float32, exChBs exGe v⟩

/-- Forward pass, backward pass and adjoint exchange run to the end; then worker 7 of `P_x`, and workers 4 and 6 of
`P_w`, have their parts of the sequential gradients, worker 5 of `P_w` a tensor without entries. -/
example (G : List Nat → Int) : ∃ k U S g gl k' g',
    GeneralRun exGe exGe.Px exGeS exGeX (.inst .float64) (fun _ => (0 : Nat)) (fun _ => []) false k U S g ∧
    (∀ r, r < 4 → (generalExchanged exGe exGeW exGeB true exGeS exGeX U g (fun _ => true) (fun _ => true) (exGeY G) r).map
      Tensor.val = some (gl r)) ∧
    WinBack exGe.Px exGeS U S gl true k' g' ∧
    (∃ t, generalGradX exGe exGeW exGeB true exGeS exGeX U g (fun _ => true) (fun _ => true) (exGeY G) g' 7 = some t ∧
      t.shape = [2, 2, 2] ∧ t.val [1, 1, 1] = torchConvGradX exGe.W 1 5 3 exChW [2, 5, 4] G [1, 4, 3]) ∧
    (∃ z, generalGradW exGe exGeW exGeB true exGeS exGeX U g (fun _ => true) (fun _ => true) (exGeY G) 6 = some z ∧
      z.val [0, 1, 2] = torchConvGradW exGe.W 1 5 3 [2, 5, 4] exChX G [2, 4, 2]) ∧
    (∃ z, generalGradW exGe exGeW exGeB true exGeS exGeX U g (fun _ => true) (fun _ => true) (exGeY G) 5 = some z ∧
      z.shape.prod = 0) ∧
    ∃ z, generalGradB exGe exGeW exGeB true exGeS exGeX U g (fun _ => true) (fun _ => true) (exGeY G) 4 = some z ∧
      z.val [0] = torchConvGradB exGe.W 3 [2, 5, 4] G [2] := by
  obtain ⟨⟨U, S, R⟩, hc⟩ := C44_exchange exGe_input (.inst .float64) (fun _ => (0 : Nat)) (fun _ => []) false
  obtain ⟨k, g, R', -, hf⟩ := hc _ _ _ _ R
  have hW : winParams 1 [3] [1] [1] [1] = some exGe.W := by decide
  have hp : StoredParams exGe 2 2 exGeW exGeB exChW exChB :=
    ⟨fun _ _ _ _ _ _ _ _ _ => rfl, fun _ _ _ _ _ => rfl⟩
  have hy : EvenBlocks exGe.Py (torchConvShape exGe.W exGe.Co [2, 5, 4]) .float32 G (exGeY G) :=
    ⟨fun _ _ => rfl, fun _ _ => rfl, fun _ _ _ _ => rfl⟩
  have ex : ∀ r, r < 4 → ∃ f, (generalExchanged exGe exGeW exGeB true exGeS exGeX U g (fun _ => true) (fun _ => true)
      (exGeY G) r).map Tensor.val = some f := by
    intro r hr
    obtain ⟨a, e, -⟩ := C62_general_exchanged (B := 2) (N := [4]) (rgp := true) (rgx := fun _ => true)
      (rg := fun _ => true) hW exGe_valid rfl rfl exGe_input (by decide) exGe_limits R' hf hp exGe_batch hy
      (exGeY_batch G) (r := r) hr
    exact ⟨a.val, by rw [e]; rfl⟩
  choose! gl hgl using ex
  obtain ⟨k', g', K, -, hf'⟩ := (C62_general_terminates (eager' := true) (B := 2) (N := [4]) (rgp := true)
    (rgx := fun _ => true) (rg := fun _ => true) hW exGe_valid rfl rfl exGe_input (by decide) exGe_limits R' hf hp
    exGe_batch hy (exGeY_batch G)).2 gl 0 _ (Exec.refl _)
  refine ⟨k, U, S, g, gl, k', g', R', hgl, K, ?_, ?_, ?_, ?_⟩
  · obtain ⟨t, h1, h2, -, h3⟩ := (C62_general (B := 2) (N := [4]) (rgp := true) (rgx := fun _ => true)
      (rg := fun _ => true) hW exGe_valid rfl rfl exGe_input (by decide) (by decide) (fun _ => exGe_limits)
      (fun _ => R') (fun _ => hf) hp exGe_batch hy (exGeY_batch G) (fun _ => hgl) (fun _ => K)
      (fun h => absurd h (by decide))).1 7 (by decide) (fun _ => hf' _ (by decide))
    exact ⟨t, h1, h2.trans (by decide), h3 [1, 1, 1] (by decide)⟩
  · obtain ⟨z, h1, -, -, h2⟩ := (C63_general_weight (B := 2) (N := [4]) (rgp := true) (rgx := fun _ => true)
      (rg := fun _ => true) hW exGe_valid rfl rfl exGe_input (by decide) (by decide) (fun _ => exGe_limits)
      (fun _ => R') (fun _ => hf) hp exGe_batch hy (exGeY_batch G) (fun h => absurd h (by decide))).1 6 (by decide)
      (by decide)
    exact ⟨z, h1, h2 0 (by decide) 1 (by decide) [2] (by decide)⟩
  · exact (C63_general_weight (B := 2) (N := [4]) (rgp := true) (rgx := fun _ => true)
      (rg := fun _ => true) hW exGe_valid rfl rfl exGe_input (by decide) (by decide) (fun _ => exGe_limits)
      (fun _ => R') (fun _ => hf) hp exGe_batch hy (exGeY_batch G) (fun h => absurd h (by decide))).2 5 (by decide)
      (by decide)
  · obtain ⟨z, h1, -, -, h2⟩ := (C63_general_bias (B := 2) (N := [4]) (rgp := true) (rgx := fun _ => true)
      (rg := fun _ => true) hW exGe_valid rfl rfl exGe_input (by decide) (by decide) (fun _ => exGe_limits)
      (fun _ => R') (fun _ => hf) hp exGe_batch hy (exGeY_batch G) rfl (fun h => absurd h (by decide))).1 4 (by decide)
      (by decide)
    exact ⟨z, h1, h2 0 (by decide)⟩

end Verif
