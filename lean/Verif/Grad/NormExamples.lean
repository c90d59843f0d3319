import Verif.Grad.NormProps

/-!
# C64: worked cases
-/

namespace Verif

/-- An output gradient for the call `exN6call`. -/
def exN6dY : Tensor ℚ := ⟨[4, 3], .float32, fun i => (i.getD 0 0 * i.getD 0 0 + i.getD 1 0 : Nat)⟩

def exN6dy (w : Nat) : Tensor ℚ :=
  ⟨Layout.shapeAt [[1, 3], [1, 1, 1]] (exN6.coord w), .float32,
    fun l => exN6dY.val (shiftBy (Layout.startAt [[1, 3], [1, 1, 1]] (exN6.coord w)) l)⟩

/-- The hypotheses of `C64_input`, `C64_beta` and `C64_gamma` together. -/
example : ∃ M : BatchNorm ℚ, newBatchNorm exN6 3 1 none true true 5 = some M ∧ M.affine = true ∧
    BNWith exN6 (channelBlocks exN6 M.numFeatures) M ∧
    (exN6call M).OK exN6 (channelBlocks exN6 M.numFeatures) M ∧
    Running exN6 (channelBlocks exN6 M.numFeatures) ⟨fun _ => (0 : ℚ), fun _ => 1, 0⟩ (initialStates exN6 3) ∧
    Blocks exN6 (exN6call M).L exN6dY exN6dy ∧ exN6dY.dtype = (exN6call M).X.dtype := by
  obtain ⟨M, hm, -⟩ := C59_inside_partial exN6_placed.wf (by decide) 3 (1 : ℚ) none true true
  have h5 := hm 5 (by decide)
  obtain ⟨a, b, -, -, d, -⟩ := newBatchNorm_with (bs := channelBlocks exN6 3) exN6_placed.wf exN6_placed.root h5
    (by decide)
  rw [← b] at a
  refine ⟨M, h5, d, a, ⟨rfl, ?_, ⟨rfl, fun _ _ => rfl, fun _ _ => rfl, fun _ _ _ _ => rfl⟩,
    ⟨true, fun _ _ => rfl⟩, fun _ => C48_initial a 1, fun _ => C48_initial a 0⟩, ?_,
    ⟨rfl, fun _ _ => rfl, fun _ _ => rfl, fun _ _ _ _ => rfl⟩, rfl⟩
  · rw [b]; show [1, 1, 1] = channelBlocks exN6 3; decide
  · rw [b]; exact C49_initial exN6_placed.wf (by decide) 3

/-- Gradient of the last row of channel 2, computed by worker 5, and by the sequential layer; `sqrt v` is replaced
by `v`. -/
example : ∃ M : BatchNorm ℚ, newBatchNorm exN6 3 1 none true true 5 = some M ∧
    (((exN6call M).gradX M id (initialStates exN6 3) exN6dy 5).map fun g => (g.shape, g.val [2, 0])) =
      some ([3, 1], (seqNormGrad id 1 true (fun _ => 1) true
        (channelMean (exN6call M).X, channelVar (exN6call M).X) (exN6call M).X exN6dY).val [3, 2]) ∧
    (seqNormGrad id 1 true (fun _ => 1) true
        (channelMean (exN6call M).X, channelVar (exN6call M).X) (exN6call M).X exN6dY).val [3, 2] ≠ 0 :=
  ⟨_, rfl, by decide +kernel, by decide +kernel⟩

/-- Gradients of scale and shift of channel 2: worker 0 stores it, worker 5 has no entries. -/
example : ∃ M : BatchNorm ℚ, newBatchNorm exN6 3 1 none true true 5 = some M ∧
    (((exN6call M).gradBeta M exN6dy 0).map fun g => (g.shape, g.val [0, 0])) = some ([1, 1], 22) ∧
    (((exN6call M).gradGamma M id (initialStates exN6 3) exN6dy 0).map fun g => (g.shape, g.val [0, 0])) =
      some ([1, 1], channelSum (timesT exN6dY (seqHat id 1
        (channelMean (exN6call M).X, channelVar (exN6call M).X) (exN6call M).X)) 2) ∧
    (((exN6call M).gradBeta M exN6dy 5).map fun g => g.shape.prod) = some 0 :=
  ⟨_, rfl, by decide +kernel, by decide +kernel, by decide +kernel⟩

/-- The hypotheses of `C64_terminates`. -/
example : ∃ M : BatchNorm ℚ, BNMade exN6 [[1, 3], [1, 1, 1]] M ∧
    ∀ v ∈ exN6.members, (exN6dy v).shape ≠ [] := by
  obtain ⟨M, hm, -⟩ := C59_inside_partial exN6_placed.wf (by decide) 3 (1 : ℚ) none true true
  obtain ⟨a, b, -, -, d, -⟩ := newBatchNorm_with (bs := channelBlocks exN6 3) exN6_placed.wf exN6_placed.root
    (hm 5 (by decide)) (by decide)
  exact ⟨M, a.made (by decide), by decide⟩

end Verif
