import Verif.Interp.Kernel
import Mathlib.Data.Rat.Floor

/-!
# C51: the backward pass of interpolation is the adjoint of the forward pass

Specification: inner products of tensors, sums over all multi-indices of a shape.
-/

namespace Verif

section
variable {K : Type} [Field K] [LinearOrder K] [FloorRing K]

/-- **C51** Whenever the forward pass of `InterpolateFunction` succeeds on an input of shape
`x_stop - x_start`, the backward pass succeeds for every gradient of the shape and type of the output, gives a
tensor of the shape of the input, and is the adjoint: `⟨forward x, g⟩ = ⟨x, backward g⟩`.  For all modes, scale
factors, sizes, offsets, numbers of dimensions and tensors. -/
theorem C51 (p : InterpParams K) (xs xe : List Int) (gx ys ye gy : List Nat) (input y grad : Tensor K)
    (hx : List.zipWith (· - ·) xe xs = input.shape.map fun n : Nat => (n : Int))
    (hl : ye.length = input.shape.length) (hl' : ys.length = input.shape.length)
    (hf : interpForward p xs gx ys ye gy input = some y) (hg : grad.shape = y.shape)
    (ht : grad.dtype = y.dtype) :
    ∃ z, interpBackward p xs xe gx ys gy grad = some z ∧ z.shape = input.shape ∧ z.dtype = input.dtype ∧
      boxSum y.shape (fun l => y.val l * grad.val l) = boxSum input.shape fun l => input.val l * z.val l := by
  unfold interpForward at hf
  simp only [Option.ite_none_right_eq_some, Option.some.injEq, Bool.and_eq_true] at hf
  obtain ⟨⟨hacc, hdef⟩, rfl⟩ := hf
  dsimp only at hg ht
  have hlo : (List.zipWith (· - ·) ye ys).length = input.shape.length := by simp [hl, hl']
  have hi : (List.zipWith (· - ·) xe xs).map Int.toNat = input.shape := by
    rw [hx, List.map_map]
    exact List.map_id _
  have hall : (List.zipWith (· - ·) xe xs).all (fun n => decide (0 ≤ n)) = true := by
    rw [hx]
    simp only [List.all_map, List.all_eq_true]
    intro n _
    simp
  obtain ⟨hd1, hd2⟩ := kernelDefined_iff.1 hdef
  unfold interpBackward
  dsimp only
  rw [hi, hall, hg, ht, hacc, hdef]
  refine ⟨_, rfl, rfl, rfl, ?_⟩
  dsimp only
  have h3 : 3 ≤ input.shape.length := by
    unfold kernelAccepts at hacc
    simp only [Bool.decide_and, Bool.and_eq_true, decide_eq_true_eq] at hacc
    exact hacc.2.1
  have e1 : boxSum (List.zipWith (· - ·) ye ys) (fun l =>
      kernelForward (kernelEntries p (input.shape.getD 0 0 * input.shape.getD 1 0)
        (interpDims xs gx ys gy input.shape (List.zipWith (· - ·) ye ys)))
        (contiguous input.shape input.val) (fun _ => 0) (flatC (List.zipWith (· - ·) ye ys) l) * grad.val l) =
      boxSum (List.zipWith (· - ·) ye ys) (fun l =>
      kernelForward (kernelEntries p (input.shape.getD 0 0 * input.shape.getD 1 0)
        (interpDims xs gx ys gy input.shape (List.zipWith (· - ·) ye ys)))
        (contiguous input.shape input.val) (fun _ => 0) (flatC (List.zipWith (· - ·) ye ys) l) *
        contiguous (List.zipWith (· - ·) ye ys) grad.val (flatC (List.zipWith (· - ·) ye ys) l)) :=
    boxSum_congr fun l hlb => by rw [contiguous_flat _ hlb]
  have e2 : ∀ v : Nat → K, boxSum input.shape (fun l => input.val l * v (flatC input.shape l)) =
      boxSum input.shape (fun l => contiguous input.shape input.val (flatC input.shape l) *
        v (flatC input.shape l)) := fun v =>
    boxSum_congr fun l hlb => by rw [contiguous_flat _ hlb]
  rw [e1, e2, ← sum_flat (List.zipWith (· - ·) ye ys) fun k => kernelForward _ _ _ k * contiguous _ grad.val k,
    ← sum_flat input.shape fun k => contiguous _ input.val k * kernelAdjoint _ _ _ k]
  apply kernel_adjoint
  · exact kernelEntries_nodup ..
  · intro e he
    have := (hd2 e he).2.1
    omega
  · intro e he t ht
    have := (hd2 e he).2.2 t ht
    omega

end

/-- Two workers, 5 → 8 cells, mode linear without alignment: the second worker holds cells 2 to 4. -/
example : ∃ y, interpForward (K := ℚ) ⟨.linear, false, none⟩ [0, 0, 2] [1, 1, 5] [0, 0, 4] [1, 1, 8] [1, 1, 8]
    ⟨[1, 1, 3], .float32, fun l => l.getD 2 0 + 1⟩ = some y ∧ y.shape = [1, 1, 4] := by
  refine ⟨_, by unfold interpForward; exact if_pos (by decide +kernel), rfl⟩

end Verif
