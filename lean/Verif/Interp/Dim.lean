import Verif.Interp.Kernel
import Verif.Halo.Arith
import Mathlib.Tactic.Linarith
import Mathlib.Tactic.Positivity
import Mathlib.Tactic.FieldSimp

/-!
# Interpolation: one dimension

What a worker reads for one output, from the cells it selected, is what the sequential layer reads.
-/

namespace Verif

section
variable {K : Type} [Field K] [LinearOrder K] [FloorRing K]

/-! ## Specification

`torch.nn.Upsample`, after ATen (`UpSample.h`: `compute_scales_value`, `area_pixel_compute_scale`,
`area_pixel_compute_source_index`, `nearest_neighbor_compute_source_index`), in exact arithmetic.  ATen's
shortcuts of mode nearest for factors 1 and 2 give the same cells in exact arithmetic when the step is the
quotient of the lengths. -/

/-- Step in input cells. -/
def torchStep (p : InterpParams K) (gi go : Nat) : K :=
  if p.mode = .linear ∧ p.align = true then
    if 1 < go then ((gi : K) - 1) / ((go : K) - 1) else 0
  else match p.scale with
    | some s => 1 / s
    | none => (gi : K) / go

/-- Position of output `o` in the input. -/
def torchSource (p : InterpParams K) (gi go : Nat) (o : Nat) : K :=
  if p.mode = .nearest ∨ p.align = true then torchStep p gi go * o
  else max 0 (torchStep p gi go * ((o : K) + 1 / 2) - 1 / 2)

/-- Output `o` of the interpolation of the cells `x` in one dimension. -/
def torchInterp1 (p : InterpParams K) (gi go : Nat) (x : Nat → K) (o : Nat) : K :=
  let t := torchSource p gi go o
  let i := ⌊t⌋.toNat
  match p.mode with
  | .nearest => x (min i (gi - 1))
  | .linear => (1 - (t - i)) * x i + (t - i) * x (if i < gi - 1 then i + 1 else i)

/-- Interpolation in several dimensions, one after the other. -/
def torchInterpN (p : InterpParams K) : List Nat → List Nat → (List Nat → K) → List Nat → K
  | gi :: gis, go :: gos, x, o :: os =>
    torchInterp1 p gi go (fun i => torchInterpN p gis gos (fun l => x (i :: l)) os) o
  | _, _, x, _ => x []

/-- Interpolation of a tensor with batch and channel dimension. -/
def torchInterp (p : InterpParams K) (gx gy : List Nat) (x : List Nat → K) : List Nat → K
  | b :: c :: os => torchInterpN p (gx.drop 2) (gy.drop 2) (fun l => x (b :: c :: l)) os
  | _ => 0

/-- The weights of output `o` are not close to 0 and 1 without being there. -/
def Distinct (p : InterpParams K) (gi go o : Nat) : Prop :=
  let t := torchSource p gi go o
  t - ⌊t⌋ = 0 ∨ (1 / 10000 ≤ t - ⌊t⌋ ∧ t - ⌊t⌋ ≤ 1 - 1 / 10000)

/-! ## The core -/

variable [IsStrictOrderedRing K]

/-- Global position of output `y`, before clamping. -/
def gpos (p : InterpParams K) (fac : K) (y : K) : K :=
  if p.mode = .nearest ∨ p.align = true then fac * y else fac * (y + 1 / 2) - 1 / 2

omit [LinearOrder K] [FloorRing K] [IsStrictOrderedRing K] in
theorem kernelPos_eq (p : InterpParams K) (fac : K) (d : InterpDim) (o : Nat) :
    kernelPos p fac d o = gpos p fac ((d.oo + o : Nat) : K) - d.io := by
  unfold kernelPos gpos
  cases p.mode <;> cases p.align <;> (push_cast; simp; try ring)

theorem gpos_mono (p : InterpParams K) {fac : K} (hf : 0 ≤ fac) {a b : K} (h : a ≤ b) :
    gpos p fac a ≤ gpos p fac b := by
  unfold gpos
  split
  · exact mul_le_mul_of_nonneg_left h hf
  · have := mul_le_mul_of_nonneg_left (show a + 1 / 2 ≤ b + 1 / 2 by linarith) hf
    linarith

theorem mixinCell_eq (p : InterpParams K) {fac : K} (hf : 0 ≤ fac) {y : Int} (hy : 0 ≤ y) :
    mixinCell p fac y = ⌊max 0 (gpos p fac y)⌋ := by
  have h0 : (0 : K) ≤ fac * (y : K) := mul_nonneg hf (by exact_mod_cast hy)
  unfold mixinCell gpos
  cases hm : p.mode with
  | nearest => simp [max_eq_right h0]
  | linear =>
    cases ha : p.align with
    | true => simp [max_eq_right h0]
    | false =>
      simp only [Bool.false_eq_true, if_false, reduceCtorEq, or_self]
      congr 1
      split
      · rename_i h; exact (max_eq_left h.le).symm
      · rename_i h; exact (max_eq_right (not_lt.1 h)).symm

/-- What is known about one feature dimension of a worker: outputs `y0` to `y1`, the selected cells. -/
structure DimSel (p : InterpParams K) (d : InterpDim) (fac : K) (y1 : Nat) : Prop where
  facE : kernelFac p d.gi d.go = some fac
  fac0 : 0 ≤ fac
  lo : d.oo + d.lo = y1
  start : d.io = ⌊max 0 (gpos p fac (d.oo : K))⌋
  stop : d.io + d.li = min (d.gi : Int)
    (⌊max 0 (gpos p fac ((y1 : Int) - 1 : Int))⌋ + (if p.mode = .linear then 1 else 0) + 1)
  last : gpos p fac ((y1 : Int) - 1 : Int) < d.gi
  gi : 0 < d.gi

variable {p : InterpParams K} {d : InterpDim} {fac : K} {y1 : Nat}

/-- The cells of output `o`: position, first cell, bounds. -/
theorem DimSel.cell (h : DimSel p d fac y1) {o : Nat} (ho : o < d.lo) :
    let T := max 0 (gpos p fac ((d.oo + o : Nat) : K))
    d.io ≤ ⌊T⌋ ∧ ⌊T⌋ < d.io + d.li ∧ ⌊T⌋ < d.gi ∧ 0 ≤ d.io ∧
      max 0 (kernelPos p fac d o) = T - d.io ∧
      (p.mode = .linear → min (⌊T⌋ + 1) (d.io + d.li - 1) = min (⌊T⌋ + 1) (d.gi - 1)) ∧
      (p.mode = .nearest ∨ p.align = true → 0 ≤ kernelPos p fac d o) := by
  intro T
  have hyo : d.oo + o ≤ y1 - 1 := by have := h.lo; omega
  have hy1 : 1 ≤ y1 := by have := h.lo; omega
  have e1 : gpos p fac (d.oo : K) ≤ gpos p fac ((d.oo + o : Nat) : K) :=
    gpos_mono p h.fac0 (by push_cast; linarith [Nat.cast_nonneg (α := K) o])
  have e2 : gpos p fac ((d.oo + o : Nat) : K) ≤ gpos p fac ((y1 : Int) - 1 : Int) := by
    apply gpos_mono p h.fac0
    have : ((d.oo + o : Nat) : Int) ≤ (y1 : Int) - 1 := by omega
    exact_mod_cast this
  have f1 : d.io ≤ ⌊T⌋ := by rw [h.start]; exact Int.floor_le_floor (max_le_max le_rfl e1)
  have f2 : ⌊T⌋ ≤ ⌊max 0 (gpos p fac ((y1 : Int) - 1 : Int))⌋ := Int.floor_le_floor (max_le_max le_rfl e2)
  have f3 : ⌊max 0 (gpos p fac ((y1 : Int) - 1 : Int))⌋ < d.gi := by
    rw [Int.floor_lt]
    apply max_lt
    · have := h.gi
      simp only [Int.cast_natCast]
      exact_mod_cast this
    · exact_mod_cast h.last
  have f0 : 0 ≤ d.io := by
    rw [h.start]
    exact Int.floor_nonneg.2 (le_max_left _ _)
  have hst := h.stop
  refine ⟨f1, ?_, by omega, f0, ?_, ?_, ?_⟩
  · split at hst <;> omega
  · rw [kernelPos_eq]
    by_cases hn : 0 ≤ gpos p fac ((d.oo + o : Nat) : K)
    · have hT : T = gpos p fac ((d.oo + o : Nat) : K) := max_eq_right hn
      rw [hT, max_eq_right]
      have : (d.io : K) ≤ ⌊T⌋ := by exact_mod_cast f1
      have := Int.floor_le T
      rw [hT] at *
      linarith
    · have hT : T = 0 := max_eq_left (not_le.1 hn).le
      have hs : d.io = 0 := by
        rw [h.start, max_eq_left (e1.trans (not_le.1 hn).le)]
        simp
      rw [hT, hs]
      simp only [Int.cast_zero, sub_zero]
      exact max_eq_left (not_le.1 hn).le
  · intro hm
    rw [if_pos hm] at hst
    omega
  · intro hm
    have hn : 0 ≤ gpos p fac ((d.oo + o : Nat) : K) := by
      unfold gpos
      rw [if_pos hm]
      exact mul_nonneg h.fac0 (Nat.cast_nonneg _)
    have hT : T = gpos p fac ((d.oo + o : Nat) : K) := max_eq_right hn
    rw [kernelPos_eq]
    have : (d.io : K) ≤ ⌊T⌋ := by exact_mod_cast f1
    have := Int.floor_le T
    rw [hT] at *
    linarith

theorem clampIdx_of {i lo hi : Int} (h1 : lo ≤ i) (h2 : i ≤ hi) : clampIdx i lo hi = i := by
  unfold clampIdx
  omega

theorem snap_of {l : K} (h : l = 0 ∨ (1 / 10000 ≤ l ∧ l ≤ 1 - 1 / 10000)) : snap l = l := by
  unfold snap
  rcases h with rfl | ⟨h1, h2⟩
  · have : ¬ (|(0 : K) - 1| < 1 / 10000) := by
      rw [zero_sub, abs_neg, abs_one]
      norm_num
    simp only [ite_self]
    rw [if_neg this]
  · have a1 : |l| = l := abs_of_nonneg (by linarith [show (0 : K) ≤ 1 / 10000 by norm_num])
    have a2 : |l - 1| = 1 - l := by
      rw [abs_of_nonpos (by linarith [show (0 : K) ≤ 1 / 10000 by norm_num])]
      ring
    rw [a1]
    rw [if_neg (not_lt.2 h1)]
    simp only
    rw [a2, if_neg (not_lt.2 (by linarith))]

/-- The terms of output `o`. -/
theorem DimSel.terms (h : DimSel p d fac y1) {o : Nat} (ho : o < d.lo) :
    let T := max 0 (gpos p fac ((d.oo + o : Nat) : K))
    (p.mode = .nearest → dimTerms p d o = [(⌊T⌋ - d.io, 1)]) ∧
    (p.mode = .linear → dimTerms p d o =
      [(⌊T⌋ - d.io, 1 - snap (T - ⌊T⌋)), (min (⌊T⌋ + 1) (d.gi - 1) - d.io, snap (T - ⌊T⌋))]) := by
  intro T
  have hc := h.cell ho
  change _ ≤ ⌊T⌋ ∧ ⌊T⌋ < _ ∧ ⌊T⌋ < _ ∧ _ ∧ _ = T - _ ∧ (_ → min (⌊T⌋ + 1) _ = min (⌊T⌋ + 1) _) ∧ _ at hc
  obtain ⟨c1, c2, c3, c4, c5, c6, c7⟩ := hc
  constructor
  · intro hm
    unfold dimTerms
    simp only [hm, h.facE, Option.getD_some]
    have hpos := c7 (Or.inl hm)
    rw [max_eq_right hpos] at c5
    rw [c5, Int.floor_sub_intCast, clampIdx_of (by omega) (by omega)]
  · intro hm
    unfold dimTerms
    simp only [hm, h.facE, Option.getD_some]
    have hif : (if kernelPos p fac d o < 0 then 0 else kernelPos p fac d o) = T - d.io := by
      rw [← c5]
      split
      · rename_i hlt; exact (max_eq_left hlt.le).symm
      · rename_i hlt; exact (max_eq_right (not_lt.1 hlt)).symm
    rw [hif, Int.floor_sub_intCast]
    have e0 : clampIdx (⌊T⌋ - d.io) 0 ((d.li : Int) - 1) = ⌊T⌋ - d.io := clampIdx_of (by omega) (by omega)
    rw [e0]
    have e1 : clampIdx (⌊T⌋ - d.io + 1) 0 ((d.li : Int) - 1) = min (⌊T⌋ + 1) (d.gi - 1) - d.io := by
      have := c6 hm
      unfold clampIdx
      omega
    rw [e1]
    have e2 : T - (d.io : K) - ((⌊T⌋ - d.io : Int) : K) = T - ⌊T⌋ := by push_cast; ring
    rw [e2]

/-- The cells of output `o` are selected. -/
theorem DimSel.bounds (h : DimSel p d fac y1) {o : Nat} (ho : o < d.lo) :
    ∀ t ∈ dimTerms p d o, 0 ≤ t.1 ∧ t.1 < d.li := by
  obtain ⟨c1, c2, c3, c4, c5, c6, c7⟩ := h.cell ho
  obtain ⟨t1, t2⟩ := h.terms ho
  intro t ht
  rcases hm : p.mode with _ | _
  · rw [t1 hm] at ht
    rw [List.mem_singleton.1 ht]
    constructor <;> dsimp only <;> omega
  · rw [t2 hm] at ht
    have := c6 hm
    rcases List.mem_cons.1 ht with rfl | ht
    · constructor <;> dsimp only <;> omega
    · rw [List.mem_singleton.1 ht]
      constructor <;> dsimp only <;> omega

/-- One output of one dimension: the weighted sum over the local cells is the sequential value. -/
theorem DimSel.value (h : DimSel p d fac y1) {o : Nat} (ho : o < d.lo) (hstep : torchStep p d.gi d.go = fac)
    (hd : p.mode = .linear → Distinct p d.gi d.go (d.oo + o)) (f : Nat → K) :
    ((dimTerms p d o).map fun t => t.2 * f (t.1 + d.io).toNat).sum =
      torchInterp1 p d.gi d.go f (d.oo + o) := by
  obtain ⟨c1, c2, c3, c4, c5, c6, c7⟩ := h.cell ho
  obtain ⟨t1, t2⟩ := h.terms ho
  have hsrc : torchSource p d.gi d.go (d.oo + o) = max 0 (gpos p fac ((d.oo + o : Nat) : K)) := by
    unfold torchSource gpos
    rw [hstep]
    split
    · rw [max_eq_right (mul_nonneg h.fac0 (Nat.cast_nonneg _))]
    · rfl
  rcases hm : p.mode with _ | _
  · rw [t1 hm]
    unfold torchInterp1
    simp only [hm, hsrc, List.map_cons, List.map_nil, List.sum_cons, List.sum_nil, one_mul, add_zero,
      sub_add_cancel]
    congr 1
    omega
  · rw [t2 hm]
    have hd' := hd hm
    unfold Distinct at hd'
    simp only [hsrc] at hd'
    unfold torchInterp1
    simp only [hm, hsrc, List.map_cons, List.map_nil, List.sum_cons, List.sum_nil, add_zero,
      sub_add_cancel, snap_of hd']
    have hT : 0 ≤ ⌊max 0 (gpos p fac ((d.oo + o : Nat) : K))⌋ := by omega
    have hk : ((⌊max 0 (gpos p fac ((d.oo + o : Nat) : K))⌋.toNat : Nat) : K) =
        (⌊max 0 (gpos p fac ((d.oo + o : Nat) : K))⌋ : K) := by
      have := Int.toNat_of_nonneg hT
      exact_mod_cast congrArg (fun z : Int => (z : K)) this
    rw [hk]
    congr 3
    split <;> omega

end

end Verif
