import Verif.Window.Core
import Verif.Halo.Near

/-!
# Sliding-window layers: every local window reads what the sequential window reads
-/

namespace Verif

open Exchange

/-- Parameters of all dimensions: kernel size, stride, dilation 1 and padding 0 in the leading ones. -/
def WinParams.full (W : WinParams) (D : Nat) : WinParams :=
  ⟨List.replicate (D - W.k.length) 1 ++ W.k, List.replicate (D - W.s.length) 1 ++ W.s,
    List.replicate (D - W.p.length) 0 ++ W.p, List.replicate (D - W.d.length) 1 ++ W.d⟩

/-- The halo limits along one axis, blocks `bs`, kernel size `k`, stride `s`, padding `p`, dilation `d`;
in the coordinates of the padded axis, block `c` starts at `(bs.take c).sum + p` (the first one at 0) and
window `o` covers `s * o ≤ i < s * o + d (k - 1) + 1`.  Outputs are divided evenly: worker `c` computes
the windows `startIdx c ≤ o < startIdx (c + 1)`.

* every worker has at least one output;
* the first window of a worker does not start before its left neighbour's block;
* the last window of a worker does not end after its right neighbour's block;
* the first window of the next worker ends after the block. -/
structure AxisLimits (k s p d : Nat) (bs : List Nat) : Prop where
  kernel : 0 < k
  stride : 0 < s
  fit : d * (k - 1) + 1 ≤ bs.sum + 2 * p
  outputs : ∀ c, c < bs.length → 0 < subsize bs.length c (torchOut1 bs.sum k s p d)
  left : ∀ c, 0 < c → c + 1 < bs.length →
    (bs.take c).sum + p ≤ s * startIdx bs.length (c + 1) (torchOut1 bs.sum k s p d)
  right : ∀ c, c + 2 < bs.length →
    s * (startIdx bs.length (c + 1) (torchOut1 bs.sum k s p d) - 1) + (d * (k - 1) + 1) ≤
      (bs.take (c + 2)).sum + p
  exact : ∀ c, c + 1 < bs.length →
    (bs.take (c + 1)).sum + p <
      s * startIdx bs.length (c + 1) (torchOut1 bs.sum k s p d) + (d * (k - 1) + 1)

/-- The limits hold in every dimension. -/
def WinLimits (P : Cart) (W : WinParams) (L : Layout) : Prop :=
  ∀ j, j < P.shape.length → AxisLimits ((W.full P.shape.length).k.getD j 0)
    ((W.full P.shape.length).s.getD j 0) ((W.full P.shape.length).p.getD j 0)
    ((W.full P.shape.length).d.getD j 0) (L.getD j [])

/-- The limits of `AxisLimits` without the last one: the halos fit. -/
structure AxisReach (k s p d : Nat) (bs : List Nat) : Prop where
  kernel : 0 < k
  stride : 0 < s
  fit : d * (k - 1) + 1 ≤ bs.sum + 2 * p
  outputs : ∀ c, c < bs.length → 0 < subsize bs.length c (torchOut1 bs.sum k s p d)
  left : ∀ c, 0 < c → c + 1 < bs.length →
    (bs.take c).sum + p ≤ s * startIdx bs.length (c + 1) (torchOut1 bs.sum k s p d)
  right : ∀ c, c + 2 < bs.length →
    s * (startIdx bs.length (c + 1) (torchOut1 bs.sum k s p d) - 1) + (d * (k - 1) + 1) ≤
      (bs.take (c + 2)).sum + p

/-- The limits without those on the halos: the kernel fits into the padded axis and every worker has at least
one output. -/
structure AxisBase (k s p d : Nat) (bs : List Nat) : Prop where
  kernel : 0 < k
  stride : 0 < s
  fit : d * (k - 1) + 1 ≤ bs.sum + 2 * p
  outputs : ∀ c, c < bs.length → 0 < subsize bs.length c (torchOut1 bs.sum k s p d)

/-- `AxisBase` in every dimension. -/
def WinBase (P : Cart) (W : WinParams) (L : Layout) : Prop :=
  ∀ j, j < P.shape.length → AxisBase ((W.full P.shape.length).k.getD j 0)
    ((W.full P.shape.length).s.getD j 0) ((W.full P.shape.length).p.getD j 0)
    ((W.full P.shape.length).d.getD j 0) (L.getD j [])

theorem AxisLimits.reach {k s p d : Nat} {bs : List Nat} (h : AxisLimits k s p d bs) : AxisReach k s p d bs :=
  ⟨h.kernel, h.stride, h.fit, h.outputs, h.left, h.right⟩

/-- The halos fit in every dimension. -/
def WinReach (P : Cart) (W : WinParams) (L : Layout) : Prop :=
  ∀ j, j < P.shape.length → AxisReach ((W.full P.shape.length).k.getD j 0)
    ((W.full P.shape.length).s.getD j 0) ((W.full P.shape.length).p.getD j 0)
    ((W.full P.shape.length).d.getD j 0) (L.getD j [])

theorem WinReach.base {P : Cart} {W : WinParams} {L : Layout} (h : WinReach P W L) : WinBase P W L :=
  fun j hj => ⟨(h j hj).kernel, (h j hj).stride, (h j hj).fit, (h j hj).outputs⟩

/-- The last limit for the worker at `c`: it is the last one, or the first window of the next worker ends
after its block. -/
def AxisShare (k s p d : Nat) (bs : List Nat) (c : Nat) : Prop :=
  c + 1 < bs.length → (bs.take (c + 1)).sum + p <
    s * startIdx bs.length (c + 1) (torchOut1 bs.sum k s p d) + (d * (k - 1) + 1)

/-- The last limit in every dimension for the worker at `idx`. -/
def WinShare (P : Cart) (W : WinParams) (L : Layout) (idx : List Nat) : Prop :=
  ∀ j, j < P.shape.length → AxisShare ((W.full P.shape.length).k.getD j 0)
    ((W.full P.shape.length).s.getD j 0) ((W.full P.shape.length).p.getD j 0)
    ((W.full P.shape.length).d.getD j 0) (L.getD j []) (idx.getD j 0)

theorem WinLimits.reach {P : Cart} {W : WinParams} {L : Layout} (h : WinLimits P W L) : WinReach P W L :=
  fun j hj => (h j hj).reach

theorem WinLimits.share {P : Cart} {W : WinParams} {L : Layout} (h : WinLimits P W L) (idx : List Nat) :
    WinShare P W L idx := fun j hj => (h j hj).exact _

theorem torchOut1_windows {n k s d : Nat} (hk : 0 < k) (hf : d * (k - 1) + 1 ≤ n) :
    torchOut1 n k s 0 d = windows n k s d := by
  unfold torchOut1 windows
  have e : (n : Int) + 2 * ((0 : Nat) : Int) - d * ((k : Int) - 1) - 1 = ((n - (d * (k - 1) + 1) : Nat) : Int) := by
    rw [Int.ofNat_sub hf]
    push_cast [Nat.cast_sub hk]
    ring
  rw [e]
  have : ((n - (d * (k - 1) + 1) : Nat) : Int) / (s : Int) + 1 =
      (((n - (d * (k - 1) + 1)) / s + 1 : Nat) : Int) := by
    push_cast
    rfl
  rw [this, Int.toNat_natCast]

section
variable {α : Type} {P : Cart} {W : WinParams} {L : Layout} {localS : Nat → List Nat × TorchDtype × Bool}
  {x : Nat → List Nat → α} {X : List Nat → α} {t : TorchDtype} {rg : Bool}

theorem globalPadding_full (W : WinParams) (D : Nat) : globalPadding D W.p = (W.full D).p := rfl

theorem zeros_getD (a : List Nat) (j : Nat) : (a.map fun _ => 0).getD j 0 = 0 := by
  rw [List.getD_eq_getElem?_getD, List.getElem?_map]
  cases a[j]? <;> rfl

theorem fill_zero_getD (n : Nat) (a : List Nat) (j : Nat) :
    (List.replicate n 0 ++ a.map fun _ => 0).getD j 0 = 0 := by
  induction n generalizing j with
  | zero => simp
  | succ n ih =>
    cases j with
    | zero => rfl
    | succ j => exact ih j

theorem winDims_getD (h : WinInput P W L localS x X t rg) {j : Nat} (hj : j < P.shape.length) :
    (winDims P W L).getD j default = ⟨P.shape.getD j 0, (L.getD j []).sum + 2 * (W.full P.shape.length).p.getD j 0,
      (W.full P.shape.length).k.getD j 0, (W.full P.shape.length).s.getD j 0, 0,
      (W.full P.shape.length).d.getD j 0⟩ := by
  have hl : (padLayout (globalPadding P.shape.length W.p) L).global.length = P.shape.length := by
    rw [Layout.length_global, length_padLayout h.gplen, h.length]
  have hjL : j < L.length := by rw [h.length]; exact hj
  unfold winDims haloDims
  rw [getD_map_range _ _ (by rw [hl]; exact hj), hl, fill_zero_getD,
    global_getD (by rw [length_padLayout h.gplen]; exact hjL), padLayout_getD h.gplen hjL, padList_sum]
  · rfl
  · rw [← pshape_getD hjL, h.layout, List.getD_eq_getElem _ _ hj]
    exact h.wf.pos _ (List.getElem_mem _)

theorem outShape_torch {q : HaloDim} {n p : Nat} (hN : q.N = n + 2 * p) (hp : q.p = 0) :
    outShape q = torchOut1 n q.k q.s p q.d := by
  unfold outShape torchOut1
  rw [hN, hp]
  push_cast
  rw [Int.add_zero]

theorem WinBase.valid (h : WinInput P W L localS x X t rg) (hl : WinBase P W L) {j : Nat}
    (hj : j < P.shape.length) : ((winDims P W L).getD j default).Valid := by
  have e := winDims_getD h hj
  have a := hl j hj
  rw [e]
  refine ⟨?_, a.kernel, a.stride, rfl, a.fit⟩
  show 0 < P.shape.getD j 0
  rw [List.getD_eq_getElem _ _ hj]
  exact h.wf.pos _ (List.getElem_mem _)

theorem blocks_length (h : WinInput P W L localS x X t rg) {j : Nat} (hj : j < P.shape.length) :
    (L.getD j []).length = P.shape.getD j 0 := by
  rw [← pshape_getD (by rw [h.length]; exact hj), h.layout]

/-- What one dimension of the plan is. -/
theorem plan_axis (h : WinInput P W L localS x X t rg) (hl : WinBase P W L) {j : Nat}
    (hj : j < P.shape.length) {c : Nat} (hc : c < P.shape.getD j 0) :
    let F := W.full P.shape.length
    let bs := L.getD j []
    let M := torchOut1 bs.sum (F.k.getD j 0) (F.s.getD j 0) (F.p.getD j 0) (F.d.getD j 0)
    let span := F.d.getD j 0 * (F.k.getD j 0 - 1) + 1
    let X := ((padList (F.p.getD j 0) bs).take c).sum
    let x := (padList (F.p.getD j 0) bs).getD c 0
    ((winPlan P W L).lw j c : Int) = max ((X : Int) - (F.s.getD j 0 * startIdx (P.shape.getD j 0) c M : Nat)) 0 ∧
    ((winPlan P W L).rw j c : Int) =
      max ((F.s.getD j 0 * (startIdx (P.shape.getD j 0) (c + 1) M - 1) + span : Nat) - ((X : Int) + x)) 0 := by
  intro F bs M span X x
  have hv := hl.valid h hj
  have e := winDims_getD h hj
  have hP : ((winDims P W L).getD j default).P = P.shape.getD j 0 := by rw [e]
  have hM : outShape ((winDims P W L).getD j default) = M := by
    rw [outShape_torch (n := bs.sum) (p := F.p.getD j 0) (by rw [e]) (by rw [e]), e]
  have hb := blocks_length h hj
  have hy := (hl j hj).outputs c (by rw [hb]; exact hc)
  rw [hb] at hy
  obtain ⟨g1, g2⟩ := hv.halo (i := c) (X := X) (x := x) (by rw [hP]; exact hc) (by rw [hP, hM]; exact hy)
  obtain ⟨m1, m2⟩ := halo1_max ((winDims P W L).getD j default) c X x
  have hg := halo1_nonneg ((winDims P W L).getD j default) c X x
  have eL : (winPlan P W L).L.getD j [] = padList (F.p.getD j 0) bs :=
    padLayout_getD h.gplen (by rw [h.length]; exact hj)
  have el : (winPlan P W L).lw j c = (halo1 true ((winDims P W L).getD j default) c X x).1.toNat := by
    show (halo1 true _ c (((winPlan P W L).L.getD j []).take c).sum
      (((winPlan P W L).L.getD j []).getD c 0)).1.toNat = _
    rw [eL]
  have er : (winPlan P W L).rw j c = (halo1 true ((winDims P W L).getD j default) c X x).2.toNat := by
    show (halo1 true _ c (((winPlan P W L).L.getD j []).take c).sum
      (((winPlan P W L).L.getD j []).getD c 0)).2.toNat = _
    rw [eL]
  have es : ((winDims P W L).getD j default).s = F.s.getD j 0 := by rw [e]
  have esp : ((winDims P W L).getD j default).span = span := by rw [e]; rfl
  rw [hM, hP, es] at g1 g2
  rw [esp] at g2
  rw [el, er, Int.toNat_of_nonneg hg.1, Int.toNat_of_nonneg hg.2, m1, m2, g1, g2]
  exact ⟨rfl, rfl⟩

/-- The limits make all halos fit. -/
theorem WinReach.fits (h : WinInput P W L localS x X t rg) (hl : WinReach P W L) :
    (winPlan P W L).Fits := by
  constructor
  · intro j hj c hc
    have hj' : j < P.shape.length := hj
    have hc' : c + 1 < P.shape.getD j 0 := hc
    have hb := blocks_length h hj'
    have a := hl j hj'
    have e := (plan_axis h hl.base hj' hc').1
    have eL : (winPlan P W L).L.getD j [] = padList ((W.full P.shape.length).p.getD j 0) (L.getD j []) :=
      padLayout_getD h.gplen (by rw [h.length]; exact hj)
    unfold HaloPlan.x
    rw [eL]
    rw [take_sum_succ, padList_take _ _ (by rw [hb]; omega)] at e
    rcases Nat.eq_zero_or_pos c with h0 | h0
    · subst h0
      rw [List.take_zero, List.sum_nil, if_neg (Nat.lt_irrefl 0)] at e
      omega
    · have := a.left c h0 (by rw [hb]; exact hc')
      rw [hb] at this
      rw [if_pos h0] at e
      omega
  · intro j hj c hc
    have hj' : j < P.shape.length := hj
    have hc' : c + 1 < P.shape.getD j 0 := hc
    have hb := blocks_length h hj'
    have a := hl j hj'
    have e := (plan_axis h hl.base hj' (c := c) (by omega)).2
    have eL : (winPlan P W L).L.getD j [] = padList ((W.full P.shape.length).p.getD j 0) (L.getD j []) :=
      padLayout_getD h.gplen (by rw [h.length]; exact hj)
    unfold HaloPlan.x
    rw [eL]
    have hs := take_sum_succ (padList ((W.full P.shape.length).p.getD j 0) (L.getD j [])) c
    have hs2 := take_sum_succ (padList ((W.full P.shape.length).p.getD j 0) (L.getD j [])) (c + 1)
    have hend := padList_end ((W.full P.shape.length).p.getD j 0) (L.getD j []) (c := c + 1)
      (by rw [hb]; omega)
    by_cases h2 : c + 2 < P.shape.getD j 0
    · have := a.right c (by rw [hb]; exact h2)
      rw [hb] at this
      rw [if_neg (by rw [hb]; omega)] at hend
      rw [show c + 1 + 1 = c + 2 by omega] at hend hs2
      omega
    · have h3 : c + 1 + 1 = (L.getD j []).length := by rw [hb]; omega
      rw [if_pos h3] at hend
      rw [h3, List.take_of_length_le (Nat.le_refl _)] at hend
      rw [h3] at hs2
      have hv := hl.base.valid h hj'
      have hob := hv.out_bounds.1
      have eq := winDims_getD h hj'
      have hM := outShape_torch (q := (winDims P W L).getD j default) (n := (L.getD j []).sum)
        (p := (W.full P.shape.length).p.getD j 0) (by rw [eq]) (by rw [eq])
      rw [hM] at hob
      rw [eq] at hob
      unfold HaloDim.span at hob
      simp only at hob
      have hle := startIdx_le_self (P := P.shape.getD j 0) (i := c + 1)
        (torchOut1 (L.getD j []).sum ((W.full P.shape.length).k.getD j 0) ((W.full P.shape.length).s.getD j 0)
          ((W.full P.shape.length).p.getD j 0) ((W.full P.shape.length).d.getD j 0)) (by omega) (by omega)
      have hm := Nat.mul_le_mul_left ((W.full P.shape.length).s.getD j 0) (Nat.sub_le_sub_right hle 1)
      omega

variable {β : Type} {dt : NpKey} {junk : Nat → β} {ops : Nat → List (MgrOp β)} {eager : Bool} {k : Nat}
  {U : Nat → WinSetup} {S : Nat → HaloSetup} {g : GState (List Nat → α) (List Nat → α)} {v : α}

/-- What the local operator without padding is applied to, whether the halos fit or not: it produces at least
the worker's share of the outputs, the share and no more along `j` exactly if the last limit holds there, and
every window of the share reads the cell of the padded tensor that is at the position of the sequential
operator's window. -/
theorem windows_cell (h : WinInput P W L localS x X t rg) (hl : WinBase P W L)
    (R : WinRun P W v localS x dt junk ops eager k U S g) {r : Nat} (hr : r < P.members.length) :
    let F := W.full P.shape.length
    let idx := getCoords P.shape r
    let M := fun j => torchOut1 (L.global.getD j 0) (F.k.getD j 0) (F.s.getD j 0) (F.p.getD j 0) (F.d.getD j 0)
    let I := localInput P v localS x U g r
    I.1.length = P.shape.length ∧
    (∀ j, j < P.shape.length →
      subsize (P.shape.getD j 0) (idx.getD j 0) (M j) ≤
        torchOut1 (I.1.getD j 0) (F.k.getD j 0) (F.s.getD j 0) 0 (F.d.getD j 0) ∧
      (torchOut1 (I.1.getD j 0) (F.k.getD j 0) (F.s.getD j 0) 0 (F.d.getD j 0) =
          subsize (P.shape.getD j 0) (idx.getD j 0) (M j) ↔
        AxisShare (F.k.getD j 0) (F.s.getD j 0) (F.p.getD j 0) (F.d.getD j 0) (L.getD j []) (idx.getD j 0))) ∧
    ∀ o κ z : List Nat, o.length = P.shape.length →
      (∀ j, j < P.shape.length → o.getD j 0 < subsize (P.shape.getD j 0) (idx.getD j 0) (M j)) →
      (∀ j, j < P.shape.length → κ.getD j 0 < F.k.getD j 0) → (∀ j, z.getD j 0 = 0) →
      ∃ l, InBounds l ((winPlan P W L).shape r) ∧ winRead v I.1 F.s F.d z I.2 o κ = (g.ws r).st l ∧
        ∀ j, j < P.shape.length → (shiftBy ((winPlan P W L).origin r) l).getD j 0 =
          F.s.getD j 0 * (startIdx (P.shape.getD j 0) (idx.getD j 0) (M j) + o.getD j 0) +
            F.d.getD j 0 * κ.getD j 0 := by
  intro F idx M I
  obtain ⟨T, hT, hU, hsh, hst, hS⟩ := R.facts h
  have hp := winDims_plan h
  have hok : (winPlan P W L).OK := plan_ok_always hp
  have hi : InBounds idx P.shape := (getCoords_spec (by rw [← h.wf.size]; exact hr)).1
  have hneed : (U r).info = exchangeInfo (winDims P W L) (some T) idx := by rw [hU r hr]
  -- one dimension
  have key : ∀ j, j < P.shape.length → ∃ a b : Nat,
      (exchangeInfo (winDims P W L) (some T) idx).needed.getD j (0, 0) = ((a : Int), (b : Int)) ∧
      a < b ∧ b = ((winPlan P W L).shape r).getD j 0 ∧
      ((winPlan P W L).origin r).getD j 0 + a =
        F.s.getD j 0 * startIdx (P.shape.getD j 0) (idx.getD j 0) (M j) ∧
      (subsize (P.shape.getD j 0) (idx.getD j 0) (M j) ≤
          torchOut1 (b - a) (F.k.getD j 0) (F.s.getD j 0) 0 (F.d.getD j 0) ∧
        (torchOut1 (b - a) (F.k.getD j 0) (F.s.getD j 0) 0 (F.d.getD j 0) =
            subsize (P.shape.getD j 0) (idx.getD j 0) (M j) ↔
          AxisShare (F.k.getD j 0) (F.s.getD j 0) (F.p.getD j 0) (F.d.getD j 0) (L.getD j [])
            (idx.getD j 0))) ∧
      ∀ o κ, o < subsize (P.shape.getD j 0) (idx.getD j 0) (M j) → κ < F.k.getD j 0 →
        F.s.getD j 0 * o + F.d.getD j 0 * κ < b - a := by
    intro j hj
    have hjL : j < L.length := by rw [h.length]; exact hj
    have hv := hl.valid h hj
    have e := winDims_getD h hj
    have hb := blocks_length h hj
    have hcl : idx.getD j 0 < P.shape.getD j 0 := inBounds_getD hi hj
    have a := hl j hj
    have hP : ((winDims P W L).getD j default).P = P.shape.getD j 0 := by rw [e]
    have hMj : M j = torchOut1 (L.getD j []).sum (F.k.getD j 0) (F.s.getD j 0) (F.p.getD j 0) (F.d.getD j 0) := by
      show torchOut1 (L.global.getD j 0) _ _ _ _ = _
      rw [global_getD hjL]
    have hM : outShape ((winDims P W L).getD j default) = M j := by
      rw [hMj, outShape_torch (n := (L.getD j []).sum) (p := F.p.getD j 0) (by rw [e]) (by rw [e]), e]
    have hy0 := a.outputs (idx.getD j 0) (by rw [hb]; exact hcl)
    rw [hb] at hy0
    change 0 < subsize _ _ (torchOut1 (L.getD j []).sum (F.k.getD j 0) (F.s.getD j 0) (F.p.getD j 0) (F.d.getD j 0)) at hy0
    rw [← hMj] at hy0
    obtain ⟨n0, n1, n2, n3, n4, n5⟩ := C38_ranges hp hT hi hj hv (by rw [hP, hM]; exact hy0)
    have erv := recv_plan hp hT hi hj
    have eq' : haloShape true (winDims P W L) (some T) idx =
      (exchangeInfo (winDims P W L) (some T) idx).recv := rfl
    rw [eq'] at erv
    have eL : (padLayout (globalPadding P.shape.length W.p) L).getD j [] = padList (F.p.getD j 0) (L.getD j []) :=
      padLayout_getD h.gplen hjL
    rw [hM, hP] at n3 n4 n5
    rw [erv] at n2 n3 n4
    rw [eL] at n2 n3 n4 n5
    have es : ((winDims P W L).getD j default).s = F.s.getD j 0 := by rw [e]
    have ek : ((winDims P W L).getD j default).k = F.k.getD j 0 := by rw [e]
    have ed : ((winDims P W L).getD j default).d = F.d.getD j 0 := by rw [e]
    rw [es] at n3 n4 n5
    rw [ed] at n4 n5
    rw [ek] at n4 n5
    have hesp : ((winDims P W L).getD j default).span = F.d.getD j 0 * (F.k.getD j 0 - 1) + 1 := by
      unfold HaloDim.span; rw [ed, ek]
    rw [hesp] at n5
    simp only at n0 n1 n2 n3 n4 n5
    generalize hnd : (exchangeInfo (winDims P W L) (some T) idx).needed.getD j (0, 0) = nd at n0 n1 n2 n3 n4 n5 ⊢
    obtain ⟨a', b'⟩ := nd
    obtain ⟨a', rfl⟩ := Int.eq_ofNat_of_zero_le n0
    obtain ⟨b', rfl⟩ := Int.eq_ofNat_of_zero_le (show 0 ≤ b' by simp only at n0 n1; omega)
    simp only at n0 n1 n2 n3 n4 n5
    have hco : (winPlan P W L).co r j = idx.getD j 0 := rfl
    have hx : (winPlan P W L).x j (idx.getD j 0) = (padList (F.p.getD j 0) (L.getD j [])).getD (idx.getD j 0) 0 := by
      unfold HaloPlan.x; rw [show (winPlan P W L).L.getD j [] = _ from eL]
    have hstt : (winPlan P W L).st j (idx.getD j 0) = ((padList (F.p.getD j 0) (L.getD j [])).take (idx.getD j 0)).sum := by
      unfold HaloPlan.st; rw [show (winPlan P W L).L.getD j [] = _ from eL]
    have hlw := HaloPlan.lw_le_st_always hok (j := j) hj _ (HaloPlan.co_lt hok hr hj)
    rw [hco, hstt] at hlw
    have hcov : ∀ o κ, o < subsize (P.shape.getD j 0) (idx.getD j 0) (M j) → κ < F.k.getD j 0 →
        F.s.getD j 0 * o + F.d.getD j 0 * κ < b' - a' := by
      intro o κ ho hκ
      have := (n4 (startIdx (P.shape.getD j 0) (idx.getD j 0) (M j) + o) (by omega) (by omega) κ hκ).2
      rw [Nat.mul_add] at this
      have n3' : (((padList (F.p.getD j 0) (L.getD j [])).take (idx.getD j 0)).sum : Int) -
          ((winPlan P W L).lw j (idx.getD j 0) : Int) + a' =
          ((F.s.getD j 0 * startIdx (P.shape.getD j 0) (idx.getD j 0) (M j) : Nat) : Int) := by
        rw [Nat.cast_mul]; exact n3
      have this' : ((F.s.getD j 0 * startIdx (P.shape.getD j 0) (idx.getD j 0) (M j) + F.s.getD j 0 * o +
          F.d.getD j 0 * κ : Nat) : Int) <
        (((padList (F.p.getD j 0) (L.getD j [])).take (idx.getD j 0)).sum : Int) -
          ((winPlan P W L).lw j (idx.getD j 0) : Int) + b' := this
      omega
    refine ⟨a', b', rfl, by exact_mod_cast n1, ?_, ?_, ?_, hcov⟩
    · rw [HaloPlan.shape_getD (H := winPlan P W L) hj, HaloPlan.size, hco, hx]
      have n2' : (b' : Int) = ((winPlan P W L).lw j (idx.getD j 0) : Int) +
        ((padList (F.p.getD j 0) (L.getD j [])).getD (idx.getD j 0) 0 : Nat) +
        ((winPlan P W L).rw j (idx.getD j 0) : Int) := n2
      omega
    · rw [HaloPlan.origin_getD (H := winPlan P W L) hj, hco, hstt]
      have n3' : (((padList (F.p.getD j 0) (L.getD j [])).take (idx.getD j 0)).sum : Int) -
          ((winPlan P W L).lw j (idx.getD j 0) : Int) + a' =
          ((F.s.getD j 0 * startIdx (P.shape.getD j 0) (idx.getD j 0) (M j) : Nat) : Int) := by
        rw [Nat.cast_mul]; exact n3
      omega
    · have hfitlen : F.d.getD j 0 * (F.k.getD j 0 - 1) + 1 ≤ b' - a' := by
        have := hcov 0 (F.k.getD j 0 - 1) hy0 (by have := a.kernel; change 0 < F.k.getD j 0 at this; omega)
        omega
      rw [torchOut1_windows a.kernel hfitlen]
      have hd : ((b' : Int) - (a' : Int)).toNat = b' - a' := by omega
      rw [hd] at n5
      have hend := padList_end (F.p.getD j 0) (L.getD j []) (c := idx.getD j 0) (by rw [hb]; exact hcl)
      rw [take_sum_succ] at hend
      have hss : startIdx (P.shape.getD j 0) (idx.getD j 0) (M j) + subsize (P.shape.getD j 0) (idx.getD j 0) (M j) =
        startIdx (P.shape.getD j 0) (idx.getD j 0 + 1) (M j) := (startIdx_succ _ _ _).symm
      rw [hss] at n5
      refine ⟨?_, n5.trans ?_⟩
      · have hlast := hcov (subsize (P.shape.getD j 0) (idx.getD j 0) (M j) - 1) (F.k.getD j 0 - 1) (by omega)
          (by have := a.kernel; change 0 < F.k.getD j 0 at this; omega)
        unfold windows
        have : subsize (P.shape.getD j 0) (idx.getD j 0) (M j) - 1 ≤
            (b' - a' - (F.d.getD j 0 * (F.k.getD j 0 - 1) + 1)) / F.s.getD j 0 := by
          rw [Nat.le_div_iff_mul_le a.stride]
          rw [Nat.mul_comm (F.s.getD j 0)] at hlast
          change (subsize (P.shape.getD j 0) (idx.getD j 0) (M j) - 1) * F.s.getD j 0 ≤ _
          generalize (subsize (P.shape.getD j 0) (idx.getD j 0) (M j) - 1) * F.s.getD j 0 = u at hlast ⊢
          omega
        exact Nat.le_trans (by omega) (Nat.add_le_add_right this 1)
      · have goal : ((padList (F.p.getD j 0) (L.getD j [])).take (idx.getD j 0)).sum +
            (padList (F.p.getD j 0) (L.getD j [])).getD (idx.getD j 0) 0 <
            F.s.getD j 0 * startIdx (P.shape.getD j 0) (idx.getD j 0 + 1) (M j) +
              (F.d.getD j 0 * (F.k.getD j 0 - 1) + 1) ↔
            AxisShare (F.k.getD j 0) (F.s.getD j 0) (F.p.getD j 0) (F.d.getD j 0) (L.getD j [])
              (idx.getD j 0) := by
          unfold AxisShare
          rw [hend]
          by_cases hlast : idx.getD j 0 + 1 = (L.getD j []).length
          · rw [if_pos hlast, hlast, List.take_of_length_le (Nat.le_refl _), hb,
              startIdx_top (by omega)]
            have hob := hv.out_bounds.2
            rw [hM, hesp, es, e] at hob
            simp only at hob
            change (L.getD j []).sum + 2 * F.p.getD j 0 + 1 ≤ _ at hob
            exact ⟨fun _ hlt => absurd hlt (Nat.lt_irrefl _), fun _ => by omega⟩
          · rw [if_neg hlast, hb, ← hMj]
            exact ⟨fun hlt _ => hlt, fun hlt => hlt (by omega)⟩
        rw [← goal]
        norm_cast
  have hneedl : (exchangeInfo (winDims P W L) (some T) idx).needed.length = P.shape.length := by
    show (neededRanges _ _).length = _
    rw [neededRanges, List.length_zipWith]
    simp [haloShape, hp.len]
  have hpsl : ((winPlan P W L).shape r).length = P.shape.length := HaloPlan.length_shape r
  have hsl : (pySlices ((winPlan P W L).shape r) (exchangeInfo (winDims P W L) (some T) idx).needed).length =
      P.shape.length := by
    rw [pySlices, List.length_zipWith, hpsl, hneedl, Nat.min_self]
  have hI1 : I.1 = (pySlices ((winPlan P W L).shape r)
      (exchangeInfo (winDims P W L) (some T) idx).needed).map fun p => p.2 - p.1 := by
    show ((U r).select _ _).1 = _
    rw [hsh r hr]
    show (pySlices _ (U r).info.needed).map _ = _
    rw [hneed]
  have hI2 : I.2 = readSlice (pySlices ((winPlan P W L).shape r)
      (exchangeInfo (winDims P W L) (some T) idx).needed) (g.ws r).st := by
    show ((U r).select _ _).2 = _
    rw [hsh r hr]
    show readSlice (pySlices _ (U r).info.needed) _ = _
    rw [hneed]
  have hslg : ∀ j, j < P.shape.length → ∀ a b : Nat,
      (exchangeInfo (winDims P W L) (some T) idx).needed.getD j (0, 0) = ((a : Int), (b : Int)) → a < b →
      b = ((winPlan P W L).shape r).getD j 0 →
      (pySlices ((winPlan P W L).shape r) (exchangeInfo (winDims P W L) (some T) idx).needed).getD j (0, 0) =
        (a, b) := by
    intro j hj a b h1 h2 h3
    rw [pySlices, List.getD_eq_getElem _ _ (by rw [List.length_zipWith, hpsl, hneedl, Nat.min_self]; exact hj),
      List.getElem_zipWith]
    rw [List.getD_eq_getElem _ _ (by rw [hneedl]; exact hj)] at h1
    rw [List.getD_eq_getElem _ _ (by rw [hpsl]; exact hj)] at h3
    rw [h1, ← h3]
    simp only
    rw [pyBound_of_nat rfl (by omega), pyBound_of_nat rfl (Nat.le_refl _)]
  have hI1l : I.1.length = P.shape.length := by rw [hI1, List.length_map, hsl]
  have hI1g : ∀ j, j < P.shape.length → ∀ a b : Nat,
      (exchangeInfo (winDims P W L) (some T) idx).needed.getD j (0, 0) = ((a : Int), (b : Int)) → a < b →
      b = ((winPlan P W L).shape r).getD j 0 → I.1.getD j 0 = b - a := by
    intro j hj a b h1 h2 h3
    have := hslg j hj a b h1 h2 h3
    rw [List.getD_eq_getElem _ _ (by rw [hsl]; exact hj)] at this
    rw [hI1, List.getD_eq_getElem _ _ (by rw [List.length_map, hsl]; exact hj), List.getElem_map, this]
  refine ⟨hI1l, fun j hj => ?_, fun o κ z hol ho hκ hz => ?_⟩
  · obtain ⟨a, b, k1, k2, k3, -, k5, -⟩ := key j hj
    rw [hI1g j hj a b k1 k2 k3]
    exact k5
  · -- the cell read
    let c : List Nat := (List.range P.shape.length).map fun j => F.s.getD j 0 * o.getD j 0 + F.d.getD j 0 * κ.getD j 0
    have hcl : c.length = P.shape.length := by simp [c]
    have hcg : ∀ j, j < P.shape.length → c.getD j 0 = F.s.getD j 0 * o.getD j 0 + F.d.getD j 0 * κ.getD j 0 :=
      fun j hj => getD_map_range _ _ hj
    have hcb : InBounds c I.1 := by
      rw [inBounds_iff, hI1l]
      refine ⟨hcl, fun j hj => ?_⟩
      obtain ⟨a, b, k1, k2, k3, -, -, k6⟩ := key j hj
      rw [hcg j hj, hI1g j hj a b k1 k2 k3]
      exact k6 _ _ (ho j hj) (hκ j hj)
    have e1 : winRead v I.1 F.s F.d z I.2 o κ = I.2 c := by
      unfold winRead
      apply extend_inside hcb
      · simp [winPos, hol, hcl]
      · intro j hj
        rw [hcl] at hj
        rw [winPos, getD_map_range _ _ (by rw [hol]; exact hj), hz, hcg j hj]
        push_cast
        ring
    rw [e1, hI2]
    unfold readSlice
    have hfl : ((pySlices ((winPlan P W L).shape r)
      (exchangeInfo (winDims P W L) (some T) idx).needed).map Prod.fst).length = P.shape.length := by
      rw [List.length_map, hsl]
    have hfg : ∀ j, j < P.shape.length → ∀ a b : Nat,
      (exchangeInfo (winDims P W L) (some T) idx).needed.getD j (0, 0) = ((a : Int), (b : Int)) → a < b →
      b = ((winPlan P W L).shape r).getD j 0 → ((pySlices ((winPlan P W L).shape r)
      (exchangeInfo (winDims P W L) (some T) idx).needed).map Prod.fst).getD j 0 = a := by
      intro j hj a b h1 h2 h3
      have := hslg j hj a b h1 h2 h3
      rw [List.getD_eq_getElem _ _ (by rw [hsl]; exact hj)] at this
      rw [List.getD_eq_getElem _ _ (by rw [hfl]; exact hj), List.getElem_map, this]
    have hshl : (shiftBy ((pySlices ((winPlan P W L).shape r)
      (exchangeInfo (winDims P W L) (some T) idx).needed).map Prod.fst) c).length = P.shape.length := by
      rw [length_shiftBy (by rw [hcl, hfl]), hfl]
    have horl : ((winPlan P W L).origin r).length = P.shape.length := by simp [HaloPlan.origin]; rfl
    refine ⟨_, ?_, rfl, fun j hj' => ?_⟩
    · rw [inBounds_iff, hpsl]
      refine ⟨hshl, fun j hj => ?_⟩
      obtain ⟨a, b, k1, k2, k3, -, -, k6⟩ := key j hj
      rw [getD_shiftBy (by rw [hfl]; exact hj) (by rw [hcl]; exact hj), hfg j hj a b k1 k2 k3, hcg j hj, ← k3]
      have := k6 _ _ (ho j hj) (hκ j hj)
      omega
    · obtain ⟨a, b, k1, k2, k3, k4, -, -⟩ := key j hj'
      rw [getD_shiftBy (by rw [horl]; exact hj') (by rw [hshl]; exact hj'),
        getD_shiftBy (by rw [hfl]; exact hj') (by rw [hcl]; exact hj'), hfg j hj' a b k1 k2 k3, hcg j hj',
        ← Nat.add_assoc, k4, Nat.mul_add, Nat.add_assoc]

/-- The padded global tensor at the position of a window's tap is what the sequential operator reads. -/
theorem paddedGlobal_winRead {D : Nat} {F : WinParams} {G Y o κ q : List Nat} {X : List Nat → α} (hG : G.length = D)
    (hY : Y.length = D) (ho : o.length = D)
    (hq : ∀ j, j < D → q.getD j 0 = F.s.getD j 0 * (Y.getD j 0 + o.getD j 0) + F.d.getD j 0 * κ.getD j 0) :
    paddedGlobal v F.p G X q = winRead v G F.s F.d F.p X (shiftBy Y o) κ := by
  have hsol : (shiftBy Y o).length = D := by rw [length_shiftBy (by rw [ho, hY]), hY]
  unfold paddedGlobal winRead
  congr 1
  unfold winPos
  rw [hsol, hG]
  apply List.map_congr_left
  intro j hj
  have hj' := List.mem_range.1 hj
  rw [hq j hj', getD_shiftBy (by rw [hY]; exact hj') (by rw [ho]; exact hj')]
  push_cast
  ring

/-- The core: when a worker has finished its exchange, its local operator without padding produces at least
the worker's share of the outputs, the share and no more along `j` exactly if the last limit holds there, and
every window of the share reads what the sequential operator's window reads. -/
theorem windows_reach (h : WinInput P W L localS x X t rg) (hl : WinReach P W L)
    (R : WinRun P W v localS x dt junk ops eager k U S g) {r : Nat} (hr : r < P.members.length)
    (hfin : (g.ws r).phase = haloPhases P) :
    let F := W.full P.shape.length
    let idx := getCoords P.shape r
    let M := fun j => torchOut1 (L.global.getD j 0) (F.k.getD j 0) (F.s.getD j 0) (F.p.getD j 0) (F.d.getD j 0)
    let I := localInput P v localS x U g r
    I.1.length = P.shape.length ∧
    (∀ j, j < P.shape.length →
      subsize (P.shape.getD j 0) (idx.getD j 0) (M j) ≤
        torchOut1 (I.1.getD j 0) (F.k.getD j 0) (F.s.getD j 0) 0 (F.d.getD j 0) ∧
      (torchOut1 (I.1.getD j 0) (F.k.getD j 0) (F.s.getD j 0) 0 (F.d.getD j 0) =
          subsize (P.shape.getD j 0) (idx.getD j 0) (M j) ↔
        AxisShare (F.k.getD j 0) (F.s.getD j 0) (F.p.getD j 0) (F.d.getD j 0) (L.getD j []) (idx.getD j 0))) ∧
    ∀ o κ z : List Nat, o.length = P.shape.length →
      (∀ j, j < P.shape.length → o.getD j 0 < subsize (P.shape.getD j 0) (idx.getD j 0) (M j)) →
      (∀ j, j < P.shape.length → κ.getD j 0 < F.k.getD j 0) → (∀ j, z.getD j 0 = 0) →
      winRead v I.1 F.s F.d z I.2 o κ = winRead v L.global F.s F.d F.p X
        (shiftBy ((List.range P.shape.length).map fun j =>
          startIdx (P.shape.getD j 0) (idx.getD j 0) (M j)) o) κ := by
  intro F idx M I
  obtain ⟨T, hT, hU, hsh, hst, hS⟩ := R.facts h
  have hok : (winPlan P W L).OK := plan_ok_always (winDims_plan h)
  obtain ⟨c1, c2, c3⟩ := windows_cell h hl.base R hr
  refine ⟨c1, c2, fun o κ z hol ho hκ hz => ?_⟩
  obtain ⟨l, hl1, e, hp⟩ := c3 o κ z hol ho hκ hz
  rw [e, (C35_ghosts hok (hl.fits h) hS (paddedGlobal v (globalPadding P.shape.length W.p) L.global X)
    _ hst R.exec hr hfin l hl1).2, globalPadding_full]
  refine paddedGlobal_winRead (by rw [Layout.length_global, h.length]) (by simp) hol fun j hj => ?_
  rw [getD_map_range _ _ hj]
  exact hp j hj

/-- With all limits: the worker's share of the outputs, no more. -/
theorem windows_read (h : WinInput P W L localS x X t rg) (hl : WinLimits P W L)
    (R : WinRun P W v localS x dt junk ops eager k U S g) {r : Nat} (hr : r < P.members.length)
    (hfin : (g.ws r).phase = haloPhases P) :
    let F := W.full P.shape.length
    let idx := getCoords P.shape r
    let M := fun j => torchOut1 (L.global.getD j 0) (F.k.getD j 0) (F.s.getD j 0) (F.p.getD j 0) (F.d.getD j 0)
    let I := localInput P v localS x U g r
    I.1.length = P.shape.length ∧
    (∀ j, j < P.shape.length → torchOut1 (I.1.getD j 0) (F.k.getD j 0) (F.s.getD j 0) 0 (F.d.getD j 0) =
      subsize (P.shape.getD j 0) (idx.getD j 0) (M j)) ∧
    ∀ o κ z : List Nat, o.length = P.shape.length →
      (∀ j, j < P.shape.length → o.getD j 0 < subsize (P.shape.getD j 0) (idx.getD j 0) (M j)) →
      (∀ j, j < P.shape.length → κ.getD j 0 < F.k.getD j 0) → (∀ j, z.getD j 0 = 0) →
      winRead v I.1 F.s F.d z I.2 o κ = winRead v L.global F.s F.d F.p X
        (shiftBy ((List.range P.shape.length).map fun j =>
          startIdx (P.shape.getD j 0) (idx.getD j 0) (M j)) o) κ := by
  intro F idx M I
  obtain ⟨c1, c2, c3⟩ := windows_reach h hl.reach R hr hfin
  exact ⟨c1, fun j hj => (c2 j hj).2.2 (hl.share idx j hj), c3⟩

end

end Verif
