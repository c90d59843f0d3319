import Verif.Interp.Fits
import Mathlib.Data.Rat.Floor

/-!
# Interpolation: worked case and counterexamples
-/

namespace Verif

open Exchange

/-! ## Halos wider than the neighbour's block -/

section
variable {α : Type} {H : HaloPlan} {S : Nat → HaloSetup} {st0 : Nat → List Nat → α}

/-- A cell of a left halo, the other coordinates inside the block, holds after the exchange what the neighbour
held at the corresponding cell before it. -/
theorem lghost_final (h : H.OK) (dn : H.Done S) {i w : Nat} (hi : i < H.D) (hw : w < H.n)
    (hc : 0 < H.co w i) {l : List Nat} (hll : l.length = H.D) (hli : l.getD i 0 < H.lw i (H.co w i))
    (ho : ∀ j, j < H.D → j ≠ i → H.lw j (H.co w j) ≤ l.getD j 0 ∧
      l.getD j 0 < H.lw j (H.co w j) + H.x j (H.co w j)) :
    ∃ s, s < H.n ∧ H.co s i + 1 = H.co w i ∧ (∀ j, j ≠ i → H.co s j = H.co w j) ∧ ∃ l', l'.length = H.D ∧
      l'.getD i 0 = H.lw i (H.co s i) + H.x i (H.co s i) - H.lw i (H.co w i) + l.getD i 0 ∧
      (∀ j, j < H.D → j ≠ i → l'.getD j 0 = l.getD j 0) ∧
      lock (haloForward S) st0 (haloPhases H.P) w l = st0 s l' := by
  obtain ⟨s, hs⟩ : ∃ s, HaloPlan.left S i w = some s := by
    cases hl : HaloPlan.left S i w with
    | some s => exact ⟨s, rfl⟩
    | none => have := (HaloPlan.nb_spec h dn hw hi).1.1 hl; omega
  obtain ⟨hsn, hsc, hso⟩ := (HaloPlan.nb_spec h dn hw hi).2.2.1 s hs
  have hcw := HaloPlan.co_lt h hw hi
  have hcs : H.co s i + 1 < H.Pd i := by omega
  have hr := h.rangel i hi _ hcs
  rw [hsc] at hr
  have hwid : (H.width i (H.co s i)).rsend = H.lw i (H.co w i) := by
    show (if _ then _ else _) = _
    rw [if_pos hcs, hsc]
  have hm : InSlices ((S w).cells i .lghost) l := by
    rw [HaloPlan.mem_cells h dn hw]
    refine ⟨hll, fun j hj => ?_⟩
    rw [HaloPlan.msgShape, getD_map_range _ _ hj]
    by_cases e : j = i
    · subst e
      simp only [HaloPlan.low, Nat.lt_irrefl, if_false, if_true, HaloPlan.msgWidth, HaloPlan.width]
      omega
    · have := ho j hj e
      by_cases e2 : j < i
      · simp only [HaloPlan.low, e, e2, if_true, if_false, HaloPlan.size]
        omega
      · simp only [HaloPlan.low, e, e2, if_false]
        omega
  let l' := shiftBy (((S s).cells i .rbulk).map Prod.fst) (HaloPlan.rel ((S w).cells i .lghost) l)
  have hl'len : l'.length = H.D := HaloPlan.moved_length dn hw hsn hll _ _
  have hl'i : l'.getD i 0 = H.lw i (H.co s i) + H.x i (H.co s i) - H.lw i (H.co w i) + l.getD i 0 := by
    show (shiftBy (((S s).cells i .rbulk).map Prod.fst) (HaloPlan.rel ((S w).cells i .lghost) l)).getD i 0 = _
    rw [HaloPlan.moved_getD h dn hw hsn hi hll]
    simp only [HaloPlan.low, Nat.lt_irrefl, if_false, if_true, hwid, Nat.sub_zero]
  have hl'o : ∀ j, j < H.D → j ≠ i → l'.getD j 0 = l.getD j 0 := by
    intro j hj e
    show (shiftBy (((S s).cells i .rbulk).map Prod.fst) (HaloPlan.rel ((S w).cells i .lghost) l)).getD j 0 = _
    rw [HaloPlan.moved_getD h dn hw hsn hj hll]
    have := ho j hj e
    by_cases e2 : j < i
    · simp only [HaloPlan.low, e, e2, if_true, if_false]
      omega
    · simp only [HaloPlan.low, e, e2, if_false, hso j e]
      omega
  refine ⟨s, hsn, hsc, hso, l', hl'len, hl'i, hl'o, ?_⟩
  rw [HaloPlan.phases_of h hi hcs, HaloPlan.fwd_keep_range h dn hw (a := i + 1) (by omega) (Nat.le_refl _),
    HaloPlan.fwd_lghost h dn hi hw hm hs]
  · exact HaloPlan.fwd_keep_range (st0 := st0) h dn hsn (l := l') (Nat.zero_le i) (by omega) fun p _ hp => by
      rw [hl'o p (by omega) (by omega), hso p (by omega)]
      exact ho p (by omega) (by omega)
  · intro p h1 h2
    exact ho p h2 (by omega)

end

/-- Workers along one feature dimension. -/
def lineP (n : Nat) : Cart := ⟨List.range n, [1, 1, n], some 0⟩
/-- The tensor `1, 2, 3, …`. -/
def lineX : List Nat → ℚ := fun l => (l.getD 2 0 : ℚ) + 1
/-- Local shapes of a tensor of shape `g`, evenly cut. -/
def evenS (P : Cart) (g : List Nat) : Nat → List Nat × TorchDtype × Bool := fun w =>
  ((Layout.balanced P.shape g).shapeAt ((P.index w).getD []), .float32, true)
/-- Local parts of `X`. -/
def evenX (P : Cart) (g : List Nat) (X : List Nat → ℚ) : Nat → List Nat → ℚ := fun w l =>
  X (shiftBy ((Layout.balanced P.shape g).startAt ((P.index w).getD [])) l)

theorem even_input {P : Cart} {g : List Nat} (hw : P.WF) (hl : g.length = P.shape.length) (X : List Nat → ℚ) :
    UpInput P g (evenS P g) (evenX P g X) X .float32 true := by
  refine ⟨hw, hl, fun w _ idx e => ?_, fun w _ idx e l _ => ?_⟩
  · simp only [evenS, e, Option.getD_some]
  · simp only [evenX, e, Option.getD_some]

/-- Linear, `align_corners`, 6 cells to 20 over four workers. -/
def wideLin : InterpParams ℚ := ⟨.linear, true, none⟩
/-- Nearest, 9 cells to 7 over seven workers. -/
def wideNear : InterpParams ℚ := ⟨.nearest, false, none⟩

theorem wideLin_case : UpCase (lineP 4) (some [1, 1, 20]) wideLin [1, 1, 6] [1, 1, 20] where
  out := .size rfl
  dims := by decide
  lead j hj := by interval_cases j <;> rfl
  feat j h2 hj := by
    change j < 3 at hj
    have : j = 2 := by omega
    subst this
    decide
  nearest h := by cases h
  lead1 _ j hj := by interval_cases j <;> rfl
  linear _ j h2 hj := by
    change j < 3 at hj
    have : j = 2 := by omega
    subst this
    exact ⟨by decide, by decide, fun o _ =>
      C50_weights rfl (by decide) (by decide) (fun _ s hs => by cases hs) (by decide) o⟩

theorem wideNear_case : UpCase (lineP 7) (some [1, 1, 7]) wideNear [1, 1, 9] [1, 1, 7] where
  out := .size rfl
  dims := by decide
  lead j hj := by interval_cases j <;> rfl
  feat j h2 hj := by
    change j < 3 at hj
    have : j = 2 := by omega
    subst this
    decide
  nearest _ s hs := by cases hs
  lead1 h := by cases h
  linear h := by cases h

/-- What worker 3 sees in both cases: its padded block starts with cell 3 of the input, which should come from
worker 2, who has one cell and passes on a halo cell. -/
theorem wide_view {n : Nat} {p : InterpParams ℚ} {gx gy : List Nat} {size : Option (List Nat)}
    (hw : (lineP n).WF) (h : UpCase (lineP n) size p gx gy) (hl : gx.length = 3) (hn : 3 < n)
    (hc : ∀ s, s < n → getCoords [1, 1, n] s = [0, 0, s])
    (e0 : (upPlan (lineP n) p gx gy).lw 0 0 = 0 ∧ (upPlan (lineP n) p gx gy).rw 0 0 = 0 ∧
      (upPlan (lineP n) p gx gy).x 0 0 = 1 ∧ (upPlan (lineP n) p gx gy).lw 1 0 = 0 ∧
      (upPlan (lineP n) p gx gy).rw 1 0 = 0 ∧ (upPlan (lineP n) p gx gy).x 1 0 = 1)
    (e2 : (upPlan (lineP n) p gx gy).lw 2 2 = 2 ∧ (upPlan (lineP n) p gx gy).x 2 2 = 1 ∧
      (upPlan (lineP n) p gx gy).lw 2 3 = 2 ∧ (upPlan (lineP n) p gx gy).x 2 3 = 1 ∧
      (upPlan (lineP n) p gx gy).rw 2 3 = 0)
    (eo : (upPlan (lineP n) p gx gy).origin 3 = [0, 0, 3])
    (ev : ((upFacts (lineP n) p gx gy 2).padInput (evenS (lineP n) gx 2).1 (evenX (lineP n) gx lineX 2)).2 [0, 0, 1] = 0 ∧
      ((upFacts (lineP n) p gx gy 2).padInput (evenS (lineP n) gx 2).1 (evenX (lineP n) gx lineX 2)).2 [0, 0, 2] = 5 ∧
      ((upFacts (lineP n) p gx gy 3).padInput (evenS (lineP n) gx 3).1 (evenX (lineP n) gx lineX 3)).2 [0, 0, 2] = 6)
    {β : Type} {dt : NpKey} {junk : Nat → β} {ops : Nat → List (MgrOp β)} {eager : Bool} {k : Nat}
    {U : Nat → UpSetup} {S : Nat → HaloSetup} {g : GState (List Nat → ℚ) (List Nat → ℚ)}
    (R : UpRun (lineP n) size p (evenS (lineP n) gx) (evenX (lineP n) gx lineX) dt junk ops eager k U S g)
    (hfin : (g.ws 3).phase = haloPhases (lineP n)) :
    ∃ y, upForward (lineP n) p (evenS (lineP n) gx) (evenX (lineP n) gx lineX) U g 3 = some y ∧ y.dtype = .float32 ∧
      y.shape = (Layout.balanced [1, 1, n] gy).shapeAt [0, 0, 3] ∧
      ∀ o, InBounds o y.shape → y.val o =
        torchInterp p gx gy (fun l => if l.getD 2 0 = 3 then 0 else lineX l)
          (shiftBy ((Layout.balanced [1, 1, n] gy).startAt [0, 0, 3]) o) := by
  have hin := even_input (P := lineP n) (g := gx) hw hl lineX
  have hmem : (lineP n).members.length = n := by simp [lineP]
  have hm : ∀ r, r < n → (lineP n).members.getD r 0 = r := by
    intro r hr
    simp [lineP, hr]
  have hU := R.facts hin h
  have ok := upPlan_ok_always hw hl h
  have dn := (R.setUp hin hU).done ok.wf
  have h3 : 3 < (lineP n).members.length := by omega
  have hco : ∀ s, s < n → ∀ j, (upPlan (lineP n) p gx gy).co s j = ([0, 0, s] : List Nat).getD j 0 := by
    intro s hs j
    show (getCoords [1, 1, n] s).getD j 0 = _
    rw [hc s hs]
  have hV := up_view (U := U) (g := g) hin (Or.inl rfl) h hU h3 (fun l => if l.getD 2 0 = 3 then 0 else lineX l) ?_
  · rw [show getCoords (lineP n).shape 3 = [0, 0, 3] from hc 3 (by omega)] at hV
    exact hV
  intro l hlb
  have hll : l.length = 3 := by
    rw [hlb.length_eq, HaloPlan.length_shape]
    rfl
  have hlt := (inBounds_iff.1 hlb).2
  rw [HaloPlan.length_shape] at hlt
  have c0 := hco 3 hn 0
  have c1 := hco 3 hn 1
  have c2 := hco 3 hn 2
  change _ = 0 at c0
  change _ = 0 at c1
  change _ = 3 at c2
  have b0 := hlt 0 (by decide : 0 < 3)
  have b1 := hlt 1 (by decide : 1 < 3)
  have b2 := hlt 2 (by decide : 2 < 3)
  rw [HaloPlan.shape_getD (by decide : 0 < 3), HaloPlan.size, c0, e0.1, e0.2.1, e0.2.2.1] at b0
  rw [HaloPlan.shape_getD (by decide : 1 < 3), HaloPlan.size, c1, e0.2.2.2.1, e0.2.2.2.2.1, e0.2.2.2.2.2] at b1
  rw [HaloPlan.shape_getD (by decide : 2 < 3), HaloPlan.size, c2, e2.2.2.1, e2.2.2.2.1, e2.2.2.2.2] at b2
  obtain ⟨a, ha⟩ : ∃ a, l = [0, 0, a] := by
    match l, hll with
    | [a, b, c], _ =>
      simp only [List.getD_cons_zero, List.getD_cons_succ] at b0 b1
      exact ⟨c, by rw [show a = 0 by omega, show b = 0 by omega]⟩
  subst ha
  simp only [List.getD_cons_zero, List.getD_cons_succ] at b2
  have hst := async_final (HaloPlan.fwd_matched ok dn) (HaloPlan.fwd_commutes ok dn) R.exec h3 hfin
  rw [eo, hst]
  have hinit : ∀ r, r < n → ∀ l, ((U r).padInput (evenS (lineP n) gx ((lineP n).members.getD r 0)).1
      (evenX (lineP n) gx lineX ((lineP n).members.getD r 0))).2 l =
      ((upFacts (lineP n) p gx gy r).padInput (evenS (lineP n) gx r).1 (evenX (lineP n) gx lineX r)).2 l := by
    intro r hr l
    rw [hU r (by omega), hm r hr]
  -- cells of the halo
  have hgh : ∀ a, a < 2 → lock (haloForward S) (fun r => ((U r).padInput (evenS (lineP n) gx ((lineP n).members.getD r 0)).1
      (evenX (lineP n) gx lineX ((lineP n).members.getD r 0))).2) (haloPhases (lineP n)) 3 [0, 0, a] =
      ((upFacts (lineP n) p gx gy 2).padInput (evenS (lineP n) gx 2).1 (evenX (lineP n) gx lineX 2)).2 [0, 0, 1 + a] := by
    intro a ha
    obtain ⟨s, hs, q1, q2, l', m1, m2, m3, m4⟩ := lghost_final (st0 := fun r => ((U r).padInput (evenS (lineP n) gx ((lineP n).members.getD r 0)).1
      (evenX (lineP n) gx lineX ((lineP n).members.getD r 0))).2) ok dn (i := 2) (w := 3) (l := [0, 0, a]) (by decide : 2 < 3) h3
      (by rw [c2]; decide) rfl (by rw [c2, e2.2.2.1]; exact ha)
      (by
        intro j hj hj2
        change j < 3 at hj
        interval_cases j
        · rw [c0, e0.1, e0.2.2.1]; exact ⟨Nat.le_refl 0, Nat.zero_lt_one⟩
        · rw [c1, e0.2.2.2.1, e0.2.2.2.2.2]; exact ⟨Nat.le_refl 0, Nat.zero_lt_one⟩
        · exact absurd rfl hj2)
    have hs' : s < n := by rw [← hmem]; exact hs
    have hs2 : s = 2 := by
      have := hco s hs' 2
      rw [c2] at q1
      change _ = s at this
      omega
    subst hs2
    refine m4.trans ?_
    rw [hinit 2 hs']
    have cs := hco 2 hs' 2
    change _ = 2 at cs
    rw [cs, c2, e2.1, e2.2.1, e2.2.2.1] at m2
    have n0 := m3 0 (by decide : 0 < 3) (by decide)
    have n1 := m3 1 (by decide : 1 < 3) (by decide)
    change l'.length = 3 at m1
    match l', m1 with
    | [u, v, w], _ =>
      simp only [List.getD_cons_zero, List.getD_cons_succ] at n0 n1 m2
      rw [n0, n1, show w = 1 + a by omega]
  interval_cases a
  · refine (hgh 0 (by decide)).trans ?_
    rw [ev.1]
    rfl
  · refine (hgh 1 (by decide)).trans ?_
    rw [ev.2.1]
    decide +kernel
  · have hk := HaloPlan.fwd_keep_range (st0 := fun r => ((U r).padInput (evenS (lineP n) gx ((lineP n).members.getD r 0)).1
      (evenX (lineP n) gx lineX ((lineP n).members.getD r 0))).2) ok dn h3 (l := [0, 0, 2]) (Nat.zero_le 3) (Nat.le_refl 3)
      (by
        intro j _ hj
        interval_cases j
        · rw [c0, e0.1, e0.2.2.1]; decide
        · rw [c1, e0.2.2.2.1, e0.2.2.2.2.2]; decide
        · rw [c2, e2.2.2.1, e2.2.2.2.1]; decide)
    have hph : haloPhases (lineP n) = 3 :=
      HaloPlan.phases_of (H := upPlan (lineP n) p gx gy) ok (j := 2) (c := 0) (by decide : 2 < 3)
        (show 0 + 1 < n by omega)
    have hph' : haloPhases (upPlan (lineP n) p gx gy).P = 3 := hph
    rw [hph']
    refine hk.trans ?_
    refine (hinit 3 hn _).trans ?_
    rw [ev.2.2]
    decide +kernel

/-- C50 is false when halos are wider than blocks: linear interpolation with `align_corners` of 6 cells to 20 over
four workers.  In every completed run worker 3 returns 90/19 for output 15 instead of 94/19. -/
theorem C50_false_linear {β : Type} {dt : NpKey} {junk : Nat → β} {ops : Nat → List (MgrOp β)} {eager : Bool} {k : Nat}
    {U : Nat → UpSetup} {S : Nat → HaloSetup} {g : GState (List Nat → ℚ) (List Nat → ℚ)}
    (R : UpRun (lineP 4) (some [1, 1, 20]) wideLin (evenS (lineP 4) [1, 1, 6]) (evenX (lineP 4) [1, 1, 6] lineX)
      dt junk ops eager k U S g) (hfin : (g.ws 3).phase = haloPhases (lineP 4)) :
    ∃ y, upForward (lineP 4) wideLin (evenS (lineP 4) [1, 1, 6]) (evenX (lineP 4) [1, 1, 6] lineX) U g 3 = some y ∧
      y.shape = [1, 1, 5] ∧ y.val [0, 0, 0] = 90 / 19 ∧
      torchInterp wideLin [1, 1, 6] [1, 1, 20] lineX [0, 0, 15] = 94 / 19 := by
  obtain ⟨y, h1, -, h2, h3⟩ := wide_view ⟨by decide, rfl, by decide⟩ wideLin_case rfl (by decide) (by decide)
    (by decide +kernel) (by decide +kernel) (by decide +kernel) (by decide +kernel) R hfin
  have h2' : y.shape = [1, 1, 5] := h2.trans (by decide)
  refine ⟨y, h1, h2', ?_, by decide +kernel⟩
  rw [h3 [0, 0, 0] (by rw [h2']; decide)]
  decide +kernel

/-- The same for mode nearest: 9 cells to 7 over seven workers; worker 3 returns 0 for output 3 instead of 4. -/
theorem C50_false_nearest {β : Type} {dt : NpKey} {junk : Nat → β} {ops : Nat → List (MgrOp β)} {eager : Bool} {k : Nat}
    {U : Nat → UpSetup} {S : Nat → HaloSetup} {g : GState (List Nat → ℚ) (List Nat → ℚ)}
    (R : UpRun (lineP 7) (some [1, 1, 7]) wideNear (evenS (lineP 7) [1, 1, 9]) (evenX (lineP 7) [1, 1, 9] lineX)
      dt junk ops eager k U S g) (hfin : (g.ws 3).phase = haloPhases (lineP 7)) :
    ∃ y, upForward (lineP 7) wideNear (evenS (lineP 7) [1, 1, 9]) (evenX (lineP 7) [1, 1, 9] lineX) U g 3 = some y ∧
      y.shape = [1, 1, 1] ∧ y.val [0, 0, 0] = 0 ∧
      torchInterp wideNear [1, 1, 9] [1, 1, 7] lineX [0, 0, 3] = 4 := by
  obtain ⟨y, h1, -, h2, h3⟩ := wide_view ⟨by decide, rfl, by decide⟩ wideNear_case rfl (by decide) (by decide)
    (by decide +kernel) (by decide +kernel) (by decide +kernel) (by decide +kernel) R hfin
  have h2' : y.shape = [1, 1, 1] := h2.trans (by decide)
  refine ⟨y, h1, h2', ?_, by decide +kernel⟩
  rw [h3 [0, 0, 0] (by rw [h2']; decide)]
  decide +kernel

/-- Completed runs of both exist. -/
example : ∃ k U S g, UpRun (lineP 4) (some [1, 1, 20]) wideLin (evenS (lineP 4) [1, 1, 6])
    (evenX (lineP 4) [1, 1, 6] lineX) (.inst .float64) (fun _ => (0 : Nat)) (fun _ => []) false k U S g ∧
    ∀ r, r < 4 → (g.ws r).phase = haloPhases (lineP 4) := by
  have hin := even_input (P := lineP 4) (g := [1, 1, 6]) ⟨by decide, rfl, by decide⟩ rfl lineX
  obtain ⟨U, S, R⟩ := C50_starts hin wideLin_case (.inst .float64) (fun _ => (0 : Nat)) (fun _ => []) false
  obtain ⟨k, g, R', -, hf⟩ := C50_completes hin wideLin_case R
  exact ⟨k, U, S, g, R', hf⟩
example : ∃ k U S g, UpRun (lineP 7) (some [1, 1, 7]) wideNear (evenS (lineP 7) [1, 1, 9])
    (evenX (lineP 7) [1, 1, 9] lineX) (.inst .float64) (fun _ => (0 : Nat)) (fun _ => []) true k U S g ∧
    ∀ r, r < 7 → (g.ws r).phase = haloPhases (lineP 7) := by
  have hin := even_input (P := lineP 7) (g := [1, 1, 9]) ⟨by decide, rfl, by decide⟩ rfl lineX
  obtain ⟨U, S, R⟩ := C50_starts hin wideNear_case (.inst .float64) (fun _ => (0 : Nat)) (fun _ => []) true
  obtain ⟨k, g, R', -, hf⟩ := C50_completes hin wideNear_case R
  exact ⟨k, U, S, g, R', hf⟩

/-! ## Undefined or failing passes -/

section
variable {K : Type} [Field K] [LinearOrder K] [FloorRing K]

theorem interpForward_none {p : InterpParams K} {xs : List Int} {gx ys ye gy shape : List Nat} {t : TorchDtype}
    (val : List Nat → K)
    (h : (kernelAccepts t shape.length && kernelDefined p shape.prod (List.zipWith (· - ·) ye ys).prod
      (shape.getD 0 0 * shape.getD 1 0) (interpDims xs gx ys gy shape (List.zipWith (· - ·) ye ys))) = false) :
    interpForward p xs gx ys ye gy ⟨shape, t, val⟩ = none := by
  unfold interpForward
  dsimp only
  rw [h]
  rfl

theorem interpBackward_none {p : InterpParams K} {xs xe : List Int} {gx ys gy : List Nat} {grad : Tensor K}
    (h : (List.zipWith (· - ·) xe xs).all (fun n => decide (0 ≤ n)) = false) :
    interpBackward p xs xe gx ys gy grad = none := by
  unfold interpBackward
  dsimp only
  rw [h]
  rfl

variable {P : Cart} {p : InterpParams K} {gx gy : List Nat} {localS : Nat → List Nat × TorchDtype × Bool}
  {x : Nat → List Nat → K} {X : List Nat → K} {t : TorchDtype} {rg : Bool} {size : Option (List Nat)}
  {β : Type} {dt : NpKey} {junk : Nat → β} {ops : Nat → List (MgrOp β)} {eager : Bool} {k : Nat}
  {U : Nat → UpSetup} {S : Nat → HaloSetup} {g : Exchange.GState (List Nat → K) (List Nat → K)}

theorem UpRun.facts_of (hin : UpInput P gx localS x X t rg) (hgy : upsampleShape size p.scale gx = some gy)
    (hly : gy.length = P.shape.length)
    (hfac : ∀ j, j < P.shape.length → (mixinFac p j (gx.getD j 0) (gy.getD j 0)).isSome)
    (R : UpRun P size p localS x dt junk ops eager k U S g) :
    ∀ r, r < P.members.length → U r = upFacts P p gx gy r := by
  intro r hr
  have := R.setup r hr
  rw [upSetup_spec hin hgy hly hfac hr] at this
  exact (Option.some.inj this).symm

/-- The layer can be started on all workers. -/
theorem starts_of (hin : UpInput P gx localS x X t rg) (hgy : upsampleShape size p.scale gx = some gy)
    (hly : gy.length = P.shape.length)
    (hfac : ∀ j, j < P.shape.length → (mixinFac p j (gx.getD j 0) (gy.getD j 0)).isSome)
    (dt : NpKey) (junk : Nat → β) (ops : Nat → List (MgrOp β)) (eager : Bool) :
    ∃ U S, UpRun P size p localS x dt junk ops eager 0 U S (GState.init fun r =>
      ((U r).padInput (localS (P.members.getD r 0)).1 (x (P.members.getD r 0))).2) := by
  obtain ⟨S, hS⟩ := C35_setup (H := upPlan P p gx gy) hin.wf dt junk ops
  refine ⟨upFacts P p gx gy, S, fun r hr => upSetup_spec hin hgy hly hfac hr, fun r hr => ?_, .refl _⟩
  rw [(upPadded hin hr).1]
  have e := upWidths_plan (p := p) (gx := gx) (gy := gy) (r := r) (by rw [← hin.wf.size]; exact hr)
  change haloSetup P ((interpInfo p P.shape gx gy (getCoords P.shape r)).widths) _ _ _ _ _ = _
  rw [e]
  exact hS r hr

/-- The output of a worker in terms of its setup. -/
theorem upForward_eq {r : Nat} {V : UpSetup} (hU : U r = V) :
    upForward P p localS x U g r = interpForward p V.xs V.gx V.ys V.ye V.gy
      ⟨(pySlices (V.padInput (localS (P.members.getD r 0)).1 (x (P.members.getD r 0))).1 V.info.needed).map
        (fun q => q.2 - q.1), (localS (P.members.getD r 0)).2.1,
        readSlice (pySlices (V.padInput (localS (P.members.getD r 0)).1 (x (P.members.getD r 0))).1 V.info.needed)
          (g.ws r).st⟩ := by
  subst hU
  rfl

end

/-- Linear, half-pixel positions. -/
def halfLin : InterpParams ℚ := ⟨.linear, false, none⟩
/-- Two workers along the channel dimension. -/
def chanP : Cart := ⟨[0, 1], [1, 2, 1], some 0⟩

/-- C50 is false for mode linear with distributed channels: 2 channels over two workers, 2 cells to 4.  One channel
too many is exchanged, and on worker 0 the kernel writes outside the output. -/
theorem C50_false_channels {β : Type} {dt : NpKey} {junk : Nat → β} {ops : Nat → List (MgrOp β)} {eager : Bool} {k : Nat}
    {U : Nat → UpSetup} {S : Nat → HaloSetup} {g : GState (List Nat → ℚ) (List Nat → ℚ)}
    (R : UpRun chanP (some [1, 2, 4]) halfLin (evenS chanP [1, 2, 2]) (evenX chanP [1, 2, 2] lineX)
      dt junk ops eager k U S g) :
    upForward chanP halfLin (evenS chanP [1, 2, 2]) (evenX chanP [1, 2, 2] lineX) U g 0 = none := by
  have hin := even_input (P := chanP) (g := [1, 2, 2]) ⟨by decide, rfl, by decide⟩ rfl lineX
  have hU := R.facts_of hin (show upsampleShape _ _ _ = some [1, 2, 4] by decide +kernel) rfl (by decide +kernel) 0
    (by decide)
  rw [upForward_eq hU]
  exact interpForward_none _ (by decide +kernel)

/-- C50 is false for mode linear with an empty output: 3 cells to 2 over three workers; worker 2 divides by the
number of its outputs. -/
theorem C50_false_empty {β : Type} {dt : NpKey} {junk : Nat → β} {ops : Nat → List (MgrOp β)} {eager : Bool} {k : Nat}
    {U : Nat → UpSetup} {S : Nat → HaloSetup} {g : GState (List Nat → ℚ) (List Nat → ℚ)}
    (R : UpRun (lineP 3) (some [1, 1, 2]) halfLin (evenS (lineP 3) [1, 1, 3]) (evenX (lineP 3) [1, 1, 3] lineX)
      dt junk ops eager k U S g) :
    upForward (lineP 3) halfLin (evenS (lineP 3) [1, 1, 3]) (evenX (lineP 3) [1, 1, 3] lineX) U g 2 = none := by
  have hin := even_input (P := lineP 3) (g := [1, 1, 3]) ⟨by decide, rfl, by decide⟩ rfl lineX
  have hU := R.facts_of hin (show upsampleShape _ _ _ = some [1, 1, 2] by decide +kernel) rfl (by decide +kernel) 2
    (by decide)
  rw [upForward_eq hU]
  exact interpForward_none _ (by decide +kernel)

/-- C50 is false for `align_corners` and one output, already on one worker: setup divides by zero.  The
sequential result is the first cell. -/
theorem C50_false_one_output :
    upSetup (lineP 1) (some [1, 1, 1]) wideLin (evenS (lineP 1) [1, 1, 3]) 0 = none ∧
    torchInterp wideLin [1, 1, 3] [1, 1, 1] lineX [0, 0, 0] = 1 := by
  constructor
  · decide +kernel
  · decide +kernel

/-! ## One worker -/

/-- On one worker nothing is exchanged. -/
theorem single_final {p : InterpParams ℚ} {gx gy : List Nat} {size : Option (List Nat)} (hl : gx.length = 3)
    {β : Type} {dt : NpKey} {junk : Nat → β} {ops : Nat → List (MgrOp β)} {eager : Bool} {k : Nat}
    {U : Nat → UpSetup} {S : Nat → HaloSetup} {g : GState (List Nat → ℚ) (List Nat → ℚ)}
    (hU : ∀ r, r < (lineP 1).members.length → U r = upFacts (lineP 1) p gx gy r)
    (R : UpRun (lineP 1) size p (evenS (lineP 1) gx) (evenX (lineP 1) gx lineX) dt junk ops eager k U S g)
    (hfin : (g.ws 0).phase = haloPhases (lineP 1)) :
    (g.ws 0).st = ((upFacts (lineP 1) p gx gy 0).padInput (evenS (lineP 1) gx 0).1 (evenX (lineP 1) gx lineX 0)).2 := by
  have hw : (lineP 1).WF := ⟨by decide, rfl, by decide⟩
  have hin := even_input (P := lineP 1) (g := gx) hw hl lineX
  have hpd : ∀ j, j < 3 → (lineP 1).shape.getD j 0 = 1 := by decide
  have ok := upPlan_ok (p := p) (gy := gy) hw hl
    ⟨fun j hj c hc => by rw [show (upPlan (lineP 1) p gx gy).Pd j = 1 from hpd j hj] at hc; omega,
      fun j hj c hc => by rw [show (upPlan (lineP 1) p gx gy).Pd j = 1 from hpd j hj] at hc; omega⟩
  have dn := (R.setUp hin hU).done ok.wf
  rw [async_final (HaloPlan.fwd_matched ok dn) (HaloPlan.fwd_commutes ok dn) R.exec (show 0 < 1 by decide) hfin,
    show haloPhases (upPlan (lineP 1) p gx gy).P = 0 from (by decide : haloPhases (lineP 1) = 0)]
  show ((U 0).padInput _ _).2 = _
  rw [hU 0 (by decide)]
  rfl

/-- Nearest with scale factor 8/5. -/
def scaleNear : InterpParams ℚ := ⟨.nearest, false, some (8 / 5)⟩

/-- C50 is false for mode nearest with an inexact scale factor, already on one worker: 3 cells, factor 8/5, output 3
is cell 2; PyTorch takes cell 1. -/
theorem C50_false_scale {β : Type} {dt : NpKey} {junk : Nat → β} {ops : Nat → List (MgrOp β)} {eager : Bool} {k : Nat}
    {U : Nat → UpSetup} {S : Nat → HaloSetup} {g : GState (List Nat → ℚ) (List Nat → ℚ)}
    (R : UpRun (lineP 1) none scaleNear (evenS (lineP 1) [1, 1, 3]) (evenX (lineP 1) [1, 1, 3] lineX)
      dt junk ops eager k U S g) (hfin : (g.ws 0).phase = haloPhases (lineP 1)) :
    TorchOut [1, 1, 3] none scaleNear.scale [1, 1, 4] ∧
    ((upForward (lineP 1) scaleNear (evenS (lineP 1) [1, 1, 3]) (evenX (lineP 1) [1, 1, 3] lineX) U g 0).map
      fun y => (y.shape, y.val [0, 0, 3])) = some ([1, 1, 4], 3) ∧
    torchInterp scaleNear [1, 1, 3] [1, 1, 4] lineX [0, 0, 3] = 2 := by
  have hin := even_input (P := lineP 1) (g := [1, 1, 3]) ⟨by decide, rfl, by decide⟩ rfl lineX
  have hU := R.facts_of hin (show upsampleShape _ _ _ = some [1, 1, 4] by decide +kernel) rfl (by decide +kernel)
  refine ⟨.scale rfl (fun j hj => by interval_cases j <;> rfl) (fun j h2 hj => ?_) (by decide +kernel), ?_,
    by decide +kernel⟩
  · change j < 3 at hj
    have : j = 2 := by omega
    subst this
    decide +kernel
  · rw [upForward_eq (hU 0 (by decide)), single_final rfl hU R hfin]
    decide +kernel

/-- Linear with scale factor 1.00002. -/
def scaleLin : InterpParams ℚ := ⟨.linear, false, some (100002 / 100000)⟩

/-- C50 is false for weights within 1/10000 of 1, already on one worker: 2 cells, factor 1.00002, output 1 is the
last cell exactly. -/
theorem C50_false_weights {β : Type} {dt : NpKey} {junk : Nat → β} {ops : Nat → List (MgrOp β)} {eager : Bool} {k : Nat}
    {U : Nat → UpSetup} {S : Nat → HaloSetup} {g : GState (List Nat → ℚ) (List Nat → ℚ)}
    (R : UpRun (lineP 1) none scaleLin (evenS (lineP 1) [1, 1, 2]) (evenX (lineP 1) [1, 1, 2] lineX)
      dt junk ops eager k U S g) (hfin : (g.ws 0).phase = haloPhases (lineP 1)) :
    TorchOut [1, 1, 2] none scaleLin.scale [1, 1, 2] ∧
    ((upForward (lineP 1) scaleLin (evenS (lineP 1) [1, 1, 2]) (evenX (lineP 1) [1, 1, 2] lineX) U g 0).map
      fun y => (y.shape, y.val [0, 0, 1])) = some ([1, 1, 2], 2) ∧
    torchInterp scaleLin [1, 1, 2] [1, 1, 2] lineX [0, 0, 1] < 2 := by
  have hin := even_input (P := lineP 1) (g := [1, 1, 2]) ⟨by decide, rfl, by decide⟩ rfl lineX
  have hU := R.facts_of hin (show upsampleShape _ _ _ = some [1, 1, 2] by decide +kernel) rfl (by decide +kernel)
  refine ⟨.scale rfl (fun j hj => by interval_cases j <;> rfl) (fun j h2 hj => ?_) (by decide +kernel), ?_,
    by decide +kernel⟩
  · change j < 3 at hj
    have : j = 2 := by omega
    subst this
    decide +kernel
  · rw [upForward_eq (hU 0 (by decide)), single_final rfl hU R hfin]
    decide +kernel

/-! ## Backward -/

/-- Nearest, 4 cells to 2 over three workers: worker 2 has no outputs, and its backward pass asks for a tensor with a
negative extent, whatever the gradient is; its forward pass succeeds (`C50_partial`). -/
theorem C51_undefined_empty {β : Type} {dt : NpKey} {junk : Nat → β} {ops : Nat → List (MgrOp β)} {eager : Bool} {k : Nat}
    {U : Nat → UpSetup} {S : Nat → HaloSetup} {g : GState (List Nat → ℚ) (List Nat → ℚ)}
    (R : UpRun (lineP 3) (some [1, 1, 2]) wideNear (evenS (lineP 3) [1, 1, 4]) (evenX (lineP 3) [1, 1, 4] lineX)
      dt junk ops eager k U S g) :
    (∃ y, upForward (lineP 3) wideNear (evenS (lineP 3) [1, 1, 4]) (evenX (lineP 3) [1, 1, 4] lineX) U g 2 = some y ∧
      y.shape = [1, 1, 0]) ∧
    ∀ grad, interpBackward wideNear (U 2).xs (U 2).xe (U 2).gx (U 2).ys (U 2).gy grad = none := by
  have hin := even_input (P := lineP 3) (g := [1, 1, 4]) ⟨by decide, rfl, by decide⟩ rfl lineX
  have hU := R.facts_of hin (show upsampleShape _ _ _ = some [1, 1, 2] by decide +kernel) rfl (by decide +kernel) 2
    (by decide)
  constructor
  · rw [upForward_eq hU]
    unfold interpForward
    dsimp only
    rw [if_pos (by decide +kernel)]
    refine ⟨_, rfl, ?_⟩
    dsimp only
    decide +kernel
  · intro grad
    rw [hU]
    exact interpBackward_none (by decide +kernel)

/-! ## Uneven input -/

/-- Blocks of 3 and 1 cells. -/
def skewL : Layout := [[1], [1], [3, 1]]
def skewS : Nat → List Nat × TorchDtype × Bool := fun w => (skewL.shapeAt (((lineP 2).index w).getD []), .float32, true)
def skewX : Nat → List Nat → ℚ := fun w l => lineX (shiftBy (skewL.startAt (((lineP 2).index w).getD [])) l)

/-- C50 is false for an unevenly cut input: 4 cells to 4, mode nearest, blocks of 3 and 1.  Worker 1 returns cell 3
for output 2, the sequential result is cell 2. -/
theorem C50_false_uneven {β : Type} {dt : NpKey} {junk : Nat → β} {ops : Nat → List (MgrOp β)} {eager : Bool} {k : Nat}
    {U : Nat → UpSetup} {S : Nat → HaloSetup} {g : GState (List Nat → ℚ) (List Nat → ℚ)}
    (R : UpRun (lineP 2) (some [1, 1, 4]) wideNear skewS skewX dt junk ops eager k U S g)
    (hfin : (g.ws 1).phase = haloPhases (lineP 2)) :
    ((upForward (lineP 2) wideNear skewS skewX U g 1).map fun y => (y.shape, y.val [0, 0, 0])) = some ([1, 1, 2], 4) ∧
    torchInterp wideNear [1, 1, 4] [1, 1, 4] lineX [0, 0, 2] = 3 := by
  refine ⟨?_, by decide +kernel⟩
  have hU : ∀ r, r < 2 → U r = upFacts (lineP 2) wideNear [1, 1, 4] [1, 1, 4] r := by
    intro r hr
    have h := R.setup r hr
    have e : upSetup (lineP 2) (some [1, 1, 4]) wideNear skewS ((lineP 2).members.getD r 0) =
        some (upFacts (lineP 2) wideNear [1, 1, 4] [1, 1, 4] r) := by
      interval_cases r <;> decide +kernel
    rw [e] at h
    exact (Option.some.inj h).symm
  let H : HaloPlan := ⟨lineP 2, skewL, fun _ _ => 0, fun _ _ => 0⟩
  have ok : H.OK := ⟨⟨by decide, rfl, by decide⟩, rfl, fun _ _ => rfl, fun _ _ => rfl,
    fun _ _ _ _ => Nat.zero_le _, fun _ _ _ _ => Nat.zero_le _⟩
  have hS : H.SetUp dt junk ops S := by
    intro r hr
    change r < 2 at hr
    have h := R.halo r hr
    rw [hU r hr] at h
    have e1 : ((upFacts (lineP 2) wideNear [1, 1, 4] [1, 1, 4] r).padInput (skewS ((lineP 2).members.getD r 0)).1
        (skewX ((lineP 2).members.getD r 0))).1 = H.shape r := by
      interval_cases r <;> decide +kernel
    have e2 : (upFacts (lineP 2) wideNear [1, 1, 4] [1, 1, 4] r).info.widths = H.widths r := by
      interval_cases r <;> decide +kernel
    rw [e1, e2] at h
    exact h
  have dn := hS.done ok.wf
  have hst := async_final (HaloPlan.fwd_matched ok dn) (HaloPlan.fwd_commutes ok dn) R.exec (show 1 < 2 by decide) hfin
  have hc : (g.ws 1).st [0, 0, 0] = 4 := by
    rw [hst]
    have hk := HaloPlan.fwd_keep_range (st0 := fun r => ((U r).padInput (skewS ((lineP 2).members.getD r 0)).1
      (skewX ((lineP 2).members.getD r 0))).2) ok dn (show 1 < 2 by decide) (l := [0, 0, 0]) (Nat.zero_le 3)
      (Nat.le_refl 3) (by
        intro j _ hj
        interval_cases j <;> decide)
    rw [show haloPhases H.P = 3 from (by decide : haloPhases (lineP 2) = 3)]
    refine hk.trans ?_
    show ((U 1).padInput _ _).2 _ = _
    rw [hU 1 (by decide)]
    decide +kernel
  rw [upForward_eq (hU 1 (by decide))]
  unfold interpForward
  dsimp only
  rw [if_pos (by decide +kernel)]
  simp only [Option.map_some, Option.some.injEq, Prod.mk.injEq]
  refine ⟨by decide +kernel, ?_⟩
  generalize he : kernelEntries (K := ℚ) _ _ _ = es
  have h : es = [(0, [(0, 1)]), (1, [(0, 1)])] := by
    rw [← he]
    decide +kernel
  subst h
  generalize hs : pySlices _ _ = sl
  have h : sl = [(0, 1), (0, 1), (0, 1)] := by
    rw [← hs]
    decide +kernel
  subst h
  generalize hf : flatC _ _ = f
  have h : f = 0 := by
    rw [← hf]
    decide +kernel
  subst h
  simp [kernelForward, contiguous, readSlice, show getCoords [1, 1, 1] 0 = [0, 0, 0] by decide,
    show shiftBy [0, 0, 0] [0, 0, 0] = [0, 0, 0] by decide, hc]

/-- Runs of all these exist; on one worker they are complete from the start. -/
example : ∃ U S g, UpRun chanP (some [1, 2, 4]) halfLin (evenS chanP [1, 2, 2]) (evenX chanP [1, 2, 2] lineX)
    (.inst .float64) (fun _ => (0 : Nat)) (fun _ => []) false 0 U S g := by
  obtain ⟨U, S, R⟩ := starts_of (even_input (P := chanP) (g := [1, 2, 2]) ⟨by decide, rfl, by decide⟩ rfl lineX)
    (p := halfLin) (size := some [1, 2, 4]) (gy := [1, 2, 4]) (by decide +kernel) rfl (by decide +kernel)
    (.inst .float64) (fun _ => (0 : Nat)) (fun _ => []) false
  exact ⟨U, S, _, R⟩
example : ∃ U S g, UpRun (lineP 3) (some [1, 1, 2]) halfLin (evenS (lineP 3) [1, 1, 3])
    (evenX (lineP 3) [1, 1, 3] lineX) (.inst .float64) (fun _ => (0 : Nat)) (fun _ => []) false 0 U S g := by
  obtain ⟨U, S, R⟩ := starts_of (even_input (P := lineP 3) (g := [1, 1, 3]) ⟨by decide, rfl, by decide⟩ rfl lineX)
    (p := halfLin) (size := some [1, 1, 2]) (gy := [1, 1, 2]) (by decide +kernel) rfl (by decide +kernel)
    (.inst .float64) (fun _ => (0 : Nat)) (fun _ => []) false
  exact ⟨U, S, _, R⟩
example : ∃ U S g, UpRun (lineP 1) none scaleNear (evenS (lineP 1) [1, 1, 3])
    (evenX (lineP 1) [1, 1, 3] lineX) (.inst .float64) (fun _ => (0 : Nat)) (fun _ => []) false 0 U S g ∧
    (g.ws 0).phase = haloPhases (lineP 1) := by
  obtain ⟨U, S, R⟩ := starts_of (even_input (P := lineP 1) (g := [1, 1, 3]) ⟨by decide, rfl, by decide⟩ rfl lineX)
    (p := scaleNear) (size := none) (gy := [1, 1, 4]) (by decide +kernel) rfl (by decide +kernel)
    (.inst .float64) (fun _ => (0 : Nat)) (fun _ => []) false
  exact ⟨U, S, _, R, (by decide : 0 = haloPhases (lineP 1))⟩
example : ∃ U S g, UpRun (lineP 1) none scaleLin (evenS (lineP 1) [1, 1, 2])
    (evenX (lineP 1) [1, 1, 2] lineX) (.inst .float64) (fun _ => (0 : Nat)) (fun _ => []) false 0 U S g ∧
    (g.ws 0).phase = haloPhases (lineP 1) := by
  obtain ⟨U, S, R⟩ := starts_of (even_input (P := lineP 1) (g := [1, 1, 2]) ⟨by decide, rfl, by decide⟩ rfl lineX)
    (p := scaleLin) (size := none) (gy := [1, 1, 2]) (by decide +kernel) rfl (by decide +kernel)
    (.inst .float64) (fun _ => (0 : Nat)) (fun _ => []) false
  exact ⟨U, S, _, R, (by decide : 0 = haloPhases (lineP 1))⟩
example : ∃ U S g, UpRun (lineP 3) (some [1, 1, 2]) wideNear (evenS (lineP 3) [1, 1, 4])
    (evenX (lineP 3) [1, 1, 4] lineX) (.inst .float64) (fun _ => (0 : Nat)) (fun _ => []) false 0 U S g := by
  obtain ⟨U, S, R⟩ := starts_of (even_input (P := lineP 3) (g := [1, 1, 4]) ⟨by decide, rfl, by decide⟩ rfl lineX)
    (p := wideNear) (size := some [1, 1, 2]) (gy := [1, 1, 2]) (by decide +kernel) rfl (by decide +kernel)
    (.inst .float64) (fun _ => (0 : Nat)) (fun _ => []) false
  exact ⟨U, S, _, R⟩
example : ∃ k U S g, UpRun (lineP 2) (some [1, 1, 4]) wideNear skewS skewX (.inst .float64) (fun _ => (0 : Nat))
    (fun _ => []) false k U S g ∧ (g.ws 1).phase = haloPhases (lineP 2) := by
  let H : HaloPlan := ⟨lineP 2, skewL, fun _ _ => 0, fun _ _ => 0⟩
  have ok : H.OK := ⟨⟨by decide, rfl, by decide⟩, rfl, fun _ _ => rfl, fun _ _ => rfl,
    fun _ _ _ _ => Nat.zero_le _, fun _ _ _ _ => Nat.zero_le _⟩
  obtain ⟨S, hS⟩ := C35_setup (H := H) ok.wf (.inst .float64) (fun _ => (0 : Nat)) (fun _ => [])
  have dn := hS.done ok.wf
  obtain ⟨k, g, hex, -, hf⟩ := completes (eager := false) (HaloPlan.fwd_matched ok dn) (HaloPlan.fwd_commutes ok dn)
    (.refl (GState.init fun r => ((upFacts (lineP 2) wideNear [1, 1, 4] [1, 1, 4] r).padInput
      (skewS ((lineP 2).members.getD r 0)).1 (skewX ((lineP 2).members.getD r 0))).2))
  refine ⟨k, upFacts (lineP 2) wideNear [1, 1, 4] [1, 1, 4], S, g, ⟨fun r hr => ?_, fun r hr => ?_, hex⟩, hf 1 (show 1 < 2 by decide)⟩
  · change r < 2 at hr
    interval_cases r <;> decide +kernel
  · change r < 2 at hr
    have h := hS r hr
    have e1 : ((upFacts (lineP 2) wideNear [1, 1, 4] [1, 1, 4] r).padInput (skewS ((lineP 2).members.getD r 0)).1
        (skewX ((lineP 2).members.getD r 0))).1 = H.shape r := by
      interval_cases r <;> decide +kernel
    have e2 : (upFacts (lineP 2) wideNear [1, 1, 4] [1, 1, 4] r).info.widths = H.widths r := by
      interval_cases r <;> decide +kernel
    rw [e1, e2]
    exact h

/-! ## A worked case of `C50_sizes_partial` -/

/-- Four workers, two along each of two feature dimensions. -/
def squareP : Cart := ⟨[0, 1, 2, 3], [1, 1, 2, 2], some 0⟩

theorem square_sizes : UpSizes squareP (some [2, 3, 16, 11]) halfLin [2, 3, 8, 7] [2, 3, 16, 11] where
  out := .size rfl
  dims := by decide
  lead := by decide
  lead1 _ := by decide
  feat := by
    intro j h2 hj
    change j < 4 at hj
    interval_cases j <;> decide
  exact s hs := nomatch hs
  large := by
    intro j h2 hj
    change j < 4 at hj
    interval_cases j <;> decide
  linear _ := by
    intro j h2 hj
    change j < 4 at hj
    interval_cases j <;> decide

/-- All four workers finish with their part of the bilinear interpolation. -/
example : ∃ k U S g, UpRun squareP (some [2, 3, 16, 11]) halfLin (evenS squareP [2, 3, 8, 7])
    (evenX squareP [2, 3, 8, 7] lineX) (.inst .float64) (fun _ => (0 : Nat)) (fun _ => []) false k U S g ∧
    ∀ r, r < 4 → ∃ y, upForward squareP halfLin (evenS squareP [2, 3, 8, 7]) (evenX squareP [2, 3, 8, 7] lineX) U g r =
        some y ∧
      ∀ o, InBounds o y.shape → y.val o = torchInterp halfLin [2, 3, 8, 7] [2, 3, 16, 11] lineX
        (shiftBy ((Layout.balanced squareP.shape [2, 3, 16, 11]).startAt (getCoords squareP.shape r)) o) := by
  have hin := even_input (P := squareP) (g := [2, 3, 8, 7]) ⟨by decide, rfl, by decide⟩ rfl lineX
  obtain ⟨U, S, R⟩ := C50_starts hin square_sizes.case (.inst .float64) (fun _ => (0 : Nat)) (fun _ => []) false
  obtain ⟨k, g, R', -, hf⟩ := C50_completes hin square_sizes.case R
  refine ⟨k, U, S, g, R', fun r hr => ?_⟩
  obtain ⟨y, h1, -, -, h4⟩ := C50_sizes_partial hin (Or.inl rfl) square_sizes R' (r := r) hr (hf r hr)
  exact ⟨y, h1, h4⟩

end Verif
