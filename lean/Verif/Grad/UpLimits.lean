import Verif.Grad.UpProps
import Verif.Interp.Limits

/-!
# C65: sizes, worked cases and counterexamples
-/

namespace Verif

open Exchange

section
variable {K : Type} [Field K] [LinearOrder K] [FloorRing K] [IsStrictOrderedRing K] {P : Cart}
  {size : Option (List Nat)} {p : InterpParams K} {gx gy : List Nat}
  {localS : Nat → List Nat × TorchDtype × Bool} {x : Nat → List Nat → K} {X : List Nat → K}
  {t : TorchDtype} {rg : Bool}
  {β : Type} {dt : NpKey} {junk : Nat → β} {ops : Nat → List (MgrOp β)} {eager eager' : Bool} {k k' : Nat}
  {U : Nat → UpSetup} {S : Nat → HaloSetup} {g g' : GState (List Nat → K) (List Nat → K)} {dy gl : Nat → Tensor K}

omit [FloorRing K] [IsStrictOrderedRing K] in
theorem UpSizes.outputs (h : UpSizes P size p gx gy) : HasOutputs P gy := by
  intro j hj2 hj
  have := (h.feat j hj2 hj).2
  rcases h.large j hj2 hj with hP | ⟨_, hP⟩
  · omega
  · nlinarith

/-- C65 for sizes, partial: as `C50_sizes_partial`. -/
theorem C65_sizes_partial (hin : UpInput P gx localS x X t rg) (ht : t = .float32 ∨ t = .float64)
    (h : UpSizes P size p gx gy) (R : UpRun P size p localS x dt junk ops eager k U S g) {G : List Nat → K}
    (hd : GradLike P gy t dy) (hG : OutGrads P gy (fun r => (dy r).val) G)
    (B : UpBack P p localS U S dy gl eager' k' g') {r : Nat}
    (hr : r < P.members.length) (hfin : (g'.ws r).phase = haloPhases P) :
    ∀ l, InBounds l ((Layout.balanced P.shape gx).shapeAt (getCoords P.shape r)) →
      upGrad P localS U g' r l =
        torchInterpGrad p gx gy G (shiftBy ((Layout.balanced P.shape gx).startAt (getCoords P.shape r)) l) :=
  C65_partial hin ht h.case h.outputs (C50_fits h.case hin.len h.blocks) R hd hG B hr hfin

/-- If all gradients are those of the sequential layer, so is the output: the layer is linear and the backward pass
its adjoint. -/
theorem output_of_grad (hin : UpInput P gx localS x X t rg) (ht : t = .float32 ∨ t = .float64)
    (h : UpCase P size p gx gy) (ho : HasOutputs P gy) (R : UpRun P size p localS x dt junk ops eager k U S g)
    (hR : ∀ r, r < P.members.length → (g.ws r).phase = haloPhases P) (hd : GradLike P gy t dy)
    {G : List Nat → K} (B : UpBack P p localS U S dy gl eager' k' g')
    (hB : ∀ r, r < P.members.length → (g'.ws r).phase = haloPhases P) {y : Nat → Tensor K}
    (hy : ∀ r, r < P.members.length → upForward P p localS x U g r = some (y r))
    (he : ∀ r, r < P.members.length → ∀ l,
      InBounds l ((Layout.balanced P.shape gx).shapeAt (getCoords P.shape r)) → upGrad P localS U g' r l =
        torchInterpGrad p gx gy G (shiftBy ((Layout.balanced P.shape gx).startAt (getCoords P.shape r)) l)) :
    (∑ r ∈ Finset.range P.members.length, boxSum (y r).shape fun o => (y r).val o * (dy r).val o) =
      boxSum gy fun o => torchInterp p gx gy X o * G o := by
  rw [C65_adjoint hin ht h ho R hR hd B hB hy, ← interp_transpose h hin.len,
    ← gather_tiles hin.wf hin.len.symm]
  refine Finset.sum_congr rfl fun w hw => ?_
  have hw := Finset.mem_range.1 hw
  obtain ⟨m1, m2⟩ := member_spec hin.wf hw
  rw [(up_lengths hin (R.facts hin h) hw).2.2.1]
  refine boxSum_congr fun l hl => ?_
  rw [hin.data _ m1 _ m2 l hl, he w hw l hl]

end

/-- The gradients of the outputs that are the blocks of `G`. -/
def evenG (P : Cart) (g : List Nat) (G : List Nat → ℚ) : Nat → Tensor ℚ := fun r =>
  ⟨(Layout.balanced P.shape g).shapeAt (getCoords P.shape r), .float32, fun l =>
    G (shiftBy ((Layout.balanced P.shape g).startAt (getCoords P.shape r)) l)⟩

theorem evenG_like (P : Cart) (g : List Nat) (G : List Nat → ℚ) : GradLike P g .float32 (evenG P g G) :=
  fun _ _ => ⟨rfl, rfl⟩

theorem evenG_out (P : Cart) (g : List Nat) (G : List Nat → ℚ) : OutGrads P g (fun r => (evenG P g G r).val) G :=
  fun _ _ _ _ => rfl

/-- Gradients of the outputs: 1 at output 15. -/
def at15 : List Nat → ℚ := fun o => if o = [0, 0, 15] then 1 else 0

/-- C65 is false when halos are wider than blocks: linear interpolation with `align_corners` of 6 cells to 20 over
four workers, gradient 1 for output 15.  After every completed backward pass some worker holds an entry that is not
the sequential gradient. -/
theorem C65_false_linear {β : Type} {dt : NpKey} {junk : Nat → β} {ops : Nat → List (MgrOp β)} {eager eager' : Bool}
    {k k' : Nat} {U : Nat → UpSetup} {S : Nat → HaloSetup} {g g' : GState (List Nat → ℚ) (List Nat → ℚ)}
    {gl : Nat → Tensor ℚ}
    (R : UpRun (lineP 4) (some [1, 1, 20]) wideLin (evenS (lineP 4) [1, 1, 6]) (evenX (lineP 4) [1, 1, 6] lineX)
      dt junk ops eager k U S g)
    (B : UpBack (lineP 4) wideLin (evenS (lineP 4) [1, 1, 6]) U S (evenG (lineP 4) [1, 1, 20] at15) gl eager' k' g')
    (hB : ∀ r, r < 4 → (g'.ws r).phase = haloPhases (lineP 4)) :
    ∃ r, r < 4 ∧ ∃ l, InBounds l ((Layout.balanced [1, 1, 4] [1, 1, 6]).shapeAt (getCoords [1, 1, 4] r)) ∧
      upGrad (lineP 4) (evenS (lineP 4) [1, 1, 6]) U g' r l ≠ torchInterpGrad wideLin [1, 1, 6] [1, 1, 20] at15
        (shiftBy ((Layout.balanced [1, 1, 4] [1, 1, 6]).startAt (getCoords [1, 1, 4] r)) l) := by
  by_contra hc
  push Not at hc
  have hin := even_input (P := lineP 4) (g := [1, 1, 6]) ⟨by decide, rfl, by decide⟩ rfl lineX
  obtain ⟨k2, g2, R2, -, hR2⟩ := C50_completes hin wideLin_case R
  have ho : HasOutputs (lineP 4) [1, 1, 20] := by
    intro j h2 hj
    change j < 3 at hj
    have : j = 2 := by omega
    subst this
    decide
  have hall : ∀ r, ∃ y, r < 4 → upForward (lineP 4) wideLin (evenS (lineP 4) [1, 1, 6])
      (evenX (lineP 4) [1, 1, 6] lineX) U g2 r = some y ∧
      y.shape = (Layout.balanced [1, 1, 4] [1, 1, 20]).shapeAt (getCoords [1, 1, 4] r) := by
    intro r
    by_cases hr : r < 4
    · obtain ⟨y, -, h1, h2, -⟩ := up_local hin (Or.inl rfl) wideLin_case ho (R.facts hin wideLin_case)
        (evenG_like _ _ at15) g2 (r := r) hr
      exact ⟨y, fun _ => ⟨h1, h2⟩⟩
    · exact ⟨gl r, fun h => absurd h hr⟩
  choose y hy using hall
  have key := output_of_grad hin (Or.inl rfl) wideLin_case ho R2 hR2 (evenG_like _ _ at15) B hB
    (y := y) (fun r hr => (hy r hr).1) hc
  obtain ⟨y3, h1, h2, h3, h4⟩ := C50_false_linear R2 (hR2 3 (by decide))
  obtain rfl : y3 = y 3 := by
    have := (hy 3 (by decide)).1
    rw [h1] at this
    exact Option.some.inj this
  have hpick : (boxSum [1, 1, 20] fun o => torchInterp wideLin [1, 1, 6] [1, 1, 20] lineX o * at15 o) = 94 / 19 := by
    decide +kernel
  rw [hpick, show (lineP 4).members.length = 4 from rfl] at key
  simp only [Finset.sum_range_succ, Finset.sum_range_zero, zero_add] at key
  rw [(hy 0 (by decide)).2, (hy 1 (by decide)).2, (hy 2 (by decide)).2, h2] at key
  have hz : ∀ r, r < 3 → (boxSum ((Layout.balanced [1, 1, 4] [1, 1, 20]).shapeAt (getCoords [1, 1, 4] r)) fun o =>
      (y r).val o * (evenG (lineP 4) [1, 1, 20] at15 r).val o) = 0 := by
    intro r hr
    refine (boxSum_congr fun o ho => ?_).trans (boxSum_zero _)
    have : (evenG (lineP 4) [1, 1, 20] at15 r).val o = 0 := by
      show (if _ then _ else _ : ℚ) = 0
      rw [if_neg]
      intro he
      have hb := inBounds_iff.1 ho
      have e := congrArg (List.getD · 2 0) he
      interval_cases r
      all_goals
        rw [getD_shiftBy (by decide) (by rw [hb.1]; decide)] at e
        have := hb.2 2 (by decide)
        simp only [show ((Layout.balanced [1, 1, 4] [1, 1, 20]).shapeAt (getCoords [1, 1, 4] 0)).getD 2 0 = 5 by decide,
          show ((Layout.balanced [1, 1, 4] [1, 1, 20]).shapeAt (getCoords [1, 1, 4] 1)).getD 2 0 = 5 by decide,
          show ((Layout.balanced [1, 1, 4] [1, 1, 20]).shapeAt (getCoords [1, 1, 4] 2)).getD 2 0 = 5 by decide] at this
        simp only [
          show ((Layout.balanced (lineP 4).shape [1, 1, 20]).startAt (getCoords (lineP 4).shape 0)).getD 2 0 = 0 by decide,
          show ((Layout.balanced (lineP 4).shape [1, 1, 20]).startAt (getCoords (lineP 4).shape 1)).getD 2 0 = 5 by decide,
          show ((Layout.balanced (lineP 4).shape [1, 1, 20]).startAt (getCoords (lineP 4).shape 2)).getD 2 0 = 10 by decide,
          List.getD_cons_zero, List.getD_cons_succ] at e
        omega
    rw [this, mul_zero]
  rw [hz 0 (by decide), hz 1 (by decide), hz 2 (by decide)] at key
  have h3' : (boxSum [1, 1, 5] fun o => (y 3).val o * (evenG (lineP 4) [1, 1, 20] at15 3).val o) =
      (y 3).val [0, 0, 0] := by
    have e : ∀ j, j < 5 → (evenG (lineP 4) [1, 1, 20] at15 3).val [0, 0, j] = if j = 0 then 1 else 0 := by
      decide +kernel
    simp only [boxSum, Finset.sum_range_succ, Finset.sum_range_zero, zero_add]
    rw [e 0 (by decide), e 1 (by decide), e 2 (by decide), e 3 (by decide), e 4 (by decide)]
    simp
  rw [h3', h3] at key
  norm_num at key

/-- A worker without outputs: nearest, 4 cells to 2 over three workers.  The forward pass succeeds
(`C51_undefined_empty`), but there is no backward pass: worker 2 raises an exception, whatever the gradients are. -/
theorem C65_false_empty {β : Type} {dt : NpKey} {junk : Nat → β} {ops : Nat → List (MgrOp β)} {eager eager' : Bool}
    {k k' : Nat} {U : Nat → UpSetup} {S : Nat → HaloSetup} {g g' : GState (List Nat → ℚ) (List Nat → ℚ)}
    {dy gl : Nat → Tensor ℚ}
    (R : UpRun (lineP 3) (some [1, 1, 2]) wideNear (evenS (lineP 3) [1, 1, 4]) (evenX (lineP 3) [1, 1, 4] lineX)
      dt junk ops eager k U S g) :
    ¬ UpBack (lineP 3) wideNear (evenS (lineP 3) [1, 1, 4]) U S dy gl eager' k' g' := by
  intro B
  have := B.loc 2 (by decide)
  rw [(C51_undefined_empty R).2 (dy 2)] at this
  cases this

/-- Four workers, bilinear: forward and backward pass run to the end, and all workers get their parts of the gradient. -/
example : ∃ k U S g gl k' g', UpRun squareP (some [2, 3, 16, 11]) halfLin (evenS squareP [2, 3, 8, 7])
    (evenX squareP [2, 3, 8, 7] lineX) (.inst .float64) (fun _ => (0 : Nat)) (fun _ => []) false k U S g ∧
    UpBack squareP halfLin (evenS squareP [2, 3, 8, 7]) U S (evenG squareP [2, 3, 16, 11] lineX) gl true k' g' ∧
    ∀ r, r < 4 → ∀ l, InBounds l ((Layout.balanced squareP.shape [2, 3, 8, 7]).shapeAt (getCoords squareP.shape r)) →
      upGrad squareP (evenS squareP [2, 3, 8, 7]) U g' r l = torchInterpGrad halfLin [2, 3, 8, 7] [2, 3, 16, 11] lineX
        (shiftBy ((Layout.balanced squareP.shape [2, 3, 8, 7]).startAt (getCoords squareP.shape r)) l) := by
  have hin := even_input (P := squareP) (g := [2, 3, 8, 7]) ⟨by decide, rfl, by decide⟩ rfl lineX
  obtain ⟨U, S, R⟩ := C50_starts hin square_sizes.case (.inst .float64) (fun _ => (0 : Nat)) (fun _ => []) false
  obtain ⟨k, g, R', -, hf⟩ := C50_completes hin square_sizes.case R
  obtain ⟨gl, g0, B0⟩ := C65_starts hin (Or.inl rfl) square_sizes.case square_sizes.outputs R'
    (evenG_like squareP [2, 3, 16, 11] lineX) true
  obtain ⟨k', g', B, -, hB⟩ := C65_completes hin square_sizes.case R' B0
  exact ⟨k, U, S, g, gl, k', g', R', B, fun r hr => C65_sizes_partial hin (Or.inl rfl) square_sizes R'
    (evenG_like _ _ _) (evenG_out _ _ _) B hr (hB r hr)⟩

/-- The hypotheses of `C65_adjoint` and `C65_false_linear`: halos wider than blocks. -/
example : ∃ k U S g gl k' g', UpRun (lineP 4) (some [1, 1, 20]) wideLin (evenS (lineP 4) [1, 1, 6])
    (evenX (lineP 4) [1, 1, 6] lineX) (.inst .float64) (fun _ => (0 : Nat)) (fun _ => []) false k U S g ∧
    (∀ r, r < 4 → (g.ws r).phase = haloPhases (lineP 4)) ∧
    UpBack (lineP 4) wideLin (evenS (lineP 4) [1, 1, 6]) U S (evenG (lineP 4) [1, 1, 20] at15) gl false k' g' ∧
    ∀ r, r < 4 → (g'.ws r).phase = haloPhases (lineP 4) := by
  have hin := even_input (P := lineP 4) (g := [1, 1, 6]) ⟨by decide, rfl, by decide⟩ rfl lineX
  have ho : HasOutputs (lineP 4) [1, 1, 20] := by
    intro j h2 hj
    change j < 3 at hj
    have : j = 2 := by omega
    subst this
    decide
  obtain ⟨U, S, R⟩ := C50_starts hin wideLin_case (.inst .float64) (fun _ => (0 : Nat)) (fun _ => []) false
  obtain ⟨k, g, R', -, hf⟩ := C50_completes hin wideLin_case R
  obtain ⟨gl, g0, B0⟩ := C65_starts hin (Or.inl rfl) wideLin_case ho R' (evenG_like (lineP 4) [1, 1, 20] at15) false
  obtain ⟨k', g', B, -, hB⟩ := C65_completes hin wideLin_case R' B0
  exact ⟨k, U, S, g, gl, k', g', R', hf, B, hB⟩

/-- A sequential gradient: two cells to four. -/
example : torchInterpGrad halfLin [1, 1, 2] [1, 1, 4] lineX [0, 0, 0] = 13 / 4 ∧
    torchInterpGrad halfLin [1, 1, 2] [1, 1, 4] lineX [0, 0, 1] = 27 / 4 := by
  decide +kernel

end Verif
