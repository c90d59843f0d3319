import Verif.Grad.UpModel
import Verif.Grad.Props
import Verif.Interp.Props
import Verif.Interp.Adjoint

/-!
# Gradients of distributed interpolation: C65
-/

namespace Verif

open Exchange

section
variable {K : Type} [Field K] [LinearOrder K] [FloorRing K]

/-! ## Specification -/

/-- The gradient of the sequential interpolation for the gradient `G` of its output: interpolation is linear, and
the coefficient of input cell `q` in output `o` is what the interpolation of the tensor with 1 at `q` gives at `o`. -/
def torchInterpGrad (p : InterpParams K) (gx gy : List Nat) (G : List Nat → K) (q : List Nat) : K :=
  boxSum gy fun o => torchInterp p gx gy (fun m => if m = q then 1 else 0) o * G o

/-- Every worker has outputs. -/
def HasOutputs (P : Cart) (gy : List Nat) : Prop :=
  ∀ j, 2 ≤ j → j < P.shape.length → P.shape.getD j 0 ≤ gy.getD j 0

/-! ## The sequential gradient is the transpose -/

omit [LinearOrder K] [FloorRing K] in
theorem sum_pick1 {n i : Nat} (hi : i < n) (f : Nat → K) :
    (∑ a ∈ Finset.range n, f a * if i = a then 1 else 0) = f i := by
  rw [Finset.sum_eq_single i]
  · simp
  · intro b _ hb
    rw [if_neg (fun e => hb e.symm), mul_zero]
  · intro hn
    exact absurd (Finset.mem_range.2 hi) hn

theorem interp1_mul (p : InterpParams K) (gi go : Nat) (x : Nat → K) (c : K) (o : Nat) :
    torchInterp1 p gi go (fun i => x i * c) o = torchInterp1 p gi go x o * c := by
  unfold torchInterp1
  dsimp only
  split
  · rfl
  · ring

theorem interp1_expand (p : InterpParams K) {gi go o : Nat} (hi : ⌊torchSource p gi go o⌋.toNat < gi) (x : Nat → K) :
    torchInterp1 p gi go x o = ∑ a ∈ Finset.range gi, x a * torchInterp1 p gi go (fun i => if i = a then 1 else 0) o := by
  unfold torchInterp1
  dsimp only
  cases p.mode with
  | nearest =>
    simp only
    exact (sum_pick1 (by omega) x).symm
  | linear =>
    simp only [mul_add]
    rw [Finset.sum_add_distrib]
    have e : ∀ (c : K) (i : Nat), i < gi → (∑ a ∈ Finset.range gi, x a * (c * if i = a then 1 else 0)) = c * x i := by
      intro c i hi
      rw [← sum_pick1 hi x, Finset.mul_sum]
      refine Finset.sum_congr rfl fun a _ => ?_
      ring
    rw [e _ _ hi, e _ _ (by split <;> omega)]

/-- All cells read lie inside the input. -/
def InputsInside (p : InterpParams K) : List Nat → List Nat → List Nat → Prop
  | gi :: gis, go :: gos, o :: os => ⌊torchSource p gi go o⌋.toNat < gi ∧ InputsInside p gis gos os
  | [], [], [] => True
  | _, _, _ => False

theorem interpN_expand (p : InterpParams K) {gis gos os : List Nat} (h : InputsInside p gis gos os)
    (x : List Nat → K) :
    torchInterpN p gis gos x os =
      boxSum gis fun q => x q * torchInterpN p gis gos (fun l => if l = q then 1 else 0) os := by
  induction gis generalizing gos os x with
  | nil =>
    cases gos <;> cases os <;> simp [InputsInside] at h
    simp [torchInterpN, boxSum]
  | cons gi gis ih =>
    cases gos with
    | nil => cases os <;> simp [InputsInside] at h
    | cons go gos =>
      cases os with
      | nil => simp [InputsInside] at h
      | cons o os =>
        obtain ⟨h1, h2⟩ := h
        simp only [torchInterpN, boxSum]
        rw [interp1_expand p h1]
        refine Finset.sum_congr rfl fun a _ => ?_
        rw [ih h2, ← boxSum_mul_right]
        refine boxSum_congr fun q _ => ?_
        rw [mul_assoc]
        congr 1
        rw [mul_comm, ← interp1_mul]
        congr 1
        funext i
        by_cases e : i = a
        · subst e
          simp
        · have : (fun l => if i :: l = a :: q then (1 : K) else 0) = fun _ => 0 := by
            funext l
            rw [if_neg (by simp [e])]
          rw [this, if_neg e, zero_mul]
          have z := ih h2 fun _ => 0
          rw [z]
          simp [boxSum_zero]

theorem interpN_zero (p : InterpParams K) {gis gos os : List Nat} (h : InputsInside p gis gos os) :
    torchInterpN p gis gos (fun _ => 0) os = 0 := by
  rw [interpN_expand p h]
  simp [boxSum_zero]

theorem interp_expand (p : InterpParams K) {gx gy o : List Nat} (hx : 2 ≤ gx.length) (hy : 2 ≤ gy.length)
    (hb : InBounds o gy) (hlead : ∀ j, j < 2 → gy.getD j 0 = gx.getD j 0)
    (h : InputsInside p (gx.drop 2) (gy.drop 2) (o.drop 2)) (x : List Nat → K) :
    torchInterp p gx gy x o =
      boxSum gx fun q => x q * torchInterp p gx gy (fun l => if l = q then 1 else 0) o := by
  match gx, hx with
  | g0 :: g1 :: gx, _ =>
    have e0 := hlead 0 (by omega)
    have e1 := hlead 1 (by omega)
    match gy, hy with
    | h0 :: h1 :: gy, _ =>
      match o, hb with
      | b :: c :: os, hb =>
        simp only [List.getD_cons_zero, List.getD_cons_succ] at e0 e1
        subst e0 e1
        obtain ⟨hb0, hb1, -⟩ := hb
        simp only [List.drop_succ_cons, List.drop_zero] at h
        simp only [torchInterp, boxSum, List.drop_succ_cons, List.drop_zero]
        have z : ∀ a d q, (a, d) ≠ (b, c) →
            torchInterpN p gx gy (fun l => if b :: c :: l = a :: d :: q then (1 : K) else 0) os = 0 := by
          intro a d q hne
          have e : (fun l => if b :: c :: l = a :: d :: q then (1 : K) else 0) = fun _ => 0 := by
            funext l
            rw [if_neg]
            intro e
            simp only [List.cons.injEq] at e
            exact hne (by rw [e.1, e.2.1])
          rw [e, interpN_zero p h]
        rw [Finset.sum_eq_single b, Finset.sum_eq_single c, interpN_expand p h]
        · refine boxSum_congr fun q _ => ?_
          simp
        · intro d _ hd
          simp only [z b d _ (fun e => hd (Prod.mk.inj e).2), mul_zero, boxSum_zero]
        · intro hn
          exact absurd (Finset.mem_range.2 hb1) hn
        · intro a _ ha
          simp only [z a _ _ (fun e => ha (Prod.mk.inj e).1), mul_zero, boxSum_zero, Finset.sum_const_zero]
        · intro hn
          exact absurd (Finset.mem_range.2 hb0) hn

variable [IsStrictOrderedRing K] {P : Cart} {size : Option (List Nat)} {p : InterpParams K} {gx gy : List Nat}

/-- Positions of outputs lie inside the input. -/
theorem UpCase.source_lt (h : UpCase P size p gx gy) (hl : gx.length = P.shape.length) {j : Nat} (hj2 : 2 ≤ j)
    (hj : j < P.shape.length) {o : Nat} (ho : o < gy.getD j 0) :
    ⌊torchSource p (gx.getD j 0) (gy.getD j 0) o⌋.toNat < gx.getD j 0 := by
  obtain ⟨fac, -, -, f3, f4, f5⟩ := h.facs hl hj2 hj
  have hgi := (h.feat j hj2 hj).1
  have hsrc : torchSource p (gx.getD j 0) (gy.getD j 0) o = max 0 (gpos p fac (o : K)) := by
    unfold torchSource gpos
    rw [f4]
    split
    · rw [max_eq_right (mul_nonneg f3 (Nat.cast_nonneg _))]
    · rfl
  have hlt : gpos p fac (o : K) < gx.getD j 0 := by
    refine lt_of_le_of_lt (gpos_mono p f3 ?_) f5
    have : ((o + 1 : Nat) : K) ≤ gy.getD j 0 := by exact_mod_cast ho
    push_cast at this
    linarith
  have : ⌊torchSource p (gx.getD j 0) (gy.getD j 0) o⌋ < (gx.getD j 0 : Int) := by
    rw [Int.floor_lt, hsrc]
    push_cast
    exact max_lt (by exact_mod_cast hgi) hlt
  omega

omit [IsStrictOrderedRing K] in
theorem inputsInside_of {gis gos os : List Nat} (h1 : gos.length = gis.length) (h2 : os.length = gis.length)
    (h : ∀ j, j < gis.length → ⌊torchSource p (gis.getD j 0) (gos.getD j 0) (os.getD j 0)⌋.toNat < gis.getD j 0) :
    InputsInside p gis gos os := by
  induction gis generalizing gos os with
  | nil =>
    cases gos <;> cases os <;> simp_all [InputsInside]
  | cons gi gis ih =>
    cases gos with
    | nil => simp at h1
    | cons go gos =>
      cases os with
      | nil => simp at h2
      | cons o os =>
        refine ⟨by simpa using h 0 (by simp), ih (by simpa using h1) (by simpa using h2) fun j hj => ?_⟩
        simpa using h (j + 1) (by simpa using hj)

theorem UpCase.inside (h : UpCase P size p gx gy) (hl : gx.length = P.shape.length) {o : List Nat}
    (ho : InBounds o gy) : InputsInside p (gx.drop 2) (gy.drop 2) (o.drop 2) := by
  have hly := h.out.shape.2
  have ho' := inBounds_iff.1 ho
  apply inputsInside_of
  · simp [hly]
  · simp [ho'.1, hly]
  · intro j hj
    have hj' : 2 + j < gx.length := by simp at hj; omega
    have e : ∀ l : List Nat, (l.drop 2).getD j 0 = l.getD (2 + j) 0 := fun l => by
      simp [List.getD_eq_getElem?_getD, List.getElem?_drop]
    rw [e, e, e]
    exact h.source_lt hl (by omega) (by rw [← hl]; exact hj') (ho'.2 _ (by rw [hly]; exact hj'))

/-- Pairing with the gradient of the sequential interpolation. -/
theorem interp_transpose (h : UpCase P size p gx gy) (hl : gx.length = P.shape.length) (X G : List Nat → K) :
    (boxSum gx fun q => X q * torchInterpGrad p gx gy G q) =
      boxSum gy fun o => torchInterp p gx gy X o * G o := by
  unfold torchInterpGrad
  simp only [← boxSum_mul_left]
  rw [boxSum_comm]
  refine boxSum_congr fun o ho => ?_
  have hD := h.dims
  rw [interp_expand p (by omega) (by rw [h.out.shape.2]; omega) ho h.lead (h.inside hl ho) X, ← boxSum_mul_right]
  refine boxSum_congr fun q _ => ?_
  rw [mul_assoc]

/-! ## Padding, exchange and selection -/

omit [IsStrictOrderedRing K] [LinearOrder K] [FloorRing K] in
/-- The setup as one of the layers with windows, without padding of its own. -/
def UpSetup.asWin (U : UpSetup) : WinSetup := ⟨U.info.recv.map fun _ => (0, 0), U.info⟩

omit [IsStrictOrderedRing K] [LinearOrder K] [FloorRing K] in
theorem asWin_total (U : UpSetup) : U.asWin.total = U.info.recv.map fun h => (h.1.toNat, h.2.toNat) := by
  unfold WinSetup.total UpSetup.asWin
  dsimp only
  rw [List.zipWith_map_left, List.zipWith_self]
  apply List.map_congr_left
  intro h _
  simp

omit [IsStrictOrderedRing K] [LinearOrder K] [FloorRing K] in
theorem asWin_pad (U : UpSetup) (shape : List Nat) (x : List Nat → K) :
    U.padInput shape x = U.asWin.padInput 0 shape x := by
  unfold UpSetup.padInput WinSetup.padInput
  rw [asWin_total]

omit [IsStrictOrderedRing K] [LinearOrder K] [FloorRing K] [Field K] in
theorem asWin_padGrad (U : UpSetup) (shape : List Nat) (z : List Nat → K) :
    U.padGrad shape z = U.asWin.padGrad shape z := by
  unfold UpSetup.padGrad WinSetup.padGrad
  rw [asWin_total]

variable {localS : Nat → List Nat × TorchDtype × Bool} {x : Nat → List Nat → K} {X : List Nat → K}
  {t : TorchDtype} {rg : Bool}
  {β : Type} {dt : NpKey} {junk : Nat → β} {ops : Nat → List (MgrOp β)} {eager eager' : Bool} {k k' : Nat}
  {U : Nat → UpSetup} {S : Nat → HaloSetup} {g g' : GState (List Nat → K) (List Nat → K)} {dy gl : Nat → Tensor K}

omit [IsStrictOrderedRing K] [LinearOrder K] [FloorRing K] [Field K] in
/-- Other data of the same layout. -/
theorem UpInput.replace (h : UpInput P gx localS x X t rg) (Y : List Nat → K) :
    UpInput P gx localS (fun v l => Y (shiftBy ((Layout.balanced P.shape gx).startAt ((P.index v).getD [])) l)) Y t rg := by
  refine ⟨h.wf, h.len, h.loc, fun v _ idx hi l _ => ?_⟩
  rw [hi]
  rfl

/-- The setup of a run does not depend on the entries: other data can be run with it, to the end. -/
theorem UpRun.again {y : Nat → List Nat → K} {Y : List Nat → K} (hin : UpInput P gx localS x X t rg)
    (h : UpCase P size p gx gy) (R : UpRun P size p localS x dt junk ops eager k U S g)
    (hy : UpInput P gx localS y Y t rg) :
    ∃ k2 g2, UpRun P size p localS y dt junk ops eager k2 U S g2 ∧
      ∀ r, r < P.members.length → (g2.ws r).phase = haloPhases P := by
  have hU := R.facts hin h
  have A0 : UpRun P size p localS y dt junk ops eager 0 U S (GState.init fun r =>
      ((U r).padInput (localS (P.members.getD r 0)).1 (y (P.members.getD r 0))).2) := by
    refine ⟨R.setup, fun r hr => ?_, .refl _⟩
    have := R.halo r hr
    rw [hU r hr, (upPadded hin hr).1] at this
    rw [hU r hr, (upPadded hy hr).1]
    exact this
  obtain ⟨k2, g2, B, -, hf⟩ := C50_completes hy h A0
  exact ⟨k2, g2, B, hf⟩

omit [IsStrictOrderedRing K] in
/-- Setup fixes the shapes. -/
theorem up_lengths (hin : UpInput P gx localS x X t rg) (hU : ∀ r, r < P.members.length → U r = upFacts P p gx gy r)
    {r : Nat} (hr : r < P.members.length) :
    (U r).asWin.total.length = P.shape.length ∧ (U r).asWin.info.needed.length = P.shape.length ∧
    (localS (P.members.getD r 0)).1 = (Layout.balanced P.shape gx).shapeAt (getCoords P.shape r) ∧
    (localS (P.members.getD r 0)).1.length = P.shape.length ∧
    upPaddedShape K P localS U r = (upPlan P p gx gy).shape r := by
  obtain ⟨m1, m2⟩ := member_spec hin.wf hr
  have hi : InBounds (getCoords P.shape r) P.shape := (getCoords_spec (by rw [← hin.wf.size]; exact hr)).1
  have bl := balanced_lengths hin.len.symm hi
  have e := hin.loc _ m1 _ m2
  refine ⟨?_, ?_, by rw [e], by rw [e]; exact bl.1, ?_⟩
  · rw [asWin_total, List.length_map, hU r hr]
    exact length_interpHalo true _
  · rw [hU r hr]
    show (interpRanges _ _).length = _
    rw [interpRanges, List.length_zipWith, map3_length _ _ _ _ hi.length_eq.symm (by rw [hi.length_eq, hin.len]),
      length_interpHalo, Nat.min_self]
  · unfold upPaddedShape
    rw [← (upPadded (p := p) (gy := gy) (r := r) hin hr).1, hU r hr]
    have hl : (upFacts P p gx gy r).info.recv.length = (localS (P.members.getD r 0)).1.length := by
      rw [e]
      exact (length_interpHalo true _).trans bl.1.symm
    rw [(upPadInput_spec hl _).1, (upPadInput_spec hl _).1]

/-- The input of the local interpolation has the extent handed to it. -/
theorem select_extent (hin : UpInput P gx localS x X t rg) (h : UpCase P size p gx gy) (ho : HasOutputs P gy)
    (hU : ∀ r, r < P.members.length → U r = upFacts P p gx gy r) {r : Nat} (hr : r < P.members.length)
    (z : List Nat → K) :
    List.zipWith (· - ·) (U r).xe (U r).xs =
      (((U r).select (upPaddedShape K P localS U r) z).1.map fun n : Nat => (n : Int)) := by
  obtain ⟨-, l2, -, -, l5⟩ := up_lengths hin hU hr
  have hi : InBounds (getCoords P.shape r) P.shape := (getCoords_spec (by rw [← hin.wf.size]; exact hr)).1
  rw [l5, hU r hr]
  rw [hU r hr] at l2
  have l2 : (upFacts P p gx gy r).info.needed.length = P.shape.length := l2
  have hshl : ((upPlan P p gx gy).shape r).length = P.shape.length := HaloPlan.length_shape r
  have hpl : (pySlices ((upPlan P p gx gy).shape r) (upFacts P p gx gy r).info.needed).length = P.shape.length := by
    rw [pySlices, List.length_zipWith, hshl, l2, Nat.min_self]
  have ex : (upFacts P p gx gy r).xs = (List.range P.shape.length).map fun j => upStart P p gx gy r j := rfl
  have ee : (upFacts P p gx gy r).xe = (List.range P.shape.length).map fun j => upStop P p gx gy r j := rfl
  rw [ex, ee, List.zipWith_map, List.zipWith_self]
  apply List.ext_getElem
  · simp [UpSetup.select, hpl]
  · intro j hj _
    have hj : j < P.shape.length := by simpa using hj
    simp only [List.getElem_map, List.getElem_range, UpSetup.select]
    have hc := inBounds_getD hi hj
    have hse : upStart P p gx gy r j ≤ upStop P p gx gy r j := by
      rcases Nat.lt_or_ge j 2 with hj2 | hj2
      · obtain ⟨a, b⟩ := h.lead_range hin.wf hr hj2
        rw [a, b]
        unfold stopIdx
        omega
      · refine le_of_lt (h.feat_range hin.len hin.wf hr hj2 hj ?_).2.1
        have := subsize_pos (c := (getCoords P.shape r).getD j 0) (Nat.zero_lt_of_lt hc) (ho j hj2 hj)
        unfold stopIdx
        omega
    obtain ⟨c1, c2, -⟩ := select_dim (p := p) (gy := gy) hin hr hj hse
    rw [List.getD_eq_getElem (pySlices _ _) _ (by rw [hpl]; exact hj)] at c1 c2
    omega

/-- The gradients of the outputs have the type and shape of the outputs. -/
def GradLike (P : Cart) (gy : List Nat) (t : TorchDtype) (dy : Nat → Tensor K) : Prop :=
  ∀ r, r < P.members.length → (dy r).dtype = t ∧
    (dy r).shape = (Layout.balanced P.shape gy).shapeAt (getCoords P.shape r)

/-- The local interpolation of one worker against its backward pass. -/
theorem up_local (hin : UpInput P gx localS x X t rg) (ht : t = .float32 ∨ t = .float64)
    (h : UpCase P size p gx gy) (ho : HasOutputs P gy)
    (hU : ∀ r, r < P.members.length → U r = upFacts P p gx gy r) (hd : GradLike P gy t dy)
    (g : GState (List Nat → K) (List Nat → K)) {r : Nat} (hr : r < P.members.length) :
    ∃ y z, upForward P p localS x U g r = some y ∧
      y.shape = (Layout.balanced P.shape gy).shapeAt (getCoords P.shape r) ∧
      interpBackward p (U r).xs (U r).xe (U r).gx (U r).ys (U r).gy (dy r) = some z ∧
      z.dtype = t ∧ z.shape = ((U r).select (upPaddedShape K P localS U r) (g.ws r).st).1 ∧
      boxSum y.shape (fun o => y.val o * (dy r).val o) =
        boxSum z.shape fun m => ((U r).select (upPaddedShape K P localS U r) (g.ws r).st).2 m * z.val m := by
  obtain ⟨-, -, -, -, l5⟩ := up_lengths hin hU hr
  obtain ⟨m1, m2⟩ := member_spec hin.wf hr
  have hi : InBounds (getCoords P.shape r) P.shape := (getCoords_spec (by rw [← hin.wf.size]; exact hr)).1
  obtain ⟨y, y1, y2, y3, -⟩ := up_view (x := x) (g := g) hin ht h hU hr
    (fun q => (g.ws r).st (List.zipWith (· - ·) q ((upPlan P p gx gy).origin r))) (by
      intro l hl
      have hll := hl.length_eq
      rw [HaloPlan.length_shape] at hll
      have hol : ((upPlan P p gx gy).origin r).length = (upPlan P p gx gy).D := by simp [HaloPlan.origin]
      refine congrArg (g.ws r).st ?_
      apply eq_of_getD
      · rw [List.length_zipWith, length_shiftBy (by rw [hol, hll]), Nat.min_self, hol, hll]
      · intro j hj
        have hj1 : j < (shiftBy ((upPlan P p gx gy).origin r) l).length := by
          rw [length_shiftBy (by rw [hol, hll]), hol, ← hll]; exact hj
        rw [getD_zipWith_sub hj1 (by rw [hol, ← hll]; exact hj),
          getD_shiftBy (by rw [hol, ← hll]; exact hj) hj]
        omega)
  have hdt : (localS (P.members.getD r 0)).2.1 = t := by rw [hin.loc _ m1 _ m2]
  have hpad : ((U r).padInput (localS (P.members.getD r 0)).1 (x (P.members.getD r 0))).1 = upPaddedShape K P localS U r := by
    rw [l5, hU r hr, (upPadded hin hr).1]
  have hf := y1
  unfold upForward at hf
  dsimp only at hf
  rw [hpad, hdt] at hf
  have hext := select_extent hin h ho hU hr (g.ws r).st
  have hsl : ((U r).select (upPaddedShape K P localS U r) (g.ws r).st).1.length = P.shape.length := by
    have e := congrArg List.length hext
    rw [List.length_map] at e
    rw [← e, hU r hr]
    simp [upFacts]
  have hly : gy.length = P.shape.length := h.out.shape.2.trans hin.len
  have hm : ∀ f, (map3 f P.shape (getCoords P.shape r) gy).length = P.shape.length := fun f =>
    map3_length _ _ _ _ hi.length_eq.symm (by rw [hi.length_eq, hly])
  obtain ⟨z, z1, z2, z3, z4⟩ := C51 p (U r).xs (U r).xe (U r).gx (U r).ys (U r).ye (U r).gy _ y (dy r) hext
    (by rw [hU r hr] at *; rw [hsl]; exact hm _) (by rw [hU r hr] at *; rw [hsl]; exact hm _) hf
    (by rw [(hd r hr).2, y3]) (by rw [(hd r hr).1, y2])
  refine ⟨y, z, y1, y3, z1, z3, z2, ?_⟩
  rw [z4, z2]

/-- C65, the local backward passes succeed on all workers, so that the adjoint exchange starts. -/
theorem C65_starts (hin : UpInput P gx localS x X t rg) (ht : t = .float32 ∨ t = .float64)
    (h : UpCase P size p gx gy) (ho : HasOutputs P gy) (R : UpRun P size p localS x dt junk ops eager k U S g)
    (hd : GradLike P gy t dy) (eager' : Bool) :
    ∃ gl g', UpBack P p localS U S dy gl eager' 0 g' := by
  have : ∀ r, ∃ z, r < P.members.length →
      interpBackward p (U r).xs (U r).xe (U r).gx (U r).ys (U r).gy (dy r) = some z := by
    intro r
    by_cases hr : r < P.members.length
    · obtain ⟨-, z, -, -, e, -⟩ := up_local hin ht h ho (R.facts hin h) hd g hr
      exact ⟨z, fun _ => e⟩
    · exact ⟨dy r, fun h => absurd h hr⟩
  choose gl hgl using this
  exact ⟨gl, _, hgl, .refl _⟩

/-- C65, the backward exchange never blocks: it can always be continued until all workers have finished. -/
theorem C65_completes (hin : UpInput P gx localS x X t rg) (h : UpCase P size p gx gy)
    (R : UpRun P size p localS x dt junk ops eager k U S g) (B : UpBack P p localS U S dy gl eager' k' g') :
    ∃ k2 g2, UpBack P p localS U S dy gl eager' k2 g2 ∧ k' ≤ k2 ∧
      ∀ r, r < P.members.length → (g2.ws r).phase = haloPhases P := by
  have ok := upPlan_ok_always hin.wf hin.len h
  have dn := (R.setUp hin (R.facts hin h)).done ok.wf
  obtain ⟨k2, g2, e, hk, hf⟩ := completes (HaloPlan.bwd_matched ok dn) HaloPlan.bwd_commutes B.exec
  exact ⟨k2, g2, ⟨B.loc, e⟩, hk, hf⟩

/-- C65, the backward pass is the adjoint of the forward pass, also where the forward pass is not the sequential
interpolation because halos are wider than the blocks of the neighbours: the gradients of the workers' inputs are the
gradients of what the layer computes. -/
theorem C65_adjoint (hin : UpInput P gx localS x X t rg) (ht : t = .float32 ∨ t = .float64)
    (h : UpCase P size p gx gy) (ho : HasOutputs P gy) (R : UpRun P size p localS x dt junk ops eager k U S g)
    (hR : ∀ r, r < P.members.length → (g.ws r).phase = haloPhases P) (hd : GradLike P gy t dy)
    (B : UpBack P p localS U S dy gl eager' k' g')
    (hB : ∀ r, r < P.members.length → (g'.ws r).phase = haloPhases P) {y : Nat → Tensor K}
    (hy : ∀ r, r < P.members.length → upForward P p localS x U g r = some (y r)) :
    (∑ r ∈ Finset.range P.members.length, boxSum (y r).shape fun o => (y r).val o * (dy r).val o) =
    ∑ r ∈ Finset.range P.members.length, boxSum (localS (P.members.getD r 0)).1 fun l =>
      x (P.members.getD r 0) l * upGrad P localS U g' r l := by
  have hU := R.facts hin h
  have ok := upPlan_ok_always hin.wf hin.len h
  have adj := C36_adjoint ok (R.setUp hin hU) _ _ R.exec B.exec fun w hw => ⟨hR w hw, hB w hw⟩
  calc _ = ∑ w ∈ Finset.range P.members.length, boxSum ((upPlan P p gx gy).shape w) fun l =>
        (g.ws w).st l * (U w).selectGrad (upPaddedShape K P localS U w) (gl w).val l := by
          refine Finset.sum_congr rfl fun w hw => ?_
          have hw := Finset.mem_range.1 hw
          obtain ⟨l1, l2, l3, l4, l5⟩ := up_lengths hin hU hw
          obtain ⟨y', z, y1, -, z1, -, z3, e⟩ := up_local hin ht h ho hU hd g hw
          obtain rfl : y' = y w := by rw [hy w hw] at y1; exact (Option.some.inj y1).symm
          obtain rfl : z = gl w := by rw [B.loc w hw] at z1; exact (Option.some.inj z1).symm
          rw [e, z3]
          have sa := select_adjoint (U := (U w).asWin) (shape := upPaddedShape K P localS U w)
            (by rw [l2, l5, HaloPlan.length_shape]; rfl) (g.ws w).st (gl w).val
          rw [← l5]
          exact sa.symm
    _ = _ := adj
    _ = _ := by
          refine Finset.sum_congr rfl fun w hw => ?_
          have hw : w < P.members.length := Finset.mem_range.1 hw
          obtain ⟨l1, l2, l3, l4, l5⟩ := up_lengths hin hU hw
          have e : (upPlan P p gx gy).shape w =
              ((U w).padInput (localS (P.members.getD w 0)).1 (x (P.members.getD w 0))).1 := by
            rw [hU w hw, (upPadded hin hw).1]
          rw [e, asWin_pad, pad_adjoint (by rw [l1, l4])]
          unfold upGrad
          rw [asWin_padGrad]

/-- The gradient of an entry is what the layer's outputs, for the tensor that is 1 at the entry, pair to with the
gradients of the outputs. -/
theorem up_grad_outputs (hin : UpInput P gx localS x X t rg) (ht : t = .float32 ∨ t = .float64)
    (h : UpCase P size p gx gy) (ho : HasOutputs P gy)
    (R : UpRun P size p localS x dt junk ops eager k U S g) (hd : GradLike P gy t dy)
    (B : UpBack P p localS U S dy gl eager' k' g') {r : Nat}
    (hr : r < P.members.length) (hfin : (g'.ws r).phase = haloPhases P) {l : List Nat}
    (hl : InBounds l ((Layout.balanced P.shape gx).shapeAt (getCoords P.shape r))) :
    let Y : List Nat → K := fun q =>
      if q = shiftBy ((Layout.balanced P.shape gx).startAt (getCoords P.shape r)) l then 1 else 0
    let x' : Nat → List Nat → K := fun v l => Y (shiftBy ((Layout.balanced P.shape gx).startAt ((P.index v).getD [])) l)
    ∃ (k2 : Nat) (g2 : GState (List Nat → K) (List Nat → K)) (y : Nat → Tensor K),
      UpInput P gx localS x' Y t rg ∧ UpRun P size p localS x' dt junk ops eager k2 U S g2 ∧
      (∀ w, w < P.members.length → (g2.ws w).phase = haloPhases P ∧ upForward P p localS x' U g2 w = some (y w)) ∧
      upGrad P localS U g' r l =
        ∑ w ∈ Finset.range P.members.length, boxSum (y w).shape fun o => (y w).val o * (dy w).val o := by
  set L := Layout.balanced P.shape gx with hL
  have hLp : L.pshape = P.shape := Layout.balanced_pshape hin.len.symm
  have hLl : L.length = P.shape.length := by rw [← Layout.length_pshape, hLp]
  intro Y x'
  have hY : Y = fun q => if q = shiftBy (L.startAt (getCoords P.shape r)) l then 1 else 0 := rfl
  have hy : UpInput P gx localS x' Y t rg := hin.replace Y
  obtain ⟨k2, g2, A2, hA2⟩ := R.again hin h hy
  have hU := A2.facts hy h
  have ok := upPlan_ok_always hin.wf hin.len h
  have dn := (A2.setUp hy hU).done ok.wf
  obtain ⟨k3, g3, B3, -, hB3⟩ := C65_completes hy h A2 B
  have hsame : upGrad P localS U g' r l = upGrad P localS U g3 r l := by
    unfold upGrad
    rw [async_final (HaloPlan.bwd_matched ok dn) HaloPlan.bwd_commutes B.exec hr hfin,
      async_final (HaloPlan.bwd_matched ok dn) HaloPlan.bwd_commutes B3.exec hr (hB3 r hr)]
  have hout : ∀ w, ∃ y, w < P.members.length → upForward P p localS x' U g2 w = some y := by
    intro w
    by_cases hw : w < P.members.length
    · obtain ⟨y, -, y1, -⟩ := up_local hy ht h ho hU hd g2 hw
      exact ⟨y, fun _ => y1⟩
    · exact ⟨dy w, fun h => absurd h hw⟩
  choose y hy' using hout
  have adj := C65_adjoint hy ht h ho A2 hA2 hd B3 hB3 hy'
  refine ⟨k2, g2, y, hy, A2, fun w hw => ⟨hA2 w hw, hy' w hw⟩, ?_⟩
  have hidx : ∀ w, w < P.members.length → InBounds (getCoords P.shape w) P.shape ∧
      (getCoords P.shape w).length = L.length := fun w hw => by
    have := (getCoords_spec (shape := P.shape) (r := w) (by rw [← hin.wf.size]; exact hw)).1
    exact ⟨this, by rw [hLl, this.length_eq]⟩
  have hbox := (Layout.inBox_shift (hidx r hr).2).2 hl
  have hgl : InBounds (shiftBy (L.startAt (getCoords P.shape r)) l) L.global :=
    (L.unique_owner _).2 _ (by rw [hLp]; exact (hidx r hr).1) hbox.2
  have key : ∀ w, w < P.members.length → ∀ l', InBounds l' (L.shapeAt (getCoords P.shape w)) →
      x' (P.members.getD w 0) l' * upGrad P localS U g3 w l' =
        if shiftBy (L.startAt (getCoords P.shape w)) l' = shiftBy (L.startAt (getCoords P.shape r)) l then
          upGrad P localS U g3 r l else 0 := by
    intro w hw l' hl'
    have hbox' := (Layout.inBox_shift (hidx w hw).2).2 hl'
    obtain ⟨-, m2⟩ := member_spec hin.wf hw
    show Y (shiftBy (L.startAt ((P.index (P.members.getD w 0)).getD [])) l') * _ = _
    rw [m2, hY]
    simp only [Option.getD_some]
    split
    · rename_i he
      rw [one_mul]
      rw [he] at hbox'
      have hi := ((L.unique_owner _).1 hgl).unique ⟨by rw [hLp]; exact (hidx w hw).1, hbox'.2⟩
        ⟨by rw [hLp]; exact (hidx r hr).1, hbox.2⟩
      have hwr : w = r := by
        have e1 := (getCoords_spec (shape := P.shape) (r := w) (by rw [← hin.wf.size]; exact hw)).2
        have e2 := (getCoords_spec (shape := P.shape) (r := r) (by rw [← hin.wf.size]; exact hr)).2
        rw [← e1, ← e2, hi]
      subst hwr
      have : l' = l := shiftBy_inj (by rw [Layout.length_startAt (hidx w hw).2, hl'.length_eq, Layout.length_shapeAt (hidx w hw).2])
        (by rw [Layout.length_startAt (hidx w hw).2, hl.length_eq, Layout.length_shapeAt (hidx w hw).2]) he
      rw [this]
    · rw [zero_mul]
  have rhs : (∑ w ∈ Finset.range P.members.length, boxSum (localS (P.members.getD w 0)).1 fun l' =>
      x' (P.members.getD w 0) l' * upGrad P localS U g3 w l') =
      ∑ w ∈ Finset.range P.members.length, boxSum (L.shapeAt (getCoords P.shape w)) fun l' =>
        if shiftBy (L.startAt (getCoords P.shape w)) l' = shiftBy (L.startAt (getCoords P.shape r)) l then
          upGrad P localS U g3 r l else 0 := by
    refine Finset.sum_congr rfl fun w hw => ?_
    rw [(up_lengths hin (R.facts hin h) (Finset.mem_range.1 hw)).2.2.1]
    exact boxSum_congr fun l' hl' => key w (Finset.mem_range.1 hw) l' hl'
  rw [hsame, adj, rhs, hin.wf.size, ranks_sum P.shape fun idx => boxSum (L.shapeAt idx) fun l' =>
      if shiftBy (L.startAt idx) l' = shiftBy (L.startAt (getCoords P.shape r)) l then
        upGrad P localS U g3 r l else 0, ← hLp,
    L.sum_tiles fun q => if q = shiftBy (L.startAt (getCoords L.pshape r)) l then upGrad P localS U g3 r l else 0,
    boxSum_pick (by rw [hLp]; exact hgl) fun _ => upGrad P localS U g3 r l]

/-- C65, partial: on every worker that has finished its part of the backward pass, the gradient of the input is the
worker's block of the gradient of the sequential interpolation.  Missing: the cases missing in `C50_partial`, where the forward
pass is another function, and workers without outputs in mode nearest, whose backward pass raises an exception
(`C51_undefined_empty`). -/
theorem C65_partial (hin : UpInput P gx localS x X t rg) (ht : t = .float32 ∨ t = .float64)
    (h : UpCase P size p gx gy) (ho : HasOutputs P gy) (hf : (upPlan P p gx gy).Fits)
    (R : UpRun P size p localS x dt junk ops eager k U S g) {G : List Nat → K} (hd : GradLike P gy t dy)
    (hG : OutGrads P gy (fun r => (dy r).val) G) (B : UpBack P p localS U S dy gl eager' k' g') {r : Nat}
    (hr : r < P.members.length) (hfin : (g'.ws r).phase = haloPhases P) :
    ∀ l, InBounds l ((Layout.balanced P.shape gx).shapeAt (getCoords P.shape r)) →
      upGrad P localS U g' r l =
        torchInterpGrad p gx gy G (shiftBy ((Layout.balanced P.shape gx).startAt (getCoords P.shape r)) l) := by
  intro l hl
  have hly : gy.length = P.shape.length := h.out.shape.2.trans hin.len
  obtain ⟨k2, g2, y, hy, A2, hA2, e⟩ := up_grad_outputs hin ht h ho R hd B hr hfin hl
  rw [e]
  unfold torchInterpGrad
  rw [← gather_tiles hin.wf hly.symm]
  refine Finset.sum_congr rfl fun w hw => ?_
  have hw := Finset.mem_range.1 hw
  obtain ⟨y', y1, -, y2, y3⟩ := C50_partial hy ht h hf A2 hw (hA2 w hw).1
  rw [(hA2 w hw).2] at y1
  obtain rfl := Option.some.inj y1
  rw [y2]
  refine boxSum_congr fun o ho' => ?_
  rw [y3 o (by rw [y2]; exact ho'), show (dy w).val o = _ from hG w hw o ho']

end

end Verif
