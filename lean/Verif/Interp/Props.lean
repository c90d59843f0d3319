import Verif.Interp.Layer

/-!
# Distributed interpolation equals sequential interpolation
-/

namespace Verif

open Exchange

section
variable {K : Type} [Field K] [LinearOrder K] [FloorRing K]

/-! ## Specification -/

/-- The output shape PyTorch gives for a size or for a scale factor; a size includes batch and channels. -/
inductive TorchOut (gx : List Nat) : Option (List Nat) → Option K → List Nat → Prop
  | size {gy : List Nat} : gy.length = gx.length → TorchOut gx (some gy) none gy
  | scale {s : K} {gy : List Nat} : gy.length = gx.length → (∀ j, j < 2 → gy.getD j 0 = gx.getD j 0) →
      (∀ j, 2 ≤ j → j < gx.length →
        (gy.getD j 0 : K) ≤ (gx.getD j 0 : K) * s ∧ (gx.getD j 0 : K) * s < (gy.getD j 0 : K) + 1) →
      0 ≤ s → TorchOut gx none (some s) gy

/-- The cases considered. -/
structure UpCase (P : Cart) (size : Option (List Nat)) (p : InterpParams K) (gx gy : List Nat) : Prop where
  out : TorchOut gx size p.scale gy
  dims : 3 ≤ P.shape.length ∧ P.shape.length ≤ 5
  lead : ∀ j, j < 2 → gy.getD j 0 = gx.getD j 0
  feat : ∀ j, 2 ≤ j → j < P.shape.length → 0 < gx.getD j 0 ∧ 0 < gy.getD j 0
  nearest : p.mode = .nearest → ∀ s, p.scale = some s → ∀ j, 2 ≤ j → j < P.shape.length →
    (gx.getD j 0 : K) * s = gy.getD j 0
  lead1 : p.mode = .linear → ∀ j, j < 2 → P.shape.getD j 0 = 1
  linear : p.mode = .linear → ∀ j, 2 ≤ j → j < P.shape.length → P.shape.getD j 0 ≤ gy.getD j 0 ∧
    (p.align = true → gy.getD j 0 ≠ 1) ∧ ∀ o, o < gy.getD j 0 → Distinct p (gx.getD j 0) (gy.getD j 0) o

variable [IsStrictOrderedRing K]

omit [IsStrictOrderedRing K] in
theorem TorchOut.shape {gx gy : List Nat} {size : Option (List Nat)} {scale : Option K}
    (h : TorchOut gx size scale gy) : upsampleShape size scale gx = some gy ∧ gy.length = gx.length := by
  cases h with
  | size hl => exact ⟨by simp [upsampleShape, hl], hl⟩
  | scale hl h2 hs h0 =>
    rename_i s
    refine ⟨?_, hl⟩
    simp only [upsampleShape]
    rw [if_neg (not_lt.2 h0)]
    congr 1
    have hlen : (gx.take 2 ++ (gx.drop 2).map fun n : Nat => ⌊(n : K) * s⌋.toNat).length = gx.length := by
      simp; omega
    apply eq_of_getD (by rw [hlen, hl])
    intro j hj
    rw [hlen] at hj
    rcases Nat.lt_or_ge j 2 with hj2 | hj2
    · rw [h2 j hj2, List.getD_append _ _ _ _ (by simp; omega), List.getD_eq_getElem _ _ (by simp; omega),
        List.getElem_take, List.getD_eq_getElem _ _ hj]
    · have ht : (gx.take 2).length = 2 := by simp; omega
      rw [List.getD_append_right _ _ _ _ (by rw [ht]; exact hj2), ht,
        List.getD_eq_getElem _ _ (by simp; omega), List.getElem_map, List.getElem_drop]
      obtain ⟨a, b⟩ := hs j hj2 hj
      rw [List.getD_eq_getElem gx _ hj] at a b
      have e : gx[2 + (j - 2)]'(by omega) = gx[j] := by congr 1; omega
      rw [e]
      have : ⌊(gx[j] : K) * s⌋ = ((gy.getD j 0 : Nat) : Int) := by
        rw [Int.floor_eq_iff]
        exact ⟨by exact_mod_cast a, by exact_mod_cast b⟩
      rw [this, Int.toNat_natCast]

/-- Step and last position in a feature dimension. -/
theorem fac_facts {p : InterpParams K} {j gi go : Nat} (hj : 2 ≤ j) (hgi : 0 < gi) (hgo : 0 < go)
    (hs : ∀ s, p.scale = some s → (go : K) ≤ (gi : K) * s)
    (hn : p.mode = .nearest → ∀ s, p.scale = some s → (gi : K) * s = go)
    (ha : p.mode = .linear → p.align = true → go ≠ 1) :
    ∃ fac, mixinFac p j gi go = some fac ∧ kernelFac p gi go = some fac ∧ 0 ≤ fac ∧ torchStep p gi go = fac ∧
      gpos p fac ((go : K) - 1) < gi := by
  have hgi' : (0 : K) < gi := by exact_mod_cast hgi
  have hgo' : (0 : K) < go := by exact_mod_cast hgo
  have hj' : ¬ j < 2 := by omega
  have hratio : ratio (gi : K) (go : K) = some ((gi : K) / go) := if_neg hgo'.ne'
  have hlast : (gi : K) / go * ((go : K) - 1) < gi := by
    rw [div_mul_eq_mul_div, div_lt_iff₀ hgo']
    nlinarith
  have hspos : ∀ s, p.scale = some s → 0 < s := by
    intro s e
    by_contra hc
    have h1 := hs s e
    have h2 : (gi : K) * s ≤ 0 := mul_nonpos_of_nonneg_of_nonpos hgi'.le (not_lt.1 hc)
    linarith
  obtain ⟨m, al, sc⟩ := p
  simp only at hn ha hs hspos
  cases m with
  | nearest =>
    refine ⟨(gi : K) / go, by simp [mixinFac, hj', hratio], by simp [kernelFac, hratio], by positivity, ?_, ?_⟩
    · cases sc with
      | none => simp [torchStep]
      | some s =>
        have h1 := hn rfl s rfl
        have h2 := hspos s rfl
        simp only [torchStep, reduceCtorEq, false_and, if_false]
        rw [← h1]
        field_simp
    · simpa [gpos] using hlast
  | linear =>
    cases al with
    | true =>
      have hne : go ≠ 1 := ha rfl rfl
      have h1 : (0 : K) < (go : K) - 1 := by
        have : (1 : K) < go := by exact_mod_cast (show 1 < go by omega)
        linarith
      have h2 : (0 : K) ≤ (gi : K) - 1 := by
        have : (1 : K) ≤ gi := by exact_mod_cast hgi
        linarith
      refine ⟨((gi : K) - 1) / ((go : K) - 1), by simp [mixinFac, hj', ratio, h1.ne'],
        by simp [kernelFac, ratio, h1.ne'], by positivity, by simp [torchStep, show 1 < go by omega], ?_⟩
      simp only [gpos, reduceCtorEq, or_true, if_true]
      rw [div_mul_cancel₀ _ h1.ne']
      linarith
    | false =>
      cases sc with
      | none =>
        refine ⟨(gi : K) / go, by simp [mixinFac, hj', hratio], ?_, by positivity, by simp [torchStep], ?_⟩
        · simp [kernelFac, hratio]
        · simp only [gpos, reduceCtorEq, Bool.false_eq_true, or_self, if_false]
          have : (gi : K) / go * ((go : K) - 1 + 1 / 2) < gi := by
            rw [div_mul_eq_mul_div, div_lt_iff₀ hgo']
            nlinarith
          linarith
      | some s =>
        have h1 := hs s rfl
        have h2 := hspos s rfl
        refine ⟨1 / s, by simp [mixinFac, hj', ratio, h2.ne'], by simp [kernelFac, h2], by positivity,
          by simp [torchStep], ?_⟩
        simp only [gpos, reduceCtorEq, Bool.false_eq_true, or_self, if_false]
        have : 1 / s * ((go : K) - 1 + 1 / 2) < gi + 1 / 2 := by
          rw [div_mul_eq_mul_div, div_lt_iff₀ h2]
          nlinarith
        linarith

variable {P : Cart} {size : Option (List Nat)} {p : InterpParams K} {gx gy : List Nat}

theorem UpCase.facs (h : UpCase P size p gx gy) (hl : gx.length = P.shape.length) {j : Nat} (hj2 : 2 ≤ j)
    (hj : j < P.shape.length) :
    ∃ fac, mixinFac p j (gx.getD j 0) (gy.getD j 0) = some fac ∧
      kernelFac p (gx.getD j 0) (gy.getD j 0) = some fac ∧ 0 ≤ fac ∧
      torchStep p (gx.getD j 0) (gy.getD j 0) = fac ∧ gpos p fac ((gy.getD j 0 : K) - 1) < gx.getD j 0 := by
  refine fac_facts hj2 (h.feat j hj2 hj).1 (h.feat j hj2 hj).2 ?_ (fun hm s hs => h.nearest hm s hs j hj2 hj)
    (fun hm ha => (h.linear hm j hj2 hj).2.1 ha)
  intro s hs
  have := h.out
  rw [hs] at this
  cases this with
  | scale _ _ hh _ => exact (hh j hj2 (by rw [hl]; exact hj)).1

theorem UpCase.isSome (h : UpCase P size p gx gy) (hl : gx.length = P.shape.length) :
    ∀ j, j < P.shape.length → (mixinFac p j (gx.getD j 0) (gy.getD j 0)).isSome := by
  intro j hj
  rcases Nat.lt_or_ge j 2 with hj2 | hj2
  · simp [mixinFac, hj2]
  · obtain ⟨f, hf, -⟩ := h.facs hl hj2 hj
    rw [hf]; rfl

/-- Batch and channels: exactly the outputs' indices. -/
theorem UpCase.lead_range (h : UpCase P size p gx gy) (hw : P.WF) {r : Nat} (hr : r < P.members.length)
    {j : Nat} (hj2 : j < 2) :
    upStart P p gx gy r j = (startIdx (P.shape.getD j 0) ((getCoords P.shape r).getD j 0) (gy.getD j 0) : Nat) ∧
    upStop P p gx gy r j = (stopIdx (P.shape.getD j 0) ((getCoords P.shape r).getD j 0) (gy.getD j 0) : Nat) := by
  have hj : j < P.shape.length := by have := h.dims; omega
  have hi : InBounds (getCoords P.shape r) P.shape := (getCoords_spec (by rw [← hw.size]; exact hr)).1
  have hc := inBounds_getD hi hj
  have hpos : 0 < P.shape.getD j 0 := by omega
  have hstop : stopIdx (P.shape.getD j 0) ((getCoords P.shape r).getD j 0) (gy.getD j 0) ≤ gy.getD j 0 := by
    rw [← startIdx_succ]
    exact startIdx_le hpos _ (by omega)
  have hcell : ∀ y : Int, 0 ≤ y → mixinCell p 1 y = y := by
    intro y hy
    rw [mixinCell_eq p zero_le_one hy]
    have : gpos p 1 (y : K) = y := by unfold gpos; split <;> ring
    rw [this, max_eq_right (by exact_mod_cast hy), Int.floor_intCast]
  constructor
  · unfold upStart neededStart
    rw [show mixinFac p j (gx.getD j 0) (gy.getD j 0) = some 1 by simp [mixinFac, hj2], Option.getD_some,
      hcell _ (by omega)]
    omega
  · unfold upStop neededStop
    rw [show mixinFac p j (gx.getD j 0) (gy.getD j 0) = some 1 by simp [mixinFac, hj2], Option.getD_some,
      ← h.lead j hj2]
    rcases hm : p.mode with _ | _
    · have : mixinCell p 1 ((stopIdx (P.shape.getD j 0) ((getCoords P.shape r).getD j 0) (gy.getD j 0) : Nat) - 1)
          = (stopIdx (P.shape.getD j 0) ((getCoords P.shape r).getD j 0) (gy.getD j 0) : Nat) - 1 := by
        unfold mixinCell
        simp only [hm]
        rw [one_mul, Int.floor_intCast]
      rw [this, if_neg (by decide)]
      omega
    · have h1 := h.lead1 hm j hj2
      have hs : stopIdx (P.shape.getD j 0) ((getCoords P.shape r).getD j 0) (gy.getD j 0) = gy.getD j 0 := by
        rw [h1] at hc ⊢
        rw [← startIdx_succ, show (getCoords P.shape r).getD j 0 + 1 = 1 by omega, startIdx_top (by omega)]
      rw [hs]
      simp only [if_true]
      rcases Nat.eq_zero_or_pos (gy.getD j 0) with h0 | h0
      · rw [h0]
        have : -1 ≤ mixinCell p 1 (((0 : Nat) : Int) - 1) := by
          unfold mixinCell
          simp only [hm]
          split
          · rw [one_mul, Int.floor_intCast]; omega
          · rw [Int.le_floor]
            split
            · norm_num
            · rename_i hh
              exact le_trans (by norm_num) (not_lt.1 hh)
        omega
      · rw [hcell _ (by omega)]
        omega

/-- Features: a nonempty range of cells. -/
theorem UpCase.feat_range (h : UpCase P size p gx gy) (hl : gx.length = P.shape.length) (hw : P.WF) {r : Nat}
    (hr : r < P.members.length) {j : Nat} (hj2 : 2 ≤ j) (hj : j < P.shape.length)
    (hne : startIdx (P.shape.getD j 0) ((getCoords P.shape r).getD j 0) (gy.getD j 0) <
      stopIdx (P.shape.getD j 0) ((getCoords P.shape r).getD j 0) (gy.getD j 0)) :
    0 ≤ upStart P p gx gy r j ∧ upStart P p gx gy r j < upStop P p gx gy r j ∧
    ∃ fac, DimSel p ⟨gx.getD j 0, gy.getD j 0, (upStop P p gx gy r j - upStart P p gx gy r j).toNat,
      stopIdx (P.shape.getD j 0) ((getCoords P.shape r).getD j 0) (gy.getD j 0) -
        startIdx (P.shape.getD j 0) ((getCoords P.shape r).getD j 0) (gy.getD j 0),
      upStart P p gx gy r j, startIdx (P.shape.getD j 0) ((getCoords P.shape r).getD j 0) (gy.getD j 0)⟩ fac
      (stopIdx (P.shape.getD j 0) ((getCoords P.shape r).getD j 0) (gy.getD j 0)) ∧
      torchStep p (gx.getD j 0) (gy.getD j 0) = fac := by
  obtain ⟨fac, f1, f2, f3, f4, f5⟩ := h.facs hl hj2 hj
  have hi : InBounds (getCoords P.shape r) P.shape := (getCoords_spec (by rw [← hw.size]; exact hr)).1
  have hc := inBounds_getD hi hj
  have hstop : stopIdx (P.shape.getD j 0) ((getCoords P.shape r).getD j 0) (gy.getD j 0) ≤ gy.getD j 0 := by
    rw [← startIdx_succ]
    exact startIdx_le (by omega) _ (by omega)
  unfold upStart upStop neededStart neededStop
  rw [f1, Option.getD_some]
  generalize hy0 : startIdx (P.shape.getD j 0) ((getCoords P.shape r).getD j 0) (gy.getD j 0) = y0 at *
  generalize hy1 : stopIdx (P.shape.getD j 0) ((getCoords P.shape r).getD j 0) (gy.getD j 0) = y1 at *
  have hlast : gpos p fac (((y1 : Int) - 1 : Int) : K) < gx.getD j 0 := by
    refine lt_of_le_of_lt (gpos_mono p f3 ?_) f5
    push_cast
    have : (y1 : K) ≤ gy.getD j 0 := by exact_mod_cast hstop
    linarith
  have hgi := (h.feat j hj2 hj).1
  have hcl : ⌊max 0 (gpos p fac (((y1 : Int) - 1 : Int) : K))⌋ < (gx.getD j 0 : Int) := by
    rw [Int.floor_lt]
    push_cast
    push_cast at hlast
    exact max_lt (by exact_mod_cast hgi) hlast
  have hmono : ⌊max 0 (gpos p fac (y0 : K))⌋ ≤ ⌊max 0 (gpos p fac (((y1 : Int) - 1 : Int) : K))⌋ := by
    apply Int.floor_le_floor
    apply max_le_max le_rfl
    apply gpos_mono p f3
    have : (y0 : Int) ≤ (y1 : Int) - 1 := by omega
    exact_mod_cast this
  have h0 : 0 ≤ ⌊max 0 (gpos p fac (y0 : K))⌋ := Int.floor_nonneg.2 (le_max_left _ _)
  have ec0 : mixinCell p fac (y0 : Nat) = ⌊max 0 (gpos p fac (y0 : K))⌋ := by
    rw [mixinCell_eq p f3 (by omega)]
    push_cast
    rfl
  have ec1 : mixinCell p fac ((y1 : Nat) - 1) = ⌊max 0 (gpos p fac (((y1 : Int) - 1 : Int) : K))⌋ :=
    mixinCell_eq p f3 (by omega)
  rw [ec0, ec1]
  have hif : (0 : Int) ≤ (if p.mode = .linear then 1 else 0) := by split <;> omega
  refine ⟨by omega, by omega, fac, ⟨f2, f3, by dsimp only; omega, by dsimp only; omega, ?_, hlast, hgi⟩, f4⟩
  dsimp only
  omega

variable {localS : Nat → List Nat × TorchDtype × Bool} {x : Nat → List Nat → K} {X : List Nat → K}
  {t : TorchDtype} {rg : Bool}

/-- Setup succeeds on every worker. -/
theorem C50_setup (hin : UpInput P gx localS x X t rg) (h : UpCase P size p gx gy) {r : Nat}
    (hr : r < P.members.length) :
    upSetup P size p localS (P.members.getD r 0) = some (upFacts P p gx gy r) :=
  upSetup_spec hin h.out.shape.1 (h.out.shape.2.trans hin.len) (h.isSome hin.len) hr

variable {β : Type} {dt : NpKey} {junk : Nat → β} {ops : Nat → List (MgrOp β)} {eager : Bool} {k : Nat}
  {U : Nat → UpSetup} {S : Nat → HaloSetup} {g : GState (List Nat → K) (List Nat → K)}

theorem mixinCell_mono (p : InterpParams K) {fac : K} (hf : 0 ≤ fac) {y z : Int} (h : y ≤ z) :
    mixinCell p fac y ≤ mixinCell p fac z := by
  have h' : (y : K) ≤ z := by exact_mod_cast h
  have h1 : fac * y ≤ fac * z := mul_le_mul_of_nonneg_left h' hf
  have h2 : fac * ((y : K) + 1 / 2) - 1 / 2 ≤ fac * ((z : K) + 1 / 2) - 1 / 2 := by
    have : fac * ((y : K) + 1 / 2) ≤ fac * ((z : K) + 1 / 2) := mul_le_mul_of_nonneg_left (by linarith) hf
    linarith
  unfold mixinCell
  cases p.mode with
  | nearest => exact Int.floor_le_floor h1
  | linear =>
    simp only
    split
    · exact Int.floor_le_floor h1
    · apply Int.floor_le_floor
      split <;> split <;> linarith

/-- Messages lie inside the padded tensors they are taken from, however wide the halos are. -/
theorem upPlan_ok_always (hw : P.WF) (hl : gx.length = P.shape.length) (h : UpCase P size p gx gy) :
    (upPlan P p gx gy).OK := by
  have hfac : ∀ j, j < P.shape.length → 0 ≤ (mixinFac p j (gx.getD j 0) (gy.getD j 0)).getD 0 := by
    intro j hj
    rcases Nat.lt_or_ge j 2 with hj2 | hj2
    · simp [mixinFac, hj2]
    · obtain ⟨f, f1, -, f2, -⟩ := h.facs hl hj2 hj
      rw [f1]
      exact f2
  refine ⟨hw, Layout.balanced_pshape hl.symm, fun j hj => (upPlan_boundary hw hj).1,
    fun j hj => (upPlan_boundary hw hj).2, fun j hj c hc => ?_, fun j hj c hc => ?_⟩
  · rw [(upPlan_blocks hl hj (Nat.lt_of_succ_lt hc)).1]
    have hm := mixinCell_mono p (hfac j hj) (y := (startIdx (P.shape.getD j 0) c (gy.getD j 0) : Nat))
      (z := (startIdx (P.shape.getD j 0) (c + 1) (gy.getD j 0) : Nat))
      (by have := startIdx_mono (P.shape.getD j 0) (gy.getD j 0) (show c ≤ c + 1 by omega); omega)
    simp only [upPlan, interpHalo1, if_true, neededStart, neededStop, startIdx_succ, stopIdx] at hm ⊢
    omega
  · rw [(upPlan_blocks hl hj hc).1]
    have hm := mixinCell_mono p (hfac j hj) (y := (stopIdx (P.shape.getD j 0) c (gy.getD j 0) : Nat) - 1)
      (z := (stopIdx (P.shape.getD j 0) (c + 1) (gy.getD j 0) : Nat) - 1)
      (by
        have := startIdx_mono (P.shape.getD j 0) (gy.getD j 0) (show c + 1 ≤ c + 1 + 1 by omega)
        rw [startIdx_succ, startIdx_succ] at this
        omega)
    simp only [upPlan, interpHalo1, if_true, neededStart, neededStop, startIdx_succ, stopIdx] at hm ⊢
    omega

/-- The layer can be started on all workers. -/
theorem C50_starts (hin : UpInput P gx localS x X t rg) (h : UpCase P size p gx gy) (dt : NpKey) (junk : Nat → β)
    (ops : Nat → List (MgrOp β)) (eager : Bool) :
    ∃ U S, UpRun P size p localS x dt junk ops eager 0 U S (GState.init fun r =>
      ((U r).padInput (localS (P.members.getD r 0)).1 (x (P.members.getD r 0))).2) := by
  obtain ⟨S, hS⟩ := C35_setup (H := upPlan P p gx gy) hin.wf dt junk ops
  refine ⟨upFacts P p gx gy, S, fun r hr => C50_setup hin h hr, fun r hr => ?_, .refl _⟩
  rw [(upPadded hin hr).1]
  have e := upWidths_plan (p := p) (gx := gx) (gy := gy) (r := r) (by rw [← hin.wf.size]; exact hr)
  change haloSetup P ((interpInfo p P.shape gx gy (getCoords P.shape r)).widths) _ _ _ _ _ = _
  rw [e]
  exact hS r hr

theorem UpRun.facts (hin : UpInput P gx localS x X t rg) (h : UpCase P size p gx gy)
    (R : UpRun P size p localS x dt junk ops eager k U S g) :
    ∀ r, r < P.members.length → U r = upFacts P p gx gy r := by
  intro r hr
  have := R.setup r hr
  rw [C50_setup hin h hr] at this
  exact (Option.some.inj this).symm

/-- Every run can be continued until all workers have finished. -/
theorem C50_completes (hin : UpInput P gx localS x X t rg) (h : UpCase P size p gx gy)
    (R : UpRun P size p localS x dt junk ops eager k U S g) :
    ∃ k' g', UpRun P size p localS x dt junk ops eager k' U S g' ∧ k ≤ k' ∧
      ∀ r, r < P.members.length → (g'.ws r).phase = haloPhases P := by
  have ok := upPlan_ok_always hin.wf hin.len h
  have dn := (R.setUp hin (R.facts hin h)).done ok.wf
  obtain ⟨k', g', hex, hk, hf⟩ := completes (HaloPlan.fwd_matched ok dn) (HaloPlan.fwd_commutes ok dn) R.exec
  exact ⟨k', g', ⟨R.setup, R.halo, hex⟩, hk, hf⟩

/-- The output of a worker is the sequential interpolation of what it sees of the input: a tensor `V` that
agrees with its padded block after the exchange. -/
theorem up_view (hin : UpInput P gx localS x X t rg) (ht : t = .float32 ∨ t = .float64)
    (h : UpCase P size p gx gy) (hU : ∀ r, r < P.members.length → U r = upFacts P p gx gy r) {r : Nat}
    (hr : r < P.members.length) (V : List Nat → K)
    (hgh : ∀ l, InBounds l ((upPlan P p gx gy).shape r) →
      (g.ws r).st l = V (shiftBy ((upPlan P p gx gy).origin r) l)) :
    ∃ y, upForward P p localS x U g r = some y ∧ y.dtype = t ∧
      y.shape = (Layout.balanced P.shape gy).shapeAt (getCoords P.shape r) ∧
      ∀ o, InBounds o y.shape → y.val o =
        torchInterp p gx gy V (shiftBy ((Layout.balanced P.shape gy).startAt (getCoords P.shape r)) o) := by
  have hlx := hin.len
  have hly : gy.length = P.shape.length := h.out.shape.2.trans hlx
  have hD := h.dims
  obtain ⟨m1, m2⟩ := member_spec hin.wf hr
  have hi : InBounds (getCoords P.shape r) P.shape := (getCoords_spec (by rw [← hin.wf.size]; exact hr)).1
  have hshape := (upPadded (p := p) (gy := gy) hin hr).1
  have hdt : (localS (P.members.getD r 0)).2.1 = t := by rw [hin.loc _ m1 _ m2]
  unfold upForward
  dsimp only
  rw [hU r hr, hshape, hdt]
  -- local shapes
  have hm0 : (map3 startIdx P.shape (getCoords P.shape r) gy).length = P.shape.length :=
    map3_length _ _ _ _ hi.length_eq.symm (by rw [hi.length_eq, hly])
  have hm1 : (map3 stopIdx P.shape (getCoords P.shape r) gy).length = P.shape.length :=
    map3_length _ _ _ _ hi.length_eq.symm (by rw [hi.length_eq, hly])
  have g0 : ∀ j, j < P.shape.length → (map3 startIdx P.shape (getCoords P.shape r) gy).getD j 0 =
      startIdx (P.shape.getD j 0) ((getCoords P.shape r).getD j 0) (gy.getD j 0) := fun j hj =>
    map3_getD _ hi.length_eq.symm (by rw [hi.length_eq, hly]) hj
  have g1 : ∀ j, j < P.shape.length → (map3 stopIdx P.shape (getCoords P.shape r) gy).getD j 0 =
      stopIdx (P.shape.getD j 0) ((getCoords P.shape r).getD j 0) (gy.getD j 0) := fun j hj =>
    map3_getD _ hi.length_eq.symm (by rw [hi.length_eq, hly]) hj
  have gxs : ∀ j, j < P.shape.length → (upFacts P p gx gy r).xs.getD j 0 = upStart P p gx gy r j := fun j hj => by
    show ((List.range P.shape.length).map _).getD j 0 = _
    rw [getD_map_range _ _ hj]
    rfl
  have hshl : ((upPlan P p gx gy).shape r).length = P.shape.length := HaloPlan.length_shape r
  have hnl : (upFacts P p gx gy r).info.needed.length = P.shape.length := by
    show (interpRanges _ _).length = _
    rw [interpRanges, List.length_zipWith, map3_length _ _ _ _ hi.length_eq.symm (by rw [hi.length_eq, hlx]),
      length_interpHalo, Nat.min_self]
  have hpl : (pySlices ((upPlan P p gx gy).shape r) (upFacts P p gx gy r).info.needed).length = P.shape.length := by
    rw [pySlices, List.length_zipWith, hshl, hnl, Nat.min_self]
  set sl := pySlices ((upPlan P p gx gy).shape r) (upFacts P p gx gy r).info.needed with hsl
  have hsl1 : (upFacts P p gx gy r).select ((upPlan P p gx gy).shape r) (g.ws r).st =
      (sl.map fun q => q.2 - q.1, readSlice sl (g.ws r).st) := rfl
  rw [hsl1]
  have hsg : ∀ j, j < P.shape.length → (sl.map fun q => q.2 - q.1).getD j 0 =
      (sl.getD j (0, 0)).2 - (sl.getD j (0, 0)).1 := fun j hj => by
    rw [List.getD_eq_getElem _ _ (by rw [List.length_map, hpl]; exact hj), List.getElem_map,
      List.getD_eq_getElem sl _ (by rw [hpl]; exact hj)]
  have hil : (sl.map fun q => q.2 - q.1).length = P.shape.length := by rw [List.length_map, hpl]
  have hle : ∀ j, startIdx (P.shape.getD j 0) ((getCoords P.shape r).getD j 0) (gy.getD j 0) ≤
      stopIdx (P.shape.getD j 0) ((getCoords P.shape r).getD j 0) (gy.getD j 0) := fun j => Nat.le_add_right _ _
  -- the range of every dimension
  have hrange : (∀ j, j + 2 < P.shape.length →
      startIdx (P.shape.getD (j + 2) 0) ((getCoords P.shape r).getD (j + 2) 0) (gy.getD (j + 2) 0) <
      stopIdx (P.shape.getD (j + 2) 0) ((getCoords P.shape r).getD (j + 2) 0) (gy.getD (j + 2) 0)) →
      ∀ j, j < P.shape.length → 0 ≤ upStart P p gx gy r j ∧ upStart P p gx gy r j ≤ upStop P p gx gy r j := by
    intro hne j hj
    rcases Nat.lt_or_ge j 2 with hj2 | hj2
    · obtain ⟨a, b⟩ := h.lead_range hin.wf hr hj2
      rw [a, b]
      have := hle j
      omega
    · have := hne (j - 2) (by omega)
      rw [show j - 2 + 2 = j by omega] at this
      obtain ⟨a, b, -⟩ := h.feat_range hlx hin.wf hr hj2 hj this
      omega
  have key := interpForward_spec p (xs := (upFacts P p gx gy r).xs) (gx := gx)
    (ys := map3 startIdx P.shape (getCoords P.shape r) gy) (ye := map3 stopIdx P.shape (getCoords P.shape r) gy)
    (gy := gy) (input := ⟨sl.map fun q => q.2 - q.1, t, readSlice sl (g.ws r).st⟩) (X := V)
    (by
      dsimp only
      rw [hil]
      unfold kernelAccepts
      simp only [Bool.decide_and, Bool.and_eq_true, decide_eq_true_eq, Bool.decide_or, Bool.or_eq_true]
      exact ⟨ht, hD⟩)
    (by dsimp only; rw [hil, hlx]) (by dsimp only; rw [hil, hm0]) (by dsimp only; rw [hil, hm1])
    (by dsimp only; rw [hil, hly])
    (by
      dsimp only
      intro j hj
      rw [hil] at hj
      rw [g0 j hj, g1 j hj]
      exact hle j)
    (by
      dsimp only
      intro j hj2
      have hj : j < P.shape.length := by omega
      obtain ⟨a, b⟩ := h.lead_range hin.wf hr hj2
      have hlej := hle j
      obtain ⟨c1, c2, c3⟩ := select_dim (p := p) (gy := gy) hin hr hj (by rw [a, b]; omega)
      rw [hsg j hj, g0 j hj, g1 j hj, gxs j hj, a]
      rw [a] at c1
      rw [b] at c2
      rw [← hsl] at c1 c2
      refine ⟨by omega, rfl⟩)
    (by
      dsimp only
      intro hm j hj
      rw [hil] at hj
      rw [g0 _ hj, g1 _ hj]
      have hP := (h.linear hm (j + 2) (by omega) hj).1
      have hc := inBounds_getD hi hj
      unfold stopIdx
      have := subsize_pos (c := (getCoords P.shape r).getD (j + 2) 0) (Nat.zero_lt_of_lt hc) hP
      omega)
    (by
      dsimp only
      rw [hil]
      intro hne j hj
      have hne' := hne j hj
      rw [g0 _ hj, g1 _ hj] at hne'
      obtain ⟨a, b, fac, c, d⟩ := h.feat_range hlx hin.wf hr (by omega) hj hne'
      obtain ⟨c1, c2, c3⟩ := select_dim (p := p) (gy := gy) hin hr hj (by omega)
      rw [← hsl] at c1 c2
      rw [g0 _ hj, g1 _ hj, gxs _ hj, hsg _ hj]
      refine ⟨fac, ?_, d, ?_⟩
      · have e : (sl.getD (j + 2) (0, 0)).2 - (sl.getD (j + 2) (0, 0)).1 =
            (upStop P p gx gy r (j + 2) - upStart P p gx gy r (j + 2)).toNat := by omega
        rw [e]
        exact c
      · intro hm o ho
        apply (h.linear hm (j + 2) (by omega) hj).2.2
        have hc := inBounds_getD hi hj
        have hstop : stopIdx (P.shape.getD (j + 2) 0) ((getCoords P.shape r).getD (j + 2) 0) (gy.getD (j + 2) 0) ≤
            gy.getD (j + 2) 0 := by
          rw [← startIdx_succ]
          exact startIdx_le (by omega) _ (by omega)
        omega)
    (by
      dsimp only
      rw [hil]
      intro hne l hl
      have hne2 : ∀ j, j + 2 < P.shape.length →
          startIdx (P.shape.getD (j + 2) 0) ((getCoords P.shape r).getD (j + 2) 0) (gy.getD (j + 2) 0) <
          stopIdx (P.shape.getD (j + 2) 0) ((getCoords P.shape r).getD (j + 2) 0) (gy.getD (j + 2) 0) := by
        intro j hj
        have := hne j hj
        rwa [g0 _ hj, g1 _ hj] at this
      have hrg := hrange hne2
      have hl' := inBounds_iff.1 hl
      rw [hil] at hl'
      have hfl : (sl.map Prod.fst).length = P.shape.length := by rw [List.length_map, hpl]
      have hfg : ∀ j, j < P.shape.length → (sl.map Prod.fst).getD j 0 = (sl.getD j (0, 0)).1 := fun j hj => by
        rw [List.getD_eq_getElem _ _ (by rw [hfl]; exact hj), List.getElem_map,
          List.getD_eq_getElem sl _ (by rw [hpl]; exact hj)]
      have hsel : ∀ j, j < P.shape.length → _ := fun j hj => select_dim (p := p) (gy := gy) hin hr hj (hrg j hj).2
      have hsh : (shiftBy (sl.map Prod.fst) l).length = P.shape.length := by
        rw [length_shiftBy (by rw [hfl, hl'.1]), hfl]
      show (g.ws r).st (shiftBy (sl.map Prod.fst) l) = _
      rw [hgh _ (by
        rw [inBounds_iff, hshl]
        refine ⟨hsh, fun j hj => ?_⟩
        rw [getD_shiftBy (by rw [hfl]; exact hj) (by rw [hl'.1]; exact hj), hfg j hj]
        obtain ⟨c1, c2, c3⟩ := hsel j hj
        rw [← hsl] at c1 c2 c3
        have := hl'.2 j hj
        rw [hsg j hj] at this
        omega)]
      congr 1
      have hol : ((upPlan P p gx gy).origin r).length = P.shape.length := by simp [HaloPlan.origin]; rfl
      apply eq_of_getD
      · rw [length_shiftBy (by rw [hol, hsh]), hol]
        simp
      · intro j hj
        rw [length_shiftBy (by rw [hol, hsh]), hol] at hj
        rw [getD_shiftBy (by rw [hol]; exact hj) (by rw [hsh]; exact hj),
          getD_shiftBy (by rw [hfl]; exact hj) (by rw [hl'.1]; exact hj), hfg j hj, getD_map_range _ _ hj, gxs j hj]
        obtain ⟨c1, c2, c3⟩ := hsel j hj
        rw [← hsl] at c1 c2 c3
        omega)
  obtain ⟨y, y1, y2, y3, y4⟩ := key
  have hbs := Layout.balanced_startAt hly.symm hi
  have hbsh : List.zipWith (· - ·) (map3 stopIdx P.shape (getCoords P.shape r) gy)
      (map3 startIdx P.shape (getCoords P.shape r) gy) =
      (Layout.balanced P.shape gy).shapeAt (getCoords P.shape r) := by
    have bl := balanced_lengths hly.symm hi
    apply eq_of_getD (by rw [bl.1]; simp [hm0, hm1])
    intro j hj
    have hj' : j < P.shape.length := by simpa [hm0, hm1] using hj
    rw [getD_zipWith_sub (by rw [hm1]; exact hj') (by rw [hm0]; exact hj'), g0 j hj', g1 j hj',
      (balanced_getD hly.symm hi hj').1, stopIdx]
    omega
  have hst : map3 startIdx P.shape (getCoords P.shape r) gy =
      (Layout.balanced P.shape gy).startAt (getCoords P.shape r) := by
    have bl := balanced_lengths hly.symm hi
    apply eq_of_getD (by rw [bl.2, hm0])
    intro j hj
    rw [hm0] at hj
    rw [g0 j hj, (balanced_getD hly.symm hi hj).2]
  refine ⟨y, y1, y3, y2.trans hbsh, fun o ho => ?_⟩
  rw [y4 o ho, hst]

/-- **C50**, partial: `DistributedUpsample` computes the worker's part of the sequential interpolation, for every
schedule of the halo exchange and all earlier uses of the buffers.  Missing: halos wider than the block of the
neighbour, a partitioned batch or channel dimension or empty outputs in mode linear, a single output with
`align_corners`, nearest with an inexact scale factor, weights within 1/10000 of 0 or 1, unevenly cut inputs; all of these are
refuted in `Interp/Limits.lean`.  Rounding is not modelled. -/
theorem C50_partial (hin : UpInput P gx localS x X t rg) (ht : t = .float32 ∨ t = .float64)
    (h : UpCase P size p gx gy) (hf : (upPlan P p gx gy).Fits)
    (R : UpRun P size p localS x dt junk ops eager k U S g) {r : Nat} (hr : r < P.members.length)
    (hfin : (g.ws r).phase = haloPhases P) :
    ∃ y, upForward P p localS x U g r = some y ∧ y.dtype = t ∧
      y.shape = (Layout.balanced P.shape gy).shapeAt (getCoords P.shape r) ∧
      ∀ o, InBounds o y.shape → y.val o =
        torchInterp p gx gy X (shiftBy ((Layout.balanced P.shape gy).startAt (getCoords P.shape r)) o) :=
  up_view hin ht h (R.facts hin h) hr X (R.ghosts hin (R.facts hin h) hf hr hfin)

end

end Verif
