import Verif.Interp.Props
import Mathlib.Tactic.FieldSimp
import Mathlib.Tactic.Positivity

/-!
# When the halos fit and the weights are exact
-/

namespace Verif

open Exchange

section
variable {K : Type} [Field K] [LinearOrder K] [FloorRing K] [IsStrictOrderedRing K]

/-- The even decomposition stays within a quarter of the number of workers of the proportional one. -/
theorem startIdx_near {n i : Nat} (hn : 0 < n) (hi : i ≤ n) (g : Nat) :
    (i : K) * g / n ≤ startIdx n i g ∧ (startIdx n i g : K) ≤ (i : K) * g / n + n / 4 := by
  have hn' : (0 : K) < n := by exact_mod_cast hn
  have h1 := Nat.div_add_mod g n
  have h2 := Nat.mod_lt g hn
  unfold startIdx
  generalize g / n = q at h1
  generalize g % n = r at h1 h2 ⊢
  have hg : (g : K) = n * q + r := by rw [← h1]; push_cast; ring
  have hr : (r : K) ≤ n := by exact_mod_cast h2.le
  have hr0 : (0 : K) ≤ r := Nat.cast_nonneg r
  have hi' : (i : K) ≤ n := by exact_mod_cast hi
  have hi0 : (0 : K) ≤ i := Nat.cast_nonneg i
  have e : (i : K) * g / n = i * q + i * r / n := by rw [hg]; field_simp
  rw [e]
  push_cast
  rcases le_total i r with h | h
  · rw [min_eq_left (by exact_mod_cast h : (i : K) ≤ r)]
    have h' : (i : K) ≤ r := by exact_mod_cast h
    refine ⟨?_, ?_⟩
    · have : (i : K) * r / n ≤ i := by
        rw [div_le_iff₀ hn']
        exact mul_le_mul_of_nonneg_left hr hi0
      linarith
    · have : (i : K) - i * r / n ≤ n / 4 := by
        have e2 : (i : K) - i * r / n = i * (n - r) / n := by field_simp
        rw [e2, div_le_iff₀ hn']
        nlinarith [sq_nonneg ((n : K) - 2 * r), mul_le_mul_of_nonneg_right h' (sub_nonneg.2 hr)]
      linarith
  · rw [min_eq_right (by exact_mod_cast h : (r : K) ≤ i)]
    have h' : (r : K) ≤ i := by exact_mod_cast h
    refine ⟨?_, ?_⟩
    · have : (i : K) * r / n ≤ r := by
        rw [div_le_iff₀ hn']
        nlinarith [mul_le_mul_of_nonneg_right hi' hr0]
      linarith
    · have : (r : K) - i * r / n ≤ n / 4 := by
        have e2 : (r : K) - i * r / n = r * (n - i) / n := by field_simp
        rw [e2, div_le_iff₀ hn']
        nlinarith [sq_nonneg ((n : K) - 2 * r), mul_le_mul_of_nonneg_left h' hr0]
      linarith

section
omit [FloorRing K]
variable {n c gi go y : K}

theorem near_big (hn : 1 ≤ n) (hc0 : 0 ≤ c) (hx : n * (n + 12) ≤ 4 * gi) : 0 ≤ c * gi / n + gi / n - 2 := by
  have hn' : 0 < n := by linarith
  have hgi : 0 < gi := by nlinarith
  have h1 : 2 ≤ gi / n := by
    rw [le_div_iff₀ hn']
    nlinarith
  have h2 : 0 ≤ c * gi / n := by positivity
  linarith

theorem ratio_up (hn : 1 ≤ n) (hc0 : 0 ≤ c) (hx : n * (n + 12) ≤ 4 * gi) (hy : n * (n + 12) ≤ 4 * go) {f : K}
    (f0 : 0 ≤ f) (hf : f ≤ gi / go) (hy1 : y ≤ c * go / n + n / 4) : f * y ≤ c * gi / n + gi / n - 2 := by
  have hn' : 0 < n := by linarith
  have hgi : 0 < gi := by nlinarith
  have hgo : 0 < go := by nlinarith
  rcases lt_or_ge y 0 with h0 | h0
  · exact (mul_nonpos_of_nonneg_of_nonpos f0 h0.le).trans (near_big hn hc0 hx)
  have h1 : f * y ≤ gi / go * (c * go / n + n / 4) := mul_le_mul hf hy1 h0 (by positivity)
  have h2 : gi / go * (c * go / n + n / 4) = c * gi / n + (gi * n) / (4 * go) := by
    field_simp
  have h3 : (gi * n) / (4 * go) ≤ gi / (n + 12) := by
    rw [div_le_div_iff₀ (by positivity) (by positivity)]
    nlinarith
  have h4 : gi / (n + 12) ≤ gi / n - 2 := by
    have : gi / n - gi / (n + 12) = 12 * gi / (n * (n + 12)) := by field_simp; ring
    have h5 : 2 ≤ 12 * gi / (n * (n + 12)) := by
      rw [le_div_iff₀ (by positivity)]
      nlinarith
    linarith
  linarith

theorem ratio_low (hn : 0 < n) (hgi : 0 < gi) (hgo : 0 < go) (h : c * go / n ≤ y) :
    c * gi / n ≤ gi / go * y := by
  have h1 := mul_le_mul_of_nonneg_left h (show 0 ≤ gi / go by positivity)
  have h2 : gi / go * (c * go / n) = c * gi / n := by field_simp
  linarith

theorem align_low (hn : 1 ≤ n) (hc0 : 0 ≤ c) (hc : c ≤ n) (hgi1 : 0 ≤ gi - 1) (hgo1 : 0 < go - 1)
    (h : c * go / n ≤ y) : c * gi / n - 1 ≤ (gi - 1) / (go - 1) * y := by
  have hn' : 0 < n := by linarith
  have hf0 : 0 ≤ (gi - 1) / (go - 1) := by positivity
  have h1 := mul_le_mul_of_nonneg_left h hf0
  have h2 : c * (gi - 1) / n ≤ (gi - 1) / (go - 1) * (c * go / n) := by
    rw [div_mul_div_comm, div_le_div_iff₀ hn' (by positivity)]
    have : 0 ≤ c * (gi - 1) * n := by positivity
    nlinarith
  have h3 : c * (gi - 1) / n = c * gi / n - c / n := by field_simp
  have h4 : c / n ≤ 1 := by rw [div_le_iff₀ hn']; linarith
  linarith

theorem align_up (hn : 1 ≤ n) (hc0 : 0 ≤ c) (hc : c ≤ n) (hx : n * (n + 12) ≤ 4 * gi)
    (hy : n * (n + 12) ≤ 4 * go) (h : y ≤ c * go / n + n / 4) :
    (gi - 1) / (go - 1) * (y - 1) ≤ c * gi / n + gi / n - 2 := by
  have hn' : 0 < n := by linarith
  have hx8 : n * (n + 8) ≤ 4 * (gi - 1) := by nlinarith
  have hy8 : n * (n + 8) ≤ 4 * (go - 1) := by nlinarith
  have hgo1 : 0 < go - 1 := by nlinarith
  have hgi1 : 0 ≤ gi - 1 := by nlinarith
  have hf0 : 0 ≤ (gi - 1) / (go - 1) := by positivity
  have h2 : (gi - 1) / (go - 1) * (y - 1) ≤ (gi - 1) / (go - 1) * (c * (go - 1) / n + n / 4) := by
    apply mul_le_mul_of_nonneg_left _ hf0
    have h3 : c * (go - 1) / n = c * go / n - c / n := by field_simp
    have h4 : c / n ≤ 1 := by rw [div_le_iff₀ hn']; linarith
    linarith
  have h3 : (gi - 1) / (go - 1) * (c * (go - 1) / n + n / 4) =
      c * (gi - 1) / n + ((gi - 1) * n) / (4 * (go - 1)) := by
    field_simp
  have h4 : ((gi - 1) * n) / (4 * (go - 1)) ≤ (gi - 1) / (n + 8) := by
    rw [div_le_div_iff₀ (by positivity) (by positivity), mul_assoc]
    exact mul_le_mul_of_nonneg_left hy8 hgi1
  have h5 : (gi - 1) / (n + 8) ≤ (gi - 1) / n - 2 := by
    have h6 : (gi - 1) / n - (gi - 1) / (n + 8) = 8 * (gi - 1) / (n * (n + 8)) := by
      generalize gi - 1 = a
      field_simp
      ring
    have h7 : 2 ≤ 8 * (gi - 1) / (n * (n + 8)) := by
      rw [le_div_iff₀ (by positivity)]
      linarith
    linarith
  have h8 : c * (gi - 1) / n ≤ c * gi / n := by
    apply div_le_div_of_nonneg_right _ hn'.le
    linarith
  have h9 : (gi - 1) / n ≤ gi / n := by
    apply div_le_div_of_nonneg_right _ hn'.le
    linarith
  linarith

theorem scale_low {s : K} (hn : 0 < n) (hc0 : 0 ≤ c) (hc : c ≤ n) (hgi : 0 < gi) (hgo : 0 < go) (hs : 0 < s)
    (h2 : gi * s = go ∨ (gi * s < go + 1 ∧ gi ≤ go)) (h : c * go / n ≤ y) : c * gi / n - 1 ≤ 1 / s * y := by
  have hs0 : 0 ≤ 1 / s := by positivity
  rcases h2 with h2 | ⟨h2, h3⟩
  · have e : 1 / s = gi / go := by
      rw [div_eq_div_iff hs.ne' hgo.ne']
      linarith
    rw [e]
    linarith [ratio_low hn hgi hgo h]
  · have h4 : gi / (go + 1) ≤ 1 / s := by
      rw [div_le_div_iff₀ (by positivity) hs]
      linarith
    have h5 : gi / (go + 1) * (c * go / n) ≤ 1 / s * y := mul_le_mul h4 h (by positivity) hs0
    have h6 : gi / (go + 1) * (c * go / n) = c * gi / n - (c * gi) / (n * (go + 1)) := by field_simp; ring
    have h7 : (c * gi) / (n * (go + 1)) ≤ 1 := by
      rw [div_le_one (by positivity)]
      exact mul_le_mul hc (by linarith) hgi.le hn.le
    linarith

end

/-- Bounds for the positions at the boundary of two blocks. -/
theorem gpos_near {p : InterpParams K} {n c gi go : Nat} {fac : K} (hn : 0 < n) (hc : c ≤ n)
    (hx : n * (n + 12) ≤ 4 * gi) (hy : n * (n + 12) ≤ 4 * go)
    (hfac : kernelFac p gi go = some fac)
    (hs : p.mode = .linear → p.align = false → ∀ s, p.scale = some s →
      (go : K) ≤ (gi : K) * s ∧ ((gi : K) * s = go ∨ ((gi : K) * s < (go : K) + 1 ∧ gi ≤ go))) :
    (∀ y : K, (c : K) * go / n ≤ y → (c : K) * gi / n - 3 / 2 ≤ gpos p fac y) ∧
    (∀ y : K, y ≤ (c : K) * go / n + n / 4 → gpos p fac (y - 1) ≤ (c : K) * gi / n + gi / n - 2) := by
  have hn' : (0 : K) < n := by exact_mod_cast hn
  have hn1 : (1 : K) ≤ n := by exact_mod_cast hn
  have hx' : (n : K) * (n + 12) ≤ 4 * gi := by exact_mod_cast hx
  have hy' : (n : K) * (n + 12) ≤ 4 * go := by exact_mod_cast hy
  have hgi : (0 : K) < gi := by nlinarith
  have hgo : (0 : K) < go := by nlinarith
  have hc' : (c : K) ≤ n := by exact_mod_cast hc
  have hc0 : (0 : K) ≤ c := Nat.cast_nonneg c
  have hratio : ratio (gi : K) (go : K) = some ((gi : K) / go) := if_neg hgo.ne'
  have hq : (0 : K) ≤ (gi : K) / go := by positivity
  obtain ⟨m, al, sc⟩ := p
  simp only at hs
  cases m with
  | nearest =>
    have e : fac = (gi : K) / go := by
      simp only [kernelFac, hratio, Option.some.injEq] at hfac
      exact hfac.symm
    subst e
    simp only [gpos, true_or, if_true]
    refine ⟨fun y h => ?_, fun y h => ?_⟩
    · linarith [ratio_low hn' hgi hgo h]
    · exact ratio_up hn1 hc0 hx' hy' hq le_rfl (by linarith)
  | linear =>
    cases al with
    | true =>
      have hgo1 : (0 : K) < (go : K) - 1 := by nlinarith
      have hgi1 : (0 : K) ≤ (gi : K) - 1 := by nlinarith
      have e : fac = ((gi : K) - 1) / ((go : K) - 1) := by
        simp only [kernelFac, if_true, ratio, hgo1.ne', if_false, Option.some.injEq] at hfac
        exact hfac.symm
      subst e
      simp only [gpos, or_true, if_true]
      refine ⟨fun y h => ?_, fun y h => align_up hn1 hc0 hc' hx' hy' h⟩
      linarith [align_low hn1 hc0 hc' hgi1 hgo1 h]
    | false =>
      cases sc with
      | none =>
        have e : fac = (gi : K) / go := by
          have h1 : ¬ (1 : K) < 0 := not_lt.2 zero_le_one
          simp [kernelFac, hratio, h1] at hfac
          exact hfac.symm
        subst e
        simp only [gpos, reduceCtorEq, Bool.false_eq_true, or_self, if_false]
        refine ⟨fun y h => ?_, fun y h => ?_⟩
        · have := ratio_low (c := (c : K)) (y := y + 1 / 2) hn' hgi hgo (by linarith)
          linarith
        · have := ratio_up (c := (c : K)) (y := y - 1 + 1 / 2) hn1 hc0 hx' hy' hq le_rfl (by linarith)
          linarith
      | some s =>
        obtain ⟨h1, h2⟩ := hs rfl rfl s rfl
        have hspos : 0 < s := by
          by_contra hcon
          have : (gi : K) * s ≤ 0 := mul_nonpos_of_nonneg_of_nonpos hgi.le (not_lt.1 hcon)
          linarith
        have e : fac = 1 / s := by
          simp [kernelFac, hspos] at hfac
          rw [← hfac, one_div]
        subst e
        have hle : 1 / s ≤ (gi : K) / go := by
          rw [div_le_div_iff₀ hspos hgo]
          linarith
        simp only [gpos, reduceCtorEq, Bool.false_eq_true, or_self, if_false]
        refine ⟨fun y h => ?_, fun y h => ?_⟩
        · have h2' : (gi : K) * s = go ∨ ((gi : K) * s < (go : K) + 1 ∧ (gi : K) ≤ go) :=
            h2.imp_right fun h => ⟨h.1, by exact_mod_cast h.2⟩
          have := scale_low (c := (c : K)) (y := y + 1 / 2) hn' hc0 hc' hgi hgo hspos h2' (by linarith)
          linarith
        · have := ratio_up (c := (c : K)) (f := 1 / s) (y := y - 1 + 1 / 2) hn1 hc0 hx' hy' (by positivity) hle (by linarith)
          linarith

/-- Halo widths at the boundary of the blocks `c` and `c + 1`. -/
theorem halo_fits {p : InterpParams K} {j n c gi go : Nat} {fac : K} (hc : c + 1 < n)
    (hx : n * (n + 12) ≤ 4 * gi) (hy : n * (n + 12) ≤ 4 * go)
    (hm : mixinFac p j gi go = some fac) (hk : kernelFac p gi go = some fac) (hf0 : 0 ≤ fac)
    (hs : p.mode = .linear → p.align = false → ∀ s, p.scale = some s →
      (go : K) ≤ (gi : K) * s ∧ ((gi : K) * s = go ∨ ((gi : K) * s < (go : K) + 1 ∧ gi ≤ go))) :
    (interpHalo1 true p j n (c + 1) gi go).1.toNat ≤ subsize n c gi ∧
    (interpHalo1 true p j n c gi go).2.toNat ≤ subsize n (c + 1) gi := by
  have hn : 0 < n := by omega
  have hn' : (0 : K) < n := by exact_mod_cast hn
  obtain ⟨g1, g2⟩ := gpos_near (p := p) (c := c + 1) hn hc.le hx hy hk hs
  obtain ⟨x1, x2⟩ := startIdx_near (K := K) hn hc.le gi
  obtain ⟨y1, y2⟩ := startIdx_near (K := K) hn hc.le go
  have hgo : n ≤ go := by nlinarith
  have hst : startIdx n 1 go ≤ startIdx n (c + 1) go := startIdx_mono n go (by omega)
  have hpos : 0 < startIdx n (c + 1) go := by
    rw [show startIdx n 1 go = stopIdx n 0 go from startIdx_succ .., stopIdx] at hst
    have := subsize_pos (c := 0) hn hgo
    omega
  have hsub : ∀ i, gi / n ≤ subsize n i gi := by
    intro i; unfold subsize; omega
  have hdiv : n + 9 ≤ 4 * (gi / n) := by
    have h1 := Nat.div_add_mod gi n
    have h2 := Nat.mod_lt gi hn
    by_contra hcon
    have h3 : 4 * (gi / n) ≤ n + 8 := by omega
    have h4 : n * (4 * (gi / n)) ≤ n * (n + 8) := Nat.mul_le_mul_left n h3
    nlinarith
  constructor
  · refine le_trans ?_ (hsub c)
    simp only [interpHalo1, if_true, neededStart, hm, Option.getD_some]
    rw [mixinCell_eq p hf0 (by omega)]
    have hfl := Int.lt_floor_add_one (max 0 (gpos p fac (((startIdx n (c + 1) go : Nat) : Int) : K)))
    set z := ⌊max 0 (gpos p fac (((startIdx n (c + 1) go : Nat) : Int) : K))⌋ with hz
    have h1 := g1 _ y1
    have h2 : gpos p fac (startIdx n (c + 1) go : K) < z + 1 :=
      lt_of_le_of_lt (le_max_right 0 _) (by exact_mod_cast hfl)
    have h3 : (4 : K) * startIdx n (c + 1) gi < 4 * z + n + 10 := by linarith
    have h4 : 4 * (startIdx n (c + 1) gi : Int) < 4 * z + n + 10 := by exact_mod_cast h3
    omega
  · refine le_trans ?_ (hsub (c + 1))
    simp only [interpHalo1, if_true, neededStop, hm, Option.getD_some]
    rw [← startIdx_succ, ← startIdx_succ, mixinCell_eq p hf0 (by omega)]
    have hfl := Int.floor_le (max 0 (gpos p fac (((startIdx n (c + 1) go : Nat) - 1 : Int) : K)))
    set z := ⌊max 0 (gpos p fac (((startIdx n (c + 1) go : Nat) - 1 : Int) : K))⌋ with hz
    have h1 := g2 _ y2
    have e : (((startIdx n (c + 1) go : Nat) - 1 : Int) : K) = (startIdx n (c + 1) go : K) - 1 := by push_cast; rfl
    rw [e] at hfl
    have hbig : (0 : K) ≤ ((c + 1 : Nat) : K) * gi / n + gi / n - 2 := by
      have hh1 : (2 : K) ≤ gi / n := by
        rw [le_div_iff₀ hn']
        have : 2 * n ≤ gi := by nlinarith
        exact_mod_cast this
      have hh2 : (0 : K) ≤ ((c + 1 : Nat) : K) * gi / n := by positivity
      linarith
    have h2 : (z : K) + 2 - startIdx n (c + 1) gi ≤ gi / n := by
      have : (z : K) ≤ ((c + 1 : Nat) : K) * gi / n + gi / n - 2 := hfl.trans (max_le hbig h1)
      linarith
    have h3 : z + 2 - startIdx n (c + 1) gi ≤ ((gi / n : Nat) : Int) := by
      rw [le_div_iff₀ hn'] at h2
      have h4 : (z + 2 - startIdx n (c + 1) gi) * n ≤ (gi : Int) := by exact_mod_cast h2
      have h5 := Int.le_ediv_of_mul_le (by exact_mod_cast hn : (0 : Int) < n) h4
      exact_mod_cast h5
    split <;> omega

variable {P : Cart} {size : Option (List Nat)} {p : InterpParams K} {gx gy : List Nat}

/-- Large blocks: with `n` workers in a dimension, input and output have at least `n (n + 12) / 4` cells. -/
def LargeBlocks (P : Cart) (p : InterpParams K) (gx gy : List Nat) : Prop :=
  ∀ j, 2 ≤ j → j < P.shape.length → P.shape.getD j 0 = 1 ∨
    (P.shape.getD j 0 * (P.shape.getD j 0 + 12) ≤ 4 * gx.getD j 0 ∧
     P.shape.getD j 0 * (P.shape.getD j 0 + 12) ≤ 4 * gy.getD j 0 ∧
     ∀ s, p.scale = some s → (gx.getD j 0 : K) * s = gy.getD j 0 ∨ gx.getD j 0 ≤ gy.getD j 0)

/-- Large blocks are wide enough for the halos. -/
theorem C50_fits (h : UpCase P size p gx gy) (hl : gx.length = P.shape.length)
    (hb : LargeBlocks P p gx gy) : (upPlan P p gx gy).Fits := by
  have key : ∀ j, j < P.shape.length → ∀ c, c + 1 < P.shape.getD j 0 →
      (upPlan P p gx gy).lw j (c + 1) ≤ subsize (P.shape.getD j 0) c (gx.getD j 0) ∧
      (upPlan P p gx gy).rw j c ≤ subsize (P.shape.getD j 0) (c + 1) (gx.getD j 0) := by
    intro j hj c hc
    rcases Nat.lt_or_ge j 2 with hj2 | hj2
    · rcases hm : p.mode with _ | _
      · have hcell : ∀ y : Int, mixinCell p 1 y = y := by
          intro y
          unfold mixinCell
          simp only [hm, one_mul, Int.floor_intCast]
        have hf : mixinFac p j (gx.getD j 0) (gx.getD j 0) = some 1 := by simp [mixinFac, hj2]
        constructor
        · simp only [upPlan, interpHalo1, if_true, neededStart, hf, Option.getD_some, hcell, h.lead j hj2]
          omega
        · simp only [upPlan, interpHalo1, if_true, neededStop, hf, Option.getD_some, hcell, h.lead j hj2, hm,
            reduceCtorEq, if_false]
          omega
      · have := h.lead1 hm j hj2
        omega
    · rcases hb j hj2 hj with h1 | ⟨h1, h2, h3⟩
      · omega
      · obtain ⟨fac, f1, f2, f3, -, -⟩ := h.facs hl hj2 hj
        refine halo_fits hc h1 h2 f1 f2 f3 ?_
        intro _ _ s hs
        have ho := h.out
        rw [hs] at ho
        cases ho with
        | scale _ _ hh _ =>
          obtain ⟨a, b⟩ := hh j hj2 (by rw [hl]; exact hj)
          refine ⟨a, ?_⟩
          rcases h3 s hs with h3 | h3
          · exact Or.inl h3
          · exact Or.inr ⟨b, h3⟩
  constructor
  · intro j hj c hc
    rw [(upPlan_blocks hl hj (Nat.lt_of_succ_lt hc)).1]
    exact (key j hj c hc).1
  · intro j hj c hc
    rw [(upPlan_blocks hl hj hc).1]
    exact (key j hj c hc).2

/-! ## Weights -/

omit [IsStrictOrderedRing K] in
/-- Multiples of `1 / N` have weights that are 0 or at least `1 / N` away from 0 and 1. -/
theorem frac_of_multiple [IsStrictOrderedRing K] {T : K} {N : Nat} {z : Int} (h0 : 0 < N) (hN : N ≤ 10000)
    (h : T * N = z) : T - ⌊T⌋ = 0 ∨ (1 / 10000 ≤ T - ⌊T⌋ ∧ T - ⌊T⌋ ≤ 1 - 1 / 10000) := by
  have hN0 : (0 : K) < N := by exact_mod_cast h0
  have hN' : (N : K) ≤ 10000 := by exact_mod_cast hN
  have f0 : 0 ≤ T - ⌊T⌋ := Int.fract_nonneg T
  have f1 : T - ⌊T⌋ < 1 := Int.fract_lt_one T
  have hk : (T - ⌊T⌋) * N = ((z - ⌊T⌋ * N : Int) : K) := by push_cast; rw [← h]; ring
  generalize T - ⌊T⌋ = f at *
  generalize z - ⌊T⌋ * N = k at *
  rcases f0.eq_or_lt with h1 | h1
  · exact Or.inl h1.symm
  · right
    have k1 : (0 : K) < (k : K) := by rw [← hk]; positivity
    have k2 : (k : K) < N := by rw [← hk]; nlinarith
    have k1' : (1 : Int) ≤ k := by exact_mod_cast k1
    have k2' : k ≤ (N : Int) - 1 := by
      have : k < (N : Int) := by exact_mod_cast k2
      omega
    have k1'' : (1 : K) ≤ k := by exact_mod_cast k1'
    have k2'' : (k : K) ≤ N - 1 := by exact_mod_cast k2'
    constructor
    · rw [div_le_iff₀ (by norm_num)]
      nlinarith
    · rw [le_sub_iff_add_le, ← le_sub_iff_add_le', div_le_iff₀ (by norm_num)]
      nlinarith

/-- Weights of at most 5000 outputs are exact, unless an inexact scale factor is used. -/
theorem C50_weights {gi go : Nat} (hm : p.mode = .linear) (hgo : 0 < go) (hgo' : go ≤ 5000)
    (hs : p.align = false → ∀ s, p.scale = some s → (gi : K) * s = go)
    (ha : p.align = true → go ≠ 1) (o : Nat) : Distinct p gi go o := by
  have hgo0 : (0 : K) < go := by exact_mod_cast hgo
  unfold Distinct
  cases hal : p.align with
  | true =>
    have h1 : 1 < go := by have := ha hal; omega
    have h1' : (0 : K) < (go : K) - 1 := by
      have : (1 : K) < go := by exact_mod_cast h1
      linarith
    have e : torchSource p gi go o = ((gi : K) - 1) / ((go : K) - 1) * o := by
      simp [torchSource, torchStep, hal, hm, h1]
    dsimp only
    rw [e]
    refine frac_of_multiple (N := go - 1) (z := ((gi : Int) - 1) * o) (by omega) (by omega) ?_
    push_cast [Nat.cast_sub h1.le]
    field_simp
  | false =>
    have hst : torchStep p gi go = (gi : K) / go := by
      unfold torchStep
      simp only [hal, Bool.false_eq_true, and_false, if_false]
      cases hsc : p.scale with
      | none => rfl
      | some s =>
        have h1 := hs hal s hsc
        have hsne : s ≠ 0 := by
          rintro rfl
          rw [mul_zero] at h1
          exact hgo0.ne h1
        simp only
        rw [div_eq_div_iff hsne hgo0.ne', one_mul, ← h1]
    have e : torchSource p gi go o = max 0 ((gi : K) / go * ((o : K) + 1 / 2) - 1 / 2) := by
      simp [torchSource, hal, hm, hst]
    dsimp only
    rw [e]
    rcases le_total ((gi : K) / go * ((o : K) + 1 / 2) - 1 / 2) 0 with h0 | h0
    · rw [max_eq_left h0]
      left
      simp
    · rw [max_eq_right h0]
      refine frac_of_multiple (N := 2 * go) (z := (gi : Int) * (2 * o + 1) - go) (by omega) (by omega) ?_
      push_cast
      field_simp

/-- What is asked of sizes and partition; no mention of halos or weights. -/
structure UpSizes (P : Cart) (size : Option (List Nat)) (p : InterpParams K) (gx gy : List Nat) : Prop where
  out : TorchOut gx size p.scale gy
  dims : 3 ≤ P.shape.length ∧ P.shape.length ≤ 5
  lead : ∀ j, j < 2 → gy.getD j 0 = gx.getD j 0
  lead1 : p.mode = .linear → ∀ j, j < 2 → P.shape.getD j 0 = 1
  feat : ∀ j, 2 ≤ j → j < P.shape.length → 0 < gx.getD j 0 ∧ 0 < gy.getD j 0
  exact : ∀ s, p.scale = some s → ∀ j, 2 ≤ j → j < P.shape.length → (gx.getD j 0 : K) * s = gy.getD j 0
  large : ∀ j, 2 ≤ j → j < P.shape.length → P.shape.getD j 0 = 1 ∨
    (P.shape.getD j 0 * (P.shape.getD j 0 + 12) ≤ 4 * gx.getD j 0 ∧
     P.shape.getD j 0 * (P.shape.getD j 0 + 12) ≤ 4 * gy.getD j 0)
  linear : p.mode = .linear → ∀ j, 2 ≤ j → j < P.shape.length → gy.getD j 0 ≤ 5000 ∧
    (p.align = true → gy.getD j 0 ≠ 1)

theorem UpSizes.case (h : UpSizes P size p gx gy) : UpCase P size p gx gy where
  out := h.out
  dims := h.dims
  lead := h.lead
  feat := h.feat
  nearest _ s hs j hj2 hj := h.exact s hs j hj2 hj
  lead1 := h.lead1
  linear hm j hj2 hj := by
    obtain ⟨l1, l2⟩ := h.linear hm j hj2 hj
    obtain ⟨f1, f2⟩ := h.feat j hj2 hj
    refine ⟨?_, l2, fun o _ => C50_weights hm f2 l1 (fun _ s hs => h.exact s hs j hj2 hj) l2 o⟩
    rcases h.large j hj2 hj with hP | ⟨_, hP⟩
    · omega
    · nlinarith

omit [FloorRing K] [IsStrictOrderedRing K] in
theorem UpSizes.blocks (h : UpSizes P size p gx gy) : LargeBlocks P p gx gy := by
  intro j hj2 hj
  rcases h.large j hj2 hj with hP | ⟨h1, h2⟩
  · exact Or.inl hP
  · exact Or.inr ⟨h1, h2, fun s hs => Or.inl (h.exact s hs j hj2 hj)⟩

variable {localS : Nat → List Nat × TorchDtype × Bool} {x : Nat → List Nat → K} {X : List Nat → K}
  {t : TorchDtype} {rg : Bool}
variable {β : Type} {dt : NpKey} {junk : Nat → β} {ops : Nat → List (MgrOp β)} {eager : Bool} {k : Nat}
  {U : Nat → UpSetup} {S : Nat → HaloSetup} {g : GState (List Nat → K) (List Nat → K)}

/-- **C50** for sizes, partial: the output of every worker is its part of the sequential interpolation whenever
blocks are large compared with the number of workers, an output dimension has at most 5000 cells in mode linear,
and a scale factor is exact.  Missing: as for `C50_partial`. -/
theorem C50_sizes_partial (hin : UpInput P gx localS x X t rg) (ht : t = .float32 ∨ t = .float64)
    (h : UpSizes P size p gx gy) (R : UpRun P size p localS x dt junk ops eager k U S g) {r : Nat}
    (hr : r < P.members.length) (hfin : (g.ws r).phase = haloPhases P) :
    ∃ y, upForward P p localS x U g r = some y ∧ y.dtype = t ∧
      y.shape = (Layout.balanced P.shape gy).shapeAt (getCoords P.shape r) ∧
      ∀ o, InBounds o y.shape → y.val o =
        torchInterp p gx gy X (shiftBy ((Layout.balanced P.shape gy).startAt (getCoords P.shape r)) o) :=
  C50_partial hin ht h.case (C50_fits h.case hin.len h.blocks) R hr hfin

end

end Verif
