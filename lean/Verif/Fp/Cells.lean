import Verif.Fp.Lemmas

/-!
# The cells of a worker
-/

namespace Verif.Fp

/-- The first input that worker `i` has. -/
def lo (n i gi go : Nat) : Int := startNeeded gi go (startIdx n i go : Nat)

/-- The first input after those that worker `i` has. -/
def hi (n i gi go : Nat) : Int := stopNeeded gi go ((stopIdx n i go : Nat) - 1)

theorem cell_eq {p n i gi go o : Nat} (h : startIdx n i go ≤ o) :
    cell p n i gi go o = lo n i gi go +
      clampIdx ⌊pos p gi go o (lo n i gi go)⌋ 0 (((hi n i gi go - lo n i gi go).toNat : Int) - 1) := by
  have e : startIdx n i go + (o - startIdx n i go) = o := by omega
  unfold cell nearestIdx workerDim pos prod lo hi
  dsimp only
  rw [e]

/-- The exact cell. -/
def quo (gi go o : Nat) : Int := (gi * o / go : Nat)

section
variable {p n i gi go o : Nat}

theorem small_err (hs : gi * go ≤ 2 ^ 20) (hgo : 0 < go) : (gi : ℚ) / 2 ^ 21 < 1 / go := by
  have hgo' : (0 : ℚ) < go := by exact_mod_cast hgo
  rw [div_lt_div_iff₀ (by positivity) hgo']
  have : (gi : ℚ) * go ≤ 2 ^ 20 := by exact_mod_cast hs
  linarith

theorem small_gi (hs : gi * go ≤ 2 ^ 20) (hgo : 0 < go) : gi ≤ 2 ^ 20 := (Nat.le_mul_of_pos_right gi hgo).trans hs

theorem small_go (hs : gi * go ≤ 2 ^ 20) (hgi : 0 < gi) : go ≤ 2 ^ 20 := (Nat.le_mul_of_pos_left go hgi).trans hs

theorem mixin_near (hs : gi * go ≤ 2 ^ 20) (hgi : 0 < gi) (ho : o < go) :
    quo gi go o - 1 ≤ mixinIdx gi go (o : Nat) ∧ mixinIdx gi go (o : Nat) ≤ quo gi go o ∧
      (¬ go ∣ gi * o → mixinIdx gi go (o : Nat) = quo gi go o) := by
  have hgo : 0 < go := by omega
  have a := small_gi hs hgo
  have b := small_go hs hgi
  have e := prod_err (p := double) (o := o) (by decide) (a.trans (by norm_num)) (b.trans (by norm_num)) ho
  have hgo' : (0 : ℚ) < go := by exact_mod_cast hgo
  have hXle : (gi * o : ℚ) / go ≤ gi := by
    rw [div_le_iff₀ hgo']
    exact mul_le_mul_of_nonneg_left (by exact_mod_cast ho.le) (by positivity)
  have e' : |prod double gi go o - (((gi * o : Nat) : ℚ) / go - ((0 : Int) : ℚ))| < 1 / go := by
    push_cast
    rw [sub_zero]
    refine lt_of_le_of_lt (e.trans ?_) (small_err hs hgo)
    have : 0 ≤ (gi : ℚ) := by positivity
    linarith
  have := floor_near hgo e'
  rw [mixinIdx_eq]
  simpa [quo] using this

theorem mixin_nonneg : 0 ≤ mixinIdx gi go (o : Nat) := by
  rw [mixinIdx_eq]
  exact Int.floor_nonneg.2 (prod_nonneg ..)

theorem pos_near {io : Int} (hp : 24 ≤ p) (hs : gi * go ≤ 2 ^ 20) (hgi : 0 < gi) (ho : o < go) (h0 : 0 ≤ io)
    (h1 : io ≤ gi) :
    quo gi go o - io - 1 ≤ ⌊pos p gi go o io⌋ ∧ ⌊pos p gi go o io⌋ ≤ quo gi go o - io ∧
      (¬ go ∣ gi * o → ⌊pos p gi go o io⌋ = quo gi go o - io) := by
  have hgo : 0 < go := by omega
  have a := small_gi hs hgo
  have b := small_go hs hgi
  refine floor_near hgo (lt_of_le_of_lt ?_ (small_err hs hgo))
  have := pos_err hp (a.trans (by norm_num)) (b.trans (by norm_num)) ho h0 h1
  push_cast
  exact this

theorem quo_nonneg : 0 ≤ quo gi go o := Int.natCast_nonneg _

theorem quo_lt_gi (hgi : 0 < gi) (ho : o < go) : quo gi go o < gi := by
  unfold quo
  rw [Int.ofNat_lt, Nat.div_lt_iff_lt_mul (by omega)]
  exact Nat.mul_lt_mul_of_pos_left ho hgi

theorem quo_mono {a b : Nat} (h : a ≤ b) : quo gi go a ≤ quo gi go b :=
  Int.ofNat_le.2 (Nat.div_le_div_right (Nat.mul_le_mul_left _ h))

theorem quo_lt {a b : Nat} (hgo : 0 < go) (hgi : 0 < gi) (hab : a < b) (hd : go ∣ gi * b) :
    quo gi go a < quo gi go b := by
  unfold quo
  rw [Int.ofNat_lt]
  obtain ⟨c, hc⟩ := hd
  rw [hc, Nat.mul_div_cancel_left _ hgo, Nat.div_lt_iff_lt_mul hgo, mul_comm c go, ← hc]
  exact Nat.mul_lt_mul_of_pos_left hab hgi

/-- Where the inputs of a worker begin and end. -/
theorem window (hs : gi * go ≤ 2 ^ 20) (hgi : 0 < gi) (hi' : i < n) (h0 : startIdx n i go ≤ o) (h1 : o < stopIdx n i go) :
    0 ≤ lo n i gi go ∧ lo n i gi go ≤ quo gi go o ∧ quo gi go o ≤ hi n i gi go ∧
    (¬ go ∣ gi * o → quo gi go o < hi n i gi go) ∧ lo n i gi go < hi n i gi go ∧
    (startIdx n i go < o → go ∣ gi * o → lo n i gi go < quo gi go o) ∧
    (o + 1 < stopIdx n i go → quo gi go o < hi n i gi go) := by
  have hstop : stopIdx n i go ≤ go := by
    rw [← startIdx_succ]
    exact startIdx_le (by omega) go (by omega)
  have hgo : 0 < go := by omega
  obtain ⟨a1, a2, a3⟩ := mixin_near (o := startIdx n i go) hs hgi (by omega)
  obtain ⟨b1, b2, b3⟩ := mixin_near (o := stopIdx n i go - 1) hs hgi (by omega)
  have hcast : ((stopIdx n i go - 1 : Nat) : Int) = (stopIdx n i go : Nat) - 1 := by omega
  have e1 : lo n i gi go = max 0 (mixinIdx gi go (startIdx n i go : Nat)) := rfl
  have e2 : hi n i gi go = min (gi : Int) (mixinIdx gi go (stopIdx n i go - 1 : Nat) + 1) := by
    rw [hcast]; rfl
  have hlt := quo_lt_gi (o := stopIdx n i go - 1) hgi (show stopIdx n i go - 1 < go by omega)
  have q0 := quo_mono (gi := gi) (go := go) h0
  have q1 := quo_mono (gi := gi) (go := go) (show o ≤ stopIdx n i go - 1 by omega)
  have q2 := quo_nonneg (gi := gi) (go := go) (o := startIdx n i go)
  have q3 := mixin_nonneg (gi := gi) (go := go) (o := startIdx n i go)
  have hstrict : ∀ a, a < stopIdx n i go - 1 → quo gi go a ≤ mixinIdx gi go (stopIdx n i go - 1 : Nat) := by
    intro a ha
    by_cases hd : go ∣ gi * (stopIdx n i go - 1)
    · have := quo_lt hgo hgi ha hd
      omega
    · have := quo_mono (gi := gi) (go := go) ha.le
      rw [b3 hd]
      omega
  refine ⟨by omega, by omega, by omega, fun hnd => ?_, ?_, fun hl hd => ?_, fun hr => ?_⟩
  · rcases Nat.lt_or_ge o (stopIdx n i go - 1) with h | h
    · have := hstrict o h
      omega
    · obtain rfl : o = stopIdx n i go - 1 := by omega
      rw [e2, b3 hnd]
      omega
  · rcases Nat.lt_or_ge (startIdx n i go) (stopIdx n i go - 1) with h | h
    · have := hstrict _ h
      omega
    · have h2 : startIdx n i go = stopIdx n i go - 1 := by omega
      rw [← h2] at e2 hlt
      omega
  · have := quo_lt hgo hgi hl hd
    omega
  · have := hstrict o (by omega)
    omega

theorem hi_le : hi n i gi go ≤ gi := min_le_left _ _

theorem cell_near (hp : 24 ≤ p) (hs : gi * go ≤ 2 ^ 20) (hgi : 0 < gi) (hi' : i < n) (h0 : startIdx n i go ≤ o)
    (h1 : o < stopIdx n i go) :
    quo gi go o - 1 ≤ cell p n i gi go o ∧ cell p n i gi go o ≤ quo gi go o ∧
      (¬ go ∣ gi * o → cell p n i gi go o = quo gi go o) := by
  have hstop : stopIdx n i go ≤ go := by
    rw [← startIdx_succ]
    exact startIdx_le (by omega) go (by omega)
  obtain ⟨w1, w2, w3, w4, w5, -, -⟩ := window hs hgi hi' h0 h1
  have w6 := hi_le (n := n) (i := i) (gi := gi) (go := go)
  obtain ⟨k1, k2, k3⟩ := pos_near (p := p) (o := o) hp hs hgi (by omega) w1 (by omega)
  rw [cell_eq h0]
  unfold clampIdx
  refine ⟨by omega, by omega, fun hnd => ?_⟩
  have := k3 hnd
  have := w4 hnd
  omega

/-- In single precision the kernel finds the same cell on all workers, up to the inputs the worker has. -/
theorem cell_single (hs : gi * go ≤ 2 ^ 20) (hgi : 0 < gi) (hi' : i < n) (h0 : startIdx n i go ≤ o)
    (h1 : o < stopIdx n i go) :
    cell single n i gi go o = clampIdx ⌊prod single gi go o⌋ (lo n i gi go) (hi n i gi go - 1) := by
  have hstop : stopIdx n i go ≤ go := by
    rw [← startIdx_succ]
    exact startIdx_le (by omega) go (by omega)
  obtain ⟨w1, w2, w3, w4, w5, -, -⟩ := window hs hgi hi' h0 h1
  have := pos_single (small_gi hs (by omega)) ((small_go hs hgi).trans (by norm_num)) (by omega) w1 w2
  rw [cell_eq h0, this, Int.floor_sub_intCast]
  unfold clampIdx
  omega

theorem cell_inner (hs : gi * go ≤ 2 ^ 20) (hgi : 0 < gi) (hi' : i < n) (h0 : startIdx n i go < o)
    (h1 : o + 1 < stopIdx n i go) : cell single n i gi go o = ⌊prod single gi go o⌋ := by
  have hstop : stopIdx n i go ≤ go := by
    rw [← startIdx_succ]
    exact startIdx_le (by omega) go (by omega)
  obtain ⟨w1, w2, w3, w4, w5, w6, w7⟩ := window hs hgi hi' h0.le (by omega)
  rw [cell_single hs hgi hi' h0.le (by omega)]
  obtain ⟨k1, k2, k3⟩ := pos_near (p := single) (o := o) (io := 0) (le_refl 24) hs hgi (by omega) (le_refl 0) (by omega)
  have hpp := pos_single (io := 0) (small_gi hs (by omega)) ((small_go hs hgi).trans (by norm_num)) (show o < go by omega)
    (le_refl 0) quo_nonneg
  simp only [hpp, Int.cast_zero, sub_zero] at k1 k2 k3
  have := w7 h1
  unfold clampIdx
  by_cases hd : go ∣ gi * o
  · have := w6 h0 hd
    omega
  · have := k3 hd
    omega

/-! ## Ratios with few digits -/

section
variable {k m : Nat}

theorem exact_go (hr : gi * 2 ^ k = m * go) (hgi : 0 < gi) : 0 < m ∧ 0 < go := by
  have h : 0 < m * go := by rw [← hr]; positivity
  exact ⟨Nat.pos_of_mul_pos_right h, Nat.pos_of_mul_pos_left h⟩

theorem prod_exact (hp : 24 ≤ p) (hr : gi * 2 ^ k = m * go) (hs : m * go ≤ 2 ^ 24) (hgi : 0 < gi) (ho : o < go) :
    prod p gi go o = ((m * o : Nat) : ℚ) / 2 ^ k := by
  obtain ⟨hm, hgo⟩ := exact_go hr hgi
  have h1 : gi ≤ 2 ^ 24 := by
    have : gi * 1 ≤ gi * 2 ^ k := Nat.mul_le_mul_left _ (Nat.one_le_two_pow)
    omega
  have h2 : go ≤ 2 ^ 24 := (Nat.le_mul_of_pos_left go hm).trans hs
  have h3 : m ≤ 2 ^ 24 := (Nat.le_mul_of_pos_right m hgo).trans hs
  have h4 : m * o ≤ 2 ^ 24 := (Nat.mul_le_mul_left m ho.le).trans hs
  have hgo' : (go : ℚ) ≠ 0 := by exact_mod_cast hgo.ne'
  have hz : (2 : ℚ) ^ (-(k : Int)) = 1 / 2 ^ k := by rw [zpow_neg, zpow_natCast, one_div]
  have hq : (gi : ℚ) / go = ((m : Int) : ℚ) * 2 ^ (-(k : Int)) := by
    rw [hz, mul_one_div, div_eq_div_iff hgo' (by positivity)]
    push_cast
    exact_mod_cast hr
  have hle : ∀ {a : Nat}, a ≤ 2 ^ 24 → |(a : Int)| ≤ 2 ^ p := by
    intro a ha
    rw [abs_of_nonneg (Int.natCast_nonneg a)]
    have : a ≤ 2 ^ p := ha.trans (Nat.pow_le_pow_right (by norm_num) hp)
    exact_mod_cast this
  unfold prod
  rw [fl_nat24 hp h1, fl_nat24 hp h2, fl_nat24 hp (ho.le.trans h2), hq, fl_exact (by omega) (hle h3)]
  have e : ((m : Int) : ℚ) * 2 ^ (-(k : Int)) * o = ((m * o : Nat) : Int) * 2 ^ (-(k : Int)) := by
    push_cast
    ring
  rw [e, fl_exact (by omega) (hle h4), hz]
  push_cast
  ring

theorem exact_quo (hr : gi * 2 ^ k = m * go) (hgi : 0 < gi) : quo gi go o = (m * o / 2 ^ k : Nat) := by
  obtain ⟨hm, hgo⟩ := exact_go hr hgi
  unfold quo
  congr 1
  rw [← Nat.mul_div_mul_right (gi * o) go (show 0 < 2 ^ k by positivity), show gi * o * 2 ^ k = m * o * go by
    rw [mul_right_comm, hr]; ring, mul_comm go, Nat.mul_div_mul_right _ _ hgo]

theorem floor_quo {a : Nat} : ⌊((a : Nat) : ℚ) / 2 ^ k⌋ = (a / 2 ^ k : Nat) := by
  have := Rat.floor_natCast_div_natCast a (2 ^ k)
  push_cast at this ⊢
  exact this

theorem pos_exact {io : Nat} (hp : 24 ≤ p) (hr : gi * 2 ^ k = m * go) (hs : m * go ≤ 2 ^ 24) (hgi : 0 < gi) (ho : o < go)
    (hio : (io : Int) ≤ quo gi go o) : ⌊pos p gi go o io⌋ = quo gi go o - io := by
  obtain ⟨hm, hgo⟩ := exact_go hr hgi
  have h4 : m * o ≤ 2 ^ 24 := (Nat.mul_le_mul_left m ho.le).trans hs
  rw [exact_quo hr hgi] at hio ⊢
  have hio1 : io * 2 ^ k ≤ m * o := by
    have : io ≤ m * o / 2 ^ k := by omega
    exact (Nat.le_div_iff_mul_le (by positivity)).1 this
  have hio2 : io ≤ 2 ^ 24 := by
    have : io * 1 ≤ io * 2 ^ k := Nat.mul_le_mul_left _ (Nat.one_le_two_pow)
    omega
  have hz : (2 : ℚ) ^ (-(k : Int)) = 1 / 2 ^ k := by rw [zpow_neg, zpow_natCast, one_div]
  have e : ((m * o : Nat) : ℚ) / 2 ^ k - io = ((m * o - io * 2 ^ k : Nat) : Int) * 2 ^ (-(k : Int)) := by
    rw [hz, Int.cast_natCast, Nat.cast_sub hio1]
    push_cast
    field_simp
  have hle : ∀ {q : Nat}, 24 ≤ q → |((m * o - io * 2 ^ k : Nat) : Int)| ≤ 2 ^ q := by
    intro q hq
    rw [abs_of_nonneg (Int.natCast_nonneg _)]
    have : m * o - io * 2 ^ k ≤ 2 ^ q := (Nat.sub_le _ _).trans (h4.trans (Nat.pow_le_pow_right (by norm_num) hq))
    exact_mod_cast this
  unfold pos
  rw [prod_exact hp hr hs hgi ho, Int.cast_natCast, fl_nat24 hp hio2, e, fl_exact (by omega) (hle hp),
    fl_exact (p := single) (by decide) (hle (le_refl 24)), ← e, Int.floor_sub_natCast, floor_quo]

theorem mixin_exact (hr : gi * 2 ^ k = m * go) (hs : m * go ≤ 2 ^ 24) (hgi : 0 < gi) (ho : o < go) :
    mixinIdx gi go (o : Nat) = quo gi go o := by
  rw [mixinIdx_eq, prod_exact (by decide) hr hs hgi ho, floor_quo, exact_quo hr hgi]

theorem cell_exact (hp : 24 ≤ p) (hr : gi * 2 ^ k = m * go) (hs : m * go ≤ 2 ^ 24) (hgi : 0 < gi) (hi' : i < n)
    (h0 : startIdx n i go ≤ o) (h1 : o < stopIdx n i go) : cell p n i gi go o = quo gi go o := by
  have hstop : stopIdx n i go ≤ go := by
    rw [← startIdx_succ]
    exact startIdx_le (by omega) go (by omega)
  have q0 := quo_mono (gi := gi) (go := go) h0
  have q1 := quo_mono (gi := gi) (go := go) (show o ≤ stopIdx n i go - 1 by omega)
  have q2 := quo_nonneg (gi := gi) (go := go) (o := startIdx n i go)
  have hlt := quo_lt_gi (o := stopIdx n i go - 1) hgi (show stopIdx n i go - 1 < go by omega)
  have e1 : lo n i gi go = quo gi go (startIdx n i go) := by
    change max 0 (mixinIdx gi go (startIdx n i go : Nat)) = _
    rw [mixin_exact hr hs hgi (by omega)]
    omega
  have e2 : hi n i gi go = quo gi go (stopIdx n i go - 1) + 1 := by
    have hcast : ((stopIdx n i go - 1 : Nat) : Int) = (stopIdx n i go : Nat) - 1 := by omega
    change min (gi : Int) (mixinIdx gi go ((stopIdx n i go : Nat) - 1) + 1) = _
    rw [← hcast, mixin_exact hr hs hgi (by omega)]
    omega
  have e3 : ⌊pos p gi go o (lo n i gi go)⌋ = quo gi go o - quo gi go (startIdx n i go) := by
    rw [e1]
    exact pos_exact (io := gi * startIdx n i go / go) hp hr hs hgi (by omega) q0
  rw [cell_eq h0, e3, e1, e2]
  unfold clampIdx
  omega

end

end

end Verif.Fp
