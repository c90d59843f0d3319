import Verif.BatchNorm.Props
import Verif.Grad.NormCore
import Verif.Params.Props
import Mathlib.Algebra.Order.BigOperators.Group.Finset
import Mathlib.Algebra.Order.Field.Basic
import Mathlib.Tactic.Positivity
import Mathlib.Tactic.Linarith
import Mathlib.Tactic.FieldSimp

/-!
# C49: exactly when the running variance is the sequential one
-/

namespace Verif

section
variable {R : Type} [Field R] [LinearOrder R] [IsStrictOrderedRing R] {P : Cart} {bs : List Nat} {M : BatchNorm R}

/-- All entries of channel `k` are equal. -/
def ConstChannel (X : Tensor R) (k : Nat) : Prop :=
  ∀ i j, InBounds i X.shape → InBounds j X.shape → i.getD 1 0 = k → j.getD 1 0 = k → X.val i = X.val j

theorem boxSum_eq_zero_iff {s : List Nat} {f : List Nat → R} (h : ∀ i, 0 ≤ f i) :
    0 ≤ boxSum s f ∧ (boxSum s f = 0 ↔ ∀ i, InBounds i s → f i = 0) := by
  induction s generalizing f with
  | nil =>
    refine ⟨h [], fun e i hi => ?_, fun H => H [] trivial⟩
    match i, hi with
    | [], _ => exact e
  | cons n s ih =>
    have h0 : ∀ i ∈ Finset.range n, 0 ≤ boxSum s fun l => f (i :: l) := fun i _ => (ih fun l => h (i :: l)).1
    refine ⟨Finset.sum_nonneg h0, fun e i hi => ?_, fun H => Finset.sum_eq_zero fun i hi => ?_⟩
    · match i, hi with
      | a :: l, ⟨ha, hl⟩ =>
        exact (ih fun l => h (a :: l)).2.1 ((Finset.sum_eq_zero_iff_of_nonneg h0).1 e _ (Finset.mem_range.2 ha)) _ hl
    · exact (ih fun l => h (i :: l)).2.2 fun l hl => H _ ⟨Finset.mem_range.1 hi, hl⟩

omit [LinearOrder R] [IsStrictOrderedRing R] in
theorem channelMean_const [CharZero R] {X : Tensor R} (h2 : 2 ≤ X.shape.length) {k : Nat} (hk : k < X.shape.getD 1 0)
    (hv : channelVolume X ≠ 0) {a : R} (ha : ∀ i, InBounds i X.shape → i.getD 1 0 = k → X.val i = a) :
    channelMean X k = a := by
  have e : channelSum X k = channelSum ⟨X.shape, X.dtype, fun i => (fun _ => a) (i.getD 1 0)⟩ k := by
    unfold channelSum
    refine boxSum_congr fun i hi => ?_
    split
    · next e => exact ha i hi e
    · rfl
  rw [channelMean, e, channelSum_const X.shape X.dtype h2 (fun _ => a) hk]
  have : (channelVolume X : R) ≠ 0 := by exact_mod_cast hv
  exact mul_div_cancel_right₀ _ this

theorem channelSquares_zero {X : Tensor R} (h2 : 2 ≤ X.shape.length) {k : Nat} (hk : k < X.shape.getD 1 0)
    (hv : channelVolume X ≠ 0) : 0 ≤ channelSquares X k ∧ (channelSquares X k = 0 ↔ ConstChannel X k) := by
  have key := boxSum_eq_zero_iff (s := X.shape)
    (f := fun i => if i.getD 1 0 = k then (X.val i - channelMean X k) ^ 2 else 0) (fun i => by
      split
      · exact sq_nonneg _
      · exact le_refl _)
  refine ⟨key.1, key.2.trans ⟨fun H i j hi hj ei ej => ?_, fun H i hi => ?_⟩⟩
  · have a := H i hi
    have b := H j hj
    rw [if_pos ei] at a
    rw [if_pos ej] at b
    rw [sub_eq_zero.1 (pow_eq_zero_iff two_ne_zero |>.1 a), sub_eq_zero.1 (pow_eq_zero_iff two_ne_zero |>.1 b)]
  · split
    · next e =>
      rw [channelMean_const h2 hk hv fun j hj ej => H j i hj hi ej e]
      simp
    · rfl

/-- The unbiased variance exceeds the biased one unless the channel is constant. -/
theorem unbiased_sub {X : Tensor R} (h2 : 2 ≤ X.shape.length) {k : Nat} (hk : k < X.shape.getD 1 0)
    (hv : 2 ≤ channelVolume X) :
    0 ≤ channelVarUnbiased X k - channelVar X k ∧
      (channelVarUnbiased X k - channelVar X k = 0 ↔ ConstChannel X k) := by
  obtain ⟨h0, hz⟩ := channelSquares_zero h2 hk (by omega)
  have v0 : (0 : R) < channelVolume X := by exact_mod_cast (by omega : 0 < channelVolume X)
  have v1 : (0 : R) < channelVolume X - 1 := by
    have : (1 : R) < channelVolume X := by exact_mod_cast (by omega : 1 < channelVolume X)
    linarith
  have e : channelVarUnbiased X k - channelVar X k =
      channelSquares X k / (((channelVolume X : R) - 1) * channelVolume X) := by
    rw [channelVarUnbiased, channelVar]
    field_simp
    ring
  rw [e, ← hz, div_eq_zero_iff]
  refine ⟨div_nonneg h0 (mul_nonneg v1.le v0.le), ⟨fun h => h.resolve_right (mul_pos v1 v0).ne', .inl⟩⟩

omit [LinearOrder R] [IsStrictOrderedRing R] in
/-- The running mean does not depend on the variances. -/
theorem seqStates_mean (momentum : Option R) (track : Bool) (v v' : Tensor R → Nat → R) (cs : List (BNCall R)) :
    ∀ s s' : SeqState R, s.mean = s'.mean → s.seen = s'.seen →
      (seqStates momentum track v s cs).mean = (seqStates momentum track v' s' cs).mean := by
  induction cs with
  | nil => exact fun _ _ h _ => h
  | cons c cs ih =>
    intro s s' hm hs
    rw [seqStates, seqStates]
    split
    · exact ih _ _ (by simp only [seqUpdate, hm, hs]) (by simp only [seqUpdate, hs])
    · exact ih _ _ hm hs

/-- The difference of the running variances with the unbiased and the biased variances of the batches. -/
theorem seqStates_var {momentum : Option R} (hm : ∀ a, momentum = some a → 0 < a ∧ a < 1) {k : Nat} (cs : List (BNCall R))
    (hcs : ∀ c ∈ cs, c.training = true → 2 ≤ c.X.shape.length ∧ k < c.X.shape.getD 1 0 ∧ 2 ≤ channelVolume c.X) :
    ∀ s s' : SeqState R, s.seen = s'.seen → s.var k ≤ s'.var k → (s.seen = 0 → s.var k = s'.var k) →
      ((seqStates momentum true channelVar s cs).var k = (seqStates momentum true channelVarUnbiased s' cs).var k ↔
        s.var k = s'.var k ∧ ∀ c ∈ cs, c.training = true → ConstChannel c.X k) := by
  induction cs with
  | nil => exact fun s s' _ _ _ => ⟨fun h => ⟨h, by simp⟩, fun h => h.1⟩
  | cons c cs ih =>
    intro s s' hs hle h0
    replace ih := ih fun c' h' => hcs c' (List.mem_cons_of_mem _ h')
    rw [seqStates, seqStates, Bool.and_true]
    cases ht : c.training with
    | false =>
      rw [if_neg (by simp), if_neg (by simp), ih s s' hs hle h0]
      simp [ht]
    | true =>
      obtain ⟨h2, hk, hv⟩ := hcs c List.mem_cons_self ht
      obtain ⟨d0, dz⟩ := unbiased_sub h2 hk hv
      rw [if_pos rfl, if_pos rfl]
      have key : ∀ a : R, 0 < a → a ≤ 1 → (a = 1 → s.var k = s'.var k) →
          ((1 - a) * s.var k + a * channelVar c.X k ≤ (1 - a) * s'.var k + a * channelVarUnbiased c.X k) ∧
          ((1 - a) * s.var k + a * channelVar c.X k = (1 - a) * s'.var k + a * channelVarUnbiased c.X k ↔
            s.var k = s'.var k ∧ ConstChannel c.X k) := by
        intro a ha ha1 h1
        have p1 : 0 ≤ (1 - a) * (s'.var k - s.var k) := mul_nonneg (by linarith) (by linarith)
        have p2 : 0 ≤ a * (channelVarUnbiased c.X k - channelVar c.X k) := mul_nonneg ha.le d0
        refine ⟨by nlinarith, fun e => ?_, fun ⟨e1, e2⟩ => ?_⟩
        · have z2 : a * (channelVarUnbiased c.X k - channelVar c.X k) = 0 := by linarith
          have z1 : (1 - a) * (s'.var k - s.var k) = 0 := by linarith
          refine ⟨?_, dz.1 ((mul_eq_zero.1 z2).resolve_left ha.ne')⟩
          rcases mul_eq_zero.1 z1 with z | z
          · exact h1 (by linarith)
          · linarith
        · have := dz.2 e2
          rw [e1]
          have : channelVarUnbiased c.X k = channelVar c.X k := by linarith
          rw [this]
      have fin : ∀ a : R, 0 < a → a ≤ 1 → (a = 1 → s.var k = s'.var k) →
          (seqUpdate momentum s (channelMean c.X) (channelVar c.X)).var k = (1 - a) * s.var k + a * channelVar c.X k →
          (seqUpdate momentum s' (channelMean c.X) (channelVarUnbiased c.X)).var k =
            (1 - a) * s'.var k + a * channelVarUnbiased c.X k →
          ((seqStates momentum true channelVar (seqUpdate momentum s (channelMean c.X) (channelVar c.X)) cs).var k =
            (seqStates momentum true channelVarUnbiased
              (seqUpdate momentum s' (channelMean c.X) (channelVarUnbiased c.X)) cs).var k ↔
          s.var k = s'.var k ∧ ∀ c' ∈ c :: cs, c'.training = true → ConstChannel c'.X k) := by
        intro a ha ha1 h1 e e'
        obtain ⟨k1, k2⟩ := key a ha ha1 h1
        rw [ih _ _ (by simp only [seqUpdate, hs]) (by rw [e, e']; exact k1) (fun h => by simp [seqUpdate] at h), e, e', k2]
        simp only [List.mem_cons, forall_eq_or_imp, ht, true_implies]
        exact and_assoc
      cases momentum with
      | some a =>
        obtain ⟨ha, ha1⟩ := hm a rfl
        exact fin a ha ha1.le (fun e => absurd e ha1.ne) rfl rfl
      | none =>
        have hp : (0 : R) < (s.seen : R) + 1 := by positivity
        refine fin (1 / ((s.seen : R) + 1)) (div_pos one_pos hp) ?_ (fun e => h0 ?_) rfl (by rw [hs]; rfl)
        · rw [div_le_one hp]
          have : (0 : R) ≤ s.seen := Nat.cast_nonneg _
          linarith
        · rw [div_eq_one_iff_eq hp.ne'] at e
          have : (s.seen : R) = 0 := by linarith
          exact_mod_cast this

/-- C49, exactly: without momentum, or with one between 0 and 1, the buffers after a history of calls hold what the
sequential layer has, whose running variance is updated with the unbiased variances, exactly if in every training call
all entries of each channel are equal.  Every batch has at least two entries per channel, as PyTorch demands. -/
theorem C49_iff [DecidableEq R] (h : BNWith P bs M) (htr : M.track = true)
    (hm : ∀ a, M.momentum = some a → 0 < a ∧ a < 1) (sqrt : R → R) (cs : List (BNCall R)) (hcs : ∀ c ∈ cs, c.OK P bs M)
    (hv : ∀ c ∈ cs, c.training = true → 2 ≤ channelVolume c.X) (s : SeqState R) (st : Nat → BNState R)
    (hs : Running P bs s st) (hseen : ∀ w ∈ P.members, (st w).seen = s.seen) :
    Running P bs (seqStates M.momentum M.track channelVarUnbiased s cs) (bnStates M sqrt st cs) ↔
      ∀ c ∈ cs, c.training = true → ∀ k < M.numFeatures, ConstChannel c.X k := by
  have hb := C49_history_partial h (fun e => (hm 0 e).1.ne rfl) sqrt cs hcs s st hs hseen
  have hmean := seqStates_mean M.momentum M.track channelVar channelVarUnbiased cs s s rfl rfl
  have hvar : ∀ k < M.numFeatures, ((seqStates M.momentum M.track channelVar s cs).var k =
      (seqStates M.momentum M.track channelVarUnbiased s cs).var k ↔
        ∀ c ∈ cs, c.training = true → ConstChannel c.X k) := by
    intro k hk
    rw [htr, seqStates_var hm cs (fun c hc ht => ?_) s s rfl le_rfl fun _ => rfl]
    · simp
    · have hl : c.L.length = P.shape.length := by rw [← (hcs c hc).layout, Layout.pshape, List.length_map]
      have h2 := h.two
      refine ⟨?_, ?_, hv c hc ht⟩
      · rw [(hcs c hc).blocks.whole, Layout.global, List.length_map, hl]
        exact h2
      · rw [(hcs c hc).blocks.whole, getD_global _ (by omega), (hcs c hc).channels, h.features]
        exact hk
  constructor
  · intro H c hc ht k hk
    have hlen : bs.length = P.shape.getD 1 0 := by
      have h2 := h.two
      have hl : c.L.length = P.shape.length := by rw [← (hcs c hc).layout, Layout.pshape, List.length_map]
      rw [← (hcs c hc).layout, pshape_getD (by omega), (hcs c hc).channels]
    obtain ⟨i, hi, h1, h2⟩ := exists_block (fun i => (bs.take i).sum) bs.length k (by simp) (by
      rw [List.take_length, h.features]; exact hk)
    rw [take_sum_succ] at h2
    obtain ⟨w, hw, hcw⟩ := h.wf.exists_coord (i := storePos P.shape.length i)
      (storePos_inBounds h.two h.wf.pos (by omega))
    have e1 : (P.coord w).getD 1 0 = i := by rw [hcw, getD_storePos h.two, if_pos rfl]
    have := (hb w hw).2.unique h.two (H w hw).2 (j := k - (bs.take i).sum) (by rw [e1]; omega)
    rw [e1, Nat.add_sub_cancel' h1] at this
    exact (hvar k hk).1 this c hc ht
  · intro H w hw
    obtain ⟨a, b⟩ := hb w hw
    refine ⟨by rw [← hmean]; exact a, b.shape, fun i hi => (b.val i hi).trans ?_⟩
    refine (hvar _ ?_).2 fun c hc ht => H c hc ht _ ?_
    all_goals
      have := (inBounds_channel h.two hi).2
      have := take_sum_succ bs ((P.coord w).getD 1 0)
      have := take_sum_le bs ((P.coord w).getD 1 0 + 1)
      rw [h.features] at this
      omega

/-- The batch 1, 3 and a momentum of a half: the buffers are wrong. -/
example : ∃ M : BatchNorm ℚ, BNWith exN1 [1] M ∧ M.momentum = some (1 / 2) ∧
    ¬ Running exN1 [1] (seqStates M.momentum M.track channelVarUnbiased ⟨fun _ => (0 : ℚ), fun _ => 1, 0⟩ [exN1call])
      (bnStates M id (initialStates exN1 1) [exN1call]) := by
  obtain ⟨M, h, hn, hmom, -, htr, hc⟩ := exN1_layer (some (1 / 2))
  refine ⟨M, h, hmom, fun H => ?_⟩
  rw [C49_iff h htr (fun a e => by
    rw [hmom] at e
    obtain rfl := Option.some.inj e
    exact ⟨by norm_num, by norm_num⟩) id [exN1call] (by simpa using hc)
    (fun c hc _ => by obtain rfl := List.mem_singleton.1 hc; decide) _ _ exN1_start (fun _ _ => rfl)] at H
  have := H exN1call (List.mem_singleton_self _) rfl 0 (by rw [hn]; decide) [0, 0] [1, 0] (by decide) (by decide) rfl rfl
  exact absurd this (by decide +kernel)

end

end Verif
