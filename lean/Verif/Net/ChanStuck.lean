import Verif.Net.Chan
import Verif.Net.Stuck

/-!
# Networks: a channel convolution with one worker for the weights

`conv_channel.py:184-198`: `self.serial = self.P_w.size == 1` is computed by every worker for itself, and the size of a
partition is 1 only on its member (`partition.py:96-106`: -1 on workers outside).  The worker of `P_w` then skips the
broadcast and the sum-reduction, the other workers do not.
-/

namespace Verif.Net

variable {F : Type}

/-- A worker that waits for a worker that never contributes to the channel never gets beyond the phase. -/
theorem waits_for_silent {σ μ : Type} {W : List Nat} {prog : Prog σ μ} {early : GState σ μ → Nat → Nat → Prop}
    {S : Nat → σ} {a u m : Nat} {k : Key} {ph : Nat → σ → Phase σ μ} (hp : prog[m]? = some ph)
    (hreq : ∀ x, ∃ r ∈ (ph a x).reqs, r.key = k ∧ u ∈ r.deps)
    (hno : ∀ ph' ∈ prog, ∀ x, ∀ r ∈ (ph' u x).reqs, r.key ≠ k) {n : Nat} {g : GState σ μ}
    (he : Exec W prog early n (GState.init S) g) : (g.ws a).phase ≤ m := by
  suffices key : g.log k u = [] ∧ (g.ws a).phase ≤ m ∧ ((g.ws a).inLoop = false → (g.ws a).done = []) ∧
      (g.ws a).done.Nodup ∧ ((g.ws a).phase = m → ∀ j ∈ (g.ws a).done, ∃ r, (ph a (g.ws a).base).reqs[j]? = some r ∧
        (r.key = k → u ∉ r.deps)) from key.2.1
  obtain ⟨g0, h0⟩ : ∃ g0 : GState σ μ, g0 = GState.init S := ⟨_, rfl⟩
  rw [← h0] at he
  induction he with
  | refl =>
    subst h0
    exact ⟨rfl, Nat.zero_le _, fun _ => rfl, List.nodup_nil, fun _ j hj => by simp [GState.init] at hj⟩
  | @tail n _ g g'' he hs ih =>
    obtain ⟨i1, i2, i3, i4, i5⟩ := ih h0
    cases hs with
    | post w ph' r hw hp' hl hr =>
      refine ⟨?_, ?_⟩
      · show (if k = r.key ∧ u = w then _ else _) = _
        rw [if_neg, i1]
        rintro ⟨hk, rfl⟩
        exact hno ph' (List.mem_of_getElem? hp') _ r (List.mem_of_getElem? hr) hk.symm
      · by_cases h : a = w
        · subst h
          simpa [GState.setW] using ⟨i2, i3, i4, i5⟩
        · simpa [GState.setW, h] using ⟨i2, i3, i4, i5⟩
    | enter w ph' hw hp' hl hn =>
      refine ⟨i1, ?_⟩
      by_cases h : a = w
      · subst h
        simpa [GState.setW] using ⟨i2, i4, i5⟩
      · simpa [GState.setW, h] using ⟨i2, i3, i4, i5⟩
    | complete w j ph' r hw hp' hl hr hi ho hd hm =>
      refine ⟨i1, ?_⟩
      by_cases h : a = w
      · subst h
        have hl' : (g.ws a).inLoop = true := hl
        refine ⟨by simpa [GState.setW] using i2, by simp [GState.setW, hl'], by simpa [GState.setW] using ⟨hi, i4⟩, ?_⟩
        have key : (g.ws a).phase = m → ∀ j' ∈ j :: (g.ws a).done, ∃ r, (ph a (g.ws a).base).reqs[j']? = some r ∧
            (r.key = k → u ∉ r.deps) := by
          intro e j' hj'
          rcases List.mem_cons.1 hj' with rfl | hj'
          · rw [e, hp] at hp'
            obtain rfl := Option.some.inj hp'
            refine ⟨r, hr, fun hk hu => ?_⟩
            have := hd u hu
            rw [hk, i1] at this
            exact Nat.not_lt_zero _ this
          · exact i5 e j' hj'
        simpa [GState.setW] using key
      · simpa [GState.setW, h] using ⟨i2, i3, i4, i5⟩
    | next w ph' hw hp' hl hn =>
      refine ⟨i1, ?_⟩
      by_cases h : a = w
      · subst h
        have hne : (g.ws a).phase ≠ m := by
          intro e
          rw [e, hp] at hp'
          obtain rfl := Option.some.inj hp'
          obtain ⟨r, hr, hk⟩ := hreq (g.ws a).base
          obtain ⟨j, hj, hjr⟩ := List.mem_iff_getElem.1 hr
          have hsub : (g.ws a).done ⊆ (List.range (ph a (g.ws a).base).reqs.length) := fun j' hj' => by
            obtain ⟨r', hr', -⟩ := i5 e j' hj'
            exact List.mem_range.2 (List.getElem?_eq_some_iff.1 hr').1
          have hperm := (i4.subperm hsub).perm_of_length_le (by rw [List.length_range, hn])
          obtain ⟨r', hr', hn'⟩ := i5 e j (hperm.mem_iff.2 (List.mem_range.2 hj))
          rw [List.getElem?_eq_getElem hj, hjr] at hr'
          obtain rfl := Option.some.inj hr'
          exact hn' hk.1 hk.2
        refine ⟨?_, ?_, ?_, ?_⟩
        · simp [GState.setW]
          omega
        · simp [GState.setW]
        · simp [GState.setW]
        · simp [GState.setW]
      · simpa [GState.setW, h] using ⟨i2, i3, i4, i5⟩

/-- `conv_channel.py:184` on worker `w`. -/
def chanSerial (C : ChanConv) (w : Nat) : Bool := decide (w ∈ C.Pw.members) && C.Pw.members.length == 1

/-- The workers chosen by `b` perform the program. -/
def gateProg (b : Nat → Bool) (p : Prog (NSt F) (NMsg F)) : Prog (NSt F) (NMsg F) :=
  p.map fun ph w x => if b w then ph w x else ⟨[], id, none⟩

/-- `conv_channel.py:323-348` `forward` with the branches every worker takes for itself: wherever the partitions are. -/
def chanProgAt [AddCommMonoid F] [Mul F] (c cy : Nat) (C : ChanConv) (weight bias : Nat → List Nat → F) (rgp : Bool) :
    Prog (NSt F) (NMsg F) :=
  match castPartitions true C.Px C.Py C.Pw with
  | none => failProg C.union
  | some (x, y) =>
    gateProg (chanSerial C) (serialConvProg C weight bias rgp) ++
      gateProg (fun w => !chanSerial C w)
        (stackProg c cy (chanBroadcast x C.Pw) (chanReduce C.Pw y) (channelLocal C weight bias) rgp)

section
variable [AddCommMonoid F] [Mul F] {c cy : Nat} {C : ChanConv} {weight bias : Nat → List Nat → F} {rgp : Bool}

omit [AddCommMonoid F] [Mul F] in
theorem chanSerial_iff {w : Nat} : chanSerial C w = true ↔ C.Pw.members = [w] := by
  rw [chanSerial, Bool.and_eq_true, decide_eq_true_iff, beq_iff_eq]
  constructor
  · rintro ⟨h, h1⟩
    obtain ⟨v, hv⟩ := List.length_eq_one_iff.1 h1
    rw [hv, List.mem_singleton] at h
    rw [hv, h]
  · intro h
    simp [h]

/-- With more than one worker for the weights these are the phases of `chanProg`. -/
theorem chanProgAt_many {x y : Cart} (hc : castPartitions true C.Px C.Py C.Pw = some (x, y)) (h : C.Pw.members.length ≠ 1) :
    chanProgAt c cy C weight bias rgp = (fun _ _ => ⟨[], id, none⟩) :: chanProg c cy C weight bias rgp := by
  have hs : ∀ w, chanSerial C w = false := fun w => by simp [chanSerial, h]
  simp only [chanProgAt, chanProg, hc, if_neg h, gateProg, serialConvProg, hs, List.map_cons, List.map_nil, Bool.not_false,
    if_true, List.cons_append, List.nil_append, List.map_id', Bool.false_eq_true, if_false]

/-- With all three partitions on one worker this is the one phase of `chanProg`, nothing follows. -/
theorem chanProgAt_one {x y : Cart} {u : Nat} (hc : castPartitions true C.Px C.Py C.Pw = some (x, y)) (h : C.Pw.members = [u]) :
    ∃ q : Prog (NSt F) (NMsg F), chanProgAt c cy C weight bias rgp = chanProg c cy C weight bias rgp ++ q ∧
      ∀ ph ∈ q, ∀ z, ph u z = ⟨[], id, none⟩ := by
  have hl : C.Pw.members.length = 1 := by rw [h]; rfl
  refine ⟨_, by
    simp only [chanProgAt, chanProg, hc, if_pos hl]
    congr 1
    simp only [gateProg, serialConvProg, List.map_cons, List.map_nil]
    congr 1
    funext w z
    cases hs : chanSerial C w with
    | true => rfl
    | false =>
      have : w ∉ C.Pw.members := fun hw => by
        rw [h, List.mem_singleton] at hw
        rw [hw, chanSerial_iff.2 h] at hs
        cases hs
      simp only [Bool.false_eq_true, if_false, opPhase, localPhase, this]
      rfl, fun ph hph z => ?_⟩
  obtain ⟨p, -, rfl⟩ := List.mem_map.1 hph
  simp [chanSerial_iff.2 h]

/-- C58 is false: with one worker for the weights, the workers of `P_x` and `P_y` elsewhere end in no execution, under any
interleaving and whatever the library completes early. -/
theorem C58_stuck {Po Pi : Nat} {Sp : List Nat} (h : ChanValid C Po Pi Sp) (h1 : C.Pw.members.length = 1)
    {W : List Nat} {S : Nat → NSt F} {early : GState (NSt F) (NMsg F) → Nat → Nat → Prop} {n : Nat} {g : GState (NSt F) (NMsg F)}
    (he : Exec W (chanProgAt c cy C weight bias rgp) early n (GState.init S) g) {a : Nat}
    (ha : a ∈ C.Px.members ∨ a ∈ C.Py.members) (hn : a ∉ C.Pw.members) :
    (g.ws a).phase < (chanProgAt c cy C weight bias rgp).length := by
  obtain ⟨u, hu⟩ := List.length_eq_one_iff.1 h1
  have hones : ∀ n ∈ Sp, n = 1 := fun n hn =>
    Nat.dvd_one.1 (show n ∣ 1 by
      rw [← h1, h.wfw.size, h.shw]
      exact List.dvd_prod (by simp [hn]))
  have hc := h.cast true fun _ => hones
  have hsu : chanSerial C u = true := chanSerial_iff.2 hu
  have hsa : chanSerial C a = false := by
    rw [← Bool.not_eq_true, chanSerial_iff]
    intro e
    exact hn (by simp [e])
  have hx : (chanBroadcast C.Px C.Pw).identity = false := rfl
  have hy : (chanReduce C.Pw C.yCast).identity = false := rfl
  have hno : ∀ k : Key, ∀ ph ∈ chanProgAt c cy C weight bias rgp, ∀ x, ∀ r ∈ (ph u x).reqs, r.key ≠ k := by
    intro k ph hph x r hr
    simp only [chanProgAt, hc, List.mem_append, gateProg, List.mem_map] at hph
    rcases hph with ⟨q, hq, rfl⟩ | ⟨q, -, rfl⟩
    · simp only [serialConvProg, List.mem_singleton] at hq
      subst hq
      exact absurd hr (by simp [hsu, opPhase, localPhase])
    · exact absurd hr (by simp [hsu])
  have hlen : (chanProgAt c cy C weight bias rgp).length = 8 := by
    simp [chanProgAt, hc, gateProg, serialConvProg, stackProg, bcastProg, reduceProg, hx, hy]
  rw [hlen]
  rcases ha with ha | ha
  · have := waits_for_silent (m := 1) (a := a) (u := u) (k := .coll c (groupUnion C.Px.members C.Pw.members))
      (ph := fun w x => if !chanSerial C w then createPhase c (chanBroadcast C.Px C.Pw) w x else ⟨[], id, none⟩)
      (by simp [chanProgAt, hc, gateProg, serialConvProg, stackProg, bcastProg, hx]) ?_ (hno _) he
    · omega
    · intro x
      have hm : a ∈ groupUnion C.Px.members C.Pw.members := mem_groupUnion.2 (.inl ha)
      refine ⟨⟨.coll c (groupUnion C.Px.members C.Pw.members), .none, groupUnion C.Px.members C.Pw.members, fun _ x => x⟩,
        ?_, rfl, mem_groupUnion.2 (.inr (by simp [hu]))⟩
      simp [hsa, createPhase, collPhase, chanBroadcast, hm]
  · have := waits_for_silent (m := 5) (a := a) (u := u) (k := .coll cy (groupUnion C.Pw.members C.Py.members))
      (ph := fun w x => if !chanSerial C w then createPhase cy (chanReduce C.Pw C.yCast) w x else ⟨[], id, none⟩)
      (by simp [chanProgAt, hc, gateProg, serialConvProg, stackProg, bcastProg, reduceProg, hx, hy]) ?_ (hno _) he
    · omega
    · intro x
      have hm : a ∈ groupUnion C.Pw.members C.Py.members := mem_groupUnion.2 (.inr ha)
      refine ⟨⟨.coll cy (groupUnion C.Pw.members C.Py.members), .none, groupUnion C.Pw.members C.Py.members, fun _ x => x⟩,
        ?_, rfl, mem_groupUnion.2 (.inl (by simp [hu]))⟩
      simp [hsa, createPhase, collPhase, chanReduce, ChanConv.yCast, hm]

/-- Weights on worker 0, input on worker 1, output on worker 2 (`oneC`): workers 1 and 2 never end. -/
example (S : Nat → NSt ℚ) (early : GState (NSt ℚ) (NMsg ℚ) → Nat → Nat → Prop) (n : Nat) (g : GState (NSt ℚ) (NMsg ℚ))
    (he : Exec [0, 1, 2] (chanProgAt 0 1 oneC (fun _ _ => 1) (fun _ _ => 0) true) early n (GState.init S) g) :
    (g.ws 1).phase < 8 ∧ (g.ws 2).phase < 8 :=
  have v : ChanValid oneC 1 1 [1] :=
    ⟨⟨by decide, by decide, by decide⟩, ⟨by decide, by decide, by decide⟩, ⟨by decide, by decide, by decide⟩,
      rfl, rfl, rfl, ⟨_, rfl, rfl, rfl⟩, by decide⟩
  ⟨C58_stuck v rfl he (.inl (by decide)) (by decide), C58_stuck v rfl he (.inr (by decide)) (by decide)⟩

end

end Verif.Net
