import Verif.Mean.Model
import Verif.Module.Mixed
import Verif.Loss.Props

/-!
# Helper lemmas on sequences of calls of a loss
-/

namespace Verif

namespace Coll
variable {κ : Type} {W : List Nat} {prog : Nat → List (Instr κ)} {mem : κ → List Nat}
  {early : (Nat → Nat) → Nat → κ → Prop}

theorem mem_take_succ {α : Type} {l : List α} {n : Nat} {x : α} (h : x ∈ l.take (n + 1)) :
    x ∈ l.take n ∨ l[n]? = some x := by
  rw [List.take_add_one, List.mem_append] at h
  rcases h with h | h
  · exact .inl h
  · exact .inr (Option.mem_toList.1 h)

/-- What comes before the first occurrence of an instruction was done before it. -/
theorem mem_take_of_split {α : Type} {l1 l2 : List α} {a b : α} {n : Nat} (ha : a ∈ l1) (hb : b ∉ l1)
    (h : b ∈ (l1 ++ l2).take n) : a ∈ (l1 ++ l2).take n := by
  rw [List.take_append, List.mem_append] at h ⊢
  by_cases hn : n ≤ l1.length
  · rw [Nat.sub_eq_zero_of_le hn] at h
    rcases h with h | h
    · exact absurd (List.mem_of_mem_take h) hb
    · simp at h
  · rw [List.take_of_length_le (by omega)]
    exact .inl ha

/-- The same for the next instruction. -/
theorem mem_take_of_next {α : Type} {l1 l2 : List α} {a b : α} {n : Nat} (ha : a ∈ l1) (hb : b ∉ l1)
    (h : (l1 ++ l2)[n]? = some b) : a ∈ (l1 ++ l2).take n := by
  have hn : l1.length ≤ n := by
    by_contra hc
    rw [List.getElem?_append_left (by omega)] at h
    exact hb (List.mem_of_getElem? h)
  rw [List.take_append, List.mem_append, List.take_of_length_le hn]
  exact .inl ha

/-- What a step adds to the instructions done. -/
theorem step_mem {pc pc' : Nat → Nat} (hs : Step W prog mem early pc pc') {v : Nat} {x : Instr κ}
    (h : x ∈ (prog v).take (pc' v)) : x ∈ (prog v).take (pc v) ∨ (prog v)[pc v]? = some x ∧
      ∀ c, x = .wait c → (∀ u ∈ mem c, Posted prog pc c u) ∨ early pc v c := by
  cases hs with
  | post w c hw hi =>
    by_cases e : v = w
    · subst e
      rw [show advance pc v v = pc v + 1 by simp [advance]] at h
      rcases mem_take_succ h with h | h
      · exact .inl h
      · refine .inr ⟨h, fun d e => ?_⟩
        rw [hi, e] at h
        cases h
    · rw [show advance pc w v = pc v by simp [advance, e]] at h
      exact .inl h
  | wait w c hw hi hc =>
    by_cases e : v = w
    · subst e
      rw [show advance pc v v = pc v + 1 by simp [advance]] at h
      rcases mem_take_succ h with h | h
      · exact .inl h
      · refine .inr ⟨h, fun d e => ?_⟩
        rw [hi, e] at h
        cases h
        exact hc
    · rw [show advance pc w v = pc v by simp [advance, e]] at h
      exact .inl h

theorem step_keeps {pc pc' : Nat → Nat} (hs : Step W prog mem early pc pc') {v : Nat} {x : Instr κ}
    (h : x ∈ (prog v).take (pc v)) : x ∈ (prog v).take (pc' v) := by
  obtain ⟨w, _, _, rfl⟩ := step_inv hs
  refine List.take_subset_take_left _ ?_ h
  unfold advance
  split <;> omega

/-- All participants have started what someone has ended that may not end early there. -/
theorem waited_of {n : Nat} {pc : Nat → Nat} (he : Exec W prog mem early n (fun _ => 0) pc) {v : Nat} {c : κ}
    (hne : ∀ pc, ¬ early pc v c) (h : Instr.wait c ∈ (prog v).take (pc v)) : ∀ u ∈ mem c, Posted prog pc c u := by
  generalize hz : (fun _ : Nat => 0) = z at he
  induction he with
  | refl => subst hz; simp at h
  | step _ hs ih =>
    intro u hu
    rcases step_mem hs h with h | ⟨_, h⟩
    · exact step_keeps hs (ih h hz u hu)
    · rcases h c rfl with h | h
      · exact step_keeps hs (h u hu)
      · exact (hne _ h).elim

/-- Without early ends all participants have started what someone has ended. -/
theorem waited {n : Nat} {pc : Nat → Nat} (he : Exec W prog mem (fun _ _ _ => False) n (fun _ => 0) pc) {v : Nat} {c : κ}
    (h : Instr.wait c ∈ (prog v).take (pc v)) : ∀ u ∈ mem c, Posted prog pc c u :=
  waited_of he (fun _ h => h) h

end Coll

section
variable {P : Cart} {hist : List TStruct} {v w : Nat}

theorem callsOps_prefix {c n : Nat} (h : c ≤ n) : ∃ r, callsOps P hist v n = callsOps P hist v c ++ r := by
  induction n with
  | zero => exact ⟨[], by rw [Nat.le_zero.1 h, List.append_nil]⟩
  | succ n ih =>
    rcases Nat.lt_or_ge n c with hc | hc
    · exact ⟨[], by rw [show c = n + 1 by omega, List.append_nil]⟩
    · obtain ⟨r, e⟩ := ih hc
      exact ⟨r ++ callOps P hist v n, by rw [callsOps, e, List.append_assoc]⟩

theorem norm_notMem {c i : Nat} (h : setupsBefore P hist v c ≤ i) :
    Coll.Instr.post (.norm i) ∉ callsOps P hist v c ∧ Coll.Instr.wait (.norm i) ∉ callsOps P hist v c := by
  induction c with
  | zero => simp [callsOps]
  | succ c ih =>
    rw [setupsBefore] at h
    obtain ⟨h1, h2⟩ := ih (by omega)
    rw [callsOps, List.mem_append, List.mem_append]
    by_cases hr : resetsAt P hist v c = true
    · rw [if_pos hr] at h
      have : i ≠ setupsBefore P hist v c := by omega
      simp [callOps, hr, h1, h2, this]
    · simp [callOps, hr, h1, h2]

theorem red_mem {c d : Nat} : (Coll.Instr.post (.red d) ∈ callsOps P hist v c ↔ d < c) ∧
    (Coll.Instr.wait (.red d) ∈ callsOps P hist v c ↔ d < c) := by
  induction c with
  | zero => simp [callsOps]
  | succ c ih =>
    rw [callsOps, List.mem_append, List.mem_append, ih.1, ih.2]
    have e : Coll.Instr.post (LossOp.red d) ∈ callOps P hist v c ↔ d = c := by
      unfold callOps
      split <;> simp
    have e' : Coll.Instr.wait (LossOp.red d) ∈ callOps P hist v c ↔ d = c := by
      unfold callOps
      split <;> simp
    rw [e, e']
    constructor <;> omega

theorem setupsBefore_mono {c n : Nat} (h : c ≤ n) : setupsBefore P hist v c ≤ setupsBefore P hist v n := by
  induction n with
  | zero => rw [Nat.le_zero.1 h]
  | succ n ih =>
    rcases Nat.lt_or_ge n c with hc | hc
    · rw [show c = n + 1 by omega]
    · exact (ih hc).trans (Nat.le_add_right _ _)

theorem setupCall_eq {c n : Nat} (h : c < n) (hr : resetsAt P hist v c = true) :
    setupCall P hist v (setupsBefore P hist v c) n = some c := by
  induction n with
  | zero => omega
  | succ n ih =>
    rw [setupCall]
    by_cases e : c = n
    · subst e
      rw [if_pos ⟨hr, rfl⟩]
    · have h1 := setupsBefore_mono (P := P) (hist := hist) (v := v) (show c + 1 ≤ n by omega)
      rw [setupsBefore, if_pos hr] at h1
      rw [if_neg (by omega), ih (by omega)]

theorem setupsBefore_congr {c : Nat} (h : ∀ d < c, resetsAt P hist v d = resetsAt P hist w d) :
    setupsBefore P hist v c = setupsBefore P hist w c := by
  induction c with
  | zero => rfl
  | succ c ih => rw [setupsBefore, setupsBefore, ih fun d hd => h d (by omega), h c (by omega)]

theorem setupsBefore_const {c n : Nat} (h : c ≤ n) (hr : ∀ d, c ≤ d → d < n → resetsAt P hist v d = false) :
    setupsBefore P hist v n = setupsBefore P hist v c := by
  induction n with
  | zero => rw [Nat.le_zero.1 h]
  | succ n ih =>
    rcases Nat.lt_or_ge n c with hc | hc
    · rw [show c = n + 1 by omega]
    · rw [setupsBefore, hr n hc (by omega), ih hc fun d h1 h2 => hr d h1 (by omega)]
      simp

theorem resetsAt_zero : resetsAt P hist v 0 = true := rfl

theorem resetsAt_succ {c : Nat} (h : c + 1 < hist.length) : resetsAt P hist v (c + 1) =
    (localStruct P (hist.getD c ⟨none, none, none⟩) v != localStruct P (hist.getD (c + 1) ⟨none, none, none⟩) v) := by
  rw [resetsAt, List.take_add_one, List.getElem?_eq_getElem (by omega), Option.toList_some, resets_eq (by decide),
    List.getD_eq_getElem _ _ (show c < hist.length by omega)]

/-- The latest setup. -/
theorem latest (c : Nat) : ∃ c0 ≤ c, resetsAt P hist v c0 = true ∧ ∀ d, c0 < d → d ≤ c → resetsAt P hist v d = false := by
  induction c with
  | zero => exact ⟨0, le_rfl, resetsAt_zero, fun d h1 h2 => by omega⟩
  | succ c ih =>
    by_cases hr : resetsAt P hist v (c + 1) = true
    · exact ⟨c + 1, le_rfl, hr, fun d h1 h2 => by omega⟩
    · obtain ⟨c0, h1, h2, h3⟩ := ih
      refine ⟨c0, by omega, h2, fun d hd hd' => ?_⟩
      rcases Nat.lt_or_ge c d with h | h
      · rw [show d = c + 1 by omega]
        exact Bool.eq_false_iff.2 hr
      · exact h3 d hd h

theorem struct_const {c0 c : Nat} (h : c0 ≤ c) (hc : c < hist.length)
    (hr : ∀ d, c0 < d → d ≤ c → resetsAt P hist v d = false) :
    localStruct P (hist.getD c0 ⟨none, none, none⟩) v = localStruct P (hist.getD c ⟨none, none, none⟩) v := by
  induction c with
  | zero => rw [Nat.le_zero.1 h]
  | succ c ih =>
    rcases Nat.lt_or_ge c c0 with h' | h'
    · rw [show c0 = c + 1 by omega]
    · rw [ih h' (by omega) fun d h1 h2 => hr d h1 (by omega)]
      have := hr (c + 1) (by omega) le_rfl
      rwa [resetsAt_succ hc, bne_eq_false_iff_eq] at this

/-- Where all workers redid the setup in the same calls, the factor is that of the present shapes. -/
theorem factorAt_eq {M : LossLayer} {c : Nat} (hc : c < hist.length) (hw : w ∈ M.P.members)
    (h : ∀ v ∈ M.P.members, ∀ d ≤ c, resetsAt M.P hist v d = resetsAt M.P hist w d) :
    M.factorAt hist w c = M.normalization fun v => shapeIn M.P hist v c := by
  obtain ⟨c0, h1, h2, h3⟩ := latest (P := M.P) (hist := hist) (v := w) c
  have e : setupsBefore M.P hist w (c + 1) = setupsBefore M.P hist w c0 + 1 := by
    rw [setupsBefore_const (c := c0 + 1) (by omega) fun d hd hd' => h3 d (by omega) (by omega), setupsBefore, if_pos h2]
  have hs : ∀ v ∈ M.P.members, setupCall M.P hist v (setupsBefore M.P hist w c0) hist.length = some c0 := by
    intro v hv
    rw [← setupsBefore_congr (v := v) fun d hd => h v hv d (by omega)]
    exact setupCall_eq (by omega) ((h v hv c0 h1).trans h2)
  unfold LossLayer.factorAt
  rw [e]
  dsimp only
  rw [if_pos fun v hv => by rw [hs v hv]; rfl]
  have hne : M.P.members ≠ [] := List.ne_nil_of_mem hw
  have hsh : ∀ v ∈ M.P.members, shapeIn M.P hist v ((setupCall M.P hist v (setupsBefore M.P hist w c0) hist.length).getD 0) =
      shapeIn M.P hist v c := by
    intro v hv
    rw [hs v hv, shapeIn, shapeIn, Option.getD_some,
      struct_const h1 hc fun d hd hd' => (h v hv d hd').trans (h3 d hd hd')]
  unfold LossLayer.normalization
  rw [C29_allreduce_sum _ hne, C29_allreduce_sum _ hne, C29_allreduce_sum _ hne, C29_allreduce_sum _ hne]
  congr 1
  · exact congrArg _ (congrArg _ (List.map_congr_left fun v hv => by beta_reduce; rw [hsh v hv]))
  · congr 1
    exact congrArg _ (congrArg _ (List.map_congr_left fun v hv => by beta_reduce; rw [hsh v hv]))

/-- At the first call on which the workers disagree, those that redo the setup do not get past its all-reduction,
unless operations end early. -/
theorem stuck {n : Nat} {pc : Nat → Nat} {a b c : Nat} (ha : a ∈ P.members) (hb : b ∈ P.members) (hc : c < hist.length)
    (hag : ∀ d < c, resetsAt P hist a d = resetsAt P hist b d) (ra : resetsAt P hist a c = true)
    (rb : resetsAt P hist b c = false)
    (he : Coll.Exec P.members (lossProg P hist) (fun _ => P.members) (fun _ _ _ => False) n (fun _ => 0) pc) :
    Coll.Instr.post (.red c) ∉ (lossProg P hist a).take (pc a) := by
  have pa : lossProg P hist a = callsOps P hist a hist.length := if_pos ha
  have pb : lossProg P hist b = callsOps P hist b hist.length := if_pos hb
  set m := setupsBefore P hist a c with hm
  have hmb : setupsBefore P hist b (c + 1) = m := by
    rw [setupsBefore, rb, hm, setupsBefore_congr hag]
    simp
  -- the order of the operations on `a`
  have key : ∀ k, Coll.Instr.post (.red c) ∈ (lossProg P hist a).take k →
      Coll.Instr.wait (.norm m) ∈ (lossProg P hist a).take k := by
    intro k hk
    obtain ⟨r, e⟩ := callsOps_prefix (P := P) (hist := hist) (v := a) (show c + 1 ≤ hist.length from hc)
    have e2 : lossProg P hist a = (callsOps P hist a c ++ [.post (.norm m), .wait (.norm m)]) ++
        ([.post (.red c), .wait (.red c)] ++ r) := by
      rw [pa, e, callsOps, callOps, if_pos ra]
      simp [hm]
    rw [e2] at hk ⊢
    refine Coll.mem_take_of_split (by simp) ?_ hk
    simp [(red_mem (P := P) (hist := hist) (v := a) (c := c) (d := c)).1]
  have inv : Coll.Instr.wait (.norm m) ∉ (lossProg P hist a).take (pc a) ∧
      Coll.Instr.post (.norm m) ∉ (lossProg P hist b).take (pc b) := by
    generalize hz : (fun _ : Nat => 0) = z at he
    induction he with
    | refl => subst hz; simp
    | @step k x y z' hex hs ih =>
      obtain ⟨i1, i2⟩ := ih hz
      subst hz
      refine ⟨fun h => ?_, fun h => ?_⟩
      · rcases Coll.step_mem hs h with h | ⟨_, h⟩
        · exact i1 h
        · rcases h _ rfl with h | h
          · exact i2 (h b hb)
          · exact h
      · rcases Coll.step_mem hs h with h | ⟨h, _⟩
        · exact i2 h
        · obtain ⟨r, e⟩ := callsOps_prefix (P := P) (hist := hist) (v := b) (show c + 1 ≤ hist.length from hc)
          rw [pb, e] at h
          have h1 : Coll.Instr.wait (.red c) ∈ (lossProg P hist b).take (y b) := by
            rw [pb, e]
            exact Coll.mem_take_of_next (red_mem.2.2 (by omega)) (norm_notMem (by omega)).1 h
          exact i1 (key _ (Coll.waited hex h1 a ha))
  exact fun h => inv.1 (key _ h)

/-- A worker has ended call `c`: the workers have redone their setups in the same calls so far. -/
theorem ended_agree {n : Nat} {pc : Nat → Nat} {c : Nat} (hw : w ∈ P.members) (hc : c < hist.length)
    (he : Coll.Exec P.members (lossProg P hist) (fun _ => P.members) (fun _ _ _ => False) n (fun _ => 0) pc)
    (hd : Coll.Instr.wait (.red c) ∈ (lossProg P hist w).take (pc w)) :
    ∀ d ≤ c, ∀ v ∈ P.members, ∀ u ∈ P.members, resetsAt P hist v d = resetsAt P hist u d := by
  intro d
  induction d using Nat.strongRecOn with
  | ind d ih =>
    intro hdc
    have hdone : Coll.Instr.wait (.red d) ∈ (lossProg P hist w).take (pc w) := by
      rcases Nat.lt_or_ge d c with hlt | hge
      · have pw : lossProg P hist w = callsOps P hist w hist.length := if_pos hw
        obtain ⟨r, e⟩ := callsOps_prefix (P := P) (hist := hist) (v := w) (show c ≤ hist.length by omega)
        rw [pw, e] at hd ⊢
        exact Coll.mem_take_of_split (red_mem.2.2 hlt) (by rw [red_mem.2]; omega) hd
      · rwa [show d = c by omega]
    have no : ∀ a ∈ P.members, ∀ b ∈ P.members, resetsAt P hist a d = true → resetsAt P hist b d = false → False :=
      fun a ha b hb ra rb => stuck ha hb (by omega) (fun d' hd' => ih d' hd' (by omega) a ha b hb) ra rb he
        (Coll.waited he hdone a ha)
    intro v hv u hu
    cases rv : resetsAt P hist v d <;> cases ru : resetsAt P hist u d
    · rfl
    · exact (no u hu v hv ru rv).elim
    · exact (no v hv u hu rv ru).elim
    · rfl

end
end Verif
