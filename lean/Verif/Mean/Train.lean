import Verif.Mean.Props

/-!
# C93 with backward: no wrong means
-/

namespace Verif

section
variable {P : Cart} {hist : List TStruct} {v w : Nat}

theorem trainsOps_prefix {c n : Nat} (h : c ≤ n) : ∃ r, trainsOps P hist v n = trainsOps P hist v c ++ r := by
  induction n with
  | zero => exact ⟨[], by rw [Nat.le_zero.1 h, List.append_nil]⟩
  | succ n ih =>
    rcases Nat.lt_or_ge n c with hc | hc
    · exact ⟨[], by rw [show c = n + 1 by omega, List.append_nil]⟩
    · obtain ⟨r, e⟩ := ih hc
      exact ⟨r ++ trainOps P hist v n, by rw [trainsOps, e, List.append_assoc]⟩

theorem norm_notMem_train {c i : Nat} (h : setupsBefore P hist v c ≤ i) :
    Coll.Instr.post (.norm i) ∉ trainsOps P hist v c := by
  induction c with
  | zero => simp [trainsOps]
  | succ c ih =>
    rw [setupsBefore] at h
    have h1 := ih (by omega)
    rw [trainsOps, List.mem_append]
    by_cases hr : resetsAt P hist v c = true
    · rw [if_pos hr] at h
      have : i ≠ setupsBefore P hist v c := by omega
      simp [trainOps, callOps, hr, h1, this]
    · simp [trainOps, callOps, hr, h1]

theorem red_mem_train {c d : Nat} : (Coll.Instr.post (.red d) ∈ trainsOps P hist v c ↔ d < c) ∧
    (Coll.Instr.wait (.red d) ∈ trainsOps P hist v c ↔ d < c) ∧
    (Coll.Instr.post (.back d) ∈ trainsOps P hist v c ↔ d < c) ∧
    (Coll.Instr.wait (.back d) ∈ trainsOps P hist v c ↔ d < c) := by
  induction c with
  | zero => simp [trainsOps]
  | succ c ih =>
    simp only [trainsOps, List.mem_append, ih.1, ih.2.1, ih.2.2.1, ih.2.2.2]
    have e : (Coll.Instr.post (LossOp.red d) ∈ trainOps P hist v c ↔ d = c) ∧
        (Coll.Instr.wait (LossOp.red d) ∈ trainOps P hist v c ↔ d = c) ∧
        (Coll.Instr.post (LossOp.back d) ∈ trainOps P hist v c ↔ d = c) ∧
        (Coll.Instr.wait (LossOp.back d) ∈ trainOps P hist v c ↔ d = c) := by
      unfold trainOps callOps
      split <;> simp
    rw [e.1, e.2.1, e.2.2.1, e.2.2.2]
    refine ⟨?_, ?_, ?_, ?_⟩ <;> omega

/-- The first worker does not end the first call on which the workers disagree. -/
theorem stuck_train {M : LossLayer} {n : Nat} {pc : Nat → Nat} {r a b c : Nat} (hr : M.P0.members = [r])
    (hrm : r ∈ P.members) (ha : a ∈ P.members)
    (hb : b ∈ P.members) (hc : c < hist.length)
    (hag : ∀ d < c, resetsAt P hist a d = resetsAt P hist b d) (ra : resetsAt P hist a c = true)
    (rb : resetsAt P hist b c = false)
    (he : Coll.Exec P.members (trainProg P hist) (fun _ => P.members) (trainEarly M) n (fun _ => 0) pc) :
    Coll.Instr.post (.red c) ∉ (trainProg P hist a).take (pc a) := by
  have prog : ∀ u ∈ P.members, trainProg P hist u = trainsOps P hist u hist.length := fun u hu => if_pos hu
  set m := setupsBefore P hist a c with hm
  have hmb : setupsBefore P hist b (c + 1) = m := by
    rw [setupsBefore, rb, hm, setupsBefore_congr hag]
    simp
  have key : ∀ k, Coll.Instr.post (.red c) ∈ (trainProg P hist a).take k →
      Coll.Instr.wait (.norm m) ∈ (trainProg P hist a).take k := by
    intro k hk
    obtain ⟨r, e⟩ := trainsOps_prefix (P := P) (hist := hist) (v := a) (show c + 1 ≤ hist.length from hc)
    have e2 : trainProg P hist a = (trainsOps P hist a c ++ [.post (.norm m), .wait (.norm m)]) ++
        ([.post (.red c), .wait (.red c), .post (.back c), .wait (.back c)] ++ r) := by
      rw [prog a ha, e, trainsOps, trainOps, callOps, if_pos ra]
      simp [hm]
    rw [e2] at hk ⊢
    refine Coll.mem_take_of_split (by simp) ?_ hk
    simp [(red_mem_train (P := P) (hist := hist) (v := a) (c := c) (d := c)).1]
  -- the backward pass of a call comes after its reduction
  have order : ∀ u ∈ P.members, ∀ k, Coll.Instr.post (.back c) ∈ (trainProg P hist u).take k →
      Coll.Instr.wait (.red c) ∈ (trainProg P hist u).take k := by
    intro u hu k hk
    obtain ⟨r, e⟩ := trainsOps_prefix (P := P) (hist := hist) (v := u) (show c + 1 ≤ hist.length from hc)
    have e2 : trainProg P hist u = (trainsOps P hist u c ++ callOps P hist u c) ++
        ([.post (.back c), .wait (.back c)] ++ r) := by
      rw [prog u hu, e, trainsOps, trainOps]
      simp
    rw [e2] at hk ⊢
    refine Coll.mem_take_of_split (by simp [callOps]) ?_ hk
    rw [List.mem_append, (red_mem_train (P := P) (hist := hist) (v := u) (c := c) (d := c)).2.2.1]
    unfold callOps
    split <;> simp
  -- what the first worker has ended was started by all
  have done : ∀ {k : Nat} {q : Nat → Nat}, Coll.Exec P.members (trainProg P hist) (fun _ => P.members) (trainEarly M) k
      (fun _ => 0) q → Coll.Instr.wait (.red c) ∈ (trainProg P hist r).take (q r) →
      Coll.Instr.post (.red c) ∈ (trainProg P hist a).take (q a) := fun hex h =>
    Coll.waited_of hex (fun _ h => by rcases h with ⟨h, _⟩ | ⟨_, _, h⟩; · simp [hr] at h
                                      · cases h) h a ha
  have inv : Coll.Instr.wait (.norm m) ∉ (trainProg P hist a).take (pc a) ∧
      Coll.Instr.post (.norm m) ∉ (trainProg P hist b).take (pc b) := by
    generalize hz : (fun _ : Nat => 0) = z at he
    induction he with
    | refl => subst hz; simp
    | @step k x y z' hex hs ih =>
      obtain ⟨i1, i2⟩ := ih hz
      subst hz
      refine ⟨fun h => ?_, fun h => ?_⟩
      · rcases Coll.step_mem hs h with h | ⟨_, h⟩
        · exact i1 h
        · rcases h _ rfl with h | h
          · exact i2 (h b hb)
          · rcases h with ⟨_, _, h⟩ | ⟨_, _, h⟩ <;> cases h
      · rcases Coll.step_mem hs h with h | ⟨h, _⟩
        · exact i2 h
        · obtain ⟨q, e⟩ := trainsOps_prefix (P := P) (hist := hist) (v := b) (show c + 1 ≤ hist.length from hc)
          rw [prog b hb, e] at h
          have h1 : ∀ i, i ∈ trainsOps P hist b (c + 1) → i ∈ (trainProg P hist b).take (y b) := by
            intro i hi
            rw [prog b hb, e]
            exact Coll.mem_take_of_next hi (norm_notMem_train (by omega)) h
          have h2 : Coll.Instr.wait (.red c) ∈ (trainProg P hist r).take (y r) := by
            by_cases hbr : b = r
            · rw [← hbr]
              exact h1 _ (red_mem_train.2.1.2 (by omega))
            · have h3 := Coll.waited_of hex (c := .back c) (v := b) (fun _ h => by
                rcases h with ⟨_, _, h⟩ | ⟨h, _⟩
                · cases h
                · simp [hr, hbr] at h) (h1 _ (red_mem_train.2.2.2.2 (by omega))) r hrm
              exact order r hrm _ h3
          exact i1 (key _ (done hex h2))
  exact fun h => inv.1 (key _ h)

/-- C93 in training: each call is followed by its backward pass.  In every execution, whatever the shapes are, and with
the early ends of reductions and broadcasts that MPI allows, a call that has ended on the first worker was divided by the
number of entries of the tensor of this call (its batch size for `"batchmean"`).  Where the workers disagree about the
setup, the call does not end. -/
theorem C93_training_partial {kl : Bool} {red : String} {M : LossLayer} (h : MeanCalls P kl red M hist) {n : Nat}
    {pc : Nat → Nat}
    (he : Coll.Exec P.members (trainProg P hist) (fun _ => P.members) (trainEarly M) n (fun _ => 0) pc)
    {r c : Nat} (hr : r ∈ M.P0.members) (hd : Coll.Instr.wait (.red c) ∈ (trainProg P hist r).take (pc r))
    {g : TStruct} {s : List Nat} (hg : hist[c]? = some g) (hs : g.shape = some s) :
    (red = "mean" → M.factorAt hist r c = some ((s.prod : Nat) : Int)) ∧
    (red = "batchmean" → M.factorAt hist r c = some ((s.headD 0 : Nat) : Int)) := by
  obtain ⟨w0, hM⟩ := newLoss_made (L := Layout.balanced P.shape P.shape)
    ⟨h.wf, h.root, h.dim, Layout.balanced_pshape rfl⟩ h.made
  have h0 : M.P0.members = [w0] := by rw [hM.eq]
  have hrw : r = w0 := by simpa [h0] using hr
  subst hrw
  have hw := hM.mem
  have hc : c < hist.length := (List.getElem?_eq_some_iff.1 hg).1
  refine C93_agree_partial h hw (fun v hv d hdc => ?_) hg hs
  revert v
  suffices hag : ∀ d ≤ c, ∀ v ∈ P.members, ∀ u ∈ P.members, resetsAt P hist v d = resetsAt P hist u d from
    fun v hv => hag d hdc v hv r hw
  clear hdc d
  intro d
  induction d using Nat.strongRecOn with
  | ind d ih =>
    intro hdc
    have hdone : Coll.Instr.wait (.red d) ∈ (trainProg P hist r).take (pc r) := by
      rcases Nat.lt_or_ge d c with hlt | hge
      · have pw : trainProg P hist r = trainsOps P hist r hist.length := if_pos hw
        obtain ⟨q, e⟩ := trainsOps_prefix (P := P) (hist := hist) (v := r) (show c ≤ hist.length by omega)
        rw [pw, e] at hd ⊢
        exact Coll.mem_take_of_split (red_mem_train.2.1.2 hlt) (by rw [red_mem_train.2.1]; omega) hd
      · rwa [show d = c by omega]
    have no : ∀ a ∈ P.members, ∀ b ∈ P.members, resetsAt P hist a d = true → resetsAt P hist b d = false → False :=
      fun a ha b hb ra rb => stuck_train h0 hw ha hb (by omega) (fun d' hd' => ih d' hd' (by omega) a ha b hb) ra rb he
        (Coll.waited_of he (fun _ h => by
          rcases h with ⟨h, _⟩ | ⟨_, _, h⟩
          · simp [h0] at h
          · cases h) hdone a ha)
    intro v hv u hu
    cases rv : resetsAt P hist v d <;> cases ru : resetsAt P hist u d
    · rfl
    · exact (no u hu v hv ru rv).elim
    · exact (no v hv u hu rv ru).elim
    · rfl

end

theorem exHist_train : trainProg exP2 exHist = fun w =>
    if w = 0 then [.post (.norm 0), .wait (.norm 0), .post (.red 0), .wait (.red 0), .post (.back 0), .wait (.back 0),
      .post (.norm 1), .wait (.norm 1), .post (.red 1), .wait (.red 1), .post (.back 1), .wait (.back 1),
      .post (.norm 2), .wait (.norm 2), .post (.red 2), .wait (.red 2), .post (.back 2), .wait (.back 2)]
    else if w = 1 then [.post (.norm 0), .wait (.norm 0), .post (.red 0), .wait (.red 0), .post (.back 0), .wait (.back 0),
      .post (.red 1), .wait (.red 1), .post (.back 1), .wait (.back 1),
      .post (.norm 1), .wait (.norm 1), .post (.red 2), .wait (.red 2), .post (.back 2), .wait (.back 2)]
    else [] := by
  funext w
  by_cases h0 : w = 0
  · subst h0
    decide
  · by_cases h1 : w = 1
    · subst h1
      decide
    · rw [if_neg h0, if_neg h1, trainProg, if_neg (by simp [exP2, h0, h1])]

/-- There are such runs, with a sender that goes on early. -/
example : ∃ n pc, Coll.Exec exP2.members (trainProg exP2 exHist) (fun _ => exP2.members) (trainEarly exMean) n (fun _ => 0)
    pc ∧ Coll.Instr.wait (.red 0) ∈ (trainProg exP2 exHist 0).take (pc 0) ∧ exMean.factorAt exHist 0 0 = some 4 := by
  have he : Coll.Exec exP2.members (trainProg exP2 exHist) (fun _ => exP2.members) (trainEarly exMean) 8 (fun _ => 0)
      ([0, 1, 1, 0, 1, 1, 0, 0].foldl Coll.advance fun _ => 0) := by
    rw [exHist_train]
    refine .step (.step (.step (.step (.step (.step (.step (.step (.refl _)
      (.post _ 0 _ (by decide) rfl)) (.post _ 1 _ (by decide) rfl))
      (.wait _ 1 _ (by decide) rfl (.inl (by simp [exP2, Coll.Posted, Coll.advance]))))
      (.wait _ 0 _ (by decide) rfl (.inl (by simp [exP2, Coll.Posted, Coll.advance]))))
      (.post _ 1 _ (by decide) rfl)) (.wait _ 1 _ (by decide) rfl (.inr (.inl ⟨by decide, _, rfl⟩))))
      (.post _ 0 _ (by decide) rfl))
      (.wait _ 0 _ (by decide) rfl (.inl (by simp [exP2, Coll.Posted, Coll.advance])))
  have hd : Coll.Instr.wait (.red 0) ∈ (trainProg exP2 exHist 0).take
      (([0, 1, 1, 0, 1, 1, 0, 0].foldl Coll.advance fun _ => 0) 0) := by
    rw [exHist_train]
    simp [Coll.advance]
  exact ⟨_, _, he, hd, (C93_training_partial (exMean_calls exHist (by simp [exHist])) he (by decide) hd (g := exG 4)
    (s := [4]) rfl rfl).1 rfl⟩

end Verif
