import Verif.Mean.Lemmas

/-!
# C93: a loss that divides by the number of entries does so in every call

The calls have global inputs `hist` in balanced blocks, one call after the other without backward.  A worker has ended
call `c` when its wait for the sum-reduction of this call is over; the first worker then divides by `factorAt`.
-/

namespace Verif

/-- Worker `w` has ended call `c`. -/
def Ended (P : Cart) (hist : List TStruct) (pc : Nat → Nat) (w c : Nat) : Prop :=
  Coll.Instr.wait (.red c) ∈ (lossProg P hist w).take (pc w)

/-- A loss with reduction `"mean"` or `"batchmean"` on a partition of at least one dimension, and calls with global
inputs of as many dimensions. -/
structure MeanCalls (P : Cart) (kl : Bool) (red : String) (M : LossLayer) (hist : List TStruct) : Prop where
  wf : P.WF
  root : ∃ r, P.root = some r
  dim : P.shape ≠ []
  made : newLoss P kl red = some M
  divides : red = "mean" ∨ red = "batchmean"
  shapes : ∀ g ∈ hist, ∃ s, g.shape = some s ∧ s.length = P.shape.length

section
variable {P : Cart} {kl : Bool} {red : String} {M : LossLayer} {hist : List TStruct}

theorem MeanCalls.eq (h : MeanCalls P kl red M hist) : M.P = P := by
  obtain ⟨w0, hM⟩ := newLoss_made (L := Layout.balanced P.shape P.shape)
    ⟨h.wf, h.root, h.dim, Layout.balanced_pshape rfl⟩ h.made
  rw [hM.eq]

/-- The factor of the present shapes. -/
theorem MeanCalls.norm (h : MeanCalls P kl red M hist) {c : Nat} {g : TStruct} {s : List Nat} (hg : hist[c]? = some g)
    (hs : g.shape = some s) :
    M.normalization (fun v => shapeIn M.P hist v c) = some ((lossDivisor red s : Nat) : Int) := by
  obtain ⟨s', e', hl⟩ := h.shapes g (List.mem_of_getElem? hg)
  rw [hs] at e'
  cases e'
  have hp : Placed P (Layout.balanced P.shape s) := ⟨h.wf, h.root, h.dim, Layout.balanced_pshape hl.symm⟩
  obtain ⟨w0, hM⟩ := newLoss_made hp h.made
  have hgl : (Layout.balanced P.shape s).global = s := Layout.balanced_global hl.symm h.wf.pos
  have hB : Blocks P (Layout.balanced P.shape s) (⟨s, .float32, fun _ => 0⟩ : Tensor Nat)
      (fun v => ⟨shapeIn M.P hist v c, .float32, fun _ => 0⟩) :=
    ⟨hgl.symm, fun w hw => by
      show shapeIn M.P hist w c = _
      rw [h.eq, Layout.balanced_shapeAt (idx := P.coord w) hl.symm (coords_inBounds h.wf hw), shapeIn, List.getD_eq_getElem?_getD, hg,
        localStruct, if_pos hw, Option.getD_some, hs]
      rfl, fun _ _ => rfl, fun _ _ _ _ => rfl⟩
  have := hM.norm hp hB
  rwa [hgl] at this

/-- C93, what holds, of the runs in which no operation ends early: in every execution, whatever the shapes are, a call
that has ended on some worker was divided by the number of entries of the tensor of this call (its batch size for
`"batchmean"`).  Missing: runs in which MPI lets the senders of a reduction go on early, see `C93_false`. -/
theorem C93_partial (h : MeanCalls P kl red M hist) {n : Nat} {pc : Nat → Nat}
    (he : Coll.Exec P.members (lossProg P hist) (fun _ => P.members) (fun _ _ _ => False) n (fun _ => 0) pc)
    {w c : Nat} (hw : w ∈ P.members) (hd : Ended P hist pc w c) {g : TStruct} {s : List Nat} (hg : hist[c]? = some g)
    (hs : g.shape = some s) :
    (red = "mean" → M.factorAt hist w c = some ((s.prod : Nat) : Int)) ∧
    (red = "batchmean" → M.factorAt hist w c = some ((s.headD 0 : Nat) : Int)) := by
  have hc : c < hist.length := (List.getElem?_eq_some_iff.1 hg).1
  have hag := ended_agree hw hc he hd
  have e := h.eq
  have : M.factorAt hist w c = some ((lossDivisor red s : Nat) : Int) := by
    rw [factorAt_eq hc (e ▸ hw) fun v hv d hd' => by rw [e] at hv ⊢; exact hag d hd' v hv w hw, h.norm hg hs]
  rw [this]
  refine ⟨fun e => ?_, fun e => ?_⟩
  · rw [e]; rfl
  · rw [e]; rfl

/-- C93: under any early ends the factor is right where the workers have redone their setups in the same calls so far. -/
theorem C93_agree_partial (h : MeanCalls P kl red M hist) {w c : Nat} (hw : w ∈ P.members)
    (hag : ∀ v ∈ P.members, ∀ d ≤ c, resetsAt P hist v d = resetsAt P hist w d) {g : TStruct} {s : List Nat}
    (hg : hist[c]? = some g) (hs : g.shape = some s) :
    (red = "mean" → M.factorAt hist w c = some ((s.prod : Nat) : Int)) ∧
    (red = "batchmean" → M.factorAt hist w c = some ((s.headD 0 : Nat) : Int)) := by
  have hc : c < hist.length := (List.getElem?_eq_some_iff.1 hg).1
  have e := h.eq
  have : M.factorAt hist w c = some ((lossDivisor red s : Nat) : Int) := by
    rw [factorAt_eq hc (e ▸ hw) fun v hv d hd' => by rw [e] at hv ⊢; exact hag v hv d hd', h.norm hg hs]
  rw [this]
  refine ⟨fun e => ?_, fun e => ?_⟩
  · rw [e]; rfl
  · rw [e]; rfl

/-- C93: the first call in which some workers redo the setup and some do not ends on no worker, unless operations end
early. -/
theorem C93_hangs (P : Cart) (hist : List TStruct) {n : Nat} {pc : Nat → Nat}
    (he : Coll.Exec P.members (lossProg P hist) (fun _ => P.members) (fun _ _ _ => False) n (fun _ => 0) pc)
    {a b c : Nat} (ha : a ∈ P.members) (hb : b ∈ P.members) (hc : c < hist.length)
    (hne : resetsAt P hist a c ≠ resetsAt P hist b c) {w : Nat} (hw : w ∈ P.members) : ¬ Ended P hist pc w c :=
  fun hd => hne (ended_agree hw hc he hd c le_rfl a ha b hb)

end

/-! ## Large changes -/

/-- From one call to the next the global input is unchanged, or so different that all workers notice: another type,
another gradient flag, or some extent changed by at least the number of workers in its dimension. -/
def BigSteps (P : Cart) (hist : List TStruct) : Prop :=
  ∀ c a g, hist[c]? = some a → hist[c + 1]? = some g → a = g ∨ a.dtype ≠ g.dtype ∨ a.requiresGrad ≠ g.requiresGrad ∨
    ∃ s t, a.shape = some s ∧ g.shape = some t ∧ ∃ d < P.shape.length,
      s.getD d 0 + P.shape.getD d 0 ≤ t.getD d 0 ∨ t.getD d 0 + P.shape.getD d 0 ≤ s.getD d 0

section
variable {P : Cart} {kl : Bool} {red : String} {M : LossLayer} {hist : List TStruct}

theorem BigSteps.agree (hb : BigSteps P hist) (h : MeanCalls P kl red M hist) {c v w : Nat} (hc : c < hist.length)
    (hv : v ∈ P.members) (hw : w ∈ P.members) : resetsAt P hist v c = resetsAt P hist w c := by
  cases c with
  | zero => rfl
  | succ c =>
    have e1 := List.getElem?_eq_getElem (show c < hist.length by omega)
    have e2 := List.getElem?_eq_getElem hc
    have e : ∀ u, resetsAt P hist u (c + 1) = resets .late P (hist.take c ++ [hist[c]]) hist[c + 1] u := by
      intro u
      rw [resetsAt, List.take_add_one, e1, Option.toList_some, List.getD_eq_getElem _ _ hc]
    obtain ⟨-, h2, h3⟩ := C33_agree_partial .late (by decide) P h.wf (hist.take c) hist[c] hist[c + 1]
    rw [e, e]
    rcases hb c _ _ e1 e2 with hh | hh | hh | ⟨s, t, hs, ht, hh⟩
    · rw [h2 hh v hv, h2 hh w hw]
    · rw [h3 (.inl hh) v hv, h3 (.inl hh) w hw]
    · rw [h3 (.inr (.inl hh)) v hv, h3 (.inr (.inl hh)) w hw]
    · obtain ⟨s', es, ls⟩ := h.shapes _ (List.mem_of_getElem? e1)
      obtain ⟨t', et, lt⟩ := h.shapes _ (List.mem_of_getElem? e2)
      rw [hs] at es
      rw [ht] at et
      cases es
      cases et
      have := h3 (.inr (.inr ⟨s, t, hs, ht, ls, lt, hh⟩))
      rw [this v hv, this w hw]

/-- The time of an operation on worker `v`. -/
def opRank (P : Cart) (hist : List TStruct) (v : Nat) : LossOp → Nat
  | .red c => 2 * c + 1
  | .back _ => 0
  | .norm i => 2 * (setupCall P hist v i hist.length).getD 0

theorem callOps_rank {v c : Nat} (hc : c < hist.length) (x : LossOp)
    (h : Coll.Instr.post x ∈ callOps P hist v c ∨ Coll.Instr.wait x ∈ callOps P hist v c) :
    2 * c ≤ opRank P hist v x ∧ opRank P hist v x < 2 * (c + 1) := by
  unfold callOps at h
  by_cases hr : resetsAt P hist v c = true
  · have h' : x = .norm (setupsBefore P hist v c) ∨ x = .red c := by simpa [hr] using h
    rcases h' with rfl | rfl
    · rw [opRank, setupCall_eq hc hr, Option.getD_some]
      omega
    · rw [opRank]
      omega
  · have h' : x = .red c := by simpa [hr] using h
    subst h'
    rw [opRank]
    omega

theorem callsOps_rank {v n : Nat} (hn : n ≤ hist.length) (x : LossOp) (h : Coll.Instr.wait x ∈ callsOps P hist v n) :
    opRank P hist v x < 2 * n := by
  induction n with
  | zero => simp [callsOps] at h
  | succ n ih =>
    rw [callsOps, List.mem_append] at h
    rcases h with h | h
    · exact (ih (by omega) h).trans (by omega)
    · exact (callOps_rank (by omega) x (.inr h)).2

theorem callsOps_ranked {v n : Nat} (hn : n ≤ hist.length) : (callsOps P hist v n).Pairwise fun a b =>
    ∀ c' c, a = Coll.Instr.wait c' → b = .post c → opRank P hist v c' < opRank P hist v c := by
  induction n with
  | zero => simp [callsOps]
  | succ n ih =>
    rw [callsOps, List.pairwise_append]
    refine ⟨ih (by omega), ?_, ?_⟩
    · unfold callOps
      by_cases hr : resetsAt P hist v n = true
      · rw [if_pos hr]
        simp [opRank, setupCall_eq (show n < hist.length by omega) hr]
      · rw [if_neg hr]
        simp
    · rintro a ha b hb c' c rfl rfl
      have h1 := callsOps_rank (by omega) c' ha
      have h2 := (callOps_rank (by omega) c (.inl hb)).1
      omega

theorem posts_waits {v n : Nat} (x : LossOp) (h : Coll.Instr.wait x ∈ callsOps P hist v n) :
    Coll.Instr.post x ∈ callsOps P hist v n := by
  induction n with
  | zero => simp [callsOps] at h
  | succ n ih =>
    rw [callsOps, List.mem_append] at h ⊢
    rcases h with h | h
    · exact .inl (ih h)
    · right
      unfold callOps at h ⊢
      by_cases hr : resetsAt P hist v n = true
      · simpa [hr] using h
      · simpa [hr] using h

theorem callsOps_congr {v w n : Nat} (h : ∀ d < n, resetsAt P hist v d = resetsAt P hist w d) :
    callsOps P hist v n = callsOps P hist w n := by
  induction n with
  | zero => rfl
  | succ n ih =>
    rw [callsOps, callsOps, ih fun d hd => h d (by omega), callOps, callOps, h n (by omega),
      setupsBefore_congr fun d hd => h d (by omega)]

/-- C93, where it holds under every schedule and any early ends: with unchanged or large changes of shape from call to
call, every execution can be continued until all calls have ended on all workers, and every call is divided by the number
of entries of its tensor (its batch size for `"batchmean"`). -/
theorem C93_steps_partial (h : MeanCalls P kl red M hist) (hb : BigSteps P hist)
    (early : (Nat → Nat) → Nat → LossOp → Prop) :
    (∀ n pc, Coll.Exec P.members (lossProg P hist) (fun _ => P.members) early n (fun _ => 0) pc →
      ∃ m pc', Coll.Exec P.members (lossProg P hist) (fun _ => P.members) early m pc pc' ∧
        ∀ w ∈ P.members, ∀ c < hist.length, Ended P hist pc' w c) ∧
    ∀ w ∈ P.members, ∀ c g s, hist[c]? = some g → g.shape = some s →
      (red = "mean" → M.factorAt hist w c = some ((s.prod : Nat) : Int)) ∧
      (red = "batchmean" → M.factorAt hist w c = some ((s.headD 0 : Nat) : Int)) := by
  refine ⟨fun n pc he => ?_, fun w hw c g s hg hs => C93_agree_partial h hw (fun v hv d hd => ?_) hg hs⟩
  · obtain ⟨w0, -, hm0⟩ := h.wf.head
    have same : ∀ w ∈ P.members, lossProg P hist w = callsOps P hist w0 hist.length := fun w hw => by
      rw [lossProg, if_pos hw]
      exact callsOps_congr fun d hd => hb.agree h hd hw hm0
    have ho : Coll.Ordered P.members (lossProg P hist) (fun _ => P.members) (opRank P hist w0) := by
      refine ⟨fun w hw c hc u hu => ⟨hu, ?_⟩, fun w hw => ?_⟩
      · rw [same w hw] at hc
        rw [same u hu]
        exact posts_waits c hc
      · rw [same w hw]
        exact callsOps_ranked le_rfl
    obtain ⟨m, pc', h1, h2⟩ := Coll.completes ho h.wf.nodup he
    refine ⟨m, pc', h1, fun w hw c hc => ?_⟩
    rw [Ended, h2 w hw, List.take_length, lossProg, if_pos hw]
    exact red_mem.2.2 hc
  · have := (List.getElem?_eq_some_iff.1 hg).1
    exact hb.agree h (by omega) hv hw

end

/-! ## A wrong mean -/

/-- A mean over two workers. -/
def exMean : LossLayer := ⟨exP2, ⟨[0], [1], some 0⟩, false, "mean"⟩

/-- Global inputs with 4, 5 and 3 entries. -/
def exHist : List TStruct := [exG 4, exG 5, exG 3]

theorem exMean_calls (hist : List TStruct) (h : ∀ g ∈ hist, ∃ n, g = exG n) : MeanCalls exP2 false "mean" exMean hist :=
  ⟨⟨by decide, by decide, by decide⟩, ⟨0, rfl⟩, by decide, by decide, .inl rfl, fun g hg => by
    obtain ⟨n, rfl⟩ := h g hg
    exact ⟨[n], rfl, rfl⟩⟩

theorem exHist_prog : lossProg exP2 exHist = fun w =>
    if w = 0 then [.post (.norm 0), .wait (.norm 0), .post (.red 0), .wait (.red 0), .post (.norm 1), .wait (.norm 1),
      .post (.red 1), .wait (.red 1), .post (.norm 2), .wait (.norm 2), .post (.red 2), .wait (.red 2)]
    else if w = 1 then [.post (.norm 0), .wait (.norm 0), .post (.red 0), .wait (.red 0), .post (.red 1), .wait (.red 1),
      .post (.norm 1), .wait (.norm 1), .post (.red 2), .wait (.red 2)]
    else [] := by
  funext w
  by_cases h0 : w = 0
  · subst h0
    decide
  · by_cases h1 : w = 1
    · subst h1
      decide
    · rw [if_neg h0, if_neg h1, lossProg, if_neg (by simp [exP2, h0, h1])]

/-- C93 fails.  With 4, 5 and then 3 entries on two workers, in the second call only the first worker has another block
than before and starts the all-reduction of the numbers of entries; the second worker sends its loss, goes on to the third
call and there starts its all-reduction with its 1 entry.  The second call ends on the first worker with a sum over 5
entries divided by 4. -/
theorem C93_false : ∃ n pc, Coll.Exec exP2.members (lossProg exP2 exHist) (fun _ => exP2.members) (senderEarly exMean) n
    (fun _ => 0) pc ∧ MeanCalls exP2 false "mean" exMean exHist ∧ 0 ∈ exMean.P0.members ∧ Ended exP2 exHist pc 0 1 ∧
    (exHist.getD 1 ⟨none, none, none⟩).shape = some [5] ∧ exMean.factorAt exHist 0 1 = some 4 := by
  refine ⟨15, [0, 1, 0, 1, 0, 1, 0, 1, 0, 1, 1, 1, 0, 0, 0].foldl Coll.advance fun _ => 0, ?_,
    exMean_calls _ (by simp [exHist]), by decide, ?_, by decide, by decide⟩
  · rw [exHist_prog]
    refine .step (.step (.step (.step (.step (.step (.step (.step (.step (.step (.step (.step (.step (.step (.step
      (.refl _)
      (.post _ 0 _ (by decide) rfl)) (.post _ 1 _ (by decide) rfl))
      (.wait _ 0 _ (by decide) rfl (.inl (by simp [exP2, Coll.Posted, Coll.advance]))))
      (.wait _ 1 _ (by decide) rfl (.inl (by simp [exP2, Coll.Posted, Coll.advance]))))
      (.post _ 0 _ (by decide) rfl)) (.post _ 1 _ (by decide) rfl))
      (.wait _ 0 _ (by decide) rfl (.inl (by simp [exP2, Coll.Posted, Coll.advance]))))
      (.wait _ 1 _ (by decide) rfl (.inl (by simp [exP2, Coll.Posted, Coll.advance]))))
      (.post _ 0 _ (by decide) rfl))
      (.post _ 1 _ (by decide) rfl))
      (.wait _ 1 _ (by decide) rfl (.inr ⟨by decide, _, rfl⟩)))
      (.post _ 1 _ (by decide) rfl))
      (.wait _ 0 _ (by decide) rfl (.inl (by simp [exP2, Coll.Posted, Coll.advance]))))
      (.post _ 0 _ (by decide) rfl))
      (.wait _ 0 _ (by decide) rfl (.inl (by simp [exP2, Coll.Posted, Coll.advance])))
  · rw [Ended, exHist_prog]
    simp [Coll.advance]

/-- The third all-reduction of the first worker has no counterpart on the second. -/
example : exMean.factorAt exHist 0 2 = none := by decide

/-- Large changes, nothing wrong: 4, 4, then 6 entries. -/
example : (∀ n pc, Coll.Exec exP2.members (lossProg exP2 [exG 4, exG 4, exG 6]) (fun _ => exP2.members) (senderEarly exMean) n
    (fun _ => 0) pc → ∃ m pc', Coll.Exec exP2.members (lossProg exP2 [exG 4, exG 4, exG 6]) (fun _ => exP2.members)
      (senderEarly exMean) m pc pc' ∧ ∀ w ∈ exP2.members, ∀ c < 3, Ended exP2 [exG 4, exG 4, exG 6] pc' w c) ∧
    exMean.factorAt [exG 4, exG 4, exG 6] 0 1 = some 4 ∧ exMean.factorAt [exG 4, exG 4, exG 6] 0 2 = some 6 := by
  have hb : BigSteps exP2 [exG 4, exG 4, exG 6] := by
    intro c a g h1 h2
    match c with
    | 0 => simp at h1 h2; subst h1; subst h2; exact .inl rfl
    | 1 =>
      simp at h1 h2
      subst h1
      subst h2
      exact .inr (.inr (.inr ⟨[4], [6], rfl, rfl, 0, by decide, by decide⟩))
    | c + 2 => simp at h2
  obtain ⟨h1, h2⟩ := C93_steps_partial (exMean_calls [exG 4, exG 4, exG 6] (by simp)) hb (senderEarly exMean)
  exact ⟨h1, (h2 0 (by decide) 1 (exG 4) [4] rfl rfl).1 rfl, (h2 0 (by decide) 2 (exG 6) [6] rfl rfl).1 rfl⟩

/-- Without early ends the second call of `C93_false` ends on no worker. -/
example {n : Nat} {pc : Nat → Nat} (he : Coll.Exec exP2.members (lossProg exP2 exHist) (fun _ => exP2.members)
    (fun _ _ _ => False) n (fun _ => 0) pc) : ¬ Ended exP2 exHist pc 0 1 :=
  C93_hangs exP2 exHist he (a := 0) (b := 1) (by decide) (by decide) (by decide) (by decide) (by decide)

/-- Small changes: in the first call, before the workers disagree, the mean is over 4 entries. -/
example : exMean.factorAt exHist 1 0 = some 4 :=
  (C93_agree_partial (exMean_calls exHist (by simp [exHist])) (w := 1) (c := 0) (by decide) (fun v hv d hd => by
    rw [Nat.le_zero.1 hd]; rfl) (g := exG 4) (s := [4]) rfl rfl).1 rfl

/-- There are runs without early ends in which calls end. -/
example : ∃ n pc, Coll.Exec exP2.members (lossProg exP2 exHist) (fun _ => exP2.members) (fun _ _ _ => False) n (fun _ => 0) pc ∧
    Ended exP2 exHist pc 0 0 ∧ exMean.factorAt exHist 0 0 = some 4 := by
  have he : Coll.Exec exP2.members (lossProg exP2 exHist) (fun _ => exP2.members) (fun _ _ _ => False) 7 (fun _ => 0)
      ([0, 1, 0, 1, 0, 1, 0].foldl Coll.advance fun _ => 0) := by
    rw [exHist_prog]
    refine .step (.step (.step (.step (.step (.step (.step (.refl _)
      (.post _ 0 _ (by decide) rfl)) (.post _ 1 _ (by decide) rfl))
      (.wait _ 0 _ (by decide) rfl (.inl (by simp [exP2, Coll.Posted, Coll.advance]))))
      (.wait _ 1 _ (by decide) rfl (.inl (by simp [exP2, Coll.Posted, Coll.advance]))))
      (.post _ 0 _ (by decide) rfl)) (.post _ 1 _ (by decide) rfl))
      (.wait _ 0 _ (by decide) rfl (.inl (by simp [exP2, Coll.Posted, Coll.advance])))
  have hd : Ended exP2 exHist ([0, 1, 0, 1, 0, 1, 0].foldl Coll.advance fun _ => 0) 0 0 := by
    rw [Ended, exHist_prog]
    simp [Coll.advance]
  exact ⟨_, _, he, hd, (C93_partial (exMean_calls exHist (by simp [exHist])) he (by decide) hd (g := exG 4) (s := [4]) rfl
    rfl).1 rfl⟩

end Verif
