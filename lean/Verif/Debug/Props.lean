import Verif.Debug.Model

/-!
# C84: workers print in the order of their ranks
-/

namespace Verif.Debug

open Verif.Net

variable {α : Type} {W : List Nat}

/-! ## Specification -/

/-- What worker `w` prints: all values of the calls in which it is rank 0, in the order of the ranks. -/
def prints (w : Nat) (ks : List (PrintCall α)) : List α :=
  ks.flatMap fun k => if k.comm.head? = some w then k.comm.map k.val else []

/-! ## Proofs -/

theorem passPhase_ok {c r s : Nat} (val : Nat → α) (hr : r ∈ W) (hs : s ∈ W) (hne : s ≠ r) (S : Nat → List α) :
    PhaseOK W (passPhase c r s val) S := by
  have hreq : ∀ w q, q ∈ (passPhase c r s val w (S w)).reqs → (w = s ∨ w = r) ∧ q.key = .msg c s r ∧ (q.deps = [] ∨ q.deps = [s]) := by
    intro w q hq
    unfold passPhase at hq
    split at hq
    · next h =>
      rw [List.mem_singleton.1 hq]
      exact ⟨.inl h, rfl, .inl rfl⟩
    · split at hq
      · next h =>
        rw [List.mem_singleton.1 hq]
        exact ⟨.inr h, rfl, .inr rfl⟩
      · cases hq
  have hlen : ∀ w, (passPhase c r s val w (S w)).reqs.length ≤ 1 := by
    intro w
    unfold passPhase
    split
    · simp
    · split <;> simp
  refine ⟨fun w _ => ?_, fun w _ q hq => ?_, fun w _ q hq u hu => ?_, fun w _ q hq u hu => ?_, fun w _ => ?_, fun w _ l hl => ?_⟩
  · have := hlen w
    match (passPhase c r s val w (S w)).reqs, this with
    | [], _ => exact List.nodup_nil
    | [q], _ => exact List.nodup_singleton _
  · obtain ⟨h, e, -⟩ := hreq w q hq
    rw [e]
    rcases h with rfl | rfl <;> simp [Key.members]
  · obtain ⟨-, e, -⟩ := hreq w q hq
    rw [e] at hu
    have hu : u = s ∨ u = r := by simpa [Key.members] using hu
    rw [e]
    rcases hu with rfl | rfl
    · exact ⟨hs, ⟨.msg c u r, some (val u), [], fun _ x => x⟩, by simp [passPhase], rfl⟩
    · exact ⟨hr, ⟨.msg c s u, none, [s], fun m x => x ++ m.filterMap id⟩, by simp [passPhase, hne.symm], rfl⟩
  · obtain ⟨-, e, h⟩ := hreq w q hq
    rw [e]
    rcases h with h | h <;> rw [h] at hu
    · cases hu
    · rw [List.mem_singleton.1 hu]
      simp [Key.members]
  · have := hlen w
    match (passPhase c r s val w (S w)).reqs, this with
    | [], _ => exact List.Pairwise.nil
    | [q], _ => exact List.pairwise_singleton _ _
  · unfold passPhase at hl
    split at hl
    · cases hl
    · split at hl <;> cases hl

theorem passPhase_sync (c r s : Nat) (val : Nat → α) (hne : s ≠ r) (S : Nat → List α) :
    sync (passPhase c r s val) S = fun w => if w = r then S w ++ [val s] else S w := by
  funext w
  have hc : contribution (passPhase c r s val) S (.msg c s r) s = some (some (val s)) := by
    simp [contribution, passPhase]
  unfold sync
  by_cases h1 : w = s
  · subst h1
    simp [passPhase, hne]
  · by_cases h2 : w = r
    · subst h2
      have e : (passPhase c w s val w (S w)) = ⟨[⟨.msg c s w, none, [s], fun m x => x ++ m.filterMap id⟩], id, none⟩ := by
        simp [passPhase, h1]
      rw [e, if_pos rfl]
      simp [hc]
    · simp [passPhase, h1, h2]

theorem pass_run (c r : Nat) (val : Nat → α) (hr : r ∈ W) (rest : List Nat) : ∀ S : Nat → List α, (∀ s ∈ rest, s ∈ W ∧ s ≠ r) →
    ProgOK W (rest.map fun s => passPhase c r s val) S ∧
    run (rest.map fun s => passPhase c r s val) S = fun w => if w = r then S w ++ rest.map val else S w := by
  induction rest with
  | nil => exact fun S _ => ⟨trivial, by funext w; simp [run]⟩
  | cons s rest ih =>
    intro S h
    obtain ⟨hs, hne⟩ := h s (by simp)
    obtain ⟨h1, h2⟩ := ih (sync (passPhase c r s val) S) fun s hs => h s (by simp [hs])
    refine ⟨⟨passPhase_ok val hr hs hne S, h1⟩, ?_⟩
    show run (rest.map fun s => passPhase c r s val) (sync (passPhase c r s val) S) = _
    rw [h2, passPhase_sync c r s val hne]
    funext w
    by_cases e : w = r <;> simp [e]

theorem print_run (k : PrintCall α) (hk : k.comm.Nodup) (hW : ∀ w ∈ k.comm, w ∈ W) (S : Nat → List α) :
    ProgOK W (printProg k) S ∧
    run (printProg k) S = fun w => S w ++ if k.comm.head? = some w then k.comm.map k.val else [] := by
  obtain ⟨comm, c, val⟩ := k
  cases comm with
  | nil => exact ⟨trivial, by funext w; simp [run, printProg]⟩
  | cons r rest =>
    obtain ⟨hr, -⟩ := List.nodup_cons.1 hk
    obtain ⟨h1, h2⟩ := pass_run c r val (hW r (by simp)) rest (sync (localPhase (μ := Option α) fun w x => if w = r then x ++ [val r] else x) S)
      fun s hs => ⟨hW s (by simp [hs]), fun e => hr (e ▸ hs)⟩
    refine ⟨⟨localPhase_ok _, h1⟩, ?_⟩
    show run (rest.map fun s => passPhase c r s val) _ = _
    rw [h2, localPhase_sync]
    funext w
    by_cases e : w = r
    · simp [e]
    · have : ¬ r = w := fun h => e h.symm
      simp [e, this]

theorem prints_run (ks : List (PrintCall α)) : ∀ S : Nat → List α, (∀ k ∈ ks, k.comm.Nodup ∧ ∀ w ∈ k.comm, w ∈ W) →
    ProgOK W (printsProg ks) S ∧ run (printsProg ks) S = fun w => S w ++ prints w ks := by
  induction ks with
  | nil => exact fun S _ => ⟨trivial, by funext w; simp [run, prints, printsProg]⟩
  | cons k ks ih =>
    intro S h
    obtain ⟨h1, h2⟩ := print_run k (h k (by simp)).1 (h k (by simp)).2 S
    obtain ⟨h3, h4⟩ := ih (run (printProg k) S) fun k hk => h k (by simp [hk])
    refine ⟨progOK_append.2 ⟨h1, h3⟩, ?_⟩
    show run (printProg k ++ printsProg ks) S = _
    rw [run_append, h4, h2]
    funext w
    simp [prints]

/-! ## C84 -/

variable {ks : List (PrintCall α)} {early : GState (List α) (Option α) → Nat → Nat → Prop} {n : Nat} {g : GState (List α) (Option α)}

/-- C84, result: after any number of calls with any communicators, rank 0 of each has printed the values of all members, call after
call and in the order of the ranks; the other workers have printed nothing. -/
theorem C84_result (hk : ∀ k ∈ ks, k.comm.Nodup ∧ ∀ w ∈ k.comm, w ∈ W)
    (he : Exec W (printsProg ks) early n (GState.init fun _ => []) g) {w : Nat} (hw : w ∈ W)
    (hp : (g.ws w).phase = (printsProg ks).length) : (g.ws w).st = prints w ks := by
  obtain ⟨h1, h2⟩ := prints_run ks (fun _ => []) hk
  rw [result h1 he hw hp, h2]
  simp

/-- C84, termination: some worker can go on as long as one has not finished; the number of steps is bounded; and every execution
can be continued to the end. -/
theorem C84_terminates (hk : ∀ k ∈ ks, k.comm.Nodup ∧ ∀ w ∈ k.comm, w ∈ W) (hW : W.Nodup) :
    (∃ N, ∀ n g, Exec W (printsProg ks) early n (GState.init fun _ => []) g → n ≤ N) ∧
    ∀ n g, Exec W (printsProg ks) early n (GState.init fun _ => []) g →
      ((∃ w ∈ W, (g.ws w).phase < (printsProg ks).length) → ∃ g', Step W (printsProg ks) early g g') ∧
      ∃ n' g', n ≤ n' ∧ Exec W (printsProg ks) early n' (GState.init fun _ => []) g' ∧
        ∀ w ∈ W, (g'.ws w).phase = (printsProg ks).length := by
  obtain ⟨h1, -⟩ := prints_run ks (fun _ => []) hk
  exact ⟨⟨_, fun n g he => bounded h1 hW he⟩, fun n g he => ⟨no_deadlock h1 he, completes h1 hW he⟩⟩

/-! ## A worked case -/

/-- Two calls with four workers, the second with a communicator that has worker 2 as its first. -/
def exPrints : List (PrintCall String) :=
  [⟨[0, 1, 2, 3], 0, fun w => s!"a{w}"⟩, ⟨[2, 0, 1], 1, fun w => s!"b{w}"⟩, ⟨[0, 1, 2, 3], 0, fun w => s!"c{w}"⟩]

/-- Every execution ends with worker 0 having printed the first and third call, worker 2 the second. -/
example (early : GState (List String) (Option String) → Nat → Nat → Prop) :
    ∃ n g, Exec [0, 1, 2, 3] (printsProg exPrints) early n (GState.init fun _ => []) g ∧
      (g.ws 0).st = ["a0", "a1", "a2", "a3", "c0", "c1", "c2", "c3"] ∧ (g.ws 1).st = [] ∧ (g.ws 2).st = ["b2", "b0", "b1"] := by
  have hk : ∀ k ∈ exPrints, k.comm.Nodup ∧ ∀ w ∈ k.comm, w ∈ [0, 1, 2, 3] := by
    intro k hk
    simp only [exPrints, List.mem_cons, List.not_mem_nil, or_false] at hk
    rcases hk with rfl | rfl | rfl <;> exact ⟨by decide, by decide⟩
  obtain ⟨-, n, g, -, he, hf⟩ := (C84_terminates (early := early) hk (by decide)).2 0 _ (.refl _)
  refine ⟨n, g, he, ?_, ?_, ?_⟩ <;> rw [C84_result hk he (by decide) (hf _ (by decide))] <;> rfl

end Verif.Debug
