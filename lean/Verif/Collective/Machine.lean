import Mathlib.Data.List.Basic
import Mathlib.Algebra.BigOperators.Group.List.Basic

/-!
# Collective operations: a posting/waiting machine

MPI semantics used (MPI standard, chapter on collective communication): a non-blocking collective
(`Ibcast`, `Ireduce`, `Iallreduce`) is posted and later waited for; a blocking one
(`Comm.Create_group`) is a post directly followed by its wait.  A wait can complete once every member
of the group has posted the operation.  The library may complete some waits earlier (`early`, an
arbitrary condition: for example a broadcast root need not wait for the leaves), but programs may not
rely on it.
-/

namespace Verif.Coll

/-- An instruction of a worker; `κ` names collective operations. -/
inductive Instr (κ : Type)
  | post (c : κ)
  | wait (c : κ)
  deriving DecidableEq

variable {κ : Type}

/-- Worker `u` has posted operation `c`. -/
def Posted (prog : Nat → List (Instr κ)) (pc : Nat → Nat) (c : κ) (u : Nat) : Prop :=
  Instr.post c ∈ (prog u).take (pc u)

/-- Advance the program counter of `w`. -/
def advance (pc : Nat → Nat) (w : Nat) : Nat → Nat := fun v => if v = w then pc v + 1 else pc v

/-- One step of any worker in `W`; `mem c` are the participants of operation `c`. -/
inductive Step (W : List Nat) (prog : Nat → List (Instr κ)) (mem : κ → List Nat)
    (early : (Nat → Nat) → Nat → κ → Prop) : (Nat → Nat) → (Nat → Nat) → Prop
  | post (pc : Nat → Nat) (w : Nat) (c : κ) : w ∈ W → (prog w)[pc w]? = some (.post c) →
      Step W prog mem early pc (advance pc w)
  | wait (pc : Nat → Nat) (w : Nat) (c : κ) : w ∈ W → (prog w)[pc w]? = some (.wait c) →
      ((∀ u ∈ mem c, Posted prog pc c u) ∨ early pc w c) →
      Step W prog mem early pc (advance pc w)

/-- Executions of `n` steps. -/
inductive Exec (W : List Nat) (prog : Nat → List (Instr κ)) (mem : κ → List Nat)
    (early : (Nat → Nat) → Nat → κ → Prop) : Nat → (Nat → Nat) → (Nat → Nat) → Prop
  | refl (pc : Nat → Nat) : Exec W prog mem early 0 pc pc
  | step {n : Nat} {a b c : Nat → Nat} : Exec W prog mem early n a b →
      Step W prog mem early b c → Exec W prog mem early (n + 1) a c

/-- All workers have finished their programs. -/
def Finished (W : List Nat) (prog : Nat → List (Instr κ)) (pc : Nat → Nat) : Prop :=
  ∀ w ∈ W, pc w = (prog w).length

/-- Condition on programs: whoever waits for an operation, all its participants post it somewhere;
and there is a ranking of operations such that no one waits for an operation before posting one of
the same or a smaller rank. -/
structure Ordered (W : List Nat) (prog : Nat → List (Instr κ)) (mem : κ → List Nat)
    (ρ : κ → Nat) : Prop where
  posted : ∀ w ∈ W, ∀ c, Instr.wait c ∈ prog w → ∀ u ∈ mem c, u ∈ W ∧ Instr.post c ∈ prog u
  ranked : ∀ w ∈ W, (prog w).Pairwise fun a b =>
    ∀ c' c, a = .wait c' → b = .post c → ρ c' < ρ c

section
variable {W : List Nat} {prog : Nat → List (Instr κ)} {mem : κ → List Nat} {ρ : κ → Nat}
  {early : (Nat → Nat) → Nat → κ → Prop}

theorem progress_wait (h : Ordered W prog mem ρ) (pc : Nat → Nat) :
    ∀ n w c, ρ c = n → w ∈ W → (prog w)[pc w]? = some (.wait c) →
      ∃ pc', Step W prog mem early pc pc' := by
  intro n
  induction n using Nat.strongRecOn with
  | ind n ih =>
    intro w c hc hw hi
    by_cases hall : ∀ u ∈ mem c, Posted prog pc c u
    · exact ⟨_, Step.wait pc w c hw hi (Or.inl hall)⟩
    · push Not at hall
      obtain ⟨u, hu, hnp⟩ := hall
      obtain ⟨huW, hup⟩ := h.posted w hw c (List.mem_of_getElem? hi) u hu
      obtain ⟨j, hj, hje⟩ := List.getElem_of_mem hup
      have hle : pc u ≤ j := by
        by_contra hlt
        apply hnp
        unfold Posted
        rw [← hje]
        have : j < ((prog u).take (pc u)).length := by simp; omega
        have h2 := List.getElem_mem this
        rwa [List.getElem_take] at h2
      have hlt : pc u < (prog u).length := by omega
      cases hin : (prog u)[pc u] with
      | post d =>
        exact ⟨_, Step.post pc u d huW (by rw [List.getElem?_eq_getElem hlt, hin])⟩
      | wait d =>
        have hne : pc u ≠ j := by
          intro he
          subst he
          rw [hin] at hje
          cases hje
        have hr := List.pairwise_iff_getElem.1 (h.ranked u huW) (pc u) j hlt hj (by omega)
          d c hin hje
        exact ih (ρ d) (by omega) u d rfl huW (by rw [List.getElem?_eq_getElem hlt, hin])

/-- Deadlock freedom, from every state (so also from those reached through early completions). -/
theorem no_deadlock (h : Ordered W prog mem ρ) (pc : Nat → Nat) (w : Nat) (hw : w ∈ W)
    (hlt : pc w < (prog w).length) : ∃ pc', Step W prog mem early pc pc' := by
  cases hin : (prog w)[pc w] with
  | post d => exact ⟨_, Step.post pc w d hw (by rw [List.getElem?_eq_getElem hlt, hin])⟩
  | wait d => exact progress_wait h pc _ w d rfl hw (by rw [List.getElem?_eq_getElem hlt, hin])

theorem sum_advance (hnd : W.Nodup) {w : Nat} (hw : w ∈ W) (pc : Nat → Nat) :
    (W.map (advance pc w)).sum = (W.map pc).sum + 1 := by
  induction W with
  | nil => simp at hw
  | cons x xs ih =>
    rw [List.nodup_cons] at hnd
    simp only [List.map_cons, List.sum_cons]
    by_cases hx : x = w
    · subst hx
      have : xs.map (advance pc x) = xs.map pc := by
        apply List.map_congr_left
        intro v hv
        have : v ≠ x := fun e => hnd.1 (e ▸ hv)
        simp [advance, this]
      rw [this]
      simp [advance]
      omega
    · have hw' : w ∈ xs := by
        rcases List.mem_cons.1 hw with h | h
        · exact absurd h.symm hx
        · exact h
      rw [ih hnd.2 hw']
      simp [advance, hx]
      omega

theorem step_inv {pc pc' : Nat → Nat} (hs : Step W prog mem early pc pc') :
    ∃ w ∈ W, pc w < (prog w).length ∧ pc' = advance pc w := by
  cases hs with
  | post w c hw hi => exact ⟨w, hw, (List.getElem?_eq_some_iff.1 hi).1, rfl⟩
  | wait w c hw hi _ => exact ⟨w, hw, (List.getElem?_eq_some_iff.1 hi).1, rfl⟩

theorem exec_le {n : Nat} {pc pc' : Nat → Nat} (he : Exec W prog mem early n pc pc')
    (h0 : ∀ w ∈ W, pc w ≤ (prog w).length) : ∀ w ∈ W, pc' w ≤ (prog w).length := by
  induction he with
  | refl => exact h0
  | step _ hs ih =>
    obtain ⟨w, hw, hlt, rfl⟩ := step_inv hs
    intro v hv
    unfold advance
    split
    · rename_i e; subst e; omega
    · exact ih h0 v hv

theorem exec_sum (hnd : W.Nodup) {n : Nat} {pc pc' : Nat → Nat}
    (he : Exec W prog mem early n pc pc') : (W.map pc').sum = (W.map pc).sum + n := by
  induction he with
  | refl => rfl
  | step _ hs ih =>
    obtain ⟨w, hw, _, rfl⟩ := step_inv hs
    rw [sum_advance hnd hw, ih]
    omega

theorem sum_le_sum (W : List Nat) (f g : Nat → Nat) (h : ∀ w ∈ W, f w ≤ g w) :
    (W.map f).sum ≤ (W.map g).sum := by
  induction W with
  | nil => simp
  | cons x xs ih =>
    simp only [List.map_cons, List.sum_cons]
    have := h x (by simp)
    have := ih fun w hw => h w (by simp [hw])
    omega

/-- Every execution from the start is bounded by the total program length. -/
theorem exec_bounded (hnd : W.Nodup) {n : Nat} {pc : Nat → Nat}
    (he : Exec W prog mem early n (fun _ => 0) pc) :
    n ≤ (W.map fun w => (prog w).length).sum := by
  have h1 := exec_sum hnd he
  have h2 := sum_le_sum W pc (fun w => (prog w).length) (exec_le he fun w _ => Nat.zero_le _)
  have h3 : (W.map fun _ => 0).sum = 0 := by simp
  omega

theorem exec_trans {n m : Nat} {a b c : Nat → Nat} (h1 : Exec W prog mem early n a b)
    (h2 : Exec W prog mem early m b c) : Exec W prog mem early (n + m) a c := by
  induction h2 with
  | refl => exact h1
  | step _ hs ih => exact Exec.step (ih h1) hs

/-- Every execution can be continued until all programs have finished. -/
theorem completes (h : Ordered W prog mem ρ) (hnd : W.Nodup) {n : Nat} {pc : Nat → Nat}
    (he : Exec W prog mem early n (fun _ => 0) pc) :
    ∃ m pc', Exec W prog mem early m pc pc' ∧ Finished W prog pc' := by
  generalize hk : (W.map fun w => (prog w).length).sum - n = k
  induction k generalizing n pc with
  | zero =>
    by_cases hf : Finished W prog pc
    · exact ⟨0, pc, Exec.refl pc, hf⟩
    · exfalso
      unfold Finished at hf
      push Not at hf
      obtain ⟨w, hw, hne⟩ := hf
      have := exec_le he (fun w _ => Nat.zero_le _) w hw
      obtain ⟨pc', hs⟩ := no_deadlock (early := early) h pc w hw (by omega)
      have := exec_bounded hnd (Exec.step he hs)
      omega
  | succ k ih =>
    by_cases hf : Finished W prog pc
    · exact ⟨0, pc, Exec.refl pc, hf⟩
    · unfold Finished at hf
      push Not at hf
      obtain ⟨w, hw, hne⟩ := hf
      have := exec_le he (fun w _ => Nat.zero_le _) w hw
      obtain ⟨pc', hs⟩ := no_deadlock (early := early) h pc w hw (by omega)
      obtain ⟨m, pc'', h1, h2⟩ := ih (Exec.step he hs) (by omega)
      exact ⟨1 + m, pc'', exec_trans (Exec.step (Exec.refl pc) hs) h1, h2⟩

end

end Verif.Coll
