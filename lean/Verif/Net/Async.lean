import Verif.Net.Lemmas

/-!
# Networks: results of all executions

Consequences of the invariant for programs whose phases are in order (`ProgOK`), under any interleaving of the workers
and however early the library completes requests.
-/

namespace Verif.Net

variable {σ μ : Type} {W : List Nat} {prog : Prog σ μ} {S : Nat → σ} {early : GState σ μ → Nat → Nat → Prop}
  {n : Nat} {g : GState σ μ}

/-- A worker that has finished has the data of the synchronous run. -/
theorem result (h : ProgOK W prog S) (he : Exec W prog early n (GState.init S) g) {w : Nat} (hw : w ∈ W)
    (hp : (g.ws w).phase = prog.length) : (g.ws w).st = run prog S w := by
  have hI := exec_inv h (inv_init W prog S) he w hw
  rw [(hI.noloop (hI.final hp).1).2, hI.base, hp, ref, List.take_length]

/-- As long as some worker has not finished, some worker can go on. -/
theorem no_deadlock (h : ProgOK W prog S) (he : Exec W prog early n (GState.init S) g)
    (hw : ∃ w ∈ W, (g.ws w).phase < prog.length) : ∃ g', Step W prog early g g' :=
  progress h (exec_inv h (inv_init W prog S) he) hw

/-- The number of steps of an execution is bounded. -/
theorem bounded (h : ProgOK W prog S) (hnd : W.Nodup) (he : Exec W prog early n (GState.init S) g) :
    n ≤ (W.map fun w => ((List.range prog.length).map (cost prog S w)).sum).sum := by
  have h1 := exec_taken h hnd (inv_init W prog S) he
  have h0 : (W.map fun w => taken prog S w ((GState.init S : GState σ μ).ws w)).sum = 0 := by
    rw [show (fun w => taken prog S w ((GState.init S : GState σ μ).ws w)) = fun _ => 0 from by
      funext w; simp [taken, GState.init]]
    simp
  have h2 := sum_le_sum (W := W) fun w hw => taken_le (exec_inv h (inv_init W prog S) he) hw
  omega

/-- Every execution can be continued until all workers have finished. -/
theorem completes (h : ProgOK W prog S) (hnd : W.Nodup) (he : Exec W prog early n (GState.init S) g) :
    ∃ n' g', n ≤ n' ∧ Exec W prog early n' (GState.init S) g' ∧ ∀ w ∈ W, (g'.ws w).phase = prog.length := by
  generalize hB : (W.map fun w => ((List.range prog.length).map (cost prog S w)).sum).sum = B
  have key : ∀ (d n : Nat) (g : GState σ μ), B - n ≤ d → Exec W prog early n (GState.init S) g →
      ∃ n' g', n ≤ n' ∧ Exec W prog early n' (GState.init S) g' ∧ ∀ w ∈ W, (g'.ws w).phase = prog.length := by
    intro d
    induction d with
    | zero =>
      intro n g hd he
      by_cases hw : ∃ w ∈ W, (g.ws w).phase < prog.length
      · obtain ⟨g', hs⟩ := no_deadlock h he hw
        have := bounded h hnd (he.tail hs)
        omega
      · refine ⟨n, g, Nat.le_refl _, he, fun w hw' => ?_⟩
        have := (exec_inv h (inv_init W prog S) he w hw').phase_le
        by_contra hne
        exact hw ⟨w, hw', by omega⟩
    | succ d ih =>
      intro n g hd he
      by_cases hw : ∃ w ∈ W, (g.ws w).phase < prog.length
      · obtain ⟨g', hs⟩ := no_deadlock h he hw
        obtain ⟨n', g'', hn, h1, h2⟩ := ih (n + 1) g' (by omega) (he.tail hs)
        exact ⟨n', g'', by omega, h1, h2⟩
      · refine ⟨n, g, Nat.le_refl _, he, fun w hw' => ?_⟩
        have := (exec_inv h (inv_init W prog S) he w hw').phase_le
        by_contra hne
        exact hw ⟨w, hw', by omega⟩
  exact key _ n g (Nat.le_refl _) he

/-! ## Programs put together -/

/-- From data satisfying `A` the program is in order and leads to data satisfying `B`. -/
def Realises (W : List Nat) (prog : Prog σ μ) (A B : (Nat → σ) → Prop) : Prop :=
  ∀ S, A S → ProgOK W prog S ∧ B (run prog S)

theorem Realises.seq {a b : Prog σ μ} {A B C : (Nat → σ) → Prop} (h1 : Realises W a A B) (h2 : Realises W b B C) :
    Realises W (a ++ b) A C := by
  intro S hA
  obtain ⟨o1, hB⟩ := h1 S hA
  obtain ⟨o2, hC⟩ := h2 _ hB
  exact ⟨progOK_append.2 ⟨o1, o2⟩, by rw [run_append]; exact hC⟩

theorem Realises.nil (A : (Nat → σ) → Prop) : Realises W ([] : Prog σ μ) A A := fun _ hA => ⟨trivial, hA⟩

theorem Realises.mono {A A' B B' : (Nat → σ) → Prop} (h : Realises W prog A B) (hA : ∀ S, A' S → A S)
    (hB : ∀ S, B S → B' S) : Realises W prog A' B' := fun S hS => ⟨(h S (hA S hS)).1, hB _ (h S (hA S hS)).2⟩

theorem Realises.single {ph : Nat → σ → Phase σ μ} {A B : (Nat → σ) → Prop}
    (h : ∀ S, A S → PhaseOK W ph S ∧ B (sync ph S)) : Realises W [ph] A B :=
  fun S hA => ⟨⟨(h S hA).1, trivial⟩, (h S hA).2⟩

/-! ## Kinds of phases -/

/-- Local work only, on the workers chosen by `act`. -/
def localPhase (f : Nat → σ → σ) : Nat → σ → Phase σ μ := fun w _ => ⟨[], f w, none⟩

theorem localPhase_ok (f : Nat → σ → σ) : PhaseOK W (localPhase f : Nat → σ → Phase σ μ) S := by
  constructor <;> intro w _ <;> simp [localPhase]

theorem localPhase_sync (f : Nat → σ → σ) : sync (localPhase f : Nat → σ → Phase σ μ) S = fun w => f w (S w) := rfl

/-- At most one collective per worker: the workers chosen by `act`, in groups `g w`. -/
def collPhase (c : Nat) (act : Nat → Bool) (grp : Nat → List Nat) (put : Nat → σ → μ) (deps : Nat → List Nat)
    (get : Nat → List μ → σ → σ) : Nat → σ → Phase σ μ := fun w x =>
  if act w then ⟨[⟨.coll c (grp w), put w x, deps w, get w⟩], id, none⟩ else ⟨[], id, none⟩

section
variable {c : Nat} {act : Nat → Bool} {grp : Nat → List Nat} {put : Nat → σ → μ} {deps : Nat → List Nat}
  {get : Nat → List μ → σ → σ}

/-- The groups are the same for all of their members. -/
structure Grouped (W : List Nat) (act : Nat → Bool) (grp deps : Nat → List Nat) : Prop where
  own : ∀ w ∈ W, act w = true → w ∈ grp w
  all : ∀ w ∈ W, act w = true → ∀ u ∈ grp w, u ∈ W ∧ act u = true ∧ grp u = grp w
  deps : ∀ w ∈ W, act w = true → ∀ u ∈ deps w, u ∈ grp w

theorem collPhase_ok (h : Grouped W act grp deps) : PhaseOK W (collPhase c act grp put deps get) S := by
  constructor
  all_goals
    intro w hw
    by_cases ha : act w = true
    swap
    · simp [collPhase, ha]
  · simp [collPhase, ha]
  · simp only [collPhase, ha, if_true, List.mem_singleton]
    rintro r rfl
    exact h.own w hw ha
  · simp only [collPhase, ha, if_true, List.mem_singleton]
    rintro r rfl u hu
    obtain ⟨h1, h2, h3⟩ := h.all w hw ha u hu
    refine ⟨h1, ⟨.coll c (grp u), put u (S u), deps u, get u⟩, by simp [h2], by simp [h3]⟩
  · simp only [collPhase, ha, if_true, List.mem_singleton]
    rintro r rfl u hu
    exact h.deps w hw ha u hu
  · simp [collPhase, ha]
  · simp [collPhase, ha]

theorem collPhase_sync (h : Grouped W act grp deps) {w : Nat} (hw : w ∈ W) :
    sync (collPhase c act grp put deps get) S w =
      if act w then get w ((deps w).map fun u => put u (S u)) (S w) else S w := by
  by_cases ha : act w = true
  · rw [if_pos ha, sync]
    simp only [collPhase, ha, if_true, List.foldl_cons, List.foldl_nil, id]
    refine congrArg (fun m => get w m (S w)) ?_
    rw [← List.filterMap_eq_map]
    refine List.filterMap_congr fun u hu => ?_
    obtain ⟨-, h2, h3⟩ := h.all w hw ha u (h.deps w hw ha u hu)
    simp [contribution, collPhase, h2, h3]
  · simp [sync, collPhase, ha]

end

end Verif.Net
