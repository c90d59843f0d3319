import Verif.Exchange.Lemmas

/-!
# The asynchronous exchange computes the lockstep result, never deadlocks and terminates

For arbitrary matched programs; instantiated for repartition and halo exchange.
-/

namespace Verif.Exchange

variable {σ μ : Type} {prog : Nat → Nat → Phase σ μ} {n N : Nat} {eager : Bool} {st0 : Nat → σ}

/-- In every execution, whatever the interleaving and the order of completions, a worker that is at
the beginning of phase `p` (in particular: has finished, `p = N`) holds the reference result. -/
theorem async_eq_lockstep (hM : Matched prog n N) (hc : Commutes prog n N) {k : Nat}
    {g : GState σ μ} (h : Exec prog n N eager k (GState.init st0) g) {w : Nat} (hw : w < n)
    (hl : (g.ws w).inLoop = false) : (g.ws w).st = lock prog st0 (g.ws w).phase w :=
  (inv_exec hM hc (inv_init prog n N st0) h w hw).st_out hl

/-- As above for a finished worker. -/
theorem async_final (hM : Matched prog n N) (hc : Commutes prog n N) {k : Nat}
    {g : GState σ μ} (h : Exec prog n N eager k (GState.init st0) g) {w : Nat} (hw : w < n)
    (hN : (g.ws w).phase = N) : (g.ws w).st = lock prog st0 N w := by
  have hI := inv_exec hM hc (inv_init prog n N st0) h w hw
  rw [hI.st_out (hI.final hN).2, hN]

/-- No deadlock: as long as some worker has not finished, some worker can take a step, even if no
send ever completes before its receive is posted. -/
theorem no_deadlock (hM : Matched prog n N) (hc : Commutes prog n N) {k : Nat}
    {g : GState σ μ} (h : Exec prog n N eager k (GState.init st0) g)
    (hw : ∃ w, w < n ∧ (g.ws w).phase < N) : ∃ g', Step prog n N eager g g' :=
  progress hM (inv_exec hM hc (inv_init prog n N st0) h) hw

/-- Every execution is finite: its length is bounded by the total number of requests. -/
theorem bounded (hM : Matched prog n N) (hc : Commutes prog n N) {k : Nat}
    {g : GState σ μ} (h : Exec prog n N eager k (GState.init st0) g) :
    k ≤ ((List.range n).map fun w =>
      ((List.range N).map fun p => 2 * (prog p w).total + 2).sum).sum := by
  have hI := inv_exec hM hc (inv_init prog n N st0) h
  have h1 := exec_taken hM hc (inv_init prog n N st0) h
  have h0 : takenAll prog n (GState.init st0) = 0 := by
    have hz : ∀ m, ((List.range m).map fun w => taken prog w
        ((GState.init st0 : GState σ μ).ws w)).sum = 0 := by
      intro m
      induction m with
      | zero => rfl
      | succ m ih =>
        rw [List.range_succ, List.map_append, List.sum_append, ih]
        simp [taken, GState.init]
    exact hz n
  have h2 : takenAll prog n g ≤ _ := sum_le_sum' (f' := fun w =>
    ((List.range N).map (cost prog w)).sum) fun w hw => taken_le hI hw
  have h3 : (fun w => ((List.range N).map (cost prog w)).sum) = fun w =>
      ((List.range N).map fun p => 2 * (prog p w).total + 2).sum := rfl
  rw [h3] at h2
  omega

/-- When a worker leaves a phase, all its send and receive requests of that phase are complete. -/
theorem requests_complete (hM : Matched prog n N) (hc : Commutes prog n N) {k : Nat}
    {g g' : GState σ μ} (h : Exec prog n N eager k (GState.init st0) g)
    (hs : Step prog n N eager g g') {w : Nat} (hw : w < n)
    (hleave : (g'.ws w).phase ≠ (g.ws w).phase) :
    ∀ i, (prog (g.ws w).phase w).Active i → i ∈ (g.ws w).done := by
  have hI := inv_exec hM hc (inv_init prog n N st0) h
  have key : ∀ v, (∀ u, u ≠ v → g'.ws u = g.ws u) → (g'.ws v).phase = (g.ws v).phase → False := by
    intro v h1 h2
    by_cases hwv : w = v
    · subst hwv; exact hleave h2
    · exact hleave (by rw [h1 w hwv])
  cases hs with
  | postNull v hv hp hl hs => exact (key v (fun u hu => setW_ne g _ hu) (by rw [setW_self])).elim
  | postRecv v s hv hp hl hs =>
    exact (key v (fun u hu => setW_ne g _ hu) (by
      show ((g.setW v _).ws v).phase = _
      rw [setW_self])).elim
  | postSend v d hv hp hl hr hs =>
    exact (key v (fun u hu => setW_ne g _ hu) (by
      show ((g.setW v _).ws v).phase = _
      rw [setW_self])).elim
  | enter v hv hp hl hpost => exact (key v (fun u hu => setW_ne g _ hu) (by rw [setW_self])).elim
  | waitRecv v i s m hv hp hl hit hnd hs hm =>
    exact (key v (fun u hu => setW_ne g _ hu) (by rw [setW_self])).elim
  | waitSend v i d hv hp hl hit hnd hr hs hm =>
    exact (key v (fun u hu => setW_ne g _ hu) (by rw [setW_self])).elim
  | waitNull v hv hp hl hit hall =>
    exact (key v (fun u hu => setW_ne g _ hu) (by rw [setW_self])).elim
  | next v hv hp hl hit =>
    by_cases hwv : w = v
    · subst hwv
      exact (hI w hw).all_done hit
    · exact absurd (by rw [setW_ne g _ hwv]) hleave

/-- Every execution can be continued until all workers have finished (and by `bounded` every way of
continuing it gets there). -/
theorem completes (hM : Matched prog n N) (hc : Commutes prog n N) {k : Nat}
    {g : GState σ μ} (h : Exec prog n N eager k (GState.init st0) g) :
    ∃ k' g', Exec prog n N eager k' (GState.init st0) g' ∧ k ≤ k' ∧
      ∀ w, w < n → (g'.ws w).phase = N := by
  generalize hb : ((List.range n).map fun w =>
      ((List.range N).map fun p => 2 * (prog p w).total + 2).sum).sum = B
  have key : ∀ (d k : Nat) (g : GState σ μ), B - k ≤ d → Exec prog n N eager k (GState.init st0) g →
      ∃ k' g', Exec prog n N eager k' (GState.init st0) g' ∧ k ≤ k' ∧
        ∀ w, w < n → (g'.ws w).phase = N := by
    intro d
    induction d with
    | zero =>
      intro k g hd h
      by_cases hw : ∃ w, w < n ∧ (g.ws w).phase < N
      · obtain ⟨g', hg'⟩ := no_deadlock hM hc h hw
        have := bounded hM hc (Exec.tail h hg')
        omega
      · refine ⟨k, g, h, Nat.le_refl _, fun w hwn => ?_⟩
        have := (inv_exec hM hc (inv_init prog n N st0) h w hwn).phase_le
        by_contra hne
        exact hw ⟨w, hwn, by omega⟩
    | succ d ih =>
      intro k g hd h
      by_cases hw : ∃ w, w < n ∧ (g.ws w).phase < N
      · obtain ⟨g', hg'⟩ := no_deadlock hM hc h hw
        obtain ⟨k', g'', h1, h2, h3⟩ := ih (k + 1) g' (by omega) (Exec.tail h hg')
        exact ⟨k', g'', h1, by omega, h3⟩
      · refine ⟨k, g, h, Nat.le_refl _, fun w hwn => ?_⟩
        have := (inv_exec hM hc (inv_init prog n N st0) h w hwn).phase_le
        by_contra hne
        exact hw ⟨w, hwn, by omega⟩
  exact key _ k g (Nat.le_refl _) h

end Verif.Exchange
