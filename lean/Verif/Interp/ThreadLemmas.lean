import Verif.Interp.Threads
import Mathlib.Algebra.BigOperators.Group.Finset.Basic
import Mathlib.Algebra.Order.BigOperators.Group.Finset
import Mathlib.Tactic.Linarith

/-!
# Threads writing to different positions
-/

namespace Verif

section
variable {F : Type} [Add F]

theorem runOps_append (a b : List (MemOp F)) (m : Nat → F) : runOps (a ++ b) m = runOps b (runOps a m) :=
  List.foldl_append

theorem runOps_outside {ops : List (MemOp F)} {m : Nat → F} {k : Nat} (h : ∀ o ∈ ops, o.addr ≠ k) :
    runOps ops m k = m k := by
  induction ops generalizing m with
  | nil => rfl
  | cons o ops ih =>
    have h1 := h o (List.mem_cons_self ..)
    have h2 := fun o' ho' => h o' (List.mem_cons_of_mem _ ho')
    cases o with
    | store a v =>
      change runOps ops (Function.update m a v) k = _
      rw [ih h2]
      exact Function.update_of_ne (Ne.symm h1) _ _
    | add a v =>
      change runOps ops (Function.update m a (m a + v)) k = _
      rw [ih h2]
      exact Function.update_of_ne (Ne.symm h1) _ _

theorem runOps_congr {B : Nat → Prop} {ops : List (MemOp F)} {m m' : Nat → F} (h : ∀ o ∈ ops, B o.addr)
    (hm : ∀ k, B k → m k = m' k) : ∀ k, B k → runOps ops m k = runOps ops m' k := by
  induction ops generalizing m m' with
  | nil => exact hm
  | cons o ops ih =>
    have h1 := h o (List.mem_cons_self ..)
    have h2 := fun o' ho' => h o' (List.mem_cons_of_mem _ ho')
    cases o with
    | store a v =>
      refine ih h2 fun k hk => ?_
      by_cases e : k = a
      · subst e; simp
      · simp [Function.update_of_ne e, hm k hk]
    | add a v =>
      refine ih h2 fun k hk => ?_
      by_cases e : k = a
      · subst e; simp [hm k hk]
      · simp [Function.update_of_ne e, hm k hk]

/-- The rest of a thread, run without interruption. -/
def Thread.finish : Thread F → (Nat → F) → Nat → F
  | ⟨.add k v :: r, some a⟩, m => runOps r (Function.update m k (a + v))
  | ⟨ops, _⟩, m => runOps ops m

theorem finish_congr {B : Nat → Prop} {θ : Thread F} {m m' : Nat → F} (h : ∀ o ∈ θ.ops, B o.addr)
    (hm : ∀ k, B k → m k = m' k) : ∀ k, B k → θ.finish m k = θ.finish m' k := by
  have go : ∀ ops : List (MemOp F), (∀ o ∈ ops, B o.addr) → ∀ k, B k → runOps ops m k = runOps ops m' k :=
    fun ops ho => runOps_congr ho hm
  obtain ⟨ops, reg⟩ := θ
  match ops, reg with
  | [], _ => exact go [] h
  | .store k v :: r, _ => exact go _ h
  | .add k v :: r, none => exact go _ h
  | .add a v :: r, some b =>
    refine runOps_congr (fun o ho => h o (List.mem_cons_of_mem _ ho)) fun k hk => ?_
    by_cases e : k = a
    · subst e; simp
    · simp [Function.update_of_ne e, hm k hk]

/-- The operations a thread has left. -/
def Thread.work (θ : Thread F) : Nat := 2 * θ.ops.length - if θ.reg.isSome then 1 else 0

/-- What holds in every state reached from memory `m₀` and programs `progs` of `N` threads, thread `t`
keeping to the positions `A t`. -/
structure ThreadInv (N : Nat) (progs : Nat → List (MemOp F)) (A : Nat → Nat → Prop) (m₀ : Nat → F) (steps : Nat)
    (s : Threads F) : Prop where
  idle : ∀ t, N ≤ t → (s.th t).ops = []
  addr : ∀ t, ∀ o ∈ (s.th t).ops, A t o.addr
  rest : ∀ t k, A t k → (s.th t).finish s.mem k = runOps (progs t) m₀ k
  outside : ∀ k, (∀ t, ¬ A t k) → s.mem k = m₀ k
  steps : steps + ∑ t ∈ Finset.range N, (s.th t).work ≤ ∑ t ∈ Finset.range N, 2 * (progs t).length

variable {N : Nat} {progs : Nat → List (MemOp F)} {A : Nat → Nat → Prop} {m₀ : Nat → F} {n : Nat}

/-- A step that replaces thread `t` and changes memory in `A t` only. -/
theorem ThreadInv.replace {s : Threads F} (h : ThreadInv N progs A m₀ n s)
    (hd : ∀ t u k, A t k → A u k → t = u) {t : Nat} (θ : Thread F) (m : Nat → F) (ht : t < N)
    (ha : ∀ o ∈ θ.ops, A t o.addr) (hm : ∀ k, ¬ A t k → m k = s.mem k)
    (hf : θ.finish m = (s.th t).finish s.mem) (hw : θ.work < (s.th t).work) :
    ThreadInv N progs A m₀ (n + 1) ⟨m, Function.update s.th t θ⟩ := by
  refine ⟨fun u hu => ?_, fun u => ?_, fun u k hk => ?_, fun k hk => ?_, ?_⟩
  · simp only [Function.update_of_ne (show u ≠ t by omega)]
    exact h.idle u hu
  · by_cases e : u = t
    · subst e; simpa using ha
    · simp only [Function.update_of_ne e]; exact h.addr u
  · by_cases e : u = t
    · subst e
      simp only [Function.update_self, hf]
      exact h.rest u k hk
    · simp only [Function.update_of_ne e]
      rw [← h.rest u k hk]
      exact finish_congr (h.addr u) (fun k hk => hm k fun hh => e (hd u t k hk hh)) k hk
  · simp only
    rw [hm k (hk t), h.outside k hk]
  · have hlt : ∑ u ∈ Finset.range N, ((Function.update s.th t θ) u).work <
        ∑ u ∈ Finset.range N, (s.th u).work := by
      refine Finset.sum_lt_sum (fun u _ => ?_) ⟨t, Finset.mem_range.2 ht, by simpa using hw⟩
      by_cases e : u = t
      · subst e; simpa using Nat.le_of_lt hw
      · simp [Function.update_of_ne e]
    have := h.steps
    simp only
    omega

theorem ThreadInv.step {s s' : Threads F} (h : ThreadInv N progs A m₀ n s)
    (hd : ∀ t u k, A t k → A u k → t = u) {t : Nat} (e : s.step t = some s') :
    ThreadInv N progs A m₀ (n + 1) s' := by
  have ha := h.addr t
  have hid := h.idle t
  have key := fun θ m ht ha' hm hf hw => h.replace hd (t := t) θ m ht ha' hm hf hw
  unfold Threads.step at e
  generalize hθ : s.th t = τ at *
  obtain ⟨ops, reg⟩ := τ
  have ht : ops ≠ [] → t < N := fun hne => by
    by_contra hc
    exact hne (hid (by omega))
  match ops, reg with
  | [], _ => simp at e
  | .store k v :: r, reg =>
    obtain rfl := Option.some.inj e
    have hk := ha _ (List.mem_cons_self ..)
    refine key _ _ (ht (by simp)) (fun o ho => ha o (List.mem_cons_of_mem _ ho)) (fun k' hk' => ?_) ?_ ?_
    · exact Function.update_of_ne (by rintro rfl; exact hk' hk) _ _
    · cases r with
      | nil => rfl
      | cons o r => cases o <;> rfl
    · cases reg <;> simp [Thread.work]; omega
  | .add k v :: r, none =>
    obtain rfl := Option.some.inj e
    exact key _ _ (ht (by simp)) ha (fun _ _ => rfl) rfl (by simp [Thread.work])
  | .add k v :: r, some a =>
    obtain rfl := Option.some.inj e
    have hk := ha _ (List.mem_cons_self ..)
    refine key _ _ (ht (by simp)) (fun o ho => ha o (List.mem_cons_of_mem _ ho)) (fun k' hk' => ?_) ?_ ?_
    · exact Function.update_of_ne (by rintro rfl; exact hk' hk) _ _
    · cases r with
      | nil => rfl
      | cons o r => cases o <;> rfl
    · simp [Thread.work]; omega

theorem ThreadInv.run {s s' : Threads F} (h : ThreadInv N progs A m₀ n s)
    (hd : ∀ t u k, A t k → A u k → t = u) {sched : List Nat} (e : s.run sched = some s') :
    ThreadInv N progs A m₀ (n + sched.length) s' := by
  induction sched generalizing s n with
  | nil =>
    obtain rfl := Option.some.inj e
    exact h
  | cons t ts ih =>
    obtain ⟨s1, h1, h2⟩ := Option.bind_eq_some_iff.1 e
    have := ih (h.step hd h1) h2
    rw [List.length_cons, show n + (ts.length + 1) = n + 1 + ts.length by omega]
    exact this

omit [Add F] in
theorem next_addr {s : Threads F} {t a : Nat} {b : Bool} (e : s.next t = some (a, b)) :
    ∃ o ∈ (s.th t).ops, o.addr = a := by
  unfold Threads.next at e
  generalize s.th t = τ at *
  obtain ⟨ops, reg⟩ := τ
  match ops, reg with
  | [], _ => simp at e
  | .store k v :: r, _ => exact ⟨_, List.mem_cons_self .., congrArg Prod.fst (Option.some.inj e)⟩
  | .add k v :: r, none => exact ⟨_, List.mem_cons_self .., congrArg Prod.fst (Option.some.inj e)⟩
  | .add k v :: r, some _ => exact ⟨_, List.mem_cons_self .., congrArg Prod.fst (Option.some.inj e)⟩

theorem step_none {s : Threads F} {t : Nat} (e : s.step t = none) : (s.th t).ops = [] := by
  unfold Threads.step at e
  generalize s.th t = τ at *
  obtain ⟨ops, reg⟩ := τ
  match ops, reg with
  | [], _ => rfl
  | .store k v :: r, _ => simp at e
  | .add k v :: r, none => simp at e
  | .add k v :: r, some _ => simp at e

/-- Threads that keep to different positions: no schedule leads to a race, all have bounded length, and when no
thread can go on the memory is that of the sequential program. -/
theorem threads_separate (hp : ∀ t, ∀ o ∈ progs t, A t o.addr) (hN : ∀ t, N ≤ t → progs t = [])
    (hd : ∀ t u k, A t k → A u k → t = u) {sched : List Nat} {s : Threads F}
    (e : Threads.run sched ⟨m₀, fun t => ⟨progs t, none⟩⟩ = some s) :
    ¬ s.Race ∧ sched.length ≤ ∑ t ∈ Finset.range N, 2 * (progs t).length ∧
    ((∀ t, s.step t = none) → s.mem = runOps ((List.range N).flatMap progs) m₀) := by
  have h0 : ThreadInv N progs A m₀ 0 ⟨m₀, fun t => ⟨progs t, none⟩⟩ := by
    refine ⟨hN, hp, fun t k _ => ?_, fun _ _ => rfl, by simp [Thread.work]⟩
    show Thread.finish ⟨progs t, none⟩ m₀ k = _
    generalize progs t = ops
    cases ops with
    | nil => rfl
    | cons o r => cases o <;> rfl
  have h := h0.run hd e
  refine ⟨?_, ?_, fun hs => ?_⟩
  · rintro ⟨t, u, a, b, c, hne, h1, h2, -⟩
    obtain ⟨o, ho, e1⟩ := next_addr h1
    obtain ⟨o', ho', e2⟩ := next_addr h2
    exact hne (hd t u a (e1 ▸ h.addr t o ho) (e2 ▸ h.addr u o' ho'))
  · have := h.steps
    omega
  · have hfin : ∀ t, (s.th t).finish s.mem = s.mem := by
      intro t
      have := step_none (hs t)
      generalize s.th t = τ at *
      obtain ⟨ops, reg⟩ := τ
      obtain rfl : ops = [] := this
      cases reg <;> rfl
    -- the sequential program, chunk after chunk
    have seq : ∀ M, ∀ k, (∀ t, A t k → runOps ((List.range M).flatMap progs) m₀ k =
        if t < M then runOps (progs t) m₀ k else m₀ k) ∧
        ((∀ t, ¬ A t k) → runOps ((List.range M).flatMap progs) m₀ k = m₀ k) := by
      intro M
      induction M with
      | zero => intro k; exact ⟨fun t _ => rfl, fun _ => rfl⟩
      | succ M ih =>
        intro k
        rw [List.range_succ, List.flatMap_append, runOps_append, List.flatMap_singleton]
        refine ⟨fun t ht => ?_, fun hk => ?_⟩
        · by_cases e : t = M
          · subst e
            rw [if_pos (Nat.lt_succ_self t)]
            refine runOps_congr (hp t) (fun k' hk' => ?_) k ht
            rw [(ih k').1 t hk', if_neg (Nat.lt_irrefl t)]
          · rw [runOps_outside (fun o ho => ?_), (ih k).1 t ht]
            · by_cases hlt : t < M
              · rw [if_pos hlt, if_pos (by omega)]
              · rw [if_neg hlt, if_neg (by omega)]
            · rintro rfl
              exact e (hd t M _ ht (hp M o ho))
        · rw [runOps_outside (fun o ho => ?_), (ih k).2 hk]
          rintro rfl
          exact hk M (hp M o ho)
    funext k
    by_cases hk : ∃ t, A t k
    · obtain ⟨t, ht⟩ := hk
      rw [(seq N k).1 t ht, ← hfin t, h.rest t k ht]
      split
      · rfl
      · rename_i hlt
        rw [hN t (by omega)]
        rfl
    · have hk' : ∀ t, ¬ A t k := fun t ht => hk ⟨t, ht⟩
      rw [(seq N k).2 hk', h.outside k hk']

end

end Verif
