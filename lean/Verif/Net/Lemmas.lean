import Verif.Net.Machine
import Mathlib.Data.List.Nodup
import Mathlib.Data.List.Perm.Subperm
import Mathlib.Algebra.BigOperators.Group.List.Basic
import Mathlib.Data.Finset.Lattice.Fold
import Mathlib.Data.Finset.Max

/-! # Lemmas: invariant of the network machine -/

namespace Verif.Net

variable {σ μ : Type} {W : List Nat} {prog : Prog σ μ} {early : GState σ μ → Nat → Nat → Prop} {S : Nat → σ}

/-- Local data at the beginning of phase `p`. -/
def ref (prog : Prog σ μ) (S : Nat → σ) (p : Nat) : Nat → σ := run (prog.take p) S

theorem run_append (a b : Prog σ μ) (S : Nat → σ) : run (a ++ b) S = run b (run a S) := by
  induction a generalizing S with
  | nil => rfl
  | cons ph a ih => exact ih _

theorem progOK_append {a b : Prog σ μ} : ProgOK W (a ++ b) S ↔ ProgOK W a S ∧ ProgOK W b (run a S) := by
  induction a generalizing S with
  | nil => simp [ProgOK, run]
  | cons ph a ih => simp only [List.cons_append, ProgOK, run, ih, and_assoc]

theorem ref_succ {p : Nat} {ph : Nat → σ → Phase σ μ} (h : prog[p]? = some ph) :
    ref prog S (p + 1) = sync ph (ref prog S p) := by
  rw [ref, List.take_add_one, h, run_append]
  rfl

theorem progOK_at (h : ProgOK W prog S) {p : Nat} {ph : Nat → σ → Phase σ μ} (hp : prog[p]? = some ph) :
    PhaseOK W ph (ref prog S p) := by
  obtain ⟨hlt, he⟩ := List.getElem?_eq_some_iff.1 hp
  have : prog = prog.take p ++ (ph :: prog.drop (p + 1)) := by
    rw [← he, ← List.drop_eq_getElem_cons hlt, List.take_append_drop]
  rw [this, progOK_append] at h
  exact h.2.1

/-- What `w` contributes to channel `k` in phase `q`. -/
def contrib (prog : Prog σ μ) (S : Nat → σ) (q : Nat) (k : Key) (w : Nat) : Option μ :=
  match prog[q]? with
  | some ph => contribution ph (ref prog S q) k w
  | none => none

/-- What `w` contributes to channel `k` before phase `p`. -/
def hist (prog : Prog σ μ) (S : Nat → σ) (p : Nat) (k : Key) (w : Nat) : List μ :=
  (List.range p).filterMap fun q => contrib prog S q k w

theorem hist_succ (p : Nat) (k : Key) (w : Nat) :
    hist prog S (p + 1) k w = hist prog S p k w ++ (contrib prog S p k w).toList := by
  rw [hist, List.range_succ, List.filterMap_append]
  cases h : contrib prog S p k w <;> simp [h, hist]

theorem hist_prefix {p q : Nat} (h : p ≤ q) (k : Key) (w : Nat) :
    ∃ t, hist prog S q k w = hist prog S p k w ++ t := by
  induction h with
  | refl => exact ⟨[], by simp⟩
  | step h ih =>
    obtain ⟨t, ht⟩ := ih
    exact ⟨t ++ _, by rw [Nat.succ_eq_add_one, hist_succ, ht, List.append_assoc]⟩

theorem contribution_isSome {ph : Nat → σ → Phase σ μ} {S : Nat → σ} {k : Key} {u : Nat} :
    (contribution ph S k u).isSome ↔ ∃ r ∈ (ph u (S u)).reqs, r.key = k := by
  simp only [contribution, Option.isSome_map, List.find?_isSome, decide_eq_true_eq]

/-- All members of a channel use it in the same phases. -/
theorem contrib_members (h : ProgOK W prog S) {k : Key} {u v : Nat} (hu : u ∈ k.members) (hv : v ∈ k.members)
    (huW : u ∈ W) (q : Nat) :
    (contrib prog S q k u).isSome → v ∈ W ∧ (contrib prog S q k v).isSome := by
  unfold contrib
  cases hp : prog[q]? with
  | none => simp
  | some ph =>
    simp only
    rw [contribution_isSome, contribution_isSome]
    rintro ⟨r, hr, rfl⟩
    exact (progOK_at h hp).all u huW r hr v hv

theorem hist_length (h : ProgOK W prog S) {k : Key} {u v : Nat} (hu : u ∈ k.members) (hv : v ∈ k.members)
    (huW : u ∈ W) (hvW : v ∈ W) (p : Nat) : (hist prog S p k u).length = (hist prog S p k v).length := by
  induction p with
  | zero => rfl
  | succ p ih =>
    rw [hist_succ, hist_succ, List.length_append, List.length_append, ih]
    congr 1
    have h1 := contrib_members h hu hv huW p
    have h2 := contrib_members h hv hu hvW p
    cases e1 : contrib prog S p k u <;> cases e2 : contrib prog S p k v <;> simp_all

/-- Completing request `i` with the reference data. -/
def refGet (ph : Nat → σ → Phase σ μ) (S : Nat → σ) (w : Nat) (x : σ) (i : Nat) : σ :=
  match (ph w (S w)).reqs[i]? with
  | some r => r.get (r.deps.filterMap (contribution ph S r.key)) x
  | none => x

/-- Invariant of worker `w`: `x` its state, `log k` what it contributed to channel `k`. -/
structure InvW (prog : Prog σ μ) (S : Nat → σ) (w : Nat) (x : WState σ) (log : Key → List μ) : Prop where
  phase_le : x.phase ≤ prog.length
  base : x.base = ref prog S x.phase w
  final : x.phase = prog.length → x.inLoop = false ∧ x.posted = 0
  posted_le : ∀ ph, prog[x.phase]? = some ph → x.posted ≤ (ph w x.base).reqs.length
  noloop : x.inLoop = false → x.done = [] ∧ x.st = x.base
  loop : ∀ ph, prog[x.phase]? = some ph → x.inLoop = true → x.posted = (ph w x.base).reqs.length ∧
    x.st = x.done.reverse.foldl (refGet ph (ref prog S x.phase) w) ((ph w x.base).work x.base) ∧
    (∀ i ∈ x.done, i < (ph w x.base).reqs.length) ∧
    (∀ l, (ph w x.base).order = some l → x.done.reverse = l.take x.done.length)
  nodup : x.done.Nodup
  log_eq : ∀ k, log k = hist prog S x.phase k w ++
    (match prog[x.phase]? with
      | some ph => ((((ph w x.base).reqs.take x.posted).find? fun r => r.key = k).map Req.put).toList
      | none => [])
  seq_eq : ∀ ph, prog[x.phase]? = some ph → ∀ i r, i < x.posted → (ph w x.base).reqs[i]? = some r →
    x.seq i = (hist prog S x.phase r.key w).length

/-- Invariant of the whole. -/
def Inv (W : List Nat) (prog : Prog σ μ) (S : Nat → σ) (g : GState σ μ) : Prop :=
  ∀ w ∈ W, InvW prog S w (g.ws w) fun k => g.log k w

theorem inv_init (W : List Nat) (prog : Prog σ μ) (S : Nat → σ) : Inv W prog S (GState.init S) := by
  intro w _
  constructor <;> simp [GState.init, hist, ref, run]
  intro k
  cases prog[0]? <;> simp

theorem setW_self (g : GState σ μ) (w : Nat) (x : WState σ) : (g.setW w x).ws w = x := by simp [GState.setW]

theorem setW_ne (g : GState σ μ) {w v : Nat} (x : WState σ) (h : v ≠ w) : (g.setW w x).ws v = g.ws v := by
  simp [GState.setW, h]

theorem find_take {α : Type} {p : α → Bool} {l : List α} {n : Nat} {a : α} (h : (l.take n).find? p = some a) :
    l.find? p = some a := by
  conv_lhs => rw [← List.take_append_drop n l]
  rw [List.find?_append, h]
  rfl

/-- The tail of the log of a worker never goes beyond its current phase. -/
theorem InvW.log_length {w : Nat} {x : WState σ} {log : Key → List μ} (h : InvW prog S w x log) (k : Key) :
    (log k).length ≤ (hist prog S (x.phase + 1) k w).length := by
  rw [h.log_eq, hist_succ, List.length_append, List.length_append]
  refine Nat.add_le_add_left ?_ _
  unfold contrib
  cases hp : prog[x.phase]? with
  | none => simp
  | some ph =>
    simp only
    unfold contribution
    rw [← h.base]
    cases hf : ((ph w x.base).reqs.take x.posted).find? fun r => r.key = k with
    | none => simp
    | some r =>
      rw [find_take hf]

/-- What a worker has contributed to operation number `hist p` is what it contributes in phase `p`. -/
theorem InvW.log_at {w : Nat} {x : WState σ} {log : Key → List μ} (h : InvW prog S w x log) {k : Key} {p : Nat}
    (hc : (contrib prog S p k w).isSome) (hlt : (hist prog S p k w).length < (log k).length) :
    (log k)[(hist prog S p k w).length]? = contrib prog S p k w := by
  obtain ⟨m, hm⟩ := Option.isSome_iff_exists.1 hc
  rcases Nat.lt_trichotomy p x.phase with hp | hp | hp
  · obtain ⟨t, ht⟩ := hist_prefix (prog := prog) (S := S) (show p + 1 ≤ x.phase from hp) k w
    rw [h.log_eq, ht, hist_succ, hm]
    simp
  · have hl := h.log_eq k
    rw [← hp] at hl
    rw [hl] at hlt ⊢
    rw [List.length_append] at hlt
    rw [List.getElem?_append_right (Nat.le_refl _), Nat.sub_self]
    rw [hp] at hlt ⊢
    cases hpp : prog[x.phase]? with
    | none => rw [hpp] at hlt; simp at hlt
    | some ph =>
      rw [hpp] at hlt
      simp only at hlt ⊢
      cases hf : ((ph w x.base).reqs.take x.posted).find? fun r => r.key = k with
      | none => rw [hf] at hlt; simp at hlt
      | some r =>
        have := find_take hf
        simp only [Option.map_some, Option.toList_some, List.getElem?_cons_zero]
        unfold contrib
        rw [hpp]
        simp only
        unfold contribution
        rw [← h.base, this]
        rfl
  · exfalso
    have h1 := h.log_length k
    obtain ⟨t, ht⟩ := hist_prefix (prog := prog) (S := S) (show x.phase + 1 ≤ p from hp) k w
    rw [ht, List.length_append] at hlt
    omega

/-- The first worker to use an operation sees in it exactly what the members contribute in this phase. -/
theorem read_eq (h : ProgOK W prog S) {g : GState σ μ} (hI : Inv W prog S g) {w i : Nat} (hw : w ∈ W)
    {ph : Nat → σ → Phase σ μ} (hp : prog[(g.ws w).phase]? = some ph) {r : Req σ μ}
    (hr : (ph w (g.ws w).base).reqs[i]? = some r) (hi : i < (g.ws w).posted)
    (hd : ∀ u ∈ r.deps, (g.ws w).seq i < (g.log r.key u).length) :
    g.read r.key ((g.ws w).seq i) r.deps =
      r.deps.filterMap (contribution ph (ref prog S (g.ws w).phase) r.key) := by
  have hIw := hI w hw
  have hok := progOK_at h hp
  have hrm := List.mem_of_getElem? hr
  rw [hIw.base] at hrm
  have hseq := hIw.seq_eq ph hp i r hi hr
  refine List.filterMap_congr fun u hu => ?_
  have hum := hok.deps w hw r hrm u hu
  have hwm := hok.own w hw r hrm
  obtain ⟨huW, r', hr', hk⟩ := hok.all w hw r hrm u hum
  have hlen := hist_length h hwm hum hw huW (g.ws w).phase
  have hc : contrib prog S (g.ws w).phase r.key u = contribution ph (ref prog S (g.ws w).phase) r.key u := by
    unfold contrib; rw [hp]
  have hs : (contrib prog S (g.ws w).phase r.key u).isSome := by
    rw [hc, contribution_isSome]; exact ⟨r', hr', hk⟩
  have := (hI u huW).log_at hs (by rw [← hlen, ← hseq]; exact hd u hu)
  rw [← hc, ← this, ← hlen, ← hseq]

theorem take_find_succ {l : List (Req σ μ)} {n : Nat} {r : Req σ μ} (h : l[n]? = some r)
    (hnd : (l.map Req.key).Nodup) (k : Key) :
    (((l.take (n + 1)).find? fun r => r.key = k).map Req.put).toList =
      (((l.take n).find? fun r => r.key = k).map Req.put).toList ++ (if k = r.key then [r.put] else []) := by
  rw [List.take_add_one, h, List.find?_append]
  by_cases hk : k = r.key
  · subst hk
    have : (l.take n).find? (fun r' => r'.key = r.key) = none := by
      rw [List.find?_eq_none]
      intro r' hr'
      obtain ⟨j, hj, e⟩ := List.getElem_of_mem hr'
      rw [List.getElem_take] at e
      obtain ⟨hn, e2⟩ := List.getElem?_eq_some_iff.1 h
      simp only [List.length_take] at hj
      simp only [decide_eq_true_eq]
      intro hkk
      have := (List.Nodup.getElem_inj_iff hnd (i := j) (hi := by simp; omega) (j := n) (hj := by simpa using hn)).1
        (by rw [List.getElem_map, List.getElem_map, e, e2, hkk])
      omega
    rw [this]
    simp
  · have : ((some r).toList.find? fun r => r.key = k) = none := by
      simp [Ne.symm hk]
    rw [this, if_neg hk]
    simp

theorem foldl_range_eq {α β : Type} (f : β → α → β) (l : List α) (b : β) :
    (List.range l.length).foldl (fun x i => match l[i]? with | some a => f x a | none => x) b = l.foldl f b := by
  induction l generalizing b with
  | nil => rfl
  | cons a l ih =>
    rw [List.length_cons, List.range_succ_eq_map, List.foldl_cons, List.foldl_map, List.foldl_cons]
    simp only [List.getElem?_cons_zero, List.getElem?_cons_succ]
    exact ih _

theorem step_inv (h : ProgOK W prog S) {g g' : GState σ μ} (hI : Inv W prog S g) (hs : Step W prog early g g') :
    Inv W prog S g' := by
  cases hs with
  | post w ph r hw hp hl hr =>
    intro v hv
    by_cases hvw : v = w
    · subst hvw
      have hIw := hI v hw
      have hlen := (List.getElem?_eq_some_iff.1 hr).1
      have hnd : (((ph v (g.ws v).base).reqs).map Req.key).Nodup := by
        rw [hIw.base]; exact (progOK_at h hp).nodup v hw
      show InvW prog S v ((g.setW v _).ws v) _
      rw [setW_self]
      refine ⟨hIw.phase_le, hIw.base, fun e => ?_, fun ph' hp' => ?_, fun _ => hIw.noloop hl, ?_, hIw.nodup, fun k => ?_, ?_⟩
      · simp only at e
        rw [e] at hp
        simp at hp
      · simp only at hp' ⊢
        rw [hp] at hp'
        cases hp'
        exact hlen
      · intro ph' hp' hl'
        simp only at hl'
        rw [hl] at hl'
        cases hl'
      · simp only [hp]
        have := hIw.log_eq k
        rw [hp] at this
        simp only at this
        rw [take_find_succ hr hnd, ← List.append_assoc, ← this]
        simp only [and_true]
        by_cases hk : k = r.key <;> simp [hk]
      · intro ph' hp' i r' hi hr'
        simp only at hp' hi hr' ⊢
        rw [hp] at hp'
        cases hp'
        split
        · rename_i e
          subst e
          rw [hr] at hr'
          cases hr'
          have := hIw.log_eq r.key
          rw [hp] at this
          simp only at this
          have h0 := take_find_succ hr hnd r.key
          rw [if_pos rfl] at h0
          rw [this]
          have h1 : ((((ph v (g.ws v).base).reqs.take ((g.ws v).posted + 1)).find?
            fun r' => r'.key = r.key).map Req.put).toList.length ≤ 1 := by
            cases ((ph v (g.ws v).base).reqs.take ((g.ws v).posted + 1)).find? fun r' => r'.key = r.key <;> simp
          rw [h0, List.length_append, List.length_singleton] at h1
          rw [List.length_append]
          omega
        · rename_i hne
          exact hIw.seq_eq ph hp i r' (by omega) hr'
    · show InvW prog S v ((g.setW w _).ws v) _
      rw [setW_ne g _ hvw]
      simp only [hvw, and_false, if_false]
      exact hI v hv
  | enter w ph hw hp hl hn =>
    intro v hv
    by_cases hvw : v = w
    · subst hvw
      have hIw := hI v hw
      obtain ⟨hd, hst⟩ := hIw.noloop hl
      rw [setW_self]
      refine ⟨hIw.phase_le, hIw.base, fun e => ?_, hIw.posted_le, fun e => by simp at e, ?_, hIw.nodup, hIw.log_eq, hIw.seq_eq⟩
      · simp only at e
        rw [e] at hp
        simp at hp
      · intro ph' hp' _
        simp only at hp' ⊢
        rw [hp] at hp'
        cases hp'
        rw [hd, hst]
        exact ⟨hn, rfl, by simp, by simp⟩
    · rw [setW_ne g _ hvw]
      exact hI v hv
  | complete w i ph r hw hp hl hr hi ho hd hm =>
    intro v hv
    by_cases hvw : v = w
    · subst hvw
      have hIw := hI v hw
      obtain ⟨h1, h2, h3, h4⟩ := hIw.loop ph hp hl
      have hlen := (List.getElem?_eq_some_iff.1 hr).1
      have hread := read_eq h hI hw hp hr (by rw [h1]; exact hlen) hd
      rw [setW_self]
      refine ⟨hIw.phase_le, hIw.base, fun e => ?_, hIw.posted_le, fun e => ?_, ?_,
        List.nodup_cons.2 ⟨hi, hIw.nodup⟩, hIw.log_eq, hIw.seq_eq⟩
      · simp only at e
        rw [e] at hp
        simp at hp
      · simp only at e
        rw [hl] at e
        cases e
      · intro ph' hp' _
        simp only at hp' ⊢
        rw [hp] at hp'
        cases hp'
        refine ⟨h1, ?_, ?_, ?_⟩
        · rw [List.reverse_cons, List.foldl_append, ← h2, hread]
          simp only [List.foldl_cons, List.foldl_nil]
          rw [refGet, ← hIw.base, hr]
        · intro j hj
          rcases List.mem_cons.1 hj with rfl | hj
          · exact hlen
          · exact h3 j hj
        · intro l hin
          rw [List.reverse_cons, h4 l hin, List.length_cons, List.take_add_one, ho l hin]
          rfl
    · rw [setW_ne g _ hvw]
      exact hI v hv
  | next w ph hw hp hl hn =>
    intro v hv
    by_cases hvw : v = w
    · subst hvw
      have hIw := hI v hw
      obtain ⟨h1, h2, h3, -⟩ := hIw.loop ph hp hl
      have hlt := (List.getElem?_eq_some_iff.1 hp).1
      have hfold : (g.ws v).st = ref prog S ((g.ws v).phase + 1) v := by
        rw [ref_succ hp, sync, h2, ← hIw.base]
        have hperm : ((g.ws v).done.reverse).Perm (List.range (ph v (g.ws v).base).reqs.length) := by
          have hsub : (g.ws v).done ⊆ List.range (ph v (g.ws v).base).reqs.length := fun j hj =>
            List.mem_range.2 (h3 j hj)
          exact (List.reverse_perm _).trans
            ((List.subperm_of_subset hIw.nodup hsub).perm_of_length_le (by simp [hn]))
        rw [List.Perm.foldl_eq' hperm]
        · have := foldl_range_eq (fun (x : σ) (r : Req σ μ) =>
            r.get (r.deps.filterMap (contribution ph (ref prog S (g.ws v).phase) r.key)) x)
            (ph v (g.ws v).base).reqs ((ph v (g.ws v).base).work (g.ws v).base)
          rw [← this]
          refine List.foldl_ext _ _ _ fun x i _ => ?_
          rw [refGet, ← hIw.base]
          cases (ph v (g.ws v).base).reqs[i]? <;> rfl
        · intro i hi j hj x
          have hcomm := (progOK_at h hp).comm v hw
          rw [← hIw.base] at hcomm
          rw [List.mem_reverse] at hi hj
          by_cases hij : i = j
          · rw [hij]
          · simp only [refGet, ← hIw.base, List.getElem?_eq_getElem (h3 i hi), List.getElem?_eq_getElem (h3 j hj)]
            rw [List.pairwise_iff_getElem] at hcomm
            rcases Nat.lt_or_gt_of_ne hij with hlt' | hlt'
            · exact (hcomm i j (h3 i hi) (h3 j hj) hlt' _ _ _).symm
            · exact hcomm j i (h3 j hj) (h3 i hi) hlt' _ _ _
      rw [setW_self]
      refine ⟨hlt, hfold, fun _ => ⟨rfl, rfl⟩, fun _ _ => Nat.zero_le _, fun _ => ⟨rfl, rfl⟩,
        fun _ _ e => by simp at e, List.nodup_nil, fun k => ?_, fun _ _ i _ hi => by simp at hi⟩
      have := hIw.log_eq k
      rw [hp] at this
      simp only at this
      show g.log k v = hist prog S ((g.ws v).phase + 1) k v ++ _
      rw [this, hist_succ, h1, List.take_length]
      have hc : contrib prog S (g.ws v).phase k v =
          ((ph v (g.ws v).base).reqs.find? fun r => r.key = k).map Req.put := by
        unfold contrib contribution; rw [hp, hIw.base]
      rw [hc]
      cases prog[(g.ws v).phase + 1]? <;> simp
    · rw [setW_ne g _ hvw]
      exact hI v hv

theorem exec_inv (h : ProgOK W prog S) {n : Nat} {g g' : GState σ μ} (hI : Inv W prog S g)
    (he : Exec W prog early n g g') : Inv W prog S g' := by
  induction he with
  | refl => exact hI
  | tail _ hs ih => exact step_inv h (ih hI) hs

/-! ## Progress -/

theorem progress (h : ProgOK W prog S) {g : GState σ μ} (hI : Inv W prog S g)
    (hw : ∃ w ∈ W, (g.ws w).phase < prog.length) : ∃ g', Step W prog early g g' := by
  -- a worker in the earliest phase
  obtain ⟨w, hw, hlt, hmin⟩ : ∃ w ∈ W, (g.ws w).phase < prog.length ∧ ∀ u ∈ W, (g.ws w).phase ≤ (g.ws u).phase := by
    obtain ⟨w0, hw0, hlt0⟩ := hw
    obtain ⟨w, hw, hmin⟩ := Finset.exists_min_image W.toFinset (fun u => (g.ws u).phase) ⟨w0, List.mem_toFinset.2 hw0⟩
    refine ⟨w, List.mem_toFinset.1 hw, ?_, fun u hu => hmin u (List.mem_toFinset.2 hu)⟩
    exact Nat.lt_of_le_of_lt (hmin w0 (List.mem_toFinset.2 hw0)) hlt0
  obtain ⟨ph, hp⟩ : ∃ ph, prog[(g.ws w).phase]? = some ph := ⟨_, List.getElem?_eq_getElem hlt⟩
  -- posting never waits
  by_cases hpost : ∃ u ∈ W, (g.ws u).phase = (g.ws w).phase ∧ (g.ws u).inLoop = false
  · obtain ⟨u, hu, hpu, hl⟩ := hpost
    have hp' := hp
    rw [← hpu] at hp'
    have hle := (hI u hu).posted_le _ hp'
    rcases Nat.lt_or_ge (g.ws u).posted (ph u (g.ws u).base).reqs.length with hlt' | hge
    · exact ⟨_, Step.post g u _ _ hu hp' hl (List.getElem?_eq_getElem hlt')⟩
    · exact ⟨_, Step.enter g u _ hu hp' hl (Nat.le_antisymm hle hge)⟩
  -- everybody has posted the requests of this phase
  have hl : ∀ u ∈ W, (g.ws u).phase = (g.ws w).phase → (g.ws u).inLoop = true := by
    intro u hu he
    cases hb : (g.ws u).inLoop with
    | true => rfl
    | false => exact absurd ⟨u, hu, he, hb⟩ hpost
  have hlw := hl w hw rfl
  have hIw := hI w hw
  obtain ⟨h1, -, h3, h4⟩ := hIw.loop _ hp hlw
  by_cases hn : (g.ws w).done.length = (ph w (g.ws w).base).reqs.length
  · exact ⟨_, Step.next g w _ hw hp hlw hn⟩
  · -- some request is not complete yet
    have hsub : (g.ws w).done ⊆ List.range (ph w (g.ws w).base).reqs.length := fun j hj => List.mem_range.2 (h3 j hj)
    have hle : (g.ws w).done.length ≤ (ph w (g.ws w).base).reqs.length := by
      simpa using (List.subperm_of_subset hIw.nodup hsub).length_le
    obtain ⟨i, hi, hin, hio⟩ : ∃ i, i < (ph w (g.ws w).base).reqs.length ∧ i ∉ (g.ws w).done ∧
        (∀ l, (ph w (g.ws w).base).order = some l → l[(g.ws w).done.length]? = some i) := by
      cases ho : (ph w (g.ws w).base).order with
      | some l =>
        have hperm : l.Perm (List.range (ph w (g.ws w).base).reqs.length) := by
          have := (progOK_at h hp).order w hw l
          rw [← hIw.base] at this
          exact this ho
        have hlen : (g.ws w).done.length < l.length := by
          rw [hperm.length_eq, List.length_range]; omega
        have hnd : l.Nodup := hperm.nodup_iff.2 List.nodup_range
        refine ⟨l[(g.ws w).done.length], ?_, fun hm => ?_, fun l' hl' => ?_⟩
        · exact List.mem_range.1 (hperm.mem_iff.1 (List.getElem_mem hlen))
        · rw [← List.mem_reverse, h4 l ho] at hm
          obtain ⟨j, hj, he⟩ := List.mem_iff_getElem.1 hm
          rw [List.getElem_take] at he
          have hj' := hj
          rw [List.length_take] at hj'
          have := (List.Nodup.getElem_inj_iff hnd).1 he
          omega
        · cases hl'
          exact List.getElem?_eq_getElem hlen
      | none =>
        by_contra hcon
        push Not at hcon
        have : List.range (ph w (g.ws w).base).reqs.length ⊆ (g.ws w).done := by
          intro i hi
          by_contra hni
          obtain ⟨l, hl', -⟩ := hcon i (List.mem_range.1 hi) hni
          cases hl'
        have := (List.subperm_of_subset List.nodup_range this).length_le
        simp at this
        omega
    have hr := List.getElem?_eq_getElem hi
    generalize (ph w (g.ws w).base).reqs[i] = r at hr
    have hrm := List.mem_of_getElem? hr
    rw [hIw.base] at hrm
    have hok := progOK_at h hp
    have hseq := hIw.seq_eq ph hp i r (by rw [h1]; exact hi) hr
    have hall : ∀ u ∈ r.key.members, (g.ws w).seq i < (g.log r.key u).length := by
      intro u hu
      obtain ⟨huW, r', hr', hk⟩ := hok.all w hw r hrm u hu
      have hc : (contrib prog S (g.ws w).phase r.key u).isSome := by
        unfold contrib
        rw [hp]
        exact contribution_isSome.2 ⟨r', hr', hk⟩
      obtain ⟨m, hm⟩ := Option.isSome_iff_exists.1 hc
      have hlen := hist_length h (hok.own w hw r hrm) hu hw huW (g.ws w).phase
      have hh : (hist prog S ((g.ws w).phase + 1) r.key u).length = (g.ws w).seq i + 1 := by
        rw [hist_succ, hm, List.length_append, ← hlen, ← hseq]
        rfl
      have hIu := hI u huW
      rcases Nat.lt_or_eq_of_le (hmin u huW) with hgt | heq
      · obtain ⟨t, ht⟩ := hist_prefix (prog := prog) (S := S) (show (g.ws w).phase + 1 ≤ (g.ws u).phase from hgt) r.key u
        have := hIu.log_eq r.key
        rw [this, ht, List.length_append, List.length_append, hh]
        omega
      · have hpu := hp
        rw [heq] at hpu
        obtain ⟨h1u, -⟩ := hIu.loop ph hpu (hl u huW heq.symm)
        have := hIu.log_eq r.key
        rw [hpu, h1u] at this
        simp only [List.take_length] at this
        have hcu : contrib prog S (g.ws w).phase r.key u =
            ((ph u (g.ws u).base).reqs.find? fun r' => r'.key = r.key).map Req.put := by
          unfold contrib contribution; rw [hp, hIu.base, heq]
        rw [this, ← hcu, ← heq, ← hist_succ, hh]
        omega
    exact ⟨_, Step.complete g w i ph r hw hp hlw hr hin hio (fun u hu => hall u (hok.deps w hw r hrm u hu)) (Or.inl hall)⟩

/-! ## Length of executions -/

/-- Steps of worker `w` in phase `p`. -/
def cost (prog : Prog σ μ) (S : Nat → σ) (w p : Nat) : Nat :=
  match prog[p]? with
  | some ph => 2 * (ph w (ref prog S p w)).reqs.length + 2
  | none => 0

/-- Steps taken so far by worker `w`. -/
def taken (prog : Prog σ μ) (S : Nat → σ) (w : Nat) (x : WState σ) : Nat :=
  ((List.range x.phase).map (cost prog S w)).sum + x.posted + (if x.inLoop then 1 else 0) + x.done.length

theorem sum_map_change {f f' : Nat → Nat} {w : Nat} (hnd : W.Nodup) (hw : w ∈ W) (h1 : f' w = f w + 1)
    (h2 : ∀ v ∈ W, v ≠ w → f' v = f v) : (W.map f').sum = (W.map f).sum + 1 := by
  induction W with
  | nil => simp at hw
  | cons a l ih =>
    rw [List.nodup_cons] at hnd
    simp only [List.map_cons, List.sum_cons]
    by_cases ha : a = w
    · subst ha
      have : l.map f' = l.map f := List.map_congr_left fun v hv =>
        h2 v (List.mem_cons_of_mem _ hv) fun e => hnd.1 (e ▸ hv)
      rw [this, h1]
      omega
    · have hw' : w ∈ l := (List.mem_cons.1 hw).resolve_left fun e => ha e.symm
      rw [h2 a (by simp) ha, ih hnd.2 hw' fun v hv => h2 v (List.mem_cons_of_mem _ hv)]
      omega

theorem step_taken (hnd : W.Nodup) {g g' : GState σ μ} (hI : Inv W prog S g)
    (hs : Step W prog early g g') : (W.map fun w => taken prog S w (g'.ws w)).sum =
      (W.map fun w => taken prog S w (g.ws w)).sum + 1 := by
  cases hs with
  | post w ph r hw hp hl hr =>
    refine sum_map_change hnd hw ?_ fun v _ hv => ?_
    · show taken prog S w ((g.setW w _).ws w) = _
      rw [setW_self]
      simp only [taken]
      omega
    · show taken prog S v ((g.setW w _).ws v) = _
      rw [setW_ne g _ hv]
  | enter w ph hw hp hl hn =>
    refine sum_map_change hnd hw ?_ fun v _ hv => ?_
    · rw [setW_self]
      simp only [taken, hl, if_true, Bool.false_eq_true, if_false]
      omega
    · rw [setW_ne g _ hv]
  | complete w i ph r hw hp hl hr hi ho hd hm =>
    refine sum_map_change hnd hw ?_ fun v _ hv => ?_
    · rw [setW_self]
      simp only [taken, List.length_cons]
      omega
    · rw [setW_ne g _ hv]
  | next w ph hw hp hl hn =>
    refine sum_map_change hnd hw ?_ fun v _ hv => ?_
    · rw [setW_self]
      have hIw := hI w hw
      obtain ⟨h1, -⟩ := hIw.loop ph hp hl
      have hc : cost prog S w (g.ws w).phase = 2 * (ph w (g.ws w).base).reqs.length + 2 := by
        unfold cost; rw [hp, hIw.base]
      simp only [taken, hl, List.range_succ, List.map_append, List.sum_append, List.map_cons, List.map_nil,
        List.sum_cons, List.sum_nil, hc, h1, hn, if_true, Bool.false_eq_true, if_false, List.length_nil]
      omega
    · rw [setW_ne g _ hv]

theorem taken_le {g : GState σ μ} (hI : Inv W prog S g) {w : Nat} (hw : w ∈ W) :
    taken prog S w (g.ws w) ≤ ((List.range prog.length).map (cost prog S w)).sum := by
  have hIw := hI w hw
  have hmono : ∀ a b : Nat, a ≤ b → ((List.range a).map (cost prog S w)).sum ≤ ((List.range b).map (cost prog S w)).sum := by
    intro a b hab
    induction hab with
    | refl => exact Nat.le_refl _
    | step _ ih =>
      rw [List.range_succ, List.map_append, List.sum_append]
      omega
  rcases Nat.lt_or_eq_of_le hIw.phase_le with hlt | heq
  · have hp : prog[(g.ws w).phase]? = some prog[(g.ws w).phase] := List.getElem?_eq_getElem hlt
    refine Nat.le_trans ?_ (hmono _ _ (show (g.ws w).phase + 1 ≤ prog.length from hlt))
    have hc : cost prog S w (g.ws w).phase = 2 * (prog[(g.ws w).phase] w (g.ws w).base).reqs.length + 2 := by
      unfold cost; rw [hp, hIw.base]
    rw [List.range_succ, List.map_append, List.sum_append, taken]
    simp only [List.map_cons, List.map_nil, List.sum_cons, List.sum_nil, hc]
    have hpl := hIw.posted_le _ hp
    cases hl : (g.ws w).inLoop with
    | false =>
      rw [(hIw.noloop hl).1]
      simp
      omega
    | true =>
      obtain ⟨h1, -, h3, -⟩ := hIw.loop _ hp hl
      have hsub : (g.ws w).done ⊆ List.range (prog[(g.ws w).phase] w (g.ws w).base).reqs.length :=
        fun j hj => List.mem_range.2 (h3 j hj)
      have := (List.subperm_of_subset hIw.nodup hsub).length_le
      simp only [List.length_range] at this
      simp only [if_true]
      omega
  · obtain ⟨h1, h2⟩ := hIw.final heq
    rw [taken, h1, h2, (hIw.noloop h1).1, heq]
    simp

theorem sum_le_sum {f f' : Nat → Nat} (h : ∀ w ∈ W, f w ≤ f' w) : (W.map f).sum ≤ (W.map f').sum := by
  induction W with
  | nil => simp
  | cons a l ih =>
    simp only [List.map_cons, List.sum_cons]
    have := h a (by simp)
    have := ih fun w hw => h w (List.mem_cons_of_mem _ hw)
    omega

theorem exec_taken (h : ProgOK W prog S) (hnd : W.Nodup) {n : Nat} {g g' : GState σ μ} (hI : Inv W prog S g)
    (he : Exec W prog early n g g') : (W.map fun w => taken prog S w (g'.ws w)).sum =
      (W.map fun w => taken prog S w (g.ws w)).sum + n := by
  induction he with
  | refl => rfl
  | tail he hs ih =>
    rw [step_taken hnd (exec_inv h hI he) hs, ih hI]
    omega

end Verif.Net
