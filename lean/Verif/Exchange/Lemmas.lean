import Verif.Exchange.Machine
import Mathlib.Data.List.Nodup
import Mathlib.Data.List.Count
import Mathlib.Data.Nat.Find
import Mathlib.Data.List.Perm.Subperm

/-! # Invariant of the exchange machine -/

namespace Verif.Exchange

variable {σ μ : Type} {prog : Nat → Nat → Phase σ μ} {n N : Nat} {eager : Bool} {st0 : Nat → σ}

/-- The message `s` packs for `d` in phase `p` under the reference semantics. -/
def msg (prog : Nat → Nat → Phase σ μ) (st0 : Nat → σ) (p s d : Nat) : μ :=
  (prog p s).pack ((prog p s).sends.idxOf (some d)) (lock prog st0 p s)

/-- All messages from `s` to `d` of phases before `p`. -/
def msgs (prog : Nat → Nat → Phase σ μ) (st0 : Nat → σ) (p s d : Nat) : List μ :=
  (List.range p).filterMap fun q =>
    if some d ∈ (prog q s).sends then some (msg prog st0 q s d) else none

/-- Unpacking slot `k` with its reference message (nothing for sends and absent receives). -/
def U (prog : Nat → Nat → Phase σ μ) (st0 : Nat → σ) (p w : Nat) (x : σ) (k : Nat) : σ :=
  match (prog p w).recvs[k]? with
  | some (some s) => (prog p w).unpack k (msg prog st0 p s w) x
  | _ => x

theorem msgs_succ (p s d : Nat) : msgs prog st0 (p + 1) s d =
    msgs prog st0 p s d ++ (if some d ∈ (prog p s).sends then [msg prog st0 p s d] else []) := by
  unfold msgs
  rw [List.range_succ, List.filterMap_append]
  congr 1
  by_cases h : some d ∈ (prog p s).sends <;> simp [h]

theorem msgs_prefix {p q : Nat} (h : p ≤ q) (s d : Nat) :
    ∃ t, msgs prog st0 q s d = msgs prog st0 p s d ++ t := by
  induction h with
  | refl => exact ⟨[], by simp⟩
  | step h ih =>
    obtain ⟨t, ht⟩ := ih
    exact ⟨t ++ _, by rw [Nat.succ_eq_add_one, msgs_succ, ht, List.append_assoc]⟩

theorem lock_succ (p w : Nat) : lock prog st0 (p + 1) w =
    (List.range (prog p w).recvs.length).foldl (U prog st0 p w)
      ((prog p w).work (lock prog st0 p w)) := by
  rw [lock]
  rfl

/-- Invariant of one worker: `x` its state, `sent d` what it sent to `d`, `wanted s` how many
receives it posted for `s`. -/
structure InvW (prog : Nat → Nat → Phase σ μ) (n N : Nat) (st0 : Nat → σ) (w : Nat) (x : WState σ)
    (sent : Nat → List μ) (wanted : Nat → Nat) : Prop where
  phase_le : x.phase ≤ N
  final : x.phase = N → x.posted = 0 ∧ x.inLoop = false
  posted_le : x.posted ≤ (prog x.phase w).total
  iters_le : x.iters ≤ (prog x.phase w).total
  loop_posted : x.inLoop = true → x.posted = (prog x.phase w).total
  noloop : x.inLoop = false → x.iters = 0 ∧ x.done = []
  sent_eq : ∀ d, sent d = msgs prog st0 x.phase w d ++
    (if some d ∈ (prog x.phase w).sends.take (x.posted - (prog x.phase w).recvs.length) then
      [msg prog st0 x.phase w d] else [])
  wanted_eq : ∀ s, s < n → wanted s = (msgs prog st0 x.phase s w).length +
    (if some s ∈ (prog x.phase w).recvs.take x.posted then 1 else 0)
  seqR : ∀ i s, i < x.posted → (prog x.phase w).recvs[i]? = some (some s) →
    x.seq i = (msgs prog st0 x.phase s w).length
  seqS : ∀ i d, i < x.posted → (prog x.phase w).recvs.length ≤ i →
    (prog x.phase w).sends[i - (prog x.phase w).recvs.length]? = some (some d) →
    x.seq i = (msgs prog st0 x.phase w d).length
  st_out : x.inLoop = false → x.st = lock prog st0 x.phase w
  st_in : x.inLoop = true → x.st = x.done.reverse.foldl (U prog st0 x.phase w)
    ((prog x.phase w).work (lock prog st0 x.phase w))
  done_nodup : x.done.Nodup
  done_active : ∀ i ∈ x.done, (prog x.phase w).Active i
  done_le : x.done.length ≤ x.iters
  done_all : x.done.length < x.iters → ∀ i, (prog x.phase w).Active i → i ∈ x.done

/-- Invariant of the whole system. -/
def Inv (prog : Nat → Nat → Phase σ μ) (n N : Nat) (st0 : Nat → σ) (g : GState σ μ) : Prop :=
  ∀ w, w < n → InvW prog n N st0 w (g.ws w) (g.sent w) (fun s => g.wanted s w)

theorem inv_init (prog : Nat → Nat → Phase σ μ) (n N : Nat) (st0 : Nat → σ) :
    Inv prog n N st0 (GState.init st0) := by
  intro w _
  constructor <;> simp [GState.init, msgs, lock, Phase.total]

theorem active_lt {ph : Phase σ μ} {i : Nat} (h : ph.Active i) : i < ph.total := by
  rcases h with ⟨s, h⟩ | ⟨h1, d, h⟩
  · have := (List.getElem?_eq_some_iff.1 h).1
    simp only [Phase.total]; omega
  · have := (List.getElem?_eq_some_iff.1 h).1
    simp only [Phase.total]; omega

theorem length_le_of_nodup_lt {l : List Nat} (hnd : l.Nodup) {t : Nat} (h : ∀ i ∈ l, i < t) :
    l.length ≤ t := by
  have hs : l ⊆ List.range t := fun i hi => List.mem_range.2 (h i hi)
  have := (List.Nodup.subperm hnd hs).length_le
  simpa using this

/-- A worker that has finished the loop has completed every active request. -/
theorem InvW.all_done {w : Nat} {x : WState σ} {sent : Nat → List μ} {wanted : Nat → Nat}
    (h : InvW prog n N st0 w x sent wanted) (hit : x.iters = (prog x.phase w).total) :
    ∀ i, (prog x.phase w).Active i → i ∈ x.done := by
  by_cases hlt : x.done.length < x.iters
  · exact h.done_all hlt
  · intro i hi
    have hlen : x.done.length = (prog x.phase w).total := by have := h.done_le; omega
    by_contra hni
    have hnd : (i :: x.done).Nodup := List.nodup_cons.2 ⟨hni, h.done_nodup⟩
    have := length_le_of_nodup_lt hnd (t := (prog x.phase w).total) (by
      intro j hj
      rcases List.mem_cons.1 hj with rfl | hj
      · exact active_lt hi
      · exact active_lt (h.done_active j hj))
    simp only [List.length_cons] at this
    omega

theorem foldl_filter {f : σ → Nat → σ} {P : Nat → Bool} (l : List Nat) (x : σ)
    (h : ∀ k ∈ l, P k = false → ∀ y, f y k = y) : l.foldl f x = (l.filter P).foldl f x := by
  induction l generalizing x with
  | nil => rfl
  | cons k l ih =>
    have ih' := fun y => ih y fun j hj => h j (List.mem_cons_of_mem _ hj)
    cases hP : P k with
    | true => simp [hP, ih']
    | false => simp [hP, ih', h k (by simp) hP]

/-- Whatever the order of completion, the loop ends with the reference result. -/
theorem fold_any_order (hc : Commutes prog n N) {p w : Nat} (hp : p < N) (hw : w < n)
    {done : List Nat} (hnd : done.Nodup) (hall : ∀ i, (prog p w).Active i → i ∈ done) (x : σ) :
    done.reverse.foldl (U prog st0 p w) x =
      (List.range (prog p w).recvs.length).foldl (U prog st0 p w) x := by
  let P : Nat → Bool := fun k => match (prog p w).recvs[k]? with
    | some (some _) => true
    | _ => false
  have hP : ∀ k, P k = true ↔ ∃ s, (prog p w).recvs[k]? = some (some s) := by
    intro k
    simp only [P]
    split
    · rename_i s h; exact ⟨fun _ => ⟨s, h⟩, fun _ => rfl⟩
    · rename_i h
      exact ⟨fun h' => by simp at h', fun ⟨s, hs⟩ => absurd hs (h s)⟩
  have hid : ∀ k, P k = false → ∀ y, U prog st0 p w y k = y := by
    intro k hk y
    unfold U
    split
    · rename_i s h
      have := (hP k).2 ⟨s, h⟩
      rw [hk] at this; cases this
    · rfl
  rw [foldl_filter (P := P) done.reverse x (fun k _ => hid k),
    foldl_filter (P := P) (List.range _) x (fun k _ => hid k)]
  have hperm : (done.reverse.filter P).Perm ((List.range (prog p w).recvs.length).filter P) := by
    apply (List.perm_ext_iff_of_nodup ((List.nodup_reverse.2 hnd).filter _)
      (List.nodup_range.filter _)).2
    intro k
    simp only [List.mem_filter, List.mem_reverse, List.mem_range, hP]
    constructor
    · rintro ⟨_, s, hs⟩
      exact ⟨(List.getElem?_eq_some_iff.1 hs).1, s, hs⟩
    · rintro ⟨_, s, hs⟩
      exact ⟨hall k (Or.inl ⟨s, hs⟩), s, hs⟩
  refine List.Perm.foldl_eq' hperm ?_ x
  intro i hi j hj y
  obtain ⟨_, hi⟩ := List.mem_filter.1 hi
  obtain ⟨_, hj⟩ := List.mem_filter.1 hj
  obtain ⟨a, ha⟩ := (hP i).1 hi
  obtain ⟨b, hb⟩ := (hP j).1 hj
  by_cases hij : i = j
  · rw [hij]
  · simp only [U, ha, hb]
    exact (hc p hp w hw j i b a (Ne.symm hij) hb ha _ _ y)

theorem take_succ_mem {l : List (Option Nat)} {k : Nat} {a : Option Nat} (h : l[k]? = some a)
    (b : Option Nat) : b ∈ l.take (k + 1) ↔ b ∈ l.take k ∨ b = a := by
  rw [List.take_add_one, h]
  simp

theorem not_mem_take {l : List (Option Nat)} {k d : Nat} (h : l[k]? = some (some d))
    (hc : l.count (some d) ≤ 1) : some d ∉ l.take k := by
  intro hm
  have hlt := (List.getElem?_eq_some_iff.1 h).1
  have h1 : l = l.take k ++ l.drop k := (List.take_append_drop k l).symm
  have h2 : l.drop k = some d :: l.drop (k + 1) := by
    rw [List.drop_eq_getElem_cons hlt]
    congr 1
    rw [List.getElem?_eq_getElem hlt] at h
    simpa using h
  rw [h1, List.count_append, h2, List.count_cons_self] at hc
  have := List.count_pos_iff.2 hm
  omega

theorem idxOf_eq {l : List (Option Nat)} {k d : Nat} (h : l[k]? = some (some d))
    (hc : l.count (some d) ≤ 1) : l.idxOf (some d) = k := by
  have hn := not_mem_take h hc
  obtain ⟨hlt, he⟩ := List.getElem?_eq_some_iff.1 h
  have h1 : l.idxOf (some d) ≤ k := by
    by_contra hh
    have := List.not_of_lt_findIdx (p := (· == some d)) (xs := l) (i := k) (by
      simp only [List.idxOf] at hh; omega)
    simp [he] at this
  rcases Nat.lt_or_ge (l.idxOf (some d)) k with h2 | h2
  · exfalso
    apply hn
    have hlt2 : l.idxOf (some d) < l.length := by omega
    have : l[l.idxOf (some d)] = some d := List.getElem_idxOf hlt2
    rw [← this]
    rw [List.mem_take_iff_getElem]
    exact ⟨_, by omega, rfl⟩
  · omega

/-- The content of the channel at the position a receive of phase `p` waits for. -/
theorem channel_content (hM : Matched prog n N) {g : GState σ μ} (hI : Inv prog n N st0 g)
    {s w p : Nat} (hs : s < n) (hw : w < n) (hp : p < N) (hr : some s ∈ (prog p w).recvs) :
    (∀ m, (g.sent s w)[(msgs prog st0 p s w).length]? = some m → m = msg prog st0 p s w) ∧
    ((g.ws s).phase = p → (g.ws s).inLoop = true →
      (g.sent s w)[(msgs prog st0 p s w).length]? = some (msg prog st0 p s w)) ∧
    (p < (g.ws s).phase →
      (g.sent s w)[(msgs prog st0 p s w).length]? = some (msg prog st0 p s w)) := by
  have hsend : some w ∈ (prog p s).sends := (hM.agree p hp s hs w hw).2 hr
  have h := hI s hs
  have hlater : p < (g.ws s).phase →
      (g.sent s w)[(msgs prog st0 p s w).length]? = some (msg prog st0 p s w) := by
    intro hlt
    obtain ⟨t, ht⟩ := msgs_prefix (prog := prog) (st0 := st0) (Nat.succ_le_of_lt hlt) s w
    rw [Nat.succ_eq_add_one, msgs_succ, if_pos hsend] at ht
    rw [h.sent_eq w, ht]
    simp
  refine ⟨?_, ?_, hlater⟩
  · intro m hm
    rcases Nat.lt_trichotomy (g.ws s).phase p with hlt | heq | hgt
    · exfalso
      have hlen := (List.getElem?_eq_some_iff.1 hm).1
      obtain ⟨t, ht⟩ := msgs_prefix (prog := prog) (st0 := st0) (Nat.succ_le_of_lt hlt) s w
      rw [Nat.succ_eq_add_one, msgs_succ] at ht
      rw [h.sent_eq w, ht] at hlen
      by_cases hmem : some w ∈ (prog (g.ws s).phase s).sends.take
          ((g.ws s).posted - (prog (g.ws s).phase s).recvs.length)
      · simp only [hmem, List.mem_of_mem_take hmem, if_true, List.length_append,
          List.length_cons, List.length_nil] at hlen
        omega
      · simp only [hmem, if_false, List.length_append, List.length_nil] at hlen
        omega
    · rw [h.sent_eq w, heq] at hm
      split at hm
      · simp at hm
        exact hm.symm
      · simp at hm
    · rw [hlater hgt] at hm
      simpa using hm.symm
  · intro heq hl
    have hpost := h.loop_posted hl
    rw [h.sent_eq w, heq]
    rw [heq] at hpost
    rw [hpost, Phase.total, Nat.add_sub_cancel_left, List.take_of_length_le (Nat.le_refl _),
      if_pos hsend]
    simp

/-- A receive for a message of phase `p` is posted as soon as the receiver is in the loop of phase
`p` or beyond. -/
theorem wanted_enough (hM : Matched prog n N) {g : GState σ μ} (hI : Inv prog n N st0 g)
    {w d p : Nat} (hw : w < n) (hd : d < n) (hp : p < N) (hs : some d ∈ (prog p w).sends)
    (h : p < (g.ws d).phase ∨ ((g.ws d).phase = p ∧ (g.ws d).inLoop = true)) :
    (msgs prog st0 p w d).length < g.wanted w d := by
  have hI' := hI d hd
  have hwe := hI'.wanted_eq w hw
  rw [hwe]
  rcases h with hlt | ⟨heq, hl⟩
  · obtain ⟨t, ht⟩ := msgs_prefix (prog := prog) (st0 := st0) (Nat.succ_le_of_lt hlt) w d
    rw [Nat.succ_eq_add_one, msgs_succ, if_pos hs] at ht
    rw [ht]
    simp
    omega
  · have hpost := hI'.loop_posted hl
    rw [heq] at hpost ⊢
    have hmem : some w ∈ (prog p d).recvs := (hM.agree p hp w hw d hd).1 hs
    rw [List.take_of_length_le (by rw [hpost, Phase.total]; omega), if_pos hmem]
    omega

theorem setW_self (g : GState σ μ) (w : Nat) (x : WState σ) : (g.setW w x).ws w = x := by
  simp [GState.setW]

theorem setW_ne (g : GState σ μ) {w v : Nat} (x : WState σ) (h : v ≠ w) :
    (g.setW w x).ws v = g.ws v := by
  simp [GState.setW, h]

theorem inv_step (hM : Matched prog n N) (hc : Commutes prog n N) {g g' : GState σ μ}
    (hI : Inv prog n N st0 g) (hs : Step prog n N eager g g') : Inv prog n N st0 g' := by
  cases hs with
  | postNull w hw hp hl hs =>
    intro v hv
    by_cases hvw : v = w
    · subst hvw
      have h := hI v hv
      rw [setW_self]
      show InvW prog n N st0 v _ (g.sent v) (fun s => g.wanted s v)
      have hlt : (g.ws v).posted < (prog (g.ws v).phase v).total := by
        rcases hs with hs | ⟨h1, hs⟩
        · have := (List.getElem?_eq_some_iff.1 hs).1; simp only [Phase.total]; omega
        · have := (List.getElem?_eq_some_iff.1 hs).1; simp only [Phase.total]; omega
      have hnr : ∀ s, (prog (g.ws v).phase v).recvs[(g.ws v).posted]? ≠ some (some s) := by
        intro s hh
        rcases hs with hs | ⟨h1, hs⟩
        · rw [hs] at hh; cases hh
        · rw [List.getElem?_eq_none h1] at hh; cases hh
      refine ⟨h.phase_le, fun hN => absurd hN (Nat.ne_of_lt hp), (by simp only; omega), h.iters_le,
        fun hh => absurd (hl.symm.trans hh) (by simp), h.noloop, ?_, ?_, ?_, ?_, h.st_out,
        h.st_in, h.done_nodup, h.done_active, h.done_le, h.done_all⟩
      · intro d
        rw [h.sent_eq d]
        congr 1
        simp only
        rcases hs with hs | ⟨h1, hs⟩
        · have := (List.getElem?_eq_some_iff.1 hs).1
          rw [show (g.ws v).posted - (prog (g.ws v).phase v).recvs.length = 0 by omega,
            show (g.ws v).posted + 1 - (prog (g.ws v).phase v).recvs.length = 0 by omega]
        · rw [show (g.ws v).posted + 1 - (prog (g.ws v).phase v).recvs.length =
            (g.ws v).posted - (prog (g.ws v).phase v).recvs.length + 1 by omega]
          simp only [take_succ_mem hs]
          simp
      · intro s hsn
        have := h.wanted_eq s hsn
        simp only at this ⊢
        rw [this]
        congr 1
        rcases hs with hs | ⟨h1, hs⟩
        · simp only [take_succ_mem hs]
          simp
        · rw [List.take_of_length_le h1, List.take_of_length_le (by omega)]
      · intro i s hi hr
        simp only at hi hr ⊢
        rcases Nat.lt_or_ge i (g.ws v).posted with h1 | h1
        · exact h.seqR i s h1 hr
        · exact absurd (by rw [show (g.ws v).posted = i by omega]; exact hr) (hnr s)
      · intro i d hi hR hsd
        simp only at hi hR hsd ⊢
        rcases Nat.lt_or_ge i (g.ws v).posted with h1 | h1
        · exact h.seqS i d h1 hR hsd
        · exfalso
          have hip : (g.ws v).posted = i := by omega
          rcases hs with hs | ⟨h1, hs⟩
          · have := (List.getElem?_eq_some_iff.1 hs).1; omega
          · rw [hip, hsd] at hs; cases hs
    · have h := hI v hv
      rw [setW_ne _ _ hvw]
      exact h
  | postRecv w s hw hp hl hs =>
    intro v hv
    by_cases hvw : v = w
    · subst hvw
      have h := hI v hv
      have hrlt := (List.getElem?_eq_some_iff.1 hs).1
      show InvW prog n N st0 v ((g.setW v _).ws v) (g.sent v) _
      rw [setW_self]
      have hlt : (g.ws v).posted < (prog (g.ws v).phase v).total := by
        simp only [Phase.total]; omega
      have hsn : s < n := hM.recvs_range _ hp v hv s (List.mem_of_getElem? hs)
      have hnot := not_mem_take hs (hM.recvs_once _ hp v hv s)
      have hwant := h.wanted_eq s hsn
      simp only [hnot, if_false, Nat.add_zero] at hwant
      refine ⟨h.phase_le, fun hN => absurd hN (Nat.ne_of_lt hp), (by simp only; omega), h.iters_le,
        fun hh => absurd (hl.symm.trans hh) (by simp), h.noloop, ?_, ?_, ?_, ?_, h.st_out,
        h.st_in, h.done_nodup, h.done_active, h.done_le, h.done_all⟩
      · intro d
        rw [h.sent_eq d]
        simp only
        rw [show (g.ws v).posted - (prog (g.ws v).phase v).recvs.length = 0 by omega,
            show (g.ws v).posted + 1 - (prog (g.ws v).phase v).recvs.length = 0 by omega]
      · intro a ha
        simp only [take_succ_mem hs]
        by_cases has : a = s
        · subst has
          simp [hwant]
        · have := h.wanted_eq a ha
          simp [has, this]
      · intro i a hi hr
        simp only at hi hr ⊢
        by_cases hip : i = (g.ws v).posted
        · subst hip
          rw [hs] at hr
          cases hr
          simp [hwant]
        · rw [if_neg hip]
          exact h.seqR i a (by omega) hr
      · intro i d hi hR hsd
        simp only at hi hR hsd ⊢
        omega
    · have h := hI v hv
      show InvW prog n N st0 v ((g.setW w _).ws v) (g.sent v) _
      rw [setW_ne _ _ hvw]
      simp only [hvw, and_false, if_false]
      exact h
  | postSend w d hw hp hl hr hs =>
    intro v hv
    by_cases hvw : v = w
    · subst hvw
      have h := hI v hv
      have hslt := (List.getElem?_eq_some_iff.1 hs).1
      show InvW prog n N st0 v ((g.setW v _).ws v) _ (fun s => g.wanted s v)
      rw [setW_self]
      have hlt : (g.ws v).posted < (prog (g.ws v).phase v).total := by
        simp only [Phase.total]; omega
      have honce := hM.sends_once _ hp v hv d
      have hnot := not_mem_take hs honce
      have hidx := idxOf_eq hs honce
      have hsent := h.sent_eq d
      simp only [hnot, if_false, List.append_nil] at hsent
      have hst := h.st_out hl
      refine ⟨h.phase_le, fun hN => absurd hN (Nat.ne_of_lt hp), (by simp only; omega), h.iters_le,
        fun hh => absurd (hl.symm.trans hh) (by simp), h.noloop, ?_, ?_, ?_, ?_, h.st_out,
        h.st_in, h.done_nodup, h.done_active, h.done_le, h.done_all⟩
      · intro b
        simp only
        rw [show (g.ws v).posted + 1 - (prog (g.ws v).phase v).recvs.length =
            (g.ws v).posted - (prog (g.ws v).phase v).recvs.length + 1 by omega]
        simp only [take_succ_mem hs]
        by_cases hb : b = d
        · subst hb
          simp only [and_self, if_true, or_true, hsent]
          rw [hst, msg, hidx]
        · rw [if_neg (by simp [hb]), h.sent_eq b]
          simp [hb]
      · intro a ha
        have := h.wanted_eq a ha
        simp only at this ⊢
        rw [this, List.take_of_length_le hr, List.take_of_length_le (by omega)]
      · intro i a hi hra
        have := (List.getElem?_eq_some_iff.1 hra).1
        simp only at hi this ⊢
        rw [if_neg (by omega)]
        exact h.seqR i a (by omega) hra
      · intro i b hi hR hsd
        simp only at hi hR hsd ⊢
        by_cases hip : i = (g.ws v).posted
        · subst hip
          rw [hs] at hsd
          cases hsd
          simp [hsent]
        · rw [if_neg hip]
          exact h.seqS i b (by omega) hR hsd
    · have h := hI v hv
      show InvW prog n N st0 v ((g.setW w _).ws v) _ (fun s => g.wanted s v)
      rw [setW_ne _ _ hvw]
      simp only [hvw, false_and, if_false]
      exact h
  | enter w hw hp hl hpost =>
    intro v hv
    by_cases hvw : v = w
    · subst hvw
      have h := hI v hv
      rw [setW_self]
      show InvW prog n N st0 v _ (g.sent v) (fun s => g.wanted s v)
      have hd := h.noloop hl
      refine ⟨h.phase_le, fun hN => absurd hN (Nat.ne_of_lt hp), h.posted_le, h.iters_le,
        fun _ => hpost, fun hh => absurd hh (by simp), h.sent_eq, h.wanted_eq, h.seqR, h.seqS,
        fun hh => absurd hh (by simp), fun _ => ?_, h.done_nodup, h.done_active, h.done_le, h.done_all⟩
      simp only [hd.2, List.reverse_nil, List.foldl_nil]
      rw [h.st_out hl]
    · rw [setW_ne _ _ hvw]; exact hI v hv
  | waitRecv w i s m hw hp hl hit hnd hs hm =>
    intro v hv
    by_cases hvw : v = w
    · subst hvw
      have h := hI v hv
      rw [setW_self]
      show InvW prog n N st0 v _ (g.sent v) (fun s => g.wanted s v)
      have hact : (prog (g.ws v).phase v).Active i := Or.inl ⟨s, hs⟩
      have hdl : (g.ws v).done.length = (g.ws v).iters := by
        have := h.done_le
        by_contra hne
        exact hnd (h.done_all (by omega) i hact)
      have hsn : s < n := hM.recvs_range _ hp v hv s (List.mem_of_getElem? hs)
      have hseq := h.seqR i s (by rw [h.loop_posted hl]; exact active_lt hact) hs
      rw [hseq] at hm
      have hmm := (channel_content hM hI hsn hv hp (List.mem_of_getElem? hs)).1 m hm
      refine ⟨h.phase_le, fun hN => absurd hN (Nat.ne_of_lt hp), h.posted_le,
        (by simp only; omega), h.loop_posted, fun hh => absurd (hl.symm.trans hh) (by simp),
        h.sent_eq, h.wanted_eq, h.seqR, h.seqS,
        fun hh => absurd (hl.symm.trans hh) (by simp), fun _ => ?_,
        List.nodup_cons.2 ⟨hnd, h.done_nodup⟩, ?_, ?_, ?_⟩
      · simp only [List.reverse_cons, List.foldl_append, List.foldl_cons, List.foldl_nil]
        rw [← h.st_in hl]
        simp only [U, hs]
        rw [hmm]
      · intro j hj
        rcases List.mem_cons.1 hj with rfl | hj
        · exact hact
        · exact h.done_active j hj
      · simp only [List.length_cons]; omega
      · intro hh; simp only [List.length_cons] at hh; omega
    · rw [setW_ne _ _ hvw]; exact hI v hv
  | waitSend w i d hw hp hl hit hnd hr hs hm =>
    intro v hv
    by_cases hvw : v = w
    · subst hvw
      have h := hI v hv
      rw [setW_self]
      show InvW prog n N st0 v _ (g.sent v) (fun s => g.wanted s v)
      have hact : (prog (g.ws v).phase v).Active i := Or.inr ⟨hr, d, hs⟩
      have hdl : (g.ws v).done.length = (g.ws v).iters := by
        have := h.done_le
        by_contra hne
        exact hnd (h.done_all (by omega) i hact)
      refine ⟨h.phase_le, fun hN => absurd hN (Nat.ne_of_lt hp), h.posted_le,
        (by simp only; omega), h.loop_posted, fun hh => absurd (hl.symm.trans hh) (by simp),
        h.sent_eq, h.wanted_eq, h.seqR, h.seqS,
        fun hh => absurd (hl.symm.trans hh) (by simp), fun _ => ?_,
        List.nodup_cons.2 ⟨hnd, h.done_nodup⟩, ?_, ?_, ?_⟩
      · simp only [List.reverse_cons, List.foldl_append, List.foldl_cons, List.foldl_nil]
        rw [← h.st_in hl]
        simp only [U, List.getElem?_eq_none hr]
      · intro j hj
        rcases List.mem_cons.1 hj with rfl | hj
        · exact hact
        · exact h.done_active j hj
      · simp only [List.length_cons]; omega
      · intro hh; simp only [List.length_cons] at hh; omega
    · rw [setW_ne _ _ hvw]; exact hI v hv
  | waitNull w hw hp hl hit hall =>
    intro v hv
    by_cases hvw : v = w
    · subst hvw
      have h := hI v hv
      rw [setW_self]
      show InvW prog n N st0 v _ (g.sent v) (fun s => g.wanted s v)
      exact ⟨h.phase_le, fun hN => absurd hN (Nat.ne_of_lt hp), h.posted_le,
        (by simp only; omega), h.loop_posted, fun hh => absurd (hl.symm.trans hh) (by simp),
        h.sent_eq, h.wanted_eq, h.seqR, h.seqS, h.st_out, h.st_in, h.done_nodup, h.done_active,
        by have := h.done_le; simp only; omega, fun _ => hall⟩
    · rw [setW_ne _ _ hvw]; exact hI v hv
  | next w hw hp hl hit =>
    intro v hv
    by_cases hvw : v = w
    · subst hvw
      have h := hI v hv
      rw [setW_self]
      show InvW prog n N st0 v _ (g.sent v) (fun s => g.wanted s v)
      have hall := h.all_done hit
      have hpost := h.loop_posted hl
      refine ⟨(by simp only; omega), fun _ => ⟨rfl, rfl⟩, by simp, by simp, fun hh => absurd hh (by simp),
        fun _ => ⟨rfl, rfl⟩, ?_, ?_, fun i s hi => absurd hi (by simp), fun i d hi => absurd hi (by simp),
        fun _ => ?_, fun hh => absurd hh (by simp), List.nodup_nil, by simp, by simp, by simp⟩
      · intro d
        rw [h.sent_eq d, hpost, Phase.total, Nat.add_sub_cancel_left,
          List.take_of_length_le (Nat.le_refl _)]
        simp only [Nat.zero_sub, List.take_zero, List.not_mem_nil, if_false, List.append_nil]
        rw [msgs_succ]
      · intro s hsn
        have := h.wanted_eq s hsn
        simp only at this ⊢
        rw [this, hpost, List.take_of_length_le (by rw [Phase.total]; omega), msgs_succ]
        simp only [← hM.agree _ hp s hsn v hv, List.take_zero, List.not_mem_nil, if_false]
        split <;> simp
      · show (g.ws v).st = lock prog st0 ((g.ws v).phase + 1) v
        rw [h.st_in hl, lock_succ]
        exact fold_any_order hc hp hv h.done_nodup hall _
    · rw [setW_ne _ _ hvw]; exact hI v hv

theorem inv_exec (hM : Matched prog n N) (hc : Commutes prog n N) {k : Nat} {g g' : GState σ μ}
    (hI : Inv prog n N st0 g) (h : Exec prog n N eager k g g') : Inv prog n N st0 g' := by
  induction h with
  | refl => exact hI
  | tail _ hs ih => exact inv_step hM hc (ih hI) hs

/-! ## Progress and termination -/

theorem progress (hM : Matched prog n N) {g : GState σ μ} (hI : Inv prog n N st0 g)
    (hw : ∃ w, w < n ∧ (g.ws w).phase < N) : ∃ g', Step prog n N eager g g' := by
  -- a worker with minimal phase
  obtain ⟨w, ⟨hwn, hwN⟩, hmin⟩ : ∃ w, (w < n ∧ (g.ws w).phase < N) ∧
      ∀ v, v < n → (g.ws w).phase ≤ (g.ws v).phase := by
    have hex : ∃ p w, w < n ∧ (g.ws w).phase = p := by
      obtain ⟨w, h, _⟩ := hw
      exact ⟨_, w, h, rfl⟩
    classical
    obtain ⟨w, h, he⟩ := Nat.find_spec hex
    have hm : ∀ v, v < n → (g.ws w).phase ≤ (g.ws v).phase := by
      intro v hv
      rw [he]
      exact Nat.find_min' hex ⟨v, hv, rfl⟩
    obtain ⟨v, hv, hvN⟩ := hw
    exact ⟨w, ⟨h, Nat.lt_of_le_of_lt (hm v hv) hvN⟩, hm⟩
  -- a worker outside the loop can always move
  have hout : ∀ v, v < n → (g.ws v).phase < N → (g.ws v).inLoop = false →
      ∃ g', Step prog n N eager g g' := by
    intro v hv hvN hl
    have h := hI v hv
    rcases Nat.lt_or_ge (g.ws v).posted (prog (g.ws v).phase v).total with hlt | hge
    · by_cases hR : (g.ws v).posted < (prog (g.ws v).phase v).recvs.length
      · cases hs : (prog (g.ws v).phase v).recvs[(g.ws v).posted] with
        | none => exact ⟨_, Step.postNull g v hv hvN hl
            (Or.inl (by rw [List.getElem?_eq_getElem hR, hs]))⟩
        | some s => exact ⟨_, Step.postRecv g v s hv hvN hl (by rw [List.getElem?_eq_getElem hR, hs])⟩
      · have hS : (g.ws v).posted - (prog (g.ws v).phase v).recvs.length <
            (prog (g.ws v).phase v).sends.length := by simp only [Phase.total] at hlt; omega
        cases hs : (prog (g.ws v).phase v).sends[
            (g.ws v).posted - (prog (g.ws v).phase v).recvs.length] with
        | none => exact ⟨_, Step.postNull g v hv hvN hl
            (Or.inr ⟨by omega, by rw [List.getElem?_eq_getElem hS, hs]⟩)⟩
        | some d => exact ⟨_, Step.postSend g v d hv hvN hl (by omega)
            (by rw [List.getElem?_eq_getElem hS, hs])⟩
    · exact ⟨_, Step.enter g v hv hvN hl (Nat.le_antisymm h.posted_le hge)⟩
  by_cases hl : (g.ws w).inLoop = false
  · exact hout w hwn hwN hl
  have hl : (g.ws w).inLoop = true := by simpa using hl
  have h := hI w hwn
  rcases Nat.lt_or_ge (g.ws w).iters (prog (g.ws w).phase w).total with hit | hit
  swap
  · exact ⟨_, Step.next g w hwn hwN hl (Nat.le_antisymm h.iters_le hit)⟩
  by_cases hall : ∀ i, (prog (g.ws w).phase w).Active i → i ∈ (g.ws w).done
  · exact ⟨_, Step.waitNull g w hwn hwN hl hit hall⟩
  obtain ⟨i, hi⟩ := Classical.not_forall.1 hall
  obtain ⟨hact, hnd⟩ := Classical.not_imp.1 hi
  have hip : i < (g.ws w).posted := by rw [h.loop_posted hl]; exact active_lt hact
  rcases hact with ⟨s, hs⟩ | ⟨hR, d, hs⟩
  · have hmem := List.mem_of_getElem? hs
    have hsn := hM.recvs_range _ hwN w hwn s hmem
    have hcc := channel_content hM hI hsn hwn hwN hmem
    rw [← h.seqR i s hip hs] at hcc
    rcases Nat.lt_or_eq_of_le (hmin s hsn) with hlt | heq
    · exact ⟨_, Step.waitRecv g w i s _ hwn hwN hl hit hnd hs (hcc.2.2 hlt)⟩
    · by_cases hls : (g.ws s).inLoop = false
      · exact hout s hsn (by omega) hls
      · exact ⟨_, Step.waitRecv g w i s _ hwn hwN hl hit hnd hs
          (hcc.2.1 heq.symm (by simpa using hls))⟩
  · have hmem := List.mem_of_getElem? hs
    have hdn := hM.sends_range _ hwN w hwn d hmem
    rcases Nat.lt_or_eq_of_le (hmin d hdn) with hlt | heq
    · have := wanted_enough hM hI hwn hdn hwN hmem (Or.inl hlt)
      rw [← h.seqS i d hip hR hs] at this
      exact ⟨_, Step.waitSend g w i d hwn hwN hl hit hnd hR hs (Or.inr this)⟩
    · by_cases hls : (g.ws d).inLoop = false
      · exact hout d hdn (by omega) hls
      · have := wanted_enough hM hI hwn hdn hwN hmem (Or.inr ⟨heq.symm, by simpa using hls⟩)
        rw [← h.seqS i d hip hR hs] at this
        exact ⟨_, Step.waitSend g w i d hwn hwN hl hit hnd hR hs (Or.inr this)⟩

/-- Steps a worker takes in one phase. -/
def cost (prog : Nat → Nat → Phase σ μ) (w p : Nat) : Nat := 2 * (prog p w).total + 2

/-- Steps taken so far by a worker. -/
def taken (prog : Nat → Nat → Phase σ μ) (w : Nat) (x : WState σ) : Nat :=
  ((List.range x.phase).map (cost prog w)).sum + x.posted + x.iters + x.inLoop.toNat

/-- Steps taken so far by all workers. -/
def takenAll (prog : Nat → Nat → Phase σ μ) (n : Nat) (g : GState σ μ) : Nat :=
  ((List.range n).map fun w => taken prog w (g.ws w)).sum

theorem sum_update {n w : Nat} (hw : w < n) (f f' : Nat → Nat) (h : f' w = f w + 1)
    (hne : ∀ v, v ≠ w → f' v = f v) :
    ((List.range n).map f').sum = ((List.range n).map f).sum + 1 := by
  induction n with
  | zero => omega
  | succ n ih =>
    rw [List.range_succ, List.map_append, List.map_append, List.sum_append, List.sum_append]
    simp only [List.map_cons, List.map_nil, List.sum_cons, List.sum_nil, Nat.add_zero]
    by_cases hwn : w = n
    · subst hwn
      have : (List.range w).map f' = (List.range w).map f :=
        List.map_congr_left fun v hv => hne v (by have := List.mem_range.1 hv; omega)
      rw [this, h]
      omega
    · rw [ih (by omega), hne n (by omega)]
      omega

theorem step_taken {g g' : GState σ μ} (hI : Inv prog n N st0 g) (hs : Step prog n N eager g g') :
    takenAll prog n g' = takenAll prog n g + 1 := by
  have key : ∀ (w : Nat), w < n → (∀ v, v ≠ w → g'.ws v = g.ws v) →
      taken prog w (g'.ws w) = taken prog w (g.ws w) + 1 →
      takenAll prog n g' = takenAll prog n g + 1 := by
    intro w hw hne h
    exact sum_update hw _ _ h fun v hv => by rw [hne v hv]
  cases hs with
  | postNull w hw hp hl hs =>
    refine key w hw (fun v hv => setW_ne g _ hv) ?_
    rw [setW_self]; simp only [taken]; omega
  | postRecv w s hw hp hl hs =>
    refine key w hw (fun v hv => setW_ne g _ hv) ?_
    show taken prog w ((g.setW w _).ws w) = _
    rw [setW_self]; simp only [taken]; omega
  | postSend w d hw hp hl hr hs =>
    refine key w hw (fun v hv => setW_ne g _ hv) ?_
    show taken prog w ((g.setW w _).ws w) = _
    rw [setW_self]; simp only [taken]; omega
  | enter w hw hp hl hpost =>
    refine key w hw (fun v hv => setW_ne g _ hv) ?_
    rw [setW_self]; simp only [taken, hl]; rfl
  | waitRecv w i s m hw hp hl hit hnd hs hm =>
    refine key w hw (fun v hv => setW_ne g _ hv) ?_
    rw [setW_self]; simp only [taken]; omega
  | waitSend w i d hw hp hl hit hnd hr hs hm =>
    refine key w hw (fun v hv => setW_ne g _ hv) ?_
    rw [setW_self]; simp only [taken]; omega
  | waitNull w hw hp hl hit hall =>
    refine key w hw (fun v hv => setW_ne g _ hv) ?_
    rw [setW_self]; simp only [taken]; omega
  | next w hw hp hl hit =>
    refine key w hw (fun v hv => setW_ne g _ hv) ?_
    rw [setW_self]
    have hpost := (hI w hw).loop_posted hl
    simp only [taken, hl, List.range_succ, List.map_append, List.sum_append, List.map_cons,
      List.map_nil, List.sum_cons, List.sum_nil, cost, hit, hpost, Bool.toNat_true, Bool.toNat_false]
    omega

theorem sum_range_mono {f : Nat → Nat} {a b : Nat} (h : a ≤ b) :
    ((List.range a).map f).sum ≤ ((List.range b).map f).sum := by
  induction h with
  | refl => exact Nat.le_refl _
  | step h ih => rw [Nat.succ_eq_add_one, List.range_succ, List.map_append, List.sum_append]; omega

theorem sum_le_sum' {f f' : Nat → Nat} {n : Nat} (h : ∀ w, w < n → f w ≤ f' w) :
    ((List.range n).map f).sum ≤ ((List.range n).map f').sum := by
  induction n with
  | zero => simp
  | succ n ih =>
    rw [List.range_succ, List.map_append, List.map_append, List.sum_append, List.sum_append]
    have := ih fun w hw => h w (by omega)
    have := h n (by omega)
    simp only [List.map_cons, List.map_nil, List.sum_cons, List.sum_nil]
    omega

theorem taken_le {g : GState σ μ} (hI : Inv prog n N st0 g) {w : Nat} (hw : w < n) :
    taken prog w (g.ws w) ≤ ((List.range N).map (cost prog w)).sum := by
  have h := hI w hw
  by_cases hN : (g.ws w).phase = N
  · obtain ⟨h1, h2⟩ := h.final hN
    have := (h.noloop h2).1
    simp [taken, h1, h2, this, hN]
  · have hlt : (g.ws w).phase + 1 ≤ N := by have := h.phase_le; omega
    have := sum_range_mono (f := cost prog w) hlt
    rw [List.range_succ, List.map_append, List.sum_append] at this
    simp only [List.map_cons, List.map_nil, List.sum_cons, List.sum_nil, cost] at this
    have h1 := h.posted_le
    have h2 := h.iters_le
    have h3 : (g.ws w).inLoop.toNat ≤ 1 := Bool.toNat_le _
    simp only [taken]
    unfold cost at this ⊢
    omega

theorem exec_taken (hM : Matched prog n N) (hc : Commutes prog n N) {k : Nat} {g g' : GState σ μ}
    (hI : Inv prog n N st0 g) (h : Exec prog n N eager k g g') :
    takenAll prog n g' = takenAll prog n g + k := by
  induction h with
  | refl => rfl
  | tail he hs ih =>
    rw [step_taken (inv_exec hM hc hI he) hs, ih hI]
    omega

end Verif.Exchange
