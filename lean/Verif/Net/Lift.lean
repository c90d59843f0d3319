import Verif.Net.Async
import Verif.Exchange.Machine
import Mathlib.Data.List.GetD

/-!
# Exchanges as phases of a network

A phase of the exchange machine (`Exchange.Phase`: receives, sends, a `Waitany` loop) as a phase of the network
machine, and the agreement of the two reference semantics.
-/

namespace Verif.Net

variable {σ μ τ ν : Type} {W : List Nat} {S : Nat → σ}

/-- Access to a part of the local data. -/
structure Lens (σ τ : Type) where
  get : σ → τ
  set : τ → σ → σ
  get_set : ∀ y x, get (set y x) = y
  set_get : ∀ x, set (get x) x = x
  set_set : ∀ y y' x, set y (set y' x) = set y x

/-- Messages of the exchange inside the messages of the network. -/
structure Inj (ν μ : Type) where
  inj : ν → μ
  prj : μ → Option ν
  prj_inj : ∀ m, prj (inj m) = some m

/-- What is done with a received message. -/
def unpackAt (L : Lens σ τ) (I : Inj ν μ) (f : ν → τ → τ) (ms : List μ) (x : σ) : σ :=
  match ms.head?.bind I.prj with
  | some m => L.set (f m (L.get x)) x
  | none => x

/-- Receive request `k` of worker `w`; `M` are the members of the communicator, `cr k` stands for communicator and tag. -/
def recvReq (M : List Nat) (cr : Nat → Nat) (L : Lens σ τ) (I : Inj ν μ) (junk : μ) (ph : Exchange.Phase τ ν) (w k : Nat) :
    Option (Req σ μ) :=
  match ph.recvs[k]? with
  | some (some s) => some ⟨.msg (cr k) (M.getD s 0) w, junk, [M.getD s 0], unpackAt L I (ph.unpack k)⟩
  | _ => none

/-- Send request `j` of worker `w`. -/
def sendReq (M : List Nat) (cs : Nat → Nat) (L : Lens σ τ) (I : Inj ν μ) (ph : Exchange.Phase τ ν) (w : Nat) (x : σ)
    (j : Nat) : Option (Req σ μ) :=
  match ph.sends[j]? with
  | some (some d) => some ⟨.msg (cs j) w (M.getD d 0), I.inj (ph.pack j (L.get x)), [], fun _ x => x⟩
  | _ => none

/-- A phase of the exchange machine, on the workers `M` of a communicator; `ph w x` is the phase of worker `w` with
local data `x`.  `cr k`, `cs j` stand for the communicator and the tag of receive `k` and send `j`. -/
def liftPhase (M : List Nat) (cr cs : Nat → Nat) (L : Lens σ τ) (I : Inj ν μ) (junk : μ)
    (ph : Nat → σ → Exchange.Phase τ ν) : Nat → σ → Phase σ μ := fun w x =>
  if w ∈ M then
    ⟨(List.range (ph w x).recvs.length).filterMap (recvReq M cr L I junk (ph w x) w) ++
        (List.range (ph w x).sends.length).filterMap (sendReq M cs L I (ph w x) w x),
      fun y => L.set ((ph w x).work (L.get y)) y, none⟩
  else ⟨[], id, none⟩

/-- The exchange of one phase, workers numbered by rank. -/
def rankProg (M : List Nat) (ph : Nat → σ → Exchange.Phase τ ν) (S : Nat → σ) (_ r : Nat) : Exchange.Phase τ ν :=
  ph (M.getD r 0) (S (M.getD r 0))

/-- What makes a lifted phase work. -/
structure LiftOK (W M : List Nat) (cr cs : Nat → Nat) (ph : Nat → σ → Exchange.Phase τ ν) (S : Nat → σ) : Prop where
  nodup : M.Nodup
  sub : ∀ w ∈ M, w ∈ W
  matched : Exchange.Matched (rankProg M ph S) M.length 1
  commutes : Exchange.Commutes (rankProg M ph S) M.length 1
  noself : ∀ r, r < M.length → some r ∉ (rankProg M ph S 0 r).recvs
  tags : ∀ r, r < M.length → ∀ s, s < M.length → ∀ k j, (rankProg M ph S 0 r).recvs[k]? = some (some s) →
    (rankProg M ph S 0 s).sends[j]? = some (some r) → cr k = cs j

variable {M : List Nat} {cr cs : Nat → Nat} {L : Lens σ τ} {I : Inj ν μ} {junk : μ} {ph : Nat → σ → Exchange.Phase τ ν}

theorem getD_idxOf {w : Nat} (h : w ∈ M) : M.getD (M.idxOf w) 0 = w := by
  have := List.idxOf_lt_length_of_mem h
  rw [List.getD_eq_getElem _ _ this]
  exact List.getElem_idxOf this

theorem idxOf_getD {r : Nat} (hn : M.Nodup) (h : r < M.length) : M.idxOf (M.getD r 0) = r := by
  rw [List.getD_eq_getElem _ _ h]
  exact hn.idxOf_getElem r h

theorem getD_mem {r : Nat} (h : r < M.length) : M.getD r 0 ∈ M := by
  rw [List.getD_eq_getElem _ _ h]; exact List.getElem_mem h

theorem getD_inj {r s : Nat} (hn : M.Nodup) (hr : r < M.length) (hs : s < M.length) (h : M.getD r 0 = M.getD s 0) :
    r = s := by
  rw [← idxOf_getD hn hr, h, idxOf_getD hn hs]

theorem count_le_one_inj {α : Type} [BEq α] [LawfulBEq α] {l : List α} {a : α} (h : l.count a ≤ 1) {i j : Nat}
    (hi : l[i]? = some a) (hj : l[j]? = some a) : i = j := by
  by_contra hne
  have hsub : [i, j].map (fun _ => a) = [a, a] := rfl
  have : ∀ (l : List α) (i j : Nat), i < j → l[i]? = some a → l[j]? = some a → 2 ≤ l.count a := by
    intro l
    induction l with
    | nil => intro i j _ hi; simp at hi
    | cons b l ih =>
      intro i j hij hi hj
      cases i with
      | zero =>
        cases j with
        | zero => omega
        | succ j =>
          simp only [List.getElem?_cons_zero, Option.some.injEq, List.getElem?_cons_succ] at hi hj
          subst hi
          have := List.count_pos_iff.2 (List.mem_of_getElem? hj)
          rw [List.count_cons_self]
          omega
      | succ i =>
        cases j with
        | zero => omega
        | succ j =>
          simp only [List.getElem?_cons_succ] at hi hj
          have := ih i j (by omega) hi hj
          have := List.count_le_count_cons (a := a) (b := b) (l := l)
          omega
  rcases Nat.lt_or_gt_of_ne hne with h1 | h1
  · have := this l i j h1 hi hj; omega
  · have := this l j i h1 hj hi; omega

theorem getElem?_idxOf {α : Type} [BEq α] [LawfulBEq α] {l : List α} {a : α} (h : a ∈ l) : l[l.idxOf a]? = some a := by
  have := List.idxOf_lt_length_of_mem h
  rw [List.getElem?_eq_getElem this]
  exact congrArg some (List.getElem_idxOf this)

theorem mem_recvs {r : Req σ μ} {p : Exchange.Phase τ ν} {w : Nat} :
    r ∈ (List.range p.recvs.length).filterMap (recvReq M cr L I junk p w) ↔
      ∃ k s, p.recvs[k]? = some (some s) ∧
        r = ⟨.msg (cr k) (M.getD s 0) w, junk, [M.getD s 0], unpackAt L I (p.unpack k)⟩ := by
  rw [List.mem_filterMap]
  constructor
  · rintro ⟨k, -, hk⟩
    unfold recvReq at hk
    split at hk
    · next s h => exact ⟨k, s, h, (Option.some.inj hk).symm⟩
    · cases hk
  · rintro ⟨k, s, h, rfl⟩
    refine ⟨k, List.mem_range.2 (List.getElem?_eq_some_iff.1 h).1, ?_⟩
    unfold recvReq
    rw [h]

theorem mem_sends {r : Req σ μ} {p : Exchange.Phase τ ν} {w : Nat} {x : σ} :
    r ∈ (List.range p.sends.length).filterMap (sendReq M cs L I p w x) ↔
      ∃ j d, p.sends[j]? = some (some d) ∧
        r = ⟨.msg (cs j) w (M.getD d 0), I.inj (p.pack j (L.get x)), [], fun _ x => x⟩ := by
  rw [List.mem_filterMap]
  constructor
  · rintro ⟨k, -, hk⟩
    unfold sendReq at hk
    split at hk
    · next s h => exact ⟨k, s, h, (Option.some.inj hk).symm⟩
    · cases hk
  · rintro ⟨k, s, h, rfl⟩
    refine ⟨k, List.mem_range.2 (List.getElem?_eq_some_iff.1 h).1, ?_⟩
    unfold sendReq
    rw [h]

theorem mem_lift {r : Req σ μ} {w : Nat} {x : σ} :
    r ∈ (liftPhase M cr cs L I junk ph w x).reqs ↔ w ∈ M ∧
      (r ∈ (List.range (ph w x).recvs.length).filterMap (recvReq M cr L I junk (ph w x) w) ∨
        r ∈ (List.range (ph w x).sends.length).filterMap (sendReq M cs L I (ph w x) w x)) := by
  by_cases hw : w ∈ M <;> simp [liftPhase, hw]

theorem find_of_mem {l : List (Req σ μ)} (hn : (l.map Req.key).Nodup) {r : Req σ μ} (h : r ∈ l) :
    l.find? (fun r' => r'.key = r.key) = some r := by
  induction l with
  | nil => simp at h
  | cons a l ih =>
    rw [List.map_cons, List.nodup_cons] at hn
    rcases List.mem_cons.1 h with rfl | h
    · simp
    · have : a.key ≠ r.key := fun e => hn.1 (e ▸ List.mem_map_of_mem h)
      rw [List.find?_cons_of_neg (by simpa using this)]
      exact ih hn.2 h

section
variable (h : LiftOK W M cr cs ph S)
include h

omit h in
theorem rank_at (w : Nat) (hw : w ∈ M) : rankProg M ph S 0 (M.idxOf w) = ph w (S w) := by
  rw [rankProg, getD_idxOf hw]

theorem LiftOK.recv_range {w : Nat} (hw : w ∈ M) {k s : Nat} (hk : (ph w (S w)).recvs[k]? = some (some s)) :
    s < M.length := by
  have := h.matched.recvs_range 0 (by omega) (M.idxOf w) (List.idxOf_lt_length_of_mem hw) s
  rw [rank_at w hw] at this
  exact this (List.mem_of_getElem? hk)

theorem LiftOK.send_range {w : Nat} (hw : w ∈ M) {k s : Nat} (hk : (ph w (S w)).sends[k]? = some (some s)) :
    s < M.length := by
  have := h.matched.sends_range 0 (by omega) (M.idxOf w) (List.idxOf_lt_length_of_mem hw) s
  rw [rank_at w hw] at this
  exact this (List.mem_of_getElem? hk)

theorem LiftOK.ne {w : Nat} (hw : w ∈ M) {k s : Nat} (hk : (ph w (S w)).recvs[k]? = some (some s)) :
    M.getD s 0 ≠ w := by
  intro e
  have hs := h.recv_range hw hk
  have : M.idxOf w = s := by rw [← e, idxOf_getD h.nodup hs]
  have h1 := h.noself _ (List.idxOf_lt_length_of_mem hw)
  rw [rank_at w hw, this] at h1
  exact h1 (List.mem_of_getElem? hk)

theorem LiftOK.sends_ne {w : Nat} (hw : w ∈ M) {k s : Nat} (hk : (ph w (S w)).sends[k]? = some (some s)) :
    M.getD s 0 ≠ w := by
  intro e
  have hs := h.send_range hw hk
  have he : M.idxOf w = s := by rw [← e, idxOf_getD h.nodup hs]
  have h1 := h.noself _ (List.idxOf_lt_length_of_mem hw)
  apply h1
  rw [← h.matched.agree 0 (by omega) _ (List.idxOf_lt_length_of_mem hw) _ (List.idxOf_lt_length_of_mem hw),
    rank_at w hw, he]
  exact List.mem_of_getElem? hk

/-- The matching send. -/
theorem LiftOK.partner {w : Nat} (hw : w ∈ M) {k s : Nat} (hk : (ph w (S w)).recvs[k]? = some (some s)) :
    M.getD s 0 ∈ M ∧ (ph (M.getD s 0) (S (M.getD s 0))).sends[(ph (M.getD s 0) (S (M.getD s 0))).sends.idxOf
      (some (M.idxOf w))]? = some (some (M.idxOf w)) ∧
      cr k = cs ((ph (M.getD s 0) (S (M.getD s 0))).sends.idxOf (some (M.idxOf w))) := by
  have hs := h.recv_range hw hk
  have hr := List.idxOf_lt_length_of_mem hw
  have hk' := hk
  rw [← rank_at (ph := ph) (S := S) w hw] at hk'
  have h1 := (h.matched.agree 0 (by omega) s hs _ hr).2 (List.mem_of_getElem? hk')
  have h2 := getElem?_idxOf h1
  exact ⟨getD_mem hs, h2, h.tags _ hr s hs k _ hk' h2⟩

theorem LiftOK.partner' {w : Nat} (hw : w ∈ M) {j d : Nat} (hk : (ph w (S w)).sends[j]? = some (some d)) :
    M.getD d 0 ∈ M ∧ ∃ k, (ph (M.getD d 0) (S (M.getD d 0))).recvs[k]? = some (some (M.idxOf w)) ∧ cr k = cs j := by
  have hs := h.send_range hw hk
  have hr := List.idxOf_lt_length_of_mem hw
  have hk' := hk
  rw [← rank_at (ph := ph) (S := S) w hw] at hk'
  have h1 := (h.matched.agree 0 (by omega) _ hr d hs).1 (List.mem_of_getElem? hk')
  have h2 := getElem?_idxOf h1
  exact ⟨getD_mem hs, _, h2, h.tags d hs _ hr _ j h2 hk'⟩

theorem liftPhase_nodup (w : Nat) : ((liftPhase M cr cs L I junk ph w (S w)).reqs.map Req.key).Nodup := by
  by_cases hw : w ∈ M
  swap
  · simp [liftPhase, hw]
  simp only [liftPhase, hw, if_true, List.map_append]
  have hr := List.idxOf_lt_length_of_mem hw
  rw [List.nodup_append]
  refine ⟨?_, ?_, ?_⟩
  · rw [List.Nodup, List.pairwise_map, List.pairwise_filterMap]
    refine List.nodup_range.imp_of_mem fun {k k'} _ _ hne r hr1 r' hr2 he => hne ?_
    unfold recvReq at hr1 hr2
    split at hr1
    · next s hs =>
      split at hr2
      · next s' hs' =>
        cases hr1; cases hr2
        simp only [Key.msg.injEq] at he
        have := getD_inj h.nodup (h.recv_range hw hs) (h.recv_range hw hs') he.2.1
        subst this
        have h1 := h.matched.recvs_once 0 (by omega) _ hr s
        rw [rank_at w hw] at h1
        exact count_le_one_inj h1 hs hs'
      · cases hr2
    · cases hr1
  · rw [List.Nodup, List.pairwise_map, List.pairwise_filterMap]
    refine List.nodup_range.imp_of_mem fun {k k'} _ _ hne r hr1 r' hr2 he => hne ?_
    unfold sendReq at hr1 hr2
    split at hr1
    · next s hs =>
      split at hr2
      · next s' hs' =>
        cases hr1; cases hr2
        simp only [Key.msg.injEq] at he
        have := getD_inj h.nodup (h.send_range hw hs) (h.send_range hw hs') he.2.2
        subst this
        have h1 := h.matched.sends_once 0 (by omega) _ hr s
        rw [rank_at w hw] at h1
        exact count_le_one_inj h1 hs hs'
      · cases hr2
    · cases hr1
  · intro a ha b hb hab
    obtain ⟨r, hr1, rfl⟩ := List.mem_map.1 ha
    obtain ⟨r', hr2, rfl⟩ := List.mem_map.1 hb
    obtain ⟨k, s, hs, rfl⟩ := mem_recvs.1 hr1
    obtain ⟨j, d, hd, rfl⟩ := mem_sends.1 hr2
    simp only [Key.msg.injEq] at hab
    exact h.ne hw hs hab.2.1

theorem liftPhase_ok : PhaseOK W (liftPhase M cr cs L I junk ph) S := by
  constructor
  · intro w _; exact liftPhase_nodup h w
  all_goals
    intro w hwW
    by_cases hw : w ∈ M
    swap
    · simp [liftPhase, hw]
  · simp only [liftPhase, hw, if_true, List.mem_append]
    rintro r (hr | hr)
    · obtain ⟨k, s, hs, rfl⟩ := mem_recvs.1 hr
      simp [Key.members]
    · obtain ⟨k, s, hs, rfl⟩ := mem_sends.1 hr
      simp [Key.members]
  · intro r hr0 u hu
    have hr := hr0
    simp only [liftPhase, hw, if_true, List.mem_append] at hr
    rcases hr with hr | hr
    · obtain ⟨k, s, hs, rfl⟩ := mem_recvs.1 hr
      simp only [Key.members, List.mem_cons, List.not_mem_nil, or_false] at hu
      rcases hu with rfl | rfl
      · obtain ⟨h1, h2, h3⟩ := h.partner hw hs
        have hm := mem_sends (M := M) (cs := cs) (L := L) (I := I) (w := M.getD s 0) (x := S (M.getD s 0)) |>.2
          ⟨_, _, h2, rfl⟩
        exact ⟨h.sub _ h1, _, mem_lift.2 ⟨h1, Or.inr hm⟩, by simp only [h3, getD_idxOf hw]⟩
      · exact ⟨h.sub _ hw, _, hr0, rfl⟩
    · obtain ⟨j, d, hd, rfl⟩ := mem_sends.1 hr
      simp only [Key.members, List.mem_cons, List.not_mem_nil, or_false] at hu
      rcases hu with rfl | rfl
      · exact ⟨h.sub _ hw, _, hr0, rfl⟩
      · obtain ⟨h1, k, h2, h3⟩ := h.partner' hw hd
        have hm := mem_recvs (M := M) (cr := cr) (L := L) (I := I) (junk := junk) (w := M.getD d 0) |>.2
          ⟨_, _, h2, rfl⟩
        exact ⟨h.sub _ h1, _, mem_lift.2 ⟨h1, Or.inl hm⟩, by simp only [h3, getD_idxOf hw]⟩
  · simp only [liftPhase, hw, if_true, List.mem_append]
    rintro r (hr | hr)
    · obtain ⟨k, s, hs, rfl⟩ := mem_recvs.1 hr
      simp [Key.members]
    · obtain ⟨k, s, hs, rfl⟩ := mem_sends.1 hr
      simp
  · simp only [liftPhase, hw, if_true]
    rw [List.pairwise_append]
    refine ⟨?_, ?_, ?_⟩
    · rw [List.pairwise_filterMap]
      refine List.nodup_range.imp_of_mem fun {k k'} _ _ hne r hr1 r' hr2 m m' x => ?_
      unfold recvReq at hr1 hr2
      split at hr1
      · next s hs =>
        split at hr2
        · next s' hs' =>
          cases hr1; cases hr2
          have hc := h.commutes 0 (by omega) _ (List.idxOf_lt_length_of_mem hw) k k' s s' hne
          rw [rank_at w hw] at hc
          have hc := hc hs hs'
          simp only [unpackAt]
          cases m.head?.bind I.prj <;> cases m'.head?.bind I.prj <;>
            simp only [L.get_set, L.set_set, hc]
        · cases hr2
      · cases hr1
    · rw [List.pairwise_filterMap]
      refine List.nodup_range.imp_of_mem fun {k k'} _ _ hne r hr1 r' hr2 m m' x => ?_
      unfold sendReq at hr1 hr2
      split at hr1
      · split at hr2
        · cases hr1; cases hr2; rfl
        · cases hr2
      · cases hr1
    · intro r _ r' hr' m m' x
      obtain ⟨j, d, hd, rfl⟩ := mem_sends.1 hr'
      rfl
  · simp [liftPhase, hw]

theorem lift_contribution {w : Nat} (hw : w ∈ M) {k s : Nat} (hk : (ph w (S w)).recvs[k]? = some (some s)) :
    contribution (liftPhase M cr cs L I junk ph) S (.msg (cr k) (M.getD s 0) w) (M.getD s 0) =
      some (I.inj ((rankProg M ph S 0 s).pack ((rankProg M ph S 0 s).sends.idxOf (some (M.idxOf w)))
        (L.get (S (M.getD s 0))))) := by
  obtain ⟨h1, h2, h3⟩ := h.partner hw hk
  have hm : (⟨.msg (cs ((ph (M.getD s 0) (S (M.getD s 0))).sends.idxOf (some (M.idxOf w)))) (M.getD s 0)
        (M.getD (M.idxOf w) 0), I.inj ((ph (M.getD s 0) (S (M.getD s 0))).pack
          ((ph (M.getD s 0) (S (M.getD s 0))).sends.idxOf (some (M.idxOf w))) (L.get (S (M.getD s 0)))), [],
        fun _ x => x⟩ : Req σ μ) ∈ (liftPhase M cr cs L I junk ph (M.getD s 0) (S (M.getD s 0))).reqs := by
    simp only [liftPhase, h1, if_true, List.mem_append]
    exact Or.inr (mem_sends.2 ⟨_, _, h2, rfl⟩)
  have hf := find_of_mem (liftPhase_nodup h (L := L) (I := I) (junk := junk) (M.getD s 0)) hm
  rw [getD_idxOf hw, ← h3] at hf
  rw [contribution, hf]
  rfl

omit h in
theorem foldl_sends (p : Exchange.Phase τ ν) (w : Nat) (x y : σ) (f : Key → Nat → Option μ) :
    ((List.range p.sends.length).filterMap (sendReq M cs L I p w x)).foldl
      (fun x r => r.get (r.deps.filterMap (f r.key)) x) y = y := by
  have : ∀ l : List (Req σ μ), (∀ r ∈ l, ∀ m x, r.get m x = x) →
      l.foldl (fun x r => r.get (r.deps.filterMap (f r.key)) x) y = y := by
    intro l hl
    induction l with
    | nil => rfl
    | cons a l ih =>
      rw [List.foldl_cons, hl a (by simp)]
      exact ih fun r hr => hl r (List.mem_cons_of_mem _ hr)
  refine this _ fun r hr m x => ?_
  obtain ⟨j, d, hd, rfl⟩ := mem_sends.1 hr
  rfl

/-- A lifted phase does what the exchange does. -/
theorem liftPhase_sync {w : Nat} (hw : w ∈ M) :
    sync (liftPhase M cr cs L I junk ph) S w =
      L.set (Exchange.lock (rankProg M ph S) (fun r => L.get (S (M.getD r 0))) 1 (M.idxOf w)) (S w) := by
  have hfold : ∀ (l : List Nat) (y : τ) (x : σ),
      (l.filterMap (recvReq M cr L I junk (ph w (S w)) w)).foldl
        (fun x r => r.get (r.deps.filterMap (contribution (liftPhase M cr cs L I junk ph) S r.key)) x) (L.set y x) =
      L.set (l.foldl (fun x k => match (ph w (S w)).recvs[k]? with
        | some (some s) =>
          (ph w (S w)).unpack k
            ((rankProg M ph S 0 s).pack ((rankProg M ph S 0 s).sends.idxOf (some (M.idxOf w)))
              (L.get (S (M.getD s 0)))) x
        | _ => x) y) x := by
    intro l
    induction l with
    | nil => intro y x; rfl
    | cons k l ih =>
      intro y x
      rw [List.filterMap_cons, List.foldl_cons]
      cases hk : (ph w (S w)).recvs[k]? with
      | none => simp only [recvReq, hk]; exact ih y x
      | some o =>
        cases o with
        | none => simp only [recvReq, hk]; exact ih y x
        | some s =>
          simp only [recvReq, hk, List.foldl_cons]
          rw [List.filterMap_cons, lift_contribution h hw hk]
          simp only [List.filterMap_nil, unpackAt, List.head?_cons, Option.bind_some, I.prj_inj, L.get_set, L.set_set]
          exact ih _ x
  rw [sync]
  simp only [liftPhase, hw, if_true, List.foldl_append]
  rw [foldl_sends, hfold]
  simp only [Exchange.lock, rank_at w hw, getD_idxOf hw]
  congr 1

omit h in
theorem liftPhase_sync_out {w : Nat} (hw : w ∉ M) : sync (liftPhase M cr cs L I junk ph) S w = S w := by
  simp [sync, liftPhase, hw]

end

/-! ## Several phases of an exchange -/

/-- Phase `p` of an exchange program `prog` as a phase of the network. -/
structure PhaseOf (W M : List Nat) (cr cs : Nat → Nat) (ph : Nat → σ → Exchange.Phase τ ν) (S : Nat → σ)
    (prog : Nat → Nat → Exchange.Phase τ ν) (N p : Nat) : Prop where
  nodup : M.Nodup
  sub : ∀ w ∈ M, w ∈ W
  lt : p < N
  matched : Exchange.Matched prog M.length N
  commutes : Exchange.Commutes prog M.length N
  noself : ∀ r, r < M.length → some r ∉ (prog p r).recvs
  tags : ∀ r, r < M.length → ∀ s, s < M.length → ∀ k j, (prog p r).recvs[k]? = some (some s) →
    (prog p s).sends[j]? = some (some r) → cr k = cs j
  same : ∀ r, r < M.length → ph (M.getD r 0) (S (M.getD r 0)) = prog p r

section
variable {prog : Nat → Nat → Exchange.Phase τ ν} {N p : Nat} (h : PhaseOf W M cr cs ph S prog N p)
include h

theorem PhaseOf.ok : LiftOK W M cr cs ph S where
  nodup := h.nodup
  sub := h.sub
  matched := by
    have hs : ∀ r, r < M.length → ∀ q, rankProg M ph S q r = prog p r := fun r hr _ => h.same r hr
    have hm := h.matched
    constructor
    · intro q _ s hs' d hd
      rw [hs s hs', hs d hd]
      exact hm.agree p h.lt s hs' d hd
    · intro q _ s hs' d
      rw [hs s hs']
      exact hm.sends_once p h.lt s hs' d
    · intro q _ s hs' d
      rw [hs s hs']
      exact hm.recvs_once p h.lt s hs' d
    · intro q _ s hs' d
      rw [hs s hs']
      exact hm.sends_range p h.lt s hs' d
    · intro q _ s hs' d
      rw [hs s hs']
      exact hm.recvs_range p h.lt s hs' d
  commutes := by
    intro q _ w hw
    rw [show rankProg M ph S q w = prog p w from h.same w hw]
    exact h.commutes p h.lt w hw
  noself := by
    intro r hr
    rw [show rankProg M ph S 0 r = prog p r from h.same r hr]
    exact h.noself r hr
  tags := by
    intro r hr s hs
    rw [show rankProg M ph S 0 r = prog p r from h.same r hr, show rankProg M ph S 0 s = prog p s from h.same s hs]
    exact h.tags r hr s hs

theorem PhaseOf.sync {st0 : Nat → τ} (hst : ∀ r, r < M.length → L.get (S (M.getD r 0)) = Exchange.lock prog st0 p r)
    {w : Nat} (hw : w ∈ M) :
    sync (liftPhase M cr cs L I junk ph) S w = L.set (Exchange.lock prog st0 (p + 1) (M.idxOf w)) (S w) := by
  rw [liftPhase_sync h.ok hw]
  congr 1
  have hr := List.idxOf_lt_length_of_mem hw
  simp only [Exchange.lock]
  rw [show rankProg M ph S 0 (M.idxOf w) = prog p (M.idxOf w) from h.same _ hr, hst _ hr]
  refine List.foldl_ext _ _ _ fun x k _ => ?_
  cases hk : (prog p (M.idxOf w)).recvs[k]? with
  | none => rfl
  | some o =>
    cases o with
    | none => rfl
    | some s =>
      have hs := h.matched.recvs_range p h.lt _ hr s (List.mem_of_getElem? hk)
      simp only
      rw [show rankProg M ph S 0 s = prog p s from h.same _ hs, hst _ hs]

end

end Verif.Net
