import Verif.Net.Lemmas

/-!
# Networks: executions that never end

If the workers agree with each other up to some phase, and then a worker waits for data another worker never provides,
it waits in all executions, whatever happens elsewhere.
-/

namespace Verif.Net

variable {σ μ : Type} {W : List Nat} {p q : Prog σ μ} {early : GState σ μ → Nat → Nat → Prop} {S : Nat → σ}

/-- Invariant of programs that begin with `p`: workers that have not yet performed `p` are where executions of `p` alone
may lead them; the others have contributed at least what `p` asks for. -/
def Pre (W : List Nat) (p : Prog σ μ) (S : Nat → σ) (g : GState σ μ) : Prop :=
  ∀ w ∈ W, ((g.ws w).phase < p.length ∧ InvW p S w (g.ws w) fun k => g.log k w) ∨
    (p.length ≤ (g.ws w).phase ∧ (∀ k, ∃ t, g.log k w = hist p S p.length k w ++ t) ∧
      ((g.ws w).phase = p.length → (g.ws w).base = run p S w))

/-- The same state, with the workers beyond `p` at the end of `p`. -/
def trunc (p : Prog σ μ) (S : Nat → σ) (g : GState σ μ) : GState σ μ where
  ws w := if (g.ws w).phase < p.length then g.ws w else
    ⟨p.length, run p S w, run p S w, 0, false, [], (g.ws w).seq⟩
  log k w := if (g.ws w).phase < p.length then g.log k w else hist p S p.length k w

theorem trunc_inv {g : GState σ μ} (h : Pre W p S g) : Inv W p S (trunc p S g) := by
  intro w hw
  rcases h w hw with ⟨hlt, hI⟩ | ⟨hge, -, -⟩
  · have e1 : (trunc p S g).ws w = g.ws w := if_pos hlt
    have e2 : (fun k => (trunc p S g).log k w) = fun k => g.log k w := funext fun k => if_pos hlt
    rw [e1, e2]
    exact hI
  · have e1 : (trunc p S g).ws w = ⟨p.length, run p S w, run p S w, 0, false, [], (g.ws w).seq⟩ :=
      if_neg (Nat.not_lt.2 hge)
    have e2 : (fun k => (trunc p S g).log k w) = fun k => hist p S p.length k w :=
      funext fun k => if_neg (Nat.not_lt.2 hge)
    rw [e1, e2]
    refine ⟨Nat.le_refl _, ?_, fun _ => ⟨rfl, rfl⟩, fun _ h => (by simp at h), fun _ => ⟨rfl, rfl⟩, fun _ h => by simp at h,
      List.nodup_nil, fun k => by simp, fun _ h => by simp at h⟩
    show run p S w = run (p.take p.length) S w
    rw [List.take_length]

/-- A worker that satisfies the invariant of `p` satisfies that of the longer program. -/
theorem pre_of_inv {w : Nat} {x : WState σ} {log : Key → List μ} (h : InvW p S w x log) :
    (x.phase < p.length ∧ InvW p S w x log) ∨
      (p.length ≤ x.phase ∧ (∀ k, ∃ t, log k = hist p S p.length k w ++ t) ∧ (x.phase = p.length → x.base = run p S w)) := by
  rcases Nat.lt_or_eq_of_le h.phase_le with hlt | heq
  · exact .inl ⟨hlt, h⟩
  · refine .inr ⟨heq ▸ Nat.le_refl _, fun k => ⟨[], ?_⟩, fun _ => ?_⟩
    · rw [h.log_eq, heq]
      simp
    · rw [h.base, heq, ref, List.take_length]

/-- A step of a worker that has not yet performed `p`. -/
theorem pre_early (hok : ProgOK W p S) {g g' : GState σ μ} (h : Pre W p S g) {w : Nat} (hw : w ∈ W)
    {t' : GState σ μ} (hs : Step W p (fun _ _ _ => True) (trunc p S g) t')
    (ew : g'.ws w = t'.ws w) (el : ∀ k, g'.log k w = t'.log k w)
    (eo : ∀ v, v ≠ w → g'.ws v = g.ws v ∧ ∀ k, g'.log k v = g.log k v) : Pre W p S g' := by
  intro v hv
  by_cases hvw : v = w
  · subst hvw
    have := step_inv hok (trunc_inv h) hs v hv
    rw [ew, show (fun k => g'.log k v) = fun k => t'.log k v from funext el]
    simpa only [el] using pre_of_inv this
  · obtain ⟨e1, e2⟩ := eo v hvw
    rw [e1]
    simp only [e2]
    exact h v hv

theorem step_pre (hok : ProgOK W p S) {g g' : GState σ μ} (h : Pre W p S g) (hs : Step W (p ++ q) early g g') :
    Pre W p S g' := by
  cases hs with
  | post w ph r hw hp hl hr =>
    by_cases hlt : (g.ws w).phase < p.length
    · have e1 : (trunc p S g).ws w = g.ws w := if_pos hlt
      have e2 : ∀ k, (trunc p S g).log k w = g.log k w := fun k => if_pos hlt
      rw [List.getElem?_append_left hlt] at hp
      refine pre_early hok h hw (Step.post (trunc p S g) w ph r hw (e1.symm ▸ hp) (e1.symm ▸ hl) (e1.symm ▸ hr)) ?_ ?_ ?_
      · show (g.setW w _).ws w = ((trunc p S g).setW w _).ws w
        rw [setW_self, setW_self, e1, e2]
      · intro k
        simp only [e2]
      · intro v hv
        refine ⟨setW_ne g _ hv, fun k => ?_⟩
        simp [hv]
    · intro v hv
      by_cases hvw : v = w
      · subst hvw
        obtain ⟨-, h2, h3⟩ := (h v hv).resolve_left fun hh => hlt hh.1
        show ((g.setW v _).ws v).phase < _ ∧ InvW p S v ((g.setW v _).ws v) _ ∨ _ ≤ ((g.setW v _).ws v).phase ∧ _ ∧
          (((g.setW v _).ws v).phase = _ → ((g.setW v _).ws v).base = _)
        rw [setW_self]
        refine .inr ⟨Nat.not_lt.1 hlt, fun k => ?_, h3⟩
        obtain ⟨t, ht⟩ := h2 k
        simp only [and_true]
        split
        · exact ⟨t ++ [r.put], by rw [ht, List.append_assoc]⟩
        · exact ⟨t, ht⟩
      · show ((g.setW w _).ws v).phase < _ ∧ InvW p S v ((g.setW w _).ws v) _ ∨ _ ≤ ((g.setW w _).ws v).phase ∧ _ ∧
          (((g.setW w _).ws v).phase = _ → ((g.setW w _).ws v).base = _)
        rw [setW_ne g _ hvw]
        simp only [hvw, and_false, if_false]
        exact h v hv
  | enter w ph hw hp hl hn =>
    by_cases hlt : (g.ws w).phase < p.length
    · have e1 : (trunc p S g).ws w = g.ws w := if_pos hlt
      have e2 : ∀ k, (trunc p S g).log k w = g.log k w := fun k => if_pos hlt
      rw [List.getElem?_append_left hlt] at hp
      refine pre_early hok h hw (Step.enter (trunc p S g) w ph hw (e1.symm ▸ hp) (e1.symm ▸ hl) (e1.symm ▸ hn)) ?_
        (fun k => (e2 k).symm) fun v hv => ⟨setW_ne g _ hv, fun k => rfl⟩
      rw [setW_self, setW_self, e1]
    · intro v hv
      by_cases hvw : v = w
      · subst hvw
        obtain ⟨-, h2, h3⟩ := (h v hv).resolve_left fun hh => hlt hh.1
        rw [setW_self]
        exact .inr ⟨Nat.not_lt.1 hlt, h2, h3⟩
      · rw [setW_ne g _ hvw]
        exact h v hv
  | complete w i ph r hw hp hl hr hi ho hd hm =>
    by_cases hlt : (g.ws w).phase < p.length
    · have e1 : (trunc p S g).ws w = g.ws w := if_pos hlt
      have e2 : ∀ k, (trunc p S g).log k w = g.log k w := fun k => if_pos hlt
      rw [List.getElem?_append_left hlt] at hp
      have hI := ((h w hw).resolve_right fun hh => Nat.not_lt.2 hh.1 hlt).2
      have hph := progOK_at hok hp
      have hrm := List.mem_of_getElem? hr
      obtain ⟨hpost, -⟩ := hI.loop ph hp hl
      have hseq := hI.seq_eq ph hp i r (by rw [hpost]; exact (List.getElem?_eq_some_iff.1 hr).1) hr
      rw [hI.base] at hrm
      have key : ∀ u ∈ r.deps, (g.ws w).seq i < ((trunc p S g).log r.key u).length ∧
          (g.log r.key u)[(g.ws w).seq i]? = ((trunc p S g).log r.key u)[(g.ws w).seq i]? := by
        intro u hu
        have hum := hph.deps w hw r hrm u hu
        obtain ⟨huW, r', hr', hk⟩ := hph.all w hw r hrm u hum
        rcases h u huW with ⟨hlu, -⟩ | ⟨hge, h2, -⟩
        · have : (trunc p S g).log r.key u = g.log r.key u := if_pos hlu
          rw [this]
          exact ⟨hd u hu, rfl⟩
        · have e3 : (trunc p S g).log r.key u = hist p S p.length r.key u := if_neg (Nat.not_lt.2 hge)
          have hlen := hist_length hok (hph.own w hw r hrm) hum hw huW (g.ws w).phase
          have hc : (contrib p S (g.ws w).phase r.key u).isSome := by
            unfold contrib
            rw [hp]
            exact contribution_isSome.2 ⟨r', hr', hk⟩
          obtain ⟨m, hm'⟩ := Option.isSome_iff_exists.1 hc
          obtain ⟨t, ht⟩ := hist_prefix (prog := p) (S := S) (show (g.ws w).phase + 1 ≤ p.length from hlt) r.key u
          have hlt' : (g.ws w).seq i < (hist p S p.length r.key u).length := by
            rw [ht, hist_succ, hm', hseq, hlen]
            simp
          obtain ⟨t', ht'⟩ := h2 r.key
          rw [e3, ht', List.getElem?_append_left hlt']
          exact ⟨hlt', rfl⟩
      refine pre_early hok h hw (Step.complete (trunc p S g) w i ph r hw (e1.symm ▸ hp) (e1.symm ▸ hl) (e1.symm ▸ hr)
        (e1.symm ▸ hi) (e1.symm ▸ ho) (fun u hu => by rw [e1]; exact (key u hu).1) (Or.inr trivial)) ?_
        (fun k => (e2 k).symm) fun v hv => ⟨setW_ne g _ hv, fun k => rfl⟩
      rw [setW_self, setW_self, e1]
      have : g.read r.key ((g.ws w).seq i) r.deps = (trunc p S g).read r.key ((g.ws w).seq i) r.deps :=
        List.filterMap_congr fun u hu => (key u hu).2
      rw [this]
    · intro v hv
      by_cases hvw : v = w
      · subst hvw
        obtain ⟨-, h2, h3⟩ := (h v hv).resolve_left fun hh => hlt hh.1
        rw [setW_self]
        exact .inr ⟨Nat.not_lt.1 hlt, h2, h3⟩
      · rw [setW_ne g _ hvw]
        exact h v hv
  | next w ph hw hp hl hn =>
    by_cases hlt : (g.ws w).phase < p.length
    · have e1 : (trunc p S g).ws w = g.ws w := if_pos hlt
      have e2 : ∀ k, (trunc p S g).log k w = g.log k w := fun k => if_pos hlt
      rw [List.getElem?_append_left hlt] at hp
      refine pre_early hok h hw (Step.next (trunc p S g) w ph hw (e1.symm ▸ hp) (e1.symm ▸ hl) (e1.symm ▸ hn)) ?_
        (fun k => (e2 k).symm) fun v hv => ⟨setW_ne g _ hv, fun k => rfl⟩
      rw [setW_self, setW_self, e1]
    · intro v hv
      by_cases hvw : v = w
      · subst hvw
        obtain ⟨-, h2, h3⟩ := (h v hv).resolve_left fun hh => hlt hh.1
        rw [setW_self]
        refine .inr ⟨by simp only; omega, h2, fun e => ?_⟩
        simp only at e
        omega
      · rw [setW_ne g _ hvw]
        exact h v hv

theorem exec_pre (hok : ProgOK W p S) {n : Nat} {g : GState σ μ} (he : Exec W (p ++ q) early n (GState.init S) g) :
    Pre W p S g := by
  obtain ⟨g0, h0⟩ : ∃ g0 : GState σ μ, g0 = GState.init S := ⟨_, rfl⟩
  rw [← h0] at he
  induction he with
  | refl =>
    subst h0
    exact fun w hw => pre_of_inv (inv_init W p S w hw)
  | tail _ hs ih => exact step_pre hok (ih h0) hs

theorem hist_len_mono {m n : Nat} (h : m ≤ n) (k : Key) (w : Nat) : (hist p S m k w).length ≤ (hist p S n k w).length := by
  obtain ⟨t, ht⟩ := hist_prefix (prog := p) (S := S) h k w
  rw [ht, List.length_append]
  omega

/-- What worker `a` has done in the phase after `p`, if it waits there for request `i` on channel `K`. -/
structure Waits (p : Prog σ μ) (S : Nat → σ) (a i : Nat) (K : Key) (len : Nat) (x : WState σ) : Prop where
  le : x.phase ≤ p.length
  posted : x.phase = p.length → x.inLoop = true → x.posted = len
  seq : x.phase = p.length → i < x.posted → (hist p S p.length K a).length ≤ x.seq i
  nodup : x.phase = p.length → x.done.Nodup
  lt : x.phase = p.length → ∀ j ∈ x.done, j < len
  not : x.phase = p.length → i ∉ x.done
  clear : x.phase = p.length → x.inLoop = false → x.done = []

/-- A worker that waits for a contribution that never comes never gets beyond the phase. -/
theorem never_passes (hok : ProgOK W p S) {a u i : Nat} (ha : a ∈ W) (hu : u ∈ W) {ph : Nat → σ → Phase σ μ} {r : Req σ μ}
    (hr : (ph a (run p S a)).reqs[i]? = some r) (ham : a ∈ r.key.members) (hum : u ∈ r.key.members) (hd : u ∈ r.deps)
    (hno : ∀ ph' ∈ ph :: q, ∀ x, ∀ r' ∈ (ph' u x).reqs, r'.key ≠ r.key) {n : Nat} {g : GState σ μ}
    (he : Exec W (p ++ ph :: q) early n (GState.init S) g) : (g.ws a).phase ≤ p.length := by
  have hlen := hist_length hok ham hum ha hu p.length
  suffices key : Waits p S a i r.key (ph a (run p S a)).reqs.length (g.ws a) ∧
      (g.log r.key u).length ≤ (hist p S p.length r.key u).length from key.1.le
  obtain ⟨g0, h0⟩ : ∃ g0 : GState σ μ, g0 = GState.init S := ⟨_, rfl⟩
  rw [← h0] at he
  induction he with
  | refl =>
    subst h0
    exact ⟨⟨Nat.zero_le _, fun _ h => by simp [GState.init] at h, fun _ h => by simp [GState.init] at h, fun _ => List.nodup_nil,
      fun _ j hj => by simp [GState.init] at hj, fun _ h => by simp [GState.init] at h, fun _ _ => rfl⟩, Nat.zero_le _⟩
  | @tail n _ g g'' he hs ih =>
    obtain ⟨hw, hlog⟩ := ih h0
    have hpre : Pre W p S g := by subst h0; exact exec_pre hok he
    have hpre' := step_pre hok hpre hs
    have hbase : (g.ws a).phase = p.length → (g.ws a).base = run p S a := fun e =>
      ((hpre a ha).resolve_left fun hh => by omega).2.2 e
    have hat : ∀ ph', (g.ws a).phase = p.length → (p ++ ph :: q)[(g.ws a).phase]? = some ph' → ph' = ph := by
      intro ph' e hp
      rw [e, List.getElem?_append_right (Nat.le_refl _), Nat.sub_self] at hp
      simpa using hp.symm
    cases hs with
    | post w ph' r' hwW hp hl hr' =>
      constructor
      · by_cases hwa : w = a
        · subst hwa
          show Waits p S w i r.key _ ((g.setW w _).ws w)
          rw [setW_self]
          refine ⟨hw.le, fun e h => (by rw [hl] at h; cases h), fun e h => ?_, hw.nodup, hw.lt, hw.not, hw.clear⟩
          simp only at e h ⊢
          split
          · next hi =>
            obtain rfl := hat ph' e hp
            rw [hbase e, ← hi, hr] at hr'
            cases hr'
            obtain ⟨t, ht⟩ := ((hpre w ha).resolve_left fun hh => by omega).2.1 r.key
            rw [ht, List.length_append]
            omega
          · next hi => exact hw.seq e (by omega)
        · show Waits p S a i r.key _ ((g.setW w _).ws a)
          rw [setW_ne g _ (Ne.symm hwa)]
          exact hw
      · by_cases hwu : w = u
        · subst hwu
          by_cases hlt : (g.ws w).phase < p.length
          · have hph : ∀ x : WState σ, x.phase = (g.ws w).phase → ((g.setW w x).ws w).phase < p.length := fun x e => by
              rw [setW_self, e]; exact hlt
            obtain ⟨-, hI⟩ := (hpre' w hu).resolve_right fun hh => Nat.not_lt.2 hh.1 (hph _ rfl)
            refine Nat.le_trans (hI.log_length r.key) ?_
            refine hist_len_mono ?_ r.key w
            exact hph { g.ws w with posted := _, seq := _ } rfl
          · have hne : r'.key ≠ r.key := by
              rw [List.getElem?_append_right (Nat.not_lt.1 hlt)] at hp
              exact hno ph' (List.mem_of_getElem? hp) _ r' (List.mem_of_getElem? hr')
            simp only [hne.symm, false_and, if_false]
            exact hlog
        · simp only [Ne.symm hwu, and_false, if_false]
          exact hlog
    | enter w ph' hwW hp hl hn =>
      refine ⟨?_, hlog⟩
      by_cases hwa : w = a
      · subst hwa
        rw [setW_self]
        refine ⟨hw.le, fun e _ => ?_, hw.seq, hw.nodup, hw.lt, hw.not, fun _ h => by cases h⟩
        obtain rfl := hat ph' e hp
        rw [← hbase e]
        exact hn
      · rw [setW_ne g _ (Ne.symm hwa)]
        exact hw
    | complete w j ph' r' hwW hp hl hr' hj ho hd' hm =>
      refine ⟨?_, hlog⟩
      by_cases hwa : w = a
      · subst hwa
        rw [setW_self]
        refine ⟨hw.le, hw.posted, hw.seq, fun e => List.nodup_cons.2 ⟨hj, hw.nodup e⟩, fun e => ?_, fun e hm' => ?_,
          fun _ h => by rw [hl] at h; cases h⟩
        · obtain rfl := hat ph' e hp
          rw [hbase e] at hr'
          intro j' hj'
          rcases List.mem_cons.1 hj' with rfl | hj'
          · exact (List.getElem?_eq_some_iff.1 hr').1
          · exact hw.lt e j' hj'
        · obtain rfl := hat ph' e hp
          rcases List.mem_cons.1 hm' with rfl | hm'
          · rw [hbase e, hr] at hr'
            cases hr'
            have h1 := hd' u hd
            have h2 := hw.seq e (by rw [hw.posted e hl]; exact (List.getElem?_eq_some_iff.1 hr).1)
            omega
          · exact hw.not e hm'
      · rw [setW_ne g _ (Ne.symm hwa)]
        exact hw
    | next w ph' hwW hp hl hn =>
      refine ⟨?_, hlog⟩
      by_cases hwa : w = a
      · subst hwa
        rw [setW_self]
        by_cases e : (g.ws w).phase = p.length
        · exfalso
          obtain rfl := hat ph' e hp
          have hi := (List.getElem?_eq_some_iff.1 hr).1
          have hsub : i :: (g.ws w).done ⊆ List.range (ph' w (run p S w)).reqs.length := by
            intro j hj
            rw [List.mem_range]
            rcases List.mem_cons.1 hj with rfl | hj
            · exact hi
            · exact hw.lt e j hj
          have := (List.subperm_of_subset (List.nodup_cons.2 ⟨hw.not e, hw.nodup e⟩) hsub).length_le
          rw [List.length_range, List.length_cons, hn, hbase e] at this
          omega
        · have := hw.le
          exact ⟨by simp only; omega, fun _ h => (by cases h), fun _ h => (by simp at h), fun _ => List.nodup_nil,
            fun _ j hj => (by simp at hj), fun _ h => (by simp at h), fun _ _ => rfl⟩
      · rw [setW_ne g _ (Ne.symm hwa)]
        exact hw

end Verif.Net
