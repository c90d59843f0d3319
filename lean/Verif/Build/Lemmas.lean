import Verif.Build.Model
import Verif.Group.Props
import Verif.AllReduce.Props

/-!
# Building: joint schedules

If one list of calls gives every worker, restricted to the calls it takes part in, its own list, the calls cannot
deadlock.
-/

namespace Verif.Build

variable {α β : Type} {W : List Nat}

theorem pure_ops (a : α) : (pure a : Run α).ops = [] := rfl
theorem pure_res (a : α) : (pure a : Run α).res = some a := rfl

theorem bind_eq {r : Run α} {a : α} (h : r.res = some a) (f : α → Run β) :
    r >>= f = ⟨r.ops ++ (f a).ops, (f a).res⟩ := by
  show (match r.res with
    | none => (⟨r.ops, none⟩ : Run β)
    | some a => ⟨r.ops ++ (f a).ops, (f a).res⟩) = _
  rw [h]

/-- The calls a worker takes part in. -/
def mine (w : Nat) (G : List Op) : List Op := G.filter fun o => decide (w ∈ o.chan.members)

/-- The workers `W` make the calls `G`, each those it takes part in, and return `a`. -/
structure Joint (W : List Nat) (r : Nat → Run α) (a : Nat → α) (G : List Op) : Prop where
  sub : ∀ o ∈ G, ∀ u ∈ o.chan.members, u ∈ W
  ops : ∀ w ∈ W, (r w).ops = mine w G
  res : ∀ w ∈ W, (r w).res = some (a w)

theorem mine_append (w : Nat) (G H : List Op) : mine w (G ++ H) = mine w G ++ mine w H := List.filter_append ..

theorem Joint.nothing (a : Nat → α) : Joint W (fun w => pure (a w)) a [] :=
  ⟨by simp, fun _ _ => rfl, fun _ _ => rfl⟩

theorem Joint.bind {r : Nat → Run α} {a : Nat → α} {G H : List Op} {f : Nat → α → Run β} {b : Nat → β}
    (h : Joint W r a G) (h' : Joint W (fun w => f w (a w)) b H) : Joint W (fun w => r w >>= f w) b (G ++ H) := by
  refine ⟨?_, ?_, ?_⟩
  · intro o ho
    rcases List.mem_append.1 ho with ho | ho
    · exact h.sub o ho
    · exact h'.sub o ho
  · intro w hw
    simp only [bind_eq (h.res w hw)]
    rw [h.ops w hw, h'.ops w hw, mine_append]
  · intro w hw
    simp only [bind_eq (h.res w hw)]
    exact h'.res w hw

theorem Joint.congr {r r' : Nat → Run α} {a : Nat → α} {G : List Op} (h : Joint W r a G) (e : ∀ w ∈ W, r' w = r w) :
    Joint W r' a G :=
  ⟨h.sub, fun w hw => by rw [e w hw]; exact h.ops w hw, fun w hw => by rw [e w hw]; exact h.res w hw⟩

/-- Code for some of the workers only. -/
theorem Joint.only {V : List Nat} {r : Nat → Run α} {a : Nat → α} {G : List Op} (h : Joint V r a G) (hV : ∀ w ∈ V, w ∈ W) :
    Joint W (fun w => if w ∈ V then r w else pure (a w)) a G := by
  refine ⟨fun o ho u hu => hV u (h.sub o ho u hu), ?_, ?_⟩
  · intro w hw
    by_cases hv : w ∈ V
    · simp only [if_pos hv]
      exact h.ops w hv
    · simp only [if_neg hv]
      refine (List.filter_eq_nil_iff.2 fun o ho => ?_).symm
      simpa using fun hm => hv (h.sub o ho w hm)
  · intro w hw
    by_cases hv : w ∈ V
    · simp only [if_pos hv]
      exact h.res w hv
    · simp only [if_neg hv]
      rfl

/-- A call of all workers. -/
theorem Joint.call {c : Chan} {k : Kind} (h : ∀ w, w ∈ c.members ↔ w ∈ W) :
    Joint W (fun _ => call c k) (fun _ => ()) [⟨c, k⟩] := by
  refine ⟨?_, ?_, fun _ _ => rfl⟩
  · intro o ho
    rw [List.mem_singleton.1 ho]
    exact fun u hu => (h u).1 hu
  · intro w hw
    show _ = List.filter _ _
    rw [List.filter_cons_of_pos (by simpa using (h w).2 hw)]
    rfl

/-! ## Deadlock freedom -/

theorem count_ge {seen : List Chan} {G : List Op} {c : Op × Nat} (h : c ∈ numberFrom seen G) :
    seen.count c.1.chan ≤ c.2 := by
  induction G generalizing seen with
  | nil => simp [numberFrom] at h
  | cons o os ih =>
    rcases List.mem_cons.1 h with rfl | h
    · exact Nat.le_refl _
    · refine Nat.le_trans ?_ (ih h)
      exact List.count_le_count_cons

theorem nodup_number (seen : List Chan) (G : List Op) : (numberFrom seen G).Nodup := by
  induction G generalizing seen with
  | nil => exact List.nodup_nil
  | cons o os ih =>
    refine List.nodup_cons.2 ⟨fun hm => ?_, ih _⟩
    have := count_ge hm
    simp only [List.count_cons_self] at this
    omega

theorem number_mine {w : Nat} {seen seen' : List Chan} (G : List Op)
    (h : ∀ c : Chan, w ∈ c.members → seen.count c = seen'.count c) :
    numberFrom seen (mine w G) = (numberFrom seen' G).filter fun c => decide (w ∈ mem c) := by
  induction G generalizing seen seen' with
  | nil => rfl
  | cons o os ih =>
    by_cases hm : w ∈ o.chan.members
    · have e1 : mine w (o :: os) = o :: mine w os := List.filter_cons_of_pos (by simpa using hm)
      rw [e1]
      show (o, _) :: numberFrom _ _ = List.filter _ ((o, _) :: _)
      rw [List.filter_cons_of_pos (p := fun c => decide (w ∈ mem c)) (decide_eq_true (p := w ∈ mem (o, _)) hm), h _ hm, ih (seen' := o.chan :: seen')]
      intro c hc
      rw [List.count_cons, List.count_cons, h c hc]
    · have e1 : mine w (o :: os) = mine w os := List.filter_cons_of_neg (by simpa using hm)
      rw [e1]
      show _ = List.filter _ ((o, _) :: _)
      rw [List.filter_cons_of_neg (by simpa using fun hh : w ∈ mem (o, _) => hm hh), ih (seen' := o.chan :: seen')]
      intro c hc
      rw [List.count_cons_of_ne (fun e : o.chan = c => hm (e ▸ hc)), h c hc]

theorem idxOf_pairwise {γ : Type} [BEq γ] [LawfulBEq γ] {l : List γ} (h : l.Nodup) :
    l.Pairwise fun a b => l.idxOf a < l.idxOf b := by
  rw [List.pairwise_iff_getElem]
  intro i j hi hj hij
  rw [h.idxOf_getElem, h.idxOf_getElem]
  exact hij

/-- Joint schedules are free of deadlock. -/
theorem Joint.ordered {r : Nat → Run α} {a : Nat → α} {G : List Op} (h : Joint W r a G) :
    Coll.Ordered W (fun w => instrs (r w).ops) mem fun c => (numberFrom [] G).idxOf c := by
  have key : ∀ w ∈ W, numberFrom [] (r w).ops = (numberFrom [] G).filter fun c => decide (w ∈ mem c) := by
    intro w hw
    rw [h.ops w hw]
    exact number_mine G fun _ _ => rfl
  refine ⟨?_, ?_⟩
  · intro w hw c hc u hu
    have hcG : c ∈ numberFrom [] G := by
      obtain ⟨d, hd, he⟩ := List.mem_flatMap.1 hc
      simp only [List.mem_cons, List.not_mem_nil, or_false] at he
      rcases he with he | he
      · cases he
      · cases he
        rw [key w hw] at hd
        exact (List.mem_filter.1 hd).1
    have huW : u ∈ W := by
      have : ∀ (seen : List Chan) (G : List Op), c ∈ numberFrom seen G → c.1 ∈ G := by
        intro seen G
        induction G generalizing seen with
        | nil => simp [numberFrom]
        | cons o os ih =>
          intro hm
          rcases List.mem_cons.1 hm with rfl | hm
          · exact List.mem_cons_self
          · exact List.mem_cons_of_mem _ (ih _ hm)
      exact h.sub _ (this _ _ hcG) u hu
    refine ⟨huW, List.mem_flatMap.2 ⟨c, ?_, List.mem_cons_self⟩⟩
    rw [key u huW]
    exact List.mem_filter.2 ⟨hcG, by simpa using hu⟩
  · intro w hw
    show List.Pairwise _ (List.flatMap _ _)
    rw [List.pairwise_flatMap, key w hw]
    refine ⟨?_, ?_⟩
    · intro c _
      simp
    · refine ((idxOf_pairwise (nodup_number [] G)).filter _).imp ?_
      intro p q hpq x hx y hy c' c ex ey
      subst ex ey
      simp only [List.mem_cons, reduceCtorEq, List.not_mem_nil, or_false, false_or] at hx hy
      cases hx
      cases hy
      exact hpq

/-! ## A call nobody answers -/

/-- If some participant of an operation never posts it, a worker that waits for it never gets beyond this. -/
theorem never_passes {κ : Type} {prog : Nat → List (Coll.Instr κ)} {mem : κ → List Nat}
    {early : (Nat → Nat) → Nat → κ → Prop} {w u i : Nat} {c : κ} (hi : (prog w)[i]? = some (.wait c)) (hu : u ∈ mem c)
    (hp : Coll.Instr.post c ∉ prog u) (he : ∀ pc, ¬ early pc w c) {n : Nat} {pc : Nat → Nat}
    (h : Coll.Exec W prog mem early n (fun _ => 0) pc) : pc w ≤ i := by
  generalize e : (fun _ => 0 : Nat → Nat) = pc0 at h
  induction h with
  | refl => subst e; exact Nat.zero_le _
  | step h' hs ih =>
    have ih := ih e
    cases hs with
    | post v d hv hd =>
      unfold Coll.advance
      by_cases hvw : w = v
      · subst hvw
        rw [if_pos rfl]
        rcases Nat.lt_or_eq_of_le ih with h1 | h1
        · exact h1
        · rw [h1, hi] at hd
          cases hd
      · rw [if_neg hvw]
        exact ih
    | wait v d hv hd hall =>
      unfold Coll.advance
      by_cases hvw : w = v
      · subst hvw
        rw [if_pos rfl]
        rcases Nat.lt_or_eq_of_le ih with h1 | h1
        · exact h1
        · rw [h1, hi] at hd
          cases hd
          rcases hall with hall | hall
          · exact absurd (List.mem_of_mem_take (hall u hu)) hp
          · exact absurd hall (he _)
      · rw [if_neg hvw]
        exact ih

end Verif.Build
