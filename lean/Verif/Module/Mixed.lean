import Verif.Module.Props
import Verif.Params.Props
import Verif.Halo.Lemmas

/-!
# C33: exactly when the workers disagree about redoing a setup
-/

namespace Verif

/-- Some worker has another number of cells of the new extent. -/
theorem subsize_differs {P a b : Nat} (hP : 0 < P) (h : a < b) : subsize P (a % P) a < subsize P (a % P) b := by
  unfold subsize
  have ha := Nat.div_add_mod a P
  have hb := Nat.div_add_mod b P
  have hrb := Nat.mod_lt b hP
  have hq : a / P ≤ b / P := Nat.div_le_div_right h.le
  rcases Nat.lt_or_ge (a / P) (b / P) with hlt | hge
  · split <;> split <;> omega
  · have he : b / P = a / P := by omega
    rw [he] at hb
    split <;> split <;> omega

/-- If the change is small, some worker has the same number of cells as before. -/
theorem subsize_same {P a b : Nat} (h : a ≤ b) (hb : b < a + P) : ∃ c < P, subsize P c a = subsize P c b := by
  have hP : 0 < P := by omega
  have ha := Nat.div_add_mod a P
  have hb' := Nat.div_add_mod b P
  have hra := Nat.mod_lt a hP
  have hrb := Nat.mod_lt b hP
  have hq : a / P ≤ b / P := Nat.div_le_div_right h
  have hq' : b / P ≤ a / P + 1 := by
    have h1 := Nat.div_le_div_right (c := P) hb.le
    rwa [Nat.add_div_right a hP] at h1
  unfold subsize
  rcases Nat.lt_or_ge (a / P) (b / P) with hlt | hge
  · have he : b / P = a / P + 1 := by omega
    rw [he, Nat.mul_add, Nat.mul_one] at hb'
    refine ⟨b % P, hrb, ?_⟩
    rw [he, if_pos (by omega), if_neg (by omega)]
  · have he : b / P = a / P := by omega
    refine ⟨P - 1, by omega, ?_⟩
    rw [he, if_neg (by omega), if_neg (by omega)]

theorem subsize_same' {P a b : Nat} (ha : a < b + P) (hb : b < a + P) : ∃ c < P, subsize P c a = subsize P c b := by
  rcases Nat.le_total a b with h | h
  · exact subsize_same h hb
  · obtain ⟨c, hc, e⟩ := subsize_same h ha
    exact ⟨c, hc, e.symm⟩

theorem ext_getD {a b : List Nat} (hl : a.length = b.length) (h : ∀ d < b.length, a.getD d 0 = b.getD d 0) : a = b := by
  refine List.ext_getElem hl fun i h1 h2 => ?_
  have := h i h2
  rwa [List.getD_eq_getElem _ _ h1, List.getD_eq_getElem _ _ h2] at this

theorem length_computeSubshape' {Ps is ns : List Nat} (h1 : is.length = Ps.length) (h2 : ns.length = Ps.length) :
    (computeSubshape Ps is ns).length = Ps.length := by
  induction Ps generalizing is ns with
  | nil =>
    match is, ns with
    | [], [] => rfl
  | cons P Ps ih =>
    match is, ns with
    | i :: is, n :: ns =>
      rw [computeSubshape_cons, List.length_cons, ih (by simpa using h1) (by simpa using h2), List.length_cons]

/-- C33, exactly when it fails.  A tensor of shape `s` was passed in last, now one of shape `t` with the same type and
flag.  Some worker redoes the setup and some other one does not if and only if the shapes differ and no extent changes
by as much as the number of workers in its dimension. -/
theorem C33_mixed_iff (k : SetupKind) (hk : k ≠ .never) (P : Cart) (h : P.WF) (hist : List TStruct) (s t : List Nat)
    (dt : Option TorchDtype) (rg : Option Bool) (hs : s.length = P.shape.length) (ht : t.length = P.shape.length) :
    ((∃ w ∈ P.members, resets k P (hist ++ [⟨some s, dt, rg⟩]) ⟨some t, dt, rg⟩ w = true) ∧
      ∃ w ∈ P.members, resets k P (hist ++ [⟨some s, dt, rg⟩]) ⟨some t, dt, rg⟩ w = false) ↔
    s ≠ t ∧ ∀ d < P.shape.length,
      s.getD d 0 < t.getD d 0 + P.shape.getD d 0 ∧ t.getD d 0 < s.getD d 0 + P.shape.getD d 0 := by
  obtain ⟨-, h2, h3⟩ := C33_agree_partial k hk P h hist ⟨some s, dt, rg⟩ ⟨some t, dt, rg⟩
  constructor
  · rintro ⟨⟨v, hv, rv⟩, w, hw, rw'⟩
    refine ⟨fun e => ?_, fun d hd => ?_⟩
    · rw [h2 (by rw [e]) v hv] at rv
      cases rv
    · by_contra hc
      rw [h3 (.inr (.inr ⟨s, t, rfl, rfl, hs, ht, d, hd, by omega⟩)) w hw] at rw'
      cases rw'
  · rintro ⟨hne, hd⟩
    have hpos : ∀ d < P.shape.length, 0 < P.shape.getD d 0 := fun d h' => by have := hd d h'; omega
    have loc : ∀ w ∈ P.members, ∀ d < P.shape.length,
        (computeSubshape P.shape (P.coord w) s).getD d 0 = subsize (P.shape.getD d 0) ((P.coord w).getD d 0) (s.getD d 0) ∧
        (computeSubshape P.shape (P.coord w) t).getD d 0 = subsize (P.shape.getD d 0) ((P.coord w).getD d 0) (t.getD d 0) :=
      fun w _ d h' => ⟨getD_computeSubshape (length_getCoords _ _) hs h', getD_computeSubshape (length_getCoords _ _) ht h'⟩
    have mk : ∀ f : Nat → Nat, (∀ d < P.shape.length, f d < P.shape.getD d 0) →
        ∃ w ∈ P.members, ∀ d < P.shape.length, (P.coord w).getD d 0 = f d := by
      intro f hf
      obtain ⟨w, hw, e⟩ := h.exists_coord (i := (List.range P.shape.length).map f) (inBounds_iff.2 ⟨by simp, fun d h' => by
        have := hf d h'
        simpa [h'] using this⟩)
      refine ⟨w, hw, fun d h' => ?_⟩
      rw [e]
      simp [h']
    constructor
    · obtain ⟨d, h', hdd⟩ : ∃ d < P.shape.length, s.getD d 0 ≠ t.getD d 0 := by
        by_contra hc
        push Not at hc
        exact hne (ext_getD (by omega) fun d h' => hc d (by omega))
      have : ∃ c < P.shape.getD d 0, subsize (P.shape.getD d 0) c (s.getD d 0) ≠ subsize (P.shape.getD d 0) c (t.getD d 0) := by
        rcases Nat.lt_or_gt_of_ne hdd with hlt | hlt
        · exact ⟨_, Nat.mod_lt _ (hpos d h'), Nat.ne_of_lt (subsize_differs (hpos d h') hlt)⟩
        · exact ⟨_, Nat.mod_lt _ (hpos d h'), Nat.ne_of_gt (subsize_differs (hpos d h') hlt)⟩
      obtain ⟨c, hc, hcc⟩ := this
      obtain ⟨w, hw, e⟩ := mk (fun j => if j = d then c else 0) fun j hj => by
        by_cases e : j = d
        · rw [if_pos e, e]
          exact hc
        · rw [if_neg e]
          exact hpos j hj
      refine ⟨w, hw, ?_⟩
      rw [resets_eq hk, bne_iff_ne]
      intro e'
      simp only [localStruct, if_pos hw, TStruct.mk.injEq, Option.map_some, Option.some.injEq] at e'
      have := congrArg (fun l => l.getD d 0) e'.1
      beta_reduce at this
      rw [(loc w hw d h').1, (loc w hw d h').2, e d h', if_pos rfl] at this
      exact hcc this
    · choose f hf using fun d => (show ∃ c, d < P.shape.length → c < P.shape.getD d 0 ∧
          subsize (P.shape.getD d 0) c (s.getD d 0) = subsize (P.shape.getD d 0) c (t.getD d 0) by
        by_cases h' : d < P.shape.length
        · obtain ⟨c, hc⟩ := subsize_same' (hd d h').1 (hd d h').2
          exact ⟨c, fun _ => hc⟩
        · exact ⟨0, fun hh => absurd hh h'⟩)
      obtain ⟨w, hw, e⟩ := mk f fun d h' => (hf d h').1
      refine ⟨w, hw, ?_⟩
      rw [resets_eq hk, bne_eq_false_iff_eq]
      simp only [localStruct, if_pos hw, TStruct.mk.injEq, Option.map_some, Option.some.injEq, and_true]
      have hlc : (P.coord w).length = P.shape.length := length_getCoords _ _
      refine ext_getD ?_ fun d h' => ?_
      · rw [length_computeSubshape' hlc hs, length_computeSubshape' hlc ht]
      · rw [length_computeSubshape' hlc ht] at h'
        rw [(loc w hw d h').1, (loc w hw d h').2, e d h']
        exact (hf d h').2

/-- C33: whenever some worker redoes the setup and another one of the same collective operation does not, the call does
not end on those that do, under any schedule. -/
theorem C33_mixed_hangs (k : SetupKind) (P : Cart) (hist : List TStruct) (g : TStruct) {v w : Nat} (hv : v ∈ P.members)
    (rv : resets k P hist g v = true) (hw : w ∈ P.members) (rw' : resets k P hist g w = false) {n : Nat} {pc : Nat → Nat}
    (he : Coll.Exec P.members (setupProg k P hist g) (fun _ => P.members) (fun _ _ _ => False) n (fun _ => 0) pc) :
    pc v < (setupProg k P hist g v).length ∧ ¬ Coll.Finished P.members (setupProg k P hist g) pc := by
  have pv : setupProg k P hist g v = [.post (), .wait ()] := by
    unfold setupProg
    rw [rv]
    rfl
  have pw : setupProg k P hist g w = [] := by
    unfold setupProg
    rw [rw']
    rfl
  have key : ∀ n pc, Coll.Exec P.members (setupProg k P hist g) (fun _ => P.members) (fun _ _ _ => False) n (fun _ => 0) pc →
      pc v ≤ 1 := by
    intro n
    induction n with
    | zero =>
      intro pc he
      cases he
      exact Nat.zero_le _
    | succ n ih =>
      intro pc he
      cases he with
      | step hp hs =>
        rename_i pc1
        have hle := ih pc1 hp
        cases hs with
        | post u c hu hi =>
          unfold Coll.advance
          by_cases e : v = u
          · subst e
            rw [pv] at hi
            have : pc1 v = 0 := by
              rcases Nat.lt_or_ge (pc1 v) 1 with h | h
              · omega
              · have : pc1 v = 1 := by omega
                rw [this] at hi
                simp at hi
            simp [this]
          · simpa [e] using hle
        | wait u c hu hi hh =>
          exfalso
          rcases hh with hh | hh
          · have := hh w hw
            unfold Coll.Posted at this
            rw [pw] at this
            simp at this
          · exact hh
  have h1 := key n pc he
  have h2 : pc v < (setupProg k P hist g v).length := by
    rw [pv]
    simp
    omega
  exact ⟨h2, fun hf => by have := hf v hv; omega⟩

/-- Four workers in two dimensions: both extents change by one. -/
def exP22 : Cart := ⟨[0, 1, 2, 3], [2, 2], some 0⟩

example : (∃ w ∈ exP22.members, resets .early exP22 [⟨some [10, 7], some .float32, some true⟩] ⟨some [11, 8], some .float32, some true⟩ w = true) ∧
    ∃ w ∈ exP22.members, resets .early exP22 [⟨some [10, 7], some .float32, some true⟩] ⟨some [11, 8], some .float32, some true⟩ w = false :=
  (C33_mixed_iff .early (by decide) exP22 ⟨by decide, by decide, by decide⟩ [] [10, 7] [11, 8] _ _ rfl rfl).2
    ⟨by decide, fun d hd => by
      obtain rfl | rfl : d = 0 ∨ d = 1 := by
        have : d < 2 := hd
        omega
      all_goals decide⟩

end Verif
