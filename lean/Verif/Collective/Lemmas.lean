import Verif.Collective.Model
import Verif.Group.Props
import Mathlib.Algebra.BigOperators.Group.List.Lemmas

/-!
# Lemmas on collectives over star-shaped groups
-/

namespace Verif

/-- Groups headed by roots `R` with leaves `D`: `a` is the partition of a worker as root, `b` as
leaf. -/
structure Star (R D : List Nat) (root : Nat → Nat) (G : Nat → List Nat)
    (a b : Nat → Option (List Nat)) : Prop where
  aEq : ∀ w, a w = if w ∈ R then some (G w) else none
  bEq : ∀ w, b w = if w ∈ D then some (G (root w)) else none
  rootIn : ∀ v ∈ D, root v ∈ R
  memG : ∀ r ∈ R, ∀ u, u ∈ G r ↔ u = r ∨ (u ∈ D ∧ root u = r)
  nd : ∀ r, (G r).Nodup
  headG : ∀ r, (G r).head? = some r

section
variable {R D : List Nat} {root : Nat → Nat} {G : Nat → List Nat} {a b : Nat → Option (List Nat)}

theorem Star.inj (h : Star R D root G a b) {r r' : Nat} : G r = G r' ↔ r = r' :=
  ⟨fun e => by
    have h1 := h.headG r
    rw [e, h.headG r'] at h1
    exact (Option.some.inj h1).symm, fun e => by rw [e]⟩

theorem Star.cons (h : Star R D root G a b) (r : Nat) : ∃ tl, G r = r :: tl ∧ r ∉ tl := by
  have h1 := h.headG r
  have h2 := h.nd r
  cases hg : G r with
  | nil => rw [hg] at h1; cases h1
  | cons x tl =>
    rw [hg] at h1 h2
    cases h1
    exact ⟨tl, rfl, (List.nodup_cons.1 h2).1⟩

/-- Sides of a member of the group of `r`. -/
theorem Star.member (h : Star R D root G a b) {r u : Nat} (hr : r ∈ R) (hu : u ∈ G r) :
    (u = r ∧ a u = some (G r)) ∨
      (u ≠ r ∧ u ∈ D ∧ root u = r ∧ b u = some (G r) ∧ a u ≠ some (G r) ∧
        samePart (a u) (b u) = false) := by
  by_cases he : u = r
  · left
    exact ⟨he, by rw [h.aEq, he, if_pos hr]⟩
  · right
    rcases (h.memG r hr u).1 hu with h1 | ⟨h1, h2⟩
    · exact absurd h1 he
    · have hb : b u = some (G r) := by rw [h.bEq, if_pos h1, h2]
      have ha : a u ≠ some (G r) := by
        rw [h.aEq]
        split
        · intro e
          exact he (h.inj.1 (Option.some.inj e))
        · simp
      refine ⟨he, h1, h2, hb, ha, ?_⟩
      rw [hb]
      cases hau : a u with
      | none => rfl
      | some g =>
        rw [hau] at ha
        simp only [samePart, beq_eq_false_iff_ne, ne_eq]
        exact fun e => ha (by rw [e])

/-- The leaf side of a root. -/
theorem Star.root_leaf (h : Star R D root G a b) {r : Nat} (hr : r ∈ R) :
    (r ∈ D ∧ root r = r ∧ b r = some (G r) ∧ samePart (a r) (b r) = true) ∨
      (b r ≠ some (G r) ∧ samePart (a r) (b r) = false ∧ ¬ (r ∈ D ∧ root r = r)) := by
  have ha : a r = some (G r) := by rw [h.aEq, if_pos hr]
  by_cases hD : r ∈ D
  · have hb : b r = some (G (root r)) := by rw [h.bEq, if_pos hD]
    by_cases he : root r = r
    · left
      rw [he] at hb
      exact ⟨hD, he, hb, by rw [ha, hb]; simp [samePart]⟩
    · right
      have hne : G (root r) ≠ G r := fun e => he (h.inj.1 e)
      refine ⟨by rw [hb]; exact fun e => hne (Option.some.inj e), ?_, fun hh => he hh.2⟩
      rw [ha, hb]
      simp only [samePart, beq_eq_false_iff_ne, ne_eq]
      exact fun e => hne e.symm
  · right
    have hb : b r = none := by rw [h.bEq, if_neg hD]
    exact ⟨by rw [hb]; simp, by rw [hb, ha]; rfl, fun hh => hD hh.1⟩

theorem callsOn_append {C : Type} (as bs : List (Act C)) (g : List Nat) :
    callsOn (as ++ bs) g = callsOn as g ++ callsOn bs g := List.filterMap_append

theorem callsOn_nil {C : Type} (g : List Nat) : callsOn ([] : List (Act C)) g = [] := rfl

theorem callsOn_post_eq {C : Type} (g : List Nat) (c : C) (as : List (Act C)) :
    callsOn (.post g c :: as) g = c :: callsOn as g := by
  simp [callsOn]

theorem callsOn_post_ne {C : Type} {g g' : List Nat} (h : g' ≠ g) (c : C) (as : List (Act C)) :
    callsOn (.post g' c :: as) g = callsOn as g := by
  simp [callsOn, h]

theorem callsOn_wait {C : Type} (g g' : List Nat) (k : Nat) (as : List (Act C)) :
    callsOn (.wait g' k :: as) g = callsOn as g := by
  simp [callsOn]

theorem matched_eq {C : Type} {acts : Nat → List (Act C)} {g : List Nat} {k : Nat} {f : Nat → C}
    (h : ∀ u ∈ g, (callsOn (acts u) g)[k]? = some (f u)) : matched acts g k = some (g.map f) := by
  unfold matched
  exact mapM_eq_some _ _ _ h

end

/-! ## Copying -/

section copy
variable {S : Type} [AddCommMonoid S]
variable {R D : List Nat} {root : Nat → Nat} {G : Nat → List Nat} {a b : Nat → Option (List Nat)}

theorem zeroVolume_some {pb : Bool} {t : Tensor S} (h : pb = true → t.shape ≠ []) :
    ∃ z, zeroVolume pb t = some z ∧ z.shape.prod = 0 := by
  unfold zeroVolume
  cases pb with
  | false => exact ⟨_, rfl, by simp⟩
  | true =>
    cases hs : t.shape with
    | nil => exact absurd hs (h rfl)
    | cons n ns => exact ⟨_, rfl, by simp⟩

theorem copy_calls (h : Star R D root G a b) {pb : Bool} {x : Nat → Tensor S} {st : Nat → TStruct}
    {zz : Nat → Tensor S}
    (hb : ∀ u, u ∈ R ∨ u ∈ D → pb = true → (x u).shape ≠ [])
    (hz : ∀ v ∈ D, zerosOf (st v) = some (zz v)) {r u : Nat} (hr : r ∈ R) (hu : u ∈ G r) :
    callsOn (copyActs pb (a u) (b u) (x u) (st u)) (G r) =
      [.ibcast (if u = r then x u else zz u)] := by
  have hin : u ∈ R ∨ u ∈ D := by
    rcases (h.memG r hr u).1 hu with h1 | h1
    · exact Or.inl (h1 ▸ hr)
    · exact Or.inr h1.1
  obtain ⟨z0, hz0, _⟩ := zeroVolume_some (hb u hin)
  unfold copyActs
  rw [hz0]
  simp only []
  rcases h.member hr hu with ⟨he, ha⟩ | ⟨he, hD, hroot, hbu, ha, hs⟩
  · subst he
    rw [if_pos rfl, ha]
    simp only []
    rw [callsOn_append, callsOn_append, callsOn_post_eq, callsOn_nil, callsOn_wait, callsOn_nil]
    rcases h.root_leaf hr with ⟨h1, h2, h3, h4⟩ | ⟨h3, h4, _⟩
    · rw [ha] at h4
      rw [h3] at h4 ⊢
      simp [h4, callsOn_nil]
    · rw [ha] at h4
      cases hbu : b u with
      | none => simp [callsOn_nil]
      | some g =>
        rw [hbu] at h3 h4
        have hg : g ≠ G u := fun e => h3 (by rw [e])
        simp only [h4, Bool.false_eq_true, if_false]
        cases zerosOf (R := S) (st u) with
        | none => simp [callsOn_nil]
        | some z => simp [callsOn_post_ne hg, callsOn_wait, callsOn_nil]
  · rw [if_neg he, hbu]
    rw [hbu] at hs
    simp only [hs, Bool.false_eq_true, if_false, hz u hD]
    rw [callsOn_append, callsOn_append, callsOn_post_eq, callsOn_wait, callsOn_nil]
    cases hau : a u with
    | none => simp [callsOn_nil]
    | some g =>
      rw [hau] at ha
      have hg : g ≠ G r := fun e => ha (by rw [e])
      simp [callsOn_post_ne hg, callsOn_wait, callsOn_nil]

theorem copy_result (h : Star R D root G a b) {pb : Bool} {x : Nat → Tensor S} {st : Nat → TStruct}
    {zz : Nat → Tensor S}
    (hb : ∀ u, u ∈ R ∨ u ∈ D → pb = true → (x u).shape ≠ [])
    (hz : ∀ v ∈ D, zerosOf (st v) = some (zz v)) {r : Nat} (hr : r ∈ R)
    (hk : ∀ v ∈ D, v ≠ r → root v = r → sameKind (x r) (zz v) = true) :
    (matched (fun u => copyActs pb (a u) (b u) (x u) (st u)) (G r) 0).bind bcastResult =
      some (x r) := by
  rw [matched_eq (f := fun u => .ibcast (if u = r then x u else zz u))
    (fun u hu => by rw [copy_calls h hb hz hr hu]; rfl)]
  obtain ⟨tl, htl, hnot⟩ := h.cons r
  rw [htl]
  simp only [List.map_cons, Option.bind_some, bcastResult, if_true]
  rw [if_pos]
  rw [List.all_eq_true]
  intro c hc
  obtain ⟨u, hu, rfl⟩ := List.mem_map.1 hc
  have hne : u ≠ r := fun e => hnot (e ▸ hu)
  have hug : u ∈ G r := by rw [htl]; exact List.mem_cons_of_mem _ hu
  rcases h.member hr hug with ⟨he, _⟩ | ⟨_, hD, hroot, _⟩
  · exact absurd he hne
  · simp only [if_neg hne]
    exact hk u hD hne hroot

theorem copy_out (h : Star R D root G a b) {pb : Bool} {x : Nat → Tensor S} {st : Nat → TStruct}
    {zz : Nat → Tensor S}
    (hb : ∀ u, u ∈ R ∨ u ∈ D → pb = true → (x u).shape ≠ [])
    (hz : ∀ v ∈ D, zerosOf (st v) = some (zz v)) {v : Nat} (hv : v ∈ D)
    (hk : ∀ u ∈ D, u ≠ root v → root u = root v → sameKind (x (root v)) (zz u) = true) :
    copyOut pb (a v) (b v) (x v) (st v) (fun u => copyActs pb (a u) (b u) (x u) (st u)) =
      some (x (root v)) := by
  obtain ⟨z0, hz0, _⟩ := zeroVolume_some (hb v (Or.inr hv))
  have hr := h.rootIn v hv
  have hbv : b v = some (G (root v)) := by rw [h.bEq, if_pos hv]
  unfold copyOut
  rw [hz0, hbv]
  simp only [hz v hv]
  rw [copy_result h hb hz hr hk]
  split
  · rename_i hs
    rw [h.aEq] at hs
    split at hs
    · have hg : G v = G (root v) := by simpa [samePart] using hs
      rw [← h.inj.1 hg]
    · cases hs
  · rfl

theorem copy_out_none (h : Star R D root G a b) {pb : Bool} {x : Nat → Tensor S}
    {st : Nat → TStruct} (acts : Nat → List (Act (Call S)))
    (hb : ∀ u, u ∈ R ∨ u ∈ D → pb = true → (x u).shape ≠ []) {v : Nat} (hv : v ∉ D) (hR : v ∈ R) :
    ∃ z, copyOut pb (a v) (b v) (x v) (st v) acts = some z ∧ z.shape.prod = 0 := by
  obtain ⟨z0, hz0, hp⟩ := zeroVolume_some (hb v (Or.inl hR))
  refine ⟨z0, ?_, hp⟩
  unfold copyOut
  rw [hz0, h.bEq, if_neg hv]

/-! ## Summing -/

theorem sum_calls (h : Star R D root G a b) {pb : Bool} {x : Nat → Tensor S}
    {rst lst : Nat → TStruct} {zr zl : Nat → Tensor S}
    (hb : ∀ u, u ∈ R ∨ u ∈ D → pb = true → (x u).shape ≠ [])
    (hzr : ∀ v ∈ R, ¬ (v ∈ D ∧ root v = v) → zerosOf (rst v) = some (zr v))
    (hzl : ∀ v ∈ D, zerosOf (lst v) = some (zl v)) {r u : Nat} (hr : r ∈ R) (hu : u ∈ G r) :
    callsOn (sumActs pb (a u) (b u) (x u) (rst u) (lst u)) (G r) =
      [if u ∈ D ∧ root u = r then .ireduce (some (x u)) (zl u) else .ireduce none (zr u)] := by
  have hin : u ∈ R ∨ u ∈ D := by
    rcases (h.memG r hr u).1 hu with h1 | h1
    · exact Or.inl (h1 ▸ hr)
    · exact Or.inr h1.1
  obtain ⟨z0, hz0, _⟩ := zeroVolume_some (hb u hin)
  unfold sumActs
  rw [hz0]
  simp only []
  rw [callsOn_append, callsOn_append, callsOn_append]
  rcases h.member hr hu with ⟨he, ha⟩ | ⟨he, hD, hroot, hbu, ha, hs⟩
  · subst he
    rcases h.root_leaf hr with ⟨h1, h2, h3, h4⟩ | ⟨h3, h4, h5⟩
    · rw [if_pos ⟨h1, h2⟩, h3, ha]
      rw [h3, ha] at h4
      simp [hzl u h1, h4, callsOn_post_eq, callsOn_wait, callsOn_nil]
    · rw [if_neg h5, ha]
      rw [ha] at h4
      cases hbu : b u with
      | none => simp [samePart, hzr u hr h5, callsOn_post_eq, callsOn_wait, callsOn_nil]
      | some g =>
        rw [hbu] at h3 h4
        have hg : g ≠ G u := fun e => h3 (by rw [e])
        have hD : u ∈ D := by
          by_contra hn
          rw [h.bEq, if_neg hn] at hbu
          cases hbu
        simp [h4, hzl u hD, hzr u hr h5, callsOn_post_eq, callsOn_post_ne hg, callsOn_wait,
          callsOn_nil]
  · rw [if_pos ⟨hD, hroot⟩, hbu]
    simp only [hzl u hD, callsOn_post_eq, callsOn_wait, callsOn_nil]
    cases hau : a u with
    | none => simp [callsOn_nil]
    | some g =>
      rw [hau] at ha
      have hg : g ≠ G r := fun e => ha (by rw [e])
      cases hss : samePart (some g) (some (G r)) with
      | true => simp [callsOn_nil]
      | false =>
        cases zerosOf (R := S) (rst u) with
        | none => simp [callsOn_nil, callsOn_wait]
        | some z => simp [callsOn_post_ne hg, callsOn_wait, callsOn_nil]

theorem filter_perm_group (h : Star R D root G a b) (hnd : D.Nodup) {r : Nat} (hr : r ∈ R) :
    ((G r).filter fun u => decide (u ∈ D ∧ root u = r)).Perm
      (D.filter fun u => decide (root u = r)) := by
  rw [List.perm_ext_iff_of_nodup ((h.nd r).filter _) (hnd.filter _)]
  intro u
  rw [List.mem_filter, List.mem_filter, h.memG r hr]
  simp only [decide_eq_true_eq]
  tauto

theorem sum_map_ite {l : List Nat} {p : Nat → Prop} [DecidablePred p] {f : Nat → S} :
    (l.map fun u => if p u then f u else 0).sum = ((l.filter fun u => decide (p u)).map f).sum := by
  induction l with
  | nil => rfl
  | cons x xs ih =>
    by_cases hp : p x
    · simp [hp, ih]
    · simp [hp, ih]

/-- The summing direction delivers at a root the sum over its leaves. -/
theorem sum_result (h : Star R D root G a b) (hnd : D.Nodup) {pb : Bool} {x : Nat → Tensor S}
    {rst lst : Nat → TStruct} {zr zl : Nat → Tensor S}
    (hb : ∀ u, u ∈ R ∨ u ∈ D → pb = true → (x u).shape ≠ [])
    (hzr : ∀ v ∈ R, ¬ (v ∈ D ∧ root v = v) → zerosOf (rst v) = some (zr v))
    (hzl : ∀ v ∈ D, zerosOf (lst v) = some (zl v)) {r : Nat} (hr : r ∈ R)
    {sh : List Nat} {dt : TorchDtype}
    (hleaf : ∀ v ∈ D, root v = r → (x v).shape = sh ∧ (x v).dtype = dt)
    (hzlk : r ∈ D ∧ root r = r → zl r = ⟨sh, dt, fun _ => 0⟩)
    (hzrk : ¬ (r ∈ D ∧ root r = r) → zr r = ⟨sh, dt, fun _ => 0⟩) :
    (matched (fun u => sumActs pb (a u) (b u) (x u) (rst u) (lst u)) (G r) 0).bind reduceResult =
      some ⟨sh, dt, fun i => ((D.filter fun v => decide (root v = r)).map fun v => (x v).val i).sum⟩ := by
  rw [matched_eq (f := fun u => if u ∈ D ∧ root u = r then .ireduce (some (x u)) (zl u)
    else .ireduce none (zr u)) (fun u hu => by rw [sum_calls h hb hzr hzl hr hu]; rfl)]
  obtain ⟨tl, htl, hnot⟩ := h.cons r
  -- what each member contributes
  let cr : Tensor S := if r ∈ D ∧ root r = r then x r else ⟨sh, dt, fun _ => 0⟩
  have htlm : ∀ u ∈ tl, u ∈ D ∧ root u = r := by
    intro u hu
    have hne : u ≠ r := fun e => hnot (e ▸ hu)
    have hug : u ∈ G r := by rw [htl]; exact List.mem_cons_of_mem _ hu
    rcases (h.memG r hr u).1 hug with h1 | h1
    · exact absurd h1 hne
    · exact h1
  have hmap : (tl.map fun u => if u ∈ D ∧ root u = r then Call.ireduce (some (x u)) (zl u)
      else Call.ireduce none (zr u)).mapM (contribution false) = some (tl.map x) := by
    rw [List.mapM_map]
    apply mapM_eq_some
    intro u hu
    simp [htlm u hu, contribution]
  have hperm := filter_perm_group h hnd hr
  have hsum : ∀ i, (cr.val i + ((tl.map x).map fun t => t.val i).sum) =
      ((D.filter fun v => decide (root v = r)).map fun v => (x v).val i).sum := by
    intro i
    rw [← (hperm.map _).sum_eq, htl]
    have ht : tl.filter (fun u => decide (u ∈ D ∧ root u = r)) = tl := by
      rw [List.filter_eq_self]
      intro u hu
      simpa using htlm u hu
    by_cases hc : r ∈ D ∧ root r = r
    · rw [List.filter_cons_of_pos (by simpa using hc), ht]
      simp only [cr, if_pos hc, List.map_cons, List.sum_cons, List.map_map]
      rfl
    · rw [List.filter_cons_of_neg (by simpa using hc), ht]
      simp only [cr, if_neg hc, zero_add, List.map_map]
      rfl
  have hk : ∀ t ∈ (cr :: tl.map x), sameKind (⟨sh, dt, fun _ => 0⟩ : Tensor S) t = true := by
    intro t ht
    have : ∀ v, v ∈ D ∧ root v = r → sameKind (⟨sh, dt, fun _ => 0⟩ : Tensor S) (x v) = true := by
      intro v hv
      simp [sameKind, hleaf v hv.1 hv.2]
    rcases List.mem_cons.1 ht with rfl | ht
    · simp only [cr]
      split
      · rename_i hc; exact this r hc
      · simp [sameKind]
    · obtain ⟨u, hu, rfl⟩ := List.mem_map.1 ht
      exact this u (htlm u hu)
  rw [htl]
  simp only [List.map_cons, Option.bind_some]
  by_cases hc : r ∈ D ∧ root r = r
  · simp only [if_pos hc, reduceResult, hmap, contribution, hzlk hc]
    have hcr : cr = x r := if_pos hc
    rw [← hcr, if_pos (List.all_eq_true.2 hk)]
    simp only [List.map_cons, List.sum_cons, hsum]
  · simp only [if_neg hc, reduceResult, hmap, contribution, hzrk hc, if_true]
    have hcr : cr = ⟨sh, dt, fun _ => 0⟩ := if_neg hc
    rw [← hcr] at hk ⊢
    rw [if_pos (List.all_eq_true.2 (by rw [hcr] at hk ⊢; exact hk))]
    simp only [List.map_cons, List.sum_cons, hsum]

theorem sum_out (h : Star R D root G a b) (hnd : D.Nodup) {pb : Bool} {x : Nat → Tensor S}
    {rst lst : Nat → TStruct} {zr zl : Nat → Tensor S}
    (hb : ∀ u, u ∈ R ∨ u ∈ D → pb = true → (x u).shape ≠ [])
    (hzr : ∀ v ∈ R, ¬ (v ∈ D ∧ root v = v) → zerosOf (rst v) = some (zr v))
    (hzl : ∀ v ∈ D, zerosOf (lst v) = some (zl v)) {r : Nat} (hr : r ∈ R)
    {sh : List Nat} {dt : TorchDtype}
    (hleaf : ∀ v ∈ D, root v = r → (x v).shape = sh ∧ (x v).dtype = dt)
    (hzlk : r ∈ D ∧ root r = r → zl r = ⟨sh, dt, fun _ => 0⟩)
    (hzrk : ¬ (r ∈ D ∧ root r = r) → zr r = ⟨sh, dt, fun _ => 0⟩) :
    sumOut pb (a r) (b r) (x r) (rst r) (lst r)
      (fun u => sumActs pb (a u) (b u) (x u) (rst u) (lst u)) r =
      some ⟨sh, dt, fun i => ((D.filter fun v => decide (root v = r)).map fun v => (x v).val i).sum⟩ := by
  obtain ⟨z0, hz0, _⟩ := zeroVolume_some (hb r (Or.inl hr))
  have ha : a r = some (G r) := by rw [h.aEq, if_pos hr]
  have hres := sum_result h hnd hb hzr hzl hr hleaf hzlk hzrk
  unfold sumOut
  rw [hz0, ha]
  simp only []
  rcases h.root_leaf hr with ⟨h1, h2, h3, h4⟩ | ⟨h3, h4, h5⟩
  · rw [ha] at h4
    rw [h3] at h4 ⊢
    simp only [h4, if_true, hzl r h1, reduceAt, h.headG]
    exact hres
  · rw [ha] at h4
    simp only [h4, Bool.false_eq_true, if_false, hzr r hr h5, reduceAt, h.headG, if_true]
    exact hres

theorem sum_out_none (h : Star R D root G a b) {pb : Bool} {x : Nat → Tensor S}
    {rst lst : Nat → TStruct} (acts : Nat → List (Act (Call S)))
    (hb : ∀ u, u ∈ R ∨ u ∈ D → pb = true → (x u).shape ≠ []) {v : Nat} (hv : v ∉ R) (hD : v ∈ D) :
    ∃ z, sumOut pb (a v) (b v) (x v) (rst v) (lst v) acts v = some z ∧ z.shape.prod = 0 := by
  obtain ⟨z0, hz0, hp⟩ := zeroVolume_some (hb v (Or.inr hD))
  refine ⟨z0, ?_, hp⟩
  unfold sumOut
  rw [hz0, h.aEq, if_neg hv]

end copy

end Verif
