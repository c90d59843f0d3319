import Verif.Collective.Struct
import Verif.Layout
import Mathlib.Algebra.BigOperators.Ring.List
import Mathlib.Tactic.Ring

/-!
# Lemmas: the groups of the layers, structures and termination over them
-/

namespace Verif

/-! ## Star groups of the two layers -/

section
variable {Px Py : Cart} {ts td : Bool}

theorem bcast_star (h : BcastValid Px Py ts td) :
    Star Px.members Py.members (rootOf Px.members (colS Px Py ts td) (colD Px Py ts td))
      (grp (groupUnion Px.members Py.members) (colS Px Py ts td) (colD Px Py ts td))
      (fun u => sendOf (broadcastPartitions Px Py ts td u))
      (fun u => recvOf (broadcastPartitions Px Py ts td u)) := by
  have hout : ∀ w, w ∉ Px.members → w ∉ Py.members →
      broadcastPartitions Px Py ts td w = .returnsNone := fun w h1 h2 => broadcast_inactive h1 h2
  refine ⟨?_, ?_, fun v hv => (h.cross.rootOf_spec hv).1, fun r hr u => h.cross.mem_grp hr,
    h.cross.nodup_grp, fun r => rfl⟩
  · intro w
    by_cases hw : w ∈ Px.members ∨ w ∈ Py.members
    · obtain ⟨sr, h1, h2⟩ := broadcast_eq h hw
      rw [h1]; exact h2.rootSide
    · rw [hout w (fun e => hw (Or.inl e)) (fun e => hw (Or.inr e)), if_neg fun e => hw (Or.inl e)]
      rfl
  · intro w
    by_cases hw : w ∈ Px.members ∨ w ∈ Py.members
    · obtain ⟨sr, h1, h2⟩ := broadcast_eq h hw
      rw [h1]; exact h2.leafSide
    · rw [hout w (fun e => hw (Or.inl e)) (fun e => hw (Or.inr e)), if_neg fun e => hw (Or.inr e)]
      rfl

theorem reduce_star (h : BcastValid Py Px td ts) :
    Star Py.members Px.members (rootOf Py.members (colS Py Px td ts) (colD Py Px td ts))
      (grp (groupUnion Px.members Py.members) (colS Py Px td ts) (colD Py Px td ts))
      (fun u => recvOf (reductionPartitions Px Py ts td u))
      (fun u => sendOf (reductionPartitions Px Py ts td u)) := by
  have hout : ∀ w, w ∉ Px.members → w ∉ Py.members →
      reductionPartitions Px Py ts td w = .returnsNone := fun w h1 h2 => reduction_inactive h1 h2
  refine ⟨?_, ?_, fun v hv => (h.crossR.rootOf_spec hv).1, fun r hr u => h.crossR.mem_grp hr,
    h.crossR.nodup_grp, fun r => rfl⟩
  · intro w
    by_cases hw : w ∈ Px.members ∨ w ∈ Py.members
    · obtain ⟨sr, h1, h2⟩ := reduction_eq h hw
      rw [h1]; exact h2.rootSide
    · rw [hout w (fun e => hw (Or.inl e)) (fun e => hw (Or.inr e)), if_neg fun e => hw (Or.inr e)]
      rfl
  · intro w
    by_cases hw : w ∈ Px.members ∨ w ∈ Py.members
    · obtain ⟨sr, h1, h2⟩ := reduction_eq h hw
      rw [h1]; exact h2.leafSide
    · rw [hout w (fun e => hw (Or.inl e)) (fun e => hw (Or.inr e)), if_neg fun e => hw (Or.inl e)]
      rfl

end

section
variable {R D : List Nat} {root : Nat → Nat} {G : Nat → List Nat} {a b : Nat → Option (List Nat)}
variable {I : StructIn}

/-! ## Structures over star groups -/

theorem star_struct_root (h : Star R D root G I.send I.recv) {v : Nat} (hv : v ∈ D) :
    broadcastStructure I v = some ⟨some (I.shape (root v)), some (I.dtype (root v)),
      some (I.rg (root v))⟩ := by
  have hr := h.rootIn v hv
  have hb : I.recv v = some (G (root v)) := by rw [h.bEq, if_pos hv]
  have hreal : ∀ u, I.send u = some (G (root v)) ↔ u = root v := by
    intro u
    rw [h.aEq]
    constructor
    · intro e
      split at e
      · exact h.inj.1 (Option.some.inj e)
      · cases e
    · rintro rfl
      rw [if_pos hr]
  have hrg : root v ∈ G (root v) := (h.memG _ hr _).2 (Or.inl rfl)
  by_cases hs : I.send v = some (G (root v))
  · rw [struct_own hs hb, ← (hreal v).1 hs]
  · have hg : StructGroup I (G (root v)) := by
      refine ⟨fun u hu => ?_⟩
      rcases h.member hr hu with ⟨_, h1⟩ | ⟨_, _, _, h1, h2, _⟩
      · exact Or.inl h1
      · exact Or.inr ⟨h2, h1⟩
    rw [struct_received hg ⟨root v, hrg, (hreal _).2 rfl⟩
      (sh := I.shape (root v)) (dt := I.dtype (root v))
      (fun u _ hu => by rw [(hreal u).1 hu]; exact ⟨rfl, rfl⟩) hs hb]
    congr 2
    rw [Option.some.injEq, Bool.eq_iff_iff, decide_eq_true_iff]
    constructor
    · rintro ⟨u, _, h1, h2⟩
      rw [(hreal u).1 h1] at h2
      exact h2
    · intro h1
      exact ⟨root v, hrg, (hreal _).2 rfl, h1⟩

theorem star_struct_leaf (h : Star R D root G I.recv I.send) {r : Nat} (hr : r ∈ R)
    (hne : ∃ v ∈ D, root v = r) {sh : List Nat} {dt : TorchDtype}
    (hk : ∀ v ∈ D, root v = r → I.shape v = sh ∧ I.dtype v = dt) :
    ∃ rg, broadcastStructure I r = some ⟨some sh, some dt, some rg⟩ ∧
      ((∀ v ∈ D, root v = r → I.rg v = true) → rg = true) ∧
      ((∀ v ∈ D, root v = r → I.rg v = false) → rg = false) := by
  have ha : I.recv r = some (G r) := by rw [h.aEq, if_pos hr]
  have hreal : ∀ u, I.send u = some (G r) ↔ u ∈ D ∧ root u = r := by
    intro u
    rw [h.bEq]
    constructor
    · intro e
      split at e
      · rename_i hD
        exact ⟨hD, h.inj.1 (Option.some.inj e)⟩
      · cases e
    · rintro ⟨h1, h2⟩
      rw [if_pos h1, h2]
  by_cases hs : I.send r = some (G r)
  · have h1 := (hreal r).1 hs
    have h2 := hk r h1.1 h1.2
    exact ⟨I.rg r, by rw [struct_own hs ha, h2.1, h2.2], fun hh => hh r h1.1 h1.2,
      fun hh => hh r h1.1 h1.2⟩
  · have hg : StructGroup I (G r) := by
      refine ⟨fun u hu => ?_⟩
      rcases (h.memG r hr u).1 hu with h1 | h1
      · subst h1; exact Or.inr ⟨hs, ha⟩
      · exact Or.inl ((hreal u).2 h1)
    obtain ⟨v, hv, hvr⟩ := hne
    have hvg : v ∈ G r := (h.memG r hr v).2 (Or.inr ⟨hv, hvr⟩)
    refine ⟨_, struct_received hg ⟨v, hvg, (hreal v).2 ⟨hv, hvr⟩⟩
      (fun u _ hu => hk u ((hreal u).1 hu).1 ((hreal u).1 hu).2) hs ha, ?_, ?_⟩
    · intro hh
      rw [decide_eq_true_iff]
      exact ⟨v, hvg, (hreal v).2 ⟨hv, hvr⟩, hh v hv hvr⟩
    · intro hh
      rw [decide_eq_false_iff_not]
      rintro ⟨u, _, h1, h2⟩
      have h3 := (hreal u).1 h1
      rw [hh u h3.1 h3.2] at h2
      cases h2

/-! ## Termination over star groups -/

theorem callsOn_post {C : Type} (g g' : List Nat) (c : C) (as : List (Act C)) :
    callsOn (.post g' c :: as) g = if g' = g then c :: callsOn as g else callsOn as g := by
  split
  · rename_i h; rw [h, callsOn_post_eq]
  · rename_i h; rw [callsOn_post_ne h]

theorem pairwise_nowait {as : List (Coll.Instr (List Nat × Nat))}
    (h : as.Pairwise fun a b => ¬ ((∃ c, a = .wait c) ∧ ∃ c, b = .post c)) :
    as.Pairwise fun a b => ∀ c' c, a = .wait c' → b = .post c → c'.2 < c.2 :=
  h.imp fun hh c' c h1 h2 => absurd ⟨⟨c', h1⟩, ⟨c, h2⟩⟩ hh

theorem star_mem_sub (h : Star R D root G a b) {w : Nat} {g : List Nat}
    (hg : a w = some g ∨ b w = some g) : ∃ r ∈ R, g = G r ∧ w ∈ G r := by
  rcases hg with hg | hg
  · rw [h.aEq] at hg
    split at hg
    · rename_i hR
      exact ⟨w, hR, (Option.some.inj hg).symm, (h.memG w hR w).2 (Or.inl rfl)⟩
    · cases hg
  · rw [h.bEq] at hg
    split at hg
    · rename_i hD
      exact ⟨root w, h.rootIn w hD, (Option.some.inj hg).symm,
        (h.memG _ (h.rootIn w hD) w).2 (Or.inr ⟨hD, rfl⟩)⟩
    · cases hg

theorem star_sub (h : Star R D root G a b) {r u : Nat} (hr : r ∈ R) (hu : u ∈ G r) :
    u ∈ R ∨ u ∈ D := by
  rcases (h.memG r hr u).1 hu with h1 | h1
  · exact Or.inl (h1 ▸ hr)
  · exact Or.inr h1.1

variable {S : Type} [AddCommMonoid S]

theorem copyActs_wait {pb : Bool} {ra lb : Option (List Nat)} {x : Tensor S} {st : TStruct}
    {g : List Nat} {k : Nat} (hw : Act.wait g k ∈ copyActs pb ra lb x st) :
    k = 0 ∧ (ra = some g ∨ lb = some g) := by
  unfold copyActs at hw
  split at hw
  · simp at hw
  · rw [List.mem_append, List.mem_append] at hw
    rcases hw with (hw | hw) | hw
    · cases ra <;> simp at hw
    · cases lb with
      | none => simp at hw
      | some g' =>
        simp only [] at hw
        split at hw
        · simp at hw
        · cases hz : zerosOf (R := S) st with
          | none => simp [hz] at hw
          | some z =>
            simp [hz] at hw
            exact ⟨hw.2, Or.inr (by rw [hw.1])⟩
    · cases ra with
      | none => simp at hw
      | some g' =>
        simp at hw
        exact ⟨hw.2, Or.inl (by rw [hw.1])⟩

theorem copyActs_calls_wait {pb : Bool} {ra lb : Option (List Nat)} {x : Tensor S} {st : TStruct}
    {g : List Nat} {k : Nat} (hk : k < (callsOn (copyActs pb ra lb x st) g).length) :
    Act.wait g k ∈ copyActs pb ra lb x st := by
  unfold copyActs at hk ⊢
  cases hz : zeroVolume pb x with
  | none => simp [hz, callsOn_nil] at hk
  | some z0 =>
    simp only [hz] at hk ⊢
    cases ra with
    | none =>
      cases lb with
      | none => simp [callsOn_nil] at hk
      | some g2 =>
        cases hst : zerosOf (R := S) st with
        | none => simp [hst, samePart, callsOn_nil] at hk
        | some z =>
          simp [hst, samePart, callsOn_post, callsOn_wait, callsOn_nil] at hk ⊢
          split at hk <;> simp_all
    | some g1 =>
      cases lb with
      | none =>
        simp [callsOn_post, callsOn_wait, callsOn_nil] at hk ⊢
        split at hk <;> simp_all
      | some g2 =>
        cases hs : samePart (some g1) (some g2) with
        | true =>
          simp [hs, callsOn_post, callsOn_wait, callsOn_nil] at hk ⊢
          split at hk <;> simp_all
        | false =>
          have hne : g1 ≠ g2 := by simpa [samePart] using hs
          cases hst : zerosOf (R := S) st with
          | none =>
            simp [hst, hs, callsOn_post, callsOn_wait, callsOn_nil] at hk ⊢
            split at hk <;> simp_all
          | some z =>
            simp [hst, hs, callsOn_post, callsOn_wait, callsOn_nil] at hk ⊢
            by_cases e1 : g1 = g
            · have e2 : ¬ g2 = g := fun e => hne (e1.trans e.symm)
              simp [e1, e2] at hk
              exact Or.inr ⟨e1.symm, hk⟩
            · by_cases e2 : g2 = g
              · simp [e1, e2] at hk
                exact Or.inl ⟨e2.symm, hk⟩
              · simp [e1, e2] at hk

theorem copyActs_ranked {pb : Bool} {ra lb : Option (List Nat)} {x : Tensor S} {st : TStruct} :
    (instrs [] (copyActs pb ra lb x st)).Pairwise fun a b =>
      ∀ c' c, a = .wait c' → b = .post c → c'.2 < c.2 := by
  unfold copyActs
  cases zeroVolume pb x with
  | none => exact List.Pairwise.nil
  | some z0 =>
    cases ra with
    | none =>
      cases lb with
      | none => exact List.Pairwise.nil
      | some g2 =>
        cases zerosOf (R := S) st with
        | none => simp [samePart, instrs]
        | some z => simp [samePart, instrs]
    | some g1 =>
      cases lb with
      | none => simp [instrs]
      | some g2 =>
        cases samePart (some g1) (some g2) with
        | true => simp [instrs]
        | false =>
          cases zerosOf (R := S) st with
          | none => simp [instrs]
          | some z => simp [instrs]

theorem copy_safe (h : Star R D root G a b) {W : List Nat} (hW : W.Nodup)
    (hsub : ∀ u, u ∈ R ∨ u ∈ D → u ∈ W) {pb : Bool} {x : Nat → Tensor S} {st : Nat → TStruct}
    {zz : Nat → Tensor S}
    (hb : ∀ u, u ∈ R ∨ u ∈ D → pb = true → (x u).shape ≠ [])
    (hz : ∀ v ∈ D, zerosOf (st v) = some (zz v)) :
    SafeRun W fun u => copyActs pb (a u) (b u) (x u) (st u) := by
  refine safe_of hW ?_ (fun w _ => copyActs_ranked) (fun w _ g k hk => copyActs_calls_wait hk)
  intro w _ g k hw u hu
  obtain ⟨rfl, hg⟩ := copyActs_wait hw
  obtain ⟨r, hr, rfl, _⟩ := star_mem_sub h hg
  refine ⟨hsub u (star_sub h hr hu), ?_⟩
  rw [copy_calls h hb hz hr hu]
  simp

theorem sumActs_wait {pb : Bool} {ra lb : Option (List Nat)} {x : Tensor S} {s1 s2 : TStruct}
    {g : List Nat} {k : Nat} (hw : Act.wait g k ∈ sumActs pb ra lb x s1 s2) :
    k = 0 ∧ (ra = some g ∨ lb = some g) := by
  unfold sumActs at hw
  split at hw
  · simp at hw
  · rw [List.mem_append, List.mem_append, List.mem_append] at hw
    rcases hw with ((hw | hw) | hw) | hw
    · cases lb with
      | none => simp at hw
      | some g' => cases hz : zerosOf (R := S) s2 <;> simp [hz] at hw
    · cases ra with
      | none => simp at hw
      | some g' =>
        simp only [] at hw
        split at hw
        · cases hz : zerosOf (R := S) s1 <;> simp [hz] at hw
        · simp at hw
    · cases lb with
      | none => simp at hw
      | some g' =>
        simp at hw
        exact ⟨hw.2, Or.inr (by rw [hw.1])⟩
    · cases ra with
      | none => simp at hw
      | some g' =>
        simp only [] at hw
        split at hw
        · simp at hw
          exact ⟨hw.2, Or.inl (by rw [hw.1])⟩
        · simp at hw

theorem sumActs_calls_wait {pb : Bool} {ra lb : Option (List Nat)} {x : Tensor S} {s1 s2 : TStruct}
    {g : List Nat} {k : Nat} (hk : k < (callsOn (sumActs pb ra lb x s1 s2) g).length) :
    Act.wait g k ∈ sumActs pb ra lb x s1 s2 := by
  unfold sumActs at hk ⊢
  cases hz : zeroVolume pb x with
  | none => simp [hz, callsOn_nil] at hk
  | some z0 =>
    simp only [hz] at hk ⊢
    cases ra with
    | none =>
      cases lb with
      | none => simp [callsOn_nil] at hk
      | some g2 =>
        cases hst : zerosOf (R := S) s2 with
        | none => simp [hst, callsOn_wait, callsOn_nil] at hk
        | some z =>
          simp [hst, callsOn_post, callsOn_wait, callsOn_nil] at hk ⊢
          split at hk <;> simp_all
    | some g1 =>
      cases lb with
      | none =>
        cases hst : zerosOf (R := S) s1 with
        | none => simp [hst, samePart, callsOn_wait, callsOn_nil] at hk
        | some z =>
          simp [hst, samePart, callsOn_post, callsOn_wait, callsOn_nil] at hk ⊢
          split at hk <;> simp_all
      | some g2 =>
        cases hs : samePart (some g1) (some g2) with
        | true =>
          cases hst : zerosOf (R := S) s2 with
          | none => simp [hst, hs, callsOn_wait, callsOn_nil] at hk
          | some z =>
            simp [hst, hs, callsOn_post, callsOn_wait, callsOn_nil] at hk ⊢
            split at hk <;> simp_all
        | false =>
          have hne : g1 ≠ g2 := by simpa [samePart] using hs
          cases hst1 : zerosOf (R := S) s1 <;> cases hst2 : zerosOf (R := S) s2 <;>
            simp [hst1, hst2, hs, callsOn_post, callsOn_wait, callsOn_nil] at hk ⊢
          · split at hk <;> simp_all
          · split at hk <;> simp_all
          · by_cases e1 : g1 = g
            · have e2 : ¬ g2 = g := fun e => hne (e1.trans e.symm)
              simp [e1, e2] at hk
              exact Or.inr ⟨e1.symm, hk⟩
            · by_cases e2 : g2 = g
              · simp [e1, e2] at hk
                exact Or.inl ⟨e2.symm, hk⟩
              · simp [e1, e2] at hk

theorem sumActs_ranked {pb : Bool} {ra lb : Option (List Nat)} {x : Tensor S} {s1 s2 : TStruct} :
    (instrs [] (sumActs pb ra lb x s1 s2)).Pairwise fun a b =>
      ∀ c' c, a = .wait c' → b = .post c → c'.2 < c.2 := by
  unfold sumActs
  cases zeroVolume pb x with
  | none => exact List.Pairwise.nil
  | some z0 =>
    cases ra with
    | none =>
      cases lb with
      | none => exact List.Pairwise.nil
      | some g2 => cases zerosOf (R := S) s2 <;> simp [instrs]
    | some g1 =>
      cases lb with
      | none => cases zerosOf (R := S) s1 <;> simp [samePart, instrs]
      | some g2 =>
        cases samePart (some g1) (some g2) <;>
          cases zerosOf (R := S) s1 <;> cases zerosOf (R := S) s2 <;> simp [instrs]

theorem sum_safe (h : Star R D root G a b) {W : List Nat} (hW : W.Nodup)
    (hsub : ∀ u, u ∈ R ∨ u ∈ D → u ∈ W) {pb : Bool} {x : Nat → Tensor S}
    {rst lst : Nat → TStruct} {zr zl : Nat → Tensor S}
    (hb : ∀ u, u ∈ R ∨ u ∈ D → pb = true → (x u).shape ≠ [])
    (hzr : ∀ v ∈ R, ¬ (v ∈ D ∧ root v = v) → zerosOf (rst v) = some (zr v))
    (hzl : ∀ v ∈ D, zerosOf (lst v) = some (zl v)) :
    SafeRun W fun u => sumActs pb (a u) (b u) (x u) (rst u) (lst u) := by
  refine safe_of hW ?_ (fun w _ => sumActs_ranked) (fun w _ g k hk => sumActs_calls_wait hk)
  intro w _ g k hw u hu
  obtain ⟨rfl, hg⟩ := sumActs_wait hw
  obtain ⟨r, hr, rfl, _⟩ := star_mem_sub h hg
  refine ⟨hsub u (star_sub h hr hu), ?_⟩
  rw [sum_calls h hb hzr hzl hr hu]
  simp

/-! ## Termination of the exchange of structures -/

theorem structActs_wait {send recv : Option (List Nat)} {shape : List Nat} {dtype : TorchDtype}
    {rg : Bool} {d : Option Int} {g : List Nat} {k : Nat}
    (hw : Act.wait g k ∈ structActs send recv shape dtype rg d) :
    k < 4 ∧ (send = some g ∨ recv = some g) := by
  unfold structActs at hw
  rw [List.mem_append, List.mem_append, List.mem_append] at hw
  rcases hw with ((hw | hw) | hw) | hw
  · cases send with
    | none => simp at hw
    | some g' => cases hz : torchToInt dtype <;> simp [hz] at hw
  · cases recv with
    | none => simp at hw
    | some g' =>
      simp only [] at hw
      split at hw
      · have : Act.wait g k = (Act.wait g' 2 : Act (List Int)) := by
          cases d with
          | none => simpa using hw
          | some d =>
            by_cases hd : 0 ≤ d
            · simpa [hd] using hw
            · simpa [hd] using hw
        cases this
        exact ⟨by omega, Or.inr rfl⟩
      · simp at hw
  · cases send with
    | none => simp at hw
    | some g' =>
      simp at hw
      exact ⟨by omega, Or.inl (by rcases hw with h | h | h | h <;> rw [h.1])⟩
  · cases recv with
    | none => simp at hw
    | some g' =>
      simp only [] at hw
      split at hw
      · simp at hw
        exact ⟨by omega, Or.inr (by rcases hw with h | h | h <;> rw [h.1])⟩
      · simp at hw

theorem structActs_none {send recv : Option (List Nat)} {shape : List Nat} {dtype : TorchDtype}
    {rg : Bool} {d : Option Int} {g : List Nat} (h1 : send ≠ some g) (h2 : recv ≠ some g) :
    callsOn (structActs send recv shape dtype rg d) g = [] := by
  unfold structActs
  rw [callsOn_append, callsOn_append, callsOn_append]
  have hr : ∀ g', recv = some g' → g' ≠ g := fun g' e e' => h2 (by rw [e, e'])
  have hs : ∀ g', send = some g' → g' ≠ g := fun g' e e' => h1 (by rw [e, e'])
  cases send with
  | none =>
    cases recv with
    | none => rfl
    | some g' =>
      cases d with
      | none => simp [samePart, callsOn_post, hr g' rfl, callsOn_wait, callsOn_nil]
      | some d =>
        by_cases hd : 0 ≤ d <;>
          simp [samePart, callsOn_post, hr g' rfl, callsOn_wait, callsOn_nil, hd]
  | some g1 =>
    obtain ⟨n, hn, _⟩ := torchToInt_some dtype
    cases recv with
    | none => simp [hn, callsOn_post, hs g1 rfl, callsOn_wait, callsOn_nil]
    | some g' =>
      cases hss : samePart (some g1) (some g') with
      | true => simp [hn, callsOn_post, hs g1 rfl, callsOn_wait, callsOn_nil]
      | false =>
        cases d with
        | none => simp [hn, callsOn_post, hs g1 rfl, hr g' rfl, callsOn_wait, callsOn_nil]
        | some d =>
          by_cases hd : 0 ≤ d <;>
            simp [hn, callsOn_post, hs g1 rfl, hr g' rfl, callsOn_wait, callsOn_nil, hd]

theorem structActs_ranked {send recv : Option (List Nat)} {shape : List Nat} {dtype : TorchDtype}
    {rg : Bool} {d : Option Int} :
    (instrs [] (structActs send recv shape dtype rg d)).Pairwise fun a b =>
      ∀ c' c, a = .wait c' → b = .post c → c'.2 < c.2 := by
  unfold structActs
  obtain ⟨n, hn, _⟩ := torchToInt_some dtype
  cases send with
  | none =>
    cases recv with
    | none => simp [instrs]
    | some g' =>
      cases d with
      | none => simp [samePart, instrs]
      | some d =>
        by_cases hd : 0 ≤ d
        · simp [samePart, instrs, hd]
          rintro _ _ _ _ _ rfl _ rfl
          omega
        · simp [samePart, instrs, hd]
  | some g1 =>
    cases recv with
    | none => simp [hn, instrs]
    | some g' =>
      cases hss : samePart (some g1) (some g') with
      | true => simp [hn, instrs]
      | false =>
        have hne : g1 ≠ g' := by simpa [samePart] using hss
        cases d with
        | none => simp [hn, instrs]
        | some d =>
          by_cases hd : 0 ≤ d
          · simp [hn, instrs, hd, hne]
            rintro _ _ _ _ _ rfl _ rfl
            omega
          · simp [hn, instrs, hd]

/-- The exchange of structures terminates when every group has a consistent sender. -/
theorem struct_safe {I : StructIn} {W : List Nat} (hW : W.Nodup)
    (hg : ∀ w ∈ W, ∀ g, I.send w = some g ∨ I.recv w = some g → StructGroup I g ∧
      (∀ u ∈ g, u ∈ W) ∧ (∃ u ∈ g, I.send u = some g) ∧
      ∃ sh : List Nat, ∀ u ∈ g, I.send u = some g → (I.shape u).length = sh.length) :
    SafeRun W (I.acts I.dim) := by
  have hlen : ∀ w ∈ W, ∀ g, I.send w = some g ∨ I.recv w = some g → ∀ u ∈ g,
      (callsOn (I.acts I.dim u) g).length = 4 := by
    intro w hw g hh u hu
    obtain ⟨h1, _, h3, sh, h4⟩ := hg w hw g hh
    obtain ⟨n, hn, _⟩ := torchToInt_some (I.dtype u)
    unfold StructIn.acts
    rcases h1.side u hu with h5 | ⟨h5, h6⟩
    · rw [struct_calls_real h5 hn]; rfl
    · rw [struct_calls_blank h5 h6, struct_dim h1 h3 h4 h6]
      have : (0 : Int) ≤ (sh.length : Int) := by omega
      simp [this]
  refine safe_of hW ?_ (fun w _ => structActs_ranked) ?_
  · intro w hw g k hwait u hu
    obtain ⟨hk, hs⟩ := structActs_wait hwait
    exact ⟨(hg w hw g hs).2.1 u hu, by rw [hlen w hw g hs u hu]; exact hk⟩
  · intro w hw g k hk
    by_cases hs : I.send w = some g ∨ I.recv w = some g
    · unfold StructIn.acts at hk ⊢
      unfold structActs
      by_cases h1 : I.send w = some g
      · obtain ⟨n, hn, _⟩ := torchToInt_some (I.dtype w)
        rw [struct_calls_real h1 hn] at hk
        simp only [List.length_cons, List.length_nil] at hk
        rw [h1]
        rw [List.mem_append, List.mem_append]
        left; right
        have : k = 0 ∨ k = 1 ∨ k = 2 ∨ k = 3 := by omega
        rcases this with rfl | rfl | rfl | rfl <;> simp
      · have h2 : I.recv w = some g := hs.resolve_left h1
        rw [struct_calls_blank h1 h2] at hk
        have hsame : samePart (I.send w) (some g) = false := by
          cases hsw : I.send w with
          | none => rfl
          | some g' =>
            simp only [samePart, beq_eq_false_iff_ne, ne_eq]
            exact fun e => h1 (by rw [hsw, e])
        have hk4 : k < 4 := by
          cases hd : I.dim w with
          | none => rw [hd] at hk; simp at hk; omega
          | some d =>
            rw [hd] at hk
            by_cases h0 : 0 ≤ d
            · simp [h0] at hk; omega
            · simp [h0] at hk; omega
        rw [h2]
        simp only [hsame, Bool.not_false, if_true, List.mem_append]
        have : k = 0 ∨ k = 1 ∨ k = 2 ∨ k = 3 := by omega
        rcases this with rfl | rfl | rfl | rfl <;> simp
    · exfalso
      unfold StructIn.acts at hk
      rw [structActs_none (fun e => hs (Or.inl e)) (fun e => hs (Or.inr e))] at hk
      simp at hk

theorem star_struct_safe_root {I : StructIn} (h : Star R D root G I.send I.recv) {W : List Nat}
    (hW : W.Nodup) (hsub : ∀ u, u ∈ R ∨ u ∈ D → u ∈ W) : SafeRun W (I.acts I.dim) := by
  apply struct_safe hW
  intro w _ g hg
  obtain ⟨r, hr, rfl, _⟩ := star_mem_sub h hg
  have hreal : ∀ u, I.send u = some (G r) → u = r := by
    intro u e
    rw [h.aEq] at e
    split at e
    · exact h.inj.1 (Option.some.inj e)
    · cases e
  refine ⟨⟨fun u hu => ?_⟩, fun u hu => hsub u (star_sub h hr hu),
    ⟨r, (h.memG r hr r).2 (Or.inl rfl), by rw [h.aEq, if_pos hr]⟩, I.shape r, fun u _ hu => by
      rw [hreal u hu]⟩
  rcases h.member hr hu with ⟨_, h1⟩ | ⟨_, _, _, h1, h2, _⟩
  · exact Or.inl h1
  · exact Or.inr ⟨h2, h1⟩

theorem star_struct_safe_leaf {I : StructIn} (h : Star R D root G I.recv I.send) {W : List Nat}
    (hW : W.Nodup) (hsub : ∀ u, u ∈ R ∨ u ∈ D → u ∈ W) (honto : ∀ r ∈ R, ∃ v ∈ D, root v = r)
    (hk : ∀ u ∈ D, ∀ v ∈ D, root u = root v → (I.shape u).length = (I.shape v).length) :
    SafeRun W (I.acts I.dim) := by
  apply struct_safe hW
  intro w _ g hg
  obtain ⟨r, hr, rfl, _⟩ := star_mem_sub h hg.symm
  have hreal : ∀ u, I.send u = some (G r) ↔ u ∈ D ∧ root u = r := by
    intro u
    rw [h.bEq]
    constructor
    · intro e
      split at e
      · rename_i hD
        exact ⟨hD, h.inj.1 (Option.some.inj e)⟩
      · cases e
    · rintro ⟨h1, h2⟩
      rw [if_pos h1, h2]
  obtain ⟨v, hv, hvr⟩ := honto r hr
  refine ⟨⟨fun u hu => ?_⟩, fun u hu => hsub u (star_sub h hr hu),
    ⟨v, (h.memG r hr v).2 (Or.inr ⟨hv, hvr⟩), (hreal v).2 ⟨hv, hvr⟩⟩, I.shape v, fun u _ hu => ?_⟩
  · rcases (h.memG r hr u).1 hu with h1 | h1
    · subst h1
      by_cases hs : I.send u = some (G u)
      · exact Or.inl hs
      · exact Or.inr ⟨hs, by rw [h.aEq, if_pos hr]⟩
    · exact Or.inl ((hreal u).2 h1)
  · have := (hreal u).1 hu
    exact hk u this.1 v hv (this.2.trans hvr.symm)

end

end Verif
