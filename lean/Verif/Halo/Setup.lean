import Verif.Halo.Arith
import Verif.Halo.Adjoint
import Verif.Buffer.Props

/-!
# What setup of the halo layer leaves
-/

namespace Verif

open Exchange

variable {H : HaloPlan} {S : Nat → HaloSetup} {β : Type}

/-- The message shapes, whatever the widths. -/
theorem HaloPlan.intSliceShape_eq (i r : Nat) (reg : Region) :
    intSliceShape (haloSlice (H.shape r) (H.widths r) i reg) = H.msgShape i r reg := by
  unfold intSliceShape haloSlice HaloPlan.msgShape
  rw [HaloPlan.length_shape, List.map_map]
  apply List.map_congr_left
  intro j hj
  have hj' := List.mem_range.1 hj
  simp only [Function.comp, HaloPlan.shape_getD hj', HaloPlan.width_getD hj']
  have e1 : (H.width j (H.co r j)).lrecv = H.lw j (H.co r j) := rfl
  have e2 : (H.width j (H.co r j)).rrecv = H.rw j (H.co r j) := rfl
  by_cases c1 : j < i
  · simp only [c1, if_true, Int.sub_zero, Int.toNat_natCast]
  · by_cases c2 : j = i
    · subst c2
      simp only [Nat.lt_irrefl, if_true, if_false]
      cases reg <;> simp only [regionSlice, HaloPlan.msgWidth, HaloPlan.size] <;> omega
    · simp only [c1, c2, if_false, HaloPlan.size, e1, e2]
      omega

/-- The layer has been set up on every worker: worker `r` has a local tensor of its padded shape and
was given its widths; its buffer manager has any history `ops r`. -/
def HaloPlan.SetUp (H : HaloPlan) (dt : NpKey) (junk : Nat → β) (ops : Nat → List (MgrOp β))
    (S : Nat → HaloSetup) : Prop :=
  ∀ r, r < H.n → haloSetup H.P (H.widths r) dt ((Mgr.init : Mgr β).run junk (ops r)) junk
    (H.shape r) r = some (S r)

theorem haloMsgShapes_getD {i r : Nat} (hi : i < H.D) (reg : Region) :
    (haloMsgShapes (H.shape r) (H.widths r) i)[match reg with
      | .lbulk => 0 | .lghost => 1 | .rbulk => 2 | .rghost => 3]? =
    some (if 0 < H.msgWidth reg i (H.co r i) then some (H.msgShape i r reg) else none) := by
  unfold haloMsgShapes
  simp only [HaloPlan.width_getD hi, HaloPlan.intSliceShape_eq]
  cases reg <;> rfl

theorem HaloPlan.haloSetup_spec (h : H.P.WF) (dt : NpKey) (junk : Nat → β) (ops : List (MgrOp β))
    {r : Nat} (hr : r < H.n) :
    ∃ s, haloSetup H.P (H.widths r) dt ((Mgr.init : Mgr β).run junk ops) junk (H.shape r) r = some s ∧
      s.shape = H.shape r ∧ s.ws = H.widths r ∧ neighborRanks H.P r = some s.nb ∧
      ∀ i, i < H.D → ∀ reg, s.has i reg = true ↔
        0 < H.msgWidth reg i (H.co r i) ∧ 0 < (H.msgShape i r reg).prod := by
  obtain ⟨nb, e1, -, -⟩ := C28_neighbors H.P r (by rw [← h.size]; exact hr)
  obtain ⟨m', out, a1, a2, a3⟩ := C56_halo_buffers junk ops
    ((List.range (H.shape r).length).map (haloMsgShapes (H.shape r) (H.widths r))) dt
    (by
      intro d hd
      obtain ⟨i, -, rfl⟩ := List.mem_map.1 hd
      rfl)
    (by
      intro d hd sh hsh
      obtain ⟨i, hi, rfl⟩ := List.mem_map.1 hd
      rw [HaloPlan.length_shape] at hi
      have hi' := List.mem_range.1 hi
      have hne : ∀ reg, H.msgShape i r reg ≠ [] := by
        intro reg e
        have := HaloPlan.length_msgShape (H := H) i r reg
        rw [e] at this
        simp at this
        omega
      have hall : ∀ reg, ∀ c : Prop, ∀ _ : Decidable c,
          some sh = (if c then some (H.msgShape i r reg) else none) → sh ≠ [] := by
        intro reg c _ hc
        split at hc
        · cases hc; exact hne reg
        · cases hc
      unfold haloMsgShapes at hsh
      simp only [HaloPlan.intSliceShape_eq, List.mem_cons, List.not_mem_nil, or_false] at hsh
      rcases hsh with e | e | e | e <;> exact hall _ _ _ e)
  refine ⟨⟨H.shape r, H.widths r, out, nb⟩, ?_, rfl, rfl, e1, ?_⟩
  · unfold haloSetup
    rw [e1, Option.bind_some, a1]
    rfl
  · intro i hi reg
    have hil : i < out.length := by rw [a2, List.length_map, List.length_range, HaloPlan.length_shape]; exact hi
    have ho : out[i]? = some out[i] := List.getElem?_eq_getElem hil
    have hd : ((List.range (H.shape r).length).map (haloMsgShapes (H.shape r) (H.widths r)))[i]? =
        some (haloMsgShapes (H.shape r) (H.widths r) i) := by
      rw [List.getElem?_map, List.getElem?_range (by rw [HaloPlan.length_shape]; exact hi)]
      rfl
    obtain ⟨-, -, b3⟩ := a3 i _ _ hd ho
    obtain ⟨x, x1, x2, -⟩ := b3 _ _ (haloMsgShapes_getD hi reg)
    have hx : (⟨H.shape r, H.widths r, out, nb⟩ : HaloSetup).has i reg = x.isSome := by
      unfold HaloSetup.has
      simp only [List.getD_eq_getElem?_getD, ho, Option.getD_some]
      cases reg <;> simp only at x1 <;> rw [x1] <;> rfl
    rw [hx, x2]
    constructor
    · rintro ⟨sh, h1, h2⟩
      split at h1
      · rename_i c
        cases h1
        exact ⟨c, h2⟩
      · cases h1
    · rintro ⟨h1, h2⟩
      exact ⟨_, by rw [if_pos h1], h2⟩

theorem HaloPlan.SetUp.done (h : H.P.WF) {dt : NpKey} {junk : Nat → β} {ops : Nat → List (MgrOp β)}
    (hS : H.SetUp dt junk ops S) : H.Done S := by
  have key := fun r hr => H.haloSetup_spec (r := r) h dt junk (ops r) hr
  constructor
  all_goals
    intro r hr
    obtain ⟨s, h1, h2, h3, h4, h5⟩ := key r hr
    rw [hS r hr] at h1
    cases h1
    first | exact h2 | exact h3 | exact h4 | exact h5

/-- The local tensor with its halos lies inside the global tensor. -/
theorem HaloPlan.inside (h : H.OK) (hf : H.Fits) {w : Nat} (hw : w < H.n) {l : List Nat}
    (hl : InBounds l (H.shape w)) : InBounds (shiftBy (H.origin w) l) H.L.global := by
  have hlen : l.length = H.D := by rw [(inBounds_iff.1 hl).1, length_shape]
  have hLl : H.L.length = H.D := by rw [← H.L.length_pshape, h.layout]
  rw [inBounds_iff]
  refine ⟨by rw [length_shiftBy (by rw [hlen]; simp [origin]), Layout.length_global, hLl]; simp [origin],
    fun j hj => ?_⟩
  rw [Layout.length_global, hLl] at hj
  rw [getD_shiftBy (by simpa [origin] using hj) (by rw [hlen]; exact hj), origin_getD hj]
  have h1 := (inBounds_iff.1 hl).2 j (by rw [length_shape]; exact hj)
  rw [shape_getD hj, size] at h1
  have h2 := lw_le_st h hf hw hj
  have hlt := co_lt h hw hj
  have h3 : (H.L.global).getD j 0 = H.st j (H.Pd j) := by
    unfold Layout.global st
    have hl' : j < H.L.length := by rw [hLl]; exact hj
    rw [List.getD_eq_getElem _ _ (by simpa using hl'), List.getElem_map]
    have hb : (H.L.getD j []).length = H.Pd j := by
      unfold Pd
      rw [← h.layout]
      unfold Layout.pshape
      rw [List.getD_eq_getElem _ _ hl', List.getD_eq_getElem _ _ (by simpa using hl'), List.getElem_map]
    rw [← hb, List.take_length, List.getD_eq_getElem _ _ hl']
  have mono : ∀ a b, a ≤ b → H.st j a ≤ H.st j b := by
    intro a b hab
    induction hab with
    | refl => exact Nat.le_refl _
    | step _ ih => rw [st_succ]; omega
  rw [h3]
  have h4 := H.st_succ j (H.co w j)
  rcases Nat.lt_or_ge (H.co w j + 1) (H.Pd j) with c | c
  · have h5 := hf.right j hj _ c
    have h6 := H.st_succ j (H.co w j + 1)
    have h7 := mono _ _ (show H.co w j + 1 + 1 ≤ H.Pd j by omega)
    omega
  · have h5 := h.right0 j hj
    rw [show H.Pd j - 1 = H.co w j by omega] at h5
    have h7 := mono _ _ (show H.co w j + 1 ≤ H.Pd j by omega)
    omega

end Verif
