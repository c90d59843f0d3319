import Verif.Collective.Safe

/-!
# Lemmas: results of the broadcast and sum-reduction layers in terms of the root of a leaf
-/

namespace Verif

/-- The relation of a pairing is "being the root of". -/
theorem rel_iff_root {R D : List Nat} {root : Nat → Nat} {G : Nat → List Nat}
    {a b : Nat → Option (List Nat)} (h : Star R D root G a b) {run : Nat → Res SendRecv}
    {sa sb : SendRecv → Option (List Nat)} {rel : Nat → Nat → Prop}
    (hp : PairsBy run R D sa sb rel) (hb : ∀ v sr, run v = .value sr → b v = sb sr) {r v : Nat}
    (hr : r ∈ R) (hv : v ∈ D) : rel r v ↔ root v = r := by
  obtain ⟨sr, g, h1, h2, r0, hr0, hrel, hh, _⟩ := hp.leaf v hv
  have e : some (G (root v)) = some g := by
    rw [← h2, ← hb v sr h1, h.bEq, if_pos hv]
  cases e
  rw [h.headG] at hh
  cases hh
  obtain ⟨u, _, hu⟩ := hp.unique v hv
  constructor
  · intro hrv
    exact (hu _ ⟨hr0, hrel⟩).trans (hu _ ⟨hr, hrv⟩).symm
  · rintro rfl
    exact hrel

theorem root_identity {Ps Pd : Cart} {ts td : Bool} (h : BcastValid Ps Pd ts td) (e : Ps = Pd)
    (hc : Ps.members.length = 1 ∨ ts = td) {v : Nat} (hv : v ∈ Pd.members) :
    rootOf Ps.members (colS Ps Pd ts td) (colD Ps Pd ts td) v = v := by
  rcases hc with hc | hc
  · have hr := (h.cross.rootOf_spec hv).1
    rw [← e] at hv
    obtain ⟨m, hm⟩ := List.length_eq_one_iff.1 hc
    rw [hm, List.mem_singleton] at hv
    rw [hm, List.mem_singleton] at hr
    rw [hm, hr, hv]
  · have hv' : v ∈ Ps.members := by rw [e]; exact hv
    apply h.cross.rootOf_eq hv hv'
    rw [agree_same h hc hv' hv]
    subst e; subst hc
    intro j _ _
    have : (turn ts (Ps.coord v)).length = (turn ts Ps.shape).length := by
      unfold turn; split <;> simp [length_coord]
    rw [this, Nat.sub_self, Nat.zero_add]

theorem sum_by_root {M : Type} [AddCommMonoid M] {R : List Nat} (hR : R.Nodup) (D : List Nat)
    {root : Nat → Nat} (hin : ∀ v ∈ D, root v ∈ R) (f : Nat → Nat → M) :
    (D.map fun v => f (root v) v).sum =
      (R.map fun r => ((D.filter fun v => decide (root v = r)).map fun v => f r v).sum).sum := by
  induction D with
  | nil => simp
  | cons d D ih =>
    have h1 : (R.map fun r => if r = root d then f r d else 0).sum = f (root d) d := by
      rw [sum_map_ite (p := fun r => r = root d) (f := fun r => f r d)]
      rw [List.filter_eq,
        List.count_eq_one_of_mem hR (hin d List.mem_cons_self)]
      simp
    rw [List.map_cons, List.sum_cons, ih fun v hv => hin v (List.mem_cons_of_mem _ hv), ← h1,
      ← List.sum_map_add]
    congr 1
    apply List.map_congr_left
    intro r _
    by_cases e : root d = r
    · simp [e]
    · simp [e, Ne.symm e]

section
variable {S : Type} [AddCommMonoid S] {L : PairLayer} {I : Inputs S} {y : Nat → Tensor S}

/-- Root of a destination of the broadcast. -/
def PairLayer.broot (L : PairLayer) : Nat → Nat :=
  rootOf L.Px.members (colS L.Px L.Py L.ts L.td) (colD L.Px L.Py L.ts L.td)

/-- Root of a source of the reduction. -/
def PairLayer.rroot (L : PairLayer) : Nat → Nat :=
  rootOf L.Py.members (colS L.Py L.Px L.td L.ts) (colD L.Py L.Px L.td L.ts)

theorem PairLayer.identity_iff : L.identity = true ↔
    L.same = true ∧ (L.Px.members.length = 1 ∨ L.ts = L.td) := by
  unfold PairLayer.identity
  cases L.same <;> cases L.ts <;> cases L.td <;> simp

/-! ### Broadcast -/

omit [AddCommMonoid S] in
theorem bstruct (h : BcastValid L.Px L.Py L.ts L.td) {v : Nat} (hv : v ∈ L.Py.members) :
    broadcastStructure (setupIn L.bparts I) v = some ⟨some (I.x (L.broot v)).shape,
      some (I.x (L.broot v)).dtype, some (I.rg (L.broot v))⟩ :=
  star_struct_root (I := setupIn L.bparts I) (bcast_star h) hv

theorem bparts_value (h : BcastValid L.Px L.Py L.ts L.td) {w : Nat}
    (hw : w ∈ L.Px.members ∨ w ∈ L.Py.members) : ∃ sr, L.bparts w = .value sr :=
  (broadcast_eq h hw).imp fun _ h => h.1

omit [AddCommMonoid S] in
theorem brun (h : BcastValid L.Px L.Py L.ts L.td) {w : Nat}
    (hw : w ∈ L.Px.members ∨ w ∈ L.Py.members) (hi : L.identity = false) (t : Tensor S)
    (f : Option (Tensor S)) : L.run L.bparts I t f w = f := by
  obtain ⟨sr, hsr⟩ := bparts_value h hw
  have hs : ∃ st, broadcastStructure (setupIn L.bparts I) w = some st := by
    by_cases hv : w ∈ L.Py.members
    · exact ⟨_, bstruct h hv⟩
    · refine ⟨_, struct_send_only ?_⟩
      have := (bcast_star h).bEq w
      rw [if_neg hv] at this
      exact this
  obtain ⟨st, hst⟩ := hs
  unfold PairLayer.run
  rw [hi, if_neg (by simp), if_neg (by tauto), hsr, hst]

theorem bstruct_zeros (h : BcastValid L.Px L.Py L.ts L.td) {v : Nat} (hv : v ∈ L.Py.members) :
    zerosOf (outStruct L.bparts I v) =
      some (⟨(I.x (L.broot v)).shape, (I.x (L.broot v)).dtype, fun _ => 0⟩ : Tensor S) := by
  unfold outStruct
  rw [bstruct h hv]
  rfl

theorem bcast_forward_root (h : BcastValid L.Px L.Py L.ts L.td) (hsame : L.same = true → L.Px = L.Py)
    (hb : ∀ u, u ∈ L.Px.members ∨ u ∈ L.Py.members → L.preserveBatch = true → (I.x u).shape ≠ [])
    {v : Nat} (hv : v ∈ L.Py.members) : bcastForward L I v = some (I.x (L.broot v)) := by
  unfold bcastForward
  cases hi : L.identity with
  | true =>
    obtain ⟨h1, h2⟩ := PairLayer.identity_iff.1 hi
    unfold PairLayer.run
    rw [if_pos hi]
    unfold PairLayer.broot
    rw [root_identity h (hsame h1) h2 hv]
  | false =>
    rw [brun h (Or.inr hv) hi]
    refine copy_out (bcast_star h) hb (fun u hu => bstruct_zeros h hu) hv ?_
    intro u _ _ hu
    simp only [sameKind, PairLayer.broot, hu, beq_self_eq_true, Bool.and_self]

theorem bcast_forward_other (h : BcastValid L.Px L.Py L.ts L.td)
    (hsame : L.same = true → L.Px = L.Py)
    (hb : ∀ u, u ∈ L.Px.members ∨ u ∈ L.Py.members → L.preserveBatch = true → (I.x u).shape ≠ [])
    {v : Nat} (hv : v ∉ L.Py.members) (hx : v ∈ L.Px.members) :
    ∃ z, bcastForward L I v = some z ∧ z.shape.prod = 0 := by
  have hi : L.identity = false := by
    rw [Bool.eq_false_iff]
    intro hi
    have := hsame (PairLayer.identity_iff.1 hi).1
    exact hv (this ▸ hx)
  unfold bcastForward
  rw [brun h (Or.inl hx) hi]
  exact copy_out_none (bcast_star h) _ hb hv hx

theorem bcast_backward_root (h : BcastValid L.Px L.Py L.ts L.td)
    (hsame : L.same = true → L.Px = L.Py)
    (hy : ∀ v ∈ L.Py.members, (y v).shape = (I.x (L.broot v)).shape ∧
      (y v).dtype = (I.x (L.broot v)).dtype)
    (hb : ∀ u, u ∈ L.Px.members ∨ u ∈ L.Py.members → L.preserveBatch = true → (y u).shape ≠ [])
    {r : Nat} (hr : r ∈ L.Px.members) :
    bcastBackward L I y r = some ⟨(I.x r).shape, (I.x r).dtype, fun i =>
      ((L.Py.members.filter fun v => decide (L.broot v = r)).map fun v => (y v).val i).sum⟩ := by
  unfold bcastBackward
  cases hi : L.identity with
  | true =>
    obtain ⟨h1, h2⟩ := PairLayer.identity_iff.1 hi
    unfold PairLayer.run
    rw [if_pos hi]
    have hroot : ∀ v ∈ L.Py.members, L.broot v = v := fun v hv =>
      root_identity h (hsame h1) h2 hv
    have hr' : r ∈ L.Py.members := hsame h1 ▸ hr
    have hf : (L.Py.members.filter fun v => decide (L.broot v = r)) = [r] := by
      rw [List.filter_congr (q := fun v => v == r) fun v hv => by rw [hroot v hv]; rfl]
      rw [List.filter_beq, List.count_eq_one_of_mem h.wfd.nodup hr']
      rfl
    rw [hf]
    have := hy r hr'
    rw [hroot r hr'] at this
    simp only [List.map_cons, List.map_nil, List.sum_cons, List.sum_nil, add_zero, ← this.1,
      ← this.2]
  | false =>
    rw [brun h (Or.inl hr) hi]
    refine sum_out (zr := fun u => ⟨(I.x u).shape, (I.x u).dtype, fun _ => 0⟩)
      (bcast_star h) h.wfd.nodup hb (fun u _ _ => rfl) (fun u hu => bstruct_zeros h hu) hr ?_ ?_ ?_
    · intro v hv e
      have := hy v hv
      rw [show L.broot v = r from e] at this
      exact this
    · rintro ⟨_, e⟩
      simp only [show L.broot r = r from e]
    · intro _; rfl

theorem bcast_backward_other (h : BcastValid L.Px L.Py L.ts L.td)
    (hsame : L.same = true → L.Px = L.Py)
    (hb : ∀ u, u ∈ L.Px.members ∨ u ∈ L.Py.members → L.preserveBatch = true → (y u).shape ≠ [])
    {v : Nat} (hv : v ∉ L.Px.members) (hD : v ∈ L.Py.members) :
    ∃ z, bcastBackward L I y v = some z ∧ z.shape.prod = 0 := by
  have hi : L.identity = false := by
    rw [Bool.eq_false_iff]
    intro hi
    have := hsame (PairLayer.identity_iff.1 hi).1
    exact hv (this ▸ hD)
  unfold bcastBackward
  rw [brun h (Or.inr hD) hi]
  exact sum_out_none (bcast_star h) _ hb hv hD

/-! ### Sum-reduction -/

theorem rparts_value (h : BcastValid L.Py L.Px L.td L.ts) {w : Nat}
    (hw : w ∈ L.Px.members ∨ w ∈ L.Py.members) : ∃ sr, L.rparts w = .value sr :=
  (reduction_eq h hw).imp fun _ h => h.1

theorem ronto (h : BcastValid L.Py L.Px L.td L.ts) {r : Nat} (hr : r ∈ L.Py.members) :
    ∃ v ∈ L.Px.members, L.rroot v = r := by
  obtain ⟨v, hv, e⟩ := h.onto r hr
  exact ⟨v, hv, h.crossR.rootOf_eq hv hr e⟩

omit [AddCommMonoid S] in
theorem rstruct (h : BcastValid L.Py L.Px L.td L.ts) {r : Nat} (hr : r ∈ L.Py.members)
    {sh : List Nat} {dt : TorchDtype} (hk : ∀ v ∈ L.Px.members, L.rroot v = r →
      (I.x v).shape = sh ∧ (I.x v).dtype = dt) :
    ∃ rg, broadcastStructure (setupIn L.rparts I) r = some ⟨some sh, some dt, some rg⟩ ∧
      ((∀ v ∈ L.Px.members, L.rroot v = r → I.rg v = true) → rg = true) ∧
      ((∀ v ∈ L.Px.members, L.rroot v = r → I.rg v = false) → rg = false) :=
  star_struct_leaf (I := setupIn L.rparts I) (reduce_star h) hr (ronto h hr) hk

/-- Sources with one destination hold tensors of one shape and type. -/
def SameKinds (L : PairLayer) (I : Inputs S) : Prop :=
  ∀ u ∈ L.Px.members, ∀ v ∈ L.Px.members, L.rroot u = L.rroot v →
    (I.x u).shape = (I.x v).shape ∧ (I.x u).dtype = (I.x v).dtype

/-- A source of the destination `r`. -/
noncomputable def PairLayer.src (L : PairLayer) (r : Nat) : Nat :=
  open Classical in
  if h : ∃ v ∈ L.Px.members, L.rroot v = r then h.choose else r

theorem src_spec (h : BcastValid L.Py L.Px L.td L.ts) {r : Nat} (hr : r ∈ L.Py.members) :
    L.src r ∈ L.Px.members ∧ L.rroot (L.src r) = r := by
  have hex := ronto h hr
  unfold PairLayer.src
  rw [dif_pos hex]
  exact hex.choose_spec

omit [AddCommMonoid S] in
theorem rstruct_src (h : BcastValid L.Py L.Px L.td L.ts) (hk : SameKinds L I) {r : Nat}
    (hr : r ∈ L.Py.members) : ∃ rg, broadcastStructure (setupIn L.rparts I) r =
      some ⟨some (I.x (L.src r)).shape, some (I.x (L.src r)).dtype, some rg⟩ := by
  obtain ⟨h1, h2⟩ := src_spec h hr
  obtain ⟨rg, h3, _⟩ := rstruct h hr (fun v hv e => hk v hv _ h1 (e.trans h2.symm))
  exact ⟨rg, h3⟩

omit [AddCommMonoid S] in
theorem rrun (h : BcastValid L.Py L.Px L.td L.ts) (hk : SameKinds L I) {w : Nat}
    (hw : w ∈ L.Px.members ∨ w ∈ L.Py.members) (hi : L.identity = false) (t : Tensor S)
    (f : Option (Tensor S)) : L.run L.rparts I t f w = f := by
  obtain ⟨sr, hsr⟩ := rparts_value h hw
  have hs : ∃ st, broadcastStructure (setupIn L.rparts I) w = some st := by
    by_cases hv : w ∈ L.Py.members
    · exact (rstruct_src h hk hv).imp' _ fun _ h => h
    · refine ⟨_, struct_send_only ?_⟩
      have := (reduce_star h).aEq w
      rw [if_neg hv] at this
      exact this
  obtain ⟨st, hst⟩ := hs
  unfold PairLayer.run
  rw [hi, if_neg (by simp), if_neg (by tauto), hsr, hst]

theorem rstruct_zeros (h : BcastValid L.Py L.Px L.td L.ts) (hk : SameKinds L I) {r : Nat}
    (hr : r ∈ L.Py.members) :
    zerosOf (outStruct L.rparts I r) =
      some (⟨(I.x (L.src r)).shape, (I.x (L.src r)).dtype, fun _ => 0⟩ : Tensor S) := by
  obtain ⟨rg, e⟩ := rstruct_src h hk hr
  unfold outStruct
  rw [e]
  rfl

theorem reduce_forward_root (h : BcastValid L.Py L.Px L.td L.ts)
    (hsame : L.same = true → L.Px = L.Py) (hk : SameKinds L I)
    (hb : ∀ u, u ∈ L.Px.members ∨ u ∈ L.Py.members → L.preserveBatch = true → (I.x u).shape ≠ [])
    {r : Nat} (hr : r ∈ L.Py.members) {sh : List Nat} {dt : TorchDtype}
    (hs : ∀ v ∈ L.Px.members, L.rroot v = r → (I.x v).shape = sh ∧ (I.x v).dtype = dt) :
    reduceForward L I r = some ⟨sh, dt, fun i =>
      ((L.Px.members.filter fun v => decide (L.rroot v = r)).map fun v => (I.x v).val i).sum⟩ := by
  unfold reduceForward
  cases hi : L.identity with
  | true =>
    obtain ⟨h1, h2⟩ := PairLayer.identity_iff.1 hi
    have e := hsame h1
    unfold PairLayer.run
    rw [if_pos hi]
    have hroot : ∀ v ∈ L.Px.members, L.rroot v = v := fun v hv =>
      root_identity h e.symm (by rw [← e]; exact h2.imp_right Eq.symm) hv
    have hr' : r ∈ L.Px.members := e ▸ hr
    have hf : (L.Px.members.filter fun v => decide (L.rroot v = r)) = [r] := by
      rw [List.filter_congr (q := fun v => v == r) fun v hv => by rw [hroot v hv]; rfl]
      rw [List.filter_beq, List.count_eq_one_of_mem h.wfd.nodup hr']
      rfl
    rw [hf]
    have := hs r hr' (hroot r hr')
    simp only [List.map_cons, List.map_nil, List.sum_cons, List.sum_nil, add_zero, ← this.1,
      ← this.2]
  | false =>
    rw [rrun h hk (Or.inr hr) hi]
    obtain ⟨h1, h2⟩ := src_spec h hr
    refine sum_out (zl := fun u => ⟨(I.x u).shape, (I.x u).dtype, fun _ => 0⟩)
      (reduce_star h) h.wfd.nodup (fun u hu => hb u hu.symm)
      (fun u hu _ => rstruct_zeros h hk hu) (fun u _ => rfl) hr hs ?_ ?_
    · rintro ⟨hm, e⟩
      have := hs r hm e
      simp only [this.1, this.2]
    · intro _
      have := hs _ h1 h2
      simp only [this.1, this.2]

theorem reduce_forward_other (h : BcastValid L.Py L.Px L.td L.ts)
    (hsame : L.same = true → L.Px = L.Py) (hk : SameKinds L I)
    (hb : ∀ u, u ∈ L.Px.members ∨ u ∈ L.Py.members → L.preserveBatch = true → (I.x u).shape ≠ [])
    {v : Nat} (hv : v ∉ L.Py.members) (hx : v ∈ L.Px.members) :
    ∃ z, reduceForward L I v = some z ∧ z.shape.prod = 0 := by
  have hi : L.identity = false := by
    rw [Bool.eq_false_iff]
    intro hi
    have := hsame (PairLayer.identity_iff.1 hi).1
    exact hv (this ▸ hx)
  unfold reduceForward
  rw [rrun h hk (Or.inl hx) hi]
  exact sum_out_none (reduce_star h) _ (fun u hu => hb u hu.symm) hv hx

theorem reduce_backward_root (h : BcastValid L.Py L.Px L.td L.ts)
    (hsame : L.same = true → L.Px = L.Py) (hk : SameKinds L I)
    (hy : ∀ v ∈ L.Px.members, (y (L.rroot v)).shape = (I.x v).shape ∧
      (y (L.rroot v)).dtype = (I.x v).dtype)
    (hb : ∀ u, u ∈ L.Px.members ∨ u ∈ L.Py.members → L.preserveBatch = true → (y u).shape ≠ [])
    {v : Nat} (hv : v ∈ L.Px.members) : reduceBackward L I y v = some (y (L.rroot v)) := by
  unfold reduceBackward
  cases hi : L.identity with
  | true =>
    obtain ⟨h1, h2⟩ := PairLayer.identity_iff.1 hi
    have e := hsame h1
    unfold PairLayer.run
    rw [if_pos hi]
    unfold PairLayer.rroot
    rw [root_identity h e.symm (by rw [← e]; exact h2.imp_right Eq.symm) hv]
  | false =>
    rw [rrun h hk (Or.inl hv) hi]
    refine copy_out (zz := fun u => ⟨(I.x u).shape, (I.x u).dtype, fun _ => 0⟩) (reduce_star h)
      (fun u hu => hb u hu.symm) (fun u _ => rfl) hv ?_
    intro u hu _ e
    have := hy u hu
    have e' : L.rroot u = L.rroot v := e
    rw [e'] at this
    show ((y (L.rroot v)).shape == (I.x u).shape && (y (L.rroot v)).dtype == (I.x u).dtype) = true
    rw [this.1, this.2]
    simp

theorem reduce_backward_other (h : BcastValid L.Py L.Px L.td L.ts)
    (hsame : L.same = true → L.Px = L.Py) (hk : SameKinds L I)
    (hb : ∀ u, u ∈ L.Px.members ∨ u ∈ L.Py.members → L.preserveBatch = true → (y u).shape ≠ [])
    {v : Nat} (hv : v ∉ L.Px.members) (hD : v ∈ L.Py.members) :
    ∃ z, reduceBackward L I y v = some z ∧ z.shape.prod = 0 := by
  have hi : L.identity = false := by
    rw [Bool.eq_false_iff]
    intro hi
    have := hsame (PairLayer.identity_iff.1 hi).1
    exact hv (this ▸ hD)
  unfold reduceBackward
  rw [rrun h hk (Or.inr hD) hi]
  exact copy_out_none (reduce_star h) _ (fun u hu => hb u hu.symm) hv hD

end

end Verif
