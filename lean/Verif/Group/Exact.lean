import Verif.Group.Props
import Verif.Params.Props

/-!
# C24: exactly when transposed broadcasts and reductions pair reversed coordinates
-/

namespace Verif

/-- Two relations realised by the same run agree. -/
theorem PairsBy.agree {run : Nat → Res SendRecv} {roots leaves : List Nat} {a b : SendRecv → Option (List Nat)}
    {rel rel' : Nat → Nat → Prop} (h : PairsBy run roots leaves a b rel) (h' : PairsBy run roots leaves a b rel') {r v : Nat}
    (hr : r ∈ roots) (hv : v ∈ leaves) (e : rel' r v) : rel r v := by
  obtain ⟨sr, g, h1, h2, r1, -, e1, hd, -⟩ := h.leaf v hv
  obtain ⟨sr', g', h1', h2', r2, hr2, e2, hd', -⟩ := h'.leaf v hv
  rw [h1] at h1'
  cases h1'
  rw [h2] at h2'
  cases h2'
  rw [hd] at hd'
  cases hd'
  rw [(h'.unique v hv).unique ⟨hr, e⟩ ⟨hr2, e2⟩]
  exact e1

theorem flatC_zeros (S : List Nat) : flatC S (List.replicate S.length 0) = 0 := by
  induction S with
  | nil => rfl
  | cons n ns ih => simp [List.replicate_succ, flatC, ih]

theorem flatC_last (A : List Nat) (x : Nat) : flatC (A ++ [x]) (List.replicate A.length 0 ++ [1]) = 1 := by
  induction A with
  | nil => simp [flatC]
  | cons n ns ih => simp [List.replicate_succ, flatC, ih]

theorem inBounds_zeros {S : List Nat} (h : ∀ n ∈ S, 0 < n) : InBounds (List.replicate S.length 0) S := by
  induction S with
  | nil => trivial
  | cons n ns ih => exact ⟨h n (by simp), ih fun m hm => h m (by simp [hm])⟩

theorem inBounds_app {a b c d : List Nat} (h1 : InBounds a b) (h2 : InBounds c d) : InBounds (a ++ c) (b ++ d) := by
  induction b generalizing a with
  | nil => cases a with
    | nil => exact h2
    | cons _ _ => exact h1.elim
  | cons n ns ih => cases a with
    | nil => exact h1.elim
    | cons x xs => exact ⟨h1.1, ih h1.2⟩

/-- A list with a number other than 1 has a last one. -/
theorem split_last {S : List Nat} (h : (S.filter fun n => n != 1) ≠ []) : ∃ A x k, S = A ++ [x] ++ List.replicate k 1 ∧ x ≠ 1 ∧
    (S.filter fun n => n != 1).length = (A.filter fun n => n != 1).length + 1 := by
  induction S using List.reverseRecOn with
  | nil => simp at h
  | append_singleton S y ih =>
    by_cases hy : y = 1
    · subst hy
      have e : (S ++ [1]).filter (fun n => n != 1) = S.filter fun n => n != 1 := by simp
      rw [e] at h ⊢
      obtain ⟨A, x, k, rfl, hx, hf⟩ := ih h
      exact ⟨A, x, k + 1, by rw [List.replicate_succ']; simp, hx, hf⟩
    · exact ⟨S, y, 0, by simp, hy, by simp [hy]⟩

theorem two_le_prod {A : List Nat} (h0 : ∀ n ∈ A, 0 < n) (h : A.filter (fun n => n != 1) ≠ []) : 2 ≤ A.prod := by
  induction A with
  | nil => simp at h
  | cons n ns ih =>
    have hp : 0 < ns.prod := Nat.pos_of_ne_zero fun e => by
      have := h0 0 (by simp [List.prod_eq_zero_iff.1 e])
      omega
    have hn := h0 n (by simp)
    rw [List.prod_cons]
    by_cases h1 : n = 1
    · subst h1
      rw [one_mul]
      exact ih (fun m hm => h0 m (by simp [hm])) (by simpa using h)
    · have : 2 ≤ n := by omega
      nlinarith

/-- Row-major and column-major order differ if two extents are not 1. -/
theorem flatC_reverse_ne {S : List Nat} (h0 : ∀ n ∈ S, 0 < n) (h : 2 ≤ (S.filter fun n => n != 1).length) :
    ∃ c, InBounds c S ∧ flatC S c ≠ flatC S.reverse c.reverse := by
  obtain ⟨A, x, k, rfl, hx, hf⟩ := split_last (S := S) (by intro e; rw [e] at h; simp at h)
  have hA : ∀ n ∈ A, 0 < n := fun n hn => h0 n (by simp [hn])
  have hx0 : 0 < x := h0 x (by simp)
  have hb : InBounds (List.replicate A.length 0 ++ [1]) (A ++ [x]) := inBounds_app (inBounds_zeros hA) ⟨by omega, trivial⟩
  refine ⟨List.replicate A.length 0 ++ [1] ++ List.replicate k 0, inBounds_app hb (inBounds_ones k), ?_⟩
  rw [flatC_ones_right k hb, flatC_last]
  simp only [List.reverse_append, List.reverse_replicate, List.reverse_cons, List.nil_append, List.append_assoc,
    List.cons_append]
  rw [flatC_ones_left]
  have e : flatC A.reverse (List.replicate A.length 0) = 0 := by
    have := flatC_zeros A.reverse
    rwa [List.length_reverse] at this
  rw [flatC, e, List.prod_reverse]
  have := two_le_prod hA (by intro e; rw [e, List.length_nil] at hf; omega)
  omega

section
variable {Ps Pd : Cart} {ts td : Bool}

/-- If reversed coordinates are paired although one flag only is set, then rows and columns are the same. -/
theorem BcastValid.exact (h : BcastValid Ps Pd ts td) (hne : ts ≠ td)
    (hrel : ∀ r ∈ Ps.members, ∀ v ∈ Pd.members, colS Ps Pd ts td r = colD Ps Pd ts td v →
      Agree (turn ts Ps.shape) (turn ts (Ps.coord r)) (turn td (Pd.coord v))) :
    (Ps.shape.filter fun n => n != 1).length ≤ 1 := by
  by_contra hc
  obtain ⟨c, hcb, hcn⟩ := flatC_reverse_ne h.wfs.pos (by omega)
  obtain ⟨r, hr, rfl⟩ := h.wfs.exists_coord hcb
  obtain ⟨v, hv, e⟩ := h.onto r hr
  have ha := hrel r hr v hv e
  have hb := inBounds_revIf (t := td) (coord_in h.wfd hv)
  have hin : InBounds (padIdx Pd.shape.length ts (Ps.coord r)) (padShape Pd.shape.length ts Ps.shape) :=
    inBounds_pad (coord_in h.wfs hr)
  have ha' : Agree (turn ts Ps.shape) (turn ts (Ps.coord r)) (revIf td (Pd.coord v)) := ha
  rw [← agree_iff h.le (length_coord _ _) (by rw [length_revIf, length_coord]), ← keep_eq_iff h.compat hin hb,
    ← flatIndex_inj (t := td) (keep_shape_eq h.compat.length_eq) hin hb] at ha'
  rw [colS_eq h hr, flatIndex_small hcb h.compat] at e
  unfold colD at e
  rw [bigFlat_eq hv, ← ha', Int.ofNat_inj] at e
  have hp : padShape Pd.shape.length ts Ps.shape = padShape Pd.shape.length td Ps.shape.reverse := by
    cases ts <;> cases td <;> simp_all [padShape, revIf]
  have hi : padIdx Pd.shape.length ts (Ps.coord r) = padIdx Pd.shape.length td (Ps.coord r).reverse := by
    cases ts <;> cases td <;> simp_all [padIdx, revIf]
  have hcomp := h.compat
  rw [hp] at hcomp e
  rw [hi, flatIndex_small (inBounds_reverse.2 hcb) hcomp] at e
  exact hcn e

end

/-- C24, exactly when it holds for broadcasts: reversed positions are paired if and only if the two flags are equal or at
most one extent of the source differs from 1. -/
theorem C24_iff (Px Py : Cart) (ts td : Bool) (h : BcastValid Px Py ts td) :
    PairsBy (broadcastPartitions Px Py ts td) Px.members Py.members SendRecv.send SendRecv.recv
      (fun w v => Agree (turn ts Px.shape) (turn ts (Px.coord w)) (turn td (Py.coord v))) ↔
    ts = td ∨ (Px.shape.filter fun n => n != 1).length ≤ 1 := by
  refine ⟨fun hp => ?_, C24_transposed_partial Px Py ts td h⟩
  by_cases hne : ts = td
  · exact .inl hne
  · refine .inr (h.exact hne fun r hr v hv e => ?_)
    exact hp.agree (pairsBy_of h.cross (fun _ hw => broadcast_eq h hw) (fun _ a b => broadcast_inactive a b)
      (rel := fun r v => colS Px Py ts td r = colD Px Py ts td v) (fun _ _ _ _ => Iff.rfl) h.onto) hr hv e

/-- The same for reductions. -/
theorem C24_reduction_iff (Px Py : Cart) (ts td : Bool) (h : BcastValid Py Px td ts) :
    PairsBy (reductionPartitions Px Py ts td) Py.members Px.members SendRecv.recv SendRecv.send
      (fun w v => Agree (turn td Py.shape) (turn td (Py.coord w)) (turn ts (Px.coord v))) ↔
    ts = td ∨ (Py.shape.filter fun n => n != 1).length ≤ 1 := by
  refine ⟨fun hp => ?_, fun h1 => C24_transposed_reduction_partial Px Py ts td h (h1.imp_left Eq.symm)⟩
  by_cases hne : ts = td
  · exact .inl hne
  · refine .inr (h.exact (Ne.symm hne) fun r hr v hv e => ?_)
    exact hp.agree (pairsBy_of h.crossR (fun _ hw => reduction_eq h hw.symm) (fun _ a b => reduction_inactive b a)
      (rel := fun r v => colS Py Px td ts r = colD Py Px td ts v) (fun _ _ _ _ => Iff.rfl) h.onto) hr hv e

example : ¬ PairsBy (broadcastPartitions exTx exTy true false) exTx.members exTy.members SendRecv.send SendRecv.recv
    (fun w v => Agree (turn true exTx.shape) (turn true (exTx.coord w)) (turn false (exTy.coord v))) := by
  rw [C24_iff _ _ _ _ exT_valid]
  decide

end Verif
