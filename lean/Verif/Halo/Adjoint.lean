import Verif.Halo.Data
import Mathlib.Algebra.BigOperators.Ring.Finset
import Mathlib.Algebra.BigOperators.Intervals

/-!
# Halo exchange: the adjoint
-/

namespace Verif

open Exchange Finset

theorem sum_ite_interval {M : Type*} [AddCommMonoid M] {n a b : Nat} (hb : b ≤ n) (F : Nat → M) :
    ∑ i ∈ range n, (if a ≤ i ∧ i < b then F i else 0) = ∑ k ∈ range (b - a), F (a + k) := by
  rw [← Finset.sum_filter, ← Finset.sum_Ico_eq_sum_range]
  apply Finset.sum_congr _ fun _ _ => rfl
  ext i
  simp only [mem_filter, Finset.mem_range, Finset.mem_Ico]
  omega

/-- Sum over the cells of a slice. -/
theorem boxSum_slice {M : Type*} [AddCommMonoid M] {shape : List Nat} {sl : Slices}
    (hlen : sl.length = shape.length)
    (hle : ∀ j, j < sl.length → (sl.getD j (0, 0)).2 ≤ shape.getD j 0) (f : List Nat → M) :
    boxSum shape (fun l => if InSlices sl l then f l else 0) =
      boxSum (sl.map fun p => p.2 - p.1) fun k => f (shiftBy (sl.map Prod.fst) k) := by
  induction sl generalizing shape f with
  | nil =>
    cases shape with
    | nil => simp [boxSum, InSlices, shiftBy]
    | cons n ns => simp at hlen
  | cons p ps ih =>
    cases shape with
    | nil => simp at hlen
    | cons n ns =>
      simp only [List.map_cons, boxSum]
      have h0 := hle 0 (by simp)
      simp only [List.getD_cons_zero] at h0
      have ih' := fun i => ih (shape := ns) (by simpa using hlen)
        (fun j hj => by simpa using hle (j + 1) (by simpa using hj)) (fun l => f (i :: l))
      refine Eq.trans ?_ (sum_ite_interval (a := p.1) h0 fun i => boxSum (ps.map fun p => p.2 - p.1) fun k =>
        f (i :: shiftBy (ps.map Prod.fst) k))
      apply Finset.sum_congr rfl
      intro i _
      by_cases c : p.1 ≤ i ∧ i < p.2
      · rw [if_pos c, ← ih' i]
        apply boxSum_congr
        intro l _
        simp only [InSlices, c.1, c.2, true_and]
      · rw [if_neg c]
        refine Eq.trans ?_ (boxSum_zero ns)
        apply boxSum_congr
        intro l _
        have : ¬ InSlices (p :: ps) (i :: l) := by
          simp only [InSlices]
          rintro ⟨h1, -⟩
          exact c h1
        rw [if_neg this]

/-- The value of an optional worker, 0 if there is none. -/
def optv {α : Type} [Zero α] (o : Option Nat) (f : Nat → α) : α := o.elim 0 f

theorem optv_eq_sum {α : Type} [AddCommMonoid α] {n : Nat} {o : Option Nat} {f : Nat → α}
    (h : ∀ s, o = some s → s < n) : optv o f = ∑ s ∈ range n, if o = some s then f s else 0 := by
  cases o with
  | none => simp [optv]
  | some s =>
    simp only [optv, Option.elim_some, Option.some.injEq]
    rw [Finset.sum_ite_eq, if_pos (Finset.mem_range.2 (h s rfl))]

variable {H : HaloPlan} {S : Nat → HaloSetup}

namespace HaloPlan

theorem clearGhost_apply {α : Type} [Zero α] (h : H.OK) (dn : H.Done S) {i r : Nat} (hi : i < H.D)
    (hr : r < H.n) (reg : Region) (t : List Nat → α) (l : List Nat) :
    clearGhost (S r) i reg t l = if InSlices ((S r).cells i reg) l then 0 else t l := by
  unfold clearGhost
  by_cases c : InSlices ((S r).cells i reg) l
  · rw [if_pos (has_of_mem h dn hi hr c)]
    simp [writeSlice, c]
  · split <;> simp [writeSlice, c]

/-- The cell of `s` in region `b` at the place of cell `l` of `r` in region `a`. -/
def moved (S : Nat → HaloSetup) (i r : Nat) (a : Region) (s : Nat) (b : Region) (l : List Nat) :
    List Nat := shiftBy (((S s).cells i b).map Prod.fst) (rel ((S r).cells i a) l)

theorem moved_mem (h : H.OK) (dn : H.Done S) {i r s : Nat} (hr : r < H.n) (hs : s < H.n)
    {a b : Region} (hsh : H.msgShape i r a = H.msgShape i s b) {l : List Nat}
    (hl : InSlices ((S r).cells i a) l) : InSlices ((S s).cells i b) (moved S i r a s b l) := by
  have hm := (mem_cells h dn hr _ l).1 hl
  rw [mem_cells h dn hs]
  refine ⟨moved_length dn hr hs hm.1 a b, fun j hj => ?_⟩
  rw [moved, moved_getD h dn hr hs hj hm.1, ← hsh]
  have := hm.2 j hj
  omega

theorem moved_shift (dn : H.Done S) {i r s : Nat} (hr : r < H.n) {a b : Region}
    {k : List Nat} (hk : k.length = H.D) :
    moved S i r a s b (shiftBy (((S r).cells i a).map Prod.fst) k) =
      shiftBy (((S s).cells i b).map Prod.fst) k := by
  unfold moved
  congr 1
  apply eq_of_getD
  · rw [List.length_zipWith, length_shiftBy (by rw [List.length_map, length_cells dn hr, hk]),
      List.length_map, length_cells dn hr, hk]
    simp
  · intro j hj
    rw [List.length_zipWith, length_shiftBy (by rw [List.length_map, length_cells dn hr, hk]),
      List.length_map, length_cells dn hr] at hj
    replace hj : j < H.D := by simpa using hj
    rw [getD_zipWith_sub (by rw [length_shiftBy (by rw [List.length_map, length_cells dn hr, hk]),
      List.length_map, length_cells dn hr]; exact hj) (by rw [List.length_map, length_cells dn hr]; exact hj),
      getD_shiftBy (by rw [List.length_map, length_cells dn hr]; exact hj) (by rw [hk]; exact hj)]
    omega

section backward
variable {α : Type} [AddCommMonoid α] {st0 : Nat → List Nat → α}

/-- The dimension treated in phase `q` of the adjoint. -/
abbrev dimAt (H : HaloPlan) (q : Nat) : Nat := H.D - 1 - q

theorem bwd_msg_left (h : H.OK) (dn : H.Done S) {q w s : Nat} (hq : q < H.D) (hw : w < H.n)
    (hl : left S (H.dimAt q) w = some s) (hh : (S w).has (H.dimAt q) .lbulk = true) :
    msg (haloBackward H.D S) st0 q s w = readSlice ((S s).cells (H.dimAt q) .rghost)
      (clearGhost (S s) (H.dimAt q) .lghost (lock (haloBackward H.D S) st0 q s)) := by
  have hi : H.dimAt q < H.D := by unfold dimAt; omega
  obtain ⟨hs, -, -⟩ := (nb_spec h dn hw hi).2.2.1 s hl
  have hrt : (S s).peer (H.dimAt q) .rghost = some w := (right_iff_left h dn hs hw hi).2 hl
  have hreq : (S s).req (H.dimAt q) .rghost = some w :=
    req_of_has (by rw [← (has_left h dn hw hi hl).2]; exact hh) hrt
  have hne : (S s).req (H.dimAt q) .lghost ≠ some w := fun e =>
    (pair_facts h dn hi hs w).2.1 ⟨e, hreq⟩
  show (haloBwdPhase (S s) (H.dimAt q)).pack
    ([(S s).req (H.dimAt q) .lghost, (S s).req (H.dimAt q) .rghost].idxOf (some w)) _ = _
  rw [hreq, idxOf_snd hne]
  rfl

theorem bwd_msg_right (h : H.OK) (dn : H.Done S) {q w s : Nat} (hq : q < H.D) (hw : w < H.n)
    (hl : right S (H.dimAt q) w = some s) (hh : (S w).has (H.dimAt q) .rbulk = true) :
    msg (haloBackward H.D S) st0 q s w = readSlice ((S s).cells (H.dimAt q) .lghost)
      (lock (haloBackward H.D S) st0 q s) := by
  have hi : H.dimAt q < H.D := by unfold dimAt; omega
  obtain ⟨hs, -, -⟩ := (nb_spec h dn hw hi).2.2.2 s hl
  have hrt : left S (H.dimAt q) s = some w := (right_iff_left h dn hw hs hi).1 hl
  have hreq : (S s).req (H.dimAt q) .lghost = some w :=
    req_of_has (by rw [(has_left h dn hs hi hrt).1]; exact hh) hrt
  show (haloBwdPhase (S s) (H.dimAt q)).pack
    ([(S s).req (H.dimAt q) .lghost, (S s).req (H.dimAt q) .rghost].idxOf (some w)) _ = _
  rw [hreq, List.idxOf_cons_self]
  rfl

/-- One dimension of the adjoint. -/
theorem bwd_lock (h : H.OK) (dn : H.Done S) {q w : Nat} (hq : q < H.D) (hw : w < H.n)
    (l : List Nat) :
    lock (haloBackward H.D S) st0 (q + 1) w l =
      (if InSlices ((S w).cells (H.dimAt q) .lghost) l ∨ InSlices ((S w).cells (H.dimAt q) .rghost) l
        then 0 else lock (haloBackward H.D S) st0 q w l) +
      (if InSlices ((S w).cells (H.dimAt q) .lbulk) l then optv (left S (H.dimAt q) w) fun s =>
        lock (haloBackward H.D S) st0 q s (moved S (H.dimAt q) w .lbulk s .rghost l) else 0) +
      (if InSlices ((S w).cells (H.dimAt q) .rbulk) l then optv (right S (H.dimAt q) w) fun s =>
        lock (haloBackward H.D S) st0 q s (moved S (H.dimAt q) w .rbulk s .lghost l) else 0) := by
  have hi : H.dimAt q < H.D := by unfold dimAt; omega
  have hwork : ∀ t : List Nat → α, (haloBackward H.D S q w).work t l =
      if InSlices ((S w).cells (H.dimAt q) .lghost) l ∨ InSlices ((S w).cells (H.dimAt q) .rghost) l
        then 0 else t l := by
    intro t
    show clearGhost (S w) (H.dimAt q) .rghost (clearGhost (S w) (H.dimAt q) .lghost t) l = _
    rw [clearGhost_apply h dn hi hw, clearGhost_apply h dn hi hw]
    by_cases c1 : InSlices ((S w).cells (H.dimAt q) .rghost) l <;>
      by_cases c2 : InSlices ((S w).cells (H.dimAt q) .lghost) l <;> simp [c1, c2]
  rw [lock_two (a := (S w).req (H.dimAt q) .lbulk) (b := (S w).req (H.dimAt q) .rbulk) rfl]
  -- first slot
  have e1 : ((S w).req (H.dimAt q) .lbulk).elim
      ((haloBackward H.D S q w).work (lock (haloBackward H.D S) st0 q w)) (fun s =>
        (haloBackward H.D S q w).unpack 0 (msg (haloBackward H.D S) st0 q s w)
          ((haloBackward H.D S q w).work (lock (haloBackward H.D S) st0 q w))) l =
      (if InSlices ((S w).cells (H.dimAt q) .lghost) l ∨ InSlices ((S w).cells (H.dimAt q) .rghost) l
        then 0 else lock (haloBackward H.D S) st0 q w l) +
      (if InSlices ((S w).cells (H.dimAt q) .lbulk) l then optv (left S (H.dimAt q) w) fun s =>
        lock (haloBackward H.D S) st0 q s (moved S (H.dimAt q) w .lbulk s .rghost l) else 0) := by
    by_cases c : InSlices ((S w).cells (H.dimAt q) .lbulk) l
    · obtain ⟨s, hs⟩ := left_of_mem h dn hi hw (Or.inr c)
      have hh := has_of_mem h dn hi hw c
      obtain ⟨hsn, -, -⟩ := (nb_spec h dn hw hi).2.2.1 s hs
      rw [req_of_has hh hs, if_pos c, hs]
      simp only [Option.elim_some, optv]
      rw [bwd_msg_left h dn hq hw hs hh]
      show addSlice ((S w).cells (H.dimAt q) .lbulk) _ _ l = _
      rw [addSlice, if_pos c, hwork]
      congr 1
      show clearGhost (S s) (H.dimAt q) .lghost _ (moved S (H.dimAt q) w .lbulk s .rghost l) = _
      rw [clearGhost_apply h dn hi hsn, if_neg]
      intro c'
      exact ghosts_disjoint h dn hi hsn _ c'
        (moved_mem h dn hw hsn (msgShape_left h dn hw hi hs).2.1 c)
    · rw [if_neg c, add_zero]
      cases (S w).req (H.dimAt q) .lbulk with
      | none => exact hwork _
      | some s =>
        show addSlice ((S w).cells (H.dimAt q) .lbulk) _ _ l = _
        rw [addSlice, if_neg c, hwork]
  by_cases c : InSlices ((S w).cells (H.dimAt q) .rbulk) l
  · obtain ⟨s, hs⟩ := right_of_mem h dn hi hw (Or.inr c)
    have hh := has_of_mem h dn hi hw c
    obtain ⟨hsn, -, -⟩ := (nb_spec h dn hw hi).2.2.2 s hs
    rw [if_pos c, hs, req_of_has (reg := .rbulk) hh hs]
    simp only [optv] at e1 ⊢
    rw [Option.elim_some, Option.elim_some, bwd_msg_right h dn hq hw hs hh]
    show addSlice ((S w).cells (H.dimAt q) .rbulk) _ _ l = _
    rw [addSlice, if_pos c, e1]
    rfl
  · rw [if_neg c, add_zero, ← e1]
    cases (S w).req (H.dimAt q) .rbulk with
    | none => rfl
    | some s =>
      show addSlice ((S w).cells (H.dimAt q) .rbulk) _ _ l = _
      rw [addSlice, if_neg c]

/-- After the phases of dimensions `≥ i`, everything that lies in a halo of one of them is zero. -/
theorem bwd_clear (h : H.OK) (hf : H.Fits) (dn : H.Done S) :
    ∀ q, q ≤ H.D → ∀ w, w < H.n → ∀ l, InBounds l (H.shape w) →
      ¬ H.BulkFrom (H.D - q) w l → lock (haloBackward H.D S) st0 q w l = 0 := by
  intro q
  induction q with
  | zero =>
    intro _ w _ l _ hb
    exact absurd (fun j h1 h2 => absurd h2 (by omega)) hb
  | succ q ih =>
    intro hq w hw l hl hb
    have hqD : q < H.D := hq
    have hi : H.dimAt q < H.D := by unfold dimAt; omega
    have hlen : l.length = H.D := by rw [(inBounds_iff.1 hl).1, length_shape]
    have hbd : ∀ j, j < H.D → l.getD j 0 < H.size j (H.co w j) := by
      intro j hj
      have := (inBounds_iff.1 hl).2 j (by rw [length_shape]; exact hj)
      rwa [shape_getD hj] at this
    have hd : H.D - q = H.dimAt q + 1 := by unfold dimAt; omega
    have hd' : H.D - (q + 1) = H.dimAt q := by unfold dimAt; omega
    rw [hd'] at hb
    rw [hd] at ih
    rw [bwd_lock h dn hqD hw]
    by_cases c : H.BulkFrom (H.dimAt q + 1) w l
    · -- dimension of this phase is in the halo
      have hlt := co_lt h hw hi
      have hnb : ¬ (H.lw (H.dimAt q) (H.co w (H.dimAt q)) ≤ l.getD (H.dimAt q) 0 ∧
          l.getD (H.dimAt q) 0 < H.lw (H.dimAt q) (H.co w (H.dimAt q)) +
            H.x (H.dimAt q) (H.co w (H.dimAt q))) := by
        intro hc
        apply hb
        intro j h1 h2
        by_cases e : j = H.dimAt q
        · rw [e]; exact hc
        · exact c j (by omega) h2
      have hls : (H.width (H.dimAt q) (H.co w (H.dimAt q))).lsend ≤
          H.x (H.dimAt q) (H.co w (H.dimAt q)) := by
        show (if 0 < _ then _ else _) ≤ _
        split
        · have := hf.right _ hi (H.co w (H.dimAt q) - 1) (by omega)
          rwa [show H.co w (H.dimAt q) - 1 + 1 = H.co w (H.dimAt q) by omega] at this
        · omega
      have hrs : (H.width (H.dimAt q) (H.co w (H.dimAt q))).rsend ≤
          H.x (H.dimAt q) (H.co w (H.dimAt q)) := by
        show (if _ < H.Pd _ then _ else _) ≤ _
        split
        · rename_i hh
          exact hf.left _ hi _ hh
        · omega
      have ng : ∀ reg, (reg = .lbulk ∨ reg = .rbulk) →
          ¬ InSlices ((S w).cells (H.dimAt q) reg) l := by
        intro reg hreg hm
        have := ((mem_cells h dn hw _ l).1 hm).2 _ hi
        rw [msgShape, getD_map_range _ _ hi] at this
        rcases hreg with e | e <;> subst e <;>
          simp only [low, Nat.lt_irrefl, if_true, if_false, msgWidth] at this <;> omega
      rw [if_neg (ng _ (Or.inl rfl)), if_neg (ng _ (Or.inr rfl)), if_pos, add_zero, add_zero]
      have hsz := hbd _ hi
      unfold size at hsz
      by_cases c1 : l.getD (H.dimAt q) 0 < H.lw (H.dimAt q) (H.co w (H.dimAt q))
      · left
        rw [mem_cells h dn hw]
        refine ⟨hlen, fun j hj => ?_⟩
        rw [msgShape, getD_map_range _ _ hj]
        unfold low
        by_cases d1 : j < H.dimAt q
        · simp only [d1, if_true]
          exact ⟨Nat.zero_le _, by have := hbd j hj; omega⟩
        · by_cases d2 : j = H.dimAt q
          · rw [d2]
            simp only [Nat.lt_irrefl, if_true, if_false, msgWidth, width]
            omega
          · simp only [d1, d2, if_false]
            exact c j (by omega) hj
      · right
        rw [mem_cells h dn hw]
        refine ⟨hlen, fun j hj => ?_⟩
        rw [msgShape, getD_map_range _ _ hj]
        unfold low
        by_cases d1 : j < H.dimAt q
        · simp only [d1, if_true]
          exact ⟨Nat.zero_le _, by have := hbd j hj; omega⟩
        · by_cases d2 : j = H.dimAt q
          · rw [d2]
            simp only [Nat.lt_irrefl, if_true, if_false, msgWidth, width]
            omega
          · simp only [d1, d2, if_false]
            exact c j (by omega) hj
    · have n : ∀ reg, ¬ InSlices ((S w).cells (H.dimAt q) reg) l := by
        intro reg hm
        apply c
        intro j h1 h2
        have := ((mem_cells h dn hw _ l).1 hm).2 j h2
        rw [msgShape, getD_map_range _ _ h2] at this
        simp only [low, if_neg (show ¬ j < H.dimAt q by omega),
          if_neg (show ¬ j = H.dimAt q by omega)] at this
        exact this
      rw [if_neg (n _), if_neg (n _), if_neg (by rintro (c1 | c1) <;> exact n _ c1),
        ih (by omega) w hw l hl c, add_zero, add_zero]

end backward

section adjoint
variable {α : Type} [CommSemiring α] {st0 st0' : Nat → List Nat → α}

/-- Inner product of two distributed tensors. -/
def inner (H : HaloPlan) (f g : Nat → List Nat → α) : α :=
  ∑ w ∈ range H.n, boxSum (H.shape w) fun l => f w l * g w l

theorem cells_map (h : H.OK) (dn : H.Done S) {i r : Nat} (hr : r < H.n) (reg : Region) :
    (((S r).cells i reg).map fun p => p.2 - p.1) = H.msgShape i r reg := by
  apply eq_of_getD
  · rw [List.length_map, length_cells dn hr, length_msgShape]
  · intro j hj
    rw [List.length_map, length_cells dn hr] at hj
    have := cells_getD h dn (i := i) hr hj reg
    have hl : j < ((S r).cells i reg).length := by rw [length_cells dn hr]; exact hj
    rw [List.getD_eq_getElem _ _ hl] at this
    rw [List.getD_eq_getElem _ _ (by simpa using hl), List.getElem_map, this]
    simp

theorem boxSum_cells (h : H.OK) (dn : H.Done S) {i r : Nat} (hr : r < H.n) (reg : Region)
    (f : List Nat → α) :
    boxSum (H.shape r) (fun l => if InSlices ((S r).cells i reg) l then f l else 0) =
      boxSum (H.msgShape i r reg) fun k => f (shiftBy (((S r).cells i reg).map Prod.fst) k) := by
  rw [boxSum_slice (by rw [length_cells dn hr, length_shape]), cells_map h dn hr]
  intro j hj
  rw [length_cells dn hr] at hj
  rw [cells_getD h dn hr hj, shape_getD hj]
  exact low_le h hr hj reg

/-- The contribution of the message between region `b` of `s` and ghost region `a` of `w`. -/
def pairTerm (H : HaloPlan) (S : Nat → HaloSetup) (i w : Nat) (a : Region) (s : Nat) (b : Region)
    (u v : Nat → List Nat → α) : α :=
  boxSum (H.msgShape i w a) fun k => u s (shiftBy (((S s).cells i b).map Prod.fst) k) *
    v w (shiftBy (((S w).cells i a).map Prod.fst) k)

/-- Sum over a ghost region of what the neighbour sent. -/
theorem ghost_sum (h : H.OK) (dn : H.Done S) {i w s : Nat} (hw : w < H.n)
    (a b : Region) (u v : Nat → List Nat → α) :
    boxSum (H.shape w) (fun l => if InSlices ((S w).cells i a) l then
      u s (moved S i w a s b l) * v w l else 0) = H.pairTerm S i w a s b u v := by
  rw [boxSum_cells h dn hw, pairTerm]
  apply boxSum_congr
  intro k hk
  have hkl : k.length = H.D := by rw [(inBounds_iff.1 hk).1, length_msgShape]
  rw [moved_shift dn hw hkl]

/-- Sum over a bulk region of what the neighbour sent back. -/
theorem bulk_sum (h : H.OK) (dn : H.Done S) {i w s : Nat} (hs : s < H.n)
    {a b : Region} (hsh : H.msgShape i w a = H.msgShape i s b) (u v : Nat → List Nat → α) :
    boxSum (H.shape s) (fun l => if InSlices ((S s).cells i b) l then
      u s l * v w (moved S i s b w a l) else 0) = H.pairTerm S i w a s b u v := by
  rw [boxSum_cells h dn hs, pairTerm, hsh]
  apply boxSum_congr
  intro k hk
  have hkl : k.length = H.D := by rw [(inBounds_iff.1 hk).1, length_msgShape]
  rw [moved_shift dn hs hkl]

/-- One dimension: the forward operation and the adjoint. -/
theorem phase_adjoint (h : H.OK) (dn : H.Done S) {q : Nat} (hq : q < H.D) :
    H.inner (lock (haloForward S) st0 (H.dimAt q + 1)) (lock (haloBackward H.D S) st0' q) =
      H.inner (lock (haloForward S) st0 (H.dimAt q)) (lock (haloBackward H.D S) st0' (q + 1)) := by
  have hi : H.dimAt q < H.D := by unfold dimAt; omega
  generalize hu : lock (haloForward S) st0 (H.dimAt q) = u
  generalize hv : lock (haloBackward H.D S) st0' q = v
  have hleft : ∀ w, w < H.n → ∀ s, left S (H.dimAt q) w = some s → s < H.n := fun w hw s hs =>
    ((nb_spec h dn hw hi).2.2.1 s hs).1
  have hright : ∀ w, w < H.n → ∀ s, right S (H.dimAt q) w = some s → s < H.n := fun w hw s hs =>
    ((nb_spec h dn hw hi).2.2.2 s hs).1
  -- forward side
  have hF : ∀ w, w < H.n → boxSum (H.shape w) (fun l =>
      lock (haloForward S) st0 (H.dimAt q + 1) w l * v w l) =
      boxSum (H.shape w) (fun l => u w l * (if InSlices ((S w).cells (H.dimAt q) .lghost) l ∨
        InSlices ((S w).cells (H.dimAt q) .rghost) l then 0 else v w l)) +
      (∑ s ∈ range H.n, if left S (H.dimAt q) w = some s then
        H.pairTerm S (H.dimAt q) w .lghost s .rbulk u v else 0) +
      ∑ s ∈ range H.n, if right S (H.dimAt q) w = some s then
        H.pairTerm S (H.dimAt q) w .rghost s .lbulk u v else 0 := by
    intro w hw
    rw [← optv_eq_sum (hleft w hw), ← optv_eq_sum (hright w hw)]
    have e : ∀ l, lock (haloForward S) st0 (H.dimAt q + 1) w l * v w l =
        u w l * (if InSlices ((S w).cells (H.dimAt q) .lghost) l ∨
          InSlices ((S w).cells (H.dimAt q) .rghost) l then 0 else v w l) +
        (if InSlices ((S w).cells (H.dimAt q) .lghost) l then optv (left S (H.dimAt q) w) fun s =>
          u s (moved S (H.dimAt q) w .lghost s .rbulk l) * v w l else 0) +
        (if InSlices ((S w).cells (H.dimAt q) .rghost) l then optv (right S (H.dimAt q) w) fun s =>
          u s (moved S (H.dimAt q) w .rghost s .lbulk l) * v w l else 0) := by
      intro l
      by_cases c1 : InSlices ((S w).cells (H.dimAt q) .lghost) l
      · obtain ⟨s, hs⟩ := left_of_mem h dn hi hw (Or.inl c1)
        have c2 : ¬ InSlices ((S w).cells (H.dimAt q) .rghost) l := fun c2 =>
          ghosts_disjoint h dn hi hw l c1 c2
        rw [fwd_lghost h dn hi hw c1 hs, hs, hu]
        simp [c1, c2, optv, moved]
      · by_cases c2 : InSlices ((S w).cells (H.dimAt q) .rghost) l
        · obtain ⟨s, hs⟩ := right_of_mem h dn hi hw (Or.inl c2)
          rw [fwd_rghost h dn hi hw c2 hs, hs, hu]
          simp [c1, c2, optv, moved]
        · rw [fwd_other c1 c2, hu]
          simp [c1, c2]
    rw [boxSum_congr (fun l _ => e l), boxSum_add, boxSum_add]
    congr 1
    · congr 1
      cases hs : left S (H.dimAt q) w with
      | none =>
        simp only [optv, Option.elim_none]
        refine Eq.trans ?_ (boxSum_zero (H.shape w))
        exact boxSum_congr fun l _ => by simp
      | some s =>
        simp only [optv, Option.elim_some]
        exact ghost_sum h dn hw _ _ u v
    · cases hs : right S (H.dimAt q) w with
      | none =>
        simp only [optv, Option.elim_none]
        refine Eq.trans ?_ (boxSum_zero (H.shape w))
        exact boxSum_congr fun l _ => by simp
      | some s =>
        simp only [optv, Option.elim_some]
        exact ghost_sum h dn hw _ _ u v
  -- adjoint side
  have hB : ∀ s, s < H.n → boxSum (H.shape s) (fun l =>
      u s l * lock (haloBackward H.D S) st0' (q + 1) s l) =
      boxSum (H.shape s) (fun l => u s l * (if InSlices ((S s).cells (H.dimAt q) .lghost) l ∨
        InSlices ((S s).cells (H.dimAt q) .rghost) l then 0 else v s l)) +
      (∑ w ∈ range H.n, if left S (H.dimAt q) s = some w then
        H.pairTerm S (H.dimAt q) w .rghost s .lbulk u v else 0) +
      ∑ w ∈ range H.n, if right S (H.dimAt q) s = some w then
        H.pairTerm S (H.dimAt q) w .lghost s .rbulk u v else 0 := by
    intro s hs
    rw [← optv_eq_sum (hleft s hs), ← optv_eq_sum (hright s hs)]
    have e : ∀ l, u s l * lock (haloBackward H.D S) st0' (q + 1) s l =
        u s l * (if InSlices ((S s).cells (H.dimAt q) .lghost) l ∨
          InSlices ((S s).cells (H.dimAt q) .rghost) l then 0 else v s l) +
        (if InSlices ((S s).cells (H.dimAt q) .lbulk) l then optv (left S (H.dimAt q) s) fun w =>
          u s l * v w (moved S (H.dimAt q) s .lbulk w .rghost l) else 0) +
        (if InSlices ((S s).cells (H.dimAt q) .rbulk) l then optv (right S (H.dimAt q) s) fun w =>
          u s l * v w (moved S (H.dimAt q) s .rbulk w .lghost l) else 0) := by
      intro l
      rw [bwd_lock h dn hq hs, hv, mul_add, mul_add]
      congr 1
      · congr 1
        split
        · cases left S (H.dimAt q) s <;> simp [optv]
        · simp
      · split
        · cases right S (H.dimAt q) s <;> simp [optv]
        · simp
    rw [boxSum_congr (fun l _ => e l), boxSum_add, boxSum_add]
    congr 1
    · congr 1
      cases hl : left S (H.dimAt q) s with
      | none =>
        simp only [optv, Option.elim_none]
        refine Eq.trans ?_ (boxSum_zero (H.shape s))
        exact boxSum_congr fun l _ => by simp
      | some w =>
        simp only [optv, Option.elim_some]
        exact bulk_sum h dn hs (msgShape_left h dn hs hi hl).2.1.symm u v
    · cases hl : right S (H.dimAt q) s with
      | none =>
        simp only [optv, Option.elim_none]
        refine Eq.trans ?_ (boxSum_zero (H.shape s))
        exact boxSum_congr fun l _ => by simp
      | some w =>
        simp only [optv, Option.elim_some]
        have hw := hright s hs w hl
        exact bulk_sum h dn hs
          (msgShape_left h dn hw hi ((right_iff_left h dn hs hw hi).1 hl)).1 u v
  unfold inner
  rw [Finset.sum_congr rfl (fun w hw => hF w (Finset.mem_range.1 hw)),
    Finset.sum_congr rfl (fun w hw => hB w (Finset.mem_range.1 hw))]
  simp only [Finset.sum_add_distrib]
  rw [add_assoc, add_assoc]
  congr 1
  rw [add_comm]
  congr 1
  · rw [Finset.sum_comm]
    apply Finset.sum_congr rfl
    intro s hs
    apply Finset.sum_congr rfl
    intro w hw
    have := right_iff_left h dn (Finset.mem_range.1 hw) (Finset.mem_range.1 hs) hi
    by_cases c : right S (H.dimAt q) w = some s
    · rw [if_pos c, if_pos (this.1 c)]
    · rw [if_neg c, if_neg (fun c' => c (this.2 c'))]
  · rw [Finset.sum_comm]
    apply Finset.sum_congr rfl
    intro s hs
    apply Finset.sum_congr rfl
    intro w hw
    have := right_iff_left h dn (Finset.mem_range.1 hs) (Finset.mem_range.1 hw) hi
    by_cases c : right S (H.dimAt q) s = some w
    · rw [if_pos c, if_pos (this.1 c)]
    · rw [if_neg c, if_neg (fun c' => c (this.2 c'))]

/-- All dimensions. -/
theorem all_adjoint (h : H.OK) (dn : H.Done S) :
    H.inner (lock (haloForward S) st0 (haloPhases H.P)) st0' =
      H.inner st0 (lock (haloBackward H.D S) st0' (haloPhases H.P)) := by
  unfold haloPhases
  split
  · rfl
  · have key : ∀ q, q ≤ H.D → H.inner (lock (haloForward S) st0 H.D) st0' =
        H.inner (lock (haloForward S) st0 (H.D - q)) (lock (haloBackward H.D S) st0' q) := by
      intro q
      induction q with
      | zero => intro _; rfl
      | succ q ih =>
        intro hq
        rw [ih (by omega)]
        have := phase_adjoint (st0 := st0) (st0' := st0') h dn (q := q) (by omega)
        have hd : H.D - q = H.dimAt q + 1 := by unfold dimAt; omega
        have hd' : H.D - (q + 1) = H.dimAt q := by unfold dimAt; omega
        rw [hd, hd', this]
    have := key H.D (Nat.le_refl _)
    rw [Nat.sub_self] at this
    exact this

end adjoint

end HaloPlan

end Verif
