import Verif.Halo.Model
import Verif.Repartition.Setup
import Verif.Exchange.Props
import Mathlib.Data.List.GetD

/-!
# Halo exchange for given widths: regions, neighbours, matching
-/

namespace Verif

open Exchange

theorem inBounds_iff {l s : List Nat} :
    InBounds l s ↔ l.length = s.length ∧ ∀ j, j < s.length → l.getD j 0 < s.getD j 0 := by
  induction s generalizing l with
  | nil => cases l <;> simp [InBounds]
  | cons n ns ih =>
    cases l with
    | nil => simp [InBounds]
    | cons x xs =>
      simp only [InBounds, ih, List.length_cons, Nat.add_right_cancel_iff]
      constructor
      · rintro ⟨h1, h2, h3⟩
        refine ⟨h2, fun j hj => ?_⟩
        cases j with
        | zero => simpa using h1
        | succ j => simpa using h3 j (by omega)
      · rintro ⟨h1, h2⟩
        exact ⟨by simpa using h2 0 (by omega), h1, fun j hj => by simpa using h2 (j + 1) (by omega)⟩

theorem inSlices_iff {l : List Nat} {sl : Slices} :
    InSlices sl l ↔ l.length = sl.length ∧ ∀ j, j < sl.length →
      (sl.getD j (0, 0)).1 ≤ l.getD j 0 ∧ l.getD j 0 < (sl.getD j (0, 0)).2 := by
  induction sl generalizing l with
  | nil => cases l <;> simp [InSlices]
  | cons n ns ih =>
    cases l with
    | nil => simp [InSlices]
    | cons x xs =>
      simp only [InSlices, ih, List.length_cons, Nat.add_right_cancel_iff]
      constructor
      · rintro ⟨h1, h2, h3⟩
        refine ⟨h2, fun j hj => ?_⟩
        cases j with
        | zero => simpa using h1
        | succ j => simpa using h3 j (by omega)
      · rintro ⟨h1, h2⟩
        exact ⟨by simpa using h2 0 (by omega), h1, fun j hj => by simpa using h2 (j + 1) (by omega)⟩

theorem getD_shiftBy {s l : List Nat} {j : Nat} (h1 : j < s.length) (h2 : j < l.length) :
    (shiftBy s l).getD j 0 = s.getD j 0 + l.getD j 0 := by
  induction s generalizing l j with
  | nil => simp at h1
  | cons a as ih =>
    cases l with
    | nil => simp at h2
    | cons b bs =>
      cases j with
      | zero => simp [shiftBy]
      | succ j => simpa [shiftBy] using ih (by simpa using h1) (by simpa using h2)

theorem getD_map_range {α : Type} {D j : Nat} (f : Nat → α) (a : α) (h : j < D) :
    ((List.range D).map f).getD j a = f j := by
  simp [List.getD_eq_getElem?_getD, List.getElem?_range h]

theorem getD_zipWith_sub {a b : List Nat} {j : Nat} (h1 : j < a.length) (h2 : j < b.length) :
    (List.zipWith (· - ·) a b).getD j 0 = a.getD j 0 - b.getD j 0 := by
  simp [List.getD_eq_getElem?_getD, List.getElem?_zipWith, List.getElem?_eq_getElem h1,
    List.getElem?_eq_getElem h2]

/-- A description of a halo exchange: the partition, the layout of the bulk, and for every dimension
and block index the widths of the left and right halo. -/
structure HaloPlan where
  P : Cart
  L : Layout
  lw : Nat → Nat → Nat
  rw : Nat → Nat → Nat

namespace HaloPlan

variable (H : HaloPlan)

/-- Number of dimensions. -/
abbrev D : Nat := H.P.shape.length
/-- Number of workers. -/
abbrev n : Nat := H.P.members.length
/-- Number of blocks in dimension `j`. -/
def Pd (j : Nat) : Nat := H.P.shape.getD j 0
/-- Length of block `c` of dimension `j`. -/
def x (j c : Nat) : Nat := (H.L.getD j []).getD c 0
/-- First global cell of block `c` of dimension `j`. -/
def st (j c : Nat) : Nat := ((H.L.getD j []).take c).sum
/-- Block index of rank `r` in dimension `j`. -/
def co (r j : Nat) : Nat := (getCoords H.P.shape r).getD j 0
/-- Length of the block with its halos. -/
def size (j c : Nat) : Nat := H.lw j c + H.x j c + H.rw j c
/-- Shape of the local tensor with halos. -/
def shape (r : Nat) : List Nat := (List.range H.D).map fun j => H.size j (H.co r j)
/-- The widths a worker receives and sends: it sends what its neighbours receive. -/
def width (j c : Nat) : Widths :=
  ⟨H.lw j c, H.rw j c, if 0 < c then H.rw j (c - 1) else 0,
    if c + 1 < H.Pd j then H.lw j (c + 1) else 0⟩
/-- The widths of all dimensions. -/
def widths (r : Nat) : List Widths := (List.range H.D).map fun j => H.width j (H.co r j)
/-- The global cell of the first cell of the local tensor with halos. -/
def origin (r : Nat) : List Nat :=
  (List.range H.D).map fun j => H.st j (H.co r j) - H.lw j (H.co r j)

/-- A well-formed plan: nothing outward at the boundary, and every message is taken from inside the
neighbour's local tensor. -/
structure OK : Prop where
  wf : H.P.WF
  layout : H.L.pshape = H.P.shape
  left0 : ∀ j, j < H.D → H.lw j 0 = 0
  right0 : ∀ j, j < H.D → H.rw j (H.Pd j - 1) = 0
  rangel : ∀ j, j < H.D → ∀ c, c + 1 < H.Pd j → H.lw j (c + 1) ≤ H.lw j c + H.x j c
  ranger : ∀ j, j < H.D → ∀ c, c + 1 < H.Pd j → H.rw j c ≤ H.x j (c + 1) + H.rw j (c + 1)

/-- No halo is wider than the block it is taken from. -/
structure Fits : Prop where
  left : ∀ j, j < H.D → ∀ c, c + 1 < H.Pd j → H.lw j (c + 1) ≤ H.x j c
  right : ∀ j, j < H.D → ∀ c, c + 1 < H.Pd j → H.rw j c ≤ H.x j (c + 1)

/-- Width of the message of a region in its own dimension. -/
def msgWidth (r : Region) (j c : Nat) : Nat :=
  match r with
  | .lbulk => (H.width j c).lsend
  | .lghost => (H.width j c).lrecv
  | .rbulk => (H.width j c).rsend
  | .rghost => (H.width j c).rrecv

/-- Shape of the message of region `reg` of dimension `i`. -/
def msgShape (i r : Nat) (reg : Region) : List Nat :=
  (List.range H.D).map fun j =>
    if j < i then H.size j (H.co r j) else if j = i then H.msgWidth reg j (H.co r j)
    else H.x j (H.co r j)

/-- First local cell of a region in dimension `j`. -/
def low (i r : Nat) (reg : Region) (j : Nat) : Nat :=
  let c := H.co r j
  if j < i then 0
  else if j = i then match reg with
    | .lbulk => H.lw j c
    | .lghost => 0
    | .rbulk => H.lw j c + H.x j c - (H.width j c).rsend
    | .rghost => H.lw j c + H.x j c
  else H.lw j c

/-- Setup has run on all workers. -/
structure Done (S : Nat → HaloSetup) : Prop where
  shape : ∀ r, r < H.n → (S r).shape = H.shape r
  ws : ∀ r, r < H.n → (S r).ws = H.widths r
  nb : ∀ r, r < H.n → neighborRanks H.P r = some (S r).nb
  has : ∀ r, r < H.n → ∀ i, i < H.D → ∀ reg, (S r).has i reg = true ↔
    0 < H.msgWidth reg i (H.co r i) ∧ 0 < (H.msgShape i r reg).prod

end HaloPlan

section
variable {H : HaloPlan} {S : Nat → HaloSetup}

namespace HaloPlan

theorem n_eq (h : H.OK) : H.n = H.P.shape.prod := h.wf.size

theorem co_lt (h : H.OK) {r j : Nat} (hr : r < H.n) (hj : j < H.D) : H.co r j < H.Pd j :=
  inBounds_getD (getCoords_spec (by rw [← H.n_eq h]; exact hr)).1 hj

theorem st_succ (j c : Nat) : H.st j (c + 1) = H.st j c + H.x j c := take_sum_succ _ _

theorem lsend_le (h : H.OK) {j c : Nat} (hj : j < H.D) (hc : c < H.Pd j) :
    (H.width j c).lsend ≤ H.x j c + H.rw j c := by
  unfold width
  show (if 0 < c then _ else _) ≤ _
  split
  · have := h.ranger j hj (c - 1) (by omega)
    rwa [show c - 1 + 1 = c by omega] at this
  · omega

theorem rsend_le (h : H.OK) {j c : Nat} (hj : j < H.D) :
    (H.width j c).rsend ≤ H.lw j c + H.x j c := by
  unfold width
  show (if c + 1 < _ then _ else _) ≤ _
  split
  · rename_i hc
    exact h.rangel j hj c hc
  · omega

end HaloPlan

theorem pyBound_of_nat {s : Nat} {a : Int} {m : Nat} (h : a = m) (hm : m ≤ s) : pyBound s a = m := by
  subst h
  unfold pyBound
  rw [if_neg (by omega), Int.toNat_natCast]
  exact Nat.min_eq_left hm

namespace HaloPlan

theorem width_getD {r j : Nat} (hj : j < H.D) :
    (H.widths r).getD j default = H.width j (H.co r j) := by
  rw [widths, getD_map_range _ _ hj]

theorem shape_getD {r j : Nat} (hj : j < H.D) : (H.shape r).getD j 0 = H.size j (H.co r j) := by
  rw [shape, getD_map_range _ _ hj]

theorem length_shape (r : Nat) : (H.shape r).length = H.D := by simp [shape]

/-- The slices of a region, dimension by dimension. -/
theorem haloSlice_getD (h : H.OK) {i r j : Nat} (hr : r < H.n) (hj : j < H.D) (reg : Region) :
    (haloSlice (H.shape r) (H.widths r) i reg).getD j (0, 0) =
      (((H.low i r reg j : Nat) : Int), ((H.low i r reg j + (H.msgShape i r reg).getD j 0 : Nat) : Int)) := by
  rw [haloSlice, length_shape, getD_map_range _ _ hj]
  simp only [shape_getD hj, width_getD hj]
  rw [msgShape, getD_map_range _ _ hj]
  have h1 := lsend_le h hj (co_lt h hr hj)
  have h2 := rsend_le h (c := H.co r j) hj
  have e1 : (H.width j (H.co r j)).lrecv = H.lw j (H.co r j) := rfl
  have e2 : (H.width j (H.co r j)).rrecv = H.rw j (H.co r j) := rfl
  unfold low
  simp only []
  by_cases c1 : j < i
  · simp only [c1, if_true]
    simp
  · by_cases c2 : j = i
    · subst c2
      simp only [Nat.lt_irrefl, if_true, if_false]
      cases reg <;> simp only [regionSlice, msgWidth, size, e1, e2, Prod.mk.injEq] <;>
        constructor <;> first | rfl | omega | push_cast
    · simp only [c1, c2, if_false, size, e1, e2, Prod.mk.injEq]
      constructor
      · first | rfl | trivial
      · omega

theorem low_le (h : H.OK) {i r j : Nat} (hr : r < H.n) (hj : j < H.D) (reg : Region) :
    H.low i r reg j + (H.msgShape i r reg).getD j 0 ≤ H.size j (H.co r j) := by
  rw [msgShape, getD_map_range _ _ hj]
  have h1 := lsend_le h hj (co_lt h hr hj)
  have h2 := rsend_le h (c := H.co r j) hj
  have e1 : (H.width j (H.co r j)).lrecv = H.lw j (H.co r j) := rfl
  have e2 : (H.width j (H.co r j)).rrecv = H.rw j (H.co r j) := rfl
  unfold low
  simp only [size]
  by_cases c1 : j < i
  · simp only [c1, if_true]
    omega
  · by_cases c2 : j = i
    · subst c2
      simp only [Nat.lt_irrefl, if_true, if_false]
      cases reg <;> simp only [msgWidth, e1, e2] <;> omega
    · simp only [c1, c2, if_false]
      omega

theorem length_msgShape (i r : Nat) (reg : Region) : (H.msgShape i r reg).length = H.D := by
  simp [msgShape]

theorem length_cells (d : H.Done S) {r : Nat} (hr : r < H.n) (i : Nat) (reg : Region) :
    ((S r).cells i reg).length = H.D := by
  rw [HaloSetup.cells, d.shape r hr, pySlices]
  simp [haloSlice, length_shape]

/-- The cells of a region, dimension by dimension. -/
theorem cells_getD (h : H.OK) (d : H.Done S) {i r j : Nat} (hr : r < H.n) (hj : j < H.D)
    (reg : Region) :
    ((S r).cells i reg).getD j (0, 0) =
      (H.low i r reg j, H.low i r reg j + (H.msgShape i r reg).getD j 0) := by
  have hg := haloSlice_getD h (i := i) hr hj reg
  have hl := low_le h (i := i) hr hj reg
  rw [HaloSetup.cells, d.shape r hr, d.ws r hr, pySlices]
  have l1 : j < (H.shape r).length := by rw [length_shape]; exact hj
  have l2 : j < (haloSlice (H.shape r) (H.widths r) i reg).length := by
    simp [haloSlice, length_shape]; exact hj
  have es : (H.shape r)[j] = H.size j (H.co r j) := by
    have := shape_getD (H := H) (r := r) hj
    rwa [List.getD_eq_getElem _ _ l1] at this
  rw [List.getD_eq_getElem _ _ l2] at hg
  rw [List.getD_eq_getElem _ _ (by simp; exact ⟨by rw [length_shape]; exact hj, by
    simpa [haloSlice, length_shape] using hj⟩), List.getElem_zipWith, hg, es]
  simp only [Prod.mk.injEq]
  exact ⟨pyBound_of_nat rfl (by omega), pyBound_of_nat rfl hl⟩

theorem mem_cells (h : H.OK) (d : H.Done S) {i r : Nat} (hr : r < H.n) (reg : Region)
    (l : List Nat) :
    InSlices ((S r).cells i reg) l ↔ l.length = H.D ∧ ∀ j, j < H.D →
      H.low i r reg j ≤ l.getD j 0 ∧ l.getD j 0 < H.low i r reg j + (H.msgShape i r reg).getD j 0 := by
  rw [inSlices_iff, length_cells d hr]
  constructor
  · rintro ⟨h1, h2⟩
    refine ⟨h1, fun j hj => ?_⟩
    have := h2 j hj
    rwa [cells_getD h d hr hj] at this
  · rintro ⟨h1, h2⟩
    refine ⟨h1, fun j hj => ?_⟩
    rw [cells_getD h d hr hj]
    exact h2 j hj

theorem starts_getD (h : H.OK) (d : H.Done S) {i r j : Nat} (hr : r < H.n) (hj : j < H.D)
    (reg : Region) : (((S r).cells i reg).map Prod.fst).getD j 0 = H.low i r reg j := by
  have := cells_getD h d (i := i) hr hj reg
  have hl : j < ((S r).cells i reg).length := by rw [length_cells d hr]; exact hj
  rw [List.getD_eq_getElem _ _ hl] at this
  rw [List.getD_eq_getElem _ _ (by simpa using hl), List.getElem_map, this]

/-! ## Neighbours -/

/-- Left neighbour in dimension `i`. -/
def left (S : Nat → HaloSetup) (i r : Nat) : Option Nat := (S r).peer i .lghost
/-- Right neighbour in dimension `i`. -/
def right (S : Nat → HaloSetup) (i r : Nat) : Option Nat := (S r).peer i .rghost

theorem nb_spec (h : H.OK) (d : H.Done S) {i r : Nat} (hr : r < H.n) (hi : i < H.D) :
    (left S i r = none ↔ H.co r i = 0) ∧ (right S i r = none ↔ H.co r i + 1 = H.Pd i) ∧
    (∀ s, left S i r = some s → s < H.n ∧ H.co s i + 1 = H.co r i ∧ ∀ j, j ≠ i → H.co s j = H.co r j) ∧
    (∀ s, right S i r = some s → s < H.n ∧ H.co s i = H.co r i + 1 ∧ ∀ j, j ≠ i → H.co s j = H.co r j) := by
  obtain ⟨nb, e1, e2, e3⟩ := C28_neighbors H.P r (by rw [← H.n_eq h]; exact hr)
  rw [d.nb r hr] at e1
  cases e1
  obtain ⟨l, u, q1, q2, q3, q4, q5⟩ := e3 i hi
  have hl : left S i r = l := by
    show ((S r).nb.getD i (none, none)).1 = l
    rw [List.getD_eq_getElem?_getD, q1]; rfl
  have hu : right S i r = u := by
    show ((S r).nb.getD i (none, none)).2 = u
    rw [List.getD_eq_getElem?_getD, q1]; rfl
  rw [hl, hu]
  refine ⟨q2, q3, fun s hs => ?_, fun s hs => ?_⟩
  · have := q4 s hs
    rw [← H.n_eq h] at this
    exact this
  · have := q5 s hs
    rw [← H.n_eq h] at this
    exact this

theorem right_iff_left (h : H.OK) (d : H.Done S) {i r s : Nat} (hr : r < H.n) (hs : s < H.n)
    (hi : i < H.D) : right S i r = some s ↔ left S i s = some r := by
  have := C28_symmetric H.P r s i (by rw [← H.n_eq h]; exact hr) (by rw [← H.n_eq h]; exact hs) hi
    _ _ (d.nb r hr) (d.nb s hs)
  have hl : ∀ t, t < H.n → i < (S t).nb.length := by
    intro t ht
    obtain ⟨nb, e1, e2, _⟩ := C28_neighbors H.P t (by rw [← H.n_eq h]; exact ht)
    rw [d.nb t ht] at e1
    cases e1
    rw [e2]; exact hi
  rw [List.getElem?_eq_getElem (hl r hr), List.getElem?_eq_getElem (hl s hs)] at this
  simp only [Option.map_some, Option.some.injEq] at this
  unfold left right HaloSetup.peer
  simp only [List.getD_eq_getElem _ _ (hl r hr), List.getD_eq_getElem _ _ (hl s hs)]
  exact this

/-- Neighbours agree on the shape of the message between them. -/
theorem msgShape_left (h : H.OK) (d : H.Done S) {i r s : Nat} (hr : r < H.n) (hi : i < H.D)
    (hs : left S i r = some s) :
    H.msgShape i r .lghost = H.msgShape i s .rbulk ∧ H.msgShape i r .lbulk = H.msgShape i s .rghost ∧
    H.msgWidth .lghost i (H.co r i) = H.msgWidth .rbulk i (H.co s i) ∧
    H.msgWidth .lbulk i (H.co r i) = H.msgWidth .rghost i (H.co s i) := by
  obtain ⟨hs1, hs2, hs3⟩ := (nb_spec h d hr hi).2.2.1 s hs
  have hlt := co_lt h hr hi
  have w1 : H.msgWidth .lghost i (H.co r i) = H.msgWidth .rbulk i (H.co s i) := by
    simp only [msgWidth, width, hs2]
    rw [if_pos hlt]
  have w2 : H.msgWidth .lbulk i (H.co r i) = H.msgWidth .rghost i (H.co s i) := by
    simp only [msgWidth, width]
    rw [if_pos (by omega), show H.co r i - 1 = H.co s i by omega]
  refine ⟨?_, ?_, w1, w2⟩
  all_goals
    unfold msgShape
    apply List.map_congr_left
    intro j _
    by_cases c1 : j < i
    · simp only [c1, if_true]
      rw [hs3 j (by omega)]
    · by_cases c2 : j = i
      · subst c2
        simp only [c1, if_false, if_true]
        assumption
      · simp only [c1, c2, if_false]
        rw [hs3 j c2]

theorem has_left (h : H.OK) (d : H.Done S) {i r s : Nat} (hr : r < H.n) (hi : i < H.D)
    (hs : left S i r = some s) :
    (S r).has i .lghost = (S s).has i .rbulk ∧ (S r).has i .lbulk = (S s).has i .rghost := by
  obtain ⟨hs1, -, -⟩ := (nb_spec h d hr hi).2.2.1 s hs
  obtain ⟨a1, a2, a3, a4⟩ := msgShape_left h d hr hi hs
  constructor
  · rw [Bool.eq_iff_iff, d.has r hr i hi, d.has s hs1 i hi, a1, a3]
  · rw [Bool.eq_iff_iff, d.has r hr i hi, d.has s hs1 i hi, a2, a4]

/-- Nothing is exchanged outward at the boundary. -/
theorem has_boundary (h : H.OK) (d : H.Done S) {i r : Nat} (hr : r < H.n) (hi : i < H.D) :
    (left S i r = none → (S r).has i .lghost = false ∧ (S r).has i .lbulk = false) ∧
    (right S i r = none → (S r).has i .rghost = false ∧ (S r).has i .rbulk = false) := by
  obtain ⟨b1, b2, -, -⟩ := nb_spec h d hr hi
  have key : ∀ reg, H.msgWidth reg i (H.co r i) = 0 → (S r).has i reg = false := by
    intro reg hw
    rw [← Bool.not_eq_true, d.has r hr i hi, hw]
    omega
  constructor
  · intro hn
    have hc := b1.1 hn
    refine ⟨key _ ?_, key _ ?_⟩
    · rw [hc]; exact h.left0 i hi
    · rw [hc]; rfl
  · intro hn
    have hc := b2.1 hn
    refine ⟨key _ ?_, key _ ?_⟩
    · have : H.co r i = H.Pd i - 1 := by omega
      rw [this]; exact h.right0 i hi
    · simp only [msgWidth, width]
      rw [if_neg (by omega)]

/-! ## Matching -/

theorem req_eq (S : Nat → HaloSetup) (i r : Nat) (reg : Region) (d : Nat) :
    (S r).req i reg = some d ↔ (S r).has i reg = true ∧ (S r).peer i reg = some d := by
  unfold HaloSetup.req
  split
  · rename_i hh; simp [hh]
  · rename_i hh; simp [hh]

/-- The agreement used by the forward and by the adjoint operation. -/
theorem agree (h : H.OK) (dn : H.Done S) {i s d : Nat} (hi : i < H.D) (hs : s < H.n) (hd : d < H.n) :
    ((S s).req i .lbulk = some d ∨ (S s).req i .rbulk = some d) ↔
      ((S d).req i .lghost = some s ∨ (S d).req i .rghost = some s) := by
  simp only [req_eq]
  have e1 : (S s).peer i .lbulk = some d ↔ (S d).peer i .rghost = some s :=
    (right_iff_left h dn hd hs hi).symm
  have e2 : (S s).peer i .rbulk = some d ↔ (S d).peer i .lghost = some s :=
    right_iff_left h dn hs hd hi
  constructor
  · rintro (⟨a, b⟩ | ⟨a, b⟩)
    · exact Or.inr ⟨by rw [← (has_left h dn hs hi b).2]; exact a, e1.1 b⟩
    · exact Or.inl ⟨by rw [(has_left h dn hd hi (e2.1 b)).1]; exact a, e2.1 b⟩
  · rintro (⟨a, b⟩ | ⟨a, b⟩)
    · exact Or.inr ⟨by rw [← (has_left h dn hd hi b).1]; exact a, e2.2 b⟩
    · exact Or.inl ⟨by rw [(has_left h dn hs hi (e1.2 b)).2]; exact a, e1.2 b⟩

theorem left_ne_right (h : H.OK) (dn : H.Done S) {i r s t : Nat} (hi : i < H.D) (hr : r < H.n)
    (hl : left S i r = some s) (ht : right S i r = some t) : s ≠ t := by
  obtain ⟨-, -, q1, q2⟩ := nb_spec h dn hr hi
  have a := (q1 s hl).2.1
  have b := (q2 t ht).2.1
  intro e
  subst e
  omega

theorem count_pair {a b : Option Nat} {d : Nat} (h : ¬ (a = some d ∧ b = some d)) :
    [a, b].count (some d) ≤ 1 := by
  by_cases h1 : a = some d
  · by_cases h2 : b = some d
    · exact absurd ⟨h1, h2⟩ h
    · simp [h1, h2]
  · by_cases h2 : b = some d <;> simp [h1, h2]

theorem mem_pair {a b : Option Nat} {d : Nat} : some d ∈ [a, b] ↔ a = some d ∨ b = some d := by
  simp only [List.mem_cons, List.not_mem_nil, or_false]
  constructor
  · rintro (h | h)
    · exact Or.inl h.symm
    · exact Or.inr h.symm
  · rintro (h | h)
    · exact Or.inl h.symm
    · exact Or.inr h.symm

theorem phases_le (H : HaloPlan) : haloPhases H.P ≤ H.D := by
  unfold haloPhases D
  split <;> omega

theorem pair_facts (h : H.OK) (dn : H.Done S) {i r : Nat} (hi : i < H.D) (hr : r < H.n) (d : Nat) :
    (¬ ((S r).req i .lbulk = some d ∧ (S r).req i .rbulk = some d)) ∧
    (¬ ((S r).req i .lghost = some d ∧ (S r).req i .rghost = some d)) ∧
    (∀ reg, (S r).req i reg = some d → d < H.n) := by
  refine ⟨?_, ?_, ?_⟩
  · rintro ⟨a, b⟩
    exact left_ne_right h dn hi hr ((req_eq S i r _ d).1 a).2 ((req_eq S i r _ d).1 b).2 rfl
  · rintro ⟨a, b⟩
    exact left_ne_right h dn hi hr ((req_eq S i r _ d).1 a).2 ((req_eq S i r _ d).1 b).2 rfl
  · intro reg hreq
    have hp := ((req_eq S i r _ d).1 hreq).2
    obtain ⟨-, -, q1, q2⟩ := nb_spec h dn hr hi
    cases reg with
    | lbulk => exact (q1 d hp).1
    | lghost => exact (q1 d hp).1
    | rbulk => exact (q2 d hp).1
    | rghost => exact (q2 d hp).1

theorem fwd_matched {α : Type} (h : H.OK) (dn : H.Done S) :
    Matched (haloForward (α := α) S) H.n (haloPhases H.P) where
  agree := by
    intro p hp s hs d hd
    have hi : p < H.D := Nat.lt_of_lt_of_le hp H.phases_le
    show some d ∈ [_, _] ↔ some s ∈ [_, _]
    rw [mem_pair, mem_pair]
    exact agree h dn hi hs hd
  sends_once := by
    intro p hp s hs d
    exact count_pair (pair_facts h dn (Nat.lt_of_lt_of_le hp H.phases_le) hs d).1
  recvs_once := by
    intro p hp s hs d
    exact count_pair (pair_facts h dn (Nat.lt_of_lt_of_le hp H.phases_le) hs d).2.1
  sends_range := by
    intro p hp s hs d hm
    have := (pair_facts h dn (Nat.lt_of_lt_of_le hp H.phases_le) hs d).2.2
    rcases mem_pair.1 hm with e | e
    · exact this _ e
    · exact this _ e
  recvs_range := by
    intro p hp s hs d hm
    have := (pair_facts h dn (Nat.lt_of_lt_of_le hp H.phases_le) hs d).2.2
    rcases mem_pair.1 hm with e | e
    · exact this _ e
    · exact this _ e

theorem bwd_matched {α : Type} [Zero α] [Add α] (h : H.OK) (dn : H.Done S) :
    Matched (haloBackward (α := α) H.D S) H.n (haloPhases H.P) where
  agree := by
    intro p hp s hs d hd
    have hi : H.D - 1 - p < H.D := by have := H.phases_le; omega
    show some d ∈ [_, _] ↔ some s ∈ [_, _]
    rw [mem_pair, mem_pair]
    exact (agree h dn hi hd hs).symm
  sends_once := by
    intro p hp s hs d
    exact count_pair (pair_facts h dn (by have := H.phases_le; omega) hs d).2.1
  recvs_once := by
    intro p hp s hs d
    exact count_pair (pair_facts h dn (by have := H.phases_le; omega) hs d).1
  sends_range := by
    intro p hp s hs d hm
    have := (pair_facts h dn (i := H.D - 1 - p) (by have := H.phases_le; omega) hs d).2.2
    rcases mem_pair.1 hm with e | e
    · exact this _ e
    · exact this _ e
  recvs_range := by
    intro p hp s hs d hm
    have := (pair_facts h dn (i := H.D - 1 - p) (by have := H.phases_le; omega) hs d).2.2
    rcases mem_pair.1 hm with e | e
    · exact this _ e
    · exact this _ e

/-- The two ghost regions of a dimension are disjoint. -/
theorem ghosts_disjoint (h : H.OK) (dn : H.Done S) {i r : Nat} (hi : i < H.D) (hr : r < H.n)
    (l : List Nat) (h1 : InSlices ((S r).cells i .lghost) l) (h2 : InSlices ((S r).cells i .rghost) l) :
    False := by
  have a := ((mem_cells h dn hr _ l).1 h1).2 i hi
  have b := ((mem_cells h dn hr _ l).1 h2).2 i hi
  simp only [low, msgShape, getD_map_range _ _ hi, Nat.lt_irrefl, if_false, if_true, msgWidth,
    width] at a b
  omega

theorem fwd_commutes {α : Type} (h : H.OK) (dn : H.Done S) :
    Commutes (haloForward (α := α) S) H.n (haloPhases H.P) := by
  intro p hp w hw i j a b hij hri hrj m m' t
  have hi : p < H.D := Nat.lt_of_lt_of_le hp H.phases_le
  funext l
  have hd := ghosts_disjoint h dn hi hw l
  have li : i < 2 := by
    have := (List.getElem?_eq_some_iff.1 hri).1
    simpa [haloForward, haloFwdPhase] using this
  have lj : j < 2 := by
    have := (List.getElem?_eq_some_iff.1 hrj).1
    simpa [haloForward, haloFwdPhase] using this
  have : (i = 0 ∧ j = 1) ∨ (i = 1 ∧ j = 0) := by omega
  rcases this with ⟨rfl, rfl⟩ | ⟨rfl, rfl⟩
  all_goals
    simp only [haloForward, haloFwdPhase, writeSlice, if_true, if_neg Nat.one_ne_zero]
    by_cases c1 : InSlices ((S w).cells p .lghost) l
    · by_cases c2 : InSlices ((S w).cells p .rghost) l
      · exact (hd c1 c2).elim
      · simp [c1, c2]
    · simp [c1]

theorem bwd_commutes {α : Type} [AddCommMonoid α] :
    Commutes (haloBackward (α := α) H.D S) H.n (haloPhases H.P) := by
  intro p hp w hw i j a b hij hri hrj m m' t
  funext l
  simp only [haloBackward, haloBwdPhase, addSlice]
  generalize (if i = 0 then Region.lbulk else Region.rbulk) = a1
  generalize (if j = 0 then Region.lbulk else Region.rbulk) = a2
  by_cases c1 : InSlices ((S w).cells (H.D - 1 - p) a1) l <;>
    by_cases c2 : InSlices ((S w).cells (H.D - 1 - p) a2) l <;> simp [c1, c2, add_right_comm]

end HaloPlan

end

end Verif
