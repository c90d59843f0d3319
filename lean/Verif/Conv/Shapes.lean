import Verif.Conv.Model
import Verif.Linear.Stack
import Verif.Window.Props

/-!
# Channel-distributed and general convolution: who talks to whom
-/

namespace Verif

/-! ## Agreement of positions -/

theorem agree_cons {n : Nat} {S : List Nat} {c d : Nat} {cs ds : List Nat} (hl : ds.length = S.length) :
    Agree (n :: S) (c :: cs) (d :: ds) ↔ (n ≠ 1 → c = d) ∧ Agree S cs ds := by
  unfold Agree
  simp only [List.length_cons, hl, Nat.sub_self, Nat.zero_add]
  constructor
  · intro h
    exact ⟨fun hn => h 0 (by omega) hn, fun j hj hn => h (j + 1) (by omega) hn⟩
  · rintro ⟨h0, h⟩ j hj hn
    match j, hj with
    | 0, _ => exact h0 hn
    | j + 1, hj => exact h j (by omega) hn

theorem agree_nil (c d : List Nat) : Agree [] c d := fun j hj => absurd hj (by simp)

theorem agree_eq {S c d : List Nat} (hc : InBounds c S) (hd : InBounds d S) : Agree S c d ↔ c = d := by
  induction S generalizing c d with
  | nil =>
    match c, d, hc, hd with
    | [], [], _, _ => exact ⟨fun _ => rfl, fun _ => agree_nil _ _⟩
  | cons n S ih =>
    match c, d, hc, hd with
    | a :: c, b :: d, hc, hd =>
      rw [agree_cons hd.2.length_eq, ih hc.2 hd.2]
      have h1 := hc.1
      have h2 := hd.1
      constructor
      · rintro ⟨h, rfl⟩
        by_cases hn : n = 1
        · rw [show a = b by omega]
        · rw [h hn]
      · intro h
        injection h with h h'
        exact ⟨fun _ => h, h'⟩

theorem agree_ones {n : Nat} {c d : List Nat} : Agree (List.replicate n 1) c d := by
  intro j hj hne
  exfalso
  apply hne
  rw [List.getD_eq_getElem _ _ hj]
  simp

theorem rule_cons {n m : Nat} {S D : List Nat} (hl : S.length = D.length) (h : n = m ∨ n = 1)
    (hr : BroadcastRule S D) : BroadcastRule (n :: S) (m :: D) := by
  refine ⟨by simp [hl], fun j hj => ?_⟩
  simp only [List.length_cons, hl, Nat.sub_self, Nat.zero_add]
  match j, hj with
  | 0, _ => exact h
  | j + 1, hj =>
    have := hr.2 j (by simpa using hj)
    rw [hl, Nat.sub_self, Nat.zero_add] at this
    exact this

theorem rule_refl (S : List Nat) : BroadcastRule S S :=
  ⟨Nat.le_refl _, fun j _ => Or.inl (by rw [Nat.sub_self, Nat.zero_add])⟩

theorem rule_ones (D : List Nat) : BroadcastRule (List.replicate D.length 1) D := by
  refine ⟨by simp, fun j hj => Or.inr ?_⟩
  rw [List.getD_eq_getElem _ _ hj]
  simp

/-! ## The partitions -/

/-- What the two layers ask of their caller: Cartesian partitions of one root communicator with the
documented shapes `1 x P_ci x …`, `1 x P_co x …` and `P_co x P_ci x …`; no worker is left without
channels. -/
structure ChanValid (C : ChanConv) (Po Pi : Nat) (Sp : List Nat) : Prop where
  wfx : C.Px.WF
  wfy : C.Py.WF
  wfw : C.Pw.WF
  shx : C.Px.shape = 1 :: Pi :: Sp
  shy : C.Py.shape = 1 :: Po :: Sp
  shw : C.Pw.shape = Po :: Pi :: Sp
  root : ∃ ρ, C.Px.root = some ρ ∧ C.Py.root = some ρ ∧ C.Pw.root = some ρ
  channels : Pi ≤ C.Ci ∧ Po ≤ C.Co

/-- `P_y` as used by the reduction. -/
def ChanConv.yCast (C : ChanConv) : Cart := ⟨C.Py.members, castYShape C.Py.shape, C.Py.root⟩

variable {C : ChanConv} {Po Pi : Nat} {Sp : List Nat}

theorem inBounds_cons2 {c : List Nat} {a b : Nat} {S : List Nat} (h : InBounds c (a :: b :: S)) :
    ∃ i j s, c = i :: j :: s ∧ i < a ∧ j < b ∧ InBounds s S := by
  match c, h with
  | i :: j :: s, h => exact ⟨i, j, s, rfl, h.1, h.2.1, h.2.2⟩
  | [_], h => exact h.2.elim

namespace ChanValid

theorem pos (h : ChanValid C Po Pi Sp) : 0 < Po ∧ 0 < Pi ∧ ∀ n ∈ Sp, 0 < n := by
  have := h.wfw.pos
  rw [h.shw] at this
  exact ⟨this Po (by simp), this Pi (by simp), fun n hn => this n (by simp [hn])⟩

theorem yshape (h : ChanValid C Po Pi Sp) : C.yCast.shape = Po :: 1 :: Sp := by
  show castYShape C.Py.shape = _
  rw [h.shy]
  rfl

theorem wfyc (h : ChanValid C Po Pi Sp) : C.yCast.WF := by
  refine ⟨h.wfy.nodup, ?_, ?_⟩
  · rw [h.yshape]
    show C.Py.members.length = _
    rw [h.wfy.size, h.shy]
    simp
  · rw [h.yshape]
    intro n hn
    have := h.pos
    simp only [List.mem_cons] at hn
    rcases hn with rfl | rfl | hn
    · exact this.1
    · exact Nat.one_pos
    · exact this.2.2 n hn

/-- The partitions are accepted; `P_x` keeps its shape. -/
theorem cast (h : ChanValid C Po Pi Sp) (ones : Bool) (h1 : ones = true → ∀ n ∈ Sp, n = 1) :
    castPartitions ones C.Px C.Py C.Pw = some (C.Px, C.yCast) := by
  have hx : alignedX ones C.Px.shape C.Pw.shape = true := by
    rw [h.shx, h.shw]
    cases ones
    · simp [alignedX]
    · simp only [alignedX, List.drop_succ_cons, List.drop_zero, List.getD_cons_succ, List.getD_cons_zero,
        beq_self_eq_true, Bool.true_and, Bool.not_true, Bool.false_or, Bool.and_true, List.all_eq_true,
        beq_iff_eq]
      exact h1 rfl
  have hy : alignedY ones C.Py.shape C.Pw.shape = true := by
    rw [h.shy, h.shw]
    cases ones
    · simp [alignedY]
    · simp only [alignedY, List.drop_succ_cons, List.drop_zero, List.getD_cons_succ, List.getD_cons_zero,
        beq_self_eq_true, Bool.true_and, Bool.not_true, Bool.false_or, Bool.and_true, List.all_eq_true,
        beq_iff_eq]
      exact h1 rfl
  have ex : castXShape C.Px.shape = C.Px.shape := by rw [h.shx]; rfl
  have cx : createCartesian ⟨C.Px.members, C.Px.root⟩ (castXShape C.Px.shape) = some C.Px := by
    rw [ex, createCartesian, if_pos ⟨h.wfx.pos, h.wfx.size.symm⟩]
  have cy : createCartesian ⟨C.Py.members, C.Py.root⟩ (castYShape C.Py.shape) = some C.yCast := by
    rw [createCartesian, if_pos ⟨h.wfyc.pos, h.wfyc.size.symm⟩]
    rfl
  rw [castPartitions, hx, hy, Bool.and_self, if_pos rfl, cx, Option.bind_some, cy, Option.map_some]

theorem coordX (h : ChanValid C Po Pi Sp) {r : Nat} (hr : r ∈ C.Px.members) :
    ∃ j s, C.Px.coord r = 0 :: j :: s ∧ j < Pi ∧ InBounds s Sp := by
  have := coords_inBounds h.wfx hr
  rw [h.shx] at this
  obtain ⟨i, j, s, e, h1, h2, h3⟩ := inBounds_cons2 this
  refine ⟨j, s, ?_, h2, h3⟩
  rw [Cart.coord, h.shx, e, Nat.lt_one_iff.1 h1]

theorem coordW (h : ChanValid C Po Pi Sp) {v : Nat} (hv : v ∈ C.Pw.members) :
    ∃ o j s, C.Pw.coord v = o :: j :: s ∧ o < Po ∧ j < Pi ∧ InBounds s Sp := by
  have := coords_inBounds h.wfw hv
  rw [h.shw] at this
  obtain ⟨i, j, s, e, h1, h2, h3⟩ := inBounds_cons2 this
  refine ⟨i, j, s, ?_, h1, h2, h3⟩
  rw [Cart.coord, h.shw, e]

/-- Position of a worker of `P_y` as given by the caller and in the shape used by the reduction. -/
theorem coordY (h : ChanValid C Po Pi Sp) {u : Nat} (hu : u ∈ C.Py.members) :
    ∃ o s, C.Py.coord u = 0 :: o :: s ∧ C.yCast.coord u = o :: 0 :: s ∧ o < Po ∧ InBounds s Sp := by
  have hb := coords_inBounds h.wfy hu
  rw [h.shy] at hb
  obtain ⟨i, o, s, e, h1, h2, h3⟩ := inBounds_cons2 hb
  have hr : C.Py.members.idxOf u < Po * Sp.prod := by
    have := List.idxOf_lt_length_of_mem hu
    rw [h.wfy.size, h.shy] at this
    simpa using this
  have hi : i = 0 := Nat.lt_one_iff.1 h1
  subst hi
  refine ⟨o, s, by rw [Cart.coord, h.shy, e], ?_, h2, h3⟩
  rw [Cart.coord, h.yshape]
  show getCoords (Po :: 1 :: Sp) (C.Py.members.idxOf u) = _
  generalize C.Py.members.idxOf u = ρ at e hr
  simp only [getCoords, List.prod_cons, Nat.one_mul] at e ⊢
  rw [Nat.mod_eq_of_lt hr] at e
  injection e with _ e
  injection e with e1 e2
  have hS : 0 < Sp.prod := Nat.pos_of_ne_zero fun h0 => by rw [h0] at hr; simp at hr
  rw [e1, Nat.mod_mod, e2, Nat.div_eq_of_lt (Nat.mod_lt _ hS)]

theorem bcast (h : ChanValid C Po Pi Sp) : BcastLayer (chanBroadcast C.Px C.Pw) := by
  obtain ⟨ρ, h1, -, h3⟩ := h.root
  refine ⟨⟨h.wfx, h.wfw, ⟨ρ, h1, h3⟩, ?_, ?_⟩, by simp [chanBroadcast], Or.inl rfl⟩
  · show C.Px.shape ≠ []
    rw [h.shx]; simp
  · show BroadcastRule C.Px.shape C.Pw.shape
    rw [h.shx, h.shw]
    exact rule_cons rfl (Or.inr rfl) (rule_refl _)

theorem reduce (h : ChanValid C Po Pi Sp) : ReduceLayer (chanReduce C.Pw C.yCast) := by
  obtain ⟨ρ, -, h2, h3⟩ := h.root
  refine ⟨⟨h.wfyc, h.wfw, ⟨ρ, h2, h3⟩, ?_, ?_⟩, by simp [chanReduce], Or.inl rfl⟩
  · show C.yCast.shape ≠ []
    rw [h.yshape]; simp
  · show BroadcastRule C.yCast.shape C.Pw.shape
    rw [h.yshape, h.shw]
    exact rule_cons rfl (Or.inl rfl) (rule_cons rfl (Or.inr rfl) (rule_refl _))

theorem feeds (h : ChanValid C Po Pi Sp) {r v : Nat} (hr : r ∈ C.Px.members) (hv : v ∈ C.Pw.members) :
    (chanBroadcast C.Px C.Pw).Feeds r v ↔ C.Px.coord r = 0 :: (C.Pw.coord v).drop 1 := by
  obtain ⟨j, s, ej, hj, hs⟩ := h.coordX hr
  obtain ⟨o', j', s', ev, ho', hj', hs'⟩ := h.coordW hv
  show Agree C.Px.shape (C.Px.coord r) (C.Pw.coord v) ↔ _
  rw [h.shx, ej, ev, agree_cons (by simp [hs'.length_eq]),
    agree_eq (S := Pi :: Sp) (c := j :: s) (d := j' :: s') ⟨hj, hs⟩ ⟨hj', hs'⟩]
  simp

theorem collects (h : ChanValid C Po Pi Sp) {u v : Nat} (hu : u ∈ C.Py.members) (hv : v ∈ C.Pw.members) :
    (chanReduce C.Pw C.yCast).Collects u v ↔
      (C.Pw.coord v).getD 0 0 = (C.Py.coord u).getD 1 0 ∧ (C.Pw.coord v).drop 2 = (C.Py.coord u).drop 2 := by
  obtain ⟨o, s, eu, ey, ho, hs⟩ := h.coordY hu
  obtain ⟨o', j', s', ev, ho', hj', hs'⟩ := h.coordW hv
  show Agree C.yCast.shape (C.yCast.coord u) (C.Pw.coord v) ↔ _
  rw [h.yshape, ey, ev, eu, agree_cons (by simp [hs'.length_eq]), agree_cons hs'.length_eq,
    agree_eq hs hs']
  simp only [List.getD_cons_zero, List.getD_cons_succ, List.drop_succ_cons, List.drop_zero]
  constructor
  · rintro ⟨h1, -, h3⟩
    refine ⟨?_, h3.symm⟩
    by_cases hP : Po = 1
    · omega
    · exact (h1 hP).symm
  · rintro ⟨h1, h3⟩
    exact ⟨fun _ => h1.symm, fun hn => absurd rfl hn, h3.symm⟩

theorem localChannels (h : ChanValid C Po Pi Sp) {v : Nat} (hv : v ∈ C.Pw.members) :
    (C.localChannels v).getD 0 0 = subsize Po ((C.Pw.coord v).getD 0 0) C.Co ∧
    (C.localChannels v).getD 1 0 = subsize Pi ((C.Pw.coord v).getD 1 0) C.Ci := by
  obtain ⟨o, j, s, ev, -, -, -⟩ := h.coordW hv
  rw [ChanConv.localChannels, Cart.index_eq hv, h.shw, Option.getD_some, ev]
  exact ⟨rfl, rfl⟩

end ChanValid

end Verif
