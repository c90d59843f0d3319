import Verif.Net.Setup
import Verif.Collective.Props

/-!
# Networks: `Broadcast` and `SumReduce`

The two collective layers (`nn/broadcast.py`, `nn/sum_reduce.py`, `functional/broadcast.py`, `functional/sum_reduce.py`)
as programs of the network machine.
-/

namespace Verif.Net

/-! ## Up to two collectives per worker -/

section
variable {σ μ : Type}

/-- A worker takes part in a collective of `a w` and, unless it is the same, in one of `b w`.  `back`: the second is
waited for first; otherwise in any order. -/
def pairPhase (c : Nat) (a b : Nat → Option (List Nat)) (pa pb : Nat → σ → μ) (da db : Nat → List Nat → List Nat)
    (ga gb : Nat → List Nat → List μ → σ → σ) (work : Nat → σ → σ) (back : Bool) : Nat → σ → Phase σ μ := fun w x =>
  let reqs := (match a w with
      | some g => [⟨.coll c g, pa w x, da w g, ga w g⟩]
      | none => []) ++
    (match b w with
      | some g => if a w = b w then [] else [⟨.coll c g, pb w x, db w g, gb w g⟩]
      | none => [])
  ⟨reqs, work w, if back then some (List.range reqs.length).reverse else none⟩

/-- The members of a group all take part, on one side or the other. -/
structure Paired (W : List Nat) (a b : Nat → Option (List Nat)) (da db : Nat → List Nat → List Nat) : Prop where
  own : ∀ w ∈ W, ∀ g, a w = some g ∨ b w = some g → w ∈ g
  all : ∀ w ∈ W, ∀ g, a w = some g ∨ b w = some g → ∀ u ∈ g, u ∈ W ∧ (a u = some g ∨ b u = some g)
  depsA : ∀ w ∈ W, ∀ g, a w = some g → ∀ u ∈ da w g, u ∈ g
  depsB : ∀ w ∈ W, ∀ g, b w = some g → ∀ u ∈ db w g, u ∈ g

variable {W : List Nat} {c : Nat} {a b : Nat → Option (List Nat)} {pa pb : Nat → σ → μ}
  {da db : Nat → List Nat → List Nat} {ga gb : Nat → List Nat → List μ → σ → σ} {work : Nat → σ → σ} {back : Bool}
  {S : Nat → σ}

theorem mem_pairPhase {w : Nat} {x : σ} {r : Req σ μ} :
    r ∈ (pairPhase c a b pa pb da db ga gb work back w x).reqs ↔
      (∃ g, a w = some g ∧ r = ⟨.coll c g, pa w x, da w g, ga w g⟩) ∨
      (∃ g, b w = some g ∧ a w ≠ b w ∧ r = ⟨.coll c g, pb w x, db w g, gb w g⟩) := by
  unfold pairPhase
  rcases ha : a w with _ | g <;> rcases hb : b w with _ | g'
  · simp
  · simp
  · simp
  · by_cases h : g = g' <;> simp [h]

theorem pairPhase_ok (h : Paired W a b da db)
    (hc : ∀ w ∈ W, ∀ g g', a w = some g → b w = some g' → g ≠ g' →
      ∀ m m' x, ga w g m (gb w g' m' x) = gb w g' m' (ga w g m x)) :
    PhaseOK W (pairPhase c a b pa pb da db ga gb work back) S := by
  constructor
  · intro w hw
    unfold pairPhase
    cases ha : a w <;> cases hb : b w <;> simp
    next g g' =>
      by_cases h : g = g'
      · simp [h]
      · simpa [h] using fun e : g' = g => h e.symm
  · intro w hw r hr
    rcases mem_pairPhase.1 hr with ⟨g, e, rfl⟩ | ⟨g, e, -, rfl⟩
    · exact h.own w hw g (Or.inl e)
    · exact h.own w hw g (Or.inr e)
  · intro w hw r hr u hu
    have key : ∀ g, (a w = some g ∨ b w = some g) → u ∈ g → u ∈ W ∧
        ∃ r' ∈ (pairPhase c a b pa pb da db ga gb work back u (S u)).reqs, r'.key = .coll c g := by
      intro g hg hu
      obtain ⟨h1, h2⟩ := h.all w hw g hg u hu
      refine ⟨h1, ?_⟩
      by_cases ha : a u = some g
      · exact ⟨_, mem_pairPhase.2 (Or.inl ⟨g, ha, rfl⟩), rfl⟩
      · have hb := h2.resolve_left ha
        exact ⟨_, mem_pairPhase.2 (Or.inr ⟨g, hb, fun e => ha (e.trans hb), rfl⟩), rfl⟩
    rcases mem_pairPhase.1 hr with ⟨g, e, rfl⟩ | ⟨g, e, -, rfl⟩
    · exact key g (Or.inl e) hu
    · exact key g (Or.inr e) hu
  · intro w hw r hr u hu
    rcases mem_pairPhase.1 hr with ⟨g, e, rfl⟩ | ⟨g, e, -, rfl⟩
    · exact h.depsA w hw g e u hu
    · exact h.depsB w hw g e u hu
  · intro w hw
    have hc' := hc w hw
    unfold pairPhase
    cases ha : a w <;> cases hb : b w <;> simp
    next g g' =>
      by_cases h : g = g'
      · simp [h]
      · simpa [h] using hc' g g' ha hb h
  · intro w hw l
    unfold pairPhase
    simp only
    split
    · intro e
      cases e
      exact List.reverse_perm _
    · intro e
      cases e

/-- What worker `u` contributes to the collective of `g`. -/
def pairPut (a : Nat → Option (List Nat)) (pa pb : Nat → σ → μ) (S : Nat → σ) (g : List Nat) (u : Nat) : μ :=
  if a u = some g then pa u (S u) else pb u (S u)

theorem pair_contribution {u : Nat} {g : List Nat} (h : a u = some g ∨ b u = some g) :
    contribution (pairPhase c a b pa pb da db ga gb work back) S (.coll c g) u = some (pairPut a pa pb S g u) := by
  unfold contribution pairPhase pairPut
  by_cases ha : a u = some g
  · simp [ha]
  · have hb := h.resolve_left ha
    cases hau : a u with
    | none => simp [hb]
    | some g' =>
      have hne : g' ≠ g := fun e => ha (by rw [hau, e])
      simp [hb, hne]

theorem pairPhase_sync (h : Paired W a b da db) {w : Nat} (hw : w ∈ W) :
    sync (pairPhase c a b pa pb da db ga gb work back) S w =
      (match b w with
        | some g => if a w = b w then id else gb w g ((db w g).map (pairPut a pa pb S g))
        | none => id)
      ((match a w with
        | some g => ga w g ((da w g).map (pairPut a pa pb S g))
        | none => id) (work w (S w))) := by
  have key : ∀ g, (a w = some g ∨ b w = some g) → ∀ d : List Nat, (∀ u ∈ d, u ∈ g) →
      d.filterMap (contribution (pairPhase c a b pa pb da db ga gb work back) S (.coll c g)) =
        d.map (pairPut a pa pb S g) := by
    intro g hg d hd
    rw [← List.filterMap_eq_map]
    exact List.filterMap_congr fun u hu => pair_contribution (h.all w hw g hg u (hd u hu)).2
  rw [sync]
  have hA := fun g e => key g (Or.inl e) (da w g) (h.depsA w hw g e)
  have hB := fun g e => key g (Or.inr e) (db w g) (h.depsB w hw g e)
  generalize contribution (pairPhase c a b pa pb da db ga gb work back) S = con at hA hB
  simp only [pairPhase]
  cases ha : a w with
  | none =>
    cases hb : b w with
    | none => rfl
    | some g => simp [hB g hb]
  | some g =>
    cases hb : b w with
    | none => simp [hA g ha]
    | some g' =>
      by_cases he : g = g'
      · subst he
        simp [hA g ha]
      · simp [he, hA g ha, hB g' hb]

/-- A worker whose first collective gives it nothing. -/
theorem pairPhase_sync_b (h : Paired W a b da db) {w : Nat} (hw : w ∈ W) {g : List Nat} (hb : b w = some g)
    (hne : a w ≠ some g) (hg : ∀ g', a w = some g' → ∀ ms x, ga w g' ms x = x) :
    sync (pairPhase c a b pa pb da db ga gb work back) S w =
      gb w g ((db w g).map (pairPut a pa pb S g)) (work w (S w)) := by
  rw [pairPhase_sync h hw, hb]
  cases ha : a w with
  | none => simp
  | some g' =>
    rw [ha] at hne
    simp only [if_neg hne, hg g' ha]

/-- A worker without second collective. -/
theorem pairPhase_sync_a (h : Paired W a b da db) {w : Nat} (hw : w ∈ W) {g : List Nat} (ha : a w = some g)
    (hb : b w = none ∨ b w = some g) : sync (pairPhase c a b pa pb da db ga gb work back) S w =
      ga w g ((da w g).map (pairPut a pa pb S g)) (work w (S w)) := by
  rw [pairPhase_sync h hw, ha]
  rcases hb with hb | hb <;> rw [hb]
  · rfl
  · simp

/-- A worker without part. -/
theorem pairPhase_sync_none (h : Paired W a b da db) {w : Nat} (hw : w ∈ W) (ha : a w = none) (hb : b w = none) :
    sync (pairPhase c a b pa pb da db ga gb work back) S w = work w (S w) := by
  rw [pairPhase_sync h hw, ha, hb]
  rfl

theorem star_paired {R D : List Nat} {root : Nat → Nat} {G : Nat → List Nat} (h : Star R D root G a b)
    (hR : ∀ r ∈ R, r ∈ W) (hD : ∀ v ∈ D, v ∈ W) (d1 : ∀ w g u, u ∈ da w g → u ∈ g)
    (d2 : ∀ w g u, u ∈ db w g → u ∈ g) : Paired W a b da db := by
  have key : ∀ w g, a w = some g ∨ b w = some g → ∃ r ∈ R, g = G r ∧ w ∈ G r := by
    intro w g hg
    rcases hg with e | e
    · rw [h.aEq] at e
      split at e
      · next hw => exact ⟨w, hw, (Option.some.inj e).symm, (h.memG w hw w).2 (Or.inl rfl)⟩
      · cases e
    · rw [h.bEq] at e
      split at e
      · next hw => exact ⟨root w, h.rootIn w hw, (Option.some.inj e).symm,
          (h.memG _ (h.rootIn w hw) w).2 (Or.inr ⟨hw, rfl⟩)⟩
      · cases e
  refine ⟨fun w _ g hg => ?_, fun w _ g hg u hu => ?_, fun w _ g _ u hu => d1 w g u hu, fun w _ g _ u hu => d2 w g u hu⟩
  · obtain ⟨r, -, rfl, hm⟩ := key w g hg
    exact hm
  · obtain ⟨r, hr, rfl, -⟩ := key w g hg
    rcases (h.memG r hr u).1 hu with rfl | ⟨h1, h2⟩
    · exact ⟨hR u hr, Or.inl (by rw [h.aEq, if_pos hr])⟩
    · exact ⟨hD u h1, Or.inr (by rw [h.bEq, if_pos h1, h2])⟩

theorem Paired.symm (h : Paired W a b da db) : Paired W b a db da :=
  ⟨fun w hw g hg => h.own w hw g hg.symm, fun w hw g hg u hu => ⟨(h.all w hw g hg.symm u hu).1,
    (h.all w hw g hg.symm u hu).2.symm⟩, h.depsB, h.depsA⟩

end

/-! ## The layers -/

variable {F : Type}

/-- The tensor passed from layer to layer. -/
def tenLens : Lens (NSt F) (Tensor F × Bool) where
  get x := (x.t, x.rg)
  set y x := { x with t := y.1, rg := y.2 }
  get_set _ _ := rfl
  set_get _ := rfl
  set_set _ _ _ := rfl

/-- A parameter. -/
def parLens (i : Nat) : Lens (NSt F) (Tensor F × Bool) where
  get x := x.par i
  set y x := { x with par := fun j => if j = i then y else x.par j }
  get_set _ _ := by simp
  set_get x := by
    cases x
    simp only [NSt.mk.injEq, true_and]
    funext j
    split
    · next h => rw [h]
    · rfl
  set_set _ _ _ := by
    simp only [NSt.mk.injEq, true_and]
    funext j
    split <;> rfl

/-- Structure of the tensor `ℓ`. -/
def infoOf (ℓ : Lens (NSt F) (Tensor F × Bool)) (x : NSt F) : Info :=
  ((ℓ.get x).1.shape, (ℓ.get x).1.dtype, (ℓ.get x).2)

/-- Same shape and type. -/
def Info.same (s u : Info) : Prop := s.1 = u.1 ∧ s.2.1 = u.2.1

/-- Elementwise maximum of two structures (`Iallreduce` with `MAX`). -/
def infoMax (s u : Info) : Info :=
  (List.zipWith max s.1 u.1, if (torchToInt s.2.1).getD 0 ≤ (torchToInt u.2.1).getD 0 then u.2.1 else s.2.1, s.2.2 || u.2.2)

/-- The structures among the messages; a worker that does not send one contributes the least value. -/
def infosOf (ms : List (NMsg F)) : List Info :=
  ms.filterMap fun m => match m with
    | .info f => some (f 0)
    | _ => none

/-- `tensor_comm.py:11-94` `broadcast_tensor_structure`, one `Iallreduce` instead of four. -/
def structPhase (c : Nat) (send recv : Nat → Option (List Nat)) (ℓ : Lens (NSt F) (Tensor F × Bool)) :
    Nat → NSt F → Phase (NSt F) (NMsg F) :=
  pairPhase c send recv
    (fun _ x => .info fun _ => infoOf ℓ x) (fun _ _ => .none)
    (fun _ g => g) (fun _ g => g) (fun _ _ _ x => x)
    (fun _ _ ms x => match infosOf ms with
      | s :: rest => { x with str := rest.foldl infoMax s }
      | [] => { x with err := true })
    (fun w x => if samePart (send w) (recv w) then
      { x with str := infoOf ℓ x } else x) false

section
variable [AddCommMonoid F]

/-- `np.zeros` of a structure. -/
def zerosInfo (s : Info) : Tensor F := ⟨s.1, s.2.1, fun _ => 0⟩

/-- The output of a worker without part in the receiving side (`functional/broadcast.py:101-104`,
`functional/sum_reduce.py:98-101`). -/
def blank (pb : Bool) (ℓ : Lens (NSt F) (Tensor F × Bool)) (x : NSt F) : NSt F :=
  match zeroVolume pb (ℓ.get x).1 with
  | some z => ℓ.set (z, false) x
  | none => { x with err := true }

/-- `functional/broadcast.py:99-131`; `buf`: the structure of the buffer of a destination (`x.str` in the forward
pass of `Broadcast`, kept structures in the backward pass of `SumReduce`, `functional/sum_reduce.py:196-230`). -/
def copyPhase (c : Nat) (send recv : Nat → Option (List Nat)) (pb : Bool) (ℓ : Lens (NSt F) (Tensor F × Bool))
    (buf : Nat → NSt F → Info) : Nat → NSt F → Phase (NSt F) (NMsg F) :=
  pairPhase c send recv (fun _ x => .call (.ibcast (ℓ.get x).1)) (fun w x => .call (.ibcast (zerosInfo (buf w x))))
    (fun _ _ => []) (fun _ g => g.take 1) (fun _ _ _ x => x)
    (fun w _ (ms : List (NMsg F)) x => match ms with
      | .call (.ibcast b) :: _ =>
        if sameKind b (zerosInfo (buf w x)) then ℓ.set (b, (buf w x).2.2) x else { x with err := true }
      | _ => { x with err := true })
    (fun w x => if (recv w).isSome || (send w).isNone then x else blank pb ℓ x) true

/-- The calls among the messages. -/
def callsOf (ms : List (NMsg F)) : List (Call F) :=
  ms.filterMap fun m => match m with
    | .call c => some c
    | _ => none

/-- `functional/sum_reduce.py:96-137`; `lf`, `rt`: the structures of the buffers of a source and of a destination
(`infoOf ℓ`, `x.str` in the forward pass of `SumReduce`, kept structures in the backward pass of `Broadcast`,
`functional/broadcast.py:188-230`). -/
def sumPhase (c : Nat) (send recv : Nat → Option (List Nat)) (pb : Bool) (ℓ : Lens (NSt F) (Tensor F × Bool))
    (lf rt : Nat → NSt F → Info) : Nat → NSt F → Phase (NSt F) (NMsg F) :=
  let deps := fun (w : Nat) (g : List Nat) => if g.head? = some w then g else []
  let get := fun (w : Nat) (g : List Nat) (ms : List (NMsg F)) (x : NSt F) =>
    if g.head? = some w then
      match reduceResult (callsOf ms) with
      | some y => ℓ.set (y, (rt w x).2.2) x
      | none => { x with err := true }
    else x
  pairPhase c send recv
    (fun w x => .call (.ireduce (some (ℓ.get x).1) (zerosInfo (lf w x))))
    (fun w x => .call (.ireduce none (zerosInfo (rt w x)))) deps deps get get
    (fun w x => if (recv w).isSome || (send w).isNone then x else blank pb ℓ x) false

/-- Creating the partitions of the layer (`partition.py:440-577`, `622-757`): several collectives of the workers of
both partitions, one here.  Nobody gets the new communicator before all of them have asked for it. -/
def createPhase (c : Nat) (L : PairLayer) : Nat → NSt F → Phase (NSt F) (NMsg F) :=
  collPhase c (fun w => decide (w ∈ groupUnion L.Px.members L.Py.members))
    (fun _ => groupUnion L.Px.members L.Py.members) (fun _ _ => .none) (fun _ => groupUnion L.Px.members L.Py.members)
    fun _ _ x => x

/-- `Broadcast` of the tensor `ℓ` (`nn/broadcast.py:103-141, 184-211`). -/
def bcastProg (c : Nat) (L : PairLayer) (ℓ : Lens (NSt F) (Tensor F × Bool)) : Prog (NSt F) (NMsg F) :=
  if L.identity then [] else
    [createPhase c L, structPhase c (fun w => sendOf (L.bparts w)) (fun w => recvOf (L.bparts w)) ℓ,
      copyPhase c (fun w => sendOf (L.bparts w)) (fun w => recvOf (L.bparts w)) L.preserveBatch ℓ fun _ x => x.str]

/-- `SumReduce` of the tensor `ℓ` (`nn/sum_reduce.py:102-140, 183-206`). -/
def reduceProg (c : Nat) (L : PairLayer) (ℓ : Lens (NSt F) (Tensor F × Bool)) : Prog (NSt F) (NMsg F) :=
  if L.identity then [] else
    [createPhase c L, structPhase c (fun w => sendOf (L.rparts w)) (fun w => recvOf (L.rparts w)) ℓ,
      sumPhase c (fun w => sendOf (L.rparts w)) (fun w => recvOf (L.rparts w)) L.preserveBatch ℓ (fun _ x => infoOf ℓ x)
        fun _ x => x.str]

end

/-- Reading and writing the tensor has nothing to do with the received structure. -/
structure Slot (ℓ : Lens (NSt F) (Tensor F × Bool)) : Prop where
  get_str : ∀ x s, ℓ.get { x with str := s } = ℓ.get x
  set_str : ∀ y x s, ℓ.set y { x with str := s } = { ℓ.set y x with str := s }
  str_set : ∀ y x, (ℓ.set y x).str = x.str

theorem slot_ten : Slot (tenLens : Lens (NSt F) _) := ⟨fun _ _ => rfl, fun _ _ _ => rfl, fun _ _ => rfl⟩

theorem slot_par (i : Nat) : Slot (parLens i : Lens (NSt F) _) := ⟨fun _ _ => rfl, fun _ _ _ => rfl, fun _ _ => rfl⟩

section
variable {W R D : List Nat} {root : Nat → Nat} {G : Nat → List Nat} {a b : Nat → Option (List Nat)} {c : Nat}
  {ℓ : Lens (NSt F) (Tensor F × Bool)} {S : Nat → NSt F}

theorem infoMax_self (i : Info) : infoMax i i = i := by
  obtain ⟨l, t, r⟩ := i
  simp only [infoMax, Nat.le_refl, if_true, Bool.or_self, Prod.mk.injEq, and_true]
  induction l with
  | nil => rfl
  | cons n l ih => simp

theorem foldl_infoMax {i : Info} {l : List Info} (h : ∀ j ∈ l, j = i) : l.foldl infoMax i = i := by
  induction l with
  | nil => rfl
  | cons j l ih =>
    rw [List.foldl_cons, h j (by simp), infoMax_self]
    exact ih fun j hj => h j (by simp [hj])

theorem star_a (h : Star R D root G a b) {r u : Nat} : a u = some (G r) ↔ u ∈ R ∧ u = r := by
  rw [h.aEq]
  split
  · next hu => simp [hu, h.inj]
  · next hu => simp [hu]

theorem star_b (h : Star R D root G a b) {r u : Nat} : b u = some (G r) ↔ u ∈ D ∧ root u = r := by
  rw [h.bEq]
  split
  · next hu => simp [hu, h.inj]
  · next hu => simp [hu]

theorem samePart_true {p q : Option (List Nat)} : samePart p q = true ↔ ∃ g, p = some g ∧ q = some g := by
  cases p <;> cases q <;> simp [samePart]
  exact eq_comm

/-- The structure exchange of `Broadcast`. -/
theorem struct_copy (h : Star R D root G a b) (hR : ∀ r ∈ R, r ∈ W) (hD : ∀ v ∈ D, v ∈ W) :
    PhaseOK W (structPhase c a b ℓ) S ∧ ∀ w ∈ W, sync (structPhase c a b ℓ) S w =
      if w ∈ D then { S w with str := infoOf ℓ (S (root w)) } else S w := by
  have hp : Paired W a b (fun _ g => g) (fun _ g => g) := star_paired h hR hD (fun _ _ _ h => h) fun _ _ _ h => h
  refine ⟨pairPhase_ok hp fun _ _ _ _ _ _ _ _ _ _ => rfl, fun w hw => ?_⟩
  by_cases hd : w ∈ D
  · rw [if_pos hd]
    have hb : b w = some (G (root w)) := (star_b h).2 ⟨hd, rfl⟩
    have hr := h.rootIn w hd
    by_cases ha : a w = some (G (root w))
    · have e := ((star_a h).1 ha).2
      refine (pairPhase_sync_a hp hw ha (Or.inr hb)).trans ?_
      rw [if_pos (samePart_true.2 ⟨_, ha, hb⟩), ← e]
    · refine (pairPhase_sync_b hp hw hb ha fun _ _ _ _ => rfl).trans ?_
      rw [if_neg (fun hs => ?_)]
      · obtain ⟨tl, htl, hnot⟩ := h.cons (root w)
        have hi : infosOf ((G (root w)).map (pairPut a (fun (_ : Nat) (x : NSt F) => (NMsg.info fun _ => infoOf ℓ x : NMsg F))
            (fun _ _ => .none) S (G (root w)))) = [infoOf ℓ (S (root w))] := by
          have h0 : pairPut a (fun (_ : Nat) (x : NSt F) => (NMsg.info fun _ => infoOf ℓ x : NMsg F))
              (fun _ _ => .none) S (G (root w)) (root w) = .info fun _ => infoOf ℓ (S (root w)) := by
            unfold pairPut
            rw [if_pos ((star_a h).2 ⟨hr, rfl⟩)]
          have h1 : ∀ u ∈ tl, pairPut a (fun (_ : Nat) (x : NSt F) => (NMsg.info fun _ => infoOf ℓ x : NMsg F))
              (fun _ _ => .none) S (G (root w)) u = .none := by
            intro u hu
            unfold pairPut
            rw [if_neg fun e : a u = some (G (root w)) => hnot (by rw [← ((star_a h).1 e).2]; exact hu)]
          generalize pairPut a (fun (_ : Nat) (x : NSt F) => (NMsg.info fun _ => infoOf ℓ x : NMsg F))
            (fun _ _ => .none) S (G (root w)) = f at h0 h1
          rw [htl, List.map_cons, h0, List.map_congr_left h1]
          simp [infosOf]
        rw [hi]
        rfl
      · obtain ⟨g, e1, e2⟩ := samePart_true.1 hs
        exact ha (e1.trans (e2.symm.trans hb))
  · rw [if_neg hd]
    have hb : b w = none := by rw [h.bEq, if_neg hd]
    have hs : samePart (a w) (b w) = false := by rw [hb]; cases a w <;> rfl
    cases ha : a w with
    | none =>
      refine (pairPhase_sync_none hp hw ha hb).trans ?_
      rw [hs, if_neg (by simp)]
    | some g =>
      refine (pairPhase_sync_a hp hw ha (Or.inl hb)).trans ?_
      rw [hs, if_neg (by simp)]

/-- The structure exchange of `SumReduce`: the sources of a destination have tensors of one structure. -/
theorem struct_sum (h : Star R D root G a b) (hR : ∀ r ∈ R, r ∈ W) (hD : ∀ v ∈ D, v ∈ W) {i : Nat → Info}
    (hi : ∀ v ∈ D, infoOf ℓ (S v) = i (root v)) (hne : ∀ r ∈ R, ∃ v ∈ D, root v = r) :
    PhaseOK W (structPhase c b a ℓ) S ∧ ∀ w ∈ W, sync (structPhase c b a ℓ) S w =
      if w ∈ R then { S w with str := i w } else S w := by
  have hp : Paired W b a (fun _ g => g) (fun _ g => g) :=
    (star_paired h hR hD (fun _ _ _ h => h) fun _ _ _ h => h : Paired W a b _ _).symm
  refine ⟨pairPhase_ok hp fun _ _ _ _ _ _ _ _ _ _ => rfl, fun w hw => ?_⟩
  by_cases hd : w ∈ R
  · rw [if_pos hd]
    have ha : a w = some (G w) := (star_a h).2 ⟨hd, rfl⟩
    by_cases hb : b w = some (G w)
    · obtain ⟨e1, e2⟩ := (star_b h).1 hb
      refine (pairPhase_sync_a hp hw hb (Or.inr ha)).trans ?_
      rw [if_pos (samePart_true.2 ⟨_, hb, ha⟩), hi w e1, e2]
    · refine (pairPhase_sync_b hp hw ha hb fun _ _ _ _ => rfl).trans ?_
      rw [if_neg (fun hs => ?_)]
      · have hall : ∀ s ∈ infosOf ((G w).map (pairPut b (fun (_ : Nat) (x : NSt F) =>
            (NMsg.info fun _ => infoOf ℓ x : NMsg F)) (fun _ _ => .none) S (G w))), s = i w := by
          intro s hs
          simp only [infosOf, List.filterMap_map, List.mem_filterMap, Function.comp] at hs
          obtain ⟨u, hu, e⟩ := hs
          unfold pairPut at e
          by_cases hbu : b u = some (G w)
          · obtain ⟨e1, e2⟩ := (star_b h).1 hbu
            rw [if_pos hbu] at e
            rw [← Option.some.inj e, hi u e1, e2]
          · rw [if_neg hbu] at e
            cases e
        obtain ⟨v, hv, hvr⟩ := hne w hd
        have hmem : i w ∈ infosOf ((G w).map (pairPut b (fun (_ : Nat) (x : NSt F) =>
            (NMsg.info fun _ => infoOf ℓ x : NMsg F)) (fun _ _ => .none) S (G w))) := by
          simp only [infosOf, List.filterMap_map, List.mem_filterMap, Function.comp]
          refine ⟨v, (h.memG w hd v).2 (Or.inr ⟨hv, hvr⟩), ?_⟩
          unfold pairPut
          rw [if_pos ((star_b h).2 ⟨hv, hvr⟩)]
          show some (infoOf ℓ (S v)) = _
          rw [hi v hv, hvr]
        generalize infosOf ((G w).map (pairPut b (fun (_ : Nat) (x : NSt F) =>
            (NMsg.info fun _ => infoOf ℓ x : NMsg F)) (fun _ _ => .none) S (G w))) = l at hall hmem
        match l, hall, hmem with
        | s :: rest, hall, _ =>
          have es := hall s (by simp)
          simp only [es]
          rw [foldl_infoMax fun j hj => hall j (by simp [hj])]
      · obtain ⟨g, e1, e2⟩ := samePart_true.1 hs
        exact hb (e1.trans (e2.symm.trans ha))
  · rw [if_neg hd]
    have ha : a w = none := by rw [h.aEq, if_neg hd]
    have hs : samePart (b w) (a w) = false := by rw [ha]; cases b w <;> rfl
    cases hb : b w with
    | none =>
      refine (pairPhase_sync_none hp hw hb ha).trans ?_
      rw [hs, if_neg (by simp)]
    | some g =>
      refine (pairPhase_sync_a hp hw hb (Or.inl ha)).trans ?_
      rw [hs, if_neg (by simp)]

/-- `z` has no entries; with `preserve_batch` it has the batch size of `x`. -/
structure Void (pb : Bool) (x z : Tensor F) : Prop where
  prod : z.shape.prod = 0
  head : pb = true → z.shape.head? = x.shape.head?

variable [AddCommMonoid F]

theorem blank_eq {pb : Bool} {x : NSt F} (h : pb = true → (ℓ.get x).1.shape ≠ []) :
    ∃ z : Tensor F, Void pb (ℓ.get x).1 z ∧ blank pb ℓ x = ℓ.set (z, false) x := by
  obtain ⟨z, e, hz⟩ := zeroVolume_some h
  refine ⟨z, ⟨hz, fun hp => ?_⟩, by rw [blank, e]⟩
  rw [hp] at e
  unfold zeroVolume at e
  rw [if_pos rfl] at e
  split at e
  · next hs =>
    rw [← Option.some.inj e, hs]
    rfl
  · cases e

/-- The data movement of `Broadcast`. -/
theorem copy_run (h : Star R D root G a b) (hR : ∀ r ∈ R, r ∈ W) (hD : ∀ v ∈ D, v ∈ W) {pb : Bool}
    (hb : ∀ u, u ∈ R ∨ u ∈ D → pb = true → (ℓ.get (S u)).1.shape ≠ [])
    {buf : Nat → NSt F → Info} (hs : ∀ v ∈ D, v ≠ root v → Info.same (buf v (S v)) (infoOf ℓ (S (root v)))) :
    PhaseOK W (copyPhase c a b pb ℓ buf) S ∧ ∃ Y : Nat → Tensor F × Bool,
      (∀ w ∈ W, sync (copyPhase c a b pb ℓ buf) S w = ℓ.set (Y w) (S w)) ∧
      (∀ v ∈ D, (Y v).1 = (ℓ.get (S (root v))).1 ∧
        (Y v).2 = if v = root v then (ℓ.get (S v)).2 else (buf v (S v)).2.2) ∧ (∀ w ∈ R, w ∉ D → Void pb (ℓ.get (S w)).1 (Y w).1) ∧
      ∀ w, w ∉ R → w ∉ D → Y w = ℓ.get (S w) := by
  have hp : Paired W a b (fun _ _ => []) (fun _ g => g.take 1) :=
    star_paired h hR hD (fun _ _ _ h => by simp at h) fun _ _ _ h => List.mem_of_mem_take h
  refine ⟨pairPhase_ok hp fun _ _ _ _ _ _ _ _ _ _ => rfl, ?_⟩
  have key : ∀ w, ∃ y : Tensor F × Bool, (w ∈ W → sync (copyPhase c a b pb ℓ buf) S w = ℓ.set y (S w)) ∧
      (w ∈ D → y.1 = (ℓ.get (S (root w))).1 ∧ y.2 = if w = root w then (ℓ.get (S w)).2 else (buf w (S w)).2.2) ∧ (w ∈ R → w ∉ D → Void pb (ℓ.get (S w)).1 y.1) ∧
      (w ∉ R → w ∉ D → y = ℓ.get (S w)) := by
    intro w
    by_cases hd : w ∈ D
    · refine ⟨((ℓ.get (S (root w))).1, if w = root w then (ℓ.get (S w)).2 else (buf w (S w)).2.2), fun hw => ?_,
        fun _ => ⟨rfl, rfl⟩, fun _ h => absurd hd h, fun _ h => absurd hd h⟩
      have hbw : b w = some (G (root w)) := (star_b h).2 ⟨hd, rfl⟩
      have hr := h.rootIn w hd
      by_cases ha : a w = some (G (root w))
      · refine (pairPhase_sync_a hp hw ha (Or.inr hbw)).trans ?_
        rw [hbw, ← ((star_a h).1 ha).2, if_pos rfl]
        exact (ℓ.set_get _).symm
      · refine (pairPhase_sync_b hp hw hbw ha fun _ _ _ _ => rfl).trans ?_
        have ht : (G (root w)).take 1 = [root w] := by
          obtain ⟨tl, htl, -⟩ := h.cons (root w)
          rw [htl]; rfl
        rw [ht, hbw]
        simp only [List.map_cons, List.map_nil, Option.isSome_some, Bool.true_or, if_true]
        have e0 : pairPut a (fun (_ : Nat) (x : NSt F) => (NMsg.call (.ibcast (ℓ.get x).1) : NMsg F))
            (fun w x => .call (.ibcast (zerosInfo (buf w x)))) S (G (root w)) (root w) =
            .call (.ibcast (ℓ.get (S (root w))).1) := by
          unfold pairPut
          rw [if_pos ((star_a h).2 ⟨hr, rfl⟩)]
        have hne : w ≠ root w := fun e => ha ((star_a h).2 ⟨e ▸ hr, e⟩)
        obtain ⟨q1, q2⟩ := hs w hd hne
        rw [e0, if_neg hne]
        simp only
        rw [if_pos]
        simp only [sameKind, zerosInfo, q1, q2]
        simp [infoOf]
    · have hbw : b w = none := by rw [h.bEq, if_neg hd]
      by_cases hr : w ∈ R
      · have ha : a w = some (G w) := (star_a h).2 ⟨hr, rfl⟩
        obtain ⟨z, hz, e⟩ := blank_eq (ℓ := ℓ) (pb := pb) (x := S w) (hb w (Or.inl hr))
        refine ⟨(z, false), fun hw => ?_, fun h => absurd h hd, fun _ _ => hz, fun h _ => absurd hr h⟩
        refine (pairPhase_sync_a hp hw ha (Or.inl hbw)).trans ?_
        rw [hbw, ha]
        exact e
      · have ha : a w = none := by rw [h.aEq, if_neg hr]
        refine ⟨ℓ.get (S w), fun hw => ?_, fun h => absurd h hd, fun h => absurd h hr, fun _ _ => rfl⟩
        refine (pairPhase_sync_none hp hw ha hbw).trans ?_
        rw [ha, hbw, ℓ.set_get]
        rfl
  choose Y hY using key
  exact ⟨Y, fun w hw => (hY w).1 hw, fun v hv => (hY v).2.1 hv, fun w h1 h2 => (hY w).2.2.1 h1 h2,
    fun w h1 h2 => (hY w).2.2.2 h1 h2⟩

/-- The data movement of `SumReduce`. -/
theorem sum_run (h : Star R D root G a b) (hnd : D.Nodup) (hR : ∀ r ∈ R, r ∈ W) (hD : ∀ v ∈ D, v ∈ W) {pb : Bool}
    {lf rt : Nat → NSt F → Info} (hb : ∀ u, u ∈ R ∨ u ∈ D → pb = true → (ℓ.get (S u)).1.shape ≠ [])
    (hi : ∀ v ∈ D, Info.same (infoOf ℓ (S v)) (rt (root v) (S (root v))))
    (hl : ∀ r ∈ R, r ∈ D → root r = r → Info.same (lf r (S r)) (rt r (S r))) :
    PhaseOK W (sumPhase c b a pb ℓ lf rt) S ∧ ∃ Y : Nat → Tensor F × Bool,
      (∀ w ∈ W, sync (sumPhase c b a pb ℓ lf rt) S w = ℓ.set (Y w) (S w)) ∧
      (∀ r ∈ R, Y r = (⟨(rt r (S r)).1, (rt r (S r)).2.1, fun j =>
        ((D.filter fun v => decide (root v = r)).map fun v => (ℓ.get (S v)).1.val j).sum⟩, (rt r (S r)).2.2)) ∧
      (∀ w ∈ D, w ∉ R → Void pb (ℓ.get (S w)).1 (Y w).1) ∧ ∀ w, w ∉ R → w ∉ D → Y w = ℓ.get (S w) := by
  have hp : Paired W b a (fun w g => if g.head? = some w then g else []) (fun w g => if g.head? = some w then g else []) :=
    (star_paired h hR hD (fun w g u h => by split at h <;> simp_all) fun w g u h => by split at h <;> simp_all :
      Paired W a b (fun w g => if g.head? = some w then g else [])
        (fun w g => if g.head? = some w then g else [])).symm
  have hleaf : ∀ w g, b w = some g → a w ≠ some g → g.head? ≠ some w := by
    intro w g e ne hh
    rw [h.bEq] at e
    split at e
    · next hd =>
      cases e
      rw [h.headG] at hh
      refine ne ((star_a h).2 ⟨?_, (Option.some.inj hh).symm⟩)
      rw [← Option.some.inj hh]
      exact h.rootIn w hd
    · cases e
  refine ⟨pairPhase_ok hp fun w _ g g' e e' hne m m' x => ?_, ?_⟩
  · simp only [if_neg (hleaf w g e fun e'' => hne (Option.some.inj (e''.symm.trans e')))]
  -- the sum
  have hres : ∀ r ∈ R, reduceResult (callsOf ((G r).map (pairPut b
      (fun (w : Nat) (x : NSt F) => (NMsg.call (.ireduce (some (ℓ.get x).1) (zerosInfo (lf w x))) : NMsg F))
      (fun w x => .call (.ireduce none (zerosInfo (rt w x)))) S (G r)))) =
      some ⟨(rt r (S r)).1, (rt r (S r)).2.1, fun j =>
        ((D.filter fun v => decide (root v = r)).map fun v => (ℓ.get (S v)).1.val j).sum⟩ := by
    intro r hr
    have hzr : ∀ v ∈ R, ¬ (v ∈ D ∧ root v = v) → zerosOf (R := F) ⟨some (rt v (S v)).1, some (rt v (S v)).2.1, none⟩ =
      some (zerosInfo (rt v (S v))) := fun _ _ _ => rfl
    have hzl : ∀ v ∈ D, zerosOf (R := F) ⟨some (lf v (S v)).1, some (lf v (S v)).2.1, none⟩ =
      some (zerosInfo (lf v (S v))) := fun _ _ => rfl
    have e := sum_result h hnd (x := fun u => (ℓ.get (S u)).1) hb hzr hzl hr (sh := (rt r (S r)).1) (dt := (rt r (S r)).2.1)
      (fun v hv e => by
        have := hi v hv
        rw [e] at this
        exact this)
      (fun hc => by
        obtain ⟨q1, q2⟩ := hl r hr hc.1 hc.2
        rw [zerosInfo, q1, q2]) (fun _ => rfl)
    rw [matched_eq (f := fun u => if u ∈ D ∧ root u = r then .ireduce (some (ℓ.get (S u)).1) (zerosInfo (lf u (S u)))
      else .ireduce none (zerosInfo (rt u (S u)))) (fun u hu => by rw [sum_calls h hb hzr hzl hr hu]; rfl), Option.bind_some] at e
    rw [← e]
    congr 1
    rw [callsOf, List.filterMap_map, ← List.filterMap_eq_map]
    refine List.filterMap_congr fun u hu => ?_
    simp only [Function.comp, pairPut]
    by_cases hbu : b u = some (G r)
    · rw [if_pos hbu, if_pos ((star_b h).1 hbu)]
    · rw [if_neg hbu, if_neg fun hh => hbu ((star_b h).2 hh)]
  have key : ∀ w, ∃ y : Tensor F × Bool, (w ∈ W → sync (sumPhase c b a pb ℓ lf rt) S w = ℓ.set y (S w)) ∧
      (w ∈ R → y = (⟨(rt w (S w)).1, (rt w (S w)).2.1, fun j =>
        ((D.filter fun v => decide (root v = w)).map fun v => (ℓ.get (S v)).1.val j).sum⟩, (rt w (S w)).2.2)) ∧
      (w ∈ D → w ∉ R → Void pb (ℓ.get (S w)).1 y.1) ∧ (w ∉ R → w ∉ D → y = ℓ.get (S w)) := by
    intro w
    by_cases hr : w ∈ R
    · refine ⟨_, fun hw => ?_, fun _ => rfl, fun _ h => absurd hr h, fun h => absurd hr h⟩
      have ha : a w = some (G w) := (star_a h).2 ⟨hr, rfl⟩
      have e := hres w hr
      by_cases hbw : b w = some (G w)
      · refine (pairPhase_sync_a hp hw hbw (Or.inr ha)).trans ?_
        rw [ha]
        simp only [h.headG, if_true, Option.isSome_some, Bool.true_or]
        rw [e]
      · refine (pairPhase_sync_b hp hw ha hbw fun g' e' ms x => ?_).trans ?_
        · simp only [if_neg (hleaf w g' e' fun e'' => hbw (e'.trans (e''.symm.trans ha)))]
        rw [ha]
        simp only [h.headG, if_true, Option.isSome_some, Bool.true_or]
        rw [e]
    · have ha : a w = none := by rw [h.aEq, if_neg hr]
      by_cases hd : w ∈ D
      · have hbw : b w = some (G (root w)) := (star_b h).2 ⟨hd, rfl⟩
        obtain ⟨z, hz, e⟩ := blank_eq (ℓ := ℓ) (pb := pb) (x := S w) (hb w (Or.inr hd))
        refine ⟨(z, false), fun hw => ?_, fun h => absurd h hr, fun _ _ => hz, fun _ h => absurd hd h⟩
        refine (pairPhase_sync_a hp hw hbw (Or.inl ha)).trans ?_
        rw [if_neg (hleaf w _ hbw (by rw [ha]; simp)), hbw, ha]
        exact e
      · have hbw : b w = none := by rw [h.bEq, if_neg hd]
        refine ⟨ℓ.get (S w), fun hw => ?_, fun h => absurd h hr, fun h => absurd h hd, fun _ _ => rfl⟩
        refine (pairPhase_sync_none hp hw hbw ha).trans ?_
        rw [ha, hbw, ℓ.set_get]
        rfl
  choose Y hY using key
  exact ⟨Y, fun w hw => (hY w).1 hw, fun v hv => (hY v).2.1 hv, fun w h1 h2 => (hY w).2.2.1 h1 h2,
    fun w h1 h2 => (hY w).2.2.2 h1 h2⟩

end

section
variable {W : List Nat} {c : Nat} {ℓ : Lens (NSt F) (Tensor F × Bool)} {S : Nat → NSt F} {L : PairLayer}

theorem create_run [AddCommMonoid F] (hx : ∀ w ∈ L.Px.members, w ∈ W) (hy : ∀ w ∈ L.Py.members, w ∈ W) :
    PhaseOK W (createPhase (F := F) c L) S ∧ ∀ w ∈ W, sync (createPhase c L) S w = S w := by
  have hg : Grouped W (fun w => decide (w ∈ groupUnion L.Px.members L.Py.members))
      (fun _ => groupUnion L.Px.members L.Py.members) (fun _ => groupUnion L.Px.members L.Py.members) := by
    refine ⟨fun w _ h => of_decide_eq_true h, fun w _ _ u hu => ⟨?_, decide_eq_true hu, rfl⟩, fun _ _ _ _ hu => hu⟩
    rcases mem_groupUnion.1 hu with h | h
    · exact hx u h
    · exact hy u h
  refine ⟨collPhase_ok hg, fun w hw => ?_⟩
  unfold createPhase
  rw [collPhase_sync hg hw]
  split <;> rfl

variable [AddCommMonoid F]

omit [AddCommMonoid F] in
theorem set_two (sl : Slot ℓ) {x y : NSt F} {p : Prop} [Decidable p] {a : Info}
    (h : y = if p then { x with str := a } else x) (t : Tensor F × Bool) :
    ℓ.set t y = { ℓ.set t x with str := y.str } := by
  subst h
  split
  · rw [sl.set_str]
  · rw [show x.str = (ℓ.set t x).str from (sl.str_set _ _).symm]

/-- `Broadcast`: every destination gets the tensor of its source. -/
theorem bcast_run (c : Nat) (h : BcastLayer L) (hx : ∀ w ∈ L.Px.members, w ∈ W) (hy : ∀ w ∈ L.Py.members, w ∈ W)
    (sl : Slot ℓ) (hb : HasBatch L fun w => (ℓ.get (S w)).1) :
    ProgOK W (bcastProg c L ℓ) S ∧ ∃ (Y : Nat → Tensor F × Bool) (s : Nat → Info),
      (∀ w ∈ W, run (bcastProg c L ℓ) S w = { ℓ.set (Y w) (S w) with str := s w }) ∧
      (∀ v ∈ L.Py.members, Y v = ℓ.get (S (L.broot v))) ∧
      (∀ w ∈ L.Px.members, w ∉ L.Py.members → Void L.preserveBatch (ℓ.get (S w)).1 (Y w).1) ∧
      (∀ w, w ∉ L.Px.members → w ∉ L.Py.members → Y w = ℓ.get (S w)) ∧
      (L.identity = false → ∀ v ∈ L.Py.members, s v = infoOf ℓ (S (L.broot v))) := by
  unfold bcastProg
  cases hi : L.identity with
  | true =>
    obtain ⟨h1, h2⟩ := PairLayer.identity_iff.1 hi
    refine ⟨trivial, fun w => ℓ.get (S w), fun w => (S w).str, fun w _ => ?_, fun v hv => ?_, fun w hw hn => ?_,
      fun _ _ _ => rfl, fun h => by cases h⟩
    · show S w = _
      rw [ℓ.set_get]
    · unfold PairLayer.broot
      rw [root_identity h.valid (h.same h1) h2 hv]
    · exact absurd (h.same h1 ▸ hw) hn
  | false =>
    rw [if_neg (by simp)]
    have st : Star L.Px.members L.Py.members L.broot (grp (groupUnion L.Px.members L.Py.members)
        (colS L.Px L.Py L.ts L.td) (colD L.Px L.Py L.ts L.td)) (fun w => sendOf (L.bparts w))
        fun w => recvOf (L.bparts w) := bcast_star h.valid
    obtain ⟨o1, r1⟩ := create_run (c := c) (S := S) hx hy
    generalize hS1 : sync (createPhase c L) S = S1 at r1
    obtain ⟨o2, r2⟩ := struct_copy (c := c) (ℓ := ℓ) (S := S1) st hx hy
    generalize hS2 : sync (structPhase c _ _ ℓ) S1 = S2 at r2
    have hroot : ∀ v ∈ L.Py.members, L.broot v ∈ L.Px.members := fun v hv => h.root_mem hv
    have hget : ∀ w ∈ W, ℓ.get (S2 w) = ℓ.get (S w) := by
      intro w hw
      rw [r2 w hw]
      split
      · rw [sl.get_str, r1 w hw]
      · rw [r1 w hw]
    have hstr : ∀ v ∈ L.Py.members, (S2 v).str = infoOf ℓ (S (L.broot v)) := fun v hv => by
      rw [r2 v (hy v hv), if_pos hv]
      show infoOf ℓ (S1 (L.broot v)) = _
      rw [r1 _ (hx _ (hroot v hv))]
    have hinf : ∀ w ∈ W, infoOf ℓ (S2 w) = infoOf ℓ (S w) := fun w hw => by
      unfold infoOf
      rw [hget w hw]
    obtain ⟨o3, Y, r3, y1, y2, y3⟩ := copy_run (c := c) (ℓ := ℓ) (S := S2) (pb := L.preserveBatch) st hx hy
      (fun u hu e => by
        rw [hget u (hu.elim (hx u) (hy u))]
        exact hb e u hu) (buf := fun _ x => x.str)
      (fun v hv _ => by
        rw [hstr v hv, hinf _ (hx _ (hroot v hv))]
        exact ⟨rfl, rfl⟩)
    refine ⟨⟨o1, by rw [hS1]; exact ⟨o2, by rw [hS2]; exact ⟨o3, trivial⟩⟩⟩, fun w => if w ∈ W then Y w else ℓ.get (S w),
      fun w => (S2 w).str, fun w hw => ?_, fun v hv => ?_, fun w h1 h2 => ?_, fun w h1 h2 => ?_, fun _ => hstr⟩
    · show sync (copyPhase c _ _ _ ℓ _) (sync (structPhase c _ _ ℓ) (sync (createPhase c L) S)) w = _
      rw [hS1, hS2, r3 w hw]
      have he := r2 w hw
      rw [r1 w hw] at he
      have := set_two sl he (Y w)
      simpa only [if_pos hw] using this
    · beta_reduce
      obtain ⟨q1, q2⟩ := y1 v hv
      rw [if_pos (hy v hv)]
      have hg := hget _ (hx _ (hroot v hv))
      refine Prod.ext (q1.trans (congrArg Prod.fst hg)) (q2.trans ?_)
      split
      · next e => rw [hget v (hy v hv), ← e]
      · rw [hstr v hv]
        rfl
    · beta_reduce
      rw [if_pos (hx w h1)]
      rw [← hget w (hx w h1)]
      exact y2 w h1 h2
    · beta_reduce
      split
      · next hw => rw [y3 w h1 h2, hget w hw]
      · rfl

/-- `SumReduce`: every destination gets the sum over its sources. -/
theorem reduce_run (c : Nat) (h : ReduceLayer L) (hx : ∀ w ∈ L.Px.members, w ∈ W) (hy : ∀ w ∈ L.Py.members, w ∈ W)
    (sl : Slot ℓ) (hb : HasBatch L fun w => (ℓ.get (S w)).1) {i : Nat → Info}
    (hi : ∀ v ∈ L.Px.members, infoOf ℓ (S v) = i (L.rroot v)) :
    ProgOK W (reduceProg c L ℓ) S ∧ ∃ (Y : Nat → Tensor F × Bool) (s : Nat → Info),
      (∀ w ∈ W, run (reduceProg c L ℓ) S w = { ℓ.set (Y w) (S w) with str := s w }) ∧
      (∀ r ∈ L.Py.members, Y r = (⟨(i r).1, (i r).2.1, fun j => ((L.Px.members.filter fun v =>
        decide (L.rroot v = r)).map fun v => (ℓ.get (S v)).1.val j).sum⟩, (i r).2.2)) ∧
      (∀ w ∈ L.Px.members, w ∉ L.Py.members → Void L.preserveBatch (ℓ.get (S w)).1 (Y w).1) ∧
      ∀ w, w ∉ L.Px.members → w ∉ L.Py.members → Y w = ℓ.get (S w) := by
  unfold reduceProg
  cases hid : L.identity with
  | true =>
    obtain ⟨h1, h2⟩ := PairLayer.identity_iff.1 hid
    have e := h.same h1
    have hself : ∀ v ∈ L.Px.members, L.rroot v = v := fun v hv => by
      unfold PairLayer.rroot
      exact root_identity h.valid e.symm (h2.imp (fun h => e ▸ h) Eq.symm) hv
    refine ⟨trivial, fun w => ℓ.get (S w), fun w => (S w).str, fun w _ => ?_, fun r hr => ?_, fun w hw hn => ?_,
      fun _ _ _ => rfl⟩
    · show S w = _
      rw [ℓ.set_get]
    · have hr' : r ∈ L.Px.members := e ▸ hr
      have hf : (L.Px.members.filter fun v => decide (L.rroot v = r)) = [r] := by
        rw [List.filter_congr (q := fun v => v == r) fun v hv => by rw [hself v hv]; rfl,
          List.filter_beq, List.count_eq_one_of_mem h.valid.wfd.nodup hr']
        rfl
      have := hi r hr'
      rw [hself r hr'] at this
      rw [hf, ← this]
      simp [infoOf]
    · exact absurd (e ▸ hw) hn
  | false =>
    rw [if_neg (by simp)]
    have st : Star L.Py.members L.Px.members L.rroot _ (fun w => recvOf (L.rparts w))
        fun w => sendOf (L.rparts w) := reduce_star h.valid
    obtain ⟨o1, r1⟩ := create_run (c := c) (S := S) hx hy
    generalize hS1 : sync (createPhase c L) S = S1 at r1
    obtain ⟨o2, r2⟩ := struct_sum (c := c) (ℓ := ℓ) (S := S1) st hy hx (i := i)
      (fun v hv => by
        rw [r1 v (hx v hv)]
        exact hi v hv)
      (fun r hr => ronto h.valid hr)
    generalize hS2 : sync (structPhase c _ _ ℓ) S1 = S2 at r2
    have hget : ∀ w ∈ W, ℓ.get (S2 w) = ℓ.get (S w) := by
      intro w hw
      rw [r2 w hw]
      split
      · rw [sl.get_str, r1 w hw]
      · rw [r1 w hw]
    have hstr : ∀ r ∈ L.Py.members, (S2 r).str = i r := fun r hr => by rw [r2 r (hy r hr), if_pos hr]
    have hinf : ∀ w ∈ W, infoOf ℓ (S2 w) = infoOf ℓ (S w) := fun w hw => by
      unfold infoOf
      rw [hget w hw]
    obtain ⟨o3, Y, r3, y1, y2, y3⟩ := sum_run (c := c) (ℓ := ℓ) (S := S2) (pb := L.preserveBatch) st
      h.valid.wfd.nodup hy hx (lf := fun _ x => infoOf ℓ x) (rt := fun _ x => x.str)
      (fun u hu e => by
        rw [hget u (hu.elim (hy u) (hx u))]
        exact hb e u hu.symm)
      (fun v hv => by
        rw [hinf v (hx v hv), hi v hv, hstr _ (h.root_mem hv)]
        exact ⟨rfl, rfl⟩)
      (fun r hr hrx e => by
        rw [hinf r (hx r hrx), hi r hrx, hstr r hr, e]
        exact ⟨rfl, rfl⟩)
    refine ⟨⟨o1, by rw [hS1]; exact ⟨o2, by rw [hS2]; exact ⟨o3, trivial⟩⟩⟩, fun w => if w ∈ W then Y w else ℓ.get (S w),
      fun w => (S2 w).str, fun w hw => ?_, fun r hr => ?_, fun w h1 h2 => ?_, fun w h1 h2 => ?_⟩
    · show sync (sumPhase c _ _ _ ℓ _ _) (sync (structPhase c _ _ ℓ) (sync (createPhase c L) S)) w = _
      rw [hS1, hS2, r3 w hw]
      have he := r2 w hw
      rw [r1 w hw] at he
      have := set_two sl he (Y w)
      simpa only [if_pos hw] using this
    · beta_reduce
      rw [if_pos (hy r hr), y1 r hr, hstr r hr]
      refine Prod.ext ?_ rfl
      show Tensor.mk _ _ _ = Tensor.mk _ _ _
      congr 1
      funext j
      congr 1
      refine List.map_congr_left fun v hv => ?_
      rw [hget v (hx v (List.mem_of_mem_filter hv))]
    · beta_reduce
      rw [if_pos (hx w h1)]
      rw [← hget w (hx w h1)]
      exact y2 w h1 h2
    · beta_reduce
      split
      · next hw => rw [y3 w h2 h1, hget w hw]
      · rfl

end

end Verif.Net
