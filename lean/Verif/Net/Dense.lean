import Verif.Net.Repart
import Verif.Linear.Props

/-!
# Networks: linear layers, entrywise functions, flattening
-/

namespace Verif.Net

variable {F β : Type}

/-- An entrywise function such as `torch.relu` on every worker; this is PyTorch's code. -/
def mapProg (f : F → F) : Prog (NSt F) (NMsg F) :=
  [localPhase fun _ x => { x with t := ⟨x.t.shape, x.t.dtype, fun i => f (x.t.val i)⟩ }]

/-- `x.reshape(x.shape[0], -1)` on the workers of a partition: the call a user puts between convolutions and linear
layers.  PyTorch's code; row-major order. -/
def flatProg (P : Cart) : Prog (NSt F) (NMsg F) :=
  [localPhase fun w x => if w ∈ P.members then
    { x with t := ⟨[x.t.shape.headD 0, x.t.shape.tail.prod], x.t.dtype,
      fun i => x.t.val (i.headD 0 :: getCoords x.t.shape.tail (i.getD 1 0))⟩ } else x]

/-- `nn/linear.py:85-108` `forward`.  `c`, `cy`: the channels of broadcast and sum-reduction; `rgp`: do the parameters
require gradients? -/
def linProg [AddCommMonoid F] [Mul F] (c cy : Nat) (L : LinearLayer F) (rgp : Bool) : Prog (NSt F) (NMsg F) :=
  stackProg c cy L.xBroadcast L.ySumReduce L.sublinear rgp

section
variable {W : List Nat} {P : Cart} {L : Layout} {t : TorchDtype} {X : List Nat → F} {S : Nat → NSt F}

theorem map_run (f : F → F) (h : Holds W P L t X S) :
    ProgOK W (mapProg f) S ∧ Holds W P L t (fun i => f (X i)) (run (mapProg f) S) := by
  obtain ⟨rg, hrg⟩ := h.parts
  exact ⟨⟨localPhase_ok _, trivial⟩, h.calm, h.batch, ⟨rg, hrg⟩, fun v hv l hl => congrArg f (h.data v hv l hl)⟩

/-- The layout after flattening: the channels become blocks of features. -/
def flatLayout : Layout → Layout
  | bs :: cs :: L => [bs, cs.map (· * (Layout.global L).prod)]
  | L => L

/-- The sequential result of flattening. -/
def flatOp (shape : List Nat) (X : List Nat → F) : List Nat → F := fun i =>
  X (i.headD 0 :: getCoords shape.tail (i.getD 1 0))

/-- The workers of `P` regarded as a two-dimensional partition. -/
def flatCart (P : Cart) : Cart := ⟨P.members, P.shape.take 2, P.root⟩

theorem shapeAt_ones {L : Layout} {k : Nat} (hL : L.pshape = List.replicate k 1) {idx : List Nat}
    (hi : InBounds idx (List.replicate k 1)) :
    L.shapeAt idx = L.global ∧ L.startAt idx = L.global.map fun _ => 0 := by
  induction k generalizing L idx with
  | zero =>
    cases L with
    | nil => exact ⟨rfl, rfl⟩
    | cons bs L => simp [Layout.pshape] at hL
  | succ k ih =>
    cases L with
    | nil => simp [Layout.pshape, List.replicate_succ] at hL
    | cons bs L =>
      cases idx with
      | nil => simp [List.replicate_succ, InBounds] at hi
      | cons i is =>
        rw [List.replicate_succ] at hL hi
        obtain ⟨h1, h2⟩ := List.cons.inj hL
        obtain ⟨hi0, his⟩ := hi
        obtain ⟨e1, e2⟩ := ih h2 his
        obtain rfl : i = 0 := by omega
        obtain ⟨b, rfl⟩ := List.length_eq_one_iff.1 h1
        simp only [Layout.shapeAt, Layout.startAt, Layout.global, List.map_cons] at e1 e2 ⊢
        exact ⟨by rw [e1]; simp, by rw [e2]; simp⟩

theorem shiftBy_zero (ns : List Nat) : ∀ l : List Nat, l.length = ns.length → shiftBy (ns.map fun _ => 0) l = l := by
  induction ns with
  | nil => intro l hl; cases l <;> simp_all [shiftBy]
  | cons n ns ih =>
    intro l hl
    cases l with
    | nil => simp at hl
    | cons a l =>
      have := ih l (by simpa using hl)
      simp only [List.map_cons, shiftBy] at this ⊢
      simp_all

theorem shapeAt_ne_nil (hL : L.pshape = P.shape) (h0 : P.shape ≠ []) (w : Nat) : L.shapeAt (P.coord w) ≠ [] := by
  intro hn
  have hl : (L.shapeAt (P.coord w)).length = L.length := Layout.length_shapeAt (coord_len hL w)
  rw [hn, ← L.length_pshape, hL] at hl
  exact h0 (List.length_eq_zero_iff.1 hl.symm)

theorem flat_run {a b k : Nat} (hP : P.WF) (hs : P.shape = a :: b :: List.replicate k 1) (hL : L.pshape = P.shape)
    (h : Holds W P L t X S) :
    ProgOK W (flatProg P) S ∧ Holds W (flatCart P) (flatLayout L) t (flatOp L.global X) (run (flatProg P) S) := by
  obtain ⟨rg, hrg⟩ := h.parts
  obtain ⟨bs, cs, Lr, rfl, hLr⟩ : ∃ bs cs Lr, L = bs :: cs :: Lr ∧ Layout.pshape Lr = List.replicate k 1 := by
    rw [hs] at hL
    match L, hL with
    | bs :: cs :: Lr, hL => exact ⟨bs, cs, Lr, rfl, (List.cons.inj (List.cons.inj hL).2).2⟩
  have hco : ∀ v ∈ P.members, ∃ i j zs, P.coord v = i :: j :: zs ∧ (flatCart P).coord v = [i, j] ∧
      InBounds zs (List.replicate k 1) := by
    intro v hv
    have hb := coords_inBounds hP hv
    have e : P.coord v = getCoords (a :: b :: List.replicate k 1) (P.members.idxOf v) := by rw [← hs]; rfl
    have e' : (flatCart P).coord v = getCoords [a, b] (P.members.idxOf v) := by
      show getCoords (P.shape.take 2) _ = _
      rw [hs]
      rfl
    rw [hs] at hb
    refine ⟨_, _, _, e, ?_, ?_⟩
    · rw [e']
      simp [getCoords]
    · exact hb.2.2
  have hrun : ∀ w, run (flatProg P) S w = if w ∈ P.members then
    { S w with t := ⟨[(S w).t.shape.headD 0, (S w).t.shape.tail.prod], (S w).t.dtype,
      fun i => (S w).t.val (i.headD 0 :: getCoords (S w).t.shape.tail (i.getD 1 0))⟩ } else S w := fun _ => rfl
  have hmap : ∀ j m, (cs.map (· * m)).getD j 0 = cs.getD j 0 * m ∧
      ((cs.map (· * m)).take j).sum = (cs.take j).sum * m := by
    intro j m
    refine ⟨?_, ?_⟩
    · rw [List.getD_eq_getElem?_getD, List.getD_eq_getElem?_getD, List.getElem?_map]
      cases cs[j]? <;> simp
    · rw [← List.map_take, List.sum_map_mul_right]
      simp
  have hkey : ∀ v ∈ P.members, (run (flatProg P) S v).own = ((flatLayout (bs :: cs :: Lr)).shapeAt ((flatCart P).coord v), t, rg) := by
    intro v hv
    obtain ⟨i, j, zs, e1, e2, hz⟩ := hco v hv
    obtain ⟨g1, g2⟩ := shapeAt_ones hLr hz
    have ho := hrg v hv
    have hsh : (S v).t.shape = bs.getD i 0 :: cs.getD j 0 :: Layout.global Lr := by
      have := congrArg Prod.fst ho
      rw [e1] at this
      rw [← g1]
      exact this
    rw [hrun v, if_pos hv, e2]
    refine Prod.ext ?_ (Prod.ext (congrArg (·.2.1) ho) (congrArg (·.2.2) ho))
    show [(S v).t.shape.headD 0, (S v).t.shape.tail.prod] = [_, _]
    rw [hsh, (hmap j _).1]
    rfl
  refine ⟨⟨localPhase_ok _, trivial⟩, fun w hw => ?_, fun w hw => ?_, ⟨rg, hkey⟩, fun v hv l hl => ?_⟩
  · rw [hrun, ← h.calm w hw]
    split <;> rfl
  · rw [hrun]
    split
    · simp
    · exact h.batch w hw
  · have hv : v ∈ P.members := hv
    obtain ⟨i, j, zs, e1, e2, hz⟩ := hco v hv
    obtain ⟨g1, g2⟩ := shapeAt_ones hLr hz
    have hsh : (S v).t.shape = bs.getD i 0 :: cs.getD j 0 :: Layout.global Lr := by
      have := congrArg Prod.fst (hrg v hv)
      rw [e1] at this
      rw [← g1]
      exact this
    rw [e2] at hl ⊢
    match l, hl with
    | [p, q], hl =>
      obtain ⟨hp, hq, -⟩ := hl
      rw [(hmap j _).1] at hq
      generalize hG : Layout.global Lr = G at hsh g1 g2 hq
      have hm : 0 < G.prod := by
        rcases Nat.eq_zero_or_pos G.prod with h0 | h0
        · rw [h0] at hq; omega
        · exact h0
      rw [hrun v, if_pos hv]
      show (S v).t.val (p :: getCoords (S v).t.shape.tail q) = X ((_ + p) :: getCoords ((cs.sum) :: Layout.global Lr) _)
      rw [hsh, hG]
      show (S v).t.val (p :: (q / G.prod) :: getCoords G (q % G.prod)) = _
      have hin : InBounds (p :: (q / G.prod) :: getCoords G (q % G.prod)) ((Layout.shapeAt (bs :: cs :: Lr)) (P.coord v)) := by
        rw [e1]
        refine ⟨hp, ?_, ?_⟩
        · exact Nat.div_lt_of_lt_mul (by rw [Nat.mul_comm]; exact hq)
        · show InBounds _ (Layout.shapeAt Lr zs)
          rw [g1]
          exact (getCoords_spec (Nat.mod_lt _ hm)).1
      rw [h.data v hv _ hin, e1]
      show X ((_ + p) :: (_ + q / G.prod) :: shiftBy (Layout.startAt Lr zs) _) = _
      rw [g2, shiftBy_zero G _ (length_getCoords _ _)]
      show _ = X ((_ + p) :: ((((cs.map (· * (Layout.global Lr).prod)).take j).sum + q) / G.prod) ::
        getCoords G ((((cs.map (· * (Layout.global Lr).prod)).take j).sum + q) % G.prod))
      rw [(hmap j _).2, hG, Nat.mul_add_mod_self_right, Nat.add_comm (_ * _) q, Nat.add_mul_div_right _ _ hm, Nat.add_comm (q / _)]

end

section
variable [AddCommMonoid F] [Mul F] {W : List Nat} {L : LinearLayer F} {Po Pi b : Nat} {t : TorchDtype}
  {X weight bias : List Nat → F} {S : Nat → NSt F}

/-- The sequential linear layer: `X Wᵀ + β`. -/
def denseOp (n : Nat) (useBias : Bool) (weight bias X : List Nat → F) : List Nat → F := fun i =>
  (∑ k ∈ Finset.range n, X (i.dropLast ++ [k]) * weight [i.getLastD 0, k]) + if useBias then bias [i.getLastD 0] else 0

theorem subsize_one (n : Nat) : subsize 1 0 n = n ∧ startIdx 1 0 n = 0 := by
  simp [subsize, startIdx, Nat.mod_one]

/-- A 1 x `parts` partition. -/
theorem balanced_two (parts j b n : Nat) (hj : j < parts) : (Layout.balanced [1, parts] [b, n]).shapeAt [0, j] =
    [b, subsize parts j n] ∧ (Layout.balanced [1, parts] [b, n]).startAt [0, j] = [0, startIdx parts j n] := by
  have hin : InBounds [0, j] [1, parts] := ⟨by omega, hj, trivial⟩
  have hl : [1, parts].length = [b, n].length := rfl
  rw [Layout.balanced_shapeAt hl hin, (Layout.balanced_startAt hl hin).1]
  simp [computeSubshape, computeStartIndex, map3, subsize_one]

omit [AddCommMonoid F] [Mul F] in
theorem Holds.blocks (h : Holds W L.Px (Layout.balanced [1, Pi] [b, L.inFeatures]) t X S) (hv : LinearValid L Po Pi) :
    BlocksOf L.Px Pi L.inFeatures [b] t X (inputsOf S).x := by
  obtain ⟨rg, hrg⟩ := h.parts
  refine ⟨fun u hu => ?_, fun u hu => congrArg (·.2.1) (hrg u hu), fun u hu bb hbb i hi => ?_⟩
  · obtain ⟨j, ej, hj⟩ := hv.coordX hu
    have := congrArg Prod.fst (hrg u hu)
    rw [ej, (balanced_two Pi j b L.inFeatures hj).1] at this
    rw [ej]
    exact this
  · obtain ⟨j, ej, hj⟩ := hv.coordX hu
    match bb, hbb with
    | [bb], hbb =>
      have := h.data u hu [bb, i]
      rw [ej] at hi this ⊢
      rw [(balanced_two Pi j b L.inFeatures hj).1, (balanced_two Pi j b L.inFeatures hj).2] at this
      have := this ⟨hbb.1, hi, trivial⟩
      simpa [shiftBy, inputsOf] using this

theorem linear_run (c cy : Nat) (rgp : Bool) (hv : LinearValid L Po Pi) (hp : ParamBlocks L Po Pi weight bias)
    (hx : ∀ w ∈ L.Px.members, w ∈ W) (hw : ∀ w ∈ L.Pw.members, w ∈ W) (hy : ∀ w ∈ L.Py.members, w ∈ W)
    (h : Holds W L.Px (Layout.balanced [1, Pi] [b, L.inFeatures]) t X S) :
    ProgOK W (linProg c cy L rgp) S ∧ Holds W L.Py (Layout.balanced [1, Po] [b, L.outFeatures]) t
      (denseOp L.inFeatures L.useBias weight bias X) (run (linProg c cy L rgp) S) := by
  obtain ⟨rg, hrg⟩ := h.parts
  have hbl := h.blocks hv
  have hs : ∀ u, L.Active u → ((inputsOf S).x u).shape ≠ [] := fun u hu =>
    h.batch u (hu.elim (hx u) fun hh => hh.elim (hw u) (hy u))
  obtain ⟨o, e1, e2, e3, e4⟩ := stack_run (ρ := rg) c cy rgp (linear_stack hv hbl hs)
    (fun w hw => congrArg (·.2.2) (hrg w hw)) hx hw hy (fun _ => false)
  obtain ⟨out, ho, hb⟩ := (C42_forward (rg := fun _ => false) hv hp hbl hs).1
  have hout : ∀ u ∈ L.Py.members, out u = (run (linProg c cy L rgp) S u).t := fun u hu =>
    Option.some.inj ((ho u hu).symm.trans (e2 u hu).1)
  refine ⟨o, fun w hw => (e1 w hw).trans (h.calm w hw), fun w hww => ?_, ⟨rg || rgp, fun u hu => ?_⟩, fun u hu l hl => ?_⟩
  · by_cases hm : w ∈ L.Py.members
    · rw [← hout w hm, hb.shape w hm]
      simp
    · by_cases hm' : w ∈ L.Px.members ∨ w ∈ L.Pw.members
      · exact shape_ne_nil_of_prod (e3 w hww hm' hm)
      · rw [not_or] at hm'
        show (run (stackProg c cy L.xBroadcast L.ySumReduce L.sublinear rgp) S w).t.shape ≠ []
        rw [e4 w hww hm'.1 hm'.2 hm]
        exact h.batch w hww
  · obtain ⟨j, ej, hj⟩ := hv.coordY hu
    refine Prod.ext ?_ (Prod.ext ?_ (e2 u hu).2)
    · show (run (linProg c cy L rgp) S u).t.shape = _
      rw [← hout u hu, hb.shape u hu, ej, (balanced_two Po j b L.outFeatures hj).1]
      rfl
    · show (run (linProg c cy L rgp) S u).t.dtype = _
      rw [← hout u hu, hb.dtype u hu]
  · obtain ⟨j, ej, hj⟩ := hv.coordY hu
    have hd := hb.val u hu
    rw [ej] at hl hd ⊢
    rw [(balanced_two Po j b L.outFeatures hj).1] at hl
    rw [(balanced_two Po j b L.outFeatures hj).2]
    match l, hl with
    | [bb, i], hl =>
      have := hd [bb] ⟨hl.1, trivial⟩ i hl.2.1
      rw [hout u hu] at this
      rw [show [bb, i] = [bb] ++ [i] from rfl, this]
      simp [shiftBy, denseOp]

end

end Verif.Net
