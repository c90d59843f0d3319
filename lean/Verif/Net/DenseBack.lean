import Verif.Net.StackBack
import Verif.Net.Dense

/-!
# Networks: backward of linear layers, entrywise functions, flattening
-/

namespace Verif.Net

variable {F β : Type}

/-- The workers of `P` hold the parts of the gradient `G`, cut as `L` says; nobody has raised an exception, and no
worker's tensor is 0-dimensional. -/
structure HoldsG (W : List Nat) (P : Cart) (L : Layout) (t : TorchDtype) (G : List Nat → F) (S : Nat → NSt F) : Prop where
  calm : ∀ w ∈ W, (S w).err = false
  batch : ∀ w ∈ W, (S w).t.shape ≠ []
  parts : ∀ v ∈ P.members, (S v).t.shape = L.shapeAt (P.coord v) ∧ (S v).t.dtype = t
  data : ∀ v ∈ P.members, ∀ l, InBounds l (L.shapeAt (P.coord v)) →
    (S v).t.val l = G (shiftBy (L.startAt (P.coord v)) l)

/-- Gradient of an entrywise function with derivative `df`; PyTorch's code.  The tape: before the function. -/
def mapBack [Mul F] (df : F → F) : CProg (List (NSt F)) (NSt F) (NMsg F) :=
  [fun T => localPhase fun _ x =>
    match T[0]? with
    | some A => { x with t := ⟨A.t.shape, A.t.dtype, fun i => x.t.val i * df (A.t.val i)⟩ }
    | none => { x with err := true }]

/-- Gradient of `x.reshape(x.shape[0], -1)`; PyTorch's code.  The tape: before the call. -/
def flatBack (P : Cart) : CProg (List (NSt F)) (NSt F) (NMsg F) :=
  [fun T => localPhase fun w x => if w ∈ P.members then
    match T[0]? with
    | some A => { x with t := ⟨A.t.shape, A.t.dtype, fun i => x.t.val [i.headD 0, flatC A.t.shape.tail i.tail]⟩ }
    | none => { x with err := true } else x]

section
variable {W : List Nat} {P : Cart} {L : Layout} {t : TorchDtype} {X Y : List Nat → F} {S G : Nat → NSt F}
  {T : Nat → List (NSt F)}

theorem mapBack_run [Mul F] (f df : F → F) (h : Holds W P L t X S) (hG : HoldsG W P L t Y G)
    (hT : ∀ w ∈ W, ∃ rest, T w = snaps [mapProg f] S w ++ rest) (sub : ∀ w ∈ P.members, w ∈ W) :
    ProgOK W ((mapBack df).at T) G ∧ HoldsG W P L t (fun i => Y i * df (X i)) (run ((mapBack df).at T) G) := by
  obtain ⟨rg, hrg⟩ := h.parts
  have hrun : ∀ w ∈ W, run ((mapBack df).at T) G w =
      { G w with t := ⟨(S w).t.shape, (S w).t.dtype, fun i => (G w).t.val i * df ((S w).t.val i)⟩ } := by
    intro w hw
    obtain ⟨rest, e⟩ := hT w hw
    show (match (T w)[0]? with | some A => _ | none => _) = _
    rw [e]
    rfl
  refine ⟨⟨localPhase_ok fun w y => (((mapBack df).at T).headD (localPhase fun _ x => x) w y).work y, trivial⟩,
    fun w hw => ?_, fun w hw => ?_, fun v hv => ?_, fun v hv l hl => ?_⟩
  · rw [hrun w hw]
    exact hG.calm w hw
  · rw [hrun w hw]
    exact h.batch w hw
  · rw [hrun v (sub v hv)]
    exact ⟨congrArg Prod.fst (hrg v hv), congrArg (·.2.1) (hrg v hv)⟩
  · rw [hrun v (sub v hv)]
    show (G v).t.val l * df ((S v).t.val l) = _
    rw [hG.data v hv l hl, h.data v hv l hl]

/-- The adjoint of flattening a tensor. -/
def flatAdj (shape : List Nat) (Y : List Nat → F) : List Nat → F := fun i => Y [i.headD 0, flatC shape.tail i.tail]

/-- Row-major ranks in a box whose first dimension is part of a longer one. -/
theorem flatC_shift (G : List Nat) (n a q : Nat) (r : List Nat) (m : Nat) :
    flatC (n :: G) ((a + q) :: r) = a * G.prod + flatC (m :: G) (q :: r) := by
  simp only [flatC]
  ring

theorem flatBack_run {a b k : Nat} (hP : P.WF) (hs : P.shape = a :: b :: List.replicate k 1) (hL : L.pshape = P.shape)
    (h : Holds W P L t X S) (hG : HoldsG W (flatCart P) (flatLayout L) t Y G)
    (hT : ∀ w ∈ W, ∃ rest, T w = snaps [flatProg P] S w ++ rest) (sub : ∀ w ∈ P.members, w ∈ W) :
    ProgOK W ((flatBack P).at T) G ∧ HoldsG W P L t (flatAdj L.global Y) (run ((flatBack P).at T) G) := by
  obtain ⟨rg, hrg⟩ := h.parts
  obtain ⟨bs, cs, Lr, rfl, hLr⟩ : ∃ bs cs Lr, L = bs :: cs :: Lr ∧ Layout.pshape Lr = List.replicate k 1 := by
    rw [hs] at hL
    match L, hL with
    | bs :: cs :: Lr, hL => exact ⟨bs, cs, Lr, rfl, (List.cons.inj (List.cons.inj hL).2).2⟩
  have hrun : ∀ w ∈ W, run ((flatBack P).at T) G w = if w ∈ P.members then
    { G w with t := ⟨(S w).t.shape, (S w).t.dtype, fun i => (G w).t.val [i.headD 0, flatC (S w).t.shape.tail i.tail]⟩ }
      else G w := by
    intro w hw
    obtain ⟨rest, e⟩ := hT w hw
    show (if w ∈ P.members then match (T w)[0]? with | some A => _ | none => _ else _) = _
    rw [e]
    rfl
  have hco : ∀ v ∈ P.members, ∃ i j zs, P.coord v = i :: j :: zs ∧ (flatCart P).coord v = [i, j] ∧
      InBounds zs (List.replicate k 1) := by
    intro v hv
    have hb := coords_inBounds hP hv
    have e : P.coord v = getCoords (a :: b :: List.replicate k 1) (P.members.idxOf v) := by rw [← hs]; rfl
    have e' : (flatCart P).coord v = getCoords [a, b] (P.members.idxOf v) := by
      show getCoords (P.shape.take 2) _ = _
      rw [hs]
      rfl
    rw [hs] at hb
    refine ⟨_, _, _, e, ?_, ?_⟩
    · rw [e']
      simp [getCoords]
    · exact hb.2.2
  refine ⟨⟨localPhase_ok fun w y => (((flatBack P).at T).headD (localPhase fun _ x => x) w y).work y, trivial⟩,
    fun w hw => ?_, fun w hw => ?_, fun v hv => ?_, fun v hv l hl => ?_⟩
  · rw [hrun w hw, ← hG.calm w hw]
    split <;> rfl
  · rw [hrun w hw]
    split
    · exact h.batch w hw
    · exact hG.batch w hw
  · rw [hrun v (sub v hv), if_pos hv]
    exact ⟨congrArg Prod.fst (hrg v hv), congrArg (·.2.1) (hrg v hv)⟩
  · obtain ⟨i, j, zs, e1, e2, hz⟩ := hco v hv
    obtain ⟨g1, g2⟩ := shapeAt_ones hLr hz
    have hsh : (S v).t.shape = bs.getD i 0 :: cs.getD j 0 :: Layout.global Lr := by
      have := congrArg Prod.fst (hrg v hv)
      rw [e1] at this
      rw [← g1]
      exact this
    rw [hrun v (sub v hv), if_pos hv]
    rw [e1] at hl ⊢
    match l, hl with
    | p :: q :: r, hl =>
      obtain ⟨hp, hq, hr⟩ := hl
      have hr : InBounds r (Layout.shapeAt Lr zs) := hr
      rw [g1] at hr
      have hd := hG.data v hv [p, flatC ((cs.getD j 0) :: Layout.global Lr) (q :: r)]
      rw [e2] at hd
      have hmap : (cs.map (· * (Layout.global Lr).prod)).getD j 0 = cs.getD j 0 * (Layout.global Lr).prod ∧
          ((cs.map (· * (Layout.global Lr).prod)).take j).sum = (cs.take j).sum * (Layout.global Lr).prod := by
        refine ⟨?_, ?_⟩
        · rw [List.getD_eq_getElem?_getD, List.getD_eq_getElem?_getD, List.getElem?_map]
          cases cs[j]? <;> simp
        · rw [← List.map_take, List.sum_map_mul_right]
          simp
      have hlt : flatC ((cs.getD j 0) :: Layout.global Lr) (q :: r) < cs.getD j 0 * (Layout.global Lr).prod :=
        flatC_lt (shape := (cs.getD j 0) :: Layout.global Lr) (idx := q :: r) ⟨hq, hr⟩
      have := hd ⟨hp, by show _ < (cs.map (· * (Layout.global Lr).prod)).getD j 0; rw [hmap.1]; exact hlt, trivial⟩
      show (G v).t.val [p, flatC (S v).t.shape.tail (q :: r)] = _
      rw [hsh]
      show (G v).t.val [p, flatC ((cs.getD j 0) :: Layout.global Lr) (q :: r)] = _
      rw [this]
      show Y [_ + p, ((cs.map (· * (Layout.global Lr).prod)).take j).sum + _] =
        Y [_ + p, flatC ((cs.sum) :: Layout.global Lr) (((cs.take j).sum + q) :: shiftBy (Layout.startAt Lr zs) r)]
      have hlr : r.length = (Layout.global Lr).length := hr.length_eq
      rw [g2, shiftBy_zero _ _ hlr, hmap.2, flatC_shift _ _ _ _ _ (cs.getD j 0)]

end

/-! ## Linear layers -/

section
variable [CommSemiring F]

/-- PyTorch's gradients of the local layer: of its input, its weight (parameter 0) and its bias (parameter 1). -/
def linGrad (A : LinearLayer F) (w : Nat) (K x : NSt F) : NSt F := { x with
  t := torchLinearGradInput (A.localOut w) (A.weight w) K.t x.t
  par := fun
    | 0 => (⟨[A.localOut w, A.localIn w], K.t.dtype, torchLinearGradWeight K.t x.t⟩, false)
    | 1 => (⟨[A.localOut w], K.t.dtype, torchLinearGradBias x.t⟩, false)
    | i => x.par i }

/-- Backward of `nn/linear.py:85-108`: the adjoints in reverse order. -/
def linBack (c cy : Nat) (A : LinearLayer F) : CProg (List (NSt F)) (NSt F) (NMsg F) :=
  stackBackProg c cy A.xBroadcast A.ySumReduce (linGrad A)

/-- The forward pass, cut. -/
def linCuts (c cy : Nat) (A : LinearLayer F) (rgp : Bool) : List (Prog (NSt F) (NMsg F)) :=
  stackCuts c cy A.xBroadcast A.ySumReduce fun w x => (A.sublinear w x.t).map fun y => (y, x.rg || rgp)

theorem linCuts_flatten (c cy : Nat) (A : LinearLayer F) (rgp : Bool) : (linCuts c cy A rgp).flatten = linProg c cy A rgp := by
  unfold linCuts stackCuts linProg stackProg
  rw [opPhase_eq]
  simp

variable {W : List Nat} {A : LinearLayer F} {Po Pi b : Nat} {t : TorchDtype}
  {X Y weight bias : List Nat → F} {S G : Nat → NSt F} {T : Nat → List (NSt F)}

/-- The gradient of the input: `Y W`. -/
def denseAdj (m : Nat) (weight Y : List Nat → F) : List Nat → F := fun i =>
  ∑ o ∈ Finset.range m, Y (i.dropLast ++ [o]) * weight [o, i.getLastD 0]

/-- The gradient of the weight: `Yᵀ X`. -/
def denseGradW (b : Nat) (X Y : List Nat → F) : List Nat → F := fun i =>
  ∑ a ∈ Finset.range b, Y [a, i.getD 0 0] * X [a, i.getD 1 0]

/-- The gradient of the bias. -/
def denseGradB (b : Nat) (Y : List Nat → F) : List Nat → F := fun i => ∑ a ∈ Finset.range b, Y [a, i.getD 0 0]

omit [CommSemiring F] in
theorem blocks_of_holds {P : Cart} {parts n : Nat} (hP : ∀ u ∈ P.members, ∃ j, P.coord u = [0, j] ∧ j < parts)
    {S : Nat → NSt F}
    (hs : ∀ u ∈ P.members, (S u).t.shape = (Layout.balanced [1, parts] [b, n]).shapeAt (P.coord u) ∧ (S u).t.dtype = t)
    (hd : ∀ v ∈ P.members, ∀ l, InBounds l ((Layout.balanced [1, parts] [b, n]).shapeAt (P.coord v)) →
      (S v).t.val l = X (shiftBy ((Layout.balanced [1, parts] [b, n]).startAt (P.coord v)) l)) :
    BlocksOf P parts n [b] t X fun w => (S w).t := by
  refine ⟨fun u hu => ?_, fun u hu => (hs u hu).2, fun u hu bb hbb i hi => ?_⟩
  · obtain ⟨j, ej, hj⟩ := hP u hu
    have := (hs u hu).1
    rw [ej, (balanced_two parts j b n hj).1] at this
    rw [ej]
    exact this
  · obtain ⟨j, ej, hj⟩ := hP u hu
    match bb, hbb with
    | [bb], hbb =>
      have := hd u hu [bb, i]
      rw [ej] at hi this ⊢
      rw [(balanced_two parts j b n hj).1, (balanced_two parts j b n hj).2] at this
      have := this ⟨hbb.1, hi, trivial⟩
      simpa [shiftBy] using this

theorem linBack_run (c cy : Nat) (rgp : Bool) (hv : LinearValid A Po Pi) (hp : ParamBlocks A Po Pi weight bias)
    (hx : ∀ w ∈ A.Px.members, w ∈ W) (hw : ∀ w ∈ A.Pw.members, w ∈ W) (hy : ∀ w ∈ A.Py.members, w ∈ W)
    (h : Holds W A.Px (Layout.balanced [1, Pi] [b, A.inFeatures]) t X S)
    (hG : HoldsG W A.Py (Layout.balanced [1, Po] [b, A.outFeatures]) t Y G)
    (hT : ∀ w ∈ W, ∃ rest, T w = snaps (linCuts c cy A rgp) S w ++ rest) :
    ProgOK W ((linBack c cy A).at T) G ∧
    HoldsG W A.Px (Layout.balanced [1, Pi] [b, A.inFeatures]) t (denseAdj A.outFeatures weight Y)
      (run ((linBack c cy A).at T) G) ∧
    ∀ v ∈ A.Pw.members,
      ((run ((linBack c cy A).at T) G v).par 0).1.shape = (Layout.balanced [Po, Pi] [A.outFeatures, A.inFeatures]).shapeAt (A.Pw.coord v) ∧
      (∀ l, InBounds l ((Layout.balanced [Po, Pi] [A.outFeatures, A.inFeatures]).shapeAt (A.Pw.coord v)) →
        ((run ((linBack c cy A).at T) G v).par 0).1.val l =
          denseGradW b X Y (shiftBy ((Layout.balanced [Po, Pi] [A.outFeatures, A.inFeatures]).startAt (A.Pw.coord v)) l)) ∧
      ((run ((linBack c cy A).at T) G v).par 1).1.shape = [subsize Po ((A.Pw.coord v).getD 0 0) A.outFeatures] ∧
      (∀ k < subsize Po ((A.Pw.coord v).getD 0 0) A.outFeatures, ((run ((linBack c cy A).at T) G v).par 1).1.val [k] =
        denseGradB b Y [startIdx Po ((A.Pw.coord v).getD 0 0) A.outFeatures + k]) := by
  obtain ⟨rg, hrg⟩ := h.parts
  have hbx : BlocksOf A.Px Pi A.inFeatures [b] t X (inputsOf S).x := blocks_of_holds (fun u hu => hv.coordX hu)
    (fun u hu => ⟨congrArg Prod.fst (hrg u hu), congrArg (·.2.1) (hrg u hu)⟩) h.data
  have hby : BlocksOf A.Py Po A.outFeatures [b] t Y fun w => (G w).t :=
    blocks_of_holds (fun u hu => hv.coordY hu) hG.parts hG.data
  have act : ∀ u, A.Active u → u ∈ W := fun u hu => hu.elim (hx u) fun hh => hh.elim (hw u) (hy u)
  have hs : ∀ u, A.Active u → ((inputsOf S).x u).shape ≠ [] := fun u hu => h.batch u (act u hu)
  have hs' : ∀ u, A.Active u → (G u).t.shape ≠ [] := fun u hu => hG.batch u (act u hu)
  have st := linear_stack hv hbx hs
  have gr := linear_grads (I := inputsOf S) hv hby hs'
  obtain ⟨o, e1, e2, e3, e4, e5, -⟩ := stackBack_run (T := T) c cy rgp st (opS := fun w x => (A.sublinear w x.t).map fun y => (y, x.rg || rgp))
    (fun _ _ _ _ => rfl) hx hw hy gr (opG := linGrad A) (fun _ _ _ _ _ => ⟨rfl, rfl⟩) hT
  have hback : ∀ r ∈ A.Px.members, linearBackward A (inputsOf S) (fun _ => false) (fun w => (G w).t) r =
      some (run ((linBack c cy A).at T) G r).t := by
    intro r hr
    obtain ⟨b1, -⟩ := st.backward (rg := fun _ => false) gr (fun v => (G (A.ySumReduce.rroot v)).t)
      (fun v hv' u hu hc => by rw [(hv.reduce.rel hu hv').1 hc])
    rw [linearBackward, b1 r hr]
    exact congrArg some (e2 r hr).symm
  obtain ⟨dx, hdx, hbl⟩ := (C42_backward (rg := fun _ => false) hv hp hbx hs hby hs').1
  have hdx' : ∀ r ∈ A.Px.members, dx r = (run ((linBack c cy A).at T) G r).t := fun r hr =>
    Option.some.inj ((hdx r hr).symm.trans (hback r hr))
  refine ⟨o, ⟨fun w hw => (e1 w hw).trans (hG.calm w hw), fun w hww => ?_, fun u hu => ?_, fun u hu l hl => ?_⟩, fun v hv' => ?_⟩
  · by_cases hm : w ∈ A.Px.members
    · rw [← hdx' w hm, hbl.shape w hm]
      simp
    · by_cases hm' : w ∈ A.Py.members ∨ w ∈ A.Pw.members
      · exact shape_ne_nil_of_prod (e3 w hww hm' hm)
      · rw [not_or] at hm'
        have := e4 w hww hm hm'.2 hm'.1
        unfold linBack
        rw [this]
        exact hG.batch w hww
  · obtain ⟨j, ej, hj⟩ := hv.coordX hu
    rw [← hdx' u hu, hbl.shape u hu, hbl.dtype u hu, ej, (balanced_two Pi j b A.inFeatures hj).1]
    exact ⟨rfl, rfl⟩
  · obtain ⟨j, ej, hj⟩ := hv.coordX hu
    have hd := hbl.val u hu
    rw [ej] at hl hd ⊢
    rw [(balanced_two Pi j b A.inFeatures hj).1] at hl
    rw [(balanced_two Pi j b A.inFeatures hj).2]
    match l, hl with
    | [bb, i], hl =>
      have := hd [bb] ⟨hl.1, trivial⟩ i hl.2.1
      rw [hdx' u hu] at this
      rw [show [bb, i] = [bb] ++ [i] from rfl, this]
      simp [shiftBy, denseAdj]
  · obtain ⟨K, x, k1, -, k3, -, k5⟩ := e5 v hv'
    have hr : A.xBroadcast.broot v ∈ A.Px.members := hv.bcast.root_mem hv'
    have hf := (hv.feeds hr hv').1 ((hv.bcast.rel hr hv').2 rfl)
    have hu : A.ySumReduce.rroot v ∈ A.Py.members := hv.reduce.root_mem hv'
    have hc := (hv.collects hu hv').1 ((hv.reduce.rel hu hv').2 rfl)
    obtain ⟨p, j, ev, hpo, hj⟩ := hv.coordW hv'
    have hin : InBounds [p, j] [Po, Pi] := ⟨hpo, hj, trivial⟩
    have hl2 : [Po, Pi].length = [A.outFeatures, A.inFeatures].length := rfl
    rw [ev] at hf hc
    simp only [List.getD_cons_succ, List.getD_cons_zero] at hf hc
    have kx : K.t.shape = [b, subsize Pi j A.inFeatures] := by
      rw [k1]
      have := hbx.shape _ hr
      rw [hf] at this
      exact this
    have xs : x.t.shape = [b, subsize Po p A.outFeatures] := by
      rw [k3]
      have := hby.shape _ hu
      rw [← hc] at this
      exact this
    have lo := hv.localOut hv'
    have li := hv.localIn hv'
    rw [ev] at lo li
    simp only [List.getD_cons_succ, List.getD_cons_zero] at lo li
    unfold linBack
    rw [k5, ev, Layout.balanced_shapeAt hl2 hin, (Layout.balanced_startAt hl2 hin).1]
    refine ⟨?_, fun l hl => ?_, ?_, fun k hk => ?_⟩
    · show [A.localOut v, A.localIn v] = _
      rw [lo, li]
      rfl
    · match l, hl with
      | [k, i], hl =>
        show boxSum K.t.shape.dropLast (fun bb => x.t.val (bb ++ [k]) * K.t.val (bb ++ [i])) = _
        have hk : k < subsize Po p A.outFeatures := hl.1
        have hi : i < subsize Pi j A.inFeatures := hl.2.1
        rw [kx]
        show (∑ a ∈ Finset.range b, x.t.val [a, k] * K.t.val [a, i]) = ∑ a ∈ Finset.range b,
          Y [a, startIdx Po p A.outFeatures + k] * X [a, startIdx Pi j A.inFeatures + i]
        refine Finset.sum_congr rfl fun a ha => ?_
        have ha := Finset.mem_range.1 ha
        have q1 := hby.val _ hu [a] ⟨ha, trivial⟩ k (by rw [← hc]; exact hk)
        have q2 := hbx.val _ hr [a] ⟨ha, trivial⟩ i (by rw [hf]; exact hi)
        rw [← hc] at q1
        rw [hf] at q2
        rw [k1, k3]
        exact congrArg₂ (· * ·) q1 q2
    · show [A.localOut v] = _
      rw [lo]
      rfl
    · show boxSum x.t.shape.dropLast (fun bb => x.t.val (bb ++ [k])) = _
      rw [xs]
      show (∑ a ∈ Finset.range b, x.t.val [a, k]) = ∑ a ∈ Finset.range b, Y [a, startIdx Po p A.outFeatures + k]
      refine Finset.sum_congr rfl fun a ha => ?_
      have ha := Finset.mem_range.1 ha
      have q1 := hby.val _ hu [a] ⟨ha, trivial⟩ k (by rw [← hc]; exact hk)
      rw [← hc] at q1
      rw [k3]
      exact q1

end

end Verif.Net
