import Verif.Mode.Props
import Verif.Conv.Examples

/-!
# C92: padding modes of the channel-distributed convolution
-/

namespace Verif

/-! ## Lemmas -/

/-- Along an axis where the position is inside all modes read this position. -/
theorem extendMode_point {α : Type} (m : PadMode) (v : α) {n : Nat} (S : List Nat) (x : List Nat → α) {i : Nat}
    (pos : List Int) (hi : i < n) :
    extendMode m v (n :: S) x ((i : Int) :: pos) = extendMode m v S (fun l => x (i :: l)) pos := by
  have hc : m ≠ .zeros → (modeCell m n i).toNat = i := by
    intro hm
    cases m with
    | zeros => exact absurd rfl hm
    | reflect => unfold modeCell; dsimp only; rw [if_neg (by omega), if_neg (by omega)]; omega
    | replicate => unfold modeCell; dsimp only; omega
    | circular => unfold modeCell; dsimp only; rw [Int.emod_eq_of_lt (by omega) (by omega)]; omega
  have key : ∀ m, (modeCell m n i).toNat = i →
      x ((List.range ((i : Int) :: pos).length).map fun j =>
        (modeCell m ((n :: S).getD j 0) (((i : Int) :: pos).getD j 0)).toNat) =
      x (i :: (List.range pos.length).map fun j => (modeCell m (S.getD j 0) (pos.getD j 0)).toNat) := by
    intro m e
    rw [List.length_cons, List.range_succ_eq_map, List.map_cons, List.map_map]
    simp only [List.getD_cons_zero, e]
    rfl
  cases m with
  | zeros =>
    unfold extendMode extend
    dsimp only
    by_cases h : InBoundsI pos S
    · rw [if_pos h, if_pos ⟨⟨by omega, by omega⟩, h⟩]
      simp
    · rw [if_neg h, if_neg fun hh => h hh.2]
  | reflect => exact key _ (hc (by simp))
  | replicate => exact key _ (hc (by simp))
  | circular => exact key _ (hc (by simp))

theorem modeCell_range {m : PadMode} (hm : m ≠ .zeros) {n p : Nat} {i : Int} (hn : 0 < n) (hp : padFits m n p = true)
    (h0 : -(p : Int) ≤ i) (h1 : i < n + p) : 0 ≤ modeCell m n i ∧ modeCell m n i < n := by
  cases m with
  | zeros => exact absurd rfl hm
  | reflect =>
    simp only [padFits, decide_eq_true_eq] at hp
    unfold modeCell
    dsimp only
    split
    · omega
    · split <;> omega
  | replicate => unfold modeCell; dsimp only; omega
  | circular =>
    unfold modeCell
    exact ⟨Int.emod_nonneg _ (by omega), Int.emod_lt_of_pos _ (by omega)⟩

/-- What is read depends on the cells of the tensor only. -/
theorem extendMode_congr {α : Type} (m : PadMode) {v : α} {S : List Nat} {x y : List Nat → α} {pos : List Int}
    (hl : pos.length = S.length)
    (hc : m ≠ .zeros → ∀ j, j < S.length → 0 ≤ modeCell m (S.getD j 0) (pos.getD j 0) ∧
      modeCell m (S.getD j 0) (pos.getD j 0) < S.getD j 0)
    (h : ∀ l, InBounds l S → x l = y l) : extendMode m v S x pos = extendMode m v S y pos := by
  have key : m ≠ .zeros →
      x ((List.range pos.length).map fun j => (modeCell m (S.getD j 0) (pos.getD j 0)).toNat) =
      y ((List.range pos.length).map fun j => (modeCell m (S.getD j 0) (pos.getD j 0)).toNat) := by
    intro hm
    apply h
    rw [inBounds_iff]
    refine ⟨by simp [hl], fun j hj => ?_⟩
    rw [getD_map_range _ _ (by omega)]
    have := hc hm j hj
    omega
  cases m with
  | zeros =>
    unfold extendMode extend
    dsimp only
    split
    · rename_i hb
      apply h
      obtain ⟨h1, h2⟩ := inBoundsI_iff.1 hb
      rw [inBounds_iff, List.length_map]
      refine ⟨h1, fun j hj => ?_⟩
      have := h2 j hj
      rw [List.getD_eq_getElem _ _ (by rw [List.length_map, h1]; exact hj), List.getElem_map]
      rw [List.getD_eq_getElem _ _ (by rw [h1]; exact hj)] at this
      omega
    · rfl
  | reflect => exact key (by simp)
  | replicate => exact key (by simp)
  | circular => exact key (by simp)

/-- Extents with padding. -/
def padExt (p n : List Nat) : List Nat := (List.range n.length).map fun j => n.getD j 0 + 2 * p.getD j 0

/-- A tensor padded in mode `m` along its features. -/
def padCells {R : Type} [Zero R] (m : PadMode) (p shape : List Nat) (x : List Nat → R) : List Nat → R
  | a :: c :: l => extendMode m 0 shape x
      ((a : Int) :: (c : Int) :: (List.range l.length).map fun j => (l.getD j 0 : Int) - p.getD j 0)
  | _ => 0

theorem length_padExt (p n : List Nat) : (padExt p n).length = n.length := by simp [padExt]

theorem torchOut_padExt (W : WinParams) (n : List Nat) : torchOut W.noPad (padExt W.p n) = torchOut W n := by
  unfold torchOut
  rw [length_padExt]
  refine List.map_congr_left fun j hj => ?_
  have hj := List.mem_range.1 hj
  rw [padExt, getD_map_range _ _ hj, show W.noPad.p.getD j 0 = 0 from zeros_getD W.p j]
  show torchOut1 _ (W.k.getD j 0) (W.s.getD j 0) 0 (W.d.getD j 0) = _
  unfold torchOut1
  push_cast
  congr 4

/-- A convolution in mode `m` is one without padding on the padded tensor. -/
theorem torchConvMode_padded {R : Type} [AddCommMonoid R] [Mul R] (m : PadMode) {W : WinParams} {a Ci Co : Nat}
    {n : List Nat} (hn : n.length = W.k.length) (hs : ∀ j, j < n.length → 0 < W.s.getD j 0) (wt : List Nat → R)
    (b : Nat → R) (X : List Nat → R) {o : List Nat} (ho : InBounds o (torchConvShape W Co (a :: Ci :: n))) :
    torchConvMode m W 1 Ci Co wt b (a :: Ci :: n) X o =
      torchConv W.noPad 1 Ci Co wt b (a :: Ci :: padExt W.p n) (padCells m W.p (a :: Ci :: n) X) o := by
  match o, ho with
  | i :: co :: os, ⟨h0, h1, h2⟩ =>
    obtain ⟨hol, h2'⟩ := inBounds_iff.1 h2
    rw [length_torchOut] at hol h2'
    unfold torchConvMode torchConv
    refine congrArg (b co + ·) (Finset.sum_congr rfl fun c hc => ?_)
    apply boxSum_congr
    intro κ hκ
    refine congrArg (wt _ * ·) ?_
    have hκl : κ.length = n.length := by rw [hκ.length_eq, hn]
    have hc := Finset.mem_range.1 hc
    have hcc : co / (Co / 1) * (Ci / 1) + c = c := by
      rw [Nat.div_one, Nat.div_eq_of_lt h1, Nat.zero_mul, Nat.zero_add]
    rw [Nat.div_one] at hc
    rw [hcc]
    show _ = winRead 0 (a :: Ci :: padExt W.p n) (1 :: 1 :: W.s) (1 :: 1 :: W.d) (0 :: 0 :: W.noPad.p) _ (i :: c :: os) _
    rw [winRead_point _ _ _ _ _ _ _ _ h0, winRead_point _ _ _ _ _ _ _ _ hc, winRead, extend, if_pos]
    · rw [winPos_point, winPos_point]
      simp only [padCells]
      congr 3
      unfold winPos
      simp only [List.length_map, List.length_range]
      refine List.map_congr_left fun j hj => ?_
      have hj := List.mem_range.1 hj
      rw [List.map_map, getD_map_range _ _ hj, Function.comp_apply, show W.noPad.p.getD j 0 = 0 from zeros_getD W.p j]
      have : (0 : Int) ≤ (W.s.getD j 0 : Int) * os.getD j 0 + (W.d.getD j 0 : Int) * κ.getD j 0 := by positivity
      change _ = (((W.s.getD j 0 : Int) * os.getD j 0 + (W.d.getD j 0 : Int) * κ.getD j 0 - ((0 : Nat) : Int)).toNat : Int) - _
      rw [Nat.cast_zero, sub_zero, Int.toNat_of_nonneg this]
    · rw [inBoundsI_iff]
      refine ⟨by simp [winPos, hol, length_padExt], fun j hj => ?_⟩
      rw [length_padExt] at hj
      have e := h2' j hj
      rw [← torchOut_padExt, torchOut, getD_map_range _ _ (by rw [length_padExt]; exact hj),
        show W.noPad.p.getD j 0 = 0 from zeros_getD W.p j] at e
      have := window_end (κ := κ.getD j 0) (inBounds_getD hκ (by show j < W.k.length; omega)) (hs j hj) e
      rw [winPos, getD_map_range _ _ (by omega), show W.noPad.p.getD j 0 = 0 from zeros_getD W.p j]
      have hz : (0 : Int) ≤ (W.s.getD j 0 : Int) * os.getD j 0 + (W.d.getD j 0 : Int) * κ.getD j 0 := by positivity
      have ht : ((W.s.getD j 0 * os.getD j 0 + W.d.getD j 0 * κ.getD j 0 : Nat) : Int) < ((padExt W.p n).getD j 0 : Nat) := by
        exact_mod_cast this
      push_cast at ht ⊢
      constructor
      · linarith
      · linarith

/-! ## The layer -/

section
variable {R : Type} [NonUnitalNonAssocSemiring R] {C : ChanConv} {Po Pi : Nat} {Sp : List Nat} {B : Nat} {N : List Nat}
  {dt : TorchDtype} {X : List Nat → R} {I : Inputs R} {wt b : Nat → List Nat → R} {Wt β : List Nat → R}
  {rg : Nat → Bool}

/-- The layer without padding. -/
def ChanConv.bare (C : ChanConv) : ChanConv := { C with W := C.W.noPad }

/-- The tensors of the workers, padded in mode `m`. -/
def padInputs (m : PadMode) (C : ChanConv) (I : Inputs R) : Inputs R :=
  ⟨fun r => match (I.x r).shape with
    | a :: c :: n => ⟨a :: c :: padExt C.W.p n, (I.x r).dtype, padCells m C.W.p (a :: c :: n) (I.x r).val⟩
    | _ => I.x r, I.rg⟩

theorem padInputs_x {m : PadMode} {r a c : Nat} {n : List Nat} (e : (I.x r).shape = a :: c :: n) :
    (padInputs m C I).x r =
      ⟨a :: c :: padExt C.W.p n, (I.x r).dtype, padCells m C.W.p (a :: c :: n) (I.x r).val⟩ := by
  unfold padInputs
  dsimp only
  rw [e]

theorem bare_valid (h : ChanValid C Po Pi Sp) : ChanValid C.bare Po Pi Sp :=
  ⟨h.wfx, h.wfy, h.wfw, h.shx, h.shy, h.shw, h.root, h.channels⟩

omit [NonUnitalNonAssocSemiring R] in
theorem bare_params (hp : ChanParams C Po Pi wt b Wt β) : ChanParams C.bare Po Pi wt b Wt β := ⟨hp.weight, hp.bias⟩

omit [NonUnitalNonAssocSemiring R] in
/-- The blocks of a worker of `P_x`. -/
theorem channel_block (h : ChanValid C Po Pi Sp) (h1 : ∀ n ∈ Sp, n = 1) (hSp : Sp.length = N.length)
    (hx : EvenBlocks C.Px (B :: C.Ci :: N) dt X I.x) {r : Nat} (hr : r ∈ C.Px.members) :
    ∃ j s, C.Px.coord r = 0 :: j :: s ∧ j < Pi ∧ InBounds s Sp ∧
      (I.x r).shape = B :: subsize Pi j C.Ci :: N ∧
      ∀ a c l, a < B → c < subsize Pi j C.Ci → InBounds l N →
        (I.x r).val (a :: c :: l) = X (a :: (startIdx Pi j C.Ci + c) :: l) := by
  obtain ⟨j, s, e, hj, hs⟩ := h.coordX hr
  refine ⟨j, s, e, hj, hs, ?_, fun a c l ha hc hl => ?_⟩
  · rw [hx.shape r hr, e, h.shx, balanced_cons_shapeAt Nat.one_pos, balanced_cons_shapeAt hj,
      (ones_block h1 hSp hs).1, subsize_one]
  · have hv := hx.val r hr (a :: c :: l)
    rw [e, h.shx, balanced_cons_shapeAt Nat.one_pos, balanced_cons_shapeAt hj, balanced_cons_startAt Nat.one_pos,
      balanced_cons_startAt hj, (ones_block h1 hSp hs).1, subsize_one] at hv
    rw [hv ⟨ha, hc, hl⟩]
    show X ((startIdx 1 0 B + a) :: _ :: shiftBy _ l) = _
    rw [(ones_block h1 hSp hs).2 l hl.length_eq, startIdx_zero, Nat.zero_add]

/-- The padded tensors are the blocks of the padded global tensor. -/
theorem padInputs_blocks (m : PadMode) (h : ChanValid C Po Pi Sp) (h1 : ∀ n ∈ Sp, n = 1) (hSp : Sp.length = N.length)
    (hfits : m ≠ .zeros → ∀ j, j < N.length → 0 < N.getD j 0 ∧ padFits m (N.getD j 0) (C.W.p.getD j 0) = true)
    (hx : EvenBlocks C.Px (B :: C.Ci :: N) dt X I.x) :
    EvenBlocks C.bare.Px (B :: C.Ci :: padExt C.W.p N) dt (padCells m C.W.p (B :: C.Ci :: N) X) (padInputs m C I).x := by
  have hSp' : Sp.length = (padExt C.W.p N).length := by rw [length_padExt, hSp]
  refine ⟨fun r hr => ?_, fun r hr => ?_, fun r hr l hl => ?_⟩
  · obtain ⟨j, s, e, hj, hs, sh, -⟩ := channel_block h h1 hSp hx hr
    rw [padInputs_x sh]
    show _ = (Layout.balanced C.Px.shape _).shapeAt (C.Px.coord r)
    rw [e, h.shx, balanced_cons_shapeAt Nat.one_pos, balanced_cons_shapeAt hj, (ones_block h1 hSp' hs).1, subsize_one]
  · obtain ⟨j, s, e, hj, hs, sh, -⟩ := channel_block h h1 hSp hx hr
    rw [padInputs_x sh]
    exact hx.dtype r hr
  · obtain ⟨j, s, e, hj, hs, sh, hv⟩ := channel_block h h1 hSp hx hr
    rw [padInputs_x sh]
    change InBounds l ((Layout.balanced C.Px.shape _).shapeAt (C.Px.coord r)) at hl
    show _ = padCells m C.W.p (B :: C.Ci :: N) X (shiftBy ((Layout.balanced C.Px.shape _).startAt (C.Px.coord r)) l)
    rw [e, h.shx, balanced_cons_shapeAt Nat.one_pos, balanced_cons_shapeAt hj, (ones_block h1 hSp' hs).1,
      subsize_one] at hl
    rw [e, h.shx, balanced_cons_startAt Nat.one_pos, balanced_cons_startAt hj]
    obtain ⟨a, c, p, rfl, ha, hc, hp⟩ := inBounds_cons2 hl
    show _ = padCells m C.W.p (B :: C.Ci :: N) X ((startIdx 1 0 B + a) :: (startIdx Pi j C.Ci + c) :: shiftBy _ p)
    rw [(ones_block h1 hSp' hs).2 p hp.length_eq, startIdx_zero, Nat.zero_add]
    obtain ⟨hpl, hp'⟩ := inBounds_iff.1 hp
    rw [length_padExt] at hpl hp'
    simp only [padCells]
    rw [extendMode_point _ _ _ _ _ ha, extendMode_point _ _ _ _ _ hc, extendMode_point _ _ _ _ _ ha,
      extendMode_point _ _ _ _ _ (startIdx_add_lt hj hc)]
    refine extendMode_congr m (by simp [hpl]) (fun hm i hi => ?_) fun l hl => hv a c l ha hc hl
    rw [getD_map_range _ _ (by omega)]
    obtain ⟨f1, f2⟩ := hfits hm i hi
    have := hp' i hi
    rw [padExt, getD_map_range _ _ hi] at this
    exact modeCell_range hm f1 f2 (by omega) (by omega)

/-- The local result of worker `v` of `P_w` in mode `m`. -/
def modeMid (m : PadMode) (C : ChanConv) (Po Pi : Nat) (dt : TorchDtype) (I : Inputs R) (wt b : Nat → List Nat → R)
    (v : Nat) : Tensor R :=
  let x := I.x ((chanBroadcast C.Px C.Pw).broot v)
  let ci := subsize Pi ((C.Pw.coord v).getD 1 0) C.Ci
  let co := subsize Po ((C.Pw.coord v).getD 0 0) C.Co
  ⟨torchConvShape C.W co x.shape, dt,
    torchConvMode m C.W 1 ci co (wt v) (fun c => if C.addsBias v then b v [c] else 0) x.shape x.val⟩

/-- Its entries are those of the layer without padding on the padded tensors. -/
theorem modeMid_eq (m : PadMode) (h : ChanValid C Po Pi Sp) (h1 : ∀ n ∈ Sp, n = 1) (hSp : Sp.length = N.length)
    (hk : N.length = C.W.k.length) (hst : ∀ j, j < N.length → 0 < C.W.s.getD j 0)
    (hx : EvenBlocks C.Px (B :: C.Ci :: N) dt X I.x) {v : Nat} (hv : v ∈ C.Pw.members) :
    (modeMid m C Po Pi dt I wt b v).shape = (chanMid C.bare Po Pi C.W.noPad dt (padInputs m C I) wt b v).shape ∧
    (∃ o j s, C.Pw.coord v = o :: j :: s ∧ (modeMid m C Po Pi dt I wt b v).shape =
      B :: subsize Po o C.Co :: torchOut C.W N) ∧
    ∀ l, InBounds l (modeMid m C Po Pi dt I wt b v).shape →
      (modeMid m C Po Pi dt I wt b v).val l = (chanMid C.bare Po Pi C.W.noPad dt (padInputs m C I) wt b v).val l := by
  obtain ⟨o, j, s, ev, ho, hj, hs⟩ := h.coordW hv
  obtain ⟨hr, er⟩ := broot_coord h hv ev
  obtain ⟨j', s', e', hj', hs', sh, -⟩ := channel_block h h1 hSp hx hr
  rw [er] at e'
  obtain ⟨rfl, rfl⟩ : j = j' ∧ s = s' := by simpa using e'
  have ep := padInputs_x (m := m) (C := C) sh
  have es : (modeMid m C Po Pi dt I wt b v).shape = B :: subsize Po o C.Co :: torchOut C.W N := by
    unfold modeMid
    dsimp only
    rw [sh, ev]
    rfl
  refine ⟨?_, ⟨o, j, s, ev, es⟩, fun l hl => ?_⟩
  · rw [es]
    show _ = torchConvShape C.W.noPad (subsize Po ((C.Pw.coord v).getD 0 0) C.Co)
      ((padInputs m C I).x ((chanBroadcast C.Px C.Pw).broot v)).shape
    rw [ep, ev]
    show _ = B :: subsize Po o C.Co :: torchOut C.W.noPad (padExt C.W.p N)
    rw [torchOut_padExt]
  · rw [es] at hl
    show torchConvMode m C.W 1 (subsize Pi ((C.Pw.coord v).getD 1 0) C.Ci) (subsize Po ((C.Pw.coord v).getD 0 0) C.Co) (wt v) _
        (I.x ((chanBroadcast C.Px C.Pw).broot v)).shape (I.x ((chanBroadcast C.Px C.Pw).broot v)).val l =
      torchConv C.W.noPad 1 (subsize Pi ((C.Pw.coord v).getD 1 0) C.Ci) (subsize Po ((C.Pw.coord v).getD 0 0) C.Co) (wt v) _
        ((padInputs m C I).x ((chanBroadcast C.Px C.Pw).broot v)).shape
        ((padInputs m C I).x ((chanBroadcast C.Px C.Pw).broot v)).val l
    rw [ep, sh, ev]
    exact torchConvMode_padded m hk hst _ _ _ hl

/-- PyTorch's layer accepts a tensor that is large enough. -/
theorem layerMode_some (m : PadMode) {W : WinParams} {ci co a : Nat} {N : List Nat} (hci : 0 < ci) (hco : 0 < co)
    (hnd : W.k.length = 1 ∨ W.k.length = 2 ∨ W.k.length = 3) (hk : N.length = W.k.length)
    (hfit : ∀ j, j < W.k.length → W.d.getD j 0 * (W.k.getD j 0 - 1) + 1 ≤ N.getD j 0 + 2 * W.p.getD j 0)
    (hfits : m ≠ .zeros → ∀ j, j < N.length → 0 < N.getD j 0 ∧ padFits m (N.getD j 0) (W.p.getD j 0) = true)
    (weight : List Nat → R) (bias : Nat → R) (x : Tensor R) (sh : x.shape = a :: ci :: N) :
    torchConvLayerMode m W 1 ci co weight bias x =
      some ⟨torchConvShape W co x.shape, x.dtype, torchConvMode m W 1 ci co weight bias x.shape x.val⟩ := by
  unfold torchConvLayerMode
  refine if_pos ⟨hci, hco, Nat.one_pos, Nat.one_dvd _, Nat.one_dvd _, ?_, ?_, fun j hj => ?_, ?_⟩
  · rw [sh]; simp [hk]
  · rw [sh]; rfl
  · rw [sh]; exact hfit j hj
  · by_cases hm : m = .zeros
    · exact Or.inl hm
    · refine Or.inr ⟨?_, fun j hj => ?_⟩
      · rw [sh]
        simp only [List.length_cons, hk]
        rcases hnd with e | e | e <;> rw [e] <;> cases m <;> rfl
      · rw [sh]; exact (hfits hm j (by omega)).2

/-- C92 for the channel layer: the mode goes to the local layers, which hold all cells of their channels.  Where PyTorch
accepts the padding, every mode gives the workers of `P_y` the blocks of the sequential convolution in this mode. -/
theorem C92_channel (m : PadMode) (h : ChanValid C Po Pi Sp) (h1 : ∀ n ∈ Sp, n = 1) (hSp : Sp.length = C.W.k.length)
    (hN : N.length = C.W.k.length) (hnd : C.W.k.length = 1 ∨ C.W.k.length = 2 ∨ C.W.k.length = 3) (hg : C.groups = 1)
    (hst : ∀ j, j < C.W.k.length → 0 < C.W.s.getD j 0)
    (hfit : ∀ j, j < C.W.k.length →
      C.W.d.getD j 0 * (C.W.k.getD j 0 - 1) + 1 ≤ N.getD j 0 + 2 * C.W.p.getD j 0)
    (hfits : m ≠ .zeros → ∀ j, j < C.W.k.length → 0 < N.getD j 0 ∧ padFits m (N.getD j 0) (C.W.p.getD j 0) = true)
    (hx : EvenBlocks C.Px (B :: C.Ci :: N) dt X I.x) (hp : ChanParams C Po Pi wt b Wt β)
    (hs : ∀ u, C.Active u → (I.x u).shape ≠ [])
    (place : C.Pw.members.length = 1 → C.Px.members = C.Pw.members ∧ C.Py.members = C.Pw.members) :
    (∃ out : Nat → Tensor R, (∀ u ∈ C.Py.members, channelForwardMode m C wt b I rg u = some (out u)) ∧
      EvenBlocks C.Py (torchConvShape C.W C.Co (B :: C.Ci :: N)) dt
        (torchConvMode m C.W 1 C.Ci C.Co Wt (fun c => if C.useBias then β [c] else 0) (B :: C.Ci :: N) X) out) ∧
    (∀ w, C.Active w → w ∉ C.Py.members → ∃ z, channelForwardMode m C wt b I rg w = some z ∧ z.shape.prod = 0) ∧
    (∀ w, ¬ C.Active w → channelForwardMode m C wt b I rg w = some (I.x w)) := by
  have hSpN : Sp.length = N.length := hSp.trans hN.symm
  have hfits' : m ≠ .zeros → ∀ j, j < N.length → 0 < N.getD j 0 ∧ padFits m (N.getD j 0) (C.W.p.getD j 0) = true :=
    fun hm j hj => hfits hm j (by omega)
  have hst' : ∀ j, j < N.length → 0 < C.W.s.getD j 0 := fun j hj => hst j (by omega)
  have hb := bare_valid h
  have hxp := padInputs_blocks m h h1 hSpN hfits' hx
  have hfitp : ∀ j, j < C.bare.W.k.length → C.bare.W.d.getD j 0 * (C.bare.W.k.getD j 0 - 1) + 1 ≤
      (padExt C.W.p N).getD j 0 + 2 * C.bare.W.p.getD j 0 := by
    intro j hj
    have hj : j < C.W.k.length := hj
    rw [padExt, getD_map_range _ _ (by omega)]
    have := hfit j hj
    show C.W.d.getD j 0 * (C.W.k.getD j 0 - 1) + 1 ≤ _
    omega
  have hT := channel_windows hb h1 (by exact hSp) (by rw [length_padExt]; exact hN) hfitp hxp
  have hsh : torchConvShape C.bare.W C.bare.Co (B :: C.bare.Ci :: padExt C.W.p N) =
      torchConvShape C.W C.Co (B :: C.Ci :: N) := by
    show B :: C.Co :: torchOut C.W.noPad (padExt C.W.p N) = B :: C.Co :: torchOut C.W N
    rw [torchOut_padExt]
  have hval : ∀ u ∈ C.Py.members, ∀ l,
      InBounds l ((Layout.balanced C.Py.shape (torchConvShape C.W C.Co (B :: C.Ci :: N))).shapeAt (C.Py.coord u)) →
      torchConv C.bare.W 1 C.bare.Ci C.bare.Co Wt (fun c => if C.bare.useBias then β [c] else 0)
        (B :: C.bare.Ci :: padExt C.W.p N) (padCells m C.W.p (B :: C.Ci :: N) X)
        (shiftBy ((Layout.balanced C.Py.shape (torchConvShape C.W C.Co (B :: C.Ci :: N))).startAt (C.Py.coord u)) l) =
      torchConvMode m C.W 1 C.Ci C.Co Wt (fun c => if C.useBias then β [c] else 0) (B :: C.Ci :: N) X
        (shiftBy ((Layout.balanced C.Py.shape (torchConvShape C.W C.Co (B :: C.Ci :: N))).startAt (C.Py.coord u)) l) := by
    intro u hu l hl
    refine (torchConvMode_padded m hN hst' _ _ _ (share_inBounds ?_ h.wfy.pos (coords_inBounds h.wfy hu) hl)).symm
    rw [h.shy]
    show _ = (torchOut C.W N).length + 1 + 1
    rw [length_torchOut]
    simp [hSpN]
  have hact : ∀ w, C.Active w → ¬ (w ∉ C.Px.members ∧ w ∉ C.Py.members ∧ w ∉ C.Pw.members) := by
    rintro w (hw | hw | hw) ⟨a, b, c⟩
    · exact a hw
    · exact c hw
    · exact b hw
  have key : (∀ u ∈ C.Py.members, ∃ t, channelForwardMode m C wt b I rg u = some t ∧
      t.shape = (Layout.balanced C.Py.shape (torchConvShape C.W C.Co (B :: C.Ci :: N))).shapeAt (C.Py.coord u) ∧
      t.dtype = dt ∧
      ∀ l, InBounds l ((Layout.balanced C.Py.shape (torchConvShape C.W C.Co (B :: C.Ci :: N))).shapeAt
          (C.Py.coord u)) →
        t.val l = torchConvMode m C.W 1 C.Ci C.Co Wt (fun c => if C.useBias then β [c] else 0) (B :: C.Ci :: N) X
          (shiftBy ((Layout.balanced C.Py.shape (torchConvShape C.W C.Co (B :: C.Ci :: N))).startAt
            (C.Py.coord u)) l)) ∧
      ∀ w, C.Active w → w ∉ C.Py.members →
        ∃ z, channelForwardMode m C wt b I rg w = some z ∧ z.shape.prod = 0 := by
    have hcast := h.cast true fun _ => h1
    by_cases h1w : C.Pw.members.length = 1
    · obtain ⟨px, py⟩ := place h1w
      obtain ⟨w, hw⟩ := List.length_eq_one_iff.1 h1w
      rw [hw] at px py
      refine ⟨fun u hu => ?_, fun v hv hn => ?_⟩
      · have huw : u = w := by rw [py] at hu; simpa using hu
        subst huw
        obtain ⟨t, e, e1, e2, e3⟩ := channel_serial (wt := wt) (b := b) (Wt := Wt) (β := β) hb (w := u) hw px py hT
          (bare_params hp)
        have hux : u ∈ C.Px.members := by rw [px]; simp
        have hPi : Pi = 1 := by
          have e := h.wfx.size
          rw [px, h.shx] at e
          simp only [List.length_singleton, List.prod_cons, Nat.one_mul] at e
          exact Nat.eq_one_of_mul_eq_one_right e.symm
        obtain ⟨j, s, -, hj, -, sh, -⟩ := channel_block h h1 hSpN hx hux
        subst hPi
        have hj0 : j = 0 := Nat.lt_one_iff.1 hj
        subst hj0
        rw [subsize_one] at sh
        have ep := padInputs_x (m := m) (C := C) sh
        rw [torchConvLayer] at e
        split at e
        · injection e with e
          subst e
          rw [hsh] at e1 e3
          dsimp only at e1 e2 e3
          refine ⟨⟨torchConvShape C.W C.Co (I.x u).shape, (I.x u).dtype, torchConvMode m C.W 1 C.Ci C.Co (wt u)
            (fun c => if C.useBias then b u [c] else 0) (I.x u).shape (I.x u).val⟩, ?_, ?_, hx.dtype u hux, fun l hl => ?_⟩
          · rw [channelForwardMode, if_neg (hact u (Or.inr (Or.inr hu))), hcast]
            simp only
            rw [if_pos h1w, if_pos (by rw [hw]; simp), hg]
            exact layerMode_some m h.channels.1 (h.pos.1.trans_le h.channels.2) hnd hN hfit hfits' _ _ _ sh
          · refine Eq.trans ?_ e1
            show torchConvShape C.W C.Co (I.x u).shape = torchConvShape C.bare.W C.Co ((padInputs m C I).x u).shape
            rw [ep, sh]
            exact hsh.symm
          · refine Eq.trans ?_ ((e3 l hl).trans (hval u hu l hl))
            show torchConvMode m C.W 1 C.Ci C.Co (wt u) (fun c => if C.useBias then b u [c] else 0) (I.x u).shape (I.x u).val l =
              torchConv C.W.noPad 1 C.Ci C.Co (wt u) (fun c => if C.useBias then b u [c] else 0)
                ((padInputs m C I).x u).shape ((padInputs m C I).x u).val l
            rw [ep, sh]
            refine torchConvMode_padded m hN hst' _ _ _ ?_
            have e1' : torchConvShape C.bare.W C.Co ((padInputs m C I).x u).shape = _ := e1
            rw [ep] at e1'
            rw [← hsh]
            exact e1' ▸ hl
        · cases e
      · exfalso
        apply hn
        rw [py]
        rcases hv with hv | hv | hv
        · rwa [px] at hv
        · rwa [hw] at hv
        · rwa [py] at hv
    · have hmid := fun v (hv : v ∈ C.Pw.members) => modeMid_eq (wt := wt) (b := b) m h h1 hSpN hN hst' hx hv
      have st : Stack (chanBroadcast C.Px C.Pw) (chanReduce C.Pw C.yCast) I (channelLocalMode m C wt b)
          (modeMid m C Po Pi dt I wt b) := by
        refine ⟨h.bcast, h.reduce, rfl, hs, fun v hv r hr hf => ?_, fun v hv => ?_, ?_⟩
        · have hv' : v ∈ C.Pw.members := hv
          have hr' : r ∈ C.Px.members := hr
          obtain ⟨o, j, s, ev, ho, hj, -⟩ := h.coordW hv'
          have er : (chanBroadcast C.Px C.Pw).broot v = r := (h.bcast.rel hr hv).1 hf
          have ec : C.Px.coord r = 0 :: j :: s := by
            rw [← er]; exact (broot_coord h hv' ev).2
          obtain ⟨j', s', e', hj', hs', sh, -⟩ := channel_block h h1 hSpN hx hr'
          rw [ec] at e'
          obtain ⟨rfl, rfl⟩ : j = j' ∧ s = s' := by simpa using e'
          obtain ⟨p1, p2, -⟩ := h.pos
          obtain ⟨l0, l1⟩ := h.localChannels hv'
          have hbi : C.storesBias v = C.addsBias v := by
            rw [ChanConv.storesBias, ChanConv.addsBias, Cart.index_eq hv', Option.getD_some]
          rw [channelLocalMode, l0, l1, hg, hbi, modeMid, er, ← hx.dtype r hr']
          exact layerMode_some m (by rw [ev]; exact subsize_pos p2 h.channels.1)
            (by rw [ev]; exact subsize_pos p1 h.channels.2) hnd hN hfit hfits' _ _ _ (by rw [sh, ev]; rfl)
        · obtain ⟨-, ⟨o, j, s, -, e⟩, -⟩ := hmid v hv
          rw [e]
          simp
        · intro u hu v hv w hw a1 a2
          obtain ⟨-, ⟨o, j, s, ev, e⟩, -⟩ := hmid v hv
          obtain ⟨-, ⟨o', j', s', ew, e'⟩, -⟩ := hmid w hw
          have e1 := (h.collects hu hv).1 a1
          have e2 := (h.collects hu hw).1 a2
          rw [ev] at e1
          rw [ew] at e2
          refine ⟨?_, rfl⟩
          have : o = o' := e1.1.trans e2.1.symm
          rw [e, e', this]
      obtain ⟨f1, f2, -⟩ := st.forward (rg := rg)
      have e : ∀ w, C.Active w → channelForwardMode m C wt b I rg w =
          stackForward (chanBroadcast C.Px C.Pw) (chanReduce C.Pw C.yCast) I (channelLocalMode m C wt b) rg w := by
        intro w hw
        rw [channelForwardMode, if_neg (hact w hw), hcast]
        simp only
        rw [if_neg h1w]
      refine ⟨fun u hu => ?_, fun w hw hn => ?_⟩
      · obtain ⟨v, hv, hc, ef⟩ := f1 u hu
        have hblk : ∀ v ∈ C.Pw.members, (chanReduce C.Pw C.yCast).Collects u v →
            (modeMid m C Po Pi dt I wt b v).shape =
              (Layout.balanced C.Py.shape (torchConvShape C.W C.Co (B :: C.Ci :: N))).shapeAt (C.Py.coord u) := by
          intro v hv hc
          obtain ⟨-, ⟨o', j, s', ev, es⟩, -⟩ := hmid v hv
          obtain ⟨o, s, eu, -, ho, hss⟩ := h.coordY hu
          have e1 := ((h.collects hu hv).1 hc).1
          rw [ev, eu] at e1
          change o' = o at e1
          subst e1
          rw [es, eu, h.shy, show torchConvShape C.W C.Co (B :: C.Ci :: N) = B :: C.Co :: torchOut C.W N from rfl,
            balanced_cons_shapeAt Nat.one_pos, balanced_cons_shapeAt ho, subsize_one,
            (ones_block h1 (by rw [length_torchOut, hSpN]) hss).1]
        refine ⟨_, (e u (Or.inr (Or.inr hu))).trans ef, hblk v hv hc, rfl, fun l hl => ?_⟩
        have hsum := chan_sum (wt := wt) (b := b) (Wt := Wt) (β := β) hb (W' := C.W.noPad) ⟨rfl, rfl, rfl⟩ hT
          (bare_params hp) (u := u) hu (l := l) (by rw [hsh]; exact hl)
        rw [hsh] at hsum
        refine Eq.trans ?_ (hsum.trans (hval u hu l hl))
        show ((C.Pw.members.filter _).map _).sum = ((C.Pw.members.filter _).map _).sum
        congr 1
        refine List.map_congr_left fun v' hv' => ?_
        obtain ⟨hm', hc'⟩ := List.mem_filter.1 hv'
        exact (hmid v' hm').2.2 l (by rw [hblk v' hm' (of_decide_eq_true hc')]; exact hl)
      · rw [e w hw]
        exact f2 w (hw.elim Or.inl fun hh => hh.elim Or.inr fun h => absurd h hn) hn
  refine ⟨?_, key.2, fun w hw => ?_⟩
  · have : Nonempty (Tensor R) := ⟨I.x 0⟩
    have k1 := key.1
    choose! out hout using k1
    exact ⟨out, fun u hu => (hout u hu).1, fun u hu => (hout u hu).2.1, fun u hu => (hout u hu).2.2.1,
      fun u hu => (hout u hu).2.2.2⟩
  · rw [channelForwardMode, if_pos]
    exact ⟨fun hh => hw (Or.inl hh), fun hh => hw (Or.inr (Or.inr hh)), fun hh => hw (Or.inr (Or.inl hh))⟩

end

/-- The hypotheses hold for C43's layer, whose windows begin before the first cell, in every mode. -/
example (m : PadMode) : ∃ out : Nat → Tensor Int,
    (∀ u ∈ exCh.Py.members, channelForwardMode m exCh (exChWt exCh) (exChBs exCh) exChI (fun _ => true) u = some (out u)) ∧
    EvenBlocks exCh.Py [2, 3, 5] .float64
      (torchConvMode m exCh.W 1 5 3 exChW (fun c => exChB [c]) [2, 5, 4] exChX) out :=
  (C92_channel (B := 2) (N := [4]) (Wt := exChW) (β := exChB) m exCh_valid (by decide) rfl rfl (by decide) rfl (by decide)
    (by decide) (fun _ => by cases m <;> decide)
    ⟨by decide, fun _ _ => rfl, fun _ _ _ _ => rfl⟩
    ⟨fun _ _ _ _ _ _ _ _ => rfl, fun _ _ _ _ _ => rfl⟩
    (fun u _ => by simp only [exChI]; split; · simp
                   · split <;> simp)
    (by decide)).1

/-- The first window of the second sample: with `circular` its first cell is the last one of the tensor. -/
example : (channelForwardMode .circular exCh (exChWt exCh) (exChBs exCh) exChI (fun _ => true) 6).map
    (fun t => (t.shape, t.val [1, 0, 0])) =
    some ([2, 1, 5], 2000 + (20 * 30 + 21 * 31 + 22 * 32 + 23 * 33 + 24 * 34) + (21 * 0 + 22 * 1 + 23 * 2 + 24 * 3 + 25 * 4)) := by
  rfl

end Verif
