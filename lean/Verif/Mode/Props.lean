import Verif.Mode.Model
import Verif.Memory.Props

/-!
# C92: padding modes
-/

namespace Verif

open Exchange

/-! ## Lemmas -/

theorem length_toTorchPadding (l : List (Nat × Nat)) : (toTorchPadding l).length = 2 * l.length := by
  unfold toTorchPadding
  rw [← List.length_reverse (as := l)]
  generalize l.reverse = l
  induction l with
  | nil => rfl
  | cons a l ih => simp only [List.flatMap_cons, List.length_append, List.length_cons, List.length_nil, ih]; omega

/-- `F.pad` never implements widths for all dimensions, except for the mode `constant`. -/
theorem padImplemented_all (m : PadMode) (D : Nat) : padImplemented m (2 * D) D = true ↔ m = .zeros := by
  cases m <;> simp [padImplemented] <;> omega

/-- Inside of the tensor all modes read the same. -/
theorem extendMode_inside {α : Type} (m : PadMode) (v : α) {shape : List Nat} (x : List Nat → α) {pos : List Int}
    (h : InBoundsI pos shape) : extendMode m v shape x pos = extend v shape x pos := by
  rw [extend, if_pos h]
  obtain ⟨h1, h2⟩ := inBoundsI_iff.1 h
  have key : ∀ m, m ≠ PadMode.zeros →
      (List.range pos.length).map (fun j => (modeCell m (shape.getD j 0) (pos.getD j 0)).toNat) =
        pos.map Int.toNat := by
    intro m hm
    apply eq_of_getD
    · simp
    · intro j hj
      simp only [List.length_map, List.length_range] at hj
      obtain ⟨a, b⟩ := h2 j (h1 ▸ hj)
      have e : (pos.map Int.toNat).getD j 0 = (pos.getD j 0).toNat := by
        rw [List.getD_eq_getElem _ _ (by simpa using hj), List.getElem_map, List.getD_eq_getElem _ _ hj]
      rw [getD_map_range _ _ hj, e]
      congr 1
      cases m with
      | zeros => exact absurd rfl hm
      | reflect => unfold modeCell; dsimp only; rw [if_neg (by omega), if_neg (by omega)]
      | replicate => unfold modeCell; dsimp only; omega
      | circular => unfold modeCell; exact Int.emod_eq_of_lt a b
  cases m with
  | zeros => rw [extendMode, extend, if_pos h]
  | reflect => exact congrArg x (key .reflect (by simp))
  | replicate => exact congrArg x (key .replicate (by simp))
  | circular => exact congrArg x (key .circular (by simp))

/-- A window without padding ends inside. -/
theorem window_end {n k s d o κ : Nat} (hk : κ < k) (hs : 0 < s) (ho : o < torchOut1 n k s 0 d) :
    s * o + d * κ < n := by
  have h0 : d * (k - 1) + 1 ≤ n := torchOut1_fit (by omega) hs (by omega)
  have e : torchOut1 n k s 0 d = (n - (d * (k - 1) + 1)) / s + 1 := by
    unfold torchOut1
    have e : (d : Int) * ((k : Int) - 1) = ((d * (k - 1) : Nat) : Int) := by
      rw [Nat.cast_mul, Nat.cast_sub (by omega)]; rfl
    rw [e]
    have : ((n : Int) + 2 * ((0 : Nat) : Int) - ((d * (k - 1) : Nat) : Int) - 1) =
        ((n - (d * (k - 1) + 1) : Nat) : Int) := by omega
    rw [this]
    norm_cast
  rw [e] at ho
  have h1 : o ≤ (n - (d * (k - 1) + 1)) / s := by omega
  have h2 : s * o ≤ n - (d * (k - 1) + 1) :=
    (Nat.mul_le_mul_left s h1).trans (Nat.mul_div_le _ _)
  have h3 : d * κ ≤ d * (k - 1) := Nat.mul_le_mul_left d (by omega)
  omega

/-- Without padding all modes give the same convolution. -/
theorem torchConvMode_unpadded {F : Type} [AddCommMonoid F] [Mul F] (m : PadMode) {W : WinParams} {gr Ci Co : Nat}
    (hgr : 0 < gr ∧ gr ∣ Ci ∧ gr ∣ Co) {n : List Nat} {nd : Nat} (hn : n.length = nd + 2) (hCi : n.getD 1 0 = Ci)
    (hkl : W.k.length = nd) (hs : ∀ j, j < nd → 0 < W.s.getD j 0) (hp : ∀ j, j < nd → W.p.getD j 0 = 0)
    (wt : List Nat → F) (b : Nat → F) (X : List Nat → F) {o : List Nat} (ho : InBounds o (torchConvShape W Co n)) :
    torchConvMode m W gr Ci Co wt b n X o = torchConv W gr Ci Co wt b n X o := by
  match n, hn, hCi, ho with
  | n0 :: n1 :: ns, hn, hCi, ho =>
    match o, ho with
    | i0 :: co :: os, ⟨h0, h1, h2⟩ =>
      have hnl : ns.length = nd := by simpa using hn
      have hCi' : n1 = Ci := by simpa using hCi
      subst hCi'
      obtain ⟨hol, h2'⟩ := inBounds_iff.1 h2
      rw [length_torchOut, hnl] at hol
      rw [length_torchOut, hnl] at h2'
      have hch : co / (Co / gr) < gr := by
        obtain ⟨g0, -, c, hc⟩ := hgr
        rw [hc, Nat.mul_div_cancel_left _ g0, Nat.div_lt_iff_lt_mul (by
          rcases Nat.eq_zero_or_pos c with h | h
          · rw [h] at hc; omega
          · exact h), ← hc]
        exact h1
      unfold torchConvMode torchConv
      refine congrArg (b co + ·) (Finset.sum_congr rfl fun c hc => ?_)
      apply boxSum_congr
      intro κ hκ
      refine congrArg (wt _ * ·) ?_
      rw [winRead]
      apply extendMode_inside
      have hc := Finset.mem_range.1 hc
      have hcn : co / (Co / gr) * (n1 / gr) + c < n1 := by
        calc co / (Co / gr) * (n1 / gr) + c < (co / (Co / gr) + 1) * (n1 / gr) := by rw [Nat.succ_mul]; omega
          _ ≤ gr * (n1 / gr) := Nat.mul_le_mul_right _ hch
          _ = n1 := Nat.mul_div_cancel' hgr.2.1
      have hκl : κ.length = nd := by rw [hκ.length_eq, hkl]
      rw [inBoundsI_iff]
      refine ⟨by simp [winPos, hol, hnl], fun j hj => ?_⟩
      have hj' : j < (i0 :: (co / (Co / gr) * (n1 / gr) + c) :: os).length := by
        simp only [List.length_cons] at hj ⊢; omega
      rw [winPos, getD_map_range _ _ hj']
      match j, hj with
      | 0, _ =>
        simp only [List.getD_cons_zero]
        omega
      | 1, _ =>
        simp only [List.getD_cons_zero, List.getD_cons_succ]
        omega
      | j + 2, hj =>
        simp only [List.getD_cons_succ]
        have hjn : j < nd := by simp only [List.length_cons] at hj; omega
        have e := h2' j hjn
        rw [torchOut, getD_map_range _ _ (by omega), hp j hjn] at e
        have := window_end (κ := κ.getD j 0) (inBounds_getD hκ (by omega)) (hs j hjn) e
        rw [hp j hjn]
        push_cast
        constructor
        · have hz : (0 : Int) ≤ (W.s.getD j 0 : Int) * os.getD j 0 + (W.d.getD j 0 : Int) * κ.getD j 0 := by positivity
          linarith
        · have : ((W.s.getD j 0 * os.getD j 0 + W.d.getD j 0 * κ.getD j 0 : Nat) : Int) < (ns.getD j 0 : Nat) := by
            exact_mod_cast this
          push_cast at this
          simpa using this

section
variable {F β : Type} [AddCommMonoid F] [Mul F] {P : Cart} {W : WinParams} {L : Layout}
  {localS : Nat → List Nat × TorchDtype × Bool}
  {x : Nat → List Nat → F} {X : List Nat → F} {t : TorchDtype} {rg : Bool} {nd : Nat} {pk ps pp pd : List Nat}
  {dt : NpKey} {junk : Nat → β} {ops : Nat → List (MgrOp β)} {eager : Bool} {k : Nat}
  {U : Nat → WinSetup} {S : Nat → HaloSetup} {g : GState (List Nat → F) (List Nat → F)}

/-- C92, the padding step (`conv_feature.py:380-388`, `conv_general.py:555-565`): it raises on a worker exactly if the
mode is not `zeros` and the worker needs more than its own block. -/
theorem C92_raises_iff {α : Type} {x : Nat → List Nat → α} {X : List Nat → α} (m : PadMode)
    (h : WinInput P W L localS x X t rg) (hl : WinBase P W L) (hk : W.k.length ≤ P.shape.length)
    (hU : ∀ r, r < P.members.length → winSetup P W localS (P.members.getD r 0) = some (U r)) {r : Nat}
    (hr : r < P.members.length) :
    padStep m (U r) (localS (P.members.getD r 0)).1 = true ↔ m = .zeros ∨ WinInside P W L (getCoords P.shape r) := by
  obtain ⟨m1, m2⟩ := member_spec h.wf hr
  have hi : InBounds (getCoords P.shape r) P.shape := (getCoords_spec (by rw [← h.wf.size]; exact hr)).1
  have hsl : (localS (P.members.getD r 0)).1.length = P.shape.length := by
    rw [h.loc _ m1 _ m2]
    show (L.shapeAt _).length = _
    rw [Layout.length_shapeAt (by rw [hi.length_eq, h.length]), h.length]
  rw [← unpadded_iff h hl hk hU hr, padStep, Bool.or_eq_true, beq_iff_eq, hsl, length_toTorchPadding]
  by_cases hD : P.shape.length = 0
  · have ht : (U r).total = [] := by
      obtain ⟨T, hT, hUr, -, -⟩ := setup_facts h (x 0 []) hU
      rw [hUr r hr]
      have : localPadding P.shape (getCoords P.shape r) (globalPadding P.shape.length W.p) = [] := by
        unfold localPadding; rw [hD]; rfl
      simp [WinSetup.total, this]
    simp [ht]
  · obtain ⟨T, hT, hUr, -, -⟩ := setup_facts h (x 0 []) hU
    have htl : (U r).total.length = P.shape.length := by
      rw [hUr r hr]
      exact (total_getD h hT hr (Nat.pos_of_ne_zero hD)).1
    rw [htl, padImplemented_all]
    exact Or.comm

/-- If no worker needs more than its own block, nothing is padded. -/
theorem inside_unpadded (hw : P.WF) (hD : P.shape.length = nd + 2) (hW : winParams nd pk ps pp pd = some W)
    (hin : ∀ r, r < P.members.length → WinInside P W L (getCoords P.shape r)) (hpos : ∀ n ∈ P.shape, 0 < n) {j : Nat}
    (hj : j < nd) : W.p.getD j 0 = 0 := by
  by_contra hne
  have hb : InBounds (P.shape.map fun n => n - 1) P.shape := by
    rw [inBounds_iff]
    refine ⟨by simp, fun i hi => ?_⟩
    have := hpos _ (List.getElem_mem hi)
    rw [List.getD_eq_getElem _ _ (by simpa using hi), List.getElem_map, List.getD_eq_getElem _ _ hi]
    omega
  have hr : flatC P.shape (P.shape.map fun n => n - 1) < P.members.length := by rw [hw.size]; exact flatC_lt hb
  have := (hin _ hr).1 (j + 2) (by omega) (by
    rw [hD, full_eq hW]
    simp only [List.getD_cons_succ]
    omega)
  apply this
  rw [getCoords_flatC hb]
  have hi : j + 2 < P.shape.length := by omega
  have := hpos _ (List.getElem_mem hi)
  rw [List.getD_eq_getElem _ _ (by simpa using hi), List.getElem_map, List.getD_eq_getElem _ _ hi]
  omega

/-- C92: with padding, some worker raises an exception in every mode but `zeros`. -/
theorem C92_padding_raises {m : PadMode} (hm : m ≠ .zeros) (hW : winParams nd pk ps pp pd = some W)
    (hD : P.shape.length = nd + 2) (h : WinInput P W L localS x X t rg) (hl : WinBase P W L) (h1 : 1 < P.members.length)
    (hU : ∀ r, r < P.members.length → winSetup P W localS (P.members.getD r 0) = some (U r)) {j : Nat} (hj : j < nd)
    (hp : 0 < W.p.getD j 0) (gr Ci Co : Nat) (wt : Tensor F) (b : Option (Tensor F)) (rgw : Bool) :
    ∃ r, r < P.members.length ∧ featureForwardMode m P ⟨W, gr, Ci, Co, wt, b⟩ rgw localS x U g r = none := by
  have hpos : ∀ n ∈ P.shape, 0 < n := fun n hn => Nat.pos_of_ne_zero fun h0 => by
    have : P.shape.prod = 0 := List.prod_eq_zero (h0 ▸ hn)
    rw [← h.wf.size] at this
    omega
  have hk : W.k.length ≤ P.shape.length := by rw [(winParams_length hW).1]; omega
  have hne : ¬ ∀ r, r < P.members.length → WinInside P W L (getCoords P.shape r) := fun hin => by
    have := inside_unpadded h.wf hD hW hin hpos hj
    omega
  simp only [not_forall] at hne
  obtain ⟨r, hr, hn⟩ := hne
  refine ⟨r, hr, ?_⟩
  unfold featureForwardMode
  dsimp only
  rw [if_neg (by omega), if_neg]
  rw [C92_raises_iff m h hl hk hU hr]
  exact fun e => e.elim hm hn

/-- C92: on more than one worker, where `zeros` gives every worker its block of the sequential result (C39), another
mode does so exactly if no worker needs more than its own block. -/
theorem C92_right_iff (m : PadMode) (C : ConvLayer F)
    (hW : winParams nd pk ps pp pd = some C.W) (hD : P.shape.length = nd + 2) (hch : P.shape.getD 1 0 = 1)
    (hroot : ∃ ρ, P.root = some ρ) (hgr : 0 < C.groups ∧ C.groups ∣ C.Ci ∧ C.groups ∣ C.Co)
    (hpos : 0 < C.Ci ∧ 0 < C.Co) (h : WinInput P C.W L localS x X t rg) (hCi : L.global.getD 1 0 = C.Ci)
    (hl : WinLimits P C.W L) (h1 : 1 < P.members.length)
    (R : WinRun P C.W 0 localS x dt junk ops eager k U S g)
    (hfin : ∀ r, r < P.members.length → (g.ws r).phase = haloPhases P) (rgw : Bool) :
    let out := Layout.balanced P.shape (torchConvShape C.W C.Co L.global)
    (∀ r, r < P.members.length → ∃ y, featureForwardMode m P C rgw localS x U g r = some y ∧
      y.shape = out.shapeAt (getCoords P.shape r) ∧ y.dtype = t ∧
      ∀ o, InBounds o (out.shapeAt (getCoords P.shape r)) → y.val o =
        torchConvMode m C.W C.groups C.Ci C.Co C.weight.val (biasOf C.bias) L.global X
          (shiftBy (out.startAt (getCoords P.shape r)) o)) ↔
    (m = .zeros ∨ ∀ r, r < P.members.length → WinInside P C.W L (getCoords P.shape r)) := by
  intro out
  have hk : C.W.k.length ≤ P.shape.length := by rw [(winParams_length hW).1]; omega
  have hstep := fun r (hr : r < P.members.length) => C92_raises_iff m h hl.reach.base hk R.setup hr
  constructor
  · intro hy
    by_cases hm : m = .zeros
    · exact Or.inl hm
    · refine Or.inr fun r hr => ?_
      obtain ⟨y, e, -⟩ := hy r hr
      unfold featureForwardMode at e
      dsimp only at e
      rw [if_neg (by omega)] at e
      split at e
      · rename_i hs
        exact ((hstep r hr).1 hs).resolve_left hm
      · cases e
  · intro hor r hr
    have hsp : ∀ n ∈ P.shape, 0 < n := fun n hn => Nat.pos_of_ne_zero fun h0 => by
      have : P.shape.prod = 0 := List.prod_eq_zero (h0 ▸ hn)
      rw [← h.wf.size] at this
      omega
    have hi : InBounds (getCoords P.shape r) P.shape := (getCoords_spec (by rw [← h.wf.size]; exact hr)).1
    have hgl : L.global.length = nd + 2 := by rw [Layout.length_global, h.length, hD]
    obtain ⟨y, e, e1, e2, e3⟩ := C39_feature_conv C hW hD hch hroot hgr hpos h hCi (by omega) (fun _ => hl) (fun _ => R)
      hr (fun _ => hfin r hr) rgw
    refine ⟨y, ?_, e1, e2, fun o ho => (e3 o ho).trans ?_⟩
    · unfold featureForwardMode
      dsimp only
      rw [if_neg (by omega), if_pos ((hstep r hr).2 (hor.imp_right fun f => f r hr))]
      exact e
    · rcases hor with hm | hin
      · subst hm
        generalize shiftBy _ o = o
        match o with
        | [] => rfl
        | [_] => rfl
        | _ :: _ :: _ => rfl
      · symm
        refine torchConvMode_unpadded m hgr hgl hCi (winParams_length hW).1 (fun j hj => ?_)
          (fun j hj => inside_unpadded h.wf hD hW hin hsp hj) _ _ _ (share_inBounds ?_ hsp hi ho)
        · have := (hl (j + 2) (by omega)).stride
          rw [hD, full_eq hW] at this
          simpa using this
        · rw [length_convShape C.W C.Co hgl, hD]

/-- C92 where it holds: if no worker needs more than its own block, every mode gives every worker its block of the
sequential result. -/
theorem C92_partial (m : PadMode) (C : ConvLayer F)
    (hW : winParams nd pk ps pp pd = some C.W) (hD : P.shape.length = nd + 2) (hch : P.shape.getD 1 0 = 1)
    (hroot : ∃ ρ, P.root = some ρ) (hgr : 0 < C.groups ∧ C.groups ∣ C.Ci ∧ C.groups ∣ C.Co)
    (hpos : 0 < C.Ci ∧ 0 < C.Co) (h : WinInput P C.W L localS x X t rg) (hCi : L.global.getD 1 0 = C.Ci)
    (hl : WinLimits P C.W L) (h1 : 1 < P.members.length)
    (R : WinRun P C.W 0 localS x dt junk ops eager k U S g)
    (hfin : ∀ r, r < P.members.length → (g.ws r).phase = haloPhases P) (rgw : Bool)
    (hin : ∀ r, r < P.members.length → WinInside P C.W L (getCoords P.shape r)) {r : Nat} (hr : r < P.members.length) :
    let out := Layout.balanced P.shape (torchConvShape C.W C.Co L.global)
    ∃ y, featureForwardMode m P C rgw localS x U g r = some y ∧
      y.shape = out.shapeAt (getCoords P.shape r) ∧ y.dtype = t ∧
      ∀ o, InBounds o (out.shapeAt (getCoords P.shape r)) → y.val o =
        torchConvMode m C.W C.groups C.Ci C.Co C.weight.val (biasOf C.bias) L.global X
          (shiftBy (out.startAt (getCoords P.shape r)) o) :=
  (C92_right_iff m C hW hD hch hroot hgr hpos h hCi hl h1 R hfin rgw).2 (Or.inr hin) r hr

/-- C92: on one worker PyTorch's layer accepts every mode, as long as the padding is narrower than the tensor; the
result is the sequential convolution in this mode. -/
theorem C92_one_worker (m : PadMode) (C : ConvLayer F) (hW : winParams nd pk ps pp pd = some C.W)
    (hnd : nd = 1 ∨ nd = 2 ∨ nd = 3) (hgr : 0 < C.groups ∧ C.groups ∣ C.Ci ∧ C.groups ∣ C.Co)
    (hpos : 0 < C.Ci ∧ 0 < C.Co) (h1 : P.members.length = 1) (hn : (localS (P.members.getD 0 0)).1.length = nd + 2)
    (hCi : (localS (P.members.getD 0 0)).1.getD 1 0 = C.Ci)
    (hfit : ∀ j, j < nd → C.W.d.getD j 0 * (C.W.k.getD j 0 - 1) + 1 ≤
      (localS (P.members.getD 0 0)).1.getD (j + 2) 0 + 2 * C.W.p.getD j 0)
    (hp : ∀ j, j < nd → C.W.p.getD j 0 < (localS (P.members.getD 0 0)).1.getD (j + 2) 0) (rgw : Bool) :
    ∃ y, featureForwardMode m P C rgw localS x U g 0 = some y ∧
      y.shape = torchConvShape C.W C.Co (localS (P.members.getD 0 0)).1 ∧
      y.val = torchConvMode m C.W C.groups C.Ci C.Co C.weight.val (biasOf C.bias) (localS (P.members.getD 0 0)).1
        (x (P.members.getD 0 0)) := by
  refine ⟨⟨_, (localS (P.members.getD 0 0)).2.1, _⟩, ?_, rfl, rfl⟩
  · unfold featureForwardMode
    dsimp only
    rw [if_pos h1]
    unfold torchConvLayerMode
    rw [(winParams_length hW).1]
    refine if_pos ⟨hpos.1, hpos.2, hgr.1, hgr.2.1, hgr.2.2, hn, hCi, hfit, ?_⟩
    dsimp only
    rw [hn]
    refine Or.inr ⟨?_, fun j hj => ?_⟩
    · rcases hnd with rfl | rfl | rfl <;> cases m <;> rfl
    · have := hp j hj
      cases m <;> simp only [padFits, decide_eq_true_eq] <;> omega

example : winParams 2 [3] [1] [1] [1] = some ⟨[3, 3], [1, 1], [1, 1], [1, 1]⟩ ∧
    (∀ j, j < 2 → ([1, 1] : List Nat).getD j 0 < ([1, 1, 4, 5] : List Nat).getD (j + 2) 0) := by decide

end

/-! ## Witness -/

/-- Two workers, one feature dimension of four cells, kernel size 3, padding 1. -/
def modeP : Cart := ⟨[0, 1], [1, 1, 2], some 0⟩
def modeW : WinParams := ⟨[3], [1], [1], [1]⟩
def modeL : Layout := [[1], [1], [2, 2]]

theorem mode_limits : WinLimits modeP modeW modeL := by
  intro j hj
  change j < 3 at hj
  interval_cases j
  · exact ⟨by decide, by decide, by decide, by decide, fun _ _ h => absurd h (by simp [modeL]), fun _ h => absurd h (by simp [modeL]), fun _ h => absurd h (by simp [modeL])⟩
  · exact ⟨by decide, by decide, by decide, by decide, fun _ _ h => absurd h (by simp [modeL]), fun _ h => absurd h (by simp [modeL]), fun _ h => absurd h (by simp [modeL])⟩
  · refine ⟨by decide, by decide, by decide, by decide, fun c h0 h => ?_, fun _ h => absurd h (by simp [modeL]), fun c h => ?_⟩
    · change c + 1 < 2 at h
      omega
    · change c + 1 < 2 at h
      have : c = 0 := by omega
      subst this
      decide

/-- C92 is false: where `zeros` works, a layer with `padding_mode='reflect'` raises an exception; on one worker the same
layer, given the same tensor, returns the sequential result. -/
theorem C92_false : ∃ (C : ConvLayer Nat) (localS : Nat → List Nat × TorchDtype × Bool) (x : Nat → List Nat → Nat)
    (X : List Nat → Nat) (k : Nat) (U : Nat → WinSetup) (S : Nat → HaloSetup) (g : GState (List Nat → Nat) (List Nat → Nat)),
    winParams 1 [3] [1] [1] [1] = some C.W ∧ WinInput modeP C.W modeL localS x X .float32 true ∧
    WinLimits modeP C.W modeL ∧
    WinRun modeP C.W 0 localS x (.inst .float32) (fun _ => (0 : Nat)) (fun _ => []) true k U S g ∧
    (∀ r, r < 2 → (g.ws r).phase = haloPhases modeP) ∧
    (∃ r, r < 2 ∧ featureForwardMode .reflect modeP C true localS x U g r = none) ∧
    ∃ y, featureForwardMode .reflect ⟨[0], [1, 1, 1], some 0⟩ C true (fun _ => ([1, 1, 4], .float32, true)) (fun _ => X)
      U g 0 = some y ∧ y.shape = [1, 1, 4] ∧ y.val [0, 0, 0] = 14 := by
  have hw : modeP.WF := ⟨by decide, rfl, by decide⟩
  obtain ⟨localS, x, k, U, S, g, hin, R, hf⟩ := exists_run (W := modeW) hw (show modeL.pshape = modeP.shape by decide)
    (by decide) (fun l => l.getD 2 0 + 4) (0 : Nat) (.inst .float32) (fun _ => (0 : Nat)) (fun _ => []) true
  refine ⟨⟨modeW, 1, 1, 1, ⟨[1, 1, 3], .float32, fun _ => 1⟩, none⟩, localS, x, _, k, U, S, g, by decide, hin,
    mode_limits, R, hf, ?_, ?_⟩
  · exact C92_padding_raises (nd := 1) (pk := [3]) (ps := [1]) (pp := [1]) (pd := [1]) (by decide) (by decide) rfl hin
      mode_limits.reach.base (by decide) R.setup (j := 0) (by decide) (by decide) 1 1 1 _ _ _
  · refine ⟨⟨torchConvShape modeW 1 [1, 1, 4], .float32, torchConvMode .reflect modeW 1 1 1 (fun _ => 1) (biasOf none)
      [1, 1, 4] fun l => l.getD 2 0 + 4⟩, ?_, by decide, by decide⟩
    unfold featureForwardMode
    dsimp only
    rw [if_pos (by decide)]
    exact if_pos (by decide)

/-- Kernel size 1 on two workers, mode `circular`. -/
example : ∃ (C : ConvLayer Nat) (localS : Nat → List Nat × TorchDtype × Bool) (x : Nat → List Nat → Nat)
    (X : List Nat → Nat) (k : Nat) (U : Nat → WinSetup) (S : Nat → HaloSetup) (g : GState (List Nat → Nat) (List Nat → Nat)),
    winParams 1 [1] [1] [0] [1] = some C.W ∧ WinInput dotP C.W dotL localS x X .float32 true ∧
    WinRun dotP C.W 0 localS x (.inst .float32) (fun _ => (0 : Nat)) (fun _ => []) true k U S g ∧
    (∀ r, r < 2 → (g.ws r).phase = haloPhases dotP) ∧
    ∀ r, r < 2 → WinInside dotP C.W dotL (getCoords dotP.shape r) := by
  obtain ⟨localS, x, k, U, S, g, hin, R, hf⟩ := exists_run (P := dotP) (W := dotW) (L := dotL) ⟨by decide, rfl, by decide⟩
    (by decide) (by decide) (fun l => l.getD 2 0) (0 : Nat) (.inst .float32) (fun _ => (0 : Nat)) (fun _ => []) true
  exact ⟨⟨dotW, 1, 1, 1, ⟨[1, 1, 1], .float32, fun _ => 1⟩, none⟩, localS, x, _, k, U, S, g, by decide, hin, R, hf,
    fun r hr => dot_inside hr⟩

/-- What the modes read left of and beyond an axis of four cells. -/
example : [-2, -1, 0, 3, 4, 5].map (modeCell .reflect 4) = [2, 1, 0, 3, 2, 1] ∧
    [-2, -1, 0, 3, 4, 5].map (modeCell .replicate 4) = [0, 0, 0, 3, 3, 3] ∧
    [-2, -1, 0, 3, 4, 5].map (modeCell .circular 4) = [2, 3, 0, 3, 0, 1] := by decide

end Verif
