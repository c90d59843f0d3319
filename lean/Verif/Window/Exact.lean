import Verif.Window.Limits

/-!
# Exactly when the workers return their share of the outputs (C39, C40, C41)

The limits of C39 and C40 are of two kinds.  `WinReach` says that no halo is longer than the neighbour's block.
`WinShare` says that the first window of the next worker ends after the block.  With the first alone a worker
that has finished returns its block of the sequential result, possibly followed by further outputs; there are
none exactly if the second holds.  Padding matters only through the second.
-/

namespace Verif

open Exchange

section
variable {P : Cart} {W : WinParams} {L : Layout} {localS : Nat → List Nat × TorchDtype × Bool}
  {t : TorchDtype} {rg : Bool} {nd : Nat} {pk ps pp pd : List Nat}
  {β : Type} {dt : NpKey} {junk : Nat → β} {ops : Nat → List (MgrOp β)} {eager : Bool} {k : Nat}
  {U : Nat → WinSetup} {S : Nat → HaloSetup}

/-- The layer with at least two workers, from what its local convolution is applied to. -/
theorem feature_of {F : Type} [AddCommMonoid F] [Mul F] {x : Nat → List Nat → F} {X X' : List Nat → F}
    {g : GState (List Nat → F) (List Nat → F)} (C : ConvLayer F)
    (hW : winParams nd pk ps pp pd = some C.W) (hD : P.shape.length = nd + 2) (hch : P.shape.getD 1 0 = 1)
    (hroot : ∃ ρ, P.root = some ρ) (hgr : 0 < C.groups ∧ C.groups ∣ C.Ci ∧ C.groups ∣ C.Co)
    (hpos : 0 < C.Ci ∧ 0 < C.Co) (h : WinInput P C.W L localS x X t rg) (hCi : L.global.getD 1 0 = C.Ci)
    (h1 : P.members.length ≠ 1) (hl : WinBase P C.W L)
    (R : WinRun P C.W 0 localS x dt junk ops eager k U S g) {r : Nat}
    (hr : r < P.members.length) (rgw : Bool)
    (hc : let out := Layout.balanced P.shape (torchPoolShape C.W L.global)
      let idx := getCoords P.shape r
      let I := localInput P 0 localS x U g r
      I.1.length = nd + 2 ∧
      (∀ j, j < nd + 2 →
        (out.shapeAt idx).getD j 0 ≤ (torchPoolShape C.W.noPad I.1).getD j 0 ∧
        ((torchPoolShape C.W.noPad I.1).getD j 0 = (out.shapeAt idx).getD j 0 ↔
          AxisShare ((C.W.full P.shape.length).k.getD j 0) ((C.W.full P.shape.length).s.getD j 0)
            ((C.W.full P.shape.length).p.getD j 0) ((C.W.full P.shape.length).d.getD j 0) (L.getD j [])
            (idx.getD j 0))) ∧
      ∀ o κ, InBounds o (out.shapeAt idx) → InBounds κ C.W.k →
        winRead 0 I.1 (1 :: 1 :: C.W.s) (1 :: 1 :: C.W.d) (0 :: 0 :: C.W.noPad.p) I.2 o (0 :: 0 :: κ) =
        winRead 0 L.global (1 :: 1 :: C.W.s) (1 :: 1 :: C.W.d) (0 :: 0 :: C.W.p) X' (shiftBy (out.startAt idx) o)
          (0 :: 0 :: κ)) :
    let out := Layout.balanced P.shape (torchConvShape C.W C.Co L.global)
    let idx := getCoords P.shape r
    ∃ y, featureForward P C rgw localS x U g r = some y ∧ y.dtype = t ∧
      (y.shape = out.shapeAt idx ↔ WinShare P C.W L idx) ∧
      ∀ o, InBounds o (out.shapeAt idx) → InBounds o y.shape ∧ y.val o =
        torchConv C.W C.groups C.Ci C.Co C.weight.val (biasOf C.bias) L.global X' (shiftBy (out.startAt idx) o) := by
  intro out idx
  obtain ⟨m1, m2⟩ := member_spec h.wf hr
  have hloc := h.loc _ m1 _ m2
  obtain ⟨c1, c2, c3, c4⟩ := conv_of hD hch hgr h.length (blocks_length h (by omega)) hCi
    (getCoords_spec (by rw [← h.wf.size]; exact hr)).1 hc C.weight.val (biasOf C.bias)
  have hw := paramBcast_forward h.wf hroot (by omega) C.weight rgw hr
  have hb : ∀ b : Tensor F, bcastForward (paramBcast P) (rootParam P b rgw) (P.members.getD r 0) = some b := fun b =>
    paramBcast_forward h.wf hroot (by omega) b rgw hr
  have hok : 0 < C.Ci ∧ 0 < C.Co ∧ 0 < C.groups ∧ C.groups ∣ C.Ci ∧ C.groups ∣ C.Co ∧
      (localInput P 0 localS x U g r).1.length = C.W.noPad.k.length + 2 ∧
      (localInput P 0 localS x U g r).1.getD 1 0 = C.Ci ∧ ∀ j, j < C.W.noPad.k.length →
        C.W.noPad.d.getD j 0 * (C.W.noPad.k.getD j 0 - 1) + 1 ≤
          (localInput P 0 localS x U g r).1.getD (j + 2) 0 + 2 * C.W.noPad.p.getD j 0 := by
    have hkn : C.W.noPad.k.length = nd := (winParams_length hW).1
    rw [hkn]
    exact ⟨hpos.1, hpos.2, hgr.1, hgr.2.1, hgr.2.2, hc.1, c1, fun j hj =>
      Nat.le_trans (local_fit_base hW hD h hl R hr hj) (Nat.le_add_right _ _)⟩
  cases hbias : C.bias with
  | none =>
    rw [hbias] at c4
    exact ⟨_, by unfold featureForward; rw [if_neg h1, hw, hbias]; exact if_pos hok, by rw [hloc], c2,
      fun o ho => ⟨c3 o ho, c4 o ho⟩⟩
  | some b =>
    rw [hbias] at c4
    exact ⟨_, by unfold featureForward; rw [if_neg h1, hw, hbias, Option.map_some, hb b]; exact if_pos hok,
      by rw [hloc], c2, fun o ho => ⟨c3 o ho, c4 o ho⟩⟩

/-- C41, convolution, exact: any layout, any padding, at least two workers, halos that fit.  A worker that has
finished returns a tensor whose leading part is its block of the sequential result; the tensor is that block
exactly if the last limit holds for the worker in every dimension. -/
theorem C41_convolution_iff {F : Type} [AddCommMonoid F] [Mul F] {x : Nat → List Nat → F} {X : List Nat → F}
    {g : GState (List Nat → F) (List Nat → F)} (C : ConvLayer F)
    (hW : winParams nd pk ps pp pd = some C.W) (hD : P.shape.length = nd + 2) (hch : P.shape.getD 1 0 = 1)
    (hroot : ∃ ρ, P.root = some ρ) (hgr : 0 < C.groups ∧ C.groups ∣ C.Ci ∧ C.groups ∣ C.Co)
    (hpos : 0 < C.Ci ∧ 0 < C.Co) (h : WinInput P C.W L localS x X t rg) (hCi : L.global.getD 1 0 = C.Ci)
    (h1 : P.members.length ≠ 1) (hl : WinReach P C.W L)
    (R : WinRun P C.W 0 localS x dt junk ops eager k U S g) {r : Nat}
    (hr : r < P.members.length) (hfin : (g.ws r).phase = haloPhases P) (rgw : Bool) :
    let out := Layout.balanced P.shape (torchConvShape C.W C.Co L.global)
    let idx := getCoords P.shape r
    ∃ y, featureForward P C rgw localS x U g r = some y ∧ y.dtype = t ∧
      (y.shape = out.shapeAt idx ↔ WinShare P C.W L idx) ∧
      ∀ o, InBounds o (out.shapeAt idx) → InBounds o y.shape ∧ y.val o =
        torchConv C.W C.groups C.Ci C.Co C.weight.val (biasOf C.bias) L.global X (shiftBy (out.startAt idx) o) := by
  intro out idx
  exact feature_of C hW hD hch hroot hgr hpos h hCi h1 hl.base R hr rgw (local_reach hW hD h hl R hr hfin)

/-- The shape of the pooled tensor, from what the local operator is applied to. -/
theorem pool_of {α : Type} {I : List Nat × (List Nat → α)} (hD : P.shape.length = nd + 2) (hL : L.length = P.shape.length)
    {idx : List Nat} (hi : InBounds idx P.shape) (c1 : I.1.length = nd + 2)
    (c2 : let out := Layout.balanced P.shape (torchPoolShape W L.global)
      ∀ j, j < nd + 2 →
        (out.shapeAt idx).getD j 0 ≤ (torchPoolShape W.noPad I.1).getD j 0 ∧
        ((torchPoolShape W.noPad I.1).getD j 0 = (out.shapeAt idx).getD j 0 ↔
          AxisShare ((W.full P.shape.length).k.getD j 0) ((W.full P.shape.length).s.getD j 0)
            ((W.full P.shape.length).p.getD j 0) ((W.full P.shape.length).d.getD j 0) (L.getD j [])
            (idx.getD j 0))) :
    let out := Layout.balanced P.shape (torchPoolShape W L.global)
    (torchPoolShape W.noPad I.1 = out.shapeAt idx ↔ WinShare P W L idx) ∧
    ∀ o, InBounds o (out.shapeAt idx) → InBounds o (torchPoolShape W.noPad I.1) := by
  intro out
  have hgl : L.global.length = nd + 2 := by rw [Layout.length_global, hL, hD]
  have hol : P.shape.length = (torchPoolShape W L.global).length := by rw [length_poolShape W hgl, hD]
  have hbl := (balanced_lengths hol hi).1
  refine ⟨⟨fun e j hj => ?_, fun hsh => ?_⟩, fun o ho => ?_⟩
  · exact (c2 j (by omega)).2.1 (by rw [e])
  · apply eq_of_getD
    · rw [length_poolShape _ c1, hbl, hD]
    · intro j hj
      rw [length_poolShape _ c1] at hj
      exact (c2 j hj).2.2 (hsh j (by omega))
  · have ho' := inBounds_iff.1 ho
    rw [hbl, hD] at ho'
    rw [inBounds_iff, length_poolShape _ c1]
    exact ⟨ho'.1, fun j hj => Nat.lt_of_lt_of_le (ho'.2 j hj) (c2 j hj).1⟩

/-- The shape of the pooled tensor when the halos fit. -/
theorem pool_share {α : Type} {v : α} {x : Nat → List Nat → α} {X : List Nat → α}
    {g : GState (List Nat → α) (List Nat → α)}
    (hW : winParams nd pk ps pp pd = some W) (hD : P.shape.length = nd + 2)
    (h : WinInput P W L localS x X t rg) (hl : WinReach P W L)
    (R : WinRun P W v localS x dt junk ops eager k U S g) {r : Nat} (hr : r < P.members.length)
    (hfin : (g.ws r).phase = haloPhases P) :
    let out := Layout.balanced P.shape (torchPoolShape W L.global)
    let idx := getCoords P.shape r
    let I := localInput P v localS x U g r
    (torchPoolShape W.noPad I.1 = out.shapeAt idx ↔ WinShare P W L idx) ∧
    ∀ o, InBounds o (out.shapeAt idx) → InBounds o (torchPoolShape W.noPad I.1) := by
  intro out idx I
  obtain ⟨c1, c2, -⟩ := local_reach hW hD h hl R hr hfin
  exact pool_of hD h.length (getCoords_spec (by rw [← h.wf.size]; exact hr)).1 c1 c2

/-- C40, average pooling, exact: as `C41_convolution_iff`, any layout and any number of workers. -/
theorem C40_average_iff {F : Type} [AddCommMonoid F] [Div F] [NatCast F] {x : Nat → List Nat → F} {X : List Nat → F}
    {g : GState (List Nat → F) (List Nat → F)}
    (hW : poolParams true nd pk ps pp pd = some W) (hD : P.shape.length = nd + 2)
    (h : WinInput P W L localS x X t rg) (hl : WinReach P W L)
    (R : WinRun P W 0 localS x dt junk ops eager k U S g) {r : Nat} (hr : r < P.members.length)
    (hfin : (g.ws r).phase = haloPhases P) :
    let out := Layout.balanced P.shape (torchPoolShape W L.global)
    let idx := getCoords P.shape r
    let y := avgPoolForward P W localS x U g r
    y.dtype = t ∧ (y.shape = out.shapeAt idx ↔ WinShare P W L idx) ∧
    ∀ o, InBounds o (out.shapeAt idx) →
      InBounds o y.shape ∧ y.val o = torchAvgPool W L.global X (shiftBy (out.startAt idx) o) := by
  intro out idx y
  obtain ⟨W', hW', hW2⟩ := Option.bind_eq_some_iff.1 hW
  split at hW2
  · cases hW2
  · cases hW2
    obtain ⟨-, -, c3⟩ := local_reach hW' hD h hl R hr hfin
    obtain ⟨s1, s2⟩ := pool_share hW' hD h hl R hr hfin
    obtain ⟨m1, m2⟩ := member_spec h.wf hr
    refine ⟨by show (localS _).2.1 = t; rw [h.loc _ m1 _ m2], s1, fun o ho => ⟨s2 o ho, ?_⟩⟩
    show torchAvgPool _ _ _ o = torchAvgPool _ _ _ _
    unfold torchAvgPool
    congr 1
    exact boxSum_congr fun κ hκ => c3 o κ ho hκ

/-- C40, maximum pooling, exact. -/
theorem C40_maximum_iff {F : Type} [SemilatticeSup F] [OrderBot F] {x : Nat → List Nat → F} {X : List Nat → F}
    {g : GState (List Nat → F) (List Nat → F)}
    (hW : poolParams false nd pk ps pp pd = some W) (hD : P.shape.length = nd + 2)
    (h : WinInput P W L localS x X t rg) (hl : WinReach P W L)
    (R : WinRun P W ⊥ localS x dt junk ops eager k U S g) {r : Nat} (hr : r < P.members.length)
    (hfin : (g.ws r).phase = haloPhases P) :
    let out := Layout.balanced P.shape (torchPoolShape W L.global)
    let idx := getCoords P.shape r
    let y := maxPoolForward P W localS x U g r
    y.dtype = t ∧ (y.shape = out.shapeAt idx ↔ WinShare P W L idx) ∧
    ∀ o, InBounds o (out.shapeAt idx) →
      InBounds o y.shape ∧ y.val o = torchMaxPool W L.global X (shiftBy (out.startAt idx) o) := by
  intro out idx y
  obtain ⟨W', hW', hW2⟩ := Option.bind_eq_some_iff.1 hW
  simp only [Bool.false_and, Bool.false_eq_true, if_false, Option.some.injEq] at hW2
  subst hW2
  obtain ⟨-, -, c3⟩ := local_reach hW' hD h hl R hr hfin
  obtain ⟨s1, s2⟩ := pool_share hW' hD h hl R hr hfin
  obtain ⟨m1, m2⟩ := member_spec h.wf hr
  refine ⟨by show (localS _).2.1 = t; rw [h.loc _ m1 _ m2], s1, fun o ho => ⟨s2 o ho, ?_⟩⟩
  show torchMaxPool _ _ _ o = torchMaxPool _ _ _ _
  unfold torchMaxPool
  congr 1
  apply List.map_congr_left
  intro κ hκ
  exact c3 o κ ho (mem_kernelCells.1 hκ)

end

/-! ## Examples -/

theorem pad_reach : WinReach padP padW padL := C41_false.2.1

/-- The layer of `C41_false`, kernel size 1, padding 2, four workers with a cell each: a run finishes on all
workers; the last limit fails on the first worker only.  So the first worker returns too much, the other three
return their blocks of the sequential result. -/
example : ∃ k U S g, WinRun (β := Nat) padP padC.W 0
      (fun w => (padL.shapeAt ((padP.index w).getD []), .float32, true))
      (fun w l => padX (shiftBy (padL.startAt ((padP.index w).getD [])) l)) (.inst .float32) (fun _ => 0) (fun _ => []) true
      k U S g ∧
    ∀ r, r < 4 → ∃ y, featureForward padP padC true
        (fun w => (padL.shapeAt ((padP.index w).getD []), .float32, true))
        (fun w l => padX (shiftBy (padL.startAt ((padP.index w).getD [])) l)) U g r = some y ∧
      (y.shape = [1, 1, 2] ↔ r ≠ 0) ∧
      ∀ o, InBounds o [1, 1, 2] → InBounds o y.shape ∧
        y.val o = torchConv padW 1 1 1 padC.weight.val (fun _ => 0) [1, 1, 4] padX (shiftBy [0, 0, 2 * r] o) := by
  obtain ⟨U, S, R0⟩ := C39_starts pad_input (0 : Nat) (.inst .float32) (fun _ => (0 : Nat)) (fun _ => []) true
  obtain ⟨k, g, R, -, hf⟩ := C39_completes pad_input R0
  refine ⟨k, U, S, g, R, fun r hr => ?_⟩
  obtain ⟨y, h1, -, h2, h3⟩ := C41_convolution_iff (nd := 1) padC C41_false.1 rfl rfl ⟨0, rfl⟩ (by decide)
    (by decide) pad_input rfl (by decide) pad_reach R (r := r) hr (hf r hr) true
  refine ⟨y, h1, ?_, ?_⟩
  · have e : (Layout.balanced padP.shape (torchConvShape padC.W padC.Co padL.global)).shapeAt
        (getCoords padP.shape r) = [1, 1, 2] := by interval_cases r <;> decide
    rw [e] at h2
    rw [h2]
    constructor
    · rintro hs rfl
      exact absurd (hs 2 (by decide) (by decide)) (by decide)
    · intro h0 j hj
      change j < 3 at hj
      have : r = 1 ∨ r = 2 ∨ r = 3 := by omega
      unfold AxisShare
      rcases this with rfl | rfl | rfl <;> interval_cases j <;> decide
  · intro o ho
    have e : (Layout.balanced padP.shape (torchConvShape padC.W padC.Co padL.global)).shapeAt
        (getCoords padP.shape r) = [1, 1, 2] := by interval_cases r <;> decide
    have e' : (Layout.balanced padP.shape (torchConvShape padC.W padC.Co padL.global)).startAt
        (getCoords padP.shape r) = [0, 0, 2 * r] := by interval_cases r <;> decide
    rw [e, e'] at h3
    exact h3 o ho

/-- Two workers with three cells and one cell. -/
def unevenP : Cart := ⟨[0, 1], [1, 1, 2], some 0⟩
def unevenL : Layout := [[1], [1], [3, 1]]
/-- Kernel size 1, stride 1, no padding. -/
def unevenW : WinParams := ⟨[1], [1], [0], [1]⟩

theorem uneven_input {α : Type} (X : List Nat → α) : WinInput unevenP unevenW unevenL
    (fun w => (unevenL.shapeAt ((unevenP.index w).getD []), .float32, true))
    (fun w l => X (shiftBy (unevenL.startAt ((unevenP.index w).getD [])) l)) X .float32 true := by
  refine ⟨⟨by decide, rfl, by decide⟩, by decide, by decide, fun w _ idx e => ?_, fun w _ idx e l _ => ?_⟩
  · simp only [e, Option.getD_some]
  · simp only [e, Option.getD_some]

theorem uneven_reach : WinReach unevenP unevenW unevenL := by
  intro j hj
  change j < 3 at hj
  interval_cases j
  · exact (reach_single (n := 1) (by decide) (by decide) (by decide) : AxisLimits 1 1 0 1 [1]).reach
  · exact (reach_single (n := 1) (by decide) (by decide) (by decide) : AxisLimits 1 1 0 1 [1]).reach
  · refine ⟨by decide, by decide, by decide, by decide, fun c h0 hc => ?_, fun c hc => ?_⟩
    · change c + 1 < 2 at hc; omega
    · change c + 2 < 2 at hc; omega

/-- Without padding an uneven input is enough: the first worker's block reaches beyond its share, so it
returns more than two outputs; the second worker returns its two. -/
theorem uneven_share {r : Nat} (hr : r < 2) :
    WinShare unevenP unevenW unevenL (getCoords unevenP.shape r) ↔ r = 1 := by
  have : r = 0 ∨ r = 1 := by omega
  rcases this with rfl | rfl
  · exact ⟨fun hs => absurd (hs 2 (by decide) (by decide)) (by decide), fun h => absurd h (by decide)⟩
  · refine ⟨fun _ => rfl, fun _ j hj => ?_⟩
    change j < 3 at hj
    unfold AxisShare
    interval_cases j <;> decide

/-- Average pooling of any values. -/
example (X : List Nat → Rat) : ∃ k U S g, WinRun (β := Nat) unevenP unevenW 0
      (fun w => (unevenL.shapeAt ((unevenP.index w).getD []), .float32, true))
      (fun w l => X (shiftBy (unevenL.startAt ((unevenP.index w).getD [])) l)) (.inst .float32) (fun _ => 0)
      (fun _ => []) true k U S g ∧
    ∀ r, r < 2 → ((avgPoolForward unevenP unevenW
        (fun w => (unevenL.shapeAt ((unevenP.index w).getD []), .float32, true))
        (fun w l => X (shiftBy (unevenL.startAt ((unevenP.index w).getD [])) l)) U g r).shape = [1, 1, 2] ↔ r = 1) := by
  obtain ⟨U, S, R0⟩ := C39_starts (uneven_input X) 0 (.inst .float32) (fun _ => (0 : Nat)) (fun _ => []) true
  obtain ⟨k, g, R, -, hf⟩ := C39_completes (uneven_input X) R0
  refine ⟨k, U, S, g, R, fun r hr => ?_⟩
  obtain ⟨-, h2, -⟩ := C40_average_iff (nd := 1) (show poolParams true 1 [1] [1] [0] [1] = some unevenW by decide) rfl
    (uneven_input X) uneven_reach R (r := r) hr (hf r hr)
  have e : (Layout.balanced unevenP.shape (torchPoolShape unevenW unevenL.global)).shapeAt
      (getCoords unevenP.shape r) = [1, 1, 2] := by interval_cases r <;> decide
  rw [e] at h2
  exact h2.trans (uneven_share hr)

/-- Maximum pooling of any values. -/
example (X : List Nat → WithBot Int) : ∃ k U S g, WinRun (β := Nat) unevenP unevenW ⊥
      (fun w => (unevenL.shapeAt ((unevenP.index w).getD []), .float32, true))
      (fun w l => X (shiftBy (unevenL.startAt ((unevenP.index w).getD [])) l)) (.inst .float32) (fun _ => 0)
      (fun _ => []) true k U S g ∧
    ∀ r, r < 2 → ((maxPoolForward unevenP unevenW
        (fun w => (unevenL.shapeAt ((unevenP.index w).getD []), .float32, true))
        (fun w l => X (shiftBy (unevenL.startAt ((unevenP.index w).getD [])) l)) U g r).shape = [1, 1, 2] ↔ r = 1) := by
  obtain ⟨U, S, R0⟩ := C39_starts (uneven_input X) ⊥ (.inst .float32) (fun _ => (0 : Nat)) (fun _ => []) true
  obtain ⟨k, g, R, -, hf⟩ := C39_completes (uneven_input X) R0
  refine ⟨k, U, S, g, R, fun r hr => ?_⟩
  obtain ⟨-, h2, -⟩ := C40_maximum_iff (nd := 1) (show poolParams false 1 [1] [1] [0] [1] = some unevenW by decide) rfl
    (uneven_input X) uneven_reach R (r := r) hr (hf r hr)
  have e : (Layout.balanced unevenP.shape (torchPoolShape unevenW unevenL.global)).shapeAt
      (getCoords unevenP.shape r) = [1, 1, 2] := by interval_cases r <;> decide
  rw [e] at h2
  exact h2.trans (uneven_share hr)

end Verif
