import Verif.Grad.Core

/-!
# Gradients of convolution and pooling over partitioned features: C60 and C61
-/

namespace Verif

open Exchange

/-! ## The PyTorch gradients are transposes -/

/-- Pairing with the gradient of a convolution. -/
theorem conv_transpose {R : Type} [CommSemiring R] (W : WinParams) (gr Ci Co : Nat) (wt : List Nat → R)
    (shape : List Nat) (x dy : List Nat → R) :
    (boxSum shape fun m => x m * torchConvGradX W gr Ci Co wt shape dy m) =
      boxSum (torchConvShape W Co shape) fun o => torchConv W gr Ci Co wt (fun _ => 0) shape x o * dy o := by
  unfold torchConvGradX
  simp only [← boxSum_mul_left]
  rw [boxSum_comm]
  refine boxSum_congr fun o _ => ?_
  match o with
  | [] => simp [torchConv, boxSum_zero]
  | [_] => simp [torchConv, boxSum_zero]
  | b :: co :: o =>
    simp only [torchConv, zero_add, Finset.sum_mul, Finset.mul_sum, boxSum_sum]
    refine Finset.sum_congr rfl fun c _ => ?_
    simp only [← boxSum_mul_left, ← boxSum_mul_right]
    rw [boxSum_comm]
    refine boxSum_congr fun κ _ => ?_
    rw [boxSum_atCell]
    unfold winRead
    ring

/-- Pairing with the gradient of average pooling. -/
theorem avg_transpose {R : Type} [Field R] (W : WinParams) (shape : List Nat) (x dy : List Nat → R) :
    (boxSum shape fun m => x m * torchAvgPoolGrad W shape dy m) =
      boxSum (torchPoolShape W shape) fun o => torchAvgPool W shape x o * dy o := by
  unfold torchAvgPoolGrad torchAvgPool
  simp only [← boxSum_mul_left]
  rw [boxSum_comm]
  refine boxSum_congr fun o _ => ?_
  rw [boxSum_comm, div_mul_eq_mul_div, mul_div_assoc, ← boxSum_mul_right]
  refine boxSum_congr fun κ _ => ?_
  rw [boxSum_atCell]
  rfl

/-- Pairing with the gradient of maximum pooling. -/
theorem max_transpose {F R : Type} [LinearOrder F] [OrderBot F] [CommSemiring R] (W : WinParams) (shape : List Nat)
    (x : List Nat → F) (y dy : List Nat → R) :
    (boxSum shape fun m => y m * torchMaxPoolGrad W shape x dy m) =
      boxSum (torchPoolShape W shape) fun o =>
        match maxCell W shape x o with
        | some κ => winRead 0 shape (1 :: 1 :: W.s) (1 :: 1 :: W.d) (0 :: 0 :: W.p) y o (0 :: 0 :: κ) * dy o
        | none => 0 := by
  unfold torchMaxPoolGrad
  simp only [← boxSum_mul_left]
  rw [boxSum_comm]
  refine boxSum_congr fun o _ => ?_
  cases maxCell W shape x o with
  | none => simp [boxSum_zero]
  | some κ => exact boxSum_atCell _ _ _ _

/-! ## Gathering the workers' outputs -/

theorem gather_tiles {R : Type} [AddCommMonoid R] {P : Cart} (hP : P.WF) {N : List Nat}
    (hN : P.shape.length = N.length) (f : List Nat → R) :
    (∑ w ∈ Finset.range P.members.length, boxSum ((Layout.balanced P.shape N).shapeAt (getCoords P.shape w)) fun o =>
      f (shiftBy ((Layout.balanced P.shape N).startAt (getCoords P.shape w)) o)) = boxSum N f := by
  rw [hP.size, ranks_sum P.shape fun idx => boxSum ((Layout.balanced P.shape N).shapeAt idx) fun o =>
    f (shiftBy ((Layout.balanced P.shape N).startAt idx) o)]
  have e := (Layout.balanced P.shape N).sum_tiles f
  rw [Layout.balanced_pshape hN, Layout.balanced_global hN hP.pos] at e
  exact e

section
variable {α : Type} {P : Cart} {W : WinParams} {L : Layout} {localS : Nat → List Nat × TorchDtype × Bool}
  {x : Nat → List Nat → α} {X : List Nat → α} {t : TorchDtype} {rg : Bool} {nd : Nat}
  {pk ps pp pd : List Nat}
  {β : Type} {dt : NpKey} {junk : Nat → β} {ops : Nat → List (MgrOp β)} {eager eager' : Bool} {k k' : Nat}
  {U : Nat → WinSetup} {S : Nat → HaloSetup} {g : GState (List Nat → α) (List Nat → α)} {v : α}

/-- The gradients `dy r` the workers get for their outputs are the blocks of the gradient `G` of the sequential
output, which has shape `N`. -/
def OutGrads {R : Type} (P : Cart) (N : List Nat) (dy : Nat → List Nat → R) (G : List Nat → R) : Prop :=
  ∀ r, r < P.members.length → ∀ o, InBounds o ((Layout.balanced P.shape N).shapeAt (getCoords P.shape r)) →
    dy r o = G (shiftBy ((Layout.balanced P.shape N).startAt (getCoords P.shape r)) o)

/-- The shape of a worker's local input depends on the setup only. -/
theorem localInput_shape {α' : Type} {x' : Nat → List Nat → α'} {X' : List Nat → α'} {v' : α'}
    {g' : GState (List Nat → α') (List Nat → α')}
    (h : WinInput P W L localS x X t rg) (h' : WinInput P W L localS x' X' t rg)
    (A : ∀ r, r < P.members.length → winSetup P W localS (P.members.getD r 0) = some (U r)) {r : Nat}
    (hr : r < P.members.length) :
    (localInput P v localS x U g r).1 = (localInput P v' localS x' U g' r).1 := by
  obtain ⟨-, -, -, s1, -⟩ := setup_facts h v A
  obtain ⟨-, -, -, s2, -⟩ := setup_facts h' v' A
  show (pySlices _ _).map _ = (pySlices _ _).map _
  rw [s1 r hr, s2 r hr]

/-- C60, the backward exchange never blocks: it can always be continued until all workers have finished. -/
theorem C60_completes {R : Type} [CommSemiring R] (h : WinInput P W L localS x X t rg)
    (A : WinRun P W v localS x dt junk ops eager k U S g) {gl : Nat → List Nat → R}
    {g' : GState (List Nat → R) (List Nat → R)} (B : WinBack P localS U S gl eager' k' g') :
    ∃ k2 g2, WinBack P localS U S gl eager' k2 g2 ∧ k' ≤ k2 ∧
      ∀ r, r < P.members.length → (g2.ws r).phase = haloPhases P := by
  obtain ⟨T, hT, hU, hsh, hst, hS⟩ := A.facts h
  have hok : (winPlan P W L).OK := plan_ok_always (winDims_plan h)
  have dn := hS.done hok.wf
  exact completes (HaloPlan.bwd_matched hok dn) HaloPlan.bwd_commutes B

/-- Assembling the gradient: `T Y o` is the product of the sequential operator's output for the input `Y` and of
the gradient of that output. -/
theorem assemble {R : Type} [CommSemiring R] (h : WinInput P W L localS x X t rg)
    (A : WinRun P W v localS x dt junk ops eager k U S g) {gl : Nat → List Nat → R}
    {g' : GState (List Nat → R) (List Nat → R)} (B : WinBack P localS U S gl eager' k' g') {N : List Nat}
    (hN : P.shape.length = N.length) {T : (List Nat → R) → List Nat → R} {Gx : List Nat → R}
    (hT : ∀ Y, boxSum N (T Y) = boxSum L.global fun m => Y m * Gx m)
    (hloc : ∀ (y : Nat → List Nat → R) (Y : List Nat → R) (k2 : Nat) (g2 : GState (List Nat → R) (List Nat → R)),
      WinInput P W L localS y Y t rg → WinRun P W 0 localS y dt junk ops eager k2 U S g2 →
      (∀ w, w < P.members.length → (g2.ws w).phase = haloPhases P) → ∀ w, w < P.members.length →
        (boxSum (localInput P 0 localS y U g2 w).1 fun m => (localInput P 0 localS y U g2 w).2 m * gl w m) =
          boxSum ((Layout.balanced P.shape N).shapeAt (getCoords P.shape w)) fun o =>
            T Y (shiftBy ((Layout.balanced P.shape N).startAt (getCoords P.shape w)) o))
    {r : Nat} (hr : r < P.members.length) (hfin : (g'.ws r).phase = haloPhases P) {l : List Nat}
    (hl : InBounds l (L.shapeAt (getCoords P.shape r))) :
    inputGrad P localS U g' r l = Gx (shiftBy (L.startAt (getCoords P.shape r)) l) := by
  obtain ⟨hy, k2, g2, A2, hA2, e⟩ := pull_back h A B hr hfin hl
  have hi : InBounds (getCoords P.shape r) P.shape := (getCoords_spec (by rw [← h.wf.size]; exact hr)).1
  have hin : InBounds (shiftBy (L.startAt (getCoords P.shape r)) l) L.global :=
    (L.unique_owner _).2 _ (by rw [h.layout]; exact hi)
      ((Layout.inBox_shift (by rw [h.length, hi.length_eq])).2 hl).2
  rw [e, Finset.sum_congr rfl fun w hw => hloc _ _ k2 g2 hy A2 hA2 w (Finset.mem_range.1 hw),
    gather_tiles h.wf hN, hT, ← boxSum_pick hin Gx]
  refine boxSum_congr fun m _ => ?_
  split
  · rw [one_mul]
  · rw [zero_mul]

/-- The block of the only worker is everything. -/
theorem single_block {L : Layout} (hP : P.WF) (hL : L.pshape = P.shape) (h1 : P.members.length = 1) {r : Nat}
    (hr : r < P.members.length) :
    L.shapeAt (getCoords P.shape r) = L.global ∧
    ∀ l, InBounds l L.global → shiftBy (L.startAt (getCoords P.shape r)) l = l := by
  have hi : InBounds (getCoords P.shape r) P.shape := (getCoords_spec (by rw [← hP.size]; exact hr)).1
  have hLl : L.length = P.shape.length := by rw [← hL, Layout.length_pshape]
  have hlen : (getCoords P.shape r).length = L.length := by rw [hLl, hi.length_eq]
  have hone : ∀ j, j < P.shape.length → P.shape.getD j 0 = 1 := by
    intro j hj
    have hp : P.shape.prod = 1 := by rw [← hP.size, h1]
    have hd : P.shape.getD j 0 ∣ P.shape.prod := by
      rw [List.getD_eq_getElem _ _ hj]
      exact List.dvd_prod (List.getElem_mem hj)
    rw [hp] at hd
    exact Nat.dvd_one.1 hd
  have hidx : ∀ j, j < P.shape.length → (getCoords P.shape r).getD j 0 = 0 := by
    intro j hj
    have := inBounds_getD hi hj
    rw [hone j hj] at this
    omega
  refine ⟨?_, fun l hb => ?_⟩
  · apply eq_of_getD
    · rw [Layout.length_shapeAt hlen, Layout.length_global]
    · intro j hj
      rw [Layout.length_shapeAt hlen] at hj
      have hj' : j < P.shape.length := by rw [← hLl]; exact hj
      have hb : (L.getD j []).length = 1 := by rw [← pshape_getD hj, hL, hone j hj']
      rw [(L.shapeAt_getD _ hlen j hj).1, global_getD hj, hidx j hj']
      match h : L.getD j [], hb with
      | [n], _ => simp
  · have hll : l.length = (L.startAt (getCoords P.shape r)).length := by
      rw [hb.length_eq, Layout.length_global, Layout.length_startAt hlen]
    apply eq_of_getD
    · rw [length_shiftBy hll, hll]
    · intro j hj
      rw [length_shiftBy hll] at hj
      have hj' : j < P.shape.length := by rw [Layout.length_startAt hlen, hLl] at hj; exact hj
      rw [getD_shiftBy hj (by rw [hll]; exact hj), (L.shapeAt_getD _ hlen j (by rw [hLl]; exact hj')).2.1, hidx j hj']
      simp

/-- The only worker's gradient is the whole gradient. -/
theorem OutGrads.single {R : Type} {N : List Nat} {dy : Nat → List Nat → R} {G : List Nat → R}
    (hG : OutGrads P N dy G) (hP : P.WF) (hN : P.shape.length = N.length) (h1 : P.members.length = 1) {r : Nat}
    (hr : r < P.members.length) {o : List Nat} (ho : InBounds o N) : dy r o = G o := by
  obtain ⟨s1, s2⟩ := single_block (L := Layout.balanced P.shape N) hP (Layout.balanced_pshape hN) h1 hr
  rw [Layout.balanced_global hN hP.pos] at s1 s2
  rw [hG r hr o (by rw [s1]; exact ho), s2 o ho]

/-- C60, convolution: on every worker that has finished its part of the backward pass, the gradient of the input is
the worker's block of the gradient of the sequential convolution. -/
theorem C60_convolution {R : Type} [CommSemiring R] {x : Nat → List Nat → R} {X : List Nat → R}
    {g g' : GState (List Nat → R) (List Nat → R)} (C : ConvLayer R)
    (hW : winParams nd pk ps pp pd = some C.W) (hD : P.shape.length = nd + 2) (hch : P.shape.getD 1 0 = 1)
    (hroot : ∃ ρ, P.root = some ρ) (hgr : 0 < C.groups ∧ C.groups ∣ C.Ci ∧ C.groups ∣ C.Co)
    (h : WinInput P C.W L localS x X t rg) (hCi : L.global.getD 1 0 = C.Ci)
    (hl : P.members.length ≠ 1 → WinLimits P C.W L)
    (A : P.members.length ≠ 1 → WinRun P C.W 0 localS x dt junk ops eager k U S g) (rgw : Bool)
    {dy : Nat → List Nat → R} {G : List Nat → R} (hG : OutGrads P (torchConvShape C.W C.Co L.global) dy G)
    (B : P.members.length ≠ 1 → WinBack P localS U S (convLocalGradX P C rgw localS x U g dy) eager' k' g')
    {r : Nat} (hr : r < P.members.length) (hfin : P.members.length ≠ 1 → (g'.ws r).phase = haloPhases P) :
    ∀ l, InBounds l (L.shapeAt (getCoords P.shape r)) → featureGradX P C localS U dy g' r l =
      torchConvGradX C.W C.groups C.Ci C.Co C.weight.val L.global G
        (shiftBy (L.startAt (getCoords P.shape r)) l) := by
  intro l hb
  have hgl : L.global.length = nd + 2 := by rw [Layout.length_global, h.length, hD]
  have hcl : P.shape.length = (torchConvShape C.W C.Co L.global).length := by
    rw [length_convShape C.W C.Co hgl, hD]
  by_cases h1 : P.members.length = 1
  · obtain ⟨m1, m2⟩ := member_spec h.wf hr
    obtain ⟨s1, s2⟩ := single_block h.wf h.layout h1 hr
    unfold featureGradX
    rw [if_pos h1, h.loc _ m1 _ m2]
    rw [s1] at hb ⊢
    rw [s2 l hb]
    unfold torchConvGradX
    refine boxSum_congr fun o ho => ?_
    match o with
    | [] => rfl
    | [_] => rfl
    | b :: co :: o => simp only [hG.single h.wf hcl h1 hr ho]
  · unfold featureGradX
    rw [if_neg h1]
    have A := A h1
    have hl := hl h1
    refine assemble h A (B h1) hcl
      (T := fun Y o => torchConv C.W C.groups C.Ci C.Co C.weight.val (fun _ => 0) L.global Y o * G o)
      (fun Y => (conv_transpose _ _ _ _ _ _ _ _).symm) ?_ hr (hfin h1) hb
    intro y Y k2 g2 hy A2 hf w hw
    have hf := hf w hw
    obtain ⟨-, c2, c3⟩ := local_conv hW hD hch hgr hy hCi hl A2 hw hf C.weight.val fun _ => 0
    have hwt := paramBcast_forward h.wf hroot (by omega) C.weight rgw hw
    have hs : (localInput P 0 localS x U g w).1 = (localInput P 0 localS y U g2 w).1 :=
      localInput_shape h hy A.setup hw
    unfold convLocalGradX
    rw [hwt]
    dsimp only
    rw [hs, conv_transpose, c2]
    refine boxSum_congr fun o ho => ?_
    rw [c3 o ho, hG w hw o ho]

/-- C60, average pooling. -/
theorem C60_average {F : Type} [Field F] {x : Nat → List Nat → F} {X : List Nat → F}
    {g g' : GState (List Nat → F) (List Nat → F)}
    (hW : poolParams true nd pk ps pp pd = some W) (hD : P.shape.length = nd + 2)
    (h : WinInput P W L localS x X t rg) (hl : WinLimits P W L)
    (A : WinRun P W 0 localS x dt junk ops eager k U S g)
    {dy : Nat → List Nat → F} {G : List Nat → F} (hG : OutGrads P (torchPoolShape W L.global) dy G)
    (B : WinBack P localS U S (avgLocalGrad P W localS x U g dy) eager' k' g')
    {r : Nat} (hr : r < P.members.length) (hfin : (g'.ws r).phase = haloPhases P) :
    ∀ l, InBounds l (L.shapeAt (getCoords P.shape r)) → inputGrad P localS U g' r l =
      torchAvgPoolGrad W L.global G (shiftBy (L.startAt (getCoords P.shape r)) l) := by
  intro l hb
  have hgl : L.global.length = nd + 2 := by rw [Layout.length_global, h.length, hD]
  have hcl : P.shape.length = (torchPoolShape W L.global).length := by rw [length_poolShape W hgl, hD]
  refine assemble h A B hcl (T := fun Y o => torchAvgPool W L.global Y o * G o)
    (fun Y => (avg_transpose _ _ _ _).symm) ?_ hr hfin hb
  intro y Y k2 g2 hy A2 hf w hw
  have hf := hf w hw
  have c2 := (C40_average hW hD hy hl A2 hw hf).2
  have hs : (localInput P 0 localS x U g w).1 = (localInput P 0 localS y U g2 w).1 :=
    localInput_shape h hy A.setup hw
  unfold avgLocalGrad
  rw [hs, avg_transpose]
  have c21 : torchPoolShape W.noPad (localInput P 0 localS y U g2 w).1 = _ := c2.1
  rw [c21]
  refine boxSum_congr fun o ho => ?_
  have : torchAvgPool W.noPad (localInput P 0 localS y U g2 w).1 (localInput P 0 localS y U g2 w).2 o = _ :=
    c2.2.2 o ho
  rw [this, hG w hw o ho]

end

/-! ## Maximum pooling -/

section
variable {F : Type} [LinearOrder F] [OrderBot F]

/-- One step of the search for the largest entry. -/
def maxStep (p : List Nat → Prop) [DecidablePred p] (u : List Nat → F) (best : Option (List Nat)) (κ : List Nat) :
    Option (List Nat) :=
  if p κ then
    match best with
    | none => some κ
    | some b => if u b < u κ then some κ else some b
  else best

theorem maxCell_eq (W : WinParams) (shape : List Nat) (x : List Nat → F) (o : List Nat) :
    maxCell W shape x o = (kernelCells W.k).foldl
      (maxStep (fun κ => InBoundsI (winPos (1 :: 1 :: W.s) (1 :: 1 :: W.d) (0 :: 0 :: W.p) o (0 :: 0 :: κ)) shape)
        fun κ => winRead ⊥ shape (1 :: 1 :: W.s) (1 :: 1 :: W.d) (0 :: 0 :: W.p) x o (0 :: 0 :: κ)) none := rfl

/-- Searching all positions, those outside `p` holding `⊥`, against searching those in `p` only. -/
theorem fold_compare {p q : List Nat → Prop} [DecidablePred p] [DecidablePred q] {u u' : List Nat → F}
    {cs0 : List (List Nat)} (hq : ∀ κ ∈ cs0, q κ) (hu : ∀ κ ∈ cs0, u' κ = u κ)
    (hbot : ∀ κ ∈ cs0, ¬ p κ → u κ = ⊥) (hfin : ∀ κ ∈ cs0, p κ → u κ ≠ ⊥) (cs : List (List Nat))
    (hcs : ∀ κ ∈ cs, κ ∈ cs0) (a b : Option (List Nat))
    (hab : (∃ κ ∈ cs0, a = some κ ∧ b = some κ ∧ p κ) ∨ (b = none ∧ ∀ κ, a = some κ → κ ∈ cs0 ∧ ¬ p κ)) :
    (∃ κ ∈ cs0, cs.foldl (maxStep q u') a = some κ ∧ cs.foldl (maxStep p u) b = some κ ∧ p κ) ∨
    (cs.foldl (maxStep p u) b = none ∧ ∀ κ, cs.foldl (maxStep q u') a = some κ → κ ∈ cs0 ∧ ¬ p κ) := by
  induction cs generalizing a b with
  | nil => exact hab
  | cons c cs ih =>
    rw [List.foldl_cons, List.foldl_cons]
    have hc := hcs c (List.mem_cons_self ..)
    refine ih (fun κ hκ => hcs κ (List.mem_cons_of_mem _ hκ)) _ _ ?_
    unfold maxStep
    rw [if_pos (hq c hc)]
    rcases hab with ⟨κ, hκ, rfl, rfl, hp⟩ | ⟨rfl, ha⟩
    · by_cases hpc : p c
      · rw [if_pos hpc]
        dsimp only
        rw [hu κ hκ, hu c hc]
        split
        · exact Or.inl ⟨c, hc, rfl, rfl, hpc⟩
        · exact Or.inl ⟨κ, hκ, rfl, rfl, hp⟩
      · rw [if_neg hpc]
        dsimp only
        rw [hu κ hκ, hu c hc, hbot c hc hpc, if_neg not_lt_bot]
        exact Or.inl ⟨κ, hκ, rfl, rfl, hp⟩
    · by_cases hpc : p c
      · rw [if_pos hpc]
        cases a with
        | none => exact Or.inl ⟨c, hc, rfl, rfl, hpc⟩
        | some b =>
          obtain ⟨hb, hpb⟩ := ha b rfl
          dsimp only
          rw [hu b hb, hu c hc, hbot b hb hpb, if_pos (bot_lt_iff_ne_bot.2 (hfin c hc hpc))]
          exact Or.inl ⟨c, hc, rfl, rfl, hpc⟩
      · rw [if_neg hpc]
        refine Or.inr ⟨rfl, ?_⟩
        cases a with
        | none =>
          intro κ hκ
          cases hκ
          exact ⟨hc, hpc⟩
        | some b =>
          obtain ⟨hb, hpb⟩ := ha b rfl
          dsimp only
          rw [hu b hb, hu c hc, hbot b hb hpb, hbot c hc hpc, if_neg (lt_irrefl _)]
          intro κ hκ
          cases hκ
          exact ⟨hb, hpb⟩

end

/-- A window of an operator without padding reads cells of its input only. -/
theorem torchOut1_read {n k s d o κ : Nat} (hs : 0 < s) (hκ : κ < k) (ho : o < torchOut1 n k s 0 d) :
    s * o + d * κ < n := by
  have hf := torchOut1_fit (by omega) hs (Nat.lt_of_le_of_lt (Nat.zero_le o) ho)
  rw [torchOut1_windows (by omega) hf] at ho
  unfold windows at ho
  have h1 : o ≤ (n - (d * (k - 1) + 1)) / s := by omega
  have h2 : s * o ≤ n - (d * (k - 1) + 1) := by
    rw [Nat.mul_comm]
    exact (Nat.le_div_iff_mul_le hs).1 h1
  have h3 : d * κ ≤ d * (k - 1) := Nat.mul_le_mul_left _ (by omega)
  omega

section
variable {P : Cart} {W : WinParams} {L : Layout} {localS : Nat → List Nat × TorchDtype × Bool}
  {t : TorchDtype} {rg : Bool} {nd : Nat} {pk ps pp pd : List Nat}
  {β : Type} {dt : NpKey} {junk : Nat → β} {ops : Nat → List (MgrOp β)} {eager eager' : Bool} {k k' : Nat}
  {U : Nat → WinSetup} {S : Nat → HaloSetup}

theorem read_inside {n o κ : List Nat} (hW : winParams nd pk ps pp pd = some W) (hn : n.length = nd + 2)
    (hs : ∀ j, j < nd → 0 < W.s.getD j 0) (ho : InBounds o (torchPoolShape W.noPad n)) (hκ : InBounds κ W.k) :
    InBoundsI (winPos (1 :: 1 :: W.s) (1 :: 1 :: W.d) (0 :: 0 :: W.noPad.p) o (0 :: 0 :: κ)) n := by
  have ho' := inBounds_iff.1 ho
  rw [length_poolShape _ hn] at ho'
  have hκ' := inBounds_iff.1 hκ
  rw [(winParams_length hW).1] at hκ'
  rw [inBoundsI_iff]
  refine ⟨by simp [winPos, ho'.1, hn], fun j hj => ?_⟩
  rw [hn] at hj
  have hr := ho'.2 j hj
  rw [poolShape_getD _ hn hj] at hr
  have hnp : (0 :: 0 :: W.noPad.p).getD j 0 = 0 := by
    match j with
    | 0 => rfl
    | 1 => rfl
    | j + 2 => exact zeros_getD W.p j
  unfold winPos
  rw [getD_map_range _ _ (by rw [ho'.1]; exact hj), hnp]
  rw [hnp] at hr
  have : (1 :: 1 :: W.s).getD j 0 * o.getD j 0 + (1 :: 1 :: W.d).getD j 0 * (0 :: 0 :: κ).getD j 0 < n.getD j 0 := by
    refine torchOut1_read (k := (1 :: 1 :: W.k).getD j 0) ?_ ?_ hr
    · match j, hj with
      | 0, _ => exact Nat.one_pos
      | 1, _ => exact Nat.one_pos
      | j + 2, hj => exact hs j (by omega)
    · match j, hj with
      | 0, _ => exact Nat.one_pos
      | 1, _ => exact Nat.one_pos
      | j + 2, hj => exact hκ'.2 j (by omega)
  have c : (((1 :: 1 :: W.s).getD j 0 * o.getD j 0 + (1 :: 1 :: W.d).getD j 0 * (0 :: 0 :: κ).getD j 0 : Nat) : Int) <
    n.getD j 0 := by exact_mod_cast this
  push_cast at c
  refine ⟨?_, by simpa using c⟩
  have : (0 : Int) ≤ (((1 :: 1 :: W.s).getD j 0 * o.getD j 0 + (1 :: 1 :: W.d).getD j 0 * (0 :: 0 :: κ).getD j 0 : Nat) : Int) :=
    Int.natCast_nonneg _
  push_cast at this
  simpa using this

/-- C60, maximum pooling: the gradient is the worker's block of the sequential one, provided that no entry of the
global input is `-inf`. -/
theorem C60_maximum_partial {F R : Type} [LinearOrder F] [OrderBot F] [CommSemiring R] {x : Nat → List Nat → F}
    {X : List Nat → F} {g : GState (List Nat → F) (List Nat → F)} {g' : GState (List Nat → R) (List Nat → R)}
    (hW : poolParams false nd pk ps pp pd = some W) (hD : P.shape.length = nd + 2)
    (h : WinInput P W L localS x X t rg) (hl : WinLimits P W L)
    (hX : ∀ q, InBounds q L.global → X q ≠ ⊥)
    (A : WinRun P W ⊥ localS x dt junk ops eager k U S g)
    {dy : Nat → List Nat → R} {G : List Nat → R} (hG : OutGrads P (torchPoolShape W L.global) dy G)
    (B : WinBack P localS U S (maxLocalGrad P W localS x U g dy) eager' k' g')
    (hfinA : ∀ r, r < P.members.length → (g.ws r).phase = haloPhases P)
    {r : Nat} (hr : r < P.members.length) (hfin : (g'.ws r).phase = haloPhases P) :
    ∀ l, InBounds l (L.shapeAt (getCoords P.shape r)) → inputGrad P localS U g' r l =
      torchMaxPoolGrad W L.global X G (shiftBy (L.startAt (getCoords P.shape r)) l) := by
  intro l hb
  have hW : winParams nd pk ps pp pd = some W := by
    obtain ⟨W', hW', hW2⟩ := Option.bind_eq_some_iff.1 hW
    simp only [Bool.false_and, Bool.false_eq_true, if_false, Option.some.injEq] at hW2
    rw [← hW2]; exact hW'
  have hgl : L.global.length = nd + 2 := by rw [Layout.length_global, h.length, hD]
  have hcl : P.shape.length = (torchPoolShape W L.global).length := by rw [length_poolShape W hgl, hD]
  refine assemble h A B hcl (T := fun Y o => match maxCell W L.global X o with
      | some κ => winRead 0 L.global (1 :: 1 :: W.s) (1 :: 1 :: W.d) (0 :: 0 :: W.p) Y o (0 :: 0 :: κ) * G o
      | none => 0) (fun Y => (max_transpose _ _ _ _ _).symm) ?_ hr hfin hb
  intro y Y k2 g2 hy A2 hf w hw
  have hf := hf w hw
  obtain ⟨d1, d2, d3⟩ := local_windows hW hD hy hl A2 hw hf
  obtain ⟨c1, c2, c3⟩ := local_windows hW hD h hl A hw (hfinA w hw)
  have hs : (localInput P ⊥ localS x U g w).1 = (localInput P 0 localS y U g2 w).1 :=
    localInput_shape h hy A.setup hw
  have hstr : ∀ j, j < nd → 0 < W.s.getD j 0 := by
    intro j hj
    have := (hl (j + 2) (by omega)).stride
    rw [hD, full_eq hW] at this
    exact this
  unfold maxLocalGrad
  rw [← hs] at d1 d2 d3 ⊢
  rw [max_transpose, c2]
  refine boxSum_congr fun o ho => ?_
  rw [maxCell_eq, maxCell_eq]
  have key := fold_compare (F := F)
    (p := fun κ => InBoundsI (winPos (1 :: 1 :: W.s) (1 :: 1 :: W.d) (0 :: 0 :: W.p)
      (shiftBy ((Layout.balanced P.shape (torchPoolShape W L.global)).startAt (getCoords P.shape w)) o) (0 :: 0 :: κ)) L.global)
    (q := fun κ => InBoundsI (winPos (1 :: 1 :: W.noPad.s) (1 :: 1 :: W.noPad.d) (0 :: 0 :: W.noPad.p) o (0 :: 0 :: κ))
      (localInput P ⊥ localS x U g w).1)
    (u := fun κ => winRead ⊥ L.global (1 :: 1 :: W.s) (1 :: 1 :: W.d) (0 :: 0 :: W.p) X
      (shiftBy ((Layout.balanced P.shape (torchPoolShape W L.global)).startAt (getCoords P.shape w)) o) (0 :: 0 :: κ))
    (u' := fun κ => winRead ⊥ (localInput P ⊥ localS x U g w).1 (1 :: 1 :: W.noPad.s) (1 :: 1 :: W.noPad.d)
      (0 :: 0 :: W.noPad.p) (localInput P ⊥ localS x U g w).2 o (0 :: 0 :: κ))
    (cs0 := kernelCells W.k)
    (fun κ hκ => read_inside hW c1 hstr (by rw [c2]; exact ho) (mem_kernelCells.1 hκ))
    (fun κ hκ => c3 o κ ho (mem_kernelCells.1 hκ))
    (fun κ _ hp => by
      show extend _ _ _ _ = _
      rw [extend, if_neg hp])
    (fun κ _ hp => by
      show extend _ _ _ _ ≠ _
      rw [extend, if_pos hp]
      exact hX _ (by rw [← inBoundsI_cast, toNat_cast hp]; exact hp))
    (kernelCells W.k) (fun _ h => h) none none (Or.inr ⟨rfl, fun κ hκ => by cases hκ⟩)
  rcases key with ⟨κ, hκ, e1, e2, hp⟩ | ⟨e2, hrest⟩
  · rw [show (kernelCells W.noPad.k) = kernelCells W.k from rfl, e1, e2]
    dsimp only
    rw [← d3 o κ ho (mem_kernelCells.1 hκ), hG w hw o ho]
    rfl
  · rw [e2]
    dsimp only
    rw [show (kernelCells W.noPad.k) = kernelCells W.k from rfl]
    split
    · rename_i κ e1
      obtain ⟨hκ, hp⟩ := hrest κ e1
      have := d3 o κ ho (mem_kernelCells.1 hκ)
      rw [show W.noPad.s = W.s from rfl, show W.noPad.d = W.d from rfl, this]
      unfold winRead extend
      rw [if_neg hp, zero_mul]
    · rfl

/-! ## C61: weight and bias -/

/-- Only the first worker stores the parameter. -/
theorem param_feeds (hw : P.WF) (hroot : ∃ ρ, P.root = some ρ) (hD : 0 < P.shape.length) {v : Nat}
    (hv : v ∈ P.members) : (paramBcast P).Feeds (P.members.getD 0 0) v := by
  have hL := paramBcast_layer hw hroot hD
  have hr : (paramBcast P).broot v ∈ (paramBcast P).Px.members := hL.root_mem hv
  have e : (paramBcast P).broot v = P.members.getD 0 0 := by simpa [paramBcast, rootCart] using hr
  exact (hL.rel (by simp [paramBcast, rootCart]) hv).2 e

/-- The adjoint of the broadcast of a parameter `a`: the first worker gets the sum of the gradients of all workers,
the others a tensor without entries. -/
theorem param_backward {R : Type} [AddCommMonoid R] (hw : P.WF) (hroot : ∃ ρ, P.root = some ρ)
    (hD : 0 < P.shape.length) (a : Tensor R) (rgw : Bool) (f : Nat → List Nat → R) :
    bcastBackward (paramBcast P) (rootParam P a rgw) (fun v => ⟨a.shape, a.dtype, f (P.members.idxOf v)⟩)
      (P.members.getD 0 0) = some ⟨a.shape, a.dtype, fun i => ∑ r ∈ Finset.range P.members.length, f r i⟩ ∧
    ∀ v ∈ P.members, v ≠ P.members.getD 0 0 → ∃ z, bcastBackward (paramBcast P) (rootParam P a rgw)
      (fun v => ⟨a.shape, a.dtype, f (P.members.idxOf v)⟩) v = some z ∧ z.shape.prod = 0 := by
  have hL := paramBcast_layer hw hroot hD
  obtain ⟨b1, b2⟩ := C22_backward (paramBcast P) hL (rootParam P a rgw)
    (fun v => ⟨a.shape, a.dtype, f (P.members.idxOf v)⟩)
    (fun r hr v _ _ => by
      have : r = P.members.getD 0 0 := by simpa [paramBcast, rootCart] using hr
      simp [rootParam, this])
    (fun hb => by simp [paramBcast] at hb)
  refine ⟨?_, fun v hv hne => b2 v hv (by simpa [paramBcast, rootCart] using hne)⟩
  rw [b1 _ (by simp [paramBcast, rootCart])]
  have hx : (rootParam P a rgw).x (P.members.getD 0 0) = a := by simp [rootParam]
  rw [hx]
  congr 2
  funext i
  show (((P.members.filter fun v => decide ((paramBcast P).Feeds (P.members.getD 0 0) v)).map fun v =>
    f (P.members.idxOf v) i).sum) = _
  rw [List.filter_eq_self.2 fun v hv => by simpa using param_feeds hw hroot hD hv, sum_range_list]
  congr 1
  apply List.ext_getElem
  · simp
  · intro j h1 h2
    have hj : j < P.members.length := by simpa using h1
    rw [List.getElem_map, List.getElem_map, List.getElem_range, hw.nodup.idxOf_getElem j hj]

/-- A weight which is 1 at one place makes the convolution read that place. -/
theorem weight_pick {R : Type} [CommSemiring R] {gr Ci Co : Nat} {co c : Nat} {κ : List Nat} (hc : c < Ci / gr)
    (V : WinParams) (hκ : InBounds κ V.k) (sh : List Nat) (z d : List Nat → R) :
    torchConvGradW V gr Ci Co sh z d (co :: c :: κ) = boxSum (torchConvShape V Co sh) fun o =>
      torchConv V gr Ci Co (fun l => if l = co :: c :: κ then 1 else 0) (fun _ => 0) sh z o * d o := by
  unfold torchConvGradW
  refine boxSum_congr fun o _ => ?_
  match o with
  | [] => simp [torchConv]
  | [_] => simp [torchConv]
  | b :: co' :: o =>
    simp only [torchConv, zero_add]
    by_cases he : co' = co
    · subst he
      rw [if_pos rfl]
      rw [Finset.sum_eq_single_of_mem c (Finset.mem_range.2 hc) (fun c' _ hne => by
        refine (boxSum_congr fun κ' _ => ?_).trans (boxSum_zero _)
        simp [hne])]
      rw [show (boxSum V.k fun κ' => (if co' :: c :: κ' = co' :: c :: κ then (1 : R) else 0) * winRead 0 sh (1 :: 1 :: V.s) (1 :: 1 :: V.d)
          (0 :: 0 :: V.p) z (b :: (co' / (Co / gr) * (Ci / gr) + c) :: o) (0 :: 0 :: κ')) =
          boxSum V.k fun κ' => if κ' = κ then winRead 0 sh (1 :: 1 :: V.s) (1 :: 1 :: V.d)
          (0 :: 0 :: V.p) z (b :: (co' / (Co / gr) * (Ci / gr) + c) :: o) (0 :: 0 :: κ') else 0 from
        boxSum_congr fun κ' _ => by simp]
      rw [boxSum_pick hκ, mul_comm]
    · rw [if_neg he, Finset.sum_eq_zero, zero_mul]
      intro c' _
      refine (boxSum_congr fun κ' _ => ?_).trans (boxSum_zero _)
      simp [he]

/-- The gradient of the weight, summed over the workers. -/
theorem weight_gather {R : Type} [CommSemiring R] {x : Nat → List Nat → R} {X : List Nat → R}
    {g : GState (List Nat → R) (List Nat → R)} {gr Ci Co : Nat}
    (hW : winParams nd pk ps pp pd = some W) (hD : P.shape.length = nd + 2) (hch : P.shape.getD 1 0 = 1)
    (hgr : 0 < gr ∧ gr ∣ Ci ∧ gr ∣ Co) (h : WinInput P W L localS x X t rg) (hCi : L.global.getD 1 0 = Ci)
    (hl : WinLimits P W L) (A : WinRun P W 0 localS x dt junk ops eager k U S g)
    (hfin : ∀ r, r < P.members.length → (g.ws r).phase = haloPhases P)
    {dy : Nat → List Nat → R} {G : List Nat → R} (hG : OutGrads P (torchConvShape W Co L.global) dy G)
    {co c : Nat} {κ : List Nat} (_hco : co < Co) (hc : c < Ci / gr) (hκ : InBounds κ W.k) :
    (∑ r ∈ Finset.range P.members.length, torchConvGradW W.noPad gr Ci Co (localInput P 0 localS x U g r).1
      (localInput P 0 localS x U g r).2 (dy r) (co :: c :: κ)) =
    torchConvGradW W gr Ci Co L.global X G (co :: c :: κ) := by
  have hgl : L.global.length = nd + 2 := by rw [Layout.length_global, h.length, hD]
  have hcl : P.shape.length = (torchConvShape W Co L.global).length := by rw [length_convShape W Co hgl, hD]
  let wt : List Nat → R := fun l => if l = co :: c :: κ then 1 else 0
  rw [weight_pick hc W hκ, ← gather_tiles h.wf hcl]
  refine Finset.sum_congr rfl fun r hr => ?_
  have hr := Finset.mem_range.1 hr
  obtain ⟨-, c2, c3⟩ := local_conv hW hD hch hgr h hCi hl A hr (hfin r hr) wt fun _ => 0
  rw [weight_pick hc W.noPad hκ, c2]
  refine boxSum_congr fun o ho => ?_
  rw [c3 o ho, hG r hr o ho]

/-- C61: when all workers have finished the forward pass, the gradient of the weight on the worker storing it is the
one of the sequential convolution; the other workers get tensors without entries. -/
theorem C61_weight {R : Type} [CommSemiring R] {x : Nat → List Nat → R} {X : List Nat → R}
    {g : GState (List Nat → R) (List Nat → R)} (C : ConvLayer R)
    (hW : winParams nd pk ps pp pd = some C.W) (hD : P.shape.length = nd + 2) (hch : P.shape.getD 1 0 = 1)
    (hroot : ∃ ρ, P.root = some ρ) (hgr : 0 < C.groups ∧ C.groups ∣ C.Ci ∧ C.groups ∣ C.Co)
    (h : WinInput P C.W L localS x X t rg) (hCi : L.global.getD 1 0 = C.Ci)
    (hl : P.members.length ≠ 1 → WinLimits P C.W L)
    (A : P.members.length ≠ 1 → WinRun P C.W 0 localS x dt junk ops eager k U S g)
    (hfin : P.members.length ≠ 1 → ∀ r, r < P.members.length → (g.ws r).phase = haloPhases P) (rgw : Bool)
    {dy : Nat → List Nat → R} {G : List Nat → R} (hG : OutGrads P (torchConvShape C.W C.Co L.global) dy G) :
    (∃ z, featureGradW P C rgw localS x U g dy (P.members.getD 0 0) = some z ∧ z.shape = C.weight.shape ∧
      z.dtype = C.weight.dtype ∧ ∀ co c κ, co < C.Co → c < C.Ci / C.groups → InBounds κ C.W.k →
        z.val (co :: c :: κ) = torchConvGradW C.W C.groups C.Ci C.Co L.global X G (co :: c :: κ)) ∧
    ∀ v ∈ P.members, v ≠ P.members.getD 0 0 →
      ∃ z, featureGradW P C rgw localS x U g dy v = some z ∧ z.shape.prod = 0 := by
  have hgl : L.global.length = nd + 2 := by rw [Layout.length_global, h.length, hD]
  have hcl : P.shape.length = (torchConvShape C.W C.Co L.global).length := by
    rw [length_convShape C.W C.Co hgl, hD]
  have hpos : 0 < P.members.length := by
    obtain ⟨w0, h0, hm⟩ := h.wf.head
    exact List.length_pos_of_mem hm
  unfold featureGradW
  by_cases h1 : P.members.length = 1
  · simp only [if_pos h1]
    obtain ⟨m1, m2⟩ := member_spec h.wf hpos
    obtain ⟨s1, s2⟩ := single_block h.wf h.layout h1 hpos
    refine ⟨⟨_, rfl, rfl, rfl, fun co c κ hco hc hκ => ?_⟩, fun v hv hne => ?_⟩
    · have e0 : P.members.idxOf (P.members.getD 0 0) = 0 := by
        rw [List.getD_eq_getElem _ _ hpos, h.wf.nodup.idxOf_getElem 0 hpos]
      rw [e0, h.loc _ m1 _ m2, s1]
      unfold torchConvGradW
      refine boxSum_congr fun o ho => ?_
      match o with
      | [] => rfl
      | [_] => rfl
      | b :: co' :: o =>
        dsimp only
        by_cases he : co' = co
        · subst he
          rw [if_pos rfl, if_pos rfl, hG.single h.wf hcl h1 hpos ho]
          congr 1
          unfold winRead extend
          split
          · rename_i hb
            have hb' := hb
            rw [← toNat_cast hb, inBoundsI_cast] at hb'
            rw [h.data _ m1 _ m2 _ (by rw [s1]; exact hb'), s2 _ hb']
          · rfl
        · rw [if_neg he, if_neg he]
    · exfalso
      apply hne
      obtain ⟨a, ha⟩ := List.length_eq_one_iff.1 h1
      rw [ha] at hv ⊢
      simpa using hv
  · simp only [if_neg h1]
    obtain ⟨b1, b2⟩ := param_backward h.wf hroot (by omega) C.weight rgw fun r =>
      torchConvGradW C.W.noPad C.groups C.Ci C.Co (localInput P 0 localS x U g r).1
        (localInput P 0 localS x U g r).2 (dy r)
    refine ⟨⟨_, b1, rfl, rfl, fun co c κ hco hc hκ => ?_⟩, b2⟩
    exact weight_gather hW hD hch hgr h hCi (hl h1) (A h1) (hfin h1) hG hco hc hκ

/-- The workers' bias gradients add up to the sequential one if every worker's output has the shape of its share. -/
theorem bias_gather {R : Type} [CommSemiring R] {Co : Nat} {G0 : List Nat}
    (hD : P.shape.length = nd + 2) (hch : P.shape.getD 1 0 = 1) (hw : P.WF)
    (hcl : P.shape.length = (torchConvShape W Co G0).length) {sh : Nat → List Nat}
    (hs : ∀ r, r < P.members.length → torchConvShape W.noPad Co (sh r) =
      (Layout.balanced P.shape (torchConvShape W Co G0)).shapeAt (getCoords P.shape r))
    {dy : Nat → List Nat → R} {G : List Nat → R} (hG : OutGrads P (torchConvShape W Co G0) dy G) (co : Nat) :
    (∑ r ∈ Finset.range P.members.length, torchConvGradB W.noPad Co (sh r) (dy r) [co]) =
      torchConvGradB W Co G0 G [co] := by
  have pick : ∀ (V : WinParams) (sh : List Nat) (d : List Nat → R),
      torchConvGradB V Co sh d [co] = boxSum (torchConvShape V Co sh) fun o =>
        torchConv V 1 0 Co (fun _ => 0) (fun co' => if co' = co then 1 else 0) sh (fun _ => 0) o * d o := by
    intro V sh d
    unfold torchConvGradB
    refine boxSum_congr fun o _ => ?_
    match o with
    | [] => simp [torchConv]
    | [_] => simp [torchConv]
    | b :: co' :: o =>
      simp only [torchConv, zero_mul, boxSum_zero, Finset.sum_const_zero, add_zero]
      by_cases he : co' = co
      · subst he; rw [if_pos rfl, if_pos rfl, one_mul]
      · rw [if_neg he, if_neg he, zero_mul]
  rw [pick W, ← gather_tiles hw hcl]
  refine Finset.sum_congr rfl fun r hr => ?_
  have hr := Finset.mem_range.1 hr
  have c2 := hs r hr
  have hi : InBounds (getCoords P.shape r) P.shape := (getCoords_spec (by rw [← hw.size]; exact hr)).1
  unfold torchConvGradB
  rw [c2]
  have bl := balanced_lengths hcl hi
  have hi1 : (getCoords P.shape r).getD 1 0 = 0 := by
    have := inBounds_getD hi (show 1 < P.shape.length by omega)
    omega
  have hst : ((Layout.balanced P.shape (torchConvShape W Co G0)).startAt (getCoords P.shape r)).getD 1 0 = 0 := by
    rw [(balanced_getD hcl hi (by omega)).2, hi1, startIdx_zero]
  obtain ⟨s0, s1, ss, hse⟩ := two_heads (bl.2.trans hD)
  rw [hse] at hst
  have hs1 : s1 = 0 := hst
  refine boxSum_congr fun o ho => ?_
  have hol : o.length = nd + 2 := by rw [ho.length_eq, bl.1, hD]
  match o, hol with
  | bi :: co' :: o, hol =>
    have e := hG r hr _ ho
    rw [hse, hs1] at e ⊢
    simp only [shiftBy, Nat.zero_add, torchConv, zero_mul, boxSum_zero, Finset.sum_const_zero, add_zero] at e ⊢
    by_cases he : co' = co
    · subst he; rw [if_pos rfl, if_pos rfl, one_mul, e]
    · rw [if_neg he, if_neg he, zero_mul]

/-- C61, bias. -/
theorem C61_bias {R : Type} [CommSemiring R] {x : Nat → List Nat → R} {X : List Nat → R}
    {g : GState (List Nat → R) (List Nat → R)} (C : ConvLayer R) (b : Tensor R)
    (hW : winParams nd pk ps pp pd = some C.W) (hD : P.shape.length = nd + 2) (hch : P.shape.getD 1 0 = 1)
    (hroot : ∃ ρ, P.root = some ρ) (hgr : 0 < C.groups ∧ C.groups ∣ C.Ci ∧ C.groups ∣ C.Co)
    (h : WinInput P C.W L localS x X t rg) (hCi : L.global.getD 1 0 = C.Ci)
    (hl : P.members.length ≠ 1 → WinLimits P C.W L)
    (A : P.members.length ≠ 1 → WinRun P C.W 0 localS x dt junk ops eager k U S g)
    (hfin : P.members.length ≠ 1 → ∀ r, r < P.members.length → (g.ws r).phase = haloPhases P) (rgw : Bool)
    {dy : Nat → List Nat → R} {G : List Nat → R} (hG : OutGrads P (torchConvShape C.W C.Co L.global) dy G) :
    (∃ z, featureGradB P C b rgw localS x U g dy (P.members.getD 0 0) = some z ∧ z.shape = b.shape ∧
      z.dtype = b.dtype ∧ ∀ co, co < C.Co → z.val [co] = torchConvGradB C.W C.Co L.global G [co]) ∧
    ∀ v ∈ P.members, v ≠ P.members.getD 0 0 →
      ∃ z, featureGradB P C b rgw localS x U g dy v = some z ∧ z.shape.prod = 0 := by
  have hgl : L.global.length = nd + 2 := by rw [Layout.length_global, h.length, hD]
  have hcl : P.shape.length = (torchConvShape C.W C.Co L.global).length := by
    rw [length_convShape C.W C.Co hgl, hD]
  have hpos : 0 < P.members.length := by
    obtain ⟨w0, h0, hm⟩ := h.wf.head
    exact List.length_pos_of_mem hm
  unfold featureGradB
  by_cases h1 : P.members.length = 1
  · simp only [if_pos h1]
    obtain ⟨m1, m2⟩ := member_spec h.wf hpos
    obtain ⟨s1, s2⟩ := single_block h.wf h.layout h1 hpos
    refine ⟨⟨_, rfl, rfl, rfl, fun co hco => ?_⟩, fun v hv hne => ?_⟩
    · have e0 : P.members.idxOf (P.members.getD 0 0) = 0 := by
        rw [List.getD_eq_getElem _ _ hpos, h.wf.nodup.idxOf_getElem 0 hpos]
      rw [e0, h.loc _ m1 _ m2, s1]
      unfold torchConvGradB
      refine boxSum_congr fun o ho => ?_
      match o with
      | [] => rfl
      | [_] => rfl
      | b :: co' :: o =>
        dsimp only
        by_cases he : co' = co
        · subst he
          rw [if_pos rfl, if_pos rfl, hG.single h.wf hcl h1 hpos ho]
        · rw [if_neg he, if_neg he]
    · exfalso
      apply hne
      obtain ⟨a, ha⟩ := List.length_eq_one_iff.1 h1
      rw [ha] at hv ⊢
      simpa using hv
  · simp only [if_neg h1]
    obtain ⟨b1, b2⟩ := param_backward h.wf hroot (by omega) b rgw fun r =>
      torchConvGradB C.W.noPad C.Co (localInput P 0 localS x U g r).1 (dy r)
    refine ⟨⟨_, b1, rfl, rfl, fun co hco => ?_⟩, b2⟩
    refine bias_gather hD hch h.wf hcl (fun r hr => ?_) hG co
    exact (local_conv hW hD hch hgr h hCi (hl h1) (A h1) hr (hfin h1 r hr) (fun _ => (0 : R)) fun _ => 0).2.1

end

end Verif
