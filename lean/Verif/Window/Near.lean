import Verif.Window.Exact
import Verif.Linear.Stack
import Mathlib.Algebra.Order.BigOperators.Group.Finset

/-!
# What the workers return whether the halos fit or not (C39, C40, C41)

A worker's halos contain the global tensor only as far as the blocks next to its own; beyond, they keep the value
the input was padded with.  So every worker computes its share of the outputs of the sequential layer, applied to
the global tensor with everything beyond the adjacent blocks replaced by that value.
-/

namespace Verif

open Exchange

/-- The global tensor with every cell replaced by `v` that is not in the block of the worker at `idx` or in a
block next to it. -/
def seen {α : Type} (v : α) (L : Layout) (idx : List Nat) (X : List Nat → α) : List Nat → α := fun i =>
  if Near L idx i then X i else v

section
variable {α : Type} {P : Cart} {W : WinParams} {L : Layout} {localS : Nat → List Nat × TorchDtype × Bool}
  {x : Nat → List Nat → α} {X : List Nat → α} {t : TorchDtype} {rg : Bool}
  {β : Type} {dt : NpKey} {junk : Nat → β} {ops : Nat → List (MgrOp β)} {eager : Bool} {k : Nat}
  {U : Nat → WinSetup} {S : Nat → HaloSetup} {g : GState (List Nat → α) (List Nat → α)} {v : α}

/-- Outside its own block a padded input holds the padding value. -/
theorem padInput_filler (h : WinInput P W L localS x X t rg)
    (R : ∀ r, r < P.members.length → winSetup P W localS (P.members.getD r 0) = some (U r)) {r : Nat}
    (hr : r < P.members.length) {l : List Nat} (hl : InBounds l ((winPlan P W L).shape r))
    (hn : ¬ ∃ b, InBounds b ((winPlan P W L).L.shapeAt (getCoords P.shape r)) ∧
      l = shiftBy ((List.range (winPlan P W L).D).map fun j =>
        (winPlan P W L).lw j ((winPlan P W L).co r j)) b) :
    ((U r).padInput v (localS (P.members.getD r 0)).1 (x (P.members.getD r 0))).2 l = v := by
  obtain ⟨T, hT, hUr, hshape, -⟩ := setup_facts h v R
  have hi : InBounds (getCoords P.shape r) P.shape := (getCoords_spec (by rw [← h.wf.size]; exact hr)).1
  obtain ⟨m1, m2⟩ := member_spec h.wf hr
  have hloc : (localS (P.members.getD r 0)).1 = L.shapeAt (getCoords P.shape r) := by rw [h.loc _ m1 _ m2]
  have hlen : (getCoords P.shape r).length = L.length := by rw [length_getCoords, h.length]
  have hls : (L.shapeAt (getCoords P.shape r)).length = P.shape.length := by
    rw [Layout.length_shapeAt hlen, h.length]
  have hpl : (winPlan P W L).L.length = P.shape.length := by
    show (padLayout _ L).length = _
    rw [length_padLayout h.gplen, h.length]
  have hlen' : (getCoords P.shape r).length = (winPlan P W L).L.length := by rw [hpl, hi.length_eq]
  have htl : (U r).total.length = (localS (P.members.getD r 0)).1.length := by
    rw [hloc, hls]
    rcases Nat.eq_zero_or_pos P.shape.length with h0 | h0
    · rw [hUr r hr]
      show (List.zipWith _ _ _).length = _
      simp [localPadding, h0]
    · have hl := (total_getD h hT hr h0).1
      rw [← hUr r hr] at hl
      exact hl
  have hll : l.length = P.shape.length := by rw [hl.length_eq, HaloPlan.length_shape]; rfl
  rw [(padInput_spec htl v _).2 l (by rw [hshape r hr]; exact hl), hloc, hls]
  by_contra hne
  apply hn
  -- in every dimension the cell lies in the block
  have hin : ∀ j, j < P.shape.length →
      ((U r).total.getD j (0, 0)).1 ≤ l.getD j 0 ∧
      l.getD j 0 < ((U r).total.getD j (0, 0)).1 + (L.shapeAt (getCoords P.shape r)).getD j 0 := by
    intro j hj
    by_contra hc
    apply hne
    refine extend_outside (j := j) (by rw [hls]; exact hj) ?_
    rw [getD_map_range _ _ hj]
    omega
  refine ⟨(List.range P.shape.length).map fun j => l.getD j 0 - (winPlan P W L).lw j ((winPlan P W L).co r j), ?_, ?_⟩
  · rw [inBounds_iff, Layout.length_shapeAt hlen', hpl]
    refine ⟨by simp, fun j hj => ?_⟩
    have hjL : j < L.length := by rw [h.length]; exact hj
    have e := (total_getD h hT hr hj).2
    rw [← hUr r hr] at e
    have e2 := ((winPlan P W L).L.shapeAt_getD _ hlen' j (by rw [hpl]; exact hj)).1
    have e3 : (winPlan P W L).L.getD j [] = padList ((globalPadding P.shape.length W.p).getD j 0) (L.getD j []) :=
      padLayout_getD h.gplen hjL
    have hb := blocks_length h hj
    have hin' := hin j hj
    rw [e, (L.shapeAt_getD _ hlen j hjL).1] at hin'
    simp only at hin'
    rw [getD_map_range _ _ hj, e2, e3, padList_getD _ _ (by rw [hb]; exact inBounds_getD hi hj), hb]
    have hco : (winPlan P W L).co r j = (getCoords P.shape r).getD j 0 := rfl
    rw [hco]
    omega
  · apply eq_of_getD
    · rw [length_shiftBy (by simp; rfl), hll]; simp; rfl
    · intro j hj
      rw [hll] at hj
      have hj' : j < (winPlan P W L).D := hj
      have e := (total_getD h hT hr hj).2
      rw [← hUr r hr] at e
      have hin' := hin j hj
      rw [e] at hin'
      simp only at hin'
      rw [getD_shiftBy (by simpa using hj') (by simpa using hj), getD_map_range _ _ hj', getD_map_range _ _ hj]
      have hco : (winPlan P W L).co r j = (getCoords P.shape r).getD j 0 := rfl
      rw [hco]
      omega

/-- Near in the padded tensor is near in the tensor. -/
theorem near_padded (h : WinInput P W L localS x X t rg) {idx i q : List Nat} (hi : InBounds idx P.shape)
    (hib : InBounds i L.global)
    (hq : ∀ j, j < P.shape.length → q.getD j 0 = i.getD j 0 + (globalPadding P.shape.length W.p).getD j 0) :
    Near (padLayout (globalPadding P.shape.length W.p) L) idx q ↔ Near L idx i := by
  unfold Near
  rw [hi.length_eq]
  refine forall_congr' fun j => forall_congr' fun hj => ?_
  have hjL : j < L.length := by rw [h.length]; exact hj
  have hb := blocks_length h hj
  have hc : idx.getD j 0 < P.shape.getD j 0 := inBounds_getD hi hj
  have hlt : i.getD j 0 < (L.getD j []).sum := by
    rw [← global_getD hjL]
    exact inBounds_getD hib (by rw [Layout.length_global]; exact hjL)
  rw [padLayout_getD h.gplen hjL, hq j hj]
  generalize (globalPadding P.shape.length W.p).getD j 0 = p
  generalize hcc : idx.getD j 0 = c at hc ⊢
  have e1 := padList_take p (L.getD j []) (c := c - 1) (by omega)
  have e0 : c - 1 = 0 → ((L.getD j []).take (c - 1)).sum = 0 := fun h0 => by rw [h0]; rfl
  rw [e1]
  have l1 : ((L.getD j []).take (c - 1)).sum + (if 0 < c - 1 then p else 0) ≤ i.getD j 0 + p ↔
      ((L.getD j []).take (c - 1)).sum ≤ i.getD j 0 := by
    by_cases h0 : 0 < c - 1
    · rw [if_pos h0]; omega
    · rw [if_neg h0, e0 (by omega)]; omega
  have l2 : i.getD j 0 + p < ((padList p (L.getD j [])).take (c + 2)).sum ↔
      i.getD j 0 < ((L.getD j []).take (c + 2)).sum := by
    by_cases h1 : c + 1 < (L.getD j []).length
    · rw [padList_end p _ h1]
      by_cases h2 : c + 1 + 1 = (L.getD j []).length
      · rw [if_pos h2]
        rw [List.take_of_length_le (by omega)]
        omega
      · rw [if_neg h2]
        change _ ↔ i.getD j 0 < ((L.getD j []).take (c + 1 + 1)).sum
        omega
    · rw [List.take_of_length_le (by rw [length_padList]; omega), List.take_of_length_le (by omega),
        padList_sum p (by omega)]
      omega
  rw [l1, l2]

/-- What the windows of a worker's share read once the worker has finished, whether the halos fit or not. -/
theorem windows_near (h : WinInput P W L localS x X t rg) (hl : WinBase P W L)
    (R : WinRun P W v localS x dt junk ops eager k U S g) {r : Nat} (hr : r < P.members.length)
    (hfin : (g.ws r).phase = haloPhases P) :
    let F := W.full P.shape.length
    let idx := getCoords P.shape r
    let M := fun j => torchOut1 (L.global.getD j 0) (F.k.getD j 0) (F.s.getD j 0) (F.p.getD j 0) (F.d.getD j 0)
    let I := localInput P v localS x U g r
    I.1.length = P.shape.length ∧
    (∀ j, j < P.shape.length →
      subsize (P.shape.getD j 0) (idx.getD j 0) (M j) ≤
        torchOut1 (I.1.getD j 0) (F.k.getD j 0) (F.s.getD j 0) 0 (F.d.getD j 0) ∧
      (torchOut1 (I.1.getD j 0) (F.k.getD j 0) (F.s.getD j 0) 0 (F.d.getD j 0) =
          subsize (P.shape.getD j 0) (idx.getD j 0) (M j) ↔
        AxisShare (F.k.getD j 0) (F.s.getD j 0) (F.p.getD j 0) (F.d.getD j 0) (L.getD j []) (idx.getD j 0))) ∧
    ∀ o κ z : List Nat, o.length = P.shape.length →
      (∀ j, j < P.shape.length → o.getD j 0 < subsize (P.shape.getD j 0) (idx.getD j 0) (M j)) →
      (∀ j, j < P.shape.length → κ.getD j 0 < F.k.getD j 0) → (∀ j, z.getD j 0 = 0) →
      winRead v I.1 F.s F.d z I.2 o κ = winRead v L.global F.s F.d F.p (seen v L idx X)
        (shiftBy ((List.range P.shape.length).map fun j =>
          startIdx (P.shape.getD j 0) (idx.getD j 0) (M j)) o) κ := by
  intro F idx M I
  obtain ⟨T, hT, hU, hsh, hst, hS⟩ := R.facts h
  have hok : (winPlan P W L).OK := plan_ok_always (winDims_plan h)
  have hi : InBounds idx P.shape := (getCoords_spec (by rw [← h.wf.size]; exact hr)).1
  obtain ⟨c1, c2, c3⟩ := windows_cell h hl R hr
  refine ⟨c1, c2, fun o κ z hol ho hκ hz => ?_⟩
  obtain ⟨l, hl1, e, hp⟩ := c3 o κ z hol ho hκ hz
  rw [e, (C37_cells hok hS (paddedGlobal v (globalPadding P.shape.length W.p) L.global X) v
    _ hst (fun w hw l hl hn => padInput_filler h R.setup hw hl hn) R.exec hr hfin l hl1).2]
  have hgl : L.global.length = P.shape.length := by rw [Layout.length_global, h.length]
  rw [← paddedGlobal_winRead (q := shiftBy ((winPlan P W L).origin r) l) (D := P.shape.length) hgl (by simp) hol
    fun j hj => by rw [getD_map_range _ _ hj]; exact hp j hj]
  change _ = paddedGlobal v (globalPadding P.shape.length W.p) L.global (seen v L idx X) _
  generalize hq : shiftBy ((winPlan P W L).origin r) l = q
  unfold paddedGlobal
  by_cases hin : ∀ j, j < P.shape.length → (globalPadding P.shape.length W.p).getD j 0 ≤ q.getD j 0 ∧
      q.getD j 0 - (globalPadding P.shape.length W.p).getD j 0 < L.global.getD j 0
  · let i : List Nat := (List.range P.shape.length).map fun j =>
      q.getD j 0 - (globalPadding P.shape.length W.p).getD j 0
    have hil : i.length = P.shape.length := by simp [i]
    have hig : ∀ j, j < P.shape.length → i.getD j 0 = q.getD j 0 - (globalPadding P.shape.length W.p).getD j 0 :=
      fun j hj => getD_map_range _ _ hj
    have hib : InBounds i L.global := by
      rw [inBounds_iff, hgl]
      refine ⟨hil, fun j hj => ?_⟩
      rw [hig j hj]
      exact (hin j hj).2
    have hpl : ((List.range L.global.length).map fun j =>
        (q.getD j 0 : Int) - ((globalPadding P.shape.length W.p).getD j 0 : Nat)).length = i.length := by
      rw [hil, ← hgl]; simp
    have hpj : ∀ j, j < i.length → ((List.range L.global.length).map fun j =>
        (q.getD j 0 : Int) - ((globalPadding P.shape.length W.p).getD j 0 : Nat)).getD j 0 = (i.getD j 0 : Nat) := by
      intro j hj
      rw [hil] at hj
      rw [getD_map_range _ _ (by rw [hgl]; exact hj), hig j hj]
      have := (hin j hj).1
      omega
    rw [extend_inside hib hpl hpj, extend_inside hib hpl hpj]
    unfold seen
    have hn := near_padded h (idx := idx) (q := q) hi hib fun j hj => by
      rw [hig j hj]
      have := (hin j hj).1
      omega
    show (if Near (padLayout (globalPadding P.shape.length W.p) L) idx q then _ else _) = _
    by_cases hc : Near L idx i
    · rw [if_pos hc, if_pos (hn.2 hc)]
    · rw [if_neg hc, if_neg (fun c => hc (hn.1 c))]
  · obtain ⟨j, hnj⟩ := Classical.not_forall.1 hin
    obtain ⟨hj, hnot⟩ := Classical.not_imp.1 hnj
    have ho : ∀ Y : List Nat → α, extend v L.global Y ((List.range L.global.length).map fun j =>
        (q.getD j 0 : Int) - ((globalPadding P.shape.length W.p).getD j 0 : Nat)) = v := by
      intro Y
      refine extend_outside (j := j) (by rw [hgl]; exact hj) ?_
      rw [getD_map_range _ _ (by rw [hgl]; exact hj)]
      omega
    rw [ho, ho]
    split <;> rfl

end

/-- Window `o` of the sequential layer reads cell `i` at kernel position `κ`. -/
def Taps (W : WinParams) (o κ i : List Nat) : Prop :=
  ∀ j, j < i.length → i.getD j 0 + (0 :: 0 :: W.p).getD j 0 =
    (1 :: 1 :: W.s).getD j 0 * o.getD j 0 + (1 :: 1 :: W.d).getD j 0 * (0 :: 0 :: κ).getD j 0

/-- Every cell of the tensor read by a window of the share of the worker at `idx` is in its own block or in a
block next to it.  The share is the worker's block of the outputs cut evenly over the partition; along the channel
dimension it is counted in input channels. -/
def WinSees (P : Cart) (W : WinParams) (L : Layout) (idx : List Nat) : Prop :=
  let out := Layout.balanced P.shape (torchPoolShape W L.global)
  ∀ o κ i, InBounds o (out.shapeAt idx) → InBounds κ W.k → InBounds i L.global →
    Taps W (shiftBy (out.startAt idx) o) κ i → Near L idx i

theorem winRead_taps {α : Type} {v : α} {W : WinParams} {G o κ i : List Nat} {X : List Nat → α} (hi : InBounds i G)
    (ho : o.length = G.length) (ht : Taps W o κ i) :
    winRead v G (1 :: 1 :: W.s) (1 :: 1 :: W.d) (0 :: 0 :: W.p) X o (0 :: 0 :: κ) = X i := by
  unfold winRead
  refine extend_inside hi (by simp [winPos, ho, hi.length_eq]) fun j hj => ?_
  rw [winPos, getD_map_range _ _ (by rw [ho, ← hi.length_eq]; exact hj)]
  have := ht j hj
  have e : ((i.getD j 0 + (0 :: 0 :: W.p).getD j 0 : Nat) : Int) = (((1 :: 1 :: W.s).getD j 0 * o.getD j 0 +
    (1 :: 1 :: W.d).getD j 0 * (0 :: 0 :: κ).getD j 0 : Nat) : Int) := by exact_mod_cast this
  push_cast at e
  omega

theorem winRead_same {α : Type} {v : α} {W : WinParams} {G o κ : List Nat} {X Y : List Nat → α}
    (ho : o.length = G.length) (h : ∀ i, InBounds i G → Taps W o κ i → X i = Y i) :
    winRead v G (1 :: 1 :: W.s) (1 :: 1 :: W.d) (0 :: 0 :: W.p) X o (0 :: 0 :: κ) =
      winRead v G (1 :: 1 :: W.s) (1 :: 1 :: W.d) (0 :: 0 :: W.p) Y o (0 :: 0 :: κ) := by
  unfold winRead extend
  by_cases hc : InBoundsI (winPos (1 :: 1 :: W.s) (1 :: 1 :: W.d) (0 :: 0 :: W.p) o (0 :: 0 :: κ)) G
  · rw [if_pos hc, if_pos hc]
    have hc' := inBoundsI_iff.1 hc
    have hg : ∀ j, j < G.length →
        ((winPos (1 :: 1 :: W.s) (1 :: 1 :: W.d) (0 :: 0 :: W.p) o (0 :: 0 :: κ)).map Int.toNat).getD j 0 =
          ((winPos (1 :: 1 :: W.s) (1 :: 1 :: W.d) (0 :: 0 :: W.p) o (0 :: 0 :: κ)).getD j 0).toNat := by
      intro j hj
      rw [List.getD_eq_getElem _ _ (by rw [List.length_map, hc'.1]; exact hj), List.getElem_map,
        List.getD_eq_getElem _ _ (by rw [hc'.1]; exact hj)]
    apply h
    · rw [inBounds_iff, List.length_map]
      refine ⟨hc'.1, fun j hj => ?_⟩
      rw [hg j hj]
      have := hc'.2 j hj
      omega
    · intro j hj
      rw [List.length_map, hc'.1] at hj
      rw [hg j hj]
      have := (hc'.2 j hj).1
      have e : (winPos (1 :: 1 :: W.s) (1 :: 1 :: W.d) (0 :: 0 :: W.p) o (0 :: 0 :: κ)).getD j 0 = _ :=
        getD_map_range _ _ (by rw [ho]; exact hj)
      rw [e] at this ⊢
      have := Int.toNat_of_nonneg this
      zify
      omega
  · rw [if_neg hc, if_neg hc]

theorem winRead_blank {α : Type} {v : α} {shape s d p o κ : List Nat} :
    winRead v shape s d p (fun _ => v) o κ = v := by
  unfold winRead extend
  split <;> rfl

section
variable {P : Cart} {W : WinParams} {L : Layout} {localS : Nat → List Nat × TorchDtype × Bool}
  {t : TorchDtype} {rg : Bool} {nd : Nat} {pk ps pp pd : List Nat}
  {β : Type} {dt : NpKey} {junk : Nat → β} {ops : Nat → List (MgrOp β)} {eager : Bool} {k : Nat}
  {U : Nat → WinSetup} {S : Nat → HaloSetup}

/-- C41, convolution: any layout, any kernel, stride, dilation and padding that leave every worker an output, at
least two workers, halos that fit or not.  A worker that has finished returns its share of the outputs of the
sequential convolution of the global tensor in which everything beyond the blocks next to its own is replaced by
zero; further outputs follow unless the last limit holds. -/
theorem C41_convolution_seen {F : Type} [AddCommMonoid F] [Mul F] {x : Nat → List Nat → F} {X : List Nat → F}
    {g : GState (List Nat → F) (List Nat → F)} (C : ConvLayer F)
    (hW : winParams nd pk ps pp pd = some C.W) (hD : P.shape.length = nd + 2) (hch : P.shape.getD 1 0 = 1)
    (hroot : ∃ ρ, P.root = some ρ) (hgr : 0 < C.groups ∧ C.groups ∣ C.Ci ∧ C.groups ∣ C.Co)
    (hpos : 0 < C.Ci ∧ 0 < C.Co) (h : WinInput P C.W L localS x X t rg) (hCi : L.global.getD 1 0 = C.Ci)
    (h1 : P.members.length ≠ 1) (hl : WinBase P C.W L)
    (R : WinRun P C.W 0 localS x dt junk ops eager k U S g) {r : Nat}
    (hr : r < P.members.length) (hfin : (g.ws r).phase = haloPhases P) (rgw : Bool) :
    let out := Layout.balanced P.shape (torchConvShape C.W C.Co L.global)
    let idx := getCoords P.shape r
    ∃ y, featureForward P C rgw localS x U g r = some y ∧ y.dtype = t ∧
      (y.shape = out.shapeAt idx ↔ WinShare P C.W L idx) ∧
      ∀ o, InBounds o (out.shapeAt idx) → InBounds o y.shape ∧ y.val o =
        torchConv C.W C.groups C.Ci C.Co C.weight.val (biasOf C.bias) L.global (seen 0 L idx X)
          (shiftBy (out.startAt idx) o) := by
  intro out idx
  exact feature_of C hW hD hch hroot hgr hpos h hCi h1 hl R hr rgw
    (local_of hW hD h.length (getCoords_spec (by rw [← h.wf.size]; exact hr)).1 (windows_near h hl R hr hfin))

/-- C40, average pooling, halos that fit or not. -/
theorem C40_average_seen {F : Type} [AddCommMonoid F] [Div F] [NatCast F] {x : Nat → List Nat → F} {X : List Nat → F}
    {g : GState (List Nat → F) (List Nat → F)}
    (hW : poolParams true nd pk ps pp pd = some W) (hD : P.shape.length = nd + 2)
    (h : WinInput P W L localS x X t rg) (hl : WinBase P W L)
    (R : WinRun P W 0 localS x dt junk ops eager k U S g) {r : Nat} (hr : r < P.members.length)
    (hfin : (g.ws r).phase = haloPhases P) :
    let out := Layout.balanced P.shape (torchPoolShape W L.global)
    let idx := getCoords P.shape r
    let y := avgPoolForward P W localS x U g r
    y.dtype = t ∧ (y.shape = out.shapeAt idx ↔ WinShare P W L idx) ∧
    ∀ o, InBounds o (out.shapeAt idx) →
      InBounds o y.shape ∧ y.val o = torchAvgPool W L.global (seen 0 L idx X) (shiftBy (out.startAt idx) o) := by
  intro out idx y
  obtain ⟨W', hW', hW2⟩ := Option.bind_eq_some_iff.1 hW
  split at hW2
  · cases hW2
  · cases hW2
    have hi : InBounds idx P.shape := (getCoords_spec (by rw [← h.wf.size]; exact hr)).1
    obtain ⟨c1, c2, c3⟩ := local_of hW' hD h.length hi (windows_near h hl R hr hfin)
    obtain ⟨s1, s2⟩ := pool_of hD h.length hi c1 c2
    obtain ⟨m1, m2⟩ := member_spec h.wf hr
    refine ⟨by show (localS _).2.1 = t; rw [h.loc _ m1 _ m2], s1, fun o ho => ⟨s2 o ho, ?_⟩⟩
    show torchAvgPool _ _ _ o = torchAvgPool _ _ _ _
    unfold torchAvgPool
    congr 1
    exact boxSum_congr fun κ hκ => c3 o κ ho hκ

/-- C40, maximum pooling, halos that fit or not. -/
theorem C40_maximum_seen {F : Type} [SemilatticeSup F] [OrderBot F] {x : Nat → List Nat → F} {X : List Nat → F}
    {g : GState (List Nat → F) (List Nat → F)}
    (hW : poolParams false nd pk ps pp pd = some W) (hD : P.shape.length = nd + 2)
    (h : WinInput P W L localS x X t rg) (hl : WinBase P W L)
    (R : WinRun P W ⊥ localS x dt junk ops eager k U S g) {r : Nat} (hr : r < P.members.length)
    (hfin : (g.ws r).phase = haloPhases P) :
    let out := Layout.balanced P.shape (torchPoolShape W L.global)
    let idx := getCoords P.shape r
    let y := maxPoolForward P W localS x U g r
    y.dtype = t ∧ (y.shape = out.shapeAt idx ↔ WinShare P W L idx) ∧
    ∀ o, InBounds o (out.shapeAt idx) →
      InBounds o y.shape ∧ y.val o = torchMaxPool W L.global (seen ⊥ L idx X) (shiftBy (out.startAt idx) o) := by
  intro out idx y
  obtain ⟨W', hW', hW2⟩ := Option.bind_eq_some_iff.1 hW
  simp only [Bool.false_and, Bool.false_eq_true, if_false, Option.some.injEq] at hW2
  subst hW2
  have hi : InBounds idx P.shape := (getCoords_spec (by rw [← h.wf.size]; exact hr)).1
  obtain ⟨c1, c2, c3⟩ := local_of hW' hD h.length hi (windows_near h hl R hr hfin)
  obtain ⟨s1, s2⟩ := pool_of hD h.length hi c1 c2
  obtain ⟨m1, m2⟩ := member_spec h.wf hr
  refine ⟨by show (localS _).2.1 = t; rw [h.loc _ m1 _ m2], s1, fun o ho => ⟨s2 o ho, ?_⟩⟩
  show torchMaxPool _ _ _ o = torchMaxPool _ _ _ _
  unfold torchMaxPool
  congr 1
  apply List.map_congr_left
  intro κ hκ
  exact c3 o κ ho (mem_kernelCells.1 hκ)

/-! ## Exactly when the outputs are right -/

/-- Every global tensor can be distributed, and a run on it completes. -/
theorem exists_run {α : Type} (hw : P.WF) (hL : L.pshape = P.shape) (hp : W.p.length ≤ P.shape.length)
    (X : List Nat → α) (v : α) (dt : NpKey) (junk : Nat → β) (ops : Nat → List (MgrOp β)) (eager : Bool) :
    ∃ (localS : Nat → List Nat × TorchDtype × Bool) (x : Nat → List Nat → α) (k : Nat) (U : Nat → WinSetup)
      (S : Nat → HaloSetup) (g : GState (List Nat → α) (List Nat → α)),
      WinInput P W L localS x X .float32 true ∧ WinRun P W v localS x dt junk ops eager k U S g ∧
      ∀ r, r < P.members.length → (g.ws r).phase = haloPhases P := by
  have h : WinInput P W L (fun w => (L.shapeAt ((P.index w).getD []), .float32, true))
      (fun w l => X (shiftBy (L.startAt ((P.index w).getD [])) l)) X .float32 true := by
    refine ⟨hw, hL, hp, fun w _ idx e => ?_, fun w _ idx e l _ => ?_⟩
    · simp only [e, Option.getD_some]
    · simp only [e, Option.getD_some]
  obtain ⟨U, S, R0⟩ := C39_starts h v dt junk ops eager
  obtain ⟨k, g, R, -, hf⟩ := C39_completes h R0
  exact ⟨_, _, k, U, S, g, h, R, hf⟩

/-- A tensor that differs from `v` in one far cell only is not seen. -/
theorem seen_far {α : Type} {v a : α} {idx i : List Nat} (h : ¬ Near L idx i) :
    seen v L idx (fun l => if l = i then a else v) = fun _ => v := by
  funext l
  unfold seen
  by_cases hn : Near L idx l
  · rw [if_pos hn]
    exact if_neg fun (e : l = i) => h (e ▸ hn)
  · rw [if_neg hn]

theorem seen_near {α : Type} {v a : α} {idx i : List Nat} (h : Near L idx i) :
    seen v L idx (fun l => if l = i then a else v) = fun l => if l = i then a else v := by
  funext l
  unfold seen
  by_cases hn : Near L idx l
  · rw [if_pos hn]
  · rw [if_neg hn]
    exact (if_neg fun (e : l = i) => hn (e ▸ h)).symm

theorem share_inBounds {Ps ns idx o : List Nat} (hl : Ps.length = ns.length) (hp : ∀ n ∈ Ps, 0 < n)
    (hi : InBounds idx Ps)
    (ho : InBounds o ((Layout.balanced Ps ns).shapeAt idx)) :
    InBounds (shiftBy ((Layout.balanced Ps ns).startAt idx) o) ns := by
  have hsh : (Layout.balanced Ps ns).pshape = Ps := Layout.balanced_pshape hl
  have hll : idx.length = (Layout.balanced Ps ns).length := by rw [hi.length_eq, ← Layout.length_pshape, hsh]
  have := ((Layout.balanced Ps ns).unique_owner _).2 _ (by rw [hsh]; exact hi)
    (((Layout.balanced Ps ns).inBox_shift hll).2 ho).2
  rwa [Layout.balanced_global hl hp] at this

theorem share_length (hD : P.shape.length = nd + 2) (hL : L.pshape = P.shape) {idx o : List Nat}
    (hi : InBounds idx P.shape)
    (ho : InBounds o ((Layout.balanced P.shape (torchPoolShape W L.global)).shapeAt idx)) :
    o.length = L.global.length ∧
    (shiftBy ((Layout.balanced P.shape (torchPoolShape W L.global)).startAt idx) o).length = L.global.length := by
  have hLl : L.length = P.shape.length := by rw [← L.length_pshape, hL]
  have hgl : L.global.length = nd + 2 := by rw [Layout.length_global, hLl, hD]
  have hpl : P.shape.length = (torchPoolShape W L.global).length := by rw [length_poolShape W hgl, hD]
  have bp := balanced_lengths hpl hi
  have h1 : o.length = L.global.length := by rw [ho.length_eq, bp.1, hgl, hD]
  exact ⟨h1, by rw [length_shiftBy (by rw [h1, bp.2, hgl, hD]), bp.2, hgl, hD]⟩

theorem boxSum_pos {s : List Nat} {f : List Nat → ℚ} (h : ∀ i, 0 ≤ f i) {κ : List Nat} (hκ : InBounds κ s)
    (hp : 0 < f κ) : 0 < boxSum s f := by
  induction s generalizing f κ with
  | nil =>
    cases κ with
    | nil => exact hp
    | cons _ _ => exact hκ.elim
  | cons n s ih =>
    cases κ with
    | nil => exact hκ.elim
    | cons a κ =>
      have hn : ∀ (s : List Nat) (f : List Nat → ℚ), (∀ i, 0 ≤ f i) → 0 ≤ boxSum s f := by
        intro s
        induction s with
        | nil => exact fun f hf => hf _
        | cons n s ih => exact fun f hf => Finset.sum_nonneg fun i _ => ih _ fun l => hf _
      refine Finset.sum_pos' (fun i _ => hn s _ fun l => h _) ⟨a, Finset.mem_range.2 hκ.1, ?_⟩
      exact ih (fun l => h _) hκ.2 hp

/-- C40, average pooling: the outputs in a worker's share are those of the sequential layer, for every tensor and
in every run, exactly if no window of the share reads beyond the blocks next to the worker's own. -/
theorem C40_average_right_iff (hW : poolParams true nd pk ps pp pd = some W) (hD : P.shape.length = nd + 2)
    (hw : P.WF) (hL : L.pshape = P.shape) (hl : WinBase P W L) (dt : NpKey) (junk : Nat → β)
    (ops : Nat → List (MgrOp β)) {r : Nat} (hr : r < P.members.length) :
    let out := Layout.balanced P.shape (torchPoolShape W L.global)
    let idx := getCoords P.shape r
    (∀ localS (x : Nat → List Nat → ℚ) X t rg, WinInput P W L localS x X t rg → ∀ eager k U S g,
      WinRun P W 0 localS x dt junk ops eager k U S g → (g.ws r).phase = haloPhases P →
      ∀ o, InBounds o (out.shapeAt idx) →
        (avgPoolForward P W localS x U g r).val o = torchAvgPool W L.global X (shiftBy (out.startAt idx) o)) ↔
    WinSees P W L idx := by
  intro out idx
  have hi : InBounds idx P.shape := (getCoords_spec (by rw [← hw.size]; exact hr)).1
  constructor
  · intro hall o κ i ho hκ hib ht
    by_contra hn
    obtain ⟨W', hW', hW2⟩ := Option.bind_eq_some_iff.1 hW
    have e2 : W' = W := by
      split at hW2
      · cases hW2
      · exact Option.some.inj hW2
    subst e2
    obtain ⟨localS, x, k, U, S, g, h, R, hf⟩ := exists_run (W := W') hw hL
      (by rw [(winParams_length hW').2.2.1]; omega) (fun l => if l = i then (1 : ℚ) else 0) 0 dt junk ops true
    have e := hall _ _ _ _ _ h _ _ _ _ _ R (hf r hr) o ho
    rw [((C40_average_seen hW hD h hl R hr (hf r hr)).2.2 o ho).2, seen_far hn] at e
    have hlen := (share_length hD hL hi ho).2
    unfold torchAvgPool at e
    simp only [winRead_blank] at e
    rw [boxSum_zero, zero_div] at e
    have hk : (0 : ℚ) < ((W'.k.prod : Nat) : ℚ) := by exact_mod_cast prod_pos_of_inBounds hκ
    have hpos : 0 < boxSum W'.k fun κ => winRead 0 L.global (1 :: 1 :: W'.s) (1 :: 1 :: W'.d) (0 :: 0 :: W'.p)
        (fun l => if l = i then (1 : ℚ) else 0) (shiftBy (out.startAt idx) o) (0 :: 0 :: κ) := by
      refine boxSum_pos (fun κ => ?_) hκ ?_
      · unfold winRead extend
        split
        · dsimp only
          split <;> norm_num
        · exact le_refl _
      · rw [winRead_taps hib hlen ht, if_pos rfl]
        norm_num
    exact absurd e (ne_of_lt (div_pos hpos hk))
  · intro hs localS x X t rg h eager k U S g R hfin o ho
    rw [((C40_average_seen hW hD h hl R hr hfin).2.2 o ho).2]
    unfold torchAvgPool
    congr 1
    refine boxSum_congr fun κ hκ => winRead_same (share_length hD hL hi ho).2 fun i hib ht => ?_
    exact if_pos (hs o κ i ho hκ hib ht)

/-- C40, maximum pooling: as average pooling, for values with at least one above `-inf`. -/
theorem C40_maximum_right_iff {F : Type} [SemilatticeSup F] [OrderBot F] {a : F} (ha : a ≠ ⊥)
    (hW : poolParams false nd pk ps pp pd = some W) (hD : P.shape.length = nd + 2)
    (hw : P.WF) (hL : L.pshape = P.shape) (hl : WinBase P W L) (dt : NpKey) (junk : Nat → β)
    (ops : Nat → List (MgrOp β)) {r : Nat} (hr : r < P.members.length) :
    let out := Layout.balanced P.shape (torchPoolShape W L.global)
    let idx := getCoords P.shape r
    (∀ localS (x : Nat → List Nat → F) X t rg, WinInput P W L localS x X t rg → ∀ eager k U S g,
      WinRun P W ⊥ localS x dt junk ops eager k U S g → (g.ws r).phase = haloPhases P →
      ∀ o, InBounds o (out.shapeAt idx) →
        (maxPoolForward P W localS x U g r).val o = torchMaxPool W L.global X (shiftBy (out.startAt idx) o)) ↔
    WinSees P W L idx := by
  intro out idx
  have hi : InBounds idx P.shape := (getCoords_spec (by rw [← hw.size]; exact hr)).1
  constructor
  · intro hall o κ i ho hκ hib ht
    by_contra hn
    have hW' : winParams nd pk ps pp pd = some W := by
      obtain ⟨W', hW', hW2⟩ := Option.bind_eq_some_iff.1 hW
      simp only [Bool.false_and, Bool.false_eq_true, if_false, Option.some.injEq] at hW2
      rw [hW', hW2]
    obtain ⟨localS, x, k, U, S, g, h, R, hf⟩ := exists_run (W := W) hw hL
      (by rw [(winParams_length hW').2.2.1]; omega) (fun l => if l = i then a else ⊥) ⊥ dt junk ops true
    have e := hall _ _ _ _ _ h _ _ _ _ _ R (hf r hr) o ho
    rw [((C40_maximum_seen hW hD h hl R hr (hf r hr)).2.2 o ho).2, seen_far hn] at e
    have hlen := (share_length hD hL hi ho).2
    unfold torchMaxPool at e
    have hbot : ∀ l : List (List Nat), (l.map fun κ => winRead (⊥ : F) L.global (1 :: 1 :: W.s) (1 :: 1 :: W.d)
        (0 :: 0 :: W.p) (fun _ => ⊥) (shiftBy (out.startAt idx) o) (0 :: 0 :: κ)).foldr (· ⊔ ·) ⊥ = ⊥ := by
      intro l
      induction l with
      | nil => rfl
      | cons b l ih => rw [List.map_cons, List.foldr_cons, ih, winRead_blank, sup_idem]
    rw [hbot] at e
    have hle : ∀ (l : List F) b, b ∈ l → b ≤ l.foldr (· ⊔ ·) ⊥ := by
      intro l
      induction l with
      | nil => intro b hb; cases hb
      | cons c l ih =>
        intro b hb
        rw [List.foldr_cons]
        rcases List.mem_cons.1 hb with rfl | hb
        · exact le_sup_left
        · exact le_trans (ih b hb) le_sup_right
    have e' := winRead_taps (v := ⊥) (X := fun l => if l = i then a else ⊥) hib hlen ht
    rw [if_pos rfl] at e'
    have := hle _ _ (List.mem_map_of_mem (f := fun κ => winRead (⊥ : F) L.global (1 :: 1 :: W.s) (1 :: 1 :: W.d)
      (0 :: 0 :: W.p) (fun l => if l = i then a else ⊥) (shiftBy (out.startAt idx) o) (0 :: 0 :: κ))
      (mem_kernelCells.2 hκ))
    rw [← e, e'] at this
    exact ha (le_bot_iff.1 this)
  · intro hs localS x X t rg h eager k U S g R hfin o ho
    rw [((C40_maximum_seen hW hD h hl R hr hfin).2.2 o ho).2]
    unfold torchMaxPool
    congr 1
    apply List.map_congr_left
    intro κ hκ
    refine winRead_same (share_length hD hL hi ho).2 fun i hib ht => ?_
    exact if_pos (hs o κ i ho (mem_kernelCells.1 hκ) hib ht)

/-- The blocks of the outputs counted in output channels and in input channels, channels not cut. -/
theorem conv_pool_block (hD : P.shape.length = nd + 2) (hch : P.shape.getD 1 0 = 1) (hL : L.pshape = P.shape)
    {idx : List Nat} (hi : InBounds idx P.shape) (Co : Nat) :
    ∃ b0 bs s0 ss,
      (Layout.balanced P.shape (torchConvShape W Co L.global)).shapeAt idx = b0 :: Co :: bs ∧
      (Layout.balanced P.shape (torchPoolShape W L.global)).shapeAt idx = b0 :: L.global.getD 1 0 :: bs ∧
      (Layout.balanced P.shape (torchConvShape W Co L.global)).startAt idx = s0 :: 0 :: ss ∧
      (Layout.balanced P.shape (torchPoolShape W L.global)).startAt idx = s0 :: 0 :: ss ∧
      bs.length = nd ∧ ss.length = nd := by
  have hLl : L.length = P.shape.length := by rw [← L.length_pshape, hL]
  have hgl : L.global.length = nd + 2 := by rw [Layout.length_global, hLl, hD]
  have hpl : P.shape.length = (torchPoolShape W L.global).length := by rw [length_poolShape W hgl, hD]
  have bp := balanced_lengths hpl hi
  rw [hD] at bp
  obtain ⟨p0, p1, ps, ep⟩ := two_heads hD
  obtain ⟨g0, g1, gs, eg⟩ := two_heads hgl
  obtain ⟨i0, i1, is, ei⟩ := two_heads (hi.length_eq.trans hD)
  rw [ep] at hch hi bp ⊢
  rw [eg] at bp ⊢
  subst ei
  have h1 : p1 = 1 := hch
  have h2 : i1 = 0 := by have := hi.2.1; omega
  subst h1 h2
  refine ⟨((List.range p0).map fun i => subsize p0 i g0).getD i0 0, _, _, _, ?_, ?_, rfl, rfl, Nat.succ.inj (Nat.succ.inj bp.1), Nat.succ.inj (Nat.succ.inj bp.2)⟩
  · show _ :: subsize 1 0 Co :: _ = _
    rw [show subsize 1 0 Co = Co by simp [subsize, Nat.mod_one]]
  · show _ :: subsize 1 0 g1 :: _ = _
    rw [show subsize 1 0 g1 = g1 by simp [subsize, Nat.mod_one]]
    rfl

/-- Some output channel uses input channel `c`. -/
theorem channel_used {gr Ci Co c : Nat} (h1 : gr ∣ Ci) (h2 : gr ∣ Co) (hCo : 0 < Co) (hc : c < Ci) :
    ∃ co c0, co < Co ∧ c0 < Ci / gr ∧ co / (Co / gr) * (Ci / gr) + c0 = c := by
  obtain ⟨a, rfl⟩ := h1
  obtain ⟨b, rfl⟩ := h2
  have hg : 0 < gr := Nat.pos_of_ne_zero (by rintro rfl; simp at hCo)
  have hb : 0 < b := Nat.pos_of_ne_zero (by rintro rfl; simp at hCo)
  have ha : 0 < a := Nat.pos_of_ne_zero (by rintro rfl; simp at hc)
  rw [Nat.mul_div_cancel_left _ hg, Nat.mul_div_cancel_left _ hg]
  refine ⟨c / a * b, c % a, ?_, Nat.mod_lt _ ha, ?_⟩
  · exact Nat.mul_lt_mul_of_pos_right ((Nat.div_lt_iff_lt_mul ha).2 hc) hb
  · rw [Nat.mul_div_cancel _ hb, Nat.mul_comm, Nat.div_add_mod]

/-- C41, convolution: the outputs in a worker's share are those of the sequential layer, for every weight, bias and
tensor and in every run, exactly if no window of the share reads beyond the blocks next to the worker's own. -/
theorem C41_convolution_right_iff {F : Type} [Semiring F] [Nontrivial F] {gr Ci Co : Nat}
    (hW : winParams nd pk ps pp pd = some W) (hD : P.shape.length = nd + 2) (hch : P.shape.getD 1 0 = 1)
    (hroot : ∃ ρ, P.root = some ρ) (hgr : 0 < gr ∧ gr ∣ Ci ∧ gr ∣ Co) (hpos : 0 < Ci ∧ 0 < Co)
    (hw : P.WF) (hL : L.pshape = P.shape) (hCi : L.global.getD 1 0 = Ci) (h1 : P.members.length ≠ 1)
    (hl : WinBase P W L) (dt : NpKey) (junk : Nat → β) (ops : Nat → List (MgrOp β)) (rgw : Bool) {r : Nat}
    (hr : r < P.members.length) :
    let out := Layout.balanced P.shape (torchConvShape W Co L.global)
    let idx := getCoords P.shape r
    (∀ (w : Tensor F) (b : Option (Tensor F)) localS (x : Nat → List Nat → F) X t rg,
      WinInput P W L localS x X t rg → ∀ eager k U S g, WinRun P W 0 localS x dt junk ops eager k U S g →
      (g.ws r).phase = haloPhases P → ∃ y, featureForward P ⟨W, gr, Ci, Co, w, b⟩ rgw localS x U g r = some y ∧
      ∀ o, InBounds o (out.shapeAt idx) →
        y.val o = torchConv W gr Ci Co w.val (biasOf b) L.global X (shiftBy (out.startAt idx) o)) ↔
    WinSees P W L idx := by
  intro out idx
  have hi : InBounds idx P.shape := (getCoords_spec (by rw [← hw.size]; exact hr)).1
  have hLl : L.length = P.shape.length := by rw [← L.length_pshape, hL]
  have hgl : L.global.length = nd + 2 := by rw [Layout.length_global, hLl, hD]
  obtain ⟨b0, bs, s0, ss, e1, e2, e3, e4, hbl, hsl⟩ := conv_pool_block (W := W) hD hch hL hi Co
  rw [hCi] at e2
  have e1' : out.shapeAt idx = b0 :: Co :: bs := e1
  have e3' : out.startAt idx = s0 :: 0 :: ss := e3
  constructor
  · intro hall o κ i ho hκ hib ht
    by_contra hn
    rw [e2] at ho
    rw [e4] at ht
    obtain ⟨b, c, o, rfl⟩ := two_heads (ho.length_eq.trans (by simp : _ = bs.length + 2))
    obtain ⟨co, c0, hco, hc0, hcc⟩ := channel_used hgr.2.1 hgr.2.2 hpos.2 ho.2.1
    have hol : o.length = nd := by rw [ho.2.2.length_eq, hbl]
    obtain ⟨localS, x, k, U, S, g, h, R, hf⟩ := exists_run (W := W) hw hL
      (by rw [(winParams_length hW).2.2.1]; omega) (fun l => if l = i then (1 : F) else 0) 0 dt junk ops true
    obtain ⟨y, hy, e⟩ := hall ⟨Co :: Ci / gr :: W.k, .float32, fun l => if l = co :: c0 :: κ then 1 else 0⟩ none
      _ _ _ _ _ h _ _ _ _ _ R (hf r hr)
    obtain ⟨y', hy', -, -, e'⟩ := C41_convolution_seen
      ⟨W, gr, Ci, Co, ⟨Co :: Ci / gr :: W.k, .float32, fun l => if l = co :: c0 :: κ then 1 else 0⟩, none⟩
      hW hD hch hroot hgr hpos h hCi h1 hl R hr (hf r hr) rgw
    rw [hy] at hy'
    obtain rfl := Option.some.inj hy'
    have hob : InBounds (b :: co :: o) (out.shapeAt idx) := by
      rw [e1']
      exact ⟨ho.1, hco, ho.2.2⟩
    have ee := (e _ hob).symm.trans (e' _ hob).2
    rw [seen_far hn, e3'] at ee
    have hz : ∀ c κ', winRead 0 L.global (1 :: 1 :: W.s) (1 :: 1 :: W.d) (0 :: 0 :: W.p) (fun _ => (0 : F)) c
      (0 :: 0 :: κ') = 0 := fun _ _ => winRead_blank
    simp only [shiftBy, torchConv, hz, mul_zero, boxSum_zero, Finset.sum_const_zero, biasOf, add_zero, zero_add] at ee
    rw [Finset.sum_eq_single_of_mem c0 (Finset.mem_range.2 hc0) (fun c' _ hne => ?_)] at ee
    · simp only [List.cons.injEq, true_and] at ee
      rw [hcc] at ee
      have e5 : (boxSum W.k fun κ' => (if κ' = κ then (1 : F) else 0) * winRead 0 L.global (1 :: 1 :: W.s)
          (1 :: 1 :: W.d) (0 :: 0 :: W.p) (fun l => if l = i then (1 : F) else 0) ((s0 + b) :: c :: shiftBy ss o)
          (0 :: 0 :: κ')) = boxSum W.k fun κ' => if κ' = κ then winRead 0 L.global (1 :: 1 :: W.s)
          (1 :: 1 :: W.d) (0 :: 0 :: W.p) (fun l => if l = i then (1 : F) else 0) ((s0 + b) :: c :: shiftBy ss o)
          (0 :: 0 :: κ') else 0 :=
        boxSum_congr fun κ' _ => by rw [ite_mul, one_mul, zero_mul]
      rw [e5, boxSum_pick hκ, winRead_taps hib (by simp [length_shiftBy, hol, hsl, hgl])
        (by simpa only [shiftBy, Nat.zero_add] using ht), if_pos rfl] at ee
      exact one_ne_zero ee
    · refine Eq.trans (boxSum_congr fun κ' _ => ?_) (boxSum_zero _)
      rw [if_neg (fun e => hne (List.cons.inj (List.cons.inj e).2).1), zero_mul]
  · intro hs w b localS x X t rg h eager k U S g R hfin
    obtain ⟨y, hy, -, -, e⟩ := C41_convolution_seen ⟨W, gr, Ci, Co, w, b⟩ hW hD hch hroot hgr hpos h hCi h1 hl R hr
      hfin rgw
    refine ⟨y, hy, fun o ho => ?_⟩
    rw [(e o ho).2]
    show torchConv W gr Ci Co w.val (biasOf b) _ _ (shiftBy (out.startAt idx) o) = _
    rw [e1'] at ho
    rw [e3']
    obtain ⟨b', co, o, rfl⟩ := two_heads (ho.length_eq.trans (by simp : _ = bs.length + 2))
    have hol : o.length = nd := by rw [ho.2.2.length_eq, hbl]
    simp only [shiftBy, torchConv, Nat.zero_add]
    congr 1
    refine Finset.sum_congr rfl fun c hc => boxSum_congr fun κ hκ => ?_
    congr 1
    refine winRead_same (by simp [length_shiftBy, hol, hsl, hgl]) fun i hib ht => ?_
    refine if_pos (hs (b' :: (co / (Co / gr) * (Ci / gr) + c) :: o) κ i ?_ hκ hib ?_)
    · rw [e2]
      exact ⟨ho.1, group_channel hgr.1 hgr.2.1 hgr.2.2 ho.2.1 (Finset.mem_range.1 hc), ho.2.2⟩
    · rw [e4]
      simpa only [shiftBy, Nat.zero_add] using ht

end

/-! ## Three cells over three workers -/

def farP : Cart := ⟨[0, 1, 2], [1, 1, 3], some 0⟩
def farL : Layout := [[1], [1], [1, 1, 1]]
/-- Kernel size 5, stride 1, padding 2. -/
def farW : WinParams := ⟨[5], [1], [2], [1]⟩

theorem far_base : WinBase farP farW farL := by
  intro j hj
  change j < 3 at hj
  interval_cases j
  · exact ⟨by decide, by decide, by decide, by decide⟩
  · exact ⟨by decide, by decide, by decide, by decide⟩
  · exact ⟨by decide, by decide, by decide, by decide⟩

theorem far_input {α : Type} (X : List Nat → α) : WinInput farP farW farL
    (fun w => (farL.shapeAt ((farP.index w).getD []), .float32, true))
    (fun w l => X (shiftBy (farL.startAt ((farP.index w).getD [])) l)) X .float32 true := by
  refine ⟨⟨by decide, rfl, by decide⟩, by decide, by decide, fun w _ idx e => ?_, fun w _ idx e l _ => ?_⟩
  · simp only [e, Option.getD_some]
  · simp only [e, Option.getD_some]

/-- The halos do not fit. -/
example : ¬ WinReach farP farW farL := fun h => absurd ((h 2 (by decide)).right 0 (by decide)) (by decide)

/-- Worker 0 does not see cell 2, which its output reads at kernel position 4. -/
theorem far_blind : ¬ WinSees farP farW farL (getCoords farP.shape 0) := by
  intro h
  exact absurd (h [0, 0, 0] [4] [0, 0, 2] (by decide) (by decide) (by decide) (by unfold Taps; decide)) (by decide)

/-- Worker 1, in the middle, sees all cells. -/
theorem far_sees : WinSees farP farW farL (getCoords farP.shape 1) := by
  intro o κ i _ _ hi _
  obtain ⟨a, b, l, rfl⟩ := two_heads (n := 1) hi.length_eq
  obtain ⟨h1, h2, h3⟩ := hi
  match l, h3 with
  | [c], h3 =>
    obtain ⟨h3, -⟩ := h3
    change a < 1 at h1
    change b < 1 at h2
    change c < 3 at h3
    interval_cases a
    interval_cases b
    interval_cases c <;> decide

/-- So the maximum worker 0 returns is that of cells 0 and 1, cell 2 is missing. -/
example (X : List Nat → WithBot Int) : ∃ k U S g, WinRun (β := Nat) farP farW ⊥
      (fun w => (farL.shapeAt ((farP.index w).getD []), .float32, true))
      (fun w l => X (shiftBy (farL.startAt ((farP.index w).getD [])) l)) (.inst .float32) (fun _ => 0)
      (fun _ => []) true k U S g ∧
    (maxPoolForward farP farW (fun w => (farL.shapeAt ((farP.index w).getD []), .float32, true))
      (fun w l => X (shiftBy (farL.startAt ((farP.index w).getD [])) l)) U g 0).val [0, 0, 0] =
        max (X [0, 0, 0]) (X [0, 0, 1]) ∧
    torchMaxPool farW farL.global X [0, 0, 0] = max (X [0, 0, 0]) (max (X [0, 0, 1]) (X [0, 0, 2])) := by
  obtain ⟨U, S, R0⟩ := C39_starts (far_input X) ⊥ (.inst .float32) (fun _ => (0 : Nat)) (fun _ => []) true
  obtain ⟨k, g, R, -, hf⟩ := C39_completes (far_input X) R0
  refine ⟨k, U, S, g, R, ?_, ?_⟩
  · rw [((C40_maximum_seen (nd := 1) (show poolParams false 1 [5] [1] [2] [1] = some farW by decide) rfl
      (far_input X) far_base R (r := 0) (by decide) (hf 0 (by decide))).2.2 [0, 0, 0] (by decide)).2]
    show (⊥ ⊔ (⊥ ⊔ (X [0, 0, 0] ⊔ (X [0, 0, 1] ⊔ (⊥ ⊔ ⊥))))) = _
    simp
  · show (⊥ ⊔ (⊥ ⊔ (X [0, 0, 0] ⊔ (X [0, 0, 1] ⊔ (X [0, 0, 2] ⊔ ⊥))))) = _
    simp

/-- The hypotheses of `C40_average_right_iff` and `C41_convolution_right_iff`. -/
example : poolParams true 1 [5] [1] [2] [1] = some farW ∧ winParams 1 [5] [1] [2] [1] = some farW ∧ farP.WF ∧
    farL.pshape = farP.shape ∧ farL.global.getD 1 0 = 1 ∧ farP.members.length ≠ 1 ∧ WinBase farP farW farL :=
  ⟨by decide, by decide, ⟨by decide, rfl, by decide⟩, by decide, by decide, by decide, far_base⟩

end Verif
