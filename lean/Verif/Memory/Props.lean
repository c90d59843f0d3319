import Verif.Memory.Model
import Verif.Window.Near
import Verif.Interp.Near

/-!
# C91: what a layer does to the tensor it is given
-/

namespace Verif

open Exchange

/-! ## Specification -/

/-- All numbers of windows of the sequential operator, batch and channel dimension included. -/
def windowCounts (P : Cart) (W : WinParams) (L : Layout) : List Nat :=
  let F := W.full P.shape.length
  (List.range P.shape.length).map fun j =>
    torchOut1 (L.global.getD j 0) (F.k.getD j 0) (F.s.getD j 0) (F.p.getD j 0) (F.d.getD j 0)

/-- The worker at `idx` needs nothing but its own block: the windows of its share of the outputs read cells of
this block only, and where there is padding, the worker is not at the end of the tensor. -/
def WinInside (P : Cart) (W : WinParams) (L : Layout) (idx : List Nat) : Prop :=
  let F := W.full P.shape.length
  let out := Layout.balanced P.shape (windowCounts P W L)
  (∀ j, j < P.shape.length → 0 < F.p.getD j 0 → idx.getD j 0 + 1 ≠ P.shape.getD j 0) ∧
  ∀ o κ, InBounds o (out.shapeAt idx) → InBounds κ F.k → ∀ j, j < P.shape.length →
    ((L.startAt idx).getD j 0 : Int) ≤ (winPos F.s F.d F.p (shiftBy (out.startAt idx) o) κ).getD j 0 ∧
    (winPos F.s F.d F.p (shiftBy (out.startAt idx) o) κ).getD j 0 <
      ((L.startAt idx).getD j 0 + (L.shapeAt idx).getD j 0 : Nat)

/-! ## Lemmas -/

theorem sum_zero_of_forall {l : List Nat} (h : ∀ n ∈ l, n = 0) : l.sum = 0 := by
  induction l with
  | nil => rfl
  | cons a l ih =>
    rw [List.sum_cons, h a (by simp), ih fun n hn => h n (by simp [hn])]

/-- One axis: the widths are 0 exactly if the first and the last cell of the worker's windows are in its block, and
there is no padding at the end. -/
theorem axis_inside {k s p d : Nat} {bs : List Nat} {c : Nat} (hc : c < bs.length)
    {lw rw : Nat} (hlw : (lw : Int) = max ((((padList p bs).take c).sum : Int) -
      (s * startIdx bs.length c (torchOut1 bs.sum k s p d) : Nat)) 0)
    (hrw : (rw : Int) = max ((s * (startIdx bs.length (c + 1) (torchOut1 bs.sum k s p d) - 1) +
      (d * (k - 1) + 1) : Nat) - ((((padList p bs).take c).sum : Int) + (padList p bs).getD c 0)) 0) :
    ((if c = 0 then p else 0) + lw = 0 ∧ (if c + 1 = bs.length then p else 0) + rw = 0) ↔
      (0 < p → c + 1 ≠ bs.length) ∧
      (bs.take c).sum + p ≤ s * startIdx bs.length c (torchOut1 bs.sum k s p d) ∧
      s * (startIdx bs.length (c + 1) (torchOut1 bs.sum k s p d) - 1) + (d * (k - 1) + 1) ≤
        (bs.take (c + 1)).sum + p := by
  have h1 := padList_take p bs hc
  have h2 := padList_end p bs hc
  have h3 := take_sum_succ (padList p bs) c
  have h4 := take_sum_succ bs c
  have h0 : startIdx bs.length 0 (torchOut1 bs.sum k s p d) = 0 := startIdx_zero _ _
  by_cases hz : c = 0
  · subst hz
    rw [h0, Nat.mul_zero] at *
    simp only [List.take_zero, List.sum_nil] at *
    by_cases he : 0 + 1 = bs.length
    · simp only [if_pos he, if_true] at *
      constructor
      · rintro ⟨e1, e2⟩
        refine ⟨by omega, by omega, by omega⟩
      · rintro ⟨e1, e2, e3⟩
        refine ⟨by omega, by omega⟩
    · simp only [if_neg he, if_true] at *
      constructor
      · rintro ⟨e1, e2⟩
        refine ⟨by omega, by omega, by omega⟩
      · rintro ⟨e1, e2, e3⟩
        refine ⟨by omega, by omega⟩
  · rw [if_pos (by omega)] at h1
    rw [if_neg hz]
    by_cases he : c + 1 = bs.length
    · simp only [if_pos he] at *
      constructor
      · rintro ⟨e1, e2⟩
        refine ⟨by omega, by omega, by omega⟩
      · rintro ⟨e1, e2, e3⟩
        have := e1
        refine ⟨by omega, by omega⟩
    · simp only [if_neg he] at *
      constructor
      · rintro ⟨e1, e2⟩
        refine ⟨fun _ => he, by omega, by omega⟩
      · rintro ⟨e1, e2, e3⟩
        refine ⟨by omega, by omega⟩

section
variable {α β : Type} {P : Cart} {W : WinParams} {L : Layout} {localS : Nat → List Nat × TorchDtype × Bool}
  {x : Nat → List Nat → α} {X : List Nat → α} {t : TorchDtype} {rg : Bool}
  {dt : NpKey} {junk : Nat → β} {ops : Nat → List (MgrOp β)} {eager : Bool} {k : Nat}
  {U : Nat → WinSetup} {S : Nat → HaloSetup} {g : GState (List Nat → α) (List Nat → α)} {v : α}

/-- The condition, dimension by dimension. -/
theorem winInside_axes (h : WinInput P W L localS x X t rg) (hl : WinBase P W L)
    (hk : (W.full P.shape.length).k.length = P.shape.length) {idx : List Nat} (hi : InBounds idx P.shape) :
    WinInside P W L idx ↔ ∀ j, j < P.shape.length →
      let F := W.full P.shape.length
      let bs := L.getD j []
      let M := torchOut1 bs.sum (F.k.getD j 0) (F.s.getD j 0) (F.p.getD j 0) (F.d.getD j 0)
      let c := idx.getD j 0
      (0 < F.p.getD j 0 → c + 1 ≠ bs.length) ∧
      (bs.take c).sum + F.p.getD j 0 ≤ F.s.getD j 0 * startIdx bs.length c M ∧
      F.s.getD j 0 * (startIdx bs.length (c + 1) M - 1) + (F.d.getD j 0 * (F.k.getD j 0 - 1) + 1) ≤
        (bs.take (c + 1)).sum + F.p.getD j 0 := by
  have hLl : idx.length = L.length := by rw [hi.length_eq, h.length]
  have hwl : P.shape.length = (windowCounts P W L).length := by simp [windowCounts]
  have hM : ∀ j, j < P.shape.length → (windowCounts P W L).getD j 0 = torchOut1 (L.getD j []).sum
      ((W.full P.shape.length).k.getD j 0) ((W.full P.shape.length).s.getD j 0)
      ((W.full P.shape.length).p.getD j 0) ((W.full P.shape.length).d.getD j 0) := by
    intro j hj
    rw [windowCounts, getD_map_range _ _ hj, global_getD (by rw [h.length]; exact hj)]
  obtain ⟨b1, b2⟩ := balanced_lengths (idx := idx) hwl hi
  have hpos : ∀ j, j < P.shape.length → ∀ o κ : List Nat, o.length = P.shape.length →
      (winPos (W.full P.shape.length).s (W.full P.shape.length).d (W.full P.shape.length).p
        (shiftBy ((Layout.balanced P.shape (windowCounts P W L)).startAt idx) o) κ).getD j 0 =
      (((W.full P.shape.length).s.getD j 0 * (startIdx (P.shape.getD j 0) (idx.getD j 0)
        ((windowCounts P W L).getD j 0) + o.getD j 0) + (W.full P.shape.length).d.getD j 0 * κ.getD j 0 : Nat) : Int) -
        (W.full P.shape.length).p.getD j 0 := by
    intro j hj o κ ho
    have hsl : (shiftBy ((Layout.balanced P.shape (windowCounts P W L)).startAt idx) o).length = P.shape.length := by
      rw [length_shiftBy (by rw [b2, ho]), b2]
    rw [winPos, getD_map_range _ _ (by rw [hsl]; exact hj), getD_shiftBy (by rw [b2]; exact hj) (by rw [ho]; exact hj),
      (balanced_getD hwl hi hj).2]
    push_cast
    ring
  have hy : ∀ j, j < P.shape.length → 0 < subsize (P.shape.getD j 0) (idx.getD j 0) ((windowCounts P W L).getD j 0) := by
    intro j hj
    have := (hl j hj).outputs (idx.getD j 0) (by rw [blocks_length h hj]; exact inBounds_getD hi hj)
    rw [blocks_length h hj, ← hM j hj] at this
    exact this
  have hgrid : ∀ f : Nat → Nat, (∀ j, j < P.shape.length →
      f j < subsize (P.shape.getD j 0) (idx.getD j 0) ((windowCounts P W L).getD j 0)) →
      InBounds ((List.range P.shape.length).map f) ((Layout.balanced P.shape (windowCounts P W L)).shapeAt idx) := by
    intro f hf
    rw [inBounds_iff, b1]
    refine ⟨by simp, fun j hj => ?_⟩
    rw [getD_map_range _ _ hj, (balanced_getD hwl hi hj).1]
    exact hf j hj
  constructor
  · rintro ⟨w1, w2⟩ j hj
    have hb := blocks_length h hj
    have ha := hl j hj
    obtain ⟨s1, s2, s3⟩ := L.shapeAt_getD idx hLl j (by rw [h.length]; exact hj)
    have z := (w2 ((List.range P.shape.length).map fun _ => 0) ((List.range P.shape.length).map fun _ => 0)
      (hgrid _ hy) (by
        rw [inBounds_iff, hk]
        exact ⟨by simp, fun j hj => by rw [getD_map_range _ _ hj]; exact (hl j hj).kernel⟩) j hj).1
    have e := (w2 ((List.range P.shape.length).map fun j =>
        subsize (P.shape.getD j 0) (idx.getD j 0) ((windowCounts P W L).getD j 0) - 1)
      ((List.range P.shape.length).map fun j => (W.full P.shape.length).k.getD j 0 - 1)
      (hgrid _ fun j hj => by have := hy j hj; omega) (by
        rw [inBounds_iff, hk]
        refine ⟨by simp, fun j hj => ?_⟩
        rw [getD_map_range _ _ hj]
        have := (hl j hj).kernel
        omega) j hj).2
    rw [hpos j hj _ _ (by simp), getD_map_range _ _ hj, s2] at z
    rw [hpos j hj _ _ (by simp), getD_map_range _ _ hj, getD_map_range _ _ hj, s1, s2] at e
    have hs : startIdx (P.shape.getD j 0) (idx.getD j 0 + 1) ((windowCounts P W L).getD j 0) =
      startIdx (P.shape.getD j 0) (idx.getD j 0) ((windowCounts P W L).getD j 0) +
        subsize (P.shape.getD j 0) (idx.getD j 0) ((windowCounts P W L).getD j 0) := startIdx_succ _ _ _
    dsimp only
    rw [hb, ← hM j hj, take_sum_succ]
    have hyj := hy j hj
    have e1 : startIdx (P.shape.getD j 0) (idx.getD j 0 + 1) ((windowCounts P W L).getD j 0) - 1 =
      startIdx (P.shape.getD j 0) (idx.getD j 0) ((windowCounts P W L).getD j 0) +
        (subsize (P.shape.getD j 0) (idx.getD j 0) ((windowCounts P W L).getD j 0) - 1) := by
      omega
    rw [e1]
    refine ⟨w1 j hj, ?_, ?_⟩
    · rw [Nat.mul_zero, Nat.add_zero, Nat.add_zero] at z
      omega
    · omega
  · intro w
    refine ⟨fun j hj hp => by rw [← blocks_length h hj]; exact (w j hj).1 hp, fun o κ ho hκ j hj => ?_⟩
    obtain ⟨s1, s2, s3⟩ := L.shapeAt_getD idx hLl j (by rw [h.length]; exact hj)
    obtain ⟨-, w2, w3⟩ := w j hj
    have hol : o.length = P.shape.length := by rw [ho.length_eq, b1]
    have ho' := inBounds_getD ho (by rw [b1]; exact hj)
    rw [(balanced_getD hwl hi hj).1] at ho'
    have hκ' := inBounds_getD hκ (by rw [hk]; exact hj)
    rw [hpos j hj o κ hol, s1, s2]
    rw [blocks_length h hj, ← hM j hj] at w2 w3
    rw [take_sum_succ] at w3
    have hs : startIdx (P.shape.getD j 0) (idx.getD j 0 + 1) ((windowCounts P W L).getD j 0) =
      startIdx (P.shape.getD j 0) (idx.getD j 0) ((windowCounts P W L).getD j 0) +
        subsize (P.shape.getD j 0) (idx.getD j 0) ((windowCounts P W L).getD j 0) := startIdx_succ _ _ _
    have m1 : (W.full P.shape.length).s.getD j 0 * startIdx (P.shape.getD j 0) (idx.getD j 0)
        ((windowCounts P W L).getD j 0) ≤ (W.full P.shape.length).s.getD j 0 * (startIdx (P.shape.getD j 0)
        (idx.getD j 0) ((windowCounts P W L).getD j 0) + o.getD j 0) := Nat.mul_le_mul_left _ (by omega)
    have m2 : (W.full P.shape.length).s.getD j 0 * (startIdx (P.shape.getD j 0)
        (idx.getD j 0) ((windowCounts P W L).getD j 0) + o.getD j 0) ≤ (W.full P.shape.length).s.getD j 0 *
        (startIdx (P.shape.getD j 0) (idx.getD j 0 + 1) ((windowCounts P W L).getD j 0) - 1) :=
      Nat.mul_le_mul_left _ (by omega)
    have m3 : (W.full P.shape.length).d.getD j 0 * κ.getD j 0 ≤ (W.full P.shape.length).d.getD j 0 *
        ((W.full P.shape.length).k.getD j 0 - 1) := Nat.mul_le_mul_left _ (by omega)
    constructor <;> omega

/-- The layer pads nothing on a worker exactly if the worker needs its own block only. -/
theorem unpadded_iff (h : WinInput P W L localS x X t rg) (hl : WinBase P W L)
    (hk : W.k.length ≤ P.shape.length)
    (hU : ∀ r, r < P.members.length → winSetup P W localS (P.members.getD r 0) = some (U r)) {r : Nat}
    (hr : r < P.members.length) :
    ((U r).total.map fun p => p.1 + p.2).sum = 0 ↔ WinInside P W L (getCoords P.shape r) := by
  obtain ⟨T, hT, hUr, -, -⟩ := setup_facts h (x 0 []) hU
  have hi : InBounds (getCoords P.shape r) P.shape := (getCoords_spec (by rw [← h.wf.size]; exact hr)).1
  rw [winInside_axes h hl (by simp [WinParams.full]; omega) hi]
  have hax := fun j (hj : j < P.shape.length) => plan_axis h hl hj (inBounds_getD hi hj)
  have htot := fun j (hj : j < P.shape.length) => total_getD h hT hr hj
  rw [hUr r hr]
  have hiff := fun j (hj : j < P.shape.length) => axis_inside (c := (getCoords P.shape r).getD j 0)
    (by rw [blocks_length h hj]; exact inBounds_getD hi hj)
    (by rw [blocks_length h hj]; exact (hax j hj).1) (by rw [blocks_length h hj]; exact (hax j hj).2)
  constructor
  · intro hs j hj
    obtain ⟨t1, t2⟩ := htot j hj
    refine (hiff j hj).1 ?_
    have hm := sum_eq_zero_iff_forall hs _ (List.mem_map.2 ⟨_, by
      rw [List.getD_eq_getElem _ _ (by rw [t1]; exact hj)] at t2
      exact t2 ▸ List.getElem_mem _, rfl⟩)
    simp only at hm
    rw [blocks_length h hj]
    rw [globalPadding_full] at hm
    constructor <;> omega
  · intro hs
    refine sum_zero_of_forall fun n hn => ?_
    obtain ⟨q, hq, rfl⟩ := List.mem_map.1 hn
    obtain ⟨j, hj, rfl⟩ := List.getElem_of_mem hq
    have hj' : j < P.shape.length := by
      by_contra hc
      have := List.length_zipWith (f := fun (p : Nat × Nat) (h : Int × Int) => (p.1 + h.1.toNat, p.2 + h.2.toNat))
        (l₁ := localPadding P.shape (getCoords P.shape r) (globalPadding P.shape.length W.p))
        (l₂ := (exchangeInfo (winDims P W L) (some T) (getCoords P.shape r)).recv)
      have hl1 : (localPadding P.shape (getCoords P.shape r) (globalPadding P.shape.length W.p)).length =
        P.shape.length := by simp [localPadding]
      have hj2 := hj
      unfold WinSetup.total at hj2
      rw [this] at hj2
      omega
    obtain ⟨t1, t2⟩ := htot j hj'
    have := (hiff j hj').2 (hs j hj')
    rw [blocks_length h hj'] at this
    rw [← List.getD_eq_getElem _ (0, 0) hj, t2]
    simp only
    rw [globalPadding_full]
    omega

/-! ## C91 -/

/-- C91: PyTorch refuses the tensor given to a convolution or pooling layer on a worker exactly if grad mode is on,
the tensor is a leaf that requires gradients, and the worker needs nothing but its own block. -/
theorem C91_refused_iff (h : WinInput P W L localS x X t rg) (hl : WinBase P W L) (hk : W.k.length ≤ P.shape.length)
    (hU : ∀ r, r < P.members.length → winSetup P W localS (P.members.getD r 0) = some (U r)) {r : Nat}
    (hr : r < P.members.length) (grad : Bool) (u : TRef) :
    winPass (U r) grad u = none ↔
      grad = true ∧ u.leaf = true ∧ u.requiresGrad = true ∧ WinInside P W L (getCoords P.shape r) := by
  rw [← unpadded_iff h hl hk hU hr]
  obtain ⟨lf, rq, n⟩ := u
  unfold winPass markDirty padRef
  generalize ((U r).total.map fun p => p.1 + p.2).sum = n
  split <;> rename_i hz <;> cases grad <;> cases lf <;> cases rq <;> simp [hz]

/-- C91: the pass counts as a modification of the tensor of the user exactly if the worker needs nothing but its own
block; leaf and gradient flag stay. -/
theorem C91_version (h : WinInput P W L localS x X t rg) (hl : WinBase P W L) (hk : W.k.length ≤ P.shape.length)
    (hU : ∀ r, r < P.members.length → winSetup P W localS (P.members.getD r 0) = some (U r)) {r : Nat}
    (hr : r < P.members.length) {grad : Bool} {u : TRef} {p : LayerPass} (hp : winPass (U r) grad u = some p) :
    p.user.leaf = u.leaf ∧ p.user.requiresGrad = u.requiresGrad ∧
      (p.user.version ≠ u.version ↔ WinInside P W L (getCoords P.shape r)) := by
  rw [← unpadded_iff h hl hk hU hr]
  obtain ⟨lf, rq, n⟩ := u
  unfold winPass markDirty padRef at hp
  generalize ((U r).total.map fun p => p.1 + p.2).sum = n at hp ⊢
  split at hp <;> rename_i hz <;> cases grad <;> cases lf <;> cases rq <;> simp at hp <;> subst hp <;> simp [hz]

/-- C91: two layers are applied to the same tensor, one after the other.  The backward pass of the second one can read
what it saved; that of the first one raises exactly if on this worker both layers need nothing but the worker's own
block. -/
theorem C91_shared_iff {W' : WinParams} {U' : Nat → WinSetup} {x' : Nat → List Nat → α} {X' : List Nat → α}
    (h : WinInput P W L localS x X t rg) (hl : WinBase P W L) (hk : W.k.length ≤ P.shape.length)
    (hU : ∀ r, r < P.members.length → winSetup P W localS (P.members.getD r 0) = some (U r))
    (h' : WinInput P W' L localS x' X' t rg) (hl' : WinBase P W' L) (hk' : W'.k.length ≤ P.shape.length)
    (hU' : ∀ r, r < P.members.length → winSetup P W' localS (P.members.getD r 0) = some (U' r)) {r : Nat}
    (hr : r < P.members.length) {grad : Bool} {u : TRef} {p p' : LayerPass} (hp : winPass (U r) grad u = some p)
    (hp' : winPass (U' r) grad p.user = some p') :
    p'.unpacks p'.user = true ∧ (p.unpacks p'.user = false ↔
      WinInside P W L (getCoords P.shape r) ∧ WinInside P W' L (getCoords P.shape r)) := by
  have hv := (C91_version h' hl' hk' hU' hr hp').2.2
  rw [← hv, ← unpadded_iff h hl hk hU hr]
  constructor
  · unfold winPass at hp'
    split at hp'
    · obtain ⟨q, -, rfl⟩ := Option.map_eq_some_iff.1 hp'
      simp [LayerPass.unpacks]
    · obtain ⟨q, -, rfl⟩ := Option.map_eq_some_iff.1 hp'
      rfl
  · unfold winPass at hp
    generalize ((U r).total.map fun p => p.1 + p.2).sum = n at hp ⊢
    split at hp
    · rename_i hz
      obtain ⟨q, -, rfl⟩ := Option.map_eq_some_iff.1 hp
      simp only [LayerPass.unpacks, hz, true_and, beq_eq_false_iff_ne]
      exact ne_comm
    · rename_i hz
      obtain ⟨q, -, rfl⟩ := Option.map_eq_some_iff.1 hp
      simp [LayerPass.unpacks, hz]

/-- C91: whatever the layer does, the entries of the tensor of the user are the same once the exchange is
finished. -/
theorem C91_entries_partial (h : WinInput P W L localS x X t rg)
    (R : WinRun P W v localS x dt junk ops eager k U S g) {r : Nat} (hr : r < P.members.length)
    (hfin : (g.ws r).phase = haloPhases P) {l : List Nat}
    (hb : InBounds l (L.shapeAt (getCoords P.shape r))) :
    userEntries (U r) (x (P.members.getD r 0)) (g.ws r).st l = x (P.members.getD r 0) l := by
  obtain ⟨T, hT, hU, hsh, hst, hS⟩ := R.facts h
  have hok : (winPlan P W L).OK := plan_ok_always (winDims_plan h)
  have hi : InBounds (getCoords P.shape r) P.shape := (getCoords_spec (by rw [← h.wf.size]; exact hr)).1
  unfold userEntries
  split
  swap
  · rfl
  rename_i hz
  have hpad : ∀ s : List Nat, (U r).padInput v s (x (P.members.getD r 0)) = (s, x (P.members.getD r 0)) := by
    intro s
    unfold WinSetup.padInput
    rw [if_pos hz]
  obtain ⟨m1, m2⟩ := member_spec h.wf hr
  have hloc : (localS (P.members.getD r 0)).1 = L.shapeAt (getCoords P.shape r) := by rw [h.loc _ m1 _ m2]
  have hsr := hsh r hr
  rw [hpad, hloc] at hsr
  have hw0 : ∀ j, j < P.shape.length → (winPlan P W L).lw j ((getCoords P.shape r).getD j 0) = 0 ∧
      (winPlan P W L).rw j ((getCoords P.shape r).getD j 0) = 0 := by
    intro j hj
    obtain ⟨t1, t2⟩ := total_getD h hT hr hj
    rw [hU r hr] at hz
    have hm := sum_eq_zero_iff_forall hz _ (List.mem_map.2 ⟨_, by
      rw [List.getD_eq_getElem _ _ (by rw [t1]; exact hj)] at t2
      exact t2 ▸ List.getElem_mem _, rfl⟩)
    simp only at hm
    omega
  have hl' : InBounds l ((winPlan P W L).shape r) := by rw [← hsr]; exact hb
  have hD : (winPlan P W L).D = P.shape.length := rfl
  have hll : l.length = P.shape.length := by rw [hl'.length_eq, HaloPlan.length_shape, hD]
  have hLl : (winPlan P W L).L.length = P.shape.length := by
    rw [← (winPlan P W L).L.length_pshape, hok.layout]; rfl
  have hil : (getCoords P.shape r).length = (winPlan P W L).L.length := by rw [hLl, hi.length_eq]
  have hsize : ∀ j, j < P.shape.length → l.getD j 0 < (winPlan P W L).x j ((getCoords P.shape r).getD j 0) := by
    intro j hj
    have := (inBounds_iff.1 hl').2 j (by rw [HaloPlan.length_shape]; exact hj)
    rw [HaloPlan.shape_getD (H := winPlan P W L) hj, HaloPlan.size] at this
    have e := hw0 j hj
    change _ < (winPlan P W L).lw j ((getCoords P.shape r).getD j 0) + (winPlan P W L).x j ((getCoords P.shape r).getD j 0) +
      (winPlan P W L).rw j ((getCoords P.shape r).getD j 0) at this
    omega
  have hbulk : InBounds l ((winPlan P W L).L.shapeAt (getCoords P.shape r)) := by
    rw [inBounds_iff, Layout.length_shapeAt hil, hLl]
    refine ⟨hll, fun j hj => ?_⟩
    rw [((winPlan P W L).L.shapeAt_getD _ hil j (by rw [hLl]; exact hj)).1]
    exact hsize j hj
  have horig : shiftBy ((winPlan P W L).origin r) l = shiftBy ((winPlan P W L).L.startAt (getCoords P.shape r)) l := by
    congr 1
    apply eq_of_getD
    · rw [Layout.length_startAt hil, hLl]; simp [HaloPlan.origin, hD]
    · intro j hj
      have hj' : j < P.shape.length := by simpa [HaloPlan.origin, hD] using hj
      rw [HaloPlan.origin_getD (H := winPlan P W L) hj', ((winPlan P W L).L.shapeAt_getD _ hil j (by rw [hLl]; exact hj')).2.1]
      have e := hw0 j hj'
      change (winPlan P W L).st j ((getCoords P.shape r).getD j 0) - (winPlan P W L).lw j ((getCoords P.shape r).getD j 0) = _
      rw [e.1]
      rfl
  have hnear : Near (winPlan P W L).L (getCoords P.shape r) (shiftBy ((winPlan P W L).origin r) l) := by
    intro j hj
    rw [hi.length_eq] at hj
    have e := ((winPlan P W L).L.shapeAt_getD _ hil j (by rw [hLl]; exact hj)).2.1
    rw [horig, getD_shiftBy (by rw [Layout.length_startAt hil, hLl]; exact hj) (by rw [hll]; exact hj), e]
    have hx := hsize j hj
    have e1 := take_sum_succ ((winPlan P W L).L.getD j []) ((getCoords P.shape r).getD j 0)
    have e2 : (((winPlan P W L).L.getD j []).take ((getCoords P.shape r).getD j 0 + 2)).sum = _ :=
      take_sum_succ ((winPlan P W L).L.getD j []) ((getCoords P.shape r).getD j 0 + 1)
    have e3 := take_sum_succ ((winPlan P W L).L.getD j []) ((getCoords P.shape r).getD j 0 - 1)
    change _ < ((winPlan P W L).L.getD j []).getD _ 0 at hx
    refine ⟨?_, by omega⟩
    by_cases hc : (getCoords P.shape r).getD j 0 = 0
    · rw [hc]; simp
    · rw [show (getCoords P.shape r).getD j 0 - 1 + 1 = (getCoords P.shape r).getD j 0 by omega] at e3
      omega
  have hf := (C37_cells hok hS (paddedGlobal v (globalPadding P.shape.length W.p) L.global X) v
    _ hst (fun w hw l hl hn => padInput_filler h R.setup hw hl hn) R.exec hr hfin l hl').2
  rw [hf]
  refine (if_pos hnear).trans ?_
  rw [horig]
  refine ((hst r hr l hbulk).symm.trans ?_)
  rw [hpad]
  show x (P.members.getD r 0) _ = _
  congr 1
  apply eq_of_getD
  · rw [length_shiftBy (by simp [hD, hll])]
    simp [hD, hll]
  · intro j hj
    rw [length_shiftBy (by simp [hD, hll]), List.length_map, List.length_range, hD] at hj
    rw [getD_shiftBy (by simpa [hD] using hj) (by rw [hll]; exact hj),
      getD_map_range (D := (winPlan P W L).D) _ _ hj]
    have e := (hw0 j hj).1
    change (winPlan P W L).lw j ((getCoords P.shape r).getD j 0) + _ = _
    omega

/-- C91: on one worker and without padding, a leaf that requires gradients is always refused (pooling; a convolution
on one worker is the sequential one). -/
theorem C91_one_worker (h : WinInput P W L localS x X t rg) (hl : WinBase P W L) (hk : W.k.length ≤ P.shape.length)
    (hU : ∀ r, r < P.members.length → winSetup P W localS (P.members.getD r 0) = some (U r))
    (h1 : ∀ j, j < P.shape.length → P.shape.getD j 0 = 1)
    (hp : ∀ j, j < P.shape.length → (W.full P.shape.length).p.getD j 0 = 0) {r : Nat} (hr : r < P.members.length)
    (n : Nat) : winPass (U r) true ⟨true, true, n⟩ = none := by
  have hi : InBounds (getCoords P.shape r) P.shape := (getCoords_spec (by rw [← h.wf.size]; exact hr)).1
  refine (C91_refused_iff h hl hk hU hr true ⟨true, true, n⟩).2 ⟨rfl, rfl, rfl, ?_⟩
  rw [winInside_axes h hl (by simp [WinParams.full]; omega) hi]
  intro j hj
  have hc := inBounds_getD hi hj
  rw [h1 j hj] at hc
  have hc0 : (getCoords P.shape r).getD j 0 = 0 := by omega
  have hb := blocks_length h hj
  rw [h1 j hj] at hb
  dsimp only
  rw [hc0, hp j hj, hb, startIdx_zero, startIdx_top (by omega), List.take_zero,
    List.take_of_length_le (i := 0 + 1) (by omega)]
  have a := hl j hj
  rw [hp j hj] at a
  refine ⟨by omega, by simp, ?_⟩
  show _ ≤ (L.getD j []).sum + 0
  rw [torchOut1_windows a.kernel (by have := a.fit; omega), windows, Nat.add_sub_cancel]
  have := Nat.mul_div_le ((L.getD j []).sum - ((W.full P.shape.length).d.getD j 0 *
    ((W.full P.shape.length).k.getD j 0 - 1) + 1)) ((W.full P.shape.length).s.getD j 0)
  have := a.fit
  omega

/-- C91: on one worker, upsampling refuses every leaf that requires gradients. -/
theorem C91_upsampling_one_worker {K : Type} [Field K] [LinearOrder K] [IsStrictOrderedRing K] [FloorRing K]
    {size : Option (List Nat)} {p : InterpParams K} {gx gy : List Nat} {x : Nat → List Nat → K} {X : List Nat → K}
    {U : Nat → UpSetup} (hin : UpInput P gx localS x X t rg) (hgy : upsampleShape size p.scale gx = some gy)
    (hly : gy.length = P.shape.length)
    (hfac : ∀ j, j < P.shape.length → (mixinFac p j (gx.getD j 0) (gy.getD j 0)).isSome)
    (hU : ∀ r, r < P.members.length → upSetup P size p localS (P.members.getD r 0) = some (U r))
    (h1 : ∀ j, j < P.shape.length → P.shape.getD j 0 = 1) {r : Nat} (hr : r < P.members.length) (n : Nat) :
    upPass (U r) true ⟨true, true, n⟩ = none := by
  have hi : InBounds (getCoords P.shape r) P.shape := (getCoords_spec (by rw [← hin.wf.size]; exact hr)).1
  have e : U r = upFacts P p gx gy r := Option.some.inj ((hU r hr).symm.trans (upSetup_spec hin hgy hly hfac hr))
  unfold upPass
  rw [if_pos]
  · rfl
  refine sum_zero_of_forall fun n hn => ?_
  obtain ⟨q, hq, rfl⟩ := List.mem_map.1 hn
  obtain ⟨h', hh, rfl⟩ := List.mem_map.1 hq
  rw [e] at hh
  obtain ⟨j, hj, rfl⟩ := List.getElem_of_mem hh
  have hj' : j < P.shape.length := by simpa [upFacts, interpInfo, interpHalo] using hj
  have er := upRecv_plan (p := p) (gx := gx) (gy := gy) (idx := getCoords P.shape r) hj'
  have hc := inBounds_getD hi hj'
  rw [h1 j hj'] at hc
  have hc0 : (getCoords P.shape r).getD j 0 = 0 := by omega
  have hb := upPlan_boundary (p := p) (gx := gx) (gy := gy) hin.wf hj'
  rw [h1 j hj'] at hb
  rw [hc0, hb.1, hb.2] at er
  rw [show (upFacts P p gx gy r).info.recv[j] = (interpHalo true p P.shape gx gy (getCoords P.shape r)).getD j (0, 0) from
    (List.getD_eq_getElem _ _ hj).symm, er]
  rfl

/-- C91: the adjoint of the halo exchange overwrites the gradient it is given
(`backends/mpi/functional/halo_exchange.py:112,115,134,136`): every nonzero entry in a halo is lost. -/
theorem C91_gradient_overwritten {M : Type} [AddCommMonoid M] {H : HaloPlan} (h : H.OK) (hf : H.Fits)
    (hS : H.SetUp dt junk ops S) (y : Nat → List Nat → M) {e : Bool} {k : Nat}
    {g : GState (List Nat → M) (List Nat → M)}
    (hex : Exec (haloBackward H.D S) H.n (haloPhases H.P) e k (GState.init y) g) {w : Nat}
    (hw : w < H.n) (hfin : (g.ws w).phase = haloPhases H.P) {l : List Nat} (hl : InBounds l (H.shape w))
    (hg : ∃ j, j < H.D ∧ (l.getD j 0 < H.lw j (H.co w j) ∨
      H.lw j (H.co w j) + H.x j (H.co w j) ≤ l.getD j 0)) (hy : y w l ≠ 0) : (g.ws w).st l ≠ y w l := by
  rw [C36_cleared h hf hS y hex hw hfin hl hg]
  exact hy.symm

end

/-! ## A convolution with kernel size 1 over two workers -/

def dotP : Cart := ⟨[0, 1], [1, 1, 2], some 0⟩
def dotW : WinParams := ⟨[1], [1], [0], [1]⟩
def dotL : Layout := [[1], [1], [2, 2]]

theorem dot_base : WinBase dotP dotW dotL := by
  intro j hj
  change j < 3 at hj
  interval_cases j
  · exact ⟨by decide, by decide, by decide, by decide⟩
  · exact ⟨by decide, by decide, by decide, by decide⟩
  · exact ⟨by decide, by decide, by decide, by decide⟩

theorem dot_input {α : Type} (X : List Nat → α) : WinInput dotP dotW dotL
    (fun w => (dotL.shapeAt ((dotP.index w).getD []), .float32, true))
    (fun w l => X (shiftBy (dotL.startAt ((dotP.index w).getD [])) l)) X .float32 true := by
  refine ⟨⟨by decide, rfl, by decide⟩, by decide, by decide, fun w _ idx e => ?_, fun w _ idx e l _ => ?_⟩
  · simp only [e, Option.getD_some]
  · simp only [e, Option.getD_some]

theorem dot_inside {r : Nat} (hr : r < 2) : WinInside dotP dotW dotL (getCoords dotP.shape r) := by
  rw [winInside_axes (dot_input (fun _ => (0 : Nat))) dot_base (by decide) (getCoords_spec hr).1]
  intro j hj
  change j < 3 at hj
  interval_cases r <;> interval_cases j <;> decide

/-- C91 is false: with kernel size 1, worker 0 hands the user's leaf to the in-place exchange. -/
theorem C91_false : ∃ (localS : Nat → List Nat × TorchDtype × Bool) (x : Nat → List Nat → Nat) (X : List Nat → Nat)
    (U : Nat → WinSetup), WinInput dotP dotW dotL localS x X .float32 true ∧ WinLimits dotP dotW dotL ∧
    (∀ r, r < 2 → winSetup dotP dotW localS (dotP.members.getD r 0) = some (U r)) ∧
    ∀ r, r < 2 → winPass (U r) true ⟨true, true, 0⟩ = none := by
  have hin := dot_input (fun _ => (0 : Nat))
  obtain ⟨U, S, R⟩ := C39_starts hin 0 (.inst .float32) (fun _ => (0 : Nat)) (fun _ => []) true
  refine ⟨_, _, _, U, hin, ?_, R.setup, fun r hr => ?_⟩
  · intro j hj
    change j < 3 at hj
    interval_cases j
    · exact ⟨by decide, by decide, by decide, by decide, fun _ _ h => absurd h (by simp [dotL]), fun _ h => absurd h (by simp [dotL]), fun _ h => absurd h (by simp [dotL])⟩
    · exact ⟨by decide, by decide, by decide, by decide, fun _ _ h => absurd h (by simp [dotL]), fun _ h => absurd h (by simp [dotL]), fun _ h => absurd h (by simp [dotL])⟩
    · refine ⟨by decide, by decide, by decide, by decide, fun c h0 h => ?_, fun _ h => absurd h (by simp [dotL]), fun c h => ?_⟩
      · change c + 1 < 2 at h
        omega
      · change c + 1 < 2 at h
        have : c = 0 := by omega
        subst this
        decide
  · exact (C91_refused_iff hin dot_base (by decide) R.setup hr true ⟨true, true, 0⟩).2 ⟨rfl, rfl, rfl, dot_inside hr⟩

/-- Two such layers on a tensor that is not a leaf: the first one cannot be differentiated. -/
example : ∃ U : Nat → WinSetup, (∀ r, r < 2 → winSetup dotP dotW
      (fun w => (dotL.shapeAt ((dotP.index w).getD []), .float32, true)) (dotP.members.getD r 0) = some (U r)) ∧
    ∃ p p', winPass (U 0) true ⟨false, true, 0⟩ = some p ∧ winPass (U 0) true p.user = some p' ∧
      p.unpacks p'.user = false := by
  have hin := dot_input (fun _ => (0 : Nat))
  obtain ⟨U, S, R⟩ := C39_starts hin 0 (.inst .float32) (fun _ => (0 : Nat)) (fun _ => []) true
  refine ⟨U, R.setup, ?_⟩
  obtain ⟨p, hp⟩ : ∃ p, winPass (U 0) true ⟨false, true, 0⟩ = some p := by
    rw [← Option.ne_none_iff_exists']
    intro hn
    have := ((C91_refused_iff hin dot_base (by decide) R.setup (r := 0) (by decide) _ _).1 hn).2.1
    simp at this
  obtain ⟨p', hp'⟩ : ∃ p', winPass (U 0) true p.user = some p' := by
    rw [← Option.ne_none_iff_exists']
    intro hn
    have := ((C91_refused_iff hin dot_base (by decide) R.setup (r := 0) (by decide) _ _).1 hn).2.1
    rw [(C91_version hin dot_base (by decide) R.setup (r := 0) (by decide) hp).1] at this
    simp at this
  exact ⟨p, p', hp, hp', (C91_shared_iff hin dot_base (by decide) R.setup hin dot_base (by decide) R.setup (r := 0)
    (by decide) hp hp').2.2 ⟨dot_inside (by decide), dot_inside (by decide)⟩⟩

/-- Maximum pooling with kernel size and stride 2 on one worker. -/
example : WinBase ⟨[0], [1, 1, 1], some 0⟩ ⟨[2], [2], [0], [1]⟩ [[1], [1], [4]] ∧
    (∀ j, j < 3 → ([1, 1, 1] : List Nat).getD j 0 = 1) ∧
    ∀ j, j < 3 → ((⟨[2], [2], [0], [1]⟩ : WinParams).full 3).p.getD j 0 = 0 := by
  refine ⟨fun j hj => ?_, by decide, by decide⟩
  change j < 3 at hj
  interval_cases j
  · exact ⟨by decide, by decide, by decide, by decide⟩
  · exact ⟨by decide, by decide, by decide, by decide⟩
  · exact ⟨by decide, by decide, by decide, by decide⟩

/-- Twice as many cells by interpolation on one worker. -/
example : upsampleShape (some [1, 1, 8]) (none : Option Rat) [1, 1, 4] = some [1, 1, 8] ∧
    (∀ j, j < 3 → (lineP 1).shape.getD j 0 = 1) ∧ (lineP 1).shape.length = 3 ∧
    ∀ j, j < 3 → (mixinFac (⟨.nearest, false, none⟩ : InterpParams Rat) j ([1, 1, 4].getD j 0) ([1, 1, 8].getD j 0)).isSome := by
  refine ⟨by decide, by decide, by decide, by decide +kernel⟩

/-- With kernel size 5 and padding 2, no worker of `farP` is inside. -/
example : ¬ WinInside farP farW farL (getCoords farP.shape 1) := by
  intro h
  exact absurd (h.2 [0, 0, 0] [0, 0, 4] (by decide) (by decide) 2 (by decide)).2 (by decide)

end Verif
