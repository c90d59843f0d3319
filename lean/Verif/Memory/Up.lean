import Verif.Memory.Props

/-!
# C91 for interpolation on any number of workers
-/

namespace Verif

open Exchange

section
variable {K : Type} [Field K] [LinearOrder K] [FloorRing K]

/-! ## Specification -/

/-- The worker at `idx` needs nothing but its own block: for every output of its share and every feature dimension, the
cell left of the position of the output in the input and, for linear interpolation, the one right of it (if there is
one) are cells of this block. -/
def UpInside (P : Cart) (p : InterpParams K) (gx gy : List Nat) (idx : List Nat) : Prop :=
  ∀ j, 2 ≤ j → j < P.shape.length →
    let inp := fun c => startIdx (P.shape.getD j 0) c (gx.getD j 0)
    let out := fun c => startIdx (P.shape.getD j 0) c (gy.getD j 0)
    let c := idx.getD j 0
    ∀ o, out c ≤ o → o < out (c + 1) →
      let i := ⌊torchSource p (gx.getD j 0) (gy.getD j 0) o⌋
      (inp c : Int) ≤ i ∧ i < inp (c + 1) ∧ (p.mode = .linear → i + 1 < gx.getD j 0 → i + 1 < inp (c + 1))

/-! ## Lemmas -/

variable [IsStrictOrderedRing K]

omit [FloorRing K] in
theorem torchSource_eq {p : InterpParams K} {gi go : Nat} {fac : K} (hf : 0 ≤ fac) (he : torchStep p gi go = fac)
    (o : Nat) : torchSource p gi go o = max 0 (gpos p fac (o : K)) := by
  unfold torchSource gpos
  rw [he]
  split
  · exact (max_eq_right (mul_nonneg hf (Nat.cast_nonneg o))).symm
  · rfl

variable {P : Cart} {p : InterpParams K} {gx gy : List Nat}
  {localS : Nat → List Nat × TorchDtype × Bool} {x : Nat → List Nat → K} {X : List Nat → K}
  {t : TorchDtype} {rg : Bool} {size : Option (List Nat)} {U : Nat → UpSetup}

/-- One feature dimension. -/
theorem up_axis_inside (h : UpCase P size p gx gy) (hl : gx.length = P.shape.length) (ho : HasOutputs P gy) {j c : Nat}
    (hj2 : 2 ≤ j) (hj : j < P.shape.length) (hc : c < P.shape.getD j 0) :
    ((upPlan P p gx gy).lw j c = 0 ∧ (upPlan P p gx gy).rw j c = 0) ↔
      let inp := fun c => startIdx (P.shape.getD j 0) c (gx.getD j 0)
      let out := fun c => startIdx (P.shape.getD j 0) c (gy.getD j 0)
      ∀ o, out c ≤ o → o < out (c + 1) →
        let i := ⌊torchSource p (gx.getD j 0) (gy.getD j 0) o⌋
        (inp c : Int) ≤ i ∧ i < inp (c + 1) ∧ (p.mode = .linear → i + 1 < gx.getD j 0 → i + 1 < inp (c + 1)) := by
  dsimp only
  obtain ⟨fac, f1, f2, f3, f4, f5⟩ := h.facs hl hj2 hj
  have hgi := (h.feat j hj2 hj).1
  have hlt : startIdx (P.shape.getD j 0) c (gy.getD j 0) < startIdx (P.shape.getD j 0) (c + 1) (gy.getD j 0) := by
    rw [startIdx_succ, stopIdx]
    have := subsize_pos (c := c) (Nat.zero_lt_of_lt hc) (ho j hj2 hj)
    omega
  have hle : startIdx (P.shape.getD j 0) (c + 1) (gy.getD j 0) ≤ gy.getD j 0 := startIdx_le (by omega) _ (by omega)
  have hib : startIdx (P.shape.getD j 0) (c + 1) (gx.getD j 0) ≤ gx.getD j 0 := startIdx_le (by omega) _ (by omega)
  simp only [upPlan, interpHalo1, if_true, neededStart, neededStop, f1, Option.getD_some, ← startIdx_succ]
  generalize startIdx (P.shape.getD j 0) c (gy.getD j 0) = y0 at *
  generalize startIdx (P.shape.getD j 0) (c + 1) (gy.getD j 0) = y1 at *
  generalize startIdx (P.shape.getD j 0) c (gx.getD j 0) = x0 at *
  generalize startIdx (P.shape.getD j 0) (c + 1) (gx.getD j 0) = x1 at *
  obtain ⟨z, rfl⟩ : ∃ z, y1 = z + 1 := ⟨y1 - 1, by omega⟩
  have e0 : mixinCell p fac (y0 : Nat) = ⌊torchSource p (gx.getD j 0) (gy.getD j 0) y0⌋ := by
    rw [mixinCell_eq p f3 (by omega), torchSource_eq f3 f4]
    norm_cast
  have e1 : mixinCell p fac (((z + 1 : Nat) : Int) - 1) = ⌊torchSource p (gx.getD j 0) (gy.getD j 0) z⌋ := by
    rw [show ((z + 1 : Nat) : Int) - 1 = (z : Nat) by omega, mixinCell_eq p f3 (by omega), torchSource_eq f3 f4]
    norm_cast
  rw [e0, e1]
  have hmono : ∀ a b : Nat, a ≤ b → ⌊torchSource p (gx.getD j 0) (gy.getD j 0) a⌋ ≤
      ⌊torchSource p (gx.getD j 0) (gy.getD j 0) b⌋ := by
    intro a b hab
    rw [torchSource_eq f3 f4, torchSource_eq f3 f4]
    exact Int.floor_le_floor (max_le_max le_rfl (gpos_mono p f3 (by exact_mod_cast hab)))
  have h0 : ∀ a : Nat, 0 ≤ ⌊torchSource p (gx.getD j 0) (gy.getD j 0) a⌋ := by
    intro a
    rw [torchSource_eq f3 f4]
    exact Int.floor_nonneg.2 (le_max_left _ _)
  have hlast : ⌊torchSource p (gx.getD j 0) (gy.getD j 0) z⌋ < gx.getD j 0 := by
    rw [torchSource_eq f3 f4, Int.floor_lt]
    push_cast
    refine max_lt (by exact_mod_cast hgi) (lt_of_le_of_lt (gpos_mono p f3 ?_) f5)
    have : ((z + 1 : Nat) : K) ≤ gy.getD j 0 := by exact_mod_cast hle
    push_cast at this
    linarith
  have z0 := h0 y0
  have zz := h0 z
  constructor
  · rintro ⟨a1, a2⟩ o o1 o2
    have m1 := hmono y0 o o1
    have m2 := hmono o z (by omega)
    by_cases hm : p.mode = .linear
    · simp only [if_pos hm] at a2
      exact ⟨by omega, by omega, fun _ _ => by omega⟩
    · simp only [if_neg hm] at a2
      exact ⟨by omega, by omega, fun hh => absurd hh hm⟩
  · intro ha
    have b1 := ha y0 le_rfl hlt
    have b2 := ha z (by omega) (by omega)
    by_cases hm : p.mode = .linear
    · simp only [if_pos hm]
      have b3 := b2.2.2 hm
      refine ⟨by omega, ?_⟩
      by_cases hh : ⌊torchSource p (gx.getD j 0) (gy.getD j 0) z⌋ + 1 < gx.getD j 0
      · have := b3 hh
        omega
      · omega
    · simp only [if_neg hm]
      exact ⟨by omega, by omega⟩

/-- Batch and channels need no halos. -/
theorem up_axis_lead (h : UpCase P size p gx gy) (hw : P.WF) {r : Nat} (hr : r < P.members.length) {j : Nat}
    (hj2 : j < 2) :
    (upPlan P p gx gy).lw j ((getCoords P.shape r).getD j 0) = 0 ∧
      (upPlan P p gx gy).rw j ((getCoords P.shape r).getD j 0) = 0 := by
  obtain ⟨a, b⟩ := h.lead_range hw hr hj2
  unfold upStart at a
  unfold upStop at b
  simp only [upPlan, interpHalo1, if_true]
  rw [a, b, h.lead j hj2]
  omega

/-- Nothing is padded exactly if the worker needs nothing but its own block. -/
theorem up_unpadded_iff (hin : UpInput P gx localS x X t rg) (h : UpCase P size p gx gy) (ho : HasOutputs P gy)
    (hU : ∀ r, r < P.members.length → upSetup P size p localS (P.members.getD r 0) = some (U r)) {r : Nat}
    (hr : r < P.members.length) :
    (((U r).info.recv.map fun h => (h.1.toNat, h.2.toNat)).map fun q => q.1 + q.2).sum = 0 ↔
      UpInside P p gx gy (getCoords P.shape r) := by
  have hi : InBounds (getCoords P.shape r) P.shape := (getCoords_spec (by rw [← hin.wf.size]; exact hr)).1
  have e : U r = upFacts P p gx gy r := Option.some.inj ((hU r hr).symm.trans (C50_setup hin h hr))
  have hlist : ((U r).info.recv.map fun h => (h.1.toNat, h.2.toNat)).map (fun q => q.1 + q.2) =
      (List.range P.shape.length).map fun j => (upPlan P p gx gy).lw j ((getCoords P.shape r).getD j 0) +
        (upPlan P p gx gy).rw j ((getCoords P.shape r).getD j 0) := by
    rw [e]
    show ((interpHalo true p P.shape gx gy (getCoords P.shape r)).map _).map _ = _
    rw [interpHalo, List.map_map, List.map_map]
    apply List.map_congr_left
    intro j hj
    rfl
  rw [hlist]
  constructor
  · intro hs j hj2 hj
    have := List.sum_eq_zero_iff.1 hs _ (List.mem_map.2 ⟨j, List.mem_range.2 hj, rfl⟩)
    exact (up_axis_inside h hin.len ho hj2 hj (inBounds_getD hi hj)).1 ⟨by omega, by omega⟩
  · intro ha
    refine sum_zero_of_forall fun n hn => ?_
    obtain ⟨j, hj, rfl⟩ := List.mem_map.1 hn
    have hj := List.mem_range.1 hj
    rcases Nat.lt_or_ge j 2 with hj2 | hj2
    · rw [(up_axis_lead h hin.wf hr hj2).1, (up_axis_lead h hin.wf hr hj2).2]
    · have := (up_axis_inside h hin.len ho hj2 hj (inBounds_getD hi hj)).2 (ha j hj2 hj)
      rw [this.1, this.2]

/-! ## Properties -/

/-- C91, interpolation: a leaf that requires gradients is refused exactly if grad mode is on and the worker needs nothing
but its own block. -/
theorem C91_upsampling_refused_iff (hin : UpInput P gx localS x X t rg) (h : UpCase P size p gx gy)
    (ho : HasOutputs P gy)
    (hU : ∀ r, r < P.members.length → upSetup P size p localS (P.members.getD r 0) = some (U r)) {r : Nat}
    (hr : r < P.members.length) (grad : Bool) (u : TRef) :
    upPass (U r) grad u = none ↔
      grad = true ∧ u.leaf = true ∧ u.requiresGrad = true ∧ UpInside P p gx gy (getCoords P.shape r) := by
  rw [← up_unpadded_iff hin h ho hU hr]
  obtain ⟨lf, rq, n⟩ := u
  unfold upPass markDirty padRef
  dsimp only
  generalize (((U r).info.recv.map fun h => (h.1.toNat, h.2.toNat)).map fun q => q.1 + q.2).sum = n
  split <;> rename_i hz <;> cases grad <;> cases lf <;> cases rq <;> simp [hz]

/-- C91, interpolation: the pass counts as a modification of the tensor of the user exactly if the worker needs nothing
but its own block. -/
theorem C91_upsampling_version (hin : UpInput P gx localS x X t rg) (h : UpCase P size p gx gy)
    (ho : HasOutputs P gy)
    (hU : ∀ r, r < P.members.length → upSetup P size p localS (P.members.getD r 0) = some (U r)) {r : Nat}
    (hr : r < P.members.length) {grad : Bool} {u : TRef} {q : LayerPass} (hq : upPass (U r) grad u = some q) :
    q.user.leaf = u.leaf ∧ q.user.requiresGrad = u.requiresGrad ∧ q.saved = none ∧
      (q.user.version ≠ u.version ↔ UpInside P p gx gy (getCoords P.shape r)) := by
  rw [← up_unpadded_iff hin h ho hU hr]
  obtain ⟨lf, rq, n⟩ := u
  unfold upPass markDirty padRef at hq
  dsimp only at hq ⊢
  generalize (((U r).info.recv.map fun h => (h.1.toNat, h.2.toNat)).map fun q => q.1 + q.2).sum = n at hq ⊢
  split at hq <;> rename_i hz <;> cases grad <;> cases lf <;> cases rq <;> simp at hq <;> subst hq <;> simp [hz]

variable {β : Type} {dt : NpKey} {junk : Nat → β} {ops : Nat → List (MgrOp β)} {eager : Bool} {k : Nat}
  {S : Nat → HaloSetup} {g : GState (List Nat → K) (List Nat → K)}

/-- C91, interpolation: whatever the layer does, the entries of the tensor of the user are the same once the exchange is
finished. -/
theorem C91_upsampling_entries_partial (hin : UpInput P gx localS x X t rg) (h : UpCase P size p gx gy)
    (R : UpRun P size p localS x dt junk ops eager k U S g) {r : Nat} (hr : r < P.members.length)
    (hfin : (g.ws r).phase = haloPhases P) {l : List Nat}
    (hb : InBounds l ((Layout.balanced P.shape gx).shapeAt (getCoords P.shape r))) :
    upUserEntries (U r) (x (P.members.getD r 0)) (g.ws r).st l = x (P.members.getD r 0) l := by
  have hU := R.facts hin h
  have hok := upPlan_ok_always hin.wf hin.len h
  have hi : InBounds (getCoords P.shape r) P.shape := (getCoords_spec (by rw [← hin.wf.size]; exact hr)).1
  obtain ⟨m1, m2⟩ := member_spec hin.wf hr
  unfold upUserEntries
  split
  swap
  · rfl
  rename_i hz
  have hw0 : ∀ j, j < P.shape.length → (upPlan P p gx gy).lw j ((getCoords P.shape r).getD j 0) = 0 ∧
      (upPlan P p gx gy).rw j ((getCoords P.shape r).getD j 0) = 0 := by
    intro j hj
    rw [hU r hr] at hz
    change (((interpHalo true p P.shape gx gy (getCoords P.shape r)).map _).map _).sum = 0 at hz
    rw [interpHalo, List.map_map, List.map_map] at hz
    have := List.sum_eq_zero_iff.1 hz _ (List.mem_map.2 ⟨j, List.mem_range.2 hj, rfl⟩)
    change (upPlan P p gx gy).lw j ((getCoords P.shape r).getD j 0) +
      (upPlan P p gx gy).rw j ((getCoords P.shape r).getD j 0) = 0 at this
    omega
  have hLl : (Layout.balanced P.shape gx).length = P.shape.length := by
    rw [← Layout.length_pshape, Layout.balanced_pshape hin.len.symm]
  have hil : (getCoords P.shape r).length = (Layout.balanced P.shape gx).length := by rw [hLl, hi.length_eq]
  have hll : l.length = P.shape.length := by rw [hb.length_eq, Layout.length_shapeAt hil, hLl]
  have hsize : ∀ j, j < P.shape.length → l.getD j 0 <
      ((Layout.balanced P.shape gx).getD j []).getD ((getCoords P.shape r).getD j 0) 0 := by
    intro j hj
    have := inBounds_getD hb (by rw [Layout.length_shapeAt hil, hLl]; exact hj)
    rw [((Layout.balanced P.shape gx).shapeAt_getD _ hil j (by rw [hLl]; exact hj)).1] at this
    exact this
  have hl' : InBounds l ((upPlan P p gx gy).shape r) := by
    rw [inBounds_iff, HaloPlan.length_shape]
    refine ⟨hll, fun j hj => ?_⟩
    have hj : j < P.shape.length := hj
    rw [HaloPlan.shape_getD (H := upPlan P p gx gy) hj, HaloPlan.size]
    have e := hsize j hj
    change _ < (upPlan P p gx gy).lw j ((getCoords P.shape r).getD j 0) +
      ((Layout.balanced P.shape gx).getD j []).getD ((getCoords P.shape r).getD j 0) 0 + _
    omega
  have horig : shiftBy ((upPlan P p gx gy).origin r) l =
      shiftBy ((Layout.balanced P.shape gx).startAt (getCoords P.shape r)) l := by
    congr 1
    apply eq_of_getD
    · rw [Layout.length_startAt hil, hLl]; simp [HaloPlan.origin, HaloPlan.D]; rfl
    · intro j hj
      have hj' : j < P.shape.length := by
        have : j < (upPlan P p gx gy).D := by simpa [HaloPlan.origin] using hj
        exact this
      rw [HaloPlan.origin_getD (H := upPlan P p gx gy) hj',
        ((Layout.balanced P.shape gx).shapeAt_getD _ hil j (by rw [hLl]; exact hj')).2.1]
      change (upPlan P p gx gy).st j ((getCoords P.shape r).getD j 0) -
        (upPlan P p gx gy).lw j ((getCoords P.shape r).getD j 0) = _
      rw [(hw0 j hj').1]
      rfl
  have hnear : Near (Layout.balanced P.shape gx) (getCoords P.shape r) (shiftBy ((upPlan P p gx gy).origin r) l) := by
    intro j hj
    rw [hi.length_eq] at hj
    have e := ((Layout.balanced P.shape gx).shapeAt_getD _ hil j (by rw [hLl]; exact hj)).2.1
    rw [horig, getD_shiftBy (by rw [Layout.length_startAt hil, hLl]; exact hj) (by rw [hll]; exact hj), e]
    have hx := hsize j hj
    have e1 := take_sum_succ ((Layout.balanced P.shape gx).getD j []) ((getCoords P.shape r).getD j 0)
    have e2 : (((Layout.balanced P.shape gx).getD j []).take ((getCoords P.shape r).getD j 0 + 2)).sum = _ :=
      take_sum_succ ((Layout.balanced P.shape gx).getD j []) ((getCoords P.shape r).getD j 0 + 1)
    have e3 := take_sum_succ ((Layout.balanced P.shape gx).getD j []) ((getCoords P.shape r).getD j 0 - 1)
    refine ⟨?_, by omega⟩
    by_cases hc : (getCoords P.shape r).getD j 0 = 0
    · rw [hc]; simp
    · rw [show (getCoords P.shape r).getD j 0 - 1 + 1 = (getCoords P.shape r).getD j 0 by omega] at e3
      omega
  have hf := (C37_cells hok (R.setUp hin hU) X 0 _ (fun w hw b hb => by rw [hU w hw]; exact (upPadded hin hw).2 b hb)
    (fun w hw l hl hn => by rw [hU w hw]; exact upPad_filler hin hw hl hn) R.exec hr hfin l hl').2
  rw [hf]
  refine (if_pos hnear).trans ?_
  rw [horig]
  exact (hin.data _ m1 _ m2 l hb).symm

end

/-- Mode nearest, four cells to eight over two workers: no worker needs a halo. -/
example : UpInside (K := ℚ) ⟨[0, 1], [1, 1, 2], some 0⟩ ⟨.nearest, false, none⟩ [1, 1, 4] [1, 1, 8] [0, 0, 1] := by
  intro j hj2 hj
  change j < 3 at hj
  obtain rfl : j = 2 := by omega
  intro inp out c o h1 h2
  have h1 : 4 ≤ o := h1
  have h2 : o < 8 := h2
  have e : torchSource (K := ℚ) ⟨.nearest, false, none⟩ 4 8 o = (o : ℚ) / 2 := by
    simp [torchSource, torchStep]; ring
  show (2 : Int) ≤ ⌊torchSource (K := ℚ) ⟨.nearest, false, none⟩ 4 8 o⌋ ∧
    ⌊torchSource (K := ℚ) ⟨.nearest, false, none⟩ 4 8 o⌋ < 4 ∧ _
  rw [e]
  refine ⟨?_, ?_, fun hh => by cases hh⟩
  · rw [Int.le_floor]
    have : (4 : ℚ) ≤ o := by exact_mod_cast h1
    push_cast
    linarith
  · rw [Int.floor_lt]
    have : (o : ℚ) < 8 := by exact_mod_cast h2
    push_cast
    linarith

end Verif
