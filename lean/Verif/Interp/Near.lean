import Verif.Grad.UpProps
import Verif.Interp.Limits
import Verif.Window.Near

/-!
# What interpolation returns whether the halos fit or not (C50)

As for the layers with windows: a worker interpolates the global tensor with everything beyond the blocks next to
its own replaced by zero.
-/

namespace Verif

open Exchange

section
variable {K : Type} [Field K] [LinearOrder K] [FloorRing K] [IsStrictOrderedRing K]
variable {P : Cart} {p : InterpParams K} {gx gy : List Nat}
  {localS : Nat → List Nat × TorchDtype × Bool} {x : Nat → List Nat → K} {X : List Nat → K}
  {t : TorchDtype} {rg : Bool} {size : Option (List Nat)}
  {β : Type} {dt : NpKey} {junk : Nat → β} {ops : Nat → List (MgrOp β)} {eager : Bool} {k : Nat}
  {U : Nat → UpSetup} {S : Nat → HaloSetup} {g : GState (List Nat → K) (List Nat → K)}

omit [IsStrictOrderedRing K] in
/-- The halos are filled with zeros before the exchange. -/
theorem upPad_filler (h : UpInput P gx localS x X t rg) {r : Nat} (hr : r < P.members.length) {l : List Nat}
    (hl : InBounds l ((upPlan P p gx gy).shape r))
    (hn : ¬ ∃ b, InBounds b ((upPlan P p gx gy).L.shapeAt (getCoords P.shape r)) ∧
      l = shiftBy ((List.range (upPlan P p gx gy).D).map fun j =>
        (upPlan P p gx gy).lw j ((upPlan P p gx gy).co r j)) b) :
    ((upFacts P p gx gy r).padInput (localS (P.members.getD r 0)).1 (x (P.members.getD r 0))).2 l = 0 := by
  obtain ⟨m1, m2⟩ := member_spec h.wf hr
  have hi : InBounds (getCoords P.shape r) P.shape := (getCoords_spec (by rw [← h.wf.size]; exact hr)).1
  have bl := balanced_lengths h.len.symm hi
  have hloc : (localS (P.members.getD r 0)).1 = (Layout.balanced P.shape gx).shapeAt (getCoords P.shape r) := by
    rw [h.loc _ m1 _ m2]
  have hrl : (upFacts P p gx gy r).info.recv.length = (localS (P.members.getD r 0)).1.length := by
    rw [hloc, bl.1]
    exact length_interpHalo true _
  have hrg : ∀ j, j < P.shape.length → (upFacts P p gx gy r).info.recv.getD j (0, 0) =
      (((upPlan P p gx gy).lw j ((upPlan P p gx gy).co r j) : Int),
        ((upPlan P p gx gy).rw j ((upPlan P p gx gy).co r j) : Int)) := fun j hj => upRecv_plan hj
  have hll : l.length = P.shape.length := by rw [hl.length_eq, HaloPlan.length_shape]; rfl
  rw [(upPadInput_spec hrl (x (P.members.getD r 0))).2 l (by rw [(upPadded h hr).1]; exact hl), hloc, bl.1]
  by_contra hne
  apply hn
  have hin : ∀ j, j < P.shape.length →
      (upPlan P p gx gy).lw j ((upPlan P p gx gy).co r j) ≤ l.getD j 0 ∧
      l.getD j 0 < (upPlan P p gx gy).lw j ((upPlan P p gx gy).co r j) +
        ((Layout.balanced P.shape gx).shapeAt (getCoords P.shape r)).getD j 0 := by
    intro j hj
    by_contra hc
    apply hne
    refine extend_outside (j := j) (by rw [bl.1]; exact hj) ?_
    rw [getD_map_range _ _ hj, hrg j hj]
    simp only [Int.toNat_natCast]
    omega
  refine ⟨(List.range P.shape.length).map fun j => l.getD j 0 - (upPlan P p gx gy).lw j ((upPlan P p gx gy).co r j),
    ?_, ?_⟩
  · rw [inBounds_iff]
    show _ = ((Layout.balanced P.shape gx).shapeAt (getCoords P.shape r)).length ∧ _
    rw [show (upPlan P p gx gy).L = Layout.balanced P.shape gx from rfl, bl.1]
    refine ⟨by simp, fun j hj => ?_⟩
    rw [getD_map_range _ _ hj]
    have := hin j hj
    omega
  · apply eq_of_getD
    · rw [length_shiftBy (by simp; rfl), hll]; simp; rfl
    · intro j hj
      rw [hll] at hj
      have hj' : j < (upPlan P p gx gy).D := hj
      rw [getD_shiftBy (by simpa using hj') (by simpa using hj), getD_map_range _ _ hj', getD_map_range _ _ hj]
      have := hin j hj
      omega

/-- C50: halos that fit or not.  A worker that has finished returns its part of the sequential interpolation of the
global tensor in which everything beyond the blocks next to its own is replaced by zero. -/
theorem C50_seen (hin : UpInput P gx localS x X t rg) (ht : t = .float32 ∨ t = .float64)
    (h : UpCase P size p gx gy)
    (R : UpRun P size p localS x dt junk ops eager k U S g) {r : Nat} (hr : r < P.members.length)
    (hfin : (g.ws r).phase = haloPhases P) :
    let out := Layout.balanced P.shape gy
    let idx := getCoords P.shape r
    ∃ y, upForward P p localS x U g r = some y ∧ y.dtype = t ∧ y.shape = out.shapeAt idx ∧
      ∀ o, InBounds o y.shape → y.val o =
        torchInterp p gx gy (seen 0 (Layout.balanced P.shape gx) idx X) (shiftBy (out.startAt idx) o) := by
  have hU := R.facts hin h
  refine up_view hin ht h hU hr _ fun l hl => ?_
  refine (C37_cells (upPlan_ok_always hin.wf hin.len h) (R.setUp hin hU) X 0 _ ?_ ?_ R.exec hr hfin l hl).2
  · intro w hw b hb
    rw [hU w hw]
    exact (upPadded hin hw).2 b hb
  · intro w hw l hl hn
    rw [hU w hw]
    exact upPad_filler hin hw hl hn

/-- Every input cell with a weight in an output of the worker at `idx` is in its own block or in a block next to it.
The weight of a cell is the output for the tensor with 1 in that cell and 0 elsewhere. -/
def UpSees (P : Cart) (p : InterpParams K) (gx gy : List Nat) (idx : List Nat) : Prop :=
  let out := Layout.balanced P.shape gy
  ∀ o i, InBounds o (out.shapeAt idx) → InBounds i gx →
    torchInterp p gx gy (fun l => if l = i then 1 else 0) (shiftBy (out.startAt idx) o) ≠ 0 →
    Near (Layout.balanced P.shape gx) idx i

/-- C50, exact when halos may not fit: a worker returns its part of the sequential interpolation, for every tensor
and in every run, exactly if no input cell with a weight in its outputs is beyond the blocks next to its own. -/
theorem C50_right_iff (hw : P.WF) (hlen : gx.length = P.shape.length) (h : UpCase P size p gx gy) (dt : NpKey)
    (junk : Nat → β) (ops : Nat → List (MgrOp β)) {r : Nat} (hr : r < P.members.length) :
    let out := Layout.balanced P.shape gy
    let idx := getCoords P.shape r
    (∀ localS (x : Nat → List Nat → K) X t rg, UpInput P gx localS x X t rg → t = .float32 ∨ t = .float64 →
      ∀ eager k U S g, UpRun P size p localS x dt junk ops eager k U S g → (g.ws r).phase = haloPhases P →
      ∃ y, upForward P p localS x U g r = some y ∧ y.dtype = t ∧ y.shape = out.shapeAt idx ∧
        ∀ o, InBounds o y.shape → y.val o = torchInterp p gx gy X (shiftBy (out.startAt idx) o)) ↔
    UpSees P p gx gy idx := by
  intro out idx
  have hi : InBounds idx P.shape := (getCoords_spec (by rw [← hw.size]; exact hr)).1
  have hD := h.dims
  have hly : gy.length = P.shape.length := h.out.shape.2.trans hlen
  have hexp : ∀ o, InBounds o (out.shapeAt idx) → ∀ Y : List Nat → K,
      torchInterp p gx gy Y (shiftBy (out.startAt idx) o) = boxSum gx fun q => Y q *
        torchInterp p gx gy (fun l => if l = q then 1 else 0) (shiftBy (out.startAt idx) o) := fun o ho Y =>
    interp_expand p (by omega) (by omega) (share_inBounds hly.symm hw.pos hi ho) h.lead
      (h.inside hlen (share_inBounds hly.symm hw.pos hi ho)) Y
  constructor
  · intro hall o i ho hib hne
    by_contra hn
    have hin : UpInput P gx (evenS P gx) (fun w l => (fun l => if l = i then (1 : K) else 0)
        (shiftBy ((Layout.balanced P.shape gx).startAt ((P.index w).getD [])) l)) (fun l => if l = i then 1 else 0)
        .float32 true := by
      refine ⟨hw, hlen, fun w _ idx e => ?_, fun w _ idx e l _ => ?_⟩
      · simp only [evenS, e, Option.getD_some]
      · simp only [e, Option.getD_some]
    obtain ⟨U, S, R0⟩ := C50_starts hin h dt junk ops true
    obtain ⟨k, g, R, -, hf⟩ := C50_completes hin h R0
    obtain ⟨y, y1, -, y2, y3⟩ := hall _ _ _ _ _ hin (.inl rfl) _ _ _ _ _ R (hf r hr)
    obtain ⟨z, z1, -, z2, z3⟩ := C50_seen hin (.inl rfl) h R hr (hf r hr)
    rw [y1] at z1
    obtain rfl := Option.some.inj z1
    have hoy : InBounds o y.shape := by rw [y2]; exact ho
    have e := (y3 o hoy).symm.trans (z3 o hoy)
    rw [seen_far hn] at e
    apply hne
    rw [e]
    refine (hexp o ho _).trans (Eq.trans (boxSum_congr fun q _ => ?_) (boxSum_zero _))
    rw [zero_mul]
  · intro hs localS x X t rg hin ht eager k U S g R hfin
    obtain ⟨y, y1, y2, y3, y4⟩ := C50_seen hin ht h R hr hfin
    refine ⟨y, y1, y2, y3, fun o ho => ?_⟩
    rw [y4 o ho]
    rw [y3] at ho
    refine (hexp o ho _).trans (Eq.trans (boxSum_congr fun q hq => ?_) (hexp o ho X).symm)
    by_cases hz : torchInterp p gx gy (fun l => if l = q then 1 else 0) (shiftBy (out.startAt idx) o) = 0
    · show _ * torchInterp p gx gy _ (shiftBy (out.startAt idx) o) = _
      rw [hz, mul_zero, mul_zero]
    · congr 1
      exact if_pos (hs o q ho hq hz)

/-! ## The backward pass -/

variable {dy gl : Nat → Tensor K} {eager' : Bool} {k' : Nat} {g' : GState (List Nat → K) (List Nat → K)}

theorem interp_blank (h : UpCase P size p gx gy) (hlen : gx.length = P.shape.length) {o : List Nat} (ho : InBounds o gy) :
    torchInterp p gx gy (fun _ => 0) o = 0 := by
  have hD := h.dims
  rw [interp_expand p (by omega) (by rw [h.out.shape.2]; omega) ho h.lead (h.inside hlen ho)]
  refine Eq.trans (boxSum_congr fun q _ => ?_) (boxSum_zero _)
  rw [zero_mul]

/-- C65, halos that fit or not: the gradient of an input cell collects the contributions of the outputs of those
workers only whose own block is the cell's block or next to it. -/
theorem C65_seen (hin : UpInput P gx localS x X t rg) (ht : t = .float32 ∨ t = .float64)
    (h : UpCase P size p gx gy) (ho : HasOutputs P gy)
    (R : UpRun P size p localS x dt junk ops eager k U S g) {G : List Nat → K} (hd : GradLike P gy t dy)
    (hG : OutGrads P gy (fun r => (dy r).val) G) (B : UpBack P p localS U S dy gl eager' k' g') {r : Nat}
    (hr : r < P.members.length) (hfin : (g'.ws r).phase = haloPhases P) :
    let out := Layout.balanced P.shape gy
    let L := Layout.balanced P.shape gx
    ∀ l, InBounds l (L.shapeAt (getCoords P.shape r)) →
      let q := shiftBy (L.startAt (getCoords P.shape r)) l
      upGrad P localS U g' r l = ∑ w ∈ Finset.range P.members.length, if Near L (getCoords P.shape w) q then
        boxSum (out.shapeAt (getCoords P.shape w)) fun o =>
          torchInterp p gx gy (fun m => if m = q then 1 else 0) (shiftBy (out.startAt (getCoords P.shape w)) o) *
            G (shiftBy (out.startAt (getCoords P.shape w)) o) else 0 := by
  intro out L l hl q
  have hly : gy.length = P.shape.length := h.out.shape.2.trans hin.len
  obtain ⟨k2, g2, y, hy, A2, hA2, e⟩ := up_grad_outputs hin ht h ho R hd B hr hfin hl
  rw [e]
  refine Finset.sum_congr rfl fun w hw => ?_
  have hw := Finset.mem_range.1 hw
  have hi : InBounds (getCoords P.shape w) P.shape := (getCoords_spec (by rw [← hin.wf.size]; exact hw)).1
  obtain ⟨y', y1, -, y2, y3⟩ := C50_seen hy ht h A2 hw (hA2 w hw).1
  rw [(hA2 w hw).2] at y1
  obtain rfl := Option.some.inj y1
  rw [y2]
  split
  · rename_i hn
    rw [seen_near hn] at y3
    refine boxSum_congr fun o ho' => ?_
    rw [y3 o (by rw [y2]; exact ho'), show (dy w).val o = _ from hG w hw o ho']
  · rename_i hn
    rw [seen_far hn] at y3
    refine Eq.trans (boxSum_congr fun o ho' => ?_) (boxSum_zero _)
    rw [y3 o (by rw [y2]; exact ho'), interp_blank h hin.len (share_inBounds hly.symm hin.wf.pos hi ho'), zero_mul]

/-- C65, exact when halos may not fit: a worker's gradients are its block of the gradient of the sequential
interpolation, for every input and gradient of the outputs and in every run, exactly if no cell of its block has a
weight in an output of a worker whose block is not the same or next to it. -/
theorem C65_right_iff (hw : P.WF) (hlen : gx.length = P.shape.length) (h : UpCase P size p gx gy)
    (ho : HasOutputs P gy) (dt : NpKey) (junk : Nat → β) (ops : Nat → List (MgrOp β)) {r : Nat}
    (hr : r < P.members.length) :
    let out := Layout.balanced P.shape gy
    let L := Layout.balanced P.shape gx
    (∀ localS (x : Nat → List Nat → K) X t rg, UpInput P gx localS x X t rg → t = .float32 ∨ t = .float64 →
      ∀ eager k U S g, UpRun P size p localS x dt junk ops eager k U S g →
      ∀ dy G, GradLike P gy t dy → OutGrads P gy (fun r => (dy r).val) G →
      ∀ gl eager' k' g', UpBack P p localS U S dy gl eager' k' g' → (g'.ws r).phase = haloPhases P →
      ∀ l, InBounds l (L.shapeAt (getCoords P.shape r)) →
        upGrad P localS U g' r l = torchInterpGrad p gx gy G (shiftBy (L.startAt (getCoords P.shape r)) l)) ↔
    ∀ w o l, w < P.members.length → InBounds o (out.shapeAt (getCoords P.shape w)) →
      InBounds l (L.shapeAt (getCoords P.shape r)) →
      torchInterp p gx gy (fun m => if m = shiftBy (L.startAt (getCoords P.shape r)) l then 1 else 0)
        (shiftBy (out.startAt (getCoords P.shape w)) o) ≠ 0 →
      Near L (getCoords P.shape w) (shiftBy (L.startAt (getCoords P.shape r)) l) := by
  intro out L
  have hly : gy.length = P.shape.length := h.out.shape.2.trans hlen
  have hi : ∀ w, w < P.members.length → InBounds (getCoords P.shape w) P.shape := fun w hw' =>
    (getCoords_spec (by rw [← hw.size]; exact hw')).1
  constructor
  · intro hall w o l hw' ho' hl hne
    by_contra hn
    have hin : UpInput P gx (evenS P gx) (fun _ _ => (0 : K)) (fun _ => 0) .float32 true := by
      refine ⟨hw, hlen, fun w _ idx e => ?_, fun w _ idx e l _ => rfl⟩
      simp only [evenS, e, Option.getD_some]
    obtain ⟨U, S, R⟩ := C50_starts hin h dt junk ops true
    let o' := shiftBy (out.startAt (getCoords P.shape w)) o
    let G : List Nat → K := fun m => if m = o' then 1 else 0
    let dy : Nat → Tensor K := fun r => ⟨out.shapeAt (getCoords P.shape r), .float32, fun m =>
      G (shiftBy (out.startAt (getCoords P.shape r)) m)⟩
    have hd : GradLike P gy .float32 dy := fun r _ => ⟨rfl, rfl⟩
    have hG : OutGrads P gy (fun r => (dy r).val) G := fun r _ m _ => rfl
    obtain ⟨gl, g1, B0⟩ := C65_starts hin (.inl rfl) h ho R hd true
    obtain ⟨k', g', B, -, hf⟩ := C65_completes hin h R B0
    have e := hall _ _ _ _ _ hin (.inl rfl) _ _ _ _ _ R dy G hd hG _ _ _ _ B (hf r hr) l hl
    rw [C65_seen hin (.inl rfl) h ho R hd hG B hr (hf r hr) l hl] at e
    have e2 : torchInterpGrad p gx gy G (shiftBy (L.startAt (getCoords P.shape r)) l) =
        torchInterp p gx gy (fun m => if m = shiftBy (L.startAt (getCoords P.shape r)) l then 1 else 0) o' := by
      unfold torchInterpGrad
      refine Eq.trans (boxSum_congr fun m _ => ?_) (boxSum_pick (share_inBounds hly.symm hw.pos (hi w hw') ho') fun m =>
        torchInterp p gx gy (fun m => if m = shiftBy (L.startAt (getCoords P.shape r)) l then 1 else 0) m)
      show _ * (if m = o' then (1 : K) else 0) = _
      rw [mul_ite, mul_one, mul_zero]
    rw [e2] at e
    apply hne
    rw [← e]
    refine Finset.sum_eq_zero fun w2 hw2 => ?_
    have hw2 := Finset.mem_range.1 hw2
    split
    · rename_i hn2
      refine Eq.trans (boxSum_congr fun m hm => ?_) (boxSum_zero _)
      show _ * (if _ = o' then (1 : K) else 0) = 0
      rw [if_neg, mul_zero]
      intro he
      have hsh : out.pshape = P.shape := Layout.balanced_pshape hly.symm
      have hll : ∀ w, w < P.members.length → (getCoords P.shape w).length = out.length := fun w hw' => by
        rw [(hi w hw').length_eq, ← Layout.length_pshape, hsh]
      have b1 := (out.inBox_shift (hll w hw')).2 ho'
      have b2 := (out.inBox_shift (hll w2 hw2)).2 hm
      rw [he] at b2
      have hgl := (out.unique_owner _).2 _ (by rw [hsh]; exact hi w hw') b1.2
      have := ((out.unique_owner _).1 hgl).unique ⟨by rw [hsh]; exact hi w2 hw2, b2.2⟩
        ⟨by rw [hsh]; exact hi w hw', b1.2⟩
      rw [this] at hn2
      exact hn hn2
    · rfl
  · intro hs localS x X t rg hin ht eager k U S g R dy G hd hG gl eager' k' g' B hfin l hl
    rw [C65_seen hin ht h ho R hd hG B hr hfin l hl]
    unfold torchInterpGrad
    rw [← gather_tiles hw hly.symm]
    refine Finset.sum_congr rfl fun w hw' => ?_
    have hw' := Finset.mem_range.1 hw'
    split
    · rfl
    · rename_i hn
      refine ((boxSum_congr fun o ho' => ?_).trans (boxSum_zero _)).symm
      have : torchInterp p gx gy (fun m => if m = shiftBy (L.startAt (getCoords P.shape r)) l then 1 else 0)
          (shiftBy (out.startAt (getCoords P.shape w)) o) = 0 := by
        by_contra hne
        exact hn (hs w o l hw' ho' hl hne)
      show torchInterp p gx gy _ (shiftBy (out.startAt (getCoords P.shape w)) o) * _ = 0
      rw [this, zero_mul]

end

/-- Linear interpolation with `align_corners` of 6 cells to 20 over four workers: output 15, the first of worker 3,
uses cell 3 with weight 5/19, and worker 3 does not see it. -/
example : ¬ UpSees (lineP 4) wideLin [1, 1, 6] [1, 1, 20] (getCoords (lineP 4).shape 3) := by
  intro h
  exact absurd (h [0, 0, 0] [0, 0, 3] (by decide) (by decide) (by decide +kernel)) (by decide)

/-- The hypotheses of the exact statements. -/
example : UpCase (lineP 4) (some [1, 1, 20]) wideLin [1, 1, 6] [1, 1, 20] ∧ HasOutputs (lineP 4) [1, 1, 20] :=
  ⟨wideLin_case, by unfold HasOutputs; decide⟩

end Verif
