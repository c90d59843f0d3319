import Verif.Mode.Channel

/-!
# C92: padding modes of the general convolution
-/

namespace Verif

open Exchange

section
variable {R : Type} [NonUnitalNonAssocSemiring R] {C : ChanConv} {Po Pi : Nat} {Sp : List Nat} {L : Layout} {B : Nat}
  {N : List Nat} {localS : Nat → List Nat × TorchDtype × Bool} {inp : Nat → List Nat → R} {X : List Nat → R}
  {t : TorchDtype} {rg0 : Bool} {nd : Nat} {pk ps pp pd : List Nat} {γ : Type} {dt : NpKey} {junk : Nat → γ}
  {ops : Nat → List (MgrOp γ)} {eager : Bool} {k : Nat} {U : Nat → WinSetup} {S : Nat → HaloSetup}
  {g : GState (List Nat → R) (List Nat → R)} {rgx rg : Nat → Bool} {weight bias : Nat → Tensor R} {rgp : Bool}
  {Wt β : List Nat → R}

/-- C92 for the general layer on more than one worker: where `zeros` gives the blocks of the sequential result (C44),
another mode does so, and raises no exception on any worker of the layer, exactly if no worker of `P_x` needs more than
its own block. -/
theorem C92_general_right_iff (m : PadMode) (hW : winParams nd pk ps pp pd = some C.W) (h : ChanValid C Po Pi Sp)
    (hSp : Sp.length = nd) (hg : C.groups = 1) (hin : WinInput C.Px C.W L localS inp X t rg0)
    (hG : L.global = B :: C.Ci :: N)
    (hfit : ∀ j, j < nd →
      C.W.d.getD j 0 * (C.W.k.getD j 0 - 1) + 1 ≤ N.getD j 0 + 2 * C.W.p.getD j 0)
    (h1 : C.Pw.members.length ≠ 1) (hl : WinLimits C.Px C.W L)
    (G : GeneralRun C C.Px localS inp dt junk ops eager k U S g)
    (hfin : ∀ r, r < C.Px.members.length → (g.ws r).phase = haloPhases C.Px)
    (hp : StoredParams C Po Pi weight bias Wt β) (hs : ∀ u, C.Active u → (localS u).1 ≠ []) :
    ((∃ out : Nat → Tensor R,
      (∀ u ∈ C.Py.members, generalForwardMode m C weight bias rgp localS inp U g rgx rg u = some (out u)) ∧
      EvenBlocks C.Py (torchConvShape C.W C.Co (B :: C.Ci :: N)) t
        (torchConvMode m C.W 1 C.Ci C.Co Wt (fun c => if C.useBias then β [c] else 0) (B :: C.Ci :: N) X) out) ∧
    ∀ w, C.Active w → w ∉ C.Py.members →
      ∃ z, generalForwardMode m C weight bias rgp localS inp U g rgx rg w = some z ∧ z.shape.prod = 0) ↔
    (m = .zeros ∨ ∀ r, r < C.Px.members.length → WinInside C.Px C.W L (getCoords C.Px.shape r)) := by
  have hD : C.Px.shape.length = nd + 2 := by rw [h.shx]; simp [hSp]
  have hk : C.W.k.length ≤ C.Px.shape.length := by rw [(winParams_length hW).1]; omega
  have run := G.run hin px_union
  have hstep := fun r (hr : r < C.Px.members.length) => C92_raises_iff m hin hl.reach.base hk run.setup hr
  have hact : ∀ w, C.Active w → ¬ (w ∉ C.Px.members ∧ w ∉ C.Py.members ∧ w ∉ C.Pw.members) := by
    rintro w (hw | hw | hw) ⟨a, b, c⟩
    · exact a hw
    · exact c hw
    · exact b hw
  constructor
  · rintro ⟨⟨out, ho, -⟩, hz⟩
    by_cases hm : m = .zeros
    · exact Or.inl hm
    · refine Or.inr fun r hr => ((hstep r hr).1 ?_).resolve_left hm
      have hmem := (member_spec hin.wf hr).1
      have hidx : C.Px.members.idxOf (C.Px.members.getD r 0) = r := by
        rw [List.getD_eq_getElem _ _ hr]
        exact List.Nodup.idxOf_getElem hin.wf.nodup r hr
      obtain ⟨z, e⟩ : ∃ z, generalForwardMode m C weight bias rgp localS inp U g rgx rg (C.Px.members.getD r 0) = some z := by
        by_cases hy : C.Px.members.getD r 0 ∈ C.Py.members
        · exact ⟨_, ho _ hy⟩
        · obtain ⟨z, e, -⟩ := hz _ (Or.inl hmem) hy
          exact ⟨z, e⟩
      rw [generalForwardMode, if_neg (hact _ (Or.inl hmem)), if_neg h1, hidx] at e
      by_contra hf
      rw [if_pos ⟨hmem, by simpa using hf⟩] at e
      cases e
  · intro hor
    have hpass : ∀ w, C.Active w → generalForwardMode m C weight bias rgp localS inp U g rgx rg w =
        generalForward C weight bias rgp localS inp U g rgx rg w := by
      intro w hw
      rw [generalForwardMode, if_neg (hact w hw), if_neg h1, if_neg]
      rintro ⟨hx, hf⟩
      have hr := List.idxOf_lt_length_of_mem hx
      have := (hstep _ hr).2 (hor.imp_right fun f => f _ hr)
      rw [List.getD_eq_getElem _ _ hr, List.getElem_idxOf hr, hf] at this
      cases this
    obtain ⟨⟨out, o1, o2⟩, o3, -⟩ := C44_forward (rgp := rgp) (rgx := rgx) (rg := rg) hW h hSp hg hin hG hfit
      (fun _ => hl) (fun _ => G) (fun _ => hfin) hp hs fun e => absurd e h1
    refine ⟨⟨out, fun u hu => (hpass u (Or.inr (Or.inr hu))).trans (o1 u hu), o2.shape, o2.dtype, fun u hu l hlb =>
      (o2.val u hu l hlb).trans ?_⟩, fun w hw hn => ?_⟩
    · rcases hor with hm | hi
      · subst hm
        generalize shiftBy _ l = o
        match o with
        | [] => rfl
        | [_] => rfl
        | _ :: _ :: _ => rfl
      · symm
        have hgl : (B :: C.Ci :: N).length = nd + 2 := by rw [← hG, Layout.length_global, hin.length, hD]
        refine torchConvMode_unpadded m ⟨by decide, one_dvd _, one_dvd _⟩ hgl rfl (winParams_length hW).1 (fun j hj => ?_)
          (fun j hj => inside_unpadded hin.wf hD hW hi h.wfx.pos hj) _ _ _
          (share_inBounds ?_ h.wfy.pos (coords_inBounds h.wfy hu) hlb)
        · have := (hl (j + 2) (by omega)).stride
          rw [hD, full_eq hW] at this
          simpa using this
        · rw [length_convShape C.W C.Co hgl, h.shy]
          simp [hSp]
    · obtain ⟨z, e, ez⟩ := o3 w hw hn
      exact ⟨z, (hpass w hw).trans e, ez⟩

/-- C92 for the general layer: with padding, some worker of `P_x` raises an exception in every mode but `zeros`. -/
theorem C92_general_padding_raises {m : PadMode} (hm : m ≠ .zeros) (hW : winParams nd pk ps pp pd = some C.W)
    (h : ChanValid C Po Pi Sp) (hSp : Sp.length = nd) (hin : WinInput C.Px C.W L localS inp X t rg0)
    (h1 : C.Pw.members.length ≠ 1) (hl : WinBase C.Px C.W L)
    (G : GeneralRun C C.Px localS inp dt junk ops eager k U S g) {j : Nat} (hj : j < nd) (hp : 0 < C.W.p.getD j 0) :
    ∃ w ∈ C.Px.members, generalForwardMode m C weight bias rgp localS inp U g rgx rg w = none := by
  have hD : C.Px.shape.length = nd + 2 := by rw [h.shx]; simp [hSp]
  have hk : C.W.k.length ≤ C.Px.shape.length := by rw [(winParams_length hW).1]; omega
  have hne : ¬ ∀ r, r < C.Px.members.length → WinInside C.Px C.W L (getCoords C.Px.shape r) := fun hi => by
    have := inside_unpadded hin.wf hD hW hi h.wfx.pos hj
    omega
  simp only [not_forall] at hne
  obtain ⟨r, hr, hn⟩ := hne
  have hmem := (member_spec hin.wf hr).1
  have hidx : C.Px.members.idxOf (C.Px.members.getD r 0) = r := by
    rw [List.getD_eq_getElem _ _ hr]
    exact List.Nodup.idxOf_getElem hin.wf.nodup r hr
  refine ⟨_, hmem, ?_⟩
  rw [generalForwardMode, if_neg (fun hh => hh.1 hmem), if_neg h1, hidx, if_pos]
  refine ⟨hmem, ?_⟩
  rw [← Bool.not_eq_true, C92_raises_iff m hin hl hk (G.run hin px_union).setup hr]
  exact fun e => e.elim hm hn

/-- C92 for the general layer on one worker: PyTorch's layer in mode `m` on the tensor of this worker. -/
theorem C92_general_one_worker (m : PadMode) {w : Nat} (h1 : C.Pw.members = [w]) (hg : C.groups = 1)
    (hpos : 0 < C.Ci ∧ 0 < C.Co) (hnd : C.W.k.length = 1 ∨ C.W.k.length = 2 ∨ C.W.k.length = 3)
    (hN : N.length = C.W.k.length)
    (hfit : ∀ j, j < C.W.k.length →
      C.W.d.getD j 0 * (C.W.k.getD j 0 - 1) + 1 ≤ N.getD j 0 + 2 * C.W.p.getD j 0)
    (hfits : m ≠ .zeros → ∀ j, j < C.W.k.length → 0 < N.getD j 0 ∧ padFits m (N.getD j 0) (C.W.p.getD j 0) = true)
    (hs : localS w = (B :: C.Ci :: N, t, rg0)) :
    ∃ y, generalForwardMode m C weight bias rgp localS inp U g rgx rg w = some y ∧
      y.shape = torchConvShape C.W C.Co (B :: C.Ci :: N) ∧ y.dtype = t ∧
      y.val = torchConvMode m C.W 1 C.Ci C.Co (weight w).val (fun c => if C.useBias then (bias w).val [c] else 0)
        (B :: C.Ci :: N) (inp w) := by
  refine ⟨⟨_, _, _⟩, ?_, rfl, rfl, rfl⟩
  have hw : w ∈ C.Pw.members := by rw [h1]; simp
  rw [generalForwardMode, if_neg (fun hh => hh.2.2 hw), if_pos (by rw [h1]; rfl), if_pos hw, hg, hs]
  exact layerMode_some m hpos.1 hpos.2 hnd hN hfit (fun hm j hj => hfits hm j (by omega)) _ _ _ rfl

end

/-- The layer of C44's example, with padding 1, raises an exception in mode `circular`; with `zeros` it works. -/
example : ∃ k U S g, GeneralRun exGe exGe.Px exGeS exGeX (.inst .float64) (fun _ => (0 : Nat)) (fun _ => []) false k U S g ∧
    (∀ r, r < 4 → (g.ws r).phase = haloPhases exGe.Px) ∧
    ∃ w ∈ exGe.Px.members, generalForwardMode .circular exGe (fun v => ⟨[2, 2, 3], .float32, exChWt exGe v⟩)
      (fun v => ⟨[2], .float32, exChBs exGe v⟩) true exGeS exGeX U g (fun _ => true) (fun _ => true) w = none := by
  obtain ⟨⟨U, S, R⟩, hc⟩ := C44_exchange exGe_input (.inst .float64) (fun _ => (0 : Nat)) (fun _ => []) false
  obtain ⟨k, g, R', -, hf⟩ := hc _ _ _ _ R
  exact ⟨k, U, S, g, R', hf, C92_general_padding_raises (nd := 1) (by decide)
    (show winParams 1 [3] [1] [1] [1] = some exGe.W by decide) exGe_valid rfl exGe_input (by decide) exGe_limits.reach.base
    R' (j := 0) (by decide) (by decide)⟩

/-- The same layer with kernel size 1 and no padding. -/
def exDot : ChanConv := { exGe with W := ⟨[1], [1], [0], [1]⟩ }

theorem exDot_input : WinInput exDot.Px exDot.W exGeL exGeS exGeX exChX .float32 true := by
  refine ⟨exGe_valid.wfx, by decide, by decide, fun w _ idx e => ?_, fun w _ idx e l _ => ?_⟩
  · have e : exGe.Px.index w = some idx := e
    simp only [exGeS, e, Option.getD_some]
  · have e : exGe.Px.index w = some idx := e
    simp only [exGeX, e, Option.getD_some]

theorem exDot_limits : WinLimits exDot.Px exDot.W exGeL := by
  intro j hj
  change j < 3 at hj
  interval_cases j
  · exact (reach_single (n := 2) (by decide) (by decide) (by decide) : AxisLimits 1 1 0 1 [2])
  · exact reach_unit_stride (P := 2) (n := 5) (k := 1) (p := 0) (d := 1) (by decide) (by decide) (by decide)
      (by decide) (by decide) (by decide)
  · exact reach_unit_stride (P := 2) (n := 4) (k := 1) (p := 0) (d := 1) (by decide) (by decide) (by decide)
      (by decide) (by decide) (by decide)

/-- In mode `circular` it gives worker 9 its block. -/
example : ∃ k U S g y, GeneralRun exDot exDot.Px exGeS exGeX (.inst .float64) (fun _ => (0 : Nat)) (fun _ => []) false k U S g ∧
    generalForwardMode .circular exDot (fun v => ⟨[2, 2, 1], .float32, exChWt exGe v⟩)
      (fun v => ⟨[2], .float32, exChBs exGe v⟩) true exGeS exGeX U g (fun _ => true) (fun _ => true) 9 = some y ∧
    y.shape = [2, 1, 2] ∧ y.val [1, 0, 1] =
      torchConvMode .circular exDot.W 1 5 3 exChW (fun c => exChB [c]) [2, 5, 4] exChX [1, 2, 3] := by
  obtain ⟨⟨U, S, R⟩, hc⟩ := C44_exchange exDot_input (.inst .float64) (fun _ => (0 : Nat)) (fun _ => []) false
  obtain ⟨k, g, R', -, hf⟩ := hc _ _ _ _ R
  obtain ⟨⟨out, h1, h2⟩, -⟩ := (C92_general_right_iff (nd := 1) (B := 2) (N := [4]) (rgp := true) (rgx := fun _ => true)
    (rg := fun _ => true) (weight := fun v => ⟨[2, 2, 1], .float32, exChWt exGe v⟩)
    (bias := fun v => ⟨[2], .float32, exChBs exGe v⟩) (Wt := exChW) (β := exChB) (Po := 2) (Pi := 2) (Sp := [2]) .circular
    (show winParams 1 [1] [1] [0] [1] = some exDot.W by decide)
    ⟨exGe_valid.wfx, exGe_valid.wfy, exGe_valid.wfw, rfl, rfl, rfl, ⟨_, rfl, rfl, rfl⟩, by decide⟩ rfl rfl exDot_input
    (by decide) (by decide) (by decide) exDot_limits R' hf
    ⟨fun _ _ _ _ _ _ _ _ _ => rfl, fun _ _ _ _ _ => rfl⟩ (by
      intro u hu
      have : u < 10 := by
        rcases hu with hu | hu | hu <;> revert u <;> decide
      interval_cases u <;> decide)).2 (Or.inr fun r hr => by
        change r < 4 at hr
        rw [winInside_axes exDot_input exDot_limits.reach.base (by decide) (getCoords_spec hr).1]
        intro j hj
        change j < 3 at hj
        interval_cases r <;> interval_cases j <;> decide)
  refine ⟨k, U, S, g, out 9, R', h1 9 (by decide), (h2.shape 9 (by decide)).trans (by decide), ?_⟩
  rw [h2.val 9 (by decide) [1, 0, 1] (by decide)]
  rfl

/-- One worker, four cells, kernel size 3, padding 1: mode `circular` reads the last cell before the first one. -/
example (U : Nat → WinSetup) (g : GState (List Nat → Int) (List Nat → Int)) : (generalForwardMode .circular ⟨⟨[3], [1, 1, 1], some 0⟩, ⟨[3], [1, 1, 1], some 0⟩, ⟨[3], [1, 1, 1], some 0⟩,
    ⟨[3], [1], [1], [1]⟩, 1, 1, 1, false⟩ (fun _ => ⟨[1, 1, 3], .float32, fun l => 10 ^ l.getD 2 0⟩)
    (fun _ => ⟨[1], .float32, fun _ => 0⟩) true (fun _ => ([1, 1, 4], .float32, true)) (fun _ l => (l.getD 2 0 : Int) + 1)
    U g (fun _ => true) (fun _ => true) 3).map
      (fun y => (y.shape, y.val [0, 0, 0])) = some ([1, 1, 4], 214) := by rfl

end Verif
