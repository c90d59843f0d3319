import Verif.Window.Props

/-!
# Runs exist and finish; when the limits hold; padding (C41)
-/

namespace Verif

open Exchange

section
variable {α : Type} {P : Cart} {W : WinParams} {L : Layout} {localS : Nat → List Nat × TorchDtype × Bool}
  {x : Nat → List Nat → α} {X : List Nat → α} {t : TorchDtype} {rg : Bool}
  {β : Type} {dt : NpKey} {junk : Nat → β} {ops : Nat → List (MgrOp β)} {eager : Bool} {k : Nat}
  {U : Nat → WinSetup} {S : Nat → HaloSetup} {g : GState (List Nat → α) (List Nat → α)} {v : α}

/-- Setup raises no exception on any worker, so the layer can be run. -/
theorem C39_starts (h : WinInput P W L localS x X t rg) (v : α) (dt : NpKey) (junk : Nat → β)
    (ops : Nat → List (MgrOp β)) (eager : Bool) :
    ∃ U S, WinRun P W v localS x dt junk ops eager 0 U S (GState.init fun r =>
      ((U r).padInput v (localS (P.members.getD r 0)).1 (x (P.members.getD r 0))).2) := by
  obtain ⟨T, hT, hU⟩ := winSetup_spec h
  obtain ⟨T', hT', hUr, hshape, -⟩ := setup_facts h v hU
  have hp := winDims_plan h
  obtain ⟨S, hS⟩ := C35_setup (H := winPlan P W L) h.wf dt junk ops
  refine ⟨_, S, hU, fun r hr => ?_, .refl _⟩
  rw [hshape r hr]
  have e := widths_plan hp hT (r := r) (by rw [← h.wf.size]; exact hr)
  simp only
  rw [e]
  exact hS r hr

/-- Every run can be continued until all workers have finished: no worker waits forever. -/
theorem C39_completes (h : WinInput P W L localS x X t rg)
    (R : WinRun P W v localS x dt junk ops eager k U S g) :
    ∃ k' g', WinRun P W v localS x dt junk ops eager k' U S g' ∧ k ≤ k' ∧
      ∀ r, r < P.members.length → (g'.ws r).phase = haloPhases P := by
  obtain ⟨T, hT, hUr, hshape, hval, hS⟩ := R.facts h
  have hok : (winPlan P W L).OK := plan_ok_always (winDims_plan h)
  have dn := hS.done hok.wf
  obtain ⟨k', g', hex, hk, hf⟩ := completes (HaloPlan.fwd_matched hok dn) (HaloPlan.fwd_commutes hok dn) R.exec
  exact ⟨k', g', ⟨R.setup, R.halo, hex⟩, hk, hf⟩

end

/-! ## When the limits hold -/

/-- Blocks of an even cut of `n` cells. -/
def evenBlocks (P n : Nat) : List Nat := (List.range P).map fun i => subsize P i n

theorem evenBlocks_length (P n : Nat) : (evenBlocks P n).length = P := by simp [evenBlocks]

theorem evenBlocks_take (P n c : Nat) (hc : c ≤ P) : ((evenBlocks P n).take c).sum = startIdx P c n :=
  balanced_take_sum P n c hc

theorem evenBlocks_sum {P : Nat} (hP : 0 < P) (n : Nat) : (evenBlocks P n).sum = n := by
  have := evenBlocks_take P n P (Nat.le_refl _)
  rw [startIdx_top hP, List.take_of_length_le (by rw [evenBlocks_length])] at this
  exact this

theorem torchOut1_eq {n k s p d : Nat} (hk : 0 < k) (hf : d * (k - 1) + 1 ≤ n + 2 * p) :
    torchOut1 n k s p d = (n + 2 * p - (d * (k - 1) + 1)) / s + 1 := by
  unfold torchOut1
  have e : (n : Int) + 2 * p - d * ((k : Int) - 1) - 1 = ((n + 2 * p - (d * (k - 1) + 1) : Nat) : Int) := by
    rw [Int.ofNat_sub hf]
    push_cast [Nat.cast_sub hk]
    ring
  rw [e]
  have : ((n + 2 * p - (d * (k - 1) + 1) : Nat) : Int) / (s : Int) + 1 =
      (((n + 2 * p - (d * (k - 1) + 1)) / s + 1 : Nat) : Int) := by
    push_cast
    rfl
  rw [this, Int.toNat_natCast]

/-- Evenly cut input with padding at most `d * (k - 1)`: every worker produces its share only. -/
theorem AxisReach.limits {k s p d P n : Nat} (hP : 0 < P) (h : AxisReach k s p d (evenBlocks P n))
    (hp : p ≤ d * (k - 1)) : AxisLimits k s p d (evenBlocks P n) := by
  refine ⟨h.kernel, h.stride, h.fit, h.outputs, h.left, h.right, fun c hc => ?_⟩
  have hf := h.fit
  rw [evenBlocks_length] at hc
  rw [evenBlocks_sum hP] at hf
  rw [evenBlocks_length, evenBlocks_sum hP, evenBlocks_take _ _ _ (by omega)]
  have hM := torchOut1_eq (s := s) h.kernel hf
  generalize torchOut1 n k s p d = M at hM ⊢
  have hdm := Nat.div_add_mod (n + 2 * p - (d * (k - 1) + 1)) s
  have hml := Nat.mod_lt (n + 2 * p - (d * (k - 1) + 1)) h.stride
  have hsM : s * M = s * ((n + 2 * p - (d * (k - 1) + 1)) / s) + s := by rw [hM]; ring
  have hout : n + 2 * p ≤ s * M + d * (k - 1) := by omega
  have m1 := startIdx_mul_le (P := P) (i := c + 1) s M hP (by omega)
  by_cases c2 : 2 * p ≤ d * (k - 1)
  · have m2 := startIdx_mono_right (P := P) (i := c + 1) (a := n)
      (b := s * M + (d * (k - 1) - 2 * p)) hP (by omega)
    have m3 := startIdx_add_le (P := P) (i := c + 1) (s * M) (d * (k - 1) - 2 * p) hP (by omega)
    have m4 := startIdx_le (P := P) hP (d * (k - 1) - 2 * p) (show c + 1 ≤ P by omega)
    omega
  · have m2 := startIdx_mono_right (P := P) (i := c + 1) (a := n) (b := s * M) hP (by omega)
    omega

theorem subsize_ge (P c n : Nat) : n / P ≤ subsize P c n := by unfold subsize; omega

/-- Stride 1: it is enough that no worker is without outputs, and that padding and reach of the kernel
are at most the smallest block. -/
theorem reach_unit_stride {k p d P n : Nat} (hP : 0 < P) (hk : 0 < k)
    (hp : p ≤ d * (k - 1)) (hM : P + d * (k - 1) ≤ n + 2 * p) (h1 : p ≤ n / P)
    (h2 : d * (k - 1) ≤ n / P + p) : AxisLimits k 1 p d (evenBlocks P n) := by
  refine AxisReach.limits hP ?_ hp
  have hf : d * (k - 1) + 1 ≤ n + 2 * p := by omega
  have eM := torchOut1_eq (s := 1) hk hf
  rw [Nat.div_one] at eM
  have hs := evenBlocks_sum hP n
  have hl := evenBlocks_length P n
  refine ⟨hk, Nat.one_pos, by rw [hs]; exact hf, fun c hc => ?_, fun c h0 hc => ?_, fun c hc => ?_⟩
  · rw [hl, hs]
    exact subsize_pos hP (by omega)
  · rw [hl] at hc
    rw [hl, hs, evenBlocks_take _ _ _ (by omega), Nat.one_mul, eM]
    have a1 : startIdx P (c + 1) n = startIdx P c n + subsize P c n := startIdx_succ _ _ _
    have a2 := subsize_ge P c n
    by_cases hle : n + 2 * p - (d * (k - 1) + 1) + 1 ≤ n
    · have a3 := startIdx_add_le (P := P) (i := c + 1) (n + 2 * p - (d * (k - 1) + 1) + 1)
        (n - (n + 2 * p - (d * (k - 1) + 1) + 1)) hP (by omega)
      have a4 := startIdx_le (P := P) hP (n - (n + 2 * p - (d * (k - 1) + 1) + 1)) (show c + 1 ≤ P by omega)
      rw [show n + 2 * p - (d * (k - 1) + 1) + 1 + (n - (n + 2 * p - (d * (k - 1) + 1) + 1)) = n by omega] at a3
      omega
    · have a3 := startIdx_mono_right (P := P) (i := c + 1) (a := n)
        (b := n + 2 * p - (d * (k - 1) + 1) + 1) hP (by omega)
      omega
  · rw [hl] at hc
    rw [hl, hs, evenBlocks_take _ _ _ (by omega), Nat.one_mul, eM]
    have a1 : startIdx P (c + 2) n = startIdx P (c + 1) n + subsize P (c + 1) n := startIdx_succ _ _ _
    have a2 := subsize_ge P (c + 1) n
    have a5 : 0 < startIdx P (c + 1) (n + 2 * p - (d * (k - 1) + 1) + 1) := by
      have b1 : startIdx P (c + 1) (n + 2 * p - (d * (k - 1) + 1) + 1) = startIdx P c _ + subsize P c _ :=
        startIdx_succ _ _ _
      have b2 := subsize_pos (P := P) (c := c) (M := n + 2 * p - (d * (k - 1) + 1) + 1) hP (by omega)
      omega
    by_cases hle : n + 2 * p - (d * (k - 1) + 1) + 1 ≤ n
    · have a3 := startIdx_mono_right (P := P) (i := c + 1) (b := n)
        (a := n + 2 * p - (d * (k - 1) + 1) + 1) hP hle
      omega
    · have a3 := startIdx_add_le (P := P) (i := c + 1) n
        (n + 2 * p - (d * (k - 1) + 1) + 1 - n) hP (by omega)
      have a4 := startIdx_le (P := P) hP (n + 2 * p - (d * (k - 1) + 1) + 1 - n) (show c + 1 ≤ P by omega)
      rw [show n + (n + 2 * p - (d * (k - 1) + 1) + 1 - n) = n + 2 * p - (d * (k - 1) + 1) + 1 by omega] at a3
      omega

/-- Stride `s`, every worker with `s * q` cells and `q` outputs: it is enough that padding and overlap of
the windows are at most a block and that the padding is shorter than the window. -/
theorem reach_aligned {k s p d P q : Nat} (hP : 0 < P) (hk : 0 < k) (hs : 0 < s) (hq : 0 < q)
    (hM : torchOut1 (s * (P * q)) k s p d = P * q) (hf : d * (k - 1) + 1 ≤ s * (P * q) + 2 * p)
    (hp : p ≤ d * (k - 1)) (h1 : p ≤ s * q) (h2 : d * (k - 1) + 1 ≤ s * q + s + p) :
    AxisLimits k s p d (evenBlocks P (s * (P * q))) := by
  refine AxisReach.limits hP ?_ hp
  have hs' := evenBlocks_sum hP (s * (P * q))
  have hl := evenBlocks_length P (s * (P * q))
  have e1 : ∀ c, startIdx P c (P * q) = q * c := by
    intro c
    unfold startIdx
    rw [Nat.mul_div_cancel_left _ hP, Nat.mul_mod_right]
    simp
  have e2 : ∀ c, startIdx P c (s * (P * q)) = s * q * c := by
    intro c
    unfold startIdx
    rw [show s * (P * q) = P * (s * q) by ring, Nat.mul_div_cancel_left _ hP, Nat.mul_mod_right]
    simp
  refine ⟨hk, hs, by rw [hs']; exact hf, fun c hc => ?_, fun c h0 hc => ?_, fun c hc => ?_⟩
  · rw [hl, hs', hM]
    exact subsize_pos hP (Nat.le_mul_of_pos_right _ hq)
  · rw [hl] at hc
    rw [hl, hs', hM, evenBlocks_take _ _ _ (by omega), e1, e2]
    rw [show s * (q * (c + 1)) = s * q * c + s * q by ring]
    omega
  · rw [hl] at hc
    rw [hl, hs', hM, evenBlocks_take _ _ _ (by omega), e1, e2]
    have hpos : 1 ≤ q * (c + 1) := Nat.mul_pos hq (by omega)
    have e3 : s * (q * (c + 1) - 1) + s = s * q * (c + 1) := by
      rw [Nat.mul_sub, Nat.mul_one, Nat.sub_add_cancel (Nat.le_mul_of_pos_right _ hpos)]
      ring
    have e4 : s * q * (c + 2) = s * q * (c + 1) + s * q := by ring
    omega

/-- One block: only the window must fit. -/
theorem reach_single {k s p d n : Nat} (hk : 0 < k) (hs : 0 < s) (hf : d * (k - 1) + 1 ≤ n + 2 * p) :
    AxisLimits k s p d [n] := by
  refine ⟨hk, hs, by simpa using hf, fun c hc => ?_, fun c h0 hc => ?_, fun c hc => ?_, fun c hc => ?_⟩
  · refine subsize_pos Nat.one_pos ?_
    have e := torchOut1_eq (s := s) hk hf
    show 1 ≤ torchOut1 ([n] : List Nat).sum k s p d
    rw [show ([n] : List Nat).sum = n by simp, e]
    exact Nat.succ_pos _
  all_goals simp at hc

/-! ## C41 -/

section
variable {P : Cart} {W : WinParams} {localS : Nat → List Nat × TorchDtype × Bool}
  {t : TorchDtype} {rg : Bool} {nd : Nat} {pk ps pp pd ns : List Nat}
  {β : Type} {dt : NpKey} {junk : Nat → β} {ops : Nat → List (MgrOp β)} {eager : Bool} {k : Nat}
  {U : Nat → WinSetup} {S : Nat → HaloSetup}

theorem balanced_blocks {Ps ns : List Nat} (h : Ps.length = ns.length) {j : Nat} (hj : j < Ps.length) :
    (Layout.balanced Ps ns).getD j [] = evenBlocks (Ps.getD j 0) (ns.getD j 0) := by
  unfold Layout.balanced evenBlocks
  rw [List.getD_eq_getElem _ _ (by simp [h]; omega), List.getElem_zipWith, List.getD_eq_getElem _ _ hj,
    List.getD_eq_getElem ns _ (by rw [← h]; exact hj)]

theorem WinReach.limits (hw : P.WF) (hn : P.shape.length = ns.length)
    (hW : winParams nd pk ps pp pd = some W) (hD : P.shape.length = nd + 2)
    (h : WinReach P W (Layout.balanced P.shape ns))
    (hp : ∀ j, j < nd → W.p.getD j 0 ≤ W.d.getD j 0 * (W.k.getD j 0 - 1)) :
    WinLimits P W (Layout.balanced P.shape ns) := by
  intro j hj
  have r := h j hj
  rw [balanced_blocks hn hj] at r ⊢
  refine r.limits ?_ ?_
  · rw [List.getD_eq_getElem _ _ hj]
    exact hw.pos _ (List.getElem_mem _)
  · rw [hD, full_eq hW]
    match j, hj with
    | 0, _ => exact Nat.zero_le _
    | 1, _ => exact Nat.zero_le _
    | j + 2, hj => exact hp j (by omega)

/-- C41, convolution, partial: with an evenly cut input and explicit padding of at most `d * (k - 1)` cells
in every dimension the workers' outputs are the blocks of the sequential result.

Full statement: the same for every padding; it is false, `C41_false`. -/
theorem C41_convolution_partial {F : Type} [AddCommMonoid F] [Mul F] {x : Nat → List Nat → F} {X : List Nat → F}
    {g : GState (List Nat → F) (List Nat → F)} (C : ConvLayer F)
    (hW : winParams nd pk ps pp pd = some C.W) (hD : P.shape.length = nd + 2) (hch : P.shape.getD 1 0 = 1)
    (hroot : ∃ ρ, P.root = some ρ) (hgr : 0 < C.groups ∧ C.groups ∣ C.Ci ∧ C.groups ∣ C.Co)
    (hpos : 0 < C.Ci ∧ 0 < C.Co) (hn : P.shape.length = ns.length) (hCi : ns.getD 1 0 = C.Ci)
    (h : WinInput P C.W (Layout.balanced P.shape ns) localS x X t rg)
    (hl : WinReach P C.W (Layout.balanced P.shape ns))
    (hp : ∀ j, j < nd → C.W.p.getD j 0 ≤ C.W.d.getD j 0 * (C.W.k.getD j 0 - 1))
    (R : WinRun P C.W 0 localS x dt junk ops eager k U S g) {r : Nat}
    (hr : r < P.members.length) (hfin : (g.ws r).phase = haloPhases P) (rgw : Bool) :
    let out := Layout.balanced P.shape (torchConvShape C.W C.Co ns)
    let idx := getCoords P.shape r
    ∃ y, featureForward P C rgw localS x U g r = some y ∧ y.shape = out.shapeAt idx ∧ y.dtype = t ∧
      ∀ o, InBounds o (out.shapeAt idx) → y.val o =
        torchConv C.W C.groups C.Ci C.Co C.weight.val (biasOf C.bias) ns X (shiftBy (out.startAt idx) o) := by
  have hg : (Layout.balanced P.shape ns).global = ns := Layout.balanced_global hn h.wf.pos
  have := C39_feature_conv C hW hD hch hroot hgr hpos h (by rw [hg]; exact hCi)
    (fun _ j hj => by
      have hf := (hl (j + 2) (by omega)).fit
      rw [hD, full_eq hW, ← global_getD (by rw [h.length, hD]; omega)] at hf
      exact hf)
    (fun _ => hl.limits h.wf hn hW hD hp) (fun _ => R) hr (fun _ => hfin) rgw
  rw [hg] at this
  exact this

/-- Padding that the sequential pooling accepts is at most half the kernel. -/
theorem pool_padding {k p d : Nat} (hd : 0 < d) (h : p ≤ k / 2) : p ≤ d * (k - 1) := by
  calc p ≤ 1 * (k - 1) := by omega
    _ ≤ d * (k - 1) := Nat.mul_le_mul_right _ hd

/-- C41, maximum pooling: every padding the sequential layer accepts (at most half the kernel). -/
theorem C41_maximum {F : Type} [SemilatticeSup F] [OrderBot F] {x : Nat → List Nat → F} {X : List Nat → F}
    {g : GState (List Nat → F) (List Nat → F)}
    (hW : poolParams false nd pk ps pp pd = some W) (hD : P.shape.length = nd + 2)
    (hn : P.shape.length = ns.length)
    (h : WinInput P W (Layout.balanced P.shape ns) localS x X t rg)
    (hl : WinReach P W (Layout.balanced P.shape ns)) (hd : ∀ j, j < nd → 0 < W.d.getD j 0)
    (hp : ∀ j, j < nd → W.p.getD j 0 ≤ W.k.getD j 0 / 2)
    (R : WinRun P W ⊥ localS x dt junk ops eager k U S g) {r : Nat}
    (hr : r < P.members.length) (hfin : (g.ws r).phase = haloPhases P) :
    let out := Layout.balanced P.shape (torchPoolShape W ns)
    let idx := getCoords P.shape r
    let y := maxPoolForward P W localS x U g r
    y.shape = out.shapeAt idx ∧ y.dtype = t ∧
    ∀ o, InBounds o (out.shapeAt idx) → y.val o = torchMaxPool W ns X (shiftBy (out.startAt idx) o) := by
  have hg : (Layout.balanced P.shape ns).global = ns := Layout.balanced_global hn h.wf.pos
  have hW' : winParams nd pk ps pp pd = some W := by
    obtain ⟨W', h1, h2⟩ := Option.bind_eq_some_iff.1 hW
    simp only [Bool.false_and, Bool.false_eq_true, if_false, Option.some.injEq] at h2
    rw [← h2]; exact h1
  have := C40_maximum hW hD h (hl.limits h.wf hn hW' hD fun j hj => pool_padding (hd j hj) (hp j hj)) R hr hfin
  rw [hg] at this
  exact this

/-- C41, average pooling: every padding the sequential layer accepts. -/
theorem C41_average {F : Type} [AddCommMonoid F] [Div F] [NatCast F] {x : Nat → List Nat → F} {X : List Nat → F}
    {g : GState (List Nat → F) (List Nat → F)}
    (hW : poolParams true nd pk ps pp pd = some W) (hD : P.shape.length = nd + 2)
    (hn : P.shape.length = ns.length)
    (h : WinInput P W (Layout.balanced P.shape ns) localS x X t rg)
    (hl : WinReach P W (Layout.balanced P.shape ns))
    (hp : ∀ j, j < nd → W.p.getD j 0 ≤ W.k.getD j 0 / 2)
    (R : WinRun P W 0 localS x dt junk ops eager k U S g) {r : Nat}
    (hr : r < P.members.length) (hfin : (g.ws r).phase = haloPhases P) :
    let out := Layout.balanced P.shape (torchPoolShape W ns)
    let idx := getCoords P.shape r
    let y := avgPoolForward P W localS x U g r
    y.shape = out.shapeAt idx ∧ y.dtype = t ∧
    ∀ o, InBounds o (out.shapeAt idx) → y.val o = torchAvgPool W ns X (shiftBy (out.startAt idx) o) := by
  have hg : (Layout.balanced P.shape ns).global = ns := Layout.balanced_global hn h.wf.pos
  obtain ⟨W', h1, h2⟩ := Option.bind_eq_some_iff.1 hW
  split at h2
  · cases h2
  · rename_i hd1
    cases h2
    have hd : ∀ j, j < nd → 0 < W.d.getD j 0 := by
      intro j hj
      have hjl : j < W.d.length := by rw [(winParams_length h1).2.2.2]; exact hj
      rw [List.getD_eq_getElem _ _ hjl]
      have : ∀ n ∈ W.d, n = 1 := by simpa using hd1
      rw [this _ (List.getElem_mem hjl)]
      exact Nat.one_pos
    have := C40_average hW hD h (hl.limits h.wf hn h1 hD fun j hj => pool_padding (hd j hj) (hp j hj)) R hr hfin
    rw [hg] at this
    exact this.2

end

/-! ## C41: counterexample -/

/-- Four workers along one feature dimension, one cell each. -/
def padP : Cart := ⟨[0, 1, 2, 3], [1, 1, 4], some 0⟩
/-- Kernel size 1, padding 2. -/
def padW : WinParams := ⟨[1], [1], [2], [1]⟩
def padC : ConvLayer Nat := ⟨padW, 1, 1, 1, ⟨[1, 1, 1], .float32, fun _ => 1⟩, none⟩
def padL : Layout := Layout.balanced padP.shape [1, 1, 4]
def padX : List Nat → Nat := fun l => l.getD 2 0 + 1

theorem pad_wf : padP.WF := ⟨by decide, rfl, by decide⟩

theorem pad_input : WinInput padP padW padL
    (fun w => (padL.shapeAt ((padP.index w).getD []), .float32, true))
    (fun w l => padX (shiftBy (padL.startAt ((padP.index w).getD [])) l)) padX .float32 true := by
  refine ⟨pad_wf, by decide, by decide, fun w _ idx e => ?_, fun w _ idx e l _ => ?_⟩
  · simp only [e, Option.getD_some]
  · simp only [e, Option.getD_some]

/-- C41 is false for convolution: four cells over four workers, kernel size 1, padding 2.  The sequential
layer has eight outputs, each worker's share is two, and the halos fit; but worker 0 returns three outputs,
the workers together nine. -/
theorem C41_false :
    winParams 1 padW.k padW.s padW.p padW.d = some padC.W ∧ WinReach padP padW padL ∧
    torchConvShape padC.W padC.Co padL.global = [1, 1, 8] ∧
    ∀ {β : Type} (dt : NpKey) (junk : Nat → β) (ops : Nat → List (MgrOp β)) (eager : Bool) (k : Nat)
      (U : Nat → WinSetup) (S : Nat → HaloSetup) (g : GState (List Nat → Nat) (List Nat → Nat)),
      WinRun padP padC.W 0 (fun w => (padL.shapeAt ((padP.index w).getD []), .float32, true))
        (fun w l => padX (shiftBy (padL.startAt ((padP.index w).getD [])) l)) dt junk ops eager k U S g →
      ∀ r, r < 4 → ∃ y, featureForward padP padC true
          (fun w => (padL.shapeAt ((padP.index w).getD []), .float32, true))
          (fun w l => padX (shiftBy (padL.startAt ((padP.index w).getD [])) l)) U g r = some y ∧
        y.shape = [1, 1, if r = 0 then 3 else 2] := by
  refine ⟨by decide, ?_, by decide, ?_⟩
  · intro j hj
    change j < 3 at hj
    interval_cases j
    · exact (reach_single (n := 1) (by decide) (by decide) (by decide) : AxisLimits 1 1 0 1 [1]).reach
    · exact (reach_single (n := 1) (by decide) (by decide) (by decide) : AxisLimits 1 1 0 1 [1]).reach
    · refine ⟨by decide, by decide, by decide, by decide, ?_, ?_⟩
      · intro c h0 hc
        change c + 1 < 4 at hc
        have : c < 3 := by omega
        interval_cases c <;> decide
      · intro c hc
        change c + 2 < 4 at hc
        have : c < 2 := by omega
        interval_cases c <;> decide
  · intro β dt junk ops eager k U S g R r hr
    obtain ⟨T, hT, hU, hsh, -, -⟩ := R.facts pad_input
    have hp := winDims_plan pad_input
    have hi : InBounds (getCoords padP.shape r) padP.shape := (getCoords_spec (by exact hr)).1
    have hw := paramBcast_forward pad_wf ⟨0, rfl⟩ (by decide) padC.weight true (r := r) hr
    have hs := hsh r hr
    have hl : ((U r).info.needed).length = 3 := by
      rw [hU r hr]
      rfl
    have hUi : (U r).info = exchangeInfo (winDims padP padW padL) (some T) (getCoords padP.shape r) := by
      rw [hU r hr]
    have n0 := needed_eq hp hT hi (show 0 < padP.shape.length by decide)
    have n1 := needed_eq hp hT hi (show 1 < padP.shape.length by decide)
    have n2 := needed_eq hp hT hi (show 2 < padP.shape.length by decide)
    rw [← hUi] at n0 n1 n2
    have hne : (U r).info.needed = [(U r).info.needed.getD 0 (0, 0), (U r).info.needed.getD 1 (0, 0),
        (U r).info.needed.getD 2 (0, 0)] := by
      match h : (U r).info.needed, hl with
      | [a, b, c], _ => rfl
    have hI : (localInput padP 0 (fun w => (padL.shapeAt ((padP.index w).getD []), .float32, true))
        (fun w l => padX (shiftBy (padL.startAt ((padP.index w).getD [])) l)) U g r).1 =
        [1, 1, if r = 0 then 3 else 2] := by
      show ((pySlices ((U r).padInput 0 _ _).1 (U r).info.needed).map fun p => p.2 - p.1) = _
      rw [hs, hne, n0, n1, n2]
      interval_cases r <;> decide
    have ef : featureForward padP padC true (fun w => (padL.shapeAt ((padP.index w).getD []), .float32, true))
        (fun w l => padX (shiftBy (padL.startAt ((padP.index w).getD [])) l)) U g r =
        torchConvLayer padW.noPad 1 1 1 false padC.weight.val (fun _ => 0)
          ⟨(localInput padP 0 (fun w => (padL.shapeAt ((padP.index w).getD []), .float32, true))
            (fun w l => padX (shiftBy (padL.startAt ((padP.index w).getD [])) l)) U g r).1, .float32,
          (localInput padP 0 (fun w => (padL.shapeAt ((padP.index w).getD []), .float32, true))
            (fun w l => padX (shiftBy (padL.startAt ((padP.index w).getD [])) l)) U g r).2⟩ := by
      unfold featureForward
      rw [if_neg (by decide), hw]
      rfl
    rw [ef]
    generalize localInput padP 0 (fun w => (padL.shapeAt ((padP.index w).getD []), .float32, true))
      (fun w l => padX (shiftBy (padL.startAt ((padP.index w).getD [])) l)) U g r = I at hI
    obtain ⟨I1, I2⟩ := I
    change I1 = _ at hI
    subst hI
    refine ⟨_, if_pos ?_, ?_⟩
    · interval_cases r <;> simp [padW, WinParams.noPad]
    · show torchConvShape padW.noPad 1 [1, 1, if r = 0 then 3 else 2] = [1, 1, if r = 0 then 3 else 2]
      interval_cases r <;> decide

/-! ## Worked cases -/

/-- Six workers in a 2 x 3 grid; batch 2, 2 channels, 9 x 8 cells; kernel 3 x 3, strides 2 and 1,
padding 1, two groups. -/
def exWP : Cart := ⟨[5, 4, 3, 2, 1, 0], [1, 1, 2, 3], some 0⟩
def exWn : List Nat := [2, 2, 9, 8]
def exWL : Layout := Layout.balanced exWP.shape exWn
def exWW : WinParams := ⟨[3, 3], [2, 1], [1, 1], [1, 1]⟩
def exWC : ConvLayer Int := ⟨exWW, 2, 2, 4, ⟨[4, 1, 3, 3], .float32, fun l => l.sum⟩, some ⟨[4], .float32, fun l => l.sum⟩⟩
def exWX : List Nat → Int := fun l => l.sum
def exWs : Nat → List Nat × TorchDtype × Bool := fun w => (exWL.shapeAt ((exWP.index w).getD []), .float32, true)
def exWx {α : Type} (X : List Nat → α) : Nat → List Nat → α := fun w l => X (shiftBy (exWL.startAt ((exWP.index w).getD [])) l)

theorem exW_wf : exWP.WF := ⟨by decide, rfl, by decide⟩
theorem exW_input {α : Type} (X : List Nat → α) : WinInput exWP exWW exWL exWs (exWx X) X .float32 true := by
  refine ⟨exW_wf, by decide, by decide, fun w _ idx e => ?_, fun w _ idx e l _ => ?_⟩
  · simp only [exWs, e, Option.getD_some]
  · simp only [exWx, e, Option.getD_some]
theorem exW_reach : WinReach exWP exWW exWL := by
  intro j hj
  change j < 4 at hj
  interval_cases j
  · exact (reach_single (n := 2) (by decide) (by decide) (by decide) : AxisLimits 1 1 0 1 [2]).reach
  · exact (reach_single (n := 2) (by decide) (by decide) (by decide) : AxisLimits 1 1 0 1 [2]).reach
  · refine ⟨by decide, by decide, by decide, by decide, ?_, ?_⟩
    · intro c h0 hc
      change c + 1 < 2 at hc
      omega
    · intro c hc
      change c + 2 < 2 at hc
      omega
  · exact (reach_unit_stride (P := 3) (n := 8) (k := 3) (p := 1) (d := 1) (by decide) (by decide) (by decide)
      (by decide) (by decide) (by decide)).reach

/-- The layer runs to the end on all workers and worker 4 returns its block of the sequential result. -/
example : ∃ k U S g y, WinRun exWP exWC.W 0 exWs (exWx exWX) (.inst .float64) (fun _ => (0 : Nat)) (fun _ => []) false k U S g ∧
    (∀ r, r < 6 → (g.ws r).phase = haloPhases exWP) ∧ featureForward exWP exWC true exWs (exWx exWX) U g 4 = some y ∧
    y.shape = [2, 4, 2, 3] ∧ y.val [1, 3, 1, 2] =
      torchConv exWW 2 2 4 exWC.weight.val (biasOf exWC.bias) exWn exWX [1, 3, 4, 5] := by
  obtain ⟨U, S, R⟩ := C39_starts (exW_input exWX) (0 : Int) (.inst .float64) (fun _ => (0 : Nat)) (fun _ => []) false
  obtain ⟨k, g, R', -, hf⟩ := C39_completes (exW_input exWX) R
  obtain ⟨y, h1, h2, -, h3⟩ := C41_convolution_partial (ns := exWn) exWC
    (show winParams 2 [3] [2, 1] [1] [1] = some exWW by decide) rfl rfl ⟨0, rfl⟩
    (by decide) (by decide) rfl rfl (exW_input exWX) exW_reach (by decide) R' (r := 4) (by decide) (hf 4 (by decide)) true
  refine ⟨k, U, S, g, y, R', hf, h1, h2.trans (by decide), ?_⟩
  rw [h3 [1, 3, 1, 2] (by decide)]
  rfl

/-- Aligned stride: kernel 2, stride 2, twelve cells over three workers. -/
example : AxisLimits 2 2 0 1 (evenBlocks 3 12) :=
  reach_aligned (q := 2) (P := 3) (by decide) (by decide) (by decide) (by decide) (by decide) (by decide)
    (by decide) (by decide) (by decide)

/-- Maximum pooling of a tensor of the same layout. -/
example (X : List Nat → Nat) : ∃ k U S g, WinRun exWP exWW ⊥ exWs (exWx X) (.inst .float64) (fun _ => (0 : Nat))
      (fun _ => []) true k U S g ∧ (maxPoolForward exWP exWW exWs (exWx X) U g 4).shape = [2, 2, 2, 3] ∧
    (maxPoolForward exWP exWW exWs (exWx X) U g 4).val [1, 1, 1, 2] = torchMaxPool exWW exWn X [1, 1, 4, 5] := by
  obtain ⟨U, S, R⟩ := C39_starts (exW_input X) ⊥ (.inst .float64) (fun _ => (0 : Nat)) (fun _ => []) true
  obtain ⟨k, g, R', -, hf⟩ := C39_completes (exW_input X) R
  obtain ⟨h2, -, h3⟩ := C41_maximum (ns := exWn) (show poolParams false 2 [3] [2, 1] [1] [1] = some exWW by decide)
    rfl rfl (exW_input X) exW_reach (by decide) (by decide) R' (r := 4) (by decide) (hf 4 (by decide))
  refine ⟨k, U, S, g, R', h2.trans (by decide), ?_⟩
  rw [h3 [1, 1, 1, 2] (by decide)]
  rfl

/-- Average pooling of a tensor of the same layout. -/
example (X : List Nat → ℚ) : ∃ k U S g, WinRun exWP exWW 0 exWs (exWx X) (.inst .float64) (fun _ => (0 : Nat))
      (fun _ => []) true k U S g ∧ (avgPoolForward exWP exWW exWs (exWx X) U g 4).shape = [2, 2, 2, 3] ∧
    (avgPoolForward exWP exWW exWs (exWx X) U g 4).val [1, 1, 1, 2] = torchAvgPool exWW exWn X [1, 1, 4, 5] := by
  obtain ⟨U, S, R⟩ := C39_starts (exW_input X) 0 (.inst .float64) (fun _ => (0 : Nat)) (fun _ => []) true
  obtain ⟨k, g, R', -, hf⟩ := C39_completes (exW_input X) R
  obtain ⟨h2, -, h3⟩ := C41_average (ns := exWn) (show poolParams true 2 [3] [2, 1] [1] [1] = some exWW by decide)
    rfl rfl (exW_input X) exW_reach (by decide) R' (r := 4) (by decide) (hf 4 (by decide))
  refine ⟨k, U, S, g, R', h2.trans (by decide), ?_⟩
  rw [h3 [1, 1, 1, 2] (by decide)]
  rfl

end Verif
