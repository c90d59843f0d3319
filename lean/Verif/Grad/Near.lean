import Verif.Grad.Props
import Verif.Window.Near

/-!
# Gradients of convolution and pooling whether the halos fit or not (C60)

The backward pass is the adjoint of the forward pass, so the gradient of a cell collects the contributions of the
outputs of those workers only that see the cell.
-/

namespace Verif

open Exchange

section
variable {P : Cart} {W : WinParams} {L : Layout} {localS : Nat → List Nat × TorchDtype × Bool}
  {t : TorchDtype} {rg : Bool} {nd : Nat} {pk ps pp pd : List Nat}
  {β : Type} {dt : NpKey} {junk : Nat → β} {ops : Nat → List (MgrOp β)} {eager eager' : Bool} {k k' : Nat}
  {U : Nat → WinSetup} {S : Nat → HaloSetup}

theorem conv_blank {R : Type} [CommSemiring R] (gr Ci Co : Nat) (wt : List Nat → R) (G o : List Nat) :
    torchConv W gr Ci Co wt (fun _ => 0) G (fun _ => 0) o = 0 := by
  match o with
  | [] => rfl
  | [_] => rfl
  | b :: co :: o => simp only [torchConv, winRead_blank, mul_zero, boxSum_zero, Finset.sum_const_zero, add_zero]

theorem avg_blank {F : Type} [Field F] (G o : List Nat) : torchAvgPool W G (fun _ => (0 : F)) o = 0 := by
  unfold torchAvgPool
  simp only [winRead_blank]
  rw [boxSum_zero, zero_div]

/-- C60, convolution, halos that fit or not, at least two workers, every worker returning exactly its share: the
gradient of an input cell collects the contributions of the outputs of those workers only whose own block is the
cell's block or next to it.  The factor of a cell in an output is the output for the tensor with 1 in that cell. -/
theorem C60_convolution_seen {R : Type} [CommSemiring R] {x : Nat → List Nat → R} {X : List Nat → R}
    {g g' : GState (List Nat → R) (List Nat → R)} (C : ConvLayer R)
    (hW : winParams nd pk ps pp pd = some C.W) (hD : P.shape.length = nd + 2) (hch : P.shape.getD 1 0 = 1)
    (hroot : ∃ ρ, P.root = some ρ) (hgr : 0 < C.groups ∧ C.groups ∣ C.Ci ∧ C.groups ∣ C.Co)
    (h : WinInput P C.W L localS x X t rg) (hCi : L.global.getD 1 0 = C.Ci) (h1 : P.members.length ≠ 1)
    (hl : WinBase P C.W L) (hsh : ∀ w, w < P.members.length → WinShare P C.W L (getCoords P.shape w))
    (A : WinRun P C.W 0 localS x dt junk ops eager k U S g) (rgw : Bool)
    {dy : Nat → List Nat → R} {G : List Nat → R} (hG : OutGrads P (torchConvShape C.W C.Co L.global) dy G)
    (B : WinBack P localS U S (convLocalGradX P C rgw localS x U g dy) eager' k' g')
    {r : Nat} (hr : r < P.members.length) (hfin : (g'.ws r).phase = haloPhases P) :
    let out := Layout.balanced P.shape (torchConvShape C.W C.Co L.global)
    ∀ l, InBounds l (L.shapeAt (getCoords P.shape r)) →
      let q := shiftBy (L.startAt (getCoords P.shape r)) l
      featureGradX P C localS U dy g' r l = ∑ w ∈ Finset.range P.members.length,
        if Near L (getCoords P.shape w) q then boxSum (out.shapeAt (getCoords P.shape w)) fun o =>
          torchConv C.W C.groups C.Ci C.Co C.weight.val (fun _ => 0) L.global (fun m => if m = q then 1 else 0)
            (shiftBy (out.startAt (getCoords P.shape w)) o) * G (shiftBy (out.startAt (getCoords P.shape w)) o)
        else 0 := by
  intro out l hb q
  unfold featureGradX
  rw [if_neg h1]
  obtain ⟨hy, k2, g2, A2, hA2, e⟩ := pull_back h A B hr hfin hb
  rw [e]
  refine Finset.sum_congr rfl fun w hw => ?_
  have hw := Finset.mem_range.1 hw
  have hi : InBounds (getCoords P.shape w) P.shape := (getCoords_spec (by rw [← h.wf.size]; exact hw)).1
  obtain ⟨-, c2, -, c4⟩ := conv_of hD hch hgr h.length (blocks_length h (by omega)) hCi hi
    (local_of hW hD h.length hi (windows_near hy hl A2 hw (hA2 w hw))) C.weight.val fun _ => 0
  have hwt := paramBcast_forward h.wf hroot (by omega) C.weight rgw hw
  have hs := localInput_shape (v := 0) (v' := 0) (g := g) (g' := g2) h hy A.setup hw
  unfold convLocalGradX
  rw [hwt]
  dsimp only
  rw [hs, conv_transpose, c2.2 (hsh w hw)]
  split
  · rename_i hn
    rw [seen_near hn] at c4
    refine boxSum_congr fun o ho => ?_
    rw [c4 o ho, hG w hw o ho]
  · rename_i hn
    rw [seen_far hn] at c4
    refine Eq.trans (boxSum_congr fun o ho => ?_) (boxSum_zero _)
    rw [c4 o ho, conv_blank, zero_mul]

/-- C60, average pooling, halos that fit or not. -/
theorem C60_average_seen {F : Type} [Field F] {x : Nat → List Nat → F} {X : List Nat → F}
    {g g' : GState (List Nat → F) (List Nat → F)}
    (hW : poolParams true nd pk ps pp pd = some W) (hD : P.shape.length = nd + 2)
    (h : WinInput P W L localS x X t rg)
    (hl : WinBase P W L) (hsh : ∀ w, w < P.members.length → WinShare P W L (getCoords P.shape w))
    (A : WinRun P W 0 localS x dt junk ops eager k U S g)
    {dy : Nat → List Nat → F} {G : List Nat → F} (hG : OutGrads P (torchPoolShape W L.global) dy G)
    (B : WinBack P localS U S (avgLocalGrad P W localS x U g dy) eager' k' g')
    {r : Nat} (hr : r < P.members.length) (hfin : (g'.ws r).phase = haloPhases P) :
    let out := Layout.balanced P.shape (torchPoolShape W L.global)
    ∀ l, InBounds l (L.shapeAt (getCoords P.shape r)) →
      let q := shiftBy (L.startAt (getCoords P.shape r)) l
      inputGrad P localS U g' r l = ∑ w ∈ Finset.range P.members.length,
        if Near L (getCoords P.shape w) q then boxSum (out.shapeAt (getCoords P.shape w)) fun o =>
          torchAvgPool W L.global (fun m => if m = q then 1 else 0)
            (shiftBy (out.startAt (getCoords P.shape w)) o) * G (shiftBy (out.startAt (getCoords P.shape w)) o)
        else 0 := by
  intro out l hb q
  obtain ⟨hy, k2, g2, A2, hA2, e⟩ := pull_back h A B hr hfin hb
  rw [e]
  refine Finset.sum_congr rfl fun w hw => ?_
  have hw := Finset.mem_range.1 hw
  have c2 := (C40_average_seen hW hD hy hl A2 hw (hA2 w hw)).2
  have hs := localInput_shape (v := 0) (v' := 0) (g := g) (g' := g2) h hy A.setup hw
  unfold avgLocalGrad
  rw [hs, avg_transpose]
  have c21 : torchPoolShape W.noPad (localInput P 0 localS _ U g2 w).1 = _ := c2.1.2 (hsh w hw)
  have c22 : ∀ o, InBounds o (out.shapeAt (getCoords P.shape w)) →
      torchAvgPool W.noPad (localInput P 0 localS _ U g2 w).1 (localInput P 0 localS _ U g2 w).2 o = _ :=
    fun o ho => (c2.2 o ho).2
  rw [c21]
  split
  · rename_i hn
    rw [seen_near hn] at c22
    refine boxSum_congr fun o ho => ?_
    rw [c22 o ho, hG w hw o ho]
  · rename_i hn
    rw [seen_far hn] at c22
    refine Eq.trans (boxSum_congr fun o ho => ?_) (boxSum_zero _)
    rw [c22 o ho, avg_blank, zero_mul]

/-- An output cell belongs to the share of one worker only. -/
theorem share_owner (hw : P.WF) {N : List Nat} (hN : P.shape.length = N.length) {w w' : Nat}
    (h1 : w < P.members.length) (h2 : w' < P.members.length) {o o' : List Nat}
    (ho : InBounds o ((Layout.balanced P.shape N).shapeAt (getCoords P.shape w)))
    (ho' : InBounds o' ((Layout.balanced P.shape N).shapeAt (getCoords P.shape w')))
    (e : shiftBy ((Layout.balanced P.shape N).startAt (getCoords P.shape w)) o =
      shiftBy ((Layout.balanced P.shape N).startAt (getCoords P.shape w')) o') :
    getCoords P.shape w = getCoords P.shape w' := by
  have hi : ∀ w, w < P.members.length → InBounds (getCoords P.shape w) P.shape := fun w hw' =>
    (getCoords_spec (by rw [← hw.size]; exact hw')).1
  have hs : (Layout.balanced P.shape N).pshape = P.shape := Layout.balanced_pshape hN
  have hll : ∀ w, w < P.members.length → (getCoords P.shape w).length = (Layout.balanced P.shape N).length :=
    fun w hw' => by rw [(hi w hw').length_eq, ← Layout.length_pshape, hs]
  have b1 := ((Layout.balanced P.shape N).inBox_shift (hll w h1)).2 ho
  have b2 := ((Layout.balanced P.shape N).inBox_shift (hll w' h2)).2 ho'
  rw [← e] at b2
  have hgl := ((Layout.balanced P.shape N).unique_owner _).2 _ (by rw [hs]; exact hi w h1) b1.2
  exact (((Layout.balanced P.shape N).unique_owner _).1 hgl).unique ⟨by rw [hs]; exact hi w h1, b1.2⟩
    ⟨by rw [hs]; exact hi w' h2, b2.2⟩

/-- The workers `w` whose outputs read cells of the block of worker `r` see these cells. -/
def GradSees (P : Cart) (W : WinParams) (L : Layout) (r : Nat) : Prop :=
  let out := Layout.balanced P.shape (torchPoolShape W L.global)
  ∀ w o κ l, w < P.members.length → InBounds o (out.shapeAt (getCoords P.shape w)) → InBounds κ W.k →
    InBounds l (L.shapeAt (getCoords P.shape r)) →
    Taps W (shiftBy (out.startAt (getCoords P.shape w)) o) κ (shiftBy (L.startAt (getCoords P.shape r)) l) →
    Near L (getCoords P.shape w) (shiftBy (L.startAt (getCoords P.shape r)) l)

/-- All workers' gradients are right exactly if all workers' outputs are. -/
theorem gradSees_all (hw : P.WF) (hL : L.pshape = P.shape) :
    (∀ r, r < P.members.length → GradSees P W L r) ↔
      ∀ w, w < P.members.length → WinSees P W L (getCoords P.shape w) := by
  have hi : ∀ w, w < P.members.length → InBounds (getCoords P.shape w) P.shape := fun w hw' =>
    (getCoords_spec (by rw [← hw.size]; exact hw')).1
  have hll : ∀ w, w < P.members.length → (getCoords P.shape w).length = L.length :=
    fun w hw' => by rw [(hi w hw').length_eq, ← Layout.length_pshape, hL]
  constructor
  · intro h w hw' o κ i ho hκ hib ht
    obtain ⟨c, ⟨hc1, hc2⟩, -⟩ := (L.unique_owner i).1 hib
    rw [hL] at hc1
    have hlt : flatC P.shape c < P.members.length := by rw [hw.size]; exact flatC_lt hc1
    have hcc : getCoords P.shape (flatC P.shape c) = c := getCoords_flatC hc1
    have hcl : c.length = L.length := by rw [← hcc]; exact hll _ hlt
    obtain ⟨l, hl, rfl⟩ : ∃ l, InBounds l (L.shapeAt c) ∧ i = shiftBy (L.startAt c) l :=
      ⟨_, (Layout.inBox_shift hcl).1 ⟨(exists_shift hc2).2.trans (Layout.length_startAt hcl), by
        rw [(exists_shift hc2).1]; exact hc2⟩, (exists_shift hc2).1.symm⟩
    have := h _ hlt w o κ l hw' ho hκ (by rw [hcc]; exact hl)
    rw [hcc] at this
    exact this ht
  · intro h r hr w o κ l hw' ho hκ hl ht
    exact h w hw' o κ _ ho hκ ((L.unique_owner _).2 _ (by rw [hL]; exact hi r hr)
      (((Layout.inBox_shift (hll r hr)).2 hl).2)) ht

/-- Contributions of the workers near a cell only, for all gradients of the outputs: they add up to the whole gradient
exactly if the other workers' outputs do not depend on the cell. -/
theorem near_gather {R : Type} [CommSemiring R] (hw : P.WF) {N : List Nat} (hN : P.shape.length = N.length)
    (T : List Nat → R) (q : List Nat) :
    let out := Layout.balanced P.shape N
    (∀ G : List Nat → R, (∑ w ∈ Finset.range P.members.length,
      if Near L (getCoords P.shape w) q then boxSum (out.shapeAt (getCoords P.shape w)) fun o =>
        T (shiftBy (out.startAt (getCoords P.shape w)) o) * G (shiftBy (out.startAt (getCoords P.shape w)) o)
      else 0) = boxSum N fun o => T o * G o) ↔
    ∀ w o, w < P.members.length → InBounds o (out.shapeAt (getCoords P.shape w)) →
      T (shiftBy (out.startAt (getCoords P.shape w)) o) ≠ 0 → Near L (getCoords P.shape w) q := by
  intro out
  have hi : ∀ w, w < P.members.length → InBounds (getCoords P.shape w) P.shape := fun w hw' =>
    (getCoords_spec (by rw [← hw.size]; exact hw')).1
  constructor
  · intro hall w o hw' ho hne
    by_contra hn
    have e := hall fun m => if m = shiftBy (out.startAt (getCoords P.shape w)) o then 1 else 0
    simp only [mul_ite, mul_one, mul_zero] at e
    rw [boxSum_pick (share_inBounds hN hw.pos (hi w hw') ho)] at e
    apply hne
    rw [← e]
    refine Finset.sum_eq_zero fun w2 hw2 => ?_
    have hw2 := Finset.mem_range.1 hw2
    split
    · rename_i hn2
      refine Eq.trans (boxSum_congr fun m hm => ?_) (boxSum_zero _)
      rw [if_neg]
      intro he
      rw [share_owner hw hN hw2 hw' hm ho he] at hn2
      exact hn hn2
    · rfl
  · intro hs G
    rw [← gather_tiles hw hN]
    refine Finset.sum_congr rfl fun w hw' => ?_
    have hw' := Finset.mem_range.1 hw'
    split
    · rfl
    · rename_i hn
      refine ((boxSum_congr fun o ho => ?_).trans (boxSum_zero _)).symm
      have : T (shiftBy (out.startAt (getCoords P.shape w)) o) = 0 := by
        by_contra hne
        exact hn (hs w o hw' ho hne)
      rw [this, zero_mul]

/-- The gradient of one cell. -/
theorem conv_grad_cell {R : Type} [CommSemiring R] (gr Ci Co : Nat) (wt : List Nat → R) {shape q : List Nat}
    (hq : InBounds q shape) (G : List Nat → R) :
    torchConvGradX W gr Ci Co wt shape G q = boxSum (torchConvShape W Co shape) fun o =>
      torchConv W gr Ci Co wt (fun _ => 0) shape (fun m => if m = q then 1 else 0) o * G o := by
  rw [← conv_transpose, ← boxSum_pick hq (torchConvGradX W gr Ci Co wt shape G)]
  refine boxSum_congr fun m _ => ?_
  rw [ite_mul, one_mul, zero_mul]

theorem avg_grad_cell {R : Type} [Field R] {shape q : List Nat} (hq : InBounds q shape) (G : List Nat → R) :
    torchAvgPoolGrad W shape G q = boxSum (torchPoolShape W shape) fun o =>
      torchAvgPool W shape (fun m => if m = q then 1 else 0) o * G o := by
  rw [← avg_transpose, ← boxSum_pick hq (torchAvgPoolGrad W shape G)]
  refine boxSum_congr fun m _ => ?_
  rw [ite_mul, one_mul, zero_mul]

/-- An output of average pooling depends on a cell exactly if its window reads the cell. -/
theorem avg_depends {G o i : List Nat} (hi : InBounds i G) (ho : o.length = G.length) :
    torchAvgPool W G (fun m => if m = i then (1 : ℚ) else 0) o ≠ 0 ↔ ∃ κ, InBounds κ W.k ∧ Taps W o κ i := by
  constructor
  · intro hne
    by_contra hn
    apply hne
    have : torchAvgPool W G (fun m => if m = i then (1 : ℚ) else 0) o = torchAvgPool W G (fun _ => 0) o := by
      unfold torchAvgPool
      congr 1
      refine boxSum_congr fun κ hκ => winRead_same ho fun m _ ht => ?_
      exact if_neg fun (e : m = i) => hn ⟨κ, hκ, e ▸ ht⟩
    rw [this, avg_blank]
  · rintro ⟨κ, hκ, ht⟩
    have hk : (0 : ℚ) < ((W.k.prod : Nat) : ℚ) := by exact_mod_cast prod_pos_of_inBounds hκ
    refine (ne_of_lt (div_pos (boxSum_pos (f := fun κ => winRead 0 G (1 :: 1 :: W.s) (1 :: 1 :: W.d) (0 :: 0 :: W.p)
      (fun m => if m = i then (1 : ℚ) else 0) o (0 :: 0 :: κ)) (fun κ => ?_) hκ ?_) hk)).symm
    · unfold winRead extend
      split
      · dsimp only
        split <;> norm_num
      · exact le_refl _
    · rw [winRead_taps hi ho ht, if_pos rfl]
      norm_num

/-- An output of a convolution depends on a cell for some weight exactly if a window of one of its input channels
reads the cell. -/
theorem conv_depends {R : Type} [CommSemiring R] [Nontrivial R] {gr Ci Co : Nat} {G i : List Nat}
    (hi : InBounds i G) {b co : Nat} {o : List Nat} (ho : o.length + 2 = G.length) :
    (∃ wt : List Nat → R, torchConv W gr Ci Co wt (fun _ => 0) G (fun m => if m = i then (1 : R) else 0)
      (b :: co :: o) ≠ 0) ↔
    ∃ c κ, c < Ci / gr ∧ InBounds κ W.k ∧ Taps W (b :: (co / (Co / gr) * (Ci / gr) + c) :: o) κ i := by
  constructor
  · rintro ⟨wt, hne⟩
    by_contra hn
    apply hne
    refine Eq.trans ?_ (conv_blank (W := W) gr Ci Co wt G (b :: co :: o))
    simp only [torchConv]
    congr 1
    refine Finset.sum_congr rfl fun c hc => boxSum_congr fun κ hκ => ?_
    congr 1
    refine winRead_same (α := R) (by simpa using ho) fun m _ ht => ?_
    exact if_neg fun (e : m = i) => hn ⟨c, κ, Finset.mem_range.1 hc, hκ, e ▸ ht⟩
  · rintro ⟨c0, κ, hc, hκ, ht⟩
    refine ⟨fun l => if l = co :: c0 :: κ then 1 else 0, ?_⟩
    simp only [torchConv, zero_add]
    rw [Finset.sum_eq_single_of_mem c0 (Finset.mem_range.2 hc) (fun c' _ hne => ?_)]
    · simp only [List.cons.injEq, true_and, ite_mul, one_mul, zero_mul]
      rw [boxSum_pick hκ, winRead_taps hi (by simpa using ho) ht, if_pos rfl]
      exact one_ne_zero
    · refine Eq.trans (boxSum_congr fun κ' _ => ?_) (boxSum_zero _)
      rw [if_neg (fun e => hne (List.cons.inj (List.cons.inj e).2).1), zero_mul]

theorem block_inBounds (hw : P.WF) (hL : L.pshape = P.shape) {r : Nat} (hr : r < P.members.length) {l : List Nat}
    (hl : InBounds l (L.shapeAt (getCoords P.shape r))) :
    InBounds (shiftBy (L.startAt (getCoords P.shape r)) l) L.global := by
  have hi : InBounds (getCoords P.shape r) P.shape := (getCoords_spec (by rw [← hw.size]; exact hr)).1
  refine (L.unique_owner _).2 _ (by rw [hL]; exact hi) ((Layout.inBox_shift ?_).2 hl).2
  rw [hi.length_eq, ← Layout.length_pshape, hL]

/-- C60, average pooling, exact when halos may not fit: a worker's gradients are its block of the gradient of the
sequential layer, for every input and gradient of the outputs and in every run, exactly if every worker with outputs
that read cells of the block sees these cells. -/
theorem C60_average_right_iff (hW : poolParams true nd pk ps pp pd = some W) (hD : P.shape.length = nd + 2)
    (hw : P.WF) (hL : L.pshape = P.shape)
    (hl : WinBase P W L) (hsh : ∀ w, w < P.members.length → WinShare P W L (getCoords P.shape w)) (dt : NpKey)
    (junk : Nat → β) (ops : Nat → List (MgrOp β)) {r : Nat} (hr : r < P.members.length) :
    (∀ localS (x : Nat → List Nat → ℚ) X t rg, WinInput P W L localS x X t rg →
      ∀ eager k U S g, WinRun P W 0 localS x dt junk ops eager k U S g →
      ∀ dy G, OutGrads P (torchPoolShape W L.global) dy G →
      ∀ eager' k' g', WinBack P localS U S (avgLocalGrad P W localS x U g dy) eager' k' g' →
      (g'.ws r).phase = haloPhases P → ∀ l, InBounds l (L.shapeAt (getCoords P.shape r)) →
        inputGrad P localS U g' r l =
          torchAvgPoolGrad W L.global G (shiftBy (L.startAt (getCoords P.shape r)) l)) ↔
    GradSees P W L r := by
  have hLl : L.length = P.shape.length := by rw [← L.length_pshape, hL]
  have hgl : L.global.length = nd + 2 := by rw [Layout.length_global, hLl, hD]
  have hN : P.shape.length = (torchPoolShape W L.global).length := by rw [length_poolShape W hgl, hD]
  have hi : ∀ w, w < P.members.length → InBounds (getCoords P.shape w) P.shape := fun w hw' =>
    (getCoords_spec (by rw [← hw.size]; exact hw')).1
  constructor
  · intro hall w o κ l hw' ho hκ hlb ht
    have hq := block_inBounds hw hL hr hlb
    refine (near_gather (L := L) hw hN (torchAvgPool W L.global fun m =>
      if m = shiftBy (L.startAt (getCoords P.shape r)) l then (1 : ℚ) else 0) _).1 (fun G => ?_) w o hw' ho
      ((avg_depends hq (share_length hD hL (hi w hw') ho).2).2 ⟨κ, hκ, ht⟩)
    obtain ⟨W', hW', hW2⟩ := Option.bind_eq_some_iff.1 hW
    have e2 : W' = W := by
      split at hW2
      · cases hW2
      · exact Option.some.inj hW2
    subst e2
    obtain ⟨localS, x, k, U, S, g, h, R, -⟩ := exists_run (W := W') hw hL
      (by rw [(winParams_length hW').2.2.1]; omega) (fun _ => (0 : ℚ)) 0 dt junk ops true
    have hG : OutGrads P (torchPoolShape W' L.global) (fun r o => G (shiftBy
      ((Layout.balanced P.shape (torchPoolShape W' L.global)).startAt (getCoords P.shape r)) o)) G :=
      fun _ _ _ _ => rfl
    obtain ⟨k', g', B, -, hf⟩ := C60_completes h R (Exec.refl _ : WinBack P localS U S (avgLocalGrad P W' localS x U g
      (fun r o => G (shiftBy ((Layout.balanced P.shape (torchPoolShape W' L.global)).startAt (getCoords P.shape r)) o)))
      true 0 _)
    rw [← avg_grad_cell hq, ← hall _ _ _ _ _ h _ _ _ _ _ R _ G hG _ _ _ B (hf r hr) l hlb]
    exact (C60_average_seen hW hD h hl hsh R hG B hr (hf r hr) l hlb).symm
  · intro hs localS x X t rg h eager k U S g R dy G hG eager' k' g' B hfin l hlb
    have hq := block_inBounds hw hL hr hlb
    rw [C60_average_seen hW hD h hl hsh R hG B hr hfin l hlb, avg_grad_cell hq]
    refine (near_gather hw hN (torchAvgPool W L.global fun m =>
      if m = shiftBy (L.startAt (getCoords P.shape r)) l then (1 : ℚ) else 0) _).2 (fun w o hw' ho hne => ?_) G
    obtain ⟨κ, hκ, ht⟩ := (avg_depends hq (share_length hD hL (hi w hw') ho).2).1 hne
    exact hs w o κ l hw' ho hκ hlb ht

/-- C60, convolution, exact when halos may not fit: a worker's gradients are its block of the gradient of the sequential
layer, for every weight, input and gradient of the outputs and in every run, exactly if every worker with outputs
that read cells of the block sees these cells. -/
theorem C60_convolution_right_iff {R : Type} [CommSemiring R] [Nontrivial R] {gr Ci Co : Nat}
    (hW : winParams nd pk ps pp pd = some W) (hD : P.shape.length = nd + 2) (hch : P.shape.getD 1 0 = 1)
    (hroot : ∃ ρ, P.root = some ρ) (hgr : 0 < gr ∧ gr ∣ Ci ∧ gr ∣ Co) (hCo : 0 < Co)
    (hw : P.WF) (hL : L.pshape = P.shape) (hCi : L.global.getD 1 0 = Ci) (h1 : P.members.length ≠ 1)
    (hl : WinBase P W L) (hsh : ∀ w, w < P.members.length → WinShare P W L (getCoords P.shape w)) (dt : NpKey)
    (junk : Nat → β) (ops : Nat → List (MgrOp β)) (rgw : Bool) {r : Nat} (hr : r < P.members.length) :
    (∀ (wt : Tensor R) (b : Option (Tensor R)) localS (x : Nat → List Nat → R) X t rg, WinInput P W L localS x X t rg →
      ∀ eager k U S g, WinRun P W 0 localS x dt junk ops eager k U S g →
      ∀ dy G, OutGrads P (torchConvShape W Co L.global) dy G →
      ∀ eager' k' g', WinBack P localS U S (convLocalGradX P ⟨W, gr, Ci, Co, wt, b⟩ rgw localS x U g dy) eager' k' g' →
      (g'.ws r).phase = haloPhases P → ∀ l, InBounds l (L.shapeAt (getCoords P.shape r)) →
        featureGradX P ⟨W, gr, Ci, Co, wt, b⟩ localS U dy g' r l =
          torchConvGradX W gr Ci Co wt.val L.global G (shiftBy (L.startAt (getCoords P.shape r)) l)) ↔
    GradSees P W L r := by
  have hLl : L.length = P.shape.length := by rw [← L.length_pshape, hL]
  have hgl : L.global.length = nd + 2 := by rw [Layout.length_global, hLl, hD]
  have hN : P.shape.length = (torchConvShape W Co L.global).length := by rw [length_convShape W Co hgl, hD]
  have hi : ∀ w, w < P.members.length → InBounds (getCoords P.shape w) P.shape := fun w hw' =>
    (getCoords_spec (by rw [← hw.size]; exact hw')).1
  constructor
  · intro hall w o κ l hw' ho hκ hlb ht
    have hq := block_inBounds hw hL hr hlb
    obtain ⟨b0, bs, s0, ss, e1, e2, e3, e4, hbl, hsl⟩ := conv_pool_block (W := W) hD hch hL (hi w hw') Co
    rw [hCi] at e2
    rw [e2] at ho
    rw [e4] at ht
    obtain ⟨b, c, o, rfl⟩ := two_heads (ho.length_eq.trans (by simp : _ = bs.length + 2))
    obtain ⟨co, c0, hco, hc0, hcc⟩ := channel_used hgr.2.1 hgr.2.2 hCo ho.2.1
    have hol : o.length = nd := by rw [ho.2.2.length_eq, hbl]
    obtain ⟨wt, hwt⟩ := (conv_depends (R := R) (W := W) (gr := gr) (Ci := Ci) (Co := Co) hq (b := s0 + b) (co := co)
      (o := shiftBy ss o) (by rw [length_shiftBy (by omega), hsl, hgl])).2
      ⟨c0, κ, hc0, hκ, by rw [hcc]; simpa only [shiftBy, Nat.zero_add] using ht⟩
    refine (near_gather (L := L) hw hN (torchConv W gr Ci Co wt (fun _ => 0) L.global fun m =>
      if m = shiftBy (L.startAt (getCoords P.shape r)) l then (1 : R) else 0) _).1 (fun G => ?_) w (b :: co :: o) hw'
      (by rw [e1]; exact ⟨ho.1, hco, ho.2.2⟩) (by rw [e3]; simpa only [shiftBy, Nat.zero_add] using hwt)
    obtain ⟨localS, x, k, U, S, g, h, A, -⟩ := exists_run (W := W) hw hL
      (by rw [(winParams_length hW).2.2.1]; omega) (fun _ => (0 : R)) 0 dt junk ops true
    have hG : OutGrads P (torchConvShape W Co L.global) (fun r o => G (shiftBy
      ((Layout.balanced P.shape (torchConvShape W Co L.global)).startAt (getCoords P.shape r)) o)) G :=
      fun _ _ _ _ => rfl
    obtain ⟨k', g', B, -, hf⟩ := C60_completes h A (Exec.refl _ : WinBack P localS U S (convLocalGradX P
      ⟨W, gr, Ci, Co, ⟨Co :: Ci / gr :: W.k, .float32, wt⟩, none⟩ rgw localS x U g
      (fun r o => G (shiftBy ((Layout.balanced P.shape (torchConvShape W Co L.global)).startAt (getCoords P.shape r)) o)))
      true 0 _)
    rw [← conv_grad_cell gr Ci Co wt hq,
      ← hall ⟨Co :: Ci / gr :: W.k, .float32, wt⟩ none _ _ _ _ _ h _ _ _ _ _ A _ G hG _ _ _ B (hf r hr) l hlb]
    exact (C60_convolution_seen ⟨W, gr, Ci, Co, ⟨Co :: Ci / gr :: W.k, .float32, wt⟩, none⟩ hW hD hch hroot hgr h hCi h1
      hl hsh A rgw hG B hr (hf r hr) l hlb).symm
  · intro hs wt b localS x X t rg h eager k U S g A dy G hG eager' k' g' B hfin l hlb
    have hq := block_inBounds hw hL hr hlb
    rw [C60_convolution_seen ⟨W, gr, Ci, Co, wt, b⟩ hW hD hch hroot hgr h hCi h1 hl hsh A rgw hG B hr hfin l hlb,
      conv_grad_cell gr Ci Co wt.val hq]
    refine (near_gather hw hN (torchConv W gr Ci Co wt.val (fun _ => 0) L.global fun m =>
      if m = shiftBy (L.startAt (getCoords P.shape r)) l then (1 : R) else 0) _).2 (fun w o hw' ho hne => ?_) G
    obtain ⟨b0, bs, s0, ss, e1, e2, e3, e4, hbl, hsl⟩ := conv_pool_block (W := W) hD hch hL (hi w hw') Co
    rw [hCi] at e2
    rw [e1] at ho
    rw [e3] at hne
    obtain ⟨b, co, o, rfl⟩ := two_heads (ho.length_eq.trans (by simp : _ = bs.length + 2))
    have hol : o.length = nd := by rw [ho.2.2.length_eq, hbl]
    simp only [shiftBy, Nat.zero_add] at hne
    obtain ⟨c, κ, hc, hκ, ht⟩ := (conv_depends (R := R) hq (by rw [length_shiftBy (by omega), hsl, hgl])).1
      ⟨wt.val, hne⟩
    refine hs w (b :: (co / (Co / gr) * (Ci / gr) + c) :: o) κ l hw' ?_ hκ hlb ?_
    · rw [e2]
      exact ⟨ho.1, group_channel hgr.1 hgr.2.1 hgr.2.2 ho.2.1 hc, ho.2.2⟩
    · rw [e4]
      simpa only [shiftBy, Nat.zero_add] using ht

/-! ## Gradients of the weight and the bias (C61) -/

/-- The outputs of a convolution do not change if only cells change that the windows of the worker do not read. -/
theorem conv_sees {R : Type} [CommSemiring R] {gr Ci Co : Nat} (hD : P.shape.length = nd + 2)
    (hch : P.shape.getD 1 0 = 1) (hgr : 0 < gr ∧ gr ∣ Ci ∧ gr ∣ Co) (hL : L.pshape = P.shape)
    (hCi : L.global.getD 1 0 = Ci) {idx : List Nat} (hi : InBounds idx P.shape) (hs : WinSees P W L idx)
    (wt : List Nat → R) (b : Nat → R) (X : List Nat → R) {o : List Nat}
    (ho : InBounds o ((Layout.balanced P.shape (torchConvShape W Co L.global)).shapeAt idx)) :
    torchConv W gr Ci Co wt b L.global (seen 0 L idx X)
      (shiftBy ((Layout.balanced P.shape (torchConvShape W Co L.global)).startAt idx) o) =
    torchConv W gr Ci Co wt b L.global X
      (shiftBy ((Layout.balanced P.shape (torchConvShape W Co L.global)).startAt idx) o) := by
  have hLl : L.length = P.shape.length := by rw [← L.length_pshape, hL]
  have hgl : L.global.length = nd + 2 := by rw [Layout.length_global, hLl, hD]
  obtain ⟨b0, bs, s0, ss, e1, e2, e3, e4, hbl, hsl⟩ := conv_pool_block (W := W) hD hch hL hi Co
  rw [hCi] at e2
  rw [e1] at ho
  rw [e3]
  obtain ⟨b', co, o, rfl⟩ := two_heads (ho.length_eq.trans (by simp : _ = bs.length + 2))
  have hol : o.length = nd := by rw [ho.2.2.length_eq, hbl]
  simp only [shiftBy, torchConv, Nat.zero_add]
  congr 1
  refine Finset.sum_congr rfl fun c hc => boxSum_congr fun κ hκ => ?_
  congr 1
  refine winRead_same (by simp [length_shiftBy, hol, hsl, hgl]) fun i hib ht => ?_
  refine if_pos (hs (b' :: (co / (Co / gr) * (Ci / gr) + c) :: o) κ i ?_ hκ hib ?_)
  · rw [e2]
    exact ⟨ho.1, group_channel hgr.1 hgr.2.1 hgr.2.2 ho.2.1 (Finset.mem_range.1 hc), ho.2.2⟩
  · rw [e4]
    simpa only [shiftBy, Nat.zero_add] using ht

/-- C61, halos that fit or not, at least two workers, every worker returning exactly its share: the gradient of an
entry of the weight collects from every worker the pairing of the gradients of the worker's outputs with these outputs,
computed with 1 for this entry and 0 for the others, from the global tensor in which everything beyond the blocks next
to the worker's own is replaced by zero. -/
theorem C61_weight_seen {R : Type} [CommSemiring R] {x : Nat → List Nat → R} {X : List Nat → R}
    {g : GState (List Nat → R) (List Nat → R)} (C : ConvLayer R)
    (hW : winParams nd pk ps pp pd = some C.W) (hD : P.shape.length = nd + 2) (hch : P.shape.getD 1 0 = 1)
    (hroot : ∃ ρ, P.root = some ρ) (hgr : 0 < C.groups ∧ C.groups ∣ C.Ci ∧ C.groups ∣ C.Co)
    (h : WinInput P C.W L localS x X t rg) (hCi : L.global.getD 1 0 = C.Ci) (h1 : P.members.length ≠ 1)
    (hl : WinBase P C.W L) (hsh : ∀ w, w < P.members.length → WinShare P C.W L (getCoords P.shape w))
    (A : WinRun P C.W 0 localS x dt junk ops eager k U S g)
    (hfin : ∀ r, r < P.members.length → (g.ws r).phase = haloPhases P) (rgw : Bool)
    {dy : Nat → List Nat → R} {G : List Nat → R} (hG : OutGrads P (torchConvShape C.W C.Co L.global) dy G) :
    let out := Layout.balanced P.shape (torchConvShape C.W C.Co L.global)
    (∃ z, featureGradW P C rgw localS x U g dy (P.members.getD 0 0) = some z ∧ z.shape = C.weight.shape ∧
      z.dtype = C.weight.dtype ∧ ∀ co c κ, co < C.Co → c < C.Ci / C.groups → InBounds κ C.W.k →
        z.val (co :: c :: κ) = ∑ w ∈ Finset.range P.members.length, boxSum (out.shapeAt (getCoords P.shape w)) fun o =>
          torchConv C.W C.groups C.Ci C.Co (fun l => if l = co :: c :: κ then 1 else 0) (fun _ => 0) L.global
            (seen 0 L (getCoords P.shape w) X) (shiftBy (out.startAt (getCoords P.shape w)) o) *
          G (shiftBy (out.startAt (getCoords P.shape w)) o)) ∧
    ∀ v ∈ P.members, v ≠ P.members.getD 0 0 →
      ∃ z, featureGradW P C rgw localS x U g dy v = some z ∧ z.shape.prod = 0 := by
  intro out
  unfold featureGradW
  simp only [if_neg h1]
  obtain ⟨b1, b2⟩ := param_backward h.wf hroot (by omega) C.weight rgw fun r =>
    torchConvGradW C.W.noPad C.groups C.Ci C.Co (localInput P 0 localS x U g r).1
      (localInput P 0 localS x U g r).2 (dy r)
  refine ⟨⟨_, b1, rfl, rfl, fun co c κ hco hc hκ => ?_⟩, b2⟩
  show ∑ r ∈ Finset.range P.members.length, torchConvGradW C.W.noPad C.groups C.Ci C.Co
    (localInput P 0 localS x U g r).1 (localInput P 0 localS x U g r).2 (dy r) (co :: c :: κ) = _
  refine Finset.sum_congr rfl fun w hw => ?_
  have hw := Finset.mem_range.1 hw
  have hi : InBounds (getCoords P.shape w) P.shape := (getCoords_spec (by rw [← h.wf.size]; exact hw)).1
  obtain ⟨-, c2, -, c4⟩ := conv_of hD hch hgr h.length (blocks_length h (by omega)) hCi hi
    (local_of hW hD h.length hi (windows_near h hl A hw (hfin w hw)))
    (fun l => if l = co :: c :: κ then (1 : R) else 0) fun _ => 0
  rw [weight_pick hc C.W.noPad hκ, c2.2 (hsh w hw)]
  refine boxSum_congr fun o ho => ?_
  rw [c4 o ho, hG w hw o ho]

/-- C61: the gradient of the bias does not depend on the halos, so it is right also when they do not fit. -/
theorem C61_bias_seen {R : Type} [CommSemiring R] {x : Nat → List Nat → R} {X : List Nat → R}
    {g : GState (List Nat → R) (List Nat → R)} (C : ConvLayer R) (b : Tensor R)
    (hW : winParams nd pk ps pp pd = some C.W) (hD : P.shape.length = nd + 2) (hch : P.shape.getD 1 0 = 1)
    (hroot : ∃ ρ, P.root = some ρ) (hgr : 0 < C.groups ∧ C.groups ∣ C.Ci ∧ C.groups ∣ C.Co)
    (h : WinInput P C.W L localS x X t rg) (hCi : L.global.getD 1 0 = C.Ci) (h1 : P.members.length ≠ 1)
    (hl : WinBase P C.W L) (hsh : ∀ w, w < P.members.length → WinShare P C.W L (getCoords P.shape w))
    (A : WinRun P C.W 0 localS x dt junk ops eager k U S g)
    (hfin : ∀ r, r < P.members.length → (g.ws r).phase = haloPhases P) (rgw : Bool)
    {dy : Nat → List Nat → R} {G : List Nat → R} (hG : OutGrads P (torchConvShape C.W C.Co L.global) dy G) :
    ∃ z, featureGradB P C b rgw localS x U g dy (P.members.getD 0 0) = some z ∧ z.shape = b.shape ∧
      z.dtype = b.dtype ∧ ∀ co, co < C.Co → z.val [co] = torchConvGradB C.W C.Co L.global G [co] := by
  have hgl : L.global.length = nd + 2 := by rw [Layout.length_global, h.length, hD]
  have hcl : P.shape.length = (torchConvShape C.W C.Co L.global).length := by
    rw [length_convShape C.W C.Co hgl, hD]
  unfold featureGradB
  simp only [if_neg h1]
  obtain ⟨b1, -⟩ := param_backward h.wf hroot (by omega) b rgw fun r =>
    torchConvGradB C.W.noPad C.Co (localInput P 0 localS x U g r).1 (dy r)
  refine ⟨_, b1, rfl, rfl, fun co _ => ?_⟩
  refine bias_gather hD hch h.wf hcl (fun w hw => ?_) hG co
  have hi : InBounds (getCoords P.shape w) P.shape := (getCoords_spec (by rw [← h.wf.size]; exact hw)).1
  obtain ⟨-, c2, -, -⟩ := conv_of hD hch hgr h.length (blocks_length h (by omega)) hCi hi
    (local_of hW hD h.length hi (windows_near h hl A hw (hfin w hw))) (fun _ => (0 : R)) fun _ => 0
  exact c2.2 (hsh w hw)

/-- C61, exact when halos may not fit: the gradient of the weight is the one of the sequential convolution, for every
input and gradient of the outputs and in every run, exactly if no window of any worker's share reads beyond the blocks
next to the worker's own. -/
theorem C61_weight_right_iff {R : Type} [CommSemiring R] [Nontrivial R] {gr Ci Co : Nat}
    (hW : winParams nd pk ps pp pd = some W) (hD : P.shape.length = nd + 2) (hch : P.shape.getD 1 0 = 1)
    (hroot : ∃ ρ, P.root = some ρ) (hgr : 0 < gr ∧ gr ∣ Ci ∧ gr ∣ Co) (hCo : 0 < Co)
    (hw : P.WF) (hL : L.pshape = P.shape) (hCi : L.global.getD 1 0 = Ci) (h1 : P.members.length ≠ 1)
    (hl : WinBase P W L) (hsh : ∀ w, w < P.members.length → WinShare P W L (getCoords P.shape w)) (dt : NpKey)
    (junk : Nat → β) (ops : Nat → List (MgrOp β)) (rgw : Bool) (wt : Tensor R) (b : Option (Tensor R)) :
    (∀ localS (x : Nat → List Nat → R) X t rg, WinInput P W L localS x X t rg →
      ∀ eager k U S g, WinRun P W 0 localS x dt junk ops eager k U S g →
      (∀ r, r < P.members.length → (g.ws r).phase = haloPhases P) →
      ∀ dy G, OutGrads P (torchConvShape W Co L.global) dy G →
      ∃ z, featureGradW P ⟨W, gr, Ci, Co, wt, b⟩ rgw localS x U g dy (P.members.getD 0 0) = some z ∧
        ∀ co c κ, co < Co → c < Ci / gr → InBounds κ W.k →
          z.val (co :: c :: κ) = torchConvGradW W gr Ci Co L.global X G (co :: c :: κ)) ↔
    ∀ w, w < P.members.length → WinSees P W L (getCoords P.shape w) := by
  have hLl : L.length = P.shape.length := by rw [← L.length_pshape, hL]
  have hgl : L.global.length = nd + 2 := by rw [Layout.length_global, hLl, hD]
  have hN : P.shape.length = (torchConvShape W Co L.global).length := by rw [length_convShape W Co hgl, hD]
  have hi : ∀ w, w < P.members.length → InBounds (getCoords P.shape w) P.shape := fun w hw' =>
    (getCoords_spec (by rw [← hw.size]; exact hw')).1
  constructor
  · intro hall w hw' o κ i ho hκ hib ht
    by_contra hn
    obtain ⟨b0, bs, s0, ss, e1, e2, e3, e4, hbl, hsl⟩ := conv_pool_block (W := W) hD hch hL (hi w hw') Co
    rw [hCi] at e2
    rw [e2] at ho
    rw [e4] at ht
    obtain ⟨b', c, o, rfl⟩ := two_heads (ho.length_eq.trans (by simp : _ = bs.length + 2))
    obtain ⟨co, c0, hco, hc0, hcc⟩ := channel_used hgr.2.1 hgr.2.2 hCo ho.2.1
    have hol : o.length = nd := by rw [ho.2.2.length_eq, hbl]
    have hob : InBounds (b' :: co :: o)
        ((Layout.balanced P.shape (torchConvShape W Co L.global)).shapeAt (getCoords P.shape w)) := by
      rw [e1]
      exact ⟨ho.1, hco, ho.2.2⟩
    let o' := shiftBy ((Layout.balanced P.shape (torchConvShape W Co L.global)).startAt (getCoords P.shape w))
      (b' :: co :: o)
    let G : List Nat → R := fun m => if m = o' then 1 else 0
    obtain ⟨localS, x, k, U, S, g, h, A, hf⟩ := exists_run (W := W) hw hL
      (by rw [(winParams_length hW).2.2.1]; omega) (fun m => if m = i then (1 : R) else 0) 0 dt junk ops true
    have hG : OutGrads P (torchConvShape W Co L.global) (fun r o => G (shiftBy
      ((Layout.balanced P.shape (torchConvShape W Co L.global)).startAt (getCoords P.shape r)) o)) G :=
      fun _ _ _ _ => rfl
    obtain ⟨z, hz, ez⟩ := hall _ _ _ _ _ h _ _ _ _ _ A hf _ G hG
    obtain ⟨⟨z', hz', -, -, ez'⟩, -⟩ := C61_weight_seen ⟨W, gr, Ci, Co, wt, b⟩ hW hD hch hroot hgr h hCi h1 hl hsh A hf
      rgw hG
    rw [hz] at hz'
    obtain rfl := Option.some.inj hz'
    have e := (ez co c0 κ hco hc0 hκ).symm.trans (ez' co c0 κ hco hc0 hκ)
    rw [weight_pick hc0 W hκ] at e
    simp only [G, mul_ite, mul_one, mul_zero] at e
    rw [boxSum_pick (share_inBounds hN hw.pos (hi w hw') hob)] at e
    have hr : (∑ w2 ∈ Finset.range P.members.length, boxSum
        ((Layout.balanced P.shape (torchConvShape W Co L.global)).shapeAt (getCoords P.shape w2)) fun m =>
        if shiftBy ((Layout.balanced P.shape (torchConvShape W Co L.global)).startAt (getCoords P.shape w2)) m = o' then
          torchConv W gr Ci Co (fun l => if l = co :: c0 :: κ then (1 : R) else 0) (fun _ => 0) L.global
            (seen 0 L (getCoords P.shape w2) fun m => if m = i then (1 : R) else 0)
            (shiftBy ((Layout.balanced P.shape (torchConvShape W Co L.global)).startAt (getCoords P.shape w2)) m)
        else 0) = 0 := by
      refine Finset.sum_eq_zero fun w2 hw2 => Eq.trans (boxSum_congr fun m hm => ?_) (boxSum_zero _)
      split
      · rename_i he
        rw [share_owner hw hN (Finset.mem_range.1 hw2) hw' hm hob he, seen_far hn, conv_blank]
      · rfl
    rw [hr] at e
    have e5 : torchConv W gr Ci Co (fun l => if l = co :: c0 :: κ then (1 : R) else 0) (fun _ => 0) L.global
        (fun m => if m = i then (1 : R) else 0) o' = 1 := by
      simp only [o']
      rw [e3]
      simp only [shiftBy, torchConv, zero_add]
      rw [Finset.sum_eq_single_of_mem c0 (Finset.mem_range.2 hc0) (fun c' _ hne => ?_)]
      · simp only [List.cons.injEq, true_and, ite_mul, one_mul, zero_mul]
        rw [boxSum_pick hκ, hcc, winRead_taps hib (by simp [length_shiftBy, hol, hsl, hgl])
          (by simpa only [shiftBy, Nat.zero_add] using ht), if_pos rfl]
      · refine Eq.trans (boxSum_congr fun κ' _ => ?_) (boxSum_zero _)
        rw [if_neg (fun e => hne (List.cons.inj (List.cons.inj e).2).1), zero_mul]
    rw [e5] at e
    exact one_ne_zero e
  · intro hs localS x X t rg h eager k U S g A hf dy G hG
    obtain ⟨⟨z, hz, -, -, ez⟩, -⟩ := C61_weight_seen ⟨W, gr, Ci, Co, wt, b⟩ hW hD hch hroot hgr h hCi h1 hl hsh A hf
      rgw hG
    refine ⟨z, hz, fun co c κ hco hc hκ => ?_⟩
    rw [ez co c κ hco hc hκ, weight_pick hc W hκ, ← gather_tiles hw hN]
    refine Finset.sum_congr rfl fun w hw' => boxSum_congr fun o ho => ?_
    have hw' := Finset.mem_range.1 hw'
    dsimp only
    rw [conv_sees hD hch hgr hL hCi (hi w hw') (hs w hw') _ _ X ho]

end

/-! ## Three cells over three workers -/

theorem far_share : ∀ w, w < farP.members.length → WinShare farP farW farL (getCoords farP.shape w) := by
  intro w hw j hj
  change w < 3 at hw
  change j < 3 at hj
  unfold AxisShare
  interval_cases w <;> interval_cases j <;> decide

/-- The gradient of cell 0 lacks the contribution of worker 2's output: worker 2 does not see cell 0.  So the gradients
of worker 0 are not always right, those of worker 1 are. -/
theorem far_grad : ¬ GradSees farP farW farL 0 ∧ GradSees farP farW farL 1 := by
  constructor
  · intro h
    exact absurd (h 2 [0, 0, 0] [0] [0, 0, 0] (by decide) (by decide) (by decide) (by decide) (by unfold Taps; decide))
      (by decide)
  · intro w o κ l hw _ _ hl _
    change w < 3 at hw
    change InBounds l [1, 1, 1] at hl
    match l, hl with
    | [a, b, c], ⟨h1, h2, h3, _⟩ =>
      interval_cases a
      interval_cases b
      interval_cases c
      interval_cases w <;> decide

/-- A run, backward pass included: with all weights and output gradients 1, cell 0 gets 2 instead of 3, cell 1 gets 3. -/
example : ∃ k U S g k' g', WinRun (β := Nat) farP farW (0 : Int)
      (fun w => (farL.shapeAt ((farP.index w).getD []), .float32, true))
      (fun w l => (fun _ => 0) (shiftBy (farL.startAt ((farP.index w).getD [])) l)) (.inst .float32) (fun _ => 0)
      (fun _ => []) true k U S g ∧
    WinBack farP (fun w => (farL.shapeAt ((farP.index w).getD []), .float32, true)) U S
      (convLocalGradX farP ⟨farW, 1, 1, 1, ⟨[1, 1, 5], .float32, fun _ => 1⟩, none⟩ true
        (fun w => (farL.shapeAt ((farP.index w).getD []), .float32, true))
        (fun w l => (fun _ => 0) (shiftBy (farL.startAt ((farP.index w).getD [])) l)) U g fun _ _ => 1) true k' g' ∧
    featureGradX farP ⟨farW, 1, 1, 1, ⟨[1, 1, 5], .float32, fun _ => 1⟩, none⟩
      (fun w => (farL.shapeAt ((farP.index w).getD []), .float32, true)) U (fun _ _ => 1) g' 0 [0, 0, 0] = 2 ∧
    featureGradX farP ⟨farW, 1, 1, 1, ⟨[1, 1, 5], .float32, fun _ => 1⟩, none⟩
      (fun w => (farL.shapeAt ((farP.index w).getD []), .float32, true)) U (fun _ _ => 1) g' 1 [0, 0, 0] = 3 ∧
    torchConvGradX farW 1 1 1 (fun _ => (1 : Int)) farL.global (fun _ => 1) [0, 0, 0] = 3 := by
  obtain ⟨U, S, R0⟩ := C39_starts (far_input fun _ => (0 : Int)) 0 (.inst .float32) (fun _ => (0 : Nat)) (fun _ => [])
    true
  obtain ⟨k, g, R, -, hf⟩ := C39_completes (far_input fun _ => (0 : Int)) R0
  obtain ⟨k', g', B, -, hf'⟩ := C60_completes (far_input fun _ => (0 : Int)) R (Exec.refl _ : WinBack farP
    (fun w => (farL.shapeAt ((farP.index w).getD []), .float32, true)) U S
    (convLocalGradX farP ⟨farW, 1, 1, 1, ⟨[1, 1, 5], .float32, fun _ => 1⟩, none⟩ true
      (fun w => (farL.shapeAt ((farP.index w).getD []), .float32, true))
      (fun w l => (fun _ => (0 : Int)) (shiftBy (farL.startAt ((farP.index w).getD [])) l)) U g fun _ _ => 1) true 0 _)
  have hG : OutGrads farP (torchConvShape farW 1 farL.global) (fun _ _ => (1 : Int)) fun _ => 1 := fun _ _ _ _ => rfl
  have key := fun r (hr : r < farP.members.length) => C60_convolution_seen (nd := 1)
    ⟨farW, 1, 1, 1, ⟨[1, 1, 5], .float32, fun _ => (1 : Int)⟩, none⟩
    (show winParams 1 [5] [1] [2] [1] = some farW by decide) rfl rfl ⟨0, rfl⟩ (by decide)
    (far_input fun _ => (0 : Int)) rfl (by decide) far_base far_share R true hG B hr (hf' r hr) [0, 0, 0]
  refine ⟨k, U, S, g, k', g', R, B, ?_, ?_, by decide⟩
  · exact (key 0 (by decide) (by decide)).trans (by decide)
  · exact (key 1 (by decide) (by decide)).trans (by decide)

/-- The hypotheses of the exact statements. -/
example : poolParams true 1 [5] [1] [2] [1] = some farW ∧ winParams 1 [5] [1] [2] [1] = some farW ∧ farP.WF ∧
    farL.pshape = farP.shape ∧ farL.global.getD 1 0 = 1 ∧ farP.members.length ≠ 1 ∧ WinBase farP farW farL ∧
    ∀ w, w < farP.members.length → WinShare farP farW farL (getCoords farP.shape w) :=
  ⟨by decide, by decide, ⟨by decide, rfl, by decide⟩, by decide, by decide, by decide, far_base, far_share⟩

end Verif
