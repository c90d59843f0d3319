import Verif.Net.Halo
import Verif.Net.Stack
import Verif.Window.Props

/-!
# Networks: convolution and pooling

The feature-distributed convolution (`nn/conv_feature.py`) and the pooling layers (`nn/pooling.py`) as programs of the
network machine.
-/

namespace Verif.Net

variable {F β : Type}

/-- The workers of `P` hold the parts of the tensor `X`, cut as `L` says; nobody has raised an exception, and no
worker's tensor is 0-dimensional. -/
structure Holds (W : List Nat) (P : Cart) (L : Layout) (t : TorchDtype) (X : List Nat → F) (S : Nat → NSt F) : Prop where
  calm : ∀ w ∈ W, (S w).err = false
  batch : ∀ w ∈ W, (S w).t.shape ≠ []
  parts : ∃ rg, ∀ v ∈ P.members, (S v).own = (L.shapeAt (P.coord v), t, rg)
  data : ∀ v ∈ P.members, ∀ l, InBounds l (L.shapeAt (P.coord v)) →
    (S v).t.val l = X (shiftBy (L.startAt (P.coord v)) l)

/-! ## Programs -/

/-- The local operator on the selected part of the tensor (`conv_feature.py:391-393`, `pooling.py:299-302`). -/
def winOpPhase (P : Cart) (Q : WinParams) (v : F)
    (op : NSt F → List Nat × (List Nat → F) → Option (Tensor F × Bool)) : Nat → NSt F → Phase (NSt F) (NMsg F) :=
  localPhase fun w x =>
    if w ∈ P.members then
      match (windowInput P Q v x w).bind (op x) with
      | some y => tenLens.set y x
      | none => { x with err := true }
    else x

/-- `pooling.py:276-302` `forward` of `DistributedAvgPool*`, after setup. -/
def avgProg [AddCommMonoid F] [Div F] [NatCast F] (c : Nat) (P : Cart) (Q : WinParams) (B : Bufs β) : Prog (NSt F) (NMsg F) :=
  setupProg c P ++ (exchangeProg c P Q 0 B ++ [winOpPhase P Q 0 fun x I =>
    some (⟨torchPoolShape Q.noPad I.1, x.t.dtype, torchAvgPool Q.noPad I.1 I.2⟩, x.rg)])

/-- The same for `DistributedMaxPool*`. -/
def maxProg [SemilatticeSup F] [OrderBot F] (c : Nat) (P : Cart) (Q : WinParams) (B : Bufs β) : Prog (NSt F) (NMsg F) :=
  setupProg c P ++ (exchangeProg c P Q ⊥ B ++ [winOpPhase P Q ⊥ fun x I =>
    some (⟨torchPoolShape Q.noPad I.1, x.t.dtype, torchMaxPool Q.noPad I.1 I.2⟩, x.rg)])

/-- Parameter `i` as stored by the layer (`conv_feature.py:171-190`). -/
def loadPhase [Zero F] (P : Cart) (i : Nat) (a : Tensor F) (rg : Bool) : Nat → NSt F → Phase (NSt F) (NMsg F) :=
  localPhase fun w x => if w ∈ P.members then
    (parLens i).set ((rootParam P a rg).x w, if w = P.members.getD 0 0 then rg else false) x else x

/-- The broadcast of a parameter (`conv_feature.py:373-378`). -/
def paramProg [AddCommMonoid F] (c : Nat) (P : Cart) (i : Nat) (a : Tensor F) (rg : Bool) : Prog (NSt F) (NMsg F) :=
  loadPhase P i a rg :: bcastProg c (paramBcast P) (parLens i)

/-- The local convolution with the weight and bias received (`conv_feature.py:373-393`). -/
def convOp [AddCommMonoid F] [Mul F] (C : ConvLayer F) (x : NSt F) (I : List Nat × (List Nat → F)) : Option (Tensor F × Bool) :=
  (torchConvLayer C.W.noPad C.groups C.Ci C.Co C.bias.isSome (x.par 0).1.val (x.par 1).1.val ⟨I.1, x.t.dtype, I.2⟩).map
    fun y => (y, x.rg || (x.par 0).2 || (C.bias.isSome && (x.par 1).2))

/-- `conv_feature.py:357-393` `forward`, for `padding_mode='zeros'`, with the setup that precedes it
(`conv_feature.py:238-306`).  `c`, `cw`, `cb`: the channels of halo exchange and broadcasts. -/
def convProg [AddCommMonoid F] [Mul F] (c cw cb : Nat) (P : Cart) (C : ConvLayer F) (rgw : Bool) (B : Bufs β) :
    Prog (NSt F) (NMsg F) :=
  if P.members.length = 1 then
    [opPhase P.members (fun _ x => torchConvLayer C.W C.groups C.Ci C.Co C.bias.isSome C.weight.val
      (fun l => biasOf C.bias (l.getD 0 0)) x) rgw]
  else setupProg c P ++ (paramProg cw P 0 C.weight rgw ++
    ((match C.bias with
      | some b => paramProg cb P 1 b rgw
      | none => []) ++ (exchangeProg c P C.W 0 B ++ [winOpPhase P C.W 0 (convOp C)])))

/-! ## Common part -/

section
variable {W : List Nat} {P : Cart} {Q : WinParams} {L L' : Layout} {t : TorchDtype} {X X' : List Nat → F}
  {S S' : Nat → NSt F} {rg : Bool}

theorem gathered_own {w : Nat} (hw : w ∈ P.members) : gathered P S w = (S w).own := if_pos hw

theorem Holds.winInput (h : Holds W P L t X S) (hP : P.WF) (hL : L.pshape = P.shape) (hp : Q.p.length ≤ P.shape.length)
    (hrg : ∀ v ∈ P.members, (S v).own = (L.shapeAt (P.coord v), t, rg)) :
    WinInput P Q L (gathered P S) (fun w => (S w).t.val) X t rg := by
  refine ⟨hP, hL, hp, fun v hv idx hi => ?_, fun v hv idx hi l hl => ?_⟩
  · rw [Cart.index_eq hv] at hi
    cases hi
    rw [gathered_own hv, hrg v hv]
  · rw [Cart.index_eq hv] at hi
    cases hi
    exact h.data v hv l hl

/-- The worker with rank `r` holds its part. -/
def HoldsAt (P : Cart) (L : Layout) (t : TorchDtype) (rg : Bool) (X : List Nat → F) (r : Nat) (x : NSt F) : Prop :=
  x.own = (L.shapeAt (getCoords P.shape r), t, rg) ∧
    ∀ o, InBounds o (L.shapeAt (getCoords P.shape r)) → x.t.val o = X (shiftBy (L.startAt (getCoords P.shape r)) o)

theorem Holds.finish (h : Holds W P L t X S) (hL' : L'.pshape = P.shape) (h0 : P.shape ≠ [])
    (herr : ∀ w ∈ W, (S' w).err = (S w).err) (hout : ∀ w ∈ W, w ∉ P.members → (S' w).t = (S w).t)
    (hin : ∀ r, r < P.members.length → HoldsAt P L' t rg X' r (S' (P.members.getD r 0))) :
    Holds W P L' t X' S' := by
  have hin' : ∀ v ∈ P.members, HoldsAt P L' t rg X' (P.members.idxOf v) (S' v) := fun v hv => by
    have := hin _ (List.idxOf_lt_length_of_mem hv)
    rwa [getD_idxOf hv] at this
  refine ⟨fun w hw => (herr w hw).trans (h.calm w hw), fun w hw => ?_, ⟨rg, fun v hv => (hin' v hv).1⟩,
    fun v hv => (hin' v hv).2⟩
  by_cases hm : w ∈ P.members
  · have e : (S' w).t.shape = L'.shapeAt (P.coord w) := congrArg Prod.fst (hin' w hm).1
    intro hn
    have hl : (L'.shapeAt (P.coord w)).length = L'.length := Layout.length_shapeAt (coord_len hL' w)
    rw [← e, hn, ← L'.length_pshape, hL'] at hl
    exact h0 (List.length_eq_zero_iff.1 hl.symm)
  · rw [hout w hw hm]
    exact h.batch w hw

/-- Exchange and local operator. -/
theorem winOp_run (c : Nat) (v : F) (B : Bufs β) (op : NSt F → List Nat × (List Nat → F) → Option (Tensor F × Bool))
    (hW : ∀ w ∈ P.members, w ∈ W) (hi : ∀ w ∈ P.members, (S w).info = gathered P S)
    (h : WinInput P Q L (gathered P S) (fun w => (S w).t.val) X t rg) {A : Nat → NSt F → Prop}
    (hop : ∀ U Sx k g, WinRun P Q v (gathered P S) (fun w => (S w).t.val) B.dt B.junk B.ops true k U Sx g → ∀ r,
      r < P.members.length → (g.ws r).phase = haloPhases P → ∀ a,
      ∃ y, op (inpLens.set a (S (P.members.getD r 0))) (localInput P v (gathered P S) (fun w => (S w).t.val) U g r) = some y ∧
        ∀ x, A r (tenLens.set y x)) :
    ProgOK W (exchangeProg c P Q v B ++ [winOpPhase P Q v op]) S ∧
    (∀ w ∈ W, (run (exchangeProg c P Q v B ++ [winOpPhase P Q v op]) S w).err = (S w).err) ∧
    (∀ w ∈ W, w ∉ P.members → (run (exchangeProg c P Q v B ++ [winOpPhase P Q v op]) S w).t = (S w).t) ∧
    ∀ r, r < P.members.length →
      A r (run (exchangeProg c P Q v B ++ [winOpPhase P Q v op]) S (P.members.getD r 0)) := by
  obtain ⟨o1, f1, U, Sx, k, g, R, hr1⟩ := exchange_run c v B hW hi h
  generalize hS1 : run (exchangeProg c P Q v B) S = S1 at f1 hr1
  have hrun : ∀ w, run (exchangeProg c P Q v B ++ [winOpPhase P Q v op]) S w = sync (winOpPhase P Q v op) S1 w := by
    intro w
    rw [run_append, hS1]
    rfl
  have hphase : ∀ w, sync (winOpPhase P Q v op) S1 w = if w ∈ P.members then
      match (windowInput P Q v (S1 w) w).bind (op (S1 w)) with
      | some y => tenLens.set y (S1 w)
      | none => { S1 w with err := true }
    else S1 w := fun _ => rfl
  have hin : ∀ r, r < P.members.length → ∃ y, sync (winOpPhase P Q v op) S1 (P.members.getD r 0) =
      tenLens.set y (S1 (P.members.getD r 0)) ∧ ∀ x, A r (tenLens.set y x) := by
    intro r hr
    obtain ⟨p1, p2⟩ := hr1 r hr
    have hm := getD_mem (M := P.members) hr
    obtain ⟨a, ha⟩ := f1 _ (hW _ hm)
    obtain ⟨y, hy, hx⟩ := hop U Sx k g R r hr p1 a
    refine ⟨y, ?_, hx⟩
    rw [hphase, if_pos hm, p2, Option.bind_some, ha, hy]
  refine ⟨?_, fun w hw => ?_, fun w hw hn => ?_, fun r hr => ?_⟩
  · rw [progOK_append]
    exact ⟨o1, localPhase_ok _, trivial⟩
  · obtain ⟨a, ha⟩ := f1 w hw
    rw [hrun]
    by_cases hm : w ∈ P.members
    · obtain ⟨y, e, -⟩ := hin _ (List.idxOf_lt_length_of_mem hm)
      rw [getD_idxOf hm] at e
      rw [e, ha]
      rfl
    · rw [hphase, if_neg hm, ha]
      rfl
  · obtain ⟨a, ha⟩ := f1 w hw
    rw [hrun, hphase, if_neg hn, ha]
    rfl
  · obtain ⟨y, e, hx⟩ := hin r hr
    rw [hrun, e]
    exact hx _

/-- Setup, exchange and local operator. -/
theorem winLayer_run (c : Nat) (v : F) (B : Bufs β)
    (op : NSt F → List Nat × (List Nat → F) → Option (Tensor F × Bool)) (h : Holds W P L t X S) (hP : P.WF)
    (hL : L.pshape = P.shape) (hp : Q.p.length ≤ P.shape.length) (hL' : L'.pshape = P.shape) (h0 : P.shape ≠ [])
    (hW : ∀ w ∈ P.members, w ∈ W)
    (hop : ∀ S1 : Nat → NSt F, ∀ rg, WinInput P Q L (gathered P S1) (fun w => (S1 w).t.val) X t rg → ∀ U Sx k g,
      WinRun P Q v (gathered P S1) (fun w => (S1 w).t.val) B.dt B.junk B.ops true k U Sx g → ∀ r,
      r < P.members.length → (g.ws r).phase = haloPhases P → ∀ a,
      ∃ y, op (inpLens.set a (S1 (P.members.getD r 0))) (localInput P v (gathered P S1) (fun w => (S1 w).t.val) U g r) =
        some y ∧ ∀ x, HoldsAt P L' t rg X' r (tenLens.set y x)) :
    ProgOK W (setupProg c P ++ (exchangeProg c P Q v B ++ [winOpPhase P Q v op])) S ∧
    Holds W P L' t X' (run (setupProg c P ++ (exchangeProg c P Q v B ++ [winOpPhase P Q v op])) S) := by
  obtain ⟨rg, hrg⟩ := h.parts
  obtain ⟨o1, f1, i1⟩ := setup_run c hW S
  generalize hS1 : run (setupProg c P) S = S1 at f1 i1
  have hg : gathered P S1 = gathered P S := f1.gathered hW
  have h1 : WinInput P Q L (gathered P S1) (fun w => (S1 w).t.val) X t rg := by
    have := h.winInput hP hL hp hrg
    refine ⟨this.wf, this.layout, this.plen, hg ▸ this.loc, fun v hv => ?_⟩
    rw [(f1 v (hW v hv)).1]
    exact this.data v hv
  obtain ⟨o2, e2, t2, r2⟩ := winOp_run c v B op hW (fun w hw => (i1 w hw).trans hg.symm) h1 (A := HoldsAt P L' t rg X')
    (hop S1 rg h1)
  rw [progOK_append, run_append, hS1]
  exact ⟨⟨o1, o2⟩, h.finish hL' h0 (fun w hw => (e2 w hw).trans (f1 w hw).2.2.1)
    (fun w hw hn => (t2 w hw hn).trans (f1 w hw).1) r2⟩

end

/-! ## Pooling -/

section
variable {W : List Nat} {P : Cart} {Q : WinParams} {L : Layout} {t : TorchDtype} {X : List Nat → F} {S : Nat → NSt F}
  {nd : Nat} {pk ps pp pd : List Nat}

theorem gathered_dtype {r : Nat} (hr : r < P.members.length) :
    (gathered P S (P.members.getD r 0)).2.1 = (S (P.members.getD r 0)).t.dtype := by
  rw [gathered_own (getD_mem hr)]
  rfl

theorem gathered_rg {L : Layout} {rg : Bool} (h : WinInput P Q L (gathered P S) (fun w => (S w).t.val) X t rg) {r : Nat}
    (hr : r < P.members.length) : (S (P.members.getD r 0)).rg = rg := by
  have hm := getD_mem hr
  have := h.loc _ hm _ (Cart.index_eq hm)
  rw [gathered_own hm] at this
  exact congrArg (fun i : Info => i.2.2) this

theorem pool_plen {avg : Bool} (hQ : poolParams avg nd pk ps pp pd = some Q) (hD : P.shape.length = nd + 2) :
    Q.p.length ≤ P.shape.length := by
  obtain ⟨-, -, ⟨h, -⟩, -⟩ := C40_parameters.1 hQ
  omega

theorem pool_length (hL : L.pshape = P.shape) (hD : P.shape.length = nd + 2) :
    P.shape.length = (torchPoolShape Q L.global).length := by
  rw [length_poolShape Q (show L.global.length = nd + 2 by rw [L.length_global, ← L.length_pshape, hL, hD]), hD]

theorem avg_run [AddCommMonoid F] [Div F] [NatCast F] (c : Nat) (B : Bufs β) (hQ : poolParams true nd pk ps pp pd = some Q)
    (hD : P.shape.length = nd + 2) (hP : P.WF) (hL : L.pshape = P.shape) (hl : WinLimits P Q L)
    (hW : ∀ w ∈ P.members, w ∈ W) (h : Holds W P L t X S) :
    ProgOK W (avgProg c P Q B) S ∧ Holds W P (Layout.balanced P.shape (torchPoolShape Q L.global)) t
      (torchAvgPool Q L.global X) (run (avgProg c P Q B) S) := by
  refine winLayer_run c 0 B _ h hP hL (pool_plen hQ hD) (Layout.balanced_pshape (pool_length hL hD))
    (fun e => by rw [e] at hD; simp at hD) hW fun S1 rg h1 U Sx k g R r hr hf a => ⟨_, rfl, fun x => ?_⟩
  obtain ⟨-, c2, c3, c4⟩ := C40_average hQ hD h1 hl R hr hf
  refine ⟨?_, c4⟩
  show (_, _, (S1 (P.members.getD r 0)).rg) = _
  rw [gathered_rg h1 hr]
  refine Prod.ext c2 (Prod.ext ?_ rfl)
  show (S1 (P.members.getD r 0)).t.dtype = t
  rw [← gathered_dtype hr]
  exact c3

theorem max_run [SemilatticeSup F] [OrderBot F] (c : Nat) (B : Bufs β) (hQ : poolParams false nd pk ps pp pd = some Q)
    (hD : P.shape.length = nd + 2) (hP : P.WF) (hL : L.pshape = P.shape) (hl : WinLimits P Q L)
    (hW : ∀ w ∈ P.members, w ∈ W) (h : Holds W P L t X S) :
    ProgOK W (maxProg c P Q B) S ∧ Holds W P (Layout.balanced P.shape (torchPoolShape Q L.global)) t
      (torchMaxPool Q L.global X) (run (maxProg c P Q B) S) := by
  refine winLayer_run c ⊥ B _ h hP hL (pool_plen hQ hD) (Layout.balanced_pshape (pool_length hL hD))
    (fun e => by rw [e] at hD; simp at hD) hW fun S1 rg h1 U Sx k g R r hr hf a => ⟨_, rfl, fun x => ?_⟩
  obtain ⟨c2, c3, c4⟩ := C40_maximum hQ hD h1 hl R hr hf
  refine ⟨?_, c4⟩
  show (_, _, (S1 (P.members.getD r 0)).rg) = _
  rw [gathered_rg h1 hr]
  refine Prod.ext c2 (Prod.ext ?_ rfl)
  show (S1 (P.members.getD r 0)).t.dtype = t
  rw [← gathered_dtype hr]
  exact c3

end

/-! ## Convolution -/

section
variable {W : List Nat} {P : Cart} {L : Layout} {t : TorchDtype} {X : List Nat → F} {S : Nat → NSt F}

/-- The broadcast of parameter `i` changes nothing else. -/
theorem param_run [AddCommMonoid F] (c i : Nat) (a : Tensor F) (rgw : Bool) (hP : P.WF) (hroot : ∃ ρ, P.root = some ρ)
    (hD : 0 < P.shape.length) (hW : ∀ w ∈ P.members, w ∈ W) (S : Nat → NSt F) :
    ProgOK W (paramProg c P i a rgw) S ∧ (∀ w ∈ W, (run (paramProg c P i a rgw) S w).t = (S w).t ∧
      (run (paramProg c P i a rgw) S w).rg = (S w).rg ∧ (run (paramProg c P i a rgw) S w).err = (S w).err ∧
      (run (paramProg c P i a rgw) S w).info = (S w).info ∧
      ∀ j, j ≠ i → (run (paramProg c P i a rgw) S w).par j = (S w).par j) ∧
    ∀ w ∈ P.members, (run (paramProg c P i a rgw) S w).par i = (a, rgw) := by
  have hl := paramBcast_layer hP hroot hD
  obtain ⟨w0, h0, hm0⟩ := hP.head
  have hw0 : P.members.getD 0 0 = w0 := by
    rw [List.head?_eq_getElem?] at h0
    rw [List.getD_eq_getElem?_getD, h0]
    rfl
  have hmem : ∀ w ∈ (paramBcast P).Px.members, w = P.members.getD 0 0 := fun w hw => by
    simpa [paramBcast, rootCart] using hw
  obtain ⟨S1, hS1⟩ : ∃ S1, S1 = sync (loadPhase P i a rgw) S := ⟨_, rfl⟩
  have r1 : ∀ w, S1 w = if w ∈ P.members then (parLens i).set ((rootParam P a rgw).x w,
      if w = P.members.getD 0 0 then rgw else false) (S w) else S w := fun w => by rw [hS1]; rfl
  obtain ⟨o2, Y, s, r2, y1, y2, y3, -⟩ := bcast_run (S := S1) (ℓ := parLens i) c hl
    (fun w hw => by rw [hmem w hw, hw0]; exact hW _ hm0) hW (slot_par i) (fun h => by simp [paramBcast] at h)
  have hrun : ∀ w, run (paramProg c P i a rgw) S w = run (bcastProg c (paramBcast P) (parLens i)) S1 w := by
    intro w
    rw [hS1]
    rfl
  refine ⟨⟨localPhase_ok _, hS1 ▸ o2⟩, fun w hw => ?_, fun w hw => ?_⟩
  · rw [hrun, r2 w hw, r1]
    split
    · refine ⟨rfl, rfl, rfl, rfl, fun j hj => ?_⟩
      simp [parLens, hj]
    · refine ⟨rfl, rfl, rfl, rfl, fun j hj => ?_⟩
      simp [parLens, hj]
  · rw [hrun, r2 w (hW w hw)]
    show ((parLens i).get ((parLens i).set (Y w) (S1 w))) = _
    rw [(parLens i).get_set, y1 w hw, hmem _ (hl.root_mem hw), r1, hw0, if_pos hm0, (parLens i).get_set, if_pos rfl]
    simp [rootParam, ← hw0]

theorem conv_run [AddCommMonoid F] [Mul F] (c cw cb : Nat) (C : ConvLayer F) (rgw : Bool) (B : Bufs β) {nd : Nat}
    {pk ps pp pd : List Nat} (hC : winParams nd pk ps pp pd = some C.W) (hD : P.shape.length = nd + 2)
    (hch : P.shape.getD 1 0 = 1) (hroot : ∃ ρ, P.root = some ρ)
    (hgr : 0 < C.groups ∧ C.groups ∣ C.Ci ∧ C.groups ∣ C.Co) (hpos : 0 < C.Ci ∧ 0 < C.Co)
    (hCi : L.global.getD 1 0 = C.Ci)
    (hfit : P.members.length = 1 → ∀ j, j < nd →
      C.W.d.getD j 0 * (C.W.k.getD j 0 - 1) + 1 ≤ L.global.getD (j + 2) 0 + 2 * C.W.p.getD j 0)
    (hl : P.members.length ≠ 1 → WinLimits P C.W L) (hP : P.WF) (hL : L.pshape = P.shape)
    (hW : ∀ w ∈ P.members, w ∈ W) (h : Holds W P L t X S) :
    ProgOK W (convProg c cw cb P C rgw B) S ∧ Holds W P (Layout.balanced P.shape (torchConvShape C.W C.Co L.global)) t
      (torchConv C.W C.groups C.Ci C.Co C.weight.val (biasOf C.bias) L.global X) (run (convProg c cw cb P C rgw B) S) := by
  have hgl : L.global.length = nd + 2 := by rw [L.length_global, ← L.length_pshape, hL, hD]
  have hplen : C.W.p.length ≤ P.shape.length := by
    obtain ⟨-, -, ⟨h, -⟩, -⟩ := C39_parameters.1 hC
    omega
  have hL' : (Layout.balanced P.shape (torchConvShape C.W C.Co L.global)).pshape = P.shape :=
    Layout.balanced_pshape (by rw [length_convShape C.W C.Co hgl, hD])
  have hne : P.shape ≠ [] := fun e => by rw [e] at hD; simp at hD
  obtain ⟨rg, hrg⟩ := h.parts
  have h0 := h.winInput (Q := C.W) hP hL hplen hrg
  unfold convProg
  by_cases h1 : P.members.length = 1
  · rw [if_pos h1]
    refine ⟨⟨localPhase_ok _, trivial⟩, ?_⟩
    have key : ∀ r, r < P.members.length → ∃ y, torchConvLayer C.W C.groups C.Ci C.Co C.bias.isSome C.weight.val
        (fun l => biasOf C.bias (l.getD 0 0)) (S (P.members.getD r 0)).t = some y ∧
        ∀ x, HoldsAt P (Layout.balanced P.shape (torchConvShape C.W C.Co L.global)) t (rg || rgw)
          (torchConv C.W C.groups C.Ci C.Co C.weight.val (biasOf C.bias) L.global X) r (tenLens.set (y, rg || rgw) x) := by
      intro r hr
      obtain ⟨U, Sx, R0⟩ := C39_starts h0 0 B.dt B.junk B.ops true
      obtain ⟨y, e, c1, c2, c3⟩ := C39_feature_conv C hC hD hch hroot hgr hpos h0 hCi hfit hl (fun _ => R0) hr (fun hn => absurd h1 hn) rgw
      unfold featureForward at e
      rw [if_pos h1, gathered_own (getD_mem hr)] at e
      exact ⟨y, e, fun x => ⟨Prod.ext c1 (Prod.ext c2 rfl), c3⟩⟩
    have hph : ∀ w, run [opPhase P.members (fun _ x => torchConvLayer C.W C.groups C.Ci C.Co C.bias.isSome C.weight.val
        (fun l => biasOf C.bias (l.getD 0 0)) x) rgw] S w = if w ∈ P.members then
          match torchConvLayer C.W C.groups C.Ci C.Co C.bias.isSome C.weight.val (fun l => biasOf C.bias (l.getD 0 0)) (S w).t with
          | some y => tenLens.set (y, (S w).rg || rgw) (S w)
          | none => { S w with err := true }
        else S w := fun _ => rfl
    refine h.finish hL' hne (fun w hw => ?_) (fun w hw hn => by rw [hph, if_neg hn]) (fun r hr => ?_) (rg := rg || rgw)
    · rw [hph]
      split
      · next hm =>
        obtain ⟨y, e, -⟩ := key _ (List.idxOf_lt_length_of_mem hm)
        rw [getD_idxOf hm] at e
        rw [e]
        rfl
      · rfl
    · obtain ⟨y, e, hx⟩ := key r hr
      rw [hph, if_pos (getD_mem hr), e, gathered_rg h0 hr]
      exact hx _
  · rw [if_neg h1]
    have hD0 : 0 < P.shape.length := by omega
    obtain ⟨o1, f1, i1⟩ := setup_run c hW S
    generalize hS1 : run (setupProg c P) S = S1 at f1 i1
    obtain ⟨o2, f2, p2⟩ := param_run cw 0 C.weight rgw hP hroot hD0 hW S1
    generalize hS2 : run (paramProg cw P 0 C.weight rgw) S1 = S2 at f2 p2
    have hb : ∃ S3, ProgOK W (match C.bias with
        | some b => paramProg cb P 1 b rgw
        | none => []) S2 ∧ run (match C.bias with
        | some b => paramProg cb P 1 b rgw
        | none => []) S2 = S3 ∧ (∀ w ∈ W, (S3 w).t = (S2 w).t ∧ (S3 w).rg = (S2 w).rg ∧ (S3 w).err = (S2 w).err ∧
          (S3 w).info = (S2 w).info ∧ (S3 w).par 0 = (S2 w).par 0) ∧
        ∀ b, C.bias = some b → ∀ w ∈ P.members, (S3 w).par 1 = (b, rgw) := by
      cases hbias : C.bias with
      | none => exact ⟨S2, trivial, rfl, fun w _ => ⟨rfl, rfl, rfl, rfl, rfl⟩, fun b hb => by cases hb⟩
      | some b =>
        obtain ⟨o3, f3, p3⟩ := param_run cb 1 b rgw hP hroot hD0 hW S2
        refine ⟨_, o3, rfl, fun w hw => ?_, fun b' hb' => ?_⟩
        · obtain ⟨a1, a2, a3, a4, a5⟩ := f3 w hw
          exact ⟨a1, a2, a3, a4, a5 0 (by omega)⟩
        · cases hb'
          exact p3
    obtain ⟨S3, o3, hS3, f3, p3⟩ := hb
    have hkeep : ∀ w ∈ W, (S3 w).t = (S w).t ∧ (S3 w).rg = (S w).rg ∧ (S3 w).err = (S w).err ∧
        (S3 w).info = (S1 w).info := by
      intro w hw
      obtain ⟨a1, a2, a3, a4, -⟩ := f3 w hw
      obtain ⟨b1, b2, b3, b4, -⟩ := f2 w hw
      obtain ⟨c1, c2, c3, -⟩ := f1 w hw
      exact ⟨a1.trans (b1.trans c1), a2.trans (b2.trans c2), a3.trans (b3.trans c3), a4.trans b4⟩
    have hg : gathered P S3 = gathered P S := by
      funext v
      unfold gathered
      split
      · next hv =>
        obtain ⟨a1, a2, -⟩ := hkeep v (hW v hv)
        rw [NSt.own, NSt.own, a1, a2]
      · rfl
    have h3 : WinInput P C.W L (gathered P S3) (fun w => (S3 w).t.val) X t rg := by
      refine ⟨h0.wf, h0.layout, h0.plen, hg ▸ h0.loc, fun v hv => ?_⟩
      rw [(hkeep v (hW v hv)).1]
      exact h0.data v hv
    obtain ⟨o4, e4, t4, r4⟩ := winOp_run c 0 B (convOp C) hW
      (fun w hw => ((hkeep w (hW w hw)).2.2.2.trans (i1 w hw)).trans hg.symm) h3 (A := HoldsAt P (Layout.balanced P.shape (torchConvShape C.W C.Co L.global)) t (rg || rgw)
        (torchConv C.W C.groups C.Ci C.Co C.weight.val (biasOf C.bias) L.global X))
      (fun U Sx k g R r hr hf a => by
        obtain ⟨y, e, c1, c2, c3⟩ := C39_feature_conv C hC hD hch hroot hgr hpos h3 hCi hfit hl (fun _ => R) hr
          (fun _ => hf) rgw
        refine ⟨(y, rg || rgw), ?_, fun x => ⟨Prod.ext c1 (Prod.ext c2 rfl), c3⟩⟩
        have hm := getD_mem (M := P.members) hr
        have hrgr := gathered_rg h3 hr
        have hdt := gathered_dtype (S := S3) hr
        unfold featureForward at e
        rw [if_neg h1, paramBcast_forward hP hroot hD0 _ _ hr, hdt] at e
        obtain ⟨w, hw⟩ : ∃ w, w = P.members.getD r 0 := ⟨_, rfl⟩
        rw [← hw] at hm hrgr e ⊢
        have hp0 : (S3 w).par 0 = (C.weight, rgw) := ((f3 w (hW w hm)).2.2.2.2).trans (p2 w hm)
        show (torchConvLayer C.W.noPad C.groups C.Ci C.Co C.bias.isSome ((S3 w).par 0).1.val ((S3 w).par 1).1.val
          ⟨_, (S3 w).t.dtype, _⟩).map (fun y => (y, (S3 w).rg || ((S3 w).par 0).2 || (C.bias.isSome && ((S3 w).par 1).2))) = _
        rw [hp0, hrgr]
        cases hbias : C.bias with
        | none =>
          rw [hbias] at e
          have e' : torchConvLayer C.W.noPad C.groups C.Ci C.Co false C.weight.val (fun _ => 0) _ = some y := e
          have hz : ∀ f g : List Nat → F, torchConvLayer C.W.noPad C.groups C.Ci C.Co false C.weight.val f =
            torchConvLayer C.W.noPad C.groups C.Ci C.Co false C.weight.val g := fun _ _ => rfl
          show (torchConvLayer C.W.noPad C.groups C.Ci C.Co false C.weight.val _ _).map _ = _
          rw [hz _ fun _ => 0, e']
          simp
        | some b =>
          rw [hbias] at e
          rw [p3 b hbias w hm]
          have hbf := paramBcast_forward hP hroot hD0 b rgw hr
          rw [← hw] at hbf
          rw [Option.map_some, hbf] at e
          have e' : torchConvLayer C.W.noPad C.groups C.Ci C.Co true C.weight.val b.val _ = some y := e
          show (torchConvLayer C.W.noPad C.groups C.Ci C.Co true C.weight.val b.val _).map _ = _
          rw [e']
          simp)
    rw [progOK_append, progOK_append, progOK_append, run_append, run_append, run_append, hS1, hS2, hS3]
    exact ⟨⟨o1, o2, o3, o4⟩, h.finish hL' hne (fun w hw => (e4 w hw).trans (hkeep w hw).2.2.1)
      (fun w hw hn => (t4 w hw hn).trans (hkeep w hw).1) r4⟩

end

end Verif.Net
