import Verif.Net.ConvBack
import Verif.Net.GenBack
import Verif.Net.RepBack
import Verif.Net.Network

/-!
# Networks in training: forward pass, gradient of the output, backward pass

A user's training step calls the layers one after another, calls `backward` on the output, and autograd calls the
adjoints in reverse order.  No worker waits for the others in between.
-/

namespace Verif.Net

variable {F β : Type}

/-! ## The tape of several layers -/

section

theorem length_snaps (cuts : List (Prog (NSt F) (NMsg F))) (S : Nat → NSt F) (w : Nat) :
    (snaps cuts S w).length = cuts.length := by
  induction cuts generalizing S with
  | nil => rfl
  | cons p ps ih => simp [snaps, ih]

theorem snaps_append (a b : List (Prog (NSt F) (NMsg F))) (S : Nat → NSt F) (w : Nat) :
    snaps (a ++ b) S w = snaps b (run a.flatten S) w ++ snaps a S w := by
  induction a generalizing S with
  | nil => simp [snaps, run]
  | cons p ps ih =>
    rw [List.cons_append, snaps, ih, List.flatten_cons, run_append, snaps, List.append_assoc]

end

/-! ## Layers -/

/-- A layer of a network in training, with the channels of its communicators. -/
inductive TLayer (F β : Type) where
  /-- an entrywise function with its derivative -/
  | map (f df : F → F)
  /-- `nn/conv_feature.py` -/
  | conv (c cw cb : Nat) (C : ConvLayer F) (rgw : Bool) (B : Bufs β)
  /-- `nn/pooling.py` -/
  | avg (c : Nat) (Q : WinParams) (B : Bufs β)
  /-- `x.reshape(x.shape[0], -1)` -/
  | flat
  /-- `nn/repartition.py` -/
  | rep (c : Nat) (Py : Cart) (pb : Bool) (B : Bufs β)
  /-- `nn/linear.py`; `weight`, `bias` are the global parameters whose blocks the workers store -/
  | lin (c cy : Nat) (A : LinearLayer F) (rgp : Bool) (weight bias : List Nat → F)
  /-- `nn/conv_channel.py`; `Wt`, `bi` are the global parameters -/
  | chan (c cy : Nat) (C : ChanConv) (weight bias : Nat → Tensor F) (rgp : Bool) (Wt bi : List Nat → F)
  /-- `nn/conv_general.py` -/
  | gen (c cw cb cx cy : Nat) (C : ChanConv) (weight bias : Nat → Tensor F) (rgp : Bool) (B : Bufs β)
    (Wt bi : List Nat → F)

section
variable [Field F]

/-- The forward pass of a layer whose input lies on `P`, cut. -/
def TLayer.cuts (P : Cart) : TLayer F β → List (Prog (NSt F) (NMsg F))
  | .map f _ => [mapProg f]
  | .conv c cw cb C rgw B => convCuts c cw cb P C rgw B
  | .avg c Q B => avgCuts c P Q B
  | .flat => [flatProg P]
  | .rep c Py pb B => repCuts c P Py pb B
  | .lin c cy A rgp _ _ => linCuts c cy A rgp
  | .chan c cy C weight bias rgp _ _ => chanCuts c cy C (fun w => (weight w).val) (fun w => (bias w).val) rgp
  | .gen c cw cb cx cy C weight bias rgp B _ _ => genCuts c cw cb cx cy C weight bias rgp B

/-- The adjoint of a layer. -/
def TLayer.adjProg (P : Cart) : TLayer F β → CProg (List (NSt F)) (NSt F) (NMsg F)
  | .map _ df => mapBack df
  | .conv c cw cb C _ B => convBack c cw cb P C B
  | .avg c Q B => avgBack c P Q B
  | .flat => flatBack P
  | .rep c Py pb B => repBack c P Py pb B
  | .lin c cy A _ _ _ => linBack c cy A
  | .chan c cy C weight bias _ _ _ => chanBack c cy C weight bias
  | .gen c cw cb cx cy C weight bias _ B _ _ => genBack c cw cb cx cy C weight bias B

/-- Has worker `w` a tensor for parameter `i` of the layer (0: weight, 1: bias) that requires gradients?
`conv_feature.py:171-190`, `linear.py:70-80`, `conv_channel.py:206-224`, `conv_general.py:303-345`. -/
def TLayer.has (P : Cart) : TLayer F β → Nat → Nat → Bool
  | .conv _ _ _ C _ _ => fun w i => P.members.contains w && (i == 0 || (i == 1 && C.bias.isSome))
  | .lin _ _ A _ _ _ => fun w i => A.Pw.members.contains w && (i == 0 || (i == 1 && A.localBias w))
  | .chan _ _ C _ _ _ _ _ => fun w i => C.Pw.members.contains w && (i == 0 || (i == 1 && C.addsBias w))
  | .gen _ _ _ _ _ C _ _ _ _ _ _ => fun w i => C.Pw.members.contains w && (i == 0 || (i == 1 && C.addsBias w))
  | _ => fun _ _ => false

/-- The backward pass of a layer. -/
def TLayer.back (P : Cart) (l : TLayer F β) : Prog (BSt F) (NMsg F) :=
  backProg (l.adjProg P) ++ [dropPhase (l.cuts P).length (l.has P)]

/-- The partition of its output. -/
def TLayer.out (P : Cart) : TLayer F β → Cart
  | .flat => flatCart P
  | .rep _ Py _ _ => Py
  | .lin _ _ A _ _ _ => A.Py
  | .chan _ _ C _ _ _ _ _ => C.Py
  | .gen _ _ _ _ _ C _ _ _ _ _ _ => C.Py
  | _ => P

/-- The forward pass of a network, cut. -/
def netCuts (P : Cart) : List (TLayer F β) → List (Prog (NSt F) (NMsg F))
  | [] => []
  | l :: ls => l.cuts P ++ netCuts (l.out P) ls

/-- The backward pass of a network. -/
def netBack (P : Cart) : List (TLayer F β) → Prog (BSt F) (NMsg F)
  | [] => []
  | l :: ls => netBack (l.out P) ls ++ l.back P

/-- The gradient of the output, computed by every worker from its part of the output. -/
def seedPhase (seed : Nat → Tensor F → Tensor F) : Nat → BSt F → Phase (BSt F) (NMsg F) :=
  localPhase fun w b => { b with s := { b.s with t := seed w b.s.t } }

/-- Forward and backward pass. -/
def trainProg (P : Cart) (ls : List (TLayer F β)) (seed : Nat → Tensor F → Tensor F) : Prog (BSt F) (NMsg F) :=
  tapeProg (netCuts P ls) ++ seedPhase seed :: netBack P ls

/-! ## Specification: the sequential network and its gradients -/

/-- Shape and entries of the sequential result of a layer. -/
def TLayer.seq : TLayer F β → List Nat × (List Nat → F) → List Nat × (List Nat → F)
  | .map f _, (s, X) => (s, fun i => f (X i))
  | .conv _ _ _ C _ _, (s, X) =>
    (torchConvShape C.W C.Co s, torchConv C.W C.groups C.Ci C.Co C.weight.val (biasOf C.bias) s X)
  | .avg _ Q _, (s, X) => (torchPoolShape Q s, torchAvgPool Q s X)
  | .flat, (s, X) => ([s.headD 0, s.tail.prod], flatOp s X)
  | .rep _ _ _ _, x => x
  | .lin _ _ A _ weight bias, (s, X) =>
    ([s.headD 0, A.outFeatures], denseOp A.inFeatures A.useBias weight bias X)
  | .chan _ _ C _ _ _ Wt bi, (s, X) =>
    (torchConvShape C.W C.Co s, torchConv C.W 1 C.Ci C.Co Wt (fun c => if C.useBias then bi [c] else 0) s X)
  | .gen _ _ _ _ _ C _ _ _ _ Wt bi, (s, X) =>
    (torchConvShape C.W C.Co s, torchConv C.W 1 C.Ci C.Co Wt (fun c => if C.useBias then bi [c] else 0) s X)

/-- The gradient of the input of a layer, if `Y` is the gradient of its output. -/
def TLayer.adj : TLayer F β → List Nat × (List Nat → F) → (List Nat → F) → List Nat → F
  | .map _ df, (_, X), Y => fun i => Y i * df (X i)
  | .conv _ _ _ C _ _, (s, _), Y => torchConvGradX C.W C.groups C.Ci C.Co C.weight.val s Y
  | .avg _ Q _, (s, _), Y => torchAvgPoolGrad Q s Y
  | .flat, (s, _), Y => flatAdj s Y
  | .rep _ _ _ _, _, Y => Y
  | .lin _ _ A _ weight _, _, Y => denseAdj A.outFeatures weight Y
  | .chan _ _ C _ _ _ Wt _, (s, _), Y => torchConvGradX C.W 1 C.Ci C.Co Wt s Y
  | .gen _ _ _ _ _ C _ _ _ _ Wt _, (s, _), Y => torchConvGradX C.W 1 C.Ci C.Co Wt s Y

/-- The worker's gradients of the parameters of a layer: `gr w i` is the gradient of parameter `i` on worker `w`. -/
def TLayer.Grads (P : Cart) : TLayer F β → List Nat × (List Nat → F) → (List Nat → F) →
    (Nat → Nat → Option (Tensor F)) → Prop
  | .conv _ _ _ C _ _, (s, X), Y, gr =>
    (∃ z, gr (P.members.getD 0 0) 0 = some z ∧ z.shape = C.weight.shape ∧ ∀ co c κ, co < C.Co → c < C.Ci / C.groups →
      InBounds κ C.W.k → z.val (co :: c :: κ) = torchConvGradW C.W C.groups C.Ci C.Co s X Y (co :: c :: κ)) ∧
    (∀ b, C.bias = some b → ∃ z, gr (P.members.getD 0 0) 1 = some z ∧ z.shape = b.shape ∧
      ∀ co, co < C.Co → z.val [co] = torchConvGradB C.W C.Co s Y [co]) ∧
    ∀ w i z, gr w i = some z → w ∈ P.members ∧ (i = 0 ∨ i = 1 ∧ C.bias.isSome = true) ∧
      (w ≠ P.members.getD 0 0 → z.shape.prod = 0)
  | .lin _ _ A _ _ _, (s, X), Y, gr =>
    (∀ w ∈ A.Pw.members, ∃ z, gr w 0 = some z ∧
      z.shape = (Layout.balanced A.Pw.shape [A.outFeatures, A.inFeatures]).shapeAt (A.Pw.coord w) ∧
      ∀ l, InBounds l z.shape → z.val l = denseGradW (s.headD 0) X Y
        (shiftBy ((Layout.balanced A.Pw.shape [A.outFeatures, A.inFeatures]).startAt (A.Pw.coord w)) l)) ∧
    (A.useBias = true → ∀ w ∈ A.Pw.members, (A.Pw.coord w).getD 1 0 = 0 → ∃ z, gr w 1 = some z ∧
      z.shape = [subsize (A.Pw.shape.getD 0 0) ((A.Pw.coord w).getD 0 0) A.outFeatures] ∧
      ∀ k, InBounds [k] z.shape → z.val [k] = denseGradB (s.headD 0) Y
        [startIdx (A.Pw.shape.getD 0 0) ((A.Pw.coord w).getD 0 0) A.outFeatures + k]) ∧
    ∀ w i z, gr w i = some z → w ∈ A.Pw.members ∧
      (i = 0 ∨ i = 1 ∧ A.useBias = true ∧ (A.Pw.coord w).getD 1 0 = 0)
  | .chan _ _ C weight bias _ _ _, (s, X), Y, gr =>
    (∀ w ∈ C.Pw.members, ∃ z, gr w 0 = some z ∧ z.shape = (weight w).shape ∧
      ∀ k < subsize (C.Pw.shape.getD 0 0) ((C.Pw.coord w).getD 0 0) C.Co,
      ∀ c < subsize (C.Pw.shape.getD 1 0) ((C.Pw.coord w).getD 1 0) C.Ci, ∀ κ, InBounds κ C.W.k →
        z.val (k :: c :: κ) = torchConvGradW C.W 1 C.Ci C.Co s X Y
          ((startIdx (C.Pw.shape.getD 0 0) ((C.Pw.coord w).getD 0 0) C.Co + k) ::
            (startIdx (C.Pw.shape.getD 1 0) ((C.Pw.coord w).getD 1 0) C.Ci + c) :: κ)) ∧
    (C.useBias = true → ∀ w ∈ C.Pw.members, (C.Pw.coord w).getD 1 0 = 0 → ∃ z, gr w 1 = some z ∧
      z.shape = (bias w).shape ∧ ∀ k < subsize (C.Pw.shape.getD 0 0) ((C.Pw.coord w).getD 0 0) C.Co,
        z.val [k] = torchConvGradB C.W C.Co s Y [startIdx (C.Pw.shape.getD 0 0) ((C.Pw.coord w).getD 0 0) C.Co + k]) ∧
    ∀ w i z, gr w i = some z → w ∈ C.Pw.members ∧ (i = 0 ∨ i = 1 ∧ C.useBias = true ∧ (C.Pw.coord w).getD 1 0 = 0)
  | .gen _ _ _ _ _ C weight bias _ _ _ _, (s, X), Y, gr =>
    (∀ w ∈ C.Pw.members, (∀ i ∈ (C.Pw.coord w).drop 2, i = 0) → ∃ z, gr w 0 = some z ∧ z.shape = (weight w).shape ∧
      ∀ k < subsize (C.Pw.shape.getD 0 0) ((C.Pw.coord w).getD 0 0) C.Co,
      ∀ c < subsize (C.Pw.shape.getD 1 0) ((C.Pw.coord w).getD 1 0) C.Ci, ∀ κ, InBounds κ C.W.k →
        z.val (k :: c :: κ) = torchConvGradW C.W 1 C.Ci C.Co s X Y
          ((startIdx (C.Pw.shape.getD 0 0) ((C.Pw.coord w).getD 0 0) C.Co + k) ::
            (startIdx (C.Pw.shape.getD 1 0) ((C.Pw.coord w).getD 1 0) C.Ci + c) :: κ)) ∧
    (C.useBias = true → ∀ w ∈ C.Pw.members, (∀ i ∈ (C.Pw.coord w).drop 1, i = 0) → ∃ z, gr w 1 = some z ∧
      z.shape = (bias w).shape ∧ ∀ k < subsize (C.Pw.shape.getD 0 0) ((C.Pw.coord w).getD 0 0) C.Co,
        z.val [k] = torchConvGradB C.W C.Co s Y [startIdx (C.Pw.shape.getD 0 0) ((C.Pw.coord w).getD 0 0) C.Co + k]) ∧
    ∀ w i z, gr w i = some z → w ∈ C.Pw.members ∧
      (i = 0 ∧ ((∀ j ∈ (C.Pw.coord w).drop 2, j = 0) ∨ z.shape.prod = 0) ∨
        i = 1 ∧ C.useBias = true ∧ (C.Pw.coord w).getD 1 0 = 0 ∧
          ((∀ j ∈ (C.Pw.coord w).drop 1, j = 0) ∨ z.shape.prod = 0))
  | _, _, _, gr => ∀ w i, gr w i = none

/-- The sequential network. -/
def tseqNet (ls : List (TLayer F β)) (x : List Nat × (List Nat → F)) : List Nat × (List Nat → F) :=
  ls.foldl (fun x l => l.seq x) x

/-- The gradient of the input of the sequential network. -/
def tadjNet : List (TLayer F β) → List Nat × (List Nat → F) → (List Nat → F) → List Nat → F
  | [], _, Y => Y
  | l :: ls, x, Y => l.adj x (tadjNet ls (l.seq x) Y)

/-- The gradients of all parameters. -/
def NetGrads : Cart → List (TLayer F β) → List Nat × (List Nat → F) → (List Nat → F) →
    List (Nat → Nat → Option (Tensor F)) → Prop
  | _, [], _, _, grs => grs = []
  | P, l :: ls, x, Y, grs => ∃ gr grs', grs = gr :: grs' ∧ l.Grads P x (tadjNet ls (l.seq x) Y) gr ∧
    NetGrads (l.out P) ls (l.seq x) Y grs'

/-! ## What the layers ask of their callers -/

/-- A layer may follow with its input cut as `L` on `P`; its output is cut as the last argument says. -/
inductive TFits (W : List Nat) : Cart → Layout → TLayer F β → Layout → Prop
  | map {P L} (f df : F → F) : TFits W P L (.map f df) L
  | conv {P L} (c cw cb : Nat) (C : ConvLayer F) (rgw : Bool) (B : Bufs β) {nd : Nat} {pk ps pp pd : List Nat}
      (hC : winParams nd pk ps pp pd = some C.W) (hD : P.shape.length = nd + 2)
      (hch : P.shape.getD 1 0 = 1) (hroot : ∃ ρ, P.root = some ρ)
      (hgr : 0 < C.groups ∧ C.groups ∣ C.Ci ∧ C.groups ∣ C.Co) (hpos : 0 < C.Ci ∧ 0 < C.Co)
      (hCi : L.global.getD 1 0 = C.Ci)
      (hfit : P.members.length = 1 → ∀ j, j < nd →
        C.W.d.getD j 0 * (C.W.k.getD j 0 - 1) + 1 ≤ L.global.getD (j + 2) 0 + 2 * C.W.p.getD j 0)
      (hl : P.members.length ≠ 1 → WinLimits P C.W L) :
      TFits W P L (.conv c cw cb C rgw B) (Layout.balanced P.shape (torchConvShape C.W C.Co L.global))
  | avg {P L} (c : Nat) (Q : WinParams) (B : Bufs β) {nd : Nat} {pk ps pp pd : List Nat}
      (hQ : poolParams true nd pk ps pp pd = some Q) (hD : P.shape.length = nd + 2) (hl : WinLimits P Q L) :
      TFits W P L (.avg c Q B) (Layout.balanced P.shape (torchPoolShape Q L.global))
  | flat {P L} {a b k : Nat} (hs : P.shape = a :: b :: List.replicate k 1) : TFits W P L .flat (flatLayout L)
  | rep {P L} (c : Nat) (Py : Cart) (pb : Bool) (B : Bufs β) (wf : Py.WF) (dims : Py.shape.length = P.shape.length)
      (pos : P.shape ≠ []) (ones : ∀ d, L.global.getD d 0 = 1 → Py.shape.getD d 0 = 1) (hW : ∀ w ∈ Py.members, w ∈ W) :
      TFits W P L (.rep c Py pb B) (Layout.balanced Py.shape L.global)
  | lin {Po Pi b : Nat} (c cy : Nat) (A : LinearLayer F) (rgp : Bool) (weight bias : List Nat → F)
      (hv : LinearValid A Po Pi) (hp : ParamBlocks A Po Pi weight bias) (hw : ∀ w ∈ A.Pw.members, w ∈ W)
      (hy : ∀ w ∈ A.Py.members, w ∈ W) :
      TFits W A.Px (Layout.balanced [1, Pi] [b, A.inFeatures]) (.lin c cy A rgp weight bias)
        (Layout.balanced [1, Po] [b, A.outFeatures])
  | chan {Po Pi : Nat} {Sp : List Nat} {B : Nat} {N : List Nat} (c cy : Nat) (C : ChanConv) (weight bias : Nat → Tensor F)
      (rgp : Bool) (Wt bi : List Nat → F) (hv : ChanValid C Po Pi Sp) (h1 : ∀ n ∈ Sp, n = 1)
      (hSp : Sp.length = C.W.k.length) (hN : N.length = C.W.k.length) (hg : C.groups = 1)
      (hfit : ∀ j, j < C.W.k.length →
        C.W.d.getD j 0 * (C.W.k.getD j 0 - 1) + 1 ≤ N.getD j 0 + 2 * C.W.p.getD j 0)
      (hp : ChanParams C Po Pi (fun w => (weight w).val) (fun w => (bias w).val) Wt bi)
      (place : C.Pw.members.length = 1 → C.Px.members = C.Pw.members ∧ C.Py.members = C.Pw.members)
      (hw : ∀ w ∈ C.Pw.members, w ∈ W) (hy : ∀ w ∈ C.Py.members, w ∈ W) :
      TFits W C.Px (Layout.balanced C.Px.shape (B :: C.Ci :: N)) (.chan c cy C weight bias rgp Wt bi)
        (Layout.balanced C.Py.shape (torchConvShape C.W C.Co (B :: C.Ci :: N)))
  | gen {Po Pi : Nat} {Sp : List Nat} {B : Nat} {N : List Nat} {L : Layout} (c cw cb cx cy : Nat) (C : ChanConv)
      (weight bias : Nat → Tensor F) (rgp : Bool) (Bf : Bufs β) (Wt bi : List Nat → F) {nd : Nat} {pk ps pp pd : List Nat}
      (hW : winParams nd pk ps pp pd = some C.W) (hv : ChanValid C Po Pi Sp) (hSp : Sp.length = nd) (hg : C.groups = 1)
      (hG : L.global = B :: C.Ci :: N)
      (hfit : C.Pw.members.length = 1 → ∀ j, j < nd →
        C.W.d.getD j 0 * (C.W.k.getD j 0 - 1) + 1 ≤ N.getD j 0 + 2 * C.W.p.getD j 0)
      (hl : C.Pw.members.length ≠ 1 → WinLimits C.Px C.W L) (hp : StoredParams C Po Pi weight bias Wt bi)
      (place : C.Pw.members.length = 1 → C.Px.members = C.Pw.members ∧ C.Py.members = C.Pw.members)
      (hw : ∀ w ∈ C.Pw.members, w ∈ W) (hy : ∀ w ∈ C.Py.members, w ∈ W) :
      TFits W C.Px L (.gen c cw cb cx cy C weight bias rgp Bf Wt bi)
        (Layout.balanced C.Py.shape (torchConvShape C.W C.Co L.global))

/-- The layers of a network may follow each other. -/
inductive TNetFits (W : List Nat) : Cart → Layout → List (TLayer F β) → Cart → Layout → Prop
  | nil {P L} : TNetFits W P L [] P L
  | cons {P L L' P'' L''} {l : TLayer F β} {ls : List (TLayer F β)} (h : TFits W P L l L')
      (hs : TNetFits W (l.out P) L' ls P'' L'') : TNetFits W P L (l :: ls) P'' L''

/-! ## One layer -/

variable {W : List Nat} {P P' : Cart} {L L' : Layout} {s : List Nat} {l : TLayer F β} {ls : List (TLayer F β)} {t : TorchDtype}
  {X Y : List Nat → F}

theorem TFits.placed (h : TFits W P L l L') (hp : Placed W P L s) (x : List Nat → F) :
    Placed W (l.out P) L' (l.seq (s, x)).1 := by
  obtain ⟨wf, lay, sub, glob⟩ := hp
  have hlen : L.global.length = P.shape.length := by rw [L.length_global, ← L.length_pshape, lay]
  subst glob
  cases h with
  | map f => exact ⟨wf, lay, sub, rfl⟩
  | conv c cw cb C rgw B hC hD =>
    exact placed_balanced wf sub (hD.trans (length_convShape C.W C.Co (hlen.trans hD)).symm)
  | avg c Q B hQ hD => exact placed_balanced wf sub (pool_length lay hD)
  | @flat _ _ a b k hs =>
    have e2 : P.shape.take 2 = [a, b] := by rw [hs]; rfl
    refine ⟨⟨wf.nodup, ?_, fun n hn => wf.pos n (List.mem_of_mem_take hn)⟩, ?_, sub, ?_⟩
    · show P.members.length = (P.shape.take 2).prod
      rw [wf.size, e2, hs]
      simp
    · rw [hs] at lay
      show (flatLayout L).pshape = P.shape.take 2
      rw [e2]
      match L, lay with
      | bs :: cs :: Lr, lay =>
        obtain ⟨h1, h2⟩ := List.cons.inj lay
        obtain ⟨h2, h3⟩ := List.cons.inj h2
        simp only [flatLayout, Layout.pshape, List.map_cons, List.map_nil, List.length_map, h1, h2]
    · rw [hs] at lay
      match L, lay with
      | bs :: cs :: Lr, lay =>
        simp only [flatLayout, Layout.global, List.map_cons, List.map_nil, TLayer.seq, List.headD_cons, List.tail_cons,
          List.prod_cons, List.sum_map_mul_right, List.map_id']
  | rep c Py pb B hw dims pos ones hW => exact placed_balanced hw hW (dims.trans hlen.symm)
  | @lin Po Pi b c cy A rgp weight bias hv hp hw hy =>
    have e : (Layout.balanced [1, Pi] [b, A.inFeatures]).global = [b, A.inFeatures] :=
      Layout.balanced_global rfl fun n hn => wf.pos n (hv.shx ▸ hn)
    have := placed_balanced (s' := [b, A.outFeatures]) hv.wfy hy (by rw [hv.shy]; rfl)
    rw [hv.shy] at this
    rw [e]
    exact this
  | chan c cy C weight bias rgp Wt bi hv h1 hSp hN hg hfit hp place hw hy =>
    rw [Layout.balanced_global (by rw [hv.shx]; simp [hSp, hN]) hv.wfx.pos]
    exact placed_balanced hv.wfy hy (conv_out_len hv hSp hN)
  | @gen Po Pi Sp B N _ c cw cb cx cy C weight bias rgp Bf Wt bi nd _ _ _ _ hW hv hSp hg hG hfit hl hp place hw hy =>
    have hkn : C.W.k.length = nd := (winParams_length hW).1
    rw [hG] at hlen ⊢
    refine placed_balanced hv.wfy hy (conv_out_len hv (hSp.trans hkn.symm) ?_)
    rw [hv.shx] at hlen
    simp at hlen
    omega

theorem TFits.realises (h : TFits W P L l L') (hp : Placed W P L s) :
    Realises W (l.cuts P).flatten (Holds W P L t X) (Holds W (l.out P) L' t (l.seq (s, X)).2) := by
  obtain ⟨wf, lay, sub, glob⟩ := hp
  subst glob
  intro S hS
  cases h with
  | map f df =>
    show ProgOK W [mapProg f].flatten S ∧ _
    rw [List.flatten_singleton]
    exact map_run f hS
  | conv c cw cb C rgw B hC hD hch hroot hgr hpos hCi hfit hl =>
    show ProgOK W (convCuts c cw cb P C rgw B).flatten S ∧ Holds W P _ t _ (run (convCuts c cw cb P C rgw B).flatten S)
    rw [convCuts_flatten]
    exact conv_run c cw cb C rgw B hC hD hch hroot hgr hpos hCi hfit hl wf lay sub hS
  | avg c Q B hQ hD hl =>
    show ProgOK W (avgCuts c P Q B).flatten S ∧ Holds W P _ t _ (run (avgCuts c P Q B).flatten S)
    rw [avgCuts_flatten]
    exact avg_run c B hQ hD wf lay hl sub hS
  | flat hs =>
    show ProgOK W [flatProg P].flatten S ∧ Holds W (flatCart P) _ t _ (run [flatProg P].flatten S)
    rw [List.flatten_singleton]
    exact flat_run wf hs lay hS
  | rep c Py pb B hw dims pos ones hW =>
    show ProgOK W (repCuts c P Py pb B).flatten S ∧ Holds W Py _ t _ (run (repCuts c P Py pb B).flatten S)
    rw [repCuts_flatten]
    exact rep_run c pb B ⟨wf, hw, lay, dims, pos, ones⟩ sub hW hS
  | lin c cy A rgp weight bias hv hp hw hy =>
    show ProgOK W (linCuts c cy A rgp).flatten S ∧ Holds W A.Py _ t _ (run (linCuts c cy A rgp).flatten S)
    rw [linCuts_flatten]
    exact linear_run c cy rgp hv hp sub hw hy hS
  | chan c cy C weight bias rgp Wt bi hv h1 hSp hN hg hfit hp place hw hy =>
    rw [Layout.balanced_global (by rw [hv.shx]; simp [hSp, hN]) hv.wfx.pos]
    show ProgOK W (chanCuts c cy C _ _ rgp).flatten S ∧ Holds W C.Py _ t _ (run (chanCuts c cy C _ _ rgp).flatten S)
    rw [chanCuts_flatten]
    exact chan_run c cy rgp hv h1 hSp hN hg hfit hp place sub hw hy hS
  | gen c cw cb cx cy C weight bias rgp Bf Wt bi hW hv hSp hg hG hfit hl hp place hw hy =>
    rw [hG]
    show ProgOK W (genCuts c cw cb cx cy C weight bias rgp Bf).flatten S ∧
      Holds W C.Py _ t _ (run (genCuts c cw cb cx cy C weight bias rgp Bf).flatten S)
    rw [genCuts_flatten]
    exact gen_run c cw cb cx cy rgp Bf hW hv hSp hg lay hG hfit hl hp place sub hw hy hS

/-- The adjoint of a layer. -/
theorem TFits.adjoint (h : TFits W P L l L') (hp : Placed W P L s) {S G : Nat → NSt F} {T : Nat → List (NSt F)}
    (hS : Holds W P L t X S) (hG : HoldsG W (l.out P) L' t Y G)
    (hT : ∀ w ∈ W, ∃ rest, T w = snaps (l.cuts P) S w ++ rest) :
    ProgOK W ((l.adjProg P).at T) G ∧ HoldsG W P L t (l.adj (s, X) Y) (run ((l.adjProg P).at T) G) ∧
    l.Grads P (s, X) Y fun w i => if l.has P w i then some ((run ((l.adjProg P).at T) G w).par i).1 else none := by
  obtain ⟨wf, lay, sub, glob⟩ := hp
  subst glob
  cases h with
  | map f df =>
    obtain ⟨a, b⟩ := mapBack_run f df hS hG hT sub
    exact ⟨a, b, fun _ _ => rfl⟩
  | conv c cw cb C rgw B hC hD hch hroot hgr hpos hCi hfit hl =>
    obtain ⟨a, b, ⟨g1, g2⟩, g3, g4⟩ := convBack_run c cw cb C rgw B hC hD hch hroot hgr hCi hl wf lay sub hS hG hT
    have hm0 : P.members.getD 0 0 ∈ P.members := by
      obtain ⟨w0, -, hm0⟩ := wf.head
      exact getD_mem (List.length_pos_of_mem hm0)
    rw [← List.contains_iff_mem] at hm0
    refine ⟨a, b, ⟨_, if_pos ?_, g1, g2⟩, fun bi hb => ?_, fun w i z hz => ?_⟩
    · show (P.members.contains (P.members.getD 0 0) && _) = true
      rw [hm0]
      rfl
    · obtain ⟨q1, q2⟩ := g3 bi hb
      refine ⟨_, if_pos ?_, q1, q2⟩
      show (P.members.contains (P.members.getD 0 0) && (_ || (_ && C.bias.isSome))) = true
      rw [hm0, hb]
      rfl
    · dsimp only at hz
      split at hz
      · next hh =>
        simp only [TLayer.has, Bool.and_eq_true, List.contains_iff_mem, Bool.or_eq_true, beq_iff_eq] at hh
        cases hz
        refine ⟨hh.1, hh.2, fun hne => ?_⟩
        obtain ⟨q1, q2⟩ := g4 w hh.1 hne
        rcases hh.2 with rfl | ⟨rfl, hb⟩
        · exact q1
        · exact q2 hb
      · cases hz
  | avg c Q B hQ hD hl =>
    obtain ⟨a, b⟩ := avgBack_run c B hQ hD wf lay hl sub hS hG hT
    exact ⟨a, b, fun _ _ => rfl⟩
  | flat hs =>
    obtain ⟨a, b⟩ := flatBack_run wf hs lay hS hG hT sub
    exact ⟨a, b, fun _ _ => rfl⟩
  | rep c Py pb B hw dims pos ones hW =>
    obtain ⟨a, b⟩ := repBack_run c pb B ⟨wf, hw, lay, dims, pos, ones⟩ sub hW hS hG hT
    exact ⟨a, b, fun _ _ => rfl⟩
  | @lin Po Pi b c cy A rgp weight bias hv hp hw hy =>
    obtain ⟨a, q, g⟩ := linBack_run c cy rgp hv hp sub hw hy hS hG hT
    have e : (Layout.balanced [1, Pi] [b, A.inFeatures]).global = [b, A.inFeatures] :=
      Layout.balanced_global rfl fun n hn => wf.pos n (hv.shx ▸ hn)
    refine ⟨a, q, fun w hw' => ?_, fun hu w hw' h0 => ?_, fun w i z hz => ?_⟩
    · obtain ⟨g1, g2, -⟩ := g w hw'
      refine ⟨_, if_pos (by simp [TLayer.has, hw']), ?_, fun l hl => ?_⟩
      · rw [hv.shw]
        exact g1
      · rw [e, hv.shw]
        exact g2 l (g1 ▸ hl)
    · obtain ⟨-, -, g3, g4⟩ := g w hw'
      refine ⟨_, if_pos (by simp [TLayer.has, hw', (hv.localBias hw').2 ⟨h0, hu⟩]), ?_, fun k hk => ?_⟩
      · rw [hv.shw]
        exact g3
      · rw [e, hv.shw]
        have hk : InBounds [k] ((run ((linBack c cy A).at T) G w).par 1).1.shape := hk
        rw [g3] at hk
        exact g4 k hk.1
    · dsimp only at hz
      split at hz
      · next hh =>
        simp only [TLayer.has, Bool.and_eq_true, List.contains_iff_mem, Bool.or_eq_true, beq_iff_eq] at hh
        refine ⟨hh.1, hh.2.imp_right fun h2 => ⟨h2.1, ?_⟩⟩
        exact ((hv.localBias hh.1).1 h2.2).symm
      · cases hz
  | @chan Po Pi Sp B N c cy C weight bias rgp Wt bi hv h1 hSp hN hg hfit hp place hw hy =>
    rw [Layout.balanced_global (by rw [hv.shx]; simp [hSp, hN]) hv.wfx.pos]
    obtain ⟨a, q, g1, g2⟩ := chanBack_run c cy rgp hv h1 hSp hN hg hfit hp place sub hw hy hS hG hT
    have e0 : C.Pw.shape.getD 0 0 = Po := by rw [hv.shw]; rfl
    have e1 : C.Pw.shape.getD 1 0 = Pi := by rw [hv.shw]; rfl
    refine ⟨a, q, fun w hw' => ?_, fun hu w hw' h0 => ?_, fun w i z hz => ?_⟩
    · rw [e0, e1]
      exact ⟨_, if_pos (by simp [TLayer.has, hw']), g1 w hw'⟩
    · rw [e0]
      exact ⟨_, if_pos (by simpa [TLayer.has, hw', ChanConv.addsBias, hu] using h0), g2 hu w hw' h0⟩
    · dsimp only at hz
      split at hz
      · next hh =>
        simp only [TLayer.has, ChanConv.addsBias, Bool.and_eq_true, List.contains_iff_mem, Bool.or_eq_true, beq_iff_eq] at hh
        exact ⟨hh.1, hh.2.imp_right fun h2 => ⟨h2.1, h2.2.2, h2.2.1⟩⟩
      · cases hz
  | @gen Po Pi Sp B N _ c cw cb cx cy C weight bias rgp Bf Wt bi nd _ _ _ _ hW hv hSp hg hGl hfit hl hp place hw hy =>
    rw [hGl] at hG ⊢
    obtain ⟨a, q, g1, g2, g3⟩ := genBack_run c cw cb cx cy rgp Bf hW hv hSp hg lay hGl hfit hl hp place sub hw hy hS hG hT
    have e0 : C.Pw.shape.getD 0 0 = Po := by rw [hv.shw]; rfl
    have e1 : C.Pw.shape.getD 1 0 = Pi := by rw [hv.shw]; rfl
    refine ⟨a, q, fun w hw' hz => ?_, fun hu w hw' h0 => ?_, fun w i z hz => ?_⟩
    · rw [e0, e1]
      exact ⟨_, if_pos (by simp [TLayer.has, hw']), g1 w hw' hz⟩
    · rw [e0]
      refine ⟨_, if_pos ?_, g2 hu w hw' h0⟩
      have : (C.Pw.coord w).getD 1 0 = 0 := by
        rcases h : C.Pw.coord w with _ | ⟨i, _ | ⟨j, l⟩⟩
        · rfl
        · rfl
        · exact h0 j (by rw [h]; simp)
      show (C.Pw.members.contains w && (_ || (_ && ((C.Pw.coord w).getD 1 0 == 0 && C.useBias)))) = true
      rw [List.contains_iff_mem.2 hw', this, hu]
      rfl
    · dsimp only at hz
      split at hz
      · next hh =>
        simp only [TLayer.has, ChanConv.addsBias, Bool.and_eq_true, List.contains_iff_mem, Bool.or_eq_true, beq_iff_eq] at hh
        cases hz
        obtain ⟨q1, q2⟩ := g3 w hh.1
        refine ⟨hh.1, ?_⟩
        rcases hh.2 with rfl | ⟨rfl, h2, h3⟩
        · exact .inl ⟨rfl, or_iff_not_imp_left.2 q1⟩
        · exact .inr ⟨rfl, h3, h2, or_iff_not_imp_left.2 (q2 h3 h2)⟩
      · cases hz

/-- The backward pass of a layer. -/
theorem TFits.back (h : TFits W P L l L') (hp : Placed W P L s) {S : Nat → NSt F} {B : Nat → BSt F}
    (hS : Holds W P L t X S) (hG : HoldsG W (l.out P) L' t Y fun w => (B w).s) {rest : Nat → List (NSt F)}
    (hT : ∀ w ∈ W, (B w).tape = snaps (l.cuts P) S w ++ rest w) :
    ProgOK W (l.back P) B ∧ HoldsG W P L t (l.adj (s, X) Y) (fun w => (run (l.back P) B w).s) ∧
    (∀ w ∈ W, (run (l.back P) B w).tape = rest w) ∧
    ∃ gr, l.Grads P (s, X) Y gr ∧ ∀ w, (run (l.back P) B w).grads = gr w :: (B w).grads := by
  obtain ⟨a1, a2, a3⟩ := h.adjoint hp (T := fun w => (B w).tape) hS hG fun w hw => ⟨_, hT w hw⟩
  obtain ⟨b1, b2⟩ := back_run (l.adjProg P) (l.cuts P).length (l.has P) B a1
  refine ⟨b1, ?_, fun w hw => ?_, _, a3, fun w => ?_⟩
  · have e : (fun w => (run (l.back P) B w).s) = run ((l.adjProg P).at fun w => (B w).tape) fun w => (B w).s := by
      funext w
      unfold TLayer.back
      rw [b2 w]
    rw [e]
    exact a2
  · unfold TLayer.back
    rw [b2 w]
    show (B w).tape.drop _ = _
    rw [hT w hw, List.drop_append_of_le_length (by rw [length_snaps]), List.drop_of_length_le (by rw [length_snaps]),
      List.nil_append]
  · unfold TLayer.back
    rw [b2 w]

/-! ## All layers -/

theorem TNetFits.forward (h : TNetFits W P L ls P' L') : ∀ {s : List Nat} {X : List Nat → F}, Placed W P L s →
    Placed W P' L' (tseqNet ls (s, X)).1 ∧
    Realises W (netCuts P ls).flatten (Holds W P L t X) (Holds W P' L' t (tseqNet ls (s, X)).2) := by
  induction h with
  | nil => exact fun hp => ⟨hp, Realises.nil _⟩
  | @cons P L L' P'' L'' l ls h hs ih =>
    intro s X hp
    obtain ⟨h1, h2⟩ := ih (X := (l.seq (s, X)).2) (h.placed hp X)
    refine ⟨h1, ?_⟩
    show Realises W (l.cuts P ++ netCuts (l.out P) ls).flatten _ _
    rw [List.flatten_append]
    exact (h.realises hp).seq h2

theorem TNetFits.backward (h : TNetFits W P L ls P' L') : ∀ {s : List Nat} {X : List Nat → F} {S : Nat → NSt F}
    {B : Nat → BSt F} {rest : Nat → List (NSt F)}, Placed W P L s → Holds W P L t X S →
    HoldsG W P' L' t Y (fun w => (B w).s) → (∀ w ∈ W, (B w).tape = snaps (netCuts P ls) S w ++ rest w) →
    ProgOK W (netBack P ls) B ∧ HoldsG W P L t (tadjNet ls (s, X) Y) (fun w => (run (netBack P ls) B w).s) ∧
    (∀ w ∈ W, (run (netBack P ls) B w).tape = rest w) ∧
    ∃ grs, NetGrads P ls (s, X) Y grs ∧ ∀ w, (run (netBack P ls) B w).grads = grs.map (fun gr => gr w) ++ (B w).grads := by
  induction h with
  | nil =>
    intro s X S B rest _ _ hG hT
    exact ⟨trivial, hG, fun w hw => hT w hw, [], rfl, fun _ => rfl⟩
  | @cons P L L' P'' L'' l ls h hs ih =>
    intro s X S B rest hp hS hG hT
    have hS' := (h.realises (t := t) (X := X) hp S hS).2
    obtain ⟨a1, a2, a3, grs, a4, a5⟩ := ih (s := (l.seq (s, X)).1) (B := B) (rest := fun w => snaps (l.cuts P) S w ++ rest w)
      (h.placed hp X) hS' hG fun w hw => by
        rw [hT w hw]
        show snaps (l.cuts P ++ netCuts (l.out P) ls) S w ++ _ = _
        rw [snaps_append, List.append_assoc]
    obtain ⟨b1, b2, b3, gr, b4, b5⟩ := h.back hp (B := run (netBack (l.out P) ls) B) hS a2 a3
    have hrun : run (netBack P (l :: ls)) B = run (l.back P) (run (netBack (l.out P) ls) B) := run_append ..
    refine ⟨progOK_append.2 ⟨a1, b1⟩, ?_, fun w hw => ?_, gr :: grs, ⟨gr, grs, rfl, b4, a4⟩, fun w => ?_⟩
    · rw [hrun]
      exact b2
    · rw [hrun]
      exact b3 w hw
    · rw [hrun, b5 w, a5 w]
      rfl

/-- The whole step. -/
theorem TNetFits.train (h : TNetFits W P L ls P' L') {S : Nat → NSt F} {seed : Nat → Tensor F → Tensor F}
    (hp : Placed W P L s) (hS : Holds W P L t X S)
    (hseed : ∀ Z, Holds W P' L' t (tseqNet ls (s, X)).2 Z → HoldsG W P' L' t Y fun w => { Z w with t := seed w (Z w).t }) :
    ProgOK W (trainProg P ls seed) (fun w => ⟨S w, [], []⟩) ∧
    HoldsG W P L t (tadjNet ls (s, X) Y) (fun w => (run (trainProg P ls seed) (fun w => ⟨S w, [], []⟩) w).s) ∧
    ∃ grs, NetGrads P ls (s, X) Y grs ∧
      ∀ w, (run (trainProg P ls seed) (fun w => ⟨S w, [], []⟩) w).grads = grs.map fun gr => gr w := by
  obtain ⟨-, hr⟩ := h.forward (t := t) (X := X) hp
  obtain ⟨o1, hH⟩ := hr S hS
  obtain ⟨o2, r2⟩ := tape_run (netCuts P ls) (fun w => (⟨S w, [], []⟩ : BSt F)) o1
  generalize hB : run (tapeProg (netCuts P ls)) (fun w => (⟨S w, [], []⟩ : BSt F)) = B at r2
  obtain ⟨a1, a2, -, grs, a4, a5⟩ := h.backward (B := sync (seedPhase seed) B) (rest := fun _ => []) hp hS (by
      have := hseed _ hH
      have e : (fun w => (sync (seedPhase seed) B w).s) = fun w => { run (netCuts P ls).flatten S w with
          t := seed w (run (netCuts P ls).flatten S w).t } := by
        funext w
        show ({ (B w).s with t := seed w (B w).s.t } : NSt F) = _
        rw [r2 w]
      rw [e]
      exact this) fun w hw => by
        show (B w).tape = _
        rw [r2 w]
  have hrun : run (trainProg P ls seed) (fun w => (⟨S w, [], []⟩ : BSt F)) = run (netBack P ls) (sync (seedPhase seed) B) := by
    unfold trainProg
    rw [run_append, hB]
    rfl
  refine ⟨progOK_append.2 ⟨o2, ?_⟩, ?_, grs, a4, fun w => ?_⟩
  · rw [hB]
    exact ⟨localPhase_ok _, a1⟩
  · rw [hrun]
    exact a2
  · rw [hrun, a5 w]
    show _ ++ (B w).grads = _
    rw [r2 w, List.append_nil]

end

end Verif.Net
