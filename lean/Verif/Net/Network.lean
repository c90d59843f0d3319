import Verif.Net.Dense
import Verif.Net.Chan

/-!
# Networks: the layers of a network, one after another

A user's network calls its layers one after another (`torch.nn.Sequential`); no worker waits for the others between
two layers.
-/

namespace Verif.Net

variable {F β : Type}

/-- A layer of a network, with the channels of its communicators.  Different layers may use the same channels or
different ones. -/
inductive Layer (F β : Type) where
  /-- an entrywise function -/
  | map (f : F → F)
  /-- `nn/conv_feature.py` -/
  | conv (c cw cb : Nat) (C : ConvLayer F) (rgw : Bool) (B : Bufs β)
  /-- `nn/pooling.py` -/
  | avg (c : Nat) (Q : WinParams) (B : Bufs β)
  /-- `nn/pooling.py` -/
  | max (c : Nat) (Q : WinParams) (B : Bufs β)
  /-- `x.reshape(x.shape[0], -1)` -/
  | flat
  /-- `nn/repartition.py` -/
  | rep (c : Nat) (Py : Cart) (pb : Bool) (B : Bufs β)
  /-- `nn/linear.py`; `weight`, `bias` are the global parameters whose blocks the workers store -/
  | lin (c cy : Nat) (A : LinearLayer F) (rgp : Bool) (weight bias : List Nat → F)
  /-- `nn/conv_channel.py`; `Wt`, `bi` are the global parameters whose blocks the workers store -/
  | chan (c cy : Nat) (C : ChanConv) (weight bias : Nat → List Nat → F) (rgp : Bool) (Wt bi : List Nat → F)
  /-- `nn/conv_general.py`; `Wt`, `bi` are the global parameters whose blocks the workers store -/
  | gen (c cw cb cx cy : Nat) (C : ChanConv) (weight bias : Nat → Tensor F) (rgp : Bool) (B : Bufs β)
    (Wt bi : List Nat → F)

section
variable [AddCommMonoid F] [Mul F] [Div F] [NatCast F] [SemilatticeSup F] [OrderBot F]

/-- The program of a layer whose input lies on `P`. -/
def Layer.prog (P : Cart) : Layer F β → Prog (NSt F) (NMsg F)
  | .map f => mapProg f
  | .conv c cw cb C rgw B => convProg c cw cb P C rgw B
  | .avg c Q B => avgProg c P Q B
  | .max c Q B => maxProg c P Q B
  | .flat => flatProg P
  | .rep c Py pb B => repProg c P Py pb B
  | .lin c cy A rgp _ _ => linProg c cy A rgp
  | .chan c cy C weight bias rgp _ _ => chanProg c cy C weight bias rgp
  | .gen c cw cb cx cy C weight bias rgp B _ _ => genProg c cw cb cx cy C weight bias rgp B

/-- The partition of its output. -/
def Layer.out (P : Cart) : Layer F β → Cart
  | .flat => flatCart P
  | .rep _ Py _ _ => Py
  | .lin _ _ A _ _ _ => A.Py
  | .chan _ _ C _ _ _ _ _ => C.Py
  | .gen _ _ _ _ _ C _ _ _ _ _ _ => C.Py
  | _ => P

/-- The program of a network. -/
def netProg (P : Cart) : List (Layer F β) → Prog (NSt F) (NMsg F)
  | [] => []
  | l :: ls => l.prog P ++ netProg (l.out P) ls

/-! ## Specification: the sequential network -/

/-- Shape and entries of the sequential result of a layer. -/
def Layer.seq : Layer F β → List Nat × (List Nat → F) → List Nat × (List Nat → F)
  | .map f, (s, X) => (s, fun i => f (X i))
  | .conv _ _ _ C _ _, (s, X) =>
    (torchConvShape C.W C.Co s, torchConv C.W C.groups C.Ci C.Co C.weight.val (biasOf C.bias) s X)
  | .avg _ Q _, (s, X) => (torchPoolShape Q s, torchAvgPool Q s X)
  | .max _ Q _, (s, X) => (torchPoolShape Q s, torchMaxPool Q s X)
  | .flat, (s, X) => ([s.headD 0, s.tail.prod], flatOp s X)
  | .rep _ _ _ _, x => x
  | .lin _ _ A _ weight bias, (s, X) =>
    ([s.headD 0, A.outFeatures], denseOp A.inFeatures A.useBias weight bias X)
  | .chan _ _ C _ _ _ Wt bi, (s, X) =>
    (torchConvShape C.W C.Co s, torchConv C.W 1 C.Ci C.Co Wt (fun c => if C.useBias then bi [c] else 0) s X)
  | .gen _ _ _ _ _ C _ _ _ _ Wt bi, (s, X) =>
    (torchConvShape C.W C.Co s, torchConv C.W 1 C.Ci C.Co Wt (fun c => if C.useBias then bi [c] else 0) s X)

/-- The sequential network. -/
def seqNet (ls : List (Layer F β)) (x : List Nat × (List Nat → F)) : List Nat × (List Nat → F) :=
  ls.foldl (fun x l => l.seq x) x

/-! ## What the layers ask of their callers -/

/-- A layer may follow with its input cut as `L` on `P`; its output is cut as the last argument says. -/
inductive Fits (W : List Nat) : Cart → Layout → Layer F β → Layout → Prop
  | map {P L} (f : F → F) : Fits W P L (.map f) L
  | conv {P L} (c cw cb : Nat) (C : ConvLayer F) (rgw : Bool) (B : Bufs β) {nd : Nat} {pk ps pp pd : List Nat}
      (hC : winParams nd pk ps pp pd = some C.W) (hD : P.shape.length = nd + 2)
      (hch : P.shape.getD 1 0 = 1) (hroot : ∃ ρ, P.root = some ρ)
      (hgr : 0 < C.groups ∧ C.groups ∣ C.Ci ∧ C.groups ∣ C.Co) (hpos : 0 < C.Ci ∧ 0 < C.Co)
      (hCi : L.global.getD 1 0 = C.Ci)
      (hfit : P.members.length = 1 → ∀ j, j < nd →
        C.W.d.getD j 0 * (C.W.k.getD j 0 - 1) + 1 ≤ L.global.getD (j + 2) 0 + 2 * C.W.p.getD j 0)
      (hl : P.members.length ≠ 1 → WinLimits P C.W L) :
      Fits W P L (.conv c cw cb C rgw B) (Layout.balanced P.shape (torchConvShape C.W C.Co L.global))
  | avg {P L} (c : Nat) (Q : WinParams) (B : Bufs β) {nd : Nat} {pk ps pp pd : List Nat}
      (hQ : poolParams true nd pk ps pp pd = some Q) (hD : P.shape.length = nd + 2) (hl : WinLimits P Q L) :
      Fits W P L (.avg c Q B) (Layout.balanced P.shape (torchPoolShape Q L.global))
  | max {P L} (c : Nat) (Q : WinParams) (B : Bufs β) {nd : Nat} {pk ps pp pd : List Nat}
      (hQ : poolParams false nd pk ps pp pd = some Q) (hD : P.shape.length = nd + 2) (hl : WinLimits P Q L) :
      Fits W P L (.max c Q B) (Layout.balanced P.shape (torchPoolShape Q L.global))
  | flat {P L} {a b k : Nat} (hs : P.shape = a :: b :: List.replicate k 1) : Fits W P L .flat (flatLayout L)
  | rep {P L} (c : Nat) (Py : Cart) (pb : Bool) (B : Bufs β) (wf : Py.WF) (dims : Py.shape.length = P.shape.length)
      (pos : P.shape ≠ []) (ones : ∀ d, L.global.getD d 0 = 1 → Py.shape.getD d 0 = 1) (hW : ∀ w ∈ Py.members, w ∈ W) :
      Fits W P L (.rep c Py pb B) (Layout.balanced Py.shape L.global)
  | lin {Po Pi b : Nat} (c cy : Nat) (A : LinearLayer F) (rgp : Bool) (weight bias : List Nat → F)
      (hv : LinearValid A Po Pi) (hp : ParamBlocks A Po Pi weight bias) (hw : ∀ w ∈ A.Pw.members, w ∈ W)
      (hy : ∀ w ∈ A.Py.members, w ∈ W) :
      Fits W A.Px (Layout.balanced [1, Pi] [b, A.inFeatures]) (.lin c cy A rgp weight bias)
        (Layout.balanced [1, Po] [b, A.outFeatures])
  | chan {Po Pi : Nat} {Sp : List Nat} {B : Nat} {N : List Nat} (c cy : Nat) (C : ChanConv) (weight bias : Nat → List Nat → F)
      (rgp : Bool) (Wt bi : List Nat → F) (hv : ChanValid C Po Pi Sp) (h1 : ∀ n ∈ Sp, n = 1)
      (hSp : Sp.length = C.W.k.length) (hN : N.length = C.W.k.length) (hg : C.groups = 1)
      (hfit : ∀ j, j < C.W.k.length →
        C.W.d.getD j 0 * (C.W.k.getD j 0 - 1) + 1 ≤ N.getD j 0 + 2 * C.W.p.getD j 0)
      (hp : ChanParams C Po Pi weight bias Wt bi)
      (place : C.Pw.members.length = 1 → C.Px.members = C.Pw.members ∧ C.Py.members = C.Pw.members)
      (hw : ∀ w ∈ C.Pw.members, w ∈ W) (hy : ∀ w ∈ C.Py.members, w ∈ W) :
      Fits W C.Px (Layout.balanced C.Px.shape (B :: C.Ci :: N)) (.chan c cy C weight bias rgp Wt bi)
        (Layout.balanced C.Py.shape (torchConvShape C.W C.Co (B :: C.Ci :: N)))
  | gen {Po Pi : Nat} {Sp : List Nat} {B : Nat} {N : List Nat} {L : Layout} (c cw cb cx cy : Nat) (C : ChanConv)
      (weight bias : Nat → Tensor F) (rgp : Bool) (Bf : Bufs β) (Wt bi : List Nat → F) {nd : Nat} {pk ps pp pd : List Nat}
      (hW : winParams nd pk ps pp pd = some C.W) (hv : ChanValid C Po Pi Sp) (hSp : Sp.length = nd) (hg : C.groups = 1)
      (hG : L.global = B :: C.Ci :: N)
      (hfit : C.Pw.members.length = 1 → ∀ j, j < nd →
        C.W.d.getD j 0 * (C.W.k.getD j 0 - 1) + 1 ≤ N.getD j 0 + 2 * C.W.p.getD j 0)
      (hl : C.Pw.members.length ≠ 1 → WinLimits C.Px C.W L) (hp : StoredParams C Po Pi weight bias Wt bi)
      (place : C.Pw.members.length = 1 → C.Px.members = C.Pw.members ∧ C.Py.members = C.Pw.members)
      (hw : ∀ w ∈ C.Pw.members, w ∈ W) (hy : ∀ w ∈ C.Py.members, w ∈ W) :
      Fits W C.Px L (.gen c cw cb cx cy C weight bias rgp Bf Wt bi)
        (Layout.balanced C.Py.shape (torchConvShape C.W C.Co L.global))

/-- The layers of a network may follow each other. -/
inductive NetFits (W : List Nat) : Cart → Layout → List (Layer F β) → Cart → Layout → Prop
  | nil {P L} : NetFits W P L [] P L
  | cons {P L L' P'' L''} {l : Layer F β} {ls : List (Layer F β)} (h : Fits W P L l L')
      (hs : NetFits W (l.out P) L' ls P'' L'') : NetFits W P L (l :: ls) P'' L''

/-- A partition and the way a tensor of shape `s` is cut over it. -/
structure Placed (W : List Nat) (P : Cart) (L : Layout) (s : List Nat) : Prop where
  wf : P.WF
  layout : L.pshape = P.shape
  sub : ∀ w ∈ P.members, w ∈ W
  global : L.global = s

/-! ## One layer -/

variable {W : List Nat} {P P' : Cart} {L L' : Layout} {s : List Nat} {l : Layer F β} {ls : List (Layer F β)} {t : TorchDtype}
  {X : List Nat → F}

omit [AddCommMonoid F] [Mul F] [Div F] [NatCast F] [SemilatticeSup F] [OrderBot F] in
theorem placed_balanced {s' : List Nat} (wf : P.WF) (sub : ∀ w ∈ P.members, w ∈ W) (hl : P.shape.length = s'.length) :
    Placed W P (Layout.balanced P.shape s') s' :=
  ⟨wf, Layout.balanced_pshape hl, sub, Layout.balanced_global hl wf.pos⟩

theorem Fits.placed (h : Fits W P L l L') (hp : Placed W P L s) (x : List Nat → F) :
    Placed W (l.out P) L' (l.seq (s, x)).1 := by
  obtain ⟨wf, lay, sub, glob⟩ := hp
  have hlen : L.global.length = P.shape.length := by rw [L.length_global, ← L.length_pshape, lay]
  subst glob
  cases h with
  | map f => exact ⟨wf, lay, sub, rfl⟩
  | conv c cw cb C rgw B hC hD =>
    exact placed_balanced wf sub (hD.trans (length_convShape C.W C.Co (hlen.trans hD)).symm)
  | avg c Q B hQ hD => exact placed_balanced wf sub (pool_length lay hD)
  | max c Q B hQ hD => exact placed_balanced wf sub (pool_length lay hD)
  | @flat _ _ a b k hs =>
    have e2 : P.shape.take 2 = [a, b] := by rw [hs]; rfl
    refine ⟨⟨wf.nodup, ?_, fun n hn => wf.pos n (List.mem_of_mem_take hn)⟩, ?_, sub, ?_⟩
    · show P.members.length = (P.shape.take 2).prod
      rw [wf.size, e2, hs]
      simp
    · rw [hs] at lay
      show (flatLayout L).pshape = P.shape.take 2
      rw [e2]
      match L, lay with
      | bs :: cs :: Lr, lay =>
        obtain ⟨h1, h2⟩ := List.cons.inj lay
        obtain ⟨h2, h3⟩ := List.cons.inj h2
        simp only [flatLayout, Layout.pshape, List.map_cons, List.map_nil, List.length_map, h1, h2]
    · rw [hs] at lay
      match L, lay with
      | bs :: cs :: Lr, lay =>
        simp only [flatLayout, Layout.global, List.map_cons, List.map_nil, Layer.seq, List.headD_cons, List.tail_cons,
          List.prod_cons, List.sum_map_mul_right, List.map_id']
  | rep c Py pb B hw dims pos ones hW => exact placed_balanced hw hW (dims.trans hlen.symm)
  | @lin Po Pi b c cy A rgp weight bias hv hp hw hy =>
    have e : (Layout.balanced [1, Pi] [b, A.inFeatures]).global = [b, A.inFeatures] :=
      Layout.balanced_global rfl fun n hn => wf.pos n (hv.shx ▸ hn)
    have := placed_balanced (s' := [b, A.outFeatures]) hv.wfy hy (by rw [hv.shy]; rfl)
    rw [hv.shy] at this
    rw [e]
    exact this
  | chan c cy C weight bias rgp Wt bi hv h1 hSp hN hg hfit hp place hw hy =>
    rw [Layout.balanced_global (by rw [hv.shx]; simp [hSp, hN]) hv.wfx.pos]
    exact placed_balanced hv.wfy hy (conv_out_len hv hSp hN)
  | @gen Po Pi Sp B N _ c cw cb cx cy C weight bias rgp Bf Wt bi nd _ _ _ _ hW hv hSp hg hG hfit hl hp place hw hy =>
    have hkn : C.W.k.length = nd := (winParams_length hW).1
    rw [hG] at hlen ⊢
    refine placed_balanced hv.wfy hy (conv_out_len hv (hSp.trans hkn.symm) ?_)
    rw [hv.shx] at hlen
    simp at hlen
    omega

theorem Fits.realises (h : Fits W P L l L') (hp : Placed W P L s) :
    Realises W (l.prog P) (Holds W P L t X) (Holds W (l.out P) L' t (l.seq (s, X)).2) := by
  obtain ⟨wf, lay, sub, glob⟩ := hp
  subst glob
  intro S hS
  cases h with
  | map f => exact map_run f hS
  | conv c cw cb C rgw B hC hD hch hroot hgr hpos hCi hfit hl =>
    exact conv_run c cw cb C rgw B hC hD hch hroot hgr hpos hCi hfit hl wf lay sub hS
  | avg c Q B hQ hD hl => exact avg_run c B hQ hD wf lay hl sub hS
  | max c Q B hQ hD hl => exact max_run c B hQ hD wf lay hl sub hS
  | flat hs => exact flat_run wf hs lay hS
  | rep c Py pb B hw dims pos ones hW => exact rep_run c pb B ⟨wf, hw, lay, dims, pos, ones⟩ sub hW hS
  | lin c cy A rgp weight bias hv hp hw hy => exact linear_run c cy rgp hv hp sub hw hy hS
  | chan c cy C weight bias rgp Wt bi hv h1 hSp hN hg hfit hp place hw hy =>
    rw [Layout.balanced_global (by rw [hv.shx]; simp [hSp, hN]) hv.wfx.pos]
    exact chan_run c cy rgp hv h1 hSp hN hg hfit hp place sub hw hy hS
  | gen c cw cb cx cy C weight bias rgp Bf Wt bi hW hv hSp hg hG hfit hl hp place hw hy =>
    rw [hG]
    exact gen_run c cw cb cx cy rgp Bf hW hv hSp hg lay hG hfit hl hp place sub hw hy hS

/-! ## All layers -/

theorem NetFits.realises (h : NetFits W P L ls P' L') : ∀ {s : List Nat} {X : List Nat → F}, Placed W P L s →
    Placed W P' L' (seqNet ls (s, X)).1 ∧
    Realises W (netProg P ls) (Holds W P L t X) (Holds W P' L' t (seqNet ls (s, X)).2) := by
  induction h with
  | nil => exact fun hp => ⟨hp, Realises.nil _⟩
  | @cons P L L' P'' L'' l ls h hs ih =>
    intro s X hp
    obtain ⟨h1, h2⟩ := ih (X := (l.seq (s, X)).2) (h.placed hp X)
    exact ⟨h1, (h.realises hp).seq h2⟩

end

end Verif.Net
