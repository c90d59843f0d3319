import Verif.Halo.Model
import Verif.Collective.Model
import Verif.Buffer.Props
import Verif.Layout
import Mathlib.Algebra.Field.Defs
import Mathlib.Algebra.BigOperators.Group.Finset.Basic
import Mathlib.Order.BoundedOrder.Lattice

/-!
# Model of the sliding-window layers

`nn/conv_feature.py` (`DistributedFeatureConvBase`), `nn/pooling.py` (`DistributedPoolBase` and
subclasses), `utilities/torch.py` (`distdl_padding_to_torch_padding`).

The PyTorch kernels are given by their documentation: window `o` of an operator with stride `s`,
dilation `d` and padding `p` reads the cells `s * o + d * κ - p` for `κ` below the kernel size, cells
outside the tensor have the padding value.  Tensors are indexed by batch, channel and features; the
kernel has extent 1 in the first two dimensions.
-/

namespace Verif

/-! ## PyTorch -/

/-- A position inside a tensor. -/
def InBoundsI : List Int → List Nat → Prop
  | [], [] => True
  | i :: is, n :: ns => (0 ≤ i ∧ i < n) ∧ InBoundsI is ns
  | _, _ => False

instance InBoundsI.dec : (a : List Int) → (b : List Nat) → Decidable (InBoundsI a b)
  | [], [] => isTrue trivial
  | _ :: is, _ :: ns => @instDecidableAnd _ _ _ (InBoundsI.dec is ns)
  | [], _ :: _ => isFalse fun h => h
  | _ :: _, [] => isFalse fun h => h

/-- The tensor continued by the value `v`. -/
def extend {α : Type} (v : α) (shape : List Nat) (x : List Nat → α) (pos : List Int) : α :=
  if InBoundsI pos shape then x (pos.map Int.toNat) else v

/-- The cell read by window `o` at kernel position `κ`. -/
def winPos (s d p o κ : List Nat) : List Int :=
  (List.range o.length).map fun j =>
    (s.getD j 0 : Int) * o.getD j 0 + (d.getD j 0 : Int) * κ.getD j 0 - p.getD j 0

/-- What window `o` reads at kernel position `κ`. -/
def winRead {α : Type} (v : α) (shape s d p : List Nat) (x : List Nat → α) (o κ : List Nat) : α :=
  extend v shape x (winPos s d p o κ)

/-- Parameters of a window operator, one entry per feature dimension. -/
structure WinParams where
  k : List Nat
  s : List Nat
  p : List Nat
  d : List Nat
  deriving DecidableEq, Repr

/-- Number of windows along an axis of length `n`, padding `p`: `floor((n + 2p - d(k-1) - 1)/s) + 1`. -/
def torchOut1 (n k s p d : Nat) : Nat := (((n : Int) + 2 * p - d * ((k : Int) - 1) - 1) / s + 1).toNat

/-- Output extents of the feature dimensions. -/
def torchOut (W : WinParams) (n : List Nat) : List Nat :=
  (List.range n.length).map fun j =>
    torchOut1 (n.getD j 0) (W.k.getD j 0) (W.s.getD j 0) (W.p.getD j 0) (W.d.getD j 0)

/-- The same operator without padding. -/
def WinParams.noPad (W : WinParams) : WinParams := ⟨W.k, W.s, W.p.map fun _ => 0, W.d⟩

/-- `torch.nn.functional.conv{1,2,3}d` with `groups`: `Co` output channels, `Ci` input channels; channel
`c` of the kernel of output channel `co` reads input channel `(co / (Co / groups)) (Ci / groups) + c`.
`b :: co :: o` is an output cell. -/
def torchConv {R : Type} [AddCommMonoid R] [Mul R] (W : WinParams) (groups Ci Co : Nat) (weight : List Nat → R)
    (bias : Nat → R) (shape : List Nat) (x : List Nat → R) : List Nat → R
  | b :: co :: o => bias co + ∑ c ∈ Finset.range (Ci / groups), boxSum W.k fun κ =>
      weight (co :: c :: κ) *
        winRead 0 shape (1 :: 1 :: W.s) (1 :: 1 :: W.d) (0 :: 0 :: W.p) x
          (b :: (co / (Co / groups) * (Ci / groups) + c) :: o) (0 :: 0 :: κ)
  | _ => 0

/-- Output shape of `torchConv` for an input of shape `b :: c :: n`. -/
def torchConvShape (W : WinParams) (Co : Nat) : List Nat → List Nat
  | b :: _ :: n => b :: Co :: torchOut W n
  | _ => []

/-- `torch.nn.functional.avg_pool{1,2,3}d` with `count_include_pad=True`. -/
def torchAvgPool {R : Type} [AddCommMonoid R] [Div R] [NatCast R] (W : WinParams) (shape : List Nat) (x : List Nat → R) :
    List Nat → R := fun o =>
  (boxSum W.k fun κ => winRead 0 shape (1 :: 1 :: W.s) (1 :: 1 :: W.d) (0 :: 0 :: W.p) x o (0 :: 0 :: κ)) /
    ((W.k.prod : Nat) : R)

/-- All kernel positions. -/
def kernelCells : List Nat → List (List Nat)
  | [] => [[]]
  | k :: ks => (List.range k).flatMap fun i => (kernelCells ks).map (i :: ·)

/-- `torch.nn.functional.max_pool{1,2,3}d`; `⊥` is `-inf`. -/
def torchMaxPool {R : Type} [SemilatticeSup R] [OrderBot R] (W : WinParams) (shape : List Nat)
    (x : List Nat → R) : List Nat → R := fun o =>
  ((kernelCells W.k).map fun κ =>
    winRead ⊥ shape (1 :: 1 :: W.s) (1 :: 1 :: W.d) (0 :: 0 :: W.p) x o (0 :: 0 :: κ)).foldr (· ⊔ ·) ⊥

/-- Output shape of pooling. -/
def torchPoolShape (W : WinParams) : List Nat → List Nat
  | b :: c :: n => b :: c :: torchOut W n
  | _ => []

/-- `torch.nn.functional.pad(x, pad, mode='constant', value=v)`: the entries of `pad` come in pairs, the
first pair belongs to the last dimension. -/
def torchPad {α : Type} (pad : List Nat) (v : α) (shape : List Nat) (x : List Nat → α) :
    List Nat × (List Nat → α) :=
  let D := shape.length
  let left j := pad.getD (2 * (D - 1 - j)) 0
  let right j := pad.getD (2 * (D - 1 - j) + 1) 0
  ((List.range D).map fun j => left j + shape.getD j 0 + right j,
    fun l => extend v shape x ((List.range D).map fun j => (l.getD j 0 : Int) - left j))

/-! ## The layers -/

/-- `conv_feature.py:226-236`, `pooling.py:139-149` `_expand_parameter`; `none`: `ValueError`. -/
def expandParameter (nd : Nat) (param : List Nat) : Option (List Nat) :=
  if param.length = 1 then some (List.replicate nd (param.getD 0 0))
  else if param.length = nd then some param
  else none

/-- `utilities/torch.py:43-49` `distdl_padding_to_torch_padding`, `pooling.py:256-262`
`_to_torch_padding`. -/
def toTorchPadding (pad : List (Nat × Nat)) : List Nat := pad.reverse.flatMap fun p => [p.1, p.2]

/-- `conv_feature.py:151-159`, `pooling.py:114-120`: padding with zeros for the leading dimensions. -/
def globalPadding (dims : Nat) (padding : List Nat) : List Nat :=
  List.replicate (dims - padding.length) 0 ++ padding

/-- `conv_feature.py:345-355`, `pooling.py:264-274` `_compute_local_padding`: padding on the left only
at index 0, on the right only at the last index. -/
def localPadding (Pshape idx gpad : List Nat) : List (Nat × Nat) :=
  (List.range Pshape.length).map fun j =>
    (if idx.getD j 0 = 0 then gpad.getD j 0 else 0,
      if idx.getD j 0 + 1 = Pshape.getD j 0 then gpad.getD j 0 else 0)

/-- `conv_feature.py:268`, `pooling.py:179`: the local shape with the explicit padding. -/
def shapeAfterPad (shape : List Nat) (lpad : List (Nat × Nat)) : List Nat :=
  List.zipWith (fun n p => n + (p.1 + p.2)) shape lpad

/-- What setup stores. -/
structure WinSetup where
  lpad : List (Nat × Nat)
  info : ExchangeInfo
  deriving DecidableEq, Repr

/-- Constructor (padding) and `_distdl_module_setup` on the active worker `w`
(`conv_feature.py:151-162, 238-306`, `pooling.py:114-123, 151-217`).  `localS` gives the local input
structures of all workers; the workers gather them. -/
def winSetup (P : Cart) (W : WinParams) (localS : Nat → List Nat × TorchDtype × Bool) (w : Nat) :
    Option WinSetup :=
  let dims := P.shape.length
  let gpad := globalPadding dims W.p
  let lpadOf (v : Nat) := localPadding P.shape ((P.index v).getD []) gpad
  match P.index w, assembleGlobal P none localS w,
      unbalancedShapes P none (fun v => shapeAfterPad (localS v).1 (lpadOf v)) w with
  | some idx, .value g, .value T =>
    let after := List.zipWith (fun (n : Int) (p : Nat) => (n + 2 * p).toNat) g.shape gpad
    let t : Table := fun idx d => ((T.entry (idx ++ [d])).getD 0).toNat
    some ⟨localPadding P.shape idx gpad,
      exchangeInfo (haloDims P.shape after W.k W.s (W.p.map fun _ => 0) W.d) (some t) idx⟩
  | _, _, _ => none

/-- `conv_feature.py:381`, `pooling.py:290`: `local_padding + halo_shape`. -/
def WinSetup.total (S : WinSetup) : List (Nat × Nat) :=
  List.zipWith (fun p (h : Int × Int) => (p.1 + h.1.toNat, p.2 + h.2.toNat)) S.lpad S.info.recv

/-- `conv_feature.py:381-388`, `pooling.py:290-296`: the padded input; nothing is done when all widths
are 0. -/
def WinSetup.padInput {α : Type} (S : WinSetup) (v : α) (shape : List Nat) (x : List Nat → α) :
    List Nat × (List Nat → α) :=
  if (S.total.map fun p => p.1 + p.2).sum = 0 then (shape, x)
  else torchPad (toTorchPadding S.total) v shape x

/-- `conv_feature.py:391`, `pooling.py:299`: `input_exchanged[self.needed_slices]`. -/
def WinSetup.select {α : Type} (S : WinSetup) (shape : List Nat) (x : List Nat → α) :
    List Nat × (List Nat → α) :=
  ((pySlices shape S.info.needed).map fun p => p.2 - p.1, readSlice (pySlices shape S.info.needed) x)

/-- A forward pass up to the local operator, on all workers (numbered by rank; `x v` is the local input
of world rank `v`): setup of the layer, setup of the halo layer for the padded input, with any history of
the buffer managers, and an execution of the halo exchange from the padded inputs to the state `g`
(`conv_feature.py:380-391`, `pooling.py:289-299`). -/
structure WinRun {α β : Type} (P : Cart) (W : WinParams) (v : α)
    (localS : Nat → List Nat × TorchDtype × Bool) (x : Nat → List Nat → α) (dt : NpKey) (junk : Nat → β)
    (ops : Nat → List (MgrOp β)) (eager : Bool) (k : Nat) (U : Nat → WinSetup) (S : Nat → HaloSetup)
    (g : Exchange.GState (List Nat → α) (List Nat → α)) : Prop where
  setup : ∀ r, r < P.members.length → winSetup P W localS (P.members.getD r 0) = some (U r)
  halo : ∀ r, r < P.members.length →
    haloSetup P (U r).info.widths dt ((Mgr.init : Mgr β).run junk (ops r)) junk
      ((U r).padInput v (localS (P.members.getD r 0)).1 (x (P.members.getD r 0))).1 r = some (S r)
  exec : Exchange.Exec (haloForward S) P.members.length (haloPhases P) eager k
    (Exchange.GState.init fun r =>
      ((U r).padInput v (localS (P.members.getD r 0)).1 (x (P.members.getD r 0))).2) g

/-- The input of the local operator on rank `r` once its part of the exchange is finished. -/
def localInput {α : Type} (P : Cart) (v : α) (localS : Nat → List Nat × TorchDtype × Bool)
    (x : Nat → List Nat → α) (U : Nat → WinSetup) (g : Exchange.GState (List Nat → α) (List Nat → α))
    (r : Nat) : List Nat × (List Nat → α) :=
  (U r).select ((U r).padInput v (localS (P.members.getD r 0)).1 (x (P.members.getD r 0))).1 (g.ws r).st

/-- `conv_feature.py:115-119`, `pooling.py:95-98`: the parameters as given, expanded; `none`:
`ValueError`. -/
def winParams (nd : Nat) (k s p d : List Nat) : Option WinParams :=
  (expandParameter nd k).bind fun k => (expandParameter nd s).bind fun s =>
    (expandParameter nd p).bind fun p => (expandParameter nd d).map fun d => ⟨k, s, p, d⟩

/-- `pooling.py:95-101`: average pooling refuses dilations other than 1. -/
def poolParams (avg : Bool) (nd : Nat) (k s p d : List Nat) : Option WinParams :=
  (winParams nd k s p d).bind fun W =>
    if avg && !(W.d.all fun n => n == 1) then none else some W

/-- `conv_feature.py:164-166`: the partition holding weight and bias, the first worker of `P_x`. -/
def rootCart (P : Cart) : Cart := ⟨[P.members.getD 0 0], [1], P.root⟩

/-- `conv_feature.py:205-210`: the broadcast of weight or bias.  The two partitions differ, the layer is
not serial. -/
def paramBcast (P : Cart) : PairLayer := ⟨rootCart P, P, false, false, false, false⟩

/-- `conv_feature.py:171-190`: weight or bias are kept on the first worker, all others have tensors
without entries. -/
def rootParam {R : Type} [Zero R] (P : Cart) (a : Tensor R) (rg : Bool) : Inputs R :=
  ⟨fun w => if w = P.members.getD 0 0 then a else ⟨[0], a.dtype, fun _ => 0⟩, fun _ => rg⟩

/-- A convolution layer: parameters, groups, channels, weight and optional bias as stored on the first
worker. -/
structure ConvLayer (R : Type) where
  W : WinParams
  groups : Nat
  Ci : Nat
  Co : Nat
  weight : Tensor R
  bias : Option (Tensor R)

/-- The bias added to output channel `co`; none without bias. -/
def biasOf {R : Type} [Zero R] (b : Option (Tensor R)) (co : Nat) : R :=
  match b with
  | some b => b.val [co]
  | none => 0

/-- A call of `torch.nn.Conv{1,2,3}d`.  `none`: an exception - `groups` does not divide the channels, the
input does not have the channels of the layer, the kernel is larger than the padded input.  A layer without
input or output channels counts as an exception too. -/
def torchConvLayer {R : Type} [AddCommMonoid R] [Mul R] (W : WinParams) (groups ci co : Nat) (hasBias : Bool)
    (weight bias : List Nat → R) (x : Tensor R) : Option (Tensor R) :=
  if 0 < ci ∧ 0 < co ∧ 0 < groups ∧ groups ∣ ci ∧ groups ∣ co ∧ x.shape.length = W.k.length + 2 ∧
      x.shape.getD 1 0 = ci ∧ (∀ j, j < W.k.length →
        W.d.getD j 0 * (W.k.getD j 0 - 1) + 1 ≤ x.shape.getD (j + 2) 0 + 2 * W.p.getD j 0) then
    some ⟨torchConvShape W co x.shape, x.dtype, torchConv W groups ci co weight
      (fun c => if hasBias then bias [c] else 0) x.shape x.val⟩
  else none

/-- `conv_feature.py:357-393` `forward` on rank `r` of `P_x`, for `padding_mode='zeros'`, once the halo
exchange is finished on this rank.  With one worker the PyTorch layer is called directly; otherwise weight
and bias are broadcast and the local layer works without padding.  `none`: an exception. -/
def featureForward {R : Type} [AddCommMonoid R] [Mul R] (P : Cart) (C : ConvLayer R) (rg : Bool)
    (localS : Nat → List Nat × TorchDtype × Bool) (x : Nat → List Nat → R) (U : Nat → WinSetup)
    (g : Exchange.GState (List Nat → R) (List Nat → R)) (r : Nat) : Option (Tensor R) :=
  let w := P.members.getD r 0
  if P.members.length = 1 then
    torchConvLayer C.W C.groups C.Ci C.Co C.bias.isSome C.weight.val (fun l => biasOf C.bias (l.getD 0 0))
      ⟨(localS w).1, (localS w).2.1, x w⟩
  else
    match bcastForward (paramBcast P) (rootParam P C.weight rg) w,
        C.bias.map fun b => bcastForward (paramBcast P) (rootParam P b rg) w with
    | some wt, none =>
      torchConvLayer C.W.noPad C.groups C.Ci C.Co false wt.val (fun _ => 0)
        ⟨(localInput P 0 localS x U g r).1, (localS w).2.1, (localInput P 0 localS x U g r).2⟩
    | some wt, some (some b) =>
      torchConvLayer C.W.noPad C.groups C.Ci C.Co true wt.val b.val
        ⟨(localInput P 0 localS x U g r).1, (localS w).2.1, (localInput P 0 localS x U g r).2⟩
    | _, _ => none

/-- `pooling.py:276-302` `forward` of `DistributedAvgPool*`: the sequential layer, which was built with padding 0
(`pooling.py:103-112`), on the selected part of the padded tensor.  There is no separate path for
one worker. -/
def avgPoolForward {R : Type} [AddCommMonoid R] [Div R] [NatCast R] (P : Cart) (W : WinParams)
    (localS : Nat → List Nat × TorchDtype × Bool) (x : Nat → List Nat → R) (U : Nat → WinSetup)
    (g : Exchange.GState (List Nat → R) (List Nat → R)) (r : Nat) : Tensor R :=
  ⟨torchPoolShape W.noPad (localInput P 0 localS x U g r).1, (localS (P.members.getD r 0)).2.1,
    torchAvgPool W.noPad (localInput P 0 localS x U g r).1 (localInput P 0 localS x U g r).2⟩

/-- The same for `DistributedMaxPool*`; the tensor is padded with the least value. -/
def maxPoolForward {R : Type} [SemilatticeSup R] [OrderBot R] (P : Cart) (W : WinParams)
    (localS : Nat → List Nat × TorchDtype × Bool) (x : Nat → List Nat → R) (U : Nat → WinSetup)
    (g : Exchange.GState (List Nat → R) (List Nat → R)) (r : Nat) : Tensor R :=
  ⟨torchPoolShape W.noPad (localInput P ⊥ localS x U g r).1, (localS (P.members.getD r 0)).2.1,
    torchMaxPool W.noPad (localInput P ⊥ localS x U g r).1 (localInput P ⊥ localS x U g r).2⟩

end Verif
