import Verif.Window.Model
import Verif.Conv.Model

/-!
# Padding modes of the convolutional layers

`padding_mode` of `DistributedFeatureConv*d` and `DistributedGeneralConv*d` (`conv_feature.py`, `conv_general.py`).
-/

namespace Verif

/-- The padding modes PyTorch's convolutions know. -/
inductive PadMode
  | zeros
  | reflect
  | replicate
  | circular
  deriving DecidableEq, Repr

/-- The cell of an axis of length `n` that stands for position `i` (trusted reading of PyTorch's modes): `reflect`
mirrors at the first and the last cell, `replicate` repeats them, `circular` goes round.  Not used for `zeros`. -/
def modeCell (m : PadMode) (n : Nat) (i : Int) : Int :=
  match m with
  | .zeros => i
  | .reflect => if i < 0 then -i else if (n : Int) ≤ i then 2 * ((n : Int) - 1) - i else i
  | .replicate => max 0 (min i ((n : Int) - 1))
  | .circular => i % n

/-- The tensor continued in mode `m`, value `v` for `zeros`. -/
def extendMode {α : Type} (m : PadMode) (v : α) (shape : List Nat) (x : List Nat → α) (pos : List Int) : α :=
  match m with
  | .zeros => extend v shape x pos
  | m => x ((List.range pos.length).map fun j => (modeCell m (shape.getD j 0) (pos.getD j 0)).toNat)

/-- `torch.nn.Conv{1,2,3}d` with `padding_mode` `m` (trusted); as `torchConv`, except for what is read outside of the
input. -/
def torchConvMode {R : Type} [AddCommMonoid R] [Mul R] (m : PadMode) (W : WinParams) (groups Ci Co : Nat)
    (weight : List Nat → R) (bias : Nat → R) (shape : List Nat) (x : List Nat → R) : List Nat → R
  | b :: co :: o => bias co + ∑ c ∈ Finset.range (Ci / groups), boxSum W.k fun κ =>
      weight (co :: c :: κ) *
        extendMode m 0 shape x (winPos (1 :: 1 :: W.s) (1 :: 1 :: W.d) (0 :: 0 :: W.p)
          (b :: (co / (Co / groups) * (Ci / groups) + c) :: o) (0 :: 0 :: κ))
  | _ => 0

/-- Does `torch.nn.functional.pad` implement mode `m` for `npad` widths and a tensor of `dims` dimensions?  (Trusted:
for modes other than `constant` "only 2D, 3D, 4D, 5D padding with non-constant padding are supported", that is the last
dimension of 2 or 3, the last two of 3 or 4, the last three of 4 or 5; everything else is a `NotImplementedError`.) -/
def padImplemented (m : PadMode) (npad dims : Nat) : Bool :=
  match m with
  | .zeros => npad % 2 == 0 && decide (npad ≤ 2 * dims)
  | _ => npad == 2 && (dims == 2 || dims == 3) || npad == 4 && (dims == 3 || dims == 4) ||
      npad == 6 && (dims == 4 || dims == 5)

/-- Are `p` cells on both sides of an axis of length `n` within what `F.pad` accepts?  (Trusted: `reflect` wants less
than the axis has, `circular` at most as much.) -/
def padFits (m : PadMode) (n p : Nat) : Bool :=
  match m with
  | .reflect => decide (p < n)
  | .circular => decide (p ≤ n)
  | _ => true

/-- A call of `torch.nn.Conv{1,2,3}d` with `padding_mode` `m` (trusted).  For modes other than `zeros` the layer calls
`F.pad` with the widths of the feature dimensions.  `none`: an exception. -/
def torchConvLayerMode {R : Type} [AddCommMonoid R] [Mul R] (m : PadMode) (W : WinParams) (groups ci co : Nat)
    (weight : List Nat → R) (bias : Nat → R) (x : Tensor R) : Option (Tensor R) :=
  if 0 < ci ∧ 0 < co ∧ 0 < groups ∧ groups ∣ ci ∧ groups ∣ co ∧ x.shape.length = W.k.length + 2 ∧
      x.shape.getD 1 0 = ci ∧ (∀ j, j < W.k.length →
        W.d.getD j 0 * (W.k.getD j 0 - 1) + 1 ≤ x.shape.getD (j + 2) 0 + 2 * W.p.getD j 0) ∧
      (m = .zeros ∨ padImplemented m (2 * W.k.length) x.shape.length = true ∧
        ∀ j, j < W.k.length → padFits m (x.shape.getD (j + 2) 0) (W.p.getD j 0) = true) then
    some ⟨torchConvShape W co x.shape, x.dtype, torchConvMode m W groups ci co weight bias x.shape x.val⟩
  else none

/-- `conv_feature.py:380-388`, `conv_general.py:555-565` on an active worker with the input shape `shape`: the widths of
all dimensions are handed to `F.pad` unless all of them are 0.  `false`: `F.pad` raises an exception. -/
def padStep (m : PadMode) (S : WinSetup) (shape : List Nat) : Bool :=
  (S.total.map fun p => p.1 + p.2).sum == 0 || padImplemented m (toTorchPadding S.total).length shape.length

/-- `conv_feature.py:126-148, 357-393` with `padding_mode` `m` on rank `r` of `P_x`, once the halo exchange is finished
on this rank.  One worker calls PyTorch's layer with `m`; otherwise the local layer is built without padding and
`padding_mode='zeros'`, and `m` is used for padding only.  Where `padStep` lets a mode other than `zeros` pass, all
widths are 0 (`C92_raises_iff`), so nothing is filled and the mode does not matter from there.  `none`: an exception. -/
def featureForwardMode {R : Type} [AddCommMonoid R] [Mul R] (m : PadMode) (P : Cart) (C : ConvLayer R) (rg : Bool)
    (localS : Nat → List Nat × TorchDtype × Bool) (x : Nat → List Nat → R) (U : Nat → WinSetup)
    (g : Exchange.GState (List Nat → R) (List Nat → R)) (r : Nat) : Option (Tensor R) :=
  let w := P.members.getD r 0
  if P.members.length = 1 then
    torchConvLayerMode m C.W C.groups C.Ci C.Co C.weight.val (biasOf C.bias) ⟨(localS w).1, (localS w).2.1, x w⟩
  else if padStep m (U r) (localS w).1 then featureForward P C rg localS x U g r
  else none

/-- `conv_general.py:194-206, 293-301, 536-589` with `padding_mode` `m` on worker `w`, once the halo exchange is finished
on all workers of `P_x`.  One worker in `P_w`: PyTorch's layer with `m`.  Otherwise the local layer is built without
padding and `padding_mode='zeros'`, and `m` is used by the workers of `P_x` for padding only; see
`featureForwardMode`.  `none`: an exception. -/
def generalForwardMode {R : Type} [AddCommMonoid R] [Mul R] (m : PadMode) (C : ChanConv) (weight bias : Nat → Tensor R)
    (rgp : Bool) (localS : Nat → List Nat × TorchDtype × Bool) (inp : Nat → List Nat → R) (U : Nat → WinSetup)
    (g : Exchange.GState (List Nat → R) (List Nat → R)) (rgx rg : Nat → Bool) (w : Nat) : Option (Tensor R) :=
  if w ∉ C.Px.members ∧ w ∉ C.Py.members ∧ w ∉ C.Pw.members then
    some ⟨(localS w).1, (localS w).2.1, inp w⟩
  else if C.Pw.members.length = 1 then
    if w ∈ C.Pw.members then
      torchConvLayerMode m C.W C.groups C.Ci C.Co (weight w).val (fun c => if C.useBias then (bias w).val [c] else 0)
        ⟨(localS w).1, (localS w).2.1, inp w⟩
    else none
  else if w ∈ C.Px.members ∧ padStep m (U (C.Px.members.idxOf w)) (localS w).1 = false then none
  else generalForward C weight bias rgp localS inp U g rgx rg w

/-- `conv_channel.py:213-224`, `343-344` with `padding_mode` `m`: the local layer of worker `w`. -/
def channelLocalMode {R : Type} [AddCommMonoid R] [Mul R] (m : PadMode) (C : ChanConv) (weight bias : Nat → List Nat → R)
    (w : Nat) (x : Tensor R) : Option (Tensor R) :=
  torchConvLayerMode m C.W C.groups ((C.localChannels w).getD 1 0) ((C.localChannels w).getD 0 0) (weight w)
    (fun c => if C.storesBias w then bias w [c] else 0) x

/-- `conv_channel.py:184-224, 323-348` with `padding_mode` `m` on worker `w`; as `channelForward`.  Here the mode goes
to the local layers. -/
def channelForwardMode {R : Type} [AddCommMonoid R] [Mul R] (m : PadMode) (C : ChanConv)
    (weight bias : Nat → List Nat → R) (I : Inputs R) (rg : Nat → Bool) (w : Nat) : Option (Tensor R) :=
  if w ∉ C.Px.members ∧ w ∉ C.Py.members ∧ w ∉ C.Pw.members then some (I.x w)
  else
    match castPartitions true C.Px C.Py C.Pw with
    | none => none
    | some (x, y) =>
      if C.Pw.members.length = 1 then
        if w ∈ C.Pw.members then
          torchConvLayerMode m C.W C.groups C.Ci C.Co (weight w) (fun c => if C.useBias then bias w [c] else 0) (I.x w)
        else none
      else stackForward (chanBroadcast x C.Pw) (chanReduce C.Pw y) I (channelLocalMode m C weight bias) rg w

end Verif
