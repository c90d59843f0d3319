import Verif.Window.Model

/-!
# Backward passes of convolution and pooling over partitioned features

The backward pass of a layer is what autograd makes of its forward function: the operations of
`conv_feature.py:357-393` and `pooling.py:276-302` in reverse order, each replaced by its gradient.  The gradients
of the PyTorch operators are given by their documentation: a tensor entry that is read several times gets the sum of
the gradients of all its uses.
-/

namespace Verif

/-! ## PyTorch -/

/-- `g` if window position `pos` is cell `m`. -/
def atCell {R : Type} [Zero R] (pos : List Int) (m : List Nat) (g : R) : R :=
  if pos = m.map fun n : Nat => (n : Int) then g else 0

/-- Gradient of `torch.nn.functional.conv{1,2,3}d` with respect to its input of shape `shape`
(`torch.nn.grad.conv{1,2,3}d_input`): `dy` is the gradient of the output. -/
def torchConvGradX {R : Type} [CommSemiring R] (W : WinParams) (groups Ci Co : Nat) (weight : List Nat → R)
    (shape : List Nat) (dy : List Nat → R) : List Nat → R := fun m =>
  boxSum (torchConvShape W Co shape) fun
    | b :: co :: o => ∑ c ∈ Finset.range (Ci / groups), boxSum W.k fun κ =>
        atCell (winPos (1 :: 1 :: W.s) (1 :: 1 :: W.d) (0 :: 0 :: W.p)
          (b :: (co / (Co / groups) * (Ci / groups) + c) :: o) (0 :: 0 :: κ)) m
          (weight (co :: c :: κ) * dy (b :: co :: o))
    | _ => 0

/-- Gradient with respect to the weight (`torch.nn.grad.conv{1,2,3}d_weight`); `co :: c :: κ` is a
weight. -/
def torchConvGradW {R : Type} [CommSemiring R] (W : WinParams) (groups Ci Co : Nat) (shape : List Nat)
    (x : List Nat → R) (dy : List Nat → R) : List Nat → R
  | co :: c :: κ => boxSum (torchConvShape W Co shape) fun
    | b :: co' :: o => if co' = co then dy (b :: co :: o) *
        winRead 0 shape (1 :: 1 :: W.s) (1 :: 1 :: W.d) (0 :: 0 :: W.p) x
          (b :: (co / (Co / groups) * (Ci / groups) + c) :: o) (0 :: 0 :: κ) else 0
    | _ => 0
  | _ => 0

/-- Gradient with respect to the bias. -/
def torchConvGradB {R : Type} [CommSemiring R] (W : WinParams) (Co : Nat) (shape : List Nat)
    (dy : List Nat → R) : List Nat → R
  | [co] => boxSum (torchConvShape W Co shape) fun
    | b :: co' :: o => if co' = co then dy (b :: co :: o) else 0
    | _ => 0
  | _ => 0

/-- Gradient of `torch.nn.functional.avg_pool{1,2,3}d` with `count_include_pad=True`. -/
def torchAvgPoolGrad {R : Type} [Field R] (W : WinParams) (shape : List Nat) (dy : List Nat → R) :
    List Nat → R := fun m =>
  boxSum (torchPoolShape W shape) fun o => boxSum W.k fun κ =>
    atCell (winPos (1 :: 1 :: W.s) (1 :: 1 :: W.d) (0 :: 0 :: W.p) o (0 :: 0 :: κ)) m
      (dy o / ((W.k.prod : Nat) : R))

/-- The kernel position whose value `torch.nn.functional.max_pool{1,2,3}d` returns for window `o`: positions
outside the tensor are skipped, the others are visited in row-major order, and a later one replaces the present
one only if its value is larger. -/
def maxCell {F : Type} [LinearOrder F] [OrderBot F] (W : WinParams) (shape : List Nat) (x : List Nat → F)
    (o : List Nat) : Option (List Nat) :=
  let pos κ := winPos (1 :: 1 :: W.s) (1 :: 1 :: W.d) (0 :: 0 :: W.p) o (0 :: 0 :: κ)
  (kernelCells W.k).foldl (fun best κ =>
    if InBoundsI (pos κ) shape then
      match best with
      | none => some κ
      | some b => if extend ⊥ shape x (pos b) < extend ⊥ shape x (pos κ) then some κ else some b
    else best) none

/-- Gradient of `torch.nn.functional.max_pool{1,2,3}d` at the input `x`: the gradient of an output goes to the
entry whose value was returned. -/
def torchMaxPoolGrad {F R : Type} [LinearOrder F] [OrderBot F] [CommSemiring R] (W : WinParams) (shape : List Nat)
    (x : List Nat → F) (dy : List Nat → R) : List Nat → R := fun m =>
  boxSum (torchPoolShape W shape) fun o =>
    match maxCell W shape x o with
    | some κ => atCell (winPos (1 :: 1 :: W.s) (1 :: 1 :: W.d) (0 :: 0 :: W.p) o (0 :: 0 :: κ)) m (dy o)
    | none => 0

/-- Gradient of `torch.nn.functional.pad(x, pad, mode='constant')` for an input with `D` dimensions: the
entries that came from `x`. -/
def torchPadGrad {R : Type} (pad : List Nat) (D : Nat) (dy : List Nat → R) : List Nat → R := fun l =>
  dy ((List.range D).map fun j => pad.getD (2 * (D - 1 - j)) 0 + l.getD j 0)

/-! ## The layers -/

/-- Gradient of `conv_feature.py:381-388`, `pooling.py:290-296`; nothing was done when all widths are 0. -/
def WinSetup.padGrad {R : Type} (S : WinSetup) (shape : List Nat) (dy : List Nat → R) : List Nat → R :=
  if (S.total.map fun p => p.1 + p.2).sum = 0 then dy
  else torchPadGrad (toTorchPadding S.total) shape.length dy

/-- Gradient of `conv_feature.py:391`, `pooling.py:299`, `input_exchanged[self.needed_slices]`: zero at
the entries that are not selected.  `shape` is the shape of the padded tensor. -/
def WinSetup.selectGrad {R : Type} [Zero R] (S : WinSetup) (shape : List Nat) (dy : List Nat → R) :
    List Nat → R :=
  writeSlice (pySlices shape S.info.needed) dy fun _ => 0

/-- The shape of the padded tensor on rank `r`; it does not depend on the entries. -/
def winPaddedShape (P : Cart) (localS : Nat → List Nat × TorchDtype × Bool) (U : Nat → WinSetup) (r : Nat) :
    List Nat :=
  ((U r).padInput () (localS (P.members.getD r 0)).1 fun _ => ()).1

/-- The adjoint of the halo exchange (`functional/halo_exchange.py:77-140`) during the backward pass, on all workers: it
starts from the gradients `gl r` of the local operators, made gradients of the exchanged tensors, and has reached
the state `g`.  `S` are the setups of the halo layers made during the forward pass. -/
def WinBack {R : Type} [Zero R] [Add R] (P : Cart) (localS : Nat → List Nat × TorchDtype × Bool)
    (U : Nat → WinSetup) (S : Nat → HaloSetup) (gl : Nat → List Nat → R) (eager : Bool) (k : Nat)
    (g : Exchange.GState (List Nat → R) (List Nat → R)) : Prop :=
  Exchange.Exec (haloBackward P.shape.length S) P.members.length (haloPhases P) eager k
    (Exchange.GState.init fun r => (U r).selectGrad (winPaddedShape P localS U r) (gl r)) g

/-- The gradient of the layer's input on rank `r` once its part of the adjoint exchange is finished. -/
def inputGrad {R : Type} (P : Cart) (localS : Nat → List Nat × TorchDtype × Bool) (U : Nat → WinSetup)
    (g : Exchange.GState (List Nat → R) (List Nat → R)) (r : Nat) : List Nat → R :=
  (U r).padGrad (localS (P.members.getD r 0)).1 (g.ws r).st

/-- Gradient of the local convolution `conv_feature.py:392` on rank `r` with respect to its input.  The weight
is the one received from the broadcast; `dy r` is the gradient of the output. -/
def convLocalGradX {R : Type} [CommSemiring R] (P : Cart) (C : ConvLayer R) (rg : Bool)
    (localS : Nat → List Nat × TorchDtype × Bool) (x : Nat → List Nat → R) (U : Nat → WinSetup)
    (g : Exchange.GState (List Nat → R) (List Nat → R)) (dy : Nat → List Nat → R) (r : Nat) : List Nat → R :=
  match bcastForward (paramBcast P) (rootParam P C.weight rg) (P.members.getD r 0) with
  | some wt => torchConvGradX C.W.noPad C.groups C.Ci C.Co wt.val (localInput P 0 localS x U g r).1 (dy r)
  | none => fun _ => 0

/-- Gradient of the input of `DistributedFeatureConv*` on rank `r`: with one worker the one of the PyTorch
layer. -/
def featureGradX {R : Type} [CommSemiring R] (P : Cart) (C : ConvLayer R)
    (localS : Nat → List Nat × TorchDtype × Bool) (U : Nat → WinSetup) (dy : Nat → List Nat → R)
    (g : Exchange.GState (List Nat → R) (List Nat → R)) (r : Nat) : List Nat → R :=
  if P.members.length = 1 then
    torchConvGradX C.W C.groups C.Ci C.Co C.weight.val (localS (P.members.getD r 0)).1 (dy r)
  else inputGrad P localS U g r

/-- Gradient of the weight of `DistributedFeatureConv*` on world rank `w`: each worker's gradient of the weight
used by its local layer goes through the adjoint of the broadcast (`conv_feature.py:373-374`); with one worker it
is the one of the PyTorch layer (`conv_feature.py:370-371`).  `x r` are the local inputs by world rank, `dy r` the
gradients of the outputs by rank. -/
def featureGradW {R : Type} [CommSemiring R] (P : Cart) (C : ConvLayer R) (rg : Bool)
    (localS : Nat → List Nat × TorchDtype × Bool) (x : Nat → List Nat → R) (U : Nat → WinSetup)
    (g : Exchange.GState (List Nat → R) (List Nat → R)) (dy : Nat → List Nat → R) (w : Nat) :
    Option (Tensor R) :=
  if P.members.length = 1 then
    some ⟨C.weight.shape, C.weight.dtype, torchConvGradW C.W C.groups C.Ci C.Co (localS w).1 (x w)
      (dy (P.members.idxOf w))⟩
  else
    bcastBackward (paramBcast P) (rootParam P C.weight rg) (fun v =>
      let I := localInput P 0 localS x U g (P.members.idxOf v)
      ⟨C.weight.shape, C.weight.dtype, torchConvGradW C.W.noPad C.groups C.Ci C.Co I.1 I.2
        (dy (P.members.idxOf v))⟩) w

/-- The same for the bias `b` of the layer (`conv_feature.py:376-378`). -/
def featureGradB {R : Type} [CommSemiring R] (P : Cart) (C : ConvLayer R) (b : Tensor R) (rg : Bool)
    (localS : Nat → List Nat × TorchDtype × Bool) (x : Nat → List Nat → R) (U : Nat → WinSetup)
    (g : Exchange.GState (List Nat → R) (List Nat → R)) (dy : Nat → List Nat → R) (w : Nat) :
    Option (Tensor R) :=
  if P.members.length = 1 then
    some ⟨b.shape, b.dtype, torchConvGradB C.W C.Co (localS w).1 (dy (P.members.idxOf w))⟩
  else
    bcastBackward (paramBcast P) (rootParam P b rg) (fun v =>
      ⟨b.shape, b.dtype, torchConvGradB C.W.noPad C.Co (localInput P 0 localS x U g (P.members.idxOf v)).1
        (dy (P.members.idxOf v))⟩) w

/-- Gradient of the local average pooling `pooling.py:300` on rank `r`. -/
def avgLocalGrad {R : Type} [Field R] (P : Cart) (W : WinParams) (localS : Nat → List Nat × TorchDtype × Bool)
    (x : Nat → List Nat → R) (U : Nat → WinSetup) (g : Exchange.GState (List Nat → R) (List Nat → R))
    (dy : Nat → List Nat → R) (r : Nat) : List Nat → R :=
  torchAvgPoolGrad W.noPad (localInput P 0 localS x U g r).1 (dy r)

/-- Gradient of the local maximum pooling `pooling.py:300` on rank `r`. -/
def maxLocalGrad {F R : Type} [LinearOrder F] [OrderBot F] [CommSemiring R] (P : Cart) (W : WinParams)
    (localS : Nat → List Nat × TorchDtype × Bool) (x : Nat → List Nat → F) (U : Nat → WinSetup)
    (g : Exchange.GState (List Nat → F) (List Nat → F)) (dy : Nat → List Nat → R) (r : Nat) : List Nat → R :=
  torchMaxPoolGrad W.noPad (localInput P ⊥ localS x U g r).1 (localInput P ⊥ localS x U g r).2 (dy r)

end Verif
