import Verif.Grad.Model
import Verif.Conv.Model

/-!
# Backward passes of the channel-distributed and the general convolution

What autograd makes of `conv_channel.py:323-348` and `conv_general.py:536-589`; see `Grad/Model.lean`.
-/

namespace Verif

section
variable {R : Type} [CommSemiring R]

/-- Gradient of the input `x` of a PyTorch convolution, `dy` being the gradient of its output (the local layer of
`conv_channel.py:344` and `conv_general.py:585`). -/
def convGradInput (W : WinParams) (groups ci co : Nat) (weight : List Nat → R) (x dy : Tensor R) : Tensor R :=
  ⟨x.shape, x.dtype, torchConvGradX W groups ci co weight x.shape dy.val⟩

/-! ## Channel-distributed convolution -/

/-- Gradient of the input on worker `w` for output gradients `y`: backward of `y_sum_reduce`, of the local layer and
of `x_broadcast` (`conv_channel.py:341-346`), or of the PyTorch layer alone (`conv_channel.py:338-339`). -/
def channelGradX (C : ChanConv) (weight bias : Nat → List Nat → R) (I : Inputs R) (rg : Nat → Bool)
    (y : Nat → Tensor R) (w : Nat) : Option (Tensor R) :=
  if w ∉ C.Px.members ∧ w ∉ C.Py.members ∧ w ∉ C.Pw.members then some (y w)
  else
    match castPartitions true C.Px C.Py C.Pw with
    | none => none
    | some (x, yc) =>
      if C.Pw.members.length = 1 then
        if w ∈ C.Pw.members then some (convGradInput C.W C.groups C.Ci C.Co (weight w) (I.x w) (y w)) else none
      else stackBackward (chanBroadcast x C.Pw) (chanReduce C.Pw yc) I (channelLocal C weight bias)
        (fun v => convGradInput C.W C.groups ((C.localChannels v).getD 1 0) ((C.localChannels v).getD 0 0)
          (weight v)) rg y w

/-- Gradients of the weight and, if it has one, of the bias of the local layer of worker `w` of `P_w`
(`conv_channel.py:213-224`). -/
def channelGradP (C : ChanConv) (weight bias : Nat → List Nat → R) (I : Inputs R) (rg : Nat → Bool)
    (y : Nat → Tensor R) (w : Nat) : Option ((List Nat → R) × Option (List Nat → R)) :=
  match castPartitions true C.Px C.Py C.Pw with
  | none => none
  | some (x, yc) =>
    if C.Pw.members.length = 1 then
      some (torchConvGradW C.W C.groups C.Ci C.Co (I.x w).shape (I.x w).val (y w).val,
        if C.useBias then some (torchConvGradB C.W C.Co (I.x w).shape (y w).val) else none)
    else
      let ci := (C.localChannels w).getD 1 0
      let co := (C.localChannels w).getD 0 0
      match bcastForward (chanBroadcast x C.Pw) I w,
          midGrad (chanBroadcast x C.Pw) (chanReduce C.Pw yc) I (channelLocal C weight bias) rg y w with
      | some z, some dy => some (torchConvGradW C.W C.groups ci co z.shape z.val dy.val,
          if C.storesBias w then some (torchConvGradB C.W co z.shape dy.val) else none)
      | _, _ => none

/-! ## General convolution -/

/-- Gradient of the input of the local layer of worker `v`; its weight is the one received from the broadcast
(`conv_general.py:571-574`, `conv_general.py:585`). -/
def generalLocalGradX (C : ChanConv) (Pwr : Cart) (weight : Nat → Tensor R) (rgp : Bool) (v : Nat)
    (x dy : Tensor R) : Tensor R :=
  match bcastForward (paramLayer Pwr C.Pw) (storedParam Pwr weight rgp) v with
  | some wt => convGradInput C.W.noPad C.groups ((C.localChannels v).getD 1 0) ((C.localChannels v).getD 0 0) wt.val
      x dy
  | none => ⟨x.shape, x.dtype, fun _ => 0⟩

/-- The gradient of what worker `w` handed to `x_broadcast` (`conv_general.py:581-587` backwards). -/
def generalGradIn (C : ChanConv) (x yc Pwr Pb Pbr : Cart) (weight bias : Nat → Tensor R) (rgp : Bool)
    (localS : Nat → List Nat × TorchDtype × Bool) (inp : Nat → List Nat → R) (U : Nat → WinSetup)
    (g : Exchange.GState (List Nat → R) (List Nat → R)) (rgx rg : Nat → Bool) (y : Nat → Tensor R) (w : Nat) :
    Option (Tensor R) :=
  stackBackward (chanBroadcast x C.Pw) (chanReduce C.Pw yc) (generalInputs x localS inp U g rgx)
    (generalLocal C Pwr Pb Pbr weight bias rgp) (generalLocalGradX C Pwr weight rgp) rg y w

/-- The gradients with which the workers of `P_x`, numbered by rank, enter the adjoint of the halo exchange,
before the cut of `conv_general.py:568` is undone; a missing tensor stands for an exception. -/
def generalExchanged (C : ChanConv) (weight bias : Nat → Tensor R) (rgp : Bool)
    (localS : Nat → List Nat × TorchDtype × Bool) (inp : Nat → List Nat → R) (U : Nat → WinSetup)
    (g : Exchange.GState (List Nat → R) (List Nat → R)) (rgx rg : Nat → Bool) (y : Nat → Tensor R) (r : Nat) :
    Option (Tensor R) :=
  match castPartitions false C.Px C.Py C.Pw, weightRoot C.Pw, biasPart C.Pw, biasRoot C.Pw with
  | some (x, yc), some Pwr, some Pb, some Pbr =>
    generalGradIn C x yc Pwr Pb Pbr weight bias rgp localS inp U g rgx rg y (x.members.getD r 0)
  | _, _, _, _ => none

/-- Gradient of the input on worker `w` (`conv_general.py:546-587` backwards); `g'` is the state of the adjoint of the
halo exchange, see `WinBack`. -/
def generalGradX (C : ChanConv) (weight bias : Nat → Tensor R) (rgp : Bool)
    (localS : Nat → List Nat × TorchDtype × Bool) (inp : Nat → List Nat → R) (U : Nat → WinSetup)
    (g : Exchange.GState (List Nat → R) (List Nat → R)) (rgx rg : Nat → Bool) (y : Nat → Tensor R)
    (g' : Exchange.GState (List Nat → R) (List Nat → R)) (w : Nat) : Option (Tensor R) :=
  if w ∉ C.Px.members ∧ w ∉ C.Py.members ∧ w ∉ C.Pw.members then some (y w)
  else
    match castPartitions false C.Px C.Py C.Pw with
    | none => none
    | some (x, yc) =>
      if C.Pw.members.length = 1 then
        if w ∈ C.Pw.members then
          some (convGradInput C.W C.groups C.Ci C.Co (weight w).val ⟨(localS w).1, (localS w).2.1, inp w⟩ (y w))
        else none
      else if w ∈ x.members then
        some ⟨(localS w).1, (localS w).2.1, inputGrad x localS U g' (x.members.idxOf w)⟩
      else
        match weightRoot C.Pw, biasPart C.Pw, biasRoot C.Pw with
        | some Pwr, some Pb, some Pbr =>
          generalGradIn C x yc Pwr Pb Pbr weight bias rgp localS inp U g rgx rg y w
        | _, _, _ => none

/-- What the local layer of worker `v` of `P_w` was given and the gradient of its output (`conv_general.py:585`). -/
def generalLocalPair (C : ChanConv) (x yc Pwr Pb Pbr : Cart) (weight bias : Nat → Tensor R) (rgp : Bool)
    (localS : Nat → List Nat × TorchDtype × Bool) (inp : Nat → List Nat → R) (U : Nat → WinSetup)
    (g : Exchange.GState (List Nat → R) (List Nat → R)) (rgx rg : Nat → Bool) (y : Nat → Tensor R) (v : Nat) :
    Option (Tensor R × Tensor R) :=
  match bcastForward (chanBroadcast x C.Pw) (generalInputs x localS inp U g rgx) v,
      midGrad (chanBroadcast x C.Pw) (chanReduce C.Pw yc) (generalInputs x localS inp U g rgx)
        (generalLocal C Pwr Pb Pbr weight bias rgp) rg y v with
  | some z, some dy => some (z, dy)
  | _, _ => none

/-- The local gradient `loc v` of a parameter received from a broadcast `L` (`conv_general.py:574`,
`conv_general.py:579`): it has the shape and the type of the
received tensor.  A missing tensor stands for an exception. -/
def receivedLocal (L : PairLayer) (I : Inputs R) (loc : Nat → Option (List Nat → R)) (v : Nat) : Tensor R :=
  match bcastForward L I v, loc v with
  | some a, some f => ⟨a.shape, a.dtype, f⟩
  | _, _ => ⟨[], .float64, fun _ => 0⟩

/-- The gradient of a parameter that the local layers of several workers received from a broadcast `L`: the local
gradients go through the adjoint of the broadcast (`conv_general.py:573`, `conv_general.py:578`). -/
def receivedGrad (L : PairLayer) (I : Inputs R) (loc : Nat → Option (List Nat → R)) (w : Nat) : Option (Tensor R) :=
  bcastBackward L I (receivedLocal L I loc) w

/-- Gradient of the weight stored on worker `w` of `P_w` (`conv_general.py:571-574`). -/
def generalGradW (C : ChanConv) (weight bias : Nat → Tensor R) (rgp : Bool)
    (localS : Nat → List Nat × TorchDtype × Bool) (inp : Nat → List Nat → R) (U : Nat → WinSetup)
    (g : Exchange.GState (List Nat → R) (List Nat → R)) (rgx rg : Nat → Bool) (y : Nat → Tensor R) (w : Nat) :
    Option (Tensor R) :=
  match castPartitions false C.Px C.Py C.Pw with
  | none => none
  | some (x, yc) =>
    if C.Pw.members.length = 1 then
      some ⟨(weight w).shape, (weight w).dtype,
        torchConvGradW C.W C.groups C.Ci C.Co (localS w).1 (inp w) (y w).val⟩
    else
      match weightRoot C.Pw, biasPart C.Pw, biasRoot C.Pw with
      | some Pwr, some Pb, some Pbr =>
        receivedGrad (paramLayer Pwr C.Pw) (storedParam Pwr weight rgp) (fun v =>
          (generalLocalPair C x yc Pwr Pb Pbr weight bias rgp localS inp U g rgx rg y v).map fun q =>
            torchConvGradW C.W.noPad C.groups ((C.localChannels v).getD 1 0) ((C.localChannels v).getD 0 0)
              q.1.shape q.1.val q.2.val) w
      | _, _, _ => none

/-- Gradient of the bias stored on worker `w` of `P_w`, with `use_bias` (`conv_general.py:576-579`). -/
def generalGradB (C : ChanConv) (weight bias : Nat → Tensor R) (rgp : Bool)
    (localS : Nat → List Nat × TorchDtype × Bool) (inp : Nat → List Nat → R) (U : Nat → WinSetup)
    (g : Exchange.GState (List Nat → R) (List Nat → R)) (rgx rg : Nat → Bool) (y : Nat → Tensor R) (w : Nat) :
    Option (Tensor R) :=
  match castPartitions false C.Px C.Py C.Pw with
  | none => none
  | some (x, yc) =>
    if C.Pw.members.length = 1 then
      some ⟨(bias w).shape, (bias w).dtype, torchConvGradB C.W C.Co (localS w).1 (y w).val⟩
    else
      match weightRoot C.Pw, biasPart C.Pw, biasRoot C.Pw with
      | some Pwr, some Pb, some Pbr =>
        receivedGrad (paramLayer Pbr Pb) (storedParam Pbr bias rgp) (fun v =>
          (generalLocalPair C x yc Pwr Pb Pbr weight bias rgp localS inp U g rgx rg y v).map fun q =>
            torchConvGradB C.W.noPad ((C.localChannels v).getD 0 0) q.1.shape q.2.val) w
      | _, _, _ => none

end

end Verif
