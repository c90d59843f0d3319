import Verif.Conv.Model
import Verif.BatchNorm.Model

/-!
# What the constructors of the layers store

The parameters and buffers that `__init__` leaves on each worker: `nn/linear.py`, `nn/conv_feature.py`,
`nn/conv_channel.py`, `nn/conv_general.py`, `nn/batchnorm.py`.  A parameter shared by a layer and its local PyTorch
layer (`self.weight = self.conv_layer.weight`) is one parameter.
-/

namespace Verif

/-- An attribute of a module. -/
inductive Slot where
  /-- the attribute does not exist, or is `None` -/
  | empty
  /-- a buffer, which no optimiser sees -/
  | buffer (shape : List Nat)
  /-- a `torch.nn.Parameter` -/
  | param (shape : List Nat)
deriving DecidableEq

/-- `zero_volume_tensor()` as a buffer (`utilities/torch.py`). -/
def Slot.zero : Slot := .buffer [0]

/-- Weight and bias of `torch.nn.Linear(n, m, bias)`. -/
def torchLinearSlots (n m : Nat) (bias : Bool) : Slot × Slot := (.param [m, n], if bias then .param [m] else .empty)

/-- Weight and bias of `torch.nn.ConvNd(ci, co, k, groups, bias)`. -/
def torchConvSlots (ci co groups : Nat) (k : List Nat) (bias : Bool) : Slot × Slot :=
  (.param (co :: ci / groups :: k), if bias then .param [co] else .empty)

/-- `linear.py:70-79`. -/
def LinearLayer.slots {R : Type} (L : LinearLayer R) (w : Nat) : Slot × Slot :=
  if w ∈ L.Pw.members then torchLinearSlots (L.localIn w) (L.localOut w) (L.localBias w) else (.empty, .empty)

/-- `conv_feature.py:110-203`; the parameters of the local layer are replaced by tensors that are not parameters
(`conv_feature.py:193-203`). -/
def featureSlots (P : Cart) (ci co groups : Nat) (k : List Nat) (bias : Bool) (w : Nat) : Slot × Slot :=
  if w ∉ P.members then (.empty, .empty)
  else if P.members.length = 1 then torchConvSlots ci co groups k bias
  else if w ∈ (rootCart P).members then torchConvSlots ci co groups k bias
  else (.zero, if bias then .zero else .empty)

/-- `conv_channel.py:104-242`; `none`: an exception. -/
def channelSlots (C : ChanConv) (w : Nat) : Option (Slot × Slot) :=
  if w ∉ C.Px.members ∧ w ∉ C.Py.members ∧ w ∉ C.Pw.members then some (.empty, .empty)
  else
    match castPartitions true C.Px C.Py C.Pw with
    | none => none
    | some _ =>
      if w ∈ C.Pw.members then
        if C.Pw.members.length = 1 then some (torchConvSlots C.Ci C.Co C.groups C.W.k C.useBias)
        else
          let l := torchConvSlots ((C.localChannels w).getD 1 0) ((C.localChannels w).getD 0 0) C.groups C.W.k
            (C.storesBias w)
          some (l.1, if C.storesBias w then l.2 else if C.useBias then .zero else .empty)
      else some (.zero, if C.useBias then .zero else .empty)

/-- `conv_general.py:118-347`; the parameters of the local layer are replaced by tensors that are not parameters
(`conv_general.py:314-318`, `335-339`). -/
def generalSlots (C : ChanConv) (w : Nat) : Option (Slot × Slot) :=
  if w ∉ C.Px.members ∧ w ∉ C.Py.members ∧ w ∉ C.Pw.members then some (.empty, .empty)
  else
    match castPartitions false C.Px C.Py C.Pw with
    | none => none
    | some _ =>
      if w ∈ C.Pw.members then
        if C.Pw.members.length = 1 then some (torchConvSlots C.Ci C.Co C.groups C.W.k C.useBias)
        else
          match weightRoot C.Pw, biasPart C.Pw, biasRoot C.Pw with
          | some Pwr, some Pb, some Pbr =>
            let l := torchConvSlots ((C.localChannels w).getD 1 0) ((C.localChannels w).getD 0 0) C.groups C.W.k
              (decide (w ∈ Pb.members) && C.useBias)
            some (if w ∈ Pwr.members then l.1 else .zero,
              if w ∈ Pbr.members ∧ C.useBias then l.2 else if C.useBias then .zero else .empty)
          | _, _, _ => none
      else some (.zero, if C.useBias then .zero else .empty)

/-- `batchnorm.py:95-101`: scale and shift; `none`: an exception. -/
def normSlots {R : Type} (P : Cart) (numFeatures : Nat) (eps : R) (momentum : Option R) (affine track : Bool) (w : Nat) :
    Option (Slot × Slot) :=
  (newBatchNorm P numFeatures eps momentum affine track w).bind fun M =>
    (localFeatures P numFeatures w).map fun c =>
      if M.affine then
        if w ∈ M.Psum.members then
          (.param (channelShape P.shape.length c), .param (channelShape P.shape.length c))
        else (.zero, .zero)
      else (.empty, .empty)

/-! ## Initial values -/

/-- PyTorch draws the initial entries of a weight of this shape, and of the bias beside it, uniformly between
`-1 / sqrt n` and `1 / sqrt n` where `n` is this number (`torch.nn.init`: fan in). -/
def fanIn (shape : List Nat) : Nat := shape.tail.prod

/-- The number used on worker `w` of `P_w` (`linear.py:79`). -/
def LinearLayer.fan {R : Type} (L : LinearLayer R) (w : Nat) : Nat := fanIn [L.localOut w, L.localIn w]

/-- The number used on worker `w` of `P_w` (`conv_channel.py:213-224`, `conv_general.py:290-301`), whose local layer
initialises the parameters. -/
def ChanConv.fan (C : ChanConv) (w : Nat) : Nat :=
  if C.Pw.members.length = 1 then fanIn (C.Co :: C.Ci / C.groups :: C.W.k)
  else fanIn ((C.localChannels w).getD 0 0 :: (C.localChannels w).getD 1 0 / C.groups :: C.W.k)

end Verif
