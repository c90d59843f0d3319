import Verif.Collective.Model
import Verif.Layout

/-!
# Model of the layers made of broadcast, local operator and sum-reduction, and of the linear layer

`nn/linear.py` (`DistributedLinear`).  The same three steps make up the channel-distributed
(`nn/conv_channel.py`) and the general convolution (`nn/conv_general.py`).
-/

namespace Verif

/-! ## Broadcast, local operator, sum-reduction -/

section
variable {R : Type} [AddCommMonoid R]

/-- The tensor of worker `v` between the local operator `op` and the sum-reduction
(`linear.py:98-103`, `conv_channel.py:341-344`): only workers of `P_w` (the destination of the broadcast)
apply the operator.  `none`: an exception. -/
def midTensor (Lx : PairLayer) (I : Inputs R) (op : Nat → Tensor R → Option (Tensor R)) (v : Nat) :
    Option (Tensor R) :=
  if v ∈ Lx.Py.members then (bcastForward Lx I v).bind (op v) else bcastForward Lx I v

/-- The inputs of the sum-reduction; a missing tensor stands for a worker that raised. -/
def midInputs (Lx : PairLayer) (I : Inputs R) (op : Nat → Tensor R → Option (Tensor R)) (rg : Nat → Bool) :
    Inputs R :=
  ⟨fun v => (midTensor Lx I op v).getD ⟨[], .float64, fun _ => 0⟩, rg⟩

/-- The workers taking part in the layer. -/
def layerWorkers (Lx Ly : PairLayer) : List Nat :=
  groupUnion (groupUnion Lx.Px.members Lx.Py.members) Ly.Py.members

/-- Forward of a layer of this kind on worker `w` (`linear.py:95-108`, `conv_channel.py:333-348`): a
worker outside the three partitions returns a clone.  Simplification: an exception on one worker is taken
to end the call on all of them. -/
def stackForward (Lx Ly : PairLayer) (I : Inputs R) (op : Nat → Tensor R → Option (Tensor R))
    (rg : Nat → Bool) (w : Nat) : Option (Tensor R) :=
  if w ∉ Lx.Px.members ∧ w ∉ Ly.Py.members ∧ w ∉ Lx.Py.members then some (I.x w)
  else if (layerWorkers Lx Ly).all fun v => (midTensor Lx I op v).isSome then
    reduceForward Ly (midInputs Lx I op rg) w
  else none

/-- The gradient that reaches the local operator of worker `v` (backward of the sum-reduction). -/
def midGrad (Lx Ly : PairLayer) (I : Inputs R) (op : Nat → Tensor R → Option (Tensor R))
    (rg : Nat → Bool) (y : Nat → Tensor R) (v : Nat) : Option (Tensor R) :=
  reduceBackward Ly (midInputs Lx I op rg) y v

/-- The gradient of the broadcast tensors: `opB v x dy` is the gradient of the local operator's input. -/
def inGrad (Lx Ly : PairLayer) (I : Inputs R) (op : Nat → Tensor R → Option (Tensor R))
    (opB : Nat → Tensor R → Tensor R → Tensor R) (rg : Nat → Bool) (y : Nat → Tensor R) (v : Nat) :
    Option (Tensor R) :=
  if v ∈ Lx.Py.members then
    match bcastForward Lx I v, midGrad Lx Ly I op rg y v with
    | some x, some dy => some (opB v x dy)
    | _, _ => none
  else midGrad Lx Ly I op rg y v

/-- Backward of such a layer on worker `w`, output gradients `y`: autograd runs the backward functions of
the three steps in reverse order. -/
def stackBackward (Lx Ly : PairLayer) (I : Inputs R) (op : Nat → Tensor R → Option (Tensor R))
    (opB : Nat → Tensor R → Tensor R → Tensor R) (rg : Nat → Bool) (y : Nat → Tensor R) (w : Nat) :
    Option (Tensor R) :=
  if w ∉ Lx.Px.members ∧ w ∉ Ly.Py.members ∧ w ∉ Lx.Py.members then some (y w)
  else if (layerWorkers Lx Ly).all fun v => (inGrad Lx Ly I op opB rg y v).isSome then
    bcastBackward Lx I (fun v => (inGrad Lx Ly I op opB rg y v).getD ⟨[], .float64, fun _ => 0⟩) w
  else none

end

/-! ## The linear layer -/

/-- `linear.py:53-83`: the layer.  `sx`, `sy` tell whether `P_x == P_w`, `P_w == P_y`; `weight w`, `bias w`
are the parameters of the local layer of worker `w`. -/
structure LinearLayer (R : Type) where
  Px : Cart
  Py : Cart
  Pw : Cart
  sx : Bool
  sy : Bool
  inFeatures : Nat
  outFeatures : Nat
  useBias : Bool
  weight : Nat → List Nat → R
  bias : Nat → List Nat → R

section
variable {R : Type}

/-- `linear.py:68`. -/
def LinearLayer.xBroadcast (L : LinearLayer R) : PairLayer := ⟨L.Px, L.Pw, false, false, true, L.sx⟩

/-- `linear.py:82-83`. -/
def LinearLayer.ySumReduce (L : LinearLayer R) : PairLayer := ⟨L.Pw, L.Py, true, false, true, L.sy⟩

/-- `linear.py:74`: input features of the local layer of worker `w` of `P_w`. -/
def LinearLayer.localIn (L : LinearLayer R) (w : Nat) : Nat :=
  (computeSubshape [L.Pw.shape.getD 1 0] [((L.Pw.index w).getD []).getD 1 0] [L.inFeatures]).getD 0 0

/-- `linear.py:75`: output features of the local layer. -/
def LinearLayer.localOut (L : LinearLayer R) (w : Nat) : Nat :=
  (computeSubshape [L.Pw.shape.getD 0 0] [((L.Pw.index w).getD []).getD 0 0] [L.outFeatures]).getD 0 0

/-- `linear.py:78`: does the local layer have a bias? -/
def LinearLayer.localBias (L : LinearLayer R) (w : Nat) : Bool :=
  if ((L.Pw.index w).getD []).getLastD 0 = 0 then L.useBias else false

/-- `torch.nn.Linear(n, m, bias)` by its documentation: `y = x Wᵀ + b` along the last dimension; a last
dimension other than `n` is an error.  A layer without input features counts as an error too: the
initialisation of its weight divides by zero in PyTorch versions of the time. -/
def torchLinear [AddCommMonoid R] [Mul R] (n m : Nat) (hasBias : Bool) (weight bias : List Nat → R) (x : Tensor R) :
    Option (Tensor R) :=
  if 0 < n ∧ x.shape.getLast? = some n then
    some ⟨x.shape.dropLast ++ [m], x.dtype, fun i =>
      (∑ k ∈ Finset.range n, x.val (i.dropLast ++ [k]) * weight [i.getLastD 0, k]) +
        if hasBias then bias [i.getLastD 0] else 0⟩
  else none

/-- Gradient of the input of `torch.nn.Linear`: `dy W`. -/
def torchLinearGradInput [CommSemiring R] (m : Nat) (weight : List Nat → R) (x dy : Tensor R) : Tensor R :=
  ⟨x.shape, x.dtype, fun i =>
    ∑ o ∈ Finset.range m, dy.val (i.dropLast ++ [o]) * weight [o, i.getLastD 0]⟩

/-- Gradient of the weight of `torch.nn.Linear`: `dyᵀ x`, summed over the leading dimensions. -/
def torchLinearGradWeight [CommSemiring R] (x dy : Tensor R) : List Nat → R := fun c =>
  boxSum x.shape.dropLast fun b => dy.val (b ++ [c.getD 0 0]) * x.val (b ++ [c.getD 1 0])

/-- Gradient of the bias of `torch.nn.Linear`: the sum of `dy` over the leading dimensions. -/
def torchLinearGradBias [CommSemiring R] (dy : Tensor R) : List Nat → R := fun c =>
  boxSum dy.shape.dropLast fun b => dy.val (b ++ [c.getD 0 0])

/-- `linear.py:79`, `102-103`: the local layer. -/
def LinearLayer.sublinear [AddCommMonoid R] [Mul R] (L : LinearLayer R) (w : Nat) (x : Tensor R) :
    Option (Tensor R) :=
  torchLinear (L.localIn w) (L.localOut w) (L.localBias w) (L.weight w) (L.bias w) x

/-- `linear.py:85-108` `forward` on worker `w`. -/
def linearForward [AddCommMonoid R] [Mul R] (L : LinearLayer R) (I : Inputs R) (rg : Nat → Bool) (w : Nat) :
    Option (Tensor R) :=
  stackForward L.xBroadcast L.ySumReduce I L.sublinear rg w

/-- Backward of the layer: gradient of the input of worker `w`. -/
def linearBackward [CommSemiring R] (L : LinearLayer R) (I : Inputs R) (rg : Nat → Bool)
    (y : Nat → Tensor R) (w : Nat) : Option (Tensor R) :=
  stackBackward L.xBroadcast L.ySumReduce I L.sublinear
    (fun v x dy => torchLinearGradInput (L.localOut v) (L.weight v) x dy) rg y w

/-- Backward of the layer: gradients of the weight and, if it has one, the bias of the local layer of
worker `w`. -/
def linearParamGrads [CommSemiring R] (L : LinearLayer R) (I : Inputs R) (rg : Nat → Bool)
    (y : Nat → Tensor R) (w : Nat) : Option ((List Nat → R) × Option (List Nat → R)) :=
  match bcastForward L.xBroadcast I w, midGrad L.xBroadcast L.ySumReduce I L.sublinear rg y w with
  | some x, some dy => some (torchLinearGradWeight x dy,
      if L.localBias w then some (torchLinearGradBias dy) else none)
  | _, _ => none

end

end Verif
