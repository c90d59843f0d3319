import Verif.Linear.Model
import Verif.Loss.Model

/-!
# Networks of linear layers and their training

The layers of `nn/linear.py` one after the other, with elementwise activations applied by every worker to its own
tensor, followed by a loss of `nn/loss.py`; then `loss.backward()` and an optimizer step on the local parameters.
Nothing here is new code of the library: the definitions say how a training script calls the modelled layers
(as in `examples/basics/ex_distributed_loss.py`).
-/

namespace Verif

/-- A linear layer in a network.  `frame` is the layer of `linear.py:53-83` (its `weight` and `bias` are not used);
`wst v c` is what worker `v` stores for entry `c` of its weight, the number and the optimizer's data (momentum, step
counter and the like); `bst` the same for the bias.  `act` is the activation after the layer and `dact` its
derivative. -/
structure NetLayer (R σ : Type) where
  frame : LinearLayer R
  wst : Nat → List Nat → σ
  bst : Nat → List Nat → σ
  act : R → R
  dact : R → R

section
variable {R σ : Type}

/-- The layer with the numbers of the parameters (`linear.py:79`). -/
def NetLayer.lin (val : σ → R) (ℓ : NetLayer R σ) : LinearLayer R :=
  { ℓ.frame with weight := fun v c => val (ℓ.wst v c), bias := fun v c => val (ℓ.bst v c) }

/-- An elementwise activation. -/
def actForward (f : R → R) (t : Tensor R) : Tensor R := ⟨t.shape, t.dtype, fun i => f (t.val i)⟩

/-- Gradient of the input `z` of an elementwise activation. -/
def actBackward [Mul R] (df : R → R) (z dy : Tensor R) : Tensor R :=
  ⟨dy.shape, dy.dtype, fun i => dy.val i * df (z.val i)⟩

/-- A successful forward pass through the layers from input `x` to output `y` on all workers; for every layer
the input and the result before the activation are kept for backward. -/
inductive NetForward [CommSemiring R] (val : σ → R) (rg : Nat → Bool) : List (NetLayer R σ) →
    (Nat → Tensor R) → List ((Nat → Tensor R) × (Nat → Tensor R)) → (Nat → Tensor R) → Prop
  | nil (x) : NetForward val rg [] x [] x
  | cons (ℓ ls x z tr y) : (∀ w, linearForward (ℓ.lin val) ⟨x, rg⟩ rg w = some (z w)) →
      NetForward val rg ls (fun w => actForward ℓ.act (z w)) tr y →
      NetForward val rg (ℓ :: ls) x ((x, z) :: tr) y

/-- Gradients of weight and bias of one worker. -/
abbrev ParamGrads (R : Type) := (List Nat → R) × Option (List Nat → R)

/-- A successful backward pass: from the gradients `dy` of the output to the gradients `dx` of the input and the
gradients of the parameters of every layer. -/
inductive NetBackward [CommSemiring R] (val : σ → R) (rg : Nat → Bool) : List (NetLayer R σ) →
    List ((Nat → Tensor R) × (Nat → Tensor R)) → (Nat → Tensor R) → List (Nat → ParamGrads R) →
    (Nat → Tensor R) → Prop
  | nil (dy) : NetBackward val rg [] [] dy [] dy
  | cons (ℓ ls x z tr dy gs d g dx) : NetBackward val rg ls tr dy gs d →
      (∀ v ∈ ℓ.frame.Pw.members, linearParamGrads (ℓ.lin val) ⟨x, rg⟩ rg
        (fun w => actBackward ℓ.dact (z w) (d w)) v = some (g v)) →
      (∀ w, linearBackward (ℓ.lin val) ⟨x, rg⟩ rg (fun w => actBackward ℓ.dact (z w) (d w)) w = some (dx w)) →
      NetBackward val rg (ℓ :: ls) ((x, z) :: tr) dy (g :: gs) dx

/-- The optimizer: every worker of `P_w` updates the entries of its parameters, each from its gradient. -/
def NetLayer.update (upd : σ → R → σ) (ℓ : NetLayer R σ) (g : Nat → ParamGrads R) : NetLayer R σ :=
  { ℓ with
    wst := fun v c => upd (ℓ.wst v c) ((g v).1 c)
    bst := fun v c => match (g v).2 with
      | some db => upd (ℓ.bst v c) (db c)
      | none => ℓ.bst v c }

/-- One training step with input `x` and target `t`, which turns the layers `ls` into `ls'`: forward, loss `out`,
`loss.backward()` on the workers of the loss, which starts with ones; backward with a gradient of at least one
dimension on the other workers; optimizer step. -/
def TrainStep [Field R] (val : σ → R) (upd : σ → R → σ) (rg : Nat → Bool) (M : LossLayer) (ell dell : R → R → R)
    (x t : Nat → Tensor R) (ls ls' : List (NetLayer R σ)) (out : Nat → Tensor R) : Prop :=
  ∃ tr y dy gs dx, NetForward val rg ls x tr y ∧
    (∀ w ∈ M.P.members, lossForward M ell y t rg w = some (out w)) ∧
    (∀ w ∈ M.P.members, lossBackward M ell dell y t rg
      (fun w => ⟨(out w).shape, (out w).dtype, fun _ => 1⟩) w = some (dy w)) ∧
    (∀ w, w ∉ M.P.members → (dy w).shape ≠ []) ∧
    NetBackward val rg ls tr dy gs dx ∧ ls' = List.zipWith (NetLayer.update upd) ls gs

/-- Training with a list of batches; the losses are collected. -/
inductive Train [Field R] (val : σ → R) (upd : σ → R → σ) (rg : Nat → Bool) (M : LossLayer)
    (ell dell : R → R → R) : List ((Nat → Tensor R) × (Nat → Tensor R)) → List (NetLayer R σ) →
    List (NetLayer R σ) → List (Nat → Tensor R) → Prop
  | nil (ls) : Train val upd rg M ell dell [] ls ls []
  | cons (x t bs ls ls' ls'' out outs) : TrainStep val upd rg M ell dell x t ls ls' out →
      Train val upd rg M ell dell bs ls' ls'' outs →
      Train val upd rg M ell dell ((x, t) :: bs) ls ls'' (out :: outs)

end

/-! ## Specification: the sequential network -/

/-- A sequential layer `act (X Wᵀ + β)`; every entry of the parameters has optimizer data. -/
structure SeqLayer (R σ : Type) where
  nin : Nat
  nout : Nat
  useBias : Bool
  W : List Nat → σ
  β : List Nat → σ
  act : R → R
  dact : R → R

section
variable {R σ : Type}

/-- `X Wᵀ + β`. -/
def SeqLayer.pre [CommSemiring R] (val : σ → R) (s : SeqLayer R σ) (X : List Nat → R) : List Nat → R := fun i =>
  (∑ k ∈ Finset.range s.nin, X (i.dropLast ++ [k]) * val (s.W [i.getLastD 0, k])) +
    if s.useBias then val (s.β [i.getLastD 0]) else 0

/-- Forward through the layers. -/
def seqForward [CommSemiring R] (val : σ → R) : List (SeqLayer R σ) → (List Nat → R) → List Nat → R
  | [], X => X
  | s :: ss, X => seqForward val ss fun i => s.act (s.pre val X i)

/-- Back-propagation with batch dimensions `bs`: the gradient of the input, and the layers after the optimizer step;
`top Y` is the gradient of the output `Y`. -/
def seqBackprop [CommSemiring R] (val : σ → R) (upd : σ → R → σ) (bs : List Nat)
    (top : (List Nat → R) → List Nat → R) :
    List (SeqLayer R σ) → (List Nat → R) → (List Nat → R) × List (SeqLayer R σ)
  | [], X => (top X, [])
  | s :: ss, X =>
    let r := seqBackprop val upd bs top ss fun i => s.act (s.pre val X i)
    let dZ : List Nat → R := fun i => r.1 i * s.dact (s.pre val X i)
    (fun i => ∑ o ∈ Finset.range s.nout, dZ (i.dropLast ++ [o]) * val (s.W [o, i.getLastD 0]),
      { s with
        W := fun c => upd (s.W c) (boxSum bs fun b => dZ (b ++ [c.getD 0 0]) * X (b ++ [c.getD 1 0]))
        β := fun c => if s.useBias then upd (s.β c) (boxSum bs fun b => dZ (b ++ [c.getD 0 0])) else s.β c } :: r.2)

/-- Sequential training with batches of `b` samples: the final layers and the losses. -/
def seqTrain [Field R] (val : σ → R) (upd : σ → R → σ) (b n : Nat) (dt : TorchDtype) (red : String)
    (ell dell : R → R → R) :
    List ((List Nat → R) × Tensor R) → List (SeqLayer R σ) → List (SeqLayer R σ) × List (Option (Tensor R))
  | [], ss => (ss, [])
  | (X, T) :: bs, ss =>
    let out := torchLoss ell red ⟨[b, n], dt, seqForward val ss X⟩ T
    let r := seqTrain val upd b n dt red ell dell bs (seqBackprop val upd [b]
      (fun Y => (torchLossGrad dell red ⟨[b, n], dt, Y⟩ T ⟨[], dt, fun _ => 1⟩).val) ss X).2
    (r.1, out :: r.2)

end

end Verif
