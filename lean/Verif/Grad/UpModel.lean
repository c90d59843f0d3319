import Verif.Interp.Model
import Verif.Grad.Model

/-!
# Backward pass of `DistributedUpsample`

What autograd makes of `upsampling.py:269-284`: the operations in reverse order, each replaced by its gradient.
-/

namespace Verif

section
variable {K : Type} [Field K]

/-- Gradient of `upsampling.py:273-279`; nothing was done when all widths are 0. -/
def UpSetup.padGrad (U : UpSetup) (shape : List Nat) (dy : List Nat → K) : List Nat → K :=
  let pad := U.info.recv.map fun h => (h.1.toNat, h.2.toNat)
  if (pad.map fun q => q.1 + q.2).sum = 0 then dy
  else torchPadGrad (toTorchPadding pad) shape.length dy

/-- Gradient of `upsampling.py:282`, `input_exchanged[self.needed_slices]`: zero at the entries that are not
selected.  `shape` is the shape of the padded tensor. -/
def UpSetup.selectGrad (U : UpSetup) (shape : List Nat) (dy : List Nat → K) : List Nat → K :=
  writeSlice (pySlices shape U.info.needed) dy fun _ => 0

/-- The shape of the padded tensor on rank `r`; it does not depend on the entries. -/
def upPaddedShape (K : Type) [Field K] (P : Cart) (localS : Nat → List Nat × TorchDtype × Bool) (U : Nat → UpSetup)
    (r : Nat) : List Nat :=
  ((U r).padInput (localS (P.members.getD r 0)).1 fun _ => (0 : K)).1

variable [LinearOrder K] [FloorRing K]

/-- A backward pass on all workers: `dy r` is the gradient of the output of rank `r`, `gl r` the one of the input of
its local interpolation (`upsampling.py:283`, `functional/interpolate/interpolate.py:103-145`).  The adjoint of the halo exchange
(`functional/halo_exchange.py:77-140`) has reached the state `g`.  `S` are the setups of the halo layers made during the
forward pass. -/
structure UpBack (P : Cart) (p : InterpParams K) (localS : Nat → List Nat × TorchDtype × Bool) (U : Nat → UpSetup)
    (S : Nat → HaloSetup) (dy gl : Nat → Tensor K) (eager : Bool) (k : Nat)
    (g : Exchange.GState (List Nat → K) (List Nat → K)) : Prop where
  loc : ∀ r, r < P.members.length →
    interpBackward p (U r).xs (U r).xe (U r).gx (U r).ys (U r).gy (dy r) = some (gl r)
  exec : Exchange.Exec (haloBackward P.shape.length S) P.members.length (haloPhases P) eager k
    (Exchange.GState.init fun r => (U r).selectGrad (upPaddedShape K P localS U r) (gl r).val) g

omit [LinearOrder K] [FloorRing K] in
/-- The gradient of the layer's input on rank `r` once its part of the adjoint exchange is finished. -/
def upGrad (P : Cart) (localS : Nat → List Nat × TorchDtype × Bool) (U : Nat → UpSetup)
    (g : Exchange.GState (List Nat → K) (List Nat → K)) (r : Nat) : List Nat → K :=
  (U r).padGrad (localS (P.members.getD r 0)).1 (g.ws r).st

end

end Verif
