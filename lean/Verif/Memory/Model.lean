import Verif.Window.Model
import Verif.Interp.Model

/-!
# In-place halo exchange on the tensor the user passes in

`functional/halo_exchange.py` writes into its input and marks it dirty.  The layers give it a padded copy of their
input, or the input itself when there is nothing to pad.
-/

namespace Verif

/-- What PyTorch keeps beside the entries of a tensor (trusted): is it a leaf of the graph, does it require
gradients, how often was it modified in place (`Tensor._version`; views share the counter). -/
structure TRef where
  leaf : Bool
  requiresGrad : Bool
  version : Nat
  deriving DecidableEq, Repr

/-- `backends/mpi/functional/halo_exchange.py:26,29,74`, `Function.apply` with `ctx.mark_dirty(input)` and `input`
returned (trusted part of PyTorch): `none` is the `RuntimeError` "a leaf Variable that requires grad has been used in
an in-place operation"; otherwise the version counter is increased.  `grad`: grad mode is on.  Writes into `input`
by lines 68 and 70 increase the counter further; there are none when all widths are 0, the only case in which
`winPass` applies this to the tensor of the user. -/
def markDirty (grad : Bool) (t : TRef) : Option TRef :=
  if grad && t.leaf && t.requiresGrad then none else some { t with version := t.version + 1 }

/-- `F.pad` (trusted): a new tensor, part of the graph if its input requires gradients and grad mode is on. -/
def padRef (grad : Bool) (t : TRef) : TRef :=
  ⟨!(grad && t.requiresGrad), grad && t.requiresGrad, 0⟩

/-- What the forward pass of a layer leaves: the record of the tensor of the user, and the version of this tensor at
the time the local operator saves its input for the backward pass, `none` if what it saves is another tensor. -/
structure LayerPass where
  user : TRef
  saved : Option Nat
  deriving DecidableEq, Repr

/-- `conv_feature.py:381-392`, `pooling.py:290-300` (and `conv_general.py:558-570`) on an active worker, as far as
these records go.  The local operator (convolution, maximum and average pooling) saves its input, which
`needed_slices` makes a view of the exchanged tensor.  A convolution on one worker does not get here
(`conv_feature.py:370`). -/
def winPass (S : WinSetup) (grad : Bool) (t : TRef) : Option LayerPass :=
  if (S.total.map fun p => p.1 + p.2).sum = 0 then
    (markDirty grad t).map fun u => ⟨u, some u.version⟩
  else (markDirty grad (padRef grad t)).map fun _ => ⟨t, none⟩

/-- `upsampling.py:273-284` on an active worker, as far as these records go.  `InterpolateFunction` saves no
tensor. -/
def upPass (U : UpSetup) (grad : Bool) (t : TRef) : Option LayerPass :=
  let pad := U.info.recv.map fun h => (h.1.toNat, h.2.toNat)
  if (pad.map fun q => q.1 + q.2).sum = 0 then (markDirty grad t).map fun u => ⟨u, none⟩
  else (markDirty grad (padRef grad t)).map fun _ => ⟨t, none⟩

/-- The check of autograd when the backward pass reads a saved tensor (trusted): its version must be the one saved,
otherwise "one of the variables needed for gradient computation has been modified by an inplace operation". -/
def LayerPass.unpacks (p : LayerPass) (now : TRef) : Bool :=
  match p.saved with
  | none => true
  | some v => v == now.version

/-- The entries of the tensor of the user once the exchange has left `st` in the tensor it was given. -/
def userEntries {α : Type} (S : WinSetup) (x st : List Nat → α) : List Nat → α :=
  if (S.total.map fun p => p.1 + p.2).sum = 0 then st else x

/-- The same for interpolation (`upsampling.py:273-281`). -/
def upUserEntries {α : Type} (U : UpSetup) (x st : List Nat → α) : List Nat → α :=
  if ((U.info.recv.map fun h => (h.1.toNat, h.2.toNat)).map fun q => q.1 + q.2).sum = 0 then st else x

end Verif
