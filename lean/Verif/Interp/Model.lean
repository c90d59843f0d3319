import Verif.Window.Model
import Mathlib.Algebra.Order.Floor.Ring
import Mathlib.Algebra.Order.Field.Basic

/-!
# Model of interpolation

`functional/interpolate/src/interpolate.h`, `interpolate_constant_cpu.cpp`, `interpolate_linear_cpu.cpp`
(kernels), `functional/interpolate/interpolate.py`, `nn/interpolate.py`, `nn/mixins/interpolate_mixin.py`,
`nn/upsampling.py`.

Floating point numbers are elements of an ordered field with a floor function; rounding is not modelled.
Conversions of infinities or NaN to integers, accesses outside a tensor and integer divisions by zero are
undefined in C++; they give `none`, as exceptions do.
-/

namespace Verif

/-- The modes with an implementation; all others are rejected (`interpolate_mixin.py:83, 157`). -/
inductive InterpMode
  | nearest | linear
  deriving DecidableEq, Repr

/-- `mode`, `align_corners` and `scale_factor`. -/
structure InterpParams (K : Type) where
  mode : InterpMode
  align : Bool
  scale : Option K

/-- One feature dimension as a kernel sees it: global lengths of input and output, local lengths and offsets
of input and output. -/
structure InterpDim where
  gi : Nat
  go : Nat
  li : Nat
  lo : Nat
  io : Int
  oo : Nat
  deriving DecidableEq, Repr

instance : Inhabited InterpDim := ⟨⟨0, 0, 0, 0, 0, 0⟩⟩

/-- `interpolate.h:58-64` `clamp_idx_to_range`. -/
def clampIdx (i lo hi : Int) : Int := min hi (max lo i)

section
variable {K : Type} [Field K] [LinearOrder K] [FloorRing K]

/-- A quotient of lengths; `none`: division by zero. -/
def ratio (a b : K) : Option K := if b = 0 then none else some (a / b)

/-! ## Kernels -/

/-- `interpolate.h:83` and `110-115`: the step in input cells.  Python hands over -1 for a missing scale
factor (`interpolate.py:78-79`). -/
def kernelFac (p : InterpParams K) (gi go : Nat) : Option K :=
  match p.mode with
  | .nearest => ratio (gi : K) (go : K)
  | .linear =>
    if p.align then ratio ((gi : K) - 1) ((go : K) - 1)
    else if 0 < p.scale.getD (-1) then some (1 / p.scale.getD (-1))
    else ratio (gi : K) (go : K)

/-- `interpolate.h:86` and `120-122`: the position of output `o` in the local input. -/
def kernelPos (p : InterpParams K) (fac : K) (d : InterpDim) (o : Nat) : K :=
  match p.mode with
  | .nearest => fac * ((d.oo : K) + o) - d.io
  | .linear =>
    if p.align then fac * ((d.oo : K) + o) - d.io
    else fac * ((d.oo : K) + o + 1 / 2) - (d.io + 1 / 2)

/-- `interpolate.h:131-133`: weights near 0 and 1 are moved there. -/
def snap (l : K) : K :=
  let l := if |l| < 1 / 10000 then 0 else l
  if |l - 1| < 1 / 10000 then 1 else l

/-- `interpolate.h:74-92` `compute_nearest_left_idx_weight` and `96-136` `compute_linear_idx_weight`: the
input cells used for output `o`, with weights. -/
def dimTerms (p : InterpParams K) (d : InterpDim) (o : Nat) : List (Int × K) :=
  let t := kernelPos p ((kernelFac p d.gi d.go).getD 0) d o
  match p.mode with
  | .nearest => [(clampIdx ⌊t⌋ 0 ((d.li : Int) - 1), 1)]
  | .linear =>
    let t := if t < 0 then 0 else t
    let i0 := clampIdx ⌊t⌋ 0 ((d.li : Int) - 1)
    let i1 := clampIdx (i0 + 1) 0 ((d.li : Int) - 1)
    let l := snap (t - i0)
    [(i0, 1 - l), (i1, l)]

/-- `interpolate.h:66-72` `compute_idx`, nested over the dimensions, starting from `c`. -/
def hornerIdx (c : Int) (shape : List Nat) (idx : List Int) : Int :=
  (List.zip shape idx).foldl (fun a q => a * q.1 + q.2) c

/-- The products of one term per dimension (`interpolate_linear_cpu.cpp:109-110, 156-159, 223-230`), the last
dimension running fastest. -/
def cornerTerms : List (List (Int × K)) → List (List Int × K)
  | [] => [([], 1)]
  | d :: ds => d.flatMap fun t => (cornerTerms ds).map fun u => (t.1 :: u.1, t.2 * u.2)

/-- The terms of output `o` in all dimensions. -/
def outputTerms (p : InterpParams K) : List InterpDim → List Nat → List (List (Int × K))
  | d :: ds, o :: os => dimTerms p d o :: outputTerms p ds os
  | _, _ => []

/-- The assignments made by the loops `loop_1d`, `loop_2d`, `loop_3d` of all four kernels: position in the
output and the positions in the input with their weights, for `nbc` combinations of batch and channel.
Simplification: the three loops, which differ in the number of nested loops, are one definition; the kernels
for mode nearest do not multiply by 1. -/
def kernelEntries (p : InterpParams K) (nbc : Nat) (ds : List InterpDim) : List (Int × List (Int × K)) :=
  (List.range nbc).flatMap fun c : Nat => (rangeIndex (ds.map InterpDim.lo)).map fun o =>
    (hornerIdx c (ds.map InterpDim.lo) (o.map fun i : Nat => (i : Int)),
      (cornerTerms (outputTerms p ds o)).map fun t => (hornerIdx c (ds.map InterpDim.li) t.1, t.2))

/-- All quotients are defined and all accesses lie inside tensors with `nIn` and `nOut` entries; in mode
linear the grain size of `parallel_for` is a quotient by the number of features of the output
(`interpolate_linear_cpu.cpp:237-249, 497-509`). -/
def kernelDefined (p : InterpParams K) (nIn nOut nbc : Nat) (ds : List InterpDim) : Bool :=
  (p.mode != .linear || (ds.map InterpDim.lo).prod != 0) &&
  (kernelEntries p nbc ds).all fun e =>
    (ds.all fun d => (kernelFac p d.gi d.go).isSome) && decide (0 ≤ e.1) && decide (e.1 < nOut) &&
      e.2.all fun t => decide (0 ≤ t.1) && decide (t.1 < nIn)

/-- `output_data[e.1] = ...` for all entries (`interpolate_constant_cpu.cpp:84-181`,
`interpolate_linear_cpu.cpp:86-235`).  The rows `c` are distributed over threads; they write to different
positions. -/
def kernelForward (es : List (Int × List (Int × K))) (x out : Nat → K) : Nat → K :=
  es.foldl (fun out e => Function.update out e.1.toNat (e.2.map fun t => t.2 * x t.1.toNat).sum) out

/-- `grad_input_data[...] += ...` for all entries (`interpolate_constant_cpu.cpp:290-387`,
`interpolate_linear_cpu.cpp:347-495`). -/
def kernelAdjoint (es : List (Int × List (Int × K))) (y gin : Nat → K) : Nat → K :=
  es.foldl (fun g e => e.2.foldl (fun g t =>
    Function.update g t.1.toNat (g t.1.toNat + t.2 * y e.1.toNat)) g) gin

/-! ## `InterpolateFunction` -/

/-- The data of a contiguous tensor. -/
def contiguous (shape : List Nat) (x : List Nat → K) : Nat → K := fun i => x (getCoords shape i)

/-- The feature dimensions (`interpolate_linear_cpu.cpp:53-84`). -/
def interpDims (xs : List Int) (gx ys gy ishape oshape : List Nat) : List InterpDim :=
  (List.range (ishape.length - 2)).map fun j =>
    ⟨gx.getD (j + 2) 0, gy.getD (j + 2) 0, ishape.getD (j + 2) 0, oshape.getD (j + 2) 0,
      xs.getD (j + 2) 0, ys.getD (j + 2) 0⟩

/-- `AT_DISPATCH_FLOATING_TYPES` (`interpolate_linear_cpu.cpp:267`) and the check of the number of dimensions
(`interpolate_linear_cpu.cpp:246`). -/
def kernelAccepts (t : TorchDtype) (ndim : Nat) : Bool :=
  (t = .float32 ∨ t = .float64) ∧ 3 ≤ ndim ∧ ndim ≤ 5

/-- `interpolate.py:32-101` `InterpolateFunction.forward`; `y_stop ≥ y_start` is taken for granted. -/
def interpForward (p : InterpParams K) (xs : List Int) (gx ys ye gy : List Nat) (input : Tensor K) :
    Option (Tensor K) :=
  let oshape := List.zipWith (· - ·) ye ys
  let ds := interpDims xs gx ys gy input.shape oshape
  let nbc := input.shape.getD 0 0 * input.shape.getD 1 0
  if kernelAccepts input.dtype input.shape.length &&
      kernelDefined p input.shape.prod oshape.prod nbc ds then
    let out := kernelForward (kernelEntries p nbc ds) (contiguous input.shape input.val) fun _ => 0
    some ⟨oshape, input.dtype, fun l => out (flatC oshape l)⟩
  else none

/-- `interpolate.py:103-145` `InterpolateFunction.backward`; `none` also: a negative extent. -/
def interpBackward (p : InterpParams K) (xs xe : List Int) (gx ys gy : List Nat) (grad : Tensor K) :
    Option (Tensor K) :=
  let ishape := (List.zipWith (· - ·) xe xs).map Int.toNat
  let ds := interpDims xs gx ys gy ishape grad.shape
  let nbc := ishape.getD 0 0 * ishape.getD 1 0
  if (List.zipWith (· - ·) xe xs).all (fun n => decide (0 ≤ n)) && kernelAccepts grad.dtype ishape.length &&
      kernelDefined p ishape.prod grad.shape.prod nbc ds then
    let gin := kernelAdjoint (kernelEntries p nbc ds) (contiguous grad.shape grad.val) fun _ => 0
    some ⟨ishape, grad.dtype, fun l => gin (flatC ishape l)⟩
  else none

/-! ## Needed input -/

/-- `interpolate_mixin.py:58-59, 66-76` and `132-133, 140-150`: the step in input cells in dimension `j`. -/
def mixinFac (p : InterpParams K) (j gi go : Nat) : Option K :=
  if j < 2 then some 1
  else match p.mode with
    | .nearest => ratio (gi : K) (go : K)
    | .linear =>
      if p.align then ratio ((gi : K) - 1) ((go : K) - 1)
      else match p.scale with
        | some s => ratio 1 s
        | none => ratio (gi : K) (go : K)

/-- `interpolate_mixin.py:61, 69, 78-80` and `135, 143, 152-154`: the input cell of output `y`. -/
def mixinCell (p : InterpParams K) (fac : K) (y : Int) : Int :=
  match p.mode with
  | .nearest => ⌊fac * y⌋
  | .linear =>
    if p.align then ⌊fac * y⌋
    else
      let t := fac * ((y : K) + 1 / 2) - 1 / 2
      ⌊if t < 0 then 0 else t⌋

/-- `interpolate_mixin.py:15-87` `_compute_needed_start`, dimension `j`. -/
def neededStart (p : InterpParams K) (j gi go : Nat) (y : Int) : Int :=
  max 0 (mixinCell p ((mixinFac p j gi go).getD 0) y)

/-- `interpolate_mixin.py:89-164` `_compute_needed_stop`, dimension `j`. -/
def neededStop (p : InterpParams K) (j gi go : Nat) (y : Int) : Int :=
  min (gi : Int) (mixinCell p ((mixinFac p j gi go).getD 0) y + (if p.mode = .linear then 1 else 0) + 1)

/-- `interpolate_mixin.py:166-236` `_compute_halo_shape`, dimension `j`; `n` workers, index `i`.  The start and
stop indices of the balanced decompositions are given in closed form (C06). -/
def interpHalo1 (nonneg : Bool) (p : InterpParams K) (j n i gi go : Nat) : Int × Int :=
  let s := max 0 (neededStart p j gi go (startIdx n i go))
  let e := min (gi : Int) (neededStop p j gi go ((stopIdx n i go : Nat) - 1))
  let l : Int := (startIdx n i gi : Nat) - s
  let r : Int := e - (stopIdx n i gi : Nat)
  if nonneg then (max l 0, max r 0) else (l, r)

/-- `_compute_halo_shape` in all dimensions. -/
def interpHalo (nonneg : Bool) (p : InterpParams K) (Pshape gx gy index : List Nat) : List (Int × Int) :=
  (List.range Pshape.length).map fun j =>
    interpHalo1 nonneg p j (Pshape.getD j 0) (index.getD j 0) (gx.getD j 0) (gy.getD j 0)

/-- `interpolate_mixin.py:334-351`: the send widths. -/
def interpSend (p : InterpParams K) (Pshape gx gy index : List Nat) : List (Int × Int) :=
  (List.range Pshape.length).map fun j =>
    let i := index.getD j 0
    let left := if 0 < i then ((interpHalo true p Pshape gx gy (index.set j (i - 1))).getD j (0, 0)).2 else 0
    let right := if i + 1 < Pshape.getD j 0 then
      ((interpHalo true p Pshape gx gy (index.set j (i + 1))).getD j (0, 0)).1 else 0
    (left, right)

/-- `interpolate_mixin.py:238-268` `_compute_needed_ranges`. -/
def interpRanges (shape : List Nat) (halo : List (Int × Int)) : List (Int × Int) :=
  List.zipWith (fun (x : Nat) h => (-1 * min 0 h.1, (x : Int) + max 0 h.1 + h.2)) shape halo

/-- `interpolate_mixin.py:270-363` `_compute_exchange_info` on an active worker. -/
def interpInfo (p : InterpParams K) (Pshape gx gy index : List Nat) : ExchangeInfo :=
  ⟨interpHalo true p Pshape gx gy index, interpSend p Pshape gx gy index,
    interpRanges (map3 subsize Pshape index gx) (interpHalo false p Pshape gx gy index)⟩

/-! ## `DistributedUpsample` -/

/-- `upsampling.py:70-74, 142-151`: the global output shape.  A negative scale factor counts as an
exception. -/
def upsampleShape (size : Option (List Nat)) (scale : Option K) (gx : List Nat) : Option (List Nat) :=
  match size, scale with
  | none, some s =>
    if s < 0 then none else some (gx.take 2 ++ (gx.drop 2).map fun n : Nat => ⌊(n : K) * s⌋.toNat)
  | some sz, none => if sz.length ≠ gx.length then none else some sz
  | _, _ => none

/-- What setup stores. -/
structure UpSetup where
  gx : List Nat
  gy : List Nat
  info : ExchangeInfo
  xs : List Int
  xe : List Int
  ys : List Nat
  ye : List Nat
  deriving DecidableEq, Repr

/-- `upsampling.py:116-220` `_distdl_module_setup` on worker `w`; `none`: an exception or an undefined
conversion to integers. -/
def upSetup (P : Cart) (size : Option (List Nat)) (p : InterpParams K)
    (localS : Nat → List Nat × TorchDtype × Bool) (w : Nat) : Option UpSetup :=
  match P.index w, assembleGlobal P none localS w with
  | some idx, .value g =>
    let gx := g.shape.map Int.toNat
    (upsampleShape size p.scale gx).bind fun gy =>
      if (List.range gx.length).all fun j => (mixinFac p j (gx.getD j 0) (gy.getD j 0)).isSome then
        let ys := map3 startIdx P.shape idx gy
        let ye := map3 stopIdx P.shape idx gy
        let needed (f : InterpParams K → Nat → Nat → Nat → Int → Int) (y : Nat → Int) :=
          (List.range gx.length).map fun j => f p j (gx.getD j 0) (gy.getD j 0) (y j)
        some ⟨gx, gy, interpInfo p P.shape gx gy idx, needed neededStart fun j => (ys.getD j 0 : Nat),
          needed neededStop fun j => (ye.getD j 0 : Nat) - 1, ys, ye⟩
      else none
  | _, _ => none

/-- `upsampling.py:273-279`: the padded input; nothing is done when all widths are 0. -/
def UpSetup.padInput (U : UpSetup) (shape : List Nat) (x : List Nat → K) : List Nat × (List Nat → K) :=
  let pad := U.info.recv.map fun h => (h.1.toNat, h.2.toNat)
  if (pad.map fun q => q.1 + q.2).sum = 0 then (shape, x)
  else torchPad (toTorchPadding pad) 0 shape x

/-- `upsampling.py:282`: `input_exchanged[self.needed_slices]`. -/
def UpSetup.select (U : UpSetup) (shape : List Nat) (x : List Nat → K) : List Nat × (List Nat → K) :=
  ((pySlices shape U.info.needed).map fun q => q.2 - q.1, readSlice (pySlices shape U.info.needed) x)

/-- A forward pass up to the local interpolation, on all workers (numbered by rank; `x v` is the local input of
world rank `v`): setup of the layer, setup of the halo layer for the padded input, with any history of the
buffer managers, and an execution of the halo exchange from the padded inputs to the state `g`. -/
structure UpRun {β : Type} (P : Cart) (size : Option (List Nat)) (p : InterpParams K)
    (localS : Nat → List Nat × TorchDtype × Bool) (x : Nat → List Nat → K) (dt : NpKey) (junk : Nat → β)
    (ops : Nat → List (MgrOp β)) (eager : Bool) (k : Nat) (U : Nat → UpSetup) (S : Nat → HaloSetup)
    (g : Exchange.GState (List Nat → K) (List Nat → K)) : Prop where
  setup : ∀ r, r < P.members.length → upSetup P size p localS (P.members.getD r 0) = some (U r)
  halo : ∀ r, r < P.members.length →
    haloSetup P (U r).info.widths dt ((Mgr.init : Mgr β).run junk (ops r)) junk
      ((U r).padInput (localS (P.members.getD r 0)).1 (x (P.members.getD r 0))).1 r = some (S r)
  exec : Exchange.Exec (haloForward S) P.members.length (haloPhases P) eager k
    (Exchange.GState.init fun r =>
      ((U r).padInput (localS (P.members.getD r 0)).1 (x (P.members.getD r 0))).2) g

/-- `upsampling.py:281-284`: the output on rank `r` once its part of the exchange is finished. -/
def upForward (P : Cart) (p : InterpParams K) (localS : Nat → List Nat × TorchDtype × Bool)
    (x : Nat → List Nat → K) (U : Nat → UpSetup) (g : Exchange.GState (List Nat → K) (List Nat → K))
    (r : Nat) : Option (Tensor K) :=
  let w := P.members.getD r 0
  let s := (U r).select ((U r).padInput (localS w).1 (x w)).1 (g.ws r).st
  interpForward p (U r).xs (U r).gx (U r).ys (U r).ye (U r).gy ⟨s.1, (localS w).2.1, s.2⟩

end

end Verif
