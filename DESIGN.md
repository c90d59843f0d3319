# Design

Subject: `distdl/distdl` at the pinned commit, read as text in `/repo`.  Nothing in `/repo`
was executed.  The Lean development lives in `lean/Verif/`.  Property ids refer to
`properties.jsonl`; the state of each claim is in `MANIFEST.json`.

## Trusted base

* The Lean 4.33.0 kernel.  Every theorem is checked with `#print axioms`; the only axioms
  allowed are `propext`, `Classical.choice` and `Quot.sound`.  No own axioms, no `sorry`,
  no `native_decide`, no `bv_decide`.
* Mathlib definitions used in statements (`List`, `Finset.sum`, ordered fields, ...).
* The reading of the source text.  Each model definition cites the file and lines it
  transcribes and states its simplifications.
* The semantics given to library calls that are not part of the repository:
  * MPI: `Group.Incl`, `Group.Union`, `Create_group`, `Create_cart` (row-major rank order, no
    reordering), `Get_cart_rank`, `Sub`, `Isend`/`Irecv`/`Waitany`, `Bcast`/`Reduce`/`Allreduce`/
    `Allgather`, `Translate_ranks`.  They are modelled by the MPI standard's specification
    (point-to-point as non-deterministic small-step machines, collectives as functions of all
    members' contributions).
  * NumPy: integer arrays as (unbounded) integers, `//`, `%`, `minimum`, `where`, `cumsum`,
    slicing with start/stop.
  * PyTorch kernels (`F.conv`, `F.linear`, pooling, losses, `batch_norm`): given by their
    documented mathematical definition over a commutative ring, field or linear order.

## What is not modelled

* Floating point, except in C79, C85 to C90 and C94: tensor entries live in an arbitrary type, commutative ring or (linear ordered)
  field.  C79, C85 and C86 have IEEE rounding in interpolation along one dimension (no overflow, subnormal numbers or fused
  multiply-add; a compiler that contracts `fac*o - offset` would give other results).  C88 to C90 have the order of summation in reductions, the linear layer, convolutions with partitioned channels, batch norm statistics and losses; C94 has the normalised entries.  Overflow is out of scope.  INDEX_DTYPE overflow is out
  of scope.
* PyTorch autograd dispatch, `ctx` bookkeeping (`mark_dirty` in C91 only), devices, `requires_grad` plumbing except where a
  property mentions it.
* MPI error returns, resource exhaustion, process failure, communicator/`Group.Free` errors.
* Docs, benchmarks, examples, tests.
* Parallel loops inside ATen kernels.

## Conventions of the model

* A partition is the ordered list of its members (ids in the root communicator) plus its
  Cartesian shape.  A worker is active iff it is in the list; its rank is its position.
* A tensor is a shape (`List Nat`) with a function from multi-indices (`List Nat`) to values.
  Only in-bounds positions are ever claimed.  A distributed tensor is a family over workers.
* Exceptions are values (`Except`/`Option`).
* Loops over `for ... in range(dim)` are recursions over lists, one list entry per dimension.
* A schedule is an arbitrary interleaving of worker steps and an arbitrary order of request
  completions.

## Modules

| directory | code modelled |
|-----------|---------------|
| `Spec`, `Layout` | no code: boxes, inner products, global tensors cut into blocks; used in statements |
| `Decomp` | `utilities/tensor_decomposition.py`, `backends/mpi/tensor_decomposition.py`, `tensor_comm.py: assemble_global_tensor_structure` |
| `Slicing` | `utilities/slicing.py`, `utilities/index_tricks.py` |
| `Partition` | `backends/mpi/partition.py`: creation, unions, topologies, neighbours, sharing of data, equality, deactivation; `compare.py` |
| `Dtype` | `utilities/dtype.py` |
| `Buffer` | `backends/mpi/buffer.py`, buffer allocation in `backends/mpi/repartition.py` and `halo_exchange.py` |
| `Exchange` | the pattern `Irecv`, `Isend`, local copy, `Waitany` of `functional/repartition.py` and `functional/halo_exchange.py`, as a small-step machine |
| `Repartition` | `nn/repartition.py`, `functional/repartition.py` |
| `Group` | `create_broadcast_partition_to`, `create_reduction_partition_to`, `create_allreduction_partition` of `partition.py` |
| `Collective` | `nn/broadcast.py`, `nn/sum_reduce.py`, their functionals, `tensor_comm.py: broadcast_tensor_structure`; `Machine` is the small-step machine of non-blocking collectives and blocking waits |
| `AllReduce` | `nn/all_sum_reduce.py` and functional |
| `Module` | `nn/module.py`, setup and teardown of all layers |
| `Halo` | `nn/mixins/halo_mixin.py`, `nn/halo_exchange.py`, `functional/halo_exchange.py` |
| `Window` | `nn/conv_feature.py`, `nn/pooling.py`, `conv_mixin.py`, `pooling_mixin.py`, padding conversion |
| `Linear` | `nn/linear.py`; `Train*`: training of networks of these layers with `nn/loss.py` |
| `Conv` | `nn/conv_channel.py`, `nn/conv_general.py`, `nn/conv.py` |
| `Loss` | `nn/loss.py`, `functional/zero_volume_corrector.py`, `utilities/torch.py: zero_volume_tensor` |
| `BatchNorm` | `nn/batchnorm.py` |
| `Interp` | `functional/interpolate/*` (Python and C++), `nn/mixins/interpolate_mixin.py`, `nn/upsampling.py`, `nn/interpolate.py` |
| `Fp` | the same files with rounding, along one dimension, mode nearest; `Linear*`: mode linear; `OutShape`: `_compute_out_shape` of `halo_mixin.py`; `Sum*`: additions in `sum_reduce.py`, `all_sum_reduce.py`, `broadcast.py` and `nn/linear.py` |
| `Grad` | backward passes of `nn/conv_feature.py`, `nn/conv_channel.py`, `nn/conv_general.py`, `nn/pooling.py`, `nn/batchnorm.py` and `nn/upsampling.py` as autograd derives them, with `HaloExchangeFunction.backward` and `BroadcastFunction.backward` |
| `Debug` | `utilities/debug.py` |
| `Memory` | `functional/halo_exchange.py` with `conv_feature.py`, `pooling.py`, `upsampling.py`: which tensor is modified in place |
| `Mode` | `conv_feature.py`, `conv_general.py`: `padding_mode` |
| `Mean` | `loss.py`: sequences of calls, with the all-reductions of the setups matched in order |
| `Build` | the collective calls made when partitions and layers are created: `partition.py`, constructors of `nn/*.py`, setup of broadcasts and reductions |
| `Params` | the parameters left by the constructors of `nn/linear.py`, `nn/conv_feature.py`, `nn/conv_channel.py`, `nn/conv_general.py`, `nn/batchnorm.py` |
| `Net` | the forward passes above as programs of one machine, and networks of them: `functional/*.py`, setup of the layers, `conv_feature.py`, `conv_channel.py`, `conv_general.py`, `pooling.py`, `repartition.py`, `linear.py`; `Tape`, `*Back`, `Train*`: their backward passes and training steps; `Up*`, `Norm*`, `Decoder*`: the same with `upsampling.py` and `batchnorm.py`, `X*`: called and trained repeatedly in both modes; `Live*`: which workers take part in the adjoints; `Stuck`: executions that never end; `Sim`, `Mods`, `Cache`, `Repeat`, `Update`, `Loop*`: `nn/module.py` (setup only when needed) and networks that are called and trained repeatedly; `Batch*`: with varying batch sizes; `Loss`, `Learn*`: with `nn/loss.py` at the end |

`Model.lean` holds definitions only; `Props.lean` holds the property theorems with their specifications and
worked cases; the other files hold lemmas, or refutations (`Limits`, `Wide`).

### Three machines

*Exchange* (`Exchange/Machine.lean`).  A worker goes through phases.  In each phase it posts its receives, then
its sends, then copies locally, then completes requests in any order, taking the received data in the order of
completion.  A send completes when the receive is posted (rendezvous) or at any time (eager); a theorem holds for
both.  The lemmas show: if the phases of all workers match in pairs and the receptions of one phase commute, every
execution can be finished, is bounded, and ends in the state of the lock-step execution.  Repartition has one phase,
a halo exchange one per dimension.

*Collectives* (`Collective/Machine.lean`).  A worker runs a program of `post g` and `wait g`.  A `wait` is passed
once all members of `g` have posted; posting may or may not block.  If the groups can be ordered such that every
program respects the order, no execution gets stuck.  The results of the collectives are functions of all calls with
the same communicator and ordinal; mismatching calls give no result.

*Networks* (`Net/Machine.lean`).  A program is a list of phases; in each phase a worker posts requests (messages or
collectives, each on a channel), works locally and completes the requests, in any order unless the code fixes one.  The
`n`-th request of a worker on a channel belongs to the `n`-th operation on it, as MPI prescribes, so requests of
different layers on the same channel are matched by counting only.  A request can complete when all members have posted
theirs; the library may complete it earlier, once those it receives from have posted.  Workers are not synchronised
between phases or layers.  The lemmas show: if in the synchronous run every phase is well matched (`ProgOK`), then under
every interleaving each worker's data after phase `k` are those of the synchronous run, no execution gets stuck, and the
number of steps is bounded.  `Lift` turns phases of the Exchange machine into phases of this one.

## Per property

| id | modelled | proved by |
|----|----------|-----------|
| C01, C02 | `compute_subshape/start/stop` in one dimension and as lists | division with remainder; induction on dimensions |
| C03 | boxes, intersection, relative slices | cell sets |
| C04, C05 | `range_index`, `cartesian_index_c/f`, filters | induction on the shape |
| C06 | arrays of block shapes, cumulative sums along the own axis | tiling of tensor-product layouts |
| C07, C08 | one-hot arrays summed over members, sums over lines | sums with one nonzero term |
| C09, C10, C11 | heap of storages, cached views, per-type lists of buffers | invariants over all operation histories |
| C12, C56 | allocation loops over overlaps and neighbours | injectivity of the assignment, capacities after all later expansions |
| C13 | overlap tables of setup for every worker | both sides compute the same intersections |
| C14, C15, C17 | exchange machine with the tables of C13 | lock-step theorem, tiling, inner products as sums over blocks |
| C16 | composition | C14 |
| C18, C19, C20, C24 | `create_broadcast_partition_to`, `create_reduction_partition_to` with all flags | digits of flat indices over the union; for C24 an exact condition (`Group/Exact.lean`): row-major and column-major ranks agree iff at most one extent differs from 1 |
| C21, C30 | collective machine with the groups of C20 | order by root rank |
| C22, C23 | programs and results of both layers | C20, exchange of sums |
| C25, C26 | `AllSumReduce` | cosets of kept coordinates; `AllReduce/Exact.lean`: exactly which axes are rejected, and that the others have no effect |
| C27, C28, C29, C53, C55 | partition algebra | list lemmas |
| C31 | finite tables | case analysis of the complete table |
| C32, C33 | hooks over histories, several workers | invariant; concrete histories for the negation; for C33 an exact condition (`Module/Mixed.lean`): a block is unchanged on some worker iff the extent changes by less than the number of workers |
| C34, C35, C36, C37, C56 | halo widths, slices, exchange by dimensions | invariant on the dimension sweep, adjoint per dimension, general theorem for halos that are too wide; `Halo/Near`: the content of every cell after the exchange, halos that fit or not |
| C38 | needed ranges of the halo mixin | floor and ceiling arithmetic |
| C39, C40, C41, C54 | pad, exchange, cut, local operator; the operator is an abstract window function, then convolution, maximum, average | each window read from the padded block agrees with the global one; `Window/Exact`: with halos that fit the share is always right, and nothing follows it iff the last limit holds; `Window/Near`: with halos that do not fit a worker computes its share on the tensor with everything beyond the adjacent blocks blanked, so its values are right for all inputs iff no window of the share reads that far |
| C42 | broadcast, local product, reduction, and their adjoints; `Stack` for the storage of parameters | block sums |
| C43, C44, C57, C58 | setup, broadcasts of weights and bias, halo, local convolution, reduction | C22, C23, C39; witnesses |
| C45 | selector decision and construction of the layers | case analysis |
| C46, C47 | elementwise loss with derivative, local loss, reduction, corrector | block sums, C23 |
| C48, C49, C59 | creation, statistics, update, forward on all workers | column sums of a layout, C22, C23, induction on histories; `BatchNorm/Exact.lean`: the difference of the two running variances is a sum of nonnegative terms, zero iff every channel is constant |
| C50 | mixin arithmetic, padding, halo exchange, selection, local kernels | floor arithmetic in an ordered field, C35; eight witnesses; halos that do not fit as in C41 (`Interp/Near.lean`) |
| C51 | forward and backward kernels as lists of index/weight entries | transposition of finite sums |
| C60 | gradients of the PyTorch operators, padding, cut; adjoint halo exchange on the machine | adjoint of the forward pass tested against every input (C36, C39), transposition of the local operator; halos that do not fit: the same with what each worker sees (`Grad/Near.lean`) |
| C61 | local gradients of weight and bias, adjoint of the broadcast | C22, C39, sums over blocks; halos that do not fit in `Grad/Near.lean` |
| C62 | adjoints of the reduction, the local layers, the broadcast and the halo exchange | as C60; C22, C23; sum over the output channels |
| C63 | local gradients of weight and bias, adjoint of the parameter broadcasts | C22, C23, C39; sums over the workers along the features |
| C64 | backward of each operation of the batch norm, with the adjoints of its sum-reduce and broadcasts | C22, C23, sums over the columns of the partition; over the reals: derivative of the composite, symmetry of the channel sums |
| C65 (partial) | backward of padding, exchange, selection and local interpolation of `DistributedUpsample`, in reverse order | C51 for the kernels, C36 for the exchange; running the forward pass on the tensor with a single 1 turns adjointness into entries; expansion of the sequential interpolation in such tensors |
| C66 | the loop functions of the four kernels as statements on the shared output, `data[k] += v` being a load and a store; one thread per chunk of `at::parallel_for`, arbitrary interleaving | every thread keeps to the rows of its chunk; invariant: the rest of each thread, run alone, still gives its part of the sequential result |
| C67 | the modelled `DistributedLinear` and loss layers chained with elementwise activations; backward through all of them; an arbitrary entrywise optimizer on the local parameters; repeated for a list of batches | induction over the layers (C42 at each) and over the batches (C46 at the end of each); the sequential specification is shown to be gradient descent on the loss, by the total derivative along an arbitrary path of all parameters |
| C68 (partial) | the modelled `DistributedLinear` with arbitrary two-dimensional partitions | C19 (partitions against the broadcasting rules are rejected) and the width checked by the local layer; witnesses by evaluation |
| C69 | setup and forward of each layer as a program of the network machine; a network is the concatenation | per layer: the synchronous run is that of the earlier models (C14, C22, C23, C39, C40, C42, C43, C44); the machine's theorem removes the synchronisation; induction over the layers |
| C70 | attributes `weight`, `bias`, `gamma`, `beta` left by the constructors on each worker: absent, buffer or parameter with a shape | specification: global entry ↔ (worker, local entry) is one to one; the blocks of `P_w` and of its first column (C02, C46); counting by sums over cells; `Params/Grouped.lean`: with groups that divide every block the slots are those of a layer without groups and with the channels of one group |
| C71 (partial) | fan in of the local PyTorch layer that draws the initial values | equal to the sequential one iff the input features are not partitioned; witness with two workers |
| C72 | the adjoints of the functionals and PyTorch's local gradients as programs of the network machine; the forward pass keeps each worker's data on a tape, the backward pass reads and drops them | per layer: the synchronous run is that of the earlier models (C15, C25, C37, C60-C63); induction over the layers, the tape being that of the forward run; the machine's theorem removes the synchronisation |
| C73 | the sequential network and gradients of C72, C80, C81 over the reals, with moving parameters | forward derivative of each layer; transposes (C60, C61, C65) move the gradient to the input and the parameters; for batch norm the derivative along a path equals the one along a line, which is C64's; induction over the layers |
| C74 (partial) | every worker has a flag: does the tensor passed on require gradients here?  The adjoints of C72, cut into pieces that need the flag of the input and pieces that concern parameters; a worker without the flag skips them | flags all set: the program of C72; none set: what is skipped does not touch the gradients of the parameters, and the rest looks at nothing else.  Witness: `never_passes` (`Net/Stuck.lean`): a worker that waits for a contribution nobody makes waits in all executions |
| C75 | each worker keeps for every module the structure of its input and what the setup has found; a call compares, does the setup or takes what was kept, and goes on.  Programs of calls, inputs of one structure | the structures that occur inside of a network depend only on those of its input (`Sim`, `Mods`: programs that treat entries as opaque), so that in later calls all workers find what they have kept and get the state that the setup would have given (`Cache`, `Repeat`); then C69 for every call |
| C76 | the same with training steps: backward pass of C74, then every worker changes its parameters entry by entry (the library has no optimiser; the tests do this by hand).  The data of every worker contain its current parameters | the workers store the blocks of the parameters of the sequential network (`StoresNet`); a step preserves this since gradients are blocks of the sequential gradients (C72, C74); structures do not depend on parameter entries |
| C77 | as C76, inputs of varying batch size (`Net/Batch.lean`) | what a module keeps depends on the batch size on all workers that take part in its setup, or not at all (parameter broadcasts): induction over the layers, following the tensors without entries through broadcasts, sum-reductions and repartitions |
| C78 | as C77, with the loss at the end (`Net/Loss.lean`, `Net/Learn.lean`): setup with its all-reduce, local loss, sum-reduction, division, zero-volume corrector, and their adjoints | the loss is four more modules after those of the network; its forward and backward pass from the states of the network; what its modules keep depends on the structure of the output only, or changes with the batch size on all its workers |
| C79 (partial) | rounding to nearest even with `p` digits on the rationals (`Fp/Model.lean`); the kernel's index in single or double precision with `floorf`, the mixin's in double precision; the entry a worker copies | relative error of rounding; the position is less than 1 / outputs away from the exact one, so that the floor can only be wrong at integers; numbers with few digits stay exact; in single precision the offset is subtracted exactly.  Witnesses by evaluation in the kernel |
| C80 | forward and adjoint of `nn/upsampling.py` as programs of the network machine (`Net/Up.lean`, `Net/UpBack.lean`); networks of the layers of C72 and interpolations | the synchronous run leaves on every worker what any execution of the exchange alone leaves (C50, C65); tape and induction over the layers as in C72 |
| C81 | forward and adjoint of `nn/batchnorm.py` as programs of the network machine (`Net/Norm.lean`, `Net/NormBack.lean`): the exchange of structures, two averages (sum-reduce, division, broadcast), the broadcasts of the parameters; networks of C80 with batch norms | the synchronous run leaves on every worker what the layer alone leaves (C48, C64); tape and induction over the layers as in C72.  All workers are in the same mode; the update of the running statistics is local and left out (C49 has it) |
| C82 (partial) | the collective calls of `partition.py` (creation, unions, topologies, `broadcast_data`) and of the constructors and setups that make them, as lists of operations on each worker (`Build/Model.lean`); exceptions end the list | one list of operations of the whole script, of which every worker performs those it is a member of (`Joint`), line by line; then the machine of collectives.  The group results are those of C20 and C25.  Lifetime: a worker carries the communicators it holds (`after`, `lives` in `Build/Live.lean`) through its calls; true of all scripts.  `Build/Stuck.lean`: a script of lines as documented is built iff no general convolution has its weights on one worker and data on another (`C82_iff`); that worker makes four calls on the communicator of the layer and every other one at least five, the fifth a broadcast from it (`C82_stuck`) |
| C83 | networks of C81 with the modules of C75 (`Net/XStep.lean`): a batch norm calls one broadcast and one sum-reduction module several times, which keep a setup each; the update of the running statistics (`batchnorm.py:161-186`) and `inputs_seen`; training and evaluation mode.  Training steps as in C76 | what every slot of a module keeps depends on the structures of the inputs and parameters only (`Net/XSteady.lean`), not on values or mode; the workers store blocks of the parameters and statistics of the sequential network (`XStoresNet`), preserved by calls (C49) and updates (C81).  The batch variance in the running statistics is the biased one, as in the code (finding C49), and the momentum is not 0.  Inputs require gradients if there are training steps (otherwise autograd skips modules, C74) |
| C84 | `utilities/debug.py: print_sequential` (`Debug/Model.lean`): rank 0 prints its value and then receives from rank 1, 2, … and prints; all calls with a communicator use the same channels (tag 0), and senders may leave before their message is received | every call is a program of the machine of C66: a local phase and one phase per sender; any number of calls with any communicators.  What is printed is a list for each worker; how the terminal mixes the output of different workers is not modelled |
| C85 | `compute_linear_idx_weight`, the kernel's sum, and the mixin's ranges for mode linear, every operation rounded (`Fp/Linear.lean`): `0.5` and `1e-4` are doubles, `floorf` is single, an integer tensor plus 0.5 is `float32`, weights closer than 1e-4 to 0 or 1 are moved there.  Specification: the piecewise linear function through the global input at the position PyTorch documents (`Fp/LinearSpec.lean`) | the computed position is within (gi + 1)/2^21 of the exact one (`Fp/LinearLemmas.lean`); the worker's range contains the two cells, or ends so near to the position that the last cell will do (`Fp/LinearCells.lean`, `Win`); the interpolant has slope at most D, so that errors of position cost that times D |
| C86 (partial) | as C85 | without the error of `floorf` the weight before the moving lies in [0, 1] up to rounding; with it, it leaves [0, 1] by at most (gi + 1)/2^24, and what is less than 1e-4 is moved away.  Rounding is monotone at 0 and 1.  Witness by evaluation in the kernel |
| C87 | `_compute_out_shape` with `float64` quotient and sum (`Fp/OutShape.lean`); `outShape`, used everywhere else, has integer division | a quotient a/b that is not an integer is at least 1/b away from one, and the rounding errors are smaller; integers stay exact |
| C88 | additions by MPI and PyTorch as binary trees with a rounding at every node; the terms each column of workers adds in `nn/linear.py` (`Fp/Sum.lean`) | error of a tree by induction, relative to the sum of the absolute values; the terms of all workers are a partition of the products and the bias; depth of a tree is less than its number of leaves.  Convolutions: `Fp/StatsProps.lean` |
| C89 | `_compute_mean`, `_compute_var` and `_update_running_stats` for one channel, every operation rounded, sums as binary trees (`Fp/Stats.lean`) | the error bound of C88 for any distribution of terms (`Orders.err`); a rounded square of a rounded difference has three roundings; deviations from the rounded mean give the variance plus the square of its error; balanced blocks cover every cell once (C01) |
| C90 | `loss.py` with reductions "sum" and "mean", the terms of MSELoss and L1Loss rounded (`Fp/Stats.lean`) | as C89 |
| C91 (partial) | what PyTorch records beside the entries of a tensor: leaf, requires gradients, version counter; `mark_dirty`, padding, saved tensors (`Memory/Model.lean`) | total padding of a worker is 0 exactly if its first and last window are in its block (formula of the halo widths, C38); entries by `C37_cells`: without halos the exchange writes nothing |
| C92 (partial) | `padding_mode` of the convolutions, which widths `F.pad` implements, the sequential convolution in each mode (`Mode/Model.lean`) | total padding 0 exactly if the worker is inside (C91); without padding all windows end inside, where all modes read the same; C39; for the general layer (`Mode/General.lean`) C44; the channel layer (`Mode/Channel.lean`): a convolution in mode m is one without padding on the padded tensor, padded blocks are the blocks of the padded tensor, C43's sum |
| C93 (partial) | sequences of calls of a loss: which all-reductions and reductions a worker starts, what the `i`-th all-reduction adds up (`Mean/Model.lean`) | order of operations on the collective machine: at the first call on which the workers disagree, those that redo the setup never get past it; large changes: C33, all programs are equal |
| C94 | normalisation, scale and shift of one entry, every operation rounded, the square root within half a unit in the last place (`Fp/Normal.lean`) | relative error of the root of a perturbed variance by squares of both sides; C89 for the statistics |
| C52 | results of the layers without output | group structure of C20 |

Every property of `properties.jsonl` is expressible; none is `not_applicable`.

## Axioms

`#print axioms` on all theorems named in `MANIFEST.json` gives subsets of `propext`, `Classical.choice`,
`Quot.sound` (most depend on all three through Mathlib; a few on fewer or none).

## Findings (disagreements between property and code)

* **C24** (`C24_false`, `C24_iff`, `C24_reduction_iff`, `C24_src_is_reshape`).  With a transposition flag on exactly one side,
  `create_broadcast_partition_to` numbers the transposed side with `cartesian_index_f` of the
  *reversed* shape.  This is the worker's original row-major rank read in the reversed shape, i.e. a
  reshape and not a reversal of coordinates.  Source `3 x 2` transposed to destination `2 x 3`:
  destination `(0,1)` is fed by source `(0,1)` instead of `(1,0)`.  The two agree when at most one
  extent of the smaller partition differs from 1, which covers the use in `DistributedLinear`.
* **C10** (`C10_stale_after_expand`).  A view handed out before `expand` keeps pointing to the old
  storage; writes through it are not seen by views taken later.
* **C09**.  `get_view(())` raises: `np.prod(())` is the float `1.0`.  The model takes shapes with at
  least one dimension.
* **C26** (`C26_false`).  `AllSumReduce` ignores negative axes and axes to keep that are out of range
  instead of rejecting them; with a partition of size 1 no axes are checked at all.
* **C32** (`C32_false`).  `Repartition` and `DistributedUpsample` store `_distdl_is_setup = True` and
  the input structure before their checks raise.  If the caller catches the exception and calls again
  with the same input, the pre-hook skips setup and forward runs without overlaps and buffers.
  `DistributedBatchNorm` never records its setup, so every call repeats the collective
  `assemble_global_tensor_structure`.
* **C33** (`C33_false`, `C33_false_output_worker`).  The decision to redo setup compares local
  structures only.  Global length 10 to 11 on two workers changes the block of worker 0 only: worker 0
  enters the collective operations of setup, worker 1 does not, and the call hangs.  A worker that is
  only in the output partition of a `Repartition` always passes the same zero-volume tensor and never
  redoes its setup.  `C33_mixed_iff`: the input workers disagree exactly if the shapes differ and no extent changes by
  as much as the number of workers in its dimension; `C33_mixed_hangs`: the call then never ends.
* **C37** (`C37_silent`, `C37_false`).  Computed halo widths never reach outside the sender's padded
  tensor, so `np.copyto` never complains, but if a halo is wider than the neighbour's own block the
  message contains halo cells of the neighbour that are not filled yet.  Proved in general: with
  non-empty blocks and a halo that does not fit, some cell inside the global tensor ends up with the
  filler value whatever the data.  Smallest witness: 3 cells on 3 workers, kernel 5, padding 2.  Exactly
  (`C37_cells`, `C37_iff`): data travel one block per dimension, so a cell of the padded tensor is right if it lies in
  the worker's own block or an adjacent one in every dimension, and keeps the filler otherwise.
* **C38** (`C38_false_padding`, `C38_false_unbalanced`).  `_compute_needed_ranges` does not cut off a
  negative right halo (TODO at `halo_mixin.py:138`).  With padding larger than `d (k - 1)`, or with an
  unbalanced input, a worker produces more outputs than its share, overlapping its neighbour's.
* **C41** (`C41_false`).  Consequence of C38 for the convolution layers: 4 cells over 4 workers, kernel 1,
  padding 2 give 9 outputs in total where the sequential layer gives 8.  Pooling is not affected, because
  the sequential pooling layers refuse padding above half the kernel (the distributed layer itself never
  checks it).  In general (`C41_convolution_iff`, `C40_average_iff`, `C40_maximum_iff`): if the halos fit, the
  leading part of every worker's output is its block of the sequential result, whatever padding and layout;
  something follows it exactly if the block reaches the end of the next worker's first window.  So an uneven
  input, three cells and one cell with kernel 1, makes pooling return five outputs for four.  If the halos do not fit,
  a worker returns its share of the layer applied to the tensor with everything beyond the adjacent blocks replaced by
  the padding value (`C41_convolution_seen`, `C40_average_seen`, `C40_maximum_seen`): wrong for some input exactly if
  some window of the share reads that far (`C41_convolution_right_iff`, `C40_average_right_iff`,
  `C40_maximum_right_iff`).
* **C40**, defaults.  The pooling layers default to stride 1; the documentation (and PyTorch) say the kernel
  size.
* **C45** (`C45_false`, `C45_channels_rejected`).  Given only an input partition, `DistributedConv*d` always
  picks the feature layer, also for partitioned channels; every finished run then raises an exception in the
  local PyTorch layer (wrong number of channels).
* **C57** (`C57_false`, `C57_wrong`).  The channel and general layers pass `groups` to the local PyTorch layer with the
  local channel counts, so with partitioned channels the groups are formed from the local channels.  Four
  channels in two groups over two workers: output channel 0 reads channels 0 and 2 instead of 0 and 1.
  `Conv/Grouped.lean` and `Conv/GroupedGeneral.lean` settle every partition of the channels, for the channel layer and
  for the general one: with groups that do not divide the local channel counts each active worker raises an
  exception (`C57_raises`, `C57_general_raises`); otherwise the layer is the convolution that connects channels of equal
  local group (`C57_computes`, `C57_general`), and for two or more groups there are weights for which no sequential
  grouped convolution gives these outputs (`C57_wrong`, `C57_general_wrong`).  With channels that are not partitioned the
  general layer is right for every partition of the features (`C57_features_partial`).
* **C58** (`C58_false`, `Net.C58_stuck`).  `self.serial` is `P_w.size == 1`, which is false (`size == -1`) on workers outside
  `P_w`.  With a one-worker `P_w` that is not the worker of `P_x` and `P_y`, these enter the broadcast and
  wait for ever, while the worker of `P_w` convolves its own (empty) input.  `C58_stuck` proves it for the programs of
  the workers, with the branch each of them takes (`Net/ChanStuck.lean`): in no execution do they end.
* **C47** (`C47_false`).  `DistributedLossBase.forward` returns `input.clone()` on workers outside the
  partition, but its parameters are called `local_input` and `local_target`: `input` is the Python builtin, and
  the call raises `AttributeError`.
* **C49** (`C49_false`, `C49_false_momentum`).  The running variance is updated with the biased variance of the
  batch; PyTorch uses the unbiased one.  `if self.momentum:` treats momentum 0 like `None`: PyTorch keeps the
  running statistics, the distributed layer averages all batches (`C49_momentum_zero`).
* **C59** (`C59_false`, `C59_outside`).  `DistributedBatchNorm.__init__` hands `P_x.index`, which is `None` outside
  `P_x`, to `compute_start_index`, so the layer cannot be created on such a worker.
* **C48**, channels.  `__init__` sizes buffers and parameters for balanced channel blocks; forward only compares
  the global number of channels.  For other channel blocks the theorems on outputs assume that buffers and
  parameters have been resized (`Running`, `Param`); the statistics of a batch are right for every layout.

* **C50** (all in `Interp/Limits.lean`).  `DistributedUpsample` differs from `torch.nn.functional.interpolate`
  * when a halo is wider than the neighbour's block, as in C37: linear with `align_corners`, 6 cells to 20 over 4
    workers (`C50_false_linear`); nearest, 9 to 7 over 7 (`C50_false_nearest`);
  * in mode linear with partitioned batch or channel dimension: the extra cell on the right is taken in every
    dimension, and the kernel writes outside its output (`C50_false_channels`);
  * in mode linear on a worker without outputs: division by zero in the grain size (`C50_false_empty`);
  * with `align_corners` and a single output: division by zero at setup (`C50_false_one_output`);
  * in mode nearest with a scale factor that does not divide evenly: the code uses the ratio of the sizes, PyTorch
    the given factor (`C50_false_scale`);
  * for linear weights within 1/10000 of 0 or 1, which are rounded (`C50_false_weights`);
  * for inputs that are not cut evenly (`C50_false_uneven`).
* **C51** (`C51_undefined_empty`).  In mode nearest the backward pass of a worker without outputs asks for a tensor
  with a negative extent and raises, although its forward pass succeeds.
* **C65**.  The same workers stop the backward pass of the layer (`C65_false_empty`).  Where halos are wider than
  blocks the gradient is that of the wrong output, not the sequential one (`C65_false_linear`, `C65_adjoint`); exactly
  when: `C65_right_iff`, for the outputs `C50_right_iff`.  The same for convolution and average pooling:
  `C60_convolution_right_iff`, `C60_average_right_iff`, and for the weight `C61_weight_right_iff`; with kernel size 5 over
  three cells on three workers cell 0 gets the gradient 2 instead of 3.
* **C60** (`C60_maximum_false`).  `DistributedMaxPool*` pads with `-inf` explicitly, where the PyTorch layer skips
  the padding.  If all entries of a window are `-inf` and the window begins in the padding, the gradient of the
  output goes to a padding cell and is lost; PyTorch gives it to the first entry.  The outputs agree.
* **C68** (`C68_false_sum`, `C68_false_batch`, `C68_false_terms`).  `DistributedLinear` checks no shapes.  What the
  rules of the broadcast and the sum-reduce let through gives wrong results silently: `P_y` of shape `1 x 1` with
  `P_w` of shape `P_out x P_in` returns the sum of the output blocks; `P_x` of shape `P_out x P_in` (a cut batch)
  computes output block `o` from batch block `o` only; `P_y` of shape `P_in x P_out` leaves the partial sums of the
  input blocks on separate workers.
* **C71, initial values**.  `DistributedLinear` and the channel-distributed and general convolutions let the local
  PyTorch layer draw the initial weights and biases.  PyTorch uses the range ±1/√(fan in), and the fan in of the local
  layer is that of the block: with the input features or channels over `P` workers the range is about √P times that
  of the sequential layer, and differs between workers if the blocks differ.  The sum over the `P` blocks then has `P`
  times the variance of the sequential layer's output.
* **C72, requires_grad must agree**.  Autograd records the node of a collective on a worker only if one of the inputs
  on *that worker* requires a gradient.  If the input of the first layer, say a linear one, does not require a gradient,
  the workers of `P_y` that do not belong to `P_w` have no node for `SumReduce`, do not take part in its adjoint, and the
  workers of `P_w` (whose weights require gradients) wait for them forever in `backward`.  The tests set
  `requires_grad` on all inputs.  C72 assumes that every worker performs the backward pass of all its layers.
* **C74, pipelines hang**.  The same in general: the flags of a worker depend on what it has done before, not on the
  tensor it receives.  `Broadcast`, `SumReduce` and `Repartition` send the flag along and create their outputs with it, but
  PyTorch detaches what a `Function` returns if none of its inputs requires a gradient.  `C74_false`: a linear layer from worker 0
  to worker 1, then one on worker 1; the input does not require gradients.  Worker 0 waits in `backward` forever, in all
  executions.  A `Repartition` from workers with parameters to workers without has the same effect.  It does not happen
  if the first layer with parameters has some on all workers, as a feature-distributed convolution on all workers does.
* **C77, batch sizes**.  A network may be called with different batch sizes only because `zero_volume_tensor(b)` carries the
  batch size (`utilities/torch.py:5-13`).  With `preserve_batch=False`, or if a worker without data passes
  `zero_volume_tensor()`, that worker sees the same structure in every call and keeps its setup while its partners repeat
  theirs (C33).  The same happens if the batch dimension is cut: with two workers along it, the batch sizes 4 and 3 differ
  only on the second one.
* **C78, the first gradient**.  `loss.backward()` starts with 1 on every worker of the partition of the loss.  Only the first
  worker's 1 counts: `ZeroVolumeCorrectorFunction.backward` hands the others a tensor without entries, and the adjoint of
  the sum-reduction sends the first worker's gradient to all.  Code that scales the loss on one worker (`loss * s`) must do so
  on the first worker of `P_x`; scaling it on the others changes nothing.
* **C78, "mean" keeps the number of entries**.  The normalisation factor is found in the setup only; the setup of the loss
  is repeated on a worker when its own block changes.  If the batch dimension is cut and only some blocks change, only those
  workers enter `allreduce_data` and wait for the others (as in C33).
* **C79** (`C79_false`, `C79_double_false`).  The mixin finds the inputs of a worker in double precision, the kernel the entry
  of an output in the type of the tensor.  At outputs that lie exactly on an input they can disagree, and then the clamp to the
  local range decides: from 14 to 46 entries in float32, output 23 is entry 7 exactly; a single worker computes 6.9999995 and
  copies entry 6, the second of two workers has no entry 6 and copies entry 7.  So the result depends on the number of workers.
  In float64 the kernel calls `floorf` (`interpolate.h:85`), which rounds the position to single precision: from 5000 to 9999
  entries, output 9997 lies at 4998.9999..., a single worker copies entry 4999, the last of four workers, which
  subtracts its offset before, entry 4998.  `std::floor` would be right here.
* **C86** (`C86_false`).  In float64 `floorf` (`interpolate.h:125`) rounds the position to single precision and may so round it up to
  the next cell; then the weights are (1 + ε, -ε): linear extrapolation with cells n and n + 1 of a value between n - 1 and n.
  From 10002 to 10001 entries with `align_corners`, output 9998 lies at 9998.9998; a single worker uses 1.0002 times
  entry 9999 minus 0.0002 times entry 10000, the last of four workers 0.0002 times entry 9998 and 0.9998 times entry 9999.  So
  non-negative data can become negative, and the result depends on the number of workers by more than rounding errors
  (C85 bounds it).  The threshold 1e-4 hides this up to about 1600 entries.
* **C82, weights on one worker** (`C82_false`).  `DistributedGeneralConvBase.__init__` returns after line 207 if `self.P_w.size == 1`.
  A worker outside of `P_w` has an inactive `P_w` whose size is not 1, so it goes on and waits in
  `P_union.broadcast_data(self.kernel_size)` (line 365) for the worker of `P_w`, which has returned.  Partitions with
  `P_w` on worker 0 and `P_x`, `P_y` on worker 1 satisfy all documented conditions.  So it is in every script of lines as documented
  with such a convolution, and in no other (`C82_stuck`, `C82_iff`).
* **C82, exceptions** (`C82_exception_false`).  The constructors of the channel and general convolutions check the shape of `P_x` on
  the workers of `P_x` only.  A worker that is only in `P_w` raises nothing and waits for the others for ever, so that a
  wrong partition shows as a hang, not as the `ValueError`.
* **C91, in-place exchange** (`C91_false`, `C91_one_worker`, `C91_upsampling_one_worker`).  `HaloExchangeFunction.forward` calls `ctx.mark_dirty(input)`
  (`functional/halo_exchange.py:26`).  On a worker with total padding 0 the layers hand the caller's tensor to it
  (`conv_feature.py:384`, `pooling.py:293`, `upsampling.py:276`, `conv_general.py:561`).  A leaf tensor that requires gradients then makes
  PyTorch raise an exception, on this worker only, and the others wait for it if they need halos from it.  Any other tensor
  counts as modified, so the backward pass of an operator that saved it before raises.  This happens exactly on workers whose windows
  read their own block only and that are not at the padded end of the tensor (`C91_refused_iff`, `C91_version`, `C91_shared_iff`), for instance with kernel
  size 1, or pooling with stride = kernel size on blocks of a multiple of it.  The repository's test of the halo exchange clones its input for this reason; no test of a layer has total padding 0.
  The same holds for interpolation, where the cells on both sides of every output's position must be in the block
  (`C91_upsampling_refused_iff`, `C91_upsampling_version`), for instance mode nearest with an integer factor on even blocks.
  The entries do not change (`C91_entries_partial`, `C91_upsampling_entries_partial`).  `HaloExchangeFunction.backward` writes into `grad_output`, which PyTorch
  forbids; the layers are safe, since the gradient of the slice `needed_slices` is a new tensor, the bare `HaloExchange` layer is
  not (`C91_gradient_overwritten`).  All other theorems on gradients take the passes to be carried out.
* **C92, padding modes** (`C92_false`, `C92_padding_raises`).  On more than one worker the convolutional layers hand `F.pad` widths
  for all dimensions, batch and channels included (`conv_feature.py:387`, `conv_general.py:564`), which PyTorch does not implement
  for `reflect`, `replicate` and `circular`: the worker raises `NotImplementedError`, before the exchange its neighbours wait in.
  One worker works (`C92_one_worker`, `C92_general_one_worker`), and so does the channel layer, whose local layers pad
  (`C92_channel`).  Over several workers the feature and the general layer work exactly if no worker needs more than its own block
  (`C92_right_iff`, `C92_general_right_iff`), so never with padding, the only case in which the mode means something.  Even if
  PyTorch implemented it, the mode would be applied to the local block, which is right for `reflect` and `replicate` at best.
* **C93, means over batches of changing size** (`C93_false`).  The setup of a loss with reduction `"mean"` adds up the numbers of
  entries of the blocks, and every worker decides on its own whether to redo it (C33).  When the batch size changes by less than
  the number of workers some redo it and some do not.  Without backward this need not hang: a worker that does not redo it sends
  its loss and goes on to the next call, and if its block changes there, this all-reduction is matched with the one the others are
  still in.  With 4, 5 and 3 entries over two workers the second call returns the sum over 5 entries divided by 4, without an
  error.  The third call hangs.  If no operation ends early, no wrong value is returned (`C93_partial`), the call hangs
  (`C93_hangs`).  The same holds in training, where the gradient of the loss has to arrive before a worker can go on
  (`C93_training_partial`): the failure is one of evaluation.

## Mutation tests

`seeded/LOG.jsonl` lists edits of model definitions made in a scratch copy, with the declarations whose
proofs stopped compiling.  `lake` stops at the first module that fails, so the list names the first failures
only, often helper lemmas of the property theorem; a failing proof shows that the development depends on the
edited line, not that the property theorem was contradicted.  Entries with an empty `failed` list survived;
all but the first `selectConv` entry (C45) say why no listed claim becomes false.  The out of range error of
`getCartRank` is constrained by no theorem.  Not every attempt has a line: edits that first survived and led to a
stronger theorem are mostly listed once, as the later attempt that fails, with the theorem under `tightened`;
an automatic sweep of small edits is not listed; nor are edits of the last batch that were not run.
