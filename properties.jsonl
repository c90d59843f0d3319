{"id": "C01", "title": "Balanced decomposition tiles the tensor", "statement": "For every global length and every number of workers, the index ranges given to the workers by the balanced decomposition are contiguous, start at 0, end at the global length, and every global index lies in the range of exactly one worker; in several dimensions every global multi-index lies in exactly one worker's box.", "quantifier": "all global shapes, all partition shapes of the same rank, all worker indices, all global indices", "why_tests_cant": "There are infinitely many (length, workers) pairs; tests sample a few, and an off-by-one in the remainder handling shows only for some residues.", "anchors": ["src/distdl/utilities/slicing.py: compute_subshape, compute_start_index, compute_stop_index"]}
{"id": "C02", "title": "Balanced decomposition is balanced and ordered", "statement": "Any two workers' lengths differ by at most one, longer blocks come first, a worker is empty only if there are fewer cells than workers, and the lengths sum to the global length.", "quantifier": "all lengths and worker counts", "why_tests_cant": "Universally quantified arithmetic over division and remainder.", "anchors": ["src/distdl/utilities/slicing.py: compute_subshape", "src/distdl/utilities/tensor_decomposition.py: compute_subtensor_shapes_balanced"]}
{"id": "C03", "title": "Overlap of two subtensors is exactly their common cells", "statement": "The overlap slice returned for two boxes is None exactly when they share no global cell; otherwise the slice, read relative to the first box, enumerates exactly the common cells, stays inside the first box, and the overlap computed from the other side has the same shape. The volume of a slice is the number of its cells.", "quantifier": "all pairs of boxes of equal rank", "why_tests_cant": "Requires every relative position of two boxes in every dimension.", "anchors": ["src/distdl/utilities/slicing.py: compute_intersection, compute_partition_intersection, assemble_slices, compute_nd_slice_shape", "src/distdl/utilities/tensor_decomposition.py: compute_subtensor_intersection_slice"]}
{"id": "C04", "title": "Cartesian index enumeration and ranks agree", "statement": "Enumerating the indices of a partition shape yields each in-bounds index exactly once, in row-major order, and the position of an index in the enumeration is its row-major flat index; flat indexing (row- and column-major) is injective on in-bounds indices and onto 0..size-1.", "quantifier": "all shapes, all indices", "why_tests_cant": "Bijection over all shapes; tests enumerate a handful of shapes.", "anchors": ["src/distdl/utilities/slicing.py: range_index, worker_layout", "src/distdl/utilities/index_tricks.py: cartesian_index_c, cartesian_index_f"]}
{"id": "C05", "title": "Filtered enumeration selects exactly the matching indices", "statement": "Given an index and a set of dimensions, the filtered enumeration yields exactly the in-bounds indices agreeing with the given index on those dimensions (or on all other dimensions when inverted), each once and in row-major order.", "quantifier": "all shapes, indices, dimension sets, invert flag", "why_tests_cant": "All subsets of dimensions and all shapes.", "anchors": ["src/distdl/utilities/slicing.py: filtered_range_index, assemble_index_filter"]}
{"id": "C06", "title": "Start and stop indices of an arbitrary tensor-product layout tile the tensor", "statement": "Given the local shape of every worker, where a worker's length in a dimension depends only on its coordinate in that dimension, the computed start/stop indices tile the global tensor exactly; for balanced shapes they equal the closed-form balanced start/stop indices.", "quantifier": "all partition shapes, all per-dimension block lengths (including empty blocks)", "why_tests_cant": "Unbounded family of unbalanced layouts; start indices come from a shifted cumulative sum whose boundary handling matters.", "anchors": ["src/distdl/utilities/tensor_decomposition.py: compute_subtensor_start_indices, compute_subtensor_stop_indices, compute_subtensor_shapes_balanced"]}
{"id": "C07", "title": "Gathering subtensor shapes gives every worker the same complete table", "statement": "After gathering, every worker of the output partition holds a table whose entry at each input worker's index is that worker's actual local shape, and all workers hold the same table, including workers outside the input partition.", "quantifier": "all partitions, all local shapes, all members of the output partition", "why_tests_cant": "Depends on every placement of workers and on reduction over any number of contributors.", "anchors": ["src/distdl/backends/mpi/tensor_decomposition.py: compute_subtensor_shapes_unbalanced"]}
{"id": "C08", "title": "Assembled global tensor shape is the true global shape everywhere", "statement": "For an input distributed as a tensor-product layout, the assembled global shape equals the sum of block lengths in each dimension, whichever worker computes it, and workers outside the input partition receive the same shape, dtype and requires_grad.", "quantifier": "all partitions, layouts and workers", "why_tests_cant": "Each worker reduces along its own lines of the partition; agreement must hold for all lines.", "anchors": ["src/distdl/backends/mpi/tensor_comm.py: assemble_global_tensor_structure"]}
{"id": "C09", "title": "Expanding a buffer never loses capacity or contents", "statement": "A buffer's capacity never decreases; expansion keeps the previously stored elements as a prefix; requesting a view of any shape always yields a view whose element count is the product of the shape and which lies within capacity.", "quantifier": "all histories of view requests and expansions", "why_tests_cant": "Quantifies over arbitrary call histories.", "anchors": ["src/distdl/backends/mpi/buffer.py: MPIExpandableBuffer.expand, allocate_view, get_view"]}
{"id": "C10", "title": "Views handed out by a buffer alias its current storage", "statement": "After any history of operations, each cached view is a prefix of the buffer's current storage, so data written through one view of a shape is read back through any later view of the same shape requested without an intervening expansion. Views handed out before an expansion no longer alias the storage.", "quantifier": "all histories", "why_tests_cant": "Aliasing after arbitrary interleavings of requests and expansions.", "anchors": ["src/distdl/backends/mpi/buffer.py: MPIExpandableBuffer.expand, get_view"]}
{"id": "C11", "title": "Buffer manager hands out distinct and stable buffers", "statement": "A request for n buffers of a dtype returns n pairwise distinct buffers of that dtype; later requests for the same dtype return the same leading buffers, requests for other dtypes never disturb them.", "quantifier": "all request histories", "why_tests_cant": "Arbitrary histories across dtypes and sizes.", "anchors": ["src/distdl/backends/mpi/buffer.py: MPIBufferManager.request_buffers"]}
{"id": "C12", "title": "Concurrent messages of a repartition never share a buffer", "statement": "Within one repartition, each message sent or received by a worker has its own buffer, every such buffer can hold its message, and exactly the overlaps that are non-empty and not local to the worker get one.", "quantifier": "all overlap lists", "why_tests_cant": "All combinations of empty, self and remote overlaps.", "anchors": ["src/distdl/backends/mpi/repartition.py: allocate_repartition_buffers", "src/distdl/backends/mpi/buffer.py: MPIBufferManager.request_buffers"]}
{"id": "C13", "title": "Repartition messages are matched", "statement": "For every ordered pair of workers, a worker posts a send to another worker exactly when that worker posts a receive from it, at most one message per pair, and both sides agree on the message shape, for forward and adjoint, for arbitrarily overlapping input and output partitions.", "quantifier": "all worker placements, partition shapes and (unbalanced) input layouts", "why_tests_cant": "Mismatch for any placement means a hang or truncated message; unit tests run a few placements.", "anchors": ["src/distdl/nn/repartition.py: Repartition._distdl_module_setup, Repartition.__init__", "src/distdl/backends/mpi/functional/repartition.py: RepartitionFunction.forward, backward"]}
{"id": "C14", "title": "Repartition delivers the same global tensor under every schedule", "statement": "In every execution, whatever the interleaving of workers and the order in which receives complete, the tensor held by each output worker is exactly its balanced block of the global input tensor.", "quantifier": "all schedules, placements, layouts, tensor contents", "why_tests_cant": "Schedules are exponentially many and nondeterministic.", "anchors": ["src/distdl/backends/mpi/functional/repartition.py: RepartitionFunction.forward", "src/distdl/nn/repartition.py: Repartition"]}
{"id": "C15", "title": "Repartition adjoint is the exact adjoint", "statement": "The backward operation returns to each input worker the gradient block of its own (possibly unbalanced) layout, and satisfies <F x, y> = <x, F* y> for all x, y; F* F is the identity.", "quantifier": "all layouts, tensors and schedules", "why_tests_cant": "Numerical adjoint tests check random vectors for fixed layouts only.", "anchors": ["src/distdl/backends/mpi/functional/repartition.py: RepartitionFunction.backward"]}
{"id": "C16", "title": "Repartitions compose", "statement": "Repartitioning from P_x to P_y and then to P_z gives the same result as repartitioning from P_x to P_z directly; with balanced input, repartitioning to P_y and back to P_x is the identity.", "quantifier": "all triples of partitions, layouts and tensors", "why_tests_cant": "All triples of partitions.", "anchors": ["src/distdl/nn/repartition.py: Repartition"]}
{"id": "C17", "title": "Repartition always terminates with every request complete", "statement": "No execution of a repartition deadlocks, and when a worker leaves the operation all its send and receive requests are complete, so its communication buffers may be reused by another layer.", "quantifier": "all schedules, placements", "why_tests_cant": "Deadlocks occur only for particular interleavings.", "anchors": ["src/distdl/backends/mpi/functional/repartition.py: RepartitionFunction.forward (Waitany loop)"]}
{"id": "C18", "title": "Broadcast pairs each destination with the NumPy-matching source", "statement": "For valid partition shapes without transposition, each destination worker receives from exactly one source worker: the one whose index, after padding the source shape with ones on the left, agrees in every dimension where the source extent is not one.", "quantifier": "all valid shape pairs, all placements of the two partitions over the workers", "why_tests_cant": "All shapes and arbitrary overlap of the two partitions.", "anchors": ["src/distdl/backends/mpi/partition.py: create_broadcast_partition_to, _build_cross_partition_groups"]}
{"id": "C19", "title": "Broadcast and reduction shapes are rejected exactly when the rules fail", "statement": "Creating broadcast (reduction) partitions raises exactly when the source (destination) has more dimensions than the other side or an extent which neither matches nor equals one; otherwise partitions are produced.", "quantifier": "all shape pairs and transposition flags", "why_tests_cant": "Decision over all shapes.", "anchors": ["src/distdl/backends/mpi/partition.py: create_broadcast_partition_to, create_reduction_partition_to"]}
{"id": "C20", "title": "Every member of a communication group computes the same group", "statement": "All workers that will join a broadcast or reduction group compute the identical ordered list of member ranks with the root first and without repetition, so collective communicator creation is entered consistently.", "quantifier": "all placements, all members", "why_tests_cant": "Disagreement of any single member hangs the job.", "anchors": ["src/distdl/backends/mpi/partition.py: _build_cross_partition_groups, _create_send_recv_partitions"]}
{"id": "C21", "title": "Communicator creation cannot deadlock", "statement": "When each worker creates its (at most two) groups in increasing order of root rank, with each creation blocking until all members of the group have entered it, some worker can always make progress until all groups are created, for every schedule.", "quantifier": "all families of groups produced for a broadcast or reduction, all schedules", "why_tests_cant": "Deadlock is schedule- and topology-dependent.", "anchors": ["src/distdl/backends/mpi/partition.py: _create_send_recv_partitions"]}
{"id": "C22", "title": "Broadcast forward copies, backward sums, and they are adjoint", "statement": "Forward gives each destination worker the tensor of its source; backward gives each source worker the sum of the gradients of all its destinations (counted once each, also when the source is itself a destination); <B x, y> = <x, B* y>.", "quantifier": "all placements, shapes, tensor contents", "why_tests_cant": "All placements including partial overlap of source and destination.", "anchors": ["src/distdl/backends/mpi/functional/broadcast.py: BroadcastFunction.forward, backward", "src/distdl/nn/broadcast.py: Broadcast"]}
{"id": "C23", "title": "Sum-reduction forward sums, backward copies, and is the transpose of broadcast", "statement": "Forward gives each destination worker the sum of the tensors of all source workers mapped to it, with a destination that is not a source contributing nothing; backward copies the gradient to each source; the pair is adjoint.", "quantifier": "all placements, shapes, tensor contents", "why_tests_cant": "All placements including a root that is not a contributor.", "anchors": ["src/distdl/backends/mpi/functional/sum_reduce.py: SumReduceFunction.forward, backward", "src/distdl/backends/mpi/partition.py: create_reduction_partition_to"]}
{"id": "C24", "title": "Transposed broadcasts and reductions pair reversed coordinates", "statement": "With a transposition flag on one side, workers are paired by reversing the coordinates of that side's partition.", "quantifier": "all shapes and both flags", "why_tests_cant": "All shapes with several non-unit dimensions.", "anchors": ["src/distdl/backends/mpi/partition.py: create_broadcast_partition_to, create_reduction_partition_to", "src/distdl/utilities/index_tricks.py: cartesian_index_c, cartesian_index_f"]}
{"id": "C25", "title": "All-sum-reduction sums over exactly the reduced dimensions and is self-adjoint", "statement": "Each worker receives the sum of the tensors of exactly those workers agreeing with it on all non-reduced dimensions; workers of one group get identical results, groups partition the workers, and the operation is self-adjoint.", "quantifier": "all shapes, sets of reduced axes, tensors", "why_tests_cant": "All subsets of axes and shapes.", "anchors": ["src/distdl/backends/mpi/partition.py: create_allreduction_partition", "src/distdl/backends/mpi/functional/all_sum_reduce.py: AllSumReduceFunction", "src/distdl/nn/all_sum_reduce.py: AllSumReduce"]}
{"id": "C26", "title": "axes_keep and axes_reduce are complementary; invalid axes are rejected", "statement": "Specifying the axes to keep is equivalent to reducing over the others, specifying both is rejected unless consistent, and any axis outside the partition's dimensions is rejected.", "quantifier": "all axis tuples", "why_tests_cant": "All axis sets including out-of-range and negative values.", "anchors": ["src/distdl/nn/all_sum_reduce.py: AllSumReduce.__init__", "src/distdl/backends/mpi/partition.py: create_allreduction_partition"]}
{"id": "C27", "title": "Partition union and inclusion order workers as documented", "statement": "The union of two partitions contains each worker of either exactly once, first partition's workers first in rank order; sub-partitions list exactly the requested workers in the requested order; the first input worker is always rank 0 of the union.", "quantifier": "all partitions", "why_tests_cant": "All overlaps of the two worker sets.", "anchors": ["src/distdl/backends/mpi/partition.py: create_partition_union, create_partition_inclusive"]}
{"id": "C28", "title": "Neighbour lookup is symmetric and stops at the boundary", "statement": "A worker's right neighbour in a dimension has that worker as left neighbour in the same dimension; neighbours differ by one in that coordinate only; there is no neighbour exactly at the boundary.", "quantifier": "all shapes, workers, dimensions", "why_tests_cant": "All shapes and workers.", "anchors": ["src/distdl/backends/mpi/partition.py: MPICartesianPartition.neighbor_ranks, cartesian_index"]}
{"id": "C29", "title": "Sharing data through a partition gives everyone the root's value", "statement": "Sharing data with the workers of a partition gives every worker the value held by the chosen root of the partition holding the data, whatever the ranks of that root in the two partitions; a worker outside gets nothing.", "quantifier": "all partitions, roots, values", "why_tests_cant": "Rank translation for arbitrary overlapping partitions.", "anchors": ["src/distdl/backends/mpi/partition.py: broadcast_data, allgather_data, allreduce_data"]}
{"id": "C30", "title": "Tensor structure broadcast reproduces the root's structure", "statement": "Each receiving worker obtains the rank, shape, dtype and requires_grad of the tensor at the root of its receive group, using maxima over the group where only the root contributes real values, including when the worker simultaneously roots another group.", "quantifier": "all shapes, dtypes, groups", "why_tests_cant": "Depends on the group composition and every possible value (e.g. zeros vs the -1 sentinel).", "anchors": ["src/distdl/backends/mpi/tensor_comm.py: broadcast_tensor_structure"]}
{"id": "C31", "title": "Dtype conversions round-trip", "statement": "Converting a supported torch dtype to an integer id (or NumPy dtype) and back returns the same dtype, distinct dtypes get distinct ids, and NumPy and torch dtypes that are converted into each other have the same kind and size.", "quantifier": "all supported dtypes", "why_tests_cant": "A complete finite table, including alias collisions when dictionaries are inverted.", "anchors": ["src/distdl/utilities/dtype.py: torch_to_intID_dtype_dict, intID_to_torch_dtype_dict, numpy_to_torch_dtype_dict"]}
{"id": "C32", "title": "Layer setup always matches the current input", "statement": "For every sequence of calls, whenever a layer's forward body runs the layer has been set up for the structure of exactly that input, setup is never repeated without teardown, and unchanged inputs do not trigger new setup.", "quantifier": "all input histories", "why_tests_cant": "Arbitrary call histories.", "anchors": ["src/distdl/nn/module.py: Module._distdl_forward_pre_hook, _distdl_module_setup, _distdl_module_teardown"]}
{"id": "C33", "title": "All workers agree on when to redo a collective setup", "statement": "Whenever the global input changes, either all participating workers of a distributed layer redo the collective setup or none does.", "quantifier": "all sequences of global input shapes and all partitions", "why_tests_cant": "Requires specific shape transitions where only some local blocks change.", "anchors": ["src/distdl/nn/repartition.py: Repartition._distdl_input_changed", "src/distdl/nn/module.py", "src/distdl/nn/conv_feature.py", "src/distdl/nn/pooling.py", "src/distdl/nn/loss.py"]}
{"id": "C34", "title": "Halo messages agree between neighbours", "statement": "In every dimension, the width a worker sends to a neighbour equals the width that neighbour expects, boundary workers exchange nothing outward, and message shapes agree in all other dimensions.", "quantifier": "all kernel sizes, strides, dilations, global shapes, partitions", "why_tests_cant": "All parameter combinations.", "anchors": ["src/distdl/nn/mixins/halo_mixin.py: HaloMixin._compute_exchange_info, _compute_halo_shape", "src/distdl/nn/halo_exchange.py: HaloExchange._assemble_slices"]}
{"id": "C35", "title": "Halo exchange fills every ghost cell with the neighbour's data", "statement": "After the exchange every cell of the padded local tensor, including corner regions owned by diagonal neighbours, holds the global tensor's value at that position, provided no halo is wider than the block it is taken from; bulk cells are unchanged; for every schedule.", "quantifier": "all numbers of dimensions, shapes, halo widths, schedules", "why_tests_cant": "Corner correctness depends on sweep order over any number of dimensions and on unordered message completion.", "anchors": ["src/distdl/backends/mpi/functional/halo_exchange.py: HaloExchangeFunction.forward", "src/distdl/nn/halo_exchange.py: HaloExchange"]}
{"id": "C36", "title": "Halo exchange adjoint accumulates ghost gradients to their owners", "statement": "The backward operation is the exact adjoint of the forward exchange: <H x, y> = <x, H* y>, with every ghost gradient added to its owner once and ghosts cleared.", "quantifier": "all dimensions, shapes, widths, tensors", "why_tests_cant": "Random-vector adjoint tests cover few configurations.", "anchors": ["src/distdl/backends/mpi/functional/halo_exchange.py: HaloExchangeFunction.backward"]}
{"id": "C37", "title": "Halo wider than a neighbour's block is handled or rejected", "statement": "If a required halo is wider than the neighbouring worker's block, the layer either still produces the right data or raises an error.", "quantifier": "all kernel sizes and partitions", "why_tests_cant": "Needs small blocks relative to the kernel; silently wrong values otherwise.", "anchors": ["src/distdl/nn/mixins/halo_mixin.py", "src/distdl/nn/halo_exchange.py", "src/distdl/backends/mpi/functional/halo_exchange.py"]}
{"id": "C38", "title": "Local input ranges cover exactly what the local outputs need", "statement": "For every worker, the padded local block after halo exchange begins at the first input cell its outputs read and contains all cells they read, and the local operator produces exactly the worker's balanced share of the outputs.", "quantifier": "all kernel sizes, strides, dilations, shapes, partitions", "why_tests_cant": "Arithmetic over all residues of shape, stride and partition size.", "anchors": ["src/distdl/nn/mixins/halo_mixin.py", "src/distdl/nn/mixins/conv_mixin.py", "src/distdl/nn/mixins/pooling_mixin.py"]}
{"id": "C39", "title": "Feature-distributed convolution equals sequential convolution", "statement": "The concatenation of the workers' outputs equals the output of the sequential convolution with the same weights and bias on the global input.", "quantifier": "all inputs, weights, strides, dilations, kernel sizes, partitions of the feature space within the halo limits", "why_tests_cant": "All shapes and partitions.", "anchors": ["src/distdl/nn/conv_feature.py: DistributedFeatureConvBase"]}
{"id": "C40", "title": "Distributed pooling equals sequential pooling", "statement": "The concatenation of the workers' pooled outputs equals sequential max or average pooling of the global input.", "quantifier": "all inputs, kernel sizes, strides, dilations, partitions within the halo limits", "why_tests_cant": "All shapes and partitions.", "anchors": ["src/distdl/nn/pooling.py: DistributedPoolBase, DistributedMaxPool, DistributedAvgPool"]}
{"id": "C41", "title": "Explicit padding behaves as in the sequential layer", "statement": "Distributed convolution and pooling with explicit padding produce the sequential result for every admissible padding.", "quantifier": "all paddings accepted by the layer", "why_tests_cant": "Edge cases where padding exceeds the kernel's reach on interior workers.", "anchors": ["src/distdl/nn/conv_feature.py", "src/distdl/nn/pooling.py", "src/distdl/nn/mixins/halo_mixin.py"]}
{"id": "C42", "title": "Distributed linear layer equals the sequential linear layer", "statement": "With weights partitioned over a P_out x P_in grid, the assembled output equals W x + b with the bias counted exactly once, and gradients with respect to input, weight and bias equal the sequential ones.", "quantifier": "all feature sizes, partition shapes, weights and inputs", "why_tests_cant": "All partitions and sizes including sizes not divisible by the partition.", "anchors": ["src/distdl/nn/linear.py: DistributedLinear"]}
{"id": "C43", "title": "Channel-distributed convolution equals sequential convolution", "statement": "With groups = 1 and input and output channels partitioned, the assembled output equals the sequential convolution with the bias counted once; workers outside the output partition get tensors without entries; the collectives cannot deadlock.", "quantifier": "all channel counts, kernels, strides, paddings, dilations and partitions of the documented shapes, weights and inputs; if the weight partition has one worker, the three partitions are on this worker", "why_tests_cant": "All channel partitions, incl. non-divisible counts.", "anchors": ["src/distdl/nn/conv_channel.py: DistributedChannelConvBase"]}
{"id": "C44", "title": "General distributed convolution equals sequential convolution", "statement": "With groups = 1 and channels and features partitioned at once the assembled output equals the sequential convolution with the weights and biases kept on the storing workers, bias counted once; the halo exchange can always be finished and the collectives cannot deadlock.", "quantifier": "all channel counts, feature shapes, input layouts and partitions within halo limits, all interleavings of the halo exchange", "why_tests_cant": "Product of all channel and feature partitions.", "anchors": ["src/distdl/nn/conv_general.py: DistributedGeneralConvBase"]}
{"id": "C45", "title": "Convolution selector picks an implementation that supports the partition", "statement": "The layer chosen for given partitions distributes only dimensions that this layer supports, and every supported combination selects a layer.", "quantifier": "all partition shapes", "why_tests_cant": "Decision over all shapes.", "anchors": ["src/distdl/nn/conv.py: DistributedConvSelector"]}
{"id": "C46", "title": "Distributed losses equal sequential losses", "statement": "With reduction none, sum, mean (and batchmean for KL divergence) the distributed loss at the root equals the sequential loss of the global tensors, for any partition, including unequal blocks.", "quantifier": "all partitions, layouts, inputs, reductions", "why_tests_cant": "Unequal blocks and every reduction mode.", "anchors": ["src/distdl/nn/loss.py: DistributedLossBase, DistributedKLDivLoss"]}
{"id": "C47", "title": "Losses work on workers outside the partition", "statement": "A worker that is not part of the input partition can call the loss layer and gets a zero-volume result.", "quantifier": "all workers", "why_tests_cant": "Requires running with spare workers.", "anchors": ["src/distdl/nn/loss.py: DistributedLossBase.forward"]}
{"id": "C48", "title": "Distributed batch norm statistics equal sequential statistics", "statement": "The mean and variance used for normalisation on each worker equal the mean and (biased) variance of the global tensor over all dimensions but the channel one, for arbitrary, unequal blocks.", "quantifier": "all partitions, layouts, inputs", "why_tests_cant": "Unequal blocks; grouping of partial sums.", "anchors": ["src/distdl/nn/batchnorm.py: DistributedBatchNorm"]}
{"id": "C49", "title": "Batch norm running statistics evolve as in the sequential layer", "statement": "After any number of training batches, the running statistics equal the ones of the sequential layer: exponential average for a given momentum, cumulative arithmetic mean when momentum is None.", "quantifier": "all histories of batches and momenta", "why_tests_cant": "Arbitrary histories and special momentum values.", "anchors": ["src/distdl/nn/batchnorm.py: DistributedBatchNorm._update_running_stats"]}
{"id": "C50", "title": "Interpolation needs are covered and distributed interpolation equals sequential", "statement": "For nearest and linear interpolation the extended local input contains all cells needed by the local outputs, and the result equals the sequential interpolation.", "quantifier": "all global sizes, scale factors, align_corners, partitions", "why_tests_cant": "Arithmetic with rationals, floors and ceilings over all sizes.", "anchors": ["src/distdl/nn/mixins/interpolate_mixin.py: InterpolateMixin", "src/distdl/nn/upsampling.py: DistributedUpsample", "src/distdl/functional/interpolate/src/interpolate.h: compute_nearest_left_idx_weight, compute_linear_idx_weight"]}
{"id": "C51", "title": "Interpolation backward is the adjoint of forward", "statement": "For every index/weight assignment, the adjoint kernels accumulate exactly the transpose of the forward kernels.", "quantifier": "all sizes, offsets, modes, 1 to 3 feature dimensions", "why_tests_cant": "All sizes and clamped corner cases.", "anchors": ["src/distdl/functional/interpolate/src/interpolate_linear_cpu.cpp", "src/distdl/functional/interpolate/src/interpolate_constant_cpu.cpp"]}
{"id": "C52", "title": "Workers that receive nothing produce tensors without entries, keeping the batch size", "statement": "A worker of the input partition of a broadcast, sum-reduction or repartition that is not in the output partition returns a tensor without entries, of shape [b, 0] with preserve_batch (b: first extent of its input) and [0] without; for gradients the roles of the partitions are exchanged; a worker of neither partition returns its own tensor. The zero-volume corrector hands tensors with entries and their gradients on, turns tensors without entries into the number 0 and their gradients into a tensor without entries.", "quantifier": "all partitions, placements, workers, shapes", "why_tests_cant": "Placement-dependent.", "anchors": ["src/distdl/utilities/torch.py: zero_volume_tensor", "src/distdl/functional/zero_volume_corrector.py: ZeroVolumeCorrectorFunction", "src/distdl/backends/mpi/functional/broadcast.py", "src/distdl/backends/mpi/functional/sum_reduce.py", "src/distdl/backends/mpi/functional/repartition.py", "src/distdl/nn/repartition.py: Repartition.forward"]}
{"id": "C53", "title": "Partition equality and deactivation", "statement": "Two partitions compare equal only if both are active and identical; equality is reflexive on active partitions, symmetric; a deactivated partition is inactive and equals nothing; Cartesian deactivation keeps the shape readable. On a worker of the communicator a new partition has the rank, size, shape and index of the place of the worker, elsewhere none.", "quantifier": "all partitions and histories of deactivation", "why_tests_cant": "Histories of creation and release.", "anchors": ["src/distdl/backends/mpi/partition.py: MPIPartition.__eq__, deactivate, MPICartesianPartition.deactivate"]}
{"id": "C54", "title": "Padding conversion preserves per-dimension pairs", "statement": "Converting layer-style per-dimension padding pairs to the flat torch padding list reverses the dimension order and keeps each (left, right) pair, so padding is applied to the intended dimension on the intended side.", "quantifier": "all ranks and padding values", "why_tests_cant": "All ranks.", "anchors": ["src/distdl/utilities/torch.py: distdl_padding_to_torch_padding"]}
{"id": "C55", "title": "Sub-topologies partition the workers along the kept dimensions", "statement": "Keeping a set of dimensions splits the partition into groups of workers agreeing on all dropped coordinates; each worker's index in its group is its index restricted to the kept dimensions.", "quantifier": "all shapes and keep masks", "why_tests_cant": "All shapes and masks.", "anchors": ["src/distdl/backends/mpi/partition.py: MPICartesianPartition.create_cartesian_subtopology_partition"]}
{"id": "C56", "title": "Halo exchange buffers of one dimension are distinct and keep their views", "statement": "Within one dimension of a halo exchange each non-empty message has its own buffer, empty messages have none, and although the same four buffers serve all dimensions each buffer can hold, through a current view, every message it is used for.", "quantifier": "all tensor ranks, halo shapes, histories of the shared buffer manager", "why_tests_cant": "Depends on the history of the shared manager and on the order of expansions.", "anchors": ["src/distdl/backends/mpi/halo_exchange.py: allocate_halo_exchange_buffers"]}
{"id": "C57", "title": "Grouped convolution with partitioned channels equals sequential grouped convolution", "statement": "With groups > 1 and partitioned channels the assembled output equals the sequential grouped convolution.", "quantifier": "all channel counts, groups and channel partitions", "why_tests_cant": "Depends on how groups and channel blocks overlap.", "anchors": ["src/distdl/nn/conv_channel.py: DistributedChannelConvBase.__init__", "src/distdl/nn/conv_general.py: DistributedGeneralConvBase.__init__"]}
{"id": "C58", "title": "Channel-distributed convolution works wherever its partitions are placed", "statement": "The forward pass completes on all workers of the three partitions also when the weight partition has a single worker that is not the worker of the input or output partition.", "quantifier": "all placements of the three partitions", "why_tests_cant": "Placements other than the common one are not tested; the failure is a hang.", "anchors": ["src/distdl/nn/conv_channel.py: DistributedChannelConvBase.forward", "src/distdl/nn/conv_general.py: DistributedGeneralConvBase.forward"]}
{"id": "C59", "title": "Every worker can create a distributed batch norm", "statement": "DistributedBatchNorm(P_x, ...) can be created on every worker, as the other layers can; on the workers of P_x the same layer results, with sums and parameters kept on the first worker of every channel block.", "quantifier": "all partitions of at least two dimensions, workers, feature counts", "why_tests_cant": "Placements where some worker is outside P_x are not tested.", "anchors": ["src/distdl/nn/batchnorm.py: DistributedBatchNorm.__init__"]}
{"id": "C60", "title": "Gradients of convolution and pooling inputs equal the sequential gradients", "statement": "For feature-distributed convolution, average pooling and maximum pooling, when the workers get the blocks of the gradient of the sequential output, backward terminates and returns to every worker its block of the gradient the sequential layer computes for the whole input.", "quantifier": "all layouts and partitions within the limits of the halos, kernel sizes, strides, paddings, dilations, groups, data, gradients, interleavings", "why_tests_cant": "Overlapping windows across worker boundaries, padding and schedules; tests only check an inner product on a few sizes.", "anchors": ["src/distdl/nn/conv_feature.py: DistributedFeatureConvBase.forward", "src/distdl/nn/pooling.py: DistributedPoolBase.forward", "src/distdl/backends/mpi/functional/halo_exchange.py: HaloExchangeFunction.backward"]}
{"id": "C61", "title": "Gradients of convolution parameters equal the sequential gradients", "statement": "After backward of a feature-distributed convolution the root worker holds the gradients of weight and bias that the sequential layer computes from the whole input and the whole gradient of the output; the other workers hold gradients without entries.", "quantifier": "all layouts and partitions within the limits of the halos, kernel sizes, strides, paddings, dilations, groups, data, gradients", "why_tests_cant": "Every worker contributes through halos; nothing may be counted twice.", "anchors": ["src/distdl/nn/conv_feature.py: DistributedFeatureConvBase.forward", "src/distdl/backends/mpi/functional/broadcast.py: BroadcastFunction.backward"]}
{"id": "C62", "title": "Gradients of the inputs of channel-distributed and general convolutions equal the sequential gradients", "statement": "When the workers of P_y get the blocks of the gradient of the sequential output, backward of a channel-distributed or a general convolution terminates and returns to every worker of P_x its part of the gradient the sequential convolution computes for the whole input; the other workers of the layer get tensors without entries and workers outside the layer what they passed in.", "quantifier": "all channel counts, partitions and placements, layouts within the limits of the halos, kernel sizes, strides, paddings, dilations, data, gradients, interleavings", "why_tests_cant": "The gradient of an input channel is a sum over the workers of all output channels, then passed through the adjoint of the halo exchange; tests only check an inner product on a few sizes.", "anchors": ["src/distdl/nn/conv_channel.py: DistributedChannelConvBase.forward", "src/distdl/nn/conv_general.py: DistributedGeneralConvBase.forward"]}
{"id": "C63", "title": "Gradients of the parameters of channel-distributed and general convolutions equal the sequential gradients", "statement": "After backward of a channel-distributed or a general convolution every worker that stores a block of the weight or of the bias holds the corresponding block of the gradient the sequential convolution computes from the whole input and the whole output gradient; the other receiving workers hold gradients without entries.", "quantifier": "all channel counts, partitions and placements, layouts within the limits of the halos, kernel sizes, strides, paddings, dilations, data, gradients", "why_tests_cant": "The contributions of all workers along the features must be summed once, on the right worker.", "anchors": ["src/distdl/nn/conv_channel.py: DistributedChannelConvBase.forward", "src/distdl/nn/conv_general.py: DistributedGeneralConvBase.forward"]}
{"id": "C64", "title": "Gradients of the distributed batch norm are those of the sequential layer", "statement": "The backward pass of DistributedBatchNorm gives every worker its block of the gradient of the sequential batch norm with respect to the input, where in training mode (or without tracked statistics) the gradient flows also through the batch mean and variance, and the workers that store gamma and beta the gradients of these; the other workers get parameter gradients without entries. Its collectives cannot deadlock. The sequential gradient is the derivative of the sequential layer.", "quantifier": "for every placement and shape of the partition, every layout of the input (also unequal and empty blocks), every input, output gradient, parameter values, tracked statistics and eps, in training, evaluation and untracked mode, with and without parameters", "why_tests_cant": "The gradient passes twice through a sum-reduce and a broadcast, whose adjoints exchange their roles; the tests compare the parameter gradients of a few partitions with the sequential layer, to a tolerance.", "anchors": ["src/distdl/nn/batchnorm.py:119", "src/distdl/nn/batchnorm.py:142", "src/distdl/nn/batchnorm.py:188"]}
{"id": "C65", "title": "Gradients of distributed interpolation are those of the sequential layer", "statement": "The backward pass of DistributedUpsample gives every worker its block of the gradient of the sequential interpolation. It is the adjoint of what the forward pass computes, also where that is not the sequential interpolation, and its halo exchange cannot deadlock.", "quantifier": "for every partition, size or scale factor, mode, align_corners, input, output gradient, every schedule of both exchanges and all earlier uses of the buffers; with halos no wider than the neighbouring blocks for the comparison with the sequential layer", "why_tests_cant": "The gradient passes through the interpolation kernel with offsets, a selection, the adjoint exchange and the padding; the tests check adjointness of the whole layer for one random input per case.", "anchors": ["src/distdl/nn/upsampling.py:259", "src/distdl/functional/interpolate/interpolate.py:103", "src/distdl/backends/mpi/functional/halo_exchange.py:77"]}
{"id": "C66", "title": "The threads of the interpolation kernels do not interfere", "statement": "When the rows of an interpolation are handed to several threads, no two threads are ever about to access the same entry with one of them writing, all threads finish, and the result is bit by bit that of a single thread running through the rows in order.", "quantifier": "for every mode, size and offset, every division of the rows into chunks, every interleaving of loads and stores, every (also rounding) addition and multiplication, forward and adjoint", "why_tests_cant": "A data race shows up rarely and depends on the number of threads and their timing; the tests use tensors too small to be divided among threads.", "anchors": ["src/distdl/functional/interpolate/src/interpolate_linear_cpu.cpp:86", "src/distdl/functional/interpolate/src/interpolate_linear_cpu.cpp:347", "src/distdl/functional/interpolate/src/interpolate_constant_cpu.cpp:84", "src/distdl/functional/interpolate/src/interpolate_constant_cpu.cpp:290"]}
{"id": "C67", "title": "Training a distributed network of linear layers is sequential training", "statement": "A network of DistributedLinear layers with elementwise activations, followed by a distributed loss with reduction, trained with an optimizer that updates every parameter entry from its own gradient (and its own optimizer data): every training step succeeds, its loss is the sequential loss, and after any number of steps every worker holds the blocks of the parameters that sequential training reaches. The gradients used are the derivatives of the loss.", "quantifier": "for every depth, number of steps, placements and sizes of the partitions of the layers (each layer takes its input where the previous one leaves it), feature counts, activations, losses, batch size, batches, initial parameters and optimizer", "why_tests_cant": "The parameter blocks evolve over many steps, so an error that is invisible in one layer or one step accumulates; the tests make a single update of one batch norm layer and compare single layers otherwise.", "anchors": ["src/distdl/nn/linear.py:85", "src/distdl/nn/loss.py:129", "examples/basics/ex_distributed_loss.py:95"]}
{"id": "C68", "title": "The linear layer refuses partitions of unsupported shape", "statement": "DistributedLinear documents that P_x, P_y and P_W have shapes 1 x P_in, 1 x P_out and P_out x P_in. If a forward pass completes on all workers, with the input features cut evenly over P_x, the partitions have these shapes; otherwise an exception is raised.", "quantifier": "for all Cartesian partitions of two dimensions of a common root, feature counts, parameters and inputs", "why_tests_cant": "Wrong partitions give a tensor of plausible shape with wrong entries rather than a failure, and the number of combinations is unbounded; the tests construct supported partitions only.", "anchors": ["src/distdl/nn/linear.py:19", "src/distdl/nn/linear.py:53", "src/distdl/nn/linear.py:82"]}
{"id": "C69", "title": "A network run without synchronisation between its layers computes the sequential network", "statement": "A network of distributed layers (convolutions distributed over features, over channels or over both, poolings, elementwise functions, repartitions, reshapes to two dimensions, linear layers) whose workers run through the layers one after another, each at its own speed and possibly several layers ahead of others: as long as a worker has not finished, some worker can go on; all executions end; no worker raises an exception; and every worker of the last partition ends with its part of the output of the sequential network.", "quantifier": "for every depth and sequence of layers whose requirements hold, every placement, every assignment of communicators to layers (shared or not), every input, every interleaving of the workers, every order in which requests complete and every choice of the library to complete requests early", "why_tests_cant": "Layer tests end with all workers idle, so that a message or collective of one layer can never meet one of the next; the number of interleavings is unbounded, and a mismatch shows only if one worker is far ahead of another.", "anchors": ["src/distdl/nn/conv_feature.py:357", "src/distdl/nn/conv_channel.py:323", "src/distdl/nn/conv_general.py:536", "src/distdl/nn/pooling.py:276", "src/distdl/nn/repartition.py:329", "src/distdl/nn/linear.py:85", "src/distdl/backends/mpi/functional/repartition.py:104", "src/distdl/backends/mpi/functional/halo_exchange.py:31", "src/distdl/backends/mpi/functional/broadcast.py:88", "src/distdl/backends/mpi/functional/sum_reduce.py:85"]}
{"id": "C70", "title": "Every parameter of a layer is stored exactly once over all workers", "statement": "After construction of a distributed linear layer, a convolution distributed over features, over channels or over both, or an affine batch norm, every entry of the weight and of the bias (scale and shift) of the sequential layer is an entry of a torch.nn.Parameter of exactly one worker, at the place that its block prescribes; no worker holds a parameter entry outside of the sequential ones; without bias (not affine) there is no bias parameter. Hence the parameters of all workers together have as many entries as those of the sequential layer.", "quantifier": "for every placement and size of the partitions, all channel and feature counts (also not divisible by the partition), kernel sizes, with and without bias", "why_tests_cant": "A parameter stored twice is trained twice and drifts apart, one stored nowhere is never trained; the tests look at outputs and gradients of given weights, not at which worker registers a parameter.", "anchors": ["src/distdl/nn/linear.py:70", "src/distdl/nn/conv_feature.py:164", "src/distdl/nn/conv_channel.py:213", "src/distdl/nn/conv_general.py:302", "src/distdl/nn/batchnorm.py:95"]}
{"id": "C71", "title": "Parameters are initialised as those of the sequential layer", "statement": "The range from which a distributed linear layer or convolution draws the initial entries of its weight and bias is the range of the sequential layer (plus and minus 1/sqrt(fan in) in PyTorch).", "quantifier": "for every placement and size of the partitions, all channel and feature counts and kernel sizes", "why_tests_cant": "The initial values are random, so no test compares them with those of a sequential layer; a wrong range changes how a network trains, not what a layer computes.", "anchors": ["src/distdl/nn/linear.py:79", "src/distdl/nn/conv_channel.py:213", "src/distdl/nn/conv_general.py:290"]}
{"id": "C72", "title": "Forward and backward pass of a network give the gradients of the sequential network", "statement": "In a network of layers (convolutions distributed over features, over channels or over both, average pooling, entrywise functions, changes of partition, flattening, distributed linear layers) every worker calls its layers one after another, takes its part of a gradient of the output, and autograd calls the adjoints in reverse order, without any synchronisation of the workers.  Whatever the interleaving and however early the library completes requests: no worker waits forever, the number of steps is bounded, no exception is raised, and at the end every worker of the first partition holds its part of the gradient of the input, and every parameter entry of every layer has, on the one worker that stores it, the gradient that the sequential network has; workers that store no entries get gradients without entries.", "quantifier": "for all networks, partitions, placements, sizes (within the halo limits), inputs and gradients of the output, all interleavings of all workers", "why_tests_cant": "Adjoints communicate in the opposite direction over the same communicators and tags as the forward pass, and a fast worker may be in the backward pass of a layer while a slow one is still in the forward pass of another; tests run one layer at a time on a quiet machine.", "anchors": ["src/distdl/backends/mpi/functional/broadcast.py:133", "src/distdl/backends/mpi/functional/sum_reduce.py:139", "src/distdl/backends/mpi/functional/repartition.py:214", "src/distdl/backends/mpi/functional/halo_exchange.py:75", "src/distdl/nn/linear.py:85", "src/distdl/nn/conv_feature.py:357", "src/distdl/nn/conv_channel.py:323", "src/distdl/nn/conv_general.py:536", "src/distdl/nn/pooling.py:276"]}
{"id": "C73", "title": "The gradients of a training step are the derivatives of the loss", "statement": "For the networks of C72, C80 and C81 over the real numbers, with batch norms in either mode: when the input and all parameters of all layers move with given velocities, a differentiable function of the output (a loss) changes at the rate of the gradients that C72, C80 and C81 say the workers obtain (of the input, of every weight, bias, scale and shift) times these velocities.", "quantifier": "for all networks of C72, C80 and C81, all differentiable entrywise functions, all losses with a gradient, all inputs, parameters and velocities", "why_tests_cant": "Tests compare inner products of one layer with its adjoint; that the adjoints in the chain are those of the derivative at the stored activations, for all parameters at once, is not tested.", "anchors": ["src/distdl/nn/linear.py:85", "src/distdl/nn/conv_feature.py:357", "src/distdl/nn/pooling.py:276", "src/distdl/backends/mpi/functional/repartition.py:214"]}
{"id": "C74", "title": "Backward passes end and give the gradients of the parameters whichever inputs require gradients", "statement": "A training step of the networks of C72 ends on every worker and gives every parameter its gradient, whichever workers pass in an input that requires gradients (a worker takes part in the adjoint of an operation only if one of its own inputs to this operation requires gradients, as autograd does it; the parameters of all layers do).", "quantifier": "for all networks, partitions, placements, sizes (within the halo limits), inputs and gradients of the output, all flags of the input tensors, all interleavings of all workers", "why_tests_cant": "The tests set requires_grad on every input, so that every worker takes part in every adjoint; training code normally does not require gradients of the data.", "anchors": ["src/distdl/backends/mpi/functional/broadcast.py:126", "src/distdl/backends/mpi/functional/sum_reduce.py:128", "src/distdl/backends/mpi/functional/repartition.py:206", "src/distdl/nn/linear.py:85", "src/distdl/nn/conv_feature.py:171", "src/distdl/nn/conv_general.py:303"]}
{"id": "C75", "title": "A network is set up once and can be called again", "statement": "A network of the layers of C72 is called any number of times with inputs of the same structure (shape, type, requires_grad) and any entries. In the first call every module does its setup, which communicates; later each worker decides for itself, by comparing the structure of its input with the one it has kept, that no setup is needed. Whatever the interleaving, also across calls: some worker can go on until all calls are done, the number of steps is bounded, no exception is raised, and every worker of the last partition obtains its part of the result of every call.", "quantifier": "for all networks, partitions, placements, sizes (within the halo limits), numbers of calls, inputs of one structure, all interleavings of all workers", "why_tests_cant": "Tests call a layer once or twice after a fresh construction; whether workers that decide separately about the setup of dozens of modules always decide alike, and whether kept data fit, depends on all earlier calls.", "anchors": ["src/distdl/nn/module.py:37", "src/distdl/nn/module.py:101", "src/distdl/nn/broadcast.py:169", "src/distdl/nn/sum_reduce.py:168", "src/distdl/nn/conv_feature.py:330", "src/distdl/nn/conv_general.py:506", "src/distdl/nn/pooling.py:241", "src/distdl/nn/repartition.py:313"]}
{"id": "C76", "title": "Calling and training a network in any order is sequential training", "statement": "A network of the layers of C72 is called and trained in any order: a training step calls it, computes the gradient of the output from the output, goes back and replaces every parameter entry by a function of the entry and its gradient. The input requires gradients on all workers, or on none of them and then the first layer with parameters has some on every worker (otherwise C74 fails). Whatever the interleaving, also across steps: some worker can go on until all is done, the number of steps is bounded, no exception is raised, every worker ends with its blocks of the parameters of the sequential network trained in the same way, and the results of the calls are those of the sequential network at that time.", "quantifier": "for all networks, partitions, placements, sizes (within the halo limits), sequences of calls and training steps, inputs of one structure, losses whose gradient each worker can compute for its part, rules of update, all interleavings of all workers", "why_tests_cant": "Parameters, kept setups and messages of many steps interact; the tests make one update of one batch norm layer and otherwise compare single layers.", "anchors": ["src/distdl/nn/module.py:37", "src/distdl/nn/linear.py:85", "src/distdl/nn/conv_feature.py:357", "src/distdl/nn/conv_channel.py:323", "src/distdl/nn/conv_general.py:536", "src/distdl/nn/pooling.py:276", "src/distdl/backends/mpi/functional/repartition.py:214", "tests/layers/test_batchnorm.py:241"]}
{"id": "C77", "title": "A network whose partitions leave the batch dimension whole may change its batch size between calls and training steps", "statement": "A network of the layers of C72 in which no partition cuts the batch dimension and all repartitions preserve the batch size (the default) is called and trained in any order with inputs of any batch sizes, e.g. a smaller last batch; workers without a part of the input pass tensors without entries that have the batch size. Then all workers that take part in the setup of a module agree whether to do it again. Whatever the interleaving: some worker can go on until all is done, the number of steps is bounded, no exception is raised, every worker ends with its blocks of the parameters of the sequential network after the same tasks, and the results of the calls are those of the sequential network at that time, with the batch size of the call.", "quantifier": "for all networks, partitions, placements, sizes (within the halo limits), sequences of calls and training steps, sequences of batch sizes, losses whose gradient each worker can compute for its part, rules of update, all interleavings of all workers", "why_tests_cant": "Every module compares the structure of its own input on each worker; one worker that decides otherwise than its partners makes all of them wait or use sizes of an earlier batch. The tests call each layer with one structure.", "anchors": ["src/distdl/nn/module.py:37", "src/distdl/nn/module.py:101", "src/distdl/utilities/torch.py:5", "src/distdl/nn/broadcast.py:103", "src/distdl/nn/sum_reduce.py:102", "src/distdl/backends/mpi/functional/repartition.py:214", "src/distdl/nn/repartition.py:130"]}
{"id": "C78", "title": "Training with a distributed loss is sequential training with PyTorch's loss", "statement": "A distributed loss (reduction mean, sum or batchmean) is placed at the end of a network of the layers of C72, on the partition of its output. Network and loss are called and trained in any order: a training step calls the network, then the loss, goes back from the loss with gradient 1 on every worker of its partition through loss and network, and changes the parameters. The inputs have one structure, or only their batch size varies under the conditions of C77. The input requires gradients as in C76. Whatever the interleaving: some worker can go on until all is done, the number of steps is bounded, no exception is raised, every worker ends with its blocks of the parameters that sequential training with PyTorch's loss gives, the first worker of the partition of the loss obtains the sequential losses (with the parameters of their time) and the others of the partition zeros.", "quantifier": "for all networks, partitions, placements, sizes (within the halo limits), elementwise losses with their derivatives, valid reductions except none, sequences of calls and training steps, inputs, targets, rules of update, all interleavings of all workers", "why_tests_cant": "Tests call each loss alone, once, and compare one forward and backward pass; they do not train. The zero-volume corrector makes every worker start its backward pass with 1 although only one holds the loss, and the normalisation factor is kept between calls: wrong values would only appear as a slightly wrong step size.", "anchors": ["src/distdl/nn/loss.py:66", "src/distdl/nn/loss.py:127", "src/distdl/nn/loss.py:225", "src/distdl/functional/zero_volume_corrector.py:82", "src/distdl/nn/module.py:37", "src/distdl/nn/sum_reduce.py:102"]}
{"id": "C79", "title": "Nearest interpolation in floating point numbers selects on every worker the entries that one worker selects", "statement": "With IEEE rounding (the kernels in the type of the tensor, the mixin in double precision, floorf in single precision) the worker that owns an output of nearest interpolation copies for it the same entry of the global input that a single worker copies.", "quantifier": "for all input and output sizes, numbers of workers, outputs, single and double precision", "why_tests_cant": "The rounding errors matter only at outputs that lie exactly on an input, for few combinations of sizes and number of workers; the tests use a handful of small sizes for which the ratio has few binary digits or the error has the harmless sign.", "anchors": ["src/distdl/functional/interpolate/src/interpolate.h:74", "src/distdl/nn/mixins/interpolate_mixin.py:15", "src/distdl/nn/mixins/interpolate_mixin.py:89", "src/distdl/nn/upsampling.py:180"]}
{"id": "C80", "title": "Training steps of networks with interpolation layers", "statement": "A network of the layers of C72 and interpolation layers (nearest or linear, of batch-channel-feature tensors, sizes within the limits of C50) is called, the gradient of the output is computed from the output, and the backward pass runs. No worker waits for the others in between. Whatever the interleaving: some worker can go on until all have finished, the number of steps is bounded, no exception is raised, every worker of the last partition obtains in the forward pass its part of what the sequential network (PyTorch's interpolation on the global tensor) gives, and in the backward pass every worker obtains its part of the gradient of the input and of the gradients of the parameters of all layers.", "quantifier": "for all networks, partitions, placements, sizes (within the halo limits of C50 and C37), modes, size or scale factor, align_corners, inputs and gradients of the output, all interleavings of all workers", "why_tests_cant": "Tests of the interpolation layer call it alone, forward or adjoint; in a decoder its halo exchange follows others on the same communicator without synchronisation, and its adjoint must use the halo widths of the forward pass.", "anchors": ["src/distdl/nn/upsampling.py:116", "src/distdl/nn/upsampling.py:273", "src/distdl/nn/upsampling.py:283", "src/distdl/nn/mixins/interpolate_mixin.py:89", "src/distdl/backends/mpi/functional/halo_exchange.py:96", "src/distdl/functional/interpolate/interpolate.py:103"]}
{"id": "C81", "title": "Training steps of networks with batch norm", "statement": "A network of the layers of C72, interpolations and batch norms (training or evaluation mode, with or without scale and shift, with or without running statistics) is called, the gradient of the output is computed from the output, and the backward pass runs; no worker waits for the others in between. Whatever the interleaving: some worker can go on until all have finished, the number of steps is bounded, no exception is raised. Every worker of the last partition obtains in the forward pass its part of what the layers behind the batch norm make of the normalised output of the layers in front of it, mean and variance taken over the batch of all workers (or the running ones). In the backward pass every worker obtains its part of the gradient of the input; the workers that store scale and shift obtain their gradients, sums over the inputs of all workers; the others obtain tensors without entries.", "quantifier": "for all networks with batch norms at any places, partitions (of channels too), placements, sizes, parameters, running statistics, inputs and gradients of the output, all interleavings of all workers", "why_tests_cant": "Tests of the batch norm compare one call of the layer alone with PyTorch for a few partitions; inside a network its seven exchanges follow those of other layers without synchronisation, and its adjoints are performed in the order autograd chooses.", "anchors": ["src/distdl/nn/batchnorm.py:103", "src/distdl/nn/batchnorm.py:119", "src/distdl/nn/batchnorm.py:140", "src/distdl/nn/batchnorm.py:188", "src/distdl/backends/mpi/functional/sum_reduce.py:63", "src/distdl/backends/mpi/functional/broadcast.py:151"]}
{"id": "C82", "title": "Building partitions and layers cannot deadlock", "statement": "A script creates partitions, repartitions, feature, channel and general convolutions, losses and batch norms, and performs the first setup of broadcasts, sum-reductions and all-reductions, in the same order on all workers; a worker takes part in the creation of communicators and in the exchanges of the constructors or returns early, as the code decides. Whatever the interleaving: while some worker has not finished some worker can go on, the number of steps is bounded, no worker raises an exception, and any two members of a communicator make the same collective calls on it in the same order, with the same roots, shapes and results; and a worker makes calls only on communicators that it has made or been given and not yet released.", "quantifier": "for all scripts, sets of workers, partitions (overlapping or not, of any shape), all interleavings of all workers, whatever early completion of collectives the MPI library allows", "why_tests_cant": "The tests build single layers on a few partitions, with all workers active or the inactive ones idle; a worker that returns early from one of several constructors leaves the others waiting only for particular overlaps of the partitions.", "anchors": ["src/distdl/backends/mpi/partition.py:185", "src/distdl/backends/mpi/partition.py:214", "src/distdl/backends/mpi/partition.py:247", "src/distdl/backends/mpi/partition.py:440", "src/distdl/backends/mpi/partition.py:622", "src/distdl/backends/mpi/partition.py:759", "src/distdl/nn/repartition.py:87", "src/distdl/nn/conv_general.py:118", "src/distdl/nn/conv_channel.py:106", "src/distdl/nn/loss.py:54", "src/distdl/nn/batchnorm.py:45"]}
{"id": "C83", "title": "Networks with interpolation and batch norm can be trained and evaluated repeatedly", "statement": "A network of distributed layers, among them interpolations and batch norms, is called and trained any number of times in any order, each time in training mode or in evaluation mode, its modules keeping their setups between calls. Whatever the interleaving of the workers: no worker raises an exception, some worker can go on while one has not finished, and the number of steps is bounded. At the end the workers store exactly their blocks of the parameters and of the running statistics that the sequential network has after the same steps, with the batch mean and the (biased) batch variance of every batch seen in training mode, and they hold their parts of the results of all calls, each computed with the parameters, statistics and mode of its time.", "quantifier": "for all fitting networks and partitions, all numbers and orders of calls and training steps in either mode with inputs of one structure, all values, all entrywise updates, momentum not 0 (None or a number), all interleavings", "why_tests_cant": "The tests of batch norm and of interpolation call a single layer a few times on one partition; they never train a network that contains them, and an error in what the modules keep, or running statistics that differ between workers, would show only in later calls in evaluation mode.", "anchors": ["src/distdl/nn/batchnorm.py:103", "src/distdl/nn/batchnorm.py:161", "src/distdl/nn/batchnorm.py:188", "src/distdl/nn/module.py:37", "src/distdl/nn/upsampling.py:116", "src/distdl/nn/broadcast.py:103"]}
{"id": "C84", "title": "Workers print in the order of their ranks", "statement": "Workers call print_sequential any number of times, with any communicators. Whatever the interleaving and however long messages are buffered, rank 0 of each communicator prints the values of all members, call after call and in the order of the ranks; the other workers print nothing. No worker waits for ever, even if some have already gone on to later calls.", "quantifier": "for all numbers of calls, communicators (overlapping ones and ones with a single worker included), values, and interleavings", "why_tests_cant": "The function is not tested at all, and a test would see a single interleaving; values of different calls could only be confused if a worker runs ahead.", "anchors": ["src/distdl/utilities/debug.py:4", "src/distdl/utilities/debug.py:9", "src/distdl/utilities/debug.py:14"]}
{"id": "C85", "title": "Linear interpolation in floating point numbers is accurate on every worker", "statement": "With IEEE rounding of all operations (the kernels in the type of the tensor, the mixin in double precision, floorf in single precision, weights within 1e-4 of 0 or 1 moved there) the worker that owns an output of linear interpolation computes for it a value that differs from the exact linear interpolation of the global input, at the position PyTorch documents, by at most 1/10000 + (inputs + 1)/2^19 times the largest difference of neighbouring inputs plus 16/2^p times the largest input (p = 24 or 53 digits). So the result on several workers and the result on one worker differ by at most twice that.", "quantifier": "for all input sizes up to 2^19 and output sizes up to 2^20, size or scale factor, align_corners, numbers of workers, outputs and inputs, single and double precision", "why_tests_cant": "A rounding error may move a position to the other side of an input cell, where the block of a worker may end; whether the clamp to the block then costs a rounding error or a whole cell depends on sizes and number of workers, and the tests compare few small sizes.", "anchors": ["src/distdl/functional/interpolate/src/interpolate.h:97", "src/distdl/functional/interpolate/src/interpolate_linear_cpu.cpp:109", "src/distdl/nn/mixins/interpolate_mixin.py:66", "src/distdl/nn/mixins/interpolate_mixin.py:140", "src/distdl/nn/upsampling.py:180"]}
{"id": "C86", "title": "Linear interpolation in floating point numbers uses weights between 0 and 1", "statement": "With IEEE rounding the two cells that a worker uses for an output of linear interpolation are cells of the global input and their weights lie between 0 and 1; in particular non-negative inputs give non-negative outputs.", "quantifier": "for all input sizes up to 2^19 and output sizes up to 2^20, size or scale factor, align_corners, numbers of workers, outputs and inputs, single and double precision", "why_tests_cant": "A weight is negative only if rounding to single precision carries a double precision position across a cell, which needs thousands of entries and particular sizes.", "anchors": ["src/distdl/functional/interpolate/src/interpolate.h:125", "src/distdl/functional/interpolate/src/interpolate.h:131", "src/distdl/functional/interpolate/src/interpolate_linear_cpu.cpp:109"]}
{"id": "C87", "title": "Output sizes found with floating point division are exact", "statement": "The global output size of convolutions and pooling, which the halo computation finds with a division and a sum in float64 and a floor, counts the positions of the window: position t is one of them exactly if the last cell the window touches there, stride*t + dilation*(kernel-1), lies in the padded input. So all workers agree with the size that PyTorch computes in integers.", "quantifier": "for all input sizes, kernel sizes, strides, paddings, dilations up to 2^50", "why_tests_cant": "A rounding error at a single combination of size and stride would shift the halos by one cell; tests use sizes of a few dozens.", "anchors": ["src/distdl/nn/mixins/halo_mixin.py:143"]}
{"id": "C88", "title": "Sums over workers are accurate in floating point, in any order", "statement": "A sum-reduction over workers, with every addition rounded, differs from the exact sum by at most a small multiple of the unit roundoff times the sum of the absolute values, whatever the order in which MPI adds. An output of the linear layer with n inputs on P columns of workers, where each worker adds its products (and the first one the bias) in any order and MPI adds the results in any order, is within 2(n+P)/2^p times the sum of the absolute values of the terms of the exact value; so the results on two numbers of workers differ by at most the sum of both bounds. The same holds for an output of a convolution whose input channels are on P columns of workers, with n the number of products of the output plus 2.", "quantifier": "for all numbers of inputs and workers (with 2(n+P) at most 2^p), all weights, inputs and biases, all orders of addition, all precisions p, products rounded or fused", "why_tests_cant": "Tests compare with a tolerance on a few sizes and one MPI library; the order of additions is chosen by MPI and by the matrix product and differs between machines and numbers of workers.", "anchors": ["src/distdl/nn/linear.py:70", "src/distdl/nn/linear.py:88", "src/distdl/nn/conv_channel.py:209", "src/distdl/backends/mpi/functional/sum_reduce.py:109", "src/distdl/backends/mpi/functional/all_sum_reduce.py:77", "src/distdl/backends/mpi/functional/broadcast.py:204"]}
{"id": "C89", "title": "Batch norm statistics are accurate in floating point, however the channel is distributed", "statement": "With every operation rounded, the mean that DistributedBatchNorm computes for a channel of N entries on k workers is within 2(N+k)/2^p of the exact mean, relative to the mean absolute value, whatever the distribution of the entries and the orders of the additions; so the means on two partitions are close. The variance, computed from the deviations from this rounded mean, is never negative, and within g times the exact variance plus twice the square of g times the mean absolute value, g = 2(N+k+3)/2^p. The running variance stays non-negative through any training and the argument of the square root is positive.", "quantifier": "for all tensors, distributions of the entries of a channel (in particular balanced blocks of any number of dimensions), orders of addition, precisions p with 2(N+k+3) at most 2^p, momenta and numbers of training steps", "why_tests_cant": "Tests compare with the sequential layer for a few small tensors and a tolerance; cancellation in the variance shows only when the mean is large compared to the deviations, and the orders of addition differ between machines and numbers of workers.", "anchors": ["src/distdl/nn/batchnorm.py:133", "src/distdl/nn/batchnorm.py:158", "src/distdl/nn/batchnorm.py:179", "src/distdl/nn/batchnorm.py:225"]}
{"id": "C90", "title": "Losses are accurate in floating point, however the tensors are distributed", "statement": "With every operation rounded, the sum or mean of the terms of a loss over N entries on k workers, each term computed with at most a roundings, is within 2(a+N+k)/2^p of the exact value, relative to the sum or mean of the absolute values of the terms, whatever the distribution and the orders of the additions. For MSELoss (a=3) and L1Loss (a=1), whose terms are not negative, this is a relative error of the loss.", "quantifier": "for all inputs and targets, distributions, orders of addition, precisions p with 2(a+N+k) at most 2^p", "why_tests_cant": "Tests compare a few small tensors with a tolerance; the order of addition is chosen by PyTorch and MPI.", "anchors": ["src/distdl/nn/loss.py:163", "src/distdl/nn/loss.py:177", "src/distdl/nn/loss.py:186", "src/distdl/nn/loss.py:193"]}
{"id": "C91", "title": "A layer leaves the tensor it is given usable", "statement": "A forward pass of a distributed convolution, pooling or interpolation layer does not change the tensor the user passes in: its entries stay the same, PyTorch accepts it whether or not it is a leaf that requires gradients, and it does not count as modified in place, so that other layers that used the same tensor can still be differentiated. The adjoint of the halo exchange does not change the gradient it is given.", "quantifier": "for all partitions, layouts, kernel sizes, strides, paddings, dilations, workers, executions of the exchange", "why_tests_cant": "The tests of the layers all use kernels that need halos or padding, where the exchange works on a padded copy; the test of the halo exchange clones its input. The tensor itself is passed on only on workers whose total padding is 0.", "anchors": ["src/distdl/backends/mpi/functional/halo_exchange.py:26", "src/distdl/backends/mpi/functional/halo_exchange.py:93", "src/distdl/nn/conv_feature.py:384", "src/distdl/nn/pooling.py:293", "src/distdl/nn/upsampling.py:276"]}
{"id": "C92", "title": "Padding modes do not depend on the number of workers", "statement": "A distributed feature convolution built with padding_mode zeros, reflect, replicate or circular returns on every worker its block of what the PyTorch layer with the same padding_mode returns for the global input, on any number of workers for which the halos fit.", "quantifier": "for all modes, partitions, layouts, kernel sizes, strides, paddings, dilations, groups, weights, inputs, workers, executions of the exchange", "why_tests_cant": "No test uses a padding mode other than zeros; on one worker the mode goes to the PyTorch layer, which works, so that a sequential trial of a program does not show the problem.", "anchors": ["src/distdl/nn/conv_feature.py:118", "src/distdl/nn/conv_feature.py:131", "src/distdl/nn/conv_feature.py:387", "src/distdl/nn/conv_general.py:563"]}
{"id": "C93", "title": "A mean over inputs of changing size divides by the size of the present input", "statement": "When a distributed loss with reduction mean (or batchmean) is called on a sequence of inputs in balanced blocks, every call that returns has divided the sum by the number of entries (the batch size) of the global input of this call.", "quantifier": "for all partitions, sequences of calls, shapes, types and gradient flags of the inputs, interleavings of the workers, and early ends of operations that MPI allows", "why_tests_cant": "Each test of a loss calls it with one input; the failure needs a sequence of batches whose sizes change by less than the number of workers, and a sender of a reduction that runs ahead of the receiver.", "anchors": ["src/distdl/nn/loss.py:85", "src/distdl/nn/loss.py:114", "src/distdl/nn/loss.py:172", "src/distdl/nn/loss.py:177", "src/distdl/nn/loss.py:249"]}
{"id": "C94", "title": "Normalised entries of the batch norm are accurate in floating point, however the channel is distributed", "statement": "With IEEE rounding, every entry the distributed batch norm returns differs from the exact normalised (scaled and shifted) entry by at most a bound that depends on the precision and the numbers of entries and workers, not on how the channel is distributed or in which order sums are added; with running statistics the error is a few roundings relative to the entry.", "quantifier": "for all precisions, partitions, extents, orders of addition on the workers and in MPI, entries, positive eps, scales and shifts (no overflow or subnormal numbers)", "why_tests_cant": "Tests compare with a tolerance on a few random tensors; they cannot tell a bound for all orders of addition and all data.", "anchors": ["src/distdl/nn/batchnorm.py:118", "src/distdl/nn/batchnorm.py:142", "src/distdl/nn/batchnorm.py:225", "src/distdl/nn/batchnorm.py:231"]}
