{
 "claims": [
  {
   "property": "C01",
   "status": "proved",
   "theorems": [
    "Verif.C01_contiguous",
    "Verif.C01_unique_owner"
   ],
   "note": "All lengths and worker counts; N dimensions."
  },
  {
   "property": "C02",
   "status": "proved",
   "theorems": [
    "Verif.C02_balanced",
    "Verif.C02_sum",
    "Verif.C02_empty_iff"
   ],
   "note": ""
  },
  {
   "property": "C03",
   "status": "proved",
   "theorems": [
    "Verif.C03_none_iff",
    "Verif.C03_slice_cells",
    "Verif.C03_symmetric",
    "Verif.C03_partition_intersection",
    "Verif.C03_volume"
   ],
   "note": ""
  },
  {
   "property": "C04",
   "status": "proved",
   "theorems": [
    "Verif.C04_enumeration",
    "Verif.C04_rank",
    "Verif.C04_bijection_c",
    "Verif.C04_bijection_f",
    "Verif.C04_f_first_fastest",
    "Verif.C04_mpi_coords"
   ],
   "note": ""
  },
  {
   "property": "C05",
   "status": "proved",
   "theorems": [
    "Verif.C05_filter"
   ],
   "note": ""
  },
  {
   "property": "C06",
   "status": "proved",
   "theorems": [
    "Verif.C06_tiling",
    "Verif.C06_extent",
    "Verif.C06_balanced_agrees"
   ],
   "note": ""
  },
  {
   "property": "C07",
   "status": "proved",
   "theorems": [
    "Verif.C07_gathered_table"
   ],
   "note": ""
  },
  {
   "property": "C08",
   "status": "proved",
   "theorems": [
    "Verif.C08_global_structure"
   ],
   "note": ""
  },
  {
   "property": "C09",
   "status": "proved",
   "theorems": [
    "Verif.C09_capacity_monotone",
    "Verif.C09_expand_keeps",
    "Verif.C09_view_fits"
   ],
   "note": "All operation histories; the empty shape () is excluded (np.prod(()) is a float and the slice raises)."
  },
  {
   "property": "C10",
   "status": "proved",
   "theorems": [
    "Verif.C10_views_current",
    "Verif.C10_write_then_read",
    "Verif.C10_stale_after_expand"
   ],
   "note": ""
  },
  {
   "property": "C11",
   "status": "proved",
   "theorems": [
    "Verif.C11_distinct",
    "Verif.C11_stable",
    "Verif.C11_undisturbed"
   ],
   "note": ""
  },
  {
   "property": "C12",
   "status": "proved",
   "theorems": [
    "Verif.C12_repartition_buffers"
   ],
   "note": ""
  },
  {
   "property": "C13",
   "status": "proved",
   "theorems": [
    "Verif.C13_setup_succeeds",
    "Verif.C13_rejected",
    "Verif.C13_matched"
   ],
   "note": "All worker placements and (unbalanced) tensor-product input layouts of dimension at least 1."
  },
  {
   "property": "C14",
   "status": "proved",
   "theorems": [
    "Verif.C14_delivery",
    "Verif.Exchange.async_eq_lockstep",
    "Verif.Exchange.async_final"
   ],
   "note": "All interleavings and completion orders, eager or rendezvous sends."
  },
  {
   "property": "C15",
   "status": "proved",
   "theorems": [
    "Verif.C15_backward",
    "Verif.C15_adjoint",
    "Verif.C15_adjoint_inverts"
   ],
   "note": "Tensor entries in any commutative semiring."
  },
  {
   "property": "C16",
   "status": "proved",
   "theorems": [
    "Verif.C16_compose",
    "Verif.C16_round_trip"
   ],
   "note": ""
  },
  {
   "property": "C17",
   "status": "proved",
   "theorems": [
    "Verif.C17_terminates",
    "Verif.Exchange.no_deadlock",
    "Verif.Exchange.bounded",
    "Verif.Exchange.requests_complete",
    "Verif.Exchange.completes"
   ],
   "note": ""
  },
  {
   "property": "C18",
   "status": "proved",
   "theorems": [
    "Verif.C18_broadcast_pairs",
    "Verif.C18_reduction_pairs"
   ],
   "note": "All shapes obeying the broadcast rule and all worker placements, broadcast and reduction."
  },
  {
   "property": "C19",
   "status": "proved",
   "theorems": [
    "Verif.C19_broadcast_rejects",
    "Verif.C19_reduction_rejects"
   ],
   "note": "All shapes and flags; partitions of at least one dimension with a common root."
  },
  {
   "property": "C20",
   "status": "proved",
   "theorems": [
    "Verif.C20_broadcast_groups",
    "Verif.C20_reduction_groups"
   ],
   "note": "All flags."
  },
  {
   "property": "C21",
   "status": "proved",
   "theorems": [
    "Verif.C21_broadcast_creation",
    "Verif.C21_reduction_creation",
    "Verif.Coll.no_deadlock",
    "Verif.Coll.exec_bounded",
    "Verif.Coll.completes"
   ],
   "note": "All schedules; creation may or may not synchronise early."
  },
  {
   "property": "C22",
   "status": "proved",
   "theorems": [
    "Verif.C22_forward",
    "Verif.C22_backward",
    "Verif.C22_adjoint",
    "Verif.C22_terminates"
   ],
   "note": "All placements and tensors, flags as in C24_transposed_partial; exact arithmetic (any semiring)."
  },
  {
   "property": "C23",
   "status": "proved",
   "theorems": [
    "Verif.C23_forward",
    "Verif.C23_backward",
    "Verif.C23_adjoint",
    "Verif.C23_terminates"
   ],
   "note": "As C22; the sources of one destination hold tensors of one shape and type."
  },
  {
   "property": "C24",
   "status": "partial",
   "theorems": [
    "Verif.C24_transposed_partial",
    "Verif.C24_transposed_reduction_partial",
    "Verif.C24_iff",
    "Verif.C24_reduction_iff",
    "Verif.C24_false",
    "Verif.C24_src_is_reshape"
   ],
   "note": "False of the code when exactly one side is transposed and two or more extents of the smaller partition differ from 1 (negation proved with a witness); true otherwise: C24_iff and C24_reduction_iff say exactly when."
  },
  {
   "property": "C25",
   "status": "proved",
   "theorems": [
    "Verif.C25_groups",
    "Verif.C25_sum",
    "Verif.C25_self_adjoint",
    "Verif.C25_terminates"
   ],
   "note": "All Cartesian partitions, sets of axes below the dimension, tensors."
  },
  {
   "property": "C26",
   "status": "partial",
   "theorems": [
    "Verif.C26_complement",
    "Verif.C26_keep_eq_reduce",
    "Verif.C26_rejects_partial",
    "Verif.C26_iff",
    "Verif.C26_ignored",
    "Verif.C26_false"
   ],
   "note": "Complement and double specification proved.  Rejection of invalid axes is false: negative axes and out-of-range axes to keep are ignored (witness).  Exactly: among several workers axes to reduce are rejected iff one lies beyond the last dimension, axes to keep never (C26_iff); what is ignored has no effect on any result (C26_ignored)."
  },
  {
   "property": "C27",
   "status": "proved",
   "theorems": [
    "Verif.C27_union",
    "Verif.C27_first_is_zero",
    "Verif.C27_union_refused",
    "Verif.C27_inclusive"
   ],
   "note": ""
  },
  {
   "property": "C28",
   "status": "proved",
   "theorems": [
    "Verif.C28_neighbors",
    "Verif.C28_symmetric"
   ],
   "note": ""
  },
  {
   "property": "C29",
   "status": "proved",
   "theorems": [
    "Verif.C29_broadcast_data",
    "Verif.C29_broadcast_data_self",
    "Verif.C29_bad_root_rejected",
    "Verif.C29_allgather",
    "Verif.C29_allreduce_sum",
    "Verif.C29_allreduce_max"
   ],
   "note": "Collectives at the level of the MPI specification."
  },
  {
   "property": "C30",
   "status": "proved",
   "theorems": [
    "Verif.C30_broadcast",
    "Verif.C30_reduction"
   ],
   "note": "Including the absence of deadlock between groups."
  },
  {
   "property": "C31",
   "status": "proved",
   "theorems": [
    "Verif.C31_torch_int_roundtrip",
    "Verif.C31_ids_distinct",
    "Verif.C31_torch_numpy_roundtrip",
    "Verif.C31_numpy_int_roundtrip",
    "Verif.C31_ids_consistent",
    "Verif.C31_same_kind"
   ],
   "note": "Case analysis over the complete table."
  },
  {
   "property": "C32",
   "status": "partial",
   "theorems": [
    "Verif.C32_hooks_partial",
    "Verif.C32_false"
   ],
   "note": "Proved for all layers except batch normalisation on participating workers, all histories, provided the setup of layers that record it early does not raise; both exceptions are shown to violate the property."
  },
  {
   "property": "C33",
   "status": "partial",
   "theorems": [
    "Verif.C33_agree_partial",
    "Verif.C33_mixed_iff",
    "Verif.C33_mixed_hangs",
    "Verif.C33_false",
    "Verif.C33_false_output_worker"
   ],
   "note": "False of the code: a small change of extent is noticed by some workers only and the call hangs (witness, all schedules); output-only workers never notice.  Proved for first calls, unchanged inputs and large changes.  Exactly when it fails among the input workers: C33_mixed_iff; it then hangs in every case: C33_mixed_hangs."
  },
  {
   "property": "C34",
   "status": "proved",
   "theorems": [
    "Verif.C34_widths",
    "Verif.C34_shapes",
    "Verif.C34_default_balanced"
   ],
   "note": "All parameters, balanced or gathered layouts."
  },
  {
   "property": "C35",
   "status": "proved",
   "theorems": [
    "Verif.C35_setup",
    "Verif.C35_ghosts",
    "Verif.C35_terminates"
   ],
   "note": "Any number of dimensions, any widths that fit into the neighbouring block, all schedules."
  },
  {
   "property": "C36",
   "status": "proved",
   "theorems": [
    "Verif.C36_adjoint",
    "Verif.C36_cleared",
    "Verif.C36_terminates"
   ],
   "note": "Tensor entries in any commutative semiring; no assumption that halos fit."
  },
  {
   "property": "C37",
   "status": "partial",
   "theorems": [
    "Verif.C37_silent",
    "Verif.C37_false",
    "Verif.C37_rejected_partial",
    "Verif.C37_cells",
    "Verif.C37_iff"
   ],
   "note": "False of the code: for every configuration whose computed halos do not fit (and without empty blocks) nothing raises and some cell keeps the filler value (general theorem and concrete witness).  Right data when they fit is C35; too wide widths given by hand are rejected when copying.  Exact: C37_cells gives the content of every cell after the exchange, halos that fit or not, and C37_iff says exactly when a worker's cells are all right."
  },
  {
   "property": "C38",
   "status": "partial",
   "theorems": [
    "Verif.C38_ranges",
    "Verif.C38_outputs_partial",
    "Verif.C38_false_padding",
    "Verif.C38_false_unbalanced"
   ],
   "note": "The range begins at the first needed cell and covers all needed cells for every layout; the number of outputs is the balanced share for balanced inputs padded by at most d(k-1); false for larger padding and for unbalanced inputs (witnesses).  The exact condition is the last part of C38_ranges: the number of outputs is the share iff the block ends before the last cell of the next worker's first window."
  },
  {
   "property": "C39",
   "status": "proved",
   "theorems": [
    "Verif.C39_feature_conv",
    "Verif.C39_starts",
    "Verif.C39_completes",
    "Verif.windows_read",
    "Verif.reach_unit_stride",
    "Verif.reach_aligned",
    "Verif.C39_parameters"
   ],
   "note": "Any number of feature dimensions, groups, strides, dilations, placements, unbalanced layouts, schedules, within the halo limits WinLimits; reach_unit_stride and reach_aligned give the limits in terms of the layer's parameters.  padding_mode zeros; exact arithmetic."
  },
  {
   "property": "C40",
   "status": "proved",
   "theorems": [
    "Verif.C40_average",
    "Verif.C40_maximum",
    "Verif.C40_parameters",
    "Verif.C40_average_iff",
    "Verif.C40_maximum_iff",
    "Verif.C40_average_seen",
    "Verif.C40_maximum_seen",
    "Verif.C40_average_right_iff",
    "Verif.C40_maximum_right_iff",
    "Verif.C39_starts",
    "Verif.C39_completes"
   ],
   "note": "As C39; batch and channel dimensions may be partitioned too.  The _iff theorems say exactly when a worker returns its share, for every layout with halos that fit; the _seen theorems give the values when they do not fit (the sequential layer on the tensor with everything beyond the adjacent blocks blanked), the _right_iff theorems say exactly when these are the right values."
  },
  {
   "property": "C41",
   "status": "partial",
   "theorems": [
    "Verif.C41_convolution_partial",
    "Verif.C41_maximum",
    "Verif.C41_average",
    "Verif.C41_false",
    "Verif.C41_convolution_iff",
    "Verif.C41_convolution_seen",
    "Verif.C41_convolution_right_iff"
   ],
   "note": "Pooling proved for every padding the sequential layer accepts.  Convolution is false for padding above d(k-1) (C41_false), proved up to that.  Exact for every layout and padding with halos that fit (C41_convolution_iff): the leading part of a worker's output is always its block; nothing follows it iff the first window of the next worker ends after the block.  Without assuming that halos fit: C41_convolution_seen and C41_convolution_right_iff."
  },
  {
   "property": "C42",
   "status": "proved",
   "theorems": [
    "Verif.C42_forward",
    "Verif.C42_backward",
    "Verif.C42_parameters",
    "Verif.C42_terminates"
   ],
   "note": "Any number of leading dimensions, any feature counts (also not divisible by the partition), any placement; exact arithmetic."
  },
  {
   "property": "C43",
   "status": "proved",
   "theorems": [
    "Verif.C43_forward",
    "Verif.C43_terminates"
   ],
   "note": "Any number of feature dimensions, any channel counts and placement; exact arithmetic (any commutative semiring).  groups = 1, see C57; one worker for the weights only if it is the worker of the other two partitions, see C58.  Backward pass: C62, C63."
  },
  {
   "property": "C44",
   "status": "proved",
   "theorems": [
    "Verif.C44_forward",
    "Verif.C44_exchange",
    "Verif.C44_terminates"
   ],
   "note": "As C43, for every layout of the input within the limits of C39 (WinLimits), every interleaving of the halo exchange; parameters as stored on the first workers along the features.  Backward pass: C62, C63."
  },
  {
   "property": "C45",
   "status": "partial",
   "theorems": [
    "Verif.C45_selected_partial",
    "Verif.C45_choice",
    "Verif.C45_false",
    "Verif.C45_shapes_rejected",
    "Verif.C45_channels_rejected"
   ],
   "note": "Every supported combination selects a layer that supports it.  The converse is false: the feature layer is chosen for partitioned channels, where every finished run raises an exception; unsupported shapes of three partitions are rejected when the layer is built."
  },
  {
   "property": "C46",
   "status": "proved",
   "theorems": [
    "Verif.C46_created",
    "Verif.C46_none",
    "Verif.C46_reduced",
    "Verif.C46_backward",
    "Verif.C46_backward_none"
   ],
   "note": "For an arbitrary elementwise loss with an arbitrary derivative, any placement and any layout, also unequal blocks; value at the first worker, number 0 at the others, gradients, collectives that finish.  Exact arithmetic over a field."
  },
  {
   "property": "C47",
   "status": "partial",
   "theorems": [
    "Verif.C47_false",
    "Verif.C47_inside_partial"
   ],
   "note": "False of the code: forward evaluates input.clone() on the builtin function input, which raises AttributeError, on every worker outside the partition.  Proved for the workers of the partition."
  },
  {
   "property": "C48",
   "status": "proved",
   "theorems": [
    "Verif.C48_statistics",
    "Verif.C48_forward",
    "Verif.C48_features",
    "Verif.C48_initial",
    "Verif.C48_terminates"
   ],
   "note": "Any placement and layout, also unequal and empty blocks; training, evaluation and untracked mode, with and without parameters.  Exact arithmetic over a field, the square root is an arbitrary function."
  },
  {
   "property": "C49",
   "status": "partial",
   "theorems": [
    "Verif.C49_false",
    "Verif.C49_false_momentum",
    "Verif.C49_iff",
    "Verif.C49_history_partial",
    "Verif.C49_cumulative_partial",
    "Verif.C49_momentum_zero",
    "Verif.C49_initial"
   ],
   "note": "False of the code: the running variance is updated with the biased variance, and momentum 0 is treated as None.  Proved for every history of calls in any modes: the running mean for every other momentum, and the running variance with the biased batch variances.  Exactly, for no momentum or one between 0 and 1: the buffers are the sequential ones iff every channel of every training batch is constant (C49_iff)."
  },
  {
   "property": "C50",
   "status": "partial",
   "theorems": [
    "Verif.C50_partial",
    "Verif.C50_sizes_partial",
    "Verif.C50_seen",
    "Verif.C50_right_iff",
    "Verif.C50_fits",
    "Verif.C50_weights",
    "Verif.C50_setup",
    "Verif.C50_starts",
    "Verif.C50_completes",
    "Verif.C50_false_linear",
    "Verif.C50_false_nearest",
    "Verif.C50_false_channels",
    "Verif.C50_false_empty",
    "Verif.C50_false_one_output",
    "Verif.C50_false_scale",
    "Verif.C50_false_weights",
    "Verif.C50_false_uneven"
   ],
   "note": "Proved for balanced inputs, halos that fit into the neighbouring block (C50_fits, C50_sizes_partial: large blocks suffice), batch and channel dimensions not partitioned in mode linear, no empty outputs in mode linear, exact scale factors in mode nearest, linear weights not within 1/10000 of 0 or 1.  False without each of these (witnesses).  When halos do not fit, a worker interpolates the tensor with everything beyond the adjacent blocks replaced by zero (C50_seen), so its part is right for all inputs exactly if no cell with a weight in its outputs is beyond them (C50_right_iff).  Exact arithmetic over an ordered field."
  },
  {
   "property": "C51",
   "status": "proved",
   "theorems": [
    "Verif.C51"
   ],
   "note": "All sizes, offsets, modes, 1 to 3 feature dimensions, whenever both passes are defined.  That the backward pass can be undefined where the forward pass is not is shown by C51_undefined_empty."
  },
  {
   "property": "C52",
   "status": "proved",
   "theorems": [
    "Verif.C52_broadcast",
    "Verif.C52_reduction",
    "Verif.C52_outside",
    "Verif.C52_repartition",
    "Verif.C52_repartition_block",
    "Verif.C52_corrector"
   ],
   "note": "Shapes, types and values in both directions.  For the repartition the result is that of a worker whose transfers are done."
  },
  {
   "property": "C53",
   "status": "proved",
   "theorems": [
    "Verif.C53_eq_iff",
    "Verif.C53_refl_symm",
    "Verif.C53_deactivated",
    "Verif.C53_cart_shape_kept",
    "Verif.C53_attributes"
   ],
   "note": ""
  },
  {
   "property": "C54",
   "status": "proved",
   "theorems": [
    "Verif.C54_padding"
   ],
   "note": ""
  },
  {
   "property": "C55",
   "status": "proved",
   "theorems": [
    "Verif.C55_groups",
    "Verif.C55_index"
   ],
   "note": ""
  },
  {
   "property": "C56",
   "status": "proved",
   "theorems": [
    "Verif.C56_halo_buffers"
   ],
   "note": ""
  },
  {
   "property": "C57",
   "status": "partial",
   "theorems": [
    "Verif.C57_false",
    "Verif.C57_wrong",
    "Verif.C57_general_wrong",
    "Verif.C57_computes",
    "Verif.C57_general",
    "Verif.C57_raises",
    "Verif.C57_general_raises",
    "Verif.C57_grouped_partial",
    "Verif.C57_features_partial"
   ],
   "note": "False of the code: groups are applied to the local channels.  Proved for channels that are not partitioned (one worker, or any partition of the features).  For every partition of the channels the channel layer and the general layer raise an exception (groups do not divide the local counts) or compute the convolution that connects channels of equal local group, which differs from every sequential grouped convolution for some weights and input."
  },
  {
   "property": "C58",
   "status": "partial",
   "theorems": [
    "Verif.C58_false",
    "Verif.Net.C58_stuck",
    "Verif.C58_placement_partial"
   ],
   "note": "False of the code for a weight partition of one worker that is not the worker of the other partitions: it skips the collectives, the others end in no execution of the programs of the workers (C58_stuck, every interleaving).  Proved for more than one worker."
  },
  {
   "property": "C59",
   "status": "partial",
   "theorems": [
    "Verif.C59_false",
    "Verif.C59_inside_partial",
    "Verif.C59_outside"
   ],
   "note": "False of the code: P_x.index is None outside P_x and compute_start_index raises TypeError.  Proved for the workers of P_x."
  },
  {
   "property": "C60",
   "status": "partial",
   "theorems": [
    "Verif.C60_convolution",
    "Verif.C60_average",
    "Verif.C60_convolution_seen",
    "Verif.C60_average_seen",
    "Verif.C60_convolution_right_iff",
    "Verif.C60_average_right_iff",
    "Verif.C60_maximum_partial",
    "Verif.C60_maximum_false",
    "Verif.C60_completes",
    "Verif.C60_torch_maximum",
    "Verif.conv_transpose",
    "Verif.avg_transpose"
   ],
   "note": "Within the limits of C39 (WinLimits), every interleaving, exact arithmetic.  For convolution and average pooling also when the halos do not fit: contributions of workers more than one block away are missing (C60_*_seen), and a worker's gradients are right for all inputs exactly if no such worker has an output reading one of its cells (C60_*_right_iff).  False for maximum pooling if entries are -inf (gradients are lost in the padding); proved for entries above -inf.  The PyTorch gradients are shown to be the transposes of the operators (conv_transpose, avg_transpose) and to follow the first maximum (C60_torch_maximum)."
  },
  {
   "property": "C61",
   "status": "proved",
   "theorems": [
    "Verif.C61_weight",
    "Verif.C61_bias",
    "Verif.C61_weight_seen",
    "Verif.C61_bias_seen",
    "Verif.C61_weight_right_iff",
    "Verif.C61_torch_weight",
    "Verif.C61_torch_bias"
   ],
   "note": "Within the limits of C39 (WinLimits), exact arithmetic, the forward exchange being finished.  When the halos do not fit, the bias gradient is right (C61_bias_seen), the weight gradient is right for all inputs exactly if no window reads beyond the adjacent blocks (C61_weight_seen, C61_weight_right_iff).  The PyTorch gradients are shown to be the transposes of the operator."
  },
  {
   "property": "C62",
   "status": "proved",
   "theorems": [
    "Verif.C62_channel",
    "Verif.C62_channel_terminates",
    "Verif.C62_general",
    "Verif.C62_general_exchanged",
    "Verif.C62_general_terminates",
    "Verif.conv_transpose"
   ],
   "note": "Under the conditions of C43 and C44; every interleaving of the adjoint halo exchange, exact arithmetic.  The PyTorch gradient is shown to be the transpose of the operator (conv_transpose)."
  },
  {
   "property": "C63",
   "status": "proved",
   "theorems": [
    "Verif.C63_channel",
    "Verif.C63_general_weight",
    "Verif.C63_general_bias",
    "Verif.C63_general_terminates",
    "Verif.C61_torch_weight",
    "Verif.C61_torch_bias"
   ],
   "note": "Under the conditions of C43 and C44, the forward exchange being finished; exact arithmetic.  The PyTorch gradients are shown to be the transposes of the operator (C61_torch_weight, C61_torch_bias)."
  },
  {
   "property": "C64",
   "status": "proved",
   "theorems": [
    "Verif.C64_input",
    "Verif.C64_beta",
    "Verif.C64_gamma",
    "Verif.C64_terminates",
    "Verif.C64_derivative",
    "Verif.C64_derivative_tracked",
    "Verif.C64_derivative_affine"
   ],
   "note": "Exact arithmetic over a field of characteristic 0, the square root is an arbitrary function whose derivative is taken as 1/(2 sqrt).  Over the reals the gradients are shown to be the derivatives of the sequential layer (C64_derivative*)."
  },
  {
   "property": "C65",
   "status": "partial",
   "theorems": [
    "Verif.C65_starts",
    "Verif.C65_completes",
    "Verif.C65_adjoint",
    "Verif.C65_partial",
    "Verif.C65_seen",
    "Verif.C65_right_iff",
    "Verif.C65_sizes_partial",
    "Verif.interp_transpose",
    "Verif.C65_false_linear",
    "Verif.C65_false_empty"
   ],
   "note": "Exact arithmetic over an ordered field with floor.  Adjointness and progress hold whenever every worker has outputs; the sequential gradient is obtained where C50_partial holds.  When halos do not fit, contributions of workers more than one block away are missing (C65_seen), and a worker's gradients are right for all inputs exactly if no such worker has an output with a weight for one of its cells (C65_right_iff).  Refuted: halos wider than blocks (C65_false_linear), workers without outputs in mode nearest, whose backward pass raises (C65_false_empty)."
  },
  {
   "property": "C66",
   "status": "proved",
   "theorems": [
    "Verif.C66_forward",
    "Verif.C66_adjoint",
    "Verif.C66_exact"
   ],
   "note": "Loads and stores of the threads interleave arbitrarily; addition and the weight times entry product are arbitrary operations, so rounding is covered.  Positions and weights are computed in exact arithmetic.  at::parallel_for is taken to hand out consecutive chunks that cover the rows."
  },
  {
   "property": "C67",
   "status": "proved",
   "theorems": [
    "Verif.C67_step",
    "Verif.C67_training",
    "Verif.C67_derivative",
    "Verif.C67_loss_derivative"
   ],
   "note": "Exact arithmetic over a field.  Both existence of a successful run and the result of every successful run.  C67_derivative and C67_loss_derivative show over the reals that the gradients of the sequential specification are the derivatives of the loss.  The optimizer is any function on the data of one entry and its gradient."
  },
  {
   "property": "C68",
   "status": "partial",
   "theorems": [
    "Verif.C68_accepted_partial",
    "Verif.C68_false_sum",
    "Verif.C68_false_batch",
    "Verif.C68_false_terms"
   ],
   "note": "False of the code: the constructor checks nothing and the broadcasting rules accept more.  Refuted: an output partition with one block sums the output features (C68_false_sum); a partition of the batch gives part of the output (C68_false_batch); several rows of the output partition leave partial sums (C68_false_terms).  Proved: the feature extent of P_x is the documented one, each other extent is the documented one or the one other value of the broadcasting rule."
  },
  {
   "property": "C69",
   "status": "proved",
   "theorems": [
    "Verif.Net.C69_result",
    "Verif.Net.C69_progress",
    "Verif.Net.C69_terminates"
   ],
   "note": "Exact arithmetic; entries need an addition, a multiplication, a division and maxima only, so the extended reals are covered.  Setup of every layer is part of the run (first call).  The partitions of a layer are created by one collective instead of several, and tensor structures are exchanged in one collective instead of four.  An exception is a flag of the worker; the theorem says it is never raised.  Limits of the halos as in C39.  Convolutions over channels without groups, and with one worker for the weights only if all partitions are on that worker (C58)."
  },
  {
   "property": "C70",
   "status": "proved",
   "theorems": [
    "Verif.C70_count",
    "Verif.C70_linear",
    "Verif.C70_feature",
    "Verif.C70_channel",
    "Verif.C70_general",
    "Verif.C70_channel_groups",
    "Verif.C70_general_groups",
    "Verif.C70_norm"
   ],
   "note": "The parameters that torch.nn.Linear and torch.nn.Conv register are trusted.  Groups that divide the channels of every block (otherwise PyTorch refuses the local layer).  A parameter shared by a layer and its inner PyTorch layer counts once."
  },
  {
   "property": "C71",
   "status": "partial",
   "theorems": [
    "Verif.C71_linear_partial",
    "Verif.C71_conv_partial",
    "Verif.C71_groups_partial",
    "Verif.C71_false"
   ],
   "note": "False of the code: the fan in is that of the local block, so the range is larger than the sequential one whenever the input features or channels are partitioned (C71_false).  Proved: equal if they are not partitioned, and strictly larger on every worker otherwise.  PyTorch's rule of initialisation is trusted."
  },
  {
   "property": "C72",
   "status": "proved",
   "theorems": [
    "Verif.Net.C72_result",
    "Verif.Net.C72_progress",
    "Verif.Net.C72_terminates"
   ],
   "note": "Exact arithmetic over a field.  Setup of every layer is part of the run (first call).  Autograd is taken to call the adjoints of a worker in the reverse of the order in which the worker called the functions, with the data kept by the forward pass; every worker performs the backward pass of all its layers, as it does if the input requires gradients on all workers.  The gradient of the output is computed by each worker from its own part of the output.  Simplifications of C69 apply."
  },
  {
   "property": "C73",
   "status": "proved",
   "theorems": [
    "Verif.Net.C73_derivative",
    "Verif.Net.C73_derivative_norm",
    "Verif.Net.gradientAt_sum",
    "Verif.Net.C72_result",
    "Verif.Net.C80_result"
   ],
   "note": "Real numbers; eps > 0.  Parameters move along lines, the input along any differentiable path.  C72_result says which worker holds which entries of the gradients in the statement (torchConvGradW, torchConvGradB, denseGradW, denseGradB at the activations of the sequential network), C80_result the same for networks with interpolation and batch norm."
  },
  {
   "property": "C74",
   "status": "partial",
   "theorems": [
    "Verif.Net.C74_partial",
    "Verif.Net.C74_progress_partial",
    "Verif.Net.C74_terminates_partial",
    "Verif.Net.C74_owns",
    "Verif.Net.C74_false"
   ],
   "note": "False of the code: in a pipeline of two linear layers on different workers whose input requires no gradients no execution ends (C74_false).  Proved: gradients, no exception, progress and termination if the input requires gradients on all workers, or on none and the first layer with parameters has some on every worker.  What autograd records on a worker is trusted as described in Net/Live.lean."
  },
  {
   "property": "C75",
   "status": "proved",
   "theorems": [
    "Verif.Net.C75_result",
    "Verif.Net.C75_progress",
    "Verif.Net.C75_terminates"
   ],
   "note": "Exact arithmetic over a field.  Each worker keeps for every module the structure of the input of its setup and what the setup has found, and decides for itself.  Simplifications of C69 apply.  Inputs of another structure are the subject of C33."
  },
  {
   "property": "C76",
   "status": "proved",
   "theorems": [
    "Verif.Net.C76_result",
    "Verif.Net.C76_progress",
    "Verif.Net.C76_terminates"
   ],
   "note": "Exact arithmetic over a field.  The condition on requires_grad is part of the property (C74_false shows that it is needed).  The optimiser has no data of its own and changes every entry that has a gradient; gradients are zeroed in every step; gradients are recorded in all calls.  Autograd as in C72 and C74."
  },
  {
   "property": "C77",
   "status": "proved",
   "theorems": [
    "Verif.Net.C77_result",
    "Verif.Net.C77_progress",
    "Verif.Net.C77_terminates"
   ],
   "note": "Exact arithmetic over a field; conventions of C75 and C76.  That the workers without data must have tensors with the batch size is shown by C33_false_output_worker: a worker whose tensor without entries stays the same keeps its old setup.  Partitions of the batch dimension are excluded: then the parts of some workers may keep their sizes while others change."
  },
  {
   "property": "C78",
   "status": "proved",
   "theorems": [
    "Verif.Net.C78_result",
    "Verif.Net.C78_progress",
    "Verif.Net.C78_terminates"
   ],
   "note": "Exact arithmetic over a field; conventions of C75 to C77.  Workers outside the partition of the loss do not call it (they would get an exception, C47_false) and go back with their own tensors without entries.  The all-reduce of the setup is an exchange of the structures, which every worker adds up.  That the loss tensor of a worker requires gradients is not checked.  The reduction none is excluded: it gives no scalar to start from."
  },
  {
   "property": "C79",
   "status": "partial",
   "theorems": [
    "Verif.Fp.C79_partial",
    "Verif.Fp.C79_near_partial",
    "Verif.Fp.C79_inner_partial",
    "Verif.Fp.C79_exact_partial",
    "Verif.Fp.C79_false",
    "Verif.Fp.C79_double_false"
   ],
   "note": "False of the code: 14 inputs and 46 outputs in single precision, the second of two workers takes entry 7 for its first output, a single worker entry 6 (C79_false); 5000 and 9999 in double precision, where floorf rounds to single precision (C79_double_false).  Proved for sizes whose product is at most 2^20: outputs that do not lie exactly on an input are right on all workers; all others are at most one entry off; in single precision only the first and last output of a worker can differ.  Proved for ratios with few binary digits: all outputs are right.  One feature dimension; no overflow, subnormal numbers or fused operations; the local input is the range from x_start_index to x_stop_index (C50)."
  },
  {
   "property": "C80",
   "status": "proved",
   "theorems": [
    "Verif.Net.C80_result",
    "Verif.Net.C80_forward",
    "Verif.Net.C80_progress",
    "Verif.Net.C80_terminates"
   ],
   "note": "Exact arithmetic over an ordered field with a floor function.  The input of an interpolation is evenly cut, its halos are no wider than the neighbour's block and every worker has outputs (C50, C65 show that this is needed; XFits.sizes gives sizes for which it holds).  Autograd as in C72."
  },
  {
   "property": "C81",
   "status": "proved",
   "theorems": [
    "Verif.Net.C81_output",
    "Verif.Net.C81_gradients",
    "Verif.Net.C80_result",
    "Verif.Net.C80_progress",
    "Verif.Net.C80_terminates"
   ],
   "note": "Networks of C80 may contain batch norms.  Exact arithmetic; the square root is an arbitrary function.  The parameters have the dtype of the input, all workers are in the same mode, workers outside the partition of the layer do not have it (C59), the update of the running statistics (C49) is left out.  Autograd as in C72; the order in which it performs the adjoints inside the layer is fixed as the one described in Net/NormBack.lean."
  },
  {
   "property": "C82",
   "status": "partial",
   "theorems": [
    "Verif.Build.C82_terminates_partial",
    "Verif.Build.C82_matching_partial",
    "Verif.Build.C82_lifetime",
    "Verif.Build.C82_iff",
    "Verif.Build.C82_stuck",
    "Verif.Build.C82_false",
    "Verif.Build.C82_exception_false"
   ],
   "note": "False of the code for a general convolution whose weights are on a single worker and whose data are elsewhere (C82_false), and if partitions do not fit: the exception is raised on some workers only (C82_exception_false).  Proved for all scripts whose partitions have the documented shapes, with that case excluded, and exactly when that case does not occur (C82_iff); losses and batch norms need all workers (C47, C59).  Collectives are as in the machine of C24: blocking, with arbitrary early completion."
  },
  {
   "property": "C83",
   "status": "proved",
   "theorems": [
    "Verif.Net.C83_result",
    "Verif.Net.C83_progress",
    "Verif.Net.C83_terminates"
   ],
   "note": "Networks of the layers of C72, interpolations and batch norms; entries in an ordered field with floor.  The running variance is the biased one, as in the code, and momentum 0 is excluded (both are findings of C49).  Inputs require gradients on all workers if there are training steps, and all inputs have the same shapes and dtypes."
  },
  {
   "property": "C84",
   "status": "proved",
   "theorems": [
    "Verif.Debug.C84_result",
    "Verif.Debug.C84_terminates"
   ],
   "note": "The output of a worker is the list of the values it has printed; flushing and the mixing of the outputs of different workers are not modelled."
  },
  {
   "property": "C85",
   "status": "proved",
   "theorems": [
    "Verif.Fp.C85_accurate",
    "Verif.Fp.C85_workers"
   ],
   "note": "One feature dimension; no overflow, subnormal numbers or fused operations; the local input is the range from x_start_index to x_stop_index (C50).  align_corners with at least two outputs (otherwise the code divides 0 by 0), a given scale factor is positive and the output size is the one the layer computes from it."
  },
  {
   "property": "C86",
   "status": "partial",
   "theorems": [
    "Verif.Fp.C86_partial",
    "Verif.Fp.C86_false"
   ],
   "note": "False of the code in double precision, because floorf rounds the position to single precision: 10002 inputs and 10001 outputs with align_corners give a negative weight (C86_false).  Proved in single precision for all sizes of C85, and in double precision for at most 1600 inputs.  Simplifications as in C85."
  },
  {
   "property": "C87",
   "status": "proved",
   "theorems": [
    "Verif.Fp.C87_outShape"
   ],
   "note": "IEEE rounding without overflow; int64 arithmetic of the numerator is exact.  An example shows that the formula fails for 2^54 + 5 cells with stride 3."
  },
  {
   "property": "C88",
   "status": "proved",
   "theorems": [
    "Verif.Fp.C88_sumReduce",
    "Verif.Fp.C88_linear",
    "Verif.Fp.C88_workers",
    "Verif.Fp.C88_convolution",
    "Verif.Fp.C88_depth"
   ],
   "note": "One entry of the result; no overflow or subnormal numbers.  The orders of addition are arbitrary binary trees over the terms.  An example shows that the results on one and two columns need not be equal.  C88_depth has the depth of the trees in the bound."
  },
  {
   "property": "C89",
   "status": "proved",
   "theorems": [
    "Verif.Fp.C89_mean",
    "Verif.Fp.C89_variance",
    "Verif.Fp.C89_statistics",
    "Verif.Fp.C89_blocks",
    "Verif.Fp.C89_workers",
    "Verif.Fp.C89_root"
   ],
   "note": "One channel; no overflow or subnormal numbers; the orders of addition are arbitrary binary trees.  The normalised output is the subject of C94.  An example shows that the means on one and two workers need not be equal."
  },
  {
   "property": "C90",
   "status": "proved",
   "theorems": [
    "Verif.Fp.C90_loss",
    "Verif.Fp.C90_mse",
    "Verif.Fp.C90_l1"
   ],
   "note": "No overflow or subnormal numbers; the orders of addition are arbitrary binary trees.  The terms of the other losses use logarithms; for them the number of roundings of a term is a hypothesis of C90_loss."
  },
  {
   "property": "C91",
   "status": "partial",
   "theorems": [
    "Verif.C91_entries_partial",
    "Verif.C91_refused_iff",
    "Verif.C91_version",
    "Verif.C91_shared_iff",
    "Verif.C91_one_worker",
    "Verif.C91_upsampling_one_worker",
    "Verif.C91_upsampling_refused_iff",
    "Verif.C91_upsampling_version",
    "Verif.C91_upsampling_entries_partial",
    "Verif.C91_gradient_overwritten",
    "Verif.C91_false"
   ],
   "note": "False of the code: with kernel size 1 over two workers a leaf that requires gradients is refused (C91_false), on one worker every unpadded pooling and every upsampling refuses it (C91_one_worker, C91_upsampling_one_worker).  C91_refused_iff, C91_version and C91_shared_iff say exactly when: the windows of the worker's share read only its own block, and it is not at the padded end.  For interpolation, the cells at both sides of the positions of the outputs are in the block (C91_upsampling_refused_iff, C91_upsampling_version).  The entries never change (C91_entries_partial, C91_upsampling_entries_partial).  The adjoint of the exchange overwrites its gradient (C91_gradient_overwritten).  PyTorch's records (leaf, version counter, mark_dirty, saved tensors) are trusted."
  },
  {
   "property": "C92",
   "status": "partial",
   "theorems": [
    "Verif.C92_partial",
    "Verif.C92_right_iff",
    "Verif.C92_raises_iff",
    "Verif.C92_padding_raises",
    "Verif.C92_one_worker",
    "Verif.C92_general_right_iff",
    "Verif.C92_general_padding_raises",
    "Verif.C92_general_one_worker",
    "Verif.C92_channel",
    "Verif.C92_false"
   ],
   "note": "False of the code: reflect with kernel size 3 and padding 1 raises an exception over two workers, on one worker it works (C92_false).  C92_right_iff: on more than one worker a mode other than zeros works exactly if no worker needs more than its own block; in particular never with padding (C92_padding_raises).  Which combinations F.pad implements is trusted.  C92_general_right_iff, C92_general_padding_raises and C92_general_one_worker say the same for the general layer.  C92_channel: the channel layer, which hands the mode to its local layers, is right in every mode."
  },
  {
   "property": "C93",
   "status": "partial",
   "theorems": [
    "Verif.C93_partial",
    "Verif.C93_agree_partial",
    "Verif.C93_steps_partial",
    "Verif.C93_training_partial",
    "Verif.C93_hangs",
    "Verif.C93_false"
   ],
   "note": "False of the code: with 4, 5 and 3 entries over two workers the second call ends with the sum over 5 entries divided by 4 (C93_false), when the second worker is ahead by one call.  True in every run without early ends (C93_partial), as such a call then ends nowhere (C93_hangs), and under any early ends when sizes do not change or change by at least the number of workers in some dimension (C93_steps_partial).  With a backward pass after each call no wrong value is returned either, with the early ends MPI allows (C93_training_partial).  That MPI matches collective operations of a communicator in order is trusted."
  },
  {
   "property": "C94",
   "status": "proved",
   "theorems": [
    "Verif.Fp.C94_entry",
    "Verif.Fp.C94_running",
    "Verif.Fp.C94_training",
    "Verif.Fp.C94_blocks",
    "Verif.Fp.C94_affine"
   ],
   "note": "One channel; no overflow or subnormal numbers; the orders of addition are arbitrary binary trees.  The square root is taken to be within half a unit in the last place, as IEEE requires.  In training the relative error of the variance has to be at most 1/4 (hypothesis hr1).  The conversion of eps to the type of the tensor is not part of it."
  }
 ]
}