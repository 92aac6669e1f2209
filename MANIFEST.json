{
 "claims": [
  {
   "property": "C01",
   "status": "proved",
   "theorems": [
    "Hodu.C01_from_slice"
   ],
   "note": ""
  },
  {
   "property": "C02",
   "status": "proved",
   "theorems": [
    "Hodu.C02_reshape",
    "Hodu.C02_flatten"
   ],
   "note": ""
  },
  {
   "property": "C03",
   "status": "proved",
   "theorems": [
    "Hodu.C03_permute",
    "Hodu.C03_transpose",
    "Hodu.C03_transpose_twice"
   ],
   "note": ""
  },
  {
   "property": "C04",
   "status": "partial",
   "theorems": [
    "Hodu.C04_slice_partial",
    "Hodu.C04_slice_rejects",
    "Hodu.C04_full_false",
    "Hodu.C04_overflow_panics"
   ],
   "note": "The code violates the full statement (negative steps keep a positive stride; i32 overflow panics): negation proved; partial covers positive steps without overflow."
  },
  {
   "property": "C05",
   "status": "proved",
   "theorems": [
    "Hodu.C05_broadcast"
   ],
   "note": ""
  },
  {
   "property": "C06",
   "status": "partial",
   "theorems": [
    "Hodu.C06_broadcast_dims_partial",
    "Hodu.C06_symmetric",
    "Hodu.C06_broadcast_shape_wrong",
    "Hodu.C06_zero_dim_wrong",
    "Hodu.C06_broadcast_shape_partial",
    "Hodu.C06_can_broadcast_to"
   ],
   "note": "Rule proved for the operators' shape loop on positive sizes; the code's broadcast_shape helper and zero sizes violate it (witnesses proved)."
  },
  {
   "property": "C07",
   "status": "partial",
   "theorems": [
    "Hodu.C07_squeeze_partial",
    "Hodu.C07_squeeze_all",
    "Hodu.C07_unsqueeze",
    "Hodu.C07_unsqueeze_squeeze",
    "Hodu.C07_duplicate_wrong"
   ],
   "note": "Repeated squeeze axes remove non-unit dimensions in the code (witness proved); partial requires distinct axes."
  },
  {
   "property": "C08",
   "status": "partial",
   "theorems": [
    "Hodu.C08_views_in_bounds_partial",
    "Hodu.C08_full_false",
    "Hodu.C08_squeeze_duplicate_out_of_bounds"
   ],
   "note": "False for negative-step slices and repeated squeeze axes (witnesses proved); invariant proved for all other view sequences."
  },
  {
   "property": "C09",
   "status": "proved",
   "theorems": [
    "Hodu.C09_kernel_value",
    "Hodu.C09_one_writer"
   ],
   "note": "Sequential, strided, threaded (any interleaving of the workers' writes, any core count) and SIMD-blocked paths all give the same buffer. SIMD lanes are modelled as element-wise application."
  },
  {
   "property": "C10",
   "status": "partial",
   "theorems": [
    "Hodu.C10_buffer",
    "Hodu.C10_binary_partial",
    "Hodu.C10_full_false",
    "Hodu.C10_slice_operand_out_of_bounds"
   ],
   "note": "False of the code: the result tensor reuses the broadcast left operand's layout. Proved: the result buffer is right for all operands; the whole claim when the left operand already has the result shape and is non-contiguous or has offset 0."
  },
  {
   "property": "C11",
   "status": "partial",
   "theorems": [
    "Hodu.C11_unary_partial",
    "Hodu.C11_full_false"
   ],
   "note": "False only for rank-0 views with a non-zero offset (the C kernel drops the offset); proved for every other well-formed tensor."
  },
  {
   "property": "C12",
   "status": "partial",
   "theorems": [
    "Hodu.C12_compare_partial",
    "Hodu.C12_full_false"
   ],
   "note": "As C10, for the comparison kernels."
  },
  {
   "property": "C13",
   "status": "proved",
   "theorems": [
    "Hodu.C13_contiguous"
   ],
   "note": ""
  },
  {
   "property": "C14",
   "status": "partial",
   "theorems": [
    "Hodu.C14_full_false",
    "Hodu.C14_flatten_partial",
    "Hodu.C14_cast_partial",
    "Hodu.C14_vec2d_partial",
    "Hodu.C14_vec3d_partial"
   ],
   "note": "False of the code: extract_with_layout ignores the offset and returns the whole storage of contiguous views; with a cast the layout is applied twice. Proved on the exact complement: contiguous tensors covering their buffer, and non-contiguous views with offset 0; nested vectors for ranks 2 and 3."
  },
  {
   "property": "C15",
   "status": "partial",
   "theorems": [
    "Hodu.C15_full_false",
    "Hodu.C15_bytes_partial",
    "Hodu.C15_length_check",
    "Hodu.C15_hdt_partial"
   ],
   "note": "False for contiguous views of a larger buffer (whole buffer is written). Proved for all other tensors and all dtypes, for raw bytes and for the .hdt container (postcard's wire format is modelled from its specification)."
  },
  {
   "property": "C16",
   "status": "partial",
   "theorems": [
    "Hodu.C16_concat_partial",
    "Hodu.C16_rejects",
    "Hodu.C16_full_false",
    "Hodu.concat_exact"
   ],
   "note": "False when an operand other than the last has a buffer larger than its shape (full buffers are packed but offsets use shape sizes). Proved for all other operands, any layouts, rank <= 16 (C index arrays)."
  },
  {
   "property": "C17",
   "status": "partial",
   "theorems": [
    "Hodu.C17_split_partial",
    "Hodu.C17_too_large",
    "Hodu.C17_full_false"
   ],
   "note": "False of the code: sizes adding up to less are accepted, a trailing zero size is rejected. Proved: pieces hold their ranges for any layout, concat restores the source, sizes adding up to more are rejected."
  },
  {
   "property": "C18",
   "status": "partial",
   "theorems": [
    "Hodu.C18_chunk_partial",
    "Hodu.C18_full_false"
   ],
   "note": "False of the code: chunk panics when the first n-1 rounded-up chunks overshoot the dimension, and for 0 chunks. Proved: exact characterisation of success and of the panic."
  },
  {
   "property": "C19",
   "status": "partial",
   "theorems": [
    "Hodu.C19_flip_partial",
    "Hodu.C19_flip_twice_partial",
    "Hodu.C19_full_false"
   ],
   "note": "False on strided or offset views (kernel gets no strides). Proved for all row-major tensors at offset 0, any axis list; involution."
  },
  {
   "property": "C20",
   "status": "partial",
   "theorems": [
    "Hodu.C20_pad_partial",
    "Hodu.C20_rejects",
    "Hodu.C20_full_false",
    "Hodu.C20_empty_dimension_ub"
   ],
   "note": "False on strided or offset views. Proved for all row-major tensors at offset 0: all four modes, any widths, reads in bounds."
  },
  {
   "property": "C21",
   "status": "partial",
   "theorems": [
    "Hodu.C21_reduce_partial",
    "Hodu.C21_axis_order",
    "Hodu.C21_simd",
    "Hodu.C21_full_false",
    "Hodu.C21_rank17_ub"
   ],
   "note": "Distinct axes, every layout, any combining function: exactly the fibre elements, each once, in row-major order of the reduced coordinates; listing order irrelevant for order-insensitive combinations; SIMD path equals the plain loop. False for repeated axes (counted twice); rank > 16 is UB."
  },
  {
   "property": "C22",
   "status": "partial",
   "theorems": [
    "Hodu.C22_shape_partial",
    "Hodu.C22_full_false",
    "Hodu.C22_bad_axis_panics"
   ],
   "note": "Holds for every axis list (repeated or not); false for zero-size dimensions without keep_dim (retain drops them); bad axes panic."
  },
  {
   "property": "C23",
   "status": "partial",
   "theorems": [
    "Hodu.C23_argmax_partial",
    "Hodu.C23_full_false"
   ],
   "note": "Proved for 4-byte integer types along one axis; false for all other element types (int32 written into a buffer of the input dtype: overflow for 1/2-byte types, wrong bits for f32, packed for 8-byte types). The buffer is modelled byte by byte with arbitrary previous content, as it is allocated uninitialised."
  },
  {
   "property": "C24",
   "status": "partial",
   "theorems": [
    "Hodu.C24_topk_partial",
    "Hodu.C24_errors",
    "Hodu.C24_other_dim_wrong",
    "Hodu.C24_view_wrong",
    "Hodu.C24_large_int_wrong"
   ],
   "note": "Proved on the last dimension of any tensor with row-major strides (any offset, any row length, any k, any sorting function): the result is a correct top-k by converted value, sorted when asked; quick-select terminates and stays in bounds; the error cases are exactly rank 0, bad axis, k too large. False elsewhere, each with a witness: other dimensions and views search the storage of self with the layout of the permuted copy; integers are compared as float. NaN is excluded (keys are linearly ordered) and indices are unbounded naturals instead of int32."
  },
  {
   "property": "C25",
   "status": "partial",
   "theorems": [
    "Hodu.C25_cumsum_partial",
    "Hodu.C25_bad_dim_zeros",
    "Hodu.C25_bad_dim_ub",
    "Hodu.C25_rank_ub",
    "Hodu.C25_scalar"
   ],
   "note": "Proved for every layout of rank at most 16. Missing: rank above 16 (the kernel overruns its fixed index array: witness), a dimension out of range (not rejected: zeros or out-of-bounds read: witnesses)."
  },
  {
   "property": "C26",
   "status": "proved",
   "theorems": [
    "Hodu.C26_sound",
    "Hodu.C26_complete"
   ],
   "note": "Every text and every list of shapes. Soundness describes every parsed field by a separate grammar; completeness says exactly the ill-formed inputs are errors and nothing panics."
  },
  {
   "property": "C27",
   "status": "partial",
   "theorems": [
    "Hodu.C27_kernel_partial",
    "Hodu.C27_one_operand_ignored",
    "Hodu.C27_trace_wrong",
    "Hodu.C27_dot_wrong",
    "Hodu.C27_empty_output_ub",
    "Hodu.C27_many_labels_ub"
   ],
   "note": "Metadata, decoding and kernel are proved to compute the sum of products for every view layout, label structure and number of operands up to 4, with ranks and labels up to 16 and a non-empty output, for any arithmetic (sums and products in the order of the loops). False of Tensor::einsum: it passes the layouts of all operands but the first, so one operand is ignored altogether and two give a wrong result (witnesses). Empty outputs and more than 16 labels are out-of-bounds accesses (witnesses)."
  },
  {
   "property": "C28",
   "status": "partial",
   "theorems": [
    "Hodu.C28_raw",
    "Hodu.C28_index_select_partial",
    "Hodu.C28_bad_dim_panics",
    "Hodu.C28_index_view_wrong",
    "Hodu.C28_index_broadcast_ub"
   ],
   "note": "Proved for every source layout when the index tensor is row-major from offset 0 (sizes below 2^31). Disagreement: the kernel receives the index buffer without its layout, so index views select the wrong slices (C28_index_view_wrong) and a broadcast index reads past the index buffer (C28_index_broadcast_ub); a dimension out of range panics instead of returning an error."
  },
  {
   "property": "C29",
   "status": "partial",
   "theorems": [
    "Hodu.C29_kernel_partial",
    "Hodu.C29_one_dim_always_ub",
    "Hodu.C29_two_dim_ub"
   ],
   "note": "Disagreement: index_put_metadata (op_metadatas.rs:734-772) writes values_shape, and the offsets in another order, than INDEX_PUT_OP decodes; every 1-D call on non-empty row-major tensors reads outside the input (C29_one_dim_always_ub). The kernel is correct for the metadata order it documents (C29_kernel_partial)."
  },
  {
   "property": "C30",
   "status": "partial",
   "theorems": [
    "Hodu.C30_buffer",
    "Hodu.C30_gather_partial",
    "Hodu.C30_index_view_wrong",
    "Hodu.C30_large_index_ub",
    "Hodu.C30_rank_ub"
   ],
   "note": "The computed buffer is right for every layout of source and index (C30_buffer); the resulting tensor is right when the index tensor is row-major from offset 0. Disagreement: the result reuses the index tensor's layout over a row-major buffer (C30_index_view_wrong); index shape and rank are not checked, so larger indices read outside the source."
  },
  {
   "property": "C31",
   "status": "partial",
   "theorems": [
    "Hodu.C31_kernel",
    "Hodu.C31_scatter_partial",
    "Hodu.C31_scatter_add_wrong",
    "Hodu.C31_variants_overwrite",
    "Hodu.C31_view_wrong",
    "Hodu.C31_broadcast_ub",
    "Hodu.C31_large_source_wrong",
    "Hodu.C31_small_index_ub",
    "Hodu.C31_no_overrun"
   ],
   "note": "The kernel, with any cell update, is right for every layout (C31_kernel); the tensor-level scatter is right when self is row-major from offset 0. Disagreements: scatter_add/max/min run the overwriting kernel on CPU (ops_indexing.rs:457); the result keeps self's strides over a row-major buffer; shapes are not compared."
  },
  {
   "property": "C32",
   "status": "partial",
   "theorems": [
    "Hodu.C32_dot",
    "Hodu.C32_row_workers_any_order",
    "Hodu.C32_matmul_partial",
    "Hodu.C32_zero_batch_wrong",
    "Hodu.C32_rank_wrong",
    "Hodu.C32_full_false",
    "Hodu.C32_matvec",
    "Hodu.C32_vecmat",
    "Hodu.C32_vecdot_slice_wrong",
    "Hodu.C32_rank_errors"
   ],
   "note": "All operands of rank >= 2 with positive batch sizes and at most 16 batch dimensions, every layout and core count: fails exactly on mismatched inner or batch sizes, otherwise each cell is the left-to-right sum of products, on every path and worker schedule; also matrix-vector products. False for batch size 0 against 1 (rejected), more than 16 batch dimensions (UB) and, outside the statement, the inner product of a sliced vector (UB). BLAS builds are C102; FMA contraction is not modelled."
  },
  {
   "property": "C33",
   "status": "partial",
   "theorems": [
    "Hodu.C33_sum_to_shape_partial",
    "Hodu.C33_adjoint_partial",
    "Hodu.C33_full_false"
   ],
   "note": "Exact arithmetic, zero-free shapes, rank at most 16; false with zero-size dimensions."
  },
  {
   "property": "C34",
   "status": "proved",
   "theorems": [
    "Hodu.Autograd.C34_adjoint",
    "Hodu.Autograd.C34_succeeds",
    "Hodu.Autograd.C34_requires_exist"
   ],
   "note": "For every reachable history state and any tape, the gradients backward stores are the adjoint of the recorded computation applied to the seed; hypotheses: every vjp on the tape is locally adjoint, and leaves the loss does not reach hold no stale gradient. The tape is taken as recorded; what dropping handles does to it is C57. Each vjp reads the values current at backward, so set_ between forward and backward changes the point of differentiation. Only created tensors require gradients."
  },
  {
   "property": "C35",
   "status": "partial",
   "theorems": [
    "Hodu.Autograd.C35_replaces_partial",
    "Hodu.Autograd.C35_second_backward",
    "Hodu.Autograd.C35_failed_backward",
    "Hodu.Autograd.C35_full_false"
   ],
   "note": "Backward replaces the gradient of every leaf it reaches (second backward gives the gradient of the second loss alone there), and a failed backward's effect is characterised. Refuted in full: a leaf the second loss does not reach keeps the gradient of the first."
  },
  {
   "property": "C36",
   "status": "partial",
   "theorems": [
    "Hodu.Autograd.C36_nesting_partial",
    "Hodu.Autograd.C36_records_active",
    "Hodu.Autograd.C36_full_false"
   ],
   "note": "Proved for guards dropped in LIFO order. Refuted in full: dropping the outer guard first leaves a dead context active and later operations are recorded nowhere, silently."
  },
  {
   "property": "C37",
   "status": "partial",
   "theorems": [
    "Hodu.TReg.C37_live_partial",
    "Hodu.TReg.C37_freed_partial",
    "Hodu.TReg.C37_cleanup_partial",
    "Hodu.TReg.C37_held_gradient_false",
    "Hodu.TReg.C37_shared_gradient_false",
    "Hodu.TReg.C37_op_result_leak_false",
    "Hodu.TReg.C37_zero_grad_leak_false"
   ],
   "note": "Count = handles + gradient links is an invariant of every history in which a tensor's last handle does not go away while its gradient is held or shared; so held tensors are live, and unreferenced ones are gone except those the code keeps on purpose (owned by a context, zero_grad results, not run-time). Refuted: Drop subtracts two for one gradient link, so a held or shared gradient is freed under its handle; results of operations outside a context are never freed without a backward; replaced zero_grad gradients are never freed. One thread."
  },
  {
   "property": "C38",
   "status": "partial",
   "theorems": [
    "Hodu.Cap.C38_eval_partial",
    "Hodu.Cap.C38_reads_partial",
    "Hodu.Cap.C38_absent",
    "Hodu.Cap.C38_dropped_constant_false",
    "Hodu.Cap.C38_constant_target_false",
    "Hodu.Cap.C38_set_false",
    "Hodu.Cap.C38_second_result_false",
    "Hodu.Cap.C38_topk_false",
    "Hodu.Cap.C38_new_board"
   ],
   "note": "Proved for histories without set_ whose constants are alive at capture and whose targets are made on the board: the snapshot evaluates to the eager values and reads only inputs, constants and earlier results; unneeded operations are absent unconditionally. False when a constant's handle is dropped before capture, when a target is a constant, after set_, and for the second results of unique and topk, whose ids appear nowhere in the snapshot's nodes. A new board never is an old one."
  },
  {
   "property": "C39",
   "status": "proved",
   "theorems": [
    "Hodu.C39_dtype_code",
    "Hodu.C39_dtype_injective",
    "Hodu.C39_plugin_roundtrip",
    "Hodu.C39_from_str",
    "Hodu.C39_name_roundtrip",
    "Hodu.C39_device_roundtrip",
    "Hodu.C39_device_injective",
    "Hodu.C39_device_name",
    "Hodu.C39_format"
   ],
   "note": "CUDA ids above 15 panic when encoded (stated in the theorem); every other device, dtype and plugin dtype round-trips. Case analysis over the finite enumerations is complete; device ids range over all naturals."
  },
  {
   "property": "C40",
   "status": "proved",
   "theorems": [
    "Hodu.C40_samplers",
    "Hodu.C40_batches",
    "Hodu.C40_every_order",
    "Hodu.isBatches_unique"
   ],
   "note": "Sequential and random samplers yield a permutation for every outcome of the generator (and every permutation is the outcome of some draws); batch sampler cuts the sequence into consecutive batches. Batch size 0 panics (slice::chunks)."
  },
  {
   "property": "C41",
   "status": "partial",
   "theorems": [
    "Hodu.C41_epochs_partial",
    "Hodu.C41_seed_overflow"
   ],
   "note": "Holds for every dataset, batch size >= 1, shuffle/drop_last setting, generator and history of next_batch/reset calls as long as seed + number of resets stays below 2^64; with a larger seed reset() panics in a debug build (C41_seed_overflow). Items and collation are assumed to succeed (the property is about indices); failing calls in the history are allowed."
  },
  {
   "property": "C42",
   "status": "partial",
   "theorems": [
    "Hodu.C42_first_row_partial",
    "Hodu.C42_rows_shifted",
    "Hodu.C42_full_false",
    "Hodu.batch_exact"
   ],
   "note": "False of the code for batches of two or more rows: row b of the batch is dataset row (i_b + b) mod N (C42_rows_shifted), because stack packs the whole shared storage of every item while the kernel's offsets assume each operand's buffer has exactly its own size. What holds: shape, the first row, and batches of one index, for every dataset layout."
  },
  {
   "property": "C43",
   "status": "partial",
   "theorems": [
    "Hodu.C43_random_split_partial",
    "Hodu.C43_subset",
    "Hodu.C43_full_false",
    "Hodu.C43_large_panics",
    "Hodu.C43_large_short",
    "Hodu.C43_rounds_up"
   ],
   "note": "Holds below 2^24 items (disjoint cover, no panic, length within one of the exact product and exactly rounded down when the f32 product is exact). For larger datasets the f32 length can exceed the dataset (panic) or fall short. f32 product modelled as round-to-nearest-even on 24 bits; subnormal/overflowing fractions not modelled."
  },
  {
   "property": "C44",
   "status": "proved",
   "theorems": [
    "Hodu.C44_concat_dataset"
   ],
   "note": "All member length lists, all indices; usize overflow of the total length not modelled."
  },
  {
   "property": "C45",
   "status": "partial",
   "theorems": [
    "Hodu.Optim.C45_sgd",
    "Hodu.Optim.C45_adamW",
    "Hodu.Optim.C45_adagrad",
    "Hodu.Optim.C45_rmsprop",
    "Hodu.Optim.C45_adam_partial",
    "Hodu.Optim.C45_adam_full_false",
    "Hodu.Optim.C45_adam_as_coded"
   ],
   "note": "Proved for SGD, AdamW, Adagrad and RMSprop (all gradient histories, learning-rate schedules, parameter lists, hyper-parameters) over any field with any sqrt. Adam is wrong: its exponents are t+1 instead of t and the bias is corrected twice (C45_adam_full_false; C45_adam_as_coded says what it computes). Rounding and dtype conversion of hyper-parameters are not modelled."
  },
  {
   "property": "C46",
   "status": "proved",
   "theorems": [
    "Hodu.Rpc.C46_own_response",
    "Hodu.Rpc.C46_skips",
    "Hodu.Rpc.C46_cancel_idle"
   ],
   "note": "For every JSON parser, result decoder, history of calls, timeouts, failures, cancels and shutdowns using fewer than 2^64 ids, and every event sequence. A cancel by another thread is one atomic step. Lines without an id, objects or not, leave a call waiting; a cancel while nothing is waited for writes nothing."
  },
  {
   "property": "C47",
   "status": "partial",
   "theorems": [
    "Hodu.Rpc.C47_undisturbed_partial",
    "Hodu.Rpc.C47_stuck",
    "Hodu.Rpc.C47_full_false",
    "Hodu.Rpc.C47_cancel_false"
   ],
   "note": "Against a plugin that answers every request in order. False: after one timeout or one cancel no later call ever succeeds (C47_stuck, all histories); proved for histories without either."
  },
  {
   "property": "C48",
   "status": "partial",
   "theorems": [
    "Hodu.Rpc.C48_compatible_partial",
    "Hodu.Rpc.C48_equivalence",
    "Hodu.Rpc.C48_full_false",
    "Hodu.Rpc.C48_texts"
   ],
   "note": "Proved for version texts whose numbers fit u32; reflexive, symmetric, transitive on all texts. False beyond: an overflowing number is dropped and the next takes its place. C48_texts says what the check does for every text."
  },
  {
   "property": "C49",
   "status": "proved",
   "theorems": [
    "Hodu.Server.C49_server"
   ],
   "note": "For every input, every set of handlers and every request parser. A handler that panics ends the process like a shutdown; writes to stdout are taken to succeed."
  },
  {
   "property": "C50",
   "status": "proved",
   "theorems": [
    "Hodu.Plugins.C50_registry",
    "Hodu.Plugins.C50_dependencies",
    "Hodu.Plugins.C50_reports"
   ],
   "note": "From an empty registry; a hand-edited file may contain duplicates."
  },
  {
   "property": "C51",
   "status": "partial",
   "theorems": [
    "Hodu.RegFile.C51_quiescent_partial",
    "Hodu.RegFile.C51_full_false",
    "Hodu.RegFile.C51_crash_false",
    "Hodu.RegFile.C51_overlap_false"
   ],
   "note": "False: save truncates the file before it takes the lock, so a concurrent load reads an empty file and a crash leaves one. Proved: without crashes, whenever no save is under way the file is complete, for every interleaving of any number of saves and loads. Two overlapping saves leave zero bytes at the beginning of the file."
  },
  {
   "property": "C52",
   "status": "partial",
   "theorems": [
    "Hodu.Plugins.C52_manager_partial",
    "Hodu.Plugins.C52_full_false"
   ],
   "note": "False: a process that fails to initialise is neither killed nor remembered, so several may run. Proved: everything else, and the full claim when plugins that fail to initialise exit."
  },
  {
   "property": "C53",
   "status": "partial",
   "theorems": [
    "Hodu.Json.C53_json_partial",
    "Hodu.Json.C53_many_partial",
    "Hodu.Json.C53_full_false",
    "Hodu.Json.C53_nonfinite_false",
    "Hodu.Json.C53_f64_false",
    "Hodu.Json.C53_view_false"
   ],
   "note": "False: infinities and NaN are written as null and cannot be loaded; an f64 with 17 digits is read back as a neighbour, because the JSON parser is used without its exact mode; contiguous slices cannot be loaded and column slices load the wrong elements. Proved for all finite elements of every other element type (the parser's error is bounded and disappears when the number is rounded to the narrower type), and for f64 with short decimals."
  },
  {
   "property": "C54",
   "status": "partial",
   "theorems": [
    "Hodu.RunFiles.C54_inputs_partial",
    "Hodu.RunFiles.C54_full_false",
    "Hodu.RunFiles.C54_duplicate",
    "Hodu.RunFiles.C54_absolute"
   ],
   "note": "False: all runs share one directory and name files after inputs only. Proved for runs with distinct names not shared by a concurrent run."
  },
  {
   "property": "C55",
   "status": "partial",
   "theorems": [
    "Hodu.C55_unary_partial",
    "Hodu.C55_unary_scalar",
    "Hodu.C55_binary",
    "Hodu.C55_dot",
    "Hodu.C55_matmul",
    "Hodu.C55_linalg_partial",
    "Hodu.C55_reduce",
    "Hodu.C55_concat",
    "Hodu.C55_split",
    "Hodu.C55_flip",
    "Hodu.C55_pad",
    "Hodu.C55_index_select",
    "Hodu.C55_gather_partial",
    "Hodu.C55_scatter_partial",
    "Hodu.C55_onehot",
    "Hodu.C55_strided",
    "Hodu.C55_compress",
    "Hodu.C55_window",
    "Hodu.C55_conv",
    "Hodu.C55_conv_grad",
    "Hodu.C55_einsum",
    "Hodu.C55_index_put_false",
    "Hodu.C55_index_put_vector",
    "Hodu.C55_unary_false",
    "Hodu.C55_linalg_false",
    "Hodu.C55_resize"
   ],
   "note": "Every field the kernel decodes is proved to be the field of the layouts and parameters the host encoded, for binary, reduction, concat, split, flip, pad, index_select, onehot, nonzero/unique, compress, window, convolution, dot, matmul and resize kernels. Refuted: index_put (order of the fields), unary operations of rank 0 (offset dropped), matrices of an empty batch (1 instead of 0). gather and scatter only for equal ranks. Missing: the vector of topk is passed as arguments in the model; that of cumsum is covered by C25 only; einsum is stated for the vector the host builds from the numbered labels (C26 connects it with the equation)."
  },
  {
   "property": "C56",
   "status": "partial",
   "theorems": [
    "Hodu.Rpc.C56_report_partial",
    "Hodu.Rpc.C56_full_false",
    "Hodu.Rpc.C56_code_range"
   ],
   "note": "False for handlers that return (): the null result reads back as no result and the call fails with NoResult. Proved for every other value and for errors. Error codes outside of i32 make the call end with a parse error."
  },
  {
   "property": "C57",
   "status": "partial",
   "theorems": [
    "Hodu.Autograd.C57_complete_partial",
    "Hodu.Autograd.C57_constant_false",
    "Hodu.Autograd.C57_other_leaf_false",
    "Hodu.Autograd.C57_contiguous_false"
   ],
   "note": "Proved for programs that drop only intermediate results. Refuted for a dropped constant operand (backward fails), a dropped other leaf (silently no gradient) and through contiguous()."
  },
  {
   "property": "C58",
   "status": "partial",
   "theorems": [
    "Hodu.Cap.C58_layouts_partial",
    "Hodu.Cap.C58_constant_false"
   ],
   "note": "Proved for inputs and results of nodes. False for constants: their data is stored in logical order with the shape only, while the node records the strides of the original view."
  },
  {
   "property": "C59",
   "status": "partial",
   "theorems": [
    "Hodu.C59_conv_partial",
    "Hodu.C59_conv_sum_partial",
    "Hodu.C59_errors",
    "Hodu.C59_view_wrong",
    "Hodu.C59_broadcast_ub",
    "Hodu.C59_large_kernel_panics",
    "Hodu.C59_full_false"
   ],
   "note": "Proved for row-major operands whose kernel fits. False for views: the kernel ignores the strides (wrong values for a transposed input, out-of-bounds reads for a broadcast one). A kernel larger than the padded input panics (usize underflow) instead of an error."
  },
  {
   "property": "C60",
   "status": "partial",
   "theorems": [
    "Hodu.C60_convT_partial",
    "Hodu.C60_packed_weight_wrong",
    "Hodu.C60_output_padding_wrong",
    "Hodu.C60_padding_panics",
    "Hodu.C60_full_false"
   ],
   "note": "The kernel reads the weight as (Ci, Co, kernel) in memory while the host checks a (Co, Ci, kernel) shape; proved for weights stored in that order. False for row-major weights with several channels; output padding and large paddings fail as well."
  },
  {
   "property": "C61",
   "status": "partial",
   "theorems": [
    "Hodu.C61_conv_vjp_partial",
    "Hodu.C61_convT_vjp_partial",
    "Hodu.C61_rest_wrong",
    "Hodu.C61_padding_panics",
    "Hodu.C61_broadcast_ub",
    "Hodu.C61_transposed_error",
    "Hodu.C61_grad_weight_ub",
    "Hodu.C61_full_false"
   ],
   "note": "Proved (over any commutative semiring) when the stride leaves no rest and the kernel fits the unpadded input. False otherwise: the input gradient has the wrong shape, or the backward pass panics; a broadcast output gradient, as sum() produces, is read out of bounds; transposed convolution with different channel counts cannot be differentiated."
  },
  {
   "property": "C62",
   "status": "partial",
   "theorems": [
    "Hodu.C62_onehot_partial",
    "Hodu.C62_view_wrong",
    "Hodu.C62_axis_ub",
    "Hodu.C62_truncation_wrong",
    "Hodu.C62_rank_ub",
    "Hodu.C62_full_false"
   ],
   "note": "Proved for contiguous indices. False for views (layout ignored), for an axis out of range (unchecked: an uninitialised index is used), for 64-bit indices (truncated to 32 bits) and for high ranks (fixed-size coordinate array)."
  },
  {
   "property": "C63",
   "status": "partial",
   "theorems": [
    "Hodu.C63_nonzero_partial",
    "Hodu.C63_rows",
    "Hodu.C63_rank_ub",
    "Hodu.C63_full_false"
   ],
   "note": "Proved for every layout up to rank 32 with dimensions up to 2^31. False at rank 33: the kernel overruns its index array."
  },
  {
   "property": "C64",
   "status": "partial",
   "theorems": [
    "Hodu.C64_unique_partial",
    "Hodu.C64_float_partial",
    "Hodu.C64_nonneg_partial",
    "Hodu.C64_signed_order_wrong",
    "Hodu.C64_full_false"
   ],
   "note": "Proved for unsigned types, for signed types without negative numbers and for floats without NaN, for every sorted order qsort may leave and fewer than 2^31 elements. False for negative integers: the sort key is the value cast to size_t, so they come last."
  },
  {
   "property": "C65",
   "status": "partial",
   "theorems": [
    "Hodu.C65_axis_partial",
    "Hodu.C65_flat_partial",
    "Hodu.C65_sliced_condition_wrong",
    "Hodu.C65_broadcast_condition_ub",
    "Hodu.C65_rank_ub",
    "Hodu.C65_full_false"
   ],
   "note": "Proved for every layout of the tensor and a fresh condition (rank at most 32 along an axis). False for a condition that is a view: its layout is ignored, so a sliced condition leaves uninitialised elements in the result and a broadcast one is read out of bounds."
  },
  {
   "property": "C66",
   "status": "partial",
   "theorems": [
    "Hodu.C66_det_small_partial",
    "Hodu.C66_det_partial",
    "Hodu.C66_det_exotic_partial",
    "Hodu.C66_threshold_wrong",
    "Hodu.C66_integer_wrong",
    "Hodu.C66_integer_singular_ub",
    "Hodu.C66_exotic_nan",
    "Hodu.C66_empty_batch_ub"
   ],
   "note": "Proved up to 3x3 over every commutative ring; for any size in exact arithmetic the answer is the determinant or 0 (with the threshold), and the determinant if all matrices are invertible (without it). False: a pivot below 1e-15 makes the answer 0; integer types truncate the elimination factors and divide by zero for singular matrices; f8/bf16/f16 give NaN for singular matrices; an empty batch is read out of bounds. Rounding is not modelled."
  },
  {
   "property": "C67",
   "status": "partial",
   "theorems": [
    "Hodu.C67_inv_partial",
    "Hodu.C67_inv_false",
    "Hodu.C67_empty_batch_ub",
    "Hodu.C67_integer_wrong",
    "Hodu.C67_integer_unimodular_wrong"
   ],
   "note": "Proved in exact arithmetic for every size, layout and non-empty batch. False for an empty batch (read out of bounds) and for integer types (truncated reciprocals), even for matrices with an integer inverse. Rounding is not modelled."
  },
  {
   "property": "C68",
   "status": "partial",
   "theorems": [
    "Hodu.C68_trace_partial",
    "Hodu.C68_trace_false"
   ],
   "note": "Proved for every layout and every batch without a zero dimension. False for an empty batch: the batch size 0 is replaced by 1 and memory is read and written out of bounds."
  },
  {
   "property": "C69",
   "status": "partial",
   "theorems": [
    "Hodu.C69_reduce_gradient_partial",
    "Hodu.C69_cells",
    "Hodu.C69_max_ties",
    "Hodu.C69_full_false",
    "Hodu.C69_failures"
   ],
   "note": "Proved over the real numbers with keep_dim, or over leading axes (in particular all axes), wherever the reduction is differentiable; var and std over leading axes only. False otherwise: without keep_dim the gradient is broadcast along the wrong axis (wrong numbers or an error); var/std recompute the mean without keep_dim; the product rule divides by the element and is NaN at 0. Rounding is not modelled."
  },
  {
   "property": "C70",
   "status": "partial",
   "theorems": [
    "Hodu.C70_softmax_partial",
    "Hodu.C70_log_softmax_partial",
    "Hodu.C70_distribution",
    "Hodu.C70_full_false"
   ],
   "note": "Proved over the real numbers for every layout except contiguous views with an offset, for which the shifted values keep the offset over a smaller buffer and are read out of bounds. Rank at most 16, non-zero sizes, no rounding."
  },
  {
   "property": "C71",
   "status": "partial",
   "theorems": [
    "Hodu.C71_det_partial",
    "Hodu.C71_inv_partial",
    "Hodu.C71_inv_derivative_partial",
    "Hodu.C71_trace_partial",
    "Hodu.C71_trace_value",
    "Hodu.C71_det_matrix_shape",
    "Hodu.C71_full_false",
    "Hodu.C71_trace_matrix_shape",
    "Hodu.C71_det_singular_nan"
   ],
   "note": "det: proved for non-singular matrices in batches of at least one axis, over every field. inv: proved for every batch, also as a derivative over the reals. trace: proved when the batch has one element. False: the gradient of a single matrix under det has shape [1,n,n]; the gradient of trace gives every matrix of the batch the first upstream entry; singular matrices give NaN."
  },
  {
   "property": "C72",
   "status": "partial",
   "theorems": [
    "Hodu.C72_unary_partial",
    "Hodu.C72_scalar_partial",
    "Hodu.C72_full_false",
    "Hodu.C72_hard_fails",
    "Hodu.C72_not_recorded",
    "Hodu.C72_tiny_divisor",
    "Hodu.C72_gelu_constants",
    "Hodu.C72_gelu_inexact"
   ],
   "note": "Proved over the real numbers for all 36 other unary operators and all operators with a scalar, given exact constants. False: the rules of hardsigmoid and hardsilu always fail (product of boolean masks); abs has a rule but is not recorded; the GELU rule uses 0.797885 where the kernel uses 0.7978845608, so it is not the derivative; division by a scalar below epsilon has no gradient. Rounding is not modelled."
  },
  {
   "property": "C73",
   "status": "partial",
   "theorems": [
    "Hodu.C73_binary_partial",
    "Hodu.C73_full_false",
    "Hodu.C73_rem_wrong"
   ],
   "note": "Proved over the real numbers for a right operand that broadcasts to the left one (equal shapes for pow, maximum, minimum). False: with a broadcast right operand maximum/minimum use the mask of the first position everywhere; the remainder rule rounds the quotient down where the kernel truncates; a broadcast left operand is already wrong in the forward pass (C10). Rounding is not modelled."
  },
  {
   "property": "C74",
   "status": "partial",
   "theorems": [
    "Hodu.C74_dispatch_partial",
    "Hodu.C74_panics",
    "Hodu.C74_rejects",
    "Hodu.C74_wrong_kernel",
    "Hodu.C74_dispatch_iff",
    "Hodu.C74_full_false"
   ],
   "note": "Exact characterisation: an accepted pair runs its own kernel unless it is one of these: rem, rem_scalar, leaky_relu, elu, prelu on any type, relu on signed integers, argmax/argmin/any/all on f64 (all panic); argmax/argmin/any/all on bool (rejected by the back end); scatter_add/max/min (run the plain scatter kernel)."
  },
  {
   "property": "C75",
   "status": "partial",
   "theorems": [
    "Hodu.C75_mse_partial",
    "Hodu.C75_bce_with_logits_partial",
    "Hodu.C75_nll_partial",
    "Hodu.C75_cross_entropy_partial",
    "Hodu.C75_kl_div_partial",
    "Hodu.C75_bce_value",
    "Hodu.C75_bce_wrong",
    "Hodu.C75_bce_type",
    "Hodu.C75_huber_never",
    "Hodu.C75_smooth_l1_never",
    "Hodu.C75_cosine_never",
    "Hodu.C75_mae_never",
    "Hodu.C75_kl_div_never",
    "Hodu.C75_nll_wrong",
    "Hodu.C75_full_false"
   ],
   "note": "Over the reals: MSE, BCE-with-logits, NLL and cross entropy along the last dimension, KL divergence in f32 (positive targets) are right. Huber, SmoothL1 and CosineEmbedding never return a value for any input; MAE for no type but u32; KLDiv for no type but f32; BCE ignores the prediction; NLL/CrossEntropy along another dimension pick wrong entries."
  },
  {
   "property": "C76",
   "status": "partial",
   "theorems": [
    "Hodu.Flt.C76_narrow_partial",
    "Hodu.Flt.C76_widen",
    "Hodu.Flt.C76_roundtrip_partial",
    "Hodu.Flt.C76_bf16_truncates",
    "Hodu.Flt.C76_bf16_roundtrip",
    "Hodu.Flt.C76_full_false",
    "Hodu.Flt.C76_f16_tie_wrong",
    "Hodu.Flt.C76_f16_subnormal_lost",
    "Hodu.Flt.C76_e4m3_overflow_nan",
    "Hodu.Flt.C76_e4m3_small_nan",
    "Hodu.Flt.C76_e5m2_overflow_nan",
    "Hodu.Flt.C76_e4m3_host_disagrees",
    "Hodu.Flt.C76_bf16_nan_wrong",
    "Hodu.Flt.C76_negative_zero"
   ],
   "note": "Proved for all bit patterns: widening is exact; narrowing a magnitude in the normal range keeps the sign, is finite, is one of the two neighbours, and is nearest unless the mantissa comes out all ones; normal numbers round trip; bf16 truncates towards zero and round trips. False: ties are not to even, no carry into the exponent, f16 subnormals and negative zero become zero, f8e4m3 numbers of at least 256 and those between 2^-9 and 13*2^-11 become NaN, f8e5m2 overflow becomes NaN, bf16 NaNs may become infinity, and the kernels read the host's largest f8e4m3 numbers as NaN."
  },
  {
   "property": "C77",
   "status": "partial",
   "theorems": [
    "Hodu.C77_dot",
    "Hodu.C77_matmul_partial",
    "Hodu.C77_broadcast_partial",
    "Hodu.C77_full_false",
    "Hodu.C77_rank_wrong"
   ],
   "note": "Proved for the 2-D product without restriction, for batched products with any pair of broadcastable batch shapes if no dimension is 0 and the rank is at most 16. False outside (the product itself fails, C32). Exact arithmetic over any commutative semiring; rounding is not modelled. Vector operands are recorded as other operators."
  },
  {
   "property": "C78",
   "status": "partial",
   "theorems": [
    "Hodu.C78_reshape",
    "Hodu.C78_flatten",
    "Hodu.C78_squeeze_partial",
    "Hodu.C78_squeeze_all",
    "Hodu.C78_unsqueeze",
    "Hodu.C78_broadcast_partial",
    "Hodu.C78_transpose_partial",
    "Hodu.C78_transpose_shape_iff",
    "Hodu.C78_permute_partial",
    "Hodu.C78_permute_shape_iff",
    "Hodu.C78_full_false",
    "Hodu.C78_transpose_batch_wrong",
    "Hodu.C78_permute_cycle_wrong",
    "Hodu.C78_permute_square_wrong"
   ],
   "note": "Proved for reshape, flatten, squeeze, unsqueeze, broadcast (no zero-size dimension, rank at most 16), transpose of the last two axes, permutations that are their own inverse on shapes without equal dimensions. False: transpose of any other pair of axes transposes the last two; permute guesses the permutation from the shapes and applies it in the wrong direction, so cyclic permutations get a wrong shape and square matrices an untransposed gradient."
  },
  {
   "property": "C79",
   "status": "partial",
   "theorems": [
    "Hodu.C79_concat_partial",
    "Hodu.C79_split_partial",
    "Hodu.C79_full_false",
    "Hodu.C79_split_negative_fails",
    "Hodu.C79_split_partial_sizes",
    "Hodu.C79_split_sum_ub"
   ],
   "note": "Proved for non-negative axes; split needs sizes that cover the axis and, for all but the last output, an upstream gradient stored without gaps. False: a negative axis is cast to usize and read as 0 (wrong shapes or an error); a stride-0 upstream gradient of a split output is read past its buffer."
  },
  {
   "property": "C80",
   "status": "partial",
   "theorems": [
    "Hodu.C80_equation_partial",
    "Hodu.C80_private_label_fails",
    "Hodu.C80_full_false",
    "Hodu.C80_dot_ub"
   ],
   "note": "Proved for every parsed equation with plain labels: the gradient equation parses and has the shape of the operand iff every label of the operand occurs in the output or another operand; otherwise the gradient is an error for all data. False as to values: Tensor::einsum drops the layout of the first operand (C27), here the upstream gradient."
  },
  {
   "property": "C81",
   "status": "partial",
   "theorems": [
    "Hodu.C81_flip_partial",
    "Hodu.C81_cumsum_partial",
    "Hodu.C81_full_false",
    "Hodu.C81_flip_sum_ub",
    "Hodu.C81_cumsum_sum_ub"
   ],
   "note": "Proved for row-major upstream gradients at the front of their buffer. False for views: x.flip(0).sum().backward() and x.cumsum(0).sum().backward() read past the end of a one-element buffer, and a transposed upstream gradient is read in storage order."
  },
  {
   "property": "C82",
   "status": "partial",
   "theorems": [
    "Hodu.C82_gather_partial",
    "Hodu.C82_index_select_partial",
    "Hodu.C82_slice_partial",
    "Hodu.C82_topk_partial",
    "Hodu.C82_scatter_partial",
    "Hodu.C82_full_false",
    "Hodu.C82_gather_negative_wrong",
    "Hodu.C82_index_select_axis_wrong",
    "Hodu.C82_slice_axis_wrong",
    "Hodu.C82_slice_axis_ub",
    "Hodu.C82_slice_negative_panics",
    "Hodu.C82_slice_start_wrong",
    "Hodu.C82_scatter_repeated_wrong",
    "Hodu.C82_scatter_add_wrong",
    "Hodu.C82_scatter_max_wrong",
    "Hodu.C82_index_put_ub"
   ],
   "note": "Proved where no element is read (or written) twice: gather and scatter on a non-negative axis (or the first), index_select and slice on axis 0, topk on the last axis. False: repeated indices keep one upstream entry instead of the sum; slice and index_select on any other axis use the wrong indices or read out of bounds; gather on a negative axis differentiates along axis 0; slice on a negative axis panics; scatter_add and scatter_max also hand the gradient to the overwritten element; index_put is undefined behaviour on vectors."
  },
  {
   "property": "C83",
   "status": "partial",
   "theorems": [
    "Hodu.C83_fold_partial",
    "Hodu.C83_errors",
    "Hodu.C83_sum_partial",
    "Hodu.C83_mean_partial",
    "Hodu.C83_max_partial",
    "Hodu.C83_min_partial",
    "Hodu.C83_f16_mean_wrong",
    "Hodu.C83_f8_max_padding_nan",
    "Hodu.C83_full_false"
   ],
   "note": "Proved for every layout, window, stride and padding up to rank 16: output size, the exact elements accumulated and their order for any accumulation; sums and means over exact arithmetic, maxima and minima over total orders. False: f16/bf16/f8 means compute with bit patterns, f8 maxima over a window that ends in the padding are NaN, a window larger than the padded input or stride 0 panics (C83_errors) instead of being rejected with an error."
  },
  {
   "property": "C84",
   "status": "partial",
   "theorems": [
    "Hodu.C84_sum_partial",
    "Hodu.C84_mean_partial",
    "Hodu.C84_max_partial",
    "Hodu.C84_min_partial",
    "Hodu.C84_overlap",
    "Hodu.C84_remainder",
    "Hodu.C84_stride_one",
    "Hodu.C84_ties",
    "Hodu.C84_full_false"
   ],
   "note": "Proved when the windows tile the input (window = stride without padding, or a single window, per dimension), for every rank up to 16: sum and mean are adjoint to the forward operator, max and min select the extremes. False otherwise: overlapping windows give a wrong gradient or an error, a remainder gives an error, tied extremes each receive the whole gradient."
  },
  {
   "property": "C85",
   "status": "partial",
   "theorems": [
    "Hodu.C85_where3_partial",
    "Hodu.C85_masked_fill_value",
    "Hodu.C85_masked_fill_iff",
    "Hodu.C85_clamp_min_value",
    "Hodu.C85_clamp_max_value",
    "Hodu.C85_clamp_value",
    "Hodu.C85_clamp_constant",
    "Hodu.C85_clamp_iff",
    "Hodu.C85_scalar_type",
    "Hodu.C85_where3_bool",
    "Hodu.C85_where3_nan",
    "Hodu.C85_masked_fill_wrong",
    "Hodu.C85_clamp_wrong",
    "Hodu.C85_clamp_bounds_wrong",
    "Hodu.C85_fill_neg_inf",
    "Hodu.C85_full_false"
   ],
   "note": "where3 proved over the reals (condition and other broadcast to x). The other four are inverted: masked_fill fills the unmarked elements, clamp(lo, hi) with lo <= hi is the constant hi; exact conditions under which they are right are proved, the full property refuted. Boolean tensors are always rejected; a product with infinity gives NaN."
  },
  {
   "property": "C86",
   "status": "partial",
   "theorems": [
    "Hodu.C86_layer_norm_partial",
    "Hodu.C86_layer_norm_rejects",
    "Hodu.C86_rms_norm_partial",
    "Hodu.C86_instance_norm_partial",
    "Hodu.C86_group_norm_partial",
    "Hodu.C86_batch_norm_train_partial",
    "Hodu.C86_batch_norm_eval_partial",
    "Hodu.C86_standardized",
    "Hodu.C86_layer_norm_empty",
    "Hodu.C86_channels_unchecked",
    "Hodu.C86_batch_norm_eval_rank",
    "Hodu.C86_full_false"
   ],
   "note": "Over the reals all layers compute the documented value for the inputs they are made for, and running statistics are the exponential average. Refuted: an empty normalized_shape standardizes over all elements; InstanceNorm and BatchNorm2D in evaluation mode accept another number of channels and change the shape; BatchNorm1D in evaluation mode accepts rank 4. Missing: rounding."
  },
  {
   "property": "C87",
   "status": "partial",
   "theorems": [
    "Hodu.C87_linear_partial",
    "Hodu.C87_linear_vector",
    "Hodu.C87_linear_mismatch",
    "Hodu.C87_attention_partial",
    "Hodu.C87_mha_partial",
    "Hodu.C87_attention_type_false",
    "Hodu.C87_mha_type_false",
    "Hodu.C87_mask_type",
    "Hodu.C87_causal_mask",
    "Hodu.C87_causal_value",
    "Hodu.C87_causal_nan",
    "Hodu.C87_mask_value",
    "Hodu.C87_causal_false",
    "Hodu.C87_mask_false",
    "Hodu.C87_full_false"
   ],
   "note": "Over the reals: Linear for every rank; attention and multi-head attention for f64 without masks. Refuted: any other element type is rejected (the scale is an f64 scalar); the causal mask marks the right positions but masked_fill keeps exactly those, so that with minus infinity the scores are NaN or minus infinity and the result is NaN; the same for the attention mask, which besides must be f64. Missing: dropout, batches that need broadcasting, rounding."
  },
  {
   "property": "C88",
   "status": "partial",
   "theorems": [
    "Hodu.C88_embedding_partial",
    "Hodu.C88_pretrained",
    "Hodu.C88_padding_false",
    "Hodu.C88_max_norm_panics",
    "Hodu.C88_max_norm_partial",
    "Hodu.C88_max_norm_column",
    "Hodu.C88_out_of_range",
    "Hodu.C88_index_view_false",
    "Hodu.C88_full_false"
   ],
   "note": "Lookup proved for every weight and every index tensor that does not start inside of its buffer; max_norm for two columns over the reals. Refuted: an index view with an offset reads the wrong indices; max_norm sums over axis D-1, which scales by the norm of a column for D = 1 and panics for D >= 3; padding_idx always fails (where3 on a bool mask); an index that names no row gives zeros instead of an error. Missing: the initial weight, gradients, rounding."
  },
  {
   "property": "C89",
   "status": "partial",
   "theorems": [
    "Hodu.C89_rnn_partial",
    "Hodu.C89_gru_partial",
    "Hodu.C89_lstm_partial",
    "Hodu.C89_empty_false",
    "Hodu.C89_no_layers",
    "Hodu.C89_state_layers_false"
   ],
   "note": "Outputs and final states proved over the reals for all three networks, every number of layers >= 1, length >= 1 and both orientations. Refuted: an initial state with fewer layers than the network is accepted and the missing layers start at 0; an empty sequence is an error. A network without layers always fails. Missing: dropout between layers (the code has none), the initial parameters, gradients, rounding."
  },
  {
   "property": "C90",
   "status": "partial",
   "theorems": [
    "Hodu.C90_max_pool_partial",
    "Hodu.C90_avg_pool_partial",
    "Hodu.C90_rank",
    "Hodu.C90_adaptive_max_partial",
    "Hodu.C90_adaptive_avg_partial",
    "Hodu.C90_adaptive_cover",
    "Hodu.C90_global_partial",
    "Hodu.C90_fractional_partial",
    "Hodu.C90_pool_panics",
    "Hodu.C90_adaptive_panics",
    "Hodu.C90_fractional_large",
    "Hodu.C90_full_false"
   ],
   "note": "Values proved for all four families (averages over a field; fractional pooling for sizes below 2^24 and every monotone rounding with the error of f64). Refuted: an adaptive pooling to a size that is larger than the input (division by a stride of 0) or to 0, a window larger than the padded input, stride 0, an empty batch and no channels panic; a fractional pooling to a larger size is an error. Missing: output_ratio, rounding of the averages (C83 refutes f16 means), gradients (C84)."
  },
  {
   "property": "C91",
   "status": "partial",
   "theorems": [
    "Hodu.C91_conv_partial",
    "Hodu.C91_convT_partial",
    "Hodu.C91_convT_channels",
    "Hodu.C91_errors",
    "Hodu.C91_output_padding",
    "Hodu.C91_full_false"
   ],
   "note": "Values of Conv with bias proved for row-major operands, and of ConvTranspose if it has as many input as output channels and no output padding. Refuted: ConvTranspose with different channel counts rejects every input (the weight is created as [in, out, ...], the operation wants [out, in, ...]); with output padding the bias addition reads outside of the storage. Missing: views (C59 refutes them), initial values, gradients (C61)."
  },
  {
   "property": "C92",
   "status": "partial",
   "theorems": [
    "Hodu.C92_dropout_eval",
    "Hodu.C92_dropout_partial",
    "Hodu.C92_dropout_type",
    "Hodu.C92_dropout_probability",
    "Hodu.C92_dropout_one",
    "Hodu.C92_rrelu_partial",
    "Hodu.C92_rrelu_type",
    "Hodu.C92_rrelu_infinity",
    "Hodu.C92_parametric_never",
    "Hodu.C92_full_false"
   ],
   "note": "Values proved over the reals: dropout of type f32, RReLU of every floating-point type in evaluation mode and of f32 in training mode. Refuted: in training mode both fail for every other type; a probability of another type than the literals of the build fails; p = 1 gives NaN; RReLU of infinity is NaN; LeakyReLU, ELU and PReLU always panic. Missing: the distribution of the random numbers, layers that are a single unary operation (C10, C76)."
  },
  {
   "property": "C93",
   "status": "partial",
   "theorems": [
    "Hodu.C93_nearest_partial",
    "Hodu.C93_linear_partial",
    "Hodu.C93_cubic_partial",
    "Hodu.C93_unique",
    "Hodu.C93_linear_range",
    "Hodu.C93_cubic_linear",
    "Hodu.C93_safe",
    "Hodu.C93_same_nearest",
    "Hodu.C93_same_linear",
    "Hodu.C93_errors",
    "Hodu.C55_resize",
    "Hodu.C93_cubic_volume",
    "Hodu.C93_full_false",
    "Hodu.C93_rounding_false",
    "Hodu.C93_rounding_tensor",
    "Hodu.C93_empty",
    "Hodu.C93_f64",
    "Hodu.C93_infinity"
   ],
   "note": "Values proved for every layout with exact coordinates and real arithmetic: nearest and linear for images and volumes, cubic for images; the specified value is unique. For every rounding that is exact on numbers below 2^24: nothing outside is read, the same size copies. Refuted: cubic resizing of volumes is nearest-neighbour resizing without an error; with the rounding of float nearest picks the wrong pixel (2 to 82); an empty spatial dimension is read out of bounds; f64 is computed in float; the neighbour of an infinity becomes NaN even at the same size. Missing: error bounds for rounded interpolation."
  },
  {
   "property": "C94",
   "status": "partial",
   "theorems": [
    "Hodu.C94_constant",
    "Hodu.C94_none",
    "Hodu.C94_circular_partial",
    "Hodu.C94_replicate_partial",
    "Hodu.C94_resize_same",
    "Hodu.C94_full_false",
    "Hodu.C94_replicate_false",
    "Hodu.C94_reflect_false",
    "Hodu.C94_circular_false",
    "Hodu.C94_replicate_single",
    "Hodu.C94_corner_false",
    "Hodu.C94_resize_false"
   ],
   "note": "Proved: constant padding for every shape, width and layout; no padding in every mode; circular padding after one dimension by at most its size; replicating before one dimension other than the first; resizing to the same size (nearest, linear). Refuted: replicating the first dimension or after a dimension, reflecting on either side (contributions land in the wrong place because the sum keeps the offset of a slice, C10), circular padding before a dimension (reads outside of the buffer) or wider than it (panic, error), corners of two padded dimensions; the rule of resize is not the transpose for any pair of shapes with different numbers of elements."
  },
  {
   "property": "C95",
   "status": "partial",
   "theorems": [
    "Hodu.C95_bits",
    "Hodu.C95_shl_bits",
    "Hodu.C95_shr_bits",
    "Hodu.C95_counts",
    "Hodu.C95_counts_false",
    "Hodu.C95_negative_false",
    "Hodu.C95_buffer",
    "Hodu.C95_unary_buffer",
    "Hodu.C95_binary_partial",
    "Hodu.C95_unary_partial",
    "Hodu.C95_full_false",
    "Hodu.C95_broadcast_false",
    "Hodu.C95_view_false",
    "Hodu.C95_shift_cases"
   ],
   "note": "Proved: the bits of every element operation for all widths and values; the buffers of all operations for every layout and thread count; whole tensors when the left operand has the common shape and is non-contiguous or starts its buffer (binary), or is row-major from the start of its buffer (unary and scalar shifts). Refuted: a broadcast or sliced left operand, not and scalar shifts of transposed or sliced views (the result takes over the layout of the input), left shifts of negative signed numbers and counts of at least the promoted width (undefined in C11, not rejected)."
  },
  {
   "property": "C96",
   "status": "partial",
   "theorems": [
    "Hodu.Cast.C96_exact_partial",
    "Hodu.Cast.C96_bool",
    "Hodu.Cast.C96_float_to_int",
    "Hodu.Cast.C96_int_to_int",
    "Hodu.Cast.C96_to_f32",
    "Hodu.Cast.C96_to_f64",
    "Hodu.Cast.C96_nonfinite",
    "Hodu.Cast.C96_tensor_partial",
    "Hodu.Cast.C96_device_partial",
    "Hodu.Cast.C96_back",
    "Hodu.Cast.C96_full_false",
    "Hodu.Cast.C96_e4m3_false",
    "Hodu.Cast.C96_float_to_int_undefined",
    "Hodu.Cast.C96_rounding_false",
    "Hodu.Cast.C96_scalar_view_false",
    "Hodu.Cast.C96_device_false"
   ],
   "note": "Proved for all pairs of types: representable numbers are kept (except f8e4m3 numbers from 256 on and subnormal f16/f8 targets), integers modulo the width, truncation of floats to integers, rounding to nearest even to f32 and f64, not-a-numbers and infinities between f32 and f64, conversion to bool; whole tensors for every view with a dimension or without offset and any thread count. Refuted: subnormal halves are lost, f8e4m3 from 256 on become infinite or not a number, floats outside of an integer type are undefined behaviour, bf16/f16 are not rounded to nearest even, views without dimensions read the wrong element, to_device of a transposed or sliced view returns other elements."
  },
  {
   "property": "C97",
   "status": "partial",
   "theorems": [
    "Hodu.C97_new_partial",
    "Hodu.C97_new_array",
    "Hodu.C97_from_slice",
    "Hodu.C97_read_partial",
    "Hodu.C97_read_rank",
    "Hodu.C97_roundtrip",
    "Hodu.C97_full_false",
    "Hodu.C97_empty_false",
    "Hodu.C97_read_false"
   ],
   "note": "Proved for every depth: regular nested data becomes a tensor with its lengths and entries (sizes zero only last, except for arrays), from_slice reshapes or rejects, reading gives the nested vector of the elements whenever the flat read is right, and new followed by reading is the identity. Refuted: ragged vectors are accepted and the tensor reaches past its buffer; a vector with an empty inner vector panics; slices read back the start of their buffer."
  },
  {
   "property": "C98",
   "status": "partial",
   "theorems": [
    "Hodu.Creation.C98_full",
    "Hodu.Creation.C98_ones",
    "Hodu.Creation.C98_zeros",
    "Hodu.Creation.C98_fill_partial",
    "Hodu.Creation.C98_fill_schedule",
    "Hodu.Creation.C98_eye",
    "Hodu.Creation.C98_arange_partial",
    "Hodu.Creation.C98_arange_integers_partial",
    "Hodu.Creation.C98_arange_error",
    "Hodu.Creation.C98_linspace_partial",
    "Hodu.Creation.C98_linspace_error",
    "Hodu.Creation.C98_arange_false",
    "Hodu.Creation.C98_arange_integers_false",
    "Hodu.Creation.C98_arange_type_false",
    "Hodu.Creation.C98_arange_infinite",
    "Hodu.Creation.C98_linspace_false",
    "Hodu.Creation.C98_full_like_false",
    "Hodu.Creation.C98_fill_false"
   ],
   "note": "Proved: zeros, ones, full, eye for all shapes and types; filling changes exactly the elements of the view for every schedule; arange and linspace are exact for whole numbers up to 2^24 (all terms before the end and no other), errors for all finite bounds. Refuted: arange(1.0, 1.2, 0.1) includes its end; integer ranges above 2^24 repeat and overshoot because they are calculated in f32; the type of the start alone decides for integers; infinite ends panic; linspace(0, 1, 42) misses its end and huge ranges give not-a-numbers; full_like ignores the type of the tensor; a zero-dimensional view fills the start of its buffer."
  },
  {
   "property": "C99",
   "status": "partial",
   "theorems": [
    "Hodu.Sym.C99_from_shape",
    "Hodu.Sym.C99_room",
    "Hodu.Sym.C99_leading",
    "Hodu.Sym.C99_shape",
    "Hodu.Sym.C99_layout_partial",
    "Hodu.Sym.C99_with_dim",
    "Hodu.Sym.C99_dim_size",
    "Hodu.Sym.C99_ids",
    "Hodu.Sym.C99_registry",
    "Hodu.Sym.C99_nonzero_partial",
    "Hodu.Sym.C99_unique_partial",
    "Hodu.Sym.C99_compress_partial",
    "Hodu.Sym.C99_compress_flat_partial",
    "Hodu.Sym.C99_offset_false",
    "Hodu.Sym.C99_view_false",
    "Hodu.Sym.C99_compress_false",
    "Hodu.Sym.C99_inner_gaps",
    "Hodu.Sym.C99_ids_false"
   ],
   "note": "Proved: existence, room and distinct positions for all shapes and values within the bounds; conversions of shapes; indices from the end; the registry; the records of nonzero, unique and compress include the eager shape (under the hypotheses of C63 to C65). Refuted: the offset of a layout is lost when converting back; the buffer size of a view that skips elements is too small and replacing a dimension discards its strides; a condition that is a slice selects more elements than the recorded bound; for compress on an inner axis the recorded strides are those of the largest shape and differ from the eager ones; ids repeat after 2^32."
  },
  {
   "property": "C100",
   "status": "partial",
   "theorems": [
    "Hodu.Scal.C100_to_int",
    "Hodu.Scal.C100_to_bool",
    "Hodu.Scal.C100_to_f64",
    "Hodu.Scal.C100_to_half_partial",
    "Hodu.Scal.C100_from_f32",
    "Hodu.Scal.C100_from_int",
    "Hodu.Scal.C100_arith_checked",
    "Hodu.Scal.C100_arith_wrapping",
    "Hodu.Scal.C100_arith_types",
    "Hodu.Scal.C100_powi",
    "Hodu.Scal.C100_integer_value_partial",
    "Hodu.Scal.C100_sqrt_partial",
    "Hodu.Scal.C100_half_false",
    "Hodu.Scal.C100_from_usize_false",
    "Hodu.Scal.C100_integer_value_false",
    "Hodu.Scal.C100_rem_false",
    "Hodu.Scal.C100_powi_false",
    "Hodu.Scal.C100_sqrt_false"
   ],
   "note": "Proved: conversions to integers, booleans and f64 for all scalars; to f16 and bf16 for numbers that f32 holds; exact or wrapped integer arithmetic and powers with exponents modulo 2^32; roots up to 2^24; whole numbers among finite floats. Refuted: f64 to f16 rounds twice; from_usize and From<usize> wrap where conversions saturate; the least number modulo minus one panics although the remainder is zero; negative exponents of integers become huge; roots above 2^24 may be one too large; an infinity counts as a whole number. Operands of different types panic. Float arithmetic is not modelled."
  },
  {
   "property": "C101",
   "status": "partial",
   "theorems": [
    "Hodu.Wire.C101_round_trip",
    "Hodu.Wire.C101_distinct",
    "Hodu.Wire.C101_cut",
    "Hodu.Wire.C101_bytes",
    "Hodu.Wire.C101_dtype",
    "Hodu.Wire.C101_many_partial",
    "Hodu.Wire.C101_many_missing",
    "Hodu.Wire.C101_features_false",
    "Hodu.Wire.C101_canonical_false"
   ],
   "note": "Proved: round trip, distinct files, rejection of every cut file and byte ranges for all snapshots and all sets of optional types, given that the crate float8 rounds its own numbers to themselves (scalars that are NaN of a small float type are left out); codes of element types do not depend on the optional types; named tensors round trip between programs with different optional types, or are an error when a type is missing (contiguous views of a larger buffer are left out, see C15). Refuted: the number of a variant of Scalar depends on the optional types, so a snapshot that adds the i32 5 loads elsewhere as one that adds the u16 10, without an error; lengths in more bytes than needed are accepted."
  },
  {
   "property": "C102",
   "status": "partial",
   "theorems": [
    "Hodu.Blas.C102_dot_partial",
    "Hodu.Blas.C102_broadcast_rows_wrong",
    "Hodu.Blas.C102_empty_inner_uninitialised",
    "Hodu.Blas.C102_batches",
    "Hodu.Blas.C102_one_batch_partial",
    "Hodu.Blas.C102_heads_collapse",
    "Hodu.Blas.C102_two_batches_ub",
    "Hodu.Blas.C102_square_batches_swapped",
    "Hodu.Blas.C102_conv",
    "Hodu.Blas.C102_conv_partial",
    "Hodu.Blas.C102_conv_wrong",
    "Hodu.Blas.C102_conv_stride_wrong",
    "Hodu.Blas.C102_grad_weight",
    "Hodu.Blas.C102_grad_weight_partial",
    "Hodu.Blas.C102_grad_weight_wrong",
    "Hodu.Blas.C102_mul_scalar",
    "Hodu.Blas.C102_full_false"
   ],
   "note": "Proved: products of two matrices whose rows (or columns) do not overlap; batched products with at most one batch dimension; mul_scalar; convolution and weight gradient with one output position or one tap; and, for all sizes, which entries are multiplied. Refuted: with two or more batch dimensions (attention heads) the batch index is applied in reverse order of the dimensions, so with batch [1, H] every head gets the product of head 0, square batches come out transposed and others read outside the buffer; conv2d and its weight gradient fill the matrix of taps row by output position but read it row by tap, so a 1x1 kernel on two channels is wrong; broadcast rows (stride 0) read outside the buffer; an inner size of 0 returns uninitialised memory. These builds include every macOS target."
  },
  {
   "property": "C103",
   "status": "partial",
   "theorems": [
    "Hodu.Cuda.C103_unary_partial",
    "Hodu.Cuda.C103_binary_partial",
    "Hodu.Cuda.C103_fill_partial",
    "Hodu.Cuda.C103_endless",
    "Hodu.Cuda.C103_offset_truncated",
    "Hodu.Cuda.C103_full_false"
   ],
   "note": "Proved for every schedule: unary, scalar, cast, copy and binary kernels on views of at most 2^32 - 256 elements in buffers of at most 2^32 elements, and fills. Refuted beyond: the loop counter is 32 bits wide, so from 2^32 - 255 elements on no execution ever ends (C103_endless); positions are truncated to 32 bits, so a view that starts at 2^32 reads other elements (C103_offset_truncated). Missing: the arithmetic of the device (it is a parameter), memory weaker than sequential consistency."
  },
  {
   "property": "C104",
   "status": "partial",
   "theorems": [
    "Hodu.Cuda.C104_matmul_partial",
    "Hodu.Cuda.C104_float_padding",
    "Hodu.Cuda.C104_float_partial",
    "Hodu.Cuda.C104_launch_refused",
    "Hodu.Cuda.C104_dot_unwritten",
    "Hodu.Cuda.C104_dot_partial",
    "Hodu.Cuda.C104_dot_garbage",
    "Hodu.Cuda.C104_double_rounds",
    "Hodu.Cuda.C104_full_false"
   ],
   "note": "Proved for every schedule and every content of shared memory: batched products with equal batch dimensions (what Tensor::matmul passes), at most 65535 batches and 1048560 rows, for every multiply-add that ignores zero padding; for f32 bit for bit the product of C32. Refuted: dot (every product of two matrices) is launched with 8 x 8 threads while its kernel is written for 32 x 32, so rows and columns 8 to 31 of every 32 are never written and the rest adds up shared memory that nobody filled; f64 operands are rounded to float first; an empty batch, more than 65535 batches or more than 1048560 rows make the launch fail. Besides, seven files of be_cuda (ops_matrix.rs among them) use Arc without importing it, so hodu_core cannot be compiled with the feature cuda at this commit; the kernels are reachable through the crate hodu_cuda_kernels. Missing: contraction of multiply and add is covered by the parameter, not evaluated; weak memory."
  },
  {
   "property": "C105",
   "status": "partial",
   "theorems": [
    "Hodu.Cuda.C105_bytes",
    "Hodu.Cuda.C105_halves",
    "Hodu.Cuda.C105_words",
    "Hodu.Cuda.C105_kernel_partial",
    "Hodu.Cuda.C105_like_cpu",
    "Hodu.Cuda.C105_swaps_add",
    "Hodu.Cuda.C105_swaps_max",
    "Hodu.Cuda.C105_swaps_min",
    "Hodu.Cuda.C105_swaps_max_unsigned",
    "Hodu.Cuda.C105_swaps_min_unsigned",
    "Hodu.Cuda.C105_every_order",
    "Hodu.Cuda.C105_float_add_depends",
    "Hodu.Cuda.C105_scatter_races",
    "Hodu.Cuda.C105_f8_wrong",
    "Hodu.Cuda.C105_large_again",
    "Hodu.Cuda.C105_host_partial",
    "Hodu.Cuda.C105_full_false",
    "Hodu.Cuda.C105_view_outside"
   ],
   "note": "Proved for every schedule: with at most 2^31 source elements, rank at most 16 and an input layout that puts its elements in different places, the kernels (8, 16, 32 and 64 bits, native or compare-and-swap) are safe, terminate and are linearizable: each cell is its old value folded with the addressed source elements, each once, in some order; where updates can be swapped (integer add, max and min) the result is that of the CPU kernel; and every order is reached by some schedule. Refuted: f32 sums and plain scatter to one cell depend on the schedule; the updates of 8-bit floats write 16 bits at the wrong place, with a byte from the stack; with more than 2^31 source elements indices are taken several times (counted exactly); the host runs the plain scatter for every variant on a fresh, uninitialised buffer, so the input is lost (C105_host_partial says what is left), and a view with an offset writes outside. Missing: hardware semantics of the native atomics on floats, weak memory."
  },
  {
   "property": "C106",
   "status": "partial",
   "theorems": [
    "Hodu.Cuda.race_free",
    "Hodu.Cuda.plan_ends",
    "Hodu.Cuda.Bitonic.net_sorts",
    "Hodu.Cuda.Bitonic.net_perm",
    "Hodu.Cuda.C106_unique_partial",
    "Hodu.Cuda.C106_padding_out_of_bounds",
    "Hodu.Cuda.C106_above_padding_out_of_bounds",
    "Hodu.Cuda.C106_int8_max_out_of_bounds",
    "Hodu.Cuda.C106_unique_int8_refuted",
    "Hodu.Cuda.C106_strides_ignored",
    "Hodu.Cuda.C106_unique_view_refuted",
    "Hodu.Cuda.C106_broadcast_out_of_bounds"
   ],
   "note": "Proved for every schedule of every launch: for contiguous tensors with at most 2^31 elements, whose keys are all below the padding value MAX_VAL or whose number of elements is a power of two, all accesses are inside, fair schedules end, all ends are equal and are the unique values, inverse and counts of the specification (C64); the bitonic network of the launches sorts and permutes, for all sizes. Refuted: a tensor with a value above the padding (an infinity, or a float above 3.4e38, 65504, 1.7e308) and a number of elements that is no power of two always makes the last kernel write outside of the inverse buffer; so does [1, 1, 127] in int8, where the padding is the largest value itself; the strides of the layout never reach the kernels, so views get the values of other elements, and broadcast tensors are read outside of their storage. Missing: keys without a linear order (NaN), more than 2^31 elements, weak memory."
  },
  {
   "property": "C107",
   "status": "partial",
   "theorems": [
    "Hodu.Cuda.stores_ends",
    "Hodu.Cuda.tickets_ends",
    "Hodu.Cuda.order_reached",
    "Hodu.Cuda.C107_nonzero_partial",
    "Hodu.Cuda.C107_every_order",
    "Hodu.Cuda.C107_not_the_cpu_order",
    "Hodu.Cuda.C107_rank_ub",
    "Hodu.Cuda.C107_compress_flat_partial",
    "Hodu.Cuda.C107_compress_axis_partial",
    "Hodu.Cuda.C107_sliced_condition_panics",
    "Hodu.Cuda.C107_broadcast_condition_ub",
    "Hodu.Cuda.C107_compress_refuted"
   ],
   "note": "Proved for every schedule: nonzero (rank at most 16, axes up to 2^31, at most 2^32-256 elements) returns the right indices, each once, in some order, and fair schedules end; compress with a fresh condition of at most 2^31 entries, for every rank and layout, returns one result for all schedules, that of the specification of C65, and fair schedules end. Refuted: the ascending order of nonzero - every order of the rows is the result of some schedule (C107_every_order), so results differ between runs and from the CPU; more than 16 axes overrun multi_idx; conditions that are slices panic in the copy to the host, broadcast conditions are read past their end. CudaStorageData::from_slice_u8, called in three places of be_cuda/storage/ops_indexing.rs, does not exist, so the crate does not compile with the cuda feature; the branches are modelled by their evident intent. Missing: dtype dispatch, weak memory."
  },
  {
   "property": "C108",
   "status": "partial",
   "theorems": [
    "Hodu.boolReduce_ok",
    "Hodu.C108_any_partial",
    "Hodu.C108_all_partial",
    "Hodu.storeAs_junk",
    "Hodu.C108_allocator",
    "Hodu.C108_full_false"
   ],
   "note": "Proved for the one-byte types (i8, u8) on all layouts up to rank 16: 1 exactly where some (every) element is not zero. Refuted for all larger types: the kernels write one bool byte per cell into a buffer of the element type of the input that is allocated without initialisation, so results of neighbouring cells share an element and, for every nonempty result, the value depends on what the allocator left (C108_allocator); with zeroed memory a true f32 result is the subnormal with pattern 1. For the f8 types the pattern 1 is a subnormal too. bool and f64 inputs fail in the dispatch (C74)."
  },
  {
   "property": "C109",
   "status": "partial",
   "theorems": [
    "Hodu.Cuda.gridLoop_of_runLoop",
    "Hodu.Cuda.gridLoop_prefix",
    "Hodu.Cuda.C109_like_cpu",
    "Hodu.Cuda.C109_reduce_partial",
    "Hodu.Cuda.C109_sum_partial",
    "Hodu.Cuda.C109_max_min_partial",
    "Hodu.Cuda.C109_argmax_partial",
    "Hodu.Cuda.C109_bytes",
    "Hodu.Cuda.C109_half_ub",
    "Hodu.Cuda.C109_rank_ub",
    "Hodu.Cuda.C109_full_false",
    "Hodu.Cuda.C109_double_rounds",
    "Hodu.Cuda.C109_dispatch"
   ],
   "note": "Proved for every schedule: for all layouts up to rank 16 and at most 2^32-256 results, each position combines exactly the elements reduced into it, in row-major order, as on the CPU; sums of i32/u32 with magnitudes adding up to at most 2^24 and maxima, minima and argmax of values up to 2^24 are exact. Refuted: accumulators and comparisons are float for every element type, so max of [2^24+1] is 2^24, sums stop growing at 2^24, argmax misses neighbours, INT32_MAX is rounded out of its type, doubles are rounded to float; any and all store bytes and argmax int32 in a buffer of the input type (results share elements, half-precision argmax writes outside, C109_half_ub); rank above 16 overruns the index arrays; std and var have no kernel, mean, norm and logsum none on integers, and only six element types run at all. Missing: arithmetic of the float kernels beyond the visited values, weak memory."
  },
  {
   "property": "C110",
   "status": "partial",
   "theorems": [
    "Hodu.Cuda.onceLoop_of_runLoop",
    "Hodu.Cuda.C110_like_cpu",
    "Hodu.Cuda.C110_concat_partial",
    "Hodu.Cuda.C110_split_partial",
    "Hodu.Cuda.C110_split_rejects",
    "Hodu.Cuda.C110_flip_partial",
    "Hodu.Cuda.C110_flip_large",
    "Hodu.Cuda.C110_pad_partial",
    "Hodu.Cuda.C110_types",
    "Hodu.Cuda.C110_full_false",
    "Hodu.Cuda.C110_views_false",
    "Hodu.Cuda.yields_unique"
   ],
   "note": "Proved for every schedule: whenever the sequential kernel succeeds the launch ends with the same result (up to 2^32-256 elements, flip below 2^32), hence concat, split (also with zero sizes at the end, which the CPU refuses, and joining the pieces gives the tensor back), flip and pad of contiguous tensors are right; sizes adding up to too much are refused. Refuted: concat and split are refused for nine of the fifteen element types although their kernels are compiled; joining a slice reads the wrong operand; flip and pad read views in storage order; from 2^32 elements on flip leaves the rest of the buffer unwritten. Missing: rank above 16 for concat and split, empty dimensions for the index modes of pad, weak memory."
  },
  {
   "property": "C111",
   "status": "partial",
   "theorems": [
    "Hodu.Cuda.once_ends",
    "Hodu.Cuda.C111_cumsum_partial",
    "Hodu.Cuda.C111_cumsum_scalar",
    "Hodu.Cuda.C111_cumsum_fails",
    "Hodu.Cuda.selSort_ok",
    "Hodu.Cuda.topk_ends",
    "Hodu.Cuda.C111_topk_rows",
    "Hodu.Cuda.C111_topk_partial",
    "Hodu.Cuda.C111_topk_int",
    "Hodu.Cuda.C111_topk_long_false",
    "Hodu.Cuda.C111_topk_many_false",
    "Hodu.Cuda.C111_topk_value_false",
    "Hodu.Cuda.C111_topk_overflow",
    "Hodu.Cuda.C111_topk_view_false"
   ],
   "note": "Proved for every schedule: cumsum for every layout of rank at most 16 and any accumulator type; topk in full generality for contiguous tensors and the last dimension (best of the first 64 elements, in order, rounded through float, outputs from the 64th on unwritten), hence right for rows of at most 64 exactly representable values. Refuted: rows longer than 64, more than 64 results (contents of the fresh buffer are returned), integers beyond 2^24 (the value returned is no element), 2^31-1 (undefined cast), views. cumsum of bool and dimensions beyond the rank abort the process; rank 17 overflows an array. Missing: more than 2^32-256 lines, the dimension equal to the rank, NaN keys, weak memory."
  },
  {
   "property": "C112",
   "status": "partial",
   "theorems": [
    "Hodu.Cuda.C112_select_partial",
    "Hodu.Cuda.C112_select_out_of_range",
    "Hodu.Cuda.C112_select_false",
    "Hodu.Cuda.C112_gather_like_cpu",
    "Hodu.Cuda.C112_gather_partial",
    "Hodu.Cuda.C112_gather_axis",
    "Hodu.Cuda.C112_put_partial",
    "Hodu.Cuda.C112_put_ub",
    "Hodu.Cuda.C112_onehot_partial",
    "Hodu.Cuda.C112_index_types"
   ],
   "note": "Proved for every schedule: index_select for every layout of the source if every index names a slice; gather as on the CPU (zero for indices out of range); the index_put kernel with the metadata it documents; onehot for i32 indices in row-major order. Refuted: index_select with an index out of range reads outside the buffer or returns neighbouring elements (the CPU gives zero); gather with an axis out of range is not refused; index_put as launched reads outside the input (the metadata has another order, as in C29); onehot refuses other index types than i32, which the CPU accepts. Missing: views of the index tensor (read as raw buffers), rank above 16, more than 2^32-256 elements."
  },
  {
   "property": "C113",
   "status": "partial",
   "theorems": [
    "Hodu.Cuda.C113_window_like_cpu",
    "Hodu.Cuda.C113_window_partial",
    "Hodu.Cuda.C113_window_types",
    "Hodu.Cuda.C113_window_rank_ub",
    "Hodu.Cuda.C113_f16_mean",
    "Hodu.Cuda.C113_double_false",
    "Hodu.Cuda.C113_einsum_like_cpu",
    "Hodu.Cuda.C113_einsum_partial",
    "Hodu.Cuda.C113_einsum_false",
    "Hodu.Cuda.C113_einsum_empty_ub",
    "Hodu.Cuda.C113_resize_exact",
    "Hodu.Cuda.C113_nearest_partial",
    "Hodu.Cuda.C113_linear_partial",
    "Hodu.Cuda.C113_cubic_partial",
    "Hodu.Cuda.C113_same_nearest",
    "Hodu.Cuda.C113_resize_safe",
    "Hodu.Cuda.C113_fused_false",
    "Hodu.Cuda.C113_fused_tensor"
   ],
   "note": "Proved for every schedule: reduce_window for f32, f64 and f16, every layout, any accumulation (rank at most 16); einsum as the CPU; resize with exact coordinates (nearest, linear, cubic), the identity for the same size and memory safety with any rounding. Refuted: reduce_window refuses bf16, the 8-bit floats and all integers; double goes through float (1+2^-52 becomes 1, 2^128 infinity); rank above 16 overruns arrays; einsum inherits the wrong layouts of C27 and divides by zero for an empty output; the coordinate fused by --fmad=true makes CUDA copy another pixel than the CPU (2 to 6 pixels, half_pixel, ceil). By reading: the conversion arguments of EINSUM_OP_FLOAT for the 8-bit floats (ops_einsum.cu:184-187) are not functions, so the file does not compile, and ops_windowing.rs uses Arc without importing it. Missing: more than 2^32-256 elements."
  },
  {
   "property": "C114",
   "status": "partial",
   "theorems": [
    "Hodu.Cuda.C114_conv_like_cpu",
    "Hodu.Cuda.C114_conv_partial",
    "Hodu.Cuda.C114_types",
    "Hodu.Cuda.C114_view_wrong",
    "Hodu.Cuda.C114_double_false",
    "Hodu.Cuda.C114_convT_computes",
    "Hodu.Cuda.C114_convT_partial",
    "Hodu.Cuda.C114_convT_like_cpu",
    "Hodu.Cuda.convOuts_same",
    "Hodu.Cuda.C114_convT_false",
    "Hodu.Cuda.C114_convT_full_false",
    "Hodu.Cuda.C114_convT_panics"
   ],
   "note": "Proved for every schedule: convolutions of contiguous tensors of all floating types (whatever the CPU computes on the converted values), the transposed convolution whenever the sizes of the convolution and of its transpose coincide (e.g. stride 1, padding half of the dilated kernel), equal to the CPU result over any commutative semiring; what the transposed launch computes for every other size too. Refuted: the host allocates the buffer of a transposed convolution with the output size of the convolution (1 element for the shape [1,1,3]) and panics for a kernel longer than the input; double goes through float; integers and bool are refused; views are read by the wrong strides as on the CPU (C59). Missing: more than 2^32-256 elements, int overflow of coordinates."
  },
  {
   "property": "C115",
   "status": "partial",
   "theorems": [
    "Hodu.Cuda.C115_conv_partial",
    "Hodu.Cuda.C115_convT_partial",
    "Hodu.Cuda.C115_conv_adds",
    "Hodu.Cuda.C115_convT_adds",
    "Hodu.Cuda.C115_garbage",
    "Hodu.Cuda.C115_false",
    "Hodu.Cuda.C115_types",
    "Hodu.Cuda.rmwLoops_linearizes"
   ],
   "note": "Proved for every schedule, grid size and way of updating cells: each product is added exactly once to its weight, nothing leaves its buffer, the launch finishes; over a commutative semiring a finished execution leaves the buffer plus the gradient of the CPU, for convolutions and transposed convolutions. Refuted: the buffer is allocated without initialisation, and the result is right exactly if it happened to be zero (C115_garbage, C115_false); integers and bool have no kernel; the 8-bit atomics overwrite a neighbour (C105_f8_wrong). Missing: more than 2^32 minus the grid elements, int overflow of coordinates, floating-point order of additions (which depends on the schedule, C105_float_add_depends)."
  },
  {
   "property": "C116",
   "status": "partial",
   "theorems": [
    "Hodu.Cuda.C116_det_partial",
    "Hodu.Cuda.C116_det_like_cpu",
    "Hodu.Cuda.C116_det_large",
    "Hodu.Cuda.C116_inv_partial",
    "Hodu.Cuda.C116_inv_like_cpu",
    "Hodu.Cuda.C116_inv_large",
    "Hodu.Cuda.C116_trace_ub",
    "Hodu.Cuda.C116_trace_partial",
    "Hodu.Cuda.C116_types",
    "Hodu.Cuda.C116_double_false",
    "Hodu.Cuda.C116_full_false"
   ],
   "note": "Proved for every schedule, layout and conversion of elements, matrices of up to 16 rows and batches without a zero dimension (exact arithmetic between the conversions): det computes the determinant or, from four rows on, 0 below the pivot threshold; inv computes the inverse of invertible matrices. Refuted: every matrix of more than 16 rows overruns the local arrays of det and inv; trace is launched with three arguments for four parameters, undefined for every input (with the fourth it would be right); doubles are rounded to float; ten of the fourteen compiled types are refused; an empty batch is one matrix. Missing: rounding inside the float arithmetic; the sign of a zero determinant."
  },
  {
   "property": "C117",
   "status": "partial",
   "theorems": [
    "Hodu.Cuda.C117_binary_partial",
    "Hodu.Cuda.C117_unary_partial",
    "Hodu.Cuda.C117_binary_buffer",
    "Hodu.Cuda.C117_unary_buffer",
    "Hodu.Cuda.C117_binary_like_cpu",
    "Hodu.Cuda.C117_operators",
    "Hodu.Cuda.C117_shl_bits",
    "Hodu.Cuda.C117_unary_ub",
    "Hodu.Cuda.C117_count_ub",
    "Hodu.Cuda.C117_shift_cases",
    "Hodu.Cuda.C117_types",
    "Hodu.Cuda.C117_full_false",
    "Hodu.Cuda.C117_view_false"
   ],
   "note": "Proved for every schedule and up to 2^32 - 256 elements: the launch fills the buffer of the CPU with the layout of the CPU for all views, in buffers of any size for binary operators; wherever the C operators are defined the C++ ones agree; kernels exist for exactly the launched types under the requested names; an undefined shift is reached by its thread. Refuted, as on the CPU (C95): results take the layout of the left operand, so a broadcast left operand, a contiguous slice and views of unary operators give wrong elements. Missing: shifts C++ leaves undefined, more elements, zero-size dimensions."
  },
  {
   "property": "C118",
   "status": "partial",
   "theorems": [
    "Hodu.Cli.C118_hdt_partial",
    "Hodu.Cli.C118_json_partial",
    "Hodu.Cli.C118_output_names",
    "Hodu.Cli.C118_load_sound",
    "Hodu.Cli.C118_inputs",
    "Hodu.Cli.C118_to_backend",
    "Hodu.Cli.C118_temp_files",
    "Hodu.Cli.C118_device",
    "Hodu.Cli.C118_json_type_false",
    "Hodu.Cli.C118_full_false",
    "Hodu.Cli.C118_names_false",
    "Hodu.Cli.C118_json_unchecked",
    "Hodu.Cli.C118_spelling"
   ],
   "note": "Proved: .hdt outputs of every type and .json outputs of f32, f64, i32, i64 (finite, short in print) with plain distinct names come back exactly, in any order of the map, and no other file changes; an accepted input has the expected shape and type and the backend reads the loaded bytes; parse_inputs is characterised exactly (the last argument of a name wins); temporary files are distinct; device normal forms. Refuted: JSON files of the other eleven types are written but never accepted, empty and absolute output names, unchecked length and silently cut integers in JSON, upper-case extensions. Simplified: paths are texts, writing is one yes/no answer of the operating system, lower case is ASCII."
  },
  {
   "property": "C119",
   "status": "partial",
   "theorems": [
    "Hodu.RunCache.C119_content_partial",
    "Hodu.RunCache.C119_right_partial",
    "Hodu.RunCache.C119_clean_inside",
    "Hodu.RunCache.C119_device_false",
    "Hodu.RunCache.C119_full_false",
    "Hodu.RunCache.C119_unfinished_false",
    "Hodu.RunCache.C119_stale_false",
    "Hodu.RunCache.C119_edit_false",
    "Hodu.RunCache.C119_clean_false"
   ],
   "note": "Proved for all interleavings of any number of processes with kills, upgrades, cleanings and edits of models no run still has to read, when libraries appear in one step: a used library was built from the content read and for the target of the run; without upgrades and cleanings and with one device per backend it is exactly the library of the request. Refuted: the key lacks the device and the version of the backend; an unfinished library of a killed or concurrent build is used; an edit between hash and build poisons the cache; a cleaning between test and use; an absolute name makes clean remove any directory; a backend found by its short name is not cleaned by it. The hash is a parameter, without collisions on the contents that occur; the backend is trusted to build what it is asked."
  },
  {
   "property": "C120",
   "status": "partial",
   "theorems": [
    "Hodu.Metal.C120_buf_size",
    "Hodu.Metal.C120_size_by_element",
    "Hodu.Metal.C120_find",
    "Hodu.Metal.C120_reads_partial",
    "Hodu.Metal.C120_progress",
    "Hodu.Metal.C120_sync_stuck",
    "Hodu.Metal.C120_sync_false",
    "Hodu.Metal.C120_threads_false",
    "Hodu.Metal.C120_reuse_false",
    "Hodu.Metal.C120_small_false",
    "Hodu.Metal.C120_empty_false",
    "Hodu.Metal.C120_deadlock"
   ],
   "note": "Proved for one thread, all calls that do not commit the shared command buffer, all non-empty sizes other than one more than a power of two (which 4 and 8 byte elements never have), and all schedules: reads give the eager values, nothing faults, waits end. Refuted: buf_size is too small exactly at one more than a power of two bytes; flip, cumsum, topk, einsum, resize, nonzero, unique and compress leave a committed command buffer in the map, so that every later operation or read of the thread breaks the contract; a second thread reads stale data, is given buffers pending commands still read, and waits forever behind the command buffer enqueued at start while holding the lock; launches on empty tensors divide by zero. The GPU is assumed to run the queue in order (hazard tracking), contents of a buffer are one value."
  },
  {
   "property": "C121",
   "status": "partial",
   "theorems": [
    "Hodu.Metal.C121_unary_partial",
    "Hodu.Metal.C121_copy_partial",
    "Hodu.Metal.C121_binary_partial",
    "Hodu.Metal.C121_fill_partial",
    "Hodu.Metal.C121_empty_false",
    "Hodu.Metal.C121_offset_truncated"
   ],
   "note": "Proved for 1 to 2^32-1024 elements in buffers of at most 2^32 elements and groups of at most 1024 threads. Refuted: without elements every launch divides by zero where the CPU returns an empty buffer; an offset of 2^32 or more is truncated. The element operations themselves (a parameter here) and the missing pow_bool kernel are not part of this property."
  },
  {
   "property": "C122",
   "status": "partial",
   "theorems": [
    "Hodu.IntOps.C122_exact_partial",
    "Hodu.IntOps.C122_pow_exact_partial",
    "Hodu.IntOps.C122_reduced_partial",
    "Hodu.IntOps.C122_agree_partial",
    "Hodu.IntOps.C122_defined_partial",
    "Hodu.IntOps.C122_negative_exponent",
    "Hodu.IntOps.C122_zero_divisor",
    "Hodu.IntOps.C122_exact_false",
    "Hodu.IntOps.C122_unary",
    "Hodu.IntOps.C122_pow_scalar_partial",
    "Hodu.IntOps.C122_pow_scalar_false",
    "Hodu.IntOps.C122_bool_partial",
    "Hodu.IntOps.C122_bool_false"
   ],
   "note": "Refuted: powers square the base once too often, so 2^40 in i64 (all back ends), 2^17 in i32 and 50000^1 in u16 (CUDA, Metal) are undefined although they fit; negative exponents give 0 on the CPU and 1 on the GPUs; division by zero gives 0 on CPU and CUDA and is undefined on Metal; MIN % -1 is undefined; u16 products overflow int; scalar exponents go through f32 (4097^2 is rounded, (-1)^-1 is -1); Boolean sub differs between tensor and scalar operands and on Metal, and Metal has no Boolean pow. Scalar exponents from -31 to 31 only; exponents passed to the C library pow are not modelled. Unsigned negation and absolute value are not part of this property."
  },
  {
   "property": "C123",
   "status": "partial",
   "theorems": [
    "Hodu.Metal.C123_like_cpu",
    "Hodu.Metal.C123_concat_partial",
    "Hodu.Metal.C123_concat_buffers",
    "Hodu.Metal.C123_concat_padding",
    "Hodu.Metal.C123_split_partial",
    "Hodu.Metal.C123_split_empty",
    "Hodu.Metal.C123_flip_partial",
    "Hodu.Metal.C123_pad_partial",
    "Hodu.Metal.C123_types",
    "Hodu.Metal.C123_views_false",
    "Hodu.Metal.C123_args"
   ],
   "note": "Refuted: concat packs whole pooled buffers but computes positions from the shapes, so when the first operand was computed and its byte size is not a power of two, the second operand is read from the wrong place (an unused element of the first buffer is returned); empty parts and empty tensors divide by zero in the launch; flip and pad ignore strides and offset; no kernels for f8 and f64. Proved for 1 to 2^32-1024 results."
  },
  {
   "property": "C124",
   "status": "partial",
   "theorems": [
    "Hodu.Metal.C124_like_cpu",
    "Hodu.Metal.C124_reduce_partial",
    "Hodu.Metal.C124_int",
    "Hodu.Metal.C124_sum_partial",
    "Hodu.Metal.C124_sizes",
    "Hodu.Metal.C124_arg_ub",
    "Hodu.Metal.C124_any_words",
    "Hodu.Metal.C124_any_false",
    "Hodu.Metal.C124_empty",
    "Hodu.Metal.C124_rank_ub",
    "Hodu.Metal.C124_dispatch",
    "Hodu.Metal.C124_kernels",
    "Hodu.Metal.C124_axes",
    "Hodu.Metal.C124_products"
   ],
   "note": "Refuted: argmax and argmin store int32 in a buffer allocated with the element type, so on one- and two-byte types the last result is written outside of every new buffer; any and all store bytes, so that one four-byte element of the returned tensor holds four results; reductions without results panic in the launch; rank above 16 writes outside of the index arrays; no std, var, no integer mean. Sums of int32 and int64 are proved as far as no partial sum overflows."
  },
  {
   "property": "C125",
   "status": "partial",
   "theorems": [
    "Hodu.Metal.asI32_i32",
    "Hodu.Metal.asI32_i64",
    "Hodu.Metal.C125_select_like_cuda",
    "Hodu.Metal.C125_select_partial",
    "Hodu.Metal.C125_select_out_of_range",
    "Hodu.Metal.C125_index_types",
    "Hodu.Metal.C125_gather_like_cuda",
    "Hodu.Metal.C125_gather_partial",
    "Hodu.Metal.C125_gather_axis",
    "Hodu.Metal.C125_onehot_partial",
    "Hodu.Metal.C125_put_partial",
    "Hodu.Metal.C125_put_ub",
    "Hodu.Metal.C125_empty",
    "Hodu.Metal.C125_scatter_partial",
    "Hodu.Metal.C125_scatter_races",
    "Hodu.Metal.C125_scatter_add",
    "Hodu.Metal.C125_scatter_view_ub",
    "Hodu.Metal.C125_scatter_broadcast_ub",
    "Hodu.Metal.C125_scatter_empty",
    "Hodu.Metal.C125_types",
    "Hodu.Metal.C125_more_types"
   ],
   "note": "Refuted: indices of another type than i32 or u32 are read as 32-bit words (i64 indices 1, 2 select 1, 0); index_select does not check the range; index_put reads its metadata in another order than it is passed; gather accepts an axis out of range; scatter_add, scatter_max and scatter_min overwrite; two sources for one cell race; scatter into a view with an offset writes outside of the output and a broadcast input is copied from beyond its buffer; empty results and empty sources panic."
  },
  {
   "property": "C126",
   "status": "partial",
   "theorems": [
    "Hodu.Metal.C126_any_pool",
    "Hodu.Metal.C126_zeroed_partial",
    "Hodu.Metal.C126_second_call",
    "Hodu.Metal.C126_empty",
    "Hodu.Metal.C126_counter_ub",
    "Hodu.Metal.C126_rank_ub",
    "Hodu.Metal.C126_order",
    "Hodu.Metal.C126_compress_partial",
    "Hodu.Metal.C126_compress_ub",
    "Hodu.Metal.C126_condition_view",
    "Hodu.Cuda.tickets_from",
    "Hodu.Cuda.stores_from"
   ],
   "note": "Refuted: the count and counter buffers of nonzero are never cleared, so every second call has as many rows too many as the first call had found, with old contents in front; a counter left ahead of the count writes behind the output; the order depends on the schedule; empty tensors panic and more than 16 dimensions overrun multi_idx; compress reads the buffer of a condition and not its elements, and a result of 2^k + 1 bytes is written behind its buffer."
  },
  {
   "property": "C127",
   "status": "partial",
   "theorems": [
    "Hodu.Metal.C127_matmul_partial",
    "Hodu.Metal.C127_dot_partial",
    "Hodu.Metal.C127_dot_like_cpu_partial",
    "Hodu.Metal.C127_rank_ub",
    "Hodu.Metal.C127_bytes_ub",
    "Hodu.Metal.sim_step",
    "Hodu.Metal.block_computes",
    "Hodu.Metal.matmul_tile",
    "Hodu.Metal.C127_rank"
   ],
   "note": "Proved for batch shapes that are equal or have no size 0, up to 16 batch dimensions, M and N below 2^32 - 64 and buffers at least as large as the output. Refuted: more than 16 batch dimensions overrun batch_indices; a product of one-byte elements with 2^k + 1 cells is written behind its pooled buffer. Unlike on CUDA (C104) dot writes every cell and matmul sizes its output by the common batch shape. Not modelled: fused multiply-add contraction other than as the parameter macc, positions beyond 32 bits."
  },
  {
   "property": "C128",
   "status": "partial",
   "theorems": [
    "Hodu.Metal.C128_window_like_cpu",
    "Hodu.Metal.C128_window_partial",
    "Hodu.Metal.C128_int_sum_partial",
    "Hodu.Metal.C128_int_max_partial",
    "Hodu.Metal.C128_int_min_partial",
    "Hodu.Metal.C128_window_types",
    "Hodu.Metal.C128_window_rank_ub",
    "Hodu.Metal.C128_einsum_like_cpu",
    "Hodu.Metal.C128_einsum_partial",
    "Hodu.Metal.C128_einsum_false",
    "Hodu.Metal.C128_einsum_empty_ub",
    "Hodu.Metal.C128_einsum_types",
    "Hodu.Metal.C128_resize_like_cpu",
    "Hodu.Metal.C128_nearest_partial",
    "Hodu.Metal.C128_linear_partial",
    "Hodu.Metal.C128_cubic_partial",
    "Hodu.Metal.C128_same_nearest",
    "Hodu.Metal.C128_resize_safe",
    "Hodu.Metal.C128_resize_empty",
    "Hodu.Metal.C128_resize_types",
    "Hodu.Metal.C128_window_args",
    "Hodu.Metal.C128_einsum_args"
   ],
   "note": "Proved for the types with a kernel, rank at most 16 and at most 2^32-1024 results: windows of any layout, integer sums reduced to the type (all but i32 and i64, whose overflow is undefined), maxima and minima; einsum as the CPU; resize safe for every coordinate function, equal to the CPU where the coordinates are. Refuted: f64 and the 8-bit floats have no kernel; rank above 16 overruns the arrays of windows; einsum inherits the wrong layouts of C27 and divides by zero for an empty output; an empty result of resize panics in the launch. Resize has kernels for bf16, f16 and f32 only. That einsum and resize commit the command buffer of the thread is in C120."
  },
  {
   "property": "C129",
   "status": "partial",
   "theorems": [
    "Hodu.Metal.C129_conv_like_cpu",
    "Hodu.Metal.C129_conv_partial",
    "Hodu.Metal.C129_types",
    "Hodu.Metal.C129_empty",
    "Hodu.Metal.C129_view_wrong",
    "Hodu.Metal.C129_convT_computes",
    "Hodu.Metal.C129_convT_partial",
    "Hodu.Metal.C129_convT_like_cpu",
    "Hodu.Metal.C129_convT_false",
    "Hodu.Metal.C129_convT_panics",
    "Hodu.Metal.C129_grad_partial",
    "Hodu.Metal.C129_gradT_partial",
    "Hodu.Metal.C129_grad_adds",
    "Hodu.Metal.C129_gradT_adds",
    "Hodu.Metal.C129_garbage",
    "Hodu.Metal.C129_grad_false",
    "Hodu.Metal.C129_grad_types",
    "Hodu.Metal.C129_grad_short",
    "Hodu.Metal.C129_args",
    "Hodu.Metal.C129_grad_args"
   ],
   "note": "Proved for bf16, f16 and f32: non-empty convolutions of up to 2^32-1024 elements equal those of the CPU for any arithmetic; the weight gradients add every product exactly once to what is in the buffer, for any number of threads and any way of atomic addition. Refuted: the types without a kernel give an error and empty batches a panic; strided views are misread as on the CPU; the host gives transposed convolutions the size of a convolution, so that elements keep what the pooled buffer held (or the host panics); the gradients are right exactly if the pooled buffer happens to begin with zeros; a weight of one 16-bit element gets a buffer of one byte."
  },
  {
   "property": "C130",
   "status": "partial",
   "theorems": [
    "Hodu.Metal.C130_cumsum_partial",
    "Hodu.Metal.C130_cumsum_scalar",
    "Hodu.Metal.C130_cumsum_fails",
    "Hodu.Metal.C130_cumsum_short_false",
    "Hodu.Metal.C130_cumsum_axis_false",
    "Hodu.Metal.C130_topk_rows",
    "Hodu.Metal.C130_topk_partial",
    "Hodu.Metal.C130_topk_many_false",
    "Hodu.Metal.C130_topk_long_false",
    "Hodu.Metal.C130_topk_value_false",
    "Hodu.Metal.C130_topk_view_false",
    "Hodu.Metal.C130_topk_fails",
    "Hodu.Metal.C130_topk_args"
   ],
   "note": "Proved: cumsum for every layout of rank at most 16 with 1 to 2^32-1024 elements, in the element type; topk for contiguous tensors, the last dimension and rows of at most 64 elements whose values survive the conversion to float. Refuted: types without a kernel (bool, f64, eight-bit floats) give an error and tensors without elements a panic; results of 2^j+1 bytes (three u8, one f16) are stored behind the end of the buffer; an axis equal to the rank is undefined behaviour; topk sees only the first 64 elements of a row, leaves outputs from the 64th on as the pool gave them, returns values that are no elements beyond 2^24 and searches the wrong rows of views."
  },
  {
   "property": "C131",
   "status": "partial",
   "theorems": [
    "Hodu.Metal.C131_det_partial",
    "Hodu.Metal.C131_det_small_partial",
    "Hodu.Metal.C131_det_like_cpu",
    "Hodu.Metal.C131_det_int_like_cpu",
    "Hodu.Metal.C131_trace_partial",
    "Hodu.Metal.C131_trace_like_cpu",
    "Hodu.Metal.C131_inv_partial",
    "Hodu.Metal.C131_inv_like_cpu",
    "Hodu.Metal.C131_inv_int_partial",
    "Hodu.Metal.C131_large",
    "Hodu.Metal.C131_empty",
    "Hodu.Metal.C131_types",
    "Hodu.Metal.C131_shape",
    "Hodu.Metal.C131_int_singular",
    "Hodu.Metal.C131_int_wrong",
    "Hodu.Metal.C131_threshold_wrong",
    "Hodu.Metal.C131_int_inv_differs",
    "Hodu.Metal.C131_short_buffer",
    "Hodu.Metal.C131_full_false"
   ],
   "note": "Proved for batches of 1 to 2^32-1024 matrices of any layout: det in exact arithmetic up to 16 rows (exact for singular matrices too when only zero is taken for zero), over every commutative ring up to 3 rows, and wherever the CPU kernel answers the same as it; trace in any arithmetic for any number of rows; inv of invertible matrices in exact arithmetic up to 16 rows and of integer matrices with integer inverses. Refuted: more than 16 rows overrun the local arrays, empty batches panic, bool, f64 and eight-bit floats are errors, pivots below 1e-15 make the determinant 0, integer determinants of four rows are wrong, integer inverses differ from those of the CPU, and results of 2^j+1 bytes are stored behind the end of the buffer. Missing: rounding of the float types and overflow in the integer inverse."
  },
  {
   "property": "C132",
   "status": "partial",
   "theorems": [
    "Hodu.KernelCache.C132_one_object",
    "Hodu.KernelCache.C132_created_once",
    "Hodu.KernelCache.C132_names_ok",
    "Hodu.KernelCache.C132_calls_end",
    "Hodu.KernelCache.C132_not_bounded",
    "Hodu.KernelCache.C132_metal",
    "Hodu.KernelCache.C132_metal_retry",
    "Hodu.KernelCache.C132_metal_wrong_source",
    "Hodu.KernelCache.C132_names",
    "Hodu.KernelCache.C132_cuda",
    "Hodu.KernelCache.C132_cuda_calls_end",
    "Hodu.KernelCache.C132_cuda_twice"
   ],
   "note": "Proved for all interleavings of critical sections; refuted: the bound on the leak, the missing source in the Metal key, single loading of CUDA modules. Poisoned locks and fairness of RwLock are not modelled."
  },
  {
   "property": "C133",
   "status": "partial",
   "theorems": [
    "Hodu.Metal.C133_bits",
    "Hodu.Metal.C133_unary_bits",
    "Hodu.Metal.C133_operators",
    "Hodu.Metal.C133_binary_buffer",
    "Hodu.Metal.C133_unary_buffer",
    "Hodu.Metal.C133_binary_partial",
    "Hodu.Metal.C133_unary_partial",
    "Hodu.Metal.C133_binary_like_cpu",
    "Hodu.Metal.C133_types",
    "Hodu.Metal.C133_empty",
    "Hodu.Metal.C133_full_false",
    "Hodu.Metal.C133_view_false",
    "Hodu.Metal.C133_counts"
   ],
   "note": "Operators proved for all values and counts; tensors up to 2^32 - 1024 elements for a left operand of the common shape that is not a contiguous slice, and unary operands in row-major order. Refuted: broadcast left operands, unary operators on views, empty tensors."
  },
  {
   "property": "C134",
   "status": "partial",
   "theorems": [
    "Hodu.Display.C134_display_partial",
    "Hodu.Display.C134_small",
    "Hodu.Display.C134_bounded",
    "Hodu.Display.C134_empty",
    "Hodu.Display.C134_vector_aligned",
    "Hodu.Display.C134_matrix_false",
    "Hodu.Display.C134_slice_false",
    "Hodu.Display.C134_float",
    "Hodu.Display.C134_float_false",
    "Hodu.Display.C134_debug",
    "Hodu.Display.C134_text",
    "Hodu.Display.C134_dots"
   ],
   "note": "Proved for tensors whose flat read is right (C14) and without empty leading dimensions; refuted: contiguous slices, empty leading dimensions, columns of wide matrices, values below half a millionth. `{:.6}` of the standard library is given as digits of the rounded value; tensors without storage and casts are not modelled."
  },
  {
   "property": "C135",
   "status": "partial",
   "theorems": [
    "Hodu.Cli.C135_convert_partial",
    "Hodu.Cli.C135_case",
    "Hodu.Cli.C135_valid",
    "Hodu.Cli.C135_refused",
    "Hodu.Cli.C135_snapshot_partial",
    "Hodu.Cli.C135_snapshot_false",
    "Hodu.Cli.C135_plugin",
    "Hodu.Cli.C135_from_plugin",
    "Hodu.Cli.C135_temp_false",
    "Hodu.Cli.C135_unwritable",
    "Hodu.Cli.C135_mixed",
    "Hodu.Cli.C135_json_false"
   ],
   "note": "Proved for both built-in tensor formats (JSON: finite elements the printer shows) and for plugins that change only their output; refuted: a snapshot onto itself, the temporary file after a failing plugin, NaN in JSON. Links between paths, non-UTF-8 paths and a disk that fills up while writing are not modelled."
  },
  {
   "property": "C136",
   "status": "partial",
   "theorems": [
    "Hodu.Build.C136_named",
    "Hodu.Build.C136_device",
    "Hodu.Build.C136_request_partial",
    "Hodu.Build.C136_sent",
    "Hodu.Build.C136_targets",
    "Hodu.Build.C136_options_false",
    "Hodu.Build.C136_format",
    "Hodu.Build.C136_format_false",
    "Hodu.Build.C136_named_device_false",
    "Hodu.Build.C136_disabled_false"
   ],
   "note": "Proved for every registry with unique names (C50); refuted: device of a named backend, disabled namesake, upper-case extensions, ignored options. What the backend does with the request, messages, timeouts and letters outside of ASCII are not modelled."
  },
  {
   "property": "C137",
   "status": "partial",
   "theorems": [
    "Hodu.Inspect.C137_summary_partial",
    "Hodu.Inspect.C137_order_false",
    "Hodu.Inspect.C137_size_partial",
    "Hodu.Inspect.C137_ties",
    "Hodu.Inspect.C137_size_false",
    "Hodu.Inspect.C137_tensor"
   ],
   "note": "Proved for all snapshots, sizes and tensors; refuted: the order of equal categories, the unit after rounding. Inspection through plugins, `format_number` (whose division is not exact) and the layout of lines are not modelled."
  }
 ]
}