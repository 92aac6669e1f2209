{"id": "C01", "title": "Row-major addressing of a fresh tensor", "statement": "A tensor created from a flat slice with a given shape returns, at multi-index (i0,..,in), exactly the slice element at row-major position i0*d1*..*dn + .. + in; every slice element is reachable through exactly one in-range multi-index. A length that differs from the shape's size is rejected.", "quantifier": "every shape of any rank (including rank 0 and zero-sized dimensions), every data slice, every in-range multi-index", "why_tests_cant": "the index space grows with every shape; tests only sample a few small shapes", "anchors": ["crates/hodu_core/src/tensor/creation.rs: Tensor::from_slice", "crates/hodu_core/src/types/layout.rs: Layout::from_shape, Layout::compute_strides"]}
{"id": "C02", "title": "Reshape and flatten keep the element sequence", "statement": "reshape/flatten of any tensor (view or not) yields a tensor whose row-major element sequence equals the source's row-major element sequence; it fails exactly when the element counts differ.", "quantifier": "every source layout (contiguous, offset, transposed, broadcast), every target shape", "why_tests_cant": "the interaction of arbitrary strides/offsets with arbitrary new shapes cannot be enumerated", "anchors": ["crates/hodu_core/src/tensor/ops/shape.rs: reshape, flatten", "crates/hodu_core/src/types/layout.rs: Layout::reshape, Layout::flatten", "crates/hodu_core/src/tensor/ops/shape_memory.rs: contiguous"]}
{"id": "C03", "title": "Transpose and permute relocate indices, never values", "statement": "permute(axes) fails unless axes is a permutation of 0..ndim (negatives count from the end); otherwise element (j0..) of the result is the source element whose coordinate along axes[k] is jk. transpose(a,b) swaps coordinates a and b, and applying it twice gives back the same tensor.", "quantifier": "every layout, every axis list (valid or not, negative or not), every index", "why_tests_cant": "n! permutations per rank and arbitrary strides", "anchors": ["crates/hodu_core/src/types/layout.rs: Layout::transpose, Layout::permute", "crates/hodu_core/src/types/shape.rs: Shape::normalize_axis"]}
{"id": "C04", "title": "Slice follows start/end/step semantics", "statement": "slice(dim,start,end,step) selects along dim the source positions start, start+step, start+2*step, ... strictly before end (after end for negative steps), after Python-style normalisation of negative bounds and clamping; other coordinates are unchanged; an empty selection is an error.", "quantifier": "every layout, dim, start, optional end and non-zero step (positive and negative)", "why_tests_cant": "boundary arithmetic over five integers; tests hit a handful of combinations and none with negative steps on every alignment", "anchors": ["crates/hodu_core/src/types/layout.rs: Layout::slice", "crates/hodu_core/src/tensor/ops/shape.rs: slice"]}
{"id": "C05", "title": "broadcast_to repeats, and rejects incompatible shapes", "statement": "broadcast_to(target) succeeds exactly when the source rank does not exceed the target rank and, aligned from the right, every source dimension is 1 or equals the target dimension; then each result element is the source element at the right-aligned index with coordinates of size-1 dimensions set to 0.", "quantifier": "every source layout and target shape, every index", "why_tests_cant": "infinitely many shape pairs", "anchors": ["crates/hodu_core/src/types/layout.rs: Layout::broadcast_to", "crates/hodu_core/src/types/shape.rs: Shape::can_broadcast_to"]}
{"id": "C06", "title": "Broadcast shape rule", "statement": "Computing the common shape of two operands implements the NumPy rule: align from the right, a missing dimension counts as 1, dimensions must be equal or one of them 1; the answer is symmetric and is rejected exactly when no common shape exists.", "quantifier": "every pair of shapes of any ranks", "why_tests_cant": "bug shows only for rank-mismatched operands with particular leading dimensions", "anchors": ["crates/hodu_core/src/types/shape.rs: Shape::broadcast_shape", "crates/hodu_core/src/types/layout.rs: Layout::broadcast_layouts", "crates/hodu_core/src/tensor/utils.rs: broadcast_tensors2"]}
{"id": "C07", "title": "Squeeze and unsqueeze only add or remove unit dimensions", "statement": "unsqueeze(d) then squeeze([d]) gives back the same tensor; squeeze removes exactly the named unit dimensions (all unit dimensions when none is named), keeps the element sequence, and reports an error (never a crash, never a wrong shape) for a dimension that is out of range, not of size 1, or named twice.", "quantifier": "every tensor, every dimension list including negative and repeated entries", "why_tests_cant": "repeated / negative dimension lists over all ranks", "anchors": ["crates/hodu_core/src/types/layout.rs: Layout::squeeze, Layout::unsqueeze"]}
{"id": "C08", "title": "No view ever addresses memory outside its storage", "statement": "Starting from a freshly created tensor, after any sequence of successful view operations (reshape, flatten, squeeze, unsqueeze, broadcast, transpose, permute, slice) every in-range multi-index of the resulting view addresses an element inside the shared storage.", "quantifier": "every finite sequence of view operations with every argument, every index", "why_tests_cant": "unbounded operation sequences; out-of-bounds addresses are silent in C kernels", "anchors": ["crates/hodu_core/src/types/layout.rs: Layout", "crates/hodu_core/src/tensor/ops/shape.rs"]}
{"id": "C09", "title": "Element-wise kernel result is independent of path, thread count and schedule", "statement": "The CPU binary kernel writes, for each output position, op(lhs element, rhs element) at the same row-major position, whichever of its contiguous/strided code paths is taken, for every number of worker threads and every interleaving of the workers' writes; each output cell is written by exactly one worker.", "quantifier": "every element count, thread count, pair of stride vectors, operation, and interleaving", "why_tests_cant": "schedules and thread counts depend on the machine; the multi-threaded path starts only at 200000 elements", "anchors": ["crates/hodu_cpu_kernels/kernels/ops_binary.c", "crates/hodu_cpu_kernels/kernels/thread_utils.h", "crates/hodu_cpu_kernels/kernels/utils.h: get_strided_index, is_contiguous"]}
{"id": "C10", "title": "Binary tensor operators agree with broadcasting semantics", "statement": "For two tensors whose shapes broadcast, a op b has the common shape and its element at every index equals op of the correspondingly broadcast elements of a and b, regardless of whether a or b are transposed, sliced or broadcast views.", "quantifier": "every pair of tensors (all layouts) with broadcastable shapes, every element-wise operation, every index", "why_tests_cant": "needs all combinations of operand layouts; existing tests use mostly equal-shape contiguous operands", "anchors": ["crates/hodu_core/src/tensor/ops/binary.rs: binary_op!, binary_logical_op!", "crates/hodu_core/src/tensor/utils.rs: broadcast_tensors2", "crates/hodu_core/src/be_cpu/storage/ops_binary.rs"]}
{"id": "C11", "title": "Unary tensor operators act element-wise on every view", "statement": "A unary operation on any tensor yields a tensor of the same shape whose element at each index is the operation applied to the source's element at that index.", "quantifier": "every source layout (offset, transposed, broadcast, sliced), every operation, every index", "why_tests_cant": "unbounded layouts", "anchors": ["crates/hodu_core/src/tensor/ops/unary.rs: unary_op!", "crates/hodu_cpu_kernels/kernels/ops_unary.c"]}
{"id": "C12", "title": "Comparison operators agree with broadcasting semantics", "statement": "Comparing two tensors yields a boolean tensor of the common shape whose element at each index is the comparison of the broadcast operands' elements at that index.", "quantifier": "every pair of tensors (all layouts) with broadcastable shapes, every comparison, every index", "why_tests_cant": "needs all combinations of operand layouts", "anchors": ["crates/hodu_core/src/tensor/ops/cmp.rs: cmp_op!", "crates/hodu_core/src/be_cpu/storage/ops_binary.rs"]}
{"id": "C13", "title": "contiguous() is an identity on values", "statement": "contiguous() returns a tensor of the same shape and the same element at every index whose layout is row-major; a second call changes nothing.", "quantifier": "every source layout", "why_tests_cant": "unbounded layouts", "anchors": ["crates/hodu_core/src/tensor/ops/shape_memory.rs: contiguous", "crates/hodu_core/src/be_cpu/storage.rs: CpuStorage::contiguous", "crates/hodu_cpu_kernels/kernels/ops_memory.c"]}
{"id": "C14", "title": "Reading a tensor back returns its logical elements", "statement": "to_flatten_vec / to_vecNd return exactly the tensor's elements in row-major order, with as many entries as the shape's size, for every tensor including slices, transposes and broadcasts, whatever element type is requested.", "quantifier": "every tensor layout and storage, every target element type", "why_tests_cant": "the wrong answer depends on the relation of layout to storage, not on values", "anchors": ["crates/hodu_core/src/tensor/vec.rs: to_flatten_vec, extract_vec_from_cpu_storage, extract_with_layout"]}
{"id": "C15", "title": "Saving and loading a tensor is the identity", "statement": "to_bytes followed by from_bytes with the tensor's shape and dtype (and hence saving to and loading from an .hdt file) succeeds and gives a tensor with the same shape and the same elements, for every tensor including views.", "quantifier": "every tensor layout and storage, every dtype width", "why_tests_cant": "depends on storage-vs-view size relations; round trips are only tested on fresh tensors", "anchors": ["crates/hodu_core/src/tensor/bytes.rs: to_bytes, from_bytes", "crates/hodu_core/src/format/hdt.rs: save, load"]}
{"id": "C16", "title": "Concatenation joins the operands in order", "statement": "concat(ts, d) of compatible tensors has dimension d equal to the sum of the operands' dimensions d, and its element at an index whose d-coordinate falls in operand k's range is operand k's element at the index shifted by the preceding operands' sizes, whatever views the operands are.", "quantifier": "every list of compatible tensors, every layout, every dimension, every index", "why_tests_cant": "operand count, ranks and layouts are unbounded", "anchors": ["crates/hodu_core/src/tensor/ops/concat_split.rs: concat, stack", "crates/hodu_core/src/be_cpu/storage/ops_concat_split.rs: call_ops_concat", "crates/hodu_core/src/op_metadatas.rs: concat_metadata", "crates/hodu_cpu_kernels/kernels/ops_concat_split.c"]}
{"id": "C17", "title": "Split is the inverse of concat", "statement": "split(sizes, d) returns pieces whose d-sizes are the requested sizes, each holding the corresponding consecutive range of the source, and concatenating the pieces along d restores the source; sizes that do not add up to the dimension are rejected.", "quantifier": "every tensor layout, every dimension, every size list", "why_tests_cant": "unbounded size lists", "anchors": ["crates/hodu_core/src/tensor/ops/concat_split.rs: split", "crates/hodu_core/src/be_cpu/storage/ops_concat_split.rs: call_ops_split", "crates/hodu_core/src/op_metadatas.rs: split_metadata"]}
{"id": "C18", "title": "Chunk covers the dimension and never crashes", "statement": "chunk(n, d) returns at most n consecutive pieces whose d-sizes add up to the dimension size, or an error; it never panics.", "quantifier": "every dimension size and chunk count", "why_tests_cant": "arithmetic underflow only for particular (size, count) pairs", "anchors": ["crates/hodu_core/src/tensor/ops/concat_split.rs: chunk"]}
{"id": "C19", "title": "Flip reverses the named axes", "statement": "flip(dims) of any tensor has the same shape and its element at index i is the source element whose coordinate on each named axis d is size_d-1-i_d; flipping twice gives back the source.", "quantifier": "every tensor layout, every axis set, every index", "why_tests_cant": "unbounded layouts", "anchors": ["crates/hodu_core/src/tensor/ops/shape_memory.rs: flip", "crates/hodu_core/src/be_cpu/storage/ops_shape_memory.rs: call_ops_flip", "crates/hodu_cpu_kernels/kernels/ops_shape_memory.c", "crates/hodu_core/src/op_metadatas.rs: flip_metadata"]}
{"id": "C20", "title": "Padding places the source and fills the border by rule", "statement": "pad with constant/reflect/replicate/circular mode yields shape d_i+before_i+after_i; interior elements are the source elements shifted by before; border elements are the constant, the mirror image, the nearest edge element or the wrapped-around element respectively; every source read is in bounds for any pad widths.", "quantifier": "every tensor layout, pad width and mode, every index", "why_tests_cant": "pad widths larger than the dimension take several reflections", "anchors": ["crates/hodu_core/src/tensor/ops/padding.rs", "crates/hodu_core/src/op_metadatas.rs: padding_metadata", "crates/hodu_cpu_kernels/kernels/ops_padding.c"]}
{"id": "C21", "title": "Reductions fold exactly the reduced coordinates", "statement": "sum/prod/max/min/mean over dims D of any tensor gives at each remaining index the fold of the elements over all combinations of coordinates in D, each combination once; the set of axes counts, not how often or in which order an axis is listed.", "quantifier": "every tensor layout, every axis list, keep_dim flag, every index", "why_tests_cant": "axis lists and layouts are unbounded; repeated axes are not tested", "anchors": ["crates/hodu_core/src/tensor/ops/reduce.rs", "crates/hodu_core/src/be_cpu/storage/ops_reduce.rs", "crates/hodu_core/src/op_metadatas.rs: reduce_metadata", "crates/hodu_cpu_kernels/kernels/ops_reduce.c: REDUCE_OP"]}
{"id": "C22", "title": "Reduction result shape", "statement": "The shape of a reduction is the source shape with the reduced axes removed (or set to 1 with keep_dim) and nothing else changed; the result tensor has storage for exactly that many elements.", "quantifier": "every shape (including zero-sized dimensions), axis list, keep_dim flag", "why_tests_cant": "zero-sized dimensions interact with the removal rule", "anchors": ["crates/hodu_core/src/tensor/ops/reduce.rs", "crates/hodu_core/src/be_cpu/storage/ops_reduce.rs"]}
{"id": "C23", "title": "argmax/argmin return the position of the extremum", "statement": "argmax/argmin along an axis returns, for every remaining index, the first coordinate on that axis at which the extremum is attained, readable as an integer, without writing outside the result storage.", "quantifier": "every tensor, dtype and axis", "why_tests_cant": "the storage width of the result depends on the input dtype", "anchors": ["crates/hodu_core/src/tensor/ops/reduce.rs: argmax, argmin", "crates/hodu_cpu_kernels/kernels/ops_reduce.c: argmax, argmin"]}
{"id": "C24", "title": "topk returns the k largest elements", "statement": "topk(k, dim, largest, sorted) returns for every row along dim a multiset of k elements such that no remaining element is strictly better than a returned one, together with positions at which those values occur (all distinct); sorted output is monotone.", "quantifier": "every tensor layout, k, dim and row content", "why_tests_cant": "the quick-select partition behaves differently for every input permutation", "anchors": ["crates/hodu_core/src/tensor/ops/sort.rs: topk", "crates/hodu_cpu_kernels/kernels/ops_sort.c: quickselect_k, topk_select"]}
{"id": "C25", "title": "cumsum is the running prefix fold", "statement": "cumsum(dim) of any tensor gives at every index the sum of the source elements with the same other coordinates and dim-coordinate less than or equal to the index's.", "quantifier": "every tensor layout, dim, index", "why_tests_cant": "unbounded layouts", "anchors": ["crates/hodu_core/src/tensor/ops/scan.rs", "crates/hodu_cpu_kernels/kernels/ops_scan.c", "crates/hodu_core/src/op_metadatas.rs: cumsum_metadata"]}
{"id": "C26", "title": "einsum equation parsing is sound", "statement": "Parsing an equation against operand shapes succeeds only if operand count and ranks match and every label has one size; the output shape lists the label sizes of the output labels; summed labels are exactly the input labels missing from the output; an implicit output consists of the labels occurring exactly once in alphabetical order.", "quantifier": "every equation string and operand shape list", "why_tests_cant": "string space is unbounded", "anchors": ["crates/hodu_core/src/einsum.rs: ParsedEinsum::parse"]}
{"id": "C27", "title": "einsum computes the sum of products", "statement": "The einsum kernel's output element at every output index is the sum over all assignments of the summed labels of the product of the operands' elements at the assigned labels, for every operand layout.", "quantifier": "every number of operands, label structure, layout and index", "why_tests_cant": "label structures are unbounded", "anchors": ["crates/hodu_cpu_kernels/kernels/ops_einsum.c", "crates/hodu_core/src/op_metadatas.rs: einsum_metadata", "crates/hodu_core/src/einsum.rs"]}
{"id": "C28", "title": "index_select picks the named slices", "statement": "index_select(dim, idx) has idx's length on dim and element (.., j, ..) equals the source's element at coordinate idx[j] (negative counts from the end), for every layout of source and of the index tensor; out-of-range entries never read outside the source.", "quantifier": "every source layout, index tensor layout and content", "why_tests_cant": "index contents and layouts unbounded", "anchors": ["crates/hodu_core/src/tensor/ops/indexing.rs: index_select", "crates/hodu_cpu_kernels/kernels/ops_indexing.c: index_select", "crates/hodu_core/src/op_metadatas.rs: index_select_metadata"]}
{"id": "C29", "title": "index_put replaces exactly the named slices", "statement": "index_put(dim, idx, values) leaves every element whose dim-coordinate is not named unchanged and sets the others to the corresponding element of values.", "quantifier": "every source, index and value tensor", "why_tests_cant": "host and kernel agree on a flat metadata vector that no type checks", "anchors": ["crates/hodu_core/src/tensor/ops/indexing.rs: index_put", "crates/hodu_cpu_kernels/kernels/ops_indexing.c: index_put", "crates/hodu_core/src/op_metadatas.rs: index_put_metadata"]}
{"id": "C30", "title": "gather reads through the index tensor", "statement": "gather(dim, index) has index's shape and element i equals the source's element at i with the dim-coordinate replaced by index[i] (negative counts from the end); no access leaves the source storage.", "quantifier": "every source and index layout and content", "why_tests_cant": "index contents and layouts unbounded", "anchors": ["crates/hodu_core/src/tensor/ops/indexing.rs: gather", "crates/hodu_cpu_kernels/kernels/ops_indexing.c: gather", "crates/hodu_core/src/op_metadatas.rs: gather_metadata"]}
{"id": "C31", "title": "scatter updates exactly the addressed cells", "statement": "scatter/scatter_add(dim, index, src) equals the source tensor except at cells addressed by index, which hold the last written / the accumulated src elements; cells not addressed are unchanged.", "quantifier": "every source, index and src layout and content", "why_tests_cant": "collisions between index entries are content dependent", "anchors": ["crates/hodu_core/src/tensor/ops/indexing.rs: scatter, scatter_add", "crates/hodu_cpu_kernels/kernels/ops_indexing.c: scatter, scatter_add", "crates/hodu_core/src/op_metadatas.rs: scatter_metadata"]}
{"id": "C32", "title": "Batched matrix product", "statement": "matmul of two tensors of rank at least 2 with broadcastable batch dimensions gives C[b,i,j] = sum_k A[b,i,k]*B[b,k,j]; the contiguous fast path, the row-parallel path (any thread count) and the strided path give the same result.", "quantifier": "every pair of layouts, batch shapes, matrix sizes and thread counts", "why_tests_cant": "path selection depends on strides, offset and machine core count", "anchors": ["crates/hodu_core/src/tensor/ops/matrix.rs: matmul", "crates/hodu_core/src/op_metadatas.rs: matmul_metadata", "crates/hodu_cpu_kernels/kernels/ops_matrix.c: MATMUL_OP"]}
{"id": "C33", "title": "Gradient of broadcasting is summation", "statement": "When an operand of an element-wise operation was broadcast, the gradient handed back to it has the operand's shape and each entry is the sum of the upstream gradient over all output positions that read that operand element (adjointness of broadcasting and sum-to-shape).", "quantifier": "every pair of shapes with the operand broadcastable to the output, every upstream gradient", "why_tests_cant": "requires all shape pairs", "anchors": ["crates/hodu_core/src/tensor/gradient/vjp_utils.rs: sum_to_shape", "crates/hodu_core/src/tensor/gradient/vjp_binary.rs"]}
{"id": "C34", "title": "Reverse-mode differentiation is the adjoint of forward mode", "statement": "For any recorded computation, the gradients produced by backward() satisfy: for every perturbation of the leaf tensors, the pairing of gradients with perturbations equals the first-order change of the loss, i.e. every path from a leaf to the loss contributes exactly once.", "quantifier": "every tape (any DAG with shared sub-expressions, diamonds, unused ops), every set of local derivatives", "why_tests_cant": "number of graphs is unbounded", "anchors": ["crates/hodu_core/src/tensor/gradient/compute.rs: compute_gradients", "crates/hodu_core/src/tensor/gradient/tape.rs"]}
{"id": "C35", "title": "Repeated backward accumulates or replaces predictably", "statement": "After backward() every leaf's grad depends only on the tape of that backward (no residue from earlier backward calls), and calling backward twice without an intervening forward does not silently reuse a cleared tape.", "quantifier": "every history of forward, backward and zero_grad calls", "why_tests_cant": "histories are unbounded", "anchors": ["crates/hodu_core/src/tensor/gradient/compute.rs", "crates/hodu_core/src/tensor/gradient/core.rs"]}
{"id": "C36", "title": "Gradient contexts nest", "statement": "Entering and leaving gradient contexts restores the previously active context whatever the order in which context guards are dropped; operations recorded while a context is active go to that context only.", "quantifier": "every sequence of context creation and drop, in any order", "why_tests_cant": "drop orders are unbounded", "anchors": ["crates/hodu_core/src/tensor/gradient/context.rs: GradientContext, Drop"]}
{"id": "C37", "title": "Tensor registry never frees a live tensor and frees dead ones", "statement": "Every tensor handle the program still holds refers to a live registry entry, and an entry is removed once its last handle is gone, for every order of clones and drops.", "quantifier": "every sequence of create, clone, drop, set-gradient operations", "why_tests_cant": "histories are unbounded", "anchors": ["crates/hodu_core/src/tensor.rs: Clone, Drop", "crates/hodu_core/src/tensor/registry.rs: insert, remove"]}
{"id": "C38", "title": "Captured snapshot computes the captured targets", "statement": "Evaluating the snapshot produced by capture() on the recorded inputs gives for each target the value the eager computation had; every value a snapshot node reads is an input, a stored constant, or produced by an earlier node; operations the targets do not depend on are absent.", "quantifier": "every recorded operation sequence and target list", "why_tests_cant": "program space is unbounded", "anchors": ["crates/hodu_core/src/snapshot/capture.rs: CaptureBoard::capture", "crates/hodu_core/src/snapshot.rs"]}
{"id": "C39", "title": "Enumerations survive their encodings", "statement": "Encoding then decoding a device, element type or plugin element type returns the original; distinct values have distinct codes and names; sizes agree across the core and plugin layers.", "quantifier": "every device id and dtype", "why_tests_cant": "devices range over ids; agreement of two hand-written tables", "anchors": ["crates/hodu_core/src/types/device.rs", "crates/hodu_core/src/types/dtype.rs", "crates/hodu_plugin/src/tensor.rs: PluginDType", "hodu-cli/src/tensor/loader.rs: core_dtype_to_plugin"]}
{"id": "C40", "title": "Samplers visit every index exactly once", "statement": "Sequential and random samplers over n items yield a permutation of 0..n for every outcome of the random generator; a batch sampler yields consecutive batches of the requested size whose concatenation is that sequence (minus only an incomplete last batch when drop_last is set).", "quantifier": "every n, batch size and random outcome", "why_tests_cant": "random outcomes cannot be enumerated", "anchors": ["crates/hodu_datasets/src/data/sampler.rs"]}
{"id": "C41", "title": "A data-loader epoch covers the dataset exactly once", "statement": "Between two resets, the batches delivered by a data loader contain every dataset index exactly once (all but fewer than batch_size of them with drop_last), there are exactly num_batches of them, and this holds for every epoch after any number of resets.", "quantifier": "every dataset length, batch size >= 1, shuffle outcome, number of epochs", "why_tests_cant": "unbounded epochs and random outcomes", "anchors": ["crates/hodu_datasets/src/data/dataloader.rs: DataLoader"]}
{"id": "C42", "title": "A batch holds the rows of the dataset it was built from", "statement": "The batch tensor delivered for dataset indices i0,i1,.. of an in-memory tensor dataset has at position (b, ...) the dataset tensor's element (ib, ...).", "quantifier": "every dataset tensor, index list and position", "why_tests_cant": "depends on composition of slicing, squeezing, stacking and concatenation", "anchors": ["crates/hodu_datasets/src/data/dataset.rs: TensorDataset::get", "crates/hodu_datasets/src/data/batch.rs: default_collate", "crates/hodu_core/src/tensor/ops/concat_split.rs: stack"]}
{"id": "C43", "title": "random_split partitions the dataset", "statement": "random_split returns two subsets whose index sets are disjoint and together are all indices of the dataset, with the requested train fraction rounded down, for every seed.", "quantifier": "every dataset length, train fraction in [0,1], random outcome", "why_tests_cant": "random outcomes cannot be enumerated", "anchors": ["crates/hodu_datasets/src/data/dataset.rs: random_split, Subset"]}
{"id": "C44", "title": "ConcatDataset lookup", "statement": "Index i of a concatenated dataset is item (i - total length of the preceding datasets) of the unique dataset whose range contains i; indices at or beyond the total length are an error; empty member datasets are skipped.", "quantifier": "every list of member lengths and every index", "why_tests_cant": "unbounded lists incl. empty members", "anchors": ["crates/hodu_datasets/src/data/dataset.rs: ConcatDataset"]}
{"id": "C45", "title": "Optimizer updates follow their published recurrences", "statement": "After t steps with any gradient history, SGD, Adam, AdamW, Adagrad and RMSprop have updated each parameter by their textbook recurrences (Adam/AdamW with a single bias correction by 1-beta^t).", "quantifier": "every gradient history, hyper-parameters, number of steps", "why_tests_cant": "histories are unbounded; off-by-one in the exponent is a small numeric deviation", "anchors": ["crates/hodu_nn/src/optimizers/"]}
{"id": "C46", "title": "An RPC call never returns another request's answer", "statement": "A plugin call that returns Ok returns the result carried by a response whose id is the id of that very call, whatever the plugin sends and in whatever order (notifications, stale responses, garbage).", "quantifier": "every sequence of lines a plugin may emit, every history of earlier calls, timeouts and cancels", "why_tests_cant": "arbitrary peer behaviour", "anchors": ["crates/hodu_plugin_runtime/src/client.rs: PluginClient::call"]}
{"id": "C47", "title": "The RPC channel recovers after a timeout or cancel", "statement": "After a call timed out or was cancelled, a later call that the plugin answers returns that answer.", "quantifier": "every history of calls, timeouts, cancels against a plugin that answers each request in order", "why_tests_cant": "needs slow-plugin schedules", "anchors": ["crates/hodu_plugin_runtime/src/client.rs: PluginClient::call, CancellationHandle::cancel", "hodu-plugin-sdk/src/server.rs: handle_message"]}
{"id": "C48", "title": "Protocol compatibility is an equivalence", "statement": "Two protocol versions are accepted exactly when their major versions agree (and minor versions too when major is 0); the relation is reflexive, symmetric and transitive.", "quantifier": "every pair/triple of version strings", "why_tests_cant": "string space is unbounded", "anchors": ["crates/hodu_plugin_runtime/src/client.rs: is_protocol_compatible"]}
{"id": "C49", "title": "Plugin server answers each request once, and only after initialisation", "statement": "For every sequence of request lines, the server emits exactly one response per non-empty line (until shutdown) in order, carrying the request's id; no handler runs before a successful initialize; at most one initialize succeeds.", "quantifier": "every input line sequence", "why_tests_cant": "unbounded sequences", "anchors": ["hodu-plugin-sdk/src/server.rs: PluginServer::handle_message, handle_initialize, run"]}
{"id": "C50", "title": "Plugin registry keeps one entry per name", "statement": "After any sequence of upsert, remove, enable and disable operations the registry has at most one entry per plugin name, find returns the last upserted entry, and lookups by device or extension only return enabled plugins of the right kind.", "quantifier": "every operation sequence", "why_tests_cant": "unbounded sequences", "anchors": ["crates/hodu_plugin_runtime/src/registry.rs: PluginRegistry"]}
{"id": "C51", "title": "Registry file survives crashes and concurrent readers", "statement": "At every crash point of save, and for every interleaving with a concurrent load, the registry file holds either the old or the new complete contents; a load never fails or returns partial data because of a concurrent save.", "quantifier": "every crash point and interleaving", "why_tests_cant": "crash points and interleavings are not reachable from unit tests", "anchors": ["crates/hodu_plugin_runtime/src/registry.rs: PluginRegistry::save, PluginRegistry::load"]}
{"id": "C52", "title": "Disabled or unknown plugins are never started", "statement": "get_plugin starts a process only for a plugin present and enabled in the registry; at most one process per plugin name is running at a time; a failing start leaves the set of running plugins unchanged.", "quantifier": "every sequence of get/shutdown calls and start outcomes", "why_tests_cant": "unbounded sequences", "anchors": ["hodu-cli/src/plugins/process.rs: PluginManager::get_plugin", "crates/hodu_plugin_runtime/src/backend.rs"]}
{"id": "C53", "title": "JSON tensor format round-trips", "statement": "Saving a tensor as JSON and loading it back gives the same shape, dtype and elements.", "quantifier": "every tensor content of every dtype", "why_tests_cant": "special values and value ranges", "anchors": ["crates/hodu_core/src/format/json.rs: save, load"]}
{"id": "C54", "title": "Concurrent runs and input names do not clobber each other's inputs", "statement": "Every input of a run reaches the backend with its own data: the temporary files of different inputs and of different concurrent runs never share a path.", "quantifier": "every set of input names, every interleaving of runs", "why_tests_cant": "needs interleavings of whole processes/threads", "anchors": ["crates/hodu_plugin_runtime/src/runtime.rs: Runtime::run"]}
{"id": "C55", "title": "Host-encoded kernel metadata is decoded field by field", "statement": "For every CPU operation the flat metadata vector produced by the host is read back by the C kernel as the same fields (shapes, strides, offsets, dims, parameters) in the same order.", "quantifier": "every rank, shape, stride vector and parameter", "why_tests_cant": "a swapped field is invisible to the type checker and only shows on particular shapes", "anchors": ["crates/hodu_core/src/op_metadatas.rs", "crates/hodu_cpu_kernels/kernels/"]}
{"id": "C56", "title": "A call reports what the plugin's handler returned", "statement": "When a plugin built with the SDK handles a request and its handler returns a value, the client's call returns that value; when the handler returns an error, the call returns that error.", "quantifier": "every request id, every handler result", "why_tests_cant": "The space of handler results is unbounded; the failing one (a handler returning unit) is an ordinary choice the examples in the README happen to avoid.", "anchors": ["hodu-plugin-sdk/src/server.rs: handle_message", "crates/hodu_plugin/src/rpc.rs: Response", "crates/hodu_plugin_runtime/src/client.rs: call"]}
{"id": "C57", "title": "No gradient is lost when other handles are dropped", "statement": "If a loss was computed by differentiable operations from a tensor w that requires a gradient and whose handle is held, backward() on the loss succeeds and gives w a gradient accounting for every path, whatever other handles (constants, other leaves, intermediate results) the program drops between the forward pass and backward().", "quantifier": "every program and every set of dropped handles", "why_tests_cant": "The drop must fall between the forward pass and backward, which straight-line examples never do; the failing interleavings are ordinary code with temporaries.", "anchors": ["crates/hodu_core/src/tensor/core.rs: Drop for Tensor", "crates/hodu_core/src/tensor/gradient/tape.rs: remove_entries_with_input", "crates/hodu_core/src/tensor/gradient/compute.rs: compute_gradients", "crates/hodu_core/src/tensor/ops/cast_memory.rs: contiguous"]}
{"id": "C58", "title": "Layouts recorded in a snapshot describe the values nodes read", "statement": "For every node of a captured snapshot and each of its inputs, the layout recorded for that input is the layout under which the value is delivered: the output layout of the node producing it, or the row-major layout of the stored shape for snapshot inputs and constants.", "quantifier": "every capture history, node and input position", "why_tests_cant": "Disagreement needs a strided view made outside the captured region; the snapshot is still well formed and evaluates without error, to wrong numbers.", "anchors": ["crates/hodu_core/src/snapshot/capture/board.rs: capture, extract_constant", "crates/hodu_core/src/snapshot/capture/storage.rs: capture_operation"]}
{"id": "C59", "title": "Convolution is strided, dilated, zero-padded cross-correlation", "statement": "conv1d/2d/3d of an input (batch, Ci, spatial) with a weight (Co, Ci, kernel) has spatial size floor((n + 2*padding - dilation*(k-1) - 1)/stride) + 1 per axis and value sum over input channels and kernel positions of x[b, ic, o*stride + k*dilation - padding] * w[oc, ic, k], terms outside the input counting as zero; it never panics or reads outside the buffers, and unsuitable shapes are errors.", "quantifier": "every dimension 1-3, shape, layout of the operands, stride, padding, dilation", "why_tests_cant": "Six-fold loops with padding and dilation have many boundary cases; tests use small contiguous inputs and never pass views.", "anchors": ["crates/hodu_core/src/tensor/ops/conv.rs", "crates/hodu_core/src/op_metadatas.rs: conv", "crates/hodu_cpu_kernels/kernels/ops_conv.c", "crates/hodu_core/src/be_cpu/storage/ops_conv.rs"]}
{"id": "C60", "title": "Transposed convolution scatters each input through the kernel", "statement": "conv_transpose1d/2d/3d has spatial size (n-1)*stride - 2*padding + dilation*(k-1) + output_padding + 1 per axis and value at o the sum over input channels ic, positions i and kernel positions k with i*stride + k*dilation - padding = o of x[b, ic, i] times the weight element of (ic, oc, k); no panic and no access outside the buffers.", "quantifier": "every dimension 1-3, shape, layout of the operands, stride, padding, output padding, dilation", "why_tests_cant": "Errors in the order of the two channel dimensions are invisible when there is one channel or the channel counts agree.", "anchors": ["crates/hodu_core/src/tensor/ops/conv.rs", "crates/hodu_cpu_kernels/kernels/ops_conv.c: CONV_TRANSPOSE"]}
{"id": "C61", "title": "Gradients of the convolutions are their adjoints", "statement": "For every convolution and transposed convolution the backward rule succeeds whenever the forward operation does, its results have the shapes of the input and of the weight, and for all x', w': <g, conv(x', w)> = <grad_x, x'> and <g, conv(x, w')> = <grad_w, w'>.", "quantifier": "all shapes, strides, paddings, dilations, output gradients", "why_tests_cant": "Gradient tests compare numbers for one configuration; the identity is over all inputs, and the failing configurations (stride leaving a rest, kernel wider than the input) are ordinary but untested.", "anchors": ["crates/hodu_core/src/tensor/gradient/vjp_conv.rs", "crates/hodu_cpu_kernels/kernels/ops_conv.c: GRAD_WEIGHT", "crates/hodu_core/src/tensor/ops/conv.rs"]}
{"id": "C62", "title": "onehot marks exactly the class of each element", "statement": "onehot(indices, num_classes, axis, dtype) has the shape of the indices with a dimension num_classes inserted at the axis, and is one exactly where the coordinate along that axis equals the index (negative indices counted from the end), zero elsewhere; indices out of range give an all-zero row; no access outside the buffers.", "quantifier": "every index tensor in every layout, every number of classes, every axis", "why_tests_cant": "Tests pass contiguous index tensors and the last axis.", "anchors": ["crates/hodu_core/src/tensor/ops/indexing.rs: onehot", "crates/hodu_core/src/op_metadatas.rs: onehot_metadata", "crates/hodu_cpu_kernels/kernels/ops_indexing.c: ONEHOT"]}
{"id": "C63", "title": "nonzero lists the indices of the non-zero elements in row-major order", "statement": "nonzero(t) has shape (count, rank) and its rows are the indices of the non-zero elements of t, each exactly once, in row-major order.", "quantifier": "every tensor, shape, layout and element type", "why_tests_cant": "A wrong traversal order or a count that differs from the fill pass only shows on views or high ranks.", "anchors": ["crates/hodu_core/src/tensor/ops/indexing.rs: nonzero", "crates/hodu_core/src/be_cpu/storage/ops_indexing.rs: call_nonzero", "crates/hodu_cpu_kernels/kernels/ops_indexing.c: NONZERO_COUNT, NONZERO_FILL"]}
{"id": "C64", "title": "unique returns the distinct values in ascending order with inverse and counts", "statement": "unique(t) returns the distinct values of t in strictly ascending order; values[inverse[i]] is element i of t in row-major order; counts[k] is the number of elements equal to values[k].", "quantifier": "every tensor, layout, element type, and every order of equal elements the (unstable) sort may leave", "why_tests_cant": "Tests use non-negative numbers; the sort order of equal keys is implementation-defined.", "anchors": ["crates/hodu_core/src/tensor/ops/indexing.rs: unique", "crates/hodu_core/src/be_cpu/storage/ops_indexing.rs: call_unique", "crates/hodu_cpu_kernels/kernels/ops_indexing.c: UNIQUE_OP_INT, UNIQUE_OP_FLOAT"]}
{"id": "C65", "title": "compress keeps exactly the slices at which the condition is true", "statement": "compress(t, condition, axis) keeps, in order, the slices of t along the axis (without an axis: the elements of t in row-major order) at which the one-dimensional condition is true; no access outside the buffers and no uninitialised element in the result.", "quantifier": "every tensor and condition in every layout, every axis", "why_tests_cant": "Tests never pass a condition that is a view; uninitialised memory often happens to be zero.", "anchors": ["crates/hodu_core/src/tensor/ops/indexing.rs: compress", "crates/hodu_core/src/be_cpu/storage/ops_indexing.rs: call_compress", "crates/hodu_cpu_kernels/kernels/ops_indexing.c: COMPRESS_OP", "crates/hodu_core/src/be_cpu/device.rs: allocate"]}
{"id": "C66", "title": "det returns the determinant of every matrix of a batch", "statement": "det(t) of a tensor of shape [batch..., n, n] has one element per matrix (shape [1] for a single matrix) and each is the determinant of its matrix, for every size, layout and element type; no access outside the buffers.", "quantifier": "every batch shape, matrix size, layout, element type and content", "why_tests_cant": "Closed formulas for n <= 3 hide the elimination branch; threshold and truncation errors need particular matrices.", "anchors": ["crates/hodu_core/src/tensor/ops/linalg.rs: det", "crates/hodu_core/src/op_metadatas.rs: det_metadata", "crates/hodu_cpu_kernels/kernels/ops_linalg.c: DET_OP, DET_OP_EXOTIC"]}
{"id": "C67", "title": "inv returns the inverse of every invertible matrix of a batch", "statement": "If every matrix of t is invertible, inv(t) has the shape of t and each matrix times its input is the identity, on both sides; no access outside the buffers.", "quantifier": "every batch shape, matrix size, layout, element type and content", "why_tests_cant": "A wrong cofactor or a missed row exchange only shows on matrices without symmetry or with zero pivots.", "anchors": ["crates/hodu_core/src/tensor/ops/linalg.rs: inv", "crates/hodu_core/src/op_metadatas.rs: inv_metadata", "crates/hodu_cpu_kernels/kernels/ops_linalg.c: INV_OP, INV_OP_EXOTIC"]}
{"id": "C68", "title": "trace returns the sum of the diagonal of every matrix of a batch", "statement": "trace(t) of a tensor of shape [batch..., n, n] has one element per matrix (shape [1] for a single matrix) and each is the sum of the diagonal; no access outside the buffers.", "quantifier": "every batch shape, matrix size, layout, element type and content", "why_tests_cant": "Batch strides are only exercised by views; the empty batch is never tested.", "anchors": ["crates/hodu_core/src/tensor/ops/linalg.rs: trace", "crates/hodu_core/src/op_metadatas.rs: trace_metadata", "crates/hodu_cpu_kernels/kernels/ops_linalg.c: TRACE_OP"]}
{"id": "C69", "title": "Backward rules of reductions are the derivatives of the reductions", "statement": "For every differentiable reduction (sum, mean, max, min, prod, std, var, norm, logsum, logsumexp) over any axes, with or without keep_dim, the gradient computed for the input at position j is the incoming gradient of the cell of j times the partial derivative of that cell with respect to the element at j, wherever the derivative exists; ties of max/min share the gradient equally.", "quantifier": "every shape, layout, choice of axes, keep_dim, reduction and content", "why_tests_cant": "A rule that broadcasts along the wrong axis gives the right shape on square inputs; finite-difference tests sample a few shapes only.", "anchors": ["crates/hodu_core/src/tensor/gradient/vjp_reduce.rs: ReduceOp::compute_vjp", "crates/hodu_core/src/tensor/ops/reduce.rs"]}
{"id": "C70", "title": "softmax and log_softmax are the textbook functions", "statement": "softmax(x, axis) at j is exp(x_j) / sum of exp over the axis, log_softmax is x_j minus the logarithm of that sum, for every layout, axis (from either end) and content; softmax values are positive and sum to 1; no access outside the buffers.", "quantifier": "every shape, layout, axis and content", "why_tests_cant": "The shift by the maximum must not change the result for any content; views with an offset are not tested.", "anchors": ["crates/hodu_core/src/tensor/ops/normalization.rs: softmax, log_softmax"]}
{"id": "C72", "title": "Backward rules of unary operators are their derivatives", "statement": "For every unary operator and every operator with a scalar that is recorded on the tape, the backward rule succeeds with a tensor of the input shape whose value at j is the incoming gradient at j times the derivative of the forward formula at x_j, wherever the derivative exists.", "quantifier": "every operator, shape, layout and content", "why_tests_cant": "A rule with a wrong sign, constant or branch agrees with the derivative at many sample points; finite differences hide constant errors.", "anchors": ["crates/hodu_core/src/tensor/gradient/vjp_unary.rs: UnaryOp::compute_vjp, UnaryScalarOp::compute_vjp", "crates/hodu_cpu_kernels/kernels/math_utils.h", "crates/hodu_core/src/utils/valid.rs"]}
{"id": "C73", "title": "Backward rules of binary operators are the partial derivatives, summed over broadcast positions", "statement": "For add, sub, mul, div, rem, pow, maximum and minimum of tensors of broadcastable shapes the gradient of each operand has the shape of the operand and is the derivative of sum_j g_j * out_j with respect to each of its elements, wherever it exists.", "quantifier": "every operator, pair of broadcastable shapes, layout and content", "why_tests_cant": "Masks computed in the wrong operand order are right for equal shapes; remainders of operands with equal signs do not show the rounding direction.", "anchors": ["crates/hodu_core/src/tensor/gradient/vjp_binary.rs: BinaryOp::compute_vjp", "crates/hodu_core/src/tensor/gradient/vjp_utils.rs", "crates/hodu_core/src/tensor/ops/reduce.rs: sum_to_shape"]}
{"id": "C77", "title": "Backward rules of matmul and dot are adjoint to the product", "statement": "For operands a, b of matrix shapes with broadcastable batch dimensions and every upstream gradient g, the computed gradients have the shapes of a and b, and <g, matmul(a', b)> = <da, a'> and <g, matmul(a, b')> = <db, b'> for all a', b'.", "quantifier": "every batch shape, matrix size, layout, content and number of workers, over every commutative semiring", "why_tests_cant": "A transposed or swapped factor gives the right value for symmetric or square test matrices; batch broadcasting hides which axis is summed.", "anchors": ["crates/hodu_core/src/tensor/gradient/vjp_matrix.rs: MatrixOp::compute_vjp", "crates/hodu_core/src/tensor/ops/matrix.rs: matmul, dot", "crates/hodu_core/src/tensor/gradient/vjp_shape.rs: ShapeOp::Broadcast"]}
{"id": "C78", "title": "Backward rules of view operators move each upstream entry to the element it was read from", "statement": "For reshape, flatten, squeeze, unsqueeze, broadcast, transpose and permute the gradient has the shape of the input, and each of its elements is the sum of the upstream entries at the positions that read it, each once.", "quantifier": "every shape, argument, layout and content", "why_tests_cant": "The rules recover the axes from shapes; test tensors rarely have the shapes for which the guess is wrong, and square ones hide a missing transposition.", "anchors": ["crates/hodu_core/src/tensor/gradient/vjp_shape.rs: ShapeOp::compute_vjp"]}
{"id": "C79", "title": "Backward rules of concat and split return the slices of the upstream gradient", "statement": "The gradient of each operand of concat holds the upstream entries at the operand's range; the gradient contributed by an output of split holds its upstream entries in the output's range and zero elsewhere.", "quantifier": "every number of operands, sizes, axis (negative too), layout and content", "why_tests_cant": "Negative axes and broadcast upstream gradients are combinations tests do not reach.", "anchors": ["crates/hodu_core/src/tensor/gradient/vjp_concat_split.rs"]}
{"id": "C81", "title": "Backward rules of flip and cumsum are the adjoints", "statement": "The gradient of flip is the upstream gradient flipped along the same axes; the gradient of cumsum at i is the sum of the upstream entries at i and after it along the axis.", "quantifier": "every shape, axis set, layout of the upstream gradient and content", "why_tests_cant": "An upstream gradient that is a view (transposed or broadcast) only arises when flip is followed by certain operators.", "anchors": ["crates/hodu_core/src/tensor/gradient/vjp_shape_memory.rs", "crates/hodu_core/src/tensor/gradient/vjp_scan.rs"]}
{"id": "C82", "title": "Backward rules of slice, gather, index_select, topk and scatter route each upstream entry to its element", "statement": "For slice, gather, index_select and topk the gradient has the shape of the input, and each of its elements is the sum of the upstream entries at the positions that read it; for the scatter family the gradients of the target and of the source together are adjoint to the operation.", "quantifier": "every shape, axis, index tensor, layout and content", "why_tests_cant": "Repeated indices, axes other than the first and negative axes give gradients of the right shape whose values are wrong; tests compare a few one-dimensional cases.", "anchors": ["crates/hodu_core/src/tensor/gradient/vjp_shape.rs: ShapeOp::Slice", "crates/hodu_core/src/tensor/gradient/vjp_indexing.rs", "crates/hodu_core/src/tensor/gradient/vjp_sort.rs"]}
{"id": "C71", "title": "Backward rules of det, inv and trace are adjoint to the derivative", "statement": "For every batch of square matrices and every upstream gradient, the backward rules of det, inv and trace return a tensor of the shape of the input whose pairing with a change of the input equals the pairing of the upstream gradient with the first-order change of the result.", "quantifier": "every batch shape, matrix size, layout and content", "why_tests_cant": "The rules reshape and broadcast the upstream gradient over the batch; a test on one matrix of upstream gradient one cannot tell the entries of the batch apart, nor a wrong rank of the result.", "anchors": ["crates/hodu_core/src/tensor/gradient/vjp_linalg.rs"]}
{"id": "C80", "title": "Backward rule of einsum is the einsum with the operand and the output exchanged", "statement": "For every einsum that succeeds, the gradient of each operand succeeds, has the shape of the operand and is adjoint to the operation.", "quantifier": "every equation, operand list and content", "why_tests_cant": "A label that occurs in one operand only and not in the output gives a malformed equation; which equations are affected depends on the labels, not on the data.", "anchors": ["crates/hodu_core/src/tensor/gradient/vjp_einsum.rs"]}
{"id": "C76", "title": "Reduced-precision conversions round to nearest and round trip", "statement": "For every f32 bit pattern the kernels' conversions to f16, bf16, f8e4m3 and f8e5m2 return the nearest number of the format (ties to even, overflow to infinity, NaN to NaN); conversions back are exact; converting a number of the format to f32 and back gives it again.", "quantifier": "every 32-bit pattern and every pattern of the four formats", "why_tests_cant": "Every kernel on these element types converts each operand and each result; errors sit at subnormals, at the top of each binade, at ties and at the largest numbers, which example-based tests do not visit.", "anchors": ["crates/hodu_cpu_kernels/kernels/t_bf16.h: bf16_to_float, float_to_bf16", "crates/hodu_cpu_kernels/kernels/t_f16.h: f16_to_float, float_to_f16", "crates/hodu_cpu_kernels/kernels/t_f8e4m3.h: f8e4m3_to_float, float_to_f8e4m3", "crates/hodu_cpu_kernels/kernels/t_f8e5m2.h: f8e5m2_to_float, float_to_f8e5m2"]}
{"id": "C83", "title": "Sliding-window reductions reduce exactly the elements in the window", "statement": "reduce_window(window, strides, padding) has one output element per position at which the window fits in the padded input; that element is the sum / mean / maximum / minimum of exactly the input elements in the window, with padding counting as 0 (sum, mean) or not at all (max, min); impossible arguments are rejected with an error.", "quantifier": "every input layout and content, every window, stride and padding, every element type", "why_tests_cant": "Output size, window position, padding and input layout interact in every dimension; tests cover a few 2-D cases of one element type.", "anchors": ["crates/hodu_core/src/tensor/ops/windowing.rs: reduce_window", "crates/hodu_core/src/be_cpu/storage/ops_windowing.rs: call_ops_reduce_window", "crates/hodu_core/src/op_metadatas.rs: reduce_window_metadata", "crates/hodu_cpu_kernels/kernels/ops_windowing.c: REDUCE_WINDOW_OP, REDUCE_WINDOW_MEAN_OP"]}
{"id": "C84", "title": "The backward rules of sliding-window reductions return the gradient", "statement": "For reduce_window with sum or mean, the gradient the tape computes is the transpose of the forward operator applied to the upstream gradient; for max and min it sends the gradient of each window to the element that attains the extreme and zero elsewhere.", "quantifier": "every input, every upstream gradient and layout, every window, stride and padding the forward operator accepts", "why_tests_cant": "The rule repeats the gradient along the strides and broadcasts it; it never looks at the window or the padding, so that a test with window = stride passes and says nothing about other windows.", "anchors": ["crates/hodu_core/src/tensor/gradient/vjp_windowing.rs: compute_vjp_with_dims", "crates/hodu_core/src/tensor/ops/windowing.rs: reduce_window"]}
{"id": "C74", "title": "An operation and element type that pass validation run the kernel of that operation", "statement": "If validate_dtype_for_op accepts an operation on an element type, then calling the operation on the CPU runs exactly the kernel registered for that operation and that element type: it neither panics for want of a kernel, nor is rejected later by the back end, nor runs the kernel of another operation.", "quantifier": "every kernel-backed operation and every one of the fifteen element types (and every target type of a cast)", "why_tests_cant": "About 130 operations times 15 element types cross three independently written tables (validation, host match arms, macro-generated kernel names); tests exercise a handful of pairs, mostly f32.", "anchors": ["crates/hodu_core/src/utils/valid.rs: validate_dtype_for_op", "crates/hodu_core/src/be_cpu/storage/ops_*.rs", "crates/hodu_core/src/ops.rs: Display impls", "crates/hodu_cpu_kernels/src/kernels/ops_*.rs: dispatch functions"]}
{"id": "C85", "title": "where3, masked_fill and clamp select the right elements", "statement": "x.where3(condition, other) is x where the condition holds and other elsewhere; masked_fill replaces exactly the marked elements by the value; clamp(lo, hi), clamp_min(lo), clamp_max(hi) return the nearest number within the bounds.", "quantifier": "every floating-point element type, shape, condition (broadcast), content and bounds", "why_tests_cant": "The five functions are built on one another through a weighted sum whose operand order is easy to invert; tests of shapes or of the captured graph pass either way, and the inverted result is right on degenerate inputs.", "anchors": ["crates/hodu_core/src/tensor/ops/selection.rs: where3, masked_fill, clamp, clamp_min, clamp_max", "crates/hodu_core/src/tensor/utils.rs: broadcast_tensors3", "crates/hodu_core/src/tensor/ops/cast_memory.rs: to_dtype"]}
{"id": "C75", "title": "Loss functions compute the loss they are named after", "statement": "For floating-point predictions and targets, forward of MSELoss, MAELoss, HuberLoss, SmoothL1Loss, CosineEmbeddingLoss, NLLLoss, CrossEntropyLoss, KLDivLoss, BCELoss and BCEWithLogitsLoss returns the textbook value (average over the elements; for class losses minus the average log probability of the target class along the chosen dimension).", "quantifier": "every loss, floating-point element type, shape, content, class dimension and parameter", "why_tests_cant": "Each loss is a composition of 5 to 20 tensor operations with type rules of their own; a test that only checks one type, one dimension or that the loss is finite does not notice that a loss always fails or ignores its input.", "anchors": ["crates/hodu_nn/src/losses/*.rs: forward", "crates/hodu_core/src/tensor/ops/selection.rs: clamp", "crates/hodu_core/src/tensor/ops/normalization.rs: log_softmax"]}
{"id": "C86", "title": "Normalization layers standardize over the documented elements", "statement": "For a floating-point input, BatchNorm1D/2D/3D (training and evaluation), LayerNorm, GroupNorm, InstanceNorm1D/2D/3D and RMSNorm return (x - mean) / sqrt(variance + eps), scaled and shifted by the weights, where mean and variance are those of exactly the elements the layer is documented to normalize over; training moves the running statistics by momentum; inputs the layer is not made for are rejected.", "quantifier": "every layer, floating-point element type, shape, content, weights, eps, momentum and running state", "why_tests_cant": "A test compares a few small inputs; a wrong axis, group boundary, broadcast shape or momentum weight only shows for particular shapes, and rejected inputs are not tried.", "anchors": ["crates/hodu_nn/src/modules/norm.rs"]}
{"id": "C87", "title": "Linear layers and attention compute their formulas", "statement": "For floating-point inputs of matching shapes, Linear returns x\u00b7W\u1d40 + b for every row (and for a single vector); scaled_dot_product_attention returns softmax(Q\u00b7K\u1d40/\u221ad)\u00b7V, where with is_causal query i only attends to keys 0..i and with a mask only to the keys where the mask is not 0; multi-head attention does so per head on the slices of the projections, and projects the joined heads; a weight that does not fit the input is rejected.", "quantifier": "every floating-point element type, shape, content, weights, mask and number of heads", "why_tests_cant": "A test compares a few small matrices; swapped axes, a wrong head boundary, a wrong scale or an inverted mask agree on symmetric or constant examples, and only one element type is tried.", "anchors": ["crates/hodu_nn/src/modules/linear.rs", "crates/hodu_nn/src/modules/attention.rs"]}
{"id": "C88", "title": "Embedding looks up the rows its indices name", "statement": "For every weight of shape [V, D] and index tensor of any shape and layout with entries that name rows, Embedding returns a tensor of the shape of the indices with D appended, whose row at each position is the named row of the weight; with max_norm every row of larger norm is scaled down to that norm and every other row is unchanged; with padding_idx the rows looked up by that index are 0; an index that names no row is an error.", "quantifier": "every floating-point element type, weight, index tensor (shape, layout, content), max_norm and padding_idx", "why_tests_cant": "A test looks up a few rows of a small table with a fresh index vector; a wrong axis in the norm, a shifted index view or a clamped index agree on two columns, on unsliced indices and on indices in range.", "anchors": ["crates/hodu_nn/src/modules/embedding.rs"]}
{"id": "C89", "title": "Recurrent networks compute their documented recurrences", "statement": "For every number of layers, sequence length, batch and both orientations, RNN (tanh or relu), GRU and LSTM return at every time step the state of the last layer and at the end the states of all layers of the documented recurrence: h = f(W x + b + U h + c) for RNN, the gates r, z, n in this order with the reset gate applied to U h + c for GRU, the gates i, f, g, o in this order for LSTM; layer l + 1 reads the new state of layer l at the same step. The initial state is the given one or 0; one that does not have an entry for every layer is an error. An empty sequence gives an empty output.", "quantifier": "every floating-point element type, layout of input and parameters, number of layers, sequence length, batch, hidden size, orientation and optional bias", "why_tests_cant": "A test runs one layer over a short sequence and checks shapes; swapped gates, a layer that reads the state of the previous step, an output that is not transposed back or states taken from the wrong layer keep every shape.", "anchors": ["crates/hodu_nn/src/modules/rnn.rs"]}
{"id": "C90", "title": "Pooling layers reduce exactly the windows they document", "statement": "Max and average pooling in one, two and three spatial dimensions return for every batch and channel, at every position, the maximum or the mean of the entries in the window of the given kernel size, stride and padding, and never mix batches or channels. Adaptive pooling returns exactly the requested sizes, its windows cover the input, and if the sizes divide they are disjoint. Global pooling reduces all spatial positions. Fractional max pooling splits every axis into the requested number of consecutive non-empty intervals of nearly equal size, for every rounding of the floating-point boundaries. Every pooling to positive sizes succeeds.", "quantifier": "every input layout, batch, channel count, spatial rank up to 14, kernel, stride, padding and output size", "why_tests_cant": "Tests use one small image with divisible sizes; a stride used as a kernel size, a window that crosses channels, a last row that no window covers or a boundary that rounds to an empty interval only appear for other sizes.", "anchors": ["crates/hodu_nn/src/modules/pooling.rs", "crates/hodu_core/src/tensor/ops/windowing.rs"]}
{"id": "C91", "title": "Convolution layers add the bias of their channel to the documented convolution", "statement": "For one, two and three spatial dimensions Conv returns the cross-correlation of the input [N, Ci, ...] with the weight [Co, Ci, ...] plus the bias of the output channel, and ConvTranspose the transposed convolution with the weight [Ci, Co, ...] plus the bias, for every pair of channel counts, stride, padding, dilation and output padding. Inputs of another rank or channel count are errors.", "quantifier": "every row-major input, weight, optional bias, channel counts, spatial sizes, stride, padding, dilation", "why_tests_cant": "Tests build layers with equal channel counts and compare shapes; a bias that is broadcast along the wrong axis or a weight read with its two channel axes exchanged has the same shape.", "anchors": ["crates/hodu_nn/src/modules/conv.rs", "crates/hodu_core/src/tensor/ops/conv.rs"]}
{"id": "C92", "title": "Dropout and activation layers compute their documented functions in both modes", "statement": "In evaluation mode Dropout returns its input. In training mode every element is divided by 1 - p where the random number is larger than p and is 0 elsewhere. RReLU returns x for x > 0 and slope times x otherwise, with a random slope in training mode and the mean of the bounds in evaluation mode. LeakyReLU, ELU and PReLU apply their function. All of them accept every floating-point type.", "quantifier": "every shape, layout, random numbers, probability and bounds", "why_tests_cant": "Random output is only checked for its mean or its shape, and only for one element type; p = 1, infinities and types other than f32 are not tried.", "anchors": ["crates/hodu_nn/src/modules/dropout.rs", "crates/hodu_nn/src/modules/activation.rs"]}
{"id": "C93", "title": "Resize interpolates at the coordinates of the requested transformation", "statement": "resize returns a tensor [N, C, sizes...]. Every element is the interpolation of the input at the coordinate that the transformation (half_pixel, asymmetric, align_corners, pytorch_half_pixel) assigns to its position: the element picked by the rounding mode for nearest, the value on the line between the neighbours for linear, the value on the Catmull-Rom cubic for cubic, axis by axis, with positions outside of the input replaced by the nearest one inside. This holds for images and for volumes and for every strided view. Other ranks are errors and nothing outside of the input is read.", "quantifier": "every shape, stride, offset, output size, mode, transformation and rounding mode", "why_tests_cant": "Tests resize small images by integer factors, where every coordinate is exact; halves, odd factors, volumes and views follow other paths.", "anchors": ["crates/hodu_core/src/tensor/ops/resize.rs", "crates/hodu_core/src/be_cpu/storage/ops_resize.rs", "crates/hodu_cpu_kernels/kernels/ops_resize.c"]}
{"id": "C94", "title": "Gradients of padding and resizing sum the outputs an input contributed to", "statement": "The gradient of an input of pad_* is the sum of the upstream gradients at all positions that are copies of it: the element itself and, for reflect, replicate and circular padding, its images in the padding, for every width before and after and any number of padded dimensions. The gradient of resize is the transpose of the interpolation: for all x and g the pairing of g with resize(x) is the pairing of the gradient with x.", "quantifier": "every mode, shape, layout, padding width and upstream gradient", "why_tests_cant": "A gradient check needs a reference; the tests compare shapes or constant gradients, which hide dropped and misplaced contributions.", "anchors": ["crates/hodu_core/src/tensor/gradient/vjp_padding.rs", "crates/hodu_core/src/tensor/gradient/vjp_resize.rs"]}
{"id": "C95", "title": "Bitwise operations act on the bits of every element", "statement": "For every integer type, and, or, xor and not combine equal bit positions of the operands, shl and shr (by a tensor or by a scalar) with a count between 0 and the width minus one move the bits by the count, filling with zeros or, for the right shift of a signed type, with the sign. This holds for every element of every view, with operands broadcast to their common shape, independently of the number of worker threads.", "quantifier": "all integer types, values, counts, shapes, layouts, broadcasts and thread counts", "why_tests_cant": "The tests use a handful of small positive numbers in fresh tensors of equal shape; integer promotion, undefined shifts, views and the chunking of more than 100000 elements are not exercised.", "anchors": ["crates/hodu_core/src/tensor/ops/bitwise.rs", "crates/hodu_core/src/be_cpu/storage/ops_bitwise.rs", "crates/hodu_cpu_kernels/kernels/ops_bitwise.c"]}
{"id": "C96", "title": "Changing the element type converts every element, changing the device keeps it", "statement": "to_dtype gives a new row-major tensor with the same shape in which every element is the old number if the new type has it. Otherwise integers are reduced modulo the width of an integer type, floats lose their fraction on the way to an integer type and are rounded to nearest even on the way to another float type, and the result is true exactly for numbers other than zero. to_device keeps all elements. This holds for every view and every number of worker threads.", "quantifier": "all 15 x 15 pairs of element types, all bit patterns, all shapes, layouts and thread counts", "why_tests_cant": "The tests convert a few small numbers in fresh tensors; two hundred conversions times 2^8 to 2^64 patterns, views and more than 100000 elements are out of reach.", "anchors": ["crates/hodu_core/src/tensor/ops/cast_memory.rs:11-53", "crates/hodu_core/src/be_cpu/storage.rs:693-715", "crates/hodu_core/src/op_metadatas.rs:1615-1640", "crates/hodu_cpu_kernels/kernels/ops_cast.c"]}
{"id": "C97", "title": "Nested arrays keep their elements on the way in and out", "statement": "Tensor::new of a nested vector, slice of slices or array of any depth gives a tensor whose shape are the lengths and whose element at an index is the entry at that index; arrays whose rows differ in length are rejected. from_slice lays the same data out in another shape of the same size and rejects other sizes. to_vec1d to to_vec8d give back exactly the nested vector of the elements and reject other ranks.", "quantifier": "all depths, lengths, contents and, for reading, all tensors", "why_tests_cant": "The tests build small matrices; the thirty hand-written depths, empty levels and ragged input are not covered.", "anchors": ["crates/hodu_core/src/into/flatten.rs", "crates/hodu_core/src/tensor/creation.rs:50-94", "crates/hodu_core/src/tensor/vec.rs:23-304"]}
{"id": "C98", "title": "Created tensors hold what their constructor says", "statement": "zeros, ones and full give a tensor of the shape asked for with every element the value and its type; filling a view changes exactly its elements. eye has ones on the diagonal and zeros elsewhere. arange(start, end, step) has exactly the terms start + i * step that come before end, and rejects a zero step and a range in the wrong direction. linspace(start, end, n) has n numbers at equal distances, the first the start and the last the end, and rejects n = 0.", "quantifier": "all shapes, element types, values, layouts of the filled view, numbers of threads and orders of their writes; for sequences all bounds and steps", "why_tests_cant": "The tests create a few short sequences of small numbers; that the calculation runs in f32 for every type, and where rounding changes the number of elements, needs a statement about all numbers.", "anchors": ["crates/hodu_core/src/tensor/creation.rs:96-338", "crates/hodu_core/src/be_cpu/storage.rs:329-388", "crates/hodu_cpu_kernels/kernels/storage.c:18-84", "crates/hodu_core/src/scalar.rs:618-649"]}
{"id": "C99", "title": "What is recorded for shapes that depend on the data has room for every result", "statement": "A symbolic layout exists exactly when every dynamic dimension has a bound. Whatever the dimensions turn out to be within their bounds, its strides send different indices to different positions of the buffer it asks for. Concrete shapes and layouts survive the conversion to symbolic ones and back. The shapes that nonzero, unique and compress record while capturing include the shape of the eager result for every input. A dynamic dimension has the value it was last given since the registry was cleared, and no two dimensions share an id.", "quantifier": "all symbolic shapes, values of the dynamic dimensions within their bounds, tensors and conditions, sequences of registry calls", "why_tests_cant": "The number of selected elements depends on the data; tests look at a few inputs, and never compare the recorded bound with the eager result.", "anchors": ["crates/hodu_core/src/types/dim.rs:45-140", "crates/hodu_core/src/types/symbolic_shape.rs:13-130", "crates/hodu_core/src/types/symbolic_layout.rs:14-160", "crates/hodu_core/src/types/dynamic_registry.rs:15-36", "crates/hodu_core/src/tensor/ops/indexing.rs:688-972"]}
{"id": "C100", "title": "Scalars convert by saturating and calculate exactly or not at all", "statement": "Converting a scalar to an integer type drops the fraction and brings the number into the range of the type, whatever the source type; what is not a number becomes zero. Converting to a boolean is true for everything but zero, converting to f64 keeps every float, converting to a half type rounds to nearest even. With overflow checks, integer arithmetic and powers give the exact result or panic when the type cannot hold it; without them the result is right modulo the size of the type. Roots of integers are the whole part of the root.", "quantifier": "all scalars of all 15 element types, all operators, all exponents", "why_tests_cant": "There are 15 source and 15 target types with 2^64 patterns each, and the mistakes are at the edges: maxima that no float holds, midpoints, the most negative number.", "anchors": ["crates/hodu_core/src/scalar.rs:274-360", "crates/hodu_core/src/scalar.rs:389-475", "crates/hodu_core/src/scalar.rs:478-1027", "crates/hodu_core/src/scalar.rs:1139-1405"]}
{"id": "C101", "title": "Files of snapshots and of named tensors load as what was saved", "statement": "Loading a saved snapshot gives back the same snapshot: every operation, all parameters, layouts, constants and texts. Different snapshots have different files, and a file that was cut off anywhere is rejected. Tensors saved under names are loaded under the same names with type, shape and elements, whatever the order in which the map yields them. A program with other optional element types reads the same contents or reports an error.", "quantifier": "all snapshots (29 kinds of operations, 60 kinds of parameters), all texts, all sets of optional element types, all places to cut, all maps of tensors", "why_tests_cant": "The variants, lengths, texts and places to cut cannot be enumerated, and tests are built with a single set of optional types.", "anchors": ["crates/hodu_core/src/snapshot.rs:9-112", "crates/hodu_core/src/scalar.rs:7-127", "crates/hodu_core/src/op_params.rs:11-639", "crates/hodu_core/src/ops.rs:10-862", "crates/hodu_core/src/format/hdt.rs:12-108"]}
{"id": "C102", "title": "Builds with BLAS compute the same as plain builds", "statement": "With the feature openblas, and on every macOS target, the f32 and f64 kernels of dot, matmul, conv2d, conv2d_grad_weight and mul_scalar are replaced by versions that call BLAS. They return what the plain kernels return: matrix products for all strides, batched products for all batch shapes, convolutions and weight gradients for all sizes, whatever the fresh result buffer contains.", "quantifier": "all tensors and layouts, all batch shapes, all convolution sizes, strides, paddings and dilations, all contents of fresh buffers, all element types with a commutative semiring where sums are reordered", "why_tests_cant": "The tests run with one set of kernels, on one platform; sizes, layouts and the content of uninitialised memory cannot be enumerated.", "anchors": ["crates/hodu_cpu_kernels/build.rs:137-158", "crates/hodu_cpu_kernels/kernels/ops_matrix_openblas.c:17-398", "crates/hodu_cpu_kernels/kernels/ops_conv_openblas.c:20-369", "crates/hodu_cpu_kernels/kernels/ops_unary_openblas.c:13-76", "crates/hodu_core/src/be_cpu/device.rs"]}
{"id": "C103", "title": "Element-wise CUDA kernels compute every element under every interleaving", "statement": "The element-wise kernels of the CUDA backend (unary, scalar, binary, cast, contiguous copy, fill) are grid-stride loops run by many threads at once. However the threads are interleaved, no access leaves its buffer, every fair execution ends, and at the end every output element is the operation applied to the element of the view, the same values the CPU kernel produces; a fill writes exactly the cells of the view.", "quantifier": "all layouts (strides, offsets, broadcasts), all sizes, all element operations, all schedules of all threads, all old contents of the output buffer", "why_tests_cant": "Tests see the few interleavings the hardware picks; sizes near 2^32 are out of their reach.", "anchors": ["crates/hodu_cuda_kernels/kernels/utils.cuh:21-30", "crates/hodu_cuda_kernels/kernels/ops_unary.cu:8-60", "crates/hodu_cuda_kernels/kernels/ops_binary.cu:8-57", "crates/hodu_cuda_kernels/kernels/ops_cast.cu:7-31", "crates/hodu_cuda_kernels/kernels/ops_memory.cu:6-50", "crates/hodu_cuda_kernels/kernels/storage.cu:6-27", "crates/hodu_cuda_kernels/src/kernels/ops_binary.rs:70-78"]}
{"id": "C104", "title": "Tiled matrix products on CUDA are the products, under every interleaving", "statement": "The CUDA kernels of matmul and dot load tiles of both operands into shared memory, wait at barriers and sum tile by tile. However the threads of all blocks are interleaved and whatever shared memory and the output held before, no access leaves its buffer, no block gets stuck at a barrier, and at the end every output cell is the sum of products over the inner size, in the order of the CPU kernel.", "quantifier": "all matrices, layouts, batch shapes and sizes, all element types and multiply-adds, all schedules, all initial contents of shared memory and output", "why_tests_cant": "A missing barrier or a wrong block size shows up only under some schedules and some contents of shared memory; tests see a few.", "anchors": ["crates/hodu_cuda_kernels/kernels/ops_matrix.cu:7-150", "crates/hodu_cuda_kernels/src/kernels/ops_matrix.rs:328-384", "crates/hodu_cuda_kernels/src/kernels/ops_matrix.rs:539-590", "crates/hodu_core/src/be_cuda/storage/ops_matrix.rs:10-170"]}
{"id": "C105", "title": "Scatter on CUDA updates every addressed cell exactly once per source element, under every interleaving", "statement": "The scatter kernels of CUDA update cells from many threads at once, with native atomics, with loops around atomicCAS and, for types of 8 and 16 bits, on the 32-bit word around the cell. However the threads are interleaved, no access leaves its buffer, the kernel terminates, and at the end every cell holds its old value updated with exactly the source elements addressed to it, each once; where the order of updates does not matter this is the result of the CPU kernel, and cells that no index addresses keep the input.", "quantifier": "all shapes, layouts, index values and source elements, all operations, all schedules", "why_tests_cant": "A lost update needs two threads between the load and the compare-and-swap of the same word; tests see a few of the interleavings and rarely two cells of one word.", "anchors": ["crates/hodu_cuda_kernels/kernels/atomic.cuh:8-509", "crates/hodu_cuda_kernels/kernels/ops_indexing.cu:137-324", "crates/hodu_cuda_kernels/src/kernels/ops_indexing.rs:224-264", "crates/hodu_core/src/be_cuda/storage/ops_indexing.rs:330-448"]}
{"id": "C106", "title": "unique on CUDA gives the distinct values, their places and their counts, under every interleaving", "statement": "On CUDA unique copies the input padded to a power of two, sorts it with a bitonic network of kernel launches, counts and marks the first of every run, sums the marks and writes the values, the inverse and the counts. However the threads of each launch are interleaved, no access leaves its buffer, every launch terminates, and the result is that of the specification of unique: ascending distinct values, for every element the place of its value, for every value the number of its elements.", "quantifier": "all shapes, layouts and values, all orders on the elements, all schedules of all launches", "why_tests_cant": "The network has (log n)^2 launches whose threads exchange cells of shared buffers; tests try a few sizes, rarely the largest value of a type, and one interleaving.", "anchors": ["crates/hodu_cuda_kernels/kernels/ops_indexing.cu:657-882", "crates/hodu_cuda_kernels/src/kernels/ops_indexing.rs:421-665", "crates/hodu_core/src/be_cuda/storage/ops_indexing.rs:695-962", "crates/hodu_core/src/op_metadatas.rs:972-992"]}
{"id": "C107", "title": "nonzero and compress on CUDA select the right elements under every interleaving", "statement": "On CUDA nonzero counts the elements that are not zero with one kernel and lets a second one write their indices, each thread taking a row number from a shared counter. compress gives every entry of the condition to one thread, which copies the slice (or element) at the place given by the number of true entries before it. However the threads are interleaved, no access leaves its buffer, every launch terminates, nonzero returns exactly the indices of the elements that are not zero, each once, in ascending order, and compress returns the kept slices in order.", "quantifier": "all shapes, layouts, values and conditions, all schedules of all launches", "why_tests_cant": "Each schedule hands out the tickets in its own order; a test sees one schedule, mostly the ascending one of a small grid.", "anchors": ["crates/hodu_cuda_kernels/kernels/ops_indexing.cu:553-616", "crates/hodu_cuda_kernels/kernels/ops_indexing.cu:903-1001", "crates/hodu_cuda_kernels/src/kernels/ops_indexing.rs:330-419", "crates/hodu_cuda_kernels/src/kernels/ops_indexing.rs:666-713", "crates/hodu_core/src/be_cuda/storage/ops_indexing.rs:538-692", "crates/hodu_core/src/be_cuda/storage/ops_indexing.rs:964-1100", "crates/hodu_core/src/op_metadatas.rs:928-941"]}
{"id": "C108", "title": "any and all return one truth value per cell", "statement": "any (all) over some axes returns a tensor of the element type of its input that holds 1 at an index exactly if some element (every element) reduced into it is not zero, and 0 elsewhere.", "quantifier": "all shapes, layouts, values, axes, element types and contents of the freshly allocated buffer", "why_tests_cant": "The outcome depends on what the allocator left in the buffer; tests mostly read zero pages and bool-like comparisons of a single cell.", "anchors": ["crates/hodu_cpu_kernels/kernels/ops_reduce.c:2606-2793", "crates/hodu_core/src/be_cpu/storage/ops_reduce.rs:66-125", "crates/hodu_core/src/be_cpu/device.rs:19-130", "crates/hodu_core/src/tensor/ops/reduce.rs:127-190"]}
{"id": "C109", "title": "Reductions on CUDA combine the right elements under every interleaving, exactly for integers", "statement": "On CUDA every reduction hands each output position to one thread, which walks the elements reduced into it. However the threads are interleaved, no access leaves its buffer, the launch terminates and every position holds the combination (sum, product, maximum, minimum, mean, norm, index of the extreme, any, all) of exactly the elements reduced into it, computed in the arithmetic of the element type and stored in the element type of the result.", "quantifier": "all shapes, layouts, values and axes, all schedules of the launch", "why_tests_cant": "Each schedule is a different execution; float accumulators agree with integer ones on the small numbers tests use.", "anchors": ["crates/hodu_cuda_kernels/kernels/ops_reduce.cu:7-828", "crates/hodu_cuda_kernels/kernels/math.cuh:22-92", "crates/hodu_cuda_kernels/src/kernels/ops_reduce.rs:34-83", "crates/hodu_core/src/be_cuda/storage/ops_reduce.rs:10-117"]}
{"id": "C110", "title": "Concat, split, flip and pad on CUDA move the right elements under every interleaving", "statement": "On CUDA concat, split, flip and pad hand each output position to one thread. However the threads are interleaved, no access leaves its buffer, the launch terminates, and the output is the concatenation, the consecutive ranges, the tensor with the named axes reversed, or the tensor padded by the rule of the mode, as on the CPU, for every element type and every layout.", "quantifier": "all shapes, layouts, values, axes, sizes and padding widths, all schedules of the launch", "why_tests_cant": "Each schedule is a different execution; the missing element types and the ignored strides only show on inputs the tests do not use on this device.", "anchors": ["crates/hodu_cuda_kernels/kernels/ops_concat_split.cu:6-113", "crates/hodu_cuda_kernels/kernels/ops_shape_memory.cu:14-55", "crates/hodu_cuda_kernels/kernels/ops_padding.cu:6-236", "crates/hodu_core/src/be_cuda/storage/ops_concat_split.rs:11-232", "crates/hodu_core/src/be_cuda/storage/ops_shape_memory.rs:10-123", "crates/hodu_core/src/be_cuda/storage/ops_padding.rs:12-324"]}
{"id": "C111", "title": "Cumulative sums and top-k on CUDA are right under every interleaving", "statement": "On CUDA cumsum gives each line, and topk each row, to one thread that stores several results. However the threads are interleaved, no access leaves its buffer, the launch terminates, every output cell is written, each element of cumsum is the sum of the elements before it on the axis, and topk delivers the k best elements of each row with their positions, as on the CPU, for every element type, row length, k and layout.", "quantifier": "all shapes, layouts, values, axes, k, contents of fresh buffers, all schedules of the launch", "why_tests_cant": "Each schedule is a different execution; the limit of 64 elements, the passage through float and the ignored strides only show on long rows, large integers and views that no test runs on this device.", "anchors": ["crates/hodu_cuda_kernels/kernels/ops_scan.cu:16-165", "crates/hodu_cuda_kernels/kernels/ops_sort.cu:17-92", "crates/hodu_cuda_kernels/src/kernels/ops_scan.rs:36-86", "crates/hodu_cuda_kernels/src/kernels/ops_sort.rs:37-81", "crates/hodu_core/src/be_cuda/storage/ops_scan.rs:10-119", "crates/hodu_core/src/be_cuda/storage/ops_sort.rs:11-87"]}
{"id": "C112", "title": "Selecting, gathering, putting and one-hot encoding on CUDA agree with the CPU under every interleaving", "statement": "On CUDA index_select, gather, index_put and onehot give, however the threads are interleaved, what they give on the CPU: the slices, elements or classes named by the indices (negative ones counted from the end), zero for an index that names nothing, an error for an axis out of range; no access leaves its buffer.", "quantifier": "all shapes, layouts, values, indices, axes, contents of fresh buffers, all schedules of the launch", "why_tests_cant": "No test runs on this device; a missing range check reads whatever lies next in memory, so a wrong result can look plausible, and the metadata mismatch of index_put depends on the shapes.", "anchors": ["crates/hodu_cuda_kernels/kernels/ops_indexing.cu:7-135", "crates/hodu_cuda_kernels/kernels/ops_indexing.cu:450-518", "crates/hodu_cuda_kernels/src/kernels/ops_indexing.rs:44-318", "crates/hodu_core/src/be_cuda/storage/ops_indexing.rs:11-328", "crates/hodu_core/src/be_cuda/storage/ops_indexing.rs:450-536"]}
{"id": "C113", "title": "Window reductions, einsum and resizing on CUDA agree with the CPU under every interleaving", "statement": "On CUDA reduce_window, einsum and resize give, however the threads are interleaved, what they give on the CPU for every element type the CPU accepts: the accumulation over each window of the padded input, the sum of products over the summed labels, the documented source pixel or interpolation; no access leaves its buffer.", "quantifier": "all shapes, layouts, windows, strides, paddings, equations, sizes, modes, roundings, contents of fresh buffers, all schedules of the launch", "why_tests_cant": "No test runs on this device; the effect of fusing a product with a subtraction moves a coordinate by one unit in the last place and shows at single pixels of particular sizes only, and accumulators in float agree with double for small values.", "anchors": ["crates/hodu_cuda_kernels/kernels/ops_windowing.cu:7-129", "crates/hodu_cuda_kernels/kernels/ops_einsum.cu:32-182", "crates/hodu_cuda_kernels/kernels/ops_resize.cu:24-259", "crates/hodu_cuda_kernels/build.rs:45-52", "crates/hodu_core/src/be_cuda/storage/ops_windowing.rs:10-128", "crates/hodu_core/src/be_cuda/storage/ops_einsum.rs:11-147", "crates/hodu_core/src/be_cuda/storage/ops_resize.rs:10-93"]}
{"id": "C114", "title": "Convolution and transposed convolution on CUDA agree with the CPU under every interleaving", "statement": "On CUDA conv1d/2d/3d and their transposes give, however the threads are interleaved, what they give on the CPU for every element type the CPU accepts: for each output position the sum over input channels and kernel positions of the products, in a buffer with as many elements as the shape of the result; no access leaves its buffer.", "quantifier": "all ranks 1 to 3, sizes, strides, paddings, dilations, element types, values, contents of fresh buffers, all schedules of the launch", "why_tests_cant": "No test runs on this device. The transposed kernel gathers where the CPU loop is organised differently, so that agreement needs a sum over pairs of positions to be reordered for all sizes; a buffer allocated with the size of another operation is right for the usual padding of half a kernel.", "anchors": ["crates/hodu_cuda_kernels/kernels/ops_conv.cu:1-326", "crates/hodu_cuda_kernels/src/kernels/ops_conv.rs:40-97", "crates/hodu_core/src/be_cuda/storage/ops_conv.rs:10-150"]}
{"id": "C115", "title": "Weight gradients of convolutions on CUDA agree with the CPU under every interleaving", "statement": "On CUDA the weight gradients of conv1d/2d/3d and their transposes are, however the threads and their atomic additions are interleaved, those of the CPU: every product of an input element with a gradient element that meet at a kernel position is added exactly once to that weight, starting from zero; no access leaves its buffer and the launch finishes.", "quantifier": "all ranks 1 to 3, sizes, strides, paddings, dilations, grid sizes, element types, contents of fresh buffers, all schedules of the launch, all ways of updating a cell (native atomics, compare-and-swap loops on shared words)", "why_tests_cant": "No test runs on this device; lost updates need particular interleavings; a fresh buffer is often zero by accident; the grid has the size of the weight while the loop runs over the gradient, so the coverage of the loop matters only for sizes tests do not reach.", "anchors": ["crates/hodu_cuda_kernels/kernels/ops_conv.cu:327-762", "crates/hodu_cuda_kernels/kernels/atomic.cuh:8-160", "crates/hodu_cuda_kernels/src/kernels/ops_conv.rs:98-135", "crates/hodu_core/src/be_cuda/storage/ops_conv.rs:141-265", "crates/hodu_core/src/be_cuda/device.rs:91-101"]}
{"id": "C116", "title": "Determinant, inverse and trace on CUDA agree with the CPU under every interleaving", "statement": "On CUDA det, inv and trace of a batch of square matrices of any layout give, however the threads are interleaved, the determinant, the inverse and the sum of the diagonal of every matrix; no access leaves its buffer or local array and every kernel gets all of its arguments.", "quantifier": "all batch shapes, matrix sizes, layouts, element types, contents of fresh buffers, all schedules of the launch", "why_tests_cant": "No test runs on this device; the local arrays hold 16 rows and tests use small matrices; a missing kernel argument reads whatever follows the argument array, which may happen to be a large number.", "anchors": ["crates/hodu_cuda_kernels/kernels/ops_linalg.cu:23-404", "crates/hodu_cuda_kernels/src/kernels/ops_linalg.rs:33-194", "crates/hodu_cuda_kernels/src/cuda.rs:8-41", "crates/hodu_core/src/be_cuda/storage/ops_linalg.rs:10-256"]}
{"id": "C117", "title": "Bitwise operations on CUDA are those of the CPU under every interleaving", "statement": "On CUDA and, or, xor, not and the shifts of integer tensors of any layout give, however the threads are interleaved, the operator of the paired elements at every position of the common shape, the same bits as on the CPU; every kernel the host asks for exists.", "quantifier": "all shapes, layouts, integer types, operators, elements, contents of the fresh buffer, all schedules of the launch", "why_tests_cant": "No test runs on this device; tests use small contiguous tensors and small counts, while the four paths of the kernel differ for views and the shift operators are undefined for some values only.", "anchors": ["crates/hodu_cuda_kernels/kernels/ops_bitwise.cu:20-240", "crates/hodu_cuda_kernels/src/kernels/ops_bitwise.rs:9-190", "crates/hodu_core/src/be_cuda/storage/ops_bitwise.rs:11-297", "crates/hodu_core/src/tensor/ops/bitwise.rs:11-142"]}
{"id": "C118", "title": "The tensor files of a run carry exactly the tensors", "statement": "An output saved by hodu run and given again as an input is the same tensor (bytes, shape, type); an accepted input has the shape and type of the model and reaches the backend unchanged; the input arguments are accepted exactly when every input of the model is named and loads; temporary files of different inputs or processes never coincide; device names have one normal form.", "quantifier": "all outputs, element types, shapes, bytes, names, directories, iteration orders of the hash map, all input arguments and all files of the machine, all device texts", "why_tests_cant": "The command has no test; a test would use one output of one type and plain names, while the loss depends on the element type (JSON), on the name, on the order of the map and on repeated arguments.", "anchors": ["hodu-cli/src/tensor/loader.rs:7-165", "hodu-cli/src/tensor/saver.rs:10-54", "hodu-cli/src/commands/run.rs:166-177", "hodu-cli/src/commands/run.rs:274-318", "hodu-cli/src/commands/run.rs:359-409", "hodu-cli/src/commands/run.rs:490-553"]}
{"id": "C119", "title": "A run uses the library built for its own model, target and device", "statement": "Whatever runs, kills, edits, upgrades and cleanings interleave, the library hodu run hands to the backend was built by the installed backend from the model content the run has read, for its target and its device, and is complete; cleaning the cache of a backend removes only that cache.", "quantifier": "all numbers of processes, all interleavings of their steps with edits of model files, kills, plugin upgrades and cleanings, all contents without a hash collision, all requests", "why_tests_cant": "A test runs one process at a time with a cold or a warm cache; the failures need two devices, a killed build, an upgrade or an edit between two steps.", "anchors": ["hodu-cli/src/commands/run.rs:196-243", "hodu-cli/src/commands/run.rs:411-432", "hodu-cli/src/commands/run.rs:469-488", "hodu-cli/src/commands/clean.rs:22-77"]}
{"id": "C120", "title": "Deferred execution and buffer reuse on Metal are invisible", "statement": "A value read back from a Metal tensor is the value eager execution of the calls gives, although operations run later on the GPU and buffers of dropped tensors are reused while commands that read them are pending; no call breaks a contract of Metal, every buffer is large enough, and every read back ends.", "quantifier": "all sequences of uploads, operations, in-place fills, clones, drops and reads, all schedules of the GPU, all sizes, all threads, all initial contents of memory", "why_tests_cant": "Reuse while a reader is pending, the flush after fifty encoders and the interleaving with the GPU depend on timing; the failing sizes, thread orders and operation sequences are special.", "anchors": ["crates/hodu_core/src/be_metal/device.rs:84-186", "crates/hodu_core/src/be_metal/storage.rs:43-121", "crates/hodu_metal_kernels/src/metal/commands.rs:47-130", "crates/hodu_metal_kernels/src/utils.rs:8-24", "crates/hodu_core/src/be_metal/storage/ops_shape_memory.rs:17-34"]}
{"id": "C121", "title": "Element-wise kernels on Metal compute what the CPU computes", "statement": "Unary and scalar operations, casts, contiguous copies, binary operations and fills on Metal end, for every view, every group size of the pipeline and every interleaving of the GPU threads, with the list of elements the CPU kernels compute.", "quantifier": "all shapes, strides, offsets and buffers, all element operations, all group sizes, all schedules of the threads, all old contents of the output", "why_tests_cant": "A test sees one GPU with one group size and one schedule; the 32-bit positions and the zero-sized launch show only at sizes tests do not use.", "anchors": ["crates/hodu_metal_kernels/kernels/headers/utils.metal:11-33", "crates/hodu_metal_kernels/kernels/ops_unary.metal:122-178", "crates/hodu_metal_kernels/kernels/ops_binary.metal:43-103", "crates/hodu_metal_kernels/kernels/ops_cast.metal:25-44", "crates/hodu_metal_kernels/kernels/ops_memory.metal:13-32", "crates/hodu_metal_kernels/kernels/storage.metal:13-32", "crates/hodu_metal_kernels/src/utils.rs:8-24"]}
{"id": "C122", "title": "Element operations on integers and Booleans are exact or reduced, and agree on all back ends", "statement": "add, sub, mul, div, rem, pow, max and min of two elements of an integer type give the exact result when the type holds it, and otherwise the reduced result where the C types define one; CUDA and Metal give the same results as the CPU; Booleans behave like 0 and 1 clamped at 1; a scalar exponent gives the power a tensor exponent gives.", "quantifier": "all eight integer types, all operands the type holds, all operations, all exponents", "why_tests_cant": "There are 2^128 operand pairs of 64-bit types; undefined signed overflow happens to wrap in a test build, so tests on one compiler cannot show it.", "anchors": ["crates/hodu_cpu_kernels/kernels/ops_binary.c:522-805", "crates/hodu_cpu_kernels/kernels/ops_unary.c:1177-1734", "crates/hodu_cpu_kernels/kernels/math_utils.h:38-92", "crates/hodu_cuda_kernels/kernels/math.cuh:96-105", "crates/hodu_cuda_kernels/kernels/ops_binary.cu:40-200", "crates/hodu_metal_kernels/kernels/ops_binary.metal:6-18", "crates/hodu_metal_kernels/kernels/ops_binary.metal:191-324"]}
{"id": "C123", "title": "concat, split, flip and pad on Metal give what the CPU gives, also in pooled buffers", "statement": "On Metal concat, split, flip and pad fill the buffer they get with the concatenation, the consecutive ranges, the reversed and the padded tensor, for every schedule, every group size and every buffer of the pool that is large enough.", "quantifier": "all shapes, axes, sizes, pads and modes, all buffer lengths and old contents, all group sizes and schedules", "why_tests_cant": "Whether an operand is in a buffer of exactly its size depends on the history of the pool; tests that make their operands from data never see a pooled operand.", "anchors": ["crates/hodu_core/src/be_metal/storage/ops_concat_split.rs:11-148", "crates/hodu_core/src/op_metadatas.rs:604-652", "crates/hodu_core/src/be_metal/device.rs:107-188", "crates/hodu_metal_kernels/kernels/ops_concat_split.metal:35-184", "crates/hodu_metal_kernels/kernels/ops_shape_memory.metal:12-51", "crates/hodu_metal_kernels/kernels/ops_padding.metal:6-227"]}
{"id": "C124", "title": "Reductions on Metal combine exactly the elements of each fibre, for every schedule and buffer", "statement": "On Metal every reduction fills its result with the combination of exactly the elements reduced into each index, for every layout, schedule, group size and pooled buffer; integer sums, maxima and minima are those of the element type; the results have the type of the tensor that is returned.", "quantifier": "all tensors up to rank 16, axis lists, combinations, integer types and values, buffer lengths and old contents, group sizes and schedules", "why_tests_cant": "A test sees one schedule on one device; the buffer a result gets, and with it whether a write outside is noticed, depends on the pool.", "anchors": ["crates/hodu_metal_kernels/kernels/ops_reduce.metal:23-942", "crates/hodu_metal_kernels/src/kernels/ops_reduce.rs:61-97", "crates/hodu_core/src/be_metal/storage/ops_reduce.rs:10-74", "crates/hodu_core/src/tensor/ops/reduce.rs:135-231"]}
{"id": "C125", "title": "Indexing on Metal reads and writes the elements the indices name, for every schedule and group size", "statement": "On Metal index_select, gather, onehot, index_put and the scatter operations give, for every schedule, group size and pooled buffer, the elements that the indices name: selected along the axis, put or accumulated into the cells they address, with the input kept everywhere else.", "quantifier": "all tensors and layouts up to rank 16, index tensors and index types, source tensors, scatter operations, buffer contents, group sizes and schedules", "why_tests_cant": "Whether two scattered values race, and what lies behind an index that is out of range, depends on the schedule and on the buffer; tests on one device see one outcome.", "anchors": ["crates/hodu_metal_kernels/kernels/ops_indexing.metal:39-380", "crates/hodu_metal_kernels/kernels/ops_indexing.metal:682-751", "crates/hodu_metal_kernels/src/kernels/ops_indexing.rs:57-348", "crates/hodu_core/src/be_metal/storage/ops_indexing.rs:10-325"]}
{"id": "C126", "title": "nonzero and compress on Metal deliver the indices of the hits and the kept elements, whatever the pool left in their buffers", "statement": "On Metal nonzero lists the index of every element that is not zero, once, and compress lists the kept elements in order, for every schedule, group size and contents of the pooled buffers.", "quantifier": "all tensors and layouts up to rank 16, conditions, contents and sizes of the pooled count, counter and output buffers, group sizes and schedules", "why_tests_cant": "The count and the counter are wrong only from the second call on, when the pool hands out a used buffer; a test that calls nonzero once in a fresh process sees zeroed memory.", "anchors": ["crates/hodu_metal_kernels/kernels/ops_indexing.metal:784-846", "crates/hodu_metal_kernels/kernels/ops_indexing.metal:1120-1218", "crates/hodu_metal_kernels/src/kernels/ops_indexing.rs:355-413", "crates/hodu_core/src/be_metal/storage/ops_indexing.rs:325-400", "crates/hodu_core/src/be_metal/storage/ops_indexing.rs:616-706"]}
{"id": "C127", "title": "matmul and dot on Metal compute the matrix product in every cell, however the threads of a group are interleaved", "statement": "On Metal matmul and dot end with C[b,i,j] = sum over k of A[b,i,k]*B[b,k,j] in the output, for operands of any layout and compatible batch dimensions, whatever threadgroup memory and the pooled buffer held before, under every interleaving of the threads with barriers.", "quantifier": "all matrices, layouts, batch shapes, element types (any multiply-add that ignores zero padding), contents of threadgroup memory and of the pooled buffer, schedules of all threads", "why_tests_cant": "A missing barrier or an unwritten cell shows only for some schedules and for sizes beyond a tile; the kernels run only on Apple hardware.", "anchors": ["crates/hodu_metal_kernels/kernels/ops_matrix.metal:36-152", "crates/hodu_metal_kernels/kernels/ops_matrix.metal:198-310", "crates/hodu_metal_kernels/src/kernels/ops_matrix.rs:67-125", "crates/hodu_metal_kernels/src/kernels/ops_matrix.rs:181-231", "crates/hodu_core/src/be_metal/storage/ops_matrix.rs:10-165"]}
{"id": "C128", "title": "Window reductions, einsum and resizing on Metal agree with the CPU under every interleaving", "statement": "On Metal reduce_window, einsum and resize end with the elements the CPU computes, for every element type the CPU supports, with integer sums, maxima and minima exact up to reduction to the type, whatever buffer the pool gives and under every interleaving of the threads; no access leaves the input whatever fast math makes of the coordinates.", "quantifier": "all tensors, layouts, windows, strides, paddings, equations, sizes, element values, contents of the pooled buffer, group sizes and schedules of the threads, all functions fast math may put in place of the coordinates and interpolations", "why_tests_cant": "The kernels run only on Apple hardware; padding at the border, wrapping integer sums, other element types and empty results are special inputs, and schedules cannot be enumerated.", "anchors": ["crates/hodu_metal_kernels/kernels/ops_windowing.metal:22-232", "crates/hodu_metal_kernels/kernels/ops_einsum.metal:29-139", "crates/hodu_metal_kernels/kernels/ops_resize.metal:35-255", "crates/hodu_core/src/be_metal/storage/ops_windowing.rs:10-112", "crates/hodu_core/src/be_metal/storage/ops_einsum.rs:7-51", "crates/hodu_core/src/be_metal/storage/ops_resize.rs:10-72", "crates/hodu_metal_kernels/src/kernel.rs:110-112"]}
{"id": "C129", "title": "Convolutions and their weight gradients on Metal agree with the CPU under every interleaving", "statement": "On Metal the convolutions, transposed convolutions and weight gradients in one, two and three dimensions end with the elements the CPU computes with the same arithmetic, for every element type the CPU supports, whatever a former tensor left in the pooled buffer and under every interleaving of the threads.", "quantifier": "all tensors, strides, paddings, dilations, sizes, element values and arithmetics, contents and lengths of the pooled buffer, group sizes, ways to add atomically and schedules of the threads", "why_tests_cant": "The kernels run only on Apple hardware; whether a buffer is fresh depends on what was dropped before, the shapes of transposed convolutions agree with those of convolutions for some paddings only, and schedules cannot be enumerated.", "anchors": ["crates/hodu_metal_kernels/kernels/ops_conv.metal:34-1172", "crates/hodu_metal_kernels/kernels/headers/atomic.metal:18-61", "crates/hodu_metal_kernels/src/kernels/ops_conv.rs:101-184", "crates/hodu_core/src/be_metal/storage/ops_conv.rs:11-192", "crates/hodu_core/src/be_metal/device.rs:167-186"]}
{"id": "C130", "title": "cumsum and topk on Metal are the sums and the best elements under every interleaving", "statement": "On Metal, for every layout, axis, element type, group size, content of the pooled buffers and interleaving of the threads, cumsum ends with the element at every index equal to the fold of the source elements up to it along the axis, and topk with the k best elements of every row and their positions, best first.", "quantifier": "all tensors, layouts, axes, sizes, accumulations and orders of keys, contents and lengths of the pooled buffers, group sizes and schedules of the threads", "why_tests_cant": "The kernels run only on Apple hardware; what unwritten cells hold depends on what was dropped before, short buffers are only visible to a memory checker, and schedules cannot be enumerated.", "anchors": ["crates/hodu_metal_kernels/kernels/ops_scan.metal:14-91", "crates/hodu_metal_kernels/kernels/ops_sort.metal:15-83", "crates/hodu_metal_kernels/src/kernels/ops_scan.rs:40-67", "crates/hodu_metal_kernels/src/kernels/ops_sort.rs:42-70", "crates/hodu_core/src/be_metal/storage/ops_scan.rs:4-35", "crates/hodu_core/src/be_metal/storage/ops_sort.rs:10-53", "crates/hodu_core/src/be_metal/device.rs:167-215"]}
{"id": "C131", "title": "Determinant, inverse and trace on Metal are those of every matrix under every interleaving", "statement": "On Metal, for every batch of square matrices of every layout and element type, every content of the pooled buffers and every interleaving of the threads, det ends with the determinant of every matrix, trace with its trace, and inv with its inverse if it has one in the element type.", "quantifier": "all tensors of matrices, batch shapes, layouts, numbers of rows, contents of the pooled buffers and schedules of the threads; arithmetics of fields, rings and of any CPU kernel", "why_tests_cant": "The kernels run only on Apple hardware; the matrices are infinitely many, overrun thread-local arrays show no symptom, and schedules cannot be enumerated.", "anchors": ["crates/hodu_metal_kernels/kernels/ops_linalg.metal:29-281", "crates/hodu_metal_kernels/kernels/ops_linalg.metal:302-553", "crates/hodu_metal_kernels/kernels/ops_linalg.metal:570-622", "crates/hodu_metal_kernels/src/kernels/ops_linalg.rs:38-205", "crates/hodu_core/src/be_metal/storage/ops_linalg.rs:9-185"]}
{"id": "C132", "title": "Kernel names, devices, Metal pipelines and CUDA functions come out of their caches right under every interleaving", "statement": "However the calls of several threads are interleaved: the string leaked for a kernel name and the device created for an id are the only ones, have the text and id asked for, and every call returns after at most two critical sections; a Metal pipeline handed out is compiled from the function, constants and source asked for as long as no name is used with two sources, which holds for all the names the hosts form; a CUDA function handed out is the one of the source and name asked for. False of the code: the leak is not bounded by MAX_KERNEL_NAMES; the pipeline cache does not have the source in its key; a CUDA module may be loaded twice and two calls for the same kernel get functions of different copies.", "quantifier": "every number of calls and threads, every interleaving of critical sections, every answer of the device, all names", "why_tests_cant": "The interleavings that matter (two threads between the read and the write lock) practically never happen in a test, and the tests never use a name with two sources.", "anchors": ["crates/hodu_core/src/cache/kernel.rs:25-57", "crates/hodu_core/src/be_cuda/device.rs:30-65", "crates/hodu_metal_kernels/src/kernel.rs:103-160", "crates/hodu_metal_kernels/src/kernels/macros.rs:5-28", "crates/hodu_cuda_kernels/src/kernel.rs:156-213"]}
{"id": "C133", "title": "Bitwise operations on Metal give the right bits for every count and value, and the same tensor as the CPU wherever the CPU defines one", "statement": "Each bitwise operator of the Metal kernels is the bitwise operator on every pair of values; a shift uses the count modulo 32 (64 for 64-bit types), so it is defined for every count, and equals the CPU kernel wherever that is defined. For well-formed operands of every rank, in every schedule and for every size of thread group, the launch fills a buffer of any length with the operator applied element by element; the result is the tensor the CPU returns. False of the code: a broadcast left operand and unary operators on views give permuted or repeated elements (as on the CPU), empty tensors panic, a shift by the width leaves the value.", "quantifier": "all widths, values, counts, shapes, strides, schedules, thread group sizes", "why_tests_cant": "Shifts by counts of at least the width are undefined on the CPU and would not be compared; schedules and views cannot be enumerated.", "anchors": ["crates/hodu_metal_kernels/kernels/ops_bitwise.metal:21-267", "crates/hodu_metal_kernels/src/kernels/ops_bitwise.rs:50-200", "crates/hodu_core/src/be_metal/storage/ops_bitwise.rs:15-230"]}
{"id": "C134", "title": "A printed tensor shows the right elements in order, inside of matching brackets", "statement": "Printing a tensor shows exactly the elements all of whose coordinates are among the first four or last four of their dimension (all, for at most eight entries), in row-major order; the brackets match and every value is inside of as many as the tensor has dimensions; at most 8^rank values are printed; the values of a vector take the same number of characters; a float that is not an integer is printed as its rounding to six digits without the zeros at the end, always with a point; Debug shows the first and last four values. False of the code: contiguous slices print their whole storage, an empty dimension before the last panics, the columns of a matrix are aligned for the first three rows and columns only, and small values print as zero.", "quantifier": "every shape, strides, element values and way to format one value; every rounded value", "why_tests_cant": "Shapes, strides and values cannot be enumerated, and a wrong order of elements looks plausible.", "anchors": ["crates/hodu_core/src/tensor/display.rs:23-41", "crates/hodu_core/src/tensor/display.rs:195-385", "crates/hodu_core/src/tensor/display.rs:387-409"]}
{"id": "C135", "title": "hodu convert keeps the tensor or the snapshot and touches only the output", "statement": "Converting a tensor between .hdt and .json, in every combination and also onto itself, leaves an output that reads as the same type, shape and bytes and changes no other file; a plugin asked to save is given a file that reads as the tensor, and after success the temporary file is gone and all other files are as before; what cannot be converted (no file, no extension, no plugin or one without the capability, a tensor to a model format) is an error that changes nothing; a snapshot converted to a snapshot is copied. False of the code: a snapshot converted onto itself is emptied and success is reported, a failing plugin leaves the temporary file behind, and tensors with NaN or infinities become JSON files that cannot be read.", "quantifier": "every file system, path, tensor, registry, and behaviour of the plugins", "why_tests_cant": "Needs installed plugins and a file system; the command has no tests.", "anchors": ["hodu-cli/src/commands/convert.rs:28-76", "hodu-cli/src/commands/convert.rs:78-128", "hodu-cli/src/commands/convert.rs:130-207"]}
{"id": "C136", "title": "hodu build asks the right backend for what the arguments say", "statement": "Every request sent to a backend is for an existing model whose snapshot (the file itself or what an enabled plugin for its extension made) loads; it carries the triple asked for or the host's, the device in lower case, the format asked for or that of the output name, and the output; it goes to an installed and enabled plugin that builds, by name (or aot-name if no plugin of the name builds) or the first enabled backend with the device; errors happen exactly when there is none. False of the code: with --backend the device need not be one of the plugin, a disabled plugin hides its enabled aot- sibling, upper-case output extensions are not recognised, and the optimisation level and --standalone change nothing.", "quantifier": "every registry, arguments, file system and behaviour of the plugins", "why_tests_cant": "Needs installed plugins; the command has no tests.", "anchors": ["hodu-cli/src/commands/build.rs:64-156", "hodu-cli/src/commands/build.rs:170-228", "hodu-cli/src/commands/build.rs:230-251"]}
{"id": "C137", "title": "hodu inspect reports true numbers", "statement": "The summary of a snapshot lists every category of its nodes exactly once with the number of its nodes, in descending order, and the numbers add up to the nodes, whatever order the hash map iterates in; sizes are shown within half a hundredth of the largest fitting unit and more bytes never show as less; inspecting a saved tensor shows its shape, type, number of elements and bytes. False of the code: categories with equal numbers come in the order of the hash map, and just below a unit the size reads 1024.00 of the smaller one.", "quantifier": "every snapshot, iteration order, number of bytes and tensor", "why_tests_cant": "The order of a hash map changes from run to run, and the rounding shows only next to a unit.", "anchors": ["hodu-cli/src/commands/inspect.rs:156-165", "hodu-cli/src/commands/inspect.rs:202-208", "hodu-cli/src/commands/inspect.rs:475-489"]}
