# Formal model of hodu: design

The model is written in Lean 4 under `lean/Verif`. It covers the CPU backend path of
`hodu_core` (shapes, layouts, views, kernels, serialisation), the gradient tape, capture,
datasets, optimizers and the plugin runtime.

## Trusted base

* Lean 4.33.0's kernel. No `sorry`, no own axioms, no `native_decide`/`bv_decide`. Every
  theorem depends only on `propext`, `Classical.choice`, `Quot.sound`.
* The transcription of Rust/C into Lean definitions. Each definition cites the modelled lines.
* Assumptions of the transcription: arithmetic on elements is an arbitrary function of the operands
  (so results are equal as expressions, including the order of operations) unless a theorem asks for
  algebraic laws; no rounding, no contraction of multiply-add, SIMD lanes apply the scalar operation
  to each lane; size products do not overflow `usize`; integer overflow in host Rust code panics
  (debug profile) where it is modelled (`i32` slice arithmetic, `usize` subtraction).
* The wire formats of postcard (varint lengths, little-endian fields) and of serde_json are modelled
  from their specification.
* CUDA kernels: any interleaving of the threads on sequentially consistent memory, loads and stores of one
  element indivisible; what the hardware does beyond that (weak memory, launch failures) is not modelled.
* Not modelled: Metal, the CUDA files not listed below, the inside of BLAS, third-party crates (serde_json, postcard, half, float8)
  beyond the above, the OS beyond the file and pipe steps described in the property.

## What is modelled

Paths are relative to `/repo/crates`. "Host" is the Rust that validates, builds metadata and calls a
kernel; "kernel" is the C loop.

| Lean file (`lean/Verif/Model`) | Code |
|---|---|
| `Layout`, `Tensor` | `hodu_core/src/types/{shape,layout}.rs`, views of `tensor/ops/shape.rs` |
| `KernelUtils`, `Elementwise` | `hodu_cpu_kernels/kernels/{utils.h,ops_binary.c,ops_unary.c}`, `tensor/ops/{binary,unary,cmp}.rs` |
| `DType` | `types/{dtype,device}.rs` encodings |
| `ReadBack` | `contiguous`, `to_flatten_vec`, `to_bytes`/`from_bytes` |
| `Move` | concat, split, chunk, flip, pad: host and kernel |
| `Reduce` | `tensor/ops/reduce.rs`, `ops_reduce.c`, `sum_to_shape` of the VJP rules |
| `Matmul` | `tensor/ops/matrix.rs`, `ops_matrix.c` (no BLAS) |
| `Indexing` | index_select, index_put, gather, scatter: host and kernel |
| `ScanSort` | cumsum, topk |
| `Einsum` | `einsum.rs`, `tensor/ops/einsum.rs`, `ops_einsum.c` |
| `Datasets` | `hodu_datasets`: subset, split, samplers, batches, loader |
| `Optim` | `hodu_nn/src/optimizers` over the reals |
| `Autograd`, `TensorRegistry` | `tensor/gradient/{tape,context,compute,core}.rs`, `tensor/{core,internal,registry}.rs` |
| `Float`, `JsonFormat` | the floating-point formats as bit patterns; `format/json.rs`, with the parts of `serde_json` that print and parse numbers |
| `Conv` | conv, conv_transpose and their weight gradients: host, metadata, `ops_conv.c`; the backward rules of `vjp_conv.rs` |
| `Select` | onehot, nonzero, unique, compress: host, metadata, kernels of `ops_indexing.c` |
| `Linalg` | det, inv, trace: host, metadata, kernels of `ops_linalg.c` |
| `GradRules` | backward rules of element-wise operators and reductions (`vjp_unary.rs`, `vjp_binary.rs`, `vjp_reduce.rs`, `vjp_utils.rs`), softmax (`normalization.rs`) |
| `ShapeRules`, `MatrixRules` | backward rules of shape, movement, scan, concat/split and matrix operators (`vjp_shape.rs`, `vjp_shape_memory.rs`, `vjp_scan.rs`, `vjp_concat_split.rs`, `vjp_matrix.rs`) |
| `IndexRules` | backward rules of the indexing operators and topk (`vjp_indexing.rs`, `vjp_sort.rs`) |
| `LinalgRules` | backward rules of det, inv, trace (`vjp_linalg.rs`) |
| `EinsumRules` | backward rule of einsum (`vjp_einsum.rs`) |
| `SmallFloat` | conversions of the reduced-precision types in the kernels (`t_bf16.h`, `t_f16.h`, `t_f8e4m3.h`, `t_f8e5m2.h`) |
| `Window` | `reduce_window`: host (`windowing.rs`, `ops_windowing.rs`), metadata, kernels (`ops_windowing.c`) |
| `WindowRules` | backward rules of `reduce_window` (`vjp_windowing.rs`) |
| `Dispatch` | element-type validation (`utils/valid.rs`), host match arms (`be_cpu/storage/ops_*.rs`), operation names (`ops.rs`), kernel name tables (`hodu_cpu_kernels/src/kernels/*.rs`) |
| `Typed` | public operations with element types: `tensor/ops/{binary,unary,cmp,reduce,cast_memory,selection}.rs`, `tensor/utils.rs: broadcast_tensors3`, `tensor/creation.rs: full, ones_like, zeros_like` |
| `Losses` | `forward` of every loss (`hodu_nn/src/losses/*.rs`), `log_softmax`, typed `gather` and `squeeze` |
| `Norm` | `forward` of every layer of `hodu_nn/src/modules/norm.rs`, typed `reshape` |
| `Attention` | `Linear::forward`, `scaled_dot_product_attention`, `create_causal_mask`, `MultiheadAttention::forward_qkv` of `hodu_nn/src/modules`, typed `matmul`, `softmax`, `transpose` |
| `Embedding` | `Embedding::forward`, `from_pretrained`, `apply_max_norm`, `handle_padding_idx` of `hodu_nn/src/modules/embedding.rs`, typed `unsqueeze`, `index_select` |
| `Recurrent` | `forward_step` and `forward_with_state` of `RNN`, `LSTM` and `GRU` in `hodu_nn/src/modules/rnn.rs`, typed `slice`, `stack` |
| `Pooling` | all of `hodu_nn/src/modules/pooling.rs` but `output_ratio` |
| `ConvLayers` | `forward` of all layers in `hodu_nn/src/modules/conv.rs` and the shapes of their weights |
| `Activation` | `hodu_nn/src/modules/dropout.rs`; `LeakyReLU`, `ELU`, `PReLU`, `RReLU` in `hodu_nn/src/modules/activation.rs`; `rand_uniform_like` |
| `Resize` | `tensor/ops/resize.rs` with the parsing of its options, `call_ops_resize`, `resize_metadata`, `ops_resize.c` |
| `PadRules` | `vjp_padding.rs` and `vjp_resize.rs` |
| `Bitwise` | `tensor/ops/bitwise.rs`, `be_cpu/storage/ops_bitwise.rs`, `ops_bitwise.c` |
| `Cast` | `tensor/ops/cast_memory.rs` (`to_dtype`, `to_device`), `be_cpu/storage.rs` (`to_dtype`), `ops_cast.c` |
| `Nested` | `into/flatten.rs`, `tensor/creation.rs` (`new`, `from_slice`), `tensor/vec.rs` (`to_vec1d` to `to_vec8d`) |
| `Creation` | `tensor/creation.rs` (`zeros`, `ones`, `full`, `arange`, `linspace`, `eye`), `be_cpu/storage.rs` (`const_set`), `kernels/storage.c`, `scalar.rs` (`to_f32`, `one`) |
| `Symbolic` | `types/{dim,symbolic_shape,symbolic_layout,dynamic_registry}.rs`, capture branches of `nonzero`, `unique`, `compress` in `tensor/ops/indexing.rs` |
| `Scalar` | `scalar.rs`: conversions, `from_*`, arithmetic of integers and booleans, `powi`, integer `sqrt`, `is_integer_value`; float arithmetic is a parameter |
| `Wire` | `snapshot.rs`, `op_params.rs`, `ops.rs`, `scalar.rs` (derived serialisation), `format/hdt.rs` (`save_many`, `load_many`); the wire format of the crate `postcard` is written out, rounding to the eight-bit floats is a parameter |
| `Blas` | `ops_matrix_openblas.c`, `ops_conv_openblas.c`, `ops_unary_openblas.c` (and the three `*_blas_aarch64_apple_darwin.c` with the same text); BLAS is its documented effect |
| `Cuda` | `hodu_cuda_kernels/kernels/{utils.cuh,ops_unary,ops_binary,ops_cast,ops_memory,storage}.cu` and their launches in `src/kernels/*.rs`; device memory is sequentially consistent, one element is loaded or stored at once |
| `CudaTile` | `hodu_cuda_kernels/kernels/ops_matrix.cu`, its launches in `src/kernels/ops_matrix.rs` and `be_cuda/storage/ops_matrix.rs`; `__syncthreads` holds a thread until its block has arrived |
| `CudaAtomic` | `hodu_cuda_kernels/kernels/atomic.cuh`, the scatter kernels of `ops_indexing.cu`, their launch and `call_ops_scatter` of `be_cuda/storage/ops_indexing.rs`; a load, a store, an `atomicCAS` and a native atomic are one step each |
| `CudaProg`, `CudaUnique` | threads of CUDA kernels as programs of loads, stores and atomic additions; the `unique` kernels of `hodu_cuda_kernels/kernels/ops_indexing.cu`, their launches and `call_unique` of `be_cuda/storage/ops_indexing.rs`; one step per access |
| `CudaSelect` | `nonzero` and `compress` of `hodu_cuda_kernels/kernels/ops_indexing.cu`, their launches and hosts in `be_cuda/storage/ops_indexing.rs`; one step per access of a shared buffer |
| `CudaReduce` | `hodu_cuda_kernels/kernels/ops_reduce.cu` with its float accumulators, its launch and `be_cuda/storage/ops_reduce.rs`; transcendental final steps are a parameter |
| `CudaMove` | `hodu_cuda_kernels/kernels/{ops_concat_split,ops_shape_memory,ops_padding}.cu`, their launches and `be_cuda/storage/{ops_concat_split,ops_shape_memory,ops_padding}.rs` |
| `CudaScan` | `hodu_cuda_kernels/kernels/{ops_scan,ops_sort}.cu`, their launches and `be_cuda/storage/{ops_scan,ops_sort}.rs` |
| `CudaIndex` | `hodu_cuda_kernels/kernels/ops_indexing.cu` (index_select, index_put, gather, onehot), their launches and `be_cuda/storage/ops_indexing.rs` |
| `CudaWindow` | `hodu_cuda_kernels/kernels/ops_windowing.cu`, `ops_einsum.cu`, `ops_resize.cu`, their launches and `be_cuda/storage/ops_windowing.rs`, `ops_einsum.rs`, `ops_resize.rs` |
| `CudaConv` | `hodu_cuda_kernels/kernels/ops_conv.cu` (forward kernels), the launches and `be_cuda/storage/ops_conv.rs` |
| `CudaConvGrad` | `hodu_cuda_kernels/kernels/ops_conv.cu` (weight-gradient kernels), the launch and `call_ops_conv_grad_weight` of `be_cuda/storage/ops_conv.rs` |
| `CudaLinalg` | `hodu_cuda_kernels/kernels/ops_linalg.cu`, its launches and `be_cuda/storage/ops_linalg.rs` |
| `CudaBitwise` | `hodu_cuda_kernels/kernels/ops_bitwise.cu`, its launches and `be_cuda/storage/ops_bitwise.rs` |
| `RunCli` | `hodu-cli/src/tensor/{loader,saver}.rs` and the inputs, temporary files and device of `hodu-cli/src/commands/run.rs` |
| `RunCache` | the cache key, build and run steps of `hodu-cli/src/commands/run.rs` and `hodu-cli/src/commands/clean.rs` |
| `MetalQueue` | buffer pool, command buffers, queue and read back of the Metal back end: `be_metal/device.rs`, `be_metal/storage.rs` (upload, fill, read), `hodu_metal_kernels/src/metal/commands.rs`, `linear_split` for no elements |
| `MetalGrid` | grid, positions and loops of the element-wise Metal kernels: `ops_unary.metal`, `ops_binary.metal`, `ops_cast.metal`, `ops_memory.metal`, `storage.metal`, `linear_split` |
| `IntOps` | element operations on integers and Booleans with C promotion, overflow and conversion: `ops_binary.{c,cu,metal}`, `ops_unary.c`, `ipow_i64`, `ipow_u64`, `ipow`, `powf_opt` |
| `MetalMove` | kernels, launches and hosts of concat, split, flip and pad on Metal, with whole pooled buffers as storage |
| `MetalReduce` | walk, launch, dispatch and host of the reductions on Metal; integer accumulators; stored sizes |
| `MetalIndex` | index buffers read as 32-bit words, indexing kernels, launches and hosts on Metal, scatter with the initial copy |
| `MetalSelect` | nonzero with the count and counter buffers the pool gives, compress, on Metal |
| `MetalMatrix` | matmul and dot on Metal: grids, batch shapes, the kernel with 4 x 4 register blocks and barriers |
| `MetalWindow` | reduce_window, einsum and resize on Metal: kernels, launches, hosts, integer accumulation |
| `MetalConv` | convolutions, transposed convolutions and weight gradients on Metal: kernels, launches, hosts |
| `MetalScan` | cumsum and topk on Metal: kernels, launches, hosts |
| `MetalLinalg` | det, inv and trace on Metal: kernels, launches, hosts |
| `Props/MetalErrors.lean` | What the Metal hosts answer to arguments outside of the domain of an operation; the full table of reduction kernels (C124, C125, C127-C130) |
| `KernelCache` | `cache/kernel.rs`, `be_cuda/device.rs` (get), `hodu_metal_kernels/src/kernel.rs`, `hodu_cuda_kernels/src/kernel.rs`, the `ops!` lists of the Metal hosts (C132) |
| `MetalBitwise` | `ops_bitwise.metal`, its launches and the Metal hosts of the bitwise operations (C133) |
| `Display` | `tensor/display.rs` (C134); the text of one value is a parameter, except for `format_float` |
| `Convert` | `commands/convert.rs` (C135); plugins are functions on the file system |
| `Build` | `commands/build.rs` up to the request (C136); plugins are parameters |
| `Inspect` | the summary, sizes and tensor facts of `commands/inspect.rs` (C137); sizes are exact below 2^53 bytes |
| `Capture` | `snapshot.rs`, `snapshot/capture/{board,storage}.rs` |
| `Rpc`, `PluginServer`, `PluginRegistry`, `RegistryFile`, `RunFiles` | `hodu_plugin`, `hodu_plugin_runtime`, `hodu-plugin-sdk`, `hodu-cli` run command's input files |

## Conventions

* A Rust `Result` with possible panic or C undefined behaviour is `Res`: `ok`, `err`, `panic`, `ub`.
  A theorem that concludes `= .ok r` therefore also excludes crashes and out-of-bounds access.
* A tensor is a storage buffer (list of elements) and a layout (dims, strides, offset); several
  tensors may share a buffer. `elem t idx` is what a user reads at multi-index `idx`.
* Specifications (`Verif/Spec*.lean`) do not use the model's loops.
* Where the code does not satisfy a property, the negation is proved with a concrete witness and
  the strongest provable restriction is proved under a name ending in `_partial`.

## Plan per property

* **C01 Row-major addressing of a fresh tensor** - Model from_slice/compute_strides over List Nat; specify row-major position by recursion on the shape; prove address = position, position is a bijection onto [0,size).
* **C02 Reshape and flatten keep the element sequence** - Model Layout::reshape/flatten and the copying path of Tensor::reshape (contiguous kernel); prove element sequence preserved for all well-formed tensors.
* **C03 Transpose and permute relocate indices, never values** - Model transpose/permute incl. normalize_axis and the seen[] check; prove index law and involution.
* **C04 Slice follows start/end/step semantics** - Model slice with i32 values and explicit overflow/panic outcome. Expected false for negative steps (stride stays positive): prove negation + partial for positive steps.
* **C05 broadcast_to repeats, and rejects incompatible shapes** - Model Layout::broadcast_to; prove iff for success and element law.
* **C06 Broadcast shape rule** - Model broadcast_shape (saturating_sub indexing) and broadcast_tensors2's shape loop. Expected false for the former: negation + partial (equal ranks); full theorem for the latter.
* **C07 Squeeze and unsqueeze only add or remove unit dimensions** - Model squeeze/unsqueeze; round trip. Expected false for repeated dims: negation + partial.
* **C08 No view ever addresses memory outside its storage** - Transition system over view ops; invariant WF (all addresses in bounds) by induction. Negative-step slice breaks it: negation + partial.
* **C09 Element-wise kernel result is independent of path, thread count and schedule** - Model the four kernel paths, chunk arithmetic, and workers as lists of writes; any permutation of all writes gives the sequential result.
* **C10 Binary tensor operators agree with broadcasting semantics** - Compose broadcast_tensors2 + kernel + result layout. Expected false (result reuses the broadcast lhs layout): negation + partial.
* **C11 Unary tensor operators act element-wise on every view** - Compose unary kernel + fresh layout; full theorem over well-formed tensors.
* **C12 Comparison operators agree with broadcasting semantics** - As C10 for cmp_op!.
* **C13 contiguous() is an identity on values** - Model Tensor::contiguous and CpuStorage::contiguous; full theorem.
* **C14 Reading a tensor back returns its logical elements** - Model extract_with_layout exactly; expected false for slice views: negation + partial.
* **C15 Saving and loading a tensor is the identity** - Model to_bytes/from_bytes with byte codecs per width; expected false for contiguous slice views: negation + partial. postcard itself is trusted.
* **C16 Concatenation joins the operands in order** - Model concat host packing + metadata + kernel; expected false for views: negation + partial.
* **C17 Split is the inverse of concat** - Model split host + kernel; inverse law; sum-of-sizes check is missing: negation + partial.
* **C18 Chunk covers the dimension and never crashes** - Model chunk arithmetic with usize underflow as panic; negation + partial.
* **C19 Flip reverses the named axes** - Model flip host + kernel; expected false on views: negation + partial, involution.
* **C20 Padding places the source and fills the border by rule** - Model index maps and pad kernels; expected false on views: negation + partial; index maps in range for all widths.
* **C21 Reductions fold exactly the reduced coordinates** - Model reduce metadata + REDUCE_OP loop; repeated axes expected false: negation + partial.
* **C22 Reduction result shape** - Model host shape computation; zero-size dims expected false: negation + partial.
* **C23 argmax/argmin return the position of the extremum** - Model arg-kernel byte width; expected false: negation + partial on index search loop.
* **C24 topk returns the k largest elements** - Model quickselect/topk_select; prove selection property for all inputs over a total order; host-side storage/layout mismatch: negation.
* **C25 cumsum is the running prefix fold** - Model cumsum kernel; prefix-sum law for all layouts.
* **C26 einsum equation parsing is sound** - Model ParsedEinsum::parse over character lists; soundness theorem.
* **C27 einsum computes the sum of products** - Model einsum kernel; equals independent sum-of-products spec.
* **C28 index_select picks the named slices** - Model index_select host + kernel; expected false for index views: negation + partial.
* **C29 index_put replaces exactly the named slices** - Model index_put_metadata and the kernel's decoding: negation.
* **C30 gather reads through the index tensor** - Model gather; result layout taken from indices: negation + partial.
* **C31 scatter updates exactly the addressed cells** - Model scatter/scatter_add kernels; negation + partial.
* **C32 Batched matrix product** - Model matmul three paths; equality with spec for all layouts.
* **C33 Gradient of broadcasting is summation** - Model sum_to_shape over a commutative semiring; adjointness theorem.
* **C34 Reverse-mode differentiation is the adjoint of forward mode** - Abstract tape of n-ary ops with local linear maps; reverse sweep is adjoint of forward tangent propagation, by induction over the tape.
* **C35 Repeated backward accumulates or replaces predictably** - State machine over forward/backward/zero_grad histories.
* **C36 Gradient contexts nest** - State machine for CONTEXT_STACK; expected false for non-LIFO drops: negation + partial.
* **C37 Tensor registry never frees a live tensor and frees dead ones** - State machine for refcounts; invariant.
* **C38 Captured snapshot computes the captured targets** - Model capture reachability; evaluation-preservation theorem.
* **C39 Enumerations survive their encodings** - Model encoders; finite case analysis over constructors (complete, not sampled), device ids over all naturals in range.
* **C40 Samplers visit every index exactly once** - Model Fisher-Yates with arbitrary choice oracle; permutation theorem.
* **C41 A data-loader epoch covers the dataset exactly once** - State machine for DataLoader over arbitrary epochs.
* **C42 A batch holds the rows of the dataset it was built from** - Compose slice, squeeze, unsqueeze, concat on the tensor model; expected false: negation + partial.
* **C43 random_split partitions the dataset** - Model random_split; partition theorem.
* **C44 ConcatDataset lookup** - Model cumulative-size lookup; correctness theorem.
* **C45 Optimizer updates follow their published recurrences** - Optimizer recurrences over a real field; Adam expected to disagree: negation; others proved.
* **C46 An RPC call never returns another request's answer** - Model PluginClient::call as function of received lines; safety theorem over all line sequences.
* **C47 The RPC channel recovers after a timeout or cancel** - Client + in-order server model with timeout; expected false: negation (permanent desync) + partial.
* **C48 Protocol compatibility is an equivalence** - Model is_protocol_compatible over character lists; equivalence expected to hold; 'exactly when' checked.
* **C49 Plugin server answers each request once, and only after initialisation** - Server state machine; one response per line theorem.
* **C50 Plugin registry keeps one entry per name** - Registry list operations; invariant by induction.
* **C51 Registry file survives crashes and concurrent readers** - Small-step model of save/load on a file with crash points; expected false: negation + partial.
* **C52 Disabled or unknown plugins are never started** - PluginManager state machine; invariant.
* **C53 JSON tensor format round-trips** - Model JSON value conversion; expected false for non-finite floats: negation + partial.
* **C54 Concurrent runs and input names do not clobber each other's inputs** - Model temp path assignment; expected false: negation + partial (single run, distinct names).
* **C55 Host-encoded kernel metadata is decoded field by field** - Encode/decode of each metadata vector; index_put expected to disagree: negation + theorems for the others.
* **C56 A call reports what the plugin's handler returned** - Client and server models composed; expected false for a null result.
* **C57 No gradient is lost when other handles are dropped** - Tape with drops of handles; expected false: negations + partial.
* **C58 Layouts recorded in a snapshot describe the values nodes read** - Invariant over capture histories; expected false for constants.
* **C59 Convolution is strided, dilated, zero-padded cross-correlation** - Model metadata, kernel loops and host checks; expected to need contiguous operands: negation + partial.
* **C60 Transposed convolution scatters each input through the kernel** - Accumulating kernel over the output; compare with the defining sum; expected false for the weight order.
* **C61 Gradients of the convolutions are their adjoints** - Compose the transpose view, transposed convolution and weight-gradient kernels; exchange sums; expected false for strides with a rest.
* **C62 onehot marks exactly the class of each element** - Kernel as a fold of writes into a zeroed buffer; injectivity of the row-major position; expected false for views.
* **C63 nonzero lists the indices of the non-zero elements in row-major order** - Both passes as folds over the row-major positions; compare with the filtered list of indices.
* **C64 unique returns the distinct values in ascending order with inverse and counts** - Loop invariant over the sorted order, for any permutation sorted by key; expected false for negative integers (keys are cast to size_t).
* **C65 compress keeps exactly the slices at which the condition is true** - Nested loops appending blocks into a buffer of the counted size; allocator content as a parameter; expected false for views as condition.
* **C66 det returns the determinant of every matrix of a batch** - Elimination loop with the invariant (-1)^swaps * det(A) = det(A0), lower-left zeros, running product of pivots; Mathlib determinant as specification; expected false for the threshold, integer division and empty batches.
* **C67 inv returns the inverse of every invertible matrix of a batch** - Gauss-Jordan with the invariant left = right * A0 and unit columns; adjugate formulas for n = 2, 3; expected false for integer types and empty batches.
* **C68 trace returns the sum of the diagonal of every matrix of a batch** - Fold over the diagonal; batch offset as a dot product of the batch index with the batch strides.
* **C69 Backward rules of reductions are the derivatives of the reductions** - The rules are programs over the already verified operations; compose their specifications and compare with HasDerivAt of the textbook reduction of a cell. Expected false without keep_dim.
* **C70 softmax and log_softmax are the textbook functions** - Compose reduce, broadcast and element-wise specifications; the shift cancels because it is constant along the axis.
* **C72 Backward rules of unary operators are their derivatives** - The rules are expressions; evaluate them generically (Ex.run_val) and prove HasDerivAt for each formula. Expected false for hardsigmoid/hardsilu and for the constant of the GELU rule.
* **C73 Backward rules of binary operators are the partial derivatives, summed over broadcast positions** - Two-shape evaluation of the rules plus C33 for the sums; derivative of the pairing. Expected false for broadcast pow/maximum/minimum and for rem with opposite signs.
* **C77 Backward rules of matmul and dot are adjoint to the product** - Values of the product from C32, exchange of finite sums, broadcasts through C78. Expected false for empty batches and rank above 16 (inherited from C32).
* **C78 Backward rules of view operators move each upstream entry to the element it was read from** - SumsAlong (from C33) with the index map of the view; bijections for all but broadcast. Expected false for transpose of other axes than the last two and for permutations.
* **C79 Backward rules of concat and split return the slices of the upstream gradient** - C16 and C08 applied to the rule. Expected false for negative axes and stride-0 upstream gradients.
* **C81 Backward rules of flip and cumsum are the adjoints** - C19 and C25 applied to the rule. Expected false for upstream gradients that are views.
* **C82 Backward rules of slice, gather, index_select, topk and scatter route each upstream entry to its element** - All rules scatter into zeros; C31 says what the kernel writes. Expected false for repeated indices (scatter_add overwrites, C31), for slice/index_select on axes other than the first (the 1-D index is broadcast along the wrong axis) and for negative axes.
* **C71 Backward rules of det, inv and trace are adjoint to the derivative** - Compose C66-C68 with matmul, transpose and broadcasting. Expected false: a single matrix gives a gradient with an extra axis, and trace broadcasts the wrong axis.
* **C80 Backward rule of einsum is the einsum with the operand and the output exchanged** - The parser is characterised by C26; the gradient equation is well formed iff every label of the operand occurs in the output or in another operand. Values: false because of C27.
* **C76 Reduced-precision conversions round to nearest and round trip** - Bit-pattern model on top of the format definitions of C53; the only inexact float operations are the subtraction and addition around the mantissa. Expected false: subnormals, ties, carry into the exponent, overflow of the 8-bit types, bf16 NaNs.
* **C83 Sliding-window reductions reduce exactly the elements in the window** - Generic accumulation over the padded input, then sums over input elements by a bijection and extremes by a fold invariant. Expected false: means of 16-bit types (integer arithmetic on patterns), 8-bit maxima with padding (the initial value is a NaN), panics instead of errors.
* **C84 The backward rules of sliding-window reductions return the gradient** - Compose reshape/broadcast specifications into "repeat every element", show that under tiling each input element lies in exactly one window, then adjointness by exchanging sums. Expected false for overlapping windows, remainders, padding and ties.
* **C74 An operation and element type that pass validation run the kernel of that operation** - Transcribe the three tables, prove coverage by complete case analysis (membership is structural, names are compared only for refutations), and determine exactly which accepted pairs fail.
* **C85 where3, masked_fill and clamp select the right elements** - Typed tensors (element type and values); the weighted sum is the selection over the reals; determine exactly when the other four are right; infinities refuted in an arithmetic with infinities.
* **C75 Loss functions compute the loss they are named after** - Values of typed tensors through the composition, over the reals; losses that never return are refuted for every input in every arithmetic.
* **C86 Normalization layers standardize over the documented elements** - Values of typed tensors through the composition; the cell of a reduction over trailing axes, over everything but the channels and, through the reshape, over a group is given explicitly.
* **C87 Linear layers and attention compute their formulas** - Values of typed tensors through transpose, matmul, reshape and softmax; the masked scores are computed in any arithmetic, then specialised to the reals and to an arithmetic with infinities.
* **C88 Embedding looks up the rows its indices name** - flatten copies or reuses the buffer, index_select by C28, reshape by row-major positions; the norm through the trailing cells of a reduction; the options by concrete tables in an exact arithmetic.
* **C89 Recurrent networks compute their documented recurrences** - Induction over layers inside an induction over time steps, with one relation for readable states and one for fresh ones; slices of the gates through the layout of a column slice; stack as concat of unsqueezed states.
* **C90 Pooling layers reduce exactly the windows they document** - Windows through C83 with unit windows for batch and channel; a sum over all positions collapses to one batch and channel; error analysis of the rounded boundaries; block slices by induction over the axes.
* **C91 Convolution layers add the bias of their channel to the documented convolution** - Composition of C59 and C60 with reshape and broadcasting; the kernel does not see the strides of the weight, so a square weight is read as the exchanged view.
* **C92 Dropout and activation layers compute their documented functions in both modes** - The random numbers are an argument of the model; values over the reals through the typed operations; type errors by inversion of the program.
* **C93 Resize interpolates at the coordinates of the requested transformation** - Coordinates are rationals with a rounding function as argument; values for exact coordinates over the reals, safety for every rounding; uniqueness of the specified value.
* **C94 Gradients of padding and resizing sum the outputs an input contributed to** - The rules are composed from the modelled slice, flip, sum, add and concat; the sources come from the specification of C20. The pairing of constants decides resize.
* **C95 Bitwise operations act on the bits of every element** - Elements are bit vectors; the C expressions are evaluated with promotion and narrowing as in C11, undefined shifts are a separate outcome. The specification is about single bits.
* **C96 Changing the element type converts every element, changing the device keeps it** - Elements are bit patterns; every finite element is an integral multiple of 2^-1074, so that exactness and rounding are statements about integers. The C conversions are modelled with their undefined cases.
* **C97 Nested arrays keep their elements on the way in and out** - Nested vectors are a type indexed by the depth; the eight copies of each function are one recursion on the depth. The specification indexes nested vectors one level at a time.
* **C98 Created tensors hold what their constructor says** - f32 arithmetic on bit patterns as correctly rounded exact results. For whole numbers up to 2^24 all intermediate results but the quotient are exact, and the rounded quotient lies between the same whole numbers as the exact one, so rounding it up counts the terms.
* **C99 What is recorded for shapes that depend on the data has room for every result** - The symbolic strides are the row-major strides of the largest shape, whose indices include those of every resolved shape. The bounds of the captured operations follow from C63 to C65.
* **C100 Scalars convert by saturating and calculate exactly or not at all** - Clamping to a bound that is rounded up does not change the saturated value because both sides saturate to the same number. For powers, a square is only computed while the exponent has bits left, so it divides the result, and no square is exactly one above the largest signed number. For roots, a float lies between the root and the next whole number.
* **C101 Files of snapshots and of named tensors load as what was saved** - A universe of schemas describes what the derived implementations see; encoder and decoder are defined over all schemas, and round trip, left-over bytes and byte ranges are proved by induction on the schema. That no beginning of a file loads follows from the decoder leaving further bytes untouched.
* **C102 Builds with BLAS compute the same as plain builds** - gemm is modelled by its documented effect. The general theorems say which product or which entry of the matrix of taps every result element gets; the claim holds exactly where that entry is the one needed.
* **C103 Element-wise CUDA kernels compute every element under every interleaving** - Threads are interleaved element step by element step, with loads and stores of one element indivisible.
* **C104 Tiled matrix products on CUDA are the products, under every interleaving** - One invariant of all interleavings: no thread passes a barrier before its block arrives, a shared cell holds the value of the current tile between the two barriers, the running sum is the sum of the first terms.
* **C105 Scatter on CUDA updates every addressed cell exactly once per source element, under every interleaving** - An invariant of all interleavings: the memory is the fold, over the updates done so far in the order of their compare-and-swap, of the initial memory; bit lanes of a word are independent.
* **C106 unique on CUDA gives the distinct values, their places and their counts, under every interleaving** - Kernels whose threads own disjoint cells (or only add to shared ones) end in the same memory under every schedule; the network is followed through all launches by the 0-1 principle; marks and prefix sums by counting.
* **C107 nonzero and compress on CUDA select the right elements under every interleaving** - An invariant over all schedules relates the counter, the tickets handed out and the cells written; kernels with one writer per cell end in one memory.
* **C108 any and all return one truth value per cell** - The kernel stores bytes into a buffer of larger elements with unknown content; for one-byte types this is the identity, for all others the last byte is never written.
* **C109 Reductions on CUDA combine the right elements under every interleaving, exactly for integers** - A grid whose sequential loop succeeds computes its result under every schedule (gridLoop_of_runLoop), so the walk of C21 carries over; integers up to 2^24 pass through float unchanged.
* **C110 Concat, split, flip and pad on CUDA move the right elements under every interleaving** - A grid whose sequential loop succeeds computes its result under every schedule (gridLoop_of_runLoop, onceLoop_of_runLoop for kernels without a loop), so C16, C17, C19 and C20 carry over.
* **C111 Cumulative sums and top-k on CUDA are right under every interleaving** - Threads that only store, and agree wherever they store to the same cell, are race free (once_ends); the lines of cumsum are those of C25, the selection sort of topk is verified with an invariant over its rounds.
* **C112 Selecting, gathering, putting and one-hot encoding on CUDA agree with the CPU under every interleaving** - The per-element functions are related to those of the CPU (C28-C30, C62), the loops to their specifications by the theorems on grid-stride loops of C103; the 64-bit wraparound of a negative index is modelled.
* **C113 Window reductions, einsum and resizing on CUDA agree with the CPU under every interleaving** - The per-element functions are those of the CPU up to the accumulator and the fused coordinate; the loops are related to their specifications by the theorems on grid-stride and one-shot loops of C103 and C110. Coordinates are rationals with an arbitrary rounding; the refutation uses the rounding of float.
* **C114 Convolution and transposed convolution on CUDA agree with the CPU under every interleaving** - The forward kernel has the per-element function of the CPU, with conversions around each value; the loop is that of C103. For the transposed kernel the remainder test on the C integers is shown to select exactly the pairs (input position, tap) that meet at the output position, and the sum over them to be that of C60. The host computes the buffer size with the formula of the convolution: refuted by a concrete input.
* **C115 Weight gradients of convolutions on CUDA agree with the CPU under every interleaving** - The turns of all threads are numbered; a lemma shows that a grid-stride loop around inner loops takes every turn once for any grid; the linearisation of C105 then gives the sums cell by cell. The transposed kernel runs over the gradient instead of the input: the two enumerations are related by a partial bijection. Over a commutative ring the result is the buffer plus the CPU gradient, hence right exactly if the buffer was zero, which the host does not ensure.
* **C116 Determinant, inverse and trace on CUDA agree with the CPU under every interleaving** - One thread per matrix without a loop: the kernels follow the CPU kernels on converted elements up to 16 rows, then C66 to C68 give the determinant, inverse and trace; the n*n stores of an inverse are disjoint blocks. The overrun of the local arrays and the missing argument of trace are proved for all inputs.
* **C117 Bitwise operations on CUDA are those of the CPU under every interleaving** - The four paths of the kernel read the same pair of elements, the 32-bit index of a broadcast operand is bounded by the number of elements of its source wherever it lies in its buffer; then the grid computes the list of the CPU kernel. The C++ left shift extends the one of C. Negation by the layout of the left operand, as in C95.
* **C118 The tensor files of a run carry exactly the tensors** - Every valid byte string is the bytes of the elements read from it; with the postcard and JSON round trips of C15 and C53 one file comes back, and by induction over the outputs no later file overwrites an earlier one, since plain names give distinct paths with the right extension. The argument loop is characterised by an equivalence. Negations: JSON types, empty and absolute names, unchecked JSON length, cut integers.
* **C119 A run uses the library built for its own model, target and device** - A transition system with processes, model files, installed versions and the cache; the invariant is that every cached library was built from the content and target in its key and that a run that still has to read its model has read the present content; the known targets are suffix-free, so the hashed text determines both. Negations by short histories.
* **C120 Deferred execution and buffer reuse on Metal are invisible** - A transition system with threads, command buffers, the queue, the pool and memory. Invariant for one thread: running the pending commands on the present memory gives every handle the value of its cell, handles share a buffer exactly when they share a cell, and a waiting thread has nothing pending behind the command buffer it waits for. Work left for the GPU decreases, so waits end. Negations by short runs; the deadlock by an invariant over all continuations.
* **C121 Element-wise kernels on Metal compute what the CPU computes** - The loops of the CUDA model with the Metal grid: groups of min(max, n) threads cover the elements; ids and the stride of the grid are 32 bits wide and every thread leaves the loop because a wrapped step goes down. Accumulating a position in 32 bits equals reducing the sum. The CPU agreement comes from the C kernel theorem.
* **C122 Element operations on integers and Booleans are exact or reduced, and agree on all back ends** - Integers with C promotion: an operation is a mathematical value checked against the promoted type and converted. Conversion is a congruence, so the repeated squaring is congruent to the power (induction over the bits) and exact when no intermediate product leaves the type. Agreement: results that are defined are congruent and held, hence equal.
* **C123 concat, split, flip and pad on Metal give what the CPU gives, also in pooled buffers** - A launch of a loop whose sequential run succeeds ends with the same list at the start of the buffer (grid lemmas of C121). For concat the packed buffers are regrouped at the positions of the metadata, which turns larger buffers into a case of C16.
* **C124 Reductions on Metal combine exactly the elements of each fibre, for every schedule and buffer** - The grid-stride launch of a loop whose sequential run succeeds ends with the same list; the cells of the loop are those of C21. Integer accumulation by induction over the visited values with the conversions of C122.
* **C125 Indexing on Metal reads and writes the elements the indices name, for every schedule and group size** - A loop that computes its result under every schedule on CUDA has those values in a sequential run; the grid-stride launch of that run ends with the same list (C123). Scatter by the linearization of C105 for any launch that hands each index to one thread. Index buffers as bytes regrouped in words.
* **C126 nonzero and compress on Metal deliver the indices of the hits and the kept elements, whatever the pool left in their buffers** - Invariant of the tickets from any first ticket, for any launch with one thread per index: order of the tickets, counter, rows written, rows below untouched; counting is the case of empty rows. compress: different indices write different cells (C107), for any such launch.
* **C127 matmul and dot on Metal compute the matrix product in every cell, however the threads of a group are interleaved** - matmul: the tiled kernel of C104 with another grid, general batch shapes and the rest of a pooled buffer untouched. dot (4 x 4 register blocks): simulation of every execution by one of the tiled kernel with a thread per cell, one step of a thread being one step of a cell or, at a barrier, of all its 16 cells.
* **C128 Window reductions, einsum and resizing on Metal agree with the CPU under every interleaving** - The accumulation of a window may be undefined; where an invariant of the accumulator keeps it defined, the fold is that of the CPU. Launches through the loops of C121 and C123. Coordinates and interpolations of resize are arbitrary functions for safety, those of the CPU for equality.
* **C129 Convolutions and their weight gradients on Metal agree with the CPU under every interleaving** - The forward kernels through the loops of the CPU kernel (C59) and the launch of C123; transposed kernels as sums over kernel positions (C114); the gradients as atomic additions of nested loops, for any number of threads (C115 generalised).
* **C130 cumsum and topk on Metal are the sums and the best elements under every interleaving** - The lines and rows of C111, with the kernels there generalised to any grid that has a thread per index (`RunsOnce`) and any buffers that are long enough.
* **C131 Determinant, inverse and trace on Metal are those of every matrix under every interleaving** - The sequential loop over the matrices is carried over to the grid for an arbitrary computation of one matrix; elimination with an arbitrary test of the pivot is proved to give the determinant, integer inverses by passing through the rationals.
* **C132 Kernel names, devices, Metal pipelines and CUDA functions come out of their caches right under every interleaving** - Transition systems whose steps are critical sections, with invariants proved over all reachable states; sequences of atomic calls for Metal; the finite table of operations is checked to be free of duplicates and the type suffix is split off at the last underscore.
* **C133 Bitwise operations on Metal give the right bits for every count and value, and the same tensor as the CPU wherever the CPU defines one** - The bit-level specification of C95 with reduced counts; the launch is related to the CUDA grid loop and through it to the CPU kernel.
* **C134 A printed tensor shows the right elements in order, inside of matching brackets** - Output is a list of fixed texts and padded values; induction over the shape gives the values and the depth of brackets; the trimming of zeros is followed on lists of characters.
* **C135 hodu convert keeps the tensor or the snapshot and touches only the output** - The file system is a function from paths; plugins are arbitrary functions on it; the round trips of HDT and JSON (C118, C98) give the content.
* **C136 hodu build asks the right backend for what the arguments say** - The command is a function from the registry and the answers of the plugins to the request; lookups are characterised by membership and order with the uniqueness of names of C50.
* **C137 hodu inspect reports true numbers** - The map is an association list whose order is arbitrary up to permutation; rounding is integer arithmetic with ties to even.

## Results and disagreements with the code

Status of each property. "False" means the negation (or a concrete counter-example) is proved as a
theorem about the model, so it is a finding about the code; the `_partial` theorem states the part
that holds. Theorem names are in `MANIFEST.json`.

* **C01 Row-major addressing of a fresh tensor** (proved). Full statement proved.
* **C02 Reshape and flatten keep the element sequence** (proved). Full statement proved.
* **C03 Transpose and permute relocate indices, never values** (proved). Full statement proved.
* **C04 Slice follows start/end/step semantics** (partial). The code violates the full statement (negative steps keep a positive stride; i32 overflow panics): negation proved; partial covers positive steps without overflow.
* **C05 broadcast_to repeats, and rejects incompatible shapes** (proved). Full statement proved.
* **C06 Broadcast shape rule** (partial). Rule proved for the operators' shape loop on positive sizes; the code's broadcast_shape helper and zero sizes violate it (witnesses proved).
* **C07 Squeeze and unsqueeze only add or remove unit dimensions** (partial). Repeated squeeze axes remove non-unit dimensions in the code (witness proved); partial requires distinct axes.
* **C08 No view ever addresses memory outside its storage** (partial). False for negative-step slices and repeated squeeze axes (witnesses proved); invariant proved for all other view sequences.
* **C09 Element-wise kernel result is independent of path, thread count and schedule** (proved). Sequential, strided, threaded (any interleaving of the workers' writes, any core count) and SIMD-blocked paths all give the same buffer. SIMD lanes are modelled as element-wise application.
* **C10 Binary tensor operators agree with broadcasting semantics** (partial). False of the code: the result tensor reuses the broadcast left operand's layout. Proved: the result buffer is right for all operands; the whole claim when the left operand already has the result shape and is non-contiguous or has offset 0.
* **C11 Unary tensor operators act element-wise on every view** (partial). False only for rank-0 views with a non-zero offset (the C kernel drops the offset); proved for every other well-formed tensor.
* **C12 Comparison operators agree with broadcasting semantics** (partial). As C10, for the comparison kernels.
* **C13 contiguous() is an identity on values** (proved). Full statement proved.
* **C14 Reading a tensor back returns its logical elements** (partial). False of the code: extract_with_layout ignores the offset and returns the whole storage of contiguous views; with a cast the layout is applied twice. Proved on the exact complement: contiguous tensors covering their buffer, and non-contiguous views with offset 0; nested vectors for ranks 2 and 3.
* **C15 Saving and loading a tensor is the identity** (partial). False for contiguous views of a larger buffer (whole buffer is written). Proved for all other tensors and all dtypes, for raw bytes and for the .hdt container (postcard's wire format is modelled from its specification).
* **C16 Concatenation joins the operands in order** (partial). False when an operand other than the last has a buffer larger than its shape (full buffers are packed but offsets use shape sizes). Proved for all other operands, any layouts, rank <= 16 (C index arrays).
* **C17 Split is the inverse of concat** (partial). False of the code: sizes adding up to less are accepted, a trailing zero size is rejected. Proved: pieces hold their ranges for any layout, concat restores the source, sizes adding up to more are rejected.
* **C18 Chunk covers the dimension and never crashes** (partial). False of the code: chunk panics when the first n-1 rounded-up chunks overshoot the dimension, and for 0 chunks. Proved: exact characterisation of success and of the panic.
* **C19 Flip reverses the named axes** (partial). False on strided or offset views (kernel gets no strides). Proved for all row-major tensors at offset 0, any axis list; involution.
* **C20 Padding places the source and fills the border by rule** (partial). False on strided or offset views. Proved for all row-major tensors at offset 0: all four modes, any widths, reads in bounds.
* **C21 Reductions fold exactly the reduced coordinates** (partial). Distinct axes, every layout, any combining function: exactly the fibre elements, each once, in row-major order of the reduced coordinates; listing order irrelevant for order-insensitive combinations; SIMD path equals the plain loop. False for repeated axes (counted twice); rank > 16 is UB.
* **C22 Reduction result shape** (partial). Holds for every axis list (repeated or not); false for zero-size dimensions without keep_dim (retain drops them); bad axes panic.
* **C23 argmax/argmin return the position of the extremum** (partial). Proved for 4-byte integer types along one axis; false for all other element types (int32 written into a buffer of the input dtype: overflow for 1/2-byte types, wrong bits for f32, packed for 8-byte types). The buffer is modelled byte by byte with arbitrary previous content, as it is allocated uninitialised.
* **C24 topk returns the k largest elements** (partial). Proved on the last dimension of any tensor with row-major strides (any offset, any row length, any k, any sorting function): the result is a correct top-k by converted value, sorted when asked; quick-select terminates and stays in bounds; the error cases are exactly rank 0, bad axis, k too large. False elsewhere, each with a witness: other dimensions and views search the storage of self with the layout of the permuted copy; integers are compared as float. NaN is excluded (keys are linearly ordered) and indices are unbounded naturals instead of int32.
* **C25 cumsum is the running prefix fold** (partial). Proved for every layout of rank at most 16. Missing: rank above 16 (the kernel overruns its fixed index array: witness), a dimension out of range (not rejected: zeros or out-of-bounds read: witnesses).
* **C26 einsum equation parsing is sound** (proved). Every text and every list of shapes. Soundness describes every parsed field by a separate grammar; completeness says exactly the ill-formed inputs are errors and nothing panics.
* **C27 einsum computes the sum of products** (partial). Metadata, decoding and kernel are proved to compute the sum of products for every view layout, label structure and number of operands up to 4, with ranks and labels up to 16 and a non-empty output, for any arithmetic (sums and products in the order of the loops). False of Tensor::einsum: it passes the layouts of all operands but the first, so one operand is ignored altogether and two give a wrong result (witnesses). Empty outputs and more than 16 labels are out-of-bounds accesses (witnesses).
* **C28 index_select picks the named slices** (partial). Proved for every source layout when the index tensor is row-major from offset 0 (sizes below 2^31). Disagreement: the kernel receives the index buffer without its layout, so index views select the wrong slices (C28_index_view_wrong) and a broadcast index reads past the index buffer (C28_index_broadcast_ub); a dimension out of range panics instead of returning an error.
* **C29 index_put replaces exactly the named slices** (partial). Disagreement: index_put_metadata (op_metadatas.rs:734-772) writes values_shape, and the offsets in another order, than INDEX_PUT_OP decodes; every 1-D call on non-empty row-major tensors reads outside the input (C29_one_dim_always_ub). The kernel is correct for the metadata order it documents (C29_kernel_partial).
* **C30 gather reads through the index tensor** (partial). The computed buffer is right for every layout of source and index (C30_buffer); the resulting tensor is right when the index tensor is row-major from offset 0. Disagreement: the result reuses the index tensor's layout over a row-major buffer (C30_index_view_wrong); index shape and rank are not checked, so larger indices read outside the source.
* **C31 scatter updates exactly the addressed cells** (partial). The kernel, with any cell update, is right for every layout (C31_kernel); the tensor-level scatter is right when self is row-major from offset 0. Disagreements: scatter_add/max/min run the overwriting kernel on CPU (ops_indexing.rs:457); the result keeps self's strides over a row-major buffer; shapes are not compared.
* **C32 Batched matrix product** (partial). All operands of rank >= 2 with positive batch sizes and at most 16 batch dimensions, every layout and core count: fails exactly on mismatched inner or batch sizes, otherwise each cell is the left-to-right sum of products, on every path and worker schedule; also matrix-vector products. False for batch size 0 against 1 (rejected), more than 16 batch dimensions (UB) and, outside the statement, the inner product of a sliced vector (UB). BLAS builds are C102; FMA contraction is not modelled.
* **C33 Gradient of broadcasting is summation** (partial). Exact arithmetic, zero-free shapes, rank at most 16; false with zero-size dimensions.
* **C34 Reverse-mode differentiation is the adjoint of forward mode** (proved). For every reachable history state and any tape, the gradients backward stores are the adjoint of the recorded computation applied to the seed; hypotheses: every vjp on the tape is locally adjoint, and leaves the loss does not reach hold no stale gradient. The tape is taken as recorded; what dropping handles does to it is C57. Each vjp reads the values current at backward, so set_ between forward and backward changes the point of differentiation. Only created tensors require gradients.
* **C35 Repeated backward accumulates or replaces predictably** (partial). Backward replaces the gradient of every leaf it reaches (second backward gives the gradient of the second loss alone there), and a failed backward's effect is characterised. Refuted in full: a leaf the second loss does not reach keeps the gradient of the first.
* **C36 Gradient contexts nest** (partial). Proved for guards dropped in LIFO order. Refuted in full: dropping the outer guard first leaves a dead context active and later operations are recorded nowhere, silently.
* **C37 Tensor registry never frees a live tensor and frees dead ones** (partial). Count = handles + gradient links is an invariant of every history in which a tensor's last handle does not go away while its gradient is held or shared; so held tensors are live, and unreferenced ones are gone except those the code keeps on purpose (owned by a context, zero_grad results, not run-time). Refuted: Drop subtracts two for one gradient link, so a held or shared gradient is freed under its handle; results of operations outside a context are never freed without a backward; replaced zero_grad gradients are never freed. One thread.
* **C38 Captured snapshot computes the captured targets** (partial). Proved for histories without set_ whose constants are alive at capture and whose targets are made on the board: the snapshot evaluates to the eager values and reads only inputs, constants and earlier results; unneeded operations are absent unconditionally. False when a constant's handle is dropped before capture, when a target is a constant, after set_, and for the second results of unique and topk, whose ids appear nowhere in the snapshot's nodes. A new board never is an old one.
* **C39 Enumerations survive their encodings** (proved). CUDA ids above 15 panic when encoded (stated in the theorem); every other device, dtype and plugin dtype round-trips. Case analysis over the finite enumerations is complete; device ids range over all naturals.
* **C40 Samplers visit every index exactly once** (proved). Sequential and random samplers yield a permutation for every outcome of the generator (and every permutation is the outcome of some draws); batch sampler cuts the sequence into consecutive batches. Batch size 0 panics (slice::chunks).
* **C41 A data-loader epoch covers the dataset exactly once** (partial). Holds for every dataset, batch size >= 1, shuffle/drop_last setting, generator and history of next_batch/reset calls as long as seed + number of resets stays below 2^64; with a larger seed reset() panics in a debug build (C41_seed_overflow). Items and collation are assumed to succeed (the property is about indices); failing calls in the history are allowed.
* **C42 A batch holds the rows of the dataset it was built from** (partial). False of the code for batches of two or more rows: row b of the batch is dataset row (i_b + b) mod N (C42_rows_shifted), because stack packs the whole shared storage of every item while the kernel's offsets assume each operand's buffer has exactly its own size. What holds: shape, the first row, and batches of one index, for every dataset layout.
* **C43 random_split partitions the dataset** (partial). Holds below 2^24 items (disjoint cover, no panic, length within one of the exact product and exactly rounded down when the f32 product is exact). For larger datasets the f32 length can exceed the dataset (panic) or fall short. f32 product modelled as round-to-nearest-even on 24 bits; subnormal/overflowing fractions not modelled.
* **C44 ConcatDataset lookup** (proved). All member length lists, all indices; usize overflow of the total length not modelled.
* **C45 Optimizer updates follow their published recurrences** (partial). Proved for SGD, AdamW, Adagrad and RMSprop (all gradient histories, learning-rate schedules, parameter lists, hyper-parameters) over any field with any sqrt. Adam is wrong: its exponents are t+1 instead of t and the bias is corrected twice (C45_adam_full_false; C45_adam_as_coded says what it computes). Rounding and dtype conversion of hyper-parameters are not modelled.
* **C46 An RPC call never returns another request's answer** (proved). For every JSON parser, result decoder, history of calls, timeouts, failures, cancels and shutdowns using fewer than 2^64 ids, and every event sequence. A cancel by another thread is one atomic step. Lines without an id, objects or not, leave a call waiting; a cancel while nothing is waited for writes nothing.
* **C47 The RPC channel recovers after a timeout or cancel** (partial). Against a plugin that answers every request in order. False: after one timeout or one cancel no later call ever succeeds (C47_stuck, all histories); proved for histories without either.
* **C48 Protocol compatibility is an equivalence** (partial). Proved for version texts whose numbers fit u32; reflexive, symmetric, transitive on all texts. False beyond: an overflowing number is dropped and the next takes its place. C48_texts says what the check does for every text.
* **C49 Plugin server answers each request once, and only after initialisation** (proved). For every input, every set of handlers and every request parser. A handler that panics ends the process like a shutdown; writes to stdout are taken to succeed.
* **C50 Plugin registry keeps one entry per name** (proved). From an empty registry; a hand-edited file may contain duplicates.
* **C51 Registry file survives crashes and concurrent readers** (partial). False: save truncates the file before it takes the lock, so a concurrent load reads an empty file and a crash leaves one. Proved: without crashes, whenever no save is under way the file is complete, for every interleaving of any number of saves and loads. Two overlapping saves leave zero bytes at the beginning of the file.
* **C52 Disabled or unknown plugins are never started** (partial). False: a process that fails to initialise is neither killed nor remembered, so several may run. Proved: everything else, and the full claim when plugins that fail to initialise exit.
* **C53 JSON tensor format round-trips** (partial). False: infinities and NaN are written as null and cannot be loaded; an f64 with 17 digits is read back as a neighbour, because the JSON parser is used without its exact mode; contiguous slices cannot be loaded and column slices load the wrong elements. Proved for all finite elements of every other element type (the parser's error is bounded and disappears when the number is rounded to the narrower type), and for f64 with short decimals.
* **C54 Concurrent runs and input names do not clobber each other's inputs** (partial). False: all runs share one directory and name files after inputs only. Proved for runs with distinct names not shared by a concurrent run.
* **C55 Host-encoded kernel metadata is decoded field by field** (partial). Every field the kernel decodes is proved to be the field of the layouts and parameters the host encoded, for binary, reduction, concat, split, flip, pad, index_select, onehot, nonzero/unique, compress, window, convolution, dot, matmul and resize kernels. Refuted: index_put (order of the fields), unary operations of rank 0 (offset dropped), matrices of an empty batch (1 instead of 0). gather and scatter only for equal ranks. Missing: the vector of topk is passed as arguments in the model; that of cumsum is covered by C25 only; einsum is stated for the vector the host builds from the numbered labels (C26 connects it with the equation).
* **C56 A call reports what the plugin's handler returned** (partial). False for handlers that return (): the null result reads back as no result and the call fails with NoResult. Proved for every other value and for errors. Error codes outside of i32 make the call end with a parse error.
* **C57 No gradient is lost when other handles are dropped** (partial). Proved for programs that drop only intermediate results. Refuted for a dropped constant operand (backward fails), a dropped other leaf (silently no gradient) and through contiguous().
* **C58 Layouts recorded in a snapshot describe the values nodes read** (partial). Proved for inputs and results of nodes. False for constants: their data is stored in logical order with the shape only, while the node records the strides of the original view.
* **C59 Convolution is strided, dilated, zero-padded cross-correlation** (partial). Proved for row-major operands whose kernel fits. False for views: the kernel ignores the strides (wrong values for a transposed input, out-of-bounds reads for a broadcast one). A kernel larger than the padded input panics (usize underflow) instead of an error.
* **C60 Transposed convolution scatters each input through the kernel** (partial). The kernel reads the weight as (Ci, Co, kernel) in memory while the host checks a (Co, Ci, kernel) shape; proved for weights stored in that order. False for row-major weights with several channels; output padding and large paddings fail as well.
* **C61 Gradients of the convolutions are their adjoints** (partial). Proved (over any commutative semiring) when the stride leaves no rest and the kernel fits the unpadded input. False otherwise: the input gradient has the wrong shape, or the backward pass panics; a broadcast output gradient, as sum() produces, is read out of bounds; transposed convolution with different channel counts cannot be differentiated.
* **C62 onehot marks exactly the class of each element** (partial). Proved for contiguous indices. False for views (layout ignored), for an axis out of range (unchecked: an uninitialised index is used), for 64-bit indices (truncated to 32 bits) and for high ranks (fixed-size coordinate array).
* **C63 nonzero lists the indices of the non-zero elements in row-major order** (partial). Proved for every layout up to rank 32 with dimensions up to 2^31. False at rank 33: the kernel overruns its index array.
* **C64 unique returns the distinct values in ascending order with inverse and counts** (partial). Proved for unsigned types, for signed types without negative numbers and for floats without NaN, for every sorted order qsort may leave and fewer than 2^31 elements. False for negative integers: the sort key is the value cast to size_t, so they come last.
* **C65 compress keeps exactly the slices at which the condition is true** (partial). Proved for every layout of the tensor and a fresh condition (rank at most 32 along an axis). False for a condition that is a view: its layout is ignored, so a sliced condition leaves uninitialised elements in the result and a broadcast one is read out of bounds.
* **C66 det returns the determinant of every matrix of a batch** (partial). Proved up to 3x3 over every commutative ring; for any size in exact arithmetic the answer is the determinant or 0 (with the threshold), and the determinant if all matrices are invertible (without it). False: a pivot below 1e-15 makes the answer 0; integer types truncate the elimination factors and divide by zero for singular matrices; f8/bf16/f16 give NaN for singular matrices; an empty batch is read out of bounds. Rounding is not modelled.
* **C67 inv returns the inverse of every invertible matrix of a batch** (partial). Proved in exact arithmetic for every size, layout and non-empty batch. False for an empty batch (read out of bounds) and for integer types (truncated reciprocals), even for matrices with an integer inverse. Rounding is not modelled.
* **C68 trace returns the sum of the diagonal of every matrix of a batch** (partial). Proved for every layout and every batch without a zero dimension. False for an empty batch: the batch size 0 is replaced by 1 and memory is read and written out of bounds.
* **C69 Backward rules of reductions are the derivatives of the reductions** (partial). Proved over the real numbers with keep_dim, or over leading axes (in particular all axes), wherever the reduction is differentiable; var and std over leading axes only. False otherwise: without keep_dim the gradient is broadcast along the wrong axis (wrong numbers or an error); var/std recompute the mean without keep_dim; the product rule divides by the element and is NaN at 0. Rounding is not modelled.
* **C70 softmax and log_softmax are the textbook functions** (partial). Proved over the real numbers for every layout except contiguous views with an offset, for which the shifted values keep the offset over a smaller buffer and are read out of bounds. Rank at most 16, non-zero sizes, no rounding.
* **C71 Backward rules of det, inv and trace are adjoint to the derivative** (partial). det: proved for non-singular matrices in batches of at least one axis, over every field. inv: proved for every batch, also as a derivative over the reals. trace: proved when the batch has one element. False: the gradient of a single matrix under det has shape [1,n,n]; the gradient of trace gives every matrix of the batch the first upstream entry; singular matrices give NaN.
* **C72 Backward rules of unary operators are their derivatives** (partial). Proved over the real numbers for all 36 other unary operators and all operators with a scalar, given exact constants. False: the rules of hardsigmoid and hardsilu always fail (product of boolean masks); abs has a rule but is not recorded; the GELU rule uses 0.797885 where the kernel uses 0.7978845608, so it is not the derivative; division by a scalar below epsilon has no gradient. Rounding is not modelled.
* **C73 Backward rules of binary operators are the partial derivatives, summed over broadcast positions** (partial). Proved over the real numbers for a right operand that broadcasts to the left one (equal shapes for pow, maximum, minimum). False: with a broadcast right operand maximum/minimum use the mask of the first position everywhere; the remainder rule rounds the quotient down where the kernel truncates; a broadcast left operand is already wrong in the forward pass (C10). Rounding is not modelled.
* **C74 An operation and element type that pass validation run the kernel of that operation** (partial). Exact characterisation: an accepted pair runs its own kernel unless it is one of these: rem, rem_scalar, leaky_relu, elu, prelu on any type, relu on signed integers, argmax/argmin/any/all on f64 (all panic); argmax/argmin/any/all on bool (rejected by the back end); scatter_add/max/min (run the plain scatter kernel).
* **C75 Loss functions compute the loss they are named after** (partial). Over the reals: MSE, BCE-with-logits, NLL and cross entropy along the last dimension, KL divergence in f32 (positive targets) are right. Huber, SmoothL1 and CosineEmbedding never return a value for any input; MAE for no type but u32; KLDiv for no type but f32; BCE ignores the prediction; NLL/CrossEntropy along another dimension pick wrong entries.
* **C76 Reduced-precision conversions round to nearest and round trip** (partial). Proved for all bit patterns: widening is exact; narrowing a magnitude in the normal range keeps the sign, is finite, is one of the two neighbours, and is nearest unless the mantissa comes out all ones; normal numbers round trip; bf16 truncates towards zero and round trips. False: ties are not to even, no carry into the exponent, f16 subnormals and negative zero become zero, f8e4m3 numbers of at least 256 and those between 2^-9 and 13*2^-11 become NaN, f8e5m2 overflow becomes NaN, bf16 NaNs may become infinity, and the kernels read the host's largest f8e4m3 numbers as NaN.
* **C77 Backward rules of matmul and dot are adjoint to the product** (partial). Proved for the 2-D product without restriction, for batched products with any pair of broadcastable batch shapes if no dimension is 0 and the rank is at most 16. False outside (the product itself fails, C32). Exact arithmetic over any commutative semiring; rounding is not modelled. Vector operands are recorded as other operators.
* **C78 Backward rules of view operators move each upstream entry to the element it was read from** (partial). Proved for reshape, flatten, squeeze, unsqueeze, broadcast (no zero-size dimension, rank at most 16), transpose of the last two axes, permutations that are their own inverse on shapes without equal dimensions. False: transpose of any other pair of axes transposes the last two; permute guesses the permutation from the shapes and applies it in the wrong direction, so cyclic permutations get a wrong shape and square matrices an untransposed gradient.
* **C79 Backward rules of concat and split return the slices of the upstream gradient** (partial). Proved for non-negative axes; split needs sizes that cover the axis and, for all but the last output, an upstream gradient stored without gaps. False: a negative axis is cast to usize and read as 0 (wrong shapes or an error); a stride-0 upstream gradient of a split output is read past its buffer.
* **C80 Backward rule of einsum is the einsum with the operand and the output exchanged** (partial). Proved for every parsed equation with plain labels: the gradient equation parses and has the shape of the operand iff every label of the operand occurs in the output or another operand; otherwise the gradient is an error for all data. False as to values: Tensor::einsum drops the layout of the first operand (C27), here the upstream gradient.
* **C81 Backward rules of flip and cumsum are the adjoints** (partial). Proved for row-major upstream gradients at the front of their buffer. False for views: x.flip(0).sum().backward() and x.cumsum(0).sum().backward() read past the end of a one-element buffer, and a transposed upstream gradient is read in storage order.
* **C82 Backward rules of slice, gather, index_select, topk and scatter route each upstream entry to its element** (partial). Proved where no element is read (or written) twice: gather and scatter on a non-negative axis (or the first), index_select and slice on axis 0, topk on the last axis. False: repeated indices keep one upstream entry instead of the sum; slice and index_select on any other axis use the wrong indices or read out of bounds; gather on a negative axis differentiates along axis 0; slice on a negative axis panics; scatter_add and scatter_max also hand the gradient to the overwritten element; index_put is undefined behaviour on vectors.
* **C83 Sliding-window reductions reduce exactly the elements in the window** (partial). Proved for every layout, window, stride and padding up to rank 16: output size, the exact elements accumulated and their order for any accumulation; sums and means over exact arithmetic, maxima and minima over total orders. False: f16/bf16/f8 means compute with bit patterns, f8 maxima over a window that ends in the padding are NaN, a window larger than the padded input or stride 0 panics (C83_errors) instead of being rejected with an error.
* **C84 The backward rules of sliding-window reductions return the gradient** (partial). Proved when the windows tile the input (window = stride without padding, or a single window, per dimension), for every rank up to 16: sum and mean are adjoint to the forward operator, max and min select the extremes. False otherwise: overlapping windows give a wrong gradient or an error, a remainder gives an error, tied extremes each receive the whole gradient.
* **C85 where3, masked_fill and clamp select the right elements** (partial). where3 proved over the reals (condition and other broadcast to x). The other four are inverted: masked_fill fills the unmarked elements, clamp(lo, hi) with lo <= hi is the constant hi; exact conditions under which they are right are proved, the full property refuted. Boolean tensors are always rejected; a product with infinity gives NaN.
* **C86 Normalization layers standardize over the documented elements** (partial). Over the reals all layers compute the documented value for the inputs they are made for, and running statistics are the exponential average. Refuted: an empty normalized_shape standardizes over all elements; InstanceNorm and BatchNorm2D in evaluation mode accept another number of channels and change the shape; BatchNorm1D in evaluation mode accepts rank 4. Missing: rounding.
* **C87 Linear layers and attention compute their formulas** (partial). Over the reals: Linear for every rank; attention and multi-head attention for f64 without masks. Refuted: any other element type is rejected (the scale is an f64 scalar); the causal mask marks the right positions but masked_fill keeps exactly those, so that with minus infinity the scores are NaN or minus infinity and the result is NaN; the same for the attention mask, which besides must be f64. Missing: dropout, batches that need broadcasting, rounding.
* **C88 Embedding looks up the rows its indices name** (partial). Lookup proved for every weight and every index tensor that does not start inside of its buffer; max_norm for two columns over the reals. Refuted: an index view with an offset reads the wrong indices; max_norm sums over axis D-1, which scales by the norm of a column for D = 1 and panics for D >= 3; padding_idx always fails (where3 on a bool mask); an index that names no row gives zeros instead of an error. Missing: the initial weight, gradients, rounding.
* **C89 Recurrent networks compute their documented recurrences** (partial). Outputs and final states proved over the reals for all three networks, every number of layers >= 1, length >= 1 and both orientations. Refuted: an initial state with fewer layers than the network is accepted and the missing layers start at 0; an empty sequence is an error. A network without layers always fails. Missing: dropout between layers (the code has none), the initial parameters, gradients, rounding.
* **C90 Pooling layers reduce exactly the windows they document** (partial). Values proved for all four families (averages over a field; fractional pooling for sizes below 2^24 and every monotone rounding with the error of f64). Refuted: an adaptive pooling to a size that is larger than the input (division by a stride of 0) or to 0, a window larger than the padded input, stride 0, an empty batch and no channels panic; a fractional pooling to a larger size is an error. Missing: output_ratio, rounding of the averages (C83 refutes f16 means), gradients (C84).
* **C91 Convolution layers add the bias of their channel to the documented convolution** (partial). Values of Conv with bias proved for row-major operands, and of ConvTranspose if it has as many input as output channels and no output padding. Refuted: ConvTranspose with different channel counts rejects every input (the weight is created as [in, out, ...], the operation wants [out, in, ...]); with output padding the bias addition reads outside of the storage. Missing: views (C59 refutes them), initial values, gradients (C61).
* **C92 Dropout and activation layers compute their documented functions in both modes** (partial). Values proved over the reals: dropout of type f32, RReLU of every floating-point type in evaluation mode and of f32 in training mode. Refuted: in training mode both fail for every other type; a probability of another type than the literals of the build fails; p = 1 gives NaN; RReLU of infinity is NaN; LeakyReLU, ELU and PReLU always panic. Missing: the distribution of the random numbers, layers that are a single unary operation (C10, C76).
* **C93 Resize interpolates at the coordinates of the requested transformation** (partial). Values proved for every layout with exact coordinates and real arithmetic: nearest and linear for images and volumes, cubic for images; the specified value is unique. For every rounding that is exact on numbers below 2^24: nothing outside is read, the same size copies. Refuted: cubic resizing of volumes is nearest-neighbour resizing without an error; with the rounding of float nearest picks the wrong pixel (2 to 82); an empty spatial dimension is read out of bounds; f64 is computed in float; the neighbour of an infinity becomes NaN even at the same size. Missing: error bounds for rounded interpolation.
* **C94 Gradients of padding and resizing sum the outputs an input contributed to** (partial). Proved: constant padding for every shape, width and layout; no padding in every mode; circular padding after one dimension by at most its size; replicating before one dimension other than the first; resizing to the same size (nearest, linear). Refuted: replicating the first dimension or after a dimension, reflecting on either side (contributions land in the wrong place because the sum keeps the offset of a slice, C10), circular padding before a dimension (reads outside of the buffer) or wider than it (panic, error), corners of two padded dimensions; the rule of resize is not the transpose for any pair of shapes with different numbers of elements.
* **C95 Bitwise operations act on the bits of every element** (partial). Proved: the bits of every element operation for all widths and values; the buffers of all operations for every layout and thread count; whole tensors when the left operand has the common shape and is non-contiguous or starts its buffer (binary), or is row-major from the start of its buffer (unary and scalar shifts). Refuted: a broadcast or sliced left operand, not and scalar shifts of transposed or sliced views (the result takes over the layout of the input), left shifts of negative signed numbers and counts of at least the promoted width (undefined in C11, not rejected).
* **C96 Changing the element type converts every element, changing the device keeps it** (partial). Proved for all pairs of types: representable numbers are kept (except f8e4m3 numbers from 256 on and subnormal f16/f8 targets), integers modulo the width, truncation of floats to integers, rounding to nearest even to f32 and f64, not-a-numbers and infinities between f32 and f64, conversion to bool; whole tensors for every view with a dimension or without offset and any thread count. Refuted: subnormal halves are lost, f8e4m3 from 256 on become infinite or not a number, floats outside of an integer type are undefined behaviour, bf16/f16 are not rounded to nearest even, views without dimensions read the wrong element, to_device of a transposed or sliced view returns other elements.
* **C97 Nested arrays keep their elements on the way in and out** (partial). Proved for every depth: regular nested data becomes a tensor with its lengths and entries (sizes zero only last, except for arrays), from_slice reshapes or rejects, reading gives the nested vector of the elements whenever the flat read is right, and new followed by reading is the identity. Refuted: ragged vectors are accepted and the tensor reaches past its buffer; a vector with an empty inner vector panics; slices read back the start of their buffer.
* **C98 Created tensors hold what their constructor says** (partial). Proved: zeros, ones, full, eye for all shapes and types; filling changes exactly the elements of the view for every schedule; arange and linspace are exact for whole numbers up to 2^24 (all terms before the end and no other), errors for all finite bounds. Refuted: arange(1.0, 1.2, 0.1) includes its end; integer ranges above 2^24 repeat and overshoot because they are calculated in f32; the type of the start alone decides for integers; infinite ends panic; linspace(0, 1, 42) misses its end and huge ranges give not-a-numbers; full_like ignores the type of the tensor; a zero-dimensional view fills the start of its buffer.
* **C99 What is recorded for shapes that depend on the data has room for every result** (partial). Proved: existence, room and distinct positions for all shapes and values within the bounds; conversions of shapes; indices from the end; the registry; the records of nonzero, unique and compress include the eager shape (under the hypotheses of C63 to C65). Refuted: the offset of a layout is lost when converting back; the buffer size of a view that skips elements is too small and replacing a dimension discards its strides; a condition that is a slice selects more elements than the recorded bound; for compress on an inner axis the recorded strides are those of the largest shape and differ from the eager ones; ids repeat after 2^32.
* **C100 Scalars convert by saturating and calculate exactly or not at all** (partial). Proved: conversions to integers, booleans and f64 for all scalars; to f16 and bf16 for numbers that f32 holds; exact or wrapped integer arithmetic and powers with exponents modulo 2^32; roots up to 2^24; whole numbers among finite floats. Refuted: f64 to f16 rounds twice; from_usize and From<usize> wrap where conversions saturate; the least number modulo minus one panics although the remainder is zero; negative exponents of integers become huge; roots above 2^24 may be one too large; an infinity counts as a whole number. Operands of different types panic. Float arithmetic is not modelled.
* **C101 Files of snapshots and of named tensors load as what was saved** (partial). Proved: round trip, distinct files, rejection of every cut file and byte ranges for all snapshots and all sets of optional types, given that the crate float8 rounds its own numbers to themselves (scalars that are NaN of a small float type are left out); codes of element types do not depend on the optional types; named tensors round trip between programs with different optional types, or are an error when a type is missing (contiguous views of a larger buffer are left out, see C15). Refuted: the number of a variant of Scalar depends on the optional types, so a snapshot that adds the i32 5 loads elsewhere as one that adds the u16 10, without an error; lengths in more bytes than needed are accepted.
* **C102 Builds with BLAS compute the same as plain builds** (partial). Proved: products of two matrices whose rows (or columns) do not overlap; batched products with at most one batch dimension; mul_scalar; convolution and weight gradient with one output position or one tap; and, for all sizes, which entries are multiplied. Refuted: with two or more batch dimensions (attention heads) the batch index is applied in reverse order of the dimensions, so with batch [1, H] every head gets the product of head 0, square batches come out transposed and others read outside the buffer; conv2d and its weight gradient fill the matrix of taps row by output position but read it row by tap, so a 1x1 kernel on two channels is wrong; broadcast rows (stride 0) read outside the buffer; an inner size of 0 returns uninitialised memory. These builds include every macOS target.
* **C103 Element-wise CUDA kernels compute every element under every interleaving** (partial). Proved for every schedule: unary, scalar, cast, copy and binary kernels on views of at most 2^32 - 256 elements in buffers of at most 2^32 elements, and fills. Refuted beyond: the loop counter is 32 bits wide, so from 2^32 - 255 elements on no execution ever ends (C103_endless); positions are truncated to 32 bits, so a view that starts at 2^32 reads other elements (C103_offset_truncated). Missing: the arithmetic of the device (it is a parameter), memory weaker than sequential consistency.
* **C104 Tiled matrix products on CUDA are the products, under every interleaving** (partial). Proved for every schedule and every content of shared memory: batched products with equal batch dimensions (what Tensor::matmul passes), at most 65535 batches and 1048560 rows, for every multiply-add that ignores zero padding; for f32 bit for bit the product of C32. Refuted: dot (every product of two matrices) is launched with 8 x 8 threads while its kernel is written for 32 x 32, so rows and columns 8 to 31 of every 32 are never written and the rest adds up shared memory that nobody filled; f64 operands are rounded to float first; an empty batch, more than 65535 batches or more than 1048560 rows make the launch fail. Besides, seven files of be_cuda (ops_matrix.rs among them) use Arc without importing it, so hodu_core cannot be compiled with the feature cuda at this commit; the kernels are reachable through the crate hodu_cuda_kernels. Missing: contraction of multiply and add is covered by the parameter, not evaluated; weak memory.
* **C105 Scatter on CUDA updates every addressed cell exactly once per source element, under every interleaving** (partial). Proved for every schedule: with at most 2^31 source elements, rank at most 16 and an input layout that puts its elements in different places, the kernels (8, 16, 32 and 64 bits, native or compare-and-swap) are safe, terminate and are linearizable: each cell is its old value folded with the addressed source elements, each once, in some order; where updates can be swapped (integer add, max and min) the result is that of the CPU kernel; and every order is reached by some schedule. Refuted: f32 sums and plain scatter to one cell depend on the schedule; the updates of 8-bit floats write 16 bits at the wrong place, with a byte from the stack; with more than 2^31 source elements indices are taken several times (counted exactly); the host runs the plain scatter for every variant on a fresh, uninitialised buffer, so the input is lost (C105_host_partial says what is left), and a view with an offset writes outside. Missing: hardware semantics of the native atomics on floats, weak memory.
* **C106 unique on CUDA gives the distinct values, their places and their counts, under every interleaving** (partial). Proved for every schedule of every launch: for contiguous tensors with at most 2^31 elements, whose keys are all below the padding value MAX_VAL or whose number of elements is a power of two, all accesses are inside, fair schedules end, all ends are equal and are the unique values, inverse and counts of the specification (C64); the bitonic network of the launches sorts and permutes, for all sizes. Refuted: a tensor with a value above the padding (an infinity, or a float above 3.4e38, 65504, 1.7e308) and a number of elements that is no power of two always makes the last kernel write outside of the inverse buffer; so does [1, 1, 127] in int8, where the padding is the largest value itself; the strides of the layout never reach the kernels, so views get the values of other elements, and broadcast tensors are read outside of their storage. Missing: keys without a linear order (NaN), more than 2^31 elements, weak memory.
* **C107 nonzero and compress on CUDA select the right elements under every interleaving** (partial). Proved for every schedule: nonzero (rank at most 16, axes up to 2^31, at most 2^32-256 elements) returns the right indices, each once, in some order, and fair schedules end; compress with a fresh condition of at most 2^31 entries, for every rank and layout, returns one result for all schedules, that of the specification of C65, and fair schedules end. Refuted: the ascending order of nonzero - every order of the rows is the result of some schedule (C107_every_order), so results differ between runs and from the CPU; more than 16 axes overrun multi_idx; conditions that are slices panic in the copy to the host, broadcast conditions are read past their end. CudaStorageData::from_slice_u8, called in three places of be_cuda/storage/ops_indexing.rs, does not exist, so the crate does not compile with the cuda feature; the branches are modelled by their evident intent. Missing: dtype dispatch, weak memory.
* **C108 any and all return one truth value per cell** (partial). Proved for the one-byte types (i8, u8) on all layouts up to rank 16: 1 exactly where some (every) element is not zero. Refuted for all larger types: the kernels write one bool byte per cell into a buffer of the element type of the input that is allocated without initialisation, so results of neighbouring cells share an element and, for every nonempty result, the value depends on what the allocator left (C108_allocator); with zeroed memory a true f32 result is the subnormal with pattern 1. For the f8 types the pattern 1 is a subnormal too. bool and f64 inputs fail in the dispatch (C74).
* **C109 Reductions on CUDA combine the right elements under every interleaving, exactly for integers** (partial). Proved for every schedule: for all layouts up to rank 16 and at most 2^32-256 results, each position combines exactly the elements reduced into it, in row-major order, as on the CPU; sums of i32/u32 with magnitudes adding up to at most 2^24 and maxima, minima and argmax of values up to 2^24 are exact. Refuted: accumulators and comparisons are float for every element type, so max of [2^24+1] is 2^24, sums stop growing at 2^24, argmax misses neighbours, INT32_MAX is rounded out of its type, doubles are rounded to float; any and all store bytes and argmax int32 in a buffer of the input type (results share elements, half-precision argmax writes outside, C109_half_ub); rank above 16 overruns the index arrays; std and var have no kernel, mean, norm and logsum none on integers, and only six element types run at all. Missing: arithmetic of the float kernels beyond the visited values, weak memory.
* **C110 Concat, split, flip and pad on CUDA move the right elements under every interleaving** (partial). Proved for every schedule: whenever the sequential kernel succeeds the launch ends with the same result (up to 2^32-256 elements, flip below 2^32), hence concat, split (also with zero sizes at the end, which the CPU refuses, and joining the pieces gives the tensor back), flip and pad of contiguous tensors are right; sizes adding up to too much are refused. Refuted: concat and split are refused for nine of the fifteen element types although their kernels are compiled; joining a slice reads the wrong operand; flip and pad read views in storage order; from 2^32 elements on flip leaves the rest of the buffer unwritten. Missing: rank above 16 for concat and split, empty dimensions for the index modes of pad, weak memory.
* **C111 Cumulative sums and top-k on CUDA are right under every interleaving** (partial). Proved for every schedule: cumsum for every layout of rank at most 16 and any accumulator type; topk in full generality for contiguous tensors and the last dimension (best of the first 64 elements, in order, rounded through float, outputs from the 64th on unwritten), hence right for rows of at most 64 exactly representable values. Refuted: rows longer than 64, more than 64 results (contents of the fresh buffer are returned), integers beyond 2^24 (the value returned is no element), 2^31-1 (undefined cast), views. cumsum of bool and dimensions beyond the rank abort the process; rank 17 overflows an array. Missing: more than 2^32-256 lines, the dimension equal to the rank, NaN keys, weak memory.
* **C112 Selecting, gathering, putting and one-hot encoding on CUDA agree with the CPU under every interleaving** (partial). Proved for every schedule: index_select for every layout of the source if every index names a slice; gather as on the CPU (zero for indices out of range); the index_put kernel with the metadata it documents; onehot for i32 indices in row-major order. Refuted: index_select with an index out of range reads outside the buffer or returns neighbouring elements (the CPU gives zero); gather with an axis out of range is not refused; index_put as launched reads outside the input (the metadata has another order, as in C29); onehot refuses other index types than i32, which the CPU accepts. Missing: views of the index tensor (read as raw buffers), rank above 16, more than 2^32-256 elements.
* **C113 Window reductions, einsum and resizing on CUDA agree with the CPU under every interleaving** (partial). Proved for every schedule: reduce_window for f32, f64 and f16, every layout, any accumulation (rank at most 16); einsum as the CPU; resize with exact coordinates (nearest, linear, cubic), the identity for the same size and memory safety with any rounding. Refuted: reduce_window refuses bf16, the 8-bit floats and all integers; double goes through float (1+2^-52 becomes 1, 2^128 infinity); rank above 16 overruns arrays; einsum inherits the wrong layouts of C27 and divides by zero for an empty output; the coordinate fused by --fmad=true makes CUDA copy another pixel than the CPU (2 to 6 pixels, half_pixel, ceil). By reading: the conversion arguments of EINSUM_OP_FLOAT for the 8-bit floats (ops_einsum.cu:184-187) are not functions, so the file does not compile, and ops_windowing.rs uses Arc without importing it. Missing: more than 2^32-256 elements.
* **C114 Convolution and transposed convolution on CUDA agree with the CPU under every interleaving** (partial). Proved for every schedule: convolutions of contiguous tensors of all floating types (whatever the CPU computes on the converted values), the transposed convolution whenever the sizes of the convolution and of its transpose coincide (e.g. stride 1, padding half of the dilated kernel), equal to the CPU result over any commutative semiring; what the transposed launch computes for every other size too. Refuted: the host allocates the buffer of a transposed convolution with the output size of the convolution (1 element for the shape [1,1,3]) and panics for a kernel longer than the input; double goes through float; integers and bool are refused; views are read by the wrong strides as on the CPU (C59). Missing: more than 2^32-256 elements, int overflow of coordinates.
* **C115 Weight gradients of convolutions on CUDA agree with the CPU under every interleaving** (partial). Proved for every schedule, grid size and way of updating cells: each product is added exactly once to its weight, nothing leaves its buffer, the launch finishes; over a commutative semiring a finished execution leaves the buffer plus the gradient of the CPU, for convolutions and transposed convolutions. Refuted: the buffer is allocated without initialisation, and the result is right exactly if it happened to be zero (C115_garbage, C115_false); integers and bool have no kernel; the 8-bit atomics overwrite a neighbour (C105_f8_wrong). Missing: more than 2^32 minus the grid elements, int overflow of coordinates, floating-point order of additions (which depends on the schedule, C105_float_add_depends).
* **C116 Determinant, inverse and trace on CUDA agree with the CPU under every interleaving** (partial). Proved for every schedule, layout and conversion of elements, matrices of up to 16 rows and batches without a zero dimension (exact arithmetic between the conversions): det computes the determinant or, from four rows on, 0 below the pivot threshold; inv computes the inverse of invertible matrices. Refuted: every matrix of more than 16 rows overruns the local arrays of det and inv; trace is launched with three arguments for four parameters, undefined for every input (with the fourth it would be right); doubles are rounded to float; ten of the fourteen compiled types are refused; an empty batch is one matrix. Missing: rounding inside the float arithmetic; the sign of a zero determinant.
* **C117 Bitwise operations on CUDA are those of the CPU under every interleaving** (partial). Proved for every schedule and up to 2^32 - 256 elements: the launch fills the buffer of the CPU with the layout of the CPU for all views, in buffers of any size for binary operators; wherever the C operators are defined the C++ ones agree; kernels exist for exactly the launched types under the requested names; an undefined shift is reached by its thread. Refuted, as on the CPU (C95): results take the layout of the left operand, so a broadcast left operand, a contiguous slice and views of unary operators give wrong elements. Missing: shifts C++ leaves undefined, more elements, zero-size dimensions.
* **C118 The tensor files of a run carry exactly the tensors** (partial). Proved: .hdt outputs of every type and .json outputs of f32, f64, i32, i64 (finite, short in print) with plain distinct names come back exactly, in any order of the map, and no other file changes; an accepted input has the expected shape and type and the backend reads the loaded bytes; parse_inputs is characterised exactly (the last argument of a name wins); temporary files are distinct; device normal forms. Refuted: JSON files of the other eleven types are written but never accepted, empty and absolute output names, unchecked length and silently cut integers in JSON, upper-case extensions. Simplified: paths are texts, writing is one yes/no answer of the operating system, lower case is ASCII.
* **C119 A run uses the library built for its own model, target and device** (partial). Proved for all interleavings of any number of processes with kills, upgrades, cleanings and edits of models no run still has to read, when libraries appear in one step: a used library was built from the content read and for the target of the run; without upgrades and cleanings and with one device per backend it is exactly the library of the request. Refuted: the key lacks the device and the version of the backend; an unfinished library of a killed or concurrent build is used; an edit between hash and build poisons the cache; a cleaning between test and use; an absolute name makes clean remove any directory; a backend found by its short name is not cleaned by it. The hash is a parameter, without collisions on the contents that occur; the backend is trusted to build what it is asked.
* **C120 Deferred execution and buffer reuse on Metal are invisible** (partial). Proved for one thread, all calls that do not commit the shared command buffer, all non-empty sizes other than one more than a power of two (which 4 and 8 byte elements never have), and all schedules: reads give the eager values, nothing faults, waits end. Refuted: buf_size is too small exactly at one more than a power of two bytes; flip, cumsum, topk, einsum, resize, nonzero, unique and compress leave a committed command buffer in the map, so that every later operation or read of the thread breaks the contract; a second thread reads stale data, is given buffers pending commands still read, and waits forever behind the command buffer enqueued at start while holding the lock; launches on empty tensors divide by zero. The GPU is assumed to run the queue in order (hazard tracking), contents of a buffer are one value.
* **C121 Element-wise kernels on Metal compute what the CPU computes** (partial). Proved for 1 to 2^32-1024 elements in buffers of at most 2^32 elements and groups of at most 1024 threads. Refuted: without elements every launch divides by zero where the CPU returns an empty buffer; an offset of 2^32 or more is truncated. The element operations themselves (a parameter here) and the missing pow_bool kernel are not part of this property.
* **C122 Element operations on integers and Booleans are exact or reduced, and agree on all back ends** (partial). Refuted: powers square the base once too often, so 2^40 in i64 (all back ends), 2^17 in i32 and 50000^1 in u16 (CUDA, Metal) are undefined although they fit; negative exponents give 0 on the CPU and 1 on the GPUs; division by zero gives 0 on CPU and CUDA and is undefined on Metal; MIN % -1 is undefined; u16 products overflow int; scalar exponents go through f32 (4097^2 is rounded, (-1)^-1 is -1); Boolean sub differs between tensor and scalar operands and on Metal, and Metal has no Boolean pow. Scalar exponents from -31 to 31 only; exponents passed to the C library pow are not modelled. Unsigned negation and absolute value are not part of this property.
* **C123 concat, split, flip and pad on Metal give what the CPU gives, also in pooled buffers** (partial). Refuted: concat packs whole pooled buffers but computes positions from the shapes, so when the first operand was computed and its byte size is not a power of two, the second operand is read from the wrong place (an unused element of the first buffer is returned); empty parts and empty tensors divide by zero in the launch; flip and pad ignore strides and offset; no kernels for f8 and f64. Proved for 1 to 2^32-1024 results.
* **C124 Reductions on Metal combine exactly the elements of each fibre, for every schedule and buffer** (partial). Refuted: argmax and argmin store int32 in a buffer allocated with the element type, so on one- and two-byte types the last result is written outside of every new buffer; any and all store bytes, so that one four-byte element of the returned tensor holds four results; reductions without results panic in the launch; rank above 16 writes outside of the index arrays; no std, var, no integer mean. Sums of int32 and int64 are proved as far as no partial sum overflows.
* **C125 Indexing on Metal reads and writes the elements the indices name, for every schedule and group size** (partial). Refuted: indices of another type than i32 or u32 are read as 32-bit words (i64 indices 1, 2 select 1, 0); index_select does not check the range; index_put reads its metadata in another order than it is passed; gather accepts an axis out of range; scatter_add, scatter_max and scatter_min overwrite; two sources for one cell race; scatter into a view with an offset writes outside of the output and a broadcast input is copied from beyond its buffer; empty results and empty sources panic.
* **C126 nonzero and compress on Metal deliver the indices of the hits and the kept elements, whatever the pool left in their buffers** (partial). Refuted: the count and counter buffers of nonzero are never cleared, so every second call has as many rows too many as the first call had found, with old contents in front; a counter left ahead of the count writes behind the output; the order depends on the schedule; empty tensors panic and more than 16 dimensions overrun multi_idx; compress reads the buffer of a condition and not its elements, and a result of 2^k + 1 bytes is written behind its buffer.
* **C127 matmul and dot on Metal compute the matrix product in every cell, however the threads of a group are interleaved** (partial). Proved for batch shapes that are equal or have no size 0, up to 16 batch dimensions, M and N below 2^32 - 64 and buffers at least as large as the output. Refuted: more than 16 batch dimensions overrun batch_indices; a product of one-byte elements with 2^k + 1 cells is written behind its pooled buffer. Unlike on CUDA (C104) dot writes every cell and matmul sizes its output by the common batch shape. Not modelled: fused multiply-add contraction other than as the parameter macc, positions beyond 32 bits.
* **C128 Window reductions, einsum and resizing on Metal agree with the CPU under every interleaving** (partial). Proved for the types with a kernel, rank at most 16 and at most 2^32-1024 results: windows of any layout, integer sums reduced to the type (all but i32 and i64, whose overflow is undefined), maxima and minima; einsum as the CPU; resize safe for every coordinate function, equal to the CPU where the coordinates are. Refuted: f64 and the 8-bit floats have no kernel; rank above 16 overruns the arrays of windows; einsum inherits the wrong layouts of C27 and divides by zero for an empty output; an empty result of resize panics in the launch. Resize has kernels for bf16, f16 and f32 only. That einsum and resize commit the command buffer of the thread is in C120.
* **C129 Convolutions and their weight gradients on Metal agree with the CPU under every interleaving** (partial). Proved for bf16, f16 and f32: non-empty convolutions of up to 2^32-1024 elements equal those of the CPU for any arithmetic; the weight gradients add every product exactly once to what is in the buffer, for any number of threads and any way of atomic addition. Refuted: the types without a kernel give an error and empty batches a panic; strided views are misread as on the CPU; the host gives transposed convolutions the size of a convolution, so that elements keep what the pooled buffer held (or the host panics); the gradients are right exactly if the pooled buffer happens to begin with zeros; a weight of one 16-bit element gets a buffer of one byte.
* **C130 cumsum and topk on Metal are the sums and the best elements under every interleaving** (partial). Proved: cumsum for every layout of rank at most 16 with 1 to 2^32-1024 elements, in the element type; topk for contiguous tensors, the last dimension and rows of at most 64 elements whose values survive the conversion to float. Refuted: types without a kernel (bool, f64, eight-bit floats) give an error and tensors without elements a panic; results of 2^j+1 bytes (three u8, one f16) are stored behind the end of the buffer; an axis equal to the rank is undefined behaviour; topk sees only the first 64 elements of a row, leaves outputs from the 64th on as the pool gave them, returns values that are no elements beyond 2^24 and searches the wrong rows of views.
* **C131 Determinant, inverse and trace on Metal are those of every matrix under every interleaving** (partial). Proved for batches of 1 to 2^32-1024 matrices of any layout: det in exact arithmetic up to 16 rows (exact for singular matrices too when only zero is taken for zero), over every commutative ring up to 3 rows, and wherever the CPU kernel answers the same as it; trace in any arithmetic for any number of rows; inv of invertible matrices in exact arithmetic up to 16 rows and of integer matrices with integer inverses. Refuted: more than 16 rows overrun the local arrays, empty batches panic, bool, f64 and eight-bit floats are errors, pivots below 1e-15 make the determinant 0, integer determinants of four rows are wrong, integer inverses differ from those of the CPU, and results of 2^j+1 bytes are stored behind the end of the buffer. Missing: rounding of the float types and overflow in the integer inverse.
* **C132 Kernel names, devices, Metal pipelines and CUDA functions come out of their caches right under every interleaving** (partial). Proved for all interleavings of critical sections; refuted: the bound on the leak, the missing source in the Metal key, single loading of CUDA modules. Poisoned locks and fairness of RwLock are not modelled.
* **C133 Bitwise operations on Metal give the right bits for every count and value, and the same tensor as the CPU wherever the CPU defines one** (partial). Operators proved for all values and counts; tensors up to 2^32 - 1024 elements for a left operand of the common shape that is not a contiguous slice, and unary operands in row-major order. Refuted: broadcast left operands, unary operators on views, empty tensors.
* **C134 A printed tensor shows the right elements in order, inside of matching brackets** (partial). Proved for tensors whose flat read is right (C14) and without empty leading dimensions; refuted: contiguous slices, empty leading dimensions, columns of wide matrices, values below half a millionth. `{:.6}` of the standard library is given as digits of the rounded value; tensors without storage and casts are not modelled.
* **C135 hodu convert keeps the tensor or the snapshot and touches only the output** (partial). Proved for both built-in tensor formats (JSON: finite elements the printer shows) and for plugins that change only their output; refuted: a snapshot onto itself, the temporary file after a failing plugin, NaN in JSON. Links between paths, non-UTF-8 paths and a disk that fills up while writing are not modelled.
* **C136 hodu build asks the right backend for what the arguments say** (partial). Proved for every registry with unique names (C50); refuted: device of a named backend, disabled namesake, upper-case extensions, ignored options. What the backend does with the request, messages, timeouts and letters outside of ASCII are not modelled.
* **C137 hodu inspect reports true numbers** (partial). Proved for all snapshots, sizes and tensors; refuted: the order of equal categories, the unit after rounding. Inspection through plugins, `format_number` (whose division is not exact) and the layout of lines are not modelled.
