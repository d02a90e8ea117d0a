# Formal model of torch-harmonics: design

The model is a shallow, function-by-function Lean 4 transcription of the Python code, and of the C++ and CUDA kernels where they
carry logic of their own. Each definition cites the file and lines in `/repo` it models. Layout:

* `lean/Verif/Model/*.lean` - the model of the code (definitions only).
* `lean/Verif/Spec/*.lean` - small independent specifications used in property statements.
* `lean/Verif/Lemmas/*.lean` - helper lemmas.
* `lean/Verif/Props/*.lean` - property theorems `Cxx_...`, each with a non-vacuity `example`.
* `seeded/LOG.jsonl` - edits of the model that imitate bugs, and which theorems noticed.

## Modelling conventions (simplifications, all part of the trusted reading)

* **Floats are exact** reals or complexes (the DISCO contractions: any commutative semiring). Rounding, overflow, dtype casts, devices
  and autocast are not modelled. Where a division by zero can happen and the code tests or returns the result, the value is a `Flt`
  (a real, NaN or an infinity).
* **Integers** are unbounded.
* A **tensor** is a function from indices together with explicit extents. Batch dimensions that an operation treats pointwise are
  dropped, or kept as one explicit index where they matter.
* **Exceptions are values** (`Except PyErr`). Error branches are modelled and have theorems.
* **Loops** become folds or structural recursion with the same update order; in-place updates become function update.
* **Uninitialised memory** and reads beyond an array are a universally quantified parameter (`junk`, `mem`).
* **Schedules** (OpenMP threads, thread groups, atomic operations) are arbitrary orders, universally quantified.
* **External calls** are modelled by their mathematical definition: `torch.fft.rfft/irfft` and `numpy.fft.ifft` by DFT sums (`irfft` only
  where backends agree), `torch.roll`, `index_add_`, `einsum`, `searchsorted`, `softmax`, and the collectives by their documented effect
  on the family of per-rank tensors. `numpy.polynomial.legendre.leggauss` is a parameter assumed to be the Gauss rule
  (`IsGaussRule`: nodes increasing, inside, symmetric; exact to degree 2n-1). `C04_gauss_rule` proves that for every n
  exactly one rule has these properties, so the assumption is consistent and says which rule it is.
* **Distributed programs** are SPMD: the state is a family (polar rank, azimuth rank -> local tensor), and a blocking collective maps
  families to families. A run in which some rank raises has no result. Deadlock through ranks reaching different collectives is
  outside the model.
* **Learnable parameters and random draws** are arbitrary arguments.

## What is modelled

| source | model | left out |
|---|---|---|
| `truncation.py` | `Truncation` | - |
| `quadrature.py` | `Quadrature` | - |
| `legendre.py` | `Legendre` | - |
| `fft.py` | `FFT` | - |
| `sht.py` | `SHT` | batch axes |
| `cache.py` | `Cache` | keyword-argument keys, locks, statistics |
| `spectral_convolution.py` | `SpectralConv` | batch axis, random initialisation |
| `random_fields.py` | `RandomFields` | batch axis |
| `resample.py` | `Resample` | float32 rounding of weights |
| `filter_basis.py` | `FilterBasis`, `FilterNorm` | the cache and the deprecation warning of `get_filter_basis`; SciPy's Bessel functions and zeros are parameters |
| `disco/_disco_utils.py`, `disco/kernels_torch`, `disco/convolution.py` | `Disco`, `DiscoGeom`, `DiscoNorm` | deprecation warnings |
| `disco/optimized/disco_helpers.*`, `kernels_cpu` | `DiscoCpu` | int64 overflow; alignment |
| `disco/optimized/kernels_cuda/disco_cuda_fwd.cu`, `disco_cuda_bwd.cu` | `DiscoCuda` | integer overflow, storage/compute type conversion, batch and channel axes |
| `disco/optimized/kernels_cuda/disco_cuda_fwd_dense_kpacked_sm90.cu`, `..._sm100.cu`, `disco_cuda_ptx.cuh`, selection in `convolution.py` 696-708 and `setup.py` 72-103 | `DiscoKpacked` | integer overflow, rounding of the half-precision products; `tcgen05` allocation failure; the instructions themselves (see below) |
| `disco/optimized/disco_optimized.py` | `DiscoFused` | torch.library registration |
| `disco/convolution.py` 588-645, 696-844, and the operators of `disco/optimized/disco_optimized.py` with their autocast rules | `DiscoPaths` | the gradient of the reference path (PyTorch's); gradients of PyTorch's einsum are taken to be the transposed einsums; autocast to half-precision types only; the type rules of einsum, addition and autograd are those of PyTorch as documented; fake kernels for tracing |
| `attention/kernels_torch`, `attention/optimized/kernels_cpu` | `Attention`, `AttentionCpu` | dtype checks |
| `attention/optimized/kernels_cuda/attention_cuda_fwd*.cu` and helpers | `AttentionCuda` | integer overflow, storage/compute type conversion, `sortRows` (any permutation), reads are total |
| `attention/optimized/kernels_cuda/attention_cuda_bwd.cu`, `attention_cuda_bwd_upsample.cu` | `AttentionCudaBwd` | as for the forward kernels |
| `attention/optimized/kernels_cuda/attention_cuda_utils.cu`, `attention_cuda_utils.cuh` (416-576) | `LayoutCuda`, `GpuLaunch` | CUB's radix sort is a stable sort; `cudaFuncSetAttribute` fails beyond the limit of the device; grid limits and the 48 KiB rule are those of the CUDA documentation; asynchronous errors of earlier launches |
| `attention/optimized/kernels_cuda/attention_cuda_fwd_ring.cu`, `attention_cuda_utils.cuh` (`__group_sum`, `__compact`) | `RingCuda` | Barriers separate what is before from what is after them; the threads of one warp of `rescale` load and store together; one element of static shared memory per warp for the sum and for the compaction; sums of numbers are exact, so that their order plays no part |
| `attention/optimized/kernels_cuda/attention_cuda_fwd_ring_upsample.cu`, `attention_cuda_bwd_ring_upsample.cu` | `RingCudaUp` | the threads of one warp of `rescale` load before thread 0 stores; sums of numbers are exact; 32-bit overflow of sizes; layout changes and casts around the kernels |
| `attention/optimized/kernels_cuda/attention_cuda_bwd_ring.cu` (77-1301, 2014-2070: pass 1) | `RingCudaBwd` | as for `RingCuda` |
| `attention/optimized/kernels_cuda/attention_cuda_bwd_ring.cu` (1303-2012: pass 2) | `RingCudaBwd2` | as for `RingCuda`; an access outside the arrays is an error (`memoryFault`) |
| number types: `attention/attention.py` (456-571), the autocast rules and type checks of the attention operators, `distributed/_amp_utils.py` (92-121), `distributed/distributed_attention.py` (1165-1260) | `AttentionTypes` | rounding (values are exact, a cast keeps them); infinities and NaN in the buffer of weights; whether `rms_norm` widens under autocast is left open; parameters of different types in one module; `_custom_setup_context`, which only records the autocast state; for the distributed layer the types only |
| transposed layer: `disco/convolution.py` (929-1007), `disco/optimized/disco_optimized.py` (316-338, 372-380, 430-463) | `DiscoTransPaths` | rounding; PyTorch's gradients of the reference path; an empty batch performs no shape check in the model |
| layouts: the operators' final reshapes and their `register_fake` functions, `_permuted_copy` | `Declared` | values (C94, C97, C98); the rule by which PyTorch picks strides for axes of extent 1; what torch.compile does with a wrong declaration |
| messages: `get_group_neighbors`, the batches of the halo exchange and of the ring (forward), scheduling of ranks and transfers | `Messages` | collectives of the other distributed layers under schedules (they advance together, C50-C54); `req.wait()` blocks the process (on NCCL it blocks the stream); loss of messages, timeouts |
| messages of the backward pass of distributed attention: rings, all-reduces, halo exchanges | `MessagesBwd` | the algorithm inside an all-reduce (here messages between every two ranks of the group); `needs_input_grad` and the order of the autograd engine are the same on all ranks; a kernel of pass 2 that leaves the buffers (excluded by C53 for layers that are built) |
| messages of the distributed spherical harmonic transforms | `MessagesGroup` | the algorithm inside an all-to-all (here messages between every two ranks of the group); the exchanges of extents in debug mode (`verify_shapes`, C55); the backward pass under schedules |
| messages of the distributed convolutions | `MessagesDisco` | the algorithm inside a reduce-scatter (here an exchange followed by a sum; rounding and the order of a reduction are out of scope) and inside an all-gather; extents other than the one along the dimension of the collective; the backward pass under schedules |
| backward pass of the distributed transforms | `DistSHTGrad` | autograd itself: the order of the backward functions and the vector-Jacobian products of `rfft`, `irfft`, `einsum`, `cat`, `narrow`, `reshape` are those that PyTorch documents; its check of gradient shapes; the mixed precision wrappers `custom_fwd`, `custom_bwd` |
| messages of distributed quadrature and resampling | `MessagesQuad` | the algorithm behind `all_reduce` (a ring or a tree): the model exchanges all summands; the conversion of the summands to 32 bits |
| backward passes of distributed quadrature and resampling | `DistQuadGrad` | the mode "bilinear-spherical", which is not linear; autograd itself: the order of the backward functions is written down by hand, and those of PyTorch's own operations are taken from its documentation |
| synthesis and analysis in a row, as messages | `MessagesRoundTrip` | the shape checks of the two calls (as in `MessagesGroup`) |
| spectral convolution, as messages | `MessagesSpectral` | the shape checks of the calls (as in `MessagesGroup`); the channel counts in the messages of the reductions |
| spectral convolution, backward | `DistSpectralGrad` | inputs with another channel count than `in_channels` (broadcast); the casts; the order in which autograd runs the two paths |
| gradient descent with the spectral convolution | `DistSpectralTrain` | optimizers other than plain gradient descent; the hooks that the documentation proposes for the sum of the weight gradients are the sum itself; layers without bias |
| `attention/_layout.py`, head packing | `Arr`, `AttentionOp` | dtype checks |
| `attention/attention.py` | `AttentionLayer` | dropout, initialisation |
| `distributed/utils.py` | `Registry` | - |
| `distributed/primitives.py` | `Collectives`, `CollectiveGrad`, `Halo` | `use_fp32`, contiguity |
| `distributed/distributed_sht.py` | `DistGrid`, `DistSHT` | - |
| `distributed/distributed_quadrature.py`, `distributed_resample.py` | `DistQuadrature` | - |
| `distributed/distributed_spectral_convolution.py` | `DistSpectralConv` | random initialisation (its scale is modelled), casts |
| `distributed/distributed_convolution.py` and its kernels | `DistDisco` | the half-precision path calls the kernels of `DiscoKpacked` |
| `distributed/distributed_attention.py`, ring-step kernels | `DistAttention`, `DistAttentionBwd`, `DistAttentionLayer` | lane-level reductions, dtype casts |
| `examples/metrics.py` | `Metrics`, `Flt` | - |
| `examples/losses.py` | `Losses`, `Flt` | float32 casts |
| `examples/shallow_water_equations.py` | `ShallowWater`, `ShallowWaterIc` | plotting; the random draws are an argument |
| `examples/pde_dataset.py` | `ShallowWaterIc` | device and stream arguments; the `.float()` rounding |
| `examples/stanford_2d3ds_dataset.py` (`Stanford2D3DSDownloader`) | `StanfordDownload`, `StanfordTar` | the bytes of archives and pictures (parsing is a parameter), the file system apart from the files of the data set; writes reach the disk in program order; a conversion is a count of the samples written |
| `examples/stanford_2d3ds_dataset.py` (rest) | `StanfordData` | PIL resampling and compositing, file name matching, float32 rounding; torch's `Subset.__getitems__` and `DataLoader` are modelled from the documented behaviour of torch 2.6 |
| `examples/models/_layers.py` (460-595) | position embeddings | |
| `examples/pde_sphere.py` | `SphereSolver` | plotting, `randspec` |
| `examples/models/sfno.py`, `examples/models/_layers.py` (`MLP`, `SpectralConvS2`) | `SFNO` | training mode (dropout, `DropPath`), random initialisation, checkpointing, casts, batch axes; NaN channels of a spectral embedding |
| `examples/models/lsno.py` | `LSNO` | as for `sfno.py`; filters other than those with a cutoff, kernel shapes that are not tuples of non-negative integers |
| `examples/models/s2transformer.py` | `Transformer` | as for `lsno.py`; dropout and stochastic depth are those of evaluation (identities); `theta_cutoff` for a cutoff that is a number or absent |
| `examples/models/s2unet.py` | `UNet` | as for `lsno.py`; batch normalisation with the running statistics and drop path as identity (evaluation); the dropout rates and the random parameters are arguments |
| `examples/models/s2segformer.py` | `Segformer` | as for `s2transformer.py`; the two drop rates are left out (evaluation), and the casts to and from float32 |
| `examples/models/_layers.py` (44-201) | `Layers` | the random generators (random numbers are inputs, uniform by assumption in the laws); `erfinv` is any function inverting `erf` on (-1, 1); the warning; float end points (in float32 a range that rounds to -1 makes `erfinv` infinite and only the clamp bounds the entry) |
| `examples/models/_layers.py` (275-340) | `Fft2` | batch axes; torch's own `rfft2`, `irfft2` are specified, not modelled |
| `utils.py` (49-100) | `Elevation` | the network and PIL's decoder are arguments; deletion of the file, a full disk, a missing directory; single precision |

Not modelled: `plotting.py`,
and the parts of `examples/stanford_2d3ds_dataset.py` and `examples/models/*` beyond the rows above.

## Trusted base

* Lean 4.33.0 kernel; Mathlib as installed.
* The transcription of `/repo` into `Verif/Model` (by reading; the code is not executed).
* The mathematical definitions chosen for the external calls above.
* For C78, what the tensor-core instructions do: how a matrix descriptor is decoded and addresses shared memory (`operandAddr`), which
  entries of the accumulator a thread holds (`fragM`, `fragN`), the parity rule of the barrier (`mmaWait`), and on which device a
  compiled target runs (`runsOn`). These are definitions in `Model/DiscoKpacked`, marked "Hardware".
* Axioms: no theorem uses an axiom other than `propext`, `Classical.choice` and `Quot.sound`. No axioms are added, and there is no
  `sorry`, `native_decide` or `bv_decide`. As printed by `#print axioms`, every property theorem uses all three, except:
  * no axiom: `C66_backward_needs_more`, `C90_no_rows`, `C91_offline`, `C94_bias_type`, `C99_disco`, `C99_disco_shapes`.
  * only `propext`: `C31_empty`, `C56_finalize_raises`, `C56_same_group_twice`, `C60_pl_mask_length`, `C75_harmonic_index`, `C77_patch_partition`, `C78_wrong_target_selected`, `C84_channels`, `C90_unsorted`, `C91_cached`, `C94_double_autocast`, `C94_mixed_types`, `C97_distributed`, `C97_distributed_double`, `C97_distributed_misread`, `C97_distributed_mixed`, `C98_bias_type`, `C98_double_autocast`.
  * only `propext, Quot.sound`: `C25_evaluations`, `C25_no_copy_aliases`, `C41_neighbours`, `C45_split_shapes_error_iff`, `C46_scatter_error`, `C47_transpose_error`, `C50_halo_error`, `C56_debug`, `C56_destroyed`, `C56_finalize`, `C56_registered_initialized`, `C56_reports_init_in_force`, `C56_sizes_ranks`, `C66_backward_need_bound`, `C80_convert`, `C81_descending`, `C81_root`, `C84_id_to_class`, `C84_return_index`, `C84_subset`, `C90_exit`, `C90_order_unique`, `C90_ptx_returns`, `C91_converges`, `C91_killed`, `C91_read_error`, `C94_cpu_path`.

## Plan per property

| id | property | model | how it is proved |
|---|---|---|---|
| C01 | Truncation is triangular and never exceeds what the grid supports | `Model/Truncation` | Branch-by-branch `Except` model with Python `or` semantics (0 = absent). Case analysis + omega. |
| C02 | Default truncation is exactly resolvable by the grid | `Model/Truncation` | Arithmetic over all nlat,nlon from the same model; exactness degrees in a Spec table. |
| C03 | Clenshaw-Curtis weights are exact | `Model/Quadrature` | Literal model of the Waldvogel ifft construction over complex numbers; proof: inverse DFT of v+g, Chebyshev basis, integral of T_k. |
| C04 | Quadrature weights sum to the interval length | `Model/Quadrature` | Finite-sum identities; CC from exactness at degree 0. |
| C05 | Latitudes and longitudes form a valid ordered grid | `Model/Quadrature` | Node sequences as functions of the index, flip as index reversal; arccos monotone. |
| C06 | Quadrature weights are positive and mirror-symmetric | `Model/Quadrature` | Closed cosine-sum form of the Clenshaw-Curtis weights from C03's DFT; positivity by bounding the cosine series. Gauss: exactness on squared Lagrange polynomials. Lobatto: P_{n-1} vanishes at no iterate (C07). |
| C07 | Lobatto nodes and weights converge to the Gauss-Lobatto rule | `Model/Quadrature`, `Spec/Lobatto` | The whole Newton loop is modelled. `Lemmas/LegendreRoots`: all zeros of the derivatives of Legendre polynomials are real, simple and inside (Rolle), and a Sturm comparison bounds the spacing of their angles by pi/(n-1/2) from below. `Lemmas/LobattoNewton`: with this the Chebyshev guess is close enough, and a differential inequality on each side of a zero shows that a step multiplies the error by at most 4/5 of its relative square, so the iteration converges cubically for every n. Exactness: Lagrange interpolation + Legendre orthogonality. Finite tolerance: the stopping test bounds the last error, the differential inequality bounds the weights. The bounds are about real arithmetic: floating-point rounding is outside the model. |
| C08 | Spherical quadrature integrates fields correctly | `Model/Quadrature` | Double finite sum; shift by re-indexing mod nlon; band-limited part from exactness + discrete Fourier orthogonality. |
| C09 | legpoly values are the orthonormal associated Legendre functions | `Model/Legendre` | Table-filling loop as fold of function updates; proved equal to a recursion; polynomial part, first-order relations and ODE by induction; orthogonality by Sturm-Liouville, norm by the symmetric recurrence. |
| C10 | Normalisation and phase options only rescale | `Model/Legendre` | Same loop with norm/inverse/csphase parameters; induction on the recursion. |
| C11 | Derivative tables are the colatitude derivative and m over sine | `Model/Legendre` | Model of the two loops; `HasDerivAt` in theta. |
| C12 | Real FFT wrapper truncates and zero-pads exactly | `Model/FFT` | rfft as DFT sum (definition of torch.fft.rfft), then pad/narrow. |
| C13 | Inverse real FFT wrapper ignores non-physical imaginary parts and inverts rfft | `Model/FFT` | irfft as Hermitian-extension inverse DFT; orthogonality of roots of unity. |
| C14 | Analysis after synthesis is the identity on coefficients | `Model/SHT` | init+forward models; combine C09/C10/C13 with the exactness hypothesis of the rule (proved for CC). |
| C15 | Synthesis after analysis is a projection | `Model/SHT` | Corollary of C14. |
| C16 | Transforms are linear and commute with rotation about the polar axis | `Model/SHT` | Finite sums and phase factors. |
| C17 | Energy is preserved (discrete Parseval) | `Model/SHT` | From C14-style double orthogonality. |
| C18 | Vector transform round-trip | `Model/SHT` | Cross orthogonality of derivative tables by integration by parts on polynomials. |
| C19 | Vector synthesis is gradient plus rotated gradient of the scalar synthesis | `Model/SHT` | `HasDerivAt` of the continuous synthesis. |
| C20 | Spectral convolution multiplies each degree independently | `Model/SpectralConv` | Composition of the SHT models with a block-diagonal einsum. |
| C21 | Random fields have exactly zero mean and only admissible modes | `Model/RandomFields` | Deterministic map from xi; zero (0,0) weight; quadrature via C14. |
| C22 | Shallow-water stepping conserves mass for any number of steps | `Model/ShallowWater` | dudtspec in full; the l=0 rows of both spectral operators vanish; induction over steps. |
| C23 | The multistep scheme uses the last three tendencies in order | `Model/ShallowWater` | Loop with rotating slots refined to a history-based recurrence. |
| C24 | Wind and vorticity/divergence are mutually inverse | `Model/ShallowWater` | From C18. |
| C25 | The precomputation cache is transparent | `Model/Cache` | LRU list state, heap of returned objects, operations call/mutate; refinement by induction over op lists. |
| C26 | Bilinear resampling is interpolation | `Model/Resample` | searchsorted as a count; index and weight bounds; convexity. |
| C27 | Resampling commutes with longitude rotation and is the identity on equal grids | `Model/Resample` | Re-indexing. |
| C28 | DISCO convolution computes the documented sum | `Model/Disco` | roll-accumulating loop as in the torch reference versus explicit sum. |
| C29 | DISCO convolution commutes with longitude rotation | `Model/Disco` | Re-indexing mod nlon_in. |
| C30 | The optimized CPU kernel computes the same as the reference | `Model/DiscoCpu` | CSR loop with doubled buffer versus explicit sum; counterexample for the collision. |
| C31 | Sorting of filter entries is a stable permutation with a valid row index | `Model/DiscoCpu` | Counting sort with prefix offsets on lists; permutation + stability. |
| C32 | DISCO gradients are adjoint to the forward pass | `Model/Disco` | Finite-sum exchange. |
| C33 | Dense and kernel-packed filter layouts are lossless | `Model/DiscoCpu` | Padded arrays; lookups. |
| C34 | Fused, spatial-first and weight-first gradient orders agree | `Model/DiscoFused` | Einsum identities. |
| C35 | Filter normalisation makes each filter integrate to one | `Model/DiscoNorm` | Per-row scaling by vnorm+eps. |
| C36 | Piecewise-linear filters are a partition of unity inside the cutoff | `Model/FilterBasis` | Hat functions on reals; floor arguments. |
| C37 | Filter support geometry is the great-circle neighbourhood | `Model/DiscoGeom`, `Model/DiscoTranspose` | Rotation formula; trigonometric identity; arccos/atan2; composition with C32 and C35 into the values of the layer and of the transposed layer. |
| C38 | Neighbourhood attention is an exact weighted softmax | `Model/Attention` | Fold of the online update; invariant; Perm independence. |
| C39 | Attention output is a convex combination of values | `Model/Attention` | Convexity from C38. |
| C40 | Attention commutes with longitude rotation | `Model/Attention` | Re-indexing. |
| C41 | Upsampling attention equals the gather formulation | `Model/Attention` | Scatter loops versus gather spec. |
| C42 | Attention gradients are the true derivatives | `Model/Attention, Model/AttentionCpu` | `HasDerivAt` of the softmax quotient. |
| C43 | Full neighbourhood attention equals global attention | `Model/Attention` | exp(a+log w)=w exp a. |
| C44 | Layout and head reshapes are lossless | `Model/Arr, Model/AttentionOp, Model/AttentionLayer` | Row-major index bijections. |
| C45 | Split sizes are a balanced partition | `Model/Collectives` | Nat division; list lemmas. |
| C46 | Scatter and gather are inverse | `Model/Collectives` | Concatenation with offsets versus slicing. |
| C47 | Distributed transpose moves the split dimension and is invertible | `Model/Collectives` | All-to-all as exchange of blocks. |
| C48 | Reduce-scatter with padding equals all-reduce followed by local split | `Model/Collectives` | Pad, reduce, trim. |
| C49 | Collective gradients are adjoints | `Model/Collectives` | Finite-sum exchange. |
| C50 | Halo exchange delivers the neighbouring rows | `Model/Halo` | Send/recv slices and concatenation. |
| C51 | Distributed transforms equal serial transforms | `Model/DistSHT` | Composition of collective theorems with the serial model. |
| C52 | Distributed convolution equals serial convolution | `Model/DistDisco` | Sum over local latitude blocks = full sum. |
| C53 | Ring attention equals serial attention, forward and backward | `Model/DistAttention`, `Model/DistAttentionBwd` | Merge of softmax states over ring order; pass 1 of the backward is the forward pass with packed values; pass 2 sums chunk, ring, azimuth group and halo parts to the serial gradient. |
| C54 | Distributed quadrature and resampling equal the serial ones | `Model/DistQuadrature, Model/DistResample` | Sum over blocks; transposes. |
| C55 | Leading-dimension flattening and padding is lossless | `Model/Collectives` | Row-major flattening and zero pad. |
| C56 | Process-group registry is a consistent state machine | `Model/Registry` | State machine. |
| C57 | Spherical metrics count every point once | `Model/Metrics` | Finite sums over points. |
| C58 | Spherical losses are non-negative, vanish on equality, and use weights summing to one | `Model/Losses` | Finite sums. |
| C59 | The transforms compute the documented sums | `Model/SHT` | The einsum over real and imaginary parts is rewritten to the complex double sum of the specification. |
| C60 | Isotropic masks are exact and filter indices decode uniquely | `Model/FilterBasis` | Triangular-number decoding of the flat index; case analysis of the masks. |
| C61 | Shallow-water tendency is the discretised equations | `Model/ShallowWater` | Unfolding of the operators into a specification written per coefficient. |
| C62 | Segmentation losses are bounded and handle ignored points | `Model/Losses` | Softmax bounds, weighted means; witnesses for the ignored-label cases. |
| C63 | Derivative losses: bounds, blindness to constants, and what their derivatives are | `Model/Losses` | Linearity of the spectral derivative; Cauchy-Schwarz on normals; discrete orthogonality gives the action on Fourier modes. |
| C64 | Distributed spectral convolution equals the serial layer | `Model/DistSpectralConv` | C51 and C54 for the transforms and the integral; the contraction is local; block sums for the weight gradient. |
| C65 | The GPU convolution kernel computes the documented sum | `Model/DiscoCuda` | Phases between barriers with an arbitrary order of the accesses; invariant: the buffer holds the current input row twice, registers hold partial sums; agreement with the CPU kernel (C30). |
| C66 | The GPU backward kernel computes the transpose | `Model/DiscoCuda` | Invariant: additions issued plus what the lanes still hold; atomic additions as a permuted list. |
| C67 | Zernike filters are orthonormal | `Model/FilterBasis` | Radial integrals by finite differences of rising factorials; angular integrals by product-to-sum formulas; unique decoding of the index (C60). |
| C68 | GPU attention computes the documented average | `Model/AttentionCuda` | Butterfly sums give every thread the full sum; the threads' channel lists partition the channels in every variant; invariant of the online softmax; stores and atomics as permuted lists; decision table of the dispatcher. |
| C69 | GPU attention backward returns the gradient | `Model/AttentionCudaBwd` | Invariant of the online accumulation of the three moments (weights, weighted values, weighted keys); the addresses of atomic additions form a list whose sum per address is the gradient formula under every permutation; derivative of the weighted softmax average as for C42. |
| C70 | Distributed attention layer equals the serial layer | `Model/DistAttentionLayer` | Reshapes and permutations entry by entry; the folded projections of a rank are tiles of the folded global projections; ring attention by C53, serial layer by C43; the stored pattern is the set of disk points. |
| C71 | Two-dimensional Fourier transforms | `Model/Fft2` | Orthogonality of the roots of unity along each dimension; the spectrum of a plane wave has one entry, whose row is read back by the inverse transform as another frequency when rows are cut off. |
| C72 | Solver for reaction-diffusion equations on the sphere | `Model/SphereSolver` | Legendre's differential equation turns the factor `-l(l+1)/R^2` into the Laplace-Beltrami operator of the series; C59 for fields and coefficients, C14 for constants, C16 for rotations. |
| C73 | Position embeddings | `Model/PosEmbed` | `Nat.sqrt` bounds for the enumeration; C59 for the values, C14 for the non-vanishing and the orthogonality; irrationality of pi for the sequence embedding. |
| C74 | Rotation of the sphere | `Model/SpectralConv`, `Model/SHT`, `Model/Quadrature` | The degree-`l` harmonics in Cartesian form span a space that the rotations leave invariant: about the pole by a phase, about the `y` axis by the ladder relations, whose flow is a matrix exponential that preserves the energy; Euler angles for the rest. Then C14, C20 and discrete orthogonality. |
| C75 | Filter bases of get_filter_basis | `Model/FilterBasis`, `Model/FilterNorm` | Case analysis for the arguments; the frequency `ceil(n/2)` against the sequence `1, sin, cos, ...`; Bessel's integral gives the derivative and recurrence relations, from which the radial orthogonality and the radial norm follow. SciPy's `jn` and `jn_zeros` are assumed to be the Bessel functions and increasing lists of their positive zeros. |
| C76 | Spherical Fourier neural operator | `Model/SFNO` | Every layer maps shifted stacks of fields to shifted stacks (C16 for the transforms, a cyclic sum for instance normalisation); induction along the chain of blocks, with the shift translated between the outer and the internal grid; shift 0 gives shapes. Losslessness by C14 and C59 at each change of grid. Evaluation mode; dropout is not modelled. |
| C77 | Initialisation, stochastic depth, patches | `Model/Layers` | The error function is the Gaussian integral: strictly increasing, continuous, onto (-1, 1). Both laws agree on all half-lines, hence are equal measures; the reference is Mathlib's `gaussianReal` conditioned on `[a, b]`. The mean of `floor(k + u)` over `[0, 1]` is `k`. Patches by division with remainder. |
| C78 | Tensor-core convolution kernels | `Model/DiscoKpacked` | Shared memory after staging is a function of the chunk (stores to distinct addresses commute); descriptors are decoded bit by bit; invariant: the accumulator holds the sum over the chunks so far; the fragment map is a bijection; every output element is written by exactly one thread of one block. Packing from C33. |
| C79 | Shallow-water initial states and data set | `Model/ShallowWaterIc` | Symmetry: the transforms map order 0 to order 0, and the tendency of an order-0 state has order 0 (induction over steps, C22 tendency). Integrals: the quadrature of a synthesis is the degree-0 coefficient. Balance: the divergence tendency of the state written with its own wind. Data set: case analysis of the code paths over the solver theorems. |
| C80 | Interrupted downloads | `Model/StanfordDownload` | A call is a trace of disk states, and a kill leaves any of them. Invariant of file, temporary file and directory over all histories (induction over attempts and over the members of an archive); counterexample histories for the findings. |
| C81 | Archive containment | `Model/StanfordTar` | Textual normalisation against path resolution on a disk with links: they agree without links (induction over the pieces); resolution of descending paths stays inside (induction over link depth and pieces, invariant over the members); counterexample archives for every data directory. |
| C82 | Statistics of a data set | `Model/StanfordData` | The recurrence for mean and squared deviations solved by induction over the items; weights from C58; the definition of mean and variance is in `Spec/StanfordData`. |
| C83 | Recorded statistics and classes | `Model/StanfordData` | The same recurrence with the code's sums; least and greatest elements by induction; sorted lists without repetition are determined by their elements. |
| C84 | Data set items | `Model/StanfordData` | Pixel-wise case analysis; floor of the row share; composition with C82 and C83. |
| C85 | Local spherical neural operator | `Model/LSNO` | Layers map shifted stacks to shifted stacks (C76, C28, C26); values of the convolutions from C37 and their supports from C36; induction over the blocks; error branches by unfolding the constructor; existence of networks for the documented arguments. |
| C86 | Spherical transformer | `Model/Transformer` | One lemma for both kinds of attention: the layer is the specified attention over a set of points (C41, C42, C48), which commutes with turns of the set; induction over the blocks for equivariance, receptive field and equality of the two kinds; encoder and decoder as in C85; error branches by unfolding the constructor; existence of networks for the documented arguments. |
| C87 | Spherical U-Net | `Model/UNet`, `Model/DiscoTranspose` | The two loops of the forward pass are a recursion over pairs of blocks; shape, shift and value lemmas for the convolution, transposed convolution (C37), resampling (C44) and pointwise layers, and induction over the recursion; inversion of the constructor for the negative parts; existence for the default arguments. |
| C88 | Spherical Segformer | `Model/Segformer` | One predicate (`Acts`) says of a layer that it has a shape, computes what the specification says and maps shifted inputs to shifted outputs for any two kernels; it is proved for the layers and closed under composition and residual connections, and the loops by induction; inversion of the constructor for the negative parts; existence for the default arguments. |
| C89 | Layout conversions on the GPU | `Model/LayoutCuda` | Iterations of single threads in any order that respects the barrier of a block; invariant: every tile entry and every output entry already written holds the right entry of the input. A schedule exists for every grid; C44 for the permutation on the CPU. |
| C90 | Preparing a launch on the GPU | `Model/GpuLaunch` | Stability of the merge sort; the long rows of a sorted list are a prefix (induction), which both scans count. Inductive invariant of the mutex and the two tables over all interleavings, and a measure that every round lowers; the cache of versions holds zero or the version. |
| C91 | Cached elevation map | `Model/Elevation` | Transition system of processes that share one file; inductive invariants: every byte of the file is that of the response, a writer has written all before its position, and a complete file stays complete. A measure for termination; explicit schedules for the negative parts. The interpolation is a mean of neighbours. |
| C92 | One step of distributed neighbourhood attention on the GPU | `Model/RingCuda` | Compaction of hits by ballots and scans keeps their order (so shared memory holds the neighbours); a group in lockstep computes the online softmax of C53; stores go to distinct places; atomic maxima and sums commute; `rescale` is an interleaving of loads and stores of warps with an invariant under `LoadsFirst`, and a schedule that breaks it is the negative theorem. C53's invariant for several calls. |
| C93 | The steps of distributed upsampling attention on the GPU, forward and backward | `Model/RingCudaUp` | The output points a cell visits are the rotated columns of its row; atomic maxima and sums commute, stores go to distinct places, and each phase is a fold over all warps in an arbitrary order; sums over cells and their targets are exchanged for sums over the neighbours of a point. Refinement of `upKernel`, `upStats` and `upGrads` of C53. The compare-and-swap loop: an invariant (memory only grows, every finished thread is below it) and a bound of a thread's steps by the number of finished threads. |
| C94 | Every execution path of the DISCO layer returns the same convolution and the same gradients | `Model/DiscoPaths` | The kernels of both devices on the compressed filter and on its parts by kernel are reduced to two sums (C30, C34, C65, C66, and C78 for tensor cores); batches by induction over planes; the rest is index arithmetic between batch items, groups and channels. Types by cases. `Props/DiscoBuilt` joins this to the geometry of C37: normalisation changes values but not places, so constructed filters keep the order the kernels need. |
| C95 | The first backward pass of a step of distributed neighbourhood attention on the GPU | `Model/RingCudaBwd` | The pass is two forward steps in one: the sums of weights and of keys are those of the forward kernels with the keys as values, and the integral and the sums of products those with the weights multiplied by `dy . v`. Every kernel, group by group, projects to the forward kernel in both halves, so that C92's results apply; both halves have the same maximum. The halves are put together into C53's accumulators. |
| C96 | The second backward pass of a step of distributed neighbourhood attention on the GPU | `Model/RingCudaBwd2` | Every group of threads yields a list of atomic additions (cell, channel, amount); additions commute, so the arrays after the pass depend on the multiset only. The multiset of a group is that of the neighbours of its output point in the block, per channel, by the loops over neighbours, shuffles and shared memory; the groups of the launches are the output points, once each. The sums are rearranged by cell, compared with C53's operations and, with C92_sums and C95_sums for what the caller passes, with the derivatives of the attention (as in C53). |
| C97 | Number types of neighbourhood attention | `Model/AttentionTypes` | Tensors carry a type; the buffer of weights is its bits, with the IEEE formats as functions from bits to numbers. The accepted types are a table in the Spec. Values: the typed operators reduce to those of C44, C68, C69, and the layer to the steps of C43. Refusals by cases. The casts of the module: by arithmetic on the bits (the upper word of a single-precision number decides it to within one percent) and, for memory behind the buffer, two memories and inputs with different results. |
| C98 | Execution paths and gradients of the transposed DISCO layer | `Model/DiscoTransPaths` | Batches as planes, as in C94; the operand of the kernels is contiguous memory, so that a wrong number of rows has a value. The layer is the transpose of the convolution with the grids exchanged, so the kernel lemmas of C94 apply to that convolution, and C37's lemma to the reference path. Transposes by exchanging finite sums. `Props/DiscoBuilt` joins this to the geometry of C37: normalisation changes values but not places, so constructed filters keep the order the kernels need. |
| C99 | Layouts declared to the compiler | `Model/Declared` | A tensor is its shape, type, allocation and the position in memory of its n-th entry. `permute` and `reshape` act on positions; `reshape` is a view exactly when strides exist; `contiguous` and `to` copy only when needed. The result of each operator is followed through these and compared with the declaration by index arithmetic. |
| C100 | Distributed attention under every schedule | `Model/Messages` | A transition system: every rank posts a batch, computes, waits; messages between two ranks are matched in the order of posting and transferred one at a time; any enabled step may be next. An invariant over reachable states ties counters, buffers and memories to the lockstep semantics. It gives the result, absence of deadlock (take a rank of least round), a fixed number of steps, and the sizes. The forward pass is shown to have matching batches and the lockstep result of C53. |
| C101 | Gradients of distributed attention under every schedule | `Model/MessagesBwd` | The backward pass as a list of rounds of the transition system of C100: pass 1, reset, pass 2, sums over the azimuth group, backward passes of the halo exchanges. For each kind of round: its batches match, its lockstep effect is that of the model of C53, its messages fit. The rounds compose, and C100 gives the result for all schedules; C53 says that it is the gradient. |
| C102 | Distributed spherical harmonic transforms under every schedule | `Model/MessagesGroup` | A collective over a group is a round of the transition system of C100: a message between every two members. Generic lemmas: its batches match, what arrives, what it does in lockstep. The transforms are six rounds (four all-to-all exchanges, two local computations); where the model of C51 succeeds the messages fit and the result is the same; C100 gives all schedules, C51 the serial result. If the messages of an exchange fit, the members have equally many channels. |
| C103 | Distributed convolutions under every schedule | `Model/MessagesDisco` | Reduce-scatter and all-gather are rounds of the transition system of C100, like the all-to-all of C102: what arrives is added to the own chunk and trimmed, or concatenated. The layers are five or six rounds; where the model of C52 succeeds the messages fit and the result is the same; C100 gives all schedules, C52 the serial result. |
| C104 | Gradients of the distributed spherical harmonic transforms | `Model/DistSHTGrad`, `Spec/Gradient` | The backward function of a transpose is a transpose with the dimensions exchanged, so the backward pass of a forward transform has the data flow of an inverse transform and the reverse; tiles as in C51, schedules as in C102. The backward functions of FFT and Legendre contraction are the adjoints of the serial steps (exchange of sums). |
| C105 | Distributed quadrature and resampling under every schedule | `Model/MessagesQuad` | An all-reduce is a round in which all members of a group exchange their tensors; the programs are lists of such rounds, transposes and local steps, which in lockstep compute the model of C54, and C100 carries this over to every schedule. |
| C106 | Gradients of distributed quadrature and resampling | `Model/DistQuadGrad` | The backward functions run in the opposite order on the process grid; every stage maps parts of a global array to parts of its transpose, so the result is a part of the transpose of the serial module, characterised by the pairing of `Spec/Gradient`; the rounds of messages compute the same in lockstep, and C100 carries this over to every schedule. |
| C107 | Distributed analysis after distributed synthesis, under every schedule | `Model/MessagesRoundTrip` | The rounds of the two calls in one program, with the removal and the renewal of the padding between them; where both calls succeed in lockstep the messages fit and the result is the same (as in C102), and C100 gives all schedules. C51 makes every call a tile of the serial one; C14 and C18 say what the serial ones give. |
| C108 | Distributed spectral convolution under every schedule | `Model/MessagesSpectral` | The rounds of the quadrature, the transform, the contraction and the inverse transform in one program; where the layer of C64 succeeds in lockstep the messages fit and the result is the same, and C100 gives all schedules. C64 makes the result a tile of the serial one. |
| C109 | Gradients of the distributed spectral convolution | `Model/DistSpectralGrad` | The backward passes of C104 around the adjoint of the channel mixing, plus the path through the integral: the two all-reduces of the copies add up the sums of the blocks. The gradient of the bias needs no reduction; the one of the weight needs the sum over the azimuth ranks (C64), here from the input and the output gradient on. The specification is the pairing of `Spec/Gradient`. The schedules of the backward pass are those of its parts (C104, C106) and are not composed into one program. |
| C110 | Training the distributed spectral convolution follows serial training | `Model/DistSpectralTrain` | One step from C64 and C109; induction over the number of steps with the invariant that the ranks hold their shares. The serial run is specified by the gradients of C109, and these are shown to be unique. |

## Findings (places where the code does not have the property one would expect)

Each has a theorem where the model reaches it (name in brackets).

Grids, transforms:
1. `truncate_sht` accepts an unknown grid name when lmax is given explicitly.
2. `lobatto_weights` computes the weights from the Vandermonde table of the nodes before the last Newton update; exact only in the limit.
3. `RealSHT` pairs flipped nodes with unflipped weights, which is right only because all rules are symmetric.
4. The vector transform cannot represent the Nyquist order, although the default truncation keeps it [C18_nyquist_not_recovered].
5. `legpoly` treats an unknown norm string like "four-pi"; `GaussianRandomFieldS2` passes norm="backward" and relies on it.
6. `SpectralConvS2`: docstring says AssertionError, code raises ValueError; the einsum broadcasts a channel axis of size 1, so a wrong channel
   count can pass silently [C20_broadcast_wrong]; the docs offer "equiangular-trapezoidal", which `RealSHT` rejects.
7. Shallow water: the second step is labelled second-order Adams-Bashforth but uses 28/12 and -16/12 [C23_second_step_not_ab2];
   lmax = 1 makes the hyperdiffusion NaN.

Cache:
8. Keys compare by value equality without type and tensors by identity: in-place mutation of an argument gives stale results;
   `copy=False` results are aliased [C25_no_copy_aliases].

Resampling:
9. `nlon_in = 1` gives NaN or infinite longitude weights [C26_single_longitude].
10. Spherical mode tests `somega > 1e-4` without absolute value, so negative angles use linear weights [C26_spherical_negative_wrong].
11. A grid with one latitude raises IndexError even when resampling is skipped [C27_single_latitude_error].

DISCO:
12. `preprocess_psi_kernel` starts a new row only when `row[i-1] != row[i]`, ignoring the kernel index: if one kernel ends with the row the
    next begins with, the runs merge [C30_collision_wrong]. Entries not grouped by row are overwritten [C30_unsorted_wrong].
13. `preprocess_psi` assumes at least one entry [C31_empty].
14. The reference contraction checks `nlon_in >= nlat_out`, probably meant `nlon_out` [C28_ok_iff].
15. `basis_norm_mode="geometric"` divides by (1 - cos theta_c)/4 [C35_geometric].
16. The isotropic piecewise-linear basis with an even radial count sums to 1/2 at the centre [C36_isotropic_even_centre].
17. The default theta_cutoff divides by `nlat_out - 1` [C37_error, C43_refused].
18. The packing code of `DiscreteContinuousConvS2.__init__` is executed twice; `_use_spatial_first_dgrad` is true with the dense layout
    even when the split buffers are missing.

Attention:
19. The reference starts its running maximum at 0, so very negative scores underflow [C38_reference_denominator_tiny].
20. An empty neighbourhood is 0/0 forward [C39_empty] and an exception in the reference backward [C42_reference_empty_row].
21. `AttentionS2` rejects upsampling shapes its forward could handle [C43_refused], and does not check the query extents.

Distributed:
22. `_reduce` and `_reduce_scatter` with use_fp32 route float64 through float32.
23. `init` does not reject a second init; the first groups are never destroyed [C56_destroyed]. One group registered for both directions
    makes finalize raise and leaves the registry initialised [C56_same_group_twice].
24. `polar_halo_exchange` needs r_lat <= H_local; r_lat = 0 sends the whole tensor.
25. `DistributedQuadratureS2` rejects "equiangular-trapezoidal", which is documented and accepted serially [C54_trapezoidal_refused].
26. `DistributedResampleS2` needs at least as many channels as ranks [C54_resample_few_channels].
27. Distributed DISCO: construction fails on a rank with exactly one local entry [C52_init]; the row collision of 12 can arise locally though
    the global filter is fine [C52_local_collision_wrong]; the fused path with groups=1 accepts a wrong channel count
    [C52_fused_wrong_channels].
28. Distributed attention: a halo wider than a neighbour's block fails at run time [C53_halo_too_wide]; the uniform-pscale check is
    stricter than the kernels need [C53_init].

Metrics and losses:
29. Ignored points count as true negatives; macro IoU of a perfect prediction counts absent classes as 0 [C57_macro_perfect_not_one]; micro IoU is NaN
    when every point is ignored; weighted macro scores range up to the sum of the weights.
30. Losses do not check the number of longitudes [C58_longitudes_unchecked]; one empty mask makes the batch NaN [C58_mask_empty].
31. `NormalLossS2` documents an L1 term it does not return [C63_normal].
32. Dice turns ignored points into class-0 targets [C62_dice_ignored]; an all-ignored item with smooth=0 is NaN [C62_dice_all_ignored].
33. `DistributedSpectralConvS2` applies the initial factor √2 of degree 0 to the first degree of every polar rank [C64_init_scale]; weight gradients of one rank are partial sums, as documented [C64_weight_gradient, C64_weight_gradient_one_rank]; only four-dimensional tensors are accepted although `(..., C, lat, lon)` is documented [C64_four_dimensions].
34. The specialised kernel of pass 2 of the ring backward tests `hi_local != -1` but not whether the row is inside of the halo: entries outside would be accessed out of bounds [C53_special_kernel_unguarded]. The halo the layer computes always covers the pattern, so the layer never triggers it [C53_backward].
35. `preprocess_psi` sorts in place only arrays in host memory. Arrays on a device (for example when the default device is a GPU while a layer is built) are left unsorted although the returned offsets are those of the sorted arrays; the kernel then mixes filters and rows [C31_device_arrays_unsorted].
36. The GPU kernels refresh the row buffer only when the flat index moves forward past the row: entries of a row must be listed by input latitude, or they read before the start of shared memory [C65_unsorted_latitudes_fault]. The CPU kernel has no such condition; what the layers build meets it [C65_layer_lists_latitudes].
37. The backward GPU kernel chooses the block size from the wide grid and at least 17 elements per thread above 2048 longitudes, so its shared memory can exceed 48 KiB although the forward pass of the same layer fits: 4096 to 1024 longitudes in single precision [C66_backward_needs_more]. Outputs wider than 32768 end the process [C65_widths].
38. The GPU attention operator has undocumented channel limits and ends the process (no exception) beyond them [C68_refused]: the fallback kernel for more than 16384 value channels per head never runs, since its shared memory exceeds 48 KiB and the limit is not raised [C68_generic_never]. An empty batch also ends the process [C68_empty_batch]; the CPU operator accepts it.
39. The GPU backward operator of attention admits fewer channels than the forward operator, so a forward pass can succeed and the backward pass end the process [C69_forward_only_scatter, C69_forward_only_gather]: when upsampling, 3072 instead of 6144 channels per head; otherwise up to 512 query channels allow 6144 query and value channels together. Its fallback kernel for more than 8192 query channels never runs [C69_generic_never].
40. With no query channels the GPU backward operator launches nothing and returns zero gradients, although the output still depends on the values [C69_no_query_channels].
41. `DistributedNeighborhoodAttentionS2` accepts a cutoff that reaches beyond the neighbouring rank; only the forward pass raises, in the halo exchange [C70_reach_too_far, C70_whole_sphere_refused].
42. `RealFFT2` keeps the negative latitude frequencies at the end of the truncated spectrum, but `InverseRealFFT2` zero-pads at the end, so a retained wave of frequency `-g` comes back with frequency `lmax - g`: truncation is not a projection [C71_negative_wave, C71_truncated_changes]. `lmax = 1` returns `nlat + 1` rows because of the slice `[-0:]` [C71_one_row]. No model of the library uses the two classes; the docstring of `SpectralConvS2` offers them as alternatives to the harmonic transforms.
43. The Ginzburg-Landau option of `SphereSolver` uses the real transforms, so its field is real: the coefficients of order `m >= 0` of a complex field do not determine it, and the constant imaginary state has the field 0 and the tendency of pure exponential growth [C72_imaginary_state]. Whatever a real field does not determine (`randspec` returns such components) evolves linearly and invisibly, for both equations [C72_invisible].
44. `SpectralPositionEmbedding` divides every channel by its maximum: the channel of the sine at the Nyquist order (`-m = nlon/2`) is zero on the grid and becomes NaN, for instance channel 16 of a 5 x 8 Gauss grid [C73_spectral]. More channels than the square of the truncation raise an `IndexError` [C73_spectral_error].
45. `SpectralConvS2` stores complex weights, one per degree, and initialises them with complex noise. The docstring says that weights which depend on the degree only give an isotropic kernel. That holds for real weights [C74_equivariant]. An imaginary part acts on the orders `m > 0` as a quarter turn about the polar axis and is dropped at `m = 0`, so the layer commutes with rotations about that axis only [C20_rotation, C74_complex_weights].
46. `SpectralConvS2` of the example models resamples the residual only if the two grids differ in size. A `SphericalFourierNeuralOperator` with `scale_factor=1` and its default grids (`equiangular` outside, `legendre-gauss` inside) adds values from the outer latitudes to fields on the internal ones: the pole's value ends up in a row that is not at the pole [C76_scale_one_misaligned]. With `scale_factor >= 2` the sizes differ and the residual is exact for the network's modes [C76_residual].
47. A `hard_thresholding_fraction` so small that no mode is left passes `lmax=0`, which the transforms treat like `None`: the full default truncation is used [C76_zero_modes].
48. An unknown `normalization_layer` raises `AttributeError`: the message of the intended `NotImplementedError` reads `self.norm_layer`, which does not exist [C76_errors]. The argument `encoder_layers` has no effect: line 311 fixes the number of encoder layers to one (read off the code; `Net.init` does not use it).
49. `DropPath(1.0)` in training, where every path should be dropped, returns NaN everywhere: the samples are divided by `1 - p = 0` before they are multiplied by 0. `DropPath()` keeps its default `None` and raises `TypeError` in training [C77_drop_one_none]. `PatchEmbed` silently ignores the rows and columns beyond the last whole patch [C77_patch_local, C77_patch_partition].
50. The distributed convolution selects the tensor-core kernels without testing that the output width is a multiple of 8 (the serial layer does). For other widths in half precision on such a device the distributed layer raises `RuntimeError` where the serial layer runs [C78_distributed_width].
51. `setup.py` sets one flag for `10.0a` and `10.3a`. A build for `10.0;10.3a` announces the kernels on a device of compute capability 10.0, runs there the plain binary, whose kernel body is compiled out, and returns zeros without an error [C78_wrong_target_zeros, C78_wrong_target_selected]. More than 524280 batch-channel planes, or none, exceed the launch limits: `RuntimeError` [C78_outcome].
52. `random_initial_condition` draws a degree-0 coefficient for vorticity and divergence as well. No wind has a mean vorticity or divergence, so this part of the state has no effect on the wind [C79_mean_vorticity_no_wind] but stays in the output fields for good [C79_random, with C22].
53. In `galewsky_initial_condition` the mean geopotential is `g (havg + mean bump)` less the mean kinetic energy of the jet, not `g` times the average height [C79_galewsky_mean].
54. `dimensionless(uspec)` is right for gridded fields only. For the spectral coefficients its argument name announces it subtracts the mean from every coefficient [C79_dimensionless_spectral].
55. `PdeDataset(initial_condition="galewsky")` with the default `normalize=True` divides by the variance of a divergence that is 0: no finite value (in floating point: rounding noise scaled up to order 1) [C79_dataset_divergence].
56. `PdeDataset.__getitem__` ignores its index and never raises `IndexError`: `for x in dataset` does not end [C79_dataset_len]. An unknown initial condition passes the constructor if `normalize=False`, and the first item raises `UnboundLocalError` [C79_dataset_errors]. A negative `nsteps` is accepted and gives target = input [C79_dataset_negative_steps].
57. A standalone `SphericalFourierNeuralOperatorBlock` with `input_dim != output_dim`, `outer_skip="linear"` and `use_mlp=False` is built without complaint, but every forward pass raises: the outer skip maps to `input_dim` channels, which only the MLP would restore [C76_block_channels].
58. A download that is killed after its last byte and before the rename leaves a complete `.part` file. The next attempt asks for the bytes after the last one; a server that follows the standard answers 416, and this and every further attempt raises without change [C80_stuck].
59. A file that fails its checksum has already been renamed to its final name, so every later call raises until the user removes it [C80_mismatch_stays]. Resuming does not compare versions: if the file on the server has changed, the result is the beginning of the old and the end of the new one, unnoticed without a checksum [C80_versions_mixed]. Files that differ in their extension only share one `.part` file (example in `Props/StanfordDownload`).
60. An extraction that is killed leaves an incomplete directory. Every later run takes the directory as complete, without any message about it [C80_incomplete_accepted].
61. `_extract_tar` returns the name of the first archive member, later runs the name of the directory; they differ if the archive does not start with the entry of its directory [C80_first_name].
62. A conversion that fails or is killed leaves its HDF5 file, and every later `prepare_dataset` returns this file as the finished data set [C80_prepare_incomplete].
63. The fallback check of archive members reads paths as text, while unpacking follows links. An archive with a link `a -> .` and a file `a/../evil` passes and writes next to the data directory; so does one with links `a -> .`, `b -> a/..` and a file `b/evil` [C81_symlink_escape]. The targets of hard links are checked relative to the directory of the link, but `tarfile` resolves them relative to the data directory: `d/h` linked to `../secret` passes [C81_hardlink_escape]. With the root as data directory everything is refused [C81_root].
64. `compute_stats_s2(normalize_target=True)` averages over pictures, not over valid pixels: a picture with few valid pixels counts as much as one with many [C82_target_not_pooled].
65. `convert_dataset` takes `np.minimum` of the maxima (lines 419 and 464), so `max_rgb` and `max_depth` are the smallest of the maxima of the pictures [C83_rgb_max, C83_depth_units].
66. `tmp_m2` of the colours sums over all channels (line 408 has no `axis`), so `std_rgb` of a channel contains the deviations of the other channels; for a single sample it is infinite or NaN, and a scalar [C83_rgb_std].
67. The depth statistics are recorded in the units of the source files, but the depths stored are divided by 65536 [C83_depth_units].
68. `StanfordDepthDataset` takes the greatest depth of each picture as the mark of invalid pixels: it masks the farthest point of pictures without invalid pixels, and all of a picture of constant depth, which makes `compute_stats_s2` return NaN for the target [C84_depth_constant, C84_constant_poisons].
69. `set_return_index` of the segmentation data set has no effect, and `StanfordDatasetSubset(return_index=True)` has none on batches of a `DataLoader`, which calls the inherited `__getitems__` [C84_return_index]. `compute_stats_s2` of a subset with `return_index=True` raises [C82_errors]. `_id_to_class` always raises or returns `None` [C84_id_to_class].
70. With its default arguments `LocalSphericalNeuralOperator()` raises a `ValueError`: the default scale factor 3 gives an internal grid of 85 longitudes, which do not divide 256 [C85_default]. The same holds for all sizes where `nlon // scale_factor` does not divide `nlon` [C85_never_built], and for scale factors that leave one latitude [C85_one_latitude]. The example of the docstring passes `img_shape`, which is not an argument, and the docstring gives another default of `normalization_layer` than the code.
71. `residual_prediction=True` adds the input without projection, unlike in the SFNO: for different numbers of channels every forward pass raises, and with `out_chans=1` the network returns `in_chans` channels [C85_residual].
72. `bias=True` does not reach encoder and decoder: the encoder is called with `bias=False`, the decoder ignores its argument [C85_values].
73. The filter names "harmonic" and "fourier-bessel", which `get_filter_basis` accepts, raise a `KeyError` in `_compute_cutoff_radius` [C85_errors].
74. `W11LossS2` and `NormalLossS2` differentiate along the meridian as if the field had period pi and `nlat` latitudes a distance `pi / nlat` apart. On the equiangular grid, with both poles, the distance is `pi / (nlat - 1)`: the derivative is too large by `nlat / (nlat - 1)` [C63_equiangular_scale]. Its sum over each meridian is 0 for every field, also for fields that decrease from pole to pole [C63_meridian_sum]. Both derivatives are those with respect to the angles, without the factor `1 / sin(theta)` of the gradient on the sphere.
75. The perturbation in `galewsky_initial_condition` divides `(phi2 - lats)^2` by `beta`, where the test case of Galewsky, Scott and Polvani divides by `beta^2`: the bump is `1 / sqrt 15` instead of `1 / 15` wide in latitude [C79_bump_width].
76. With its default arguments `SphericalTransformer()` raises a `ValueError`: the default scale factor 3 gives an internal grid of 85 longitudes, which do not divide 256 [C86_default]. The same holds for all sizes where `nlon // scale_factor` does not divide `nlon` [C86_never_built], and for scale factors that leave one latitude [C86_one_latitude].
77. `attention_mode` is compared with "neighborhood" only: every other string, misspellings included, silently means global attention, and `theta_cutoff` is then ignored [C86_mode].
78. With `use_mlp=False` a block replaces the perceptron by the identity but keeps its skip connection: without normalisation a block doubles the sum of its input and its attention [C86_no_mlp].
79. `SphericalTransformer(residual_prediction=True)` adds the input without projection: for different numbers of channels every forward pass raises, and with `out_chans=1` the network returns `in_chans` channels [C86_residual]. The argument `hard_thresholding_fraction` is not used, and the `LayerNorm` wrapper ignores its argument `eps`.
80. `SphericalUNet`: the convolutions of a downsampling block act on the input grid of the block but are built with its output grid name for both sides. In the first block the two differ: with the default arguments the fields are equiangular and the filters are laid out for Gauss latitudes [C87_wrong_grid, C87_wrong_grid_default].
81. The second convolution of the "conv" upsampling acts on the fine grid, but its input grid has the name of the coarse one and its cutoff is that of the coarse grid [C87_values: `UpStep`, the last `convAt`].
82. The upsampling blocks of `SphericalUNet` always have one convolution; `depths` only applies to the way down [C87_repetitions].
83. With `scale_factor=1` the `upsampling_mode` is ignored, misspellings included [C87_scale_one].
84. The example in the docstring of `SphericalUNet` cannot be run: it passes `use_mlp`, which is no argument, and without it the four levels with scale factor 4 leave no latitudes [C87_docstring].
85. `SphericalSegformer`: `mlp_ratio` has no effect. It sizes hidden layers that exist only with `use_mlp=True`, which neither the blocks nor the upsamplers are given [C88_mlp_ratio]. `mlp_bias` of `MixFFN` and `Upsampling` is not used either.
86. `SphericalSegformer` takes any `attention_mode` but "neighborhood" for global attention, misspellings included, and then ignores `theta_cutoff` [C88_mode].
87. `SphericalSegformer` without any dimensions is built, and every forward pass raises [C88_empty]; `SphericalUNet` raises when it is built [C87_errors].
88. The example in the docstring of `SphericalSegformer` cannot be run, for the same two reasons as that of `SphericalUNet` [C88_docstring].
89. `to_nhwc`, `to_nchw` on the GPU: an empty tensor (for example an empty batch) ends the process. The grid has a dimension 0, the launch fails, and `CHECK_ERROR` calls `exit`. On the CPU the result is empty [C89_empty].
90. `to_nhwc`, `to_nchw` on the GPU raise if batch size times number of latitudes is 65536 or more (91 samples on 721 latitudes), or if channels or longitudes are too many; the CPU takes such tensors [C89_refused].
91. The messages of these errors name the wrong axes for `to_nchw`: the axis called `nlon` is that of the channels, and `batch * nchn` is batch size times number of latitudes (read from the code; messages are not modelled).
92. `split_csr_rows` on a list of rows that is not sorted by decreasing length: the CPU and the GPU return different splits without any error [C90_unsorted].
93. `load_mola_elevation`: the download is written directly to its final name. A process that is killed while it writes leaves a truncated file, and every later call fails until someone deletes it [C91_killed].
94. `load_mola_elevation`: the file is opened before the response is read. A connection that breaks leaves an empty file, and every later call fails although the network works again [C91_read_error].
95. `load_mola_elevation`: a process that calls while another one downloads takes the unfinished file for the cached one and fails [C91_race].
96. `load_mola_elevation`: a single target size (`nlat` without `nlon`) is ignored; the map has the size of the picture [C91_native].
97. `load_mola_elevation`: the interpolation is not periodic in longitude; the columns at the seam are repeated, not mixed [C91_seam].
98. `s2_attn_fwd_ring_rescale_k` (attention_cuda_fwd_ring.cu 361-417) has a data race for more than 512 output channels: every warp of a group reads the old maximum from memory, thread 0 overwrites it, and no barrier is in between. A warp that reads late finds the new maximum and leaves its sums unscaled: a wrong result without an error [C92_race]. C92_step holds under the assumption that this does not happen.
99. `s2_attn_bwd_ring_pass1_rescale_k` (attention_cuda_bwd_ring.cu 400-467) has the same race for more than 512 channels of keys [C95_race].
100. The ring step on the GPU ends the process on an empty batch [C92_empty_batch].
101. The long-row kernels keep a 32nd of a row in shared memory: with 227 KiB and at most 512 channels, a row of more than 185952 entries (a full-sphere cutoff on 361 x 720) ends the process, although the generic kernel keeps no rows in shared memory [C92_row_too_long].
102. `ensure_dyn_shmem` looks at the dynamic part of the shared memory only. Between 48 KiB less the static part and 48 KiB, nothing is asked for and the launch fails (example beside C92_row_too_long).
103. The ring step with no output channels does not keep up `alpha_sum` and `qdotk_max` [C92_no_channels].
104. No launcher of the upsampling ring kernels asks for more than 48 KiB of shared memory. The second backward pass needs twice as much as the forward step: from 3073 to 6144 channels of keys and values together, the forward pass works and the backward pass ends the process [C93_channels]. Beyond 6144 the forward step ends it [C93_refused].
105. The upsampling ring step ends the process on an empty batch and on an empty block [C93_empty].
106. Without autocast, whether `DiscreteContinuousConvS2` accepts an input whose type differs from that of its weight depends on the path: `fused=True` accepts it; `fused=False` accepts it if `2 * out_channels <= in_channels` and the filter has all its rows, and raises otherwise; `optimized_kernel=False` raises [C94_mixed_types, C94_cpu_path].
107. Under autocast the output of `DiscreteContinuousConvS2` is in the autocast type without bias and in single precision with bias [C94_bias_type].
108. The fused operator has no autocast rule for the CPU. Under CPU autocast, a double-precision input gives a double-precision output on the fused and saved paths, a half-precision one on the plain optimized path, and an exception on the reference path [C94_double_autocast]. The fake kernel used for tracing announces the type of the input, also where the real operator returns the autocast type (read from the code).
109. The tensor-core forward accepts up to 524280 planes (batch times channels), the kernels of its backward pass 65535: larger batches run forward and raise in the backward pass [C94_output, C94_large_batch].
110. The backward kernels of the ring end the process when twice the channels of the keys and those of the values exceed 29056 (227 KiB of shared memory, more than 8192 channels of keys); the bound of the forward kernels involves the channels of the values only [C95_too_many_channels].
111. Without channels of queries and keys (but with channels of values) the forward ring step computes the weighted mean; the first backward pass launches nothing and leaves the accumulators of the denominator at 0 [C95_no_channels].
112. The generic kernel of the second backward ring pass checks that the row of a neighbour is in the block, the specialised one (up to 8192 channels of keys) does not: with a block that lacks rows in which neighbours lie it reads keys and values, and adds gradients, outside of the arrays or into cells of other rows [C96_outside]. See finding 34: the halo that the module computes has all the rows.
113. The second backward pass, too, launches nothing without channels of queries and keys, and the gradients of the values stay 0 although the forward step then computes the weighted mean [C96_no_channels].
114. `NeighborhoodAttentionS2` keeps `quad_weights` as a buffer, so `module.half()`, `.bfloat16()` and `.double()` cast it, and all CUDA kernels take `reinterpret_cast<float *>` of it without looking at its type. In bfloat16 the weight used for input row `i` is that of row `2 i + 1` (to one percent), and rows from the middle on use memory behind the buffer; in double precision half of the stored weights are never read. Nothing is raised and the results are finite [C97_bfloat16_wrong_rows, C97_half_reads_beyond, C97_double_ignores_half]. The CPU operator raises RuntimeError for the same modules; the reference operator is right [C97_refused, C97_operator].
115. A module in double precision cannot be used under autocast: the operator casts its inputs to the autocast type and the last projection then refuses to multiply them with double-precision parameters [C97_refused].
116. `DistributedNeighborhoodAttentionS2` has no `_check_dtypes_match`, and the ring operators take the type of the queries for keys and values too. A `scale` given as a tensor (with a dimension) of a wider type than the parameters is refused by the serial layer on the optimized operators, but makes the ring steps read keys and values as numbers of the wider type, beyond the end of their arrays [C97_distributed_misread].
117. `DiscreteContinuousConvTransposeS2.forward` never compares its input with `in_shape`. Every number of longitudes that divides `nlon_out` is accepted on every path and treated as the grid of the input [C98_output, C98_longitudes].
118. The optimized kernels of the transposed layer do not check the number of latitudes either (the reference path does). Extra rows are ignored; for missing rows the kernels read the expanded input of the next kernel index, channel or item, and after the end of the tensor whatever lies in memory [C98_rows_unchecked, C98_rows_read, and the example beside them].
119. Under autocast a double-precision transposed layer on a double-precision input answers in half precision on the optimized path and in double precision on the reference path [C98_double_autocast].
120. The reference attention operator declares a contiguous channels-last result and returns a view of channels-first memory. Apart from degenerate sizes the strides differ from the declared ones, so code compiled from the declaration either fails a stride check or reads the entries of an item in a permuted order [C99_reference, C99_reference_strides, C99_reference_misread].
121. The same operator takes the declared batch from the keys and returns the batch of the queries. With one head, keys and values of batch 1 are broadcast, and the two differ [C99_reference_batch].
