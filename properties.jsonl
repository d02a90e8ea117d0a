{"id": "C01", "title": "Truncation is triangular and never exceeds what the grid supports", "statement": "truncate_sht(nlat, nlon, lmax, mmax, grid) either raises ValueError (unknown grid and no usable lmax given) or returns a pair with lmax = mmax, not larger than any bound the caller passed, and not larger than the default limit of any bound the caller left out (grid limit in latitude, nlon//2+1 in longitude).", "quantifier": "all nlat, nlon, all optional lmax/mmax (including 0, which counts as absent), all grid names", "why_tests_cant": "unbounded family of sizes times optional arguments; tests sample a handful of shapes", "anchors": ["torch_harmonics/truncation.py:_truncate_lmax", "torch_harmonics/truncation.py:_truncate_mmax", "torch_harmonics/truncation.py:truncate_sht"]}
{"id": "C02", "title": "Default truncation is exactly resolvable by the grid", "statement": "With default lmax/mmax on legendre-gauss, lobatto and equiangular grids, the product of any two retained Legendre functions has degree at most the exactness degree of that grid's quadrature rule (2n-1, 2n-3, n-1), and every retained order m is at most nlon/2.", "quantifier": "all nlat, nlon and the three grids accepted by the transforms", "why_tests_cant": "off-by-one in a truncation rule only shows for one parity of nlat or one grid; must hold for all sizes", "anchors": ["torch_harmonics/truncation.py:truncate_sht", "torch_harmonics/sht.py:RealSHT.__init__"]}
{"id": "C03", "title": "Clenshaw-Curtis weights are exact", "statement": "clenshaw_curtiss_weights(n, a, b) returns nodes in [a,b] and weights that integrate every polynomial of degree at most n-1 exactly over [a,b]; n <= 1 raises ValueError.", "quantifier": "all n >= 2, all a, b, all polynomials of degree <= n-1", "why_tests_cant": "exactness for all degrees and all n is an identity, not a sample; float tests cannot separate a wrong weight of size 1e-8", "anchors": ["torch_harmonics/quadrature.py:clenshaw_curtiss_weights"]}
{"id": "C04", "title": "Quadrature weights sum to the interval length", "statement": "For every quadrature rule offered (trapezoidal, periodic trapezoidal, Clenshaw-Curtis, and Gauss/Lobatto given their exactness) the weights sum to b-a, and the trapezoidal rule integrates affine functions exactly.", "quantifier": "all n in the rule's domain, all a, b", "why_tests_cant": "unbounded n and real a, b", "anchors": ["torch_harmonics/quadrature.py:trapezoidal_weights", "torch_harmonics/quadrature.py:clenshaw_curtiss_weights", "torch_harmonics/quadrature.py:legendre_gauss_weights", "torch_harmonics/quadrature.py:lobatto_weights"]}
{"id": "C05", "title": "Latitudes and longitudes form a valid ordered grid", "statement": "precompute_longitudes(nlon) returns nlon strictly increasing equispaced angles starting at 0 and below 2*pi, and precompute_latitudes returns colatitudes in [0, pi], strictly increasing from north to south, paired with the weight of the same node.", "quantifier": "all nlat, nlon and all supported grids", "why_tests_cant": "ordering/pairing after flips must hold for each index of each grid size", "anchors": ["torch_harmonics/quadrature.py:precompute_longitudes", "torch_harmonics/quadrature.py:precompute_latitudes", "torch_harmonics/quadrature.py:_precompute_quadrature_weights"]}
{"id": "C06", "title": "Quadrature weights are positive and mirror-symmetric", "statement": "Every weight returned by clenshaw_curtiss_weights is strictly positive for a < b and equals the weight of the mirrored node, so logarithms of the weights (used as attention bias) are finite. The weights of Gauss rules, of the trapezoidal rule and of the Lobatto rule (for every tolerance and iteration limit) are positive too; hence so are the latitude weights of every grid.", "quantifier": "all n >= 2, all nodes, all grids", "why_tests_cant": "positivity of an FFT-produced sequence for all n is a theorem", "anchors": ["torch_harmonics/quadrature.py:clenshaw_curtiss_weights", "torch_harmonics/attention/attention.py:AttentionS2.__init__"]}
{"id": "C07", "title": "Lobatto nodes and weights converge to the Gauss-Lobatto rule", "statement": "For every n >= 2 the Newton iteration of lobatto_weights never divides by zero and converges from its Chebyshev guess to the Gauss-Lobatto rule (end points and zeros of P_{n-1}', weights 2/(n(n-1)P_{n-1}^2)), whose integrals of polynomials of degree at most 2n-3 are exact. Nodes include both end points and nodes and weights are mirror-symmetric however many iterations run. With tolerance tol the returned nodes are within 4 tol of the exact ones and in increasing order, the weights exceed the exact ones by a share of at most 75 tol^2 (n-1/2)^4, and the integral of a polynomial p of degree at most 2n-3 is off by at most 8 tol max|p'| + 150 tol^2 (n-1/2)^4 max|p|; the default arguments meet the conditions of this up to n = 10^7. Fewer than two nodes raise.", "quantifier": "all n >= 2, all tolerances and iteration limits, all polynomials of degree <= 2n-3 (real arithmetic)", "why_tests_cant": "exactness for all n and degrees; tests compare a few sizes with tolerance", "anchors": ["torch_harmonics/quadrature.py:lobatto_weights"]}
{"id": "C08", "title": "Spherical quadrature integrates fields correctly", "statement": "QuadratureS2 is linear, maps the constant c to 4*pi*c (to c when normalize=True), is invariant under cyclic longitude shifts, and integrates every band-limited field (degrees within the rule's exactness, orders below nlon) to its exact surface integral.", "quantifier": "all grids, sizes, fields and shifts", "why_tests_cant": "infinite family of fields and sizes", "anchors": ["torch_harmonics/quadrature.py:QuadratureS2"]}
{"id": "C09", "title": "legpoly values are the orthonormal associated Legendre functions", "statement": "legpoly(mmax,lmax,x,norm='ortho') is zero for l<m, and otherwise the entry (m,l) is (1-x^2)^(m/2) times a polynomial of degree l-m, such that 2*pi*integral over [-1,1] of the product of entries (m,l) and (m,l') is 1 if l=l' and 0 otherwise; the result for (m,l) does not depend on mmax, lmax.", "quantifier": "all m, l, l', all x in [-1,1], all table sizes", "why_tests_cant": "recurrence correctness for every degree and order is an induction", "anchors": ["torch_harmonics/legendre.py:legpoly", "torch_harmonics/legendre.py:_precompute_legpoly"]}
{"id": "C10", "title": "Normalisation and phase options only rescale", "statement": "For each norm the forward and inverse tables differ from the ortho table by documented factors whose product is 1, so analysis followed by synthesis does not depend on norm; csphase multiplies order m by (-1)^m and nothing else.", "quantifier": "all norms, csphase flags, m, l, x", "why_tests_cant": "every (norm, csphase, l, m) combination must agree between two separately built tables", "anchors": ["torch_harmonics/legendre.py:legpoly"]}
{"id": "C11", "title": "Derivative tables are the colatitude derivative and m over sine", "statement": "_precompute_dlegpoly returns, for every m<=l, the derivative of the (m,l) Legendre function with respect to colatitude, and m/sin(theta) times the (m,l) function (with the documented sign for csphase and norm).", "quantifier": "all m, l, colatitudes, norms, csphase", "why_tests_cant": "pointwise identity for all degrees", "anchors": ["torch_harmonics/legendre.py:_precompute_dlegpoly"]}
{"id": "C12", "title": "Real FFT wrapper truncates and zero-pads exactly", "statement": "rfft(x, nmodes) returns exactly nmodes coefficients: coefficient k equals the k-th discrete Fourier coefficient of x for k <= n//2 and 0 above; passing the keyword n raises ValueError.", "quantifier": "all lengths, nmodes, signals", "why_tests_cant": "pad/truncate boundaries over all sizes and parities", "anchors": ["torch_harmonics/fft.py:rfft", "torch_harmonics/fft.py:_pad_dim_right"]}
{"id": "C13", "title": "Inverse real FFT wrapper ignores non-physical imaginary parts and inverts rfft", "statement": "irfft(X, n) does not depend on the imaginary part of the DC bin, nor of the Nyquist bin when n is even; irfft(rfft(x)) returns x for every signal when all bins are retained, and rfft(irfft(X)) returns X whenever DC (and Nyquist) are real.", "quantifier": "all n (both parities), all spectra", "why_tests_cant": "parity-specific boundary of an infinite family", "anchors": ["torch_harmonics/fft.py:irfft", "torch_harmonics/fft.py:rfft"]}
{"id": "C14", "title": "Analysis after synthesis is the identity on coefficients", "statement": "RealSHT(InverseRealSHT(c)) = c for every triangular coefficient array c with real m=0 (and real Nyquist) column, for every grid whose rule is exact to degree 2(lmax-1), every norm and csphase flag.", "quantifier": "all nlat, nlon, lmax, mmax within truncation, norms, csphase, coefficients", "why_tests_cant": "round-trip for all sizes and coefficients; tests use tolerances and a few sizes", "anchors": ["torch_harmonics/sht.py:RealSHT", "torch_harmonics/sht.py:InverseRealSHT"]}
{"id": "C15", "title": "Synthesis after analysis is a projection", "statement": "InverseRealSHT(RealSHT(f)) is idempotent as a map on fields, fixes every field in the range of InverseRealSHT, and discards the rest.", "quantifier": "all fields, grids, sizes", "why_tests_cant": "infinite input space", "anchors": ["torch_harmonics/sht.py:RealSHT", "torch_harmonics/sht.py:InverseRealSHT"]}
{"id": "C16", "title": "Transforms are linear and commute with rotation about the polar axis", "statement": "RealSHT and InverseRealSHT are linear; cyclically shifting the field by j longitudes multiplies the order-m coefficients by exp(-2*pi*i*m*j/nlon) (and conversely for synthesis).", "quantifier": "all fields, coefficients, shifts, sizes", "why_tests_cant": "continuous input space and every shift", "anchors": ["torch_harmonics/sht.py:RealSHT.forward", "torch_harmonics/sht.py:InverseRealSHT.forward"]}
{"id": "C17", "title": "Energy is preserved (discrete Parseval)", "statement": "For ortho norm, the quadrature of f^2 over the grid equals the sum over l of |c_{l0}|^2 + 2*sum_{m>0} |c_{lm}|^2 (Nyquist column counted once) for every band-limited field f with coefficients c.", "quantifier": "all triangular coefficient arrays and grids with enough exactness", "why_tests_cant": "identity over all inputs", "anchors": ["torch_harmonics/sht.py:InverseRealSHT", "torch_harmonics/quadrature.py:QuadratureS2"]}
{"id": "C18", "title": "Vector transform round-trip", "statement": "RealVectorSHT(InverseRealVectorSHT(s,t)) = (s,t) for every pair of triangular coefficient arrays with real m=0 column and degrees l>=1 (the l=0 coefficients are not represented and come back 0). Degree 0 and orders above the degree carry nothing and come back as zero; the Nyquist order m = nlon/2, which a real field on nlon longitudes cannot represent, must be absent or zero (it is not recovered otherwise).", "quantifier": "all grids with enough exactness, all sizes, norms, csphase, coefficient arrays", "why_tests_cant": "round-trip over all inputs; sign or cross-term mistakes can cancel on special fields", "anchors": ["torch_harmonics/sht.py:RealVectorSHT", "torch_harmonics/sht.py:InverseRealVectorSHT"]}
{"id": "C19", "title": "Vector synthesis is gradient plus rotated gradient of the scalar synthesis", "statement": "InverseRealVectorSHT(s,0) is the surface gradient (d/dtheta, 1/sin(theta) d/dlambda) of the field synthesised from s, and InverseRealVectorSHT(0,t) is that gradient rotated by 90 degrees; away from the poles and pointwise on the grid.", "quantifier": "all coefficient arrays and grid points", "why_tests_cant": "pointwise analytic identity for all degrees", "anchors": ["torch_harmonics/sht.py:InverseRealVectorSHT", "torch_harmonics/legendre.py:_precompute_dlegpoly"]}
{"id": "C20", "title": "Spectral convolution multiplies each degree independently", "statement": "SpectralConvS2 without bias, applied to a band-limited field, returns the field whose (l,m) coefficients are the channel mix of the input's (l,m) coefficients by the weight of degree l and of the same group only; it commutes with longitude rotation and never mixes groups, degrees or orders.", "quantifier": "all weights, fields, group counts, shifts", "why_tests_cant": "infinite parameter and input space", "anchors": ["torch_harmonics/spectral_convolution.py:SpectralConvS2"]}
{"id": "C21", "title": "Random fields have exactly zero mean and only admissible modes", "statement": "Every sample of GaussianRandomFieldS2, for every noise input xi, has a zero (0,0) coefficient, hence zero quadrature integral on grids with enough exactness, and depends linearly on xi through modes m <= l only; the default sigma requires alpha > 1 and otherwise raises.", "quantifier": "all xi, sizes, alpha, tau, sigma, radii", "why_tests_cant": "holds for each sample, not on average", "anchors": ["torch_harmonics/random_fields.py:GaussianRandomFieldS2"]}
{"id": "C22", "title": "Shallow-water stepping conserves mass for any number of steps", "statement": "ShallowWaterSolver.timestep leaves the l=0 coefficients of geopotential, vorticity and divergence exactly unchanged after any number of steps, from any state, and with nsteps=0 returns its input; hence the integral over the sphere (integrate_grid) of each gridded field, in particular the total mass, is constant.", "quantifier": "all states, step counts, time steps and parameters", "why_tests_cant": "invariant over unbounded histories", "anchors": ["torch_harmonics/examples/shallow_water_equations.py:ShallowWaterSolver.timestep", "torch_harmonics/examples/shallow_water_equations.py:ShallowWaterSolver.dudtspec"]}
{"id": "C23", "title": "The multistep scheme uses the last three tendencies in order", "statement": "In every step k>=2 the update is the third-order Adams-Bashforth combination 23/12 f_k - 16/12 f_{k-1} + 5/12 f_{k-2} of the tendencies of the three most recent states; step 0 is forward Euler and step 1 uses 28/12 f_1 - 16/12 f_0.", "quantifier": "all step counts (rotating buffer indices), all tendency functions", "why_tests_cant": "index rotation must be right after any number of steps", "anchors": ["torch_harmonics/examples/shallow_water_equations.py:ShallowWaterSolver.timestep"]}
{"id": "C24", "title": "Wind and vorticity/divergence are mutually inverse", "statement": "vrtdivspec(getuv(z)) = z for every pair z of triangular vorticity/divergence coefficient arrays without l=0 content, with real m=0 column and without content at the Nyquist order 2m = nlon (which the vector transform cannot represent); getuv(vrtdivspec(v)) = v for the winds v so obtained; and the wind is the rotated gradient of the stream function plus the gradient of the velocity potential that invert the Laplacian.", "quantifier": "all coefficient arrays, radii, sizes", "why_tests_cant": "round-trip over all inputs", "anchors": ["torch_harmonics/examples/shallow_water_equations.py:ShallowWaterSolver.vrtdivspec", "torch_harmonics/examples/shallow_water_equations.py:ShallowWaterSolver.getuv"]}
{"id": "C25", "title": "The precomputation cache is transparent", "statement": "A function decorated with lru_cache(copy=True) returns, over every history of calls and every in-place mutation of previously returned values, the same value as the undecorated function, and never holds more than maxsize entries; an entry is evicted only when the cache is full and it is the least recently used.", "quantifier": "all call histories, interleaved with caller mutations of results", "why_tests_cant": "quantifies over unbounded histories", "anchors": ["torch_harmonics/cache.py:lru_cache"]}
{"id": "C26", "title": "Bilinear resampling is interpolation", "statement": "ResampleS2(mode='bilinear') returns, at every output point, the bilinear interpolant of the input field (periodic in longitude; with a row at each pole holding the mean of the outermost row when an output latitude lies beyond the input grid). It is linear, stays between any bounds of the input, and, in both modes, maps constants to the same constant and returns the input value at output points that coincide with input nodes. Unknown modes and grids are refused.", "quantifier": "all input/output sizes with at least two input rows and columns, all grid pairs, all fields", "why_tests_cant": "index and weight validity for each size pair; periodic wrap and pole handling are edge cases", "anchors": ["torch_harmonics/resample.py:ResampleS2"]}
{"id": "C27", "title": "Resampling commutes with longitude rotation and is the identity on equal grids", "statement": "If the grids coincide the output equals the input; rotating the input by s columns rotates the output by t columns whenever both rotations are the same angle (both modes, with or without pole rows).", "quantifier": "all sizes, grids, fields and rotations", "why_tests_cant": "infinite input space", "anchors": ["torch_harmonics/resample.py:ResampleS2.forward"]}
{"id": "C28", "title": "DISCO convolution computes the documented sum", "statement": "The contraction used by DiscreteContinuousConvS2 returns, for each kernel index, output row t and output column p, the sum over stored filter entries (t, i, j) of value times the input at row i and column (j + p*nlon_in/nlon_out) mod nlon_in.", "quantifier": "all sparse filter tensors, inputs and grid sizes with nlon_in divisible by nlon_out", "why_tests_cant": "holds for all sparse patterns and all shifts", "anchors": ["torch_harmonics/disco/kernels_torch/disco_torch.py:_disco_s2_contraction_torch", "torch_harmonics/disco/_disco_utils.py:_get_psi"]}
{"id": "C29", "title": "DISCO convolution commutes with longitude rotation", "statement": "Rotating the input by s*nlon_in/nlon_out columns rotates the output by s columns, for every filter, weight and bias.", "quantifier": "all inputs, filters, weights and shifts", "why_tests_cant": "infinite input space", "anchors": ["torch_harmonics/disco/convolution.py:DiscreteContinuousConvS2.forward"]}
{"id": "C30", "title": "The optimized CPU kernel computes the same as the reference", "statement": "For every filter tensor with at least one entry, entries listed row by row inside each kernel and no kernel-boundary row collision, the row-compressed CPU kernel (sorted entries, doubled row buffer) returns the same tensor as the reference contraction, in whatever order the threads finish the rows. (When the last row of one kernel equals the first row of the next it does not: the entries are attributed to the wrong kernel; and when the entries of one row are not listed together the later run overwrites the earlier one.)", "quantifier": "all sparse filter tensors, all entry orders, all inputs", "why_tests_cant": "depends on sparsity pattern and entry order; small shapes used in tests never collide", "anchors": ["torch_harmonics/disco/optimized/kernels_cpu/disco_cpu_fwd.h", "torch_harmonics/disco/optimized/disco_helpers.h:preprocess_psi_kernel"]}
{"id": "C31", "title": "Sorting of filter entries is a stable permutation with a valid row index", "statement": "preprocess_psi reorders (kernel,row,col,value) entries by kernel, stably, losing and duplicating none, and its row offsets cut the sorted list into consecutive non-empty runs of constant row covering everything.", "quantifier": "all entry lists", "why_tests_cant": "counting sort correctness for all inputs", "anchors": ["torch_harmonics/disco/optimized/disco_helpers.h:preprocess_psi_kernel"]}
{"id": "C32", "title": "DISCO gradients are adjoint to the forward pass", "statement": "The backward contraction is the exact transpose of the forward contraction: <forward(x), g> = <x, backward(g)> for every x and g; the transposed convolution's contraction is that same transpose (up to its longitude flip/canonicalisation).", "quantifier": "all filters, inputs and cotangents", "why_tests_cant": "identity for all vectors", "anchors": ["torch_harmonics/disco/kernels_torch/disco_torch.py:_disco_s2_transpose_contraction_torch", "torch_harmonics/disco/optimized/kernels_cpu/disco_cpu_bwd.h"]}
{"id": "C33", "title": "Dense and kernel-packed filter layouts are lossless", "statement": "Packing the sparse filter into padded dense rows (and then across kernels when every kernel shares its column pattern) contracts to the same result as the sparse filter; packing refuses (error / None) exactly when a row overflows or patterns differ.", "quantifier": "all filters and inputs", "why_tests_cant": "holds for all patterns", "anchors": ["torch_harmonics/disco/optimized/disco_helpers.h:pack_psi_dense_kernel", "torch_harmonics/disco/optimized/disco_optimized.py:_maybe_kpack_psi"]}
{"id": "C34", "title": "Fused, spatial-first and weight-first gradient orders agree", "statement": "The fused convolution equals contraction followed by weight mixing, and its input gradient is the same whether computed kernel-by-kernel before or after mixing with the weight; grouped convolution never mixes channels across groups.", "quantifier": "all weights, group counts, cotangents", "why_tests_cant": "algebraic identity for all inputs", "anchors": ["torch_harmonics/disco/optimized/disco_optimized.py:_disco_s2_fused_conv_spatial_first_dgrad", "torch_harmonics/disco/optimized/disco_optimized.py"]}
{"id": "C35", "title": "Filter normalisation makes each filter integrate to one", "statement": "With nodal normalisation every filter, at every output latitude with non-zero raw integral, sums (with the quadrature weights) to 1 up to the stated epsilon, and with merge_quadrature the weights are folded in exactly once.", "quantifier": "all filters, rows, quadrature weights", "why_tests_cant": "per-row statement over all inputs", "anchors": ["torch_harmonics/disco/convolution.py:_normalize_convolution_tensor_s2"]}
{"id": "C36", "title": "Piecewise-linear filters are a partition of unity inside the cutoff", "statement": "All piecewise-linear basis functions are non-negative, vanish outside the cutoff radius, and (anisotropic, and isotropic with odd radial count) sum to exactly 1 for radii up to cutoff minus one radial spacing; the number of functions equals kernel_size.", "quantifier": "all kernel shapes, radii and angles", "why_tests_cant": "real-valued domain, index wrap-around at every angle", "anchors": ["torch_harmonics/filter_basis.py:PiecewiseLinearFilterBasis"]}
{"id": "C37", "title": "Filter support geometry is the great-circle neighbourhood", "statement": "The (distance, angle) pair used to evaluate filters at an output latitude is the spherical polar coordinate of the input point in the frame rotated to the output point: its first component is the great-circle distance to the output point, so entries are kept exactly for points within the cutoff. Built from grids and a filter basis, the layer is, at every output point, the normalised quadrature of filter times field; the transposed layer spreads every input point with the same filters, seen from the input points, to the output points.", "quantifier": "all grids, bases, cutoffs, fields and weights, all output and input points", "why_tests_cant": "trigonometric identity over reals", "anchors": ["torch_harmonics/disco/convolution.py:_precompute_convolution_tensor_s2", "torch_harmonics/disco/convolution.py:DiscreteContinuousConvS2", "torch_harmonics/disco/convolution.py:DiscreteContinuousConvTransposeS2"]}
{"id": "C38", "title": "Neighbourhood attention is an exact weighted softmax", "statement": "The one-pass (running maximum) attention returns sum_j w_j exp(q.k_j) v_j / sum_j w_j exp(q.k_j) over the neighbourhood, independently of entry order and of the starting maximum; reference and CPU kernels agree.", "quantifier": "all neighbourhoods (non-empty), queries, keys, values, orders", "why_tests_cant": "order-independence and exactness for all inputs", "anchors": ["torch_harmonics/attention/kernels_torch/attention_torch.py", "torch_harmonics/attention/optimized/kernels_cpu/attention_cpu_fwd.h"]}
{"id": "C39", "title": "Attention output is a convex combination of values", "statement": "With positive quadrature weights each output component lies between the minimum and maximum of the values in the neighbourhood; constant values are reproduced; adding a constant to all scores changes nothing. An empty neighbourhood yields an undefined 0/0.", "quantifier": "all non-empty neighbourhoods and inputs", "why_tests_cant": "infinite input space", "anchors": ["torch_harmonics/attention/kernels_torch/attention_torch.py", "torch_harmonics/attention/attention.py:NeighborhoodAttentionS2"]}
{"id": "C40", "title": "Attention commutes with longitude rotation", "statement": "Rotating keys and values by s*nlon_in/nlon_out columns and queries by s columns rotates the output by s columns (and correspondingly for upsampling).", "quantifier": "all inputs and shifts", "why_tests_cant": "infinite input space", "anchors": ["torch_harmonics/attention/kernels_torch/attention_torch.py"]}
{"id": "C41", "title": "Upsampling attention equals the gather formulation", "statement": "The two-pass scatter used when nlon_out is a multiple of nlon_in computes for each output point the weighted softmax over exactly the input points whose transposed neighbourhood contains it; reference and CPU gather implementation agree.", "quantifier": "all neighbourhood patterns and inputs", "why_tests_cant": "holds for every pattern", "anchors": ["torch_harmonics/attention/kernels_torch/attention_torch.py", "torch_harmonics/attention/optimized/kernels_cpu/attention_cpu_fwd_upsample.cpp"]}
{"id": "C42", "title": "Attention gradients are the true derivatives", "statement": "The hand-written backward passes for values, keys and queries return the derivative of <output, cotangent> with respect to each entry.", "quantifier": "all inputs, cotangents, neighbourhood patterns", "why_tests_cant": "finite-difference tests sample points with tolerance", "anchors": ["torch_harmonics/attention/kernels_torch/attention_torch.py", "torch_harmonics/attention/optimized/kernels_cpu/attention_cpu_bwd.h"]}
{"id": "C43", "title": "Full neighbourhood attention equals global attention", "statement": "When the neighbourhood contains every grid point, neighbourhood attention equals AttentionS2 (softmax with log quadrature weights added to the scores).", "quantifier": "all inputs, positive weights", "why_tests_cant": "identity over all inputs", "anchors": ["torch_harmonics/attention/attention.py:AttentionS2", "torch_harmonics/attention/attention.py:NeighborhoodAttentionS2"]}
{"id": "C44", "title": "Layout and head reshapes are lossless", "statement": "Converting NCHW to NHWC and back, and folding attention heads into the batch and unfolding them, are inverse bijections on entries, and per-head attention never mixes heads.", "quantifier": "all shapes and tensors", "why_tests_cant": "index arithmetic for all shapes", "anchors": ["torch_harmonics/attention/_layout.py", "torch_harmonics/attention/kernels_torch/attention_torch.py"]}
{"id": "C45", "title": "Split sizes are a balanced partition", "statement": "compute_split_shapes(size, n) returns n positive sizes summing to size, differing by at most one and non-increasing; it raises exactly when size < n.", "quantifier": "all size, n", "why_tests_cant": "unbounded integers, remainder cases", "anchors": ["torch_harmonics/distributed/primitives.py:compute_split_shapes"]}
{"id": "C46", "title": "Scatter and gather are inverse", "statement": "Splitting a tensor across ranks and gathering it returns the original on every rank, for even and uneven splits; gathering then splitting returns each rank's piece.", "quantifier": "all sizes, rank counts, tensors", "why_tests_cant": "uneven splits across all rank counts", "anchors": ["torch_harmonics/distributed/primitives.py:_split", "torch_harmonics/distributed/primitives.py:_gather", "torch_harmonics/distributed/primitives.py:split_tensor_along_dim"]}
{"id": "C47", "title": "Distributed transpose moves the split dimension and is invertible", "statement": "distributed_transpose turns the family of pieces of a global tensor split along one dimension into the pieces of the same tensor split along the other; applying the reverse transpose restores the original pieces.", "quantifier": "all tensors, sizes (uneven allowed), rank counts", "why_tests_cant": "all-to-all index bookkeeping for all sizes", "anchors": ["torch_harmonics/distributed/primitives.py:_transpose", "torch_harmonics/distributed/primitives.py:DistributeTransposeAzimuth"]}
{"id": "C48", "title": "Reduce-scatter with padding equals all-reduce followed by local split", "statement": "The padded reduce-scatter returns on each rank exactly the rank's slice of the sum over ranks, for even and uneven sizes.", "quantifier": "all sizes, rank counts and tensors", "why_tests_cant": "padding/trim cases for all sizes", "anchors": ["torch_harmonics/distributed/primitives.py:_reduce_scatter", "torch_harmonics/distributed/primitives.py:_reduce"]}
{"id": "C49", "title": "Collective gradients are adjoints", "statement": "For each differentiable collective (copy/reduce, scatter/gather, transpose, halo exchange, reduce-scatter/gather) the backward map is the adjoint of the forward map with respect to the sum over ranks of local inner products (copy: identity forward, all-reduce backward, under replicated inputs).", "quantifier": "all tensors, sizes, rank counts", "why_tests_cant": "identity over all vectors", "anchors": ["torch_harmonics/distributed/primitives.py"]}
{"id": "C50", "title": "Halo exchange delivers the neighbouring rows", "statement": "For 1 <= r_lat <= every local height, polar_halo_exchange gives every rank its rows extended by the r_lat rows above and below of the global tensor, with zeros beyond the poles.", "quantifier": "all rank counts, heights, radii in range", "why_tests_cant": "boundary ranks and uneven heights", "anchors": ["torch_harmonics/distributed/primitives.py:_PolarHaloExchangeFn"]}
{"id": "C51", "title": "Distributed transforms equal serial transforms", "statement": "DistributedRealSHT and DistributedInverseRealSHT (and vector variants) applied to the pieces of a global tensor return the pieces of the serial transform's output, for every process grid and every leading shape (padding included).", "quantifier": "all process grids, sizes, batch shapes, inputs", "why_tests_cant": "all process grids and uneven sizes", "anchors": ["torch_harmonics/distributed/distributed_sht.py"]}
{"id": "C52", "title": "Distributed convolution equals serial convolution", "statement": "DistributedDiscreteContinuousConvS2 (standard and reordered communication, with groups) and its transpose return the pieces of the serial result. Construction on a rank fails exactly when the process grid does not fit the grids or the rank's latitudes meet exactly one filter entry. With the compiled kernels every rank must have entries and no kernel may start with the row the preceding one ended with on that rank.", "quantifier": "all process grids not larger than the grids and channel counts, all filters, weights, groups, inputs, thread orders", "why_tests_cant": "all process grids and patterns", "anchors": ["torch_harmonics/distributed/distributed_convolution.py", "torch_harmonics/distributed/kernels/distributed_convolution_kernels.py"]}
{"id": "C53", "title": "Ring attention equals serial attention, forward and backward", "statement": "On every process grid on which the distributed neighbourhood attention layer can be built, its core (halo exchange, ring of key/value chunks, running maximum and sums, final division) gives each rank exactly its tile of the attention of the global tensors, whatever the order in which thread groups and atomic operations take effect, in the gather and the upsampling direction. The layer can be built exactly when no rank is left without points and the coarser longitudes divide evenly. The halo is the smallest that contains every neighbour; a halo wider than a latitude block raises. The backward pass (two passes around the ring, atomic additions, sum over the azimuth group, halo gradients sent back) gives each rank its tile of the gradients of <dy, attention> with respect to keys, values and queries, and None for inputs that need none.", "quantifier": "all grids, patterns, process grids, inputs, schedules of thread groups and atomics", "why_tests_cant": "the number of partitions, patterns and schedules is unbounded; a test runs one schedule on one partition", "anchors": ["torch_harmonics/distributed/distributed_attention.py:DistributedNeighborhoodAttentionS2", "torch_harmonics/attention/optimized/kernels_cuda/attention_cuda_fwd_ring.cu", "torch_harmonics/attention/optimized/kernels_cuda/attention_cuda_fwd_ring_upsample.cu", "torch_harmonics/attention/optimized/kernels_cuda/attention_cuda_bwd_ring.cu", "torch_harmonics/attention/optimized/kernels_cuda/attention_cuda_bwd_ring_upsample.cu"]}
{"id": "C54", "title": "Distributed quadrature and resampling equal the serial ones", "statement": "DistributedQuadratureS2 returns on every rank the serial integral; DistributedResampleS2 returns the pieces of the serial resampling.", "quantifier": "all process grids not larger than the grids (and, for resampling, the number of channels), all sizes and inputs; the equiangular-trapezoidal rule, which only the serial class accepts, excepted", "why_tests_cant": "all process grids", "anchors": ["torch_harmonics/distributed/distributed_quadrature.py", "torch_harmonics/distributed/distributed_resample.py"]}
{"id": "C55", "title": "Leading-dimension flattening and padding is lossless", "statement": "flatten_and_pad_leading_dims followed by unpad_and_unflatten restores the tensor, and the padded count is at least the number of ranks.", "quantifier": "all leading shapes, rank counts", "why_tests_cant": "all shapes", "anchors": ["torch_harmonics/distributed/primitives.py:flatten_and_pad_leading_dims"]}
{"id": "C56", "title": "Process-group registry is a consistent state machine", "statement": "Over every sequence of init/finalize/query calls, group sizes and ranks report the registered polar/azimuth groups while they are registered and 1/0 when a group is absent; a second init replaces the groups of the first (which are then never destroyed); finalize destroys the registered groups and clears the initialised flag, except when the same group was registered for both directions, where it raises and leaves the registry initialised.", "quantifier": "all call sequences", "why_tests_cant": "unbounded histories", "anchors": ["torch_harmonics/distributed/utils.py"]}
{"id": "C57", "title": "Spherical metrics count every point once", "statement": "For each sample and class the weighted true/false positive/negative areas are non-negative and sum to the total area; a perfect prediction has zero false counts; IoU and accuracy without class weights lie in [0,1] (or the micro IoU is NaN, exactly when nothing is counted); ignored points are counted as true negatives of every class. A perfect prediction has micro IoU 1, but macro IoU below 1 when a class is absent.", "quantifier": "all predictions, targets, weights", "why_tests_cant": "all inputs", "anchors": ["torch_harmonics/examples/metrics.py"]}
{"id": "C58", "title": "Spherical losses are non-negative, vanish on equality, and use weights summing to one", "statement": "The normalised area weights are non-negative and sum to one over the grid; L1, squared L2 and L2 losses are non-negative, zero exactly when prediction equals target, symmetric, and reproduce |d| (resp. d^2) for a constant difference d; points hidden by a mask do not change the loss.", "quantifier": "all inputs, grids, sizes", "why_tests_cant": "all inputs", "anchors": ["torch_harmonics/examples/losses.py"]}
{"id": "C59", "title": "The transforms compute the documented sums", "statement": "InverseRealSHT evaluates the real spherical harmonic series of its coefficients (with the selected normalisation and phase) at the grid points, for every coefficient array; RealSHT computes the quadrature inner product of the field with the conjugate harmonics, for every field.", "quantifier": "all grids, sizes, truncations, normalisations, phases, coefficient arrays and fields", "why_tests_cant": "all inputs and sizes", "anchors": ["torch_harmonics/sht.py: RealSHT.forward", "torch_harmonics/sht.py: InverseRealSHT.forward"]}
{"id": "C60", "title": "Isotropic masks are exact and filter indices decode uniquely", "statement": "For every filter basis, the isotropic mask has one flag per basis function; a flagged function does not depend on the azimuth; for the Zernike basis the flat index k corresponds to exactly one admissible pair (radial degree, azimuthal order), every admissible pair is reached, and the flag is set exactly for order zero.", "quantifier": "all basis families, kernel shapes, basis indices, radii and azimuths", "why_tests_cant": "all kernel shapes and points", "anchors": ["torch_harmonics/filter_basis.py: PiecewiseLinearFilterBasis", "torch_harmonics/filter_basis.py: HarmonicFilterBasis", "torch_harmonics/filter_basis.py: ZernikeFilterBasis", "torch_harmonics/filter_basis.py: FourierBesselFilterBasis"]}
{"id": "C61", "title": "Shallow-water tendency is the discretised equations", "statement": "For every spectral state (geopotential, vorticity, divergence) of the solver's shape, `dudtspec` never raises and returns exactly the pseudo-spectral tendency of the rotating shallow-water equations in vorticity-divergence form: minus the divergence of the geopotential flux, minus the divergence of the absolute-vorticity flux, and the curl of the absolute-vorticity flux minus the Laplacian of the Bernoulli function (geopotential plus half the squared wind), with Coriolis parameter 2*Omega*cos(colatitude) on every grid row; its degree-0 coefficients are zero.", "quantifier": "every constructed solver (any exact grid, size, truncation with at least two degrees, radius, rotation rate) and every spectral state", "why_tests_cant": "A test compares one state on one grid with a reference trajectory; a wrong sign, a swapped flux or a misaligned Coriolis row only shows for states that excite it, and the claim is over all states.", "anchors": ["torch_harmonics/examples/shallow_water_equations.py: ShallowWaterSolver.__init__, dudtspec, vrtdivspec, getuv"]}
{"id": "C62", "title": "Segmentation losses are bounded and handle ignored points", "statement": "The cross-entropy loss is the batch mean of the area-weighted pointwise cross-entropies, non-negative, ignored points counting zero; the focal loss lies between 0 and alpha times the cross-entropy; the Dice loss without class weights lies in [0,1] in every mode. Labels out of range and smoothing outside [0,1] are refused. In the Dice loss ignored points enter the union of class 0.", "quantifier": "all logits, labels, class weights, modes, sizes", "why_tests_cant": "all inputs", "anchors": ["torch_harmonics/examples/losses.py:CrossEntropyLossS2", "torch_harmonics/examples/losses.py:FocalLossS2", "torch_harmonics/examples/losses.py:DiceLossS2"]}
{"id": "C63", "title": "Derivative losses: bounds, blindness to constants, and what their derivatives are", "statement": "The W11 loss is non-negative and symmetric, the surface-normal loss lies in [0,2]; both are zero when prediction and target differ by a constant per item, so neither penalises a constant error. The derivative along a latitude that both use is exact for fields band-limited in longitude (below the Nyquist order, at which it is 0), with any dependence on latitude; the one along a meridian is exact for fields of period pi sampled at pi i / nlat. False, and negations proved: that the latter is the derivative on the equiangular grid (it is too large by nlat / (nlat - 1)), and that it gives fields which decrease from pole to pole a negative derivative (its sum over each meridian is always 0).", "quantifier": "all fields, grids, sizes", "why_tests_cant": "Exactness and the bounds quantify over all fields and sizes.", "anchors": ["torch_harmonics/examples/losses.py:W11LossS2", "torch_harmonics/examples/losses.py:NormalLossS2"]}
{"id": "C64", "title": "Distributed spectral convolution equals the serial layer", "statement": "On any process grid not larger than the grids and the truncation, a distributed spectral convolution whose ranks hold the shares of the weights and of the spectral bias of a serial layer returns on every rank the tile of the result of the serial layer, with and without bias and for any number of groups. The weight gradients of the azimuth ranks of one polar rank add up to the share of that polar rank of the serial weight gradient (the documented all-reduce). The random initialisation differs from the serial layer: every polar rank scales the first degree that it holds like degree 0.", "quantifier": "all process grids, grid sizes and types, channel and group numbers, batch sizes, parameters and input fields", "why_tests_cant": "A test runs one process grid with one set of random weights; uneven splits, groups and bias interact with the sharing of degrees and orders.", "anchors": ["torch_harmonics/distributed/distributed_spectral_convolution.py: DistributedSpectralConvS2", "torch_harmonics/spectral_convolution.py: SpectralConvS2"]}
{"id": "C65", "title": "The GPU convolution kernel computes the documented sum", "statement": "The row-compressed CUDA forward kernel of the DISCO convolution returns the documented sum (the same tensor as the torch reference) for every output width up to 32768 that divides the input width, whatever the order in which thread blocks and the threads inside them run and whatever shared memory held before; no access leaves an array. It needs the entries of each filter row listed by input latitude, which the layers guarantee. If the device does not grant the shared memory (the input row plus its rounded-up repetition) an exception is raised; wider outputs end the process.", "quantifier": "all filters, fields, grid sizes, thread schedules, block orders and initial shared-memory contents", "why_tests_cant": "Race conditions and out-of-bounds reads depend on schedules and on widths that are not multiples of the block size; a passing test shows one schedule on one device.", "anchors": ["torch_harmonics/disco/optimized/kernels_cuda/disco_cuda_fwd.cu: disco_fwd_d, launch_kernel, disco_cuda_fwd", "torch_harmonics/disco/optimized/disco_helpers.cpp: preprocess_psi"]}
{"id": "C66", "title": "The GPU backward kernel computes the transpose", "statement": "The row-compressed CUDA backward kernel returns the transpose of the forward sum, for every order of the threads' additions to shared memory and of the atomic additions of all blocks, without leaving an array, so that forward and backward are adjoint. The launch configuration can ask for more shared memory than the forward kernel of the same layer: then an exception is raised.", "quantifier": "all filters, gradients, grid sizes, thread schedules and orders of the atomic additions", "why_tests_cant": "Atomic additions commute only if every contribution is added exactly once; which thread adds what depends on the width, the stride and the schedule.", "anchors": ["torch_harmonics/disco/optimized/kernels_cuda/disco_cuda_bwd.cu: disco_bwd_d, launch_kernel, disco_cuda_bwd"]}
{"id": "C67", "title": "Zernike filters are orthonormal", "statement": "The filters of the Zernike basis are orthonormal on the disk of the given cutoff radius (area measured in units of the squared radius): the integral of the product of two filters over the disk is one for equal and zero for different filter indices. Every radial polynomial is one at the rim.", "quantifier": "all kernel shapes, all pairs of filter indices, all positive cutoff radii", "why_tests_cant": "Quadrature on a few indices and radii checks an integral to rounding; orthogonality of every pair of an unbounded family is an identity between alternating binomial sums.", "anchors": ["torch_harmonics/filter_basis.py: ZernikeFilterBasis.compute_support_vals, ZernikeFilterBasis.zernikepoly, ZernikeFilterBasis.zernikeradial"]}
{"id": "C68", "title": "GPU attention computes the documented average", "statement": "The CUDA forward operator of neighbourhood attention returns, for every head, the quadrature-weighted softmax average of the values over the neighbours, in both directions (down- and upsampling); the same tensor as the torch reference and the CPU operator. The result does not depend on which kernel variant and vector width is chosen, on the order of rows, stores and atomic operations, or on the contents of shared and fresh memory, and nothing outside the output is written. This holds up to explicit limits on batch entries times heads, grid size and channels per head; beyond them the process ends, and unusable longitudes or head counts raise.", "quantifier": "all inputs, patterns, grid sizes, head and channel counts, alignments, execution orders and memory contents", "why_tests_cant": "Kernel variants are chosen by channel counts (dozens of template instances); atomics and stores come in any order; a test sees a few sizes on one device.", "anchors": ["torch_harmonics/attention/optimized/kernels_cuda/attention_cuda_fwd.cu: s2_attention_fwd_cuda", "torch_harmonics/attention/optimized/kernels_cuda/attention_cuda_fwd_upsample.cu", "torch_harmonics/attention/optimized/kernels_cuda/attention_cuda_utils.cuh: __warp_sum, __block_sum"]}
{"id": "C69", "title": "GPU attention backward returns the gradient", "statement": "The CUDA backward operator of neighbourhood attention returns the gradients of the CUDA forward operator with respect to key, value and query: along every direction the derivative of the inner product of the incoming cotangent with the forward output is the inner product of the direction with the returned tensors. They are the same tensors as those of the CPU operator, in both directions (down- and upsampling), and do not depend on the kernel variant and vector width chosen, the order of rows, stores and atomic additions, or the contents of shared and fresh memory. This holds for at least one query channel per head and up to explicit limits on batch entries times heads, grid size and channels per head, which are narrower than those of the forward operator; beyond them the process ends, and unusable longitudes or head counts raise.", "quantifier": "all inputs, cotangents, directions, positive weights, non-empty neighbourhoods, grid sizes, head and channel counts, alignments, execution orders and memory contents", "why_tests_cant": "Gradients are accumulated by atomic additions from all output points into the same input points in any order; kernel variants are chosen by channel counts; a test sees a few sizes on one device.", "anchors": ["torch_harmonics/attention/optimized/kernels_cuda/attention_cuda_bwd.cu: s2_attention_bwd_dkvq_cuda", "torch_harmonics/attention/optimized/kernels_cuda/attention_cuda_bwd_upsample.cu", "torch_harmonics/attention/optimized/kernels_cuda/attention_cuda_utils.cuh: __warp_sum, __block_sum"]}
{"id": "C70", "title": "Distributed attention layer equals the serial layer", "statement": "A forward pass of the distributed neighbourhood attention layer on any polar by azimuth process grid gives every rank its block of the output of the serial layer with the same arguments and parameters: with or without query-key normalisation, biases, explicit keys and values, for every number of heads, for self-attention, downsampling and upsampling, and for every order in which the kernels of the ring steps do their work. The layer can be built exactly when the serial layer can, no rank would be without latitudes or longitudes, and the longitudes split evenly; the forward pass succeeds exactly when no disk of a rank reaches further beyond its input rows than the smallest block of latitudes. Arguments that are not blocks of the expected size are rejected.", "quantifier": "all process grids, grid sizes, grid types, cutoffs, head and channel counts, parameters, inputs and schedules", "why_tests_cant": "A test runs a few process grids and sizes on available devices; the claim is about every decomposition, where uneven blocks, the halo width and the folding of heads interact.", "anchors": ["torch_harmonics/distributed/distributed_attention.py: DistributedNeighborhoodAttentionS2.__init__, DistributedNeighborhoodAttentionS2.forward", "torch_harmonics/attention/attention.py: NeighborhoodAttentionS2"]}
{"id": "C71", "title": "Two-dimensional Fourier transforms", "statement": "The planar counterparts of the harmonic transforms return the coefficients of the two-dimensional Fourier transform of every image, non-negative latitude frequencies first, then negative ones, truncated to the requested numbers of modes. With all modes, the default, the inverse transform returns every image unchanged. With fewer rows of modes it does not: retained waves with a non-negative latitude frequency come back unchanged, but a retained wave of frequency -g comes back with frequency lmax - g. A request for one row of modes returns one row more than the image has.", "quantifier": "all image sizes, truncations, images and inverse-transform backends", "why_tests_cant": "A test checks the untruncated transform, or a few sizes; which waves survive a truncation is a statement about every size, frequency and image.", "anchors": ["torch_harmonics/examples/models/_layers.py: RealFFT2, InverseRealFFT2"]}
{"id": "C72", "title": "Solver for reaction-diffusion equations on the sphere", "statement": "The tendency the sphere solver returns for the Allen-Cahn equation is that of the equation: at every grid point away from the poles its field is coeff times the Laplace-Beltrami operator (of the sphere of the given radius) applied to the current field, plus the field, minus the projection of its cube. Constant states obey da/dt = a - a^3 exactly, so -1, 0 and 1 are stationary. Both equations are odd and commute with rotations about the polar axis by grid points. Components of the state that no real field determines are invisible in the field and in the cubic term; for the Ginzburg-Landau equation this means the state cannot represent a complex field. Unknown equations, grids and shapes are rejected.", "quantifier": "all grids on which the solver can be built, truncations, radii, coefficients, states and inverse-transform backends", "why_tests_cant": "A test integrates a few initial states and looks at the picture; that the discrete tendency is the equation is a statement about every state and every grid, and about derivatives.", "anchors": ["torch_harmonics/examples/pde_sphere.py: SphereSolver.__init__, SphereSolver.grid2spec, SphereSolver.spec2grid, SphereSolver.dudtspec"]}
{"id": "C73", "title": "Position embeddings", "statement": "Channel i of the spectral position embedding is the real spherical harmonic of degree floor(sqrt(i)) and order i - l^2 - l at the grid points, up to sign, divided by its largest absolute value on the grid; every pair of degree and order is used exactly once, distinct channels are orthogonal under the quadrature, and a request for more than L^2 channels at truncation L is rejected. The sine of the Nyquist order vanishes on the grid, so its channel is NaN. The sequence embedding is sin or cos of the row-major pixel index over 10000^(2k/C), and its first channel tells any two pixels apart. A new learnable embedding is zero; adding an embedding keeps the shape of the image.", "quantifier": "all grids and truncations on which the transform is exact, numbers of channels, pixels, inverse-transform backends", "why_tests_cant": "A test looks at a few channels of one size; completeness of the enumeration, orthogonality and the single vanishing channel concern every size and channel.", "anchors": ["torch_harmonics/examples/models/_layers.py: PositionEmbedding.forward, SequencePositionEmbedding.__init__, SpectralPositionEmbedding.__init__, LearnablePositionEmbedding.__init__"]}
{"id": "C74", "title": "Rotation of the sphere", "statement": "A rotated or reflected copy of a band-limited field (about any axis) is band-limited with the same degree bound, and RealSHT gives it the same energy in every degree; QuadratureS2 gives it the same integral. The spectral convolution without bias and with real weights commutes with every rotation and reflection: rotated input fields give the rotated output fields, for any channels, groups and pair of grids that resolve the fields. With complex weights (which the layer stores and initialises) it commutes with rotations about the polar axis only: weight i at degree 1 sends the field z to 0 and its rotated copy x to -y.", "quantifier": "all orthogonal matrices, band-limited fields, grids whose quadrature is exact for the truncation, channel counts, groups, weights, inverse-transform backends", "why_tests_cant": "A test can shift by whole columns; a general rotation moves grid points off the grid, so the statement is about all fields and all angles at once.", "anchors": ["torch_harmonics/spectral_convolution.py: SpectralConvS2", "torch_harmonics/sht.py: RealSHT.forward", "torch_harmonics/quadrature.py: QuadratureS2.forward"]}
{"id": "C75", "title": "Filter bases of get_filter_basis", "statement": "get_filter_basis accepts exactly the five documented basis types and the documented kernel shapes and raises otherwise. Harmonic filters of shape (s0, s1) are the s0*s1 products of the first functions of 1, sin, cos, sin 2, cos 2, ... in x and in y under a Hann window, vanish on the rim, and are divided by their discrete norm, so that norm becomes one on the unit disk (the deprecated morlet alias skips the division). Fourier-Bessel filters are indexed by the zeros of J_0, ..., J_mmax up to the nmax-th zero of J_0, in increasing order and without repetition; they vanish on the rim and are orthonormal on the disk. Every basis depends on the radius only through its ratio to the cutoff.", "quantifier": "all kernel shapes, basis types, cutoff radii, points of the disk and filter indices", "why_tests_cant": "Orthonormality is an integral over the disk and the scaling law concerns all cutoffs; tests sample some points for a few shapes.", "anchors": ["torch_harmonics/filter_basis.py: get_filter_basis, HarmonicFilterBasis, FourierBesselFilterBasis, FilterBasis.compute_l2_norms"]}
{"id": "C76", "title": "Spherical Fourier neural operator", "statement": "SphericalFourierNeuralOperator maps every stack of in_chans fields on the img_size grid to out_chans fields on the same grid, for all admissible arguments and parameter values. Without layer normalisation, and with no or a latitude-only position embedding, shifting the input by s columns shifts the output by s columns whenever nlon divides s*(nlon // scale_factor) (any s if there is at most one block). With scale_factor >= 2 and the default grid kinds, the residual path through the coarse internal grid is lossless for fields with the network's modes. With a zero decoder and residual prediction the network is the identity (or the residual projection). With scale_factor = 1 and different grid types the residual is not resampled and ends up at wrong latitudes; a hard_thresholding_fraction that leaves no mode selects the full default truncation; an unknown normalisation raises AttributeError. The named activations are max(x,0), x times the standard normal distribution function, and the identity. The normalisations shift and scale each channel to mean 0 and mean square v/(v+1e-6), then apply the learned scale and offset. A block between different numbers of channels with the MLP and linear or no skips returns as many channels as it takes; identity skips are rejected, and without the MLP a linear outer skip makes every forward pass raise.", "quantifier": "all image sizes, scale factors, numbers of layers and channels, activation functions, normalisations, parameter values, inputs and inverse-transform backends", "why_tests_cant": "The statements hold for every parameter value, depth and input; a test runs a few random networks of one size.", "anchors": ["torch_harmonics/examples/models/sfno.py: SphericalFourierNeuralOperator, SphericalFourierNeuralOperatorBlock", "torch_harmonics/examples/models/_layers.py: SpectralConvS2, MLP"]}
{"id": "C77", "title": "Building blocks of the example models: initialisation, stochastic depth, patches", "statement": "trunc_normal_ fills a tensor with entries whose law is exactly the normal distribution conditioned on [a, b], for every mean, std > 0 and a < b, and its final clamp changes nothing; std = 0 divides by zero and a negative std or reversed bounds raise RuntimeError. DropPath is the identity outside training or for probability 0; in training every sample is dropped or divided by 1 - p as a whole, by its own random number, and the mean over that number is the sample; probability 1 gives NaN everywhere and a missing probability TypeError. PatchEmbed returns one column per patch, num_patches in all and in row-major order, each the linear map of that patch's pixels only; every pixel of the grid of whole patches lies in one patch, and the rest of the image is ignored; wrong sizes raise RuntimeError.", "quantifier": "all means, standard deviations, bounds, probabilities, batches, random numbers, image and patch sizes, weights and images", "why_tests_cant": "Laws of random variables and statements about every random number cannot be settled by sampling.", "anchors": ["torch_harmonics/examples/models/_layers.py: trunc_normal_, drop_path, DropPath, PatchEmbed"]}
{"id": "C78", "title": "Half-precision tensor-core convolution kernels", "statement": "On devices of compute capability 9 and 10 whose arch-conditional target was built, the k-packed convolution operator (at most 16 filters, output width a multiple of 8 dividing the input width, half-precision type) returns, for every batch-channel plane, the documented sum of the filter taps, whatever the order of the stores of a block and of the blocks and whatever shared and tensor memory held before. It returns a tensor under exactly the conditions it checks plus the launch limits (a non-empty grid, at most 524280 planes) and raises otherwise; it never leaves a buffer. The serial layer selects it only when all its checks pass. Two claims are false and their negations proved: the distributed layer also selects it when the output width is not a multiple of 8, and then raises; a build for the plain target of a device next to the arch-conditional target of another device of the same major version selects it and returns zeros.", "quantifier": "all filters, inputs, sizes, numbers of planes, both architectures, all orders of stores and blocks, all initial memory contents, all lists of build targets and devices", "why_tests_cant": "A wrong descriptor, a missed tile or a missing wait shows only for some sizes, schedules and old memory contents; the tests need the particular hardware.", "anchors": ["torch_harmonics/disco/optimized/kernels_cuda/disco_cuda_fwd_dense_kpacked_sm90.cu", "torch_harmonics/disco/optimized/kernels_cuda/disco_cuda_fwd_dense_kpacked_sm100.cu", "torch_harmonics/disco/optimized/kernels_cuda/disco_cuda_ptx.cuh", "torch_harmonics/disco/convolution.py: DiscreteContinuousConvS2.forward", "torch_harmonics/distributed/kernels/distributed_convolution_kernels.py", "setup.py: get_helpers_compile_args"]}
{"id": "C79", "title": "Shallow-water initial states, diagnostics and data set", "statement": "The random initial state is triangular, has nothing from degree 120 on, and its mean geopotential is gravity times the average height plus the random share; the Galewsky state is the documented jet (eastward, at most 80 m/s, at 45 degrees, none outside its band), without divergence, without variation in longitude apart from the height bump, and in geostrophic balance up to truncation. A state without variation in longitude keeps that property under any number of steps. The diagnostics return the documented quantities: height and wind, potential vorticity (the sine of the latitude for a fluid at rest), dimensionless fields of gridded states, and integrals without the polar rows. The PDE data set returns, for every index, the gridded initial state and the gridded state after the requested number of steps, scaled with the statistics of the sample drawn at construction. False, and their negations proved: that a random vorticity has mean 0, that the average height of the Galewsky state is the requested one, that the dimensionless form applies to spectral coefficients, that normalised Galewsky items have finite values, and that iterating over the data set ends.", "quantifier": "all grids with exact quadrature, truncations, physical constants, random draws, states, step counts, indices and data set arguments", "why_tests_cant": "Integrals, balance and symmetry are identities over all states and grids; the tests run a solver for a few steps and compare nothing.", "anchors": ["torch_harmonics/examples/shallow_water_equations.py: ShallowWaterSolver.random_initial_condition, galewsky_initial_condition, gethuv, potential_vorticity, dimensionless, integrate_grid", "torch_harmonics/examples/pde_dataset.py: PdeDataset"]}
{"id": "C80", "title": "Interrupted downloads and conversions of the 2D-3D-S data set", "statement": "Whatever the server sends and whatever is on the disk, a file with a known checksum is returned only if the file under its name has this checksum; one without is accepted whatever it contains. After any number of attempts, each ended by return, exception or kill at any point, with servers that deliver the same content with or without support for ranges, a downloaded file is absent or complete, its temporary file is absent or a prefix of the content, and a further undisturbed attempt delivers the complete file. Over any number of runs of the whole download, a directory without its archive is complete, and if no directory is incomplete then a run that returns leaves all of them complete. The conversion writes all samples or raises. False, and their negations proved: that a download can always be resumed (a complete temporary file and a server answering 416), that a run after a killed extraction repairs or reports the incomplete directory, that the names returned are the names of the directories, and that prepare_dataset returns complete files only.", "quantifier": "all contents, server behaviours, numbers of attempts, kill points, initial disks, lists of archives and samples", "why_tests_cant": "Kill points and server behaviour range over all prefixes of all histories; the repository has no tests of the downloader.", "anchors": ["torch_harmonics/examples/stanford_2d3ds_dataset.py: Stanford2D3DSDownloader._download_file, _verify_checksum, _extract_tar, download_dataset, convert_dataset, prepare_dataset"]}
{"id": "C81", "title": "Archives cannot write outside of the data directory", "statement": "With Python versions without tarfile's data filter, the downloader checks archives itself. An archive of files and directories that passes the check writes into the data directory only, and one with a member whose path leads elsewhere is refused. Archives whose names and link targets are relative and do not mention the parent directory pass the check, and whatever links they contain and in whatever order, everything they write or tie by hard links lies in the data directory. False, and its negation proved: that every archive that passes the check stays in the data directory; links that lead through other links, and hard links, can leave it.", "quantifier": "all data directories, archives, member orders, link depths and disks without links that lead outside", "why_tests_cant": "Containment must hold for every archive, and the escapes depend on the interplay of several members.", "anchors": ["torch_harmonics/examples/stanford_2d3ds_dataset.py: Stanford2D3DSDownloader._check_tar_members, _extract_tar"]}
{"id": "C82", "title": "Statistics of a data set on the sphere", "statement": "compute_stats_s2 returns, per channel, the mean and the standard deviation over all pictures and pixels, pixels weighted with their area; inputs normalised with them have mean 0 and variance 1; the result does not depend on the order of the items. The statistics of the targets are the average over the pictures of the averages over the valid pixels (not 0), and NaN exactly if some picture has none. An empty data set and items that carry an index raise. False, and its negation proved: that the statistics of the targets are those over all valid pixels.", "quantifier": "all data sets, pictures, grid sizes and orders of the items", "why_tests_cant": "The update is an induction over the items; a test on a few pictures cannot tell pooled from averaged statistics.", "anchors": ["torch_harmonics/examples/stanford_2d3ds_dataset.py: compute_stats_s2"]}
{"id": "C83", "title": "Statistics and classes recorded with the data set", "statement": "The conversion records, per channel, the least value and the mean over all pictures by area, and of the depth the root of n/(n-1) times the variance. The list of classes does not depend on the order of the labels; a pixel gets the index of the class of its label, pixels get the same index exactly if their labels have the same class, and unknown colours raise. The class histogram is not negative and sums to 1. False, and their negations proved: that the maximum recorded is the greatest value (it is the smallest of the maxima), that the standard deviation of a channel is that of this channel, and that the statistics of the depth are in the units of the depth stored.", "quantifier": "all numbers and sizes of pictures, values, label lists and colours", "why_tests_cant": "The recorded numbers are folds over all pictures; the repository has no tests of the conversion.", "anchors": ["torch_harmonics/examples/stanford_2d3ds_dataset.py: Stanford2D3DSDownloader.convert_dataset, _rgb_to_id"]}
{"id": "C84", "title": "Items of the segmentation and depth data sets", "statement": "A segmentation target is -100 in the requested share of rows at each pole and where the index is no class, and unchanged elsewhere; a depth target is 0 in these rows and at the greatest depth of the picture, and the depth or log(1 + depth) elsewhere. With a share below one half some row remains. Subsets return the items of their parent, with its index if asked for, and raise out of range. False, and their negations proved: that only invalid depths are masked (the farthest valid point is, and a constant picture becomes 0 and makes the target statistics NaN), that batches of a loader carry the index that was asked for, and that an index can be turned into a class name.", "quantifier": "all pictures, sizes, shares, numbers of classes, index lists and batches", "why_tests_cant": "The masks are per-pixel decisions for every size and share; the repository has no tests of the data sets.", "anchors": ["torch_harmonics/examples/stanford_2d3ds_dataset.py: StanfordSegmentationDataset, StanfordDepthDataset, StanfordDatasetSubset"]}
{"id": "C85", "title": "Local spherical neural operator", "statement": "A local spherical neural operator whose arguments fit maps every stack of in_chans fields on its grid to out_chans fields on the same grid, whatever its parameters are. Its encoder, local blocks and decoder are spherical convolutions with the chosen filters and cutoffs, so that the encoder and the local blocks depend on inputs within 1.001 cutoffs only. Blocks f, 2f, ... (f the frequency) are global. Without layer normalisation and embeddings that depend on the longitude the network commutes with the shifts in longitude that its internal grid has. With residual prediction the input is added. Unknown names and impossible sizes raise. False, and negations proved: that the default arguments build a network, that residual prediction works for different numbers of channels, that `bias` gives encoder and decoder a bias.", "quantifier": "all sizes, scale factors, filters, options, parameters, fields and shifts", "why_tests_cant": "Equivariance and locality quantify over all parameters and fields, and building over all combinations of sizes and options.", "anchors": ["torch_harmonics/examples/models/lsno.py: LocalSphericalNeuralOperator, SphericalNeuralOperatorBlock, DiscreteContinuousEncoder, DiscreteContinuousDecoder, _compute_cutoff_radius"]}
{"id": "C86", "title": "Spherical transformer", "statement": "A spherical transformer whose arguments fit maps every stack of in_chans fields on its grid to out_chans fields on the same grid, whatever its parameters are and whichever attention kernel runs, in whatever order. Its encoder and decoder are spherical convolutions, its blocks attend to the points within 1.001 cutoffs or, in all other modes, to all points; what reaches the decoder depends on the input within the sum of all cutoffs only. Without embeddings that depend on the longitude the network commutes with the shifts in longitude that its internal grid has. A cutoff of pi gives global attention. Unknown names and impossible sizes raise. False, and negations proved: that the default arguments build a network, that unknown attention modes raise, that a block without perceptron and normalisation is attention with one skip connection.", "quantifier": "all sizes, scale factors, filters, options, cutoffs, parameters, fields, shifts and orders of the kernel's blocks", "why_tests_cant": "Equivariance, locality and independence of the kernel's schedule quantify over all parameters, fields and orders, and building over all combinations of sizes and options.", "anchors": ["torch_harmonics/examples/models/s2transformer.py: SphericalTransformer, SphericalAttentionBlock, DiscreteContinuousEncoder, DiscreteContinuousDecoder", "torch_harmonics/examples/models/_layers.py: LayerNorm, MLP"]}
{"id": "C87", "title": "Spherical U-Net", "statement": "A spherical U-Net whose arguments fit is built and maps every stack of in_chans fields on its grid to out_chans fields on the same grid, whatever its parameters are: the fields go down through blocks of spherical convolutions with normalisation, activation and residual connection to ever coarser grids, and up again, every block but the innermost receiving the fields of its level from both directions. The network commutes with the shifts in longitude that the grids of all levels have, in particular with multiples of scale_factor to the number of blocks. Grids can be changed by convolutions only if the numbers of longitudes divide. Unknown names, lists of different lengths and a scale factor 0 raise, and no network is built if a level has fewer than two latitudes. False, and negations proved: that the convolutions of the first block belong to the outer grid, that depths applies to the upsampling blocks, that upsampling_mode always matters, that the network of the docstring can be built.", "quantifier": "all sizes, numbers of levels, scale factors, depths, filters, options, parameters, fields and shifts", "why_tests_cant": "Equivariance and the values quantify over all parameters and fields, and building over all combinations of sizes, depths and options.", "anchors": ["torch_harmonics/examples/models/s2unet.py: SphericalUNet, DownsamplingBlock, UpsamplingBlock", "torch_harmonics/disco/convolution.py: DiscreteContinuousConvTransposeS2", "torch_harmonics/resample.py: ResampleS2"]}
{"id": "C88", "title": "Spherical Segformer", "statement": "A spherical Segformer whose arguments fit is built and maps every stack of in_chans fields on its grid to out_chans fields on the same grid, whatever its parameters are: the fields go through blocks of patch merging by a spherical convolution, repeated attention and feed-forward networks with residual connections, and layer normalisation, to ever coarser grids; the results of all blocks are brought back to the outer grid, and the prediction is a linear map of all of them. The result does not depend on the kernel that computes the neighbourhood attention or on the order in which it visits the points, and the network commutes with the shifts in longitude that the grids of all levels have. No network is built if the numbers of longitudes of the levels do not divide, if a number of heads does not divide its dimension or if a level has fewer than two latitudes; unknown names, lists of different lengths and a scale factor 0 raise. False, and negations proved: that mlp_ratio matters, that an unknown attention mode is rejected, that a network without dimensions is rejected when it is built, that the network of the docstring can be built.", "quantifier": "all sizes, numbers of levels, scale factors, heads, depths, filters, options, parameters, fields, shifts and schedules of the attention kernels", "why_tests_cant": "Equivariance, the values and the independence of the schedule quantify over all parameters, fields and orders of execution, and building over all combinations of sizes, heads, depths and options.", "anchors": ["torch_harmonics/examples/models/s2segformer.py: SphericalSegformer, TransformerBlock, OverlapPatchMerging, MixFFN, AttentionWrapper, Upsampling", "torch_harmonics/disco/convolution.py: DiscreteContinuousConvS2, DiscreteContinuousConvTransposeS2", "torch_harmonics/attention/attention.py: NeighborhoodAttentionS2, AttentionS2"]}
{"id": "C89", "title": "Layout conversions on the GPU", "statement": "On the GPU, to_nhwc and to_nchw permute every tensor as they do on the CPU, whatever the order in which the threads of their kernels run and whatever memory held before, without any access outside the arrays; they are inverse to each other, and the gradient of each is the other applied to the incoming gradient. Inputs that do not have four axes or have a type without kernel raise. False, and negations proved: that the GPU takes every tensor the CPU takes. The GPU raises if the batch size times the number of latitudes exceeds 65535, or if the channels or longitudes are too many, and an empty tensor ends the process.", "quantifier": "all sizes, entries, devices, schedules of the threads and contents of uninitialised memory", "why_tests_cant": "The kernels move entries through shared memory behind a barrier, in an order that the hardware chooses; every order and every tile at the border has to work, and the failing sizes are far from those of tests.", "anchors": ["torch_harmonics/attention/optimized/kernels_cuda/attention_cuda_utils.cu: permute_to_nhwc_cuda, permute_to_nchw_cuda", "torch_harmonics/attention/optimized/kernels_cuda/attention_cuda_utils.cuh: permute_to0231_k, permute_to0312_k, launch_permute_to0231, launch_permute_to0312", "torch_harmonics/attention/_layout.py: to_nhwc, to_nchw"]}
{"id": "C90", "title": "Preparing a launch on the GPU", "statement": "Before the GPU kernels of neighbourhood attention are launched, the rows of the pattern are sorted by decreasing length, rows of the same length in their old order, whatever the order in which the threads run. The CPU and the GPU split a sorted list in the same way, by the lengths alone: the long rows are exactly those at the beginning of the list, and no row is longer than the length announced for its kind. Threads of one process that launch kernels on any devices at the same time never make a launch fail for want of shared memory they asked for, never wait for each other for ever, and end the process only if one of them asks for more than its device has; the version of the compiled code that a call is told is that of its own device. False, and negation proved: that the two splits agree on a list that is not sorted.", "quantifier": "all patterns, orders of threads, contents of work arrays, requests, devices and interleavings, and all values that relaxed loads may see", "why_tests_cant": "Interleavings of threads of the process and of the kernel cannot be enumerated by tests, and the split matters only for rows of more than a thousand entries.", "anchors": ["torch_harmonics/attention/optimized/kernels_cuda/attention_cuda_utils.cu: sortRows, set_rlen_rids_k, split_csr_rows, split_csr_rows_op, get_rlen_boundary_k, ensure_dyn_shmem, getPtxver"]}
{"id": "C91", "title": "Cached elevation map", "statement": "load_mola_elevation downloads the picture at most until a file is in the cache: a call that finds no file and is not disturbed returns the downloaded picture and leaves exactly the downloaded bytes in the cache, after finitely many steps and however the writing is cut into pieces. Once a file is there, no later call of any process changes it or uses the network, and all return what it decodes to. A call without connection leaves no file. When several processes download at the same time, the file is absent or complete whenever nobody has it open. Values are in [0, 1], a resized map stays between the bounds of the picture, and resizing to the size of the picture changes nothing; sizes that are not positive raise. False, and negations proved: that a call which is killed or whose download breaks off can be repeated (the truncated file stays for ever, and every later call fails), that processes which call at the same time do not make each other fail, that one target size has an effect, and that resizing treats longitudes as periodic.", "quantifier": "all pictures, responses, interleavings of any number of processes, points at which a process is killed, ways to cut a write, and target sizes", "why_tests_cant": "Crash points and interleavings of processes that share a directory cannot be enumerated by tests, which also have no network.", "anchors": ["torch_harmonics/utils.py: load_mola_elevation"]}
{"id": "C92", "title": "One step of distributed neighbourhood attention on the GPU", "statement": "On the GPU, one call of the forward ring step takes up, at every output point, exactly the neighbours that lie in the block of keys and values of the call, once each: the new maximum is the largest of the old one and the scores, and the sums are those relative to it. It does so in whatever order threads, warps, blocks, stores and atomic operations run, whatever uninitialised memory holds, with single or four-wide access, for every number of channels and with any split into short and long rows that the row sorting makes; no access leaves the arrays, and two runs give the same result. Calls for blocks that together hold every neighbour once give the attention. Launches the device does not accept end the process: an empty batch, or rows too long for shared memory. False, and negation proved: that this holds for more than 512 channels with rows of 1024 or more entries without the assumption that all warps of a group read the old maximum before the first one replaces it. Nothing in the rescaling kernel enforces that; if a warp is late, the old sums are not brought to the new maximum.", "quantifier": "all sizes, patterns, blocks, entries, accumulators, schedules of threads and atomic operations, and contents of uninitialised memory", "why_tests_cant": "Schedules cannot be enumerated; the failing one needs long rows, many channels and a warp that is late by one barrier interval, which tests do not provoke.", "anchors": ["torch_harmonics/attention/optimized/kernels_cuda/attention_cuda_fwd_ring.cu: s2_attn_fwd_ring_step_dispatch, launch_gen_attn_ring_fwd, s2_attn_fwd_ring_generic_k, s2_attn_fwd_ring_special_k, spc_attn_ring_fwd_long_rows, s2_attn_fwd_ring_softmax_k, s2_attn_fwd_ring_rescale_k, s2_attn_fwd_ring_finalize_k", "torch_harmonics/attention/optimized/kernels_cuda/attention_cuda_utils.cuh: __group_sum, __compact"]}
{"id": "C93", "title": "The steps of distributed upsampling attention on the GPU, forward and backward", "statement": "On the GPU, in the upsampling direction, one forward ring step takes up, at every output point, exactly the cells of the block of keys and values whose rows list the point, once each, with the maximum and the sums relative to it brought up to date. The first backward pass adds for every output point the weighted sums over the same cells that the gradients need; the second stores, for every cell with a non-empty row, the gradients of its key and value as sums over the output points it lists, and leaves other cells alone. All three do so in whatever order warps, stores and atomic operations run and whatever shared memory holds; no access leaves the arrays, and two runs give the same result. They do what the model of the ring (C53) says, so that its theorems on the forward and backward pass hold of the threads; calls for blocks that together list every neighbour once give the attention. The compare-and-swap loop behind the maximum is an atomic maximum in every interleaving, and every thread leaves it after at most one more step than there are threads. Launches the device does not accept end the process. False, and negation proved: that a number of channels with which the forward step runs can also be differentiated: from 3073 to 6144 channels of keys and values together, the second backward pass ends the process.", "quantifier": "all sizes, patterns, blocks, entries, accumulators, orders of warps and atomic operations, interleavings of compare-and-swap, and contents of shared memory", "why_tests_cant": "Orders of atomic operations and interleavings of compare-and-swap cannot be enumerated, and shared memory mostly happens to hold what an earlier warp left.", "anchors": ["torch_harmonics/attention/optimized/kernels_cuda/attention_cuda_fwd_ring_upsample.cu: launch_attn_fwd_ring_upsample_step, s2_attn_fwd_ring_upsample_max_k, s2_attn_fwd_ring_upsample_rescale_k, s2_attn_fwd_ring_upsample_acc_k, ring_up_atomicMaxf, ring_up_local_wo", "torch_harmonics/attention/optimized/kernels_cuda/attention_cuda_bwd_ring_upsample.cu: s2_attention_bwd_ring_step_upsample_pass1_cuda, s2_attention_bwd_ring_step_upsample_pass2_cuda, s2_attn_bwd_ring_upsample_stats_k, s2_attn_bwd_ring_upsample_dkv_k"]}
{"id": "C94", "title": "Every execution path of the DISCO layer returns the same convolution and the same gradients", "statement": "DiscreteContinuousConvS2 picks one of seven execution paths from its flags, the numbers of its channels, the device, the build, the types and the autocast state. Whichever it picks, on CPU or GPU, for every schedule of the kernels, the output is, for every item of the batch, the documented sum; two calls on the same values that both return, return the same values. The six optimized paths propagate the documented gradients to input and weight, exactly when they are asked for, with one entry per argument of the operator; the input gradient of each is the transpose of the forward of each. The backward pass may run under another autocast state and other schedules than the forward pass. Which types of weight a path accepts, and the type of the output, are characterised exactly. False, and negations proved: that the choice of path cannot be observed. A weight of another type than the input is accepted by four paths and refused by three; under autocast a bias changes the type of the output; under CPU autocast the type of the output for a double-precision input depends on the path; the tensor-core forward accepts batches whose backward pass raises.", "quantifier": "all layers with sorted filters, batches, values, devices, builds, types, autocast states, orders of threads and atomic additions", "why_tests_cant": "Seven paths, four types each for three tensors, autocast on or off in both passes and all schedules cannot be enumerated, and most paths need hardware that the tests do not have.", "anchors": ["torch_harmonics/disco/convolution.py: DiscreteContinuousConvS2.__init__, DiscreteContinuousConvS2.forward", "torch_harmonics/disco/optimized/disco_optimized.py: _disco_s2_contraction_optimized, _disco_s2_fused_conv_optimized, _disco_s2_fused_conv_bwd_optimized, _disco_s2_fused_conv_spatial_first_dgrad, _DiscoSaveXConvFn, _DiscoKpackedFn, _DiscoKpackedSaveXConvFn, _DiscoKpackedFusedFn"]}
{"id": "C95", "title": "The first backward pass of a step of distributed neighbourhood attention on the GPU", "statement": "On the GPU, one call of the first backward ring pass takes up, at every output point, exactly the neighbours that lie in the block of keys and values of the call, once each, in all five accumulators: the new maximum is the largest of the old one and the scores, and the sums of weights, of products of output gradient and values, of keys, and of their products are those relative to it. It does so in whatever order threads, warps, blocks, stores and atomic operations run, whatever uninitialised memory holds, with single or four-wide access, for every number of channels and with any split into short and long rows that the row sorting makes; no access leaves the arrays, and two runs give the same result. After calls for blocks that together hold every neighbour once, the quotients of the accumulators are the attention averages of these quantities. Launches the device does not accept end the process: an empty batch, or too many channels. False, and negation proved: that this holds for more than 512 channels of keys with rows of 1024 or more entries without the assumption that all warps of a group read the old maximum before the first one replaces it.", "quantifier": "all sizes, patterns, blocks, entries, accumulators, schedules of threads and atomic operations, and contents of uninitialised memory", "why_tests_cant": "Schedules cannot be enumerated; the failing one needs long rows, many channels and a warp that is late by one barrier interval, which tests do not provoke.", "anchors": ["torch_harmonics/attention/optimized/kernels_cuda/attention_cuda_bwd_ring.cu: s2_attn_bwd_ring_step_pass1_dispatch, s2_attn_bwd_ring_pass1_generic_k, s2_attn_bwd_ring_pass1_special_k, spc_attn_ring_pass1_bwd_long_rows, s2_attn_bwd_ring_pass1_softmax_k, s2_attn_bwd_ring_pass1_rescale_k, s2_attn_bwd_ring_pass1_finalize_k"]}
{"id": "C96", "title": "The second backward pass of a step of distributed neighbourhood attention on the GPU", "statement": "On the GPU, one call of the second backward ring pass adds to every cell of the block of keys and values of the call the contributions of exactly the output points that list the cell as a neighbour, once for each time it is listed, and changes nothing else, in whatever order threads, warps, blocks and atomic additions run, whatever uninitialised memory holds, with single or four-wide access and for every number of channels; two runs give the same result. With the maxima and sums of the forward pass and the averages of the first backward pass, as the caller passes them, the gradients that a full backward pass computes are the derivatives of the attention with respect to queries, keys and values. Launches the device does not accept end the process: an empty batch, or too many channels. False, and negation proved: that a block may leave out rows in which neighbours lie; the kernel for up to 8192 channels reads and adds outside the arrays then.", "quantifier": "all sizes, patterns, blocks, entries, gradients, schedules of threads and atomic additions, and contents of uninitialised memory", "why_tests_cant": "Schedules of atomic additions cannot be enumerated, and a test on one device sees one of them; blocks without the full halo are not tested.", "anchors": ["torch_harmonics/attention/optimized/kernels_cuda/attention_cuda_bwd_ring.cu: s2_attn_bwd_ring_step_pass2_dispatch, s2_attn_bwd_ring_pass2_generic_k, s2_attn_bwd_ring_pass2_special_k", "torch_harmonics/distributed/distributed_attention.py: _RingNeighborhoodAttentionFn.backward"]}
{"id": "C97", "title": "Number types of neighbourhood attention", "statement": "A neighbourhood attention layer with parameters and inputs of one type, or under autocast with parameters and inputs in anything but double precision, returns neighbourhood attention with the stored quadrature weights, on the reference, the CPU and the GPU operator, in the type of the inputs, or in the autocast type; gradients come back in the types in which keys, values and queries were given, and they are the derivative of what was returned. Everything else raises RuntimeError: inputs of different types, a module in double precision under autocast, inputs in double precision to any other module, a scale tensor that widens the queries on the optimized operators. The distributed layer gives its ring one type in the accepted cases. False, and negation proved: that the module may be cast. The quadrature weights are cast with it, and the GPU kernels read the buffer as single precision whatever its type is: in bfloat16 row i uses the weight of row 2 i + 1, in both half types the rows of the lower half use memory behind the buffer, in double precision the weights of the lower half of the rows are ignored; the CPU operator raises. Also false: that the distributed layer refuses what the serial layer refuses; with a widening scale it reads keys and values as numbers of another type.", "quantifier": "all layer arguments, parameters, inputs and sizes, all four types for parameters, inputs and weights, every autocast type but double precision, all runs of the three operators, all contents of the buffer of weights and of the memory behind it", "why_tests_cant": "The combinations of types, devices and autocast are many, and out-of-buffer reads depend on what lies in memory; the wrong weights give finite, plausible results.", "anchors": ["torch_harmonics/attention/attention.py: NeighborhoodAttentionS2.forward", "torch_harmonics/attention/attention_torch.py", "torch_harmonics/attention/attention_optimized.py", "torch_harmonics/attention/_attention_utils.py: _check_dtypes_match", "torch_harmonics/attention/optimized/kernels_cuda/attention_cuda_fwd.cu: s2_attention_fwd_cuda", "torch_harmonics/distributed/_amp_utils.py: _cast_to_autocast_dtype", "torch_harmonics/distributed/distributed_attention.py: DistributedNeighborhoodAttentionS2.forward"]}
{"id": "C98", "title": "Execution paths and gradients of the transposed DISCO layer", "statement": "DiscreteContinuousConvTransposeS2 returns, on the reference path and on the optimized path, on CPU and GPU and under any schedule, for every item of a batch the transposed filter sum of the grouped weights plus the bias; two calls that return agree. Input, weight and bias receive the gradients that are the transposes of the layer, exactly when asked for. The types of input and weight are accepted when they are equal, or, under autocast, when both or neither are in double precision; the output has the type of the input, or the autocast type, widened by the bias. An input whose number of longitudes does not divide that of the output is refused on every path. False, and negation proved: that the shape of the input is checked. Any divisor of the output longitudes is accepted in place of nlon_in; the optimized kernels accept any number of latitudes, ignore extra rows, and for missing rows read the data of another kernel or memory after the tensor. Also false: that the paths agree on the type (double precision under autocast) and on the batches they accept (more than 65535 planes raise on the GPU).", "quantifier": "all layers with a listed filter, batch sizes, channel groups, inputs, weights and cotangents, all four types for input, weight and bias, autocast off or to a half type, both paths, CPU and GPU, all schedules, all contents of memory after the operand", "why_tests_cant": "Schedules, reads outside a tensor and the combinations of device, type and autocast cannot be enumerated, and a wrong shape gives finite values.", "anchors": ["torch_harmonics/disco/convolution.py: DiscreteContinuousConvTransposeS2", "torch_harmonics/disco/optimized/disco_optimized.py: _disco_s2_transpose_contraction_optimized, _disco_s2_transpose_contraction_bwd_optimized, _make_transpose_contraction_autocast", "torch_harmonics/disco/kernels_torch/disco_torch.py: _disco_s2_transpose_contraction_torch", "torch_harmonics/disco/optimized/kernels_cpu/disco_cpu_bwd.cpp: disco_cpu_bwd", "torch_harmonics/disco/optimized/kernels_cuda/disco_cuda_bwd.cu: disco_cuda_bwd"]}
{"id": "C99", "title": "Layouts declared to the compiler", "statement": "An operator that declares the shape, type and strides of its result to torch.compile returns a tensor with exactly these: the optimized attention operators and the DISCO contractions, on CPU and GPU and in every number type, and the fused DISCO operator, in whatever order the einsum stores its result. The conversions between channels-first and channels-last return contiguous memory of their own for every argument. False, and negation proved: that the reference attention operator does. It declares channels-last memory and returns channels-first memory, unless there is no item, at most one channel or at most one point; whoever reads the result by the declared strides finds the entries of an item permuted. With one head it also accepts keys and values of batch 1 for queries of a larger batch, and declares the batch of the keys while it returns that of the queries.", "quantifier": "all shapes, head counts, channel counts, number types, both devices, all layouts of the arguments of the conversions and all storage orders of the einsum's result", "why_tests_cant": "Strides do not show in the values a test compares in eager mode, and the compiled graph depends on shape, type and device.", "anchors": ["torch_harmonics/attention/kernels_torch/attention_torch.py: _neighborhood_s2_attention_torch", "torch_harmonics/attention/optimized/attention_optimized.py: register_fake functions", "torch_harmonics/attention/optimized/kernels_cpu/attention_cpu_fwd.cpp", "torch_harmonics/disco/optimized/disco_optimized.py: register_fake functions, _disco_s2_fused_conv_optimized", "torch_harmonics/attention/_layout.py: _permuted_copy"]}
{"id": "C100", "title": "Distributed attention under every schedule", "statement": "The forward pass of distributed neighbourhood attention does not depend on how the processes and their messages are scheduled. On every process grid on which the layer can be built, with halos no wider than the latitude blocks, and for every interleaving of the ranks' own steps and of the transfers of messages: no message meets a buffer of another size, there is no deadlock, the execution ends after a fixed number of steps, and every rank that finishes returns its tile of the attention of the global tensors. If the pass fails when the ranks advance together, no schedule lets all ranks finish without an error. The neighbours of a rank are the previous and next members of its group, cyclically. The agreement of the ranks is needed: a rank that expects halos from a neighbour that sends none hangs.", "quantifier": "all process grids, grids, patterns, tensors, assignments of distinct global ranks, launch orders, and all interleavings of posts, computations, transfers and waits, of any length", "why_tests_cant": "The number of interleavings is exponential in ranks and rounds and a test run sees one of them; a deadlock or a message delivered to the wrong buffer may need a particular delay.", "anchors": ["torch_harmonics/distributed/primitives.py: get_group_neighbors, _PolarHaloExchangeFn.forward", "torch_harmonics/distributed/distributed_attention.py: _ring_kv, _RingNeighborhoodAttentionFn.forward, _RingNeighborhoodAttentionUpsampleFn.forward, DistributedNeighborhoodAttentionS2.forward"]}
{"id": "C101", "title": "Gradients of distributed attention under every schedule", "statement": "The backward pass of distributed neighbourhood attention does not depend on how the processes and their messages are scheduled. On every process grid on which the layer can be built, with halos no wider than the latitude blocks, for every choice of inputs that need a gradient, for either order in which the two halo exchanges are differentiated, and for every interleaving of the ranks' own steps and of the transfers of messages: no message meets a buffer of another size, there is no deadlock, the execution ends after a bounded number of steps, and every rank that finishes returns its tile of the gradients of the loss with respect to the global keys, values and queries. The sum over an azimuth group is the same on all of its ranks whatever the order in which the contributions arrive.", "quantifier": "all process grids, grids, patterns, tensors, needs_input_grad, assignments of distinct global ranks, launch orders, and all interleavings of posts, computations, transfers and waits, of any length", "why_tests_cant": "The backward pass has two rings, two sums and two halo exchanges in a row; a rank may be in one while its neighbour is still in another. A test run sees one interleaving, and a message taken for one of another round gives wrong gradients, not an error.", "anchors": ["torch_harmonics/distributed/distributed_attention.py: _RingNeighborhoodAttentionFn.backward, _RingNeighborhoodAttentionUpsampleFn.backward", "torch_harmonics/distributed/primitives.py: _PolarHaloExchangeFn.backward, get_group_neighbors"]}
{"id": "C102", "title": "Distributed spherical harmonic transforms under every schedule", "statement": "The results of the four distributed spherical harmonic transforms do not depend on how the processes and their messages are scheduled. On every process grid for which the transform can be built, for tensors of any leading shape, and for every interleaving of the ranks' own steps and of the transfers of messages: no message meets a buffer of another size, there is no deadlock, the execution ends after a bounded number of steps, and every rank that finishes returns its tile of what the serial transform computes from the global tensor. If two ranks of a group call the transform with a different number of channels (after padding to the number of ranks), no execution ends with all ranks finished and without error.", "quantifier": "all process grids, transform sizes, quadrature grids, leading shapes, tensors, assignments of distinct global ranks, and all interleavings of posts, computations, transfers and waits, of any length", "why_tests_cant": "A transform does four all-to-all exchanges in a row, over two overlapping families of groups; a rank may be in one exchange while a rank of its other group is still in the one before. A test sees one interleaving on one grid.", "anchors": ["torch_harmonics/distributed/distributed_sht.py: DistributedRealSHT.forward, DistributedInverseRealSHT.forward, DistributedRealVectorSHT.forward, DistributedInverseRealVectorSHT.forward", "torch_harmonics/distributed/primitives.py: _transpose, distributed_transpose_azimuth, distributed_transpose_polar"]}
{"id": "C103", "title": "Distributed convolutions under every schedule", "statement": "The results of the distributed discrete-continuous convolution (with either communication pattern) and of its transposed version do not depend on how the processes and their messages are scheduled. On every process grid for which the layers can be built, for every input, and for every interleaving of the ranks' own steps and of the transfers of messages: no message meets a buffer of another size, there is no deadlock, the execution ends after a bounded number of steps, and every rank that finishes holds its part of what the serial layer computes from the global input. If two ranks of an azimuth group call the convolution with a different number of channels, no execution ends with all ranks finished and without error.", "quantifier": "all process grids, layers (grids, filters, weights, groups, bias), inputs, assignments of distinct global ranks, and all interleavings of posts, computations, transfers and waits, of any length; for the CPU kernel also all contents of work arrays and orders of threads", "why_tests_cant": "The layer mixes all-to-all exchanges along one family of groups with reduce-scatters (padded when the split is uneven) and all-gathers along the other; ranks of different groups are in different collectives at the same time. A test sees one interleaving on one grid.", "anchors": ["torch_harmonics/distributed/distributed_convolution.py: DistributedDiscreteContinuousConvS2.forward, DistributedDiscreteContinuousConvTransposeS2.forward", "torch_harmonics/distributed/kernels/distributed_convolution_kernels.py: _distributed_disco_fwd_a2a, _distributed_disco_fwd_a2a_reordered", "torch_harmonics/distributed/primitives.py: _transpose, _reduce_scatter, _gather"]}
{"id": "C104", "title": "Gradients of the distributed spherical harmonic transforms", "statement": "Training through the distributed transforms computes the gradients of the serial transforms. For all four transforms (scalar and vector, forward and inverse), on every process grid for which they can be built and for every leading shape: if the ranks hold their tiles of a gradient of the output, the backward pass returns on every rank, without error, its tile of one global array, and this array is the gradient of the serial transform: its pairing with every input equals the pairing of the output gradient with what the serial transform computes from that input. This does not depend on how ranks and messages are scheduled during the backward pass: every execution ends, without error and deadlock, with these tiles.", "quantifier": "all grids, truncations, norms, process grids, leading shapes, output gradients and inputs, assignments of distinct global ranks, and all interleavings of posts, computations, transfers and waits of the backward pass", "why_tests_cant": "The backward pass sends every tensor back through transposes whose split sizes are recomputed from saved shapes, and pads and cuts the gradients; finite-difference tests sample a few directions on one small grid and compare with a tolerance.", "anchors": ["torch_harmonics/distributed/distributed_sht.py: DistributedRealSHT.forward, DistributedInverseRealSHT.forward, DistributedRealVectorSHT.forward, DistributedInverseRealVectorSHT.forward", "torch_harmonics/distributed/primitives.py: _DistributeTransposeAzimuth, _DistributeTransposePolar, flatten_and_pad_leading_dims, unpad_and_unflatten_leading_dims", "torch_harmonics/fft.py: rfft, irfft"]}
{"id": "C105", "title": "Distributed quadrature and resampling under every schedule", "statement": "On every process grid on which they can be built, and for every input that is split over the ranks as the modules expect (for resampling, with at least as many channels as ranks in each direction), a distributed quadrature returns on every rank all the integrals (or averages) of the serial module, and a distributed resampling (with or without expansion to the poles) returns on every rank its part of what the serial module computes, however ranks and messages are scheduled: no execution meets an error or a deadlock, all executions end, and a rank that has finished holds its result. Ranks of a polar group that call the modules with different numbers of leading indices (channels) never all finish without an error.", "quantifier": "all grids, quadrature rules, process grids, channel numbers and inputs, assignments of distinct global ranks, and all interleavings of posts, computations, transfers and waits", "why_tests_cant": "The all-reduces and transposes of several groups run concurrently, and a rank may be several collectives ahead of another one; a test runs a few schedules on one small grid.", "anchors": ["torch_harmonics/distributed/distributed_quadrature.py: DistributedQuadratureS2.forward", "torch_harmonics/distributed/distributed_resample.py: DistributedResampleS2.forward, DistributedResampleS2._expand_poles", "torch_harmonics/distributed/primitives.py: _reduce, reduce_from_polar_region, reduce_from_azimuth_region, distributed_transpose_polar, distributed_transpose_azimuth"]}
{"id": "C106", "title": "Gradients of distributed quadrature and resampling", "statement": "On every process grid on which they can be built, the backward pass of a distributed quadrature, given the same gradient of the result on all ranks, leaves on every rank its part of the gradient of the serial module; and the backward pass of a distributed resampling in the mode \"bilinear\" (with or without expansion to the poles) leaves on every rank its part of the gradient of the serial module, however ranks and messages are scheduled. The gradient of a linear module is the array whose pairing with every input equals the pairing of the module's output with the gradient of the output.", "quantifier": "all grids, quadrature rules, process grids, channel numbers, inputs and gradients, assignments of distinct global ranks, and all interleavings of posts, computations, transfers and waits", "why_tests_cant": "Whether a collective must sum gradients or pass them on depends on how often a value is used on how many ranks; a wrong choice shows as a wrong factor on some ranks of some process grids only, and the message order of a backward pass differs from that of the forward pass.", "anchors": ["torch_harmonics/distributed/distributed_quadrature.py: DistributedQuadratureS2.forward", "torch_harmonics/distributed/distributed_resample.py: DistributedResampleS2.forward, DistributedResampleS2._expand_poles", "torch_harmonics/distributed/primitives.py: _CopyToAzimuthRegion.backward, _ReduceFromPolarRegion.backward, _ReduceFromAzimuthRegion.backward, _DistributeTransposeAzimuth.backward, _DistributeTransposePolar.backward"]}
{"id": "C107", "title": "Distributed analysis after distributed synthesis, under every schedule", "statement": "On every process grid on which the transforms can be built, and on every quadrature grid whose rule is exact to degree 2(lmax-1): if the ranks hold the tiles of an array of coefficients and call the distributed inverse transform and then, without waiting for each other, the distributed forward transform on its result, then under every interleaving of the ranks' steps and of the transfers of messages no message of one call is taken for one of the other, there is no deadlock, and every rank that finishes holds its tile of the coefficients: unchanged if they are triangular with real columns at order 0 and at the Nyquist order, and otherwise the part that a real field determines. The same holds for the vector transforms and pairs of coefficients without content at the Nyquist order.", "quantifier": "all process grids, quadrature grids that are exact to the degree needed, truncations, leading shapes, coefficient arrays, assignments of distinct global ranks, and all interleavings, of any length", "why_tests_cant": "A rank can be in the second transform while ranks of its groups are still in the first, so messages of eight exchanges over two families of groups overlap; a test sees one interleaving, one grid and a few coefficients, and compares up to a tolerance.", "anchors": ["torch_harmonics/distributed/distributed_sht.py: DistributedRealSHT.forward, DistributedInverseRealSHT.forward, DistributedRealVectorSHT.forward, DistributedInverseRealVectorSHT.forward", "torch_harmonics/distributed/primitives.py: distributed_transpose_azimuth, distributed_transpose_polar, flatten_and_pad_leading_dims, unpad_and_unflatten_leading_dims"]}
{"id": "C108", "title": "Distributed spectral convolution under every schedule", "statement": "On every process grid on which the layer can be built: if the ranks hold their shares of the weights and the bias of a serial spectral convolution and the tiles of a global tensor, and call the distributed layer, then under every interleaving of the ranks' steps and of the transfers of messages (the two reductions of the integrals if there is a bias, the four exchanges of the transform and the four of its inverse, without waiting between them) there is no error and no deadlock, and every rank that finishes returns its tile of what the serial layer computes. Whatever the arguments, every send has its receive. With a bias, ranks of a polar group that call the layer with different batch sizes never all finish without an error; with or without one, the same holds for ranks of an azimuth group whose tensors differ in batch size times channels after padding.", "quantifier": "all process grids, layer arguments, weights, biases, batch sizes, input tensors, assignments of distinct global ranks, and all interleavings, of any length", "why_tests_cant": "A rank can be several exchanges ahead of others, over two families of groups, and a message of the reductions may be under way while others already transpose; a test sees one interleaving, one grid and a few tensors, and compares up to a tolerance.", "anchors": ["torch_harmonics/distributed/distributed_spectral_convolution.py: DistributedSpectralConvS2.forward", "torch_harmonics/distributed/distributed_sht.py: DistributedRealSHT.forward, DistributedInverseRealSHT.forward", "torch_harmonics/distributed/distributed_quadrature.py: DistributedQuadratureS2.forward", "torch_harmonics/distributed/primitives.py: _reduce, distributed_transpose_azimuth, distributed_transpose_polar"]}
{"id": "C109", "title": "Gradients of the distributed spectral convolution", "statement": "On every process grid on which the layer can be built: if the ranks hold their shares of the weights and the bias of a serial spectral convolution, the tiles of an input and the tiles of a gradient with respect to the output, then the backward pass of the distributed layer succeeds and returns on every rank the tile of one global array, and this array is the gradient of the serial layer with respect to its input: paired with any input it gives the pairing of the serial layer's output with the output gradient. With a bias this includes the path through the integral of the input, whose gradient is summed over all ranks exactly once. Likewise every rank computes, without a further reduction, the tile of the gradient of the serial layer with respect to the spectral bias. The gradients of the weight that the azimuth ranks of a polar rank compute add up to the share of that polar rank of the serial weight gradient.", "quantifier": "all process grids, layer arguments, weights, biases (or none), batch sizes, inputs and output gradients", "why_tests_cant": "A missing or doubled reduction in the backward pass gives gradients that are wrong by an amount that depends on the process grid and on the parameters; with the bias at its initial value zero it is not visible at all. A test compares a few layers on one grid up to a tolerance.", "anchors": ["torch_harmonics/distributed/distributed_spectral_convolution.py: DistributedSpectralConvS2.forward", "torch_harmonics/distributed/distributed_sht.py: DistributedRealSHT.forward, DistributedInverseRealSHT.forward", "torch_harmonics/distributed/distributed_quadrature.py: DistributedQuadratureS2.forward", "torch_harmonics/distributed/primitives.py: _CopyToPolarRegion, _CopyToAzimuthRegion, _ReduceFromPolarRegion, _ReduceFromAzimuthRegion"]}
{"id": "C110", "title": "Training the distributed spectral convolution follows serial training", "statement": "Let the ranks hold their shares of the parameters of a serial spectral convolution, with or without bias, and train by gradient descent as the class documents: in every step they run the distributed layer on the tiles of the input, compute the tiles of the loss gradient, run the backward pass, sum the weight gradients over the azimuth ranks, and update the weight and the bias if there is one. Then no step fails, and after every number of steps the ranks hold exactly their shares of the parameters that gradient descent with the serial layer reaches from the same start, the same inputs and the same losses.", "quantifier": "all process grids on which the layer can be built, layer arguments, initial weights and biases, learning rates, batch sizes, sequences of inputs and losses, and all numbers of steps", "why_tests_cant": "An error in one gradient is multiplied by the steps that follow, and each further input depends on nothing a test has seen; a test compares one step, or a few, up to a tolerance that must grow with the number of steps.", "anchors": ["torch_harmonics/distributed/distributed_spectral_convolution.py: DistributedSpectralConvS2, DistributedSpectralConvS2.forward", "torch_harmonics/spectral_convolution.py: SpectralConvS2.forward", "torch_harmonics/distributed/primitives.py: _CopyToPolarRegion, _CopyToAzimuthRegion, _ReduceFromPolarRegion, _ReduceFromAzimuthRegion"]}
