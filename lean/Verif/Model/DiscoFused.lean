import Verif.Model.DiscoCpu
/-!
Model of the fused DISCO convolution and its gradients, `disco/optimized/disco_optimized.py`: the kernel-split filter
(148-203), the choice of the gradient order (112-145), the spatial-first input gradient (206-256), the fused forward (472-506)
and its backward (568-622). The "save x" variant (690-782) computes the same values; it differs in what it stores.
As before one batch item is modelled; the batch index is carried along unchanged by all einsums except in the weight gradient,
which sums over it, so `gradWeight` takes the batch.
-/
namespace Verif.Disco
open Verif Verif.Dist Finset

variable {R : Type}

/-- One row of the inner loop of `_build_kernel_split_csr`, disco_optimized.py 160-173: `(roff_k, entries, nnz_k)`. -/
def splitRow (A : Csr R) (k : ℕ) (s : List ℕ × List (Entry R) × ℕ) (row : ℕ) : List ℕ × List (Entry R) × ℕ :=
  let start := A.roff row
  let stop := A.roff (row + 1)
  if start = stop then s
  else if (A.entry start).ker ≠ k then s
  else
    let nnz := stop - start
    (s.1 ++ [s.2.2 + nnz], s.2.1 ++ (List.range' start nnz).map (fun z => { A.entry z with ker := 0 }), s.2.2 + nnz)

/-- The loop over the rows for kernel `k`, disco_optimized.py 157-173. -/
def splitKernel (A : Csr R) (k : ℕ) : List ℕ × List (Entry R) × ℕ := (List.range A.nnr).foldl (splitRow A k) ([0], [], 0)

/-- The kernel-split filter: concatenated row offsets and entries, and where the parts start. -/
structure Split (R : Type) where
  roff : List ℕ
  rowOff : List ℕ
  nnzOff : List ℕ
  entries : List (Entry R)

/-- `_build_kernel_split_csr`, disco_optimized.py 148-203, after the kernels `0 .. n-1`. -/
def buildSplit (A : Csr R) : ℕ → Split R
  | 0 => ⟨[], [0], [0], []⟩
  | n + 1 =>
    let S := buildSplit A n
    let P := splitKernel A n
    ⟨S.roff ++ P.1, S.rowOff ++ [S.rowOff.getLast?.getD 0 + P.1.length], S.nnzOff ++ [S.nnzOff.getLast?.getD 0 + P.2.2],
      S.entries ++ P.2.1⟩

/-- The slices for kernel `k`, disco_optimized.py 226-246. -/
def Split.part (S : Split R) (k : ℕ) : List ℕ × List (Entry R) :=
  let rowStart := S.rowOff.getD k 0
  let rowEnd := S.rowOff.getD (k + 1) 0
  let start := S.nnzOff.getD k 0
  let stop := S.nnzOff.getD (k + 1) 0
  ((S.roff.drop rowStart).take (rowEnd - rowStart), (S.entries.drop start).take (stop - start))

/-- `_use_spatial_first_dgrad`, disco_optimized.py 128-145 with `_split_csr_available` 112-117: `numelRoff` is the number of row
offsets; a two-dimensional `split_nnz_off` of shape `2 × (kernel_size + 1)` is what `_build_kernel_split_csr` makes. -/
def useSpatialFirst (outPerGroup inPerGroup kernelSize numelRoff nlatOut : ℕ) (S : Option (Split R)) : Bool :=
  if kernelSize ≤ 1 ∨ outPerGroup * 2 > inPerGroup then false
  else
    let dense := numelRoff = kernelSize * nlatOut + 1
    let split := match S with
      | none => false
      | some S => decide (S.roff.length ≠ 0 ∧ 2 * S.nnzOff.length ≠ 0 ∧ S.nnzOff.length = kernelSize + 1)
    dense || split

section
variable [CommSemiring R]

/-- The value of a kernel call that was checked not to fail on the first plane. -/
def planeVal (r : Except PyErr (Mat R × (ℕ → R))) (i j : ℕ) : R :=
  match r with
  | .error _ => 0
  | .ok z => z.1.val i j

/-- Likewise for a contraction. -/
def tenVal (r : Except PyErr (Ten R)) (k i j : ℕ) : R :=
  match r with
  | .error _ => 0
  | .ok z => z.val k i j

/-- Likewise for a matrix. -/
def matVal (r : Except PyErr (Mat R)) (i j : ℕ) : R :=
  match r with
  | .error _ => 0
  | .ok z => z.val i j

/-- One part of `_disco_s2_fused_conv_spatial_first_dgrad`, disco_optimized.py 226-251: the sparse transpose of kernel `k` applied
to the output-channel plane `g`. -/
def spatialPart (junk : ℕ → Entry R) (sh : ℕ → R) (S : Split R) (g : ℕ → ℕ → R) (H W nlatIn nlonIn k : ℕ) : Except PyErr (Mat R) :=
  let P := S.part k
  if P.1.length ≤ 1 then .ok ⟨nlatIn, nlonIn, fun _ _ => 0⟩
  else
    match cpuBackward sh (Csr.ofLists junk P.2 P.1) ⟨1, H, W, fun _ => g⟩ nlatIn nlonIn with
    | .error e => .error e
    | .ok z => .ok z.1

/-- `_disco_s2_fused_conv_spatial_first_dgrad`, disco_optimized.py 206-256: `einsum("bgokxy,gock->bgcxy")` after the sparse
transposes. `L` gives the weights and channel counts, `gout` has `groups * out_per_group` channels. -/
def gradInputSpatial (junk : ℕ → Entry R) (sh : ℕ → R) (L : Layer R) (S : Split R) (gout : Ten R) : Ten R :=
  ⟨L.groups * L.groupsize, L.nlatIn, L.nlonIn, fun ic i j =>
    let g := ic / L.groupsize
    let c := ic % L.groupsize
    ∑ o ∈ range L.outPerGroup, ∑ k ∈ range L.kernelSize,
      matVal (spatialPart junk sh S (gout.val (g * L.outPerGroup + o)) L.nlatOut L.nlonOut L.nlatIn L.nlonIn k) i j
        * L.weightR g o c k⟩

/-- The weight-first input gradient, disco_optimized.py 604-612: `einsum("bgoxy,gock->bgckxy")`, then one sparse transpose. -/
def gradInputWeight (sh : ℕ → R) (L : Layer R) (A : Csr R) (gout : Ten R) : Ten R :=
  ⟨L.groups * L.groupsize, L.nlatIn, L.nlonIn, fun ic =>
    let g := ic / L.groupsize
    let c := ic % L.groupsize
    planeVal (cpuBackward sh A ⟨L.kernelSize, L.nlatOut, L.nlonOut, fun k h w =>
      ∑ o ∈ range L.outPerGroup, gout.val (g * L.outPerGroup + o) h w * L.weightR g o c k⟩ L.nlatIn L.nlonIn)⟩

/-- The input gradient of the fused convolution, disco_optimized.py 586-613. The kernel call made for every channel has the same
extents, so it fails for all or for none: the failure is that of a call on zeros. -/
def fusedGradInput (junk : ℕ → Entry R) (sh : ℕ → R) (L : Layer R) (A : Csr R) (numelRoff : ℕ) (S : Split R) (gout : Ten R) :
    Except PyErr (Ten R) :=
  match cpuBackward sh A ⟨L.kernelSize, L.nlatOut, L.nlonOut, fun _ _ _ => 0⟩ L.nlatIn L.nlonIn with
  | .error e => .error e
  | .ok _ =>
    if useSpatialFirst L.outPerGroup L.groupsize L.kernelSize numelRoff L.nlatOut (some S) then
      .ok (gradInputSpatial junk sh L S gout)
    else .ok (gradInputWeight sh L A gout)

/-- The fused forward, disco_optimized.py 495-506: sparse contraction of every channel, then `einsum("bgckxy,gock->bgoxy")`.
The bias is added by the layer (convolution.py 841-842). -/
def fusedForward (mem : ℕ → R) (sh0 : ℕ → ℕ → R) (order : List ℕ) (L : Layer R) (A : Csr R) (x : Ten R) : Except PyErr (Ten R) :=
  match cpuForward mem sh0 A order ⟨x.d1, x.d2, x.val 0⟩ L.kernelSize L.nlatOut L.nlonOut with
  | .error e => .error e
  | .ok _ =>
    if ¬ x.d0 = L.groups * L.groupsize then .error .runtimeError
    else
      .ok ⟨L.groups * L.outPerGroup, L.nlatOut, L.nlonOut, L.addBias (L.mix fun c =>
        tenVal (cpuForward mem sh0 A order ⟨x.d1, x.d2, x.val c⟩ L.kernelSize L.nlatOut L.nlonOut))⟩

/-- The weight gradient, disco_optimized.py 615-620: `einsum("bgoxy,bgckxy->gock")` over the batch `b < B`, with the contraction
recomputed. Indexed as `(g * out_per_group + o, c, k)`. -/
def fusedGradWeight (mem : ℕ → R) (sh0 : ℕ → ℕ → R) (order : List ℕ) (L : Layer R) (A : Csr R) (B : ℕ) (x gout : ℕ → Ten R)
    (oc c k : ℕ) : R :=
  let g := oc / L.outPerGroup
  ∑ b ∈ range B, ∑ i ∈ range L.nlatOut, ∑ j ∈ range L.nlonOut, (gout b).val oc i j *
    tenVal (cpuForward mem sh0 A order ⟨(x b).d1, (x b).d2, (x b).val (g * L.groupsize + c)⟩ L.kernelSize L.nlatOut L.nlonOut) k i j

end

end Verif.Disco
