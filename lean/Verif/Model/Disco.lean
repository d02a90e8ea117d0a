import Mathlib.Algebra.BigOperators.Intervals
import Verif.Model.Collectives
/-!
Model of the DISCO (discrete-continuous) convolution: the sparse filter tensor of `disco/_disco_utils.py`, the reference
contractions of `disco/kernels_torch/disco_torch.py` and the forward passes of `disco/convolution.py` on top of them.

Values live in an arbitrary commutative semiring `R` (floats are read as real numbers, `_compute_dtype` casts are not
modelled). The contractions treat every (batch, channel) plane independently (`reshape`/`permute` to a trailing dimension
`batch*chans` and back, disco_torch.py 69-70, 88 and 108, 136), so they are modelled on one plane, a `Mat`; the layers are
modelled on one batch element, a family of planes indexed by the channel.
-/
namespace Verif.Disco
open Verif Verif.Dist Finset

variable {R : Type} [CommSemiring R]

/-- One stored entry of the sparse filter tensor: the columns `(psi_idx[0], psi_idx[1], psi_idx[2], psi_vals)`. -/
structure Entry (R : Type) where
  ker : ℕ
  row : ℕ
  col : ℕ
  val : R

/-- A three-dimensional sparse tensor, seen through its values. -/
structure Psi (R : Type) where
  d0 : ℕ
  d1 : ℕ
  d2 : ℕ
  val : ℕ → ℕ → ℕ → R

/-- `torch.sparse_coo_tensor(idx, vals, size).coalesce()`: values stored several times under one index are added up.
The index check is switched off in the code (line 66); indices outside `size` are not meaningful. -/
def coo (d0 d1 d2 : ℕ) (es : List (Entry R)) : Psi R :=
  ⟨d0, d1, d2, fun k t c => ((es.filter (fun e => e.ker = k ∧ e.row = t ∧ e.col = c)).map Entry.val).sum⟩

/-- `_get_psi(..., semi_transposed=False)`, _disco_utils.py 59-61, 77-78 (single process: local sizes are the global ones). -/
def getPsi (K : ℕ) (es : List (Entry R)) (nlatIn nlonIn nlatOut : ℕ) : Psi R := coo K nlatOut (nlatIn * nlonIn) es

/-- The index map of the semi-transposed tensor, _disco_utils.py 70-75. -/
def semiTranspose (nlonOut : ℕ) (e : Entry R) : Entry R :=
  let tout := e.col / nlonOut
  let pout := nlonOut - 1 - e.col % nlonOut
  ⟨e.ker, tout, e.row * nlonOut + pout, e.val⟩

/-- `_get_psi(..., semi_transposed=True)`, _disco_utils.py 67-76. -/
def getPsiT (K : ℕ) (es : List (Entry R)) (nlatIn nlatOut nlonOut : ℕ) : Psi R :=
  coo K nlatOut (nlatIn * nlonOut) (es.map (semiTranspose nlonOut))

/-- `torch.roll(x, s, dims=longitude)`. -/
def rollLon {α : Type} (x : Mat α) (s : ℤ) : Mat α :=
  ⟨x.d0, x.d1, fun i j => x.val i (((j : ℤ) - s) % (x.d1 : ℤ)).toNat⟩

/-- `torch.bmm(psi, x.reshape(kernel_size, nlat * nlon, -1))` for one plane; `x k` is the operand of kernel index `k`. -/
def bmm (psi : Psi R) (x : ℕ → Mat R) (k t : ℕ) : R :=
  ∑ c ∈ range psi.d2, psi.val k t c * (x k).val (c / (x k).d1) (c % (x k).d1)

/-- The loop of `_disco_s2_contraction_torch`, disco_torch.py 79-83, after `n` passes: `(y, x)`. -/
def contractLoop (psi : Psi R) (pscale : ℕ) (x : Mat R) : ℕ → (ℕ → ℕ → ℕ → R) × Mat R
  | 0 => (fun _ _ _ => 0, x)
  | n + 1 =>
    let s := contractLoop psi pscale x n
    (Function.update s.1 n (bmm psi (fun _ => s.2)), rollLon s.2 (-(pscale : ℤ)))

/-- A tensor seen along three dimensions. -/
structure Ten (α : Type) where
  d0 : ℕ
  d1 : ℕ
  d2 : ℕ
  val : ℕ → ℕ → ℕ → α

/-- `_disco_s2_contraction_torch`, disco_torch.py 49-90; result indexed `[kernel, lat, lon]`. -/
def contraction (x : Mat R) (psi : Psi R) (nlonOut : ℕ) : Except PyErr (Ten R) :=
  if ¬ psi.d2 = x.d0 * x.d1 then .error .runtimeError
  else if nlonOut = 0 then .error .zeroDivision
  else if ¬ x.d1 % nlonOut = 0 then .error .runtimeError
  else if ¬ psi.d1 ≤ x.d1 then .error .runtimeError
  else
    let pscale := x.d1 / nlonOut
    let y := (contractLoop psi pscale x nlonOut).1
    .ok ⟨psi.d0, psi.d1, nlonOut, fun k t p => y p k t⟩

/-- `x_ext[:, :, ::pscale, :] = x`, disco_torch.py 107-112. -/
def interleave (x : Mat R) (nlonOut pscale : ℕ) : Mat R :=
  ⟨x.d0, nlonOut, fun i j => if j % pscale = 0 then x.val i (j / pscale) else 0⟩

/-- The loop of `_disco_s2_transpose_contraction_torch`, disco_torch.py 123-128, after `n` passes: `(y, x_ext)`. -/
def transposeLoop (psi : Psi R) (xe : ℕ → Mat R) : ℕ → (ℕ → ℕ → ℕ → R) × (ℕ → Mat R)
  | 0 => (fun _ _ _ => 0, xe)
  | n + 1 =>
    let s := transposeLoop psi xe n
    let x' := fun k => rollLon (s.2 k) (-1)
    (Function.update s.1 n (bmm psi x'), x')

/-- `_disco_s2_transpose_contraction_torch`, disco_torch.py 94-141, for one plane; input indexed `[kernel, lat, lon]`.
The strided assignment (line 112) raises unless the kernel sizes agree and `::pscale` selects exactly `nlon_in` columns; `bmm`
raises unless `psi` has `nlat_in * nlon_out` columns. -/
def transposeContraction (x : Ten R) (psi : Psi R) (nlonOut : ℕ) : Except PyErr (Mat R) :=
  if nlonOut = 0 then .error .zeroDivision
  else if ¬ psi.d2 % nlonOut = 0 then .error .runtimeError
  else if ¬ x.d2 ≤ nlonOut then .error .runtimeError
  else if x.d2 = 0 then .error .zeroDivision
  else if ¬ x.d0 = psi.d0 then .error .runtimeError
  else
    let pscale := nlonOut / x.d2
    if ¬ (nlonOut + pscale - 1) / pscale = x.d2 then .error .runtimeError
    else if ¬ psi.d2 = x.d1 * nlonOut then .error .runtimeError
    else
      let y := (transposeLoop psi (fun k => interleave ⟨x.d1, x.d2, x.val k⟩ nlonOut pscale) nlonOut).1
      .ok ⟨psi.d1, nlonOut, fun t p => ∑ k ∈ range psi.d0, y p k t⟩

/-- State of a DISCO layer: sizes, groups, parameters, and the precomputed filter entries. -/
structure Layer (R : Type) where
  groups : ℕ
  groupsize : ℕ
  outPerGroup : ℕ
  kernelSize : ℕ
  nlatIn : ℕ
  nlonIn : ℕ
  nlatOut : ℕ
  nlonOut : ℕ
  weight : ℕ → ℕ → ℕ → R
  bias : Option (ℕ → R)
  entries : List (Entry R)

/-- The channel counts derived by `DiscreteContinuousConv.__init__`, convolution.py 443-448: `(groupsize, out_per_group)`. -/
def channelSplit (inChannels outChannels groups : ℕ) : Except PyErr (ℕ × ℕ) :=
  if groups = 0 then .error .zeroDivision
  else if inChannels % groups ≠ 0 then .error .valueError
  else if outChannels % groups ≠ 0 then .error .valueError
  else .ok (inChannels / groups, outChannels / groups)

/-- The weight as seen by the einsums: `self.weight.reshape(groups, out_per_group, groupsize, kernel_size)`,
convolution.py 695 (and 994). -/
def Layer.weightR (L : Layer R) (g o c k : ℕ) : R := L.weight (g * L.outPerGroup + o) c k

/-- `einsum("bgckxy,gock->bgoxy", x, weight_r)` after and before the reshapes of the channel dimension,
convolution.py 835-839; `x c k i j` is the K-expanded input. -/
def Layer.mix (L : Layer R) (x : ℕ → ℕ → ℕ → ℕ → R) (oc i j : ℕ) : R :=
  let g := oc / L.outPerGroup
  let o := oc % L.outPerGroup
  ∑ c ∈ range L.groupsize, ∑ k ∈ range L.kernelSize, x (g * L.groupsize + c) k i j * L.weightR g o c k

/-- `out + self.bias.reshape(1, -1, 1, 1)`, convolution.py 841-842 (and 1004-1005). -/
def Layer.addBias (L : Layer R) (out : ℕ → ℕ → ℕ → R) (oc i j : ℕ) : R :=
  match L.bias with
  | none => out oc i j
  | some b => out oc i j + b oc

/-- `DiscreteContinuousConvS2.forward` with `optimized_kernel=False`, convolution.py 680-844. The input has `C` channels of
extents `x.d1 × x.d2`. -/
def Layer.forward (L : Layer R) (x : Ten R) : Except PyErr (Ten R) :=
  let psi := getPsi L.kernelSize L.entries L.nlatIn L.nlonIn L.nlatOut
  match contraction ⟨x.d1, x.d2, x.val 0⟩ psi L.nlonOut with
  | .error e => .error e
  | .ok _ =>
    if ¬ x.d0 = L.groups * L.groupsize then .error .runtimeError
    else
      let y := fun c k i j =>
        match contraction ⟨x.d1, x.d2, x.val c⟩ psi L.nlonOut with
        | .error _ => 0
        | .ok z => z.val k i j
      .ok ⟨L.groups * L.outPerGroup, L.nlatOut, L.nlonOut, L.addBias (L.mix y)⟩

/-- `einsum("bgcxy,gock->bgokxy", x, weight)`, convolution.py 989-995: input of the transposed contraction for output
channel `oc`. -/
def Layer.expand (L : Layer R) (x : Ten R) (oc : ℕ) : Ten R :=
  let g := oc / L.outPerGroup
  let o := oc % L.outPerGroup
  ⟨L.kernelSize, x.d1, x.d2, fun k i j => ∑ c ∈ range L.groupsize, x.val (g * L.groupsize + c) i j * L.weightR g o c k⟩

/-- `DiscreteContinuousConvTransposeS2.forward` with `optimized_kernel=False`, convolution.py 974-1007. -/
def Layer.transposeForward (L : Layer R) (x : Ten R) : Except PyErr (Ten R) :=
  let psi := getPsiT L.kernelSize L.entries L.nlatIn L.nlatOut L.nlonOut
  if ¬ x.d0 = L.groups * L.groupsize then .error .runtimeError
  else
    match transposeContraction (L.expand x 0) psi L.nlonOut with
    | .error e => .error e
    | .ok _ =>
      let y := fun oc i j =>
        match transposeContraction (L.expand x oc) psi L.nlonOut with
        | .error _ => 0
        | .ok z => z.val i j
      .ok ⟨L.groups * L.outPerGroup, L.nlatOut, L.nlonOut, L.addBias y⟩

end Verif.Disco
