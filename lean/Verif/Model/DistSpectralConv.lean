import Verif.Model.DistSHT
import Verif.Model.DistQuadrature
/-!
Model of `torch_harmonics/distributed/distributed_spectral_convolution.py`. Tensors have the shape `[B, C, H, W]`, an `LTen` with two
leading dimensions. The weights and the bias are arbitrary parameters of each rank. The casts to float32 and back are not modelled.
-/
namespace Verif.Dist
open Verif Verif.SHT Verif.Quad Finset

/-- State of a `DistributedSpectralConvS2` object on one rank: `weight[g, i, o, l]` and `spectral_bias[c, l, m]` hold the degrees and orders
of the rank, `quad` the weights of `self.quadrature`. Without a bias the last two are not used. -/
structure DSpectralConv where
  inChannels : ℕ
  outChannels : ℕ
  groups : ℕ
  sht : DRealSHT
  isht : DInverseRealSHT
  weight : ℕ → ℕ → ℕ → ℕ → ℂ
  bias : ℕ → ℕ → ℕ → ℂ
  quad : Mat ℝ

/-- The factor by which the initial random weights are scaled, on a rank with `lmaxLocal` degrees (the serial layer: all degrees),
distributed_spectral_convolution.py 180-184 and spectral_convolution.py 188-192. -/
noncomputable def initScale (inChannels groups : ℕ) (l : ℕ) : ℝ :=
  let s := Real.sqrt (1 / (inChannels / groups : ℕ))
  if l = 0 then s * Real.sqrt 2 else s

/-- `DistributedSpectralConvS2.__init__` on rank `(p, a)`, distributed_spectral_convolution.py 128-188. -/
noncomputable def DSpectralConv.init (env : Env) (A : ConvArgs) (hasBias : Bool) (Pp Pa p a : ℕ) (weight : ℕ → ℕ → ℕ → ℕ → ℂ)
    (bias : ℕ → ℕ → ℕ → ℂ) : Except PyErr DSpectralConv :=
  if A.groups = 0 then .error .zeroDivision
  else if A.inChannels % A.groups ≠ 0 then .error .valueError
  else if A.outChannels % A.groups ≠ 0 then .error .valueError
  else do
    let lmax ← convLmax A
    let S ← DRealSHT.init env ⟨A.nlatIn, A.nlonIn, some lmax, some lmax, A.gridIn, "ortho", true⟩ Pp Pa p a
    let I ← DInverseRealSHT.init env ⟨A.nlatOut, A.nlonOut, some lmax, some lmax, A.gridOut, "ortho", true⟩ Pp Pa p a
    if A.inChannels / A.groups = 0 then .error .zeroDivision
    else if hasBias then do
      let q ← dquadInit env.gauss env.tol env.maxiter A.nlatIn A.nlonIn A.gridIn false Pp Pa p a
      return ⟨A.inChannels, A.outChannels, A.groups, S, I, weight, bias, q⟩
    else return ⟨A.inChannels, A.outChannels, A.groups, S, I, weight, bias, ⟨0, 0, fun _ _ => 0⟩⟩

/-- `B, C, H, W = x.shape` and an operation on every batch element. Whether it raises, and the shape of its result, depend on
the shape only. -/
def mapBatch (f : ℕ → Ten3 ℂ → Except PyErr (Ten3 ℂ)) (x : LTen ℂ) : Except PyErr (LTen ℂ) :=
  match x.lead with
  | [B, C] =>
    match f 0 ⟨C, x.d1, x.d2, fun c => x.val [0, c]⟩ with
    | .error e => .error e
    | .ok y0 => .ok ⟨[B, y0.d0], y0.d1, y0.d2, fun idx =>
        match f (idx.getD 0 0) ⟨C, x.d1, x.d2, fun c => x.val [idx.getD 0 0, c]⟩ with
        | .error _ => y0.val (idx.getD 1 0)
        | .ok y => y.val (idx.getD 1 0)⟩
  | _ => .error .valueError

/-- `self.quadrature(x)` followed by `copy_to_polar_region` and `copy_to_azimuth_region` (which return their argument),
distributed_spectral_convolution.py 198-204: the integral of batch element `b`, channel `c`, on rank `(p, a)`. Errors depend on the shape only. -/
noncomputable def integrals (Pp Pa : ℕ) (w : ℕ → ℕ → Mat ℝ) (x : ℕ → ℕ → LTen ℝ) : Except PyErr (ℕ → ℕ → ℕ → ℕ → ℝ) :=
  let f := fun b c => dquadForward Pp Pa w fun p a => ⟨(x p a).d1, (x p a).d2, (x p a).val [b, c]⟩
  match f 0 0 with
  | .error e => .error e
  | .ok y0 => .ok fun p a b c =>
      match f b c with
      | .error _ => y0 p a
      | .ok y => y p a

/-- `x + integral.reshape(B, C, 1, 1) * self.spectral_bias` for one batch element, distributed_spectral_convolution.py 213-215. -/
noncomputable def DSpectralConv.addBias (S : DSpectralConv) (I : ℕ → ℝ) (c : Ten3 ℂ) : Except PyErr (Ten3 ℂ) :=
  match bcast c.d0 S.inChannels with
  | none => .error .runtimeError
  | some n => .ok ⟨n, c.d1, c.d2, fun i l m => c.val (bidx c.d0 i) l m + (I (bidx c.d0 i) : ℂ) * S.bias (bidx S.inChannels i) l m⟩

/-- The reshape into groups and `einsum("bgixy,giox->bgoxy")` for one batch element, distributed_spectral_convolution.py 190-193 and 217-220;
`C` is the channel count of the input. -/
noncomputable def DSpectralConv.contract (S : DSpectralConv) (C : ℕ) (c : Ten3 ℂ) : Except PyErr (Ten3 ℂ) :=
  let xi := C / S.groups
  let wi := S.inChannels / S.groups
  let og := S.outChannels / S.groups
  if S.groups * xi ≠ c.d0 then .error .runtimeError
  else
    match bcast xi wi with
    | none => .error .runtimeError
    | some n => .ok ⟨S.outChannels, c.d1, c.d2, fun oc l m =>
        ∑ i ∈ range n, c.val (oc / og * xi + bidx xi i) l m * S.weight (oc / og) (bidx wi i) (oc % og) l⟩

/-- The bias is added if the layer has one, distributed_spectral_convolution.py 213-215. -/
noncomputable def DSpectralConv.maybeBias (S : DSpectralConv) (hasBias : Bool) (I : ℕ → ℝ) (c : Ten3 ℂ) : Except PyErr (Ten3 ℂ) :=
  if hasBias then S.addBias I c else .ok c

/-- The local part of the layer between the two transforms, distributed_spectral_convolution.py 210-220. -/
noncomputable def DSpectralConv.mix (S : DSpectralConv) (hasBias : Bool) (I : ℕ → ℕ → ℝ) (x : LTen ℂ) : Except PyErr (LTen ℂ) :=
  mapBatch (fun b c => do
    let c' ← S.maybeBias hasBias (I b) c
    S.contract c.d0 c') x

/-- The integrals are only computed if the layer has a bias, distributed_spectral_convolution.py 198-204. -/
noncomputable def maybeIntegrals (Pp Pa : ℕ) (hasBias : Bool) (w : ℕ → ℕ → Mat ℝ) (x : ℕ → ℕ → LTen ℝ) : Except PyErr (ℕ → ℕ → ℕ → ℕ → ℝ) :=
  if hasBias then integrals Pp Pa w x else .ok fun _ _ _ _ => 0

/-- `DistributedSpectralConvS2.forward`, distributed_spectral_convolution.py 195-228, on the process grid. The argument `bias` of the
constructor is the same on all ranks. -/
noncomputable def DSpectralConv.forward (be : FFT.C2R) (Pp Pa : ℕ) (hasBias : Bool) (S : ℕ → ℕ → DSpectralConv) (x : ℕ → ℕ → LTen ℝ) :
    Except PyErr (ℕ → ℕ → LTen ℝ) := do
  let I ← maybeIntegrals Pp Pa hasBias (fun p a => (S p a).quad) x
  let c ← DRealSHT.forward Pp Pa (fun p a => (S p a).sht) x
  let z ← collect Pp Pa fun p a => (S p a).mix hasBias (I p a) (c p a)
  DInverseRealSHT.forward be Pp Pa (fun p a => (S p a).isht) z

/-- The gradient of the weight that autograd computes on one rank: the adjoint of the einsum (192), from the coefficients `c[b][i]` and the
incoming gradient `g[b][o]` of the rank, which holds `W` orders. Torch's convention for complex gradients conjugates the other factor. Summed
over the batch `B` and the orders that the rank holds. `n` input and `og` output channels per group. -/
noncomputable def weightGrad (B n og W : ℕ) (c g : ℕ → ℕ → ℕ → ℕ → ℂ) (gr i o l : ℕ) : ℂ :=
  ∑ b ∈ range B, ∑ m ∈ range W, g b (gr * og + o) l m * (starRingEnd ℂ) (c b (gr * n + i) l m)

end Verif.Dist
