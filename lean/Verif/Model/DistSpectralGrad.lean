import Verif.Model.DistSpectralConv
import Verif.Model.DistQuadGrad
/-!
The backward pass of `torch_harmonics/distributed/distributed_spectral_convolution.py` with respect to the input, the bias and the weight: what autograd computes from the
gradient of the output. Inputs have `in_channels` channels (broadcasting of other channel counts is not modelled here). The casts to float32 and
back are not modelled.
-/
namespace Verif.Dist
open Verif Verif.SHT Verif.Quad Finset

/-- Backward of the reshapes and of `einsum("bgixy,giox->bgoxy")` with respect to the coefficients, distributed_spectral_convolution.py 190-193 and
217-220: every input channel collects the gradients of the output channels of its group; torch's convention for complex gradients conjugates the
weight. -/
noncomputable def DSpectralConv.mixBackward (S : DSpectralConv) (v : LTen ℂ) : LTen ℂ :=
  let n := S.inChannels / S.groups
  let og := S.outChannels / S.groups
  ⟨[v.lead.getD 0 0, S.inChannels], v.d1, v.d2, fun idx l m =>
    ∑ o ∈ range og, v.val [idx.getD 0 0, idx.getD 1 0 / n * og + o] l m *
      (starRingEnd ℂ) (S.weight (idx.getD 1 0 / n) (idx.getD 1 0 % n) o l)⟩

/-- Gradient with respect to the integral of batch element `b`, channel `c`, on rank `(p, a)`: the backward of line 215 sums over the degrees and orders
of the rank; then the backward passes of `copy_to_azimuth_region` (203-204) and `copy_to_polar_region` (201-202), which all-reduce. -/
noncomputable def DSpectralConv.integralBackward (Pp Pa : ℕ) (S : ℕ → ℕ → DSpectralConv) (u : ℕ → ℕ → LTen ℂ) (b c p a : ℕ) : ℝ :=
  let g0 : ℕ → ℕ → ℝ := fun p a => ∑ l ∈ range (u p a).d1, ∑ m ∈ range (u p a).d2,
    (((S p a).bias c l m).re * ((u p a).val [b, c] l m).re + ((S p a).bias c l m).im * ((u p a).val [b, c] l m).im)
  let g1 : ℕ → ℕ → ℝ := fun p a => if Pa > 1 then (copyToBackward Pa (fun s => (⟨1, fun _ => g0 p s⟩ : Vec ℝ)) a).val 0 else g0 p a
  if Pp > 1 then (copyToBackward Pp (fun s => (⟨1, fun _ => g1 s a⟩ : Vec ℝ)) p).val 0 else g1 p a

/-- The backward pass of `DistributedSpectralConvS2.forward`, distributed_spectral_convolution.py 195-228, with respect to `x`, on the process grid. The
backward of the inverse transform (223) only uses the shape of its input, `(B, out_channels, lmax_local, mmax_local)`. With a bias the input is used
twice, by the transform (208) and by the quadrature (200), and the two gradients are added. -/
noncomputable def DSpectralConv.backward (Pp Pa : ℕ) (hasBias : Bool) (S : ℕ → ℕ → DSpectralConv) (x g : ℕ → ℕ → LTen ℝ) :
    Except PyErr (ℕ → ℕ → LTen ℝ) := do
  let v ← DInverseRealSHT.backward Pp Pa (fun p a => (S p a).isht)
    (fun p a => ⟨[(x p a).lead.getD 0 0, (S p a).outChannels], (S p a).isht.lmaxLocal, (S p a).isht.mmaxLocal, fun _ _ _ => 0⟩) g
  let u : ℕ → ℕ → LTen ℂ := fun p a => (S p a).mixBackward (v p a)
  let gx ← DRealSHT.backward Pp Pa (fun p a => (S p a).sht) x u
  return fun p a => if hasBias then ⟨(gx p a).lead, (gx p a).d1, (gx p a).d2, fun idx k j => (gx p a).val idx k j +
      (dquadBackward Pp Pa (fun p a => (S p a).quad) (DSpectralConv.integralBackward Pp Pa S u (idx.getD 0 0) (idx.getD 1 0)) p a).val k j⟩
    else gx p a

/-- Gradient of `spectral_bias` that autograd computes on the ranks, distributed_spectral_convolution.py 215 (the parameter is broadcast over the batch, so the
gradients of the batch elements are added), from the integrals of the forward pass (200-204). Layers with a bias. -/
noncomputable def DSpectralConv.biasBackward (Pp Pa : ℕ) (S : ℕ → ℕ → DSpectralConv) (x g : ℕ → ℕ → LTen ℝ) : Except PyErr (ℕ → ℕ → Ten3 ℂ) := do
  let I ← integrals Pp Pa (fun p a => (S p a).quad) x
  let v ← DInverseRealSHT.backward Pp Pa (fun p a => (S p a).isht)
    (fun p a => ⟨[(x p a).lead.getD 0 0, (S p a).outChannels], (S p a).isht.lmaxLocal, (S p a).isht.mmaxLocal, fun _ _ _ => 0⟩) g
  return fun p a => ⟨(S p a).inChannels, (v p a).d1, (v p a).d2, fun c l m =>
    ∑ n ∈ range ((x p a).lead.getD 0 0), (I p a n c : ℂ) * ((S p a).mixBackward (v p a)).val [n, c] l m⟩

/-- Gradient of `weight` that autograd computes on the ranks, distributed_spectral_convolution.py 190-220: `weightGrad` of the coefficients that enter the contraction
(after the bias, 215) and of the gradient that comes back from the inverse transform (223). -/
noncomputable def DSpectralConv.weightBackward (Pp Pa : ℕ) (hasBias : Bool) (S : ℕ → ℕ → DSpectralConv) (x g : ℕ → ℕ → LTen ℝ) :
    Except PyErr (ℕ → ℕ → ℕ → ℕ → ℕ → ℕ → ℂ) := do
  let I ← maybeIntegrals Pp Pa hasBias (fun p a => (S p a).quad) x
  let c ← DRealSHT.forward Pp Pa (fun p a => (S p a).sht) x
  let v ← DInverseRealSHT.backward Pp Pa (fun p a => (S p a).isht)
    (fun p a => ⟨[(x p a).lead.getD 0 0, (S p a).outChannels], (S p a).isht.lmaxLocal, (S p a).isht.mmaxLocal, fun _ _ _ => 0⟩) g
  return fun p a => weightGrad ((x p a).lead.getD 0 0) ((S p a).inChannels / (S p a).groups) ((S p a).outChannels / (S p a).groups) (v p a).d2
    (fun b ch l m => (c p a).val [b, ch] l m + if hasBias then (I p a b ch : ℂ) * (S p a).bias ch l m else 0) fun b o => (v p a).val [b, o]

end Verif.Dist
