import Verif.Model.DistSpectralGrad
/-!
Gradient descent with a `DistributedSpectralConvS2` layer, as its documentation asks for it (distributed_spectral_convolution.py 72-80): the user sums the
gradients of the weight over the azimuth ranks. The optimizer is plain gradient descent, `p -= lr * p.grad`; it is not part of the repository.
-/
namespace Verif.Dist
open Verif Verif.SHT Verif.Quad Finset

/-- The parameters of the ranks: `weight` and `spectral_bias`, distributed_spectral_convolution.py 180-187. Without a bias the second is not used. -/
structure ConvParams where
  weight : ℕ → ℕ → ℕ → ℕ → ℕ → ℕ → ℂ
  bias : ℕ → ℕ → ℕ → ℕ → ℕ → ℂ

/-- `weight -= lr * weight.grad` after the documented sum over the azimuth ranks (72-80). -/
noncomputable def sgdWeight (Pa : ℕ) (lr : ℝ) (w γ : ℕ → ℕ → ℕ → ℕ → ℕ → ℕ → ℂ) (p a gr i o l : ℕ) : ℂ :=
  w p a gr i o l - lr * ∑ a' ∈ range Pa, γ p a' gr i o l

/-- `spectral_bias -= lr * spectral_bias.grad`. -/
noncomputable def sgdBias (lr : ℝ) (b : ℕ → ℕ → ℕ → ℕ → ℕ → ℂ) (β : ℕ → ℕ → Ten3 ℂ) (p a c l m : ℕ) : ℂ :=
  b p a c l m - lr * (β p a).val c l m

/-- One step on the process grid: the forward pass (195-228) with the present parameters, the gradient `loss` of the loss with respect to the outputs, the backward pass
and the update of the weight and, if there is one, the bias. The constructor has no other state than the parameters, so that the layer is written as constructed with them. -/
noncomputable def trainStep (env : Env) (be : FFT.C2R) (A : ConvArgs) (hasBias : Bool) (Pp Pa : ℕ) (lr : ℝ) (x : ℕ → ℕ → LTen ℝ)
    (loss : (ℕ → ℕ → LTen ℝ) → ℕ → ℕ → LTen ℝ) (θ : ConvParams) : Except PyErr ConvParams := do
  let D ← collect Pp Pa fun p a => DSpectralConv.init env A hasBias Pp Pa p a (θ.weight p a) (θ.bias p a)
  let y ← DSpectralConv.forward be Pp Pa hasBias D x
  let γ ← DSpectralConv.weightBackward Pp Pa hasBias D x (loss y)
  if hasBias then do
    let β ← DSpectralConv.biasBackward Pp Pa D x (loss y)
    return ⟨sgdWeight Pa lr θ.weight γ, sgdBias lr θ.bias β⟩
  else return ⟨sgdWeight Pa lr θ.weight γ, θ.bias⟩

/-- `N` steps, with the inputs `x t` and the losses `loss t`. -/
noncomputable def train (env : Env) (be : FFT.C2R) (A : ConvArgs) (hasBias : Bool) (Pp Pa : ℕ) (lr : ℝ) (x : ℕ → ℕ → ℕ → LTen ℝ)
    (loss : ℕ → (ℕ → ℕ → LTen ℝ) → ℕ → ℕ → LTen ℝ) (θ : ConvParams) : ℕ → Except PyErr ConvParams
  | 0 => .ok θ
  | t + 1 => do
    let θ' ← train env be A hasBias Pp Pa lr x loss θ t
    trainStep env be A hasBias Pp Pa lr (x t) (loss t) θ'

end Verif.Dist
