import Verif.Model.SpectralConv
import Mathlib.Analysis.SpecialFunctions.Pow.Real
/-!
Model of `torch_harmonics/random_fields.py`. The batch dimension is not modelled. The Gaussian sampler is an arbitrary noise
array: the theorems hold for every draw. `radius = 0` (division by zero in floating point) and `tau < 0` with a fractional exponent (a
complex number in Python) are outside the model: real powers of non-negative bases are meant.
-/
namespace Verif.SHT
open Verif Verif.Dist Verif.FFT Verif.Quad Verif.Truncation Finset

/-- Arguments of `GaussianRandomFieldS2.__init__`, random_fields.py 88. -/
structure GrfArgs where
  nlat : ℕ
  alpha : ℝ
  tau : ℝ
  sigma : Option ℝ
  radius : ℝ
  grid : String

/-- State of a `GaussianRandomFieldS2` object: the inverse transform and the buffer `sqrt_eig[l, m]`. -/
structure Grf where
  isht : InverseRealSHT
  sqrtEig : ℕ → ℕ → ℝ

/-- The amplitude, random_fields.py 94-98. -/
noncomputable def grfSigma (A : GrfArgs) : Except PyErr ℝ :=
  match A.sigma with
  | some s => .ok s
  | none => if A.alpha ≤ 1 then .error .valueError else .ok (A.tau ^ (0.5 * (2 * A.alpha - 2)))

/-- The square roots of the eigenvalues, random_fields.py 106-109: `tril`, then entry `[0, 0]` set to zero. -/
noncomputable def grfSqrtEig (A : GrfArgs) (sigma : ℝ) (l m : ℕ) : ℝ :=
  if l = 0 ∧ m = 0 then 0
  else if m ≤ l then sigma * (((l : ℝ) * ((l : ℝ) + 1)) / A.radius ^ 2 + A.tau ^ 2) ^ (-A.alpha / 2)
  else 0

/-- `GaussianRandomFieldS2.__init__`, random_fields.py 88-121. `nlon = 2 * nlat`; the norm string "backward" is passed on as it is.
The assignment to `[0, 0]` raises on an empty table. -/
noncomputable def Grf.init (env : Env) (A : GrfArgs) : Except PyErr Grf :=
  match grfSigma A with
  | .error e => .error e
  | .ok sigma =>
    match InverseRealSHT.init env ⟨A.nlat, 2 * A.nlat, none, none, A.grid, "backward", true⟩ with
    | .error e => .error e
    | .ok I => if I.lmax = 0 ∨ I.mmax = 0 then .error .indexError else .ok ⟨I, grfSqrtEig A sigma⟩

/-- The noise: the argument `xi`, or a draw of the sampler of shape `(lmax, mmax)`, random_fields.py 125-130. -/
def Grf.xi (G : Grf) (noise : ℕ → ℕ → ℂ) : Option (Mat ℂ) → Mat ℂ
  | some x => x
  | none => ⟨G.isht.lmax, G.isht.mmax, noise⟩

/-- `GaussianRandomFieldS2.forward`, random_fields.py 123-135. `noise` is the draw of the sampler, used when no `xi` is given; the
product broadcasts extents of size one. -/
noncomputable def Grf.forward (be : C2R) (G : Grf) (noise : ℕ → ℕ → ℂ) (xi : Option (Mat ℂ)) : Except PyErr (Mat ℝ) :=
  let x : Mat ℂ := G.xi noise xi
  match bcast x.d0 G.isht.lmax, bcast x.d1 G.isht.mmax with
  | some n0, some n1 => G.isht.forward be ⟨n0, n1, fun l m =>
      x.val (bidx x.d0 l) (bidx x.d1 m) * (G.sqrtEig (bidx G.isht.lmax l) (bidx G.isht.mmax m) : ℂ)⟩
  | _, _ => .error .runtimeError

end Verif.SHT
