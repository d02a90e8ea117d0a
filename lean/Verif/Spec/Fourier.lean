import Mathlib.Analysis.SpecialFunctions.Complex.Circle
/-!
Independent specification: discrete Fourier coefficients of a real signal.
-/
namespace Verif.Spec
open Finset

/-- `k`-th discrete Fourier coefficient of the signal `x 0, ..., x (n-1)` (no normalisation). -/
noncomputable def dft (n : ℕ) (x : ℕ → ℝ) (k : ℕ) : ℂ :=
  ∑ j ∈ range n, (x j : ℂ) * Complex.exp (-(2 * Real.pi * Complex.I * j * k / n))

/-- The spectrum bins that a real signal of length `n` forces to be real. -/
def SelfConjugateBinsReal (n : ℕ) (X : ℕ → ℂ) : Prop :=
  (X 0).im = 0 ∧ (n % 2 = 0 → (X (n / 2)).im = 0)

/-- Real signal of length `n` with spectrum `X 0, ..., X (n/2)`: each bin strictly between DC and Nyquist
contributes itself and its complex conjugate. -/
noncomputable def synth (n : ℕ) (X : ℕ → ℂ) (j : ℕ) : ℝ :=
  ∑ k ∈ range (n / 2 + 1), (if k = 0 ∨ 2 * k = n then 1 else 2) *
    ((X k).re * Real.cos (2 * Real.pi * j * k / n) - (X k).im * Real.sin (2 * Real.pi * j * k / n))

end Verif.Spec
