import Verif.Spec.Fourier
/-!
Specification vocabulary for the two-dimensional Fourier transforms.
-/
namespace Verif.Spec
open Finset

/-- The orthonormal two-dimensional discrete Fourier transform of a real image of `H` rows and `W` columns, at frequency `f` along the rows'
index and `m` along the columns' index. -/
noncomputable def dft2 (H W : ℕ) (x : ℕ → ℕ → ℝ) (f : ℤ) (m : ℕ) : ℂ :=
  1 / (Real.sqrt H * Real.sqrt W : ℝ) * ∑ k ∈ range H, ∑ j ∈ range W,
    (x k j : ℂ) * Complex.exp (-(2 * Real.pi * Complex.I * (k * f / H + j * m / W)))

/-- A real plane wave on the grid. -/
noncomputable def wave (H W : ℕ) (f : ℤ) (m : ℕ) (k j : ℕ) : ℝ := Real.cos (2 * Real.pi * (k * f / H + j * m / W))

end Verif.Spec
