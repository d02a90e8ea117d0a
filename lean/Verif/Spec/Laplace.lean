import Verif.Spec.SHT
import Mathlib.Analysis.Calculus.Deriv.Basic
/-!
Specification vocabulary for differential equations on the sphere.
-/
namespace Verif.Spec
open Finset

/-- The Laplace-Beltrami operator of the sphere of radius `R`, in colatitude and longitude, applied to `F` at a point away from the poles. -/
noncomputable def laplaceBeltrami (R : ℝ) (F : ℝ → ℝ → ℝ) (th ph : ℝ) : ℝ :=
  1 / R ^ 2 * (1 / Real.sin th * deriv (fun t => Real.sin t * deriv (fun s => F s ph) t) th
    + 1 / Real.sin th ^ 2 * deriv (fun p => deriv (fun q => F th q) p) ph)

/-- The integral of a grid function against the conjugate orthonormal harmonic of degree `l` and order `m`, by the quadrature rule with nodes `x`
and weights `w` in latitude (rows run from the north pole, nodes upwards) and equispaced longitudes. -/
noncomputable def quadCoeff (nlat nlon : ℕ) (x w : ℕ → ℝ) (f : ℕ → ℕ → ℝ) (l m : ℕ) : ℂ :=
  ∑ k ∈ range nlat, ∑ j ∈ range nlon, (2 * Real.pi / nlon * w k : ℝ) * (f k j : ℂ) * (assocLegendre l m (x (nlat - 1 - k)) : ℂ)
    * Complex.exp (-(m * (2 * Real.pi * j / nlon)) * Complex.I)

end Verif.Spec
