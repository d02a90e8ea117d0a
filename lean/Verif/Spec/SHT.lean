import Verif.Spec.Legendre
import Mathlib.Analysis.SpecialFunctions.Complex.Circle
/-!
Independent specification: spherical harmonic series and the discrete inner products with spherical harmonics.
-/
namespace Verif.Spec
open Finset

/-- The factor of a real series term: orders 0 and `nlon/2` (the Nyquist order of `nlon` equispaced longitudes) occur once,
all other orders stand for `m` and `-m` together. -/
def realMult (nlon m : ℕ) : ℝ := if m = 0 ∨ 2 * m = nlon then 1 else 2

/-- The latitudinal factor of the harmonics used for synthesis, as a function of colatitude. -/
noncomputable def synthFactor (norm : String) (csphase : Bool) (l m : ℕ) (th : ℝ) : ℝ :=
  csSign csphase m * (tableScale norm true l * legendreTheta l m th)

/-- The real spherical harmonic series with degrees below `L` and orders below `M`; orders above `nlon/2`, which `nlon`
longitudes cannot carry, are left out. -/
noncomputable def harmonicSeries (norm : String) (csphase : Bool) (nlon L M : ℕ) (c : ℕ → ℕ → ℂ) (th ph : ℝ) : ℝ :=
  ∑ m ∈ range (min M (nlon / 2 + 1)), realMult nlon m * ∑ l ∈ range L, synthFactor norm csphase l m th *
    ((c l m).re * Real.cos (m * ph) - (c l m).im * Real.sin (m * ph))

/-- The part of a coefficient array that a real band-limited field on `nlon` longitudes determines: nothing above the
diagonal (`m > l`), only the real part at order 0 and at the Nyquist order. -/
noncomputable def admissible (nlon : ℕ) (c : ℕ → ℕ → ℂ) (l m : ℕ) : ℂ :=
  if l < m then 0 else if m = 0 ∨ 2 * m = nlon then ((c l m).re : ℂ) else c l m

/-- The part of a vector coefficient array (spheroidal or toroidal) that a real tangential field determines: degrees `l >= 1`
(there is no vector harmonic of degree 0), orders `m <= l`, only the real part at order 0. -/
noncomputable def vecAdmissible (c : ℕ → ℕ → ℂ) (l m : ℕ) : ℂ :=
  if l = 0 ∨ l < m then 0 else if m = 0 then ((c l m).re : ℂ) else c l m

end Verif.Spec
