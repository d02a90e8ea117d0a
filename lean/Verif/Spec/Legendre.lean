import Mathlib.Algebra.Polynomial.Derivative
import Mathlib.Analysis.SpecialFunctions.Sqrt
import Mathlib.Analysis.SpecialFunctions.Trigonometric.Basic
/-!
Independent specification of the associated Legendre functions (Rodrigues' formula).
-/
namespace Verif.Spec
open Polynomial

/-- `(x^2 - 1)^l / (2^l l!)`. -/
noncomputable def rodriguesBase (l : ℕ) : ℝ[X] := C (1 / (2 ^ l * (l.factorial : ℝ))) * (X ^ 2 - 1) ^ l

/-- `d^m/dx^m P_l(x)`, where `P_l = d^l/dx^l (x^2-1)^l / (2^l l!)` is the Legendre polynomial. -/
noncomputable def legendreDeriv (l m : ℕ) : ℝ[X] := derivative^[l + m] (rodriguesBase l)

/-- The normalisation constant `sqrt((2l+1)/(4 pi)) sqrt((l-m)!/(l+m)!)`. -/
noncomputable def legendreNorm (l m : ℕ) : ℝ :=
  Real.sqrt ((2 * (l : ℝ) + 1) / (4 * Real.pi)) * Real.sqrt (((l - m).factorial : ℝ) / ((l + m).factorial : ℝ))

/-- The orthonormal associated Legendre function of degree `l` and order `m`, without the Condon-Shortley phase:
`sqrt((2l+1)/(4 pi)) sqrt((l-m)!/(l+m)!) (1-x^2)^(m/2) d^m/dx^m P_l(x)`, and 0 for `m > l`. -/
noncomputable def assocLegendre (l m : ℕ) (x : ℝ) : ℝ :=
  if m ≤ l then legendreNorm l m * Real.sqrt (1 - x ^ 2) ^ m * (legendreDeriv l m).eval x else 0

/-- The associated Legendre function as a function of colatitude, `sin(th)^m` in place of `(1-x^2)^(m/2)`. It agrees with
`assocLegendre l m (cos th)` on `[0, pi]` and is smooth. -/
noncomputable def legendreTheta (l m : ℕ) (th : ℝ) : ℝ :=
  if m ≤ l then legendreNorm l m * Real.sin th ^ m * (legendreDeriv l m).eval (Real.cos th) else 0

/-- `m P(th) / sin(th)`, continued to the poles: the factor `sin(th)^m` of `legendreTheta` loses one power. -/
noncomputable def legendreOverSin (l m : ℕ) (th : ℝ) : ℝ :=
  if m ≤ l then m * (legendreNorm l m * Real.sin th ^ (m - 1) * (legendreDeriv l m).eval (Real.cos th)) else 0

/-- Factor by which the forward tables of each normalisation differ from the orthonormal ones; inverse tables differ by its
reciprocal. `ortho`: 1, `schmidt`: `sqrt(4 pi / (2l+1))`, everything else (`four-pi`): `sqrt(4 pi)`. -/
noncomputable def normScale (norm : String) (l : ℕ) : ℝ :=
  if norm = "ortho" then 1
  else if norm = "schmidt" then Real.sqrt (4 * Real.pi / (2 * (l : ℝ) + 1))
  else Real.sqrt (4 * Real.pi)

/-- Scale for a forward or inverse table. -/
noncomputable def tableScale (norm : String) (inverse : Bool) (l : ℕ) : ℝ :=
  if inverse then (normScale norm l)⁻¹ else normScale norm l

/-- Condon-Shortley phase `(-1)^m`, when switched on. -/
def csSign (csphase : Bool) (m : ℕ) : ℝ := if csphase then (-1) ^ m else 1

end Verif.Spec
