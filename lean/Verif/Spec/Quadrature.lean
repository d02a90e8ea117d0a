import Mathlib.Analysis.SpecialFunctions.Integrals.Basic
import Mathlib.Topology.Algebra.Polynomial
import Verif.Model.Quadrature
/-!
Independent specification of quadrature rules.
-/
namespace Verif.Spec
open Verif.Quad Finset Polynomial

/-- The rule integrates every polynomial of degree at most `d` exactly over `[a,b]`. -/
def ExactToDegree (r : Rule) (a b : ℝ) (d : ℕ) : Prop :=
  ∀ p : ℝ[X], p.natDegree ≤ d → ∑ i ∈ range r.n, r.w i * p.eval (r.x i) = ∫ t in a..b, p.eval t

/-- What is assumed about `np.polynomial.legendre.leggauss(n)`: `n` increasing nodes in `(-1,1)`, mirror-symmetric
(numpy symmetrises explicitly), exact to degree `2n-1` on `[-1,1]`. -/
structure IsGaussRule (r : Rule) (n : ℕ) : Prop where
  size : r.n = n
  inside : ∀ i < n, -1 < r.x i ∧ r.x i < 1
  increasing : ∀ i j, i < j → j < n → r.x i < r.x j
  symm_x : ∀ i < n, r.x (n - 1 - i) = -r.x i
  symm_w : ∀ i < n, r.w (n - 1 - i) = r.w i
  exact : ExactToDegree r (-1) 1 (2 * n - 1)

/-- A mirror-symmetric rule with `n` nodes in `[-1,1]` that is exact to degree `d`. Every latitude rule of the library except
the trapezoidal one is of this kind (`equiangular`: `d = n-1`; `legendre-gauss`: `d = 2n-1`; `lobatto`: `d = 2n-3`). -/
structure SymmetricExactRule (r : Rule) (n d : ℕ) : Prop where
  size : r.n = n
  inside : ∀ i < n, -1 ≤ r.x i ∧ r.x i ≤ 1
  symm_x : ∀ i < n, r.x (n - 1 - i) = -r.x i
  symm_w : ∀ i < n, r.w (n - 1 - i) = r.w i
  exact : ExactToDegree r (-1) 1 d

/-- A band-limited scalar field on the sphere: colatitude `th`, longitude `ph`, zonal wavenumbers below `M`. Every finite
combination of spherical harmonics of degree at most `d` has this form, with `natDegree (p m) + m <= d`. -/
noncomputable def trigField (M : ℕ) (p q : ℕ → ℝ[X]) (th ph : ℝ) : ℝ :=
  ∑ m ∈ range M, Real.sin th ^ m * ((p m).eval (Real.cos th) * Real.cos (m * ph) + (q m).eval (Real.cos th) * Real.sin (m * ph))

/-- The surface integral over the unit sphere. -/
noncomputable def surfaceIntegral (F : ℝ → ℝ → ℝ) : ℝ :=
  ∫ th in (0 : ℝ)..Real.pi, (∫ ph in (0 : ℝ)..(2 * Real.pi), F th ph) * Real.sin th

end Verif.Spec
