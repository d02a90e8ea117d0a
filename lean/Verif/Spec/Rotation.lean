import Verif.Spec.SHT
import Verif.Spec.Quadrature
import Mathlib.LinearAlgebra.Matrix.Notation
import Mathlib.Data.Matrix.Mul
/-!
Specification vocabulary: fields on the sphere as functions of unit vectors, and their rotations.
-/
namespace Verif.Spec
open Finset

/-- The point of the unit sphere with colatitude `th` and longitude `ph`. -/
noncomputable def spherePoint (th ph : ℝ) : Fin 3 → ℝ := ![Real.sin th * Real.cos ph, Real.sin th * Real.sin ph, Real.cos th]

/-- The grid point in latitude row `k` and longitude column `j` of the `nlat x nlon` grid whose latitudes are the nodes of `r` (from north to south)
and whose longitudes are equispaced. -/
noncomputable def gridPoint (r : Quad.Rule) (nlat nlon k j : ℕ) : Fin 3 → ℝ :=
  spherePoint (Real.arccos (r.x (nlat - 1 - k))) (2 * Real.pi * j / nlon)

/-- Rotations and reflections of space. -/
def Orthogonal (R : Matrix (Fin 3) (Fin 3) ℝ) : Prop := R.transpose * R = 1

/-- The field `F`, seen through `R`: its value at `p` is the value of `F` at `R p`. -/
def rotated (R : Matrix (Fin 3) (Fin 3) ℝ) (F : (Fin 3 → ℝ) → ℝ) (p : Fin 3 → ℝ) : ℝ := F (R.mulVec p)

/-- A field on the sphere that is a combination of spherical harmonics of degree below `L`, with the coefficients `a` of the cosines and `b` of the
sines. -/
def IsSeries (L : ℕ) (a b : ℕ → ℕ → ℝ) (F : (Fin 3 → ℝ) → ℝ) : Prop :=
  ∀ th ph, F (spherePoint th ph) = ∑ l ∈ range L, ∑ m ∈ range (l + 1), legendreTheta l m th * (a l m * Real.cos (m * ph) + b l m * Real.sin (m * ph))

/-- A field of degree below `L`. -/
def BandLimited (L : ℕ) (F : (Fin 3 → ℝ) → ℝ) : Prop := ∃ a b, IsSeries L a b F

/-- The energy in degree `l` of the coefficients of a real field (the orders `m > 0` stand for `m` and `-m`). -/
noncomputable def degreePower (l : ℕ) (c : ℕ → ℕ → ℂ) : ℝ := ‖c l 0‖ ^ 2 + 2 * ∑ m ∈ range l, ‖c l (m + 1)‖ ^ 2

/-- The energy of degree `l` in terms of the coefficients of cosines and sines. -/
noncomputable def seriesPower (l : ℕ) (a b : ℕ → ℕ → ℝ) : ℝ := a l 0 ^ 2 + (∑ m ∈ range l, (a l (m + 1) ^ 2 + b l (m + 1) ^ 2)) / 2

end Verif.Spec
