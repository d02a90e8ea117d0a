import Mathlib.Analysis.SpecialFunctions.Trigonometric.Inverse
/-!
Independent specification of points, rotations and great-circle distances on the unit sphere.
-/
namespace Verif.Spec

/-- The point of the unit sphere with colatitude `th` and longitude `ph`. -/
noncomputable def point (th ph : ℝ) : ℝ × ℝ × ℝ := (Real.sin th * Real.cos ph, Real.sin th * Real.sin ph, Real.cos th)

/-- Euclidean inner product. -/
def dot3 (u v : ℝ × ℝ × ℝ) : ℝ := u.1 * v.1 + u.2.1 * v.2.1 + u.2.2 * v.2.2

/-- The great-circle distance of two unit vectors. -/
noncomputable def geodesic (u v : ℝ × ℝ × ℝ) : ℝ := Real.arccos (dot3 u v)

/-- The rotation about the y-axis that takes `point a 0` to the north pole. -/
noncomputable def toPole (a : ℝ) (v : ℝ × ℝ × ℝ) : ℝ × ℝ × ℝ :=
  (Real.cos a * v.1 - Real.sin a * v.2.2, v.2.1, Real.sin a * v.1 + Real.cos a * v.2.2)

end Verif.Spec
