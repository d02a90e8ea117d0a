import Verif.Model.Collectives
import Mathlib.Data.Real.Basic
/-!
Areas of sets of grid points, for the metrics.
-/
namespace Verif.Spec.Metric
open Verif.Dist Finset

/-- The area of the set of the grid points that satisfy `P`, for area weights `q`. -/
noncomputable def area (q : Mat ℝ) (P : ℕ → ℕ → Prop) : ℝ :=
  open Classical in ∑ i ∈ range q.d0, ∑ j ∈ range q.d1, if P i j then q.val i j else 0

end Verif.Spec.Metric
