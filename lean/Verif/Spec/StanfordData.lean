import Mathlib.Algebra.BigOperators.Group.Finset.Basic
import Mathlib.Analysis.Real.Sqrt
/-!
Statistics of a set of pictures on the sphere: every picture counts the same, a pixel counts as its share of the area.
-/
namespace Verif.Stanford
open Finset

/-- The mean over `n` pictures `x i` with area weights `q`. -/
noncomputable def pooledMean (n H W : ℕ) (q : ℕ → ℕ → ℝ) (x : ℕ → ℕ → ℕ → ℝ) : ℝ :=
  (∑ i ∈ range n, ∑ k ∈ range H, ∑ j ∈ range W, q k j * x i k j) / n

/-- The variance over `n` pictures. -/
noncomputable def pooledVar (n H W : ℕ) (q : ℕ → ℕ → ℝ) (x : ℕ → ℕ → ℕ → ℝ) : ℝ :=
  (∑ i ∈ range n, ∑ k ∈ range H, ∑ j ∈ range W, q k j * (x i k j - pooledMean n H W q x) ^ 2) / n

open Classical in
/-- The average of `f` over the pixels of a picture `t` that are not 0. -/
noncomputable def validAverage (H W : ℕ) (q t f : ℕ → ℕ → ℝ) : ℝ :=
  (∑ k ∈ range H, ∑ j ∈ range W, if t k j = 0 then 0 else q k j * f k j) / ∑ k ∈ range H, ∑ j ∈ range W, if t k j = 0 then 0 else q k j

end Verif.Stanford
