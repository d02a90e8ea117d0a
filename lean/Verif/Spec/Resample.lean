import Mathlib.Analysis.SpecialFunctions.Trigonometric.Basic
/-!
Independent specification of bilinear interpolation on a latitude-longitude grid.
-/
namespace Verif.Spec
open Finset

/-- A latitude grid: colatitudes in `[0, pi]`, increasing, mirror-symmetric about the equator. -/
structure LatGrid (n : ℕ) (lats : ℕ → ℝ) : Prop where
  range : ∀ k < n, 0 ≤ lats k ∧ lats k ≤ Real.pi
  increasing : ∀ i j, i < j → j < n → lats i < lats j
  symm : ∀ k < n, lats (n - 1 - k) = Real.pi - lats k

/-- Some requested latitude lies beyond the first or last latitude of the input grid. -/
def BeyondGrid (nIn : ℕ) (latsIn : ℕ → ℝ) (nOut : ℕ) (latsOut : ℕ → ℝ) : Prop :=
  ∃ i < nOut, latsOut i < latsIn 0 ∨ latsIn (nIn - 1) < latsOut i

/-- `lats`, `X` are the rows between which one interpolates: the rows of the field, or, if a requested latitude lies beyond the grid, these and two
rows at the poles that hold the mean of the row next to them. -/
structure Rows (nIn nlon : ℕ) (latsIn : ℕ → ℝ) (x : ℕ → ℕ → ℝ) (beyond : Prop) (N : ℕ) (lats : ℕ → ℝ) (X : ℕ → ℕ → ℝ) : Prop where
  same : ¬ beyond → N = nIn ∧ (∀ k < nIn, lats k = latsIn k) ∧ ∀ k < nIn, ∀ j, X k j = x k j
  count : beyond → N = nIn + 2
  inner : beyond → (∀ k < nIn, lats (k + 1) = latsIn k) ∧ ∀ k < nIn, ∀ j, X (k + 1) j = x k j
  poles : beyond → lats 0 = 0 ∧ lats (nIn + 1) = Real.pi ∧ (∀ j, X 0 j = (∑ j' ∈ range nlon, x 0 j') / nlon) ∧
    ∀ j, X (nIn + 1) j = (∑ j' ∈ range nlon, x (nIn - 1) j') / nlon

/-- `y` is the bilinear interpolant of the rows `X` at colatitude `th`, longitude `ph`: `th` lies between rows `i`, `i+1`, `ph` between
columns `j`, `j+1` (periodically). -/
def BilinearAt (N nlon : ℕ) (lats : ℕ → ℝ) (X : ℕ → ℕ → ℝ) (th ph y : ℝ) : Prop :=
  ∃ i j s t, i + 1 < N ∧ j < nlon ∧ lats i ≤ th ∧ th ≤ lats (i + 1) ∧ 2 * Real.pi * j / nlon ≤ ph ∧ ph < 2 * Real.pi * (j + 1) / nlon ∧
    th = (1 - s) * lats i + s * lats (i + 1) ∧ ph = 2 * Real.pi * (j + t) / nlon ∧ 0 ≤ s ∧ s ≤ 1 ∧ 0 ≤ t ∧ t < 1 ∧
    y = (1 - t) * ((1 - s) * X i j + s * X (i + 1) j) + t * ((1 - s) * X i ((j + 1) % nlon) + s * X (i + 1) ((j + 1) % nlon))

end Verif.Spec
