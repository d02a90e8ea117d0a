import Verif.Model.Flt
/-! Lemmas on sums and means of floating-point numbers that are all finite. -/
namespace Verif.Flt
open Finset

theorem sum_succ (n : ℕ) (f : ℕ → Flt) : sum (n + 1) f = add (sum n f) (f n) := by
  simp [sum, List.range_succ, List.foldl_append]

theorem sum_num (n : ℕ) (f : ℕ → ℝ) : sum n (fun i => num (f i)) = num (∑ i ∈ range n, f i) := by
  induction n with
  | zero => simp [sum]
  | succ n ih => rw [sum_succ, ih, add, sum_range_succ]

theorem sum_congr (n : ℕ) (f g : ℕ → Flt) (h : ∀ i < n, f i = g i) : sum n f = sum n g := by
  induction n with
  | zero => simp [sum]
  | succ n ih => rw [sum_succ, sum_succ, ih (fun i hi => h i (by omega)), h n (by omega)]

theorem div_num (x y : ℝ) (hy : y ≠ 0) : div x y = num (x / y) := by simp [div, hy]

theorem mean_num (n : ℕ) (hn : 0 < n) (f : ℕ → Flt) (g : ℕ → ℝ) (h : ∀ i < n, f i = num (g i)) :
    mean n f = num ((∑ i ∈ range n, g i) / n) := by
  unfold mean
  rw [sum_congr n f _ h, sum_num]
  exact div_num _ _ (by positivity)

/-- A mean over nothing is NaN. -/
theorem mean_zero (f : ℕ → Flt) : mean 0 f = nan := by simp [mean, sum, divNat, div, infOf]

end Verif.Flt
