import Mathlib.Analysis.SpecialFunctions.Integrals.Basic
import Mathlib.Algebra.Polynomial.BigOperators
import Verif.Props.Lobatto
/-!
Property theorems C06, continued: positivity of the weights of every grid.
-/
namespace Verif.Props
open Verif Verif.Quad Verif.Spec Finset Polynomial

/-- C06. The weights of a Gauss rule are positive, because it integrates the squares of polynomials of degree `n-1` exactly. -/
theorem C06_gauss_pos (r : Rule) (n : ℕ) (hg : IsGaussRule r n) (i : ℕ) (hi : i < n) : 0 < r.w i := by
  let L : ℝ[X] := ∏ j ∈ (range n).erase i, (X - C (r.x j))
  have hdeg : (L ^ 2).natDegree ≤ 2 * n - 1 := by
    have h1 : L.natDegree = n - 1 := by
      show (∏ j ∈ (range n).erase i, (X - C (r.x j))).natDegree = n - 1
      rw [natDegree_finsetProd_X_sub_C_eq_card, card_erase_of_mem (mem_range.2 hi), card_range]
    refine natDegree_pow_le.trans ?_
    omega
  have hroot : ∀ j < n, j ≠ i → (L ^ 2).eval (r.x j) = 0 := by
    intro j hj hji
    rw [eval_pow, eval_prod, prod_eq_zero (mem_erase.2 ⟨hji, mem_range.2 hj⟩) (by simp), zero_pow two_ne_zero]
  have hne : ∀ j < n, j ≠ i → r.x i - r.x j ≠ 0 := by
    intro j hj hji
    rcases lt_or_gt_of_ne hji with h | h
    · exact (sub_pos.2 (hg.increasing j i h hi)).ne'
    · exact (sub_neg.2 (hg.increasing i j h hj)).ne
  have hLi : 0 < (L ^ 2).eval (r.x i) := by
    rw [eval_pow, eval_prod]
    have : ∏ j ∈ (range n).erase i, eval (r.x i) (X - C (r.x j)) ≠ 0 := by
      rw [prod_ne_zero_iff]
      intro j hj
      rw [mem_erase, mem_range] at hj
      simpa using hne j hj.2 hj.1
    positivity
  have hex := hg.exact (L ^ 2) hdeg
  rw [hg.size, sum_eq_single i (fun j hj hji => by rw [hroot j (mem_range.1 hj) hji, mul_zero])
    (fun h => absurd (mem_range.2 hi) h)] at hex
  have hpos : 0 < ∫ t in (-1 : ℝ)..1, (L ^ 2).eval t := by
    refine intervalIntegral.integral_pos (by norm_num) ((L ^ 2).continuous.continuousOn) (fun t _ => ?_)
      ⟨r.x i, ⟨(hg.inside i hi).1.le, (hg.inside i hi).2.le⟩, hLi⟩
    rw [eval_pow]; positivity
  rw [← hex] at hpos
  exact (pos_iff_pos_of_mul_pos hpos).2 hLi

/-- C06. Trapezoidal weights are positive. -/
theorem C06_trapezoidal_pos (n : ℕ) (a b : ℝ) (hab : a < b) (p : Bool) (r : Rule) (hr : trapezoidalWeights n a b p = .ok r) (i : ℕ) :
    0 < r.w i := by
  have hba : 0 < b - a := by linarith
  unfold trapezoidalWeights at hr
  split at hr
  · split at hr
    · cases hr
    · next h0 =>
      cases hr
      have : (0 : ℝ) < n := by exact_mod_cast Nat.pos_of_ne_zero h0
      show 0 < (b - a) / ((n : ℝ) - 1 + 1) * 1
      rw [sub_add_cancel, mul_one]
      exact div_pos hba this
  · split at hr
    · cases hr
    · split at hr
      · cases hr
      · next h1 h0 =>
        cases hr
        have hn : (2 : ℝ) ≤ n := by exact_mod_cast (by omega : 2 ≤ n)
        have : 0 < (b - a) / ((n : ℝ) - 1) * 1 := by
          rw [mul_one]; exact div_pos hba (by linarith)
        dsimp only
        split <;> split <;> linarith

/-- C06. Lobatto weights are non-negative however many iterations run, and the two end weights are positive. -/
theorem C06_lobatto_nonneg (n : ℕ) (a b tol : ℝ) (hab : a < b) (maxiter : ℕ) (r : Rule)
    (hr : lobattoWeights n a b tol maxiter = .ok r) : (∀ i < n, 0 ≤ r.w i) ∧ 0 < r.w 0 ∧ 0 < r.w (n - 1) := by
  have hba : 0 < b - a := by linarith
  have hn : 2 ≤ n := by
    by_contra h
    obtain ⟨e, he⟩ := (C07_error_iff n a b tol maxiter).2 (by omega)
    rw [hr] at he; cases he
  have hn' : (2 : ℝ) ≤ n := by exact_mod_cast hn
  obtain ⟨-, -, -, h1, h2⟩ := C07_endpoints n a b tol maxiter r hr
  refine ⟨fun i _ => ?_, ?_, ?_⟩
  · rw [lobatto_ok n hn] at hr
    cases hr
    simp only [rescale]
    have : (0 : ℝ) ≤ n - 1 := by linarith
    positivity
  · rw [h1]; exact div_pos hba (by nlinarith)
  · rw [h2]; exact div_pos hba (by nlinarith)

/-- C06. On every grid that `precompute_latitudes` accepts the weights are non-negative with a positive sum; they are strictly positive
except possibly at inner nodes of an unconverged Lobatto iteration. -/
theorem C06_latitude_weights (gauss : ℕ → Rule) (tol : ℝ) (maxiter nlat : ℕ) (grid : String) (r : Rule)
    (hg : grid = "legendre-gauss" → IsGaussRule (gauss nlat) nlat)
    (hr : precomputeLatitudes gauss tol maxiter nlat grid = .ok r) :
    r.n = nlat ∧ (∀ k < r.n, 0 ≤ r.w k) ∧ 0 < ∑ k ∈ range r.n, r.w k ∧ (grid ≠ "lobatto" → ∀ k < r.n, 0 < r.w k) := by
  have key : ∀ r' : Rule, precomputeQuadratureWeights gauss tol maxiter nlat grid (-1) 1 false = .ok r' →
      r'.n = nlat ∧ 0 < r'.n ∧ (∀ k < r'.n, 0 ≤ r'.w k) ∧ 0 < r'.w 0 ∧ (grid ≠ "lobatto" → ∀ k < r'.n, 0 < r'.w k) := by
    intro r' h
    have lift : r'.n = nlat → 0 < nlat → (∀ k < nlat, 0 < r'.w k) →
        r'.n = nlat ∧ 0 < r'.n ∧ (∀ k < r'.n, 0 ≤ r'.w k) ∧ 0 < r'.w 0 ∧ (grid ≠ "lobatto" → ∀ k < r'.n, 0 < r'.w k) :=
      fun e h0 hp => ⟨e, by omega, fun k hk => (hp k (by omega)).le, hp 0 h0, fun _ k hk => hp k (by omega)⟩
    unfold precomputeQuadratureWeights at h
    rw [if_neg (by simp)] at h
    split at h
    · have h' := C06_trapezoidal_pos nlat (-1) 1 (by norm_num) false r' h
      have hne : ¬ nlat = 0 := by
        rintro rfl; simp [trapezoidalWeights] at h
      refine lift ?_ (by omega) fun k _ => h' k
      unfold trapezoidalWeights at h
      simp only [Bool.false_eq_true, if_false] at h
      split at h
      · cases h
      · cases h; rfl
    · split at h
      · next hgr =>
        unfold legendreGaussWeights at h
        split at h
        · cases h
        · cases h
          have hp := C06_gauss_pos _ _ (hg hgr)
          refine lift (hg hgr).size (by omega) fun k hk => ?_
          simp only [rescale]
          have := hp k hk
          linarith
      · split at h
        · next hl =>
          obtain ⟨h1, -⟩ := C07_endpoints nlat (-1) 1 tol maxiter r' h
          obtain ⟨h2, h3, -⟩ := C06_lobatto_nonneg nlat (-1) 1 tol (by norm_num) maxiter r' h
          have hne : ¬ nlat = 0 := by
            rintro rfl; simp [lobattoWeights] at h
          exact ⟨h1, by omega, fun k hk => h2 k (by omega), h3, fun hh => absurd hl hh⟩
        · split at h
          · have h' := C06_clenshaw_curtis_pos nlat (-1) 1 (by norm_num) r' h
            unfold clenshawCurtissWeights at h
            split at h
            · cases h
            · cases h
              exact lift rfl (by omega) h'
          · cases h
  unfold precomputeLatitudes at hr
  cases hq : precomputeQuadratureWeights gauss tol maxiter nlat grid (-1) 1 false with
  | error e => rw [hq] at hr; cases hr
  | ok r' =>
    rw [hq] at hr
    obtain ⟨h1, h2, h3, h4, h5⟩ := key r' hq
    cases hr
    refine ⟨h1, fun k hk => h3 _ (by dsimp only at hk; omega), ?_, fun hh k hk => h5 hh _ (by dsimp only at hk; omega)⟩
    dsimp only
    refine sum_pos' (fun k hk => h3 _ (by rw [mem_range] at hk; omega)) ⟨r'.n - 1, mem_range.2 (by omega), ?_⟩
    rw [Nat.sub_self]; exact h4

/-- The sizes that the grids accept. -/
example (gauss : ℕ → Rule) (tol : ℝ) : ∃ r, precomputeLatitudes gauss tol 100 5 "lobatto" = .ok r := by
  simp [precomputeLatitudes, precomputeQuadratureWeights, lobattoWeights, bind, Except.bind, pure, Except.pure]
example : IsGaussRule ⟨1, fun _ => 0, fun _ => 2⟩ 1 := gaussRule_one

end Verif.Props
