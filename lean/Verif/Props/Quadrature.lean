import Mathlib.Analysis.SpecialFunctions.Integrals.Basic
import Verif.Lemmas.CCExact
/-!
Property theorems C03-C06: quadrature rules on an interval and the latitude/longitude grids.
-/
namespace Verif.Props
open Verif Verif.Quad Verif.Spec Finset Polynomial

/-! ## C03 -/

/-- C03. The Clenshaw-Curtis rule is exact for all polynomials of degree at most `n-1`, on every interval. -/
theorem C03_clenshaw_curtis_exact (n : ℕ) (hn : 2 ≤ n) (a b : ℝ) :
    ∃ r, clenshawCurtissWeights n a b = .ok r ∧ r.n = n ∧ ExactToDegree r a b (n - 1) := by
  refine ⟨rescale (ccRule n) a b, ?_, rfl, exact_rescale (ccRule_exact n hn) a b⟩
  rw [clenshawCurtissWeights, if_neg (by omega)]; rfl

/-- C03. The nodes lie in the interval, equispaced in angle. -/
theorem C03_clenshaw_curtis_nodes (n : ℕ) (hn : 2 ≤ n) (a b : ℝ) (hab : a ≤ b) (r : Rule)
    (hr : clenshawCurtissWeights n a b = .ok r) (i : ℕ) (hi : i < n) :
    r.x i = (a + b) / 2 - (b - a) / 2 * Real.cos (Real.pi * i / ((n : ℝ) - 1)) ∧ a ≤ r.x i ∧ r.x i ≤ b := by
  rw [clenshawCurtissWeights, if_neg (by omega)] at hr
  have h1 : ((n - 1 : ℕ) : ℝ) = (n : ℝ) - 1 := by rw [Nat.cast_sub (by omega)]; simp
  have hx : r.x i = (a + b) / 2 - (b - a) / 2 * Real.cos (Real.pi * i / ((n : ℝ) - 1)) := by
    have := ccRule_node n i hi hn
    rw [h1] at this
    cases hr
    show (b - a) * (1 / 2) * (ccRule n).x i + (b + a) * (1 / 2) = _
    rw [this]; ring
  have hc1 := Real.cos_le_one (Real.pi * i / ((n : ℝ) - 1))
  have hc2 := Real.neg_one_le_cos (Real.pi * i / ((n : ℝ) - 1))
  refine ⟨hx, ?_, ?_⟩ <;> rw [hx] <;> nlinarith

/-- C03 (error branch). -/
theorem C03_clenshaw_curtis_error_iff (n : ℕ) (a b : ℝ) :
    (∃ e, clenshawCurtissWeights n a b = .error e) ↔ n ≤ 1 := by
  unfold clenshawCurtissWeights
  by_cases h : n ≤ 1 <;> simp [h]

/-- Non-vacuity: Simpson's rule, `n = 3`, integrates `t^2` over `[0, 2]` to `8/3`. -/
example : ∃ r, clenshawCurtissWeights 3 0 2 = .ok r ∧ ∑ i ∈ range 3, r.w i * (r.x i) ^ 2 = 8 / 3 := by
  obtain ⟨r, h1, h2, h3⟩ := C03_clenshaw_curtis_exact 3 (by norm_num) 0 2
  refine ⟨r, h1, ?_⟩
  have := h3 (X ^ 2) (by simp)
  rw [h2] at this
  simp only [eval_pow, eval_X, integral_pow] at this
  rw [this]; norm_num

/-! ## C04 -/

theorem integral_affine (a b c d : ℝ) : ∫ t in a..b, (c + d * t) = c * (b - a) + d * (b ^ 2 - a ^ 2) / 2 := by
  have h : IntervalIntegrable (fun t : ℝ => d * t) MeasureTheory.volume a b :=
    (continuous_const.mul continuous_id).intervalIntegrable _ _
  have h0 : IntervalIntegrable (fun _ : ℝ => c) MeasureTheory.volume a b := continuous_const.intervalIntegrable _ _
  rw [intervalIntegral.integral_add h0 h, intervalIntegral.integral_const, intervalIntegral.integral_const_mul,
    integral_id, smul_eq_mul]
  ring

/-- C04. Weights of a rule that is exact for constants sum to the length of the interval. -/
theorem C04_weights_sum_of_exact (r : Rule) (a b : ℝ) (d : ℕ) (h : ExactToDegree r a b d) :
    ∑ i ∈ range r.n, r.w i = b - a := by
  have := h 1 (by simp)
  simpa using this

/-- C04. Clenshaw-Curtis weights sum to `b - a`. -/
theorem C04_clenshaw_curtis_sum (n : ℕ) (a b : ℝ) (r : Rule) (hr : clenshawCurtissWeights n a b = .ok r) :
    ∑ i ∈ range r.n, r.w i = b - a := by
  have hn : 2 ≤ n := by
    by_contra h
    rw [clenshawCurtissWeights, if_pos (by omega)] at hr; cases hr
  obtain ⟨r', h1, -, h3⟩ := C03_clenshaw_curtis_exact n hn a b
  rw [hr] at h1; cases h1
  exact C04_weights_sum_of_exact r a b _ h3

/-- C04. Gauss-Legendre weights sum to `b - a`, and the rule keeps its exactness on every interval. -/
theorem C04_legendre_gauss_sum (gauss : ℕ → Rule) (n : ℕ) (hg : IsGaussRule (gauss n) n) (a b : ℝ) (r : Rule)
    (hr : legendreGaussWeights gauss n a b = .ok r) :
    ExactToDegree r a b (2 * n - 1) ∧ ∑ i ∈ range r.n, r.w i = b - a := by
  unfold legendreGaussWeights at hr
  split at hr
  · cases hr
  · cases hr
    have := exact_rescale hg.exact a b
    exact ⟨this, C04_weights_sum_of_exact _ a b _ this⟩

/-- C04. Closed trapezoidal rule: weights sum to `b - a` and affine functions are integrated exactly. -/
theorem C04_trapezoidal_affine (n : ℕ) (a b c d : ℝ) (r : Rule) (hr : trapezoidalWeights n a b false = .ok r) :
    ∑ i ∈ range r.n, r.w i = b - a ∧
      ∑ i ∈ range r.n, r.w i * (c + d * r.x i) = ∫ t in a..b, (c + d * t) := by
  unfold trapezoidalWeights at hr
  simp only [Bool.false_eq_true, if_false] at hr
  split at hr
  · cases hr
  · split at hr
    · cases hr
    · next h1 h0 =>
      obtain ⟨N, rfl⟩ : ∃ N, n = N + 2 := ⟨n - 2, by omega⟩
      cases hr
      have hN : ((N : ℝ) + 1) ≠ 0 := by positivity
      have hN2 : (((N + 2 : ℕ) : ℝ) - 1) = N + 1 := by push_cast; ring
      simp only [hN2, linspace, mul_one]
      -- Gauss sum
      have g : ∀ K : ℕ, ∑ i ∈ range K, (i : ℝ) = K * (K - 1) / 2 := by
        intro K
        induction K with
        | zero => simp
        | succ K ih => rw [sum_range_succ, ih]; push_cast; ring
      have key : ∀ f : ℕ → ℝ, ∑ i ∈ range (N + 2), (if i = N + 2 - 1 then
            (if i = 0 then (b - a) / ((N : ℝ) + 1) * (1 / 2) else (b - a) / ((N : ℝ) + 1)) * (1 / 2) else
            (if i = 0 then (b - a) / ((N : ℝ) + 1) * (1 / 2) else (b - a) / ((N : ℝ) + 1))) * f i
          = (b - a) / ((N : ℝ) + 1) * (∑ i ∈ range (N + 2), f i - f 0 / 2 - f (N + 1) / 2) := by
        intro f
        rw [sum_range_succ, sum_range_succ']
        have e : ∀ i ∈ range N, (if i + 1 = N + 2 - 1 then
            (if i + 1 = 0 then (b - a) / ((N : ℝ) + 1) * (1 / 2) else (b - a) / ((N : ℝ) + 1)) * (1 / 2) else
            (if i + 1 = 0 then (b - a) / ((N : ℝ) + 1) * (1 / 2) else (b - a) / ((N : ℝ) + 1))) * f (i + 1)
            = (b - a) / ((N : ℝ) + 1) * f (i + 1) := by
          intro i hi
          have := mem_range.1 hi
          rw [if_neg (by omega), if_neg (by omega)]
        rw [sum_congr rfl e, ← mul_sum, if_neg (by omega : ¬ (0 = N + 2 - 1)), if_pos rfl,
          if_pos (by omega : N + 1 = N + 2 - 1), if_neg (by omega : ¬ (N + 1 = 0))]
        rw [sum_range_succ _ (N + 1), sum_range_succ']
        ring
      refine ⟨?_, ?_⟩
      · have := key (fun _ => 1)
        simp only [mul_one] at this
        rw [this]
        simp only [sum_const, card_range, nsmul_eq_mul]
        push_cast; field_simp; ring
      · rw [key (fun i => c + d * (a + (b - a) * i / ((N : ℝ) + 1)))]
        rw [integral_affine]
        have e : ∑ i ∈ range (N + 2), (c + d * (a + (b - a) * (i : ℝ) / ((N : ℝ) + 1)))
            = (N + 2) * (c + d * a) + d * (b - a) / ((N : ℝ) + 1) * ∑ i ∈ range (N + 2), (i : ℝ) := by
          rw [mul_sum, ← sum_const_mul_aux, ← sum_add_distrib]
          refine sum_congr rfl fun i _ => ?_
          ring
        rw [e, g]
        push_cast; field_simp; ring
where
  sum_const_mul_aux {N : ℕ} {c : ℝ} : ∑ _i ∈ range (N + 2), c = ((N : ℝ) + 2) * c := by
    simp [sum_const, nsmul_eq_mul]

/-- C04. Periodic trapezoidal rule: weights sum to `b - a`. -/
theorem C04_trapezoidal_periodic (n : ℕ) (a b : ℝ) (r : Rule) (hr : trapezoidalWeights n a b true = .ok r) :
    ∑ i ∈ range r.n, r.w i = b - a := by
  unfold trapezoidalWeights at hr
  simp only [if_true] at hr
  split at hr
  · cases hr
  · next h =>
    cases hr
    have : (n : ℝ) ≠ 0 := by exact_mod_cast h
    simp only [sum_const, card_range, nsmul_eq_mul, mul_one, sub_add_cancel]
    field_simp

/-- C04. Periodic trapezoidal rule: the `n` nodes start at `a` and are `(b - a) / n` apart, and the rule integrates every
exponential of period `b - a` and frequency below `n` exactly. -/
theorem C04_trapezoidal_periodic_exact (n : ℕ) (a b : ℝ) (hab : a ≠ b) (r : Rule)
    (hr : trapezoidalWeights n a b true = .ok r) :
    r.n = n ∧ r.x 0 = a ∧ (∀ i, r.x (i + 1) - r.x i = (b - a) / n) ∧
      ∀ k : ℤ, |k| < n → ∑ i ∈ range n, (r.w i : ℂ) * Complex.exp (2 * Real.pi * Complex.I * k * ((r.x i - a) / (b - a)))
        = ∫ t in a..b, Complex.exp (2 * Real.pi * Complex.I * k * ((t - a) / (b - a))) := by
  unfold trapezoidalWeights at hr
  simp only [if_true] at hr
  split at hr
  · cases hr
  next h =>
  cases hr
  have hn : (n : ℝ) ≠ 0 := by exact_mod_cast h
  have hnc : (n : ℂ) ≠ 0 := by exact_mod_cast h
  have hba : (b : ℂ) - a ≠ 0 := by
    rw [← Complex.ofReal_sub]; exact_mod_cast sub_ne_zero.2 hab.symm
  refine ⟨rfl, by simp [linspaceOpen], fun i => by simp only [linspaceOpen]; push_cast; field_simp; ring, fun k hk => ?_⟩
  have e : ∀ i, ((((b - a) / ((n : ℝ) - 1 + 1) * 1 : ℝ)) : ℂ)
      * Complex.exp (2 * Real.pi * Complex.I * k * (((linspaceOpen a b n i : ℝ) - a) / (b - a)))
      = ((b : ℂ) - a) / n * FFT.root n (i * k) := by
    intro i
    have : (2 * Real.pi * Complex.I * k * (((linspaceOpen a b n i : ℝ) - a) / (b - a)) : ℂ)
        = 2 * Real.pi * Complex.I * k * i / n := by
      simp only [linspaceOpen]; push_cast; field_simp; ring
    rw [this]
    simp only [FFT.root]
    push_cast
    rw [sub_add_cancel, mul_one]
    congr 2
    ring
  simp only [e]
  rw [← mul_sum, FFT.root_sum h]
  by_cases hk0 : k = 0
  · subst hk0
    simp
    field_simp
  · rw [if_neg, mul_zero]
    · have hc : (2 * Real.pi * Complex.I * k / (b - a) : ℂ) ≠ 0 := by
        refine div_ne_zero (mul_ne_zero Complex.two_pi_I_ne_zero (by exact_mod_cast hk0)) hba
      have e2 : ∀ t : ℝ, Complex.exp (2 * Real.pi * Complex.I * k * ((t - a) / (b - a)))
          = Complex.exp (-(2 * Real.pi * Complex.I * k / (b - a)) * a)
            * Complex.exp ((2 * Real.pi * Complex.I * k / (b - a)) * t) := by
        intro t; rw [← Complex.exp_add]; congr 1; field_simp; ring
      simp only [e2]
      rw [intervalIntegral.integral_const_mul, integral_exp_mul_complex hc]
      have e3 : Complex.exp (2 * Real.pi * Complex.I * k / (b - a) * b)
          = Complex.exp (2 * Real.pi * Complex.I * k / (b - a) * a) := by
        rw [Complex.exp_eq_exp_iff_exists_int]
        exact ⟨k, by field_simp; ring⟩
      rw [e3, sub_self, zero_div, mul_zero]
    · intro hd
      exact hk0 (Int.eq_zero_of_abs_lt_dvd hd hk)

/-- Non-vacuity: four nodes on a full circle; the third is at `pi`. -/
example : ∃ r, trapezoidalWeights 4 0 (2 * Real.pi) true = .ok r ∧ r.x 2 = Real.pi := by
  refine ⟨_, by unfold trapezoidalWeights; rw [if_pos rfl, if_neg (by norm_num)], ?_⟩
  simp only [linspaceOpen]; push_cast; ring

/-- C04 (error branches of the trapezoidal rule). -/
theorem C04_trapezoidal_error_iff (n : ℕ) (a b : ℝ) (p : Bool) :
    (∃ e, trapezoidalWeights n a b p = .error e) ↔ n = 0 ∨ (n = 1 ∧ p = false) := by
  unfold trapezoidalWeights
  cases p
  · by_cases h1 : n = 1
    · simp [h1]
    · by_cases h0 : n = 0 <;> simp [h1, h0]
  · by_cases h0 : n = 0 <;> simp [h0]

/-- Non-vacuity: the one-point Gauss rule (midpoint, weight 2) meets the assumption on `leggauss`. -/
theorem gaussRule_one : IsGaussRule ⟨1, fun _ => 0, fun _ => 2⟩ 1 where
  size := rfl
  inside := by intro i _; norm_num
  increasing := by intro i j h1 h2; omega
  symm_x := by intro i _; simp
  symm_w := by intro i _; rfl
  exact := by
    intro p hp
    have : p = C (p.coeff 0) + C (p.coeff 1) * X := by
      ext k
      match k with
      | 0 => simp
      | 1 => simp
      | k + 2 =>
        rw [coeff_eq_zero_of_natDegree_lt (by omega)]
        simp
    rw [this]
    simp only [eval_add, eval_mul, eval_C, eval_X, sum_range_one]
    rw [integral_affine]; ring

/-! ## C06 -/

/-- C06. Clenshaw-Curtis weights are strictly positive. -/
theorem C06_clenshaw_curtis_pos (n : ℕ) (a b : ℝ) (hab : a < b) (r : Rule)
    (hr : clenshawCurtissWeights n a b = .ok r) (i : ℕ) (hi : i < n) : 0 < r.w i := by
  unfold clenshawCurtissWeights at hr
  split at hr
  · cases hr
  · next h =>
    cases hr
    show 0 < ccW n i * (b - a) * (1 / 2)
    have : 0 < ccW n i := by
      unfold ccW
      by_cases h2 : n = 2
      · simp [h2]
      · rw [if_neg h2]; dsimp only
        have hN : 2 ≤ n - 1 := by omega
        have hz : 0 < ifftReal (n - 1) (ccU (n - 1)) 0 := by
          rw [ccW_zero hN]; exact one_div_pos.2 (ccD_pos hN)
        split
        · next hi' =>
          rcases Nat.eq_zero_or_pos i with rfl | h0
          · exact hz
          · exact ccW_pos hN i h0 hi'
        · exact hz
    have : 0 < b - a := by linarith
    positivity

/-- C06. Clenshaw-Curtis weights and nodes are mirror-symmetric. -/
theorem C06_clenshaw_curtis_symm (n : ℕ) (a b : ℝ) (r : Rule)
    (hr : clenshawCurtissWeights n a b = .ok r) (i : ℕ) (hi : i < n) :
    r.w (n - 1 - i) = r.w i ∧ r.x (n - 1 - i) - a = b - r.x i := by
  unfold clenshawCurtissWeights at hr
  split at hr
  · cases hr
  · next h =>
    cases hr
    refine ⟨?_, ?_⟩
    · show ccW n (n - 1 - i) * (b - a) * (1 / 2) = ccW n i * (b - a) * (1 / 2)
      rw [ccW_symm n (by omega) i hi]
    · show (b - a) * (1 / 2) * (ccRule n).x (n - 1 - i) + (b + a) * (1 / 2) - a
        = b - ((b - a) * (1 / 2) * (ccRule n).x i + (b + a) * (1 / 2))
      rw [ccRule_node_symm n (by omega) i hi]; ring

/-! ## C05 -/

/-- C05. Longitudes are equispaced, strictly increasing, start at 0 and stay below `2 pi`. -/
theorem C05_longitudes (nlon j : ℕ) (hj : j < nlon) :
    precomputeLongitudes nlon j = 2 * Real.pi * j / nlon ∧ precomputeLongitudes nlon 0 = 0 ∧
      0 ≤ precomputeLongitudes nlon j ∧ precomputeLongitudes nlon j < 2 * Real.pi ∧
      ∀ i < j, precomputeLongitudes nlon i < precomputeLongitudes nlon j := by
  have hn : (0 : ℝ) < nlon := by exact_mod_cast (by omega : 0 < nlon)
  have hpi := Real.pi_pos
  have e : ∀ i, precomputeLongitudes nlon i = 2 * Real.pi * i / nlon := by
    intro i; unfold precomputeLongitudes linspace; push_cast
    rw [add_sub_cancel_right, zero_add, sub_zero]
  have hj' : (j : ℝ) < nlon := by exact_mod_cast hj
  refine ⟨e j, by rw [e]; simp, by rw [e]; positivity, ?_, ?_⟩
  · rw [e, div_lt_iff₀ hn]; nlinarith
  · intro i hi
    have hi' : (i : ℝ) < j := by exact_mod_cast hi
    rw [e, e]; apply div_lt_div_of_pos_right _ hn; nlinarith

/-- C05. From any rule with strictly increasing nodes in `[-1,1]`, the latitudes are strictly increasing colatitudes in
`[0, pi]` (north to south), each paired with the weight of the node it came from. -/
theorem C05_latitudes (gauss : ℕ → Rule) (tol : ℝ) (maxiter nlat : ℕ) (grid : String) (r : Rule)
    (hr : precomputeQuadratureWeights gauss tol maxiter nlat grid (-1) 1 false = .ok r)
    (hmono : ∀ i j, i < j → j < r.n → r.x i < r.x j) (hin : ∀ i < r.n, -1 ≤ r.x i ∧ r.x i ≤ 1) :
    ∃ lat, precomputeLatitudes gauss tol maxiter nlat grid = .ok lat ∧ lat.n = r.n ∧
      (∀ k < r.n, 0 ≤ lat.x k ∧ lat.x k ≤ Real.pi ∧ Real.cos (lat.x k) = r.x (r.n - 1 - k) ∧
        lat.w k = r.w (r.n - 1 - k)) ∧
      (∀ j k, j < k → k < r.n → lat.x j < lat.x k) := by
  refine ⟨⟨r.n, fun k => Real.arccos (r.x (r.n - 1 - k)), fun k => r.w (r.n - 1 - k)⟩,
    by rw [precomputeLatitudes, hr]; rfl, rfl, ?_, ?_⟩
  · intro k hk
    have h := hin (r.n - 1 - k) (by omega)
    exact ⟨Real.arccos_nonneg _, Real.arccos_le_pi _, Real.cos_arccos h.1 h.2, rfl⟩
  · intro j k hjk hk
    have h1 := hin (r.n - 1 - k) (by omega)
    have h2 := hin (r.n - 1 - j) (by omega)
    exact Real.strictAntiOn_arccos ⟨h1.1, h1.2⟩ ⟨h2.1, h2.2⟩ (hmono _ _ (by omega) (by omega))

/-- C05, equiangular grid: the colatitudes are exactly `pi k / (nlat-1)`, for every `nlat >= 2`. -/
theorem C05_equiangular_latitudes (gauss : ℕ → Rule) (tol : ℝ) (maxiter nlat : ℕ) (hn : 2 ≤ nlat) :
    ∃ lat, precomputeLatitudes gauss tol maxiter nlat "equiangular" = .ok lat ∧ lat.n = nlat ∧
      ∀ k < nlat, lat.x k = Real.pi * k / ((nlat : ℝ) - 1) ∧ lat.w k = ccW nlat k := by
  have hr : precomputeQuadratureWeights gauss tol maxiter nlat "equiangular" (-1) 1 false
      = .ok (rescale (ccRule nlat) (-1) 1) := by
    simp only [precomputeQuadratureWeights, clenshawCurtissWeights]
    rw [if_neg (by simp), if_neg (by decide), if_neg (by decide), if_neg (by decide), if_pos trivial, if_neg (by omega)]
    rfl
  refine ⟨⟨nlat, fun k => Real.arccos ((rescale (ccRule nlat) (-1) 1).x (nlat - 1 - k)),
    fun k => (rescale (ccRule nlat) (-1) 1).w (nlat - 1 - k)⟩, by rw [precomputeLatitudes, hr]; rfl, rfl, ?_⟩
  intro k hk
  have hn1 : ((nlat - 1 : ℕ) : ℝ) = (nlat : ℝ) - 1 := by rw [Nat.cast_sub (by omega)]; simp
  have hpos : (0 : ℝ) < (nlat : ℝ) - 1 := by
    rw [← hn1]; exact_mod_cast (by omega : 0 < nlat - 1)
  have hkr : (k : ℝ) ≤ (nlat : ℝ) - 1 := by rw [← hn1]; exact_mod_cast (by omega : k ≤ nlat - 1)
  have hpi := Real.pi_pos
  refine ⟨?_, ?_⟩
  · show Real.arccos ((1 - -1) * (1 / 2) * (ccRule nlat).x (nlat - 1 - k) + (1 + -1) * (1 / 2)) = _
    rw [ccRule_node_symm nlat hn k hk, ccRule_node nlat k hk hn, neg_neg, hn1]
    have : ((1 : ℝ) - -1) * (1 / 2) * Real.cos (Real.pi * k / ((nlat : ℝ) - 1)) + (1 + -1) * (1 / 2)
        = Real.cos (Real.pi * k / ((nlat : ℝ) - 1)) := by ring
    rw [this, Real.arccos_cos]
    · positivity
    · rw [div_le_iff₀ hpos]; nlinarith
  · show ccW nlat (nlat - 1 - k) * (1 - -1) * (1 / 2) = _
    rw [ccW_symm nlat hn k hk]; ring

/-- C05, trapezoidal grid: the hypotheses of `C05_latitudes` hold for every `nlat >= 2`. -/
theorem C05_trapezoidal_latitudes (gauss : ℕ → Rule) (tol : ℝ) (maxiter nlat : ℕ) (hn : 2 ≤ nlat) :
    ∃ lat, precomputeLatitudes gauss tol maxiter nlat "equiangular-trapezoidal" = .ok lat ∧ lat.n = nlat ∧
      (∀ k < nlat, 0 ≤ lat.x k ∧ lat.x k ≤ Real.pi ∧ Real.cos (lat.x k) = 1 - 2 * k / ((nlat : ℝ) - 1)) ∧
      (∀ j k, j < k → k < nlat → lat.x j < lat.x k) := by
  have hn1 : ((nlat - 1 : ℕ) : ℝ) = (nlat : ℝ) - 1 := by rw [Nat.cast_sub (by omega)]; simp
  have hpos : (0 : ℝ) < (nlat : ℝ) - 1 := by
    rw [← hn1]; exact_mod_cast (by omega : 0 < nlat - 1)
  obtain ⟨r, hr, hrn, hrx⟩ : ∃ r, precomputeQuadratureWeights gauss tol maxiter nlat "equiangular-trapezoidal" (-1) 1 false
      = .ok r ∧ r.n = nlat ∧ ∀ i, r.x i = -1 + 2 * i / ((nlat : ℝ) - 1) := by
    refine ⟨_, by
      simp only [precomputeQuadratureWeights, trapezoidalWeights, Bool.false_eq_true, and_false, if_false, if_true]
      rw [if_neg (by omega), if_neg (by omega)], rfl, ?_⟩
    intro i; simp only [linspace]; ring
  have hmono : ∀ i j, i < j → j < r.n → r.x i < r.x j := by
    intro i j hij _
    have : (i : ℝ) < j := by exact_mod_cast hij
    rw [hrx, hrx]
    have := div_lt_div_of_pos_right (show 2 * (i : ℝ) < 2 * j by linarith) hpos
    linarith
  have hin : ∀ i < r.n, -1 ≤ r.x i ∧ r.x i ≤ 1 := by
    intro i hi
    rw [hrn] at hi
    have hir : (i : ℝ) ≤ (nlat : ℝ) - 1 := by rw [← hn1]; exact_mod_cast (by omega : i ≤ nlat - 1)
    rw [hrx]
    have h0 : 0 ≤ 2 * (i : ℝ) / ((nlat : ℝ) - 1) := by positivity
    have h2 : 2 * (i : ℝ) / ((nlat : ℝ) - 1) ≤ 2 := by rw [div_le_iff₀ hpos]; linarith
    constructor <;> linarith
  obtain ⟨lat, h1, h2, h3, h4⟩ := C05_latitudes gauss tol maxiter nlat _ r hr hmono hin
  rw [hrn] at h2 h3 h4
  refine ⟨lat, h1, h2, fun k hk => ?_, h4⟩
  obtain ⟨a1, a2, a3, -⟩ := h3 k hk
  refine ⟨a1, a2, ?_⟩
  rw [a3, hrx, Nat.cast_sub (by omega), hn1]; field_simp; ring

/-- C05, Gauss grid. -/
theorem C05_gauss_latitudes (gauss : ℕ → Rule) (tol : ℝ) (maxiter nlat : ℕ) (hn : 1 ≤ nlat)
    (hg : IsGaussRule (gauss nlat) nlat) :
    ∃ lat, precomputeLatitudes gauss tol maxiter nlat "legendre-gauss" = .ok lat ∧ lat.n = nlat ∧
      (∀ k < nlat, 0 < lat.x k ∧ lat.x k < Real.pi ∧ Real.cos (lat.x k) = (gauss nlat).x (nlat - 1 - k) ∧
        lat.w k = (gauss nlat).w (nlat - 1 - k)) ∧
      (∀ j k, j < k → k < nlat → lat.x j < lat.x k) := by
  have hr : precomputeQuadratureWeights gauss tol maxiter nlat "legendre-gauss" (-1) 1 false
      = .ok (rescale (gauss nlat) (-1) 1) := by
    simp only [precomputeQuadratureWeights, legendreGaussWeights]
    rw [if_neg (by simp), if_neg (by decide), if_pos trivial, if_neg (by omega)]
  have hx : ∀ i, (rescale (gauss nlat) (-1) 1).x i = (gauss nlat).x i := by
    intro i; simp only [rescale]; ring
  have hw : ∀ i, (rescale (gauss nlat) (-1) 1).w i = (gauss nlat).w i := by
    intro i; simp only [rescale]; ring
  have hsz : (rescale (gauss nlat) (-1) 1).n = nlat := hg.size
  obtain ⟨lat, h1, h2, h3, h4⟩ := C05_latitudes gauss tol maxiter nlat _ _ hr
    (by intro i j hij hj; rw [hx, hx]; exact hg.increasing i j hij (by rw [← hsz]; exact hj))
    (by intro i hi; rw [hx]; have := hg.inside i (by rw [← hsz]; exact hi); exact ⟨this.1.le, this.2.le⟩)
  rw [hsz] at h2 h3 h4
  refine ⟨lat, h1, h2, fun k hk => ?_, h4⟩
  obtain ⟨a1, a2, a3, a4⟩ := h3 k hk
  rw [hx] at a3; rw [hw] at a4
  have hin := hg.inside (nlat - 1 - k) (by omega)
  refine ⟨lt_of_le_of_ne a1 ?_, lt_of_le_of_ne a2 ?_, a3, a4⟩
  · intro h0; rw [← h0, Real.cos_zero] at a3; linarith
  · intro h0; rw [h0, Real.cos_pi] at a3; linarith

/-- C05 (error branch): unknown grids are rejected. -/
theorem C05_unknown_grid (gauss : ℕ → Rule) (tol : ℝ) (maxiter nlat : ℕ) (grid : String)
    (h1 : grid ≠ "equiangular-trapezoidal") (h2 : grid ≠ "legendre-gauss") (h3 : grid ≠ "lobatto")
    (h4 : grid ≠ "equiangular") : precomputeLatitudes gauss tol maxiter nlat grid = .error .valueError := by
  simp [precomputeLatitudes, precomputeQuadratureWeights, h1, h2, h3, h4, bind, Except.bind]

/-- C05: the periodic flag is accepted for the trapezoidal grid, where it gives the rule of `n` points that integrates all exponentials of
frequency below `n` exactly, and rejected for every other grid. -/
theorem C05_periodic_flag (gauss : ℕ → Rule) (tol : ℝ) (maxiter n : ℕ) (grid : String) (a b : ℝ) (hn : 0 < n) (hab : a ≠ b) :
    (grid ≠ "equiangular-trapezoidal" → precomputeQuadratureWeights gauss tol maxiter n grid a b true = .error .valueError) ∧
    (grid = "equiangular-trapezoidal" → ∃ r, precomputeQuadratureWeights gauss tol maxiter n grid a b true = .ok r ∧ r.n = n ∧ r.x 0 = a ∧
      ∀ k : ℤ, |k| < n → ∑ i ∈ range n, (r.w i : ℂ) * Complex.exp (2 * Real.pi * Complex.I * k * ((r.x i - a) / (b - a)))
        = ∫ t in a..b, Complex.exp (2 * Real.pi * Complex.I * k * ((t - a) / (b - a)))) := by
  refine ⟨fun h => ?_, fun h => ?_⟩
  · unfold precomputeQuadratureWeights
    rw [if_pos ⟨h, rfl⟩]
  · have hr : precomputeQuadratureWeights gauss tol maxiter n grid a b true = trapezoidalWeights n a b true := by
      unfold precomputeQuadratureWeights
      rw [if_neg (fun h' => h'.1 h), if_pos h]
    have ht : ∃ r, trapezoidalWeights n a b true = .ok r := by
      unfold trapezoidalWeights
      rw [if_pos rfl, if_neg (by omega)]
      exact ⟨_, rfl⟩
    obtain ⟨r, ht⟩ := ht
    obtain ⟨h1, h2, _, h4⟩ := C04_trapezoidal_periodic_exact n a b hab r ht
    exact ⟨r, hr.trans ht, h1, h2, h4⟩

example : precomputeQuadratureWeights (fun _ => ⟨0, fun _ => 0, fun _ => 0⟩) 0 0 4 "lobatto" 0 1 true = .error .valueError :=
  (C05_periodic_flag _ 0 0 4 "lobatto" 0 1 (by decide) (by norm_num)).1 (by decide)

end Verif.Props
