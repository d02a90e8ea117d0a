import Verif.Props.Quadrature
import Mathlib.MeasureTheory.Integral.IntegralEqImproper
/-!
Property theorems C08: the spherical quadrature module `QuadratureS2`.
-/
namespace Verif.Props
open Verif Verif.Quad Verif.Spec Verif.FFT Finset Polynomial

/-- The rule used for `equiangular` grids is symmetric and exact to degree `n-1`. -/
theorem equiangular_symmetricExact (n : ℕ) (hn : 2 ≤ n) (r : Rule) (hr : clenshawCurtissWeights n (-1) 1 = .ok r) :
    SymmetricExactRule r n (n - 1) := by
  obtain ⟨r', h1, h2, h3⟩ := C03_clenshaw_curtis_exact n hn (-1) 1
  rw [hr] at h1; cases h1
  refine ⟨h2, ?_, ?_, ?_, h3⟩
  · intro i hi
    exact (C03_clenshaw_curtis_nodes n hn (-1) 1 (by norm_num) r hr i hi).2
  · intro i hi
    have := (C06_clenshaw_curtis_symm n (-1) 1 r hr i hi).2
    linarith
  · intro i hi
    exact (C06_clenshaw_curtis_symm n (-1) 1 r hr i hi).1

/-- The rule used for `legendre-gauss` grids is symmetric and exact to degree `2n-1`. -/
theorem gauss_symmetricExact (gauss : ℕ → Rule) (n : ℕ) (hg : IsGaussRule (gauss n) n) (r : Rule)
    (hr : legendreGaussWeights gauss n (-1) 1 = .ok r) : SymmetricExactRule r n (2 * n - 1) := by
  unfold legendreGaussWeights at hr
  split at hr
  · cases hr
  · cases hr
    have hx : ∀ i, (rescale (gauss n) (-1) 1).x i = (gauss n).x i := by intro i; simp only [rescale]; ring
    have hw : ∀ i, (rescale (gauss n) (-1) 1).w i = (gauss n).w i := by intro i; simp only [rescale]; ring
    refine ⟨hg.size, ?_, ?_, ?_, exact_rescale hg.exact _ _⟩
    · intro i hi; rw [hx]; exact ⟨(hg.inside i hi).1.le, (hg.inside i hi).2.le⟩
    · intro i hi; rw [hx, hx]; exact hg.symm_x i hi
    · intro i hi; rw [hw, hw]; exact hg.symm_w i hi

/-- A symmetric rule may be paired with the reversed nodes. -/
theorem _root_.Verif.Spec.SymmetricExactRule.flip_sum {r : Rule} {n d : ℕ} (h : SymmetricExactRule r n d) (p : ℝ[X]) (hp : p.natDegree ≤ d) :
    ∑ k ∈ range n, r.w k * p.eval (r.x (n - 1 - k)) = ∫ t in (-1 : ℝ)..1, p.eval t := by
  rw [← h.exact p hp, h.size, ← Finset.sum_range_reflect (fun k => r.w k * p.eval (r.x k))]
  refine sum_congr rfl fun k hk => ?_
  rw [h.symm_w k (mem_range.1 hk)]

/-- Discrete orthogonality of the longitudes to the constant. -/
theorem sum_cos_lon (nlon m : ℕ) (hm : m < nlon) :
    ∑ j ∈ range nlon, Real.cos (m * precomputeLongitudes nlon j) = if m = 0 then (nlon : ℝ) else 0 := by
  have hn : nlon ≠ 0 := by omega
  have e : ∀ j ∈ range nlon, Real.cos (m * precomputeLongitudes nlon j) = cs nlon (j * (m : ℤ)) := by
    intro j hj
    rw [(C05_longitudes nlon j (mem_range.1 hj)).1, cs]
    congr 1; push_cast; ring
  rw [sum_congr rfl e, cs_sum hn m]
  by_cases h0 : m = 0
  · simp [h0]
  · rw [if_neg h0, if_neg]
    intro hd
    exact absurd (Int.le_of_dvd (by omega) hd) (by omega)

theorem sum_sin_lon (nlon m : ℕ) (hm : m < nlon) :
    ∑ j ∈ range nlon, Real.sin (m * precomputeLongitudes nlon j) = 0 := by
  have hn : nlon ≠ 0 := by omega
  have := congrArg Complex.im (root_sum hn m)
  rw [Complex.im_sum] at this
  have e : ∀ j ∈ range nlon, Real.sin (m * precomputeLongitudes nlon j) = (root nlon (j * (m : ℤ))).im := by
    intro j hj
    rw [(C05_longitudes nlon j (mem_range.1 hj)).1]
    have : root nlon (j * m) = Complex.exp ((m * (2 * Real.pi * j / nlon) : ℝ) * Complex.I) := by
      unfold root; congr 1; push_cast; ring
    rw [this, Complex.exp_ofReal_mul_I_im]
  rw [sum_congr rfl e, this]; split <;> simp

theorem integral_cos_nat (m : ℕ) : ∫ ph in (0 : ℝ)..(2 * Real.pi), Real.cos (m * ph) = if m = 0 then 2 * Real.pi else 0 := by
  by_cases h : m = 0
  · simp [h]
  · rw [if_neg h]
    have hm : (m : ℝ) ≠ 0 := by exact_mod_cast h
    rw [intervalIntegral.integral_comp_mul_left (fun x => Real.cos x) hm, integral_cos]
    have : Real.sin ((m : ℝ) * (2 * Real.pi)) = 0 := by
      have := Real.sin_nat_mul_pi (2 * m); rw [← this]; congr 1; push_cast; ring
    rw [this]; simp

theorem integral_sin_nat (m : ℕ) : ∫ ph in (0 : ℝ)..(2 * Real.pi), Real.sin (m * ph) = 0 := by
  by_cases h : m = 0
  · simp [h]
  · have hm : (m : ℝ) ≠ 0 := by exact_mod_cast h
    rw [intervalIntegral.integral_comp_mul_left (fun x => Real.sin x) hm, integral_sin]
    have := Real.cos_nat_mul_two_pi m
    rw [this]; simp

/-- The surface integral of a band-limited field only sees its zonal-mean part. -/
theorem surfaceIntegral_trigField (M : ℕ) (hM : 0 < M) (p q : ℕ → ℝ[X]) :
    surfaceIntegral (trigField M p q) = 2 * Real.pi * ∫ t in (-1 : ℝ)..1, (p 0).eval t := by
  have inner : ∀ th, ∫ ph in (0 : ℝ)..(2 * Real.pi), trigField M p q th ph = 2 * Real.pi * (p 0).eval (Real.cos th) := by
    intro th
    unfold trigField
    rw [intervalIntegral.integral_finsetSum]
    · have e : ∀ m ∈ range M, ∫ ph in (0 : ℝ)..(2 * Real.pi), Real.sin th ^ m * ((p m).eval (Real.cos th) * Real.cos (m * ph)
          + (q m).eval (Real.cos th) * Real.sin (m * ph)) = if m = 0 then 2 * Real.pi * (p 0).eval (Real.cos th) else 0 := by
        intro m _
        rw [intervalIntegral.integral_const_mul, intervalIntegral.integral_add, intervalIntegral.integral_const_mul,
          intervalIntegral.integral_const_mul, integral_cos_nat, integral_sin_nat]
        · by_cases h : m = 0
          · subst h; simp; ring
          · simp [h]
        · apply Continuous.intervalIntegrable; fun_prop
        · apply Continuous.intervalIntegrable; fun_prop
      rw [sum_congr rfl e, sum_ite_eq' (range M) 0]
      rw [if_pos (mem_range.2 hM)]
    · intro m _; apply Continuous.intervalIntegrable; fun_prop
  unfold surfaceIntegral
  simp only [inner]
  have h1 : ∀ th, 2 * Real.pi * (p 0).eval (Real.cos th) * Real.sin th
      = (-(2 * Real.pi)) * (((fun t => (p 0).eval t) ∘ Real.cos) th * (-Real.sin th)) := by
    intro th; simp only [Function.comp]; ring
  simp only [h1]
  rw [intervalIntegral.integral_const_mul, intervalIntegral.integral_comp_mul_deriv (f := Real.cos) (f' := fun th => -Real.sin th)]
  · rw [Real.cos_zero, Real.cos_pi, intervalIntegral.integral_symm]; ring
  · intro x _; exact Real.hasDerivAt_cos x
  · exact (Real.continuous_sin.neg).continuousOn
  · exact (p 0).continuous

/-- C08. Exactness: on any symmetric rule exact to degree `d`, the quadrature of the samples of a band-limited field
(zonal wavenumbers below `nlon`, zonal mean of degree at most `d`) equals its surface integral. The samples are taken where
`precompute_latitudes` and `precompute_longitudes` say the grid points are. -/
theorem C08_band_limited_exact (r lat : Rule) (n d nlon M : ℕ) (h : SymmetricExactRule r n d)
    (hlat : ∀ k < n, lat.x k = Real.arccos (r.x (n - 1 - k))) (hM : 0 < M) (hMn : M ≤ nlon) (p q : ℕ → ℝ[X])
    (hp : (p 0).natDegree ≤ d) :
    quadForward r nlon false (fun k j => trigField M p q (lat.x k) (precomputeLongitudes nlon j))
      = surfaceIntegral (trigField M p q) := by
  rw [surfaceIntegral_trigField M hM p q, ← h.flip_sum (p 0) hp]
  have hnl : (nlon : ℝ) ≠ 0 := by exact_mod_cast (by omega : nlon ≠ 0)
  unfold quadForward
  rw [h.size, mul_sum]
  refine sum_congr rfl fun k hk => ?_
  have hk' := mem_range.1 hk
  have hin := h.inside (n - 1 - k) (by omega)
  rw [← sum_mul]
  have e : ∑ j ∈ range nlon, trigField M p q (lat.x k) (precomputeLongitudes nlon j) = nlon * (p 0).eval (Real.cos (lat.x k)) := by
    unfold trigField
    rw [sum_comm]
    have : ∀ m ∈ range M, ∑ j ∈ range nlon, Real.sin (lat.x k) ^ m * ((p m).eval (Real.cos (lat.x k))
          * Real.cos (m * precomputeLongitudes nlon j) + (q m).eval (Real.cos (lat.x k)) * Real.sin (m * precomputeLongitudes nlon j))
        = if m = 0 then nlon * (p 0).eval (Real.cos (lat.x k)) else 0 := by
      intro m hm
      have hm' := mem_range.1 hm
      rw [← mul_sum, sum_add_distrib, ← mul_sum, ← mul_sum, sum_cos_lon nlon m (by omega), sum_sin_lon nlon m (by omega)]
      by_cases h0 : m = 0
      · subst h0; simp; ring
      · simp [h0]
    rw [sum_congr rfl this, sum_ite_eq' (range M) 0, if_pos (mem_range.2 hM)]
  rw [e, hlat k hk', Real.cos_arccos hin.1 hin.2]
  simp only [quadWeight, Bool.false_eq_true, if_false]
  field_simp

/-- C08, equiangular grid: unconditional exactness to degree `nlat - 1` for every grid size. -/
theorem C08_equiangular_exact (gauss : ℕ → Rule) (tol : ℝ) (maxiter nlat nlon M : ℕ) (hn : 2 ≤ nlat)
    (hM : 0 < M) (hMn : M ≤ nlon) (p q : ℕ → ℝ[X]) (hp : (p 0).natDegree ≤ nlat - 1) :
    ∃ r lat, quadratureS2Rule gauss tol maxiter nlat "equiangular" = .ok r ∧
      precomputeLatitudes gauss tol maxiter nlat "equiangular" = .ok lat ∧
      quadForward r nlon false (fun k j => trigField M p q (lat.x k) (precomputeLongitudes nlon j))
        = surfaceIntegral (trigField M p q) := by
  have hr : clenshawCurtissWeights nlat (-1) 1 = .ok (rescale (ccRule nlat) (-1) 1) := by
    rw [clenshawCurtissWeights, if_neg (by omega)]; rfl
  refine ⟨_, ⟨nlat, fun k => Real.arccos ((rescale (ccRule nlat) (-1) 1).x (nlat - 1 - k)),
    fun k => (rescale (ccRule nlat) (-1) 1).w (nlat - 1 - k)⟩, ?_, ?_,
    C08_band_limited_exact _ _ nlat (nlat - 1) nlon M (equiangular_symmetricExact nlat hn _ hr) (fun _ _ => rfl) hM hMn p q hp⟩
  · rw [quadratureS2Rule, if_neg (by decide), if_neg (by decide), if_pos rfl, hr]
  · rw [precomputeLatitudes, precomputeQuadratureWeights, if_neg (by simp), if_neg (by decide), if_neg (by decide),
      if_neg (by decide), if_pos rfl, hr]; rfl

/-- C08, Gauss grid: exactness to degree `2 nlat - 1`. -/
theorem C08_gauss_exact (gauss : ℕ → Rule) (tol : ℝ) (maxiter nlat nlon M : ℕ) (hn : 1 ≤ nlat)
    (hg : IsGaussRule (gauss nlat) nlat) (hM : 0 < M) (hMn : M ≤ nlon) (p q : ℕ → ℝ[X])
    (hp : (p 0).natDegree ≤ 2 * nlat - 1) :
    ∃ r lat, quadratureS2Rule gauss tol maxiter nlat "legendre-gauss" = .ok r ∧
      precomputeLatitudes gauss tol maxiter nlat "legendre-gauss" = .ok lat ∧
      quadForward r nlon false (fun k j => trigField M p q (lat.x k) (precomputeLongitudes nlon j))
        = surfaceIntegral (trigField M p q) := by
  have hr : legendreGaussWeights gauss nlat (-1) 1 = .ok (rescale (gauss nlat) (-1) 1) := by
    rw [legendreGaussWeights, if_neg (by omega)]
  have hs : (rescale (gauss nlat) (-1) 1).n = nlat := hg.size
  refine ⟨_, ⟨nlat, fun k => Real.arccos ((rescale (gauss nlat) (-1) 1).x (nlat - 1 - k)),
    fun k => (rescale (gauss nlat) (-1) 1).w (nlat - 1 - k)⟩, ?_, ?_,
    C08_band_limited_exact _ _ nlat (2 * nlat - 1) nlon M (gauss_symmetricExact gauss nlat hg _ hr) (fun _ _ => rfl) hM hMn p q hp⟩
  · rw [quadratureS2Rule, if_pos rfl, hr]
  · rw [precomputeLatitudes, precomputeQuadratureWeights, if_neg (by simp), if_neg (by decide), if_pos rfl, hr]
    simp only [bind, Except.bind, pure, Except.pure, hs]

/-- C08. The quadrature is linear in the field. -/
theorem C08_linear (r : Rule) (nlon : ℕ) (nz : Bool) (f g : ℕ → ℕ → ℝ) (a b : ℝ) :
    quadForward r nlon nz (fun k j => a * f k j + b * g k j) = a * quadForward r nlon nz f + b * quadForward r nlon nz g := by
  simp only [quadForward, mul_sum, ← sum_add_distrib]
  refine sum_congr rfl fun k _ => sum_congr rfl fun j _ => ?_
  ring

/-- C08. Constants: `4 pi c`, or `c` when normalising, for every rule whose weights sum to 2 (see C04). -/
theorem C08_constant (r : Rule) (nlon : ℕ) (hn : 0 < nlon) (hw : ∑ i ∈ range r.n, r.w i = 2) (c : ℝ) :
    quadForward r nlon false (fun _ _ => c) = 4 * Real.pi * c ∧ quadForward r nlon true (fun _ _ => c) = c := by
  have hnl : (nlon : ℝ) ≠ 0 := by exact_mod_cast (by omega : nlon ≠ 0)
  have hpi := Real.pi_ne_zero
  constructor
  · simp only [quadForward, quadWeight, sum_const, card_range, nsmul_eq_mul, Bool.false_eq_true, if_false]
    have : ∀ k ∈ range r.n, (nlon : ℝ) * (c * (2 * Real.pi / nlon * r.w k)) = 2 * Real.pi * c * r.w k := by
      intro k _; field_simp
    rw [sum_congr rfl this, ← mul_sum, hw]; ring
  · simp only [quadForward, quadWeight, sum_const, card_range, nsmul_eq_mul, if_true]
    have : ∀ k ∈ range r.n, (nlon : ℝ) * (c * (2 * Real.pi / nlon * r.w k / (4 * Real.pi))) = c / 2 * r.w k := by
      intro k _; field_simp; ring
    rw [sum_congr rfl this, ← mul_sum, hw]; ring

/-- C08. Constants on all grids with an unconditional rule. -/
theorem C08_constant_grid (gauss : ℕ → Rule) (tol : ℝ) (maxiter nlat nlon : ℕ) (hn : 0 < nlon) (grid : String) (r : Rule)
    (hg : IsGaussRule (gauss nlat) nlat) (hgrid : grid ≠ "lobatto")
    (hr : quadratureS2Rule gauss tol maxiter nlat grid = .ok r) (c : ℝ) :
    quadForward r nlon false (fun _ _ => c) = 4 * Real.pi * c ∧ quadForward r nlon true (fun _ _ => c) = c := by
  apply C08_constant r nlon hn
  unfold quadratureS2Rule at hr
  split at hr
  · rw [(C04_legendre_gauss_sum gauss nlat hg _ _ r hr).2]; norm_num
  · split at hr
    · rw [C04_clenshaw_curtis_sum nlat _ _ r hr]; norm_num
    · split at hr
      · rw [(C04_trapezoidal_affine nlat _ _ 0 0 r hr).1]; norm_num
      · cases hr

/-- C08. Rotating the field by any number of longitude steps does not change the integral. -/
theorem C08_shift_invariant (r : Rule) (nlon : ℕ) (nz : Bool) (f : ℕ → ℕ → ℝ) (s : ℕ) :
    quadForward r nlon nz (fun k j => f k ((j + s) % nlon)) = quadForward r nlon nz f := by
  rcases Nat.eq_zero_or_pos nlon with rfl | hn
  · simp [quadForward]
  unfold quadForward
  refine sum_congr rfl fun k _ => ?_
  refine sum_bij' (fun j _ => (j + s) % nlon) (fun j _ => (j + (nlon - s % nlon)) % nlon) ?_ ?_ ?_ ?_ ?_
  · intro j _; exact mem_range.2 (Nat.mod_lt _ hn)
  · intro j _; exact mem_range.2 (Nat.mod_lt _ hn)
  · intro j hj
    have hj' := mem_range.1 hj
    have hs := Nat.mod_lt s hn
    rw [Nat.mod_add_mod]
    have := Nat.div_add_mod s nlon
    have : j + s + (nlon - s % nlon) = j + nlon * (s / nlon + 1) := by rw [mul_add]; omega
    rw [this, Nat.add_mul_mod_self_left, Nat.mod_eq_of_lt hj']
  · intro j hj
    have hj' := mem_range.1 hj
    have hs := Nat.mod_lt s hn
    rw [Nat.mod_add_mod]
    have := Nat.div_add_mod s nlon
    have : j + (nlon - s % nlon) + s = j + nlon * (s / nlon + 1) := by rw [mul_add]; omega
    rw [this, Nat.add_mul_mod_self_left, Nat.mod_eq_of_lt hj']
  · intro j _; rfl

/-- C08 (error branch). -/
theorem C08_unknown_grid (gauss : ℕ → Rule) (tol : ℝ) (maxiter nlat : ℕ) (grid : String)
    (h1 : grid ≠ "equiangular-trapezoidal") (h2 : grid ≠ "legendre-gauss") (h3 : grid ≠ "lobatto")
    (h4 : grid ≠ "equiangular") : quadratureS2Rule gauss tol maxiter nlat grid = .error .valueError := by
  simp [quadratureS2Rule, h1, h2, h3, h4]

/-- Non-vacuity: the field `1 + sin th cos ph` on an equiangular 5 x 8 grid. -/
example (gauss : ℕ → Rule) : ∃ r lat, quadratureS2Rule gauss 0 1 5 "equiangular" = .ok r ∧
    precomputeLatitudes gauss 0 1 5 "equiangular" = .ok lat ∧
    quadForward r 8 false (fun k j => trigField 2 (fun _ => 1) (fun _ => 0) (lat.x k) (precomputeLongitudes 8 j))
      = surfaceIntegral (trigField 2 (fun _ => 1) (fun _ => 0)) :=
  C08_equiangular_exact gauss 0 1 5 8 2 (by norm_num) (by norm_num) (by norm_num) _ _ (by simp)

/-- Non-vacuity: the midpoint rule as the Gauss rule of size 1. -/
example : SymmetricExactRule ⟨1, fun _ => 0, fun _ => 2⟩ 1 1 :=
  ⟨rfl, by intro i _; norm_num, gaussRule_one.symm_x, gaussRule_one.symm_w, gaussRule_one.exact⟩

end Verif.Props
