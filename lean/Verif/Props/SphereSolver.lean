import Verif.Props.ShallowWater
import Verif.Model.SphereSolver
import Verif.Spec.Laplace
/-!
Property theorems C72: the solver for the Allen-Cahn and Ginzburg-Landau equations on the sphere.
-/
namespace Verif.Props
open Verif Verif.Dist Verif.FFT Verif.Quad Verif.Legendre Verif.Leg Verif.Truncation Verif.Spec Verif.SHT Finset

/-! ### The Laplace-Beltrami operator of a harmonic series -/

/-- The derivative of `sin th * d P/d th`. -/
noncomputable def ddTheta (l m : ℕ) (th : ℝ) : ℝ :=
  if m ≤ l then legendreNorm l m * (m * (m * Real.sin th ^ (m - 1) * Real.cos th) * Real.cos th * (legendreDeriv l m).eval (Real.cos th)
    - m * Real.sin th ^ m * Real.sin th * (legendreDeriv l m).eval (Real.cos th)
    - (2 * m + 2) * Real.sin th ^ (m + 1) * Real.cos th * (legendreDeriv l (m + 1)).eval (Real.cos th)
    + Real.sin th ^ (m + 3) * (legendreDeriv l (m + 2)).eval (Real.cos th)) else 0

theorem hasDeriv_sin_dTheta (l m : ℕ) (th : ℝ) : HasDerivAt (fun t => Real.sin t * dTheta l m t) (ddTheta l m th) th := by
  unfold ddTheta
  by_cases h : m ≤ l
  · have hf : (fun t => Real.sin t * dTheta l m t) = fun t => legendreNorm l m * (m * Real.sin t ^ m * Real.cos t * (legendreDeriv l m).eval (Real.cos t)
        - Real.sin t ^ (m + 2) * (legendreDeriv l (m + 1)).eval (Real.cos t)) := by
      funext t
      unfold dTheta
      rw [if_pos h]
      cases m with
      | zero => simp; ring
      | succ u => simp only [Nat.add_sub_cancel]; ring
    rw [hf, if_pos h]
    have q0 := ((legendreDeriv l m).hasDerivAt (Real.cos th)).comp th (Real.hasDerivAt_cos th)
    have q1 := ((legendreDeriv l (m + 1)).hasDerivAt (Real.cos th)).comp th (Real.hasDerivAt_cos th)
    rw [deriv_Q] at q0 q1
    have s0 := (Real.hasDerivAt_sin th).pow m
    have s1 := (Real.hasDerivAt_sin th).pow (m + 2)
    have := ((((s0.const_mul (m : ℝ)).mul (Real.hasDerivAt_cos th)).mul q0).sub (s1.mul q1)).const_mul (legendreNorm l m)
    refine HasDerivAt.congr_deriv (f := fun t => legendreNorm l m * (m * Real.sin t ^ m * Real.cos t * (legendreDeriv l m).eval (Real.cos t)
        - Real.sin t ^ (m + 2) * (legendreDeriv l (m + 1)).eval (Real.cos t))) this ?_
    simp only [Function.comp_apply, Pi.pow_apply, Pi.mul_apply]
    push_cast
    ring
  · have hf : (fun t => Real.sin t * dTheta l m t) = fun _ => 0 := by
      funext t; unfold dTheta; rw [if_neg h, mul_zero]
    rw [hf, if_neg h]; exact hasDerivAt_const _ _

/-- Legendre's equation: `sin th d/dth (sin th dP/dth) = (m^2 - l(l+1) sin^2 th) P`. -/
theorem legendre_equation (l m : ℕ) (th : ℝ) :
    Real.sin th * ddTheta l m th = ((m : ℝ) ^ 2 - l * (l + 1) * Real.sin th ^ 2) * legendreTheta l m th := by
  unfold ddTheta legendreTheta
  by_cases h : m ≤ l
  · rw [if_pos h, if_pos h]
    have ho := congrArg (fun p => p.eval (Real.cos th)) (ode l m)
    simp only [Polynomial.eval_add, Polynomial.eval_sub, Polynomial.eval_mul, Polynomial.eval_pow, Polynomial.eval_X, Polynomial.eval_one,
      Polynomial.eval_natCast, Polynomial.eval_ofNat, Polynomial.eval_zero] at ho
    have hs := Real.sin_sq th
    have hm : (m : ℝ) * (m * Real.sin th ^ (m - 1) * Real.cos th) * Real.sin th = m * m * Real.sin th ^ m * Real.cos th := by
      cases m with
      | zero => simp
      | succ u => simp only [Nat.add_sub_cancel]; ring
    generalize (legendreDeriv l m).eval (Real.cos th) = a at *
    generalize (legendreDeriv l (m + 1)).eval (Real.cos th) = b at *
    generalize (legendreDeriv l (m + 2)).eval (Real.cos th) = e at *
    rw [show Real.sin th ^ (m + 1) = Real.sin th ^ m * Real.sin th by ring, show Real.sin th ^ (m + 3) = Real.sin th ^ m * Real.sin th ^ 3 by ring]
    generalize Real.sin th ^ m = p at *
    generalize (m : ℝ) * (m * Real.sin th ^ (m - 1) * Real.cos th) = q at *
    generalize Real.cos th = c at *
    generalize Real.sin th = s at *
    have hc : c ^ 2 = 1 - s ^ 2 := by linarith
    linear_combination legendreNorm l m * (c * a) * hm + legendreNorm l m * p * s ^ 2 * ho + legendreNorm l m * p * s ^ 2 * e * hs + legendreNorm l m * m * m * p * a * hc
  · rw [if_neg h, if_neg h]; ring

/-- Away from the poles, the Laplace-Beltrami operator multiplies the coefficients of degree `l` by `-l(l+1)/R^2`. -/
theorem laplace_series (norm : String) (cs : Bool) (nlon L M : ℕ) (c : ℕ → ℕ → ℂ) (R th ph : ℝ) (hs : Real.sin th ≠ 0) :
    laplaceBeltrami R (harmonicSeries norm cs nlon L M c) th ph
      = harmonicSeries norm cs nlon L M (fun l m => ((-(l : ℝ) * (l + 1) / R ^ 2 : ℝ) : ℂ) * c l m) th ph := by
  have d1 : (fun t => Real.sin t * deriv (fun s => harmonicSeries norm cs nlon L M c s ph) t)
      = fun t => Real.sin t * seriesDth norm cs nlon L M c t ph := by
    funext t; rw [(hasDeriv_series_th norm cs nlon L M c t ph).deriv]
  have d2 : (fun p => deriv (fun q => harmonicSeries norm cs nlon L M c th q) p) = fun p => seriesDph norm cs nlon L M c th p := by
    funext p; exact (hasDeriv_series_ph norm cs nlon L M c th p).deriv
  have d3 : HasDerivAt (fun t => Real.sin t * seriesDth norm cs nlon L M c t ph)
      (∑ m ∈ range (min M (nlon / 2 + 1)), realMult nlon m * ∑ l ∈ range L, (csSign cs m * (tableScale norm true l * ddTheta l m th)) *
        ((c l m).re * Real.cos (m * ph) - (c l m).im * Real.sin (m * ph))) th := by
    have hf : (fun t => Real.sin t * seriesDth norm cs nlon L M c t ph) = fun t => ∑ m ∈ range (min M (nlon / 2 + 1)), realMult nlon m *
        ∑ l ∈ range L, (csSign cs m * (tableScale norm true l * (Real.sin t * dTheta l m t))) *
          ((c l m).re * Real.cos (m * ph) - (c l m).im * Real.sin (m * ph)) := by
      funext t
      unfold seriesDth
      rw [mul_sum]
      refine sum_congr rfl fun m _ => ?_
      rw [mul_left_comm, mul_sum]
      congr 1
      refine sum_congr rfl fun l _ => ?_
      ring
    rw [hf]
    refine HasDerivAt.fun_sum fun m _ => HasDerivAt.const_mul _ (HasDerivAt.fun_sum fun l _ => ?_)
    exact (((hasDeriv_sin_dTheta l m th).const_mul _).const_mul _).mul_const _
  have d4 : HasDerivAt (fun p => seriesDph norm cs nlon L M c th p)
      (∑ m ∈ range (min M (nlon / 2 + 1)), realMult nlon m * ∑ l ∈ range L, synthFactor norm cs l m th *
        ((c l m).re * (-(Real.cos (m * ph) * m) * m) - (c l m).im * (-Real.sin (m * ph) * m * m))) ph := by
    unfold seriesDph
    refine HasDerivAt.fun_sum fun m _ => HasDerivAt.const_mul _ (HasDerivAt.fun_sum fun l _ => HasDerivAt.const_mul _ ?_)
    have h : HasDerivAt (fun p : ℝ => (m : ℝ) * p) (m : ℝ) ph := by simpa using (hasDerivAt_id ph).const_mul (m : ℝ)
    exact (((h.sin).neg.mul_const _).const_mul _).sub (((h.cos).mul_const _).const_mul _)
  unfold laplaceBeltrami
  rw [d1, d2, d3.deriv, d4.deriv]
  unfold harmonicSeries
  rw [mul_sum, mul_sum, ← sum_add_distrib, mul_sum]
  refine sum_congr rfl fun m _ => ?_
  rw [mul_left_comm, mul_left_comm (1 / Real.sin th ^ 2), ← mul_add, mul_left_comm, mul_sum, mul_sum, ← sum_add_distrib, mul_sum]
  congr 1
  refine sum_congr rfl fun l _ => ?_
  have hl := legendre_equation l m th
  have hd : ddTheta l m th = ((m : ℝ) ^ 2 - l * (l + 1) * Real.sin th ^ 2) * legendreTheta l m th / Real.sin th := by
    rw [eq_div_iff hs, mul_comm]; exact hl
  rw [hd]
  unfold synthFactor
  rw [Complex.re_ofReal_mul, Complex.im_ofReal_mul]
  by_cases hR : R = 0
  · subst hR; simp
  · field_simp
    ring

/-- C24 (Poisson's equations). The stream function and the velocity potential whose gradients make up the wind of `C24_wind` (radius times the series of
`P 0` and `P 1`) solve `Laplacian psi = vorticity` and `Laplacian chi = divergence` on the sphere, away from the poles, for the true Laplace-Beltrami
operator; the mean of the right-hand side, which no solution can match, is left out. -/
theorem C24_poisson (nlon L : ℕ) (R : ℝ) (z P : ℕ → ℕ → ℂ) (hP0 : ∀ m, P 0 m = 0)
    (hP : ∀ l : ℕ, 1 ≤ l → ∀ m, -((l * (l + 1) : ℝ) : ℂ) / (R : ℂ) ^ 2 * ((R : ℂ) * P l m) = z l m) (th ph : ℝ) (hs : Real.sin th ≠ 0) :
    laplaceBeltrami R (fun t p => R * harmonicSeries "ortho" false nlon L L P t p) th ph
      = harmonicSeries "ortho" false nlon L L (fun l m => if l = 0 then 0 else z l m) th ph := by
  have e : (fun t p => R * harmonicSeries "ortho" false nlon L L P t p) = harmonicSeries "ortho" false nlon L L fun l m => (R : ℂ) * P l m := by
    funext t p
    unfold harmonicSeries
    rw [mul_sum]
    refine sum_congr rfl fun m _ => ?_
    rw [mul_left_comm, mul_sum]
    congr 1
    refine sum_congr rfl fun l _ => ?_
    rw [Complex.re_ofReal_mul, Complex.im_ofReal_mul]
    ring
  rw [e, laplace_series _ _ _ _ _ _ _ _ _ hs]
  congr 1
  funext l m
  by_cases hl : l = 0
  · subst hl; rw [hP0]; simp
  · rw [if_neg hl, ← hP l (by omega) m]
    push_cast
    ring

/-! ### The solver -/

/-- The hypotheses under which the solver is built and its tables are finite numbers. -/
structure PdeBuilt (env : Env) (A : PdeArgs) (r : Rule) (d L : ℕ) : Prop where
  lon_pos : 0 < A.nlon
  radius_ne : A.radius ≠ 0
  rule : gridRule env.gauss env.tol env.maxiter A.nlat A.grid = .ok r
  exact : SymmetricExactRule r A.nlat d
  trunc : sizes A.nlat A.nlon A.lmax A.mmax A.grid = .ok (L, L)
  pos : 0 < L
  deg : 2 * (L - 1) ≤ d
  ord : 2 * (L - 1) ≤ A.nlon

/-- What the constructor stores. -/
structure PdeIs (env : Env) (A : PdeArgs) (r : Rule) (L : ℕ) (S : Pde) : Prop where
  nlat : S.nlat = A.nlat
  nlon : S.nlon = A.nlon
  radius : S.radius = A.radius
  coeff : S.coeff = A.coeff
  lmax : S.lmax = L
  mmax : S.mmax = L
  sht : RealSHT.init env A.transform = .ok S.sht
  isht : InverseRealSHT.init env A.transform = .ok S.isht
  lats : S.lats = fun k => -Real.arcsin (r.x k)
  lons : S.lons = precomputeLongitudes A.nlon
  s1 : S.sht.nlat = A.nlat ∧ S.sht.nlon = A.nlon ∧ S.sht.lmax = L ∧ S.sht.mmax = L
  s2 : S.isht.nlat = A.nlat ∧ S.isht.nlon = A.nlon ∧ S.isht.lmax = L ∧ S.isht.mmax = L

theorem pde_init {env : Env} {A : PdeArgs} {r : Rule} {d L : ℕ} (H : PdeBuilt env A r d L) :
    ∃ S, Pde.init env A = .ok S ∧ PdeIs env A r L S := by
  have h0 := H.pos
  have e1 := realSHT_init env A.transform r L H.rule H.trunc h0
  have e2 := inverseRealSHT_init env A.transform r L H.rule H.trunc h0
  refine ⟨⟨A.nlat, A.nlon, A.radius, A.coeff, L, L, _, _, fun k => -Real.arcsin (r.x k), precomputeLongitudes A.nlon⟩, ?_,
    rfl, rfl, rfl, rfl, rfl, rfl, e1, e2, rfl, rfl, ⟨rfl, rfl, rfl, rfl⟩, ⟨rfl, rfl, rfl, rfl⟩⟩
  unfold Pde.init
  rw [e1]
  dsimp only
  rw [e2]
  dsimp only
  rw [H.rule]
  dsimp only
  rw [if_neg (by omega)]

/-- The field of a coefficient array on the grid. -/
theorem pde_field {env : Env} (be : C2R) {A : PdeArgs} {r : Rule} {d L : ℕ} (H : PdeBuilt env A r d L) {S : Pde} (hS : PdeIs env A r L S) (u : Mat ℂ)
    (h0 : u.d0 = L) (h1 : u.d1 = L) :
    ∃ g, S.spec2grid be u = .ok g ∧ g.d0 = A.nlat ∧ g.d1 = A.nlon ∧ ∀ k < A.nlat, ∀ j < A.nlon,
      g.val k j = harmonicSeries "ortho" false A.nlon L L u.val (Real.arccos (r.x (A.nlat - 1 - k))) (2 * Real.pi * j / A.nlon) := by
  obtain ⟨I, g, hI, hg, g0, g1, hv⟩ := C59_synthesis_value env be A.transform r d L H.lon_pos H.rule H.exact H.trunc H.pos u h0 h1
  rw [hS.isht] at hI; cases hI
  exact ⟨g, hg, g0, g1, hv⟩

theorem pde_analysis {env : Env} {A : PdeArgs} {r : Rule} {d L : ℕ} (H : PdeBuilt env A r d L) {S : Pde} (hS : PdeIs env A r L S) (f : Mat ℝ)
    (h0 : f.d0 = A.nlat) (h1 : f.d1 = A.nlon) :
    ∃ c, S.grid2spec f = .ok c ∧ c.d0 = L ∧ c.d1 = L ∧ ∀ l < L, ∀ m < L, c.val l m = quadCoeff A.nlat A.nlon r.x r.w f.val l m := by
  obtain ⟨T, c, hT, hc, c0, c1, hv⟩ := C59_analysis_value env A.transform r d L H.lon_pos H.rule H.exact H.trunc H.pos H.ord f h0 h1
  rw [hS.sht] at hT; cases hT
  refine ⟨c, hc, c0, c1, fun l hl m hm => ?_⟩
  rw [hv l hl m hm]
  simp [quadCoeff, PdeArgs.transform, csSign, tableScale, normScale]

theorem pde_cubic {env : Env} (be : C2R) {A : PdeArgs} {r : Rule} {d L : ℕ} (H : PdeBuilt env A r d L) {S : Pde} (hS : PdeIs env A r L S) (u : Mat ℂ)
    (h0 : u.d0 = L) (h1 : u.d1 = L) :
    ∃ g c, S.spec2grid be u = .ok g ∧ g.d0 = A.nlat ∧ g.d1 = A.nlon ∧ (∀ k < A.nlat, ∀ j < A.nlon,
        g.val k j = harmonicSeries "ortho" false A.nlon L L u.val (Real.arccos (r.x (A.nlat - 1 - k))) (2 * Real.pi * j / A.nlon)) ∧
      S.grid2spec ⟨g.d0, g.d1, fun k j => g.val k j ^ 3⟩ = .ok c ∧ S.cubic be u = .ok c ∧ c.d0 = L ∧ c.d1 = L ∧
      ∀ l < L, ∀ m < L, c.val l m = quadCoeff A.nlat A.nlon r.x r.w (fun k j => g.val k j ^ 3) l m := by
  obtain ⟨g, hg, g0, g1, hv⟩ := pde_field be H hS u h0 h1
  obtain ⟨c, hc, c0, c1, hcv⟩ := pde_analysis H hS ⟨g.d0, g.d1, fun k j => g.val k j ^ 3⟩ g0 g1
  exact ⟨g, c, hg, g0, g1, hv, hc, by unfold Pde.cubic; rw [hg]; exact hc, c0, c1, hcv⟩

/-- C72 (Allen-Cahn). With `F` the field of the coefficients `u`, the tendency of degree `l` and order `m` is
`coeff * (-l(l+1)/R^2) u + u` minus the quadrature of `F^3` against that harmonic. -/
theorem C72_allen_cahn (env : Env) (be : C2R) (A : PdeArgs) (r : Rule) (d L : ℕ) (H : PdeBuilt env A r d L) (u : Mat ℂ) (h0 : u.d0 = L) (h1 : u.d1 = L) :
    ∃ S g D, Pde.init env A = .ok S ∧ S.spec2grid be u = .ok g ∧
      (∀ k < A.nlat, ∀ j < A.nlon, g.val k j
        = harmonicSeries "ortho" false A.nlon L L u.val (Real.arccos (r.x (A.nlat - 1 - k))) (2 * Real.pi * j / A.nlon)) ∧
      S.dudtspec be u "allen-cahn" = .ok D ∧ D.d0 = L ∧ D.d1 = L ∧
      ∀ l < L, ∀ m < L, D.val l m = (A.coeff : ℂ) * ((-(l : ℝ) * (l + 1) / A.radius ^ 2 : ℝ) : ℂ) * u.val l m + u.val l m
        - quadCoeff A.nlat A.nlon r.x r.w (fun k j => g.val k j ^ 3) l m := by
  obtain ⟨S, hS, hI⟩ := pde_init H
  obtain ⟨g, c, hg, _, _, hv, _, hc, _, _, hcv⟩ := pde_cubic be H hI u h0 h1
  refine ⟨S, g, _, hS, hg, hv, by unfold Pde.dudtspec; rw [if_pos rfl, hc], hI.lmax, hI.mmax, fun l hl m hm => ?_⟩
  dsimp only
  rw [hcv l hl m hm]
  unfold Pde.lap
  rw [hI.radius, hI.coeff]

/-- C72 (Ginzburg-Landau). The linear term is `u + (1 + 2i) coeff lap u`; the cubic term is `(1 + 2i)` times the quadrature of `F^3`, with the same real
field `F` as for Allen-Cahn. -/
theorem C72_ginzburg_landau (env : Env) (be : C2R) (A : PdeArgs) (r : Rule) (d L : ℕ) (H : PdeBuilt env A r d L) (u : Mat ℂ) (h0 : u.d0 = L)
    (h1 : u.d1 = L) :
    ∃ S g D, Pde.init env A = .ok S ∧ S.spec2grid be u = .ok g ∧
      (∀ k < A.nlat, ∀ j < A.nlon, g.val k j
        = harmonicSeries "ortho" false A.nlon L L u.val (Real.arccos (r.x (A.nlat - 1 - k))) (2 * Real.pi * j / A.nlon)) ∧
      S.dudtspec be u "ginzburg-landau" = .ok D ∧ D.d0 = L ∧ D.d1 = L ∧
      ∀ l < L, ∀ m < L, D.val l m = u.val l m + (1 + 2 * Complex.I) * (A.coeff : ℂ) * ((-(l : ℝ) * (l + 1) / A.radius ^ 2 : ℝ) : ℂ) * u.val l m
        - (1 + 2 * Complex.I) * quadCoeff A.nlat A.nlon r.x r.w (fun k j => g.val k j ^ 3) l m := by
  obtain ⟨S, hS, hI⟩ := pde_init H
  obtain ⟨g, c, hg, _, _, hv, _, hc, _, _, hcv⟩ := pde_cubic be H hI u h0 h1
  refine ⟨S, g, _, hS, hg, hv, by unfold Pde.dudtspec; rw [if_neg (by decide), if_pos rfl, hc], hI.lmax, hI.mmax, fun l hl m hm => ?_⟩
  dsimp only
  rw [hcv l hl m hm]
  unfold Pde.lap
  rw [hI.radius, hI.coeff]

theorem series_linear (norm : String) (cs : Bool) (nlon L M : ℕ) (a b c : ℕ → ℕ → ℂ) (t : ℝ) (th ph : ℝ)
    (e : ℕ → ℕ → ℂ) (he : ∀ l < L, ∀ m < M, e l m = (t : ℂ) * a l m + b l m - c l m) :
    harmonicSeries norm cs nlon L M e th ph = t * harmonicSeries norm cs nlon L M a th ph + harmonicSeries norm cs nlon L M b th ph
      - harmonicSeries norm cs nlon L M c th ph := by
  unfold harmonicSeries
  rw [mul_sum, ← sum_add_distrib, ← sum_sub_distrib]
  refine sum_congr rfl fun m hm => ?_
  have hm : m < min M (nlon / 2 + 1) := mem_range.1 hm
  rw [mul_left_comm, ← mul_add, ← mul_sub]
  congr 1
  rw [mul_sum, ← sum_add_distrib, ← sum_sub_distrib]
  refine sum_congr rfl fun l hl => ?_
  rw [he l (mem_range.1 hl) m (by omega)]
  simp only [Complex.sub_re, Complex.add_re, Complex.re_ofReal_mul, Complex.sub_im, Complex.add_im, Complex.im_ofReal_mul]
  ring

/-- C72 (the equation on the sphere). At every grid point away from the poles, the field of the Allen-Cahn tendency is
`coeff * Laplacian F + F - P(F^3)`: the Laplace-Beltrami operator of the sphere of the given radius applied to the field `F`, and the projection
`P` (analysis, then synthesis) of the cube of the field. -/
theorem C72_equation (env : Env) (be : C2R) (A : PdeArgs) (r : Rule) (d L : ℕ) (H : PdeBuilt env A r d L) (u : Mat ℂ) (h0 : u.d0 = L) (h1 : u.d1 = L) :
    ∃ S D E g c q, Pde.init env A = .ok S ∧ S.dudtspec be u "allen-cahn" = .ok D ∧ S.spec2grid be D = .ok E ∧
      S.spec2grid be u = .ok g ∧ S.grid2spec ⟨A.nlat, A.nlon, fun k j => g.val k j ^ 3⟩ = .ok c ∧ S.spec2grid be c = .ok q ∧
      E.d0 = A.nlat ∧ E.d1 = A.nlon ∧ ∀ k < A.nlat, ∀ j < A.nlon, Real.sin (Real.arccos (r.x (A.nlat - 1 - k))) ≠ 0 →
        E.val k j = A.coeff * laplaceBeltrami A.radius (harmonicSeries "ortho" false A.nlon L L u.val) (Real.arccos (r.x (A.nlat - 1 - k)))
          (2 * Real.pi * j / A.nlon) + g.val k j - q.val k j := by
  obtain ⟨S, hS, hI⟩ := pde_init H
  obtain ⟨g, c, hg, g0, g1, hv, hc', hc, c0, c1, _⟩ := pde_cubic be H hI u h0 h1
  obtain ⟨q, hq, _, _, hqv⟩ := pde_field be H hI c c0 c1
  obtain ⟨E, hE, E0, E1, hEv⟩ := pde_field be H hI ⟨S.lmax, S.mmax, fun l m => (S.coeff : ℂ) * (S.lap l : ℂ) * u.val l m + u.val l m - c.val l m⟩
    hI.lmax hI.mmax
  rw [g0, g1] at hc'
  refine ⟨S, _, E, g, c, q, hS, by unfold Pde.dudtspec; rw [if_pos rfl, hc], hE, hg, hc', hq, E0, E1, fun k hk j hj hs => ?_⟩
  rw [hEv k hk j hj, hv k hk j hj, hqv k hk j hj, laplace_series _ _ _ _ _ _ _ _ _ hs]
  refine series_linear _ _ _ _ _ _ _ _ _ _ _ _ fun l _ m _ => ?_
  dsimp only
  unfold Pde.lap
  rw [hI.radius, hI.coeff, mul_assoc]

/-- Coefficients of the constant field `a`. -/
noncomputable def constSpec (a : ℝ) (l m : ℕ) : ℂ := if l = 0 ∧ m = 0 then ((Real.sqrt (4 * Real.pi) * a : ℝ) : ℂ) else 0

theorem legendreTheta_zero (th : ℝ) : legendreTheta 0 0 th = 1 / Real.sqrt (4 * Real.pi) := by
  unfold legendreTheta legendreNorm
  rw [if_pos le_rfl, P_zero]
  simp

theorem series_const (nlon L : ℕ) (h : 0 < L) (a th ph : ℝ) : harmonicSeries "ortho" false nlon L L (constSpec a) th ph = a := by
  unfold harmonicSeries
  rw [sum_eq_single 0, sum_eq_single 0]
  · have : Real.sqrt (4 * Real.pi) ≠ 0 := (Real.sqrt_pos.2 (by positivity)).ne'
    simp [constSpec, realMult, synthFactor, csSign, tableScale, normScale, legendreTheta_zero]
    field_simp
  · intro l _ hl
    simp [constSpec, hl]
  · intro h'; exact absurd (mem_range.2 h) h'
  · intro m _ hm
    simp [constSpec, hm]
  · intro h'; exact absurd (mem_range.2 (by omega)) h'

/-- C72 (constant states). A spatially constant state `a` obeys the ordinary differential equation `da/dt = a - a^3`, exactly, on every grid; in
particular the states -1, 0 and 1 are stationary. -/
theorem C72_constant (env : Env) (be : C2R) (A : PdeArgs) (r : Rule) (d L : ℕ) (H : PdeBuilt env A r d L) (a : ℝ) :
    ∃ S g D, Pde.init env A = .ok S ∧ S.spec2grid be ⟨L, L, constSpec a⟩ = .ok g ∧ (∀ k < A.nlat, ∀ j < A.nlon, g.val k j = a) ∧
      S.dudtspec be ⟨L, L, constSpec a⟩ "allen-cahn" = .ok D ∧ ∀ l < L, ∀ m < L, D.val l m = constSpec (a - a ^ 3) l m := by
  obtain ⟨S, hS, hI⟩ := pde_init H
  obtain ⟨g, c, hg, g0, g1, hv, hc', hc, _, _, hcv⟩ := pde_cubic be H hI ⟨L, L, constSpec a⟩ rfl rfl
  have hga : ∀ k < A.nlat, ∀ j < A.nlon, g.val k j = a := fun k hk j hj => by rw [hv k hk j hj]; exact series_const _ _ H.pos _ _ _
  obtain ⟨T, I, f, c', hT, hI', hf, hfc, c0', c1', hround⟩ := C14_roundtrip env be A.transform r d L H.lon_pos H.rule H.exact H.trunc H.pos H.deg H.ord
    ⟨L, L, constSpec (a ^ 3)⟩ rfl rfl (fun l _ m _ hlm => by simp only [constSpec]; rw [if_neg (by omega)])
    (fun l _ => by simp only [constSpec]; split_ifs <;> simp [-Complex.ofReal_mul])
    (fun l _ m _ hm => by simp only [constSpec]; split_ifs <;> simp [-Complex.ofReal_mul])
  rw [hI.sht] at hT; cases hT
  rw [hI.isht] at hI'; cases hI'
  obtain ⟨f1, hf1, f0, f1', hfv⟩ := pde_field be H hI ⟨L, L, constSpec (a ^ 3)⟩ rfl rfl
  have : f1 = f := by
    have : (Except.ok f1 : Except PyErr _) = .ok f := by rw [← hf1, ← hf]; rfl
    exact Except.ok.inj this
  subst this
  obtain ⟨c2, hc2, _, _, hcv2⟩ := pde_analysis H hI f1 f0 f1'
  have : c2 = c' := by
    have : (Except.ok c2 : Except PyErr _) = .ok c' := by rw [← hc2, ← hfc]; rfl
    exact Except.ok.inj this
  subst this
  refine ⟨S, g, _, hS, hg, hga, by unfold Pde.dudtspec; rw [if_pos rfl, hc], fun l hl m hm => ?_⟩
  have e : c.val l m = constSpec (a ^ 3) l m := by
    have hr2 : c2.val l m = constSpec (a ^ 3) l m := hround l hl m hm
    rw [← hr2, hcv l hl m hm, hcv2 l hl m hm]
    unfold quadCoeff
    refine sum_congr rfl fun k hk => sum_congr rfl fun j hj => ?_
    beta_reduce
    rw [hga k (mem_range.1 hk) j (mem_range.1 hj), hfv k (mem_range.1 hk) j (mem_range.1 hj), series_const _ _ H.pos]
  dsimp only
  rw [e]
  unfold constSpec
  by_cases h : l = 0 ∧ m = 0
  · rw [if_pos h, if_pos h, if_pos h, h.1]
    unfold Pde.lap
    push_cast
    simp
    ring
  · rw [if_neg h, if_neg h, if_neg h]; ring

/-- The cubic term depends only on the field. -/
theorem pde_cubic_congr {env : Env} (be : C2R) {A : PdeArgs} {r : Rule} {d L : ℕ} (H : PdeBuilt env A r d L) {S : Pde} (hS : PdeIs env A r L S)
    (u v : Mat ℂ) (hu0 : u.d0 = L) (hu1 : u.d1 = L) (hv0 : v.d0 = L) (hv1 : v.d1 = L)
    (h : ∀ l < L, ∀ m < L, admissible A.nlon u.val l m = admissible A.nlon v.val l m) :
    ∃ gu gv cu cv, S.spec2grid be u = .ok gu ∧ S.spec2grid be v = .ok gv ∧ S.cubic be u = .ok cu ∧ S.cubic be v = .ok cv ∧
      (∀ k < A.nlat, ∀ j < A.nlon, gu.val k j = gv.val k j) ∧ ∀ l < L, ∀ m < L, cu.val l m = cv.val l m := by
  obtain ⟨I, f, f', hI, hf, hf', _, _, _, _, hff⟩ := C15_synthesis_admissible env be A.transform r d L H.lon_pos H.rule H.exact H.trunc H.pos u v hu0 hu1 hv0 hv1 h
  rw [hS.isht] at hI; cases hI
  obtain ⟨gu, cu, e1, _, _, _, _, e2, _, _, e3⟩ := pde_cubic be H hS u hu0 hu1
  obtain ⟨gv, cv, e4, _, _, _, _, e5, _, _, e6⟩ := pde_cubic be H hS v hv0 hv1
  have a1 : f = gu := by
    have : (Except.ok f : Except PyErr _) = .ok gu := by rw [← hf, ← e1]; rfl
    exact Except.ok.inj this
  have a2 : f' = gv := by
    have : (Except.ok f' : Except PyErr _) = .ok gv := by rw [← hf', ← e4]; rfl
    exact Except.ok.inj this
  subst a1 a2
  refine ⟨f, f', cu, cv, e1, e4, e2, e5, hff, fun l hl m hm => ?_⟩
  rw [e3 l hl m hm, e6 l hl m hm]
  unfold quadCoeff
  refine sum_congr rfl fun k hk => sum_congr rfl fun j hj => ?_
  beta_reduce
  rw [hff k (mem_range.1 hk) j (mem_range.1 hj)]

/-- C72 (invisible components). Two states that differ only in what no real field determines (orders above the degree, imaginary parts at order 0 and at the
Nyquist order) have the same field, and the tendency of the difference is linear: the cubic terms do not see it. `randspec` returns such components. -/
theorem C72_invisible (env : Env) (be : C2R) (A : PdeArgs) (r : Rule) (d L : ℕ) (H : PdeBuilt env A r d L) (u v : Mat ℂ) (hu0 : u.d0 = L) (hu1 : u.d1 = L)
    (hv0 : v.d0 = L) (hv1 : v.d1 = L) (h : ∀ l < L, ∀ m < L, admissible A.nlon u.val l m = admissible A.nlon v.val l m) :
    ∃ S gu gv Du Dv Gu Gv, Pde.init env A = .ok S ∧ S.spec2grid be u = .ok gu ∧ S.spec2grid be v = .ok gv ∧
      S.dudtspec be u "allen-cahn" = .ok Du ∧ S.dudtspec be v "allen-cahn" = .ok Dv ∧
      S.dudtspec be u "ginzburg-landau" = .ok Gu ∧ S.dudtspec be v "ginzburg-landau" = .ok Gv ∧
      (∀ k < A.nlat, ∀ j < A.nlon, gu.val k j = gv.val k j) ∧ ∀ l < L, ∀ m < L,
        Du.val l m - Dv.val l m = (1 + (A.coeff : ℂ) * ((-(l : ℝ) * (l + 1) / A.radius ^ 2 : ℝ) : ℂ)) * (u.val l m - v.val l m) ∧
        Gu.val l m - Gv.val l m = (1 + (1 + 2 * Complex.I) * (A.coeff : ℂ) * ((-(l : ℝ) * (l + 1) / A.radius ^ 2 : ℝ) : ℂ)) * (u.val l m - v.val l m) := by
  obtain ⟨S, hS, hI⟩ := pde_init H
  obtain ⟨gu, gv, cu, cv, e1, e2, e3, e4, hg, hc⟩ := pde_cubic_congr be H hI u v hu0 hu1 hv0 hv1 h
  refine ⟨S, gu, gv, _, _, _, _, hS, e1, e2, by unfold Pde.dudtspec; rw [if_pos rfl, e3], by unfold Pde.dudtspec; rw [if_pos rfl, e4],
    by unfold Pde.dudtspec; rw [if_neg (by decide), if_pos rfl, e3], by unfold Pde.dudtspec; rw [if_neg (by decide), if_pos rfl, e4], hg, fun l hl m hm => ?_⟩
  dsimp only
  rw [hc l hl m hm]
  unfold Pde.lap
  rw [hI.radius, hI.coeff]
  constructor <;> ring

/-- C72 (the Ginzburg-Landau field is real). The constant imaginary state `i b`, a non-trivial state of the Ginzburg-Landau equation, has the field 0 and grows
exponentially without saturation: its tendency is the state itself, the cubic term is missing. -/
theorem C72_imaginary_state (env : Env) (be : C2R) (A : PdeArgs) (r : Rule) (d L : ℕ) (H : PdeBuilt env A r d L) (b : ℝ) :
    ∃ S g D, Pde.init env A = .ok S ∧ S.spec2grid be ⟨L, L, fun l m => Complex.I * constSpec b l m⟩ = .ok g ∧ (∀ k < A.nlat, ∀ j < A.nlon, g.val k j = 0) ∧
      S.dudtspec be ⟨L, L, fun l m => Complex.I * constSpec b l m⟩ "ginzburg-landau" = .ok D ∧
      ∀ l < L, ∀ m < L, D.val l m = Complex.I * constSpec b l m := by
  obtain ⟨S, g, D, hS, hg, hv, hD, _, _, hDv⟩ := C72_ginzburg_landau env be A r d L H ⟨L, L, fun l m => Complex.I * constSpec b l m⟩ rfl rfl
  have hz : ∀ k < A.nlat, ∀ j < A.nlon, g.val k j = 0 := by
    intro k hk j hj
    rw [hv k hk j hj]
    unfold harmonicSeries
    refine sum_eq_zero fun m _ => ?_
    rw [sum_eq_zero, mul_zero]
    intro l _
    simp only [constSpec]
    by_cases h : l = 0 ∧ m = 0
    · rw [if_pos h, h.2]; simp [-Complex.ofReal_mul]
    · rw [if_neg h]; simp
  refine ⟨S, g, D, hS, hg, hz, hD, fun l hl m hm => ?_⟩
  rw [hDv l hl m hm]
  have hq : quadCoeff A.nlat A.nlon r.x r.w (fun k j => g.val k j ^ 3) l m = 0 := by
    unfold quadCoeff
    refine sum_eq_zero fun k hk => sum_eq_zero fun j hj => ?_
    beta_reduce
    rw [hz k (mem_range.1 hk) j (mem_range.1 hj)]
    simp
  rw [hq]
  dsimp only
  unfold constSpec
  by_cases h : l = 0 ∧ m = 0
  · rw [if_pos h, h.1]; simp
  · rw [if_neg h]; simp

/-- C72 (symmetries). Both equations are odd, and commute with rotations about the polar axis by grid points. -/
theorem C72_symmetries (env : Env) (be : C2R) (A : PdeArgs) (r : Rule) (d L : ℕ) (H : PdeBuilt env A r d L) (pde : String)
    (hp : pde = "allen-cahn" ∨ pde = "ginzburg-landau") (u v : Mat ℂ) (hu0 : u.d0 = L) (hu1 : u.d1 = L) (hv0 : v.d0 = L) (hv1 : v.d1 = L) :
    ∃ S Du Dv, Pde.init env A = .ok S ∧ S.dudtspec be u pde = .ok Du ∧ S.dudtspec be v pde = .ok Dv ∧
      ((∀ l < L, ∀ m < L, v.val l m = -u.val l m) → ∀ l < L, ∀ m < L, Dv.val l m = -Du.val l m) ∧
      ∀ s : ℕ, (∀ l < L, ∀ m < L, v.val l m = Complex.exp (2 * Real.pi * Complex.I * s * m / A.nlon) * u.val l m) →
        ∀ l < L, ∀ m < L, Dv.val l m = Complex.exp (2 * Real.pi * Complex.I * s * m / A.nlon) * Du.val l m := by
  obtain ⟨S, hS, hI⟩ := pde_init H
  obtain ⟨gu, cu, e1, gu0, gu1, e1v, hcu', hcu, _, _, ecu⟩ := pde_cubic be H hI u hu0 hu1
  obtain ⟨gv, cv, e2, gv0, gv1, e2v, hcv', hcv, _, _, ecv⟩ := pde_cubic be H hI v hv0 hv1
  have hodd : (∀ l < L, ∀ m < L, v.val l m = -u.val l m) → ∀ l < L, ∀ m < L, cv.val l m = -cu.val l m := by
    intro h l hl m hm
    have hg : ∀ k < A.nlat, ∀ j < A.nlon, gv.val k j = -gu.val k j := by
      intro k hk j hj
      rw [e2v k hk j hj, e1v k hk j hj]
      have := series_linear "ortho" false A.nlon L L (fun _ _ => 0) (fun _ _ => 0) u.val 0 (Real.arccos (r.x (A.nlat - 1 - k))) (2 * Real.pi * j / A.nlon) v.val
        (fun l hl m hm => by rw [h l hl m hm]; simp)
      rw [this]
      simp [harmonicSeries]
    rw [ecv l hl m hm, ecu l hl m hm]
    unfold quadCoeff
    rw [← sum_neg_distrib]
    refine sum_congr rfl fun k hk => ?_
    rw [← sum_neg_distrib]
    refine sum_congr rfl fun j hj => ?_
    beta_reduce
    rw [hg k (mem_range.1 hk) j (mem_range.1 hj)]
    push_cast
    ring
  have hrot : ∀ s : ℕ, (∀ l < L, ∀ m < L, v.val l m = Complex.exp (2 * Real.pi * Complex.I * s * m / A.nlon) * u.val l m) →
      ∀ l < L, ∀ m < L, cv.val l m = Complex.exp (2 * Real.pi * Complex.I * s * m / A.nlon) * cu.val l m := by
    intro s h
    obtain ⟨n1, n2, n3, n4⟩ := hI.s1
    obtain ⟨i1, i2, i3, i4⟩ := hI.s2
    obtain ⟨fu, fv, a1, a2, hf⟩ := C16_synthesis_rotation be S.isht (by rw [i2]; exact H.lon_pos) (by rw [i4]; exact H.pos) u v s ⟨by omega, by omega⟩ ⟨by omega, by omega⟩
      (by rw [i3, i4, i2]; exact h)
    have b1 : fu = gu := by
      have : (Except.ok fu : Except PyErr _) = .ok gu := by rw [← a1, ← e1]; rfl
      exact Except.ok.inj this
    have b2 : fv = gv := by
      have : (Except.ok fv : Except PyErr _) = .ok gv := by rw [← a2, ← e2]; rfl
      exact Except.ok.inj this
    subst b1 b2
    obtain ⟨x, y, x1, y1, hxy⟩ := C16_analysis_rotation S.sht (by rw [n2]; exact H.lon_pos) ⟨fu.d0, fu.d1, fun k j => fu.val k j ^ 3⟩
      ⟨fv.d0, fv.d1, fun k j => fv.val k j ^ 3⟩ s ⟨by dsimp only; omega, by dsimp only; omega⟩ ⟨by dsimp only; omega, by dsimp only; omega⟩
      (fun k hk j hj => by
        dsimp only
        rw [n1] at hk
        rw [n2] at hj ⊢
        rw [hf k (by omega) j (by omega), i2])
    have b3 : x = cu := by
      have : (Except.ok x : Except PyErr _) = .ok cu := by rw [← x1, ← hcu']; rfl
      exact Except.ok.inj this
    have b4 : y = cv := by
      have : (Except.ok y : Except PyErr _) = .ok cv := by rw [← y1, ← hcv']; rfl
      exact Except.ok.inj this
    subst b3 b4
    rw [n3, n4, n2] at hxy
    exact hxy
  rcases hp with rfl | rfl
  · refine ⟨S, _, _, hS, by unfold Pde.dudtspec; rw [if_pos rfl, hcu], by unfold Pde.dudtspec; rw [if_pos rfl, hcv], fun h l hl m hm => ?_, fun s h l hl m hm => ?_⟩
    · dsimp only
      rw [h l hl m hm, hodd h l hl m hm]; ring
    · dsimp only
      rw [h l hl m hm, hrot s h l hl m hm]; ring
  · refine ⟨S, _, _, hS, by unfold Pde.dudtspec; rw [if_neg (by decide), if_pos rfl, hcu], by unfold Pde.dudtspec; rw [if_neg (by decide), if_pos rfl, hcv],
      fun h l hl m hm => ?_, fun s h l hl m hm => ?_⟩
    · dsimp only
      rw [h l hl m hm, hodd h l hl m hm]; ring
    · dsimp only
      rw [h l hl m hm, hrot s h l hl m hm]; ring

/-- C72 (tables). The stored latitudes and longitudes are those of the rows and columns of the transforms; `lap` and `invlap` are inverse to each other except on
degree 0, which both annihilate. -/
theorem C72_tables (env : Env) (A : PdeArgs) (r : Rule) (d L : ℕ) (H : PdeBuilt env A r d L) :
    ∃ S, Pde.init env A = .ok S ∧ (∀ k < A.nlat, S.lats k = Real.pi / 2 - Real.arccos (r.x (A.nlat - 1 - k))) ∧
      (∀ j < A.nlon, S.lons j = 2 * Real.pi * j / A.nlon) ∧ (∀ l, 1 ≤ l → S.lap l * S.invlap l = 1) ∧ S.lap 0 = 0 ∧ S.invlap 0 = 0 := by
  obtain ⟨S, hS, hI⟩ := pde_init H
  refine ⟨S, hS, fun k hk => ?_, fun j hj => ?_, fun l hl => ?_, by simp [Pde.lap], by simp [Pde.invlap]⟩
  · rw [hI.lats, H.exact.symm_x k hk, Real.arccos_neg, Real.arccos]
    ring
  · rw [hI.lons]
    exact (C05_longitudes A.nlon j hj).1
  · unfold Pde.lap Pde.invlap
    rw [if_neg (by omega), hI.radius]
    have hl1 : (l : ℝ) ≠ 0 := by exact_mod_cast (by omega : l ≠ 0)
    have hl2 : (l : ℝ) + 1 ≠ 0 := by positivity
    have hR := H.radius_ne
    field_simp

/-- C72 (error branches). Other equations are rejected whatever the state; states of the wrong shape are rejected by both equations; unknown grids are rejected
by the constructor. -/
theorem C72_errors (env : Env) (be : C2R) (A : PdeArgs) (r : Rule) (d L : ℕ) (H : PdeBuilt env A r d L) (u : Mat ℂ) (pde : String) :
    ∃ S, Pde.init env A = .ok S ∧ (pde ≠ "allen-cahn" → pde ≠ "ginzburg-landau" → S.dudtspec be u pde = .error .notImplemented) ∧
      (pde = "allen-cahn" ∨ pde = "ginzburg-landau" → (u.d0 ≠ L ∨ u.d1 ≠ L) → S.dudtspec be u pde = .error .runtimeError) := by
  obtain ⟨S, hS, hI⟩ := pde_init H
  refine ⟨S, hS, fun h1 h2 => by unfold Pde.dudtspec; rw [if_neg h1, if_neg h2], fun hp hu => ?_⟩
  have hc : S.cubic be u = .error .runtimeError := by
    unfold Pde.cubic Pde.spec2grid InverseRealSHT.forward
    rw [hI.s2.2.2.1, hI.s2.2.2.2]
    by_cases h : u.d0 = L
    · rw [if_neg (by simp [h]), if_pos (by rcases hu with hu | hu <;> [exact absurd h hu; exact hu])]
    · rw [if_pos h]
  rcases hp with rfl | rfl
  · unfold Pde.dudtspec; rw [if_pos rfl, hc]
  · unfold Pde.dudtspec; rw [if_neg (by decide), if_pos rfl, hc]

/-- C72 (unknown grids). -/
theorem C72_unknown_grid (env : Env) (A : PdeArgs) (h1 : A.grid ≠ "legendre-gauss") (h2 : A.grid ≠ "lobatto") (h3 : A.grid ≠ "equiangular") :
    Pde.init env A = .error .valueError := by
  have : RealSHT.init env A.transform = .error .valueError := by
    unfold RealSHT.init gridRule PdeArgs.transform
    dsimp only
    rw [if_neg h1, if_neg h2, if_neg h3]
    rfl
  unfold Pde.init
  rw [this]

/-- The solver is built, with every hypothesis above, at the default truncation on `equiangular` and `legendre-gauss` grids. -/
theorem C72_default (env : Env) (A : PdeArgs) (hg : A.grid = "equiangular" ∨ (A.grid = "legendre-gauss" ∧ IsGaussRule (env.gauss A.nlat) A.nlat))
    (h : 2 ≤ A.nlat) (h' : 1 ≤ A.nlon) (hl : A.lmax = none) (hm : A.mmax = none) (hR : A.radius ≠ 0) : ∃ r d L, PdeBuilt env A r d L := by
  obtain ⟨r, d, L, h1, h2, h3, h4, h5, h6⟩ := default_grid env A.transform hg h h' hl hm
  exact ⟨r, d, L, h', hR, h1, h2, h3, h4, h5, h6⟩

/-- The hypotheses are met: 8 latitudes, 16 longitudes, unit radius; the state 1 is stationary. -/
example (env : Env) (be : C2R) : ∃ S L D, Pde.init env ⟨8, 16, 0.1, none, none, "equiangular", 1, 0.001⟩ = .ok S ∧
    S.dudtspec be ⟨L, L, constSpec 1⟩ "allen-cahn" = .ok D ∧ 0 < L ∧ ∀ l < L, ∀ m < L, D.val l m = 0 := by
  obtain ⟨r, d, L, H⟩ := C72_default env ⟨8, 16, 0.1, none, none, "equiangular", 1, 0.001⟩ (Or.inl rfl) (by norm_num) (by norm_num) rfl rfl (by norm_num)
  obtain ⟨S, g, D, hS, _, _, hD, hv⟩ := C72_constant env be _ r d L H 1
  refine ⟨S, L, D, hS, hD, H.pos, fun l hl m hm => ?_⟩
  rw [hv l hl m hm]
  simp [constSpec]

end Verif.Props
