import Verif.Props.SpectralConv
import Verif.Model.RandomFields
/-!
Property theorems C21: Gaussian random fields on the sphere.
-/
namespace Verif.Props
open Verif Verif.Dist Verif.FFT Verif.Quad Verif.Legendre Verif.Truncation Verif.Spec Verif.SHT Finset

/-- The transform arguments of the generator. -/
def grfTransform (A : GrfArgs) : Args := ⟨A.nlat, 2 * A.nlat, none, none, A.grid, "backward", true⟩

/-- The hypotheses under which the generator is built. -/
structure GrfBuilt (env : Env) (A : GrfArgs) (sigma : ℝ) (r : Rule) (d L : ℕ) : Prop where
  sigma_ok : (A.sigma = some sigma) ∨ (A.sigma = none ∧ 1 < A.alpha ∧ sigma = A.tau ^ (A.alpha - 1))
  lat_pos : 0 < A.nlat
  rule : gridRule env.gauss env.tol env.maxiter A.nlat A.grid = .ok r
  exact : SymmetricExactRule r A.nlat d
  trunc : sizes A.nlat (2 * A.nlat : ℕ) none none A.grid = .ok (L, L)
  L_pos : 0 < L
  deg : 2 * (L - 1) ≤ d
  ord : 2 * (L - 1) ≤ 2 * A.nlat

/-- The power spectrum announced by the class: degree `l`, amplitude `sigma`. -/
noncomputable def maternSpectrum (A : GrfArgs) (sigma : ℝ) (l : ℕ) : ℝ :=
  sigma ^ 2 * (((l : ℝ) * (l + 1)) / A.radius ^ 2 + A.tau ^ 2) ^ (-A.alpha)

theorem grf_init {env : Env} {A : GrfArgs} {sigma : ℝ} {r : Rule} {d L : ℕ} (H : GrfBuilt env A sigma r d L) :
    ∃ I, InverseRealSHT.init env (grfTransform A) = .ok I ∧ Grf.init env A = .ok ⟨I, grfSqrtEig A sigma⟩ ∧
      I.nlat = A.nlat ∧ I.nlon = 2 * A.nlat ∧ I.lmax = L ∧ I.mmax = L := by
  have e := inverseRealSHT_init env (grfTransform A) r L H.rule H.trunc H.L_pos
  have hL := H.L_pos
  refine ⟨_, e, ?_, rfl, rfl, rfl, rfl⟩
  have hs : grfSigma A = .ok sigma := by
    unfold grfSigma
    rcases H.sigma_ok with h | ⟨h, h1, h2⟩
    · rw [h]
    · rw [h]
      dsimp only
      rw [if_neg (by linarith), h2]
      congr 2
      ring
  unfold Grf.init
  rw [hs]
  dsimp only
  have e' : InverseRealSHT.init env ⟨A.nlat, 2 * A.nlat, none, none, A.grid, "backward", true⟩ = _ := e
  rw [e']
  dsimp only
  rw [if_neg (by omega)]

/-- The noise actually used. -/
def grfNoise (noise : ℕ → ℕ → ℂ) (xi : Option (Mat ℂ)) : ℕ → ℕ → ℂ := match xi with | some x => x.val | none => noise

theorem grf_forward {env : Env} (be : C2R) {A : GrfArgs} {sigma : ℝ} {r : Rule} {d L : ℕ} (H : GrfBuilt env A sigma r d L)
    (noise : ℕ → ℕ → ℂ) (xi : Option (Mat ℂ)) (hxi : ∀ x, xi = some x → x.d0 = L ∧ x.d1 = L) :
    ∃ (G : Grf) (I : InverseRealSHT) (c : Mat ℂ), Grf.init env A = .ok G ∧ InverseRealSHT.init env (grfTransform A) = .ok I ∧
      c.d0 = L ∧ c.d1 = L ∧ (∀ l < L, ∀ m < L, c.val l m = grfNoise noise xi l m * (grfSqrtEig A sigma l m : ℂ)) ∧
      G.forward be noise xi = I.forward be c := by
  obtain ⟨I, hI, hG, _, _, h3, h4⟩ := grf_init H
  set x : Mat ℂ := Grf.xi ⟨I, grfSqrtEig A sigma⟩ noise xi with hx
  have x0 : x.d0 = L := by
    rw [hx]; cases xi with
    | none => exact h3
    | some x => exact (hxi x rfl).1
  have x1 : x.d1 = L := by
    rw [hx]; cases xi with
    | none => exact h4
    | some x => exact (hxi x rfl).2
  have xv : x.val = grfNoise noise xi := by
    rw [hx]; cases xi <;> rfl
  refine ⟨_, I, ⟨L, L, fun l m => x.val (bidx L l) (bidx L m) * (grfSqrtEig A sigma (bidx L l) (bidx L m) : ℂ)⟩, hG, hI, rfl, rfl, ?_, ?_⟩
  · intro l hl m hm
    simp only [bidx_lt _ _ hl, bidx_lt _ _ hm, xv]
  · unfold Grf.forward
    dsimp only
    rw [← hx, x0, x1, h3, h4, bcast_self]

/-- C21. Every sample is the spherical harmonic series of the noise scaled by the spectrum, on the grid of the generator. -/
theorem C21_value (env : Env) (be : C2R) (A : GrfArgs) (sigma : ℝ) (r : Rule) (d L : ℕ) (H : GrfBuilt env A sigma r d L)
    (noise : ℕ → ℕ → ℂ) (xi : Option (Mat ℂ)) (hxi : ∀ x, xi = some x → x.d0 = L ∧ x.d1 = L) :
    ∃ G u, Grf.init env A = .ok G ∧ G.forward be noise xi = .ok u ∧ u.d0 = A.nlat ∧ u.d1 = 2 * A.nlat ∧
      ∀ k < A.nlat, ∀ j < 2 * A.nlat, u.val k j = harmonicSeries "backward" true (2 * A.nlat) L L
        (fun l m => if m ≤ l ∧ 1 ≤ l then grfNoise noise xi l m *
          ((sigma * (((l : ℝ) * (l + 1)) / A.radius ^ 2 + A.tau ^ 2) ^ (-A.alpha / 2) : ℝ) : ℂ) else 0)
        (Real.arccos (r.x (A.nlat - 1 - k))) (2 * Real.pi * j / (2 * A.nlat : ℕ)) := by
  obtain ⟨G, I, c, hG, hI, c0, c1, cv, hf⟩ := grf_forward be H noise xi hxi
  have hlat := H.lat_pos
  obtain ⟨I', u, hI', hu, u0, u1, uv⟩ := C59_synthesis_value env be (grfTransform A) r d L (by show 0 < 2 * A.nlat; omega) H.rule H.exact
    H.trunc H.L_pos c c0 c1
  rw [hI] at hI'; cases hI'
  refine ⟨G, u, hG, hf.trans hu, u0, u1, fun k hk j hj => ?_⟩
  refine (uv k hk j hj).trans ?_
  apply harmonicSeries_congr
  intro l hl m hm
  rw [cv l hl m hm]
  unfold grfSqrtEig
  by_cases h : m ≤ l ∧ 1 ≤ l
  · rw [if_pos h, if_neg (by omega), if_pos h.1]
  · rw [if_neg h]
    by_cases h0 : l = 0 ∧ m = 0
    · rw [if_pos h0]; simp
    · rw [if_neg h0, if_neg (by omega)]; simp

/-- C21. The analysis of a sample returns the scaled noise: the coefficient `(0, 0)` is exactly zero, for every draw, and so is everything
above the diagonal. -/
theorem C21_zero_coefficient (env : Env) (be : C2R) (A : GrfArgs) (sigma : ℝ) (r : Rule) (d L : ℕ) (H : GrfBuilt env A sigma r d L)
    (noise : ℕ → ℕ → ℂ) (xi : Option (Mat ℂ)) (hxi : ∀ x, xi = some x → x.d0 = L ∧ x.d1 = L) :
    ∃ G u T c, Grf.init env A = .ok G ∧ G.forward be noise xi = .ok u ∧ RealSHT.init env (grfTransform A) = .ok T ∧
      T.forward u = .ok c ∧ c.val 0 0 = 0 ∧ (∀ l < L, ∀ m < L, l < m → c.val l m = 0) ∧
      ∀ l < L, ∀ m < L, m ≤ l → 1 ≤ m → m < A.nlat → c.val l m = grfNoise noise xi l m *
        ((sigma * (((l : ℝ) * (l + 1)) / A.radius ^ 2 + A.tau ^ 2) ^ (-A.alpha / 2) : ℝ) : ℂ) := by
  obtain ⟨G, I, c, hG, hI, c0, c1, cv, hf⟩ := grf_forward be H noise xi hxi
  have hlat := H.lat_pos
  obtain ⟨T, I', u, c', hT, hI', hu, hc', _, _, hv⟩ := C14_analysis_of_synthesis env be (grfTransform A) r d L (by show 0 < 2 * A.nlat; omega) H.rule
    H.exact H.trunc H.L_pos H.deg H.ord c c0 c1
  rw [hI] at hI'; cases hI'
  refine ⟨G, u, T, c', hG, hf.trans hu, hT, hc', ?_, ?_, ?_⟩
  · rw [hv 0 H.L_pos 0 H.L_pos]
    unfold admissible
    rw [cv 0 H.L_pos 0 H.L_pos]
    simp [grfSqrtEig]
  · intro l hl m hm h
    rw [hv l hl m hm, admissible, if_pos h]
  · intro l hl m hm h h1 h2
    rw [hv l hl m hm, admissible, if_neg (by omega), if_neg (by show ¬ (m = 0 ∨ 2 * m = 2 * A.nlat); omega), cv l hl m hm]
    unfold grfSqrtEig
    rw [if_neg (by omega), if_pos h]

/-- The quadrature is proportional to the `(0, 0)` coefficient of the analysis. -/
theorem quad_of_coefficient (env : Env) (a : Args) (r : Rule) (d L : ℕ) (hn : 0 < a.nlon)
    (hr : gridRule env.gauss env.tol env.maxiter a.nlat a.grid = .ok r) (hx : SymmetricExactRule r a.nlat d)
    (hL : sizes a.nlat a.nlon a.lmax a.mmax a.grid = .ok (L, L)) (h0 : 0 < L) (hm : 2 * (L - 1) ≤ a.nlon)
    (f : Mat ℝ) (hf0 : f.d0 = a.nlat) (hf1 : f.d1 = a.nlon) (nrm : Bool) (S : RealSHT) (c : Mat ℂ) (hS : RealSHT.init env a = .ok S)
    (hc : S.forward f = .ok c) (hz : c.val 0 0 = 0) : quadForward r a.nlon nrm f.val = 0 := by
  obtain ⟨S', c', hS', hc', _, _, hv⟩ := C59_analysis_value env a r d L hn hr hx hL h0 hm f hf0 hf1
  rw [hS] at hS'; cases hS'
  rw [hc] at hc'; cases hc'
  have h := hv 0 h0 0 h0
  rw [hz] at h
  set q : ℝ := tableScale a.norm false 0 * legendreNorm 0 0 with hq
  have hA : ∀ x, assocLegendre 0 0 x = legendreNorm 0 0 := by
    intro x
    simp [assocLegendre, legendreDeriv, rodriguesBase]
  have hq0 : q ≠ 0 := by
    have h1 := tableScale_mul a.norm 0
    have h2 : tableScale a.norm false 0 ≠ 0 := fun h => by rw [h] at h1; simp at h1
    have h3 : legendreNorm 0 0 ≠ 0 := by
      unfold legendreNorm
      have := Real.pi_pos
      positivity
    exact mul_ne_zero h2 h3
  have e : (0 : ℂ) = ((q * ∑ k ∈ range a.nlat, ∑ j ∈ range a.nlon, f.val k j * (2 * Real.pi / a.nlon * r.w k) : ℝ) : ℂ) := by
    rw [h, mul_sum]
    push_cast
    refine sum_congr rfl fun k _ => ?_
    rw [mul_sum]
    refine sum_congr rfl fun j _ => ?_
    rw [hA]
    have : csSign a.csphase 0 = 1 := by unfold csSign; split_ifs <;> simp
    rw [this]
    simp [hq]
    ring
  have e' : q * ∑ k ∈ range a.nlat, ∑ j ∈ range a.nlon, f.val k j * (2 * Real.pi / a.nlon * r.w k) = 0 := by exact_mod_cast e.symm
  have e2 := (mul_eq_zero.1 e').resolve_left hq0
  unfold quadForward quadWeight
  rw [hx.size]
  cases nrm with
  | false => simpa using e2
  | true =>
    simp only [if_true]
    have : ∀ k j, f.val k j * (2 * Real.pi / a.nlon * r.w k / (4 * Real.pi)) = f.val k j * (2 * Real.pi / a.nlon * r.w k) / (4 * Real.pi) := by
      intros; ring
    simp only [this, ← sum_div]
    rw [e2]; simp

/-- C21. The quadrature integral (and the mean) of every sample is exactly zero. -/
theorem C21_zero_integral (env : Env) (be : C2R) (A : GrfArgs) (sigma : ℝ) (r : Rule) (d L : ℕ) (H : GrfBuilt env A sigma r d L)
    (noise : ℕ → ℕ → ℂ) (xi : Option (Mat ℂ)) (hxi : ∀ x, xi = some x → x.d0 = L ∧ x.d1 = L) (normalize : Bool) :
    ∃ G u, Grf.init env A = .ok G ∧ G.forward be noise xi = .ok u ∧ quadForward r (2 * A.nlat) normalize u.val = 0 := by
  obtain ⟨G, u, T, c, hG, hu, hT, hc, h0, _, _⟩ := C21_zero_coefficient env be A sigma r d L H noise xi hxi
  obtain ⟨G', u', hG', hu', u0, u1, _⟩ := C21_value env be A sigma r d L H noise xi hxi
  rw [hG] at hG'; cases hG'
  rw [hu] at hu'; cases hu'
  have hlat := H.lat_pos
  exact ⟨G, u, hG, hu, quad_of_coefficient env (grfTransform A) r d L (by show 0 < 2 * A.nlat; omega) H.rule H.exact H.trunc H.L_pos H.ord u u0 u1
    normalize T c hT hc h0⟩

/-- C21. The sample is a linear function of the noise. -/
theorem C21_linear (env : Env) (be : C2R) (A : GrfArgs) (sigma : ℝ) (r : Rule) (d L : ℕ) (H : GrfBuilt env A sigma r d L)
    (noise : ℕ → ℕ → ℂ) (x y z : Mat ℂ) (hx : x.d0 = L ∧ x.d1 = L) (hy : y.d0 = L ∧ y.d1 = L) (hz : z.d0 = L ∧ z.d1 = L) (s t : ℝ)
    (hv : ∀ l < L, ∀ m < L, z.val l m = s * x.val l m + t * y.val l m) :
    ∃ G u v w, Grf.init env A = .ok G ∧ G.forward be noise (some x) = .ok u ∧ G.forward be noise (some y) = .ok v ∧
      G.forward be noise (some z) = .ok w ∧ ∀ k < A.nlat, ∀ j < 2 * A.nlat, w.val k j = s * u.val k j + t * v.val k j := by
  obtain ⟨G, I, cx, hG, hI, x0, x1, xv, hfx⟩ := grf_forward be H noise (some x) (fun x' h => by cases h; exact hx)
  obtain ⟨G', I', cy, hG', hI', y0, y1, yv, hfy⟩ := grf_forward be H noise (some y) (fun x' h => by cases h; exact hy)
  rw [hG] at hG'; cases hG'
  rw [hI] at hI'; cases hI'
  obtain ⟨G', I', cz, hG', hI', z0, z1, zv, hfz⟩ := grf_forward be H noise (some z) (fun x' h => by cases h; exact hz)
  rw [hG] at hG'; cases hG'
  rw [hI] at hI'; cases hI'
  obtain ⟨J, hJ, _, i1, i2, i3, i4⟩ := grf_init H
  rw [hI] at hJ; cases hJ
  have hlat := H.lat_pos
  obtain ⟨u, v, w, e1, e2, e3, e4⟩ := C16_synthesis_linear be I (by omega) (by rw [i4]; exact H.L_pos) cx cy cz s t
    ⟨by omega, by omega⟩ ⟨by omega, by omega⟩ ⟨by omega, by omega⟩ (fun l hl m hm => by
      rw [i3] at hl; rw [i4] at hm
      rw [xv l hl m hm, yv l hl m hm, zv l hl m hm]
      simp only [grfNoise]
      rw [hv l hl m hm]; ring)
  refine ⟨G, u, v, w, hG, hfx.trans e1, hfy.trans e2, hfz.trans e3, fun k hk j hj => e4 k (by omega) j (by omega)⟩

/-- C21. Only the modes `m <= l`, other than `(0, 0)`, matter: two noise arrays that agree there give the same sample. -/
theorem C21_modes (env : Env) (be : C2R) (A : GrfArgs) (sigma : ℝ) (r : Rule) (d L : ℕ) (H : GrfBuilt env A sigma r d L)
    (noise : ℕ → ℕ → ℂ) (x y : Mat ℂ) (hx : x.d0 = L ∧ x.d1 = L) (hy : y.d0 = L ∧ y.d1 = L)
    (hv : ∀ l < L, ∀ m < L, m ≤ l → 1 ≤ l → x.val l m = y.val l m) :
    ∃ G u v, Grf.init env A = .ok G ∧ G.forward be noise (some x) = .ok u ∧ G.forward be noise (some y) = .ok v ∧
      ∀ k < A.nlat, ∀ j < 2 * A.nlat, u.val k j = v.val k j := by
  obtain ⟨G, u, hG, hu, _, _, uv⟩ := C21_value env be A sigma r d L H noise (some x) (fun x' h => by cases h; exact hx)
  obtain ⟨G', v, hG', hv', _, _, vv⟩ := C21_value env be A sigma r d L H noise (some y) (fun x' h => by cases h; exact hy)
  rw [hG] at hG'; cases hG'
  refine ⟨G, u, v, hG, hu, hv', fun k hk j hj => ?_⟩
  rw [uv k hk j hj, vv k hk j hj]
  apply harmonicSeries_congr
  intro l hl m hm
  split_ifs with h
  · simp only [grfNoise]; rw [hv l hl m hm h.1 h.2]
  · rfl

/-- C21. The squared scaling of the modes `1 <= l`, `m <= l` is the announced power spectrum. -/
theorem C21_spectrum (A : GrfArgs) (sigma : ℝ) (l m : ℕ) (hl : 1 ≤ l) (hm : m ≤ l) :
    grfSqrtEig A sigma l m ^ 2 = maternSpectrum A sigma l := by
  unfold grfSqrtEig maternSpectrum
  rw [if_neg (by omega), if_pos hm, mul_pow]
  congr 1
  have h : 0 ≤ ((l : ℝ) * (l + 1)) / A.radius ^ 2 + A.tau ^ 2 := by positivity
  rw [← Real.rpow_natCast, ← Real.rpow_mul h]
  congr 1
  push_cast; ring

/-- C21 (error branches). Without an explicit `sigma` the generator requires `alpha > 1`; and only then. -/
theorem C21_alpha_error (env : Env) (A : GrfArgs) (h : A.sigma = none) (ha : A.alpha ≤ 1) : Grf.init env A = .error .valueError := by
  unfold Grf.init grfSigma
  rw [h]
  dsimp only
  rw [if_pos ha]

/-- C21 (error branch). Grids other than the three quadrature grids are rejected. -/
theorem C21_grid_error (env : Env) (A : GrfArgs) (h : A.sigma ≠ none ∨ 1 < A.alpha) (h1 : A.grid ≠ "legendre-gauss") (h2 : A.grid ≠ "lobatto")
    (h3 : A.grid ≠ "equiangular") : Grf.init env A = .error .valueError := by
  have hs : ∃ s, grfSigma A = .ok s := by
    unfold grfSigma
    cases hA : A.sigma with
    | some s => exact ⟨s, rfl⟩
    | none =>
      have : 1 < A.alpha := h.resolve_left (by simp [hA])
      dsimp only
      rw [if_neg (by linarith)]
      exact ⟨_, rfl⟩
  obtain ⟨s, hs⟩ := hs
  unfold Grf.init
  rw [hs]
  dsimp only
  have := (C14_unknown_grid env ⟨A.nlat, 2 * A.nlat, none, none, A.grid, "backward", true⟩ h1 h2 h3).2
  rw [this]

/-- C21 (error branch). Noise of a shape that neither matches nor broadcasts is rejected. -/
theorem C21_shape_error (be : C2R) (G : Grf) (noise : ℕ → ℕ → ℂ) (x : Mat ℂ) (h : x.d0 ≠ G.isht.lmax) (h1 : x.d0 ≠ 1) (h2 : G.isht.lmax ≠ 1) :
    G.forward be noise (some x) = .error .runtimeError := by
  unfold Grf.forward
  have : bcast x.d0 G.isht.lmax = none := by unfold bcast; rw [if_neg h, if_neg h1, if_neg h2]
  show (match bcast x.d0 G.isht.lmax, bcast x.d1 G.isht.mmax with | some n0, some n1 => _ | _, _ => _) = _
  rw [this]

/-- The generator is built, with every hypothesis above, on `equiangular` and `legendre-gauss` grids with at least two latitudes. -/
theorem C21_default (env : Env) (A : GrfArgs) (hg : A.grid = "equiangular" ∨ (A.grid = "legendre-gauss" ∧ IsGaussRule (env.gauss A.nlat) A.nlat))
    (h : 2 ≤ A.nlat) (hs : A.sigma ≠ none ∨ 1 < A.alpha) : ∃ sigma r d L, GrfBuilt env A sigma r d L := by
  obtain ⟨r, d, L, h1, h2, h3, h4, h5, h6⟩ := default_grid env (grfTransform A) hg h (by show 1 ≤ 2 * A.nlat; omega) rfl rfl
  cases hA : A.sigma with
  | some s => exact ⟨s, r, d, L, Or.inl hA, by omega, h1, h2, h3, h4, h5, h6⟩
  | none => exact ⟨_, r, d, L, Or.inr ⟨hA, hs.resolve_left (by simp [hA]), rfl⟩, by omega, h1, h2, h3, h4, h5, h6⟩

/-- Non-vacuity: the default generator with 8 latitudes (`alpha = 2`, `tau = 3`); its amplitude is 3. -/
example (env : Env) : ∃ sigma r d L, GrfBuilt env ⟨8, 2, 3, none, 1, "equiangular"⟩ sigma r d L :=
  C21_default env _ (Or.inl rfl) (by norm_num) (Or.inr (by norm_num))
example : grfSigma ⟨8, 2, 3, none, 1, "equiangular"⟩ = .ok 3 := by
  unfold grfSigma
  dsimp only
  rw [if_neg (by norm_num)]
  norm_num
/-- A mode of the spectrum that is not zero. -/
example : grfSqrtEig ⟨8, 2, 3, none, 1, "equiangular"⟩ 3 1 0 = 3 / 11 := by
  norm_num [grfSqrtEig, Real.rpow_neg_one]

end Verif.Props
