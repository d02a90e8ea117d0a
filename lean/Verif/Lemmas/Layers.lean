import Verif.Model.Layers
import Mathlib.Probability.Distributions.Gaussian.Real
import Mathlib.Probability.ConditionalProbability
import Mathlib.MeasureTheory.Integral.IntegralEqImproper
/-!
The error function, the law of the inverse transform and the mean of the floor.
-/
namespace Verif.Layers
open Verif MeasureTheory ProbabilityTheory Filter Set Topology

theorem gauss_int (x y : ℝ) : IntervalIntegrable (fun t : ℝ => Real.exp (-t ^ 2)) volume x y :=
  (by fun_prop : Continuous fun t : ℝ => Real.exp (-t ^ 2)).intervalIntegrable x y

theorem two_div_pos : 0 < 2 / Real.sqrt Real.pi := div_pos two_pos (Real.sqrt_pos.mpr Real.pi_pos)

theorem erf_sub (x y : ℝ) : erf y - erf x = 2 / Real.sqrt Real.pi * ∫ t in x..y, Real.exp (-t ^ 2) := by
  rw [erf, erf, ← mul_sub, intervalIntegral.integral_interval_sub_left (gauss_int 0 y) (gauss_int 0 x)]

theorem erf_strictMono : StrictMono erf := by
  intro x y h
  have h1 := intervalIntegral.intervalIntegral_pos_of_pos (gauss_int x y) (fun t => Real.exp_pos _) h
  have h2 := mul_pos two_div_pos h1
  rw [← erf_sub] at h2
  linarith

theorem erf_continuous : Continuous erf :=
  continuous_const.mul (intervalIntegral.continuous_primitive gauss_int 0)

theorem erf_neg (x : ℝ) : erf (-x) = -erf x := by
  have h := intervalIntegral.integral_comp_neg (a := 0) (b := x) (fun t : ℝ => Real.exp (-t ^ 2))
  simp only [neg_sq, neg_zero] at h
  rw [erf, erf, h, intervalIntegral.integral_symm, mul_neg]

theorem erf_atTop : Tendsto erf atTop (𝓝 1) := by
  have hi : IntegrableOn (fun t : ℝ => Real.exp (-1 * t ^ 2)) (Ioi 0) := (integrable_exp_neg_mul_sq one_pos).integrableOn
  have h := intervalIntegral_tendsto_integral_Ioi 0 hi tendsto_id
  rw [integral_gaussian_Ioi] at h
  have h2 := h.const_mul (2 / Real.sqrt Real.pi)
  have e : 2 / Real.sqrt Real.pi * (Real.sqrt (Real.pi / 1) / 2) = 1 := by
    have := (Real.sqrt_pos.mpr Real.pi_pos).ne'
    rw [div_one]
    field_simp
  rw [e] at h2
  refine h2.congr fun x => ?_
  simp [erf]

theorem erf_lt_one (x : ℝ) : erf x < 1 :=
  lt_of_lt_of_le (erf_strictMono (lt_add_one x)) (erf_strictMono.monotone.ge_of_tendsto erf_atTop (x + 1))

theorem neg_one_lt_erf (x : ℝ) : -1 < erf x := by
  have h := erf_lt_one (-x)
  rw [erf_neg] at h
  linarith

theorem erf_surj (v : ℝ) (h1 : -1 < v) (h2 : v < 1) : ∃ x, erf x = v := by
  obtain ⟨y, hy⟩ := (erf_atTop.eventually (lt_mem_nhds h2)).exists
  obtain ⟨z, hz⟩ := (erf_atTop.eventually (lt_mem_nhds (show -v < 1 by linarith))).exists
  have hz' : erf (-z) < v := by rw [erf_neg]; linarith
  exact mem_range_of_exists_le_of_exists_ge erf_continuous ⟨_, hz'.le⟩ ⟨_, hy.le⟩

theorem cdf_erf (x : ℝ) : 2 * normCdf x - 1 = erf (x / Real.sqrt 2) := by
  rw [normCdf]
  ring

theorem normCdf_strictMono : StrictMono normCdf := by
  intro x y h
  have := erf_strictMono (div_lt_div_of_pos_right h (Real.sqrt_pos.mpr (two_pos : (0 : ℝ) < 2)))
  simp only [normCdf]
  linarith

theorem gauss_Icc (μ σ a t : ℝ) (hσ : 0 < σ) : gaussianReal μ (σ ^ 2).toNNReal (Icc a t)
    = ENNReal.ofReal (normCdf ((t - μ) / σ) - normCdf ((a - μ) / σ)) := by
  have hv : (σ ^ 2).toNNReal ≠ 0 := by simpa using hσ.ne'
  rcases le_or_gt a t with hat | hat
  · rw [gaussianReal_apply_eq_integral μ hv, integral_Icc_eq_integral_Ioc, ← intervalIntegral.integral_of_le hat]
    congr 1
    have h2 : (0 : ℝ) < Real.sqrt 2 := Real.sqrt_pos.mpr two_pos
    have hp : (0 : ℝ) < Real.sqrt Real.pi := Real.sqrt_pos.mpr Real.pi_pos
    have hs : Real.sqrt 2 ^ 2 = 2 := Real.sq_sqrt two_pos.le
    have hc : σ * Real.sqrt 2 ≠ 0 := (mul_pos hσ h2).ne'
    have e : ∀ x : ℝ, gaussianPDFReal μ (σ ^ 2).toNNReal x
        = (σ * Real.sqrt 2 * Real.sqrt Real.pi)⁻¹ * Real.exp (-(x / (σ * Real.sqrt 2) - μ / (σ * Real.sqrt 2)) ^ 2) := by
      intro x
      rw [gaussianPDFReal, Real.coe_toNNReal _ (sq_nonneg σ)]
      congr 2
      · rw [Real.sqrt_mul (by positivity), Real.sqrt_mul two_pos.le, Real.sqrt_sq hσ.le]
        ring
      · rw [← sub_div, div_pow, mul_pow, hs]
        ring
    simp_rw [e]
    rw [intervalIntegral.integral_const_mul, intervalIntegral.integral_comp_div_sub (fun y => Real.exp (-y ^ 2)) hc]
    have e2 : ∀ x : ℝ, x / (σ * Real.sqrt 2) - μ / (σ * Real.sqrt 2) = (x - μ) / σ / Real.sqrt 2 := fun x => by
      rw [← sub_div, div_div]
    rw [e2, e2, normCdf, normCdf]
    have h3 := erf_sub ((a - μ) / σ / Real.sqrt 2) ((t - μ) / σ / Real.sqrt 2)
    have h4 : (1 + erf ((t - μ) / σ / Real.sqrt 2)) / 2 - (1 + erf ((a - μ) / σ / Real.sqrt 2)) / 2
      = (erf ((t - μ) / σ / Real.sqrt 2) - erf ((a - μ) / σ / Real.sqrt 2)) / 2 := by ring
    rw [h4, h3, smul_eq_mul]
    field_simp
  · rw [Icc_eq_empty (not_le.mpr hat), measure_empty, ENNReal.ofReal_of_nonpos]
    have := normCdf_strictMono (div_lt_div_of_pos_right (sub_lt_sub_right hat μ) hσ)
    linarith

theorem floor_mean (k : ℝ) : ∫ u in (0 : ℝ)..1, ((⌊k + u⌋ : ℤ) : ℝ) = k := by
  have hf0 := Int.fract_nonneg k
  have hf1 := Int.fract_lt_one k
  have hk : (⌊k⌋ : ℝ) = k - Int.fract k := by rw [← Int.self_sub_fract]
  have hlo : ∀ u, 0 ≤ u → u < 1 - Int.fract k → ⌊k + u⌋ = ⌊k⌋ := by
    intro u h1 h2
    rw [Int.floor_eq_iff]
    constructor <;> linarith
  have hhi : ∀ u, 1 - Int.fract k ≤ u → u < 1 → ⌊k + u⌋ = ⌊k⌋ + 1 := by
    intro u h1 h2
    rw [Int.floor_eq_iff]
    push_cast
    constructor <;> linarith
  have e1 : ∀ᵐ u : ℝ, u ∈ uIoc 0 (1 - Int.fract k) → ((⌊k + u⌋ : ℤ) : ℝ) = (⌊k⌋ : ℝ) := by
    filter_upwards [compl_mem_ae_iff.mpr (measure_singleton (μ := (volume : Measure ℝ)) (1 - Int.fract k))] with u hu h
    rw [uIoc_of_le (by linarith)] at h
    rw [hlo u h.1.le (lt_of_le_of_ne h.2 hu)]
  have e2 : ∀ᵐ u : ℝ, u ∈ uIoc (1 - Int.fract k) 1 → ((⌊k + u⌋ : ℤ) : ℝ) = (⌊k⌋ : ℝ) + 1 := by
    filter_upwards [compl_mem_ae_iff.mpr (measure_singleton (μ := (volume : Measure ℝ)) 1)] with u hu h
    rw [uIoc_of_le (by linarith)] at h
    rw [hhi u h.1.le (lt_of_le_of_ne h.2 hu)]
    push_cast
    rfl
  have mono : Monotone fun u : ℝ => ((⌊k + u⌋ : ℤ) : ℝ) := fun x y h =>
    Int.cast_le.mpr (Int.floor_le_floor (by linarith))
  rw [← intervalIntegral.integral_add_adjacent_intervals (mono.intervalIntegrable (a := 0) (b := 1 - Int.fract k))
    (mono.intervalIntegrable (a := 1 - Int.fract k) (b := 1)), intervalIntegral.integral_congr_ae e1, intervalIntegral.integral_congr_ae e2]
  simp only [intervalIntegral.integral_const, smul_eq_mul]
  rw [hk]
  ring

/-- The value of a clamped entry lies below `t` exactly when the uniform number lies below the distribution function at `t`. -/
theorem entry_le (g : ℝ → ℝ) (hg : ∀ v, -1 < v → v < 1 → erf (g v) = v) (μ σ t v : ℝ) (hσ : 0 < σ) (h1 : -1 < v) (h2 : v < 1) :
    truncRaw g μ σ v ≤ t ↔ v ≤ 2 * normCdf ((t - μ) / σ) - 1 := by
  have hs : (0 : ℝ) < Real.sqrt 2 := Real.sqrt_pos.mpr two_pos
  rw [cdf_erf]
  conv_rhs => rw [← hg v h1 h2]
  rw [erf_strictMono.le_iff_le, div_div, le_div_iff₀ (mul_pos hσ hs), truncRaw]
  constructor <;> intro h <;> linarith

theorem le_entry (g : ℝ → ℝ) (hg : ∀ v, -1 < v → v < 1 → erf (g v) = v) (μ σ t v : ℝ) (hσ : 0 < σ) (h1 : -1 < v) (h2 : v < 1) :
    t ≤ truncRaw g μ σ v ↔ 2 * normCdf ((t - μ) / σ) - 1 ≤ v := by
  have hs : (0 : ℝ) < Real.sqrt 2 := Real.sqrt_pos.mpr two_pos
  rw [cdf_erf]
  conv_rhs => rw [← hg v h1 h2]
  rw [erf_strictMono.le_iff_le, div_div, div_le_iff₀ (mul_pos hσ hs), truncRaw]
  constructor <;> intro h <;> linarith

theorem cdf_bounds (x : ℝ) : -1 < 2 * normCdf x - 1 ∧ 2 * normCdf x - 1 < 1 := by
  rw [cdf_erf]
  exact ⟨neg_one_lt_erf _, erf_lt_one _⟩

theorem trunc_law (g : ℝ → ℝ) (hg : ∀ v, -1 < v → v < 1 → erf (g v) = v) (μ σ a b : ℝ) (hσ : 0 < σ) (hab : a < b) :
    Measure.map (truncEntry g μ σ a b) (cond volume (Icc (2 * normCdf ((a - μ) / σ) - 1) (2 * normCdf ((b - μ) / σ) - 1)))
      = cond (gaussianReal μ (σ ^ 2).toNNReal) (Icc a b) := by
  set F : ℝ → ℝ := fun t => 2 * normCdf ((t - μ) / σ) - 1 with hF
  have hFm : StrictMono F := fun x y h => by
    have := normCdf_strictMono (div_lt_div_of_pos_right (sub_lt_sub_right h μ) hσ)
    simp only [hF]
    linarith
  change Measure.map _ (cond volume (Icc (F a) (F b))) = _
  have hlt := hFm hab
  have hin : ∀ v ∈ Icc (F a) (F b), -1 < v ∧ v < 1 := fun v hv =>
    ⟨lt_of_lt_of_le (cdf_bounds _).1 hv.1, lt_of_le_of_lt hv.2 (cdf_bounds _).2⟩
  have hent : ∀ v ∈ Icc (F a) (F b), truncEntry g μ σ a b v = truncRaw g μ σ v := by
    intro v hv
    obtain ⟨h1, h2⟩ := hin v hv
    rw [truncEntry, max_eq_left ((le_entry g hg μ σ a v hσ h1 h2).mpr hv.1), min_eq_left ((entry_le g hg μ σ b v hσ h1 h2).mpr hv.2)]
  have hle : ∀ v ∈ Icc (F a) (F b), ∀ t, truncEntry g μ σ a b v ≤ t ↔ v ≤ F t := by
    intro v hv t
    rw [hent v hv, entry_le g hg μ σ t v hσ (hin v hv).1 (hin v hv).2]
  have hmono : MonotoneOn (truncEntry g μ σ a b) (Icc (F a) (F b)) := by
    intro v hv w hw h
    exact (hle v hv _).mpr (h.trans ((hle w hw _).mp le_rfl))
  have hmeas : AEMeasurable (truncEntry g μ σ a b) (cond volume (Icc (F a) (F b))) :=
    (aemeasurable_restrict_of_monotoneOn measurableSet_Icc hmono).smul_measure _
  have hvol : volume (Icc (F a) (F b)) ≠ 0 := by
    rw [Real.volume_Icc]
    simpa using hlt
  have hgau : gaussianReal μ (σ ^ 2).toNNReal (Icc a b) ≠ 0 := by
    rw [gauss_Icc μ σ a b hσ]
    have : 0 < normCdf ((b - μ) / σ) - normCdf ((a - μ) / σ) := by
      simp only [hF] at hlt
      linarith
    simpa using this
  have : IsProbabilityMeasure (cond volume (Icc (F a) (F b))) := cond_isProbabilityMeasure_of_finite hvol (by rw [Real.volume_Icc]; exact ENNReal.ofReal_ne_top)
  have : IsProbabilityMeasure (cond (gaussianReal μ (σ ^ 2).toNNReal) (Icc a b)) := cond_isProbabilityMeasure hgau
  have := Measure.isProbabilityMeasure_map hmeas
  refine Measure.ext_of_Iic _ _ fun t => ?_
  rw [Measure.map_apply_of_aemeasurable hmeas measurableSet_Iic, cond_apply measurableSet_Icc, cond_apply measurableSet_Icc]
  have s1 : Icc (F a) (F b) ∩ truncEntry g μ σ a b ⁻¹' Iic t = Icc (F a) (F (min b t)) := by
    rw [hFm.monotone.map_min]
    ext v
    constructor
    · rintro ⟨hv, h⟩
      exact ⟨hv.1, le_min hv.2 ((hle v hv t).mp h)⟩
    · intro h
      have hv : v ∈ Icc (F a) (F b) := ⟨h.1, h.2.trans (min_le_left _ _)⟩
      exact ⟨hv, (hle v hv t).mpr (h.2.trans (min_le_right _ _))⟩
  have s2 : Icc a b ∩ Iic t = Icc a (min b t) := by
    ext v
    simp [and_assoc]
  rw [s1, s2, gauss_Icc μ σ a b hσ, gauss_Icc μ σ a (min b t) hσ, Real.volume_Icc, Real.volume_Icc]
  have e : ∀ x y : ℝ, normCdf ((y - μ) / σ) - normCdf ((x - μ) / σ) = (F y - F x) / 2 := fun x y => by simp only [hF]; ring
  rw [e, e, ← ENNReal.ofReal_inv_of_pos (by linarith), ← ENNReal.ofReal_inv_of_pos (by linarith),
    ← ENNReal.ofReal_mul (inv_nonneg.mpr (by linarith)), ← ENNReal.ofReal_mul (inv_nonneg.mpr (by linarith))]
  congr 1
  have : F b - F a ≠ 0 := by linarith
  field_simp

end Verif.Layers
