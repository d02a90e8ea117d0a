import Verif.Spec.Bessel
import Mathlib.Analysis.Calculus.ParametricIntervalIntegral
import Mathlib.Analysis.SpecialFunctions.Trigonometric.Deriv
import Mathlib.Analysis.SpecialFunctions.Log.Deriv
import Mathlib.Analysis.SpecialFunctions.Trigonometric.Bounds
import Mathlib.Analysis.Complex.ExponentialBounds
import Mathlib.MeasureTheory.Integral.IntervalIntegral.FundThmCalculus
/-!
Bessel functions: recurrences and the integrals over the disk.
-/
namespace Verif.Bessel
open Verif.Spec

theorem cont (m : ℤ) (x : ℝ) : Continuous fun t : ℝ => Real.cos (m * t - x * Real.sin t) := by fun_prop

/-- `J_m' = (J_{m-1} - J_{m+1}) / 2`. -/
theorem hasDerivAt_J (m : ℤ) (x : ℝ) : HasDerivAt (besselJ m) ((besselJ (m - 1) x - besselJ (m + 1) x) / 2) x := by
  have h := (intervalIntegral.hasDerivAt_integral_of_dominated_loc_of_deriv_le (μ := MeasureTheory.volume) (a := 0) (b := Real.pi)
    (F := fun x t => Real.cos (m * t - x * Real.sin t)) (F' := fun x t => Real.sin (m * t - x * Real.sin t) * Real.sin t) (x₀ := x)
    (s := Set.univ) (bound := fun _ => 1) Filter.univ_mem
    (Filter.Eventually.of_forall fun y => (cont m y).aestronglyMeasurable)
    ((cont m x).intervalIntegrable _ _)
    (by apply Continuous.aestronglyMeasurable; fun_prop)
    (Filter.Eventually.of_forall fun t _ y _ => by
      rw [norm_mul, Real.norm_eq_abs, Real.norm_eq_abs]
      exact mul_le_one₀ (Real.abs_sin_le_one _) (abs_nonneg _) (Real.abs_sin_le_one _))
    intervalIntegrable_const
    (Filter.Eventually.of_forall fun t _ y _ => by
      have h1 : HasDerivAt (fun y : ℝ => (m : ℝ) * t - y * Real.sin t) (-(Real.sin t)) y := by
        simpa using ((hasDerivAt_id y).mul_const (Real.sin t)).const_sub ((m : ℝ) * t)
      have h2 := h1.cos
      simpa using h2)).2
  have h3 := h.div_const Real.pi
  refine h3.congr_deriv ?_
  unfold besselJ
  rw [← sub_div, ← intervalIntegral.integral_sub ((cont _ _).intervalIntegrable _ _) ((cont _ _).intervalIntegrable _ _), div_right_comm]
  congr 1
  rw [← intervalIntegral.integral_div]
  congr 1
  funext t
  have e1 : ((m - 1 : ℤ) : ℝ) * t - x * Real.sin t = (m * t - x * Real.sin t) - t := by push_cast; ring
  have e2 : ((m + 1 : ℤ) : ℝ) * t - x * Real.sin t = (m * t - x * Real.sin t) + t := by push_cast; ring
  rw [e1, e2]
  generalize (m : ℝ) * t - x * Real.sin t = s
  rw [Real.cos_sub, Real.cos_add]
  ring

/-- `x (J_{m-1} + J_{m+1}) = 2 m J_m`. -/
theorem recurrence (m : ℤ) (x : ℝ) : x * (besselJ (m - 1) x + besselJ (m + 1) x) = 2 * m * besselJ m x := by
  have hd : ∀ t ∈ Set.uIcc (0 : ℝ) Real.pi, HasDerivAt (fun t : ℝ => Real.sin (m * t - x * Real.sin t))
      (Real.cos (m * t - x * Real.sin t) * (m - x * Real.cos t)) t := by
    intro t _
    have h1 : HasDerivAt (fun t : ℝ => (m : ℝ) * t - x * Real.sin t) (m - x * Real.cos t) t := by
      simpa using ((hasDerivAt_id t).const_mul (m : ℝ)).fun_sub ((Real.hasDerivAt_sin t).const_mul x)
    exact h1.sin
  have hc : Continuous fun t : ℝ => Real.cos (m * t - x * Real.sin t) * (m - x * Real.cos t) := by fun_prop
  have hi := intervalIntegral.integral_eq_sub_of_hasDerivAt hd (hc.intervalIntegrable _ _)
  have hz : Real.sin (m * Real.pi - x * Real.sin Real.pi) - Real.sin (m * 0 - x * Real.sin 0) = 0 := by
    simp [Real.sin_int_mul_pi]
  rw [hz] at hi
  have hs : (fun t : ℝ => Real.cos (m * t - x * Real.sin t) * (m - x * Real.cos t))
      = fun t => m * Real.cos (m * t - x * Real.sin t)
        - x / 2 * (Real.cos (((m - 1 : ℤ) : ℝ) * t - x * Real.sin t) + Real.cos (((m + 1 : ℤ) : ℝ) * t - x * Real.sin t)) := by
    funext t
    have e1 : ((m - 1 : ℤ) : ℝ) * t - x * Real.sin t = (m * t - x * Real.sin t) - t := by push_cast; ring
    have e2 : ((m + 1 : ℤ) : ℝ) * t - x * Real.sin t = (m * t - x * Real.sin t) + t := by push_cast; ring
    rw [e1, e2]
    generalize (m : ℝ) * t - x * Real.sin t = s
    rw [Real.cos_sub, Real.cos_add]
    ring
  rw [hs, intervalIntegral.integral_sub (by apply Continuous.intervalIntegrable; fun_prop) (by apply Continuous.intervalIntegrable; fun_prop),
    intervalIntegral.integral_const_mul, intervalIntegral.integral_const_mul,
    intervalIntegral.integral_add ((cont _ _).intervalIntegrable _ _) ((cont _ _).intervalIntegrable _ _)] at hi
  unfold besselJ
  have := Real.pi_ne_zero
  field_simp
  linarith

/-- `x J_m' = m J_m - x J_{m+1}` and `x J_{m+1}' = x J_m - (m+1) J_{m+1}`. -/
theorem lower (m : ℤ) (x : ℝ) : x * ((besselJ (m - 1) x - besselJ (m + 1) x) / 2) = m * besselJ m x - x * besselJ (m + 1) x := by
  have := recurrence m x
  linarith

theorem upper (m : ℤ) (x : ℝ) : x * ((besselJ (m + 1 - 1) x - besselJ (m + 1 + 1) x) / 2) = x * besselJ m x - (m + 1) * besselJ (m + 1) x := by
  have := recurrence (m + 1) x
  rw [show m + 1 - 1 = m by ring] at *
  push_cast at this
  linarith

theorem continuous_J (m : ℤ) : Continuous (besselJ m) := continuous_iff_continuousAt.2 fun x => (hasDerivAt_J m x).continuousAt

theorem hasDerivAt_scaled (m : ℤ) (a r : ℝ) : HasDerivAt (fun r => besselJ m (a * r)) (a * ((besselJ (m - 1) (a * r) - besselJ (m + 1) (a * r)) / 2)) r := by
  have h1 : HasDerivAt (fun r : ℝ => a * r) a r := by simpa using (hasDerivAt_id r).const_mul a
  exact ((hasDerivAt_J m (a * r)).scomp r h1).congr_deriv (by rw [smul_eq_mul])

/-- Orthogonality on the unit disk. -/
theorem radial_cross (m : ℤ) (a b : ℝ) (ha : besselJ m a = 0) (hb : besselJ m b = 0) (hab : a ^ 2 ≠ b ^ 2) :
    ∫ r in (0 : ℝ)..1, besselJ m (a * r) * besselJ m (b * r) * r = 0 := by
  have hd : ∀ r ∈ Set.Ioo (0 : ℝ) 1, HasDerivAt (fun r => r * (b * besselJ m (a * r) * besselJ (m + 1) (b * r) - a * besselJ (m + 1) (a * r) * besselJ m (b * r)))
      ((b ^ 2 - a ^ 2) * (besselJ m (a * r) * besselJ m (b * r) * r)) r := by
    intro r hr
    have hr0 : r ≠ 0 := hr.1.ne'
    have d1 := hasDerivAt_scaled m a r
    have d2 := hasDerivAt_scaled (m + 1) a r
    have d3 := hasDerivAt_scaled m b r
    have d4 := hasDerivAt_scaled (m + 1) b r
    have h := (hasDerivAt_id r).fun_mul (((d1.const_mul b).fun_mul d4).fun_sub ((d2.const_mul a).fun_mul d3))
    refine h.congr_deriv ?_
    have l1 := lower m (a * r)
    have l2 := upper m (a * r)
    have l3 := lower m (b * r)
    have l4 := upper m (b * r)
    simp only [id]
    generalize besselJ m (a * r) = f at *
    generalize besselJ m (b * r) = g at *
    generalize besselJ (m + 1) (a * r) = F at *
    generalize besselJ (m + 1) (b * r) = G at *
    linear_combination (b * G) * l1 - (a * g) * l2 - (a * F) * l3 + (b * f) * l4
  have hcont : Continuous fun r => r * (b * besselJ m (a * r) * besselJ (m + 1) (b * r) - a * besselJ (m + 1) (a * r) * besselJ m (b * r)) := by
    have c1 := continuous_J m
    have c2 := continuous_J (m + 1)
    fun_prop
  have hint : Continuous fun r => (b ^ 2 - a ^ 2) * (besselJ m (a * r) * besselJ m (b * r) * r) := by
    have c1 := continuous_J m
    fun_prop
  have := intervalIntegral.integral_eq_sub_of_hasDerivAt_of_le zero_le_one hcont.continuousOn hd (hint.intervalIntegrable _ _)
  rw [intervalIntegral.integral_const_mul] at this
  simp only [mul_one, ha, hb, mul_zero, zero_mul, sub_self] at this
  rcases mul_eq_zero.1 this with h | h
  · exact absurd (by linarith) hab
  · exact h

/-- The norm on the unit disk. -/
theorem radial_norm (m : ℤ) (a : ℝ) (ha : besselJ m a = 0) (h0 : a ≠ 0) :
    ∫ r in (0 : ℝ)..1, besselJ m (a * r) * besselJ m (a * r) * r = besselJ (m + 1) a ^ 2 / 2 := by
  have hd : ∀ r ∈ Set.Ioo (0 : ℝ) 1, HasDerivAt (fun r => r ^ 2 / 2 * (besselJ m (a * r) * besselJ m (a * r) + besselJ (m + 1) (a * r) * besselJ (m + 1) (a * r))
      - m / a * (r * (besselJ m (a * r) * besselJ (m + 1) (a * r)))) (besselJ m (a * r) * besselJ m (a * r) * r) r := by
    intro r hr
    have hr0 : r ≠ 0 := hr.1.ne'
    have d1 := hasDerivAt_scaled m a r
    have d2 := hasDerivAt_scaled (m + 1) a r
    have h := ((((hasDerivAt_id r).fun_pow 2).div_const 2).fun_mul ((d1.fun_mul d1).fun_add (d2.fun_mul d2))).fun_sub ((((hasDerivAt_id r)).fun_mul (d1.fun_mul d2)).const_mul ((m : ℝ) / a))
    refine h.congr_deriv ?_
    have l1 := lower m (a * r)
    have l2 := upper m (a * r)
    simp only [id]
    generalize besselJ m (a * r) = f at *
    generalize besselJ (m + 1) (a * r) = F at *
    generalize (besselJ (m - 1) (a * r) - F) / 2 = D1 at *
    generalize (besselJ (m + 1 - 1) (a * r) - besselJ (m + 1 + 1) (a * r)) / 2 = D2 at *
    have e1 : a * D1 = (m * f - a * r * F) / r := by rw [eq_div_iff hr0]; linarith
    have e2 : a * D2 = (a * r * f - (m + 1) * F) / r := by rw [eq_div_iff hr0]; linarith
    rw [e1, e2]
    field_simp
    ring
  have hcont : Continuous fun r => r ^ 2 / 2 * (besselJ m (a * r) * besselJ m (a * r) + besselJ (m + 1) (a * r) * besselJ (m + 1) (a * r))
      - m / a * (r * (besselJ m (a * r) * besselJ (m + 1) (a * r))) := by
    have c1 := continuous_J m
    have c2 := continuous_J (m + 1)
    fun_prop
  have hint : Continuous fun r => besselJ m (a * r) * besselJ m (a * r) * r := by
    have c1 := continuous_J m
    fun_prop
  rw [intervalIntegral.integral_eq_sub_of_hasDerivAt_of_le zero_le_one hcont.continuousOn hd (hint.intervalIntegrable _ _)]
  simp only [mul_one, ha]
  ring

/-! ### The first zero of `J_0` -/

theorem J0_zero : besselJ 0 0 = 1 := by
  unfold besselJ
  simp [Real.pi_ne_zero]

theorem deriv_J0 (x : ℝ) : HasDerivAt (besselJ 0) (-besselJ 1 x) x := by
  by_cases hx : x = 0
  · -- by continuity of both sides of the recurrence
    subst hx
    have h := hasDerivAt_J 0 0
    refine h.congr_deriv ?_
    have e : ∀ m : ℤ, m ≠ 0 → besselJ m 0 = 0 := by
      intro m hm
      have := recurrence m 0
      rw [zero_mul] at this
      have hm' : (m : ℝ) ≠ 0 := by exact_mod_cast hm
      rcases mul_eq_zero.1 this.symm with h | h
      · exact absurd h (by positivity)
      · exact h
    rw [e (0 - 1) (by norm_num), show (0 : ℤ) + 1 = 1 by norm_num, e 1 one_ne_zero]
    norm_num
  · refine (hasDerivAt_J 0 x).congr_deriv ?_
    have := recurrence 0 x
    have h : besselJ (0 - 1) x + besselJ (0 + 1) x = 0 := by
      apply mul_left_cancel₀ hx
      rw [this]
      simp
    rw [show (0 : ℤ) + 1 = 1 by norm_num] at *
    have h' : besselJ (0 - 1) x = -besselJ 1 x := by linear_combination h
    rw [h']
    ring

theorem deriv_xJ1 (x : ℝ) : HasDerivAt (fun x => x * besselJ 1 x) (x * besselJ 0 x) x := by
  have h := (hasDerivAt_id x).fun_mul (hasDerivAt_J 1 x)
  refine h.congr_deriv ?_
  have := upper 0 x
  rw [show (0 : ℤ) + 1 = 1 by norm_num] at this
  simp only [id]
  push_cast at this
  linarith

theorem J0_lower (x : ℝ) : 1 - x ^ 2 / 2 ≤ besselJ 0 x := by
  unfold besselJ
  have hpi := Real.pi_pos
  rw [le_div_iff₀ hpi]
  have : (1 - x ^ 2 / 2) * Real.pi = ∫ _ in (0 : ℝ)..Real.pi, (1 - x ^ 2 / 2) := by
    rw [intervalIntegral.integral_const, smul_eq_mul]; ring
  rw [this]
  apply intervalIntegral.integral_mono hpi.le (by simp) ((cont 0 x).intervalIntegrable _ _)
  intro t
  have h1 : 1 - (((0 : ℤ) : ℝ) * t - x * Real.sin t) ^ 2 / 2 ≤ Real.cos (((0 : ℤ) : ℝ) * t - x * Real.sin t) :=
    Real.one_sub_sq_div_two_le_cos
  have h2 : (((0 : ℤ) : ℝ) * t - x * Real.sin t) ^ 2 ≤ x ^ 2 := by
    have := Real.sin_sq_le_one t
    push_cast
    nlinarith [sq_nonneg x]
  refine le_trans ?_ h1
  show 1 - x ^ 2 / 2 ≤ _
  generalize ((0 : ℤ) : ℝ) * t - x * Real.sin t = w at h2
  linarith

/-- `x J_1(x)` grows as long as `J_0` is positive. -/
theorem xJ1_one : 3 / 8 ≤ besselJ 1 1 := by
  have h : ∀ x ∈ Set.Icc (0 : ℝ) 1, x ^ 2 / 2 - x ^ 4 / 8 ≤ x * besselJ 1 x := by
    have hmono : MonotoneOn (fun x => x * besselJ 1 x - (x ^ 2 / 2 - x ^ 4 / 8)) (Set.Icc 0 1) := by
      apply monotoneOn_of_hasDerivWithinAt_nonneg (f' := fun x => x * besselJ 0 x - (x - x ^ 3 / 2)) (convex_Icc 0 1)
      · have := continuous_J 1
        apply Continuous.continuousOn
        fun_prop
      · intro x hx
        have h1 : HasDerivAt (fun x : ℝ => x ^ 2 / 2 - x ^ 4 / 8) (x - x ^ 3 / 2) x := by
          have := (((hasDerivAt_id x).fun_pow 2).div_const 2).fun_sub (((hasDerivAt_id x).fun_pow 4).div_const 8)
          refine this.congr_deriv ?_
          simp only [id]
          push_cast
          ring
        exact ((deriv_xJ1 x).fun_sub h1).hasDerivWithinAt
      · intro x hx
        rw [interior_Icc] at hx
        have := J0_lower x
        have h0 := hx.1
        nlinarith
    intro x hx
    have := hmono (Set.left_mem_Icc.2 zero_le_one) hx hx.1
    simp at this
    linarith
  have := h 1 (Set.right_mem_Icc.2 zero_le_one)
  norm_num at this
  linarith

theorem xJ1_grows (a : ℝ) (h1 : 1 ≤ a) (hpos : ∀ x ∈ Set.Icc 1 a, 0 ≤ besselJ 0 x) : ∀ x ∈ Set.Icc 1 a, 3 / 8 ≤ x * besselJ 1 x := by
  have hmono : MonotoneOn (fun x => x * besselJ 1 x) (Set.Icc 1 a) := by
    apply monotoneOn_of_hasDerivWithinAt_nonneg (f' := fun x => x * besselJ 0 x) (convex_Icc 1 a)
    · have := continuous_J 1
      apply Continuous.continuousOn
      fun_prop
    · intro x hx
      exact (deriv_xJ1 x).hasDerivWithinAt
    · intro x hx
      rw [interior_Icc] at hx
      exact mul_nonneg (by linarith [hx.1]) (hpos x ⟨hx.1.le, hx.2.le⟩)
  intro x hx
  have := hmono (Set.left_mem_Icc.2 h1) hx hx.1
  dsimp only at this
  rw [one_mul] at this
  exact xJ1_one.trans this

/-- `J_0` has a zero between 1 and `e^3`, and `J_1` is not small there. -/
theorem exists_zero : ∃ a : ℝ, 0 < a ∧ besselJ 0 a = 0 ∧ 1 / 100 ≤ besselJ 1 a := by
  have hE : (1 : ℝ) < Real.exp 3 := by rw [← Real.exp_zero]; exact Real.exp_lt_exp.2 (by norm_num)
  -- some zero exists
  have hex : ∃ a ∈ Set.Icc (1 : ℝ) (Real.exp 3), besselJ 0 a = 0 := by
    by_contra hne
    push Not at hne
    have h1 : 0 < besselJ 0 1 := by have := J0_lower 1; norm_num at this; linarith
    have hpos : ∀ x ∈ Set.Icc (1 : ℝ) (Real.exp 3), 0 < besselJ 0 x := by
      intro x hx
      by_contra hx0
      push Not at hx0
      have hivt := intermediate_value_Icc' hx.1 (continuous_J 0).continuousOn
      obtain ⟨c, hc, hc0⟩ := hivt (show (0 : ℝ) ∈ Set.Icc (besselJ 0 x) (besselJ 0 1) from ⟨hx0, h1.le⟩)
      exact hne c ⟨hc.1, hc.2.trans hx.2⟩ hc0
    have hg := xJ1_grows (Real.exp 3) hE.le (fun x hx => (hpos x hx).le)
    have hanti : AntitoneOn (fun x => besselJ 0 x + 3 / 8 * Real.log x) (Set.Icc 1 (Real.exp 3)) := by
      apply antitoneOn_of_hasDerivWithinAt_nonpos (f' := fun x => -besselJ 1 x + 3 / 8 * x⁻¹) (convex_Icc _ _)
      · apply ContinuousOn.add (continuous_J 0).continuousOn
        apply ContinuousOn.mul continuousOn_const
        exact Real.continuousOn_log.mono fun x hx => by
          have : (1 : ℝ) ≤ x := hx.1
          simp only [Set.mem_compl_iff, Set.mem_singleton_iff]
          linarith
      · intro x hx
        rw [interior_Icc] at hx
        have hx0 : x ≠ 0 := by have := hx.1; linarith
        exact ((deriv_J0 x).fun_add ((Real.hasDerivAt_log hx0).const_mul _)).hasDerivWithinAt
      · intro x hx
        rw [interior_Icc] at hx
        have hx0 : 0 < x := by have := hx.1; linarith
        have := hg x ⟨hx.1.le, hx.2.le⟩
        have h2 : 3 / 8 * x⁻¹ ≤ besselJ 1 x := by
          rw [← div_eq_mul_inv, div_le_iff₀ hx0]
          linarith
        linarith
    have h3 := hanti (Set.left_mem_Icc.2 hE.le) (Set.right_mem_Icc.2 hE.le) hE.le
    simp only [Real.log_exp, Real.log_one, mul_zero, add_zero] at h3
    have h4 := hpos _ (Set.right_mem_Icc.2 hE.le)
    have h5 : besselJ 0 1 ≤ 1 := by
      unfold besselJ
      rw [div_le_one Real.pi_pos]
      have : Real.pi = ∫ _ in (0 : ℝ)..Real.pi, (1 : ℝ) := by simp
      rw [this]
      conv_lhs => rw [← this]
      exact intervalIntegral.integral_mono Real.pi_pos.le ((cont 0 1).intervalIntegrable _ _) (by simp) (fun t => Real.cos_le_one _)
    linarith
  -- the first one
  have hcomp : IsCompact {x ∈ Set.Icc (1 : ℝ) (Real.exp 3) | besselJ 0 x = 0} := by
    apply isCompact_Icc.inter_right
    exact isClosed_eq (continuous_J 0) continuous_const
  obtain ⟨a0, ha0, hz0⟩ := hex
  obtain ⟨a, ⟨ha, hz⟩, hmin⟩ := hcomp.exists_isLeast ⟨a0, ha0, hz0⟩
  have h1 : 0 < besselJ 0 1 := by have := J0_lower 1; norm_num at this; linarith
  have hpos : ∀ x ∈ Set.Icc 1 a, 0 ≤ besselJ 0 x := by
    intro x hx
    by_contra hx0
    push Not at hx0
    have hivt := intermediate_value_Icc' hx.1 (continuous_J 0).continuousOn
    obtain ⟨c, hc, hc0⟩ := hivt (show (0 : ℝ) ∈ Set.Icc (besselJ 0 x) (besselJ 0 1) from ⟨hx0.le, h1.le⟩)
    have hle := hmin ⟨⟨hc.1, hc.2.trans (hx.2.trans ha.2)⟩, hc0⟩
    have : c = x := le_antisymm hc.2 (hx.2.trans hle)
    rw [this] at hc0
    exact absurd hc0 hx0.ne
  have hg := xJ1_grows a ha.1 hpos a ⟨ha.1, le_refl _⟩
  have hapos : (0 : ℝ) < a := by linarith [ha.1]
  have he : Real.exp 3 ≤ 27 := by
    have : Real.exp 3 = Real.exp 1 ^ 3 := by rw [← Real.exp_nat_mul]; norm_num
    rw [this]
    have h := Real.exp_one_lt_d9
    have h0 := Real.exp_pos 1
    have : Real.exp 1 ≤ 3 := by linarith
    calc Real.exp 1 ^ 3 ≤ 3 ^ 3 := by gcongr
      _ = 27 := by norm_num
  refine ⟨a, hapos, hz, ?_⟩
  have hle : a ≤ 27 := ha.2.trans he
  by_contra hlt
  push Not at hlt
  have : a * besselJ 1 a ≤ 27 * (1 / 100) := by
    by_cases hn : 0 ≤ besselJ 1 a
    · exact mul_le_mul hle hlt.le hn (by norm_num)
    · push Not at hn
      nlinarith
  norm_num at this
  linarith

end Verif.Bessel
