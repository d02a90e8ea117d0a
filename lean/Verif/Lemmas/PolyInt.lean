import Mathlib.Analysis.Calculus.Deriv.Polynomial
import Verif.Spec.Quadrature
/-!
Integration of polynomials over `[-1,1]`, and rescaling of quadrature rules.
-/
namespace Verif.Quad
open Polynomial Finset MeasureTheory

/-- Integral over `[-1,1]`. -/
noncomputable def pint (p : ℝ[X]) : ℝ := ∫ t in (-1 : ℝ)..1, p.eval t

theorem poly_intervalIntegrable (p : ℝ[X]) (a b : ℝ) : IntervalIntegrable (fun t => p.eval t) volume a b :=
  p.continuous.intervalIntegrable a b

theorem pint_add (p q : ℝ[X]) : pint (p + q) = pint p + pint q := by
  unfold pint
  simp only [eval_add]
  exact intervalIntegral.integral_add (poly_intervalIntegrable p _ _) (poly_intervalIntegrable q _ _)

theorem pint_sub (p q : ℝ[X]) : pint (p - q) = pint p - pint q := by
  unfold pint
  simp only [eval_sub]
  exact intervalIntegral.integral_sub (poly_intervalIntegrable p _ _) (poly_intervalIntegrable q _ _)

theorem pint_C_mul (c : ℝ) (p : ℝ[X]) : pint (C c * p) = c * pint p := by
  unfold pint
  simp only [eval_mul, eval_C]
  exact intervalIntegral.integral_const_mul c _

theorem pint_zero : pint 0 = 0 := by simp [pint]

theorem pint_neg (p : ℝ[X]) : pint (-p) = - pint p := by
  have := pint_sub 0 p
  rw [zero_sub, pint_zero, zero_sub] at this; exact this

theorem pint_sum {ι} (s : Finset ι) (f : ι → ℝ[X]) : pint (∑ i ∈ s, f i) = ∑ i ∈ s, pint (f i) := by
  classical
  induction s using Finset.induction_on with
  | empty => simp [pint_zero]
  | insert a s ha ih => rw [sum_insert ha, sum_insert ha, pint_add, ih]

/-- Fundamental theorem of calculus for polynomials. -/
theorem pint_derivative (p : ℝ[X]) : pint (derivative p) = p.eval 1 - p.eval (-1) := by
  unfold pint
  exact intervalIntegral.integral_eq_sub_of_hasDerivAt (fun x _ => p.hasDerivAt x)
    (poly_intervalIntegrable _ _ _)

theorem pint_one : pint 1 = 2 := by
  unfold pint; simp; norm_num

/-- Exactness is preserved by the affine rescaling. -/
theorem exact_rescale {r : Rule} {d : ℕ} (h : Spec.ExactToDegree r (-1) 1 d) (a b : ℝ) :
    Spec.ExactToDegree (rescale r a b) a b d := by
  intro p hp
  let q : ℝ[X] := p.comp (C ((b - a) * (1 / 2)) * X + C ((b + a) * (1 / 2)))
  have hq : q.natDegree ≤ d := by
    refine le_trans natDegree_comp_le ?_
    refine le_trans ?_ hp
    have : (C ((b - a) * (1 / 2)) * X + C ((b + a) * (1 / 2)) : ℝ[X]).natDegree ≤ 1 := natDegree_linear_le
    calc _ ≤ p.natDegree * 1 := Nat.mul_le_mul_left _ this
      _ = _ := mul_one _
  have hev : ∀ t, q.eval t = p.eval ((b - a) * (1 / 2) * t + (b + a) * (1 / 2)) := by
    intro t; simp [q, eval_comp]
  have hx := h q hq
  simp only [rescale]
  have h1 : ∑ i ∈ range r.n, r.w i * (b - a) * (1 / 2) * p.eval ((b - a) * (1 / 2) * r.x i + (b + a) * (1 / 2))
      = ((b - a) * (1 / 2)) * ∑ i ∈ range r.n, r.w i * q.eval (r.x i) := by
    rw [mul_sum]; refine sum_congr rfl fun i _ => ?_
    rw [hev]; ring
  rw [h1, hx]
  simp only [hev]
  have h2 := intervalIntegral.mul_integral_comp_mul_add (a := (-1 : ℝ)) (b := 1) (f := fun t => p.eval t)
    ((b - a) * (1 / 2)) ((b + a) * (1 / 2))
  rw [h2]
  congr 1 <;> ring

end Verif.Quad
