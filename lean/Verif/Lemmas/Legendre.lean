import Verif.Spec.Legendre
import Verif.Lemmas.PolyInt
import Mathlib.Tactic.LinearCombination
/-!
Recurrences, differential equation and orthogonality of the Legendre polynomials and their derivatives, from Rodrigues'
formula.
-/
namespace Verif.Leg
open Verif.Spec Verif.Quad Polynomial

theorem iter_deriv_X_mul (k : ℕ) (f : ℝ[X]) :
    derivative^[k + 1] (X * f) = X * derivative^[k + 1] f + ((k : ℝ[X]) + 1) * derivative^[k] f := by
  induction k with
  | zero => simp; ring
  | succ k ih =>
    rw [Function.iterate_succ_apply', ih]
    simp only [derivative_add, derivative_mul, derivative_X, derivative_natCast, derivative_one,
      ← Function.iterate_succ_apply' (f := derivative)]
    push_cast; ring

theorem iter_deriv_Xsq_mul (k : ℕ) (f : ℝ[X]) :
    derivative^[k + 2] (X ^ 2 * f) = X ^ 2 * derivative^[k + 2] f + 2 * ((k : ℝ[X]) + 2) * X * derivative^[k + 1] f
      + ((k : ℝ[X]) + 2) * ((k : ℝ[X]) + 1) * derivative^[k] f := by
  have h : X ^ 2 * f = X * (X * f) := by ring
  have h1 := iter_deriv_X_mul k f
  have h2 := iter_deriv_X_mul (k + 1) f
  have h3 := iter_deriv_X_mul (k + 1) (X * f)
  rw [h, h3, h2, h1]
  push_cast; ring

theorem fac_ne (l : ℕ) : (l.factorial : ℝ) ≠ 0 := by exact_mod_cast l.factorial_ne_zero

theorem base_deriv (l : ℕ) : derivative (rodriguesBase (l + 1)) = X * rodriguesBase l := by
  unfold rodriguesBase
  have h : (1 / (2 ^ (l + 1) * ((l + 1).factorial : ℝ))) * (2 * ((l : ℝ) + 1)) = 1 / (2 ^ l * (l.factorial : ℝ)) := by
    rw [Nat.factorial_succ]; push_cast
    have := fac_ne l
    field_simp; ring
  rw [derivative_C_mul, derivative_pow_succ, ← h, C_mul]
  simp only [derivative_sub, derivative_X_pow, derivative_one, C_mul, C_add, C_1, sub_zero]
  have : (C (2 : ℝ)) = (2 : ℝ[X]) := map_ofNat C 2
  simp only [this]
  simp only [Nat.cast_ofNat, map_ofNat, map_natCast]
  simp
  ring

theorem base_succ (l : ℕ) : 2 * ((l : ℝ[X]) + 1) * rodriguesBase (l + 1) = (X ^ 2 - 1) * rodriguesBase l := by
  unfold rodriguesBase
  have h : (1 / (2 ^ (l + 1) * ((l + 1).factorial : ℝ))) * (2 * ((l : ℝ) + 1)) = 1 / (2 ^ l * (l.factorial : ℝ)) := by
    rw [Nat.factorial_succ]; push_cast
    have := fac_ne l
    field_simp; ring
  rw [← h]
  have : (C (2 : ℝ)) = (2 : ℝ[X]) := map_ofNat C 2
  simp only [C_mul, C_add, C_1, this]
  simp
  ring

theorem deriv_Q (l m : ℕ) : derivative (legendreDeriv l m) = legendreDeriv l (m + 1) := by
  unfold legendreDeriv
  rw [← Function.iterate_succ_apply' (f := derivative)]; rfl

/-- `Q_{l+1}^{m+1} = x Q_l^{m+1} + (l+1+m) Q_l^m`. -/
theorem rec_B (l m : ℕ) : legendreDeriv (l + 1) (m + 1)
    = X * legendreDeriv l (m + 1) + ((l : ℝ[X]) + (m : ℝ[X]) + 1) * legendreDeriv l m := by
  unfold legendreDeriv
  have e : l + 1 + (m + 1) = (l + m + 1) + 1 := by ring
  rw [e, Function.iterate_succ_apply, base_deriv, iter_deriv_X_mul]
  push_cast; rfl

/-- `(l+1-m) Q_{l+1}^m = (x^2-1) Q_l^{m+1} + (l+1+m) x Q_l^m`. -/
theorem rec_A (l m : ℕ) : ((l : ℝ[X]) + 1 - (m : ℝ[X])) * legendreDeriv (l + 1) m
    = (X ^ 2 - 1) * legendreDeriv l (m + 1) + ((l : ℝ[X]) + 1 + (m : ℝ[X])) * X * legendreDeriv l m := by
  unfold legendreDeriv
  have hs : derivative^[l + 1 + m] (2 * ((l : ℝ[X]) + 1) * rodriguesBase (l + 1))
      = 2 * ((l : ℝ[X]) + 1) * derivative^[l + 1 + m] (rodriguesBase (l + 1)) := by
    have : 2 * ((l : ℝ[X]) + 1) = C (2 * ((l : ℝ) + 1)) := by
      rw [C_mul, C_add, C_1, map_ofNat]; simp
    rw [this, iterate_derivative_C_mul]
  rw [base_succ, sub_mul, one_mul, iterate_derivative_sub] at hs
  rcases Nat.eq_zero_or_pos (l + m) with h0 | hp
  · obtain ⟨rfl, rfl⟩ : l = 0 ∧ m = 0 := by omega
    have h1 : derivative (rodriguesBase 1) = X * rodriguesBase 0 := base_deriv 0
    have hb : rodriguesBase 0 = 1 := by simp [rodriguesBase]
    simp [h1, hb]
  · obtain ⟨k, hk⟩ : ∃ k, l + m = k + 1 := ⟨l + m - 1, by omega⟩
    have e1 : l + 1 + m = k + 2 := by omega
    have e2 : l + (m + 1) = k + 2 := by omega
    have hd : derivative^[k + 2] (rodriguesBase (l + 1))
        = X * derivative^[k + 1] (rodriguesBase l) + ((k : ℝ[X]) + 1) * derivative^[k] (rodriguesBase l) := by
      rw [Function.iterate_succ_apply, base_deriv, iter_deriv_X_mul]
    have hk' : (k : ℝ[X]) + 1 = (l : ℝ[X]) + (m : ℝ[X]) := by exact_mod_cast hk.symm
    rw [e1, iter_deriv_Xsq_mul] at hs
    rw [e1, e2, hk]
    linear_combination (-1 : ℝ[X]) * hs - ((k : ℝ[X]) + 2) * hd
      + (derivative^[k + 2] (rodriguesBase (l + 1)) + X * derivative^[k + 1] (rodriguesBase l)) * hk'

/-- `(1-x^2) Q_{l+1}^{m+1} = (l+1+m) Q_l^m - (l+1-m) x Q_{l+1}^m`. -/
theorem rec_C (l m : ℕ) : (1 - X ^ 2) * legendreDeriv (l + 1) (m + 1)
    = ((l : ℝ[X]) + 1 + (m : ℝ[X])) * legendreDeriv l m - ((l : ℝ[X]) + 1 - (m : ℝ[X])) * X * legendreDeriv (l + 1) m := by
  linear_combination (1 - X ^ 2) * rec_B l m + X * rec_A l m

/-- Three-term recurrence: `(l+2-m) Q_{l+2}^m = (2l+3) x Q_{l+1}^m - (l+1+m) Q_l^m`. -/
theorem rec_three (l m : ℕ) : ((l : ℝ[X]) + 2 - (m : ℝ[X])) * legendreDeriv (l + 2) m
    = (2 * (l : ℝ[X]) + 3) * X * legendreDeriv (l + 1) m - ((l : ℝ[X]) + 1 + (m : ℝ[X])) * legendreDeriv l m := by
  have hA := rec_A (l + 1) m
  push_cast at hA
  linear_combination hA - rec_C l m

/-- Legendre's differential equation for `Q_l^m`:
`(1-x^2) Q^{m+2} - 2(m+1) x Q^{m+1} + (l-m)(l+m+1) Q^m = 0`. -/
theorem ode (l m : ℕ) : (1 - X ^ 2) * legendreDeriv l (m + 2) - 2 * ((m : ℝ[X]) + 1) * X * legendreDeriv l (m + 1)
    + ((l : ℝ[X]) - (m : ℝ[X])) * ((l : ℝ[X]) + (m : ℝ[X]) + 1) * legendreDeriv l m = 0 := by
  cases l with
  | zero =>
    have hb : rodriguesBase 0 = 1 := by simp [rodriguesBase]
    have h1 : ∀ k, derivative^[k + 1] (1 : ℝ[X]) = 0 := by intro k; exact iterate_derivative_one (by omega)
    unfold legendreDeriv
    rw [hb]
    cases m with
    | zero => simp
    | succ m =>
      have e1 : 0 + (m + 1 + 2) = (m + 2) + 1 := by ring
      have e2 : 0 + (m + 1 + 1) = (m + 1) + 1 := by ring
      have e3 : 0 + (m + 1) = m + 1 := by ring
      rw [e1, e2, e3, h1, h1, h1]; ring
  | succ l =>
    have hA := rec_A l m
    have hB := rec_B l m
    have hC := rec_C l m
    push_cast
    have hd := congrArg derivative hC
    simp only [derivative_mul, derivative_sub, derivative_add, derivative_X_pow, derivative_one, derivative_natCast, derivative_X,
      deriv_Q] at hd
    have : (C ((2 : ℕ) : ℝ)) = (2 : ℝ[X]) := by push_cast; exact map_ofNat C 2
    simp only [this] at hd
    linear_combination hd - ((l : ℝ[X]) + 1 + (m : ℝ[X])) * (X * hB - hA)

/-! ### Degree -/

theorem base_natDegree (l : ℕ) : (rodriguesBase l).natDegree = 2 * l := by
  unfold rodriguesBase
  rw [natDegree_C_mul (by have := fac_ne l; positivity), natDegree_pow]
  have : (X ^ 2 - 1 : ℝ[X]).natDegree = 2 := by
    have := natDegree_X_pow_sub_C (n := 2) (r := (1 : ℝ)); simpa using this
  rw [this]; ring

theorem Q_zero (l m : ℕ) (h : l < m) : legendreDeriv l m = 0 := by
  unfold legendreDeriv
  apply iterate_derivative_eq_zero
  rw [base_natDegree]; omega

theorem natDegree_iter (p : ℝ[X]) (k : ℕ) (hk : k ≤ p.natDegree) : (derivative^[k] p).natDegree = p.natDegree - k := by
  induction k with
  | zero => simp
  | succ k ih =>
    have hp : 0 < (derivative^[k] p).natDegree := by rw [ih (by omega)]; omega
    rw [Function.iterate_succ_apply', natDegree_eq_of_degree_eq_some (degree_derivative hp.ne'), ih (by omega)]; omega

theorem Q_natDegree (l m : ℕ) (h : m ≤ l) : (legendreDeriv l m).natDegree = l - m := by
  unfold legendreDeriv
  rw [natDegree_iter _ _ (by rw [base_natDegree]; omega), base_natDegree]; omega

theorem Q_natDegree_le (l m : ℕ) : (legendreDeriv l m).natDegree ≤ l - m := by
  rcases Nat.lt_or_ge l m with h | h
  · rw [Q_zero l m h]; simp
  · exact (Q_natDegree l m h).le

theorem P_zero : legendreDeriv 0 0 = 1 := by simp [legendreDeriv, rodriguesBase]

theorem P_one : legendreDeriv 1 0 = X := by
  have := rec_A 0 0
  rw [P_zero, Q_zero 0 1 (by omega)] at this
  simpa using this

/-- Leading coefficient of the diagonal: `Q_{l+1}^{l+1} = (2l+1) Q_l^l`. -/
theorem rec_diag (l : ℕ) : legendreDeriv (l + 1) (l + 1) = (2 * (l : ℝ[X]) + 1) * legendreDeriv l l := by
  rw [rec_B, Q_zero l (l + 1) (by omega)]; ring

theorem rec_subdiag (l : ℕ) : legendreDeriv (l + 1) l = (2 * (l : ℝ[X]) + 1) * X * legendreDeriv l l := by
  have := rec_A l l
  rw [Q_zero l (l + 1) (by omega)] at this
  linear_combination this

/-! ### Orthogonality -/

/-- Weighted inner product of two derivatives of Legendre polynomials. -/
noncomputable def ip (m l l' : ℕ) : ℝ := pint ((1 - X ^ 2) ^ m * legendreDeriv l m * legendreDeriv l' m)

theorem ip_comm (m l l' : ℕ) : ip m l l' = ip m l' l := by
  unfold ip; congr 1; ring

theorem cast_C (n : ℕ) : (n : ℝ[X]) = C (n : ℝ) := by simp

/-- Integration by parts. -/
theorem ip_succ (m l l' : ℕ) : ip (m + 1) l l' = ((l' : ℝ) - m) * (l' + m + 1) * ip m l l' := by
  have hd : derivative ((1 - X ^ 2) ^ (m + 1) * legendreDeriv l' (m + 1) * legendreDeriv l m)
      = (1 - X ^ 2) ^ (m + 1) * legendreDeriv l (m + 1) * legendreDeriv l' (m + 1)
        - C (((l' : ℝ) - m) * (l' + m + 1)) * ((1 - X ^ 2) ^ m * legendreDeriv l m * legendreDeriv l' m) := by
    have ho := ode l' m
    simp only [derivative_mul, derivative_pow_succ, derivative_sub, derivative_one, derivative_X, deriv_Q, C_mul, C_add,
      C_sub, C_1, ← cast_C]
    push_cast
    linear_combination (1 - X ^ 2) ^ m * legendreDeriv l m * ho
  have hi := pint_derivative ((1 - X ^ 2) ^ (m + 1) * legendreDeriv l' (m + 1) * legendreDeriv l m)
  rw [hd, pint_sub, pint_C_mul] at hi
  simp at hi
  unfold ip
  linarith

theorem ip_zero_of_ne (l l' : ℕ) (h : l ≠ l') : ip 0 l l' = 0 := by
  have h1 := ip_succ 0 l l'
  have h2 := ip_succ 0 l' l
  rw [ip_comm 1 l' l, ip_comm 0 l' l] at h2
  have h3 : (((l' : ℝ) - (0 : ℕ)) * (l' + (0 : ℕ) + 1) - ((l : ℝ) - (0 : ℕ)) * (l + (0 : ℕ) + 1)) * ip 0 l l' = 0 := by
    rw [zero_add] at h1; linarith
  rcases mul_eq_zero.1 h3 with h4 | h4
  · exfalso
    have : ((l' : ℝ) - l) * ((l' : ℝ) + l + 1) = 0 := by push_cast at h4; linarith
    rcases mul_eq_zero.1 this with h5 | h5
    · exact h (by exact_mod_cast (sub_eq_zero.1 h5).symm)
    · have : (0 : ℝ) < (l' : ℝ) + l + 1 := by positivity
      linarith
  · exact h4

theorem ip_zero_self (l : ℕ) : ip 0 l l = 2 / (2 * (l : ℝ) + 1) := by
  have base0 : ip 0 0 0 = 2 := by simp [ip, P_zero, pint_one]
  have base1 : ip 0 1 1 = 2 / 3 := by
    simp only [ip, P_one, pint]
    simp only [eval_mul, eval_X, pow_zero, one_mul]
    have : ∀ t : ℝ, t * t = t ^ 2 := fun t => by ring
    simp only [this, integral_pow]; norm_num
  have step : ∀ l : ℕ, (2 * (l : ℝ) + 5) * ip 0 (l + 2) (l + 2) = (2 * (l : ℝ) + 3) * ip 0 (l + 1) (l + 1) := by
    intro l
    have h1 := rec_three l 0
    have h2 := rec_three (l + 1) 0
    have z1 := ip_zero_of_ne l (l + 2) (by omega)
    have z2 := ip_zero_of_ne (l + 3) (l + 1) (by omega)
    have e1 : ((l : ℝ) + 2) * ip 0 (l + 2) (l + 2) = (2 * (l : ℝ) + 3) * pint (X * legendreDeriv (l + 1) 0 * legendreDeriv (l + 2) 0)
        - ((l : ℝ) + 1) * ip 0 l (l + 2) := by
      unfold ip
      rw [← pint_C_mul, ← pint_C_mul, ← pint_C_mul, ← pint_sub]
      congr 1
      simp only [C_add, C_mul, C_1, ← cast_C, map_ofNat]
      push_cast at h1
      linear_combination legendreDeriv (l + 2) 0 * h1
    have e2 : ((l : ℝ) + 3) * ip 0 (l + 3) (l + 1) = (2 * (l : ℝ) + 5) * pint (X * legendreDeriv (l + 1) 0 * legendreDeriv (l + 2) 0)
        - ((l : ℝ) + 2) * ip 0 (l + 1) (l + 1) := by
      unfold ip
      rw [← pint_C_mul, ← pint_C_mul, ← pint_C_mul, ← pint_sub]
      congr 1
      simp only [C_add, C_mul, ← cast_C, map_ofNat]
      push_cast at h2
      linear_combination legendreDeriv (l + 1) 0 * h2
    rw [z1] at e1
    rw [z2] at e2
    have hl : (l : ℝ) + 2 ≠ 0 := by positivity
    apply mul_left_cancel₀ hl
    linear_combination (2 * (l : ℝ) + 5) * e1 - (2 * (l : ℝ) + 3) * e2
  induction l using Nat.strong_induction_on with
  | _ l ih =>
    match l with
    | 0 => rw [base0]; norm_num
    | 1 => rw [base1]; norm_num
    | l + 2 =>
      have h := step l
      rw [ih (l + 1) (by omega)] at h
      push_cast at h ⊢
      have h5 : 2 * (l : ℝ) + 5 ≠ 0 := by positivity
      have h3 : 2 * ((l : ℝ) + 1) + 1 ≠ 0 := by positivity
      have h5' : 2 * ((l : ℝ) + 2) + 1 ≠ 0 := by positivity
      rw [eq_div_iff h5']
      have h6 : (2 * (l : ℝ) + 3) * (2 / (2 * ((l : ℝ) + 1) + 1)) = 2 := by field_simp; ring
      linarith

/-- Orthogonality with the exact norms. -/
theorem ip_value (m l l' : ℕ) (hl : m ≤ l) :
    ip m l l' = if l = l' then 2 / (2 * (l : ℝ) + 1) * ((l + m).factorial / (l - m).factorial) else 0 := by
  induction m with
  | zero =>
    split
    · next h => subst h; rw [ip_zero_self, Nat.add_zero, Nat.sub_zero, div_self (fac_ne l), mul_one]
    · next h => exact ip_zero_of_ne l l' h
  | succ m ih =>
    rw [ip_succ, ih (by omega)]
    split
    · next h =>
      subst h
      obtain ⟨d, rfl⟩ : ∃ d, l = m + 1 + d := ⟨l - (m + 1), by omega⟩
      have e1 : m + 1 + d - m = d + 1 := by omega
      have e2 : m + 1 + d - (m + 1) = d := by omega
      have e3 : m + 1 + d + (m + 1) = (m + 1 + d + m) + 1 := by omega
      rw [e1, e2, e3, Nat.factorial_succ (m + 1 + d + m), Nat.factorial_succ d]
      have := fac_ne d
      push_cast
      field_simp
      ring
    · simp

end Verif.Leg
