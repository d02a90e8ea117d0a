import Mathlib.Algebra.Group.ForwardDiff
import Mathlib.RingTheory.Polynomial.Pochhammer
import Mathlib.Analysis.SpecialFunctions.Integrals.Basic
import Verif.Model.FilterBasis
/-!
Integrals of the radial Zernike polynomials.
-/
namespace Verif.Filter
open Verif Finset Polynomial

/-- Alternating binomial sums of a polynomial of small degree vanish. -/
theorem altsum_poly (Q : ℝ[X]) (p : ℕ) (h : Q.natDegree < p) (x : ℝ) :
    ∑ i ∈ range (p + 1), (-1 : ℝ) ^ (p - i) * (p.choose i : ℝ) * Q.eval (x + i) = 0 := by
  have h1 := congrFun (Polynomial.fwdDiff_iter_eq_zero_of_degree_lt h) x
  rw [fwdDiff_iter_eq_sum_shift] at h1
  rw [Pi.zero_apply] at h1
  rw [← h1]
  refine sum_congr rfl fun i _ => ?_
  simp

/-- Alternating binomial sum of reciprocals. -/
theorem altsum_inv (p : ℕ) (z : ℝ) (hz : 0 < z) :
    ∑ i ∈ range (p + 1), (-1 : ℝ) ^ (p - i) * (p.choose i : ℝ) * (1 / (z + i)) = (-1) ^ p * p.factorial / ∏ i ∈ range (p + 1), (z + i) := by
  have key : ∀ p : ℕ, ∀ z : ℝ, 0 < z → (fwdDiff (1 : ℝ))^[p] (fun x => 1 / x) z = (-1) ^ p * p.factorial / ∏ i ∈ range (p + 1), (z + i) := by
    intro p
    induction p with
    | zero => intro z hz; simp
    | succ p ih =>
      intro z hz
      rw [Function.iterate_succ_apply', fwdDiff, ih z hz, ih (z + 1) (by linarith)]
      have hpos : ∀ n : ℕ, ∀ y : ℝ, 0 < y → (∏ i ∈ range n, (y + i)) ≠ 0 := by
        intro n y hy
        refine prod_ne_zero_iff.2 fun i _ => ?_
        positivity
      have e1 : ∏ i ∈ range (p + 1 + 1), (z + i) = (∏ i ∈ range (p + 1), (z + i)) * (z + (p + 1 : ℕ)) := prod_range_succ ..
      have e2 : ∏ i ∈ range (p + 1 + 1), (z + i) = z * ∏ i ∈ range (p + 1), (z + 1 + i) := by
        rw [prod_range_succ', mul_comm]
        congr 1
        · simp
        · refine prod_congr rfl fun i _ => ?_
          push_cast; ring
      have hA := hpos (p + 1) z hz
      have hB := hpos (p + 1) (z + 1) (by linarith)
      have hT := hpos (p + 2) z hz
      have hz' : z ≠ 0 := hz.ne'
      have hzp : z + ((p + 1 : ℕ) : ℝ) ≠ 0 := by positivity
      have f1 : (-1 : ℝ) ^ p * p.factorial / ∏ i ∈ range (p + 1), (z + 1 + i) = (-1) ^ p * p.factorial * z / ∏ i ∈ range (p + 1 + 1), (z + i) := by
        rw [e2]
        field_simp
      have f2 : (-1 : ℝ) ^ p * p.factorial / ∏ i ∈ range (p + 1), (z + i)
          = (-1) ^ p * p.factorial * (z + (p + 1 : ℕ)) / ∏ i ∈ range (p + 1 + 1), (z + i) := by
        rw [e1]
        field_simp
      rw [f1, f2, Nat.factorial_succ]
      push_cast
      ring
  rw [← key p z hz, fwdDiff_iter_eq_sum_shift]
  refine sum_congr rfl fun i _ => ?_
  simp

/-- `(x+1)(x+2)…(x+p)` as a polynomial. -/
noncomputable def rise (p : ℕ) : ℝ[X] := (ascPochhammer ℝ p).comp (X + C 1)

theorem rise_eval_nat (p m : ℕ) : (rise p).eval (m : ℝ) * (m.factorial : ℝ) = ((m + p).factorial : ℝ) := by
  unfold rise
  rw [eval_comp, eval_add, eval_X, eval_C]
  have h := Nat.factorial_mul_ascFactorial m p
  rw [← h, Nat.cast_mul, ← ascPochhammer_nat_eq_ascFactorial, ascPochhammer_eval_cast]
  push_cast
  ring

theorem rise_natDegree (p : ℕ) : (rise p).natDegree = p := by
  unfold rise
  rw [natDegree_comp, ascPochhammer_natDegree, natDegree_X_add_C, Nat.mul_one]

theorem rise_eval (p : ℕ) (x : ℝ) : (rise p).eval x = ∏ i ∈ range p, (x + 1 + i) := by
  unfold rise
  rw [eval_comp, eval_add, eval_X, eval_C]
  induction p with
  | zero => simp
  | succ p ih => rw [ascPochhammer_succ_eval, ih, prod_range_succ]

theorem rise_root (p y : ℕ) (h1 : 1 ≤ y) (h2 : y ≤ p) : (rise p).eval (-(y : ℝ)) = 0 := by
  rw [rise_eval]
  refine prod_eq_zero (i := y - 1) (mem_range.2 (by omega)) ?_
  rw [Nat.cast_sub h1]
  push_cast
  ring

theorem rise_next (p : ℕ) : (rise p).eval (-((p + 1 : ℕ) : ℝ)) = (-1) ^ p * p.factorial := by
  rw [rise_eval]
  have : ∀ n : ℕ, ∏ i ∈ range n, (-((n + 1 : ℕ) : ℝ) + 1 + i) = (-1) ^ n * n.factorial := by
    intro n
    induction n with
    | zero => simp
    | succ n ih =>
      rw [prod_range_succ', Nat.factorial_succ]
      have : ∏ k ∈ range n, (-((n + 1 + 1 : ℕ) : ℝ) + 1 + ((k + 1 : ℕ) : ℝ)) = ∏ i ∈ range n, (-((n + 1 : ℕ) : ℝ) + 1 + i) :=
        prod_congr rfl fun i _ => by push_cast; ring
      rw [this, ih]
      push_cast
      ring
  exact this p

/-- The alternating sum of `rise p` over a linear factor: only the remainder counts. -/
theorem altsum_div (p y m : ℕ) (hy : 1 ≤ y) (hp : 0 < p) :
    ∑ i ∈ range (p + 1), (-1 : ℝ) ^ (p - i) * (p.choose i : ℝ) * ((rise p).eval ((m : ℝ) + i) / ((m : ℝ) + i + y))
      = (rise p).eval (-(y : ℝ)) * ((-1) ^ p * p.factorial / ∏ i ∈ range (p + 1), ((m : ℝ) + y + i)) := by
  set Q := rise p /ₘ (X - C (-(y : ℝ))) with hQ
  have hdiv : rise p = C ((rise p).eval (-(y : ℝ))) + (X - C (-(y : ℝ))) * Q := by
    rw [← modByMonic_X_sub_C_eq_C_eval, hQ, modByMonic_add_div]
  have hdeg : Q.natDegree < p := by
    rw [hQ, natDegree_divByMonic _ (monic_X_sub_C _), rise_natDegree, natDegree_X_sub_C]
    omega
  have hy' : (0 : ℝ) < y := by exact_mod_cast hy
  have hterm : ∀ i : ℕ, (rise p).eval ((m : ℝ) + i) / ((m : ℝ) + i + y)
      = (rise p).eval (-(y : ℝ)) * (1 / ((m : ℝ) + y + i)) + Q.eval ((m : ℝ) + i) := by
    intro i
    have hne : (m : ℝ) + i + y ≠ 0 := by positivity
    have hne' : (m : ℝ) + y + i ≠ 0 := by positivity
    conv_lhs => rw [hdiv]
    rw [eval_add, eval_C, eval_mul, eval_sub, eval_X, eval_C]
    rw [show (m : ℝ) + y + i = m + i + y by ring]
    field_simp
    ring
  simp only [hterm, mul_add]
  rw [sum_add_distrib, altsum_poly Q p hdeg, add_zero, ← altsum_inv p ((m : ℝ) + y) (by positivity), mul_sum]
  refine sum_congr rfl fun i _ => ?_
  ring

/-- The coefficient of `u^(n-2k)`. -/
noncomputable def zcoef (p m k : ℕ) : ℝ :=
  (-1) ^ k * ((2 * p + m - k).factorial : ℝ) / ((k.factorial : ℝ) * ((p + m - k).factorial : ℝ) * ((p - k).factorial : ℝ))

theorem zcoef_flip (p m i : ℕ) (hi : i ≤ p) :
    zcoef p m (p - i) = (-1 : ℝ) ^ (p - i) * (p.choose i : ℝ) * (rise p).eval ((m : ℝ) + i) / p.factorial := by
  unfold zcoef
  rw [show 2 * p + m - (p - i) = m + i + p by omega, show p + m - (p - i) = m + i by omega, show p - (p - i) = i by omega]
  have h1 := rise_eval_nat p (m + i)
  have h2 : (p.choose i : ℝ) * i.factorial * (p - i).factorial = p.factorial := by exact_mod_cast Nat.choose_mul_factorial_mul_factorial hi
  rw [← h1, ← h2]
  have a1 : ((m + i).factorial : ℝ) ≠ 0 := by positivity
  have a2 : (i.factorial : ℝ) ≠ 0 := by positivity
  have a3 : ((p - i).factorial : ℝ) ≠ 0 := by positivity
  have a4 : (p.choose i : ℝ) ≠ 0 := by exact_mod_cast (Nat.choose_pos hi).ne'
  push_cast
  field_simp

theorem zernikeRadial_eq (u : ℝ) (p m : ℕ) :
    zernikeRadial u (2 * p + m) m = ∑ k ∈ range (p + 1), zcoef p m k * u ^ (2 * p + m - 2 * k) := by
  unfold zernikeRadial zcoef
  rw [show (2 * p + m - m) / 2 = p by omega, show (2 * p + m + m) / 2 = p + m by omega]
  refine sum_congr rfl fun k _ => ?_
  ring

/-- Moments of the radial polynomial: `∫ R(u) u^(m+2j) u du`, written as a sum. -/
theorem moment_sum (p m j : ℕ) (hp : 0 < p) (hj : j ≤ p) :
    ∑ k ∈ range (p + 1), zcoef p m k / (2 * ((p : ℝ) - k + m + j + 1))
      = if j < p then 0 else (p.factorial : ℝ) * ((p + m).factorial : ℝ) / (2 * ((2 * p + m + 1).factorial : ℝ)) := by
  have h1 : ∑ k ∈ range (p + 1), zcoef p m k / (2 * ((p : ℝ) - k + m + j + 1))
      = 1 / (2 * p.factorial) * ∑ i ∈ range (p + 1),
          (-1 : ℝ) ^ (p - i) * (p.choose i : ℝ) * ((rise p).eval ((m : ℝ) + i) / ((m : ℝ) + i + (j + 1 : ℕ))) := by
    rw [← sum_range_reflect, mul_sum]
    refine sum_congr rfl fun i hi => ?_
    have hi := mem_range.1 hi
    rw [show p + 1 - 1 - i = p - i by omega, zcoef_flip p m i (by omega), Nat.cast_sub (by omega)]
    push_cast
    rw [show (p : ℝ) - (p - i) + m + j + 1 = m + i + (j + 1) by ring]
    have : (m : ℝ) + i + (j + 1) ≠ 0 := by positivity
    have : (p.factorial : ℝ) ≠ 0 := by positivity
    field_simp
  rw [h1, altsum_div p (j + 1) m (by omega) hp]
  split
  · rw [rise_root p (j + 1) (by omega) (by omega)]
    ring
  · obtain rfl : j = p := by omega
    rw [rise_next]
    have hprod : (∏ i ∈ range (j + 1), ((m : ℝ) + (j + 1 : ℕ) + i)) * ((m + j).factorial : ℝ) = ((2 * j + m + 1).factorial : ℝ) := by
      have h := rise_eval_nat (j + 1) (m + j)
      rw [rise_eval, show m + j + (j + 1) = 2 * j + m + 1 by ring] at h
      rw [← h]
      congr 1
      refine prod_congr rfl fun i _ => ?_
      push_cast; ring
    have a1 : ((m + j).factorial : ℝ) ≠ 0 := by positivity
    have a2 : (∏ i ∈ range (j + 1), ((m : ℝ) + (j + 1 : ℕ) + i)) ≠ 0 := by
      refine prod_ne_zero_iff.2 fun i _ => ?_
      positivity
    rw [← hprod, Nat.add_comm j m]
    have a3 : (j.factorial : ℝ) ≠ 0 := by positivity
    have a4 : ((-1 : ℝ) ^ j) * (-1) ^ j = 1 := by rw [← mul_pow]; simp
    field_simp
    linear_combination (a4)

/-- The radial polynomials of one order are orthogonal with weight `u`. -/
theorem radial_integral (p p' m : ℕ) :
    ∫ u in (0 : ℝ)..1, zernikeRadial u (2 * p + m) m * zernikeRadial u (2 * p' + m) m * u
      = if p = p' then 1 / (2 * ((2 * p + m : ℕ) + 1 : ℝ)) else 0 := by
  wlog hle : p' ≤ p generalizing p p'
  · have := this p' p (by omega)
    rw [show (if p = p' then 1 / (2 * ((2 * p + m : ℕ) + 1 : ℝ)) else 0) = if p' = p then 1 / (2 * ((2 * p' + m : ℕ) + 1 : ℝ)) else 0 by
      by_cases h : p = p'
      · subst h; rfl
      · rw [if_neg h, if_neg (Ne.symm h)]]
    rw [← this]
    congr 1
    funext u
    ring
  have hcell : ∀ k ∈ range (p + 1), ∀ k' ∈ range (p' + 1),
      ∫ u in (0 : ℝ)..1, zcoef p m k * zcoef p' m k' * (u ^ (2 * p + m - 2 * k) * u ^ (2 * p' + m - 2 * k') * u)
        = zcoef p' m k' * (zcoef p m k / (2 * ((p : ℝ) - k + m + (p' - k' : ℕ) + 1))) := by
    intro k hk k' hk'
    have hk := mem_range.1 hk
    have hk' := mem_range.1 hk'
    have : ∀ u : ℝ, u ^ (2 * p + m - 2 * k) * u ^ (2 * p' + m - 2 * k') * u = u ^ (2 * (p - k) + 2 * m + 2 * (p' - k') + 1) := by
      intro u
      rw [← pow_add, ← pow_succ]
      congr 1
      omega
    simp only [this]
    rw [intervalIntegral.integral_const_mul, integral_pow]
    push_cast [Nat.cast_sub (show k ≤ p by omega), Nat.cast_sub (show k' ≤ p' by omega)]
    rw [one_pow, zero_pow (by omega)]
    have h1 : (0 : ℝ) ≤ (p : ℝ) - k := by rw [sub_nonneg]; exact_mod_cast (by omega : k ≤ p)
    have h2 : (0 : ℝ) ≤ (p' : ℝ) - k' := by rw [sub_nonneg]; exact_mod_cast (by omega : k' ≤ p')
    have h3 : (p : ℝ) - k + m + (p' - k') + 1 ≠ 0 := by positivity
    have h4 : 2 * ((p : ℝ) - k) + 2 * m + 2 * (p' - k') + 1 + 1 ≠ 0 := by positivity
    field_simp
    ring
  have hint : ∫ u in (0 : ℝ)..1, zernikeRadial u (2 * p + m) m * zernikeRadial u (2 * p' + m) m * u
      = ∑ k' ∈ range (p' + 1), zcoef p' m k' * ∑ k ∈ range (p + 1), zcoef p m k / (2 * ((p : ℝ) - k + m + (p' - k' : ℕ) + 1)) := by
    have : ∀ u : ℝ, zernikeRadial u (2 * p + m) m * zernikeRadial u (2 * p' + m) m * u
        = ∑ k' ∈ range (p' + 1), ∑ k ∈ range (p + 1), zcoef p m k * zcoef p' m k' * (u ^ (2 * p + m - 2 * k) * u ^ (2 * p' + m - 2 * k') * u) := by
      intro u
      rw [zernikeRadial_eq, zernikeRadial_eq, sum_mul_sum, sum_mul]
      simp only [sum_mul]
      refine (sum_comm).trans ?_
      refine sum_congr rfl fun k _ => sum_congr rfl fun k' _ => ?_
      ring
    simp only [this]
    rw [intervalIntegral.integral_finsetSum]
    · refine sum_congr rfl fun k' hk' => ?_
      rw [intervalIntegral.integral_finsetSum, mul_sum]
      · exact sum_congr rfl fun k hk => hcell k hk k' hk'
      · intro k _
        apply Continuous.intervalIntegrable
        fun_prop
    · intro k' _
      apply Continuous.intervalIntegrable
      fun_prop
  rw [hint]
  rcases Nat.eq_zero_or_pos p with rfl | hp
  · obtain rfl : p' = 0 := by omega
    simp [zcoef]
    have : ((m.factorial : ℝ)) ≠ 0 := by positivity
    field_simp
  by_cases hpp : p = p'
  · subst hpp
    rw [if_pos rfl, sum_eq_single 0]
    · rw [Nat.sub_zero, moment_sum p m p hp le_rfl, if_neg (lt_irrefl _)]
      unfold zcoef
      rw [Nat.factorial_succ]
      simp only [pow_zero, Nat.sub_zero, Nat.factorial_zero]
      have a1 : (p.factorial : ℝ) ≠ 0 := by positivity
      have a2 : ((p + m).factorial : ℝ) ≠ 0 := by positivity
      have a3 : ((2 * p + m).factorial : ℝ) ≠ 0 := by positivity
      push_cast
      field_simp
    · intro k' hk' hne
      have := mem_range.1 hk'
      rw [moment_sum p m _ hp (by omega), if_pos (by omega), mul_zero]
    · intro h
      exact absurd (mem_range.2 (by omega)) h
  · rw [if_neg hpp]
    apply sum_eq_zero
    intro k' hk'
    rw [moment_sum p m _ hp (by omega), if_pos (by omega), mul_zero]

end Verif.Filter
