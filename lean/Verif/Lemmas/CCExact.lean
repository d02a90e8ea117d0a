import Mathlib.Analysis.SpecialFunctions.Trigonometric.Chebyshev.Basic
import Verif.Lemmas.ClenshawCurtis
import Verif.Lemmas.PolyInt
/-!
Exactness of Clenshaw-Curtis quadrature: exact on Chebyshev polynomials, hence on all polynomials.
-/
namespace Verif.Quad
open Polynomial Finset Polynomial.Chebyshev

/-- A linear functional that vanishes on the Chebyshev polynomials of degree at most `d` vanishes on all polynomials of
degree at most `d`. -/
theorem cheb_span (L : ℝ[X] → ℝ) (hadd : ∀ p q, L (p + q) = L p + L q) (hC : ∀ c p, L (C c * p) = c * L p)
    (d : ℕ) (hT : ∀ k ≤ d, L (T ℝ k) = 0) (p : ℝ[X]) (hp : p.natDegree ≤ d) : L p = 0 := by
  induction d generalizing p with
  | zero =>
    have : p = C (p.coeff 0) * T ℝ (0 : ℕ) := by
      rw [Nat.cast_zero, T_zero, mul_one]; exact eq_C_of_natDegree_le_zero hp
    rw [this, hC, hT 0 le_rfl, mul_zero]
  | succ d ih =>
    set t := T ℝ ((d + 1 : ℕ) : ℤ) with ht
    have hdeg : t.natDegree = d + 1 := by rw [ht, natDegree_T]; exact Int.natAbs_natCast _
    have hlc : t.leadingCoeff ≠ 0 := by
      rw [leadingCoeff_ne_zero]; intro h0; rw [h0] at hdeg; simp at hdeg
    set c := p.coeff (d + 1) / t.leadingCoeff with hc
    have hlow : (p - C c * t).natDegree ≤ d := by
      rw [natDegree_le_iff_coeff_eq_zero]
      intro N hN
      rcases Nat.lt_or_ge (d + 1) N with h | h
      · rw [coeff_sub, coeff_C_mul, coeff_eq_zero_of_natDegree_lt (lt_of_le_of_lt hp h),
          coeff_eq_zero_of_natDegree_lt (by omega)]; ring
      · obtain rfl : N = d + 1 := by omega
        have : t.coeff (d + 1) = t.leadingCoeff := by rw [leadingCoeff, hdeg]
        rw [coeff_sub, coeff_C_mul, this, hc]; field_simp; ring
    have h1 := ih (fun k hk => hT k (by omega)) _ hlow
    have : p = (p - C c * t) + C c * t := by ring
    rw [this, hadd, h1, hC, hT (d + 1) le_rfl]; ring

theorem T_eval_one (n : ℤ) : (T ℝ n).eval 1 = 1 := by
  simp

theorem T_eval_neg (k : ℕ) (x : ℝ) : (T ℝ (k : ℤ)).eval (-x) = (-1) ^ k * (T ℝ (k : ℤ)).eval x := by
  induction k using Nat.strong_induction_on with
  | _ k ih =>
    match k with
    | 0 => simp
    | 1 => simp
    | k + 2 =>
      have e : ((k + 2 : ℕ) : ℤ) = (k : ℤ) + 2 := by push_cast; ring
      have e1 : ((k : ℤ) + 1) = ((k + 1 : ℕ) : ℤ) := by push_cast; ring
      rw [e, T_add_two, e1]
      simp only [eval_sub, eval_mul, eval_X, eval_ofNat]
      rw [ih k (by omega), ih (k + 1) (by omega)]; ring

/-- Moments of the Chebyshev polynomials. -/
theorem pint_T_odd (k : ℕ) (hk : k % 2 = 1) : pint (T ℝ (k : ℤ)) = 0 := by
  have h : pint (T ℝ (k : ℤ)) = - pint (T ℝ (k : ℤ)) := by
    unfold pint
    conv_lhs => rw [← neg_neg (1 : ℝ), ← intervalIntegral.integral_comp_neg]
    rw [neg_neg, ← intervalIntegral.integral_neg]
    refine intervalIntegral.integral_congr fun x _ => ?_
    show (T ℝ (k : ℤ)).eval (-x) = -(T ℝ (k : ℤ)).eval x
    rw [T_eval_neg, Odd.neg_one_pow (Nat.odd_iff.2 hk)]; ring
  linarith

theorem pint_T_even (k : ℕ) : pint (T ℝ ((2 * k : ℕ) : ℤ)) = 2 / (1 - 4 * (k : ℝ) ^ 2) := by
  rcases Nat.eq_zero_or_pos k with rfl | hk
  · simp [pint_one]
  obtain ⟨j, rfl⟩ : ∃ j, k = j + 1 := ⟨k - 1, by omega⟩
  have h1 : derivative (T ℝ (2 * (j : ℤ) + 3)) = C (2 * (j : ℝ) + 3) * U ℝ (2 * (j : ℤ) + 2) := by
    rw [T_derivative_eq_U, show (2 * (j : ℤ) + 3 - 1) = 2 * j + 2 by ring]; congr 1; simp [← C_ofNat]
  have h2 : derivative (T ℝ (2 * (j : ℤ) + 1)) = C (2 * (j : ℝ) + 1) * U ℝ (2 * (j : ℤ)) := by
    rw [T_derivative_eq_U, show (2 * (j : ℤ) + 1 - 1) = 2 * j by ring]; congr 1; simp [← C_ofNat]
  have h3 : (2 : ℝ[X]) * T ℝ (2 * (j : ℤ) + 2) = U ℝ (2 * (j : ℤ) + 2) - U ℝ (2 * (j : ℤ)) :=
    two_mul_T_eq_U_sub_U ℝ (2 * (j : ℤ))
  have hodd : ∀ i : ℕ, (T ℝ ((2 * i + 1 : ℕ) : ℤ)).eval (-1) = -1 := by
    intro i; rw [T_eval_neg, T_eval_one, Odd.neg_one_pow ⟨i, rfl⟩]; ring
  have p1 : (2 * (j : ℝ) + 3) * pint (U ℝ (2 * (j : ℤ) + 2)) = 2 := by
    rw [← pint_C_mul, ← h1, pint_derivative, T_eval_one]
    have := hodd (j + 1)
    rw [show ((2 * (j + 1) + 1 : ℕ) : ℤ) = 2 * (j : ℤ) + 3 by push_cast; ring] at this
    rw [this]; norm_num
  have p2 : (2 * (j : ℝ) + 1) * pint (U ℝ (2 * (j : ℤ))) = 2 := by
    rw [← pint_C_mul, ← h2, pint_derivative, T_eval_one]
    have := hodd j
    rw [show ((2 * j + 1 : ℕ) : ℤ) = 2 * (j : ℤ) + 1 by push_cast; ring] at this
    rw [this]; norm_num
  have p3 : 2 * pint (T ℝ (2 * (j : ℤ) + 2)) = pint (U ℝ (2 * (j : ℤ) + 2)) - pint (U ℝ (2 * (j : ℤ))) := by
    rw [← pint_sub, ← h3, ← pint_C_mul]; rfl
  rw [show ((2 * (j + 1) : ℕ) : ℤ) = 2 * (j : ℤ) + 2 by push_cast; ring]
  have e1 : pint (U ℝ (2 * (j : ℤ) + 2)) = 2 / (2 * (j : ℝ) + 3) := by
    rw [eq_div_iff (by positivity)]; linarith
  have e2 : pint (U ℝ (2 * (j : ℤ))) = 2 / (2 * (j : ℝ) + 1) := by
    rw [eq_div_iff (by positivity)]; linarith
  rw [e1, e2] at p3
  have e3 : pint (T ℝ (2 * (j : ℤ) + 2)) = (2 / (2 * (j : ℝ) + 3) - 2 / (2 * (j : ℝ) + 1)) / 2 := by linarith
  rw [e3]
  have f1 : (2 * (j : ℝ) + 3) ≠ 0 := by positivity
  have f2 : (2 * (j : ℝ) + 1) ≠ 0 := by positivity
  have f3 : (1 - 4 * ((j + 1 : ℕ) : ℝ) ^ 2) = -((2 * j + 3) * (2 * j + 1)) := by push_cast; ring
  rw [f3]; field_simp; ring

/-- The rule on `[-1,1]` before rescaling. -/
noncomputable def ccRule (n : ℕ) : Rule := ⟨n, fun i => Real.cos (linspace Real.pi 0 n i), ccW n⟩

theorem ccRule_node (n i : ℕ) (_hi : i < n) (hn : 2 ≤ n) :
    (ccRule n).x i = -Real.cos (Real.pi * i / (n - 1 : ℕ)) := by
  have h1 : ((n - 1 : ℕ) : ℝ) = (n : ℝ) - 1 := by rw [Nat.cast_sub (by omega)]; simp
  simp only [ccRule, linspace]
  rw [← Real.cos_pi_sub, h1]; congr 1; ring

theorem ccRule_node_cos (n i : ℕ) (hi : i < n) (hn : 2 ≤ n) (k : ℕ) :
    (T ℝ (k : ℤ)).eval ((ccRule n).x i) = (-1) ^ k * Real.cos (k * (Real.pi * i / (n - 1 : ℕ))) := by
  rw [ccRule_node n i hi hn, T_eval_neg, T_real_cos]; simp

theorem ccW_symm (n : ℕ) (hn : 2 ≤ n) (i : ℕ) (hi : i < n) : ccW n (n - 1 - i) = ccW n i := by
  unfold ccW
  by_cases h2 : n = 2
  · simp [h2]
  · rw [if_neg h2, if_neg h2]
    dsimp only
    rcases Nat.eq_zero_or_pos i with rfl | h0
    · rw [if_neg (by omega), if_pos (by omega)]
    · rw [if_pos (by omega)]
      by_cases hl : i < n - 1
      · rw [if_pos hl, ifftReal_symm (by omega) _ _ hl.le]
      · rw [if_neg hl, show n - 1 - i = 0 by omega]

theorem ccRule_node_symm (n : ℕ) (hn : 2 ≤ n) (i : ℕ) (hi : i < n) :
    (ccRule n).x (n - 1 - i) = -(ccRule n).x i := by
  rw [ccRule_node n _ (by omega) hn, ccRule_node n i hi hn, Nat.cast_sub (by omega), neg_neg]
  have : ((n - 1 : ℕ) : ℝ) ≠ 0 := by
    have : n - 1 ≠ 0 := by omega
    exact_mod_cast this
  rw [show Real.pi * (((n - 1 : ℕ) : ℝ) - i) / ((n - 1 : ℕ) : ℝ) = Real.pi - Real.pi * i / ((n - 1 : ℕ) : ℝ) by
    field_simp, Real.cos_pi_sub, neg_neg]

theorem cc_sum_T_even (n : ℕ) (hn : 2 ≤ n) (k : ℕ) (hk : 2 * k ≤ n - 1) :
    ∑ i ∈ range n, ccW n i * (T ℝ ((2 * k : ℕ) : ℤ)).eval ((ccRule n).x i) = 2 / (1 - 4 * (k : ℝ) ^ 2) := by
  by_cases h2 : n = 2
  · subst h2
    obtain rfl : k = 0 := by omega
    simp [ccW]
  obtain ⟨N, rfl⟩ : ∃ N, n = N + 1 := ⟨n - 1, by omega⟩
  have hN : 2 ≤ N := by omega
  have hN0 : N ≠ 0 := by omega
  have hNr : (N : ℝ) ≠ 0 := by exact_mod_cast hN0
  have hev : ∀ i < N + 1, (T ℝ ((2 * k : ℕ) : ℤ)).eval ((ccRule (N + 1)).x i) = cs N (i * k) := by
    intro i hi
    rw [ccRule_node_cos _ _ hi hn, Even.neg_one_pow ⟨k, by ring⟩, one_mul, cs]
    congr 1
    rw [show N + 1 - 1 = N by omega]; push_cast; ring
  have hw : ∀ i < N, ccW (N + 1) i = ifftReal N (ccU N) i := by
    intro i hi
    unfold ccW
    rw [if_neg h2]; dsimp only
    rw [show N + 1 - 1 = N by omega, if_pos hi]; rfl
  have hwN : ccW (N + 1) N = ifftReal N (ccU N) 0 := by
    unfold ccW
    rw [if_neg h2]; dsimp only
    rw [show N + 1 - 1 = N by omega, if_neg (lt_irrefl _)]; rfl
  rw [sum_range_succ, hev N (by omega), hwN]
  have : ∀ i ∈ range N, ccW (N + 1) i * (T ℝ ((2 * k : ℕ) : ℤ)).eval ((ccRule (N + 1)).x i)
      = ifftReal N (ccU N) i * cs N (i * k) := by
    intro i hi
    have hi := mem_range.1 hi
    rw [hev i (by omega), hw i hi]
  rw [sum_congr rfl this, ifft_dft hN0 _ (ccU_symm N) k (by omega)]
  have hper : cs N ((N : ℤ) * k) = 1 := by
    have := cs_add_period hN0 0 k
    rw [zero_add] at this; rw [this, cs_zero]
  rw [hper, mul_one, cc_moment hN k (by omega)]

theorem cc_sum_T_odd (n : ℕ) (hn : 2 ≤ n) (k : ℕ) (hk : k % 2 = 1) :
    ∑ i ∈ range n, ccW n i * (T ℝ (k : ℤ)).eval ((ccRule n).x i) = 0 := by
  have h : ∑ i ∈ range n, ccW n i * (T ℝ (k : ℤ)).eval ((ccRule n).x i)
      = -∑ i ∈ range n, ccW n i * (T ℝ (k : ℤ)).eval ((ccRule n).x i) := by
    conv_lhs => rw [← sum_range_reflect]
    rw [← sum_neg_distrib]
    refine sum_congr rfl fun i hi => ?_
    have hi := mem_range.1 hi
    rw [ccW_symm n hn i hi, ccRule_node_symm n hn i hi, T_eval_neg, Odd.neg_one_pow (Nat.odd_iff.2 hk)]; ring
  linarith

theorem ccRule_exact (n : ℕ) (hn : 2 ≤ n) : Spec.ExactToDegree (ccRule n) (-1) 1 (n - 1) := by
  intro p hp
  have := cheb_span (fun p => ∑ i ∈ range n, ccW n i * p.eval ((ccRule n).x i) - pint p)
    (by intro p q; simp only [eval_add, mul_add, sum_add_distrib, pint_add]; ring)
    (by
      intro c p
      simp only [eval_mul, eval_C, pint_C_mul, mul_sub, mul_sum]
      congr 1; exact sum_congr rfl fun i _ => by ring)
    (n - 1) (by
      intro k hk
      rcases Nat.even_or_odd' k with ⟨j, rfl | rfl⟩
      · simp only [cc_sum_T_even n hn j hk, pint_T_even, sub_self]
      · simp only [cc_sum_T_odd n hn (2 * j + 1) (by omega), pint_T_odd (2 * j + 1) (by omega), sub_self]) p hp
  exact sub_eq_zero.1 this

end Verif.Quad
