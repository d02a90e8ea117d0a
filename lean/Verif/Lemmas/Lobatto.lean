import Mathlib.LinearAlgebra.Lagrange
import Verif.Lemmas.Legendre
/-!
Legendre-Gauss-Lobatto quadrature: the zeros of `x P_N(x) - P_{N-1}(x)` with the weights `2 / (n (n-1) P_{n-1}(x)^2)`,
`n = N + 1`, are exact to degree `2n - 3`.
-/
namespace Verif.Lob
open Verif.Spec Verif.Quad Verif.Leg Polynomial Finset

/-- The Vandermonde columns are the Legendre polynomials. -/
theorem vdm_eq (t : ℝ) (k : ℕ) : vdm t k = (legendreDeriv k 0).eval t := by
  induction k using Nat.strong_induction_on with
  | _ k ih =>
    match k with
    | 0 => rw [vdm, P_zero, eval_one]
    | 1 => rw [vdm, P_one, eval_X]
    | k + 2 =>
      rw [vdm, ih (k + 1) (by omega), ih k (by omega)]
      have h := congrArg (Polynomial.eval t) (rec_three k 0)
      simp only [eval_mul, eval_sub, eval_add, eval_X, eval_natCast, eval_ofNat, Nat.cast_zero, eval_zero, eval_one] at h
      have hk : (k : ℝ) + 2 ≠ 0 := by positivity
      field_simp
      linear_combination -h

/-- `P_N` is orthogonal to powers below `N`. -/
theorem pint_P_pow (k : ℕ) : ∀ N, k < N → pint (legendreDeriv N 0 * X ^ k) = 0 := by
  induction k with
  | zero =>
    intro N hN
    have := ip_zero_of_ne N 0 (by omega)
    rw [ip, P_zero] at this
    simpa using this
  | succ k ih =>
    intro N hN
    obtain ⟨l, rfl⟩ : ∃ l, N = l + 1 := ⟨N - 1, by omega⟩
    have h := rec_three l 0
    have e : legendreDeriv (l + 1) 0 * X ^ (k + 1) = C (1 / (2 * (l : ℝ) + 3)) *
        (C ((l : ℝ) + 2) * (legendreDeriv (l + 2) 0 * X ^ k) + C ((l : ℝ) + 1) * (legendreDeriv l 0 * X ^ k)) := by
      have hc : (C (1 / (2 * (l : ℝ) + 3)) : ℝ[X]) * (2 * (l : ℝ[X]) + 3) = 1 := by
        have : (2 * (l : ℝ[X]) + 3) = C (2 * (l : ℝ) + 3) := by simp only [C_add, C_mul, map_natCast, map_ofNat]
        rw [this, ← C_mul]
        have hne : 2 * (l : ℝ) + 3 ≠ 0 := by positivity
        rw [one_div, inv_mul_cancel₀ hne, C_1]
      have e1 : (C ((l : ℝ) + 2) : ℝ[X]) = (l : ℝ[X]) + 2 := by simp only [C_add, map_natCast, map_ofNat]
      have e2 : (C ((l : ℝ) + 1) : ℝ[X]) = (l : ℝ[X]) + 1 := by simp
      rw [e1, e2]
      simp only [Nat.cast_zero, sub_zero, add_zero] at h
      linear_combination (-legendreDeriv (l + 1) 0 * X ^ (k + 1)) * hc - C (1 / (2 * (l : ℝ) + 3)) * X ^ k * h
    rw [e, pint_C_mul, pint_add, pint_C_mul, pint_C_mul, ih (l + 2) (by omega), ih l (by omega)]
    simp

/-- `P_N` is orthogonal to polynomials of lower degree. -/
theorem pint_P_low (N : ℕ) (s : ℝ[X]) (hs : s.natDegree < N) : pint (legendreDeriv N 0 * s) = 0 := by
  rw [s.as_sum_range_C_mul_X_pow, Finset.mul_sum, pint_sum]
  refine sum_eq_zero fun k hk => ?_
  have : legendreDeriv N 0 * (C (s.coeff k) * X ^ k) = C (s.coeff k) * (legendreDeriv N 0 * X ^ k) := by ring
  rw [this, pint_C_mul, pint_P_pow k N (by have := mem_range.1 hk; omega), mul_zero]

/-- `x P_N - P_{N-1}` with `N = M + 1`. -/
noncomputable def f (M : ℕ) : ℝ[X] := X * legendreDeriv (M + 1) 0 - legendreDeriv M 0

theorem f_eq (M : ℕ) : (1 - X ^ 2) * legendreDeriv (M + 1) 1 = -((M : ℝ[X]) + 1) * f M := by
  have := rec_C M 0
  simp only [Nat.cast_zero, add_zero, sub_zero] at this
  rw [show 0 + 1 = 1 from rfl] at this
  rw [this, f]; ring

theorem deriv_f (M : ℕ) : derivative (f M) = ((M : ℝ[X]) + 2) * legendreDeriv (M + 1) 0 := by
  have hA := rec_A M 0
  have hB := rec_B M 0
  simp only [Nat.cast_zero, add_zero, sub_zero, show 0 + 1 = 1 from rfl] at hA hB
  rw [f, derivative_sub, derivative_mul, derivative_X, deriv_Q, deriv_Q, show 0 + 1 = 1 from rfl]
  linear_combination X * hB - hA

/-- Christoffel-Darboux kernel `sum_{k <= M} (2k+1) P_k(t) P_k(x)`. -/
noncomputable def kern (t : ℝ) (M : ℕ) : ℝ[X] :=
  ∑ k ∈ range (M + 1), C ((2 * (k : ℝ) + 1) * (legendreDeriv k 0).eval t) * legendreDeriv k 0

theorem kern_eq (t : ℝ) (M : ℕ) : (X - C t) * kern t M = ((M : ℝ[X]) + 1) *
    (C ((legendreDeriv M 0).eval t) * legendreDeriv (M + 1) 0 - C ((legendreDeriv (M + 1) 0).eval t) * legendreDeriv M 0) := by
  induction M with
  | zero => simp [kern, P_zero, P_one]
  | succ M ih =>
    rw [kern, sum_range_succ, mul_add]
    change (X - C t) * kern t M + _ = _
    rw [ih]
    have h := rec_three M 0
    have ht := congrArg (fun p => C (Polynomial.eval t p)) h
    simp only [eval_mul, eval_sub, eval_add, eval_X, eval_natCast, eval_ofNat, Nat.cast_zero, eval_zero, eval_one,
      C_mul, C_add, C_sub, C_0, C_1, map_natCast, map_ofNat] at ht
    simp only [Nat.cast_zero, sub_zero, add_zero] at h
    push_cast
    simp only [C_mul, C_add, map_natCast, map_ofNat, C_1]
    generalize C (eval t (legendreDeriv (M + 2) 0)) = a2 at *
    generalize C (eval t (legendreDeriv (M + 1) 0)) = a1 at *
    generalize C (eval t (legendreDeriv M 0)) = a0 at *
    rw [show M + 1 + 1 = M + 2 from rfl]
    generalize legendreDeriv (M + 2) 0 = p2 at *
    generalize legendreDeriv (M + 1) 0 = p1 at *
    generalize legendreDeriv M 0 = p0 at *
    linear_combination (-a1) * h + p1 * ht

/-- Unnormalised Lagrange polynomial of a Lobatto node. -/
noncomputable def lag (t : ℝ) (M : ℕ) : ℝ[X] :=
  kern t M + C (((M : ℝ) + 1) * (legendreDeriv (M + 1) 0).eval t) * legendreDeriv (M + 1) 0

theorem lag_eq (t : ℝ) (M : ℕ) (ht : (f M).eval t = 0) :
    (X - C t) * lag t M = C (((M : ℝ) + 1) * (legendreDeriv (M + 1) 0).eval t) * f M := by
  rw [lag, mul_add, kern_eq, f]
  have h : (legendreDeriv M 0).eval t = t * (legendreDeriv (M + 1) 0).eval t := by
    simp only [f, eval_sub, eval_mul, eval_X] at ht
    linarith
  rw [h]
  simp only [C_mul, C_add, map_natCast, C_1]
  ring

theorem lag_natDegree (t : ℝ) (M : ℕ) : (lag t M).natDegree ≤ M + 1 := by
  unfold lag kern
  refine (natDegree_add_le _ _).trans (max_le ?_ ?_)
  · refine natDegree_sum_le_of_forall_le _ _ fun k hk => ?_
    refine (natDegree_C_mul_le _ _).trans ((Q_natDegree_le k 0).trans ?_)
    have := mem_range.1 hk; omega
  · exact (natDegree_C_mul_le _ _).trans ((Q_natDegree_le _ 0).trans (by omega))

theorem pint_lag (t : ℝ) (M : ℕ) : pint (lag t M) = 2 := by
  have hz : ∀ k, pint (legendreDeriv k 0) = if k = 0 then 2 else 0 := by
    intro k
    by_cases h : k = 0
    · rw [h, P_zero, pint_one, if_pos rfl]
    · rw [if_neg h]
      have := pint_P_low k 1 (by simp; omega)
      simpa using this
  rw [lag, pint_add, pint_C_mul, hz, if_neg (by omega), kern, pint_sum, sum_eq_single_of_mem 0 (by simp)]
  · rw [pint_C_mul, hz, if_pos rfl, P_zero]; simp
  · intro k _ hk
    rw [pint_C_mul, hz, if_neg hk, mul_zero]

/-- The value of `lag` at its own node. -/
theorem lag_self (t : ℝ) (M : ℕ) (ht : (f M).eval t = 0) :
    (lag t M).eval t = ((M : ℝ) + 1) * ((M : ℝ) + 2) * (legendreDeriv (M + 1) 0).eval t ^ 2 := by
  have h := congrArg (fun p => (derivative p).eval t) (lag_eq t M ht)
  simp only [derivative_mul, derivative_sub, derivative_X, derivative_C, deriv_f, eval_add, eval_mul, eval_sub, eval_X,
    eval_C, eval_one, eval_zero, eval_natCast, eval_ofNat] at h
  linear_combination h

theorem P_ne_zero (l : ℕ) : legendreDeriv l 0 ≠ 0 := by
  intro h
  cases l with
  | zero => rw [P_zero] at h; exact one_ne_zero h
  | succ l =>
    have := Q_natDegree (l + 1) 0 (by omega)
    rw [h] at this; simp at this

theorem f_natDegree (M : ℕ) : (f M).natDegree = M + 2 := by
  have h1 : (X * legendreDeriv (M + 1) 0).natDegree = M + 2 := by
    rw [natDegree_X_mul (P_ne_zero _), Q_natDegree _ _ (by omega)]; omega
  rw [f, natDegree_sub_eq_left_of_natDegree_lt, h1]
  rw [h1, Q_natDegree _ _ (by omega)]; omega

/-- `f` is orthogonal to polynomials of degree at most `N - 2`. -/
theorem pint_f_low (M : ℕ) (q : ℝ[X]) (hq : q.natDegree + 1 ≤ M) : pint (f M * q) = 0 := by
  have hd : derivative ((1 - X ^ 2) * q * legendreDeriv (M + 1) 0)
      = legendreDeriv (M + 1) 0 * derivative ((1 - X ^ 2) * q) - C ((M : ℝ) + 1) * (f M * q) := by
    rw [derivative_mul, deriv_Q]
    have := f_eq M
    simp only [C_add, map_natCast, C_1]
    linear_combination q * this
  have h0 := pint_derivative ((1 - X ^ 2) * q * legendreDeriv (M + 1) 0)
  rw [hd, pint_sub, pint_C_mul, pint_P_low] at h0
  · simp only [eval_mul, eval_sub, eval_one, eval_pow, eval_X] at h0
    have hM : (M : ℝ) + 1 ≠ 0 := by positivity
    have : ((M : ℝ) + 1) * pint (f M * q) = 0 := by linear_combination -h0
    exact (mul_eq_zero.1 this).resolve_left hM
  · have h2 : ((1 - X ^ 2 : ℝ[X]) * q).natDegree ≤ 2 + q.natDegree := by
      refine natDegree_mul_le.trans (Nat.add_le_add_right ?_ _)
      refine (natDegree_sub_le _ _).trans ?_
      simp
    have h3 := natDegree_derivative_le ((1 - X ^ 2 : ℝ[X]) * q)
    omega

/-- Main theorem: `n = M + 2` distinct zeros of `f` with the Lobatto weights integrate exactly to degree `2n - 3`. -/
theorem exact (M : ℕ) (x : ℕ → ℝ) (hx : ∀ i < M + 2, (f M).eval (x i) = 0)
    (hP : ∀ i < M + 2, (legendreDeriv (M + 1) 0).eval (x i) ≠ 0)
    (hinj : ∀ i j, i < M + 2 → j < M + 2 → x i = x j → i = j) (p : ℝ[X]) (hp : p.natDegree ≤ 2 * (M + 2) - 3) :
    ∑ i ∈ range (M + 2), 2 / (((M : ℝ) + 2) * ((M : ℝ) + 1) * (legendreDeriv (M + 1) 0).eval (x i) ^ 2) * p.eval (x i)
      = pint p := by
  have hf0 : f M ≠ 0 := by
    intro h; have := f_natDegree M; rw [h] at this; simp at this
  have hdm := EuclideanDomain.div_add_mod p (f M)
  set q := p / f M with hq
  set r := p % f M with hr
  have hrd : r.degree < (f M).degree := degree_mod_lt p hf0
  have hqi : pint (f M * q) = 0 := by
    by_cases hq0 : q = 0
    · rw [hq0, mul_zero, pint_zero]
    · have : (f M * q).natDegree = M + 2 + q.natDegree := by rw [natDegree_mul hf0 hq0, f_natDegree]
      have hle : (f M * q).natDegree ≤ p.natDegree := by
        by_contra hlt
        have hpn : p.degree < (f M * q).degree := degree_lt_degree (by omega)
        have hrn : r.degree < (f M * q).degree := by
          refine hrd.trans_le ?_
          rw [degree_mul]
          exact le_add_of_nonneg_right (zero_le_degree_iff.2 hq0)
        have h3 : f M * q = p - r := by rw [← hdm]; ring
        have h4 := degree_sub_le p r
        rw [← h3] at h4
        exact absurd (h4.trans_lt (max_lt hpn hrn)) (lt_irrefl _)
      exact pint_f_low M q (by omega)
  have hev : ∀ i < M + 2, p.eval (x i) = r.eval (x i) := by
    intro i hi
    conv_lhs => rw [← hdm]
    rw [eval_add, eval_mul, hx i hi]; ring
  have hw : ∀ i, (legendreDeriv (M + 1) 0).eval (x i) ≠ 0 →
      ((M : ℝ) + 1) * ((M : ℝ) + 2) * (legendreDeriv (M + 1) 0).eval (x i) ^ 2 ≠ 0 := by
    intro i h; positivity
  have hri : r = ∑ i ∈ range (M + 2), C (r.eval (x i) /
      (((M : ℝ) + 1) * ((M : ℝ) + 2) * (legendreDeriv (M + 1) 0).eval (x i) ^ 2)) * lag (x i) M := by
    refine eq_of_degrees_lt_of_eval_index_eq (v := x) (range (M + 2)) ?_ ?_ ?_ ?_
    · intro i hi j hj h
      exact hinj i j (mem_range.1 (mem_coe.1 hi)) (mem_range.1 (mem_coe.1 hj)) h
    · rw [card_range]
      refine hrd.trans_le ?_
      rw [degree_eq_natDegree hf0, f_natDegree]
    · rw [card_range]
      refine (degree_sum_le _ _).trans_lt ?_
      rw [Finset.sup_lt_iff (by exact WithBot.bot_lt_coe _)]
      intro i _
      refine (degree_le_natDegree.trans (Nat.cast_le.2 ((natDegree_C_mul_le _ _).trans (lag_natDegree _ _)))).trans_lt ?_
      exact_mod_cast (by omega : M + 1 < M + 2)
    · intro j hj
      have hj' := mem_range.1 hj
      rw [eval_finsetSum, sum_eq_single_of_mem j hj]
      · rw [eval_mul, eval_C, lag_self _ _ (hx j hj'), div_mul_cancel₀ _ (hw j (hP j hj'))]
      · intro i hi hij
        have hi' := mem_range.1 hi
        have h := congrArg (Polynomial.eval (x j)) (lag_eq (x i) M (hx i hi'))
        rw [eval_mul, eval_mul, hx j hj', mul_zero, eval_sub, eval_X, eval_C] at h
        have hne : x j - x i ≠ 0 := fun h0 => hij (hinj i j hi' hj' (by linarith))
        rw [eval_mul, (mul_eq_zero.1 h).resolve_left hne, mul_zero]
  have hpi : pint p = pint r := by
    rw [← hdm, pint_add, hqi, zero_add]
  rw [hpi]
  conv_rhs => rw [hri]
  rw [pint_sum]
  refine sum_congr rfl fun i hi => ?_
  rw [pint_C_mul, pint_lag, hev i (mem_range.1 hi)]
  ring

end Verif.Lob
