import Mathlib.Topology.Algebra.Order.Field
import Verif.Lemmas.Lobatto
import Verif.Props.QuadratureS2
import Verif.Props.SHT
/-!
C07: the Legendre-Gauss-Lobatto rule.
-/
namespace Verif.Props
open Verif Verif.Quad Verif.Spec Verif.SHT Verif.Dist Verif.Leg Polynomial Finset Filter Topology

/-- The Chebyshev first guess of `lobatto_weights`. -/
noncomputable abbrev lobattoGuess (n i : ℕ) : ℝ := -Real.cos (Real.pi * i / ((n : ℝ) - 1))

theorem lobatto_ok (n : ℕ) (hn : 2 ≤ n) (a b tol : ℝ) (maxiter : ℕ) :
    lobattoWeights n a b tol maxiter = .ok (rescale ⟨n, (lobattoLoop n tol maxiter (lobattoGuess n)).1,
      fun i => 2 / ((n * ((n : ℝ) - 1)) * (vdm ((lobattoLoop n tol maxiter (lobattoGuess n)).2 i) (n - 1)) ^ 2)⟩ a b) := by
  rw [lobattoWeights, if_neg (by omega), if_neg (by omega)]

/-- C07. The rule is rejected exactly for fewer than two nodes. -/
theorem C07_error_iff (n : ℕ) (a b tol : ℝ) (maxiter : ℕ) :
    (∃ e, lobattoWeights n a b tol maxiter = .error e) ↔ n ≤ 1 := by
  constructor
  · rintro ⟨e, he⟩
    by_contra h
    rw [lobatto_ok n (by omega)] at he
    cases he
  · intro h
    rcases (by omega : n = 0 ∨ n = 1) with h | h <;> subst h
    · exact ⟨.runtimeError, by rw [lobattoWeights, if_neg (by omega), if_pos rfl]⟩
    · exact ⟨.zeroDivision, by rw [lobattoWeights, if_pos rfl]⟩

/-- A property of node vectors that one sweep preserves holds of both results of the loop. -/
theorem lobattoLoop_inv (n : ℕ) (tol : ℝ) (P : (ℕ → ℝ) → Prop)
    (hstep : ∀ t, P t → P (fun i => lobattoStep n (t i))) :
    ∀ fuel t, P t → P (lobattoLoop n tol fuel t).1 ∧ P (lobattoLoop n tol fuel t).2 := by
  intro fuel
  induction fuel with
  | zero => intro t h; exact ⟨h, h⟩
  | succ fuel ih =>
    intro t h
    cases fuel with
    | zero => rw [lobattoLoop]; simp only; split <;> exact ⟨hstep t h, h⟩
    | succ fuel =>
      rw [lobattoLoop]; simp only
      split
      · exact ⟨hstep t h, h⟩
      · exact ih _ (hstep t h)

theorem vdm_one (k : ℕ) : vdm 1 k = 1 := by
  induction k using Nat.strong_induction_on with
  | _ k ih =>
    match k with
    | 0 => rfl
    | 1 => rfl
    | k + 2 =>
      rw [vdm, ih (k + 1) (by omega), ih k (by omega)]
      have hk : (k : ℝ) + 2 ≠ 0 := by positivity
      field_simp; ring

theorem vdm_neg (t : ℝ) (k : ℕ) : vdm (-t) k = (-1) ^ k * vdm t k := by
  induction k using Nat.strong_induction_on with
  | _ k ih =>
    match k with
    | 0 => simp [vdm]
    | 1 => simp [vdm]
    | k + 2 =>
      rw [vdm, ih (k + 1) (by omega), ih k (by omega), vdm]
      have hk : (k : ℝ) + 2 ≠ 0 := by positivity
      field_simp
      ring

theorem lobattoStep_neg (n : ℕ) (hn : 2 ≤ n) (t : ℝ) : lobattoStep n (-t) = -lobattoStep n t := by
  obtain ⟨M, rfl⟩ : ∃ M, n = M + 2 := ⟨n - 2, by omega⟩
  unfold lobattoStep
  rw [vdm_neg, vdm_neg, show M + 2 - 1 = M + 1 by omega, show M + 2 - 2 = M by omega]
  have h1 : ((-1 : ℝ) ^ M) ≠ 0 := pow_ne_zero _ (by norm_num)
  have e : (-t * ((-1) ^ (M + 1) * vdm t (M + 1)) - (-1) ^ M * vdm t M)
      / (((M + 2 : ℕ) : ℝ) * ((-1) ^ (M + 1) * vdm t (M + 1)))
      = -((t * vdm t (M + 1) - vdm t M) / (((M + 2 : ℕ) : ℝ) * vdm t (M + 1))) := by
    rw [pow_succ]
    have : (-t * ((-1) ^ M * -1 * vdm t (M + 1)) - (-1) ^ M * vdm t M)
      / (((M + 2 : ℕ) : ℝ) * ((-1) ^ M * -1 * vdm t (M + 1)))
      = ((-1) ^ M * (t * vdm t (M + 1) - vdm t M)) / ((-1) ^ M * (-(((M + 2 : ℕ) : ℝ) * vdm t (M + 1)))) := by
      congr 1 <;> ring
    rw [this, mul_div_mul_left _ _ h1, div_neg]
  rw [e]; ring

theorem lobattoStep_one (n : ℕ) : lobattoStep n 1 = 1 := by
  unfold lobattoStep
  rw [vdm_one, vdm_one]; simp

theorem lobattoGuess_symm (n : ℕ) (hn : 2 ≤ n) (i : ℕ) (hi : i < n) : lobattoGuess n (n - 1 - i) = -lobattoGuess n i := by
  have h1 : ((n : ℝ) - 1) ≠ 0 := by
    have : (2 : ℝ) ≤ n := by exact_mod_cast hn
    linarith
  unfold lobattoGuess
  have : Real.pi * ((n - 1 - i : ℕ) : ℝ) / ((n : ℝ) - 1) = Real.pi - Real.pi * i / ((n : ℝ) - 1) := by
    rw [show n - 1 - i = n - (1 + i) by omega, Nat.cast_sub (by omega)]
    push_cast
    field_simp; ring
  rw [this, Real.cos_pi_sub]

/-- Both results of the iteration are mirror-symmetric and contain the end points. -/
theorem lobatto_inv (n : ℕ) (hn : 2 ≤ n) (tol : ℝ) (maxiter : ℕ) :
    let res := lobattoLoop n tol maxiter (lobattoGuess n)
    ((∀ i < n, res.1 (n - 1 - i) = -res.1 i) ∧ res.1 (n - 1) = 1) ∧
      (∀ i < n, res.2 (n - 1 - i) = -res.2 i) ∧ res.2 (n - 1) = 1 := by
  refine lobattoLoop_inv n tol (fun t => (∀ i < n, t (n - 1 - i) = -t i) ∧ t (n - 1) = 1) ?_ maxiter _ ?_
  · rintro t ⟨h1, h2⟩
    refine ⟨fun i hi => ?_, ?_⟩
    · dsimp only
      rw [h1 i hi, lobattoStep_neg n hn]
    · dsimp only
      rw [h2, lobattoStep_one]
  · refine ⟨lobattoGuess_symm n hn, ?_⟩
    have h1 : ((n : ℝ) - 1) ≠ 0 := by
      have : (2 : ℝ) ≤ n := by exact_mod_cast hn
      linarith
    unfold lobattoGuess
    rw [Nat.cast_sub (by omega), Nat.cast_one, mul_div_assoc, div_self h1, mul_one, Real.cos_pi, neg_neg]

/-- C07. However many iterations run, the first and last nodes are the end points of the interval, and they carry the weight
`(b-a)/(n(n-1))`. -/
theorem C07_endpoints (n : ℕ) (a b tol : ℝ) (maxiter : ℕ) (r : Rule) (hr : lobattoWeights n a b tol maxiter = .ok r) :
    r.n = n ∧ r.x 0 = a ∧ r.x (n - 1) = b ∧ r.w 0 = (b - a) / (n * (n - 1)) ∧ r.w (n - 1) = (b - a) / (n * (n - 1)) := by
  have hn : 2 ≤ n := by
    by_contra h
    obtain ⟨e, he⟩ := (C07_error_iff n a b tol maxiter).2 (by omega)
    rw [hr] at he; cases he
  rw [lobatto_ok n hn] at hr
  obtain ⟨⟨h1, h2⟩, h3, h4⟩ := lobatto_inv n hn tol maxiter
  have h0 := h1 (n - 1) (by omega)
  have h0' := h3 (n - 1) (by omega)
  rw [Nat.sub_self, h2] at h0
  rw [Nat.sub_self, h4] at h0'
  cases hr
  have e1 : ((-1 : ℝ) ^ (n - 1)) ^ 2 = 1 := by rw [← pow_mul, mul_comm, pow_mul]; simp
  refine ⟨rfl, ?_, ?_, ?_, ?_⟩
  · simp only [rescale]; rw [h0]; ring
  · simp only [rescale]; rw [h2]; ring
  · simp only [rescale]; rw [h0', vdm_neg, vdm_one, mul_one, e1]; ring
  · simp only [rescale]; rw [h4, vdm_one]; ring

/-- C07. However many iterations run, nodes and weights are mirror-symmetric. -/
theorem C07_symmetric (n : ℕ) (a b tol : ℝ) (maxiter : ℕ) (r : Rule) (hr : lobattoWeights n a b tol maxiter = .ok r)
    (i : ℕ) (hi : i < n) : r.x (n - 1 - i) - a = b - r.x i ∧ r.w (n - 1 - i) = r.w i := by
  have hn : 2 ≤ n := by
    by_contra h
    obtain ⟨e, he⟩ := (C07_error_iff n a b tol maxiter).2 (by omega)
    rw [hr] at he; cases he
  rw [lobatto_ok n hn] at hr
  obtain ⟨⟨h1, h2⟩, h3, h4⟩ := lobatto_inv n hn tol maxiter
  cases hr
  have e1 : ((-1 : ℝ) ^ (n - 1)) ^ 2 = 1 := by rw [← pow_mul, mul_comm, pow_mul]; simp
  constructor
  · simp only [rescale]; rw [h1 i hi]; ring
  · simp only [rescale]; rw [h3 i hi, vdm_neg, mul_pow, e1, one_mul]

/-- The exit condition in exact arithmetic: the last sweep divided by nonzero numbers, moved no node, and left them distinct. -/
structure LobattoConverged (n : ℕ) (tol : ℝ) (maxiter : ℕ) : Prop where
  fixed : ∀ i < n, (lobattoLoop n tol maxiter (lobattoGuess n)).1 i = (lobattoLoop n tol maxiter (lobattoGuess n)).2 i
  finite : ∀ i < n, vdm ((lobattoLoop n tol maxiter (lobattoGuess n)).2 i) (n - 1) ≠ 0
  distinct : ∀ i j, i < j → j < n →
    (lobattoLoop n tol maxiter (lobattoGuess n)).2 i ≠ (lobattoLoop n tol maxiter (lobattoGuess n)).2 j

/-- The first result of the loop is one sweep applied to the second. -/
theorem lobattoLoop_step (n : ℕ) (tol : ℝ) : ∀ fuel t, 1 ≤ fuel →
    (lobattoLoop n tol fuel t).1 = fun i => lobattoStep n ((lobattoLoop n tol fuel t).2 i) := by
  intro fuel
  induction fuel with
  | zero => intro t h; omega
  | succ fuel ih =>
    intro t _
    cases fuel with
    | zero => rw [lobattoLoop]; simp only; split <;> rfl
    | succ fuel =>
      rw [lobattoLoop]; simp only
      split
      · rfl
      · exact ih _ (by omega)

theorem step_zero_iff (M : ℕ) (t : ℝ) (hv : vdm t (M + 1) ≠ 0) :
    lobattoStep (M + 2) t = t ↔ (Lob.f M).eval t = 0 := by
  have hM : ((M + 2 : ℕ) : ℝ) ≠ 0 := by positivity
  unfold lobattoStep
  rw [show M + 2 - 1 = M + 1 by omega, show M + 2 - 2 = M by omega, Lob.f, eval_sub, eval_mul, eval_X, ← Lob.vdm_eq,
    ← Lob.vdm_eq]
  constructor
  · intro h
    have h1 : (t * vdm t (M + 1) - vdm t M) / (((M + 2 : ℕ) : ℝ) * vdm t (M + 1)) = 0 := by linarith
    exact (div_eq_zero_iff.1 h1).resolve_right (mul_ne_zero hM hv)
  · intro h; rw [h]; simp

/-- C07. At convergence the rule is exact to degree `2n - 3` on every interval. -/
theorem C07_exact_at_convergence (n : ℕ) (a b tol : ℝ) (maxiter : ℕ) (hmax : 1 ≤ maxiter) (r : Rule)
    (hr : lobattoWeights n a b tol maxiter = .ok r) (hc : LobattoConverged n tol maxiter) :
    r.n = n ∧ ExactToDegree r a b (2 * n - 3) := by
  have hn : 2 ≤ n := by
    by_contra h
    obtain ⟨e, he⟩ := (C07_error_iff n a b tol maxiter).2 (by omega)
    rw [hr] at he; cases he
  rw [lobatto_ok n hn] at hr
  cases hr
  refine ⟨rfl, exact_rescale ?_ a b⟩
  intro p hp
  obtain ⟨M, rfl⟩ : ∃ M, n = M + 2 := ⟨n - 2, by omega⟩
  set res := lobattoLoop (M + 2) tol maxiter (lobattoGuess (M + 2)) with hres
  have hz : ∀ i < M + 2, (Lob.f M).eval (res.2 i) = 0 := by
    intro i hi
    rw [← step_zero_iff M _ (hc.finite i hi), ← hc.fixed i hi]
    conv_rhs => rw [lobattoLoop_step _ _ _ _ hmax]
    rw [hc.fixed i hi]
  have := Lob.exact M res.2 hz (fun i hi => by rw [← Lob.vdm_eq]; exact hc.finite i hi) (by
    intro i j hi hj h
    rcases lt_trichotomy i j with h' | h' | h'
    · exact absurd h (hc.distinct i j h' hj)
    · exact h'
    · exact absurd h.symm (hc.distinct j i h' hi)) p hp
  change _ = pint p
  rw [← this]
  refine sum_congr rfl fun i hi => ?_
  dsimp only
  rw [hc.fixed i (mem_range.1 hi), show M + 2 - 1 = M + 1 by omega, Lob.vdm_eq]
  push_cast
  congr 3
  ring

/-- Beyond the interval the Legendre polynomials increase with the degree. -/
theorem vdm_mono (t : ℝ) (ht : 1 < t) (k : ℕ) : 1 ≤ vdm t k ∧ vdm t k < vdm t (k + 1) := by
  induction k with
  | zero => exact ⟨le_refl _, by simpa [vdm] using ht⟩
  | succ k ih =>
    refine ⟨ih.1.trans ih.2.le, ?_⟩
    rw [show vdm t (k + 1 + 1) = ((2 * ((k : ℝ) + 2) - 1) * t * vdm t (k + 1) - (((k : ℝ) + 2) - 1) * vdm t k) / ((k : ℝ) + 2) from rfl]
    have hk : (0 : ℝ) ≤ k := Nat.cast_nonneg k
    rw [lt_div_iff₀ (by positivity)]
    have h1 : 0 < vdm t (k + 1) := by linarith [ih.1, ih.2]
    nlinarith [mul_pos (mul_pos (by linarith : (0 : ℝ) < 2 * k + 3) (by linarith : 0 < t - 1)) h1,
      mul_pos (by linarith : (0 : ℝ) < k + 1) (sub_pos.2 ih.2)]

/-- Zeros of `x P_N - P_{N-1}` lie in `[-1, 1]`. -/
theorem f_zero_inside (M : ℕ) (t : ℝ) (h : (Lob.f M).eval t = 0) : -1 ≤ t ∧ t ≤ 1 := by
  have key : ∀ s : ℝ, 1 < s → (Lob.f M).eval s ≠ 0 := by
    intro s hs h0
    rw [Lob.f, eval_sub, eval_mul, eval_X, ← Lob.vdm_eq, ← Lob.vdm_eq] at h0
    have := vdm_mono s hs M
    nlinarith [mul_pos (by linarith : 0 < s - 1) (by linarith : 0 < vdm s (M + 1))]
  have hneg : (Lob.f M).eval (-t) = (-1) ^ M * (Lob.f M).eval t := by
    simp only [Lob.f, eval_sub, eval_mul, eval_X, ← Lob.vdm_eq, vdm_neg]
    ring
  constructor
  · by_contra hlt
    exact key (-t) (by linarith) (by rw [hneg, h, mul_zero])
  · by_contra hlt
    exact key t (by linarith) h

/-- C07. At convergence on `[-1,1]` the rule is mirror-symmetric, stays inside the interval, and is exact to degree `2n-3`;
with this C08 and C14-C18 apply to the Lobatto grid. -/
theorem C07_symmetricExact (n : ℕ) (tol : ℝ) (maxiter : ℕ) (hmax : 1 ≤ maxiter) (r : Rule)
    (hr : lobattoWeights n (-1) 1 tol maxiter = .ok r) (hc : LobattoConverged n tol maxiter) :
    SymmetricExactRule r n (2 * n - 3) := by
  have h := C07_exact_at_convergence n (-1) 1 tol maxiter hmax r hr hc
  have hs := C07_symmetric n (-1) 1 tol maxiter r hr
  refine ⟨h.1, ?_, fun i hi => by linarith [(hs i hi).1], fun i hi => (hs i hi).2, h.2⟩
  have hn : 2 ≤ n := by
    by_contra h
    obtain ⟨e, he⟩ := (C07_error_iff n (-1) 1 tol maxiter).2 (by omega)
    rw [hr] at he; cases he
  rw [lobatto_ok n hn] at hr
  obtain ⟨M, rfl⟩ : ∃ M, n = M + 2 := ⟨n - 2, by omega⟩
  cases hr
  intro i hi
  have hz : (Lob.f M).eval ((lobattoLoop (M + 2) tol maxiter (lobattoGuess (M + 2))).1 i) = 0 := by
    rw [hc.fixed i hi, ← step_zero_iff M _ (hc.finite i hi)]
    have := congrFun (lobattoLoop_step (M + 2) tol maxiter (lobattoGuess (M + 2)) hmax) i
    rw [← this]; exact hc.fixed i hi
  have := f_zero_inside M _ hz
  simp only [rescale]
  constructor <;> linarith [this.1, this.2]

/-- Non-vacuity: three nodes converge at once (and give Simpson's rule). -/
theorem lobatto_three (tol : ℝ) (maxiter : ℕ) : LobattoConverged 3 tol maxiter := by
  have hg : lobattoGuess 3 0 = -1 ∧ lobattoGuess 3 1 = 0 ∧ lobattoGuess 3 2 = 1 := by
    have := lobattoGuess_symm 3 (by norm_num) 0 (by norm_num)
    have h0 : lobattoGuess 3 0 = -1 := by simp [lobattoGuess]
    refine ⟨h0, ?_, ?_⟩
    · unfold lobattoGuess
      rw [show Real.pi * ((1 : ℕ) : ℝ) / (((3 : ℕ) : ℝ) - 1) = Real.pi / 2 by push_cast; ring, Real.cos_pi_div_two, neg_zero]
    · rw [h0] at this; simpa using this
  have hs : ∀ x : ℝ, (x = -1 ∨ x = 0 ∨ x = 1) → lobattoStep 3 x = x := by
    rintro x (h | h | h) <;> subst h <;> simp [lobattoStep, vdm] <;> norm_num
  have hinv := lobattoLoop_inv 3 tol (fun t => t 0 = -1 ∧ t 1 = 0 ∧ t 2 = 1) (by
    rintro t ⟨h0, h1, h2⟩
    dsimp only
    rw [h0, h1, h2, hs _ (by simp), hs _ (by simp), hs _ (by simp)]
    simp) maxiter _ hg
  obtain ⟨⟨a0, a1, a2⟩, b0, b1, b2⟩ := hinv
  refine ⟨?_, ?_, ?_⟩
  · intro i hi
    interval_cases i
    · rw [a0, b0]
    · rw [a1, b1]
    · rw [a2, b2]
  · intro i hi
    interval_cases i
    · rw [b0]; simp [vdm]; norm_num
    · rw [b1]; simp [vdm]; norm_num
    · rw [b2]; simp [vdm]; norm_num
  · intro i j hij hj
    have : (i = 0 ∧ j = 1) ∨ (i = 0 ∧ j = 2) ∨ (i = 1 ∧ j = 2) := by omega
    rcases this with ⟨rfl, rfl⟩ | ⟨rfl, rfl⟩ | ⟨rfl, rfl⟩
    · rw [b0, b1]; norm_num
    · rw [b0, b2]; norm_num
    · rw [b1, b2]; norm_num

example : ∃ r, lobattoWeights 3 0 2 (1 / 10) 100 = .ok r ∧ ExactToDegree r 0 2 3 :=
  ⟨_, lobatto_ok 3 (by norm_num) 0 2 (1 / 10) 100,
    (C07_exact_at_convergence 3 0 2 (1 / 10) 100 (by norm_num) _ (lobatto_ok 3 (by norm_num) 0 2 (1 / 10) 100)
      (lobatto_three _ _)).2⟩

/-! ## The limit of many iterations -/

/-- With tolerance zero the loop never breaks early. -/
theorem lobattoLoop_tol_zero (n : ℕ) (hn : 1 ≤ n) : ∀ k t,
    lobattoLoop n 0 (k + 1) t = (fun i => (lobattoStep n)^[k + 1] (t i), fun i => (lobattoStep n)^[k] (t i)) := by
  have hno : ∀ t : ℕ → ℝ, ¬ ∀ i < n, |lobattoStep n (t i) - t i| < 0 := fun t h =>
    absurd (h 0 (by omega)) (not_lt.2 (abs_nonneg _))
  intro k
  induction k with
  | zero => intro t; rw [lobattoLoop]; simp only; rw [if_neg (hno t)]; rfl
  | succ k ih =>
    intro t
    rw [lobattoLoop]; simp only; rw [if_neg (hno t), ih]
    rfl

theorem vdm_continuous (k : ℕ) : Continuous (fun t => vdm t k) := by
  simp only [Lob.vdm_eq]
  exact (legendreDeriv k 0).continuous

/-- Two consecutive Legendre polynomials have no common zero. -/
theorem vdm_no_common_zero (t : ℝ) (k : ℕ) : ¬ (vdm t k = 0 ∧ vdm t (k + 1) = 0) := by
  induction k with
  | zero => rintro ⟨h, -⟩; simp [vdm] at h
  | succ k ih =>
    rintro ⟨h1, h2⟩
    refine ih ⟨?_, h1⟩
    rw [show vdm t (k + 1 + 1) = ((2 * ((k : ℝ) + 2) - 1) * t * vdm t (k + 1) - (((k : ℝ) + 2) - 1) * vdm t k) / ((k : ℝ) + 2) from rfl,
      h1] at h2
    have hk : (k : ℝ) + 2 ≠ 0 := by positivity
    have hk' : (k : ℝ) + 1 ≠ 0 := by positivity
    have h3 := (div_eq_zero_iff.1 h2).resolve_right hk
    have h4 : ((k : ℝ) + 1) * vdm t k = 0 := by linarith
    exact (mul_eq_zero.1 h4).resolve_left hk'

/-- C07. If the iteration never divides by zero and its nodes converge to distinct limits, then the rules returned after
`k` iterations integrate every polynomial of degree at most `2n - 3` with an error that tends to zero. No special form of
the limits is assumed: that they are the Lobatto nodes is part of the proof. -/
theorem C07_limit (n : ℕ) (hn : 2 ≤ n) (a b : ℝ) (x : ℕ → ℝ)
    (hfin : ∀ k, ∀ i < n, vdm ((lobattoStep n)^[k] (lobattoGuess n i)) (n - 1) ≠ 0)
    (hconv : ∀ i < n, Tendsto (fun k => (lobattoStep n)^[k] (lobattoGuess n i)) atTop (𝓝 (x i)))
    (hinj : ∀ i j, i < j → j < n → x i ≠ x j) (p : ℝ[X]) (hp : p.natDegree ≤ 2 * n - 3) :
    ∃ r : ℕ → Rule, (∀ k, lobattoWeights n a b 0 (k + 1) = .ok (r k)) ∧
      Tendsto (fun k => ∑ i ∈ range n, (r k).w i * p.eval ((r k).x i)) atTop (𝓝 (∫ t in a..b, p.eval t)) := by
  obtain ⟨M, rfl⟩ : ∃ M, n = M + 2 := ⟨n - 2, by omega⟩
  refine ⟨_, fun k => lobatto_ok (M + 2) hn a b 0 (k + 1), ?_⟩
  simp only [lobattoLoop_tol_zero (M + 2) (by omega)]
  have hM : ((M + 2 : ℕ) : ℝ) ≠ 0 := by positivity
  -- the limits are zeros of `f`
  have hz : ∀ i < M + 2, (Lob.f M).eval (x i) = 0 := by
    intro i hi
    have h1 := hconv i hi
    have h2 := (tendsto_add_atTop_iff_nat 1).2 h1
    have h3 : Tendsto (fun k => -((lobattoStep (M + 2))^[k + 1] (lobattoGuess (M + 2) i) - (lobattoStep (M + 2))^[k] (lobattoGuess (M + 2) i))
        * (((M + 2 : ℕ) : ℝ) * vdm ((lobattoStep (M + 2))^[k] (lobattoGuess (M + 2) i)) (M + 1))) atTop
        (𝓝 (-(x i - x i) * (((M + 2 : ℕ) : ℝ) * vdm (x i) (M + 1)))) :=
      ((h2.sub h1).neg).mul (((vdm_continuous (M + 1)).tendsto _ |>.comp h1).const_mul _)
    have h4 : Tendsto (fun k => (Lob.f M).eval ((lobattoStep (M + 2))^[k] (lobattoGuess (M + 2) i))) atTop
        (𝓝 ((Lob.f M).eval (x i))) := ((Lob.f M).continuous.tendsto _).comp h1
    rw [sub_self, neg_zero, zero_mul] at h3
    refine tendsto_nhds_unique h4 (h3.congr fun k => ?_)
    rw [Function.iterate_succ_apply']
    have hv := hfin k i hi
    rw [show M + 2 - 1 = M + 1 by omega] at hv
    generalize (lobattoStep (M + 2))^[k] (lobattoGuess (M + 2) i) = t at hv
    unfold lobattoStep
    rw [show M + 2 - 1 = M + 1 by omega, show M + 2 - 2 = M by omega, Lob.f, eval_sub, eval_mul, eval_X, ← Lob.vdm_eq,
      ← Lob.vdm_eq]
    field_simp
    ring
  have hP : ∀ i < M + 2, vdm (x i) (M + 1) ≠ 0 := by
    intro i hi h0
    have h1 := hz i hi
    rw [Lob.f, eval_sub, eval_mul, eval_X, ← Lob.vdm_eq, ← Lob.vdm_eq, h0, mul_zero, zero_sub, neg_eq_zero] at h1
    exact vdm_no_common_zero _ _ ⟨h1, h0⟩
  have hex : ExactToDegree ⟨M + 2, x, fun i => 2 / ((((M + 2 : ℕ) : ℝ) * (((M + 2 : ℕ) : ℝ) - 1)) * vdm (x i) (M + 1) ^ 2)⟩
      (-1) 1 (2 * (M + 2) - 3) := by
    intro q hq
    change _ = pint q
    rw [← Lob.exact M x hz (fun i hi => by rw [← Lob.vdm_eq]; exact hP i hi) (by
      intro i j hi hj h
      rcases lt_trichotomy i j with h' | h' | h'
      · exact absurd h (hinj i j h' hj)
      · exact h'
      · exact absurd h.symm (hinj j i h' hi)) q hq]
    refine sum_congr rfl fun i _ => ?_
    dsimp only
    rw [Lob.vdm_eq]
    push_cast
    congr 3
    ring
  rw [← exact_rescale hex a b p hp]
  refine tendsto_finsetSum _ fun i hi => ?_
  have hi' := mem_range.1 hi
  have h1 := hconv i hi'
  have h2 := (tendsto_add_atTop_iff_nat 1).2 h1
  simp only [rescale]
  refine Tendsto.mul ?_ ?_
  · refine Tendsto.mul_const _ (Tendsto.mul_const _ ?_)
    refine Tendsto.div tendsto_const_nhds (Tendsto.const_mul _ (Tendsto.pow ?_ 2)) ?_
    · exact ((vdm_continuous (M + 1)).tendsto _).comp h1
    · have := hP i hi'
      have h3 : ((M + 2 : ℕ) : ℝ) - 1 ≠ 0 := by
        have : (0 : ℝ) ≤ M := Nat.cast_nonneg M
        push_cast; linarith
      exact mul_ne_zero (mul_ne_zero hM h3) (pow_ne_zero _ this)
  · exact (p.continuous.tendsto _).comp ((h2.const_mul _).add_const _)

/-- One Newton step at four nodes contracts towards `1 / sqrt 5`. -/
theorem lobatto_four_contract (c t : ℝ) (hc0 : 0 < c) (hc : 5 * c ^ 2 = 1) (ht : |t - c| ≤ 6 / 100) :
    vdm t 3 ≠ 0 ∧ |lobattoStep 4 t - c| ≤ 1 / 2 * |t - c| := by
  have hc1 : c < 448 / 1000 := by nlinarith
  have hc2 : 447 / 1000 < c := by nlinarith
  obtain ⟨h1, h2⟩ := abs_le.1 ht
  have h3 : vdm t 3 = (5 * t ^ 3 - 3 * t) / 2 := by simp only [vdm]; norm_num; ring
  have h4 : vdm t 2 = (3 * t ^ 2 - 1) / 2 := by simp only [vdm]; norm_num; ring
  have htl : 387 / 1000 < t := by linarith
  have htu : t < 508 / 1000 := by linarith
  have hd : 0 < 4 * t * (3 - 5 * t ^ 2) := by
    have : t ^ 2 < 3 / 10 := by nlinarith
    have : 0 < 3 - 5 * t ^ 2 := by linarith
    positivity
  have hne : vdm t 3 ≠ 0 := by
    rw [h3]; intro h0
    have : 4 * t * (3 - 5 * t ^ 2) = 0 := by linarith
    linarith
  refine ⟨hne, ?_⟩
  have e : lobattoStep 4 t - c = (t - c) * (1 - 5 * (t + c) * (1 - t ^ 2) / (4 * t * (3 - 5 * t ^ 2))) := by
    unfold lobattoStep
    rw [show 4 - 1 = 3 from rfl, show 4 - 2 = 2 from rfl, h3, h4]
    have hne' : (5 * t ^ 3 - 3 * t) / 2 ≠ 0 := by rw [← h3]; exact hne
    have : ((4 : ℕ) : ℝ) * ((5 * t ^ 3 - 3 * t) / 2) = -(4 * t * (3 - 5 * t ^ 2)) / 2 := by push_cast; ring
    rw [this]
    have hd' := hd.ne'
    rw [show (t * ((5 * t ^ 3 - 3 * t) / 2) - (3 * t ^ 2 - 1) / 2) / (-(4 * t * (3 - 5 * t ^ 2)) / 2)
      = -(5 * t ^ 4 - 6 * t ^ 2 + 1) / (4 * t * (3 - 5 * t ^ 2)) by
        rw [div_div_eq_mul_div, div_eq_div_iff (neg_ne_zero.2 hd') hd']; ring]
    rw [sub_sub, ← sub_eq_zero]
    have : t - (-(5 * t ^ 4 - 6 * t ^ 2 + 1) / (4 * t * (3 - 5 * t ^ 2)) + c)
        - (t - c) * (1 - 5 * (t + c) * (1 - t ^ 2) / (4 * t * (3 - 5 * t ^ 2)))
        = ((5 * t ^ 4 - 6 * t ^ 2 + 1) + (t - c) * (5 * (t + c) * (1 - t ^ 2))) / (4 * t * (3 - 5 * t ^ 2)) := by ring
    rw [this, show (5 * t ^ 4 - 6 * t ^ 2 + 1) + (t - c) * (5 * (t + c) * (1 - t ^ 2)) = (1 - t ^ 2) * (1 - 5 * c ^ 2) by ring, hc]
    simp
  rw [e, abs_mul, mul_comm]
  refine mul_le_mul_of_nonneg_right ?_ (abs_nonneg _)
  have hb : 1 / 2 ≤ 5 * (t + c) * (1 - t ^ 2) / (4 * t * (3 - 5 * t ^ 2)) ∧
      5 * (t + c) * (1 - t ^ 2) / (4 * t * (3 - 5 * t ^ 2)) ≤ 3 / 2 := by
    constructor
    · rw [le_div_iff₀ hd]; nlinarith [mul_pos (by linarith : 0 < t) (by linarith : 0 < c), pow_pos (by linarith : 0 < t) 3]
    · rw [div_le_iff₀ hd]; nlinarith [mul_pos (by linarith : 0 < t) (by linarith : 0 < c), pow_pos (by linarith : 0 < t) 3]
  rw [abs_le]; constructor <;> linarith [hb.1, hb.2]

/-- Non-vacuity of `C07_limit` where the guess is not already converged: the four-node rule, whose interior nodes start at
`-+ 1/2` and converge to `-+ 1/sqrt 5`. -/
example (a b : ℝ) (p : ℝ[X]) (hp : p.natDegree ≤ 5) :
    ∃ r : ℕ → Rule, (∀ k, lobattoWeights 4 a b 0 (k + 1) = .ok (r k)) ∧
      Tendsto (fun k => ∑ i ∈ range 4, (r k).w i * p.eval ((r k).x i)) atTop (𝓝 (∫ t in a..b, p.eval t)) := by
  have h5 : 5 * (1 / Real.sqrt 5) ^ 2 = 1 := by
    rw [div_pow, Real.sq_sqrt (by norm_num)]; norm_num
  have hc0 : 0 < 1 / Real.sqrt 5 := by positivity
  set c := 1 / Real.sqrt 5
  have hc1 : c < 448 / 1000 := by nlinarith
  have hc2 : 447 / 1000 < c := by nlinarith
  have g2 : lobattoGuess 4 2 = 1 / 2 := by
    unfold lobattoGuess
    rw [show Real.pi * ((2 : ℕ) : ℝ) / (((4 : ℕ) : ℝ) - 1) = Real.pi - Real.pi / 3 by push_cast; ring, Real.cos_pi_sub,
      Real.cos_pi_div_three, neg_neg]
  have g0 : lobattoGuess 4 0 = -1 := by simp [lobattoGuess]
  have g3 : lobattoGuess 4 3 = 1 := by
    have := lobattoGuess_symm 4 (by norm_num) 0 (by norm_num); rw [g0] at this; simpa using this
  have g1 : lobattoGuess 4 1 = -(1 / 2) := by
    have := lobattoGuess_symm 4 (by norm_num) 2 (by norm_num); rw [g2] at this; simpa using this
  have hb : ∀ k, |(lobattoStep 4)^[k] (1 / 2) - c| ≤ (1 / 2) ^ k * (6 / 100) := by
    intro k
    induction k with
    | zero => simp only [Function.iterate_zero, id, pow_zero, one_mul]; rw [abs_le]; constructor <;> linarith
    | succ k ih =>
      have hle : (1 / 2 : ℝ) ^ k * (6 / 100) ≤ 6 / 100 := by
        have : (1 / 2 : ℝ) ^ k ≤ 1 := pow_le_one₀ (by norm_num) (by norm_num)
        linarith
      have := (lobatto_four_contract c _ hc0 h5 (ih.trans hle)).2
      rw [Function.iterate_succ_apply', pow_succ]
      linarith
  have hb' : ∀ k, |(lobattoStep 4)^[k] (1 / 2) - c| ≤ 6 / 100 := by
    intro k
    have : (1 / 2 : ℝ) ^ k ≤ 1 := pow_le_one₀ (by norm_num) (by norm_num)
    linarith [hb k]
  have hlim : Tendsto (fun k => (lobattoStep 4)^[k] (1 / 2)) atTop (𝓝 c) := by
    rw [tendsto_iff_norm_sub_tendsto_zero]
    refine squeeze_zero (fun _ => norm_nonneg _) hb ?_
    have := (tendsto_pow_atTop_nhds_zero_of_lt_one (by norm_num : (0 : ℝ) ≤ 1 / 2) (by norm_num)).mul_const (6 / 100 : ℝ)
    simpa using this
  have hneg : ∀ k t, (lobattoStep 4)^[k] (-t) = -(lobattoStep 4)^[k] t := by
    intro k
    induction k with
    | zero => intro t; rfl
    | succ k ih => intro t; rw [Function.iterate_succ_apply', ih, lobattoStep_neg 4 (by norm_num), ← Function.iterate_succ_apply' (f := lobattoStep 4)]
  have hone : ∀ k, (lobattoStep 4)^[k] 1 = 1 := fun k => Function.iterate_fixed (lobattoStep_one 4) k
  refine C07_limit 4 (by norm_num) a b (fun i => if i = 0 then -1 else if i = 1 then -c else if i = 2 then c else 1) ?_ ?_ ?_ p
    (by omega)
  · intro k i hi
    interval_cases i
    · rw [g0, hneg, hone, vdm_neg, vdm_one]; norm_num
    · rw [g1, hneg, vdm_neg]
      exact mul_ne_zero (by norm_num) (lobatto_four_contract c _ hc0 h5 (hb' k)).1
    · rw [g2]; exact (lobatto_four_contract c _ hc0 h5 (hb' k)).1
    · rw [g3, hone, vdm_one]; norm_num
  · intro i hi
    interval_cases i
    · simp only [g0, hneg, hone]; simp
    · simp only [g1, hneg]; simpa using hlim.neg
    · simp only [g2]; simpa using hlim
    · simp only [g3, hone]; simp
  · intro i j hij hj
    have : (i = 0 ∧ j = 1) ∨ (i = 0 ∧ j = 2) ∨ (i = 0 ∧ j = 3) ∨ (i = 1 ∧ j = 2) ∨ (i = 1 ∧ j = 3) ∨ (i = 2 ∧ j = 3) := by omega
    rcases this with ⟨rfl, rfl⟩ | ⟨rfl, rfl⟩ | ⟨rfl, rfl⟩ | ⟨rfl, rfl⟩ | ⟨rfl, rfl⟩ | ⟨rfl, rfl⟩ <;> simp <;>
      intro h <;> linarith

/-- C14 on the Lobatto grid: if the node iteration has converged, default-constructed transforms are built and analysis after
synthesis is the identity on admissible coefficients. -/
theorem C14_default_lobatto (env : SHT.Env) (be : FFT.C2R) (a : SHT.Args) (hgrid : a.grid = "lobatto")
    (hmax : 1 ≤ env.maxiter) (hc : LobattoConverged a.nlat env.tol env.maxiter) (hlat : 2 ≤ a.nlat) (hlon : 1 ≤ a.nlon)
    (hl : a.lmax = none) (hm : a.mmax = none) :
    ∃ S I, SHT.RealSHT.init env a = .ok S ∧ SHT.InverseRealSHT.init env a = .ok I ∧ 0 < S.lmax ∧ S.mmax = S.lmax ∧
      I.lmax = S.lmax ∧ I.mmax = S.lmax ∧ ∀ c : Mat ℂ, c.d0 = S.lmax → c.d1 = S.mmax →
        ∃ f c', I.forward be c = .ok f ∧ S.forward f = .ok c' ∧ c'.d0 = S.lmax ∧ c'.d1 = S.mmax ∧
          ∀ l < S.lmax, ∀ m < S.mmax, c'.val l m = admissible a.nlon c.val l m := by
  obtain ⟨r, hr⟩ : ∃ r, lobattoWeights a.nlat (-1) 1 env.tol env.maxiter = .ok r := ⟨_, lobatto_ok a.nlat hlat (-1) 1 env.tol env.maxiter⟩
  obtain ⟨L, h1, h2, h3, h4⟩ := default_sizes a.nlat a.nlon a.grid (2 * a.nlat - 3) hlat hlon
    (Or.inr (Or.inl ⟨hgrid, by omega⟩))
  replace h1 : sizes a.nlat a.nlon a.lmax a.mmax a.grid = .ok (L, L) := by rw [hl, hm]; exact h1
  have hx := C07_symmetricExact a.nlat env.tol env.maxiter hmax _ hr hc
  have hg : gridRule env.gauss env.tol env.maxiter a.nlat a.grid = .ok r := by
    rw [hgrid, gridRule, if_neg (by decide), if_pos rfl, hr]
  refine ⟨_, _, realSHT_init env a _ L hg h1 h2, inverseRealSHT_init env a _ L hg h1 h2, h2, rfl, rfl, rfl, ?_⟩
  intro c hc0 hc1
  obtain ⟨S', I', f, c', hS', hI', hf, hc', h1', h2', h3'⟩ :=
    C14_analysis_of_synthesis env be a _ (2 * a.nlat - 3) L hlon hg hx h1 h2 h3 h4 c hc0 hc1
  rw [realSHT_init env a _ L hg h1 h2] at hS'; cases hS'
  rw [inverseRealSHT_init env a _ L hg h1 h2] at hI'; cases hI'
  exact ⟨f, c', hf, hc', h1', h2', h3'⟩

example (env : SHT.Env) : LobattoConverged 3 env.tol env.maxiter ∧ 2 ≤ 3 ∧ 1 ≤ 8 :=
  ⟨lobatto_three _ _, by norm_num, by norm_num⟩

end Verif.Props
