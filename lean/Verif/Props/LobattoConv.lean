import Verif.Lemmas.LobattoNewton
import Verif.Spec.Lobatto
import Verif.Props.QuadraturePos
/-!
C07, convergence: for every number of nodes the Newton iteration of `lobatto_weights` converges from its Chebyshev guess to the Gauss-Lobatto rule,
with an error bound for a finite tolerance.
-/
namespace Verif.Props
open Verif Verif.Quad Verif.Spec Verif.SHT Verif.Dist Verif.Leg Polynomial Finset Filter Topology

/-- What is needed of the iterates from the guess `g` to the node `x`. -/
def LobGood (M : ℕ) (g x : ℝ) : Prop :=
  ∀ k, vdm ((lobattoStep (M + 2))^[k] g) (M + 1) ≠ 0 ∧
    |(lobattoStep (M + 2))^[k] g - x| ≤ |g - x| * (4 / 5) ^ ((3 ^ k - 1) / 2) ∧
    |(lobattoStep (M + 2))^[k + 1] g - x| ≤ 4 / 5 * |(lobattoStep (M + 2))^[k] g - x| ∧
    (|(lobattoStep (M + 2))^[k] g - x| * ((M : ℝ) + 3 / 2) ^ 2 ≤ 1 →
      vdm x (M + 1) ^ 2 * (1 - (|(lobattoStep (M + 2))^[k] g - x| * ((M : ℝ) + 3 / 2) ^ 2) ^ 2 / 2) ≤ vdm x (M + 1) * vdm ((lobattoStep (M + 2))^[k] g) (M + 1) ∧
        vdm x (M + 1) * vdm ((lobattoStep (M + 2))^[k] g) (M + 1) ≤ vdm x (M + 1) ^ 2) ∧
    |(lobattoStep (M + 2))^[k] g| ≤ 1

theorem lobattoStep_iter_neg (M : ℕ) (g : ℝ) (k : ℕ) : (lobattoStep (M + 2))^[k] (-g) = -(lobattoStep (M + 2))^[k] g := by
  induction k with
  | zero => rfl
  | succ k ih => rw [Function.iterate_succ_apply', Function.iterate_succ_apply', ih, lobattoStep_neg _ (by omega)]

theorem lobGood_neg (M : ℕ) (g x : ℝ) (h : LobGood M g x) : LobGood M (-g) (-x) := by
  intro k
  obtain ⟨h1, h2, h3, h4, h5⟩ := h k
  have e : ∀ a b : ℝ, |-a - -b| = |a - b| := fun a b => by rw [neg_sub_neg, abs_sub_comm]
  have e1 : ((-1 : ℝ) ^ (M + 1)) ^ 2 = 1 := by rw [← pow_mul, mul_comm, pow_mul]; simp
  simp only [lobattoStep_iter_neg, e, vdm_neg, abs_neg]
  refine ⟨mul_ne_zero (pow_ne_zero _ (by norm_num)) h1, h2, h3, ?_, h5⟩
  have e2 : ∀ a b : ℝ, (-1) ^ (M + 1) * a * ((-1) ^ (M + 1) * b) = a * b := fun a b => by
    rw [show (-1 : ℝ) ^ (M + 1) * a * ((-1) ^ (M + 1) * b) = ((-1 : ℝ) ^ (M + 1)) ^ 2 * (a * b) by ring, e1, one_mul]
  have e3 : ∀ a : ℝ, ((-1) ^ (M + 1) * a) ^ 2 = a ^ 2 := fun a => by rw [mul_pow, e1, one_mul]
  rw [e2, e3]
  exact h4

/-- A node that the guess hits exactly stays where it is. -/
theorem lobGood_fixed (M : ℕ) (x : ℝ) (hv : vdm x (M + 1) ≠ 0) (hs : lobattoStep (M + 2) x = x) (h1 : |x| ≤ 1) : LobGood M x x := by
  intro k
  have hk : ∀ k, (lobattoStep (M + 2))^[k] x = x := fun k => Function.iterate_fixed hs k
  rw [hk, hk]
  simp only [sub_self, abs_zero, zero_mul, mul_zero, le_refl, true_and]
  refine ⟨hv, fun _ => ?_, h1⟩
  constructor <;> nlinarith

theorem lobGood_interior (M j : ℕ) (h1 : 1 ≤ j) (h2 : 2 * j ≤ M + 1) (h3 : j < M + 1) :
    LobGood M (Real.cos (Real.pi * j / ((M + 1 : ℕ) : ℝ))) (Real.cos (Lob.ang (M + 1) j)) := by
  have hroot := Lob.ang_root (M + 1) j h1 h3
  have hP : vdm (Real.cos (Lob.ang (M + 1) j)) (M + 1) ≠ 0 := by
    rw [Lob.vdm_eq]
    intro h0
    exact Lob.Q_no_common (M + 1) 0 (by omega) _ h0 hroot
  have hstep : lobattoStep (M + 2) (Real.cos (Lob.ang (M + 1) j)) = Real.cos (Lob.ang (M + 1) j) := by
    rw [Lob.step_eq, hroot]; simp
  rcases eq_or_ne (Real.cos (Real.pi * j / ((M + 1 : ℕ) : ℝ))) (Real.cos (Lob.ang (M + 1) j)) with he | he
  · rw [he]; exact lobGood_fixed M _ hP hstep (Real.abs_cos_le_one _)
  have hs0 : 0 < |Real.cos (Real.pi * j / ((M + 1 : ℕ) : ℝ)) - Real.cos (Lob.ang (M + 1) j)| := abs_pos.2 (sub_ne_zero.2 he)
  have hin : ∀ x, |x - Real.cos (Lob.ang (M + 1) j)| ≤ |Real.cos (Real.pi * j / ((M + 1 : ℕ) : ℝ)) - Real.cos (Lob.ang (M + 1) j)| →
      ((M : ℝ) + 1) * ((M : ℝ) + 2) * |Real.cos (Real.pi * j / ((M + 1 : ℕ) : ℝ)) - Real.cos (Lob.ang (M + 1) j)| ^ 2 ≤ 1 - x ^ 2 := by
    intro x hx
    have := Lob.guess_close (M + 1) j h1 h2 h3 x hx
    have e : (((M + 1 : ℕ) : ℝ)) * ((((M + 1 : ℕ) : ℝ)) + 1) = ((M : ℝ) + 1) * ((M : ℝ) + 2) := by push_cast; ring
    rwa [e] at this
  intro k
  obtain ⟨n1, n2, n3⟩ := Lob.newton_iter M _ _ _ hroot hs0 hin le_rfl k
  have hle : |(lobattoStep (M + 2))^[k] (Real.cos (Real.pi * j / ((M + 1 : ℕ) : ℝ))) - Real.cos (Lob.ang (M + 1) j)|
      ≤ |Real.cos (Real.pi * j / ((M + 1 : ℕ) : ℝ)) - Real.cos (Lob.ang (M + 1) j)| :=
    n2.trans (mul_le_of_le_one_right hs0.le (pow_le_one₀ (by norm_num) (by norm_num)))
  refine ⟨n1, n2, n3, fun hr => ?_, ?_⟩
  · have hh : (0 : ℝ) < ((M : ℝ) + 3 / 2) ^ 2 := by positivity
    have hin2 : ∀ x, |x - Real.cos (Lob.ang (M + 1) j)| ≤ 1 / ((M : ℝ) + 3 / 2) ^ 2 →
        ((M : ℝ) + 1) * ((M : ℝ) + 2) * (1 / ((M : ℝ) + 3 / 2) ^ 2) ^ 2 ≤ 1 - x ^ 2 := by
      intro x hx
      have e0 : ((M + 1 : ℕ) : ℝ) + 1 / 2 = (M : ℝ) + 3 / 2 := by push_cast; ring
      have := Lob.radius_ok (M + 1) j h1 h3 x (by rw [e0]; exact hx)
      rw [e0] at this
      have e : (((M + 1 : ℕ) : ℝ)) * ((((M + 1 : ℕ) : ℝ)) + 1) = ((M : ℝ) + 1) * ((M : ℝ) + 2) := by push_cast; ring
      rwa [e] at this
    obtain ⟨_, _, m3, m4⟩ := Lob.newton_step M _ _ hroot (by positivity : (0 : ℝ) < 1 / ((M : ℝ) + 3 / 2) ^ 2) hin2 _ (by rw [le_div_iff₀ hh]; exact hr)
    rw [div_div_eq_mul_div, div_one] at m3
    exact ⟨m3, m4⟩
  · have := hin _ hle
    have h0 : (0 : ℝ) ≤ ((M : ℝ) + 1) * ((M : ℝ) + 2) * |Real.cos (Real.pi * j / ((M + 1 : ℕ) : ℝ)) - Real.cos (Lob.ang (M + 1) j)| ^ 2 := by positivity
    rw [← sq_le_one_iff_abs_le_one]; linarith

/-- The nodes: `-cos` of the angles of the zeros. -/
noncomputable def lobNode (n i : ℕ) : ℝ := -Real.cos (Lob.ang (n - 1) i)

theorem lobGood_all (M i : ℕ) (hi : i < M + 2) : LobGood M (lobattoGuess (M + 2) i) (lobNode (M + 2) i) := by
  have eg : ((M + 2 : ℕ) : ℝ) - 1 = ((M + 1 : ℕ) : ℝ) := by push_cast; ring
  have hone : LobGood M 1 1 := lobGood_fixed M 1 (by rw [vdm_one]; norm_num) (lobattoStep_one _) (by simp)
  unfold lobattoGuess lobNode
  rw [eg, show M + 2 - 1 = M + 1 by omega]
  have hne : ((M + 1 : ℕ) : ℝ) ≠ 0 := by positivity
  rcases Nat.eq_zero_or_pos i with rfl | h0
  · rw [Lob.ang_zero]
    simp only [Nat.cast_zero, mul_zero, zero_div, Real.cos_zero]
    exact lobGood_neg M 1 1 hone
  rcases (by omega : i = M + 1 ∨ i < M + 1) with rfl | h1
  · rw [Lob.ang_last _ (by omega), mul_div_assoc, div_self hne, mul_one, Real.cos_pi, neg_neg]
    exact hone
  by_cases h2 : 2 * i ≤ M + 1
  · exact lobGood_neg M _ _ (lobGood_interior M i h0 h2 h1)
  · have := lobGood_interior M (M + 1 - i) (by omega) (by omega) (by omega)
    rw [Lob.ang_symm _ _ (by omega) (by omega), Real.cos_pi_sub, Nat.cast_sub (by omega), mul_sub, sub_div, mul_div_assoc, div_self hne, mul_one,
      Real.cos_pi_sub] at this
    exact this

/-- The rule to which the iteration converges. -/
noncomputable def lobRule (n : ℕ) : Rule := ⟨n, lobNode n, fun i => 2 / (n * ((n : ℝ) - 1) * (legendreDeriv (n - 1) 0).eval (lobNode n i) ^ 2)⟩

theorem lobRule_spec (n : ℕ) (hn : 2 ≤ n) : IsLobattoRule (lobRule n) n where
  size := rfl
  first := by simp only [lobRule, lobNode]; rw [Lob.ang_zero, Real.cos_zero]
  last := by simp only [lobRule, lobNode]; rw [Lob.ang_last _ (by omega), Real.cos_pi, neg_neg]
  increasing i j hij hj := by
    have h1 : 0 ≤ Lob.ang (n - 1) i := by
      rcases Nat.eq_zero_or_pos i with rfl | h0
      · rw [Lob.ang_zero]
      · exact (Lob.ang_inside _ _ h0 (by omega)).1.le
    have h2 : Lob.ang (n - 1) j ≤ Real.pi := by
      rcases (by omega : j = n - 1 ∨ j < n - 1) with rfl | h0
      · rw [Lob.ang_last _ (by omega)]
      · exact (Lob.ang_inside _ _ (by omega) h0).2.le
    exact neg_lt_neg (Real.cos_lt_cos_of_nonneg_of_le_pi h1 h2 (Lob.ang_lt _ _ _ hij (by omega)))
  interior i h0 h1 := by
    have := Lob.ang_root (n - 1) i h0 (by omega)
    have hq := Lob.Q_neg (n - 1) 1 (Real.cos (Lob.ang (n - 1) i))
    rw [this, mul_zero] at hq
    rw [show derivative (legendreDeriv (n - 1) 0) = legendreDeriv (n - 1) 1 from (Function.iterate_succ_apply' derivative _ _).symm]
    exact hq
  weight i hi := rfl

/-- A strictly increasing map of `1 .. N-1` to itself is the identity. -/
theorem strictMono_id (N : ℕ) (j : ℕ → ℕ) (h : ∀ i, 1 ≤ i → i < N → 1 ≤ j i ∧ j i < N) (hm : ∀ i, 1 ≤ i → i + 1 < N → j i < j (i + 1)) :
    ∀ i, 1 ≤ i → i < N → j i = i := by
  have h1 : ∀ i, 1 ≤ i → i < N → i ≤ j i := by
    intro i h1
    induction i, h1 using Nat.le_induction with
    | base => intro h2; exact (h 1 le_rfl h2).1
    | succ i h1 ih => intro h2; have := ih (by omega); have := hm i h1 h2; omega
  have h2 : ∀ k i, 1 ≤ i → i + k + 1 = N → j i ≤ i := by
    intro k
    induction k with
    | zero => intro i h1 h2; have := h i h1 (by omega); omega
    | succ k ih => intro i h1 h2; have := ih (i + 1) (by omega) (by omega); have := hm i h1 (by omega); omega
  intro i hi hN
  have := h1 i hi hN
  have := h2 (N - i - 1) i hi (by omega)
  omega

/-- The specification determines the rule. -/
theorem lobatto_unique (n : ℕ) (hn : 2 ≤ n) (R : Rule) (hR : IsLobattoRule R n) (i : ℕ) (hi : i < n) :
    R.x i = (lobRule n).x i ∧ R.w i = (lobRule n).w i := by
  have hx : R.x i = (lobRule n).x i := by
    have hS := lobRule_spec n hn
    rcases Nat.eq_zero_or_pos i with rfl | h0
    · rw [hR.first, hS.first]
    rcases (by omega : i = n - 1 ∨ i + 1 < n) with rfl | h1
    · rw [hR.last, hS.last]
    have hin : ∀ i, 0 < i → i + 1 < n → -1 < -R.x i ∧ -R.x i < 1 := fun i h0 h1 => by
      have a := hR.increasing 0 i h0 (by omega)
      have b := hR.increasing i (n - 1) (by omega) (by omega)
      rw [hR.first] at a
      rw [hR.last] at b
      constructor <;> linarith
    have hc : ∀ i, ∃ j, 0 < i ∧ i + 1 < n → 1 ≤ j ∧ j < n - 1 ∧ Lob.ang (n - 1) j = Real.arccos (-R.x i) := by
      intro i
      by_cases h : 0 < i ∧ i + 1 < n
      · obtain ⟨a, b⟩ := hin i h.1 h.2
        obtain ⟨j, hj⟩ := Lob.ang_complete (n - 1) (Real.arccos (-R.x i)) ⟨Real.arccos_pos.2 b, by
          rw [← Real.arccos_neg_one]; exact Real.strictAntiOn_arccos ⟨le_rfl, by norm_num⟩ ⟨a.le, b.le⟩ a⟩ (by omega) (by
          rw [Real.cos_arccos a.le b.le, Lob.Q_neg]
          have := hR.interior i h.1 h.2
          rw [show derivative (legendreDeriv (n - 1) 0) = legendreDeriv (n - 1) 1 from (Function.iterate_succ_apply' derivative _ _).symm] at this
          rw [this, mul_zero])
        exact ⟨j, fun _ => hj⟩
      · exact ⟨0, fun h' => absurd h' h⟩
    choose j hj using hc
    have hcos : ∀ i, 0 < i → i + 1 < n → R.x i = -Real.cos (Lob.ang (n - 1) (j i)) := fun i h0 h1 => by
      obtain ⟨a, b⟩ := hin i h0 h1
      rw [(hj i ⟨h0, h1⟩).2.2, Real.cos_arccos a.le b.le, neg_neg]
    have := strictMono_id (n - 1) j (fun i a b => ⟨(hj i ⟨a, by omega⟩).1, (hj i ⟨a, by omega⟩).2.1⟩) (by
      intro i a b
      obtain ⟨p1, p2, p3⟩ := hj i ⟨a, by omega⟩
      obtain ⟨q1, q2, q3⟩ := hj (i + 1) ⟨by omega, by omega⟩
      by_contra hlt
      have hlt' : Lob.ang (n - 1) (j (i + 1)) ≤ Lob.ang (n - 1) (j i) := by
        rcases (by omega : j (i + 1) = j i ∨ j (i + 1) < j i) with h | h
        · rw [h]
        · exact (Lob.ang_lt _ _ _ h (by omega)).le
      have hinc := hR.increasing i (i + 1) (by omega) (by omega)
      rw [hcos i a (by omega), hcos (i + 1) (by omega) (by omega)] at hinc
      have := Real.cos_le_cos_of_nonneg_of_le_pi (Lob.ang_inside _ _ q1 q2).1.le (Lob.ang_inside _ _ p1 p2).2.le hlt'
      linarith) i h0 (by omega)
    rw [hcos i h0 h1, this]; rfl
  refine ⟨hx, ?_⟩
  rw [hR.weight i hi, hx]; rfl

/-- The nodes are zeros of `x P_{n-1} - P_{n-2}`, at which `P_{n-1}` does not vanish. -/
theorem lobNode_zero (M i : ℕ) (hi : i < M + 2) : (Lob.f M).eval (lobNode (M + 2) i) = 0 ∧ vdm (lobNode (M + 2) i) (M + 1) ≠ 0 := by
  have hS := lobRule_spec (M + 2) (by omega)
  have hz : (Lob.f M).eval ((lobRule (M + 2)).x i) = 0 := by
    have hfe := congrArg (eval ((lobRule (M + 2)).x i)) (Lob.f_eq M)
    simp only [eval_mul, eval_sub, eval_add, eval_neg, eval_X, eval_natCast, eval_one, eval_pow] at hfe
    have hM : -((M : ℝ) + 1) ≠ 0 := by
      have : (0 : ℝ) ≤ M := Nat.cast_nonneg M
      linarith
    have h0 : (1 - (lobRule (M + 2)).x i ^ 2) * eval ((lobRule (M + 2)).x i) (legendreDeriv (M + 1) 1) = 0 := by
      rcases Nat.eq_zero_or_pos i with rfl | h0
      · rw [hS.first]; norm_num
      rcases (by omega : i = M + 2 - 1 ∨ i + 1 < M + 2) with rfl | h1
      · rw [hS.last]; norm_num
      have := hS.interior i h0 h1
      rw [show derivative (legendreDeriv (M + 2 - 1) 0) = legendreDeriv (M + 2 - 1) 1 from (Function.iterate_succ_apply' derivative _ _).symm] at this
      rw [show M + 1 = M + 2 - 1 by omega, this, mul_zero]
    rw [h0] at hfe
    exact (mul_eq_zero.1 hfe.symm).resolve_left hM
  refine ⟨hz, fun h0 => ?_⟩
  have h1 : (Lob.f M).eval (lobNode (M + 2) i) = 0 := hz
  rw [Lob.f, eval_sub, eval_mul, eval_X, ← Lob.vdm_eq, h0, mul_zero, zero_sub, neg_eq_zero, ← Lob.vdm_eq] at h1
  exact vdm_no_common_zero _ _ ⟨h1, h0⟩

/-- The Gauss-Lobatto rule is exact to degree `2n - 3`. -/
theorem lobRule_exact (n : ℕ) (hn : 2 ≤ n) : ExactToDegree (lobRule n) (-1) 1 (2 * n - 3) := by
  have hS := lobRule_spec n hn
  obtain ⟨M, rfl⟩ : ∃ M, n = M + 2 := ⟨n - 2, by omega⟩
  intro q hq
  change _ = pint q
  have hz : ∀ i < M + 2, (Lob.f M).eval ((lobRule (M + 2)).x i) = 0 := fun i hi => (lobNode_zero M i hi).1
  have hP : ∀ i < M + 2, (legendreDeriv (M + 1) 0).eval ((lobRule (M + 2)).x i) ≠ 0 := fun i hi => by
    rw [← Lob.vdm_eq]; exact (lobNode_zero M i hi).2
  rw [← Lob.exact M (lobRule (M + 2)).x hz hP (by
    intro i j hi hj h
    rcases lt_trichotomy i j with h' | h' | h'
    · exact absurd h (hS.increasing i j h' hj).ne
    · exact h'
    · exact absurd h.symm (hS.increasing j i h' hi).ne) q hq]
  refine sum_congr rfl fun i _ => ?_
  simp only [lobRule]
  rw [show M + 2 - 1 = M + 1 by omega]
  push_cast
  congr 3
  ring

/-- C07. For every number of nodes from two on there is a Gauss-Lobatto rule, exactly one, and it is exact to degree `2n - 3`. -/
theorem C07_rule_exists (n : ℕ) (hn : 2 ≤ n) :
    ∃ R, IsLobattoRule R n ∧ ExactToDegree R (-1) 1 (2 * n - 3) ∧
      ∀ R', IsLobattoRule R' n → ∀ i < n, R'.x i = R.x i ∧ R'.w i = R.w i :=
  ⟨lobRule n, lobRule_spec n hn, lobRule_exact n hn, fun R' hR' i hi => lobatto_unique n hn R' hR' i hi⟩

/-- C07. For every number of nodes the iteration converges to the Gauss-Lobatto rule: it never divides by zero, and after `k + 1` iterations each node
is off by at most the error of its Chebyshev guess times `(4/5)^((3^(k+1) - 1)/2)` (the exponents are 1, 4, 13, 40, 121, 364, ...). -/
theorem C07_converges (n : ℕ) (hn : 2 ≤ n) (R : Rule) (hR : IsLobattoRule R n) (k i : ℕ) (hi : i < n) :
    vdm ((lobattoStep n)^[k] (lobattoGuess n i)) (n - 1) ≠ 0 ∧
    ∃ r, lobattoWeights n (-1) 1 0 (k + 1) = .ok r ∧
      |r.x i - R.x i| ≤ |-Real.cos (Real.pi * i / ((n : ℝ) - 1)) - R.x i| * (4 / 5) ^ ((3 ^ (k + 1) - 1) / 2) := by
  obtain ⟨M, rfl⟩ : ∃ M, n = M + 2 := ⟨n - 2, by omega⟩
  rw [(lobatto_unique _ hn R hR i hi).1]
  have hg := lobGood_all M i hi
  refine ⟨(hg k).1, _, lobatto_ok (M + 2) hn (-1) 1 0 (k + 1), ?_⟩
  simp only [lobattoLoop_tol_zero (M + 2) (by omega), rescale]
  rw [show ((1 : ℝ) - -1) * (1 / 2) * (lobattoStep (M + 2))^[k + 1] (lobattoGuess (M + 2) i) + (1 + -1) * (1 / 2) = (lobattoStep (M + 2))^[k + 1] (lobattoGuess (M + 2) i) by ring]
  exact (hg (k + 1)).2.1

/-- C07. For every number of nodes, interval and polynomial of degree at most `2n - 3`, the integrals by the rules after more and more iterations converge
to the exact integral. -/
theorem C07_limit_all (n : ℕ) (hn : 2 ≤ n) (a b : ℝ) (p : ℝ[X]) (hp : p.natDegree ≤ 2 * n - 3) :
    ∃ r : ℕ → Rule, (∀ k, lobattoWeights n a b 0 (k + 1) = .ok (r k)) ∧
      Tendsto (fun k => ∑ i ∈ range n, (r k).w i * p.eval ((r k).x i)) atTop (𝓝 (∫ t in a..b, p.eval t)) := by
  obtain ⟨M, rfl⟩ : ∃ M, n = M + 2 := ⟨n - 2, by omega⟩
  refine C07_limit (M + 2) hn a b (lobNode (M + 2)) (fun k i hi => (lobGood_all M i hi k).1) (fun i hi => ?_)
    (fun i j hij hj => ((lobRule_spec (M + 2) hn).increasing i j hij hj).ne) p hp
  have hg := lobGood_all M i hi
  have hgeo : ∀ k, |(lobattoStep (M + 2))^[k] (lobattoGuess (M + 2) i) - lobNode (M + 2) i|
      ≤ |lobattoGuess (M + 2) i - lobNode (M + 2) i| * (4 / 5) ^ k := by
    intro k
    induction k with
    | zero => simp
    | succ k ih =>
      refine (hg k).2.2.1.trans ?_
      rw [pow_succ]
      linarith
  have h0 : Tendsto (fun k : ℕ => |lobattoGuess (M + 2) i - lobNode (M + 2) i| * (4 / 5 : ℝ) ^ k) atTop (𝓝 0) := by
    have := (tendsto_pow_atTop_nhds_zero_of_lt_one (by norm_num : (0 : ℝ) ≤ 4 / 5) (by norm_num)).const_mul (|lobattoGuess (M + 2) i - lobNode (M + 2) i|)
    rwa [mul_zero] at this
  rw [tendsto_iff_dist_tendsto_zero]
  exact squeeze_zero (fun _ => dist_nonneg) (fun k => by rw [Real.dist_eq]; exact hgeo k) h0

/-! ## A finite tolerance -/

/-- What the loop returns: the iterates `k+1` and `k`, where `k` is the last iteration allowed or the last sweep moved every node by less than `tol`. -/
theorem lobattoLoop_result (n : ℕ) (tol : ℝ) : ∀ fuel t, 1 ≤ fuel → ∃ k < fuel,
    lobattoLoop n tol fuel t = (fun i => (lobattoStep n)^[k + 1] (t i), fun i => (lobattoStep n)^[k] (t i)) ∧
      (k + 1 = fuel ∨ ∀ i < n, |(lobattoStep n)^[k + 1] (t i) - (lobattoStep n)^[k] (t i)| < tol) := by
  intro fuel
  induction fuel with
  | zero => intro t h; omega
  | succ fuel ih =>
    intro t _
    by_cases hb : ∀ i < n, |lobattoStep n (t i) - t i| < tol
    · refine ⟨0, by omega, ?_, Or.inr hb⟩
      cases fuel <;> (rw [lobattoLoop]; simp only; rw [if_pos hb]; rfl)
    · cases fuel with
      | zero =>
        refine ⟨0, by omega, ?_, Or.inl rfl⟩
        rw [lobattoLoop]; simp only; rw [if_neg hb]; rfl
      | succ fuel =>
        obtain ⟨k, hk, h1, h2⟩ := ih (fun i => lobattoStep n (t i)) (by omega)
        refine ⟨k + 1, by omega, ?_, ?_⟩
        · rw [lobattoLoop]; simp only; rw [if_neg hb, h1]; rfl
        · rcases h2 with h2 | h2
          · left; omega
          · right; exact h2

/-- The node and weight errors at a finite tolerance. -/
theorem lobatto_tol (M : ℕ) (tol : ℝ) (htol : 0 < tol) (maxiter : ℕ) (hm : 1 ≤ maxiter)
    (hmax : (4 / 5 : ℝ) ^ ((3 ^ (maxiter - 1) - 1) / 2) ≤ 2 * tol) (i : ℕ) (hi : i < M + 2) :
    let res := lobattoLoop (M + 2) tol maxiter (lobattoGuess (M + 2))
    |res.1 i - lobNode (M + 2) i| ≤ 4 * tol ∧ |res.1 i| ≤ 1 ∧
      (5 * tol * ((M : ℝ) + 3 / 2) ^ 2 ≤ 1 → vdm (lobNode (M + 2) i) (M + 1) ^ 2 * (1 - (5 * tol * ((M : ℝ) + 3 / 2) ^ 2) ^ 2 / 2)
        ≤ vdm (lobNode (M + 2) i) (M + 1) * vdm (res.2 i) (M + 1) ∧
        vdm (lobNode (M + 2) i) (M + 1) * vdm (res.2 i) (M + 1) ≤ vdm (lobNode (M + 2) i) (M + 1) ^ 2) := by
  intro res
  obtain ⟨k, hk, hres, hor⟩ := lobattoLoop_result (M + 2) tol maxiter (lobattoGuess (M + 2)) hm
  have hg := lobGood_all M i hi
  obtain ⟨g1, g2, g3, g4, g5⟩ := hg k
  have g6 := (hg (k + 1)).2.2.2.2
  have e1 : res.1 i = (lobattoStep (M + 2))^[k + 1] (lobattoGuess (M + 2) i) := by simp only [res]; rw [hres]
  have e2 : res.2 i = (lobattoStep (M + 2))^[k] (lobattoGuess (M + 2) i) := by simp only [res]; rw [hres]
  rw [e1, e2]
  have hk5 : |(lobattoStep (M + 2))^[k] (lobattoGuess (M + 2) i) - lobNode (M + 2) i| ≤ 5 * tol := by
    rcases hor with h | h
    · have hkm : k = maxiter - 1 := by omega
      rw [← hkm] at hmax
      have h2 : |lobattoGuess (M + 2) i - lobNode (M + 2) i| ≤ 2 := by
        have a1 : |lobattoGuess (M + 2) i| ≤ 1 := (hg 0).2.2.2.2
        have a2 : |lobNode (M + 2) i| ≤ 1 := by unfold lobNode; rw [abs_neg]; exact Real.abs_cos_le_one _
        exact (abs_sub _ _).trans (by linarith)
      have h3 : (0 : ℝ) ≤ (4 / 5 : ℝ) ^ ((3 ^ k - 1) / 2) := by positivity
      have := mul_le_mul_of_nonneg_right h2 h3
      linarith
    · have h1 := h i hi
      have h2 := abs_sub_le ((lobattoStep (M + 2))^[k] (lobattoGuess (M + 2) i)) ((lobattoStep (M + 2))^[k + 1] (lobattoGuess (M + 2) i)) (lobNode (M + 2) i)
      rw [abs_sub_comm] at h1
      linarith
  refine ⟨by linarith, g6, fun hr => ?_⟩
  have hh : (0 : ℝ) ≤ ((M : ℝ) + 3 / 2) ^ 2 := by positivity
  have h1 := mul_le_mul_of_nonneg_right hk5 hh
  obtain ⟨m1, m2⟩ := g4 (h1.trans hr)
  refine ⟨le_trans (mul_le_mul_of_nonneg_left ?_ (sq_nonneg _)) m1, m2⟩
  have := pow_le_pow_left₀ (by positivity) h1 2
  linarith

/-- From the bounds on `P(x) P(x~)` to the bounds on the weights. -/
theorem weight_bounds (c e v u : ℝ) (hc : 0 < c) (he : e ≠ 0) (hu0 : 0 ≤ u) (hu : u ≤ 1) (h1 : e ^ 2 * (1 - u / 2) ≤ e * v) (h2 : e * v ≤ e ^ 2) :
    2 / (c * e ^ 2) ≤ 2 / (c * v ^ 2) ∧ 2 / (c * v ^ 2) ≤ 2 / (c * e ^ 2) * (1 + 3 * u) := by
  have he2 : 0 < e ^ 2 := by positivity
  have hev : 0 < e * v := lt_of_lt_of_le (mul_pos he2 (by linarith)) h1
  have hv : v ≠ 0 := fun h => by rw [h, mul_zero] at hev; exact lt_irrefl _ hev
  have hv2 : 0 < v ^ 2 := by positivity
  have hq1 : v ^ 2 ≤ e ^ 2 := by
    have := mul_le_mul h2 h2 hev.le he2.le
    have e1 : e * v * (e * v) = e ^ 2 * v ^ 2 := by ring
    rw [e1] at this
    exact le_of_mul_le_mul_left this he2
  have hq2 : e ^ 2 * (1 - u / 2) ^ 2 ≤ v ^ 2 := by
    have h0 : 0 ≤ e ^ 2 * (1 - u / 2) := mul_nonneg he2.le (by linarith)
    have := mul_le_mul h1 h1 h0 hev.le
    have e1 : e * v * (e * v) = e ^ 2 * v ^ 2 := by ring
    have e2 : e ^ 2 * (1 - u / 2) * (e ^ 2 * (1 - u / 2)) = e ^ 2 * (e ^ 2 * (1 - u / 2) ^ 2) := by ring
    rw [e1, e2] at this
    exact le_of_mul_le_mul_left this he2
  constructor
  · exact div_le_div_of_nonneg_left (by norm_num) (by positivity) (mul_le_mul_of_nonneg_left hq1 hc.le)
  · have g : 1 ≤ (1 + 3 * u) * (1 - u / 2) ^ 2 := by nlinarith [mul_nonneg hu0 (mul_nonneg (sub_nonneg.2 hu) (by linarith : 0 ≤ 8 - 3 * u))]
    have g2 : e ^ 2 ≤ (1 + 3 * u) * v ^ 2 := by
      have a := mul_le_mul_of_nonneg_left hq2 (by linarith : 0 ≤ 1 + 3 * u)
      have b := mul_le_mul_of_nonneg_left g he2.le
      linarith
    rw [div_mul_eq_mul_div, div_le_div_iff₀ (by positivity) (by positivity)]
    have := mul_le_mul_of_nonneg_left g2 hc.le
    linarith

/-- C07. With tolerance `tol` the returned nodes are within `4 tol` of the Gauss-Lobatto nodes, and the returned weights are at least the exact ones and
exceed them by the share `75 tol^2 (n - 1/2)^4` at most. `hmax` says that the iteration cap does not bind before the tolerance is reachable; for the
defaults (`1e-16`, 100) see `C07_default`. -/
theorem C07_tolerance (n : ℕ) (tol : ℝ) (htol : 0 < tol) (maxiter : ℕ) (hm : 1 ≤ maxiter)
    (hmax : (4 / 5 : ℝ) ^ ((3 ^ (maxiter - 1) - 1) / 2) ≤ 2 * tol) (hsmall : 5 * tol * ((n : ℝ) - 1 / 2) ^ 2 ≤ 1)
    (r : Rule) (hr : lobattoWeights n (-1) 1 tol maxiter = .ok r) (R : Rule) (hR : IsLobattoRule R n) (i : ℕ) (hi : i < n) :
    |r.x i - R.x i| ≤ 4 * tol ∧ |r.x i| ≤ 1 ∧ 0 < R.w i ∧ R.w i ≤ r.w i ∧ r.w i ≤ R.w i * (1 + 75 * tol ^ 2 * ((n : ℝ) - 1 / 2) ^ 4) := by
  have hn : 2 ≤ n := by
    by_contra h
    obtain ⟨e, he⟩ := (C07_error_iff n (-1) 1 tol maxiter).2 (by omega)
    rw [hr] at he; cases he
  rw [lobatto_ok n hn] at hr
  obtain ⟨M, rfl⟩ : ∃ M, n = M + 2 := ⟨n - 2, by omega⟩
  cases hr
  have eM : ((M + 2 : ℕ) : ℝ) - 1 / 2 = (M : ℝ) + 3 / 2 := by push_cast; ring
  rw [eM] at hsmall ⊢
  obtain ⟨u1, u2⟩ := lobatto_unique _ hn R hR i hi
  obtain ⟨t1, t2, t3⟩ := lobatto_tol M tol htol maxiter hm hmax i hi
  obtain ⟨t4, t5⟩ := t3 hsmall
  rw [u1, u2]
  simp only [rescale, lobRule]
  rw [show M + 2 - 1 = M + 1 by omega, ← Lob.vdm_eq]
  have hc : (0 : ℝ) < ((M + 2 : ℕ) : ℝ) * (((M + 2 : ℕ) : ℝ) - 1) := by
    have : (0 : ℝ) ≤ M := Nat.cast_nonneg M
    push_cast
    exact mul_pos (by linarith) (by linarith)
  have hv := (lobNode_zero M i hi).2
  obtain ⟨w1, w2⟩ := weight_bounds _ _ _ _ hc hv (sq_nonneg (5 * tol * ((M : ℝ) + 3 / 2) ^ 2)) (pow_le_one₀ (by positivity) hsmall) t4 t5
  have ex : ∀ y : ℝ, ((1 : ℝ) - -1) * (1 / 2) * y + (1 + -1) * (1 / 2) = y := fun y => by ring
  have ew : ∀ y : ℝ, y * ((1 : ℝ) - -1) * (1 / 2) = y := fun y => by ring
  rw [ex, ew]
  refine ⟨t1, t2, by positivity, w1, ?_⟩
  have e3 : 3 * (5 * tol * ((M : ℝ) + 3 / 2) ^ 2) ^ 2 = 75 * tol ^ 2 * ((M : ℝ) + 3 / 2) ^ 4 := by ring
  rw [← e3]; exact w2

/-- Neighbouring Gauss-Lobatto nodes are at least `2/(n - 1/2)^2` apart. -/
theorem lobNode_gap (M i : ℕ) (hi : i + 1 < M + 2) : 2 / ((M : ℝ) + 3 / 2) ^ 2 ≤ lobNode (M + 2) (i + 1) - lobNode (M + 2) i := by
  have hp := Real.pi_pos
  have hM : (0 : ℝ) ≤ M := Nat.cast_nonneg M
  have hh : (0 : ℝ) < (M : ℝ) + 3 / 2 := by positivity
  have e0 : ((M + 1 : ℕ) : ℝ) + 1 / 2 = (M : ℝ) + 3 / 2 := by push_cast; ring
  -- the angles are at least `pi/h` apart, also at the ends when there are interior nodes
  have key : ∀ a b : ℝ, 0 ≤ a → b ≤ Real.pi → Real.pi / ((M : ℝ) + 3 / 2) ≤ b - a → 2 / ((M : ℝ) + 3 / 2) ^ 2 ≤ Real.cos a - Real.cos b := by
    intro a b ha hb hab
    have hd : 0 < Real.pi / ((M : ℝ) + 3 / 2) := by positivity
    rw [Real.cos_sub_cos]
    have s1 : 1 / ((M : ℝ) + 3 / 2) ≤ Real.sin ((b - a) / 2) := by
      have := Real.mul_le_sin (x := (b - a) / 2) (by linarith) (by linarith)
      have g : 2 / Real.pi * (Real.pi / ((M : ℝ) + 3 / 2) / 2) ≤ 2 / Real.pi * ((b - a) / 2) := mul_le_mul_of_nonneg_left (by linarith) (by positivity)
      have e : 2 / Real.pi * (Real.pi / ((M : ℝ) + 3 / 2) / 2) = 1 / ((M : ℝ) + 3 / 2) := by field_simp
      linarith
    have s2 : 1 / ((M : ℝ) + 3 / 2) ≤ Real.sin ((a + b) / 2) := by
      have hlow : ∀ y, Real.pi / ((M : ℝ) + 3 / 2) / 2 ≤ y → y ≤ Real.pi / 2 → 1 / ((M : ℝ) + 3 / 2) ≤ Real.sin y := by
        intro y h1 h2
        have := Real.mul_le_sin (x := y) (by linarith) h2
        have g : 2 / Real.pi * (Real.pi / ((M : ℝ) + 3 / 2) / 2) ≤ 2 / Real.pi * y := mul_le_mul_of_nonneg_left h1 (by positivity)
        have e : 2 / Real.pi * (Real.pi / ((M : ℝ) + 3 / 2) / 2) = 1 / ((M : ℝ) + 3 / 2) := by field_simp
        linarith
      by_cases hc : (a + b) / 2 ≤ Real.pi / 2
      · exact hlow _ (by linarith) hc
      · rw [← Real.sin_pi_sub]; exact hlow _ (by linarith) (by linarith)
    have e : -2 * Real.sin ((a + b) / 2) * Real.sin ((a - b) / 2) = 2 * (Real.sin ((a + b) / 2) * Real.sin ((b - a) / 2)) := by
      rw [show (a - b) / 2 = -((b - a) / 2) by ring, Real.sin_neg]; ring
    rw [e]
    have := mul_le_mul s2 s1 (by positivity) (le_trans (by positivity) s2)
    have e2 : 2 / ((M : ℝ) + 3 / 2) ^ 2 = 2 * (1 / ((M : ℝ) + 3 / 2) * (1 / ((M : ℝ) + 3 / 2))) := by field_simp
    rw [e2]; linarith
  unfold lobNode
  rw [show M + 2 - 1 = M + 1 by omega, neg_sub_neg]
  have hpos : ∀ j, j ≤ M + 1 → 0 ≤ Lob.ang (M + 1) j ∧ Lob.ang (M + 1) j ≤ Real.pi := by
    intro j hj
    rcases Nat.eq_zero_or_pos j with rfl | h0
    · rw [Lob.ang_zero]; exact ⟨le_rfl, hp.le⟩
    rcases (by omega : j = M + 1 ∨ j < M + 1) with rfl | h1
    · rw [Lob.ang_last _ (by omega)]; exact ⟨hp.le, le_rfl⟩
    · exact ⟨(Lob.ang_inside _ _ h0 h1).1.le, (Lob.ang_inside _ _ h0 h1).2.le⟩
  refine key _ _ (hpos i (by omega)).1 (hpos (i + 1) (by omega)).2 ?_
  by_cases h1 : i + 1 < M + 1
  · have := Lob.ang_gap (M + 1) i h1
    rw [e0] at this; exact this.le
  · obtain rfl : i = M := by omega
    rcases Nat.eq_zero_or_pos i with rfl | h0
    · rw [Lob.ang_last _ (by omega), Lob.ang_zero, sub_zero]
      exact div_le_self hp.le (by norm_num)
    · have := Lob.ang_gap (i + 1) 0 (by omega)
      rw [e0, Lob.ang_zero, sub_zero] at this
      have hs := Lob.ang_symm (i + 1) 1 (by omega) (by omega)
      rw [show i + 1 - 1 = i by omega] at hs
      rw [Lob.ang_last _ (by omega), hs]
      simp only [zero_add] at this
      linarith

/-- C07. Under the same hypotheses the returned nodes are in strictly increasing order. -/
theorem C07_increasing (n : ℕ) (tol : ℝ) (htol : 0 < tol) (maxiter : ℕ) (hm : 1 ≤ maxiter)
    (hmax : (4 / 5 : ℝ) ^ ((3 ^ (maxiter - 1) - 1) / 2) ≤ 2 * tol) (hsmall : 5 * tol * ((n : ℝ) - 1 / 2) ^ 2 ≤ 1)
    (r : Rule) (hr : lobattoWeights n (-1) 1 tol maxiter = .ok r) (i j : ℕ) (hij : i < j) (hj : j < n) : r.x i < r.x j := by
  have hn : 2 ≤ n := by omega
  have hstep : ∀ i, i + 1 < n → r.x i < r.x (i + 1) := by
    intro i hi
    obtain ⟨a1, _⟩ := C07_tolerance n tol htol maxiter hm hmax hsmall r hr _ (lobRule_spec n hn) i (by omega)
    obtain ⟨b1, _⟩ := C07_tolerance n tol htol maxiter hm hmax hsmall r hr _ (lobRule_spec n hn) (i + 1) hi
    obtain ⟨M, rfl⟩ : ∃ M, n = M + 2 := ⟨n - 2, by omega⟩
    have g := lobNode_gap M i hi
    have eM : ((M + 2 : ℕ) : ℝ) - 1 / 2 = (M : ℝ) + 3 / 2 := by push_cast; ring
    rw [eM] at hsmall
    have hh : (0 : ℝ) < ((M : ℝ) + 3 / 2) ^ 2 := by positivity
    have g2 : 10 * tol ≤ 2 / ((M : ℝ) + 3 / 2) ^ 2 := by
      rw [le_div_iff₀ hh]; linarith
    have a2 := (abs_le.1 a1).2
    have b2 := (abs_le.1 b1).1
    change r.x i - lobNode (M + 2) i ≤ _ at a2
    change _ ≤ r.x (i + 1) - lobNode (M + 2) (i + 1) at b2
    linarith
  induction j, hij using Nat.le_induction with
  | base => exact hstep i hj
  | succ j h ih => exact (ih (by omega)).trans (hstep j hj)

/-- C07. The quadrature error at a finite tolerance: a polynomial `p` of degree at most `2n - 3` with `|p| ≤ A` and `|p'| ≤ B` on `[-1,1]` is integrated
with an error of at most `8 tol B + 150 tol^2 (n - 1/2)^4 A`. -/
theorem C07_error_bound (n : ℕ) (tol : ℝ) (htol : 0 < tol) (maxiter : ℕ) (hm : 1 ≤ maxiter)
    (hmax : (4 / 5 : ℝ) ^ ((3 ^ (maxiter - 1) - 1) / 2) ≤ 2 * tol) (hsmall : 5 * tol * ((n : ℝ) - 1 / 2) ^ 2 ≤ 1)
    (r : Rule) (hr : lobattoWeights n (-1) 1 tol maxiter = .ok r) (p : ℝ[X]) (hp : p.natDegree ≤ 2 * n - 3) (A B : ℝ)
    (hA : ∀ x, |x| ≤ 1 → |p.eval x| ≤ A) (hB : ∀ x, |x| ≤ 1 → |(derivative p).eval x| ≤ B) :
    |∑ i ∈ range n, r.w i * p.eval (r.x i) - ∫ t in (-1 : ℝ)..1, p.eval t| ≤ 8 * tol * B + 150 * tol ^ 2 * ((n : ℝ) - 1 / 2) ^ 4 * A := by
  have hn : 2 ≤ n := by
    by_contra h
    obtain ⟨e, he⟩ := (C07_error_iff n (-1) 1 tol maxiter).2 (by omega)
    rw [hr] at he; cases he
  have hS := lobRule_spec n hn
  have hE := lobRule_exact n hn
  set R := lobRule n with hRdef
  have hA0 : 0 ≤ A := (abs_nonneg _).trans (hA 0 (by simp))
  have hB0 : 0 ≤ B := (abs_nonneg _).trans (hB 0 (by simp))
  have hsum : ∑ i ∈ range n, R.w i = 2 := by
    have := hE 1 (by simp)
    rw [hS.size] at this
    simp only [eval_one, mul_one, intervalIntegral.integral_const] at this
    rw [this]; norm_num
  rw [← hE p hp, hS.size, ← sum_sub_distrib]
  obtain ⟨D, hD⟩ : ∃ D, D = 75 * tol ^ 2 * ((n : ℝ) - 1 / 2) ^ 4 := ⟨_, rfl⟩
  have hD0 : 0 ≤ D := by rw [hD]; positivity
  have hterm : ∀ i ∈ range n, |r.w i * p.eval (r.x i) - R.w i * p.eval (R.x i)| ≤ R.w i * (D * A + 4 * tol * B) := by
    intro i hi
    obtain ⟨a1, a2, a3, a4, a5⟩ := C07_tolerance n tol htol maxiter hm hmax hsmall r hr R hS i (mem_range.1 hi)
    rw [← hD] at a5
    have hx1 : |R.x i| ≤ 1 := by
      rw [hRdef]; change |lobNode n i| ≤ 1; unfold lobNode; rw [abs_neg]; exact Real.abs_cos_le_one _
    have hmv : |p.eval (r.x i) - p.eval (R.x i)| ≤ B * |r.x i - R.x i| := by
      have := (convex_Icc (-1 : ℝ) 1).norm_image_sub_le_of_norm_hasDerivWithin_le (f := fun x => p.eval x) (f' := fun x => (derivative p).eval x) (C := B)
        (fun x _ => (p.hasDerivAt x).hasDerivWithinAt) (fun x hx => by rw [Real.norm_eq_abs]; exact hB x (abs_le.2 hx)) (abs_le.1 hx1) (abs_le.1 a2)
      rwa [Real.norm_eq_abs, Real.norm_eq_abs] at this
    have e : r.w i * p.eval (r.x i) - R.w i * p.eval (R.x i) = (r.w i - R.w i) * p.eval (r.x i) + R.w i * (p.eval (r.x i) - p.eval (R.x i)) := by ring
    rw [e]
    refine (abs_add_le _ _).trans ?_
    rw [abs_mul, abs_mul, abs_of_nonneg (sub_nonneg.2 a4), abs_of_pos a3]
    have g1 : (r.w i - R.w i) * |p.eval (r.x i)| ≤ R.w i * D * A :=
      mul_le_mul (by linarith) (hA _ a2) (abs_nonneg _) (mul_nonneg a3.le hD0)
    have g2 : R.w i * |p.eval (r.x i) - p.eval (R.x i)| ≤ R.w i * (B * (4 * tol)) :=
      mul_le_mul_of_nonneg_left (hmv.trans (mul_le_mul_of_nonneg_left a1 hB0)) a3.le
    linarith
  refine (abs_sum_le_sum_abs _ _).trans ((sum_le_sum hterm).trans ?_)
  rw [← sum_mul, hsum, hD]
  exact le_of_eq (by ring)

/-- Seven iterations suffice for the tolerance `1e-16`. -/
theorem lobatto_cap (m : ℕ) (hm : 7 ≤ m) : (4 / 5 : ℝ) ^ ((3 ^ (m - 1) - 1) / 2) ≤ 2 * (1 / 10 ^ 16) := by
  have h1 : 3 ^ 6 ≤ 3 ^ (m - 1) := Nat.pow_le_pow_right (by norm_num) (by omega)
  have h2 : 200 ≤ (3 ^ (m - 1) - 1) / 2 := by omega
  generalize (3 ^ (m - 1) - 1) / 2 = e at h2
  exact (pow_le_pow_of_le_one (by norm_num) (by norm_num) h2).trans (by norm_num)

/-- C07. The default arguments `tol = 1e-16`, `maxiter = 100` (any cap from 7 on gives the same), for up to ten million nodes: strictly increasing nodes within `4e-16` of the exact ones, and
polynomials of degree at most `2n - 3` integrated with an error of at most `8e-16 B + 150e-32 (n - 1/2)^4 A`. -/
theorem C07_default (n : ℕ) (hn : 2 ≤ n) (hn2 : n ≤ 10 ^ 7) (R : Rule) (hR : IsLobattoRule R n) (maxiter : ℕ)
    (hm : 7 ≤ maxiter) :
    ∃ r, lobattoWeights n (-1) 1 (1 / 10 ^ 16) maxiter = .ok r ∧ (∀ i j, i < j → j < n → r.x i < r.x j) ∧
      (∀ i < n, |r.x i - R.x i| ≤ 4 / 10 ^ 16 ∧ 0 < r.w i) ∧
      ∀ (p : ℝ[X]) (A B : ℝ), p.natDegree ≤ 2 * n - 3 → (∀ x, |x| ≤ 1 → |p.eval x| ≤ A) → (∀ x, |x| ≤ 1 → |(derivative p).eval x| ≤ B) →
        |∑ i ∈ range n, r.w i * p.eval (r.x i) - ∫ t in (-1 : ℝ)..1, p.eval t| ≤ 8 / 10 ^ 16 * B + 150 / 10 ^ 32 * ((n : ℝ) - 1 / 2) ^ 4 * A := by
  have htol : (0 : ℝ) < 1 / 10 ^ 16 := by positivity
  have hsmall : 5 * (1 / 10 ^ 16) * ((n : ℝ) - 1 / 2) ^ 2 ≤ 1 := by
    have h1 : (n : ℝ) ≤ 10 ^ 7 := by exact_mod_cast hn2
    have h2 : (2 : ℝ) ≤ n := by exact_mod_cast hn
    have := pow_le_pow_left₀ (by linarith : (0 : ℝ) ≤ (n : ℝ) - 1 / 2) (by linarith : (n : ℝ) - 1 / 2 ≤ 10 ^ 7) 2
    have e : (5 : ℝ) * (1 / 10 ^ 16) * (10 ^ 7) ^ 2 ≤ 1 := by norm_num
    exact (mul_le_mul_of_nonneg_left this (by positivity)).trans e
  refine ⟨_, lobatto_ok n hn (-1) 1 (1 / 10 ^ 16) maxiter, ?_, ?_, ?_⟩
  · exact fun i j => C07_increasing n _ htol maxiter (by omega) (lobatto_cap maxiter hm) hsmall _ (lobatto_ok n hn (-1) 1 (1 / 10 ^ 16) maxiter) i j
  · intro i hi
    obtain ⟨a1, a2, a3, a4, a5⟩ := C07_tolerance n _ htol maxiter (by omega) (lobatto_cap maxiter hm) hsmall _ (lobatto_ok n hn (-1) 1 (1 / 10 ^ 16) maxiter) R hR i hi
    exact ⟨by linarith, lt_of_lt_of_le a3 a4⟩
  · intro p A B hp hA hB
    refine (C07_error_bound n _ htol maxiter (by omega) (lobatto_cap maxiter hm) hsmall _ (lobatto_ok n hn (-1) 1 (1 / 10 ^ 16) maxiter) p hp A B hA hB).trans (le_of_eq ?_)
    ring

/-- C06. The Lobatto weights are strictly positive, for every number of nodes, tolerance and iteration limit. -/
theorem C06_lobatto_pos (n : ℕ) (a b tol : ℝ) (hab : a < b) (maxiter : ℕ) (hm : 1 ≤ maxiter) (r : Rule)
    (hr : lobattoWeights n a b tol maxiter = .ok r) (i : ℕ) (hi : i < n) : 0 < r.w i ∧ a ≤ r.x i ∧ r.x i ≤ b := by
  have hn : 2 ≤ n := by
    by_contra h
    obtain ⟨e, he⟩ := (C07_error_iff n a b tol maxiter).2 (by omega)
    rw [hr] at he; cases he
  rw [lobatto_ok n hn] at hr
  obtain ⟨M, rfl⟩ : ∃ M, n = M + 2 := ⟨n - 2, by omega⟩
  cases hr
  obtain ⟨k, hk, hres, _⟩ := lobattoLoop_result (M + 2) tol maxiter (lobattoGuess (M + 2)) hm
  have hg := lobGood_all M i hi
  have h1 := (hg k).1
  have h2 := abs_le.1 (hg (k + 1)).2.2.2.2
  have hba : 0 < b - a := by linarith
  have hc : (0 : ℝ) < ((M + 2 : ℕ) : ℝ) * (((M + 2 : ℕ) : ℝ) - 1) := by
    have : (0 : ℝ) ≤ M := Nat.cast_nonneg M
    push_cast
    exact mul_pos (by linarith) (by linarith)
  simp only [rescale]
  rw [hres]
  dsimp only
  rw [show M + 2 - 1 = M + 1 by omega]
  generalize (lobattoStep (M + 2))^[k + 1] (lobattoGuess (M + 2) i) = y at h2
  refine ⟨by positivity, ?_, ?_⟩
  · have := mul_nonneg hba.le (by linarith [h2.1] : 0 ≤ y + 1)
    linarith
  · have := mul_nonneg hba.le (by linarith [h2.2] : 0 ≤ 1 - y)
    linarith

/-- C06. Hence the latitude weights of every grid are strictly positive, without exception. -/
theorem C06_latitude_weights_pos (gauss : ℕ → Rule) (tol : ℝ) (maxiter nlat : ℕ) (grid : String) (r : Rule) (hm : 1 ≤ maxiter)
    (hg : grid = "legendre-gauss" → IsGaussRule (gauss nlat) nlat)
    (hr : precomputeLatitudes gauss tol maxiter nlat grid = .ok r) : ∀ k < r.n, 0 < r.w k := by
  intro k hk
  by_cases hl : grid = "lobatto"
  · subst hl
    have e : precomputeQuadratureWeights gauss tol maxiter nlat "lobatto" (-1) 1 false = lobattoWeights nlat (-1) 1 tol maxiter := by
      simp only [precomputeQuadratureWeights]
      rw [if_neg (by simp), if_neg (by decide), if_neg (by decide), if_pos trivial]
    have hn : 2 ≤ nlat := by
      by_contra h
      obtain ⟨e', he⟩ := (C07_error_iff nlat (-1) 1 tol maxiter).2 (by omega)
      rw [precomputeLatitudes, e, he] at hr
      cases hr
    have hok := lobatto_ok nlat hn (-1) 1 tol maxiter
    have hp := C06_lobatto_pos nlat (-1) 1 tol (by norm_num) maxiter hm _ hok
    have hsz := (C07_endpoints nlat (-1) 1 tol maxiter _ hok).1
    rw [precomputeLatitudes, e, hok] at hr
    cases hr
    dsimp only at hk ⊢
    rw [hsz] at hk ⊢
    exact (hp _ (by omega)).1
  · exact (C06_latitude_weights gauss tol maxiter nlat grid r hg hr).2.2.2 hl k hk

/-- C05, Lobatto grid with the default arguments of `lobatto_weights`, up to ten million latitudes: strictly increasing colatitudes from 0 to `pi`, whose cosines are within `4e-16` of the Gauss-Lobatto nodes. -/
theorem C05_lobatto_latitudes (gauss : ℕ → Rule) (maxiter nlat : ℕ) (hm : 7 ≤ maxiter) (hn : 2 ≤ nlat) (hn2 : nlat ≤ 10 ^ 7) (R : Rule) (hR : IsLobattoRule R nlat) :
    ∃ lat, precomputeLatitudes gauss (1 / 10 ^ 16) maxiter nlat "lobatto" = .ok lat ∧ lat.n = nlat ∧ lat.x 0 = 0 ∧ lat.x (nlat - 1) = Real.pi ∧
      (∀ k < nlat, 0 ≤ lat.x k ∧ lat.x k ≤ Real.pi ∧ |Real.cos (lat.x k) - R.x (nlat - 1 - k)| ≤ 4 / 10 ^ 16 ∧ 0 < lat.w k) ∧
      (∀ j k, j < k → k < nlat → lat.x j < lat.x k) := by
  obtain ⟨r, hr, h1, h2, _⟩ := C07_default nlat hn hn2 R hR maxiter hm
  have e : precomputeQuadratureWeights gauss (1 / 10 ^ 16) maxiter nlat "lobatto" (-1) 1 false = .ok r := by
    simp only [precomputeQuadratureWeights]
    rw [if_neg (by simp), if_neg (by decide), if_neg (by decide), if_pos trivial, hr]
  obtain ⟨e1, e2, e3, _⟩ := C07_endpoints nlat (-1) 1 _ maxiter r hr
  have hp := C06_lobatto_pos nlat (-1) 1 (1 / 10 ^ 16) (by norm_num) maxiter (by omega) r hr
  obtain ⟨lat, g1, g2, g3, g4⟩ := C05_latitudes gauss (1 / 10 ^ 16) maxiter nlat "lobatto" r e (by rw [e1]; exact h1) (by rw [e1]; exact fun i hi => (hp i hi).2)
  rw [e1] at g2 g3 g4
  refine ⟨lat, g1, g2, ?_, ?_, ?_, g4⟩
  · obtain ⟨a1, a2, a3, _⟩ := g3 0 (by omega)
    rw [Nat.sub_zero, e3] at a3
    rw [← Real.arccos_cos a1 a2, a3, Real.arccos_one]
  · obtain ⟨a1, a2, a3, _⟩ := g3 (nlat - 1) (by omega)
    rw [Nat.sub_self, e2] at a3
    rw [← Real.arccos_cos a1 a2, a3, Real.arccos_neg_one]
  · intro k hk
    obtain ⟨a1, a2, a3, a4⟩ := g3 k hk
    refine ⟨a1, a2, ?_, ?_⟩
    · rw [a3]; exact (h2 _ (by omega)).1
    · rw [a4]; exact (h2 _ (by omega)).2

/-- Non-vacuity: a specified rule with a hundred nodes exists and the default call returns nodes within `4e-16` of it. -/
example : ∃ R r, IsLobattoRule R 100 ∧ lobattoWeights 100 (-1) 1 (1 / 10 ^ 16) 100 = .ok r ∧ ∀ i < 100, |r.x i - R.x i| ≤ 4 / 10 ^ 16 := by
  obtain ⟨R, hR, _⟩ := C07_rule_exists 100 (by norm_num)
  obtain ⟨r, hr, _, h, _⟩ := C07_default 100 (by norm_num) (by norm_num) R hR 100 (by norm_num)
  exact ⟨R, r, hR, hr, fun i hi => (h i hi).1⟩

/-- Non-vacuity of the hypotheses of `C07_tolerance` with a coarse tolerance: `tol = 1/100`, four nodes, five iterations. -/
example : (4 / 5 : ℝ) ^ ((3 ^ (5 - 1) - 1) / 2) ≤ 2 * (1 / 100) ∧ 5 * (1 / 100) * (((4 : ℕ) : ℝ) - 1 / 2) ^ 2 ≤ 1 := by
  constructor <;> norm_num

end Verif.Props
