import Mathlib.Analysis.Calculus.LocalExtr.Polynomial
import Mathlib.Analysis.SpecialFunctions.Trigonometric.Bounds
import Mathlib.Analysis.SpecialFunctions.Trigonometric.Deriv
import Mathlib.Analysis.SpecialFunctions.Sqrt
import Mathlib.Data.Finset.Sort
import Verif.Lemmas.Lobatto
/-!
The zeros of the Legendre polynomials and of their derivatives: all of them are real, simple and inside `(-1,1)`. Sturm comparison: the zeros of
`P_N'` in the angle, `x = cos theta`, are more than `pi/(N + 1/2)` apart and away from the ends.
-/
namespace Verif.Lob
open Verif.Spec Verif.Quad Verif.Leg Polynomial Finset

/-! ### The zeros are real, simple and inside -/

/-- Parity. -/
theorem Q_neg (l m : ℕ) (x : ℝ) : (legendreDeriv l m).eval (-x) = (-1) ^ (l + m) * (legendreDeriv l m).eval x := by
  have key : ∀ k, (derivative^[k] (rodriguesBase l)).comp (-X) = (-1) ^ k * derivative^[k] (rodriguesBase l) := by
    intro k
    induction k with
    | zero => simp [rodriguesBase]
    | succ k ih =>
      rw [Function.iterate_succ_apply']
      have h := congrArg derivative ih
      rw [derivative_comp, derivative_neg, derivative_X, derivative_mul] at h
      have h1 : derivative ((-1 : ℝ[X]) ^ k) = 0 := by
        rw [show (-1 : ℝ[X]) ^ k = C ((-1) ^ k) by simp, derivative_C]
      rw [h1, zero_mul, zero_add] at h
      rw [pow_succ]
      linear_combination -h
  have h := congrArg (eval x) (key (l + m))
  rw [eval_comp, eval_neg, eval_X, eval_mul, eval_pow, eval_neg, eval_one] at h
  exact h

/-- Positivity to the right of the interval. -/
theorem Q_pos (x : ℝ) (hx : 1 ≤ x) : ∀ l m, (0 ≤ (legendreDeriv l m).eval x) ∧ (m ≤ l → 0 < (legendreDeriv l m).eval x) := by
  intro l
  induction l with
  | zero =>
    intro m
    rcases Nat.eq_zero_or_pos m with h | h
    · subst h; rw [P_zero]; simp
    · rw [Q_zero 0 m h]; simp; omega
  | succ l ih =>
    have hp : ∀ m, m ≤ l + 1 → 0 < (legendreDeriv (l + 1) m).eval x := by
      intro m hm
      rcases m with _ | m
      · have h := congrArg (eval x) (rec_A l 0)
        simp only [eval_mul, eval_sub, eval_add, eval_X, eval_natCast, Nat.cast_zero, eval_zero, eval_one, eval_pow] at h
        have h1 := (ih 1).1
        have h2 := (ih 0).2 (by omega)
        have h3 : 0 ≤ (x ^ 2 - 1) * (legendreDeriv l 1).eval x := mul_nonneg (by nlinarith) h1
        have h4 : (0 : ℝ) < (l : ℝ) + 1 := by positivity
        have h5 : 0 < ((l : ℝ) + 1) * x * (legendreDeriv l 0).eval x := by positivity
        simp only [sub_zero, add_zero, zero_add] at h
        by_contra hn
        nlinarith
      · have h := congrArg (eval x) (rec_B l m)
        simp only [eval_mul, eval_add, eval_X, eval_natCast, eval_one] at h
        rw [h]
        have h1 := (ih (m + 1)).1
        have h2 := (ih m).2 (by omega)
        have h4 : (0 : ℝ) < (l : ℝ) + m + 1 := by positivity
        have := mul_pos h4 h2
        have := mul_nonneg (by linarith : 0 ≤ x) h1
        linarith
    intro m
    by_cases hm : m ≤ l + 1
    · exact ⟨(hp m hm).le, hp m⟩
    · rw [Q_zero (l + 1) m (by omega)]; simp; omega

theorem Q_root_inside (l m : ℕ) (hm : m ≤ l) (x : ℝ) (h : (legendreDeriv l m).eval x = 0) : -1 < x ∧ x < 1 := by
  constructor
  · by_contra hn
    have := (Q_pos (-x) (by linarith) l m).2 hm
    rw [Q_neg, h, mul_zero] at this
    exact lt_irrefl _ this
  · by_contra hn
    have := (Q_pos x (by linarith) l m).2 hm
    rw [h] at this
    exact lt_irrefl _ this

/-- Consecutive derivatives have no common zero. -/
theorem Q_no_common (l m : ℕ) (hm : m ≤ l) (x : ℝ) (h0 : (legendreDeriv l m).eval x = 0) : (legendreDeriv l (m + 1)).eval x ≠ 0 := by
  intro h1
  obtain ⟨hx, hx'⟩ := Q_root_inside l m hm x h0
  have h2 : 1 - x ^ 2 ≠ 0 := by nlinarith
  -- all derivatives vanish
  have hall : ∀ k, (legendreDeriv l (m + k)).eval x = 0 ∧ (legendreDeriv l (m + k + 1)).eval x = 0 := by
    intro k
    induction k with
    | zero => exact ⟨h0, h1⟩
    | succ k ih =>
      refine ⟨ih.2, ?_⟩
      have h := congrArg (eval x) (ode l (m + k))
      simp only [eval_mul, eval_sub, eval_add, eval_X, eval_natCast, eval_ofNat, eval_zero, eval_one, eval_pow] at h
      rw [ih.1, ih.2] at h
      simp only [mul_zero, sub_zero, add_zero] at h
      exact (mul_eq_zero.1 h).resolve_left h2
  have hl := (hall (l - m)).1
  rw [show m + (l - m) = l by omega] at hl
  have hd := Q_natDegree l l le_rfl
  rw [Nat.sub_self] at hd
  have hpos := (Q_pos 1 le_rfl l l).2 le_rfl
  rw [eq_C_of_natDegree_eq_zero hd, eval_C] at hl hpos
  linarith

theorem Q_ne_zero (l m : ℕ) (hm : m ≤ l) : legendreDeriv l m ≠ 0 := by
  intro h
  have := (Q_pos 1 le_rfl l m).2 hm
  rw [h] at this; simp at this

theorem card_roots_iter (p : ℝ[X]) (k : ℕ) : p.roots.card ≤ (derivative^[k] p).roots.card + k := by
  induction k with
  | zero => simp
  | succ k ih =>
    have := card_roots_le_derivative (derivative^[k] p)
    rw [Function.iterate_succ_apply']
    omega

theorem Q_card_roots (l m : ℕ) (hm : m ≤ l) : (legendreDeriv l m).roots.card = l - m := by
  apply le_antisymm
  · exact (card_roots' _).trans (Q_natDegree_le l m)
  · have h := card_roots_iter (rodriguesBase l) (l + m)
    have h2 : (rodriguesBase l).roots.card = 2 * l := by
      unfold rodriguesBase
      have hc : (1 / (2 ^ l * (l.factorial : ℝ))) ≠ 0 := by positivity
      rw [roots_C_mul _ hc, show ((X : ℝ[X]) ^ 2 - 1) = (X - C 1) * (X - C (-1)) by simp; ring, roots_pow,
        roots_mul (mul_ne_zero (X_sub_C_ne_zero _) (X_sub_C_ne_zero _)), roots_X_sub_C, roots_X_sub_C]
      simp; ring
    rw [h2] at h
    unfold legendreDeriv
    omega

theorem Q_roots_nodup (l m : ℕ) (hm : m ≤ l) : (legendreDeriv l m).roots.Nodup := by
  rw [Multiset.nodup_iff_count_le_one]
  intro x
  rw [count_roots]
  by_contra hlt
  have h1 : 1 < rootMultiplicity x (legendreDeriv l m) := by omega
  rw [one_lt_rootMultiplicity_iff_isRoot (Q_ne_zero l m hm)] at h1
  obtain ⟨h2, h3⟩ := h1
  rw [deriv_Q] at h3
  exact Q_no_common l m hm x h2 h3

/-- The zeros of `Q_l^m`. -/
noncomputable def zeros (l m : ℕ) : Finset ℝ := (legendreDeriv l m).roots.toFinset

theorem mem_zeros (l m : ℕ) (hm : m ≤ l) (x : ℝ) : x ∈ zeros l m ↔ (legendreDeriv l m).eval x = 0 := by
  unfold zeros
  rw [Multiset.mem_toFinset, mem_roots (Q_ne_zero l m hm)]; rfl

theorem card_zeros (l m : ℕ) (hm : m ≤ l) : (zeros l m).card = l - m := by
  unfold zeros
  rw [Multiset.toFinset_card_of_nodup (Q_roots_nodup l m hm), Q_card_roots l m hm]

/-! ### Sturm comparison -/

/-- A function that is positive to the left of its zero `b` has no positive derivative there. -/
theorem deriv_nonpos_at_zero (f : ℝ → ℝ) (f' a b : ℝ) (hab : a < b) (hf : HasDerivAt f f' b) (hb : f b = 0) (hpos : ∀ x, a < x → x < b → 0 < f x) : f' ≤ 0 := by
  have h := (hasDerivAt_iff_tendsto_slope_left_right.1 hf).1
  refine le_of_tendsto h ?_
  filter_upwards [Ioo_mem_nhdsLT hab] with x hx
  rw [slope_def_field, hb, sub_zero]
  exact div_nonpos_of_nonneg_of_nonpos (hpos x hx.1 hx.2).le (by linarith [hx.2])

/-- `sin^(3/2) theta * P_N'(cos theta)`. -/
noncomputable def stv (N : ℕ) (t : ℝ) : ℝ := Real.sin t * Real.sqrt (Real.sin t) * (legendreDeriv N 1).eval (Real.cos t)

/-- Its derivative. -/
noncomputable def stv' (N : ℕ) (t : ℝ) : ℝ :=
  Real.sqrt (Real.sin t) * (3 / 2 * Real.cos t * (legendreDeriv N 1).eval (Real.cos t) - Real.sin t ^ 2 * (legendreDeriv N 2).eval (Real.cos t))

theorem hasDerivAt_Q (l m : ℕ) (t : ℝ) : HasDerivAt (fun t => (legendreDeriv l m).eval (Real.cos t)) (-Real.sin t * (legendreDeriv l (m + 1)).eval (Real.cos t)) t := by
  have h := ((legendreDeriv l m).hasDerivAt (Real.cos t)).comp t (Real.hasDerivAt_cos t)
  rw [deriv_Q] at h
  exact h.congr_deriv (mul_comm _ _)

theorem stv_deriv (N : ℕ) (t : ℝ) (ht : 0 < Real.sin t) : HasDerivAt (stv N) (stv' N t) t := by
  have hs := (Real.hasDerivAt_sin t).sqrt ht.ne'
  have h := ((Real.hasDerivAt_sin t).fun_mul hs).fun_mul (hasDerivAt_Q N 1 t)
  refine h.congr_deriv ?_
  unfold stv'
  have hq : Real.sqrt (Real.sin t) ^ 2 = Real.sin t := Real.sq_sqrt ht.le
  have hq0 : Real.sqrt (Real.sin t) ≠ 0 := (Real.sqrt_pos.2 ht).ne'
  generalize Real.sqrt (Real.sin t) = q at *
  generalize Real.cos t = c at *
  rw [← hq]
  field_simp
  ring

theorem stv'_deriv (N : ℕ) (t : ℝ) (ht : 0 < Real.sin t) :
    HasDerivAt (stv' N) ((3 / 4 / Real.sin t ^ 2 - ((N : ℝ) + 1 / 2) ^ 2) * stv N t) t := by
  have hs := (Real.hasDerivAt_sin t).sqrt ht.ne'
  have h := hs.fun_mul ((((Real.hasDerivAt_cos t).const_mul (3 / 2)).fun_mul (hasDerivAt_Q N 1 t)).fun_sub
    (((Real.hasDerivAt_sin t).fun_pow 2).fun_mul (hasDerivAt_Q N 2 t)))
  refine h.congr_deriv ?_
  unfold stv
  have ho := congrArg (eval (Real.cos t)) (ode N 1)
  simp only [eval_mul, eval_sub, eval_add, eval_X, eval_natCast, eval_ofNat, eval_zero, eval_one, eval_pow, Nat.cast_one] at ho
  have hcs := Real.sin_sq_add_cos_sq t
  have hq : Real.sqrt (Real.sin t) ^ 2 = Real.sin t := Real.sq_sqrt ht.le
  have hq0 : Real.sqrt (Real.sin t) ≠ 0 := (Real.sqrt_pos.2 ht).ne'
  have hs0 := ht.ne'
  simp only [show 1 + 1 = 2 from rfl, show 1 + 2 = 3 from rfl] at ho ⊢
  generalize Real.sqrt (Real.sin t) = q at *
  generalize Real.cos t = c at *
  generalize Real.sin t = s at *
  generalize eval c (legendreDeriv N 1) = q0 at *
  generalize eval c (legendreDeriv N 2) = q1 at *
  generalize eval c (legendreDeriv N 3) = q2 at *
  have hc2 : c ^ 2 = 1 - s ^ 2 := by linarith
  have e : s ^ 2 * q2 = 4 * c * q1 - ((N : ℝ) - 1) * ((N : ℝ) + 2) * q0 := by rw [hc2] at ho; linarith
  rw [← sub_eq_zero]
  have hk : (c / (2 * q) * (3 / 2 * c * q0 - s ^ 2 * q1)
      + q * (3 / 2 * -s * q0 + 3 / 2 * c * (-s * q1) - ((2 : ℕ) * s ^ (2 - 1) * c * q1 + s ^ 2 * (-s * q2))))
      - (3 / 4 / s ^ 2 - ((N : ℝ) + 1 / 2) ^ 2) * (s * q * q0) = 0 := by
    have : (3 / 4 / s ^ 2 - ((N : ℝ) + 1 / 2) ^ 2) * (s * q * q0) = (3 / 4 - ((N : ℝ) + 1 / 2) ^ 2 * s ^ 2) * q0 / q := by
      rw [eq_div_iff hq0]
      field_simp
      rw [hq]
      field_simp
    rw [this]
    have h2 : c / (2 * q) * (3 / 2 * c * q0 - s ^ 2 * q1)
      + q * (3 / 2 * -s * q0 + 3 / 2 * c * (-s * q1) - ((2 : ℕ) * s ^ (2 - 1) * c * q1 + s ^ 2 * (-s * q2)))
      = (c / 2 * (3 / 2 * c * q0 - s ^ 2 * q1) + s * (3 / 2 * -s * q0 + 3 / 2 * c * (-s * q1) - (2 * s * c * q1 + s ^ 2 * (-s * q2)))) / q := by
      rw [eq_div_iff hq0, ← hq]
      push_cast
      field_simp
    rw [h2, ← sub_div]
    refine div_eq_zero_iff.2 (Or.inl ?_)
    linear_combination s ^ 2 * e + 3 / 4 * q0 * hc2
  exact hk

/-- Sturm: between two zeros of `P_N'(cos theta)`, or between the end 0 and a zero, with none in between, there is more than `pi/(N + 1/2)`. -/
theorem sturm (N : ℕ) (a b : ℝ) (ha0 : 0 ≤ a) (hab : a < b) (hb : b < Real.pi) (ha : a = 0 ∨ (legendreDeriv N 1).eval (Real.cos a) = 0)
    (hb0 : (legendreDeriv N 1).eval (Real.cos b) = 0) (hn : ∀ t, a < t → t < b → (legendreDeriv N 1).eval (Real.cos t) ≠ 0) :
    Real.pi / ((N : ℝ) + 1 / 2) < b - a := by
  by_contra hle
  have hle := not_lt.1 hle
  set h : ℝ := (N : ℝ) + 1 / 2 with hh
  have hh0 : 0 < h := by positivity
  have hsin : ∀ t, a < t → t ≤ b → 0 < Real.sin t := fun t h1 h2 => Real.sin_pos_of_pos_of_lt_pi (by linarith) (by linarith)
  -- a sign
  have hcont : Continuous fun t => (legendreDeriv N 1).eval (Real.cos t) := (legendreDeriv N 1).continuous.comp Real.continuous_cos
  obtain ⟨e, he, hpos⟩ : ∃ e : ℝ, e ≠ 0 ∧ ∀ t, a < t → t < b → 0 < e * (legendreDeriv N 1).eval (Real.cos t) := by
    set m := (a + b) / 2 with hm
    refine ⟨(legendreDeriv N 1).eval (Real.cos m), hn m (by linarith) (by linarith), fun t h1 h2 => ?_⟩
    by_contra hneg
    have hneg := not_lt.1 hneg
    have hm0 := hn m (by linarith) (by linarith)
    have hmp : 0 < (legendreDeriv N 1).eval (Real.cos m) * (legendreDeriv N 1).eval (Real.cos m) := mul_self_pos.2 hm0
    have : PreconnectedSpace (Set.Ioo a b) := isPreconnected_iff_preconnectedSpace.1 isPreconnected_Ioo
    have := mem_range_of_exists_le_of_exists_ge (c := (0 : ℝ)) (f := fun u : Set.Ioo a b => (legendreDeriv N 1).eval (Real.cos m) * (legendreDeriv N 1).eval (Real.cos u))
      (by fun_prop) ⟨⟨t, h1, h2⟩, hneg⟩ ⟨⟨m, by linarith, by linarith⟩, hmp.le⟩
    obtain ⟨u, hu⟩ := this
    exact (mul_ne_zero hm0 (hn u u.2.1 u.2.2)) hu
  let y : ℝ → ℝ := fun t => Real.sin (h * (t - a))
  let y' : ℝ → ℝ := fun t => Real.cos (h * (t - a)) * h
  have hlin : ∀ t, HasDerivAt (fun t => h * (t - a)) h t := fun t => by
    simpa using ((hasDerivAt_id t).sub_const a).const_mul h
  have hy : ∀ t, HasDerivAt y (y' t) t := fun t => (Real.hasDerivAt_sin _).comp t (hlin t)
  have hy' : ∀ t, HasDerivAt y' (-(h ^ 2) * y t) t := fun t => by
    refine (((Real.hasDerivAt_cos _).comp t (hlin t)).mul_const h).congr_deriv ?_
    show -Real.sin (h * (t - a)) * h * h = -(h ^ 2) * Real.sin (h * (t - a))
    ring
  have hyp : ∀ t, a < t → t < b → 0 < y t := fun t h1 h2 => by
    refine Real.sin_pos_of_pos_of_lt_pi (mul_pos hh0 (by linarith)) ?_
    have : t - a < Real.pi / h := by linarith
    rw [lt_div_iff₀ hh0] at this
    linarith
  let G : ℝ → ℝ := fun t => e * (stv' N t * y t - stv N t * y' t)
  have hG : ∀ t, a < t → t < b → HasDerivAt G (e * (3 / 4 / Real.sin t ^ 2 * stv N t * y t)) t := fun t h1 h2 => by
    have hs := hsin t h1 h2.le
    refine ((((stv'_deriv N t hs).fun_mul (hy t)).fun_sub ((stv_deriv N t hs).fun_mul (hy' t))).const_mul e).congr_deriv ?_
    ring
  have hGc : ContinuousOn G (Set.Icc a b) := by
    apply Continuous.continuousOn
    have h1 : Continuous fun t => (legendreDeriv N 2).eval (Real.cos t) := (legendreDeriv N 2).continuous.comp Real.continuous_cos
    have h2 : Continuous fun t => Real.sqrt (Real.sin t) := Real.continuous_sqrt.comp Real.continuous_sin
    have c1 : Continuous (stv N) := (Real.continuous_sin.mul h2).mul hcont
    have c2 : Continuous (stv' N) := h2.mul (((continuous_const.mul Real.continuous_cos).mul hcont).sub ((Real.continuous_sin.pow 2).mul h1))
    have c3 : Continuous y := continuous_iff_continuousAt.2 fun t => (hy t).continuousAt
    have c4 : Continuous y' := continuous_iff_continuousAt.2 fun t => (hy' t).continuousAt
    exact continuous_const.mul ((c2.mul c3).sub (c1.mul c4))
  have hmono : StrictMonoOn G (Set.Icc a b) := by
    refine strictMonoOn_of_deriv_pos (convex_Icc a b) hGc fun t ht => ?_
    rw [interior_Icc] at ht
    rw [(hG t ht.1 ht.2).deriv]
    have hs := hsin t ht.1 ht.2.le
    have h1 := hpos t ht.1 ht.2
    have h2 := hyp t ht.1 ht.2
    have h3 := Real.sqrt_pos.2 hs
    have : e * (3 / 4 / Real.sin t ^ 2 * stv N t * y t)
        = (3 / 4 / Real.sin t ^ 2) * (Real.sin t * Real.sqrt (Real.sin t)) * (e * (legendreDeriv N 1).eval (Real.cos t)) * y t := by
      unfold stv; ring
    rw [this]
    positivity
  have hlt := hmono (Set.left_mem_Icc.2 hab.le) (Set.right_mem_Icc.2 hab.le) hab
  have hGa : G a = 0 := by
    have hva : stv N a = 0 := by
      unfold stv
      rcases ha with h0 | h0
      · rw [h0]; simp
      · rw [h0, mul_zero]
    show e * (stv' N a * Real.sin (h * (a - a)) - stv N a * y' a) = 0
    rw [hva]; simp
  have hGb : G b ≤ 0 := by
    have hs := hsin b hab le_rfl
    have hvb : stv N b = 0 := by unfold stv; rw [hb0, mul_zero]
    have hvb' : e * stv' N b ≤ 0 := by
      have hd := deriv_nonpos_at_zero (fun t => e * (legendreDeriv N 1).eval (Real.cos t)) _ a b hab ((hasDerivAt_Q N 1 b).const_mul e) (by rw [hb0, mul_zero])
        hpos
      have : e * stv' N b = Real.sqrt (Real.sin b) * Real.sin b * (e * (-Real.sin b * (legendreDeriv N (1 + 1)).eval (Real.cos b))) := by
        unfold stv'; rw [hb0]; ring
      rw [this]
      exact mul_nonpos_of_nonneg_of_nonpos (mul_nonneg (Real.sqrt_nonneg _) hs.le) hd
    have hyb : 0 ≤ y b := by
      refine Real.sin_nonneg_of_nonneg_of_le_pi (mul_nonneg hh0.le (by linarith)) ?_
      rw [le_div_iff₀ hh0] at hle
      linarith
    show e * (stv' N b * y b - stv N b * y' b) ≤ 0
    rw [hvb, zero_mul, sub_zero, ← mul_assoc]
    exact mul_nonpos_of_nonpos_of_nonneg hvb' hyb
  linarith

/-! ### The zeros of `P_N'` in order -/

/-- The angles of the zeros of `P_N'`. -/
noncomputable def angleSet (N : ℕ) : Finset ℝ := (zeros N 1).image Real.arccos

theorem mem_angleSet (N : ℕ) (hN : 1 ≤ N) (t : ℝ) : t ∈ angleSet N ↔ (0 < t ∧ t < Real.pi) ∧ (legendreDeriv N 1).eval (Real.cos t) = 0 := by
  unfold angleSet
  rw [mem_image]
  constructor
  · rintro ⟨x, hx, rfl⟩
    rw [mem_zeros N 1 hN] at hx
    obtain ⟨h1, h2⟩ := Q_root_inside N 1 hN x hx
    refine ⟨⟨Real.arccos_pos.2 h2, ?_⟩, by rw [Real.cos_arccos h1.le h2.le]; exact hx⟩
    refine lt_of_le_of_ne (Real.arccos_le_pi x) fun h => ?_
    rw [Real.arccos_eq_pi] at h
    linarith
  · rintro ⟨⟨h1, h2⟩, h3⟩
    exact ⟨Real.cos t, (mem_zeros N 1 hN _).2 h3, Real.arccos_cos h1.le h2.le⟩

theorem card_angleSet (N : ℕ) (hN : 1 ≤ N) : (angleSet N).card = N - 1 := by
  unfold angleSet
  rw [card_image_of_injOn, card_zeros N 1 hN]
  intro x hx y hy h
  have hx := (mem_zeros N 1 hN _).1 (mem_coe.1 hx)
  have hy := (mem_zeros N 1 hN _).1 (mem_coe.1 hy)
  obtain ⟨h1, h2⟩ := Q_root_inside N 1 hN x hx
  obtain ⟨h3, h4⟩ := Q_root_inside N 1 hN y hy
  rw [← Real.cos_arccos h1.le h2.le, h, Real.cos_arccos h3.le h4.le]

/-- The angles of the Lobatto nodes: 0, the zeros of `P_N'` in increasing order, `pi`. -/
noncomputable def ang (N : ℕ) (j : ℕ) : ℝ :=
  if h : 1 ≤ N ∧ 1 ≤ j ∧ j < N then (angleSet N).orderEmbOfFin (card_angleSet N h.1) ⟨j - 1, by omega⟩ else if j = 0 then 0 else Real.pi

theorem ang_zero (N : ℕ) : ang N 0 = 0 := by unfold ang; rw [dif_neg (by omega), if_pos rfl]

theorem ang_last (N : ℕ) (hN : 1 ≤ N) : ang N N = Real.pi := by unfold ang; rw [dif_neg (by omega), if_neg (by omega)]

theorem ang_mem (N j : ℕ) (h1 : 1 ≤ j) (h2 : j < N) : ang N j ∈ angleSet N := by
  unfold ang; rw [dif_pos ⟨by omega, h1, h2⟩]; exact orderEmbOfFin_mem _ _ _

theorem ang_inside (N j : ℕ) (h1 : 1 ≤ j) (h2 : j < N) : 0 < ang N j ∧ ang N j < Real.pi := ((mem_angleSet N (by omega) _).1 (ang_mem N j h1 h2)).1

theorem ang_root (N j : ℕ) (h1 : 1 ≤ j) (h2 : j < N) : (legendreDeriv N 1).eval (Real.cos (ang N j)) = 0 :=
  ((mem_angleSet N (by omega) _).1 (ang_mem N j h1 h2)).2

theorem ang_lt (N i j : ℕ) (hij : i < j) (hj : j ≤ N) : ang N i < ang N j := by
  by_cases hi : i = 0
  · rw [hi, ang_zero]
    by_cases hjN : j = N
    · rw [hjN, ang_last N (by omega)]; exact Real.pi_pos
    · exact (ang_inside N j (by omega) (by omega)).1
  · by_cases hjN : j = N
    · rw [hjN, ang_last N (by omega)]; exact (ang_inside N i (by omega) (by omega)).2
    · unfold ang
      rw [dif_pos ⟨by omega, by omega, by omega⟩, dif_pos ⟨by omega, by omega, by omega⟩]
      exact (orderEmbOfFin _ _).strictMono (by rw [Fin.lt_def]; dsimp only; omega)

theorem ang_complete (N : ℕ) (t : ℝ) (h0 : 0 < t ∧ t < Real.pi) (hN : 1 ≤ N) (h : (legendreDeriv N 1).eval (Real.cos t) = 0) : ∃ j, 1 ≤ j ∧ j < N ∧ ang N j = t := by
  have hm : t ∈ (angleSet N : Set ℝ) := mem_coe.2 ((mem_angleSet N hN t).2 ⟨h0, h⟩)
  rw [← range_orderEmbOfFin (angleSet N) (card_angleSet N hN)] at hm
  obtain ⟨i, hi⟩ := hm
  refine ⟨i + 1, by omega, by omega, ?_⟩
  unfold ang
  rw [dif_pos ⟨hN, by omega, by omega⟩, ← hi]
  rfl

theorem ang_gap (N j : ℕ) (hj : j + 1 < N) : Real.pi / ((N : ℝ) + 1 / 2) < ang N (j + 1) - ang N j := by
  have hlt := ang_lt N j (j + 1) (by omega) (by omega)
  have h0 : 0 ≤ ang N j ∧ (ang N j = 0 ∨ (legendreDeriv N 1).eval (Real.cos (ang N j)) = 0) := by
    by_cases hz : j = 0
    · rw [hz, ang_zero]; exact ⟨le_rfl, Or.inl rfl⟩
    · exact ⟨(ang_inside N j (by omega) (by omega)).1.le, Or.inr (ang_root N j (by omega) (by omega))⟩
  refine sturm N _ _ h0.1 hlt (ang_inside N (j + 1) (by omega) hj).2 h0.2 (ang_root N (j + 1) (by omega) hj) fun t h1 h2 hz => ?_
  obtain ⟨i, hi1, hi2, rfl⟩ := ang_complete N t ⟨by linarith, by linarith [(ang_inside N (j + 1) (by omega) hj).2]⟩ (by omega) hz
  rcases Nat.lt_or_ge j i with hc | hc
  · rcases Nat.lt_or_ge i (j + 1) with hd | hd
    · omega
    · rcases hd.lt_or_eq with hd | hd
      · have := ang_lt N (j + 1) i hd (by omega); linarith
      · rw [← hd] at h2; linarith
  · rcases hc.lt_or_eq with hd | hd
    · have := ang_lt N i j hd (by omega); linarith
    · rw [hd] at h1; linarith

theorem ang_symm (N j : ℕ) (hN : 1 ≤ N) (hj : j ≤ N) : ang N (N - j) = Real.pi - ang N j := by
  by_cases h0 : j = 0
  · rw [h0, ang_zero, Nat.sub_zero, ang_last N hN, sub_zero]
  · by_cases h1 : j = N
    · rw [h1, ang_last N hN, Nat.sub_self, ang_zero, sub_self]
    · have key : (fun i : Fin (N - 1) => Real.pi - ang N (N - 1 - i)) = (angleSet N).orderEmbOfFin (card_angleSet N hN) := by
        apply orderEmbOfFin_unique
        · intro i
          have hi := i.2
          have hin := ang_inside N (N - 1 - i) (by omega) (by omega)
          rw [mem_angleSet N hN]
          refine ⟨⟨by linarith [hin.2], by linarith [hin.1]⟩, ?_⟩
          rw [Real.cos_pi_sub, Q_neg, ang_root N _ (by omega) (by omega), mul_zero]
        · intro a b hab
          have hab' : (a : ℕ) < b := hab
          have hb := b.2
          have := ang_lt N (N - 1 - b) (N - 1 - a) (by omega) (by omega)
          dsimp only
          linarith
      have := congrFun key ⟨N - j - 1, by omega⟩
      dsimp only at this
      have e : ang N (N - j) = (angleSet N).orderEmbOfFin (card_angleSet N hN) ⟨N - j - 1, by omega⟩ := by
        conv_lhs => unfold ang
        rw [dif_pos ⟨hN, by omega, by omega⟩]
      rw [e, ← this, show N - 1 - (N - j - 1) = j by omega]

theorem ang_gaps (N i k : ℕ) (h : i + k < N) : k * (Real.pi / ((N : ℝ) + 1 / 2)) ≤ ang N (i + k) - ang N i := by
  induction k with
  | zero => simp
  | succ k ih =>
    have := ih (by omega)
    have h1 := ang_gap N (i + k) (by omega)
    push_cast
    rw [← Nat.add_assoc]
    linarith

/-- Where the `j`-th zero is. -/
theorem ang_bounds (N j : ℕ) (h1 : 1 ≤ j) (h2 : 2 * j ≤ N) (h3 : j < N) :
    j * (Real.pi / ((N : ℝ) + 1 / 2)) ≤ ang N j ∧ ang N j ≤ (j + 1 / 4) * (Real.pi / ((N : ℝ) + 1 / 2)) ∧ ang N j ≤ Real.pi / 2 := by
  have hg := ang_gaps N 0 j (by omega)
  rw [Nat.zero_add, ang_zero, sub_zero] at hg
  have hg2 := ang_gaps N j (N - 2 * j) (by omega)
  rw [show j + (N - 2 * j) = N - j by omega, ang_symm N j (by omega) (by omega)] at hg2
  have hc : ((N - 2 * j : ℕ) : ℝ) = N - 2 * j := by push_cast [Nat.cast_sub h2]; ring
  rw [hc] at hg2
  have hpos : 0 < Real.pi / ((N : ℝ) + 1 / 2) := div_pos Real.pi_pos (by positivity)
  have e : ((N : ℝ) + 1 / 2) * (Real.pi / ((N : ℝ) + 1 / 2)) = Real.pi := by
    have : (N : ℝ) + 1 / 2 ≠ 0 := by positivity
    field_simp
  refine ⟨hg, ?_, ?_⟩
  · generalize Real.pi / ((N : ℝ) + 1 / 2) = d at *
    nlinarith
  · have : 0 ≤ ((N : ℝ) - 2 * j) * (Real.pi / ((N : ℝ) + 1 / 2)) := mul_nonneg (by rw [← hc]; positivity) hpos.le
    linarith

end Verif.Lob
