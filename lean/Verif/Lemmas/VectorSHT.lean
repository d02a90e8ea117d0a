import Verif.Props.SHT
/-!
Discrete orthogonality of the vector harmonics, and values of the vector transforms.
-/
namespace Verif.SHT
open Verif Verif.Dist Verif.FFT Verif.Quad Verif.Legendre Verif.Truncation Verif.Spec Verif.Props Verif.Leg Finset Polynomial

theorem nn_ip (l l' m : ℕ) (hl : m ≤ l) (hl' : m ≤ l') :
    2 * Real.pi * (legendreNorm l m * legendreNorm l' m * ip m l l') = if l = l' then 1 else 0 := by
  have e : ∫ x in (-1 : ℝ)..1, assocLegendre l m x * assocLegendre l' m x
      = legendreNorm l m * legendreNorm l' m * ip m l l' := by
    unfold ip pint
    rw [← intervalIntegral.integral_const_mul]
    apply intervalIntegral.integral_congr
    intro x hx
    rw [Set.uIcc_of_le (by norm_num)] at hx
    have hx2 : 0 ≤ 1 - x ^ 2 := by nlinarith [hx.1, hx.2]
    have hs : Real.sqrt (1 - x ^ 2) ^ m * Real.sqrt (1 - x ^ 2) ^ m = (1 - x ^ 2) ^ m := by
      rw [← mul_pow, Real.mul_self_sqrt hx2]
    simp only [assocLegendre, if_pos hl, if_pos hl']
    simp only [eval_mul, eval_pow, eval_sub, eval_one, eval_X]
    rw [← hs]; ring
  rw [← e, assoc_mul_integral]
  simp [hl]

/-- Discrete integration of a function of colatitude that is a polynomial in `cos`. -/
theorem disc_theta {r : Rule} {n d : ℕ} (h : SymmetricExactRule r n d) (F : ℝ → ℝ) (p : ℝ[X]) (hp : p.natDegree ≤ d)
    (hF : ∀ th, F th = p.eval (Real.cos th)) : ∑ k ∈ range n, r.w k * F (colat r k) = pint p := by
  unfold pint
  rw [← h.flip_sum p hp]
  refine sum_congr rfl fun k hk => ?_
  rw [hF, cos_colat h k (mem_range.1 hk)]

/-- Energy density of a pair of vector harmonics of order 0. -/
noncomputable def energy0 (l l' : ℕ) : ℝ[X] := (1 - X ^ 2) * legendreDeriv l 1 * legendreDeriv l' 1

/-- Energy density of a pair of vector harmonics of order `u + 1`. -/
noncomputable def energyS (l l' u : ℕ) : ℝ[X] :=
  (1 - X ^ 2) ^ u * (C (((u : ℝ) + 1) ^ 2) * ((1 + X ^ 2) * legendreDeriv l (u + 1) * legendreDeriv l' (u + 1))
    - C ((u : ℝ) + 1) * (X * (1 - X ^ 2) * (legendreDeriv l (u + 1) * legendreDeriv l' (u + 2)
        + legendreDeriv l (u + 2) * legendreDeriv l' (u + 1)))
    + (1 - X ^ 2) ^ 2 * legendreDeriv l (u + 2) * legendreDeriv l' (u + 2))

theorem pint_energy0 (l l' : ℕ) : pint (energy0 l l') = (l' : ℝ) * (l' + 1) * ip 0 l l' := by
  have := ip_succ 0 l l'
  unfold energy0
  rw [show ip (0 + 1) l l' = pint ((1 - X ^ 2) * legendreDeriv l 1 * legendreDeriv l' 1) by unfold ip; rw [zero_add, pow_one]] at this
  rw [this]; push_cast; ring

theorem pint_energyS (l l' u : ℕ) : pint (energyS l l' u) = (l' : ℝ) * (l' + 1) * ip (u + 1) l l' := by
  set G : ℝ[X] := C (-((u : ℝ) + 1)) * (X * (1 - X ^ 2) ^ (u + 1) * legendreDeriv l (u + 1) * legendreDeriv l' (u + 1)) with hG
  have hd : energyS l l' u = derivative G + C ((((u : ℝ) + 1) ^ 2 + (u + 1))) * ((1 - X ^ 2) ^ (u + 1) * legendreDeriv l (u + 1) * legendreDeriv l' (u + 1))
      + (1 - X ^ 2) ^ (u + 2) * legendreDeriv l (u + 2) * legendreDeriv l' (u + 2) := by
    rw [hG]
    simp only [derivative_mul, derivative_C, derivative_X, derivative_pow, derivative_sub, derivative_one, deriv_Q]
    unfold energyS
    simp only [map_add, map_neg, map_pow, map_one, map_natCast, Nat.add_sub_cancel, Nat.cast_add, Nat.cast_one]
    push_cast
    ring
  have hz : pint (derivative G) = 0 := by
    rw [pint_derivative, hG]; simp
  have h1 : pint ((1 - X ^ 2) ^ (u + 2) * legendreDeriv l (u + 2) * legendreDeriv l' (u + 2)) = ip (u + 2) l l' := rfl
  have h2 : pint ((1 - X ^ 2) ^ (u + 1) * legendreDeriv l (u + 1) * legendreDeriv l' (u + 1)) = ip (u + 1) l l' := rfl
  rw [hd, pint_add, pint_add, pint_C_mul, hz, h1, h2, ip_succ (u + 1)]
  push_cast; ring

theorem deg_one_sub : ((1 : ℝ[X]) - X ^ 2).natDegree ≤ 2 := by compute_degree

theorem deg_pow_sub (u : ℕ) : (((1 : ℝ[X]) - X ^ 2) ^ u).natDegree ≤ u * 2 := natDegree_pow_le_of_le u deg_one_sub

theorem energy0_degree (l l' : ℕ) (hl : 1 ≤ l) (hl' : 1 ≤ l') : (energy0 l l').natDegree ≤ l + l' := by
  unfold energy0
  have h1 := Q_natDegree_le l 1
  have h2 := Q_natDegree_le l' 1
  refine natDegree_mul_le.trans ?_
  have := natDegree_mul_le (p := (1 : ℝ[X]) - X ^ 2) (q := legendreDeriv l 1)
  have := deg_one_sub
  omega

theorem energyS_degree (l l' u : ℕ) (hl : u + 1 ≤ l) (hl' : u + 1 ≤ l') : (energyS l l' u).natDegree ≤ l + l' := by
  unfold energyS
  have p0 := deg_pow_sub u
  have q1 := Q_natDegree_le l (u + 1)
  have q1' := Q_natDegree_le l' (u + 1)
  have q2 := Q_natDegree_le l (u + 2)
  have q2' := Q_natDegree_le l' (u + 2)
  have hQ2 : ∀ l, u + 1 ≤ l → (legendreDeriv l (u + 2) = 0 ∨ u + 2 ≤ l) := by
    intro l hl
    rcases Nat.lt_or_ge l (u + 2) with h | h
    · exact Or.inl (Q_zero l (u + 2) h)
    · exact Or.inr h
  have a : (C (((u : ℝ) + 1) ^ 2) * ((1 + X ^ 2) * legendreDeriv l (u + 1) * legendreDeriv l' (u + 1))).natDegree ≤ l + l' - 2 * u := by
    refine (natDegree_C_mul_le _ _).trans (natDegree_mul_le.trans ?_)
    have h1 : ((1 : ℝ[X]) + X ^ 2).natDegree ≤ 2 := by compute_degree
    have := natDegree_mul_le (p := (1 : ℝ[X]) + X ^ 2) (q := legendreDeriv l (u + 1))
    omega
  have hX : (X * (1 - X ^ 2) : ℝ[X]).natDegree ≤ 3 := by
    refine natDegree_mul_le.trans ?_
    have := deg_one_sub
    rw [natDegree_X]; omega
  have b : (C ((u : ℝ) + 1) * (X * (1 - X ^ 2) * (legendreDeriv l (u + 1) * legendreDeriv l' (u + 2)
        + legendreDeriv l (u + 2) * legendreDeriv l' (u + 1)))).natDegree ≤ l + l' - 2 * u := by
    refine (natDegree_C_mul_le _ _).trans ?_
    rw [mul_add]
    refine (natDegree_add_le _ _).trans (max_le ?_ ?_)
    · rcases hQ2 l' hl' with h | h
      · rw [h]; simp
      · refine natDegree_mul_le.trans ?_
        have := natDegree_mul_le (p := legendreDeriv l (u + 1)) (q := legendreDeriv l' (u + 2))
        omega
    · rcases hQ2 l hl with h | h
      · rw [h]; simp
      · refine natDegree_mul_le.trans ?_
        have := natDegree_mul_le (p := legendreDeriv l (u + 2)) (q := legendreDeriv l' (u + 1))
        omega
  have c : ((1 - X ^ 2) ^ 2 * legendreDeriv l (u + 2) * legendreDeriv l' (u + 2)).natDegree ≤ l + l' - 2 * u := by
    rcases hQ2 l hl with h | h
    · rw [h]; simp
    · rcases hQ2 l' hl' with h' | h'
      · rw [h']; simp
      · refine natDegree_mul_le.trans ?_
        have := natDegree_mul_le (p := ((1 : ℝ[X]) - X ^ 2) ^ 2) (q := legendreDeriv l (u + 2))
        have := deg_pow_sub 2
        omega
  refine natDegree_mul_le.trans ?_
  have : (C (((u : ℝ) + 1) ^ 2) * ((1 + X ^ 2) * legendreDeriv l (u + 1) * legendreDeriv l' (u + 1))
    - C ((u : ℝ) + 1) * (X * (1 - X ^ 2) * (legendreDeriv l (u + 1) * legendreDeriv l' (u + 2)
        + legendreDeriv l (u + 2) * legendreDeriv l' (u + 1)))
    + (1 - X ^ 2) ^ 2 * legendreDeriv l (u + 2) * legendreDeriv l' (u + 2)).natDegree ≤ l + l' - 2 * u := by
    refine (natDegree_add_le _ _).trans (max_le ((natDegree_sub_le _ _).trans (max_le a b)) c)
  omega

theorem disc_energy {r : Rule} {n d : ℕ} (h : SymmetricExactRule r n d) (l l' m : ℕ) (hd : l + l' ≤ d) :
    2 * Real.pi * ∑ k ∈ range n, r.w k * (dTheta l m (colat r k) * dTheta l' m (colat r k)
      + legendreOverSin l m (colat r k) * legendreOverSin l' m (colat r k))
      = if l = l' ∧ m ≤ l then (l : ℝ) * (l + 1) else 0 := by
  by_cases hm : m ≤ l ∧ m ≤ l'
  · obtain ⟨hl, hl'⟩ := hm
    have hn := nn_ip l l' m hl hl'
    have fin : ∀ p : ℝ[X], p.natDegree ≤ l + l' → pint p = (l' : ℝ) * (l' + 1) * ip m l l' →
        (∀ th, dTheta l m th * dTheta l' m th + legendreOverSin l m th * legendreOverSin l' m th
          = legendreNorm l m * legendreNorm l' m * p.eval (Real.cos th)) →
        2 * Real.pi * ∑ k ∈ range n, r.w k * (dTheta l m (colat r k) * dTheta l' m (colat r k)
          + legendreOverSin l m (colat r k) * legendreOverSin l' m (colat r k))
          = if l = l' ∧ m ≤ l then (l : ℝ) * (l + 1) else 0 := by
      intro p hp hi he
      rw [disc_theta h (fun th => dTheta l m th * dTheta l' m th + legendreOverSin l m th * legendreOverSin l' m th)
        (C (legendreNorm l m * legendreNorm l' m) * p) ((natDegree_C_mul_le _ _).trans (hp.trans hd))
        (fun th => by simp only [eval_mul, eval_C]; exact he th), pint_C_mul, hi]
      by_cases hll : l = l'
      · subst hll
        rw [if_pos rfl] at hn
        rw [if_pos ⟨rfl, hl⟩]
        linear_combination (l : ℝ) * (l + 1) * hn
      · rw [if_neg hll] at hn
        rw [if_neg (by tauto)]
        linear_combination (l' : ℝ) * (l' + 1) * hn
    cases m with
    | zero =>
      by_cases hz : 1 ≤ l ∧ 1 ≤ l'
      · refine fin (energy0 l l') (energy0_degree l l' hz.1 hz.2) (pint_energy0 l l') ?_
        intro th
        have hs := Real.sin_sq th
        simp only [dTheta, legendreOverSin, energy0, eval_mul, eval_sub, eval_pow, eval_X, eval_one, if_pos hl, if_pos hl']
        rw [← hs]
        push_cast; ring
      · have hq : legendreDeriv l 1 = 0 ∨ legendreDeriv l' 1 = 0 := by
          by_cases h1 : 1 ≤ l
          · exact Or.inr (Q_zero l' 1 (by omega))
          · exact Or.inl (Q_zero l 1 (by omega))
        refine fin (energy0 l l') ?_ (pint_energy0 l l') ?_
        · unfold energy0; rcases hq with h | h <;> rw [h] <;> simp
        · intro th
          have hs := Real.sin_sq th
          simp only [dTheta, legendreOverSin, energy0, eval_mul, eval_sub, eval_pow, eval_X, eval_one, if_pos hl, if_pos hl']
          rw [← hs]
          push_cast; ring
    | succ u =>
      refine fin (energyS l l' u) (energyS_degree l l' u hl hl') (pint_energyS l l' u) ?_
      intro th
      have hs : Real.sin th ^ 2 = 1 - Real.cos th ^ 2 := Real.sin_sq th
      simp only [dTheta, legendreOverSin, energyS, eval_mul, eval_sub, eval_add, eval_pow, eval_X, eval_one, eval_C, if_pos hl, if_pos hl']
      rw [← hs]
      have hc : Real.cos th ^ 2 = 1 - Real.sin th ^ 2 := Real.cos_sq' th
      simp only [Nat.add_sub_cancel]
      push_cast
      ring_nf
  · have h0 : ∀ th, dTheta l m th * dTheta l' m th + legendreOverSin l m th * legendreOverSin l' m th = 0 := by
      intro th
      unfold dTheta legendreOverSin
      by_cases h1 : m ≤ l
      · have : ¬ m ≤ l' := by tauto
        simp [this]
      · simp [h1]
    simp only [h0, mul_zero, sum_const_zero]
    rw [if_neg]
    rintro ⟨rfl, h⟩
    exact hm ⟨h, h⟩

theorem disc_cross {r : Rule} {n d : ℕ} (h : SymmetricExactRule r n d) (l l' m : ℕ) (hd : l + l' ≤ d) :
    ∑ k ∈ range n, r.w k * (dTheta l m (colat r k) * legendreOverSin l' m (colat r k)
      + legendreOverSin l m (colat r k) * dTheta l' m (colat r k)) = 0 := by
  by_cases hm : m ≤ l ∧ m ≤ l'
  · obtain ⟨hl, hl'⟩ := hm
    cases m with
    | zero => apply sum_eq_zero; intro k _; simp [legendreOverSin]
    | succ u =>
      set G : ℝ[X] := (1 - X ^ 2) ^ (u + 1) * (legendreDeriv l (u + 1) * legendreDeriv l' (u + 1)) with hG
      have hz : pint (derivative G) = 0 := by rw [pint_derivative, hG]; simp
      have hdeg : (derivative G).natDegree ≤ d := by
        refine (natDegree_derivative_le _).trans ?_
        have : G.natDegree ≤ l + l' := by
          rw [hG]
          refine natDegree_mul_le.trans ?_
          have := natDegree_mul_le (p := legendreDeriv l (u + 1)) (q := legendreDeriv l' (u + 1))
          have := deg_pow_sub (u + 1)
          have := Q_natDegree_le l (u + 1)
          have := Q_natDegree_le l' (u + 1)
          omega
        omega
      rw [disc_theta h (fun th => dTheta l (u + 1) th * legendreOverSin l' (u + 1) th + legendreOverSin l (u + 1) th * dTheta l' (u + 1) th)
        (C (-(legendreNorm l (u + 1) * legendreNorm l' (u + 1) * (u + 1))) * derivative G) ((natDegree_C_mul_le _ _).trans hdeg) ?_,
        pint_C_mul, hz, mul_zero]
      intro th
      rw [hG]
      have hs : Real.sin th ^ 2 = 1 - Real.cos th ^ 2 := Real.sin_sq th
      simp only [derivative_mul, derivative_X, derivative_pow, derivative_sub, derivative_one, deriv_Q]
      simp only [dTheta, legendreOverSin, eval_mul, eval_sub, eval_add, eval_pow, eval_X, eval_one, eval_C, eval_zero, if_pos hl, if_pos hl']
      rw [← hs]
      simp only [Nat.add_sub_cancel]
      push_cast
      ring
  · apply sum_eq_zero
    intro k _
    unfold dTheta legendreOverSin
    by_cases h1 : m ≤ l
    · have : ¬ m ≤ l' := by tauto
      simp [this]
    · simp [h1]

theorem realVectorSHT_init (env : Env) (a : Args) (r : Rule) (L : ℕ)
    (hr : gridRule env.gauss env.tol env.maxiter a.nlat a.grid = .ok r)
    (hL : sizes a.nlat a.nlon a.lmax a.mmax a.grid = .ok (L, L)) (h0 : 0 < L) :
    RealVectorSHT.init env a = .ok ⟨a.nlat, a.nlon, L, L,
      fun m l k => (dlegpolyVal L L a.norm false a.csphase (colat r k)).1 m l * r.w k * normFactorV l,
      fun m l k => -1 * ((dlegpolyVal L L a.norm false a.csphase (colat r k)).2 m l * r.w k * normFactorV l)⟩ := by
  simp only [RealVectorSHT.init, hr, hL, dlegpolyTensor, except_bind_ok, if_neg h0.ne']
  rfl

theorem inverseRealVectorSHT_init (env : Env) (a : Args) (r : Rule) (L : ℕ)
    (hr : gridRule env.gauss env.tol env.maxiter a.nlat a.grid = .ok r)
    (hL : sizes a.nlat a.nlon a.lmax a.mmax a.grid = .ok (L, L)) (h0 : 0 < L) :
    InverseRealVectorSHT.init env a = .ok ⟨a.nlat, a.nlon, L, L,
      fun m k l => (dlegpolyVal L L a.norm true a.csphase (colat r k)).1 m l,
      fun m k l => (dlegpolyVal L L a.norm true a.csphase (colat r k)).2 m l⟩ := by
  simp only [InverseRealVectorSHT.init, hr, hL, dlegpolyTensor, except_bind_ok, if_neg h0.ne']
  rfl

/-- The contractions of `RealVectorSHT.forward` in complex form. -/
theorem realVectorSHT_forward (S : RealVectorSHT) (x : Ten3 ℝ) (h0 : x.d0 = 2) (h1 : x.d1 = S.nlat) (h2 : x.d2 = S.nlon)
    (hn : 0 < S.nlon) :
    ∃ (c : Ten3 ℂ) (z : ℕ → ℕ → ℕ → ℂ), S.forward x = .ok c ∧ c.d0 = 2 ∧ c.d1 = S.lmax ∧ c.d2 = S.mmax ∧
      (∀ d < 2, ∀ k, ∀ m < S.mmax, z d k m
        = 2 * Real.pi * (if m ≤ S.nlon / 2 then (1 / S.nlon : ℂ) * dft S.nlon (x.val d k) m else 0)) ∧
      ∀ l, ∀ m < S.mmax,
        c.val 0 l m = ∑ k ∈ range S.nlat, (z 0 k m * S.w0 m l k + Complex.I * z 1 k m * S.w1 m l k) ∧
        c.val 1 l m = ∑ k ∈ range S.nlat, (Complex.I * z 0 k m * S.w1 m l k - z 1 k m * S.w0 m l k) := by
  obtain ⟨y0, hy0, _, _, hv0⟩ := rfftRows ⟨x.d1, x.d2, x.val 0⟩ (by show 0 < x.d2; omega) S.mmax
  obtain ⟨y1, hy1, _, _, hv1⟩ := rfftRows ⟨x.d1, x.d2, x.val 1⟩ (by show 0 < x.d2; omega) S.mmax
  set z0 : ℕ → ℕ → ℂ := fun k m => 2 * Real.pi * y0.val k m with hz0
  set z1 : ℕ → ℕ → ℂ := fun k m => 2 * Real.pi * y1.val k m with hz1
  have hfw : ∃ c : Ten3 ℂ, S.forward x = .ok c ∧ c.d0 = 2 ∧ c.d1 = S.lmax ∧ c.d2 = S.mmax ∧ ∀ l m,
      c.val 0 l m = ⟨∑ k ∈ range S.nlat, (z0 k m).re * S.w0 m l k - ∑ k ∈ range S.nlat, (z1 k m).im * S.w1 m l k,
        ∑ k ∈ range S.nlat, (z0 k m).im * S.w0 m l k + ∑ k ∈ range S.nlat, (z1 k m).re * S.w1 m l k⟩ ∧
      c.val 1 l m = ⟨-∑ k ∈ range S.nlat, (z0 k m).im * S.w1 m l k - ∑ k ∈ range S.nlat, (z1 k m).re * S.w0 m l k,
        ∑ k ∈ range S.nlat, (z0 k m).re * S.w1 m l k - ∑ k ∈ range S.nlat, (z1 k m).im * S.w0 m l k⟩ := by
    unfold RealVectorSHT.forward
    rw [if_neg (by simp [h0]), if_neg (by simp [h1]), if_neg (by simp [h2]), hy0, except_bind_ok, hy1, except_bind_ok]
    exact ⟨_, rfl, rfl, rfl, rfl, fun l m => ⟨rfl, rfl⟩⟩
  obtain ⟨c, hc, hc0, hc1, hc2, hv⟩ := hfw
  refine ⟨c, fun d k m => if d = 0 then z0 k m else z1 k m, hc, hc0, hc1, hc2, ?_, ?_⟩
  · intro d hd k m hm
    have hv0 := hv0 k m hm
    have hv1 := hv1 k m hm
    simp only [h2] at hv0 hv1
    obtain rfl | rfl : d = 0 ∨ d = 1 := by omega
    · simp [hz0, hv0]
    · simp [hz1, hv1]
  · intro l m hm
    rw [(hv l m).1, (hv l m).2]
    simp only [if_true, if_false, one_ne_zero]
    constructor
    · apply Complex.ext
      · simp only [Complex.re_sum, Complex.add_re]
        rw [← sum_sub_distrib]
        refine sum_congr rfl fun k _ => ?_
        generalize z0 k m = a
        generalize z1 k m = b
        simp; ring
      · simp only [Complex.im_sum, Complex.add_im]
        rw [← sum_add_distrib]
        refine sum_congr rfl fun k _ => ?_
        generalize z0 k m = a
        generalize z1 k m = b
        simp
    · apply Complex.ext
      · simp only [Complex.re_sum, Complex.sub_re]
        rw [← sum_neg_distrib, ← sum_sub_distrib]
        refine sum_congr rfl fun k _ => ?_
        generalize z0 k m = a
        generalize z1 k m = b
        simp
      · simp only [Complex.im_sum, Complex.sub_im]
        rw [← sum_sub_distrib]
        refine sum_congr rfl fun k _ => ?_
        generalize z0 k m = a
        generalize z1 k m = b
        simp

/-- The contractions of `InverseRealVectorSHT.forward` in complex form. -/
noncomputable def vecSpec (I : InverseRealVectorSHT) (c : ℕ → ℕ → ℕ → ℂ) (d k m : ℕ) : ℂ :=
  if d = 0 then ∑ l ∈ range I.lmax, (c 0 l m * I.d0 m k l + Complex.I * c 1 l m * I.d1 m k l)
  else ∑ l ∈ range I.lmax, (Complex.I * c 0 l m * I.d1 m k l - c 1 l m * I.d0 m k l)

theorem inverseRealVectorSHT_forward (be : C2R) (I : InverseRealVectorSHT) (c : Ten3 ℂ) (h0 : c.d0 = 2) (h1 : c.d1 = I.lmax)
    (h2 : c.d2 = I.mmax) (hm : 0 < I.mmax) (hn : 0 < I.nlon) :
    ∃ f : Ten3 ℝ, I.forward be c = .ok f ∧ f.d0 = 2 ∧ f.d1 = I.nlat ∧ f.d2 = I.nlon ∧ ∀ d < 2, ∀ k, ∀ j < I.nlon,
      f.val d k j = synth I.nlon (fun m => if m < I.mmax then
        (if m = 0 ∨ 2 * m = I.nlon then ((vecSpec I c.val d k m).re : ℂ) else vecSpec I c.val d k m) else 0) j := by
  have e0 : ∀ k m, (⟨∑ l ∈ range I.lmax, (c.val 0 l m).re * I.d0 m k l - ∑ l ∈ range I.lmax, (c.val 1 l m).im * I.d1 m k l,
      ∑ l ∈ range I.lmax, (c.val 0 l m).im * I.d0 m k l + ∑ l ∈ range I.lmax, (c.val 1 l m).re * I.d1 m k l⟩ : ℂ)
      = vecSpec I c.val 0 k m := by
    intro k m
    unfold vecSpec
    rw [if_pos rfl]
    apply Complex.ext
    · simp only [Complex.re_sum, Complex.add_re]
      rw [← sum_sub_distrib]
      refine sum_congr rfl fun k _ => ?_
      simp; ring
    · simp only [Complex.im_sum, Complex.add_im]
      rw [← sum_add_distrib]
      refine sum_congr rfl fun k _ => ?_
      simp
  have e1 : ∀ k m, (⟨-∑ l ∈ range I.lmax, (c.val 0 l m).im * I.d1 m k l - ∑ l ∈ range I.lmax, (c.val 1 l m).re * I.d0 m k l,
      ∑ l ∈ range I.lmax, (c.val 0 l m).re * I.d1 m k l - ∑ l ∈ range I.lmax, (c.val 1 l m).im * I.d0 m k l⟩ : ℂ)
      = vecSpec I c.val 1 k m := by
    intro k m
    unfold vecSpec
    rw [if_neg (by norm_num)]
    apply Complex.ext
    · simp only [Complex.re_sum, Complex.sub_re]
      rw [← sum_neg_distrib, ← sum_sub_distrib]
      refine sum_congr rfl fun k _ => ?_
      simp
    · simp only [Complex.im_sum, Complex.sub_im]
      rw [← sum_sub_distrib]
      refine sum_congr rfl fun k _ => ?_
      simp
  obtain ⟨y0, hy0, hd0, hd1, hv0⟩ := irfftRows be ⟨I.nlat, I.mmax, fun k m => vecSpec I c.val 0 k m⟩ hm I.nlon hn
  obtain ⟨y1, hy1, hd0', hd1', hv1⟩ := irfftRows be ⟨I.nlat, I.mmax, fun k m => vecSpec I c.val 1 k m⟩ hm I.nlon hn
  refine ⟨⟨2, y0.d0, y0.d1, fun d k j => if d = 0 then y0.val k j else y1.val k j⟩, ?_, rfl, hd0, hd1, ?_⟩
  · unfold InverseRealVectorSHT.forward
    rw [if_neg (by simp [h0]), if_neg (by simp [h1]), if_neg (by simp [h2])]
    dsimp only
    simp only [e0, e1, hy0, hy1, except_bind_ok]
    rfl
  · intro d hd k j hj
    obtain rfl | rfl : d = 0 ∨ d = 1 := by omega
    · simp only [if_true]; exact hv0 k j hj
    · simp only [one_ne_zero, if_false]; exact hv1 k j hj

/-- The synthesis of a spectrum whose self-conjugate bins were made real, as a trigonometric sum at the grid longitudes. -/
theorem synth_cond (n L : ℕ) (hn : 0 < n) (X : ℕ → ℂ) (j : ℕ) :
    synth n (fun m => if m < L then (if m = 0 ∨ 2 * m = n then ((X m).re : ℂ) else X m) else 0) j
      = ∑ m ∈ range (min L (n / 2 + 1)), realMult n m * ((X m).re * Real.cos (m * (2 * Real.pi * j / n))
          - (X m).im * Real.sin (m * (2 * Real.pi * j / n))) := by
  unfold synth
  dsimp only
  have hsub : range (min L (n / 2 + 1)) ⊆ range (n / 2 + 1) := range_subset_range.2 (min_le_right _ _)
  rw [← sum_subset hsub]
  · refine sum_congr rfl fun m hm => ?_
    have hm := mem_range.1 hm
    have hn' : (n : ℝ) ≠ 0 := by exact_mod_cast hn.ne'
    have hang : 2 * Real.pi * (j : ℝ) * (m : ℝ) / n = m * (2 * Real.pi * j / n) := by ring
    rw [if_pos (show m < L by omega), hang]
    unfold realMult
    by_cases h : m = 0 ∨ 2 * m = n
    · have hs : Real.sin (m * (2 * Real.pi * j / n)) = 0 := by
        rcases h with h | h
        · simp [h]
        · have : (m : ℝ) * (2 * Real.pi * j / n) = j * Real.pi := by
            rw [← h] at hn' ⊢
            push_cast at hn' ⊢
            have : (m : ℝ) ≠ 0 := by intro h'; apply hn'; rw [h']; ring
            field_simp
          rw [this, Real.sin_nat_mul_pi]
      simp [h, hs]
    · simp [h]
  · intro m hm hm'
    have h2 : ¬ m < min L (n / 2 + 1) := fun h => hm' (mem_range.2 h)
    have h1 : m < n / 2 + 1 := mem_range.1 hm
    rw [if_neg (show ¬ m < L by omega)]
    simp

end Verif.SHT
