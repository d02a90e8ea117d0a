import Verif.Lemmas.Zernike
import Verif.Props.FilterMask
/-!
C67: the Zernike filters are an orthonormal system on the disk.
-/
namespace Verif.Props
open Verif Verif.Filter Finset

theorem integral_cos_int (a : ℤ) : ∫ φ in (0 : ℝ)..2 * Real.pi, Real.cos (a * φ) = if a = 0 then 2 * Real.pi else 0 := by
  split
  · rename_i h
    subst h
    simp
  · rename_i h
    have ha : (a : ℝ) ≠ 0 := by exact_mod_cast h
    rw [intervalIntegral.integral_comp_mul_left (fun x => Real.cos x) ha, integral_cos, mul_zero, Real.sin_zero, sub_zero]
    have : Real.sin ((a : ℝ) * (2 * Real.pi)) = 0 := by
      have := Real.sin_int_mul_pi (a * 2)
      rw [← this]; congr 1; push_cast; ring
    rw [this, smul_zero]

theorem integral_sin_int (a : ℤ) : ∫ φ in (0 : ℝ)..2 * Real.pi, Real.sin (a * φ) = 0 := by
  by_cases h : a = 0
  · subst h
    simp
  · have ha : (a : ℝ) ≠ 0 := by exact_mod_cast h
    rw [intervalIntegral.integral_comp_mul_left (fun x => Real.sin x) ha, integral_sin, mul_zero, Real.cos_zero]
    have : Real.cos ((a : ℝ) * (2 * Real.pi)) = 1 := Real.cos_int_mul_two_pi a
    rw [this, sub_self, smul_zero]

/-- The angular factor of order `m`. -/
noncomputable def angular (m : ℤ) (φ : ℝ) : ℝ := if m < 0 then Real.sin (m * φ) else Real.cos (m * φ)

theorem angular_integral (m m' : ℤ) : ∫ φ in (0 : ℝ)..2 * Real.pi, angular m φ * angular m' φ
    = if m = m' then (if m = 0 then 2 * Real.pi else Real.pi) else 0 := by
  have ic : ∀ a : ℤ, IntervalIntegrable (fun φ : ℝ => Real.cos (a * φ)) MeasureTheory.volume 0 (2 * Real.pi) := fun a => by
    apply Continuous.intervalIntegrable; fun_prop
  have is : ∀ a : ℤ, IntervalIntegrable (fun φ : ℝ => Real.sin (a * φ)) MeasureTheory.volume 0 (2 * Real.pi) := fun a => by
    apply Continuous.intervalIntegrable; fun_prop
  have cc : ∀ a b : ℤ, ∫ φ in (0 : ℝ)..2 * Real.pi, Real.cos (a * φ) * Real.cos (b * φ)
      = ((if a - b = 0 then 2 * Real.pi else 0) + (if a + b = 0 then 2 * Real.pi else 0)) / 2 := by
    intro a b
    rw [← integral_cos_int, ← integral_cos_int, ← intervalIntegral.integral_add (ic _) (ic _), ← intervalIntegral.integral_div]
    congr 1
    funext φ
    push_cast
    rw [sub_mul, add_mul, Real.cos_sub, Real.cos_add]
    ring
  have ss : ∀ a b : ℤ, ∫ φ in (0 : ℝ)..2 * Real.pi, Real.sin (a * φ) * Real.sin (b * φ)
      = ((if a - b = 0 then 2 * Real.pi else 0) - (if a + b = 0 then 2 * Real.pi else 0)) / 2 := by
    intro a b
    rw [← integral_cos_int, ← integral_cos_int, ← intervalIntegral.integral_sub (ic _) (ic _), ← intervalIntegral.integral_div]
    congr 1
    funext φ
    push_cast
    rw [sub_mul, add_mul, Real.cos_sub, Real.cos_add]
    ring
  have sc : ∀ a b : ℤ, ∫ φ in (0 : ℝ)..2 * Real.pi, Real.sin (a * φ) * Real.cos (b * φ) = 0 := by
    intro a b
    have h : (∫ φ in (0 : ℝ)..2 * Real.pi, Real.sin (a * φ) * Real.cos (b * φ))
        = ((∫ φ in (0 : ℝ)..2 * Real.pi, Real.sin (((a + b : ℤ) : ℝ) * φ)) + ∫ φ in (0 : ℝ)..2 * Real.pi, Real.sin (((a - b : ℤ) : ℝ) * φ)) / 2 := by
      rw [← intervalIntegral.integral_add (is _) (is _), ← intervalIntegral.integral_div]
      congr 1
      funext φ
      push_cast
      rw [sub_mul, add_mul, Real.sin_sub, Real.sin_add]
      ring
    rw [h, integral_sin_int, integral_sin_int]
    simp
  unfold angular
  by_cases h1 : m < 0 <;> by_cases h2 : m' < 0
  · simp only [h1, h2, if_true]
    rw [ss, if_neg (show ¬ m + m' = 0 by omega), if_neg (show ¬ m = 0 by omega)]
    by_cases h : m = m'
    · rw [if_pos (by omega), if_pos h]; ring
    · rw [if_neg (by omega), if_neg h]; ring
  · simp only [h1, h2, if_true, if_false]
    rw [sc, if_neg (by omega)]
  · simp only [h1, h2, if_true, if_false]
    rw [if_neg (by omega)]
    refine (intervalIntegral.integral_congr fun φ _ => ?_).trans (sc m' m)
    exact mul_comm _ _
  · simp only [h1, h2, if_false]
    rw [cc]
    by_cases h : m = m'
    · subst h
      by_cases h0 : m = 0
      · subst h0; simp
      · rw [if_pos (by omega), if_pos rfl, if_neg (by omega), if_neg h0]; ring
    · rw [if_neg (by omega), if_neg h, if_neg (by omega)]; ring

/-- The factor by which a Zernike polynomial of degree `n` and order `m` is divided. -/
noncomputable def zernikeNorm (n : ℕ) (m : ℤ) : ℝ := Real.sqrt (Real.pi * (if m = 0 then 2 else 1) / (2 * ((n : ℝ) + 1)))

theorem zernikeNorm_sq (n : ℕ) (m : ℤ) : zernikeNorm n m * zernikeNorm n m = Real.pi * (if m = 0 then 2 else 1) / (2 * ((n : ℝ) + 1)) := by
  unfold zernikeNorm
  apply Real.mul_self_sqrt
  have := Real.pi_pos
  split <;> positivity

theorem zernikeNorm_ge (n : ℕ) (m : ℤ) (hn : n < 10 ^ 24) : (1e-12 : ℝ) ≤ zernikeNorm n m := by
  unfold zernikeNorm
  apply Real.le_sqrt_of_sq_le
  have hpi := Real.two_le_pi
  have hn' : (n : ℝ) + 1 ≤ 10 ^ 24 := by exact_mod_cast hn
  rw [le_div_iff₀ (by positivity)]
  have h1 : (2 : ℝ) ≤ Real.pi * (if m = 0 then 2 else 1) := by split <;> linarith
  have h2 : (1e-12 : ℝ) ^ 2 * (2 * ((n : ℝ) + 1)) ≤ (1e-12 : ℝ) ^ 2 * (2 * 10 ^ 24) := by gcongr
  exact h2.trans (le_trans (by norm_num) h1)

/-- C67: the radial polynomials take the value one at the rim of the disk. -/
theorem C67_radial_rim (n m : ℕ) (hmn : m ≤ n) (hpar : (n - m) % 2 = 0) : zernikeRadial 1 n m = 1 := by
  obtain ⟨p, rfl⟩ : ∃ p, n = 2 * p + m := ⟨(n - m) / 2, by omega⟩
  rw [zernikeRadial_eq, ← sum_range_reflect]
  have hdeg := congrFun (Polynomial.fwdDiff_iter_degree_eq_factorial (rise p)) (m : ℝ)
  rw [rise_natDegree, fwdDiff_iter_eq_sum_shift] at hdeg
  have hlead : (rise p).leadingCoeff = 1 := by
    unfold rise
    rw [Polynomial.leadingCoeff_comp (by rw [Polynomial.natDegree_X_add_C]; norm_num), (monic_ascPochhammer ℝ p).leadingCoeff,
      Polynomial.leadingCoeff_X_add_C, one_pow, one_mul]
  rw [hlead] at hdeg
  have hp : (p.factorial : ℝ) ≠ 0 := by positivity
  have : ∑ j ∈ range (p + 1), zcoef p m (p + 1 - 1 - j) * 1 ^ (2 * p + m - 2 * (p + 1 - 1 - j))
      = (∑ i ∈ range (p + 1), ((-1 : ℤ) ^ (p - i) * (p.choose i : ℤ)) • (rise p).eval ((m : ℝ) + i • (1 : ℝ))) / p.factorial := by
    rw [sum_div]
    refine sum_congr rfl fun i hi => ?_
    have hi := mem_range.1 hi
    rw [one_pow, mul_one, show p + 1 - 1 - i = p - i by omega, zcoef_flip p m i (by omega)]
    simp
  rw [this, hdeg]
  simp [hp]

theorem zernikePoly_angular (u phi : ℝ) (n l : ℕ) :
    zernikePoly u phi n l = zernikeRadial u n (2 * (l : ℤ) - n).natAbs * angular (2 * (l : ℤ) - n) phi := by
  unfold zernikePoly angular
  dsimp only
  split
  · rw [show (-(2 * (l : ℤ) - n)).toNat = (2 * (l : ℤ) - n).natAbs by omega]
  · rw [show (2 * (l : ℤ) - n).toNat = (2 * (l : ℤ) - n).natAbs by omega]

/-- C67: the Zernike filters are orthonormal on the disk of radius `rc`, in units of `rc`. The bound on the number of degrees only
keeps the norms above the floor `1e-12` of the code. -/
theorem C67_orthonormal (N : ℕ) (hN : N ≤ 10 ^ 24) (rc : ℝ) (hrc : 0 < rc) (k k' : ℕ) (hk : k < zernikeKernelSize N)
    (hk' : k' < zernikeKernelSize N) :
    ∫ r in (0 : ℝ)..rc, ∫ φ in (0 : ℝ)..2 * Real.pi, (zernikeVal N rc r φ k).getD 0 * (zernikeVal N rc r φ k').getD 0 * r
      = if k = k' then rc ^ 2 else 0 := by
  obtain ⟨hn, hl, he⟩ := C60_zernike_encode N k hk
  obtain ⟨hn', hl', he'⟩ := C60_zernike_encode N k' hk'
  have hkk : k = k' ↔ zernikeDecode N k = zernikeDecode N k' := ⟨fun h => by rw [h], fun h => by rw [← he, ← he', h]⟩
  generalize hd : zernikeDecode N k = d at *
  generalize hd' : zernikeDecode N k' = d' at *
  obtain ⟨n, l⟩ := d
  obtain ⟨n', l'⟩ := d'
  dsimp only at hn hl hn' hl'
  have hval : ∀ r φ : ℝ, r ≤ rc → (zernikeVal N rc r φ k).getD 0
      = zernikeRadial (r / rc) n (2 * (l : ℤ) - n).natAbs * angular (2 * (l : ℤ) - n) φ / zernikeNorm n (2 * (l : ℤ) - n) := by
    intro r φ hr
    unfold zernikeVal
    rw [if_pos hr, hd]
    dsimp only [Option.getD_some]
    rw [zernikePoly_angular, max_eq_left]
    · rfl
    · exact zernikeNorm_ge n _ (by omega)
  have hval' : ∀ r φ : ℝ, r ≤ rc → (zernikeVal N rc r φ k').getD 0
      = zernikeRadial (r / rc) n' (2 * (l' : ℤ) - n').natAbs * angular (2 * (l' : ℤ) - n') φ / zernikeNorm n' (2 * (l' : ℤ) - n') := by
    intro r φ hr
    unfold zernikeVal
    rw [if_pos hr, hd']
    dsimp only [Option.getD_some]
    rw [zernikePoly_angular, max_eq_left]
    · rfl
    · exact zernikeNorm_ge n' _ (by omega)
  set m : ℤ := 2 * (l : ℤ) - n with hm
  set m' : ℤ := 2 * (l' : ℤ) - n' with hm'
  -- the angular integral
  have hinner : ∀ r ∈ Set.uIcc (0 : ℝ) rc, (∫ φ in (0 : ℝ)..2 * Real.pi, (zernikeVal N rc r φ k).getD 0 * (zernikeVal N rc r φ k').getD 0 * r)
      = (if m = m' then (if m = 0 then 2 * Real.pi else Real.pi) else 0) / (zernikeNorm n m * zernikeNorm n' m') * rc *
        (zernikeRadial (r / rc) n m.natAbs * zernikeRadial (r / rc) n' m'.natAbs * (r / rc)) := by
    intro r hr
    rw [Set.uIcc_of_le hrc.le, Set.mem_Icc] at hr
    rw [← angular_integral, ← intervalIntegral.integral_div, ← intervalIntegral.integral_mul_const, ← intervalIntegral.integral_mul_const]
    congr 1
    funext φ
    rw [hval r φ hr.2, hval' r φ hr.2]
    have : rc ≠ 0 := hrc.ne'
    field_simp
  rw [intervalIntegral.integral_congr hinner, intervalIntegral.integral_const_mul,
    intervalIntegral.integral_comp_div (fun u => zernikeRadial u n m.natAbs * zernikeRadial u n' m'.natAbs * u) hrc.ne', zero_div,
    div_self hrc.ne']
  by_cases hmm : m = m'
  · rw [if_pos hmm, ← hmm]
    obtain ⟨p, hp⟩ : ∃ p, n = 2 * p + m.natAbs := ⟨(n - m.natAbs) / 2, by omega⟩
    obtain ⟨p', hp'⟩ : ∃ p', n' = 2 * p' + m.natAbs := ⟨(n' - m.natAbs) / 2, by omega⟩
    rw [show (∫ u in (0 : ℝ)..1, zernikeRadial u n m.natAbs * zernikeRadial u n' m.natAbs * u)
        = if p = p' then 1 / (2 * ((2 * p + m.natAbs : ℕ) + 1 : ℝ)) else 0 by
      rw [← radial_integral p p' m.natAbs, ← hp, ← hp']]
    by_cases hpp : p = p'
    · have hnn : n = n' := by omega
      have hll : l = l' := by omega
      rw [if_pos hpp, if_pos (hkk.2 (by rw [hnn, hll])), ← hnn, zernikeNorm_sq, ← hp, smul_eq_mul]
      have h1 : (2 * ((n : ℝ) + 1)) ≠ 0 := by positivity
      have h2 := Real.pi_ne_zero
      split <;> field_simp
    · have hne : ¬ k = k' := fun h => by
        obtain ⟨h1, h2⟩ := Prod.mk.inj (hkk.1 h)
        omega
      rw [if_neg hpp, if_neg hne]
      simp
  · have hne : ¬ k = k' := fun h => by
      obtain ⟨h1, h2⟩ := Prod.mk.inj (hkk.1 h)
      omega
    rw [if_neg hmm, if_neg hne]
    simp

/-- With three degrees there are six filters; C67 applies to each pair of them. -/
example : zernikeKernelSize 3 = 6 ∧ zernikeDecode 3 4 = (2, 1) := by decide

end Verif.Props
