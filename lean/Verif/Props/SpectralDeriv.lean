import Mathlib.Analysis.SpecialFunctions.Trigonometric.Deriv
import Verif.Props.SegLosses
import Verif.Lemmas.SpectralDeriv
/-!
Property theorems C63, second part: what the derivatives in the W11 and surface-normal losses are.
-/
namespace Verif.Props
open Verif Verif.Dist Verif.Loss Verif.FFT Finset

/-- A trigonometric polynomial with the frequencies `0, s, 2 s, .. (M - 1) s`. -/
noncomputable def trigPoly (M : ℕ) (s : ℝ) (a b : ℕ → ℝ) (x : ℝ) : ℝ := ∑ m ∈ range M, (a m * Real.cos (m * s * x) + b m * Real.sin (m * s * x))

theorem trigPoly_deriv (M : ℕ) (s : ℝ) (a b : ℕ → ℝ) (x : ℝ) :
    deriv (trigPoly M s a b) x = ∑ m ∈ range M, m * s * (b m * Real.cos (m * s * x) - a m * Real.sin (m * s * x)) := by
  have h : HasDerivAt (trigPoly M s a b) (∑ m ∈ range M, m * s * (b m * Real.cos (m * s * x) - a m * Real.sin (m * s * x))) x := by
    have e : trigPoly M s a b = fun x => ∑ m ∈ range M, (a m * Real.cos (m * s * x) + b m * Real.sin (m * s * x)) := rfl
    rw [e]
    refine HasDerivAt.fun_sum fun m _ => ?_
    have hl : HasDerivAt (fun x : ℝ => (m : ℝ) * s * x) ((m : ℝ) * s) x := by simpa using (hasDerivAt_id x).const_mul ((m : ℝ) * s)
    refine ((hl.cos.const_mul (a m)).fun_add (hl.sin.const_mul (b m))).congr_deriv ?_
    ring
  exact h.deriv

theorem mode_split (n : ℕ) (a b : ℝ) (m j : ℕ) :
    ((a * Real.cos (2 * Real.pi * (j * m) / n) + b * Real.sin (2 * Real.pi * (j * m) / n) : ℝ) : ℂ)
      = (a - b * Complex.I) / 2 * root n (j * (m : ℤ)) + (a + b * Complex.I) / 2 * root n (j * (-(m : ℤ))) := by
  have h1 : root n (j * (m : ℤ)) = Complex.cos (2 * Real.pi * (j * m) / n) + Complex.sin (2 * Real.pi * (j * m) / n) * Complex.I := by
    rw [← Complex.exp_mul_I]; unfold root; congr 1; push_cast; ring
  have h2 : root n (j * (-(m : ℤ))) = Complex.cos (2 * Real.pi * (j * m) / n) - Complex.sin (2 * Real.pi * (j * m) / n) * Complex.I := by
    have : root n (j * (-(m : ℤ))) = Complex.exp (-(2 * Real.pi * (j * m) / n) * Complex.I) := by
      unfold root; congr 1; push_cast; ring
    rw [this, Complex.exp_mul_I, Complex.cos_neg, Complex.sin_neg]; ring
  rw [h1, h2]
  push_cast
  linear_combination ((b : ℂ) * Complex.sin (2 * Real.pi * (j * m) / n)) * Complex.I_sq

theorem specDeriv_eq (H W : ℕ) (mesh : ℕ → ℕ → ℝ) (x : ℕ → ℕ → ℝ) (i j : ℕ) :
    specDeriv H W mesh x i j = (cDeriv H W mesh (fun i j => (x i j : ℂ)) i j).re := rfl

theorem kPhi_eq (nlat nlon k l : ℕ) (h : nlon ≠ 0) : kPhi nlat nlon k l = fftfreq nlon (1 / nlon) l := by
  have hp := Real.pi_ne_zero
  have : (nlon : ℝ) ≠ 0 := by exact_mod_cast h
  unfold kPhi
  congr 1
  field_simp

theorem kTheta_eq (nlat nlon k l : ℕ) (h : nlat ≠ 0) : kTheta nlat nlon k l = fftfreq nlat (1 / (2 * nlat)) k := by
  have hp := Real.pi_ne_zero
  have : (nlat : ℝ) ≠ 0 := by exact_mod_cast h
  unfold kTheta
  congr 1
  field_simp

/-- C63. Along a latitude the derivative is exact: a field that is a trigonometric polynomial in the longitude, of degree below `nlon / 2` and with coefficients that
may depend on the latitude in any way, gets its derivative with respect to the longitude at each grid point `2 pi j / nlon`. -/
theorem C63_longitude_derivative (nlat nlon M : ℕ) (hM : 2 * M ≤ nlon + 1) (a b : ℕ → ℕ → ℝ) (i j : ℕ) (hi : i < nlat) (hj : j < nlon) :
    specDeriv nlat nlon (kPhi nlat nlon) (fun i j => trigPoly M 1 (a i) (b i) (2 * Real.pi * j / nlon)) i j
      = deriv (trigPoly M 1 (a i) (b i)) (2 * Real.pi * j / nlon) := by
  have hn : nlon ≠ 0 := by omega
  have hk : kPhi nlat nlon = fun _ l => fftfreq nlon (1 / nlon) l := by funext k l; exact kPhi_eq _ _ _ _ hn
  have hW : (nlon : ℝ) ≠ 0 := by exact_mod_cast hn
  have key : (fun (i j : ℕ) => ((trigPoly M 1 (a i) (b i) (2 * Real.pi * j / nlon) : ℝ) : ℂ)) = fun (i j : ℕ) => ∑ m ∈ range M,
      (((a i m : ℂ) - b i m * Complex.I) / 2 * root nlon (j * (m : ℤ)) + ((a i m : ℂ) + b i m * Complex.I) / 2 * root nlon (j * (-(m : ℤ)))) := by
    funext i j
    unfold trigPoly
    push_cast
    refine sum_congr rfl fun m _ => ?_
    rw [← mode_split]
    push_cast
    congr 3 <;> ring_nf
  rw [specDeriv_eq, key, cDeriv_sum, trigPoly_deriv, Complex.re_sum, hk]
  refine sum_congr rfl fun m hm => ?_
  rw [mem_range] at hm
  rw [cDeriv_add, cDeriv_lon (fun l => fftfreq nlon (1 / nlon) l) _ m i j hi hn, cDeriv_lon (fun l => fftfreq nlon (1 / nlon) l) _ (-(m : ℤ)) i j hi hn,
    fftfreq_bin (m : ℤ) (by rw [abs_of_nonneg (by omega)]; omega), fftfreq_bin (-(m : ℤ)) (by rw [abs_neg, abs_of_nonneg (by omega)]; omega)]
  have h := mode_split nlon (m * b i m) (-(m * a i m)) m j
  have e1 : ((((m : ℤ) : ℝ) / (nlon * (1 / nlon)) : ℝ) : ℂ) = m := by
    rw [mul_one_div_cancel hW]; push_cast; simp
  have e2 : ((((-(m : ℤ) : ℤ) : ℝ) / (nlon * (1 / nlon)) : ℝ) : ℂ) = -m := by
    rw [mul_one_div_cancel hW]; push_cast; simp
  rw [e1, e2]
  have h3 : Complex.I * (m : ℂ) * (((a i m : ℂ) - b i m * Complex.I) / 2 * root nlon (j * (m : ℤ)))
      + Complex.I * (-(m : ℂ)) * (((a i m : ℂ) + b i m * Complex.I) / 2 * root nlon (j * (-(m : ℤ))))
      = ((m * b i m * Real.cos (2 * Real.pi * (j * m) / nlon) + -(m * a i m) * Real.sin (2 * Real.pi * (j * m) / nlon) : ℝ) : ℂ) := by
    rw [h]
    push_cast
    linear_combination (-(m : ℂ) * b i m / 2 * root nlon (j * (m : ℤ)) - (m : ℂ) * b i m / 2 * root nlon (j * (-(m : ℤ)))) * Complex.I_sq
  rw [h3, Complex.ofReal_re]
  have e3 : (m : ℝ) * 1 * (2 * Real.pi * j / nlon) = 2 * Real.pi * (j * m) / nlon := by ring
  rw [e3]; ring

/-- C63. Along a meridian the derivative is that of a function of period `pi` at the points `pi i / nlat`: exact for trigonometric polynomials in `2 theta` of degree
below `nlat / 2`, with coefficients that may depend on the longitude in any way. -/
theorem C63_colatitude_derivative (nlat nlon M : ℕ) (hM : 2 * M ≤ nlat + 1) (a b : ℕ → ℕ → ℝ) (i j : ℕ) (hi : i < nlat) (hj : j < nlon) :
    specDeriv nlat nlon (kTheta nlat nlon) (fun i j => trigPoly M 2 (a j) (b j) (Real.pi * i / nlat)) i j
      = deriv (trigPoly M 2 (a j) (b j)) (Real.pi * i / nlat) := by
  have hn : nlat ≠ 0 := by omega
  have hk : kTheta nlat nlon = fun k _ => fftfreq nlat (1 / (2 * nlat)) k := by funext k l; exact kTheta_eq _ _ _ _ hn
  have hW : (nlat : ℝ) ≠ 0 := by exact_mod_cast hn
  have key : (fun (i j : ℕ) => ((trigPoly M 2 (a j) (b j) (Real.pi * i / nlat) : ℝ) : ℂ)) = fun (i j : ℕ) => ∑ m ∈ range M,
      (((a j m : ℂ) - b j m * Complex.I) / 2 * root nlat (i * (m : ℤ)) + ((a j m : ℂ) + b j m * Complex.I) / 2 * root nlat (i * (-(m : ℤ)))) := by
    funext i j
    unfold trigPoly
    push_cast
    refine sum_congr rfl fun m _ => ?_
    rw [← mode_split]
    push_cast
    congr 3 <;> ring_nf
  rw [specDeriv_eq, key, cDeriv_sum, trigPoly_deriv, Complex.re_sum, hk]
  refine sum_congr rfl fun m hm => ?_
  rw [mem_range] at hm
  rw [cDeriv_add, cDeriv_lat (fun k => fftfreq nlat (1 / (2 * nlat)) k) (fun j => ((a j m : ℂ) - b j m * Complex.I) / 2) m i j hj hn,
    cDeriv_lat (fun k => fftfreq nlat (1 / (2 * nlat)) k) (fun j => ((a j m : ℂ) + b j m * Complex.I) / 2) (-(m : ℤ)) i j hj hn,
    fftfreq_bin (m : ℤ) (by rw [abs_of_nonneg (by omega)]; omega), fftfreq_bin (-(m : ℤ)) (by rw [abs_neg, abs_of_nonneg (by omega)]; omega)]
  have h := mode_split nlat (2 * m * b j m) (-(2 * m * a j m)) m i
  have e0 : (nlat : ℝ) * (1 / (2 * nlat)) = 1 / 2 := by field_simp
  have e1 : ((((m : ℤ) : ℝ) / (nlat * (1 / (2 * nlat))) : ℝ) : ℂ) = 2 * m := by
    rw [e0]; push_cast; ring
  have e2 : ((((-(m : ℤ) : ℤ) : ℝ) / (nlat * (1 / (2 * nlat))) : ℝ) : ℂ) = -(2 * m) := by
    rw [e0]; push_cast; ring
  rw [e1, e2]
  have h3 : Complex.I * (2 * (m : ℂ)) * (((a j m : ℂ) - b j m * Complex.I) / 2 * root nlat (i * (m : ℤ)))
      + Complex.I * (-(2 * (m : ℂ))) * (((a j m : ℂ) + b j m * Complex.I) / 2 * root nlat (i * (-(m : ℤ))))
      = ((2 * m * b j m * Real.cos (2 * Real.pi * (i * m) / nlat) + -(2 * m * a j m) * Real.sin (2 * Real.pi * (i * m) / nlat) : ℝ) : ℂ) := by
    rw [h]
    push_cast
    linear_combination (-(m : ℂ) * b j m * root nlat (i * (m : ℤ)) - (m : ℂ) * b j m * root nlat (i * (-(m : ℤ)))) * Complex.I_sq
  rw [h3, Complex.ofReal_re]
  have e3 : (m : ℝ) * 2 * (Real.pi * i / nlat) = 2 * Real.pi * (i * m) / nlat := by ring
  rw [e3]; ring

/-- C63, finding. On the equiangular grid, whose latitudes are `pi i / (nlat - 1)`, the derivative along the meridian is too large by the factor
`nlat / (nlat - 1)` for the functions on which the transform is exact. -/
theorem C63_equiangular_scale (nlat nlon M : ℕ) (h2 : 2 ≤ nlat) (hM : 2 * M ≤ nlat + 1) (a b : ℕ → ℕ → ℝ) (i j : ℕ) (hi : i < nlat) (hj : j < nlon) :
    specDeriv nlat nlon (kTheta nlat nlon) (fun i j => trigPoly M (2 * (nlat - 1) / nlat) (a j) (b j) (Real.pi * i / (nlat - 1))) i j
      = nlat / (nlat - 1) * deriv (trigPoly M (2 * (nlat - 1) / nlat) (a j) (b j)) (Real.pi * i / (nlat - 1)) := by
  have hn : (nlat : ℝ) ≠ 0 := by exact_mod_cast (show nlat ≠ 0 by omega)
  have hn1 : (nlat : ℝ) - 1 ≠ 0 := by
    have : (2 : ℝ) ≤ nlat := by exact_mod_cast h2
    linarith
  have harg : ∀ (m i : ℕ), (m : ℝ) * (2 * (nlat - 1) / nlat) * (Real.pi * i / (nlat - 1)) = m * 2 * (Real.pi * i / nlat) := fun m i => by field_simp
  have e : (fun (i j : ℕ) => trigPoly M (2 * (nlat - 1) / nlat) (a j) (b j) (Real.pi * i / (nlat - 1)))
      = fun (i j : ℕ) => trigPoly M 2 (a j) (b j) (Real.pi * i / nlat) := by
    funext i j
    unfold trigPoly
    exact sum_congr rfl fun m _ => by rw [harg]
  rw [e, C63_colatitude_derivative nlat nlon M hM a b i j hi hj, trigPoly_deriv, trigPoly_deriv, mul_sum]
  refine sum_congr rfl fun m _ => ?_
  rw [harg]
  field_simp

/-- C63, finding. The derivatives along each meridian sum to 0, whatever the field: the field is continued from the south pole to the north pole. So the derivative of
a field that only decreases from north to south, such as the cosine of the colatitude, comes out with both signs (or 0). -/
theorem C63_meridian_sum (nlat nlon : ℕ) (x : ℕ → ℕ → ℝ) (j : ℕ) : ∑ i ∈ range nlat, specDeriv nlat nlon (kTheta nlat nlon) x i j = 0 := by
  simp only [specDeriv]
  rw [← Complex.re_sum]
  have : ∑ i ∈ range nlat, ifft2 nlat nlon (fun k l => Complex.I * (kTheta nlat nlon k l : ℂ) * fft2 nlat nlon (fun i j => (x i j : ℂ)) k l) i j = 0 := by
    unfold ifft2
    rw [← mul_sum, sum_comm]
    refine mul_eq_zero_of_right _ (sum_eq_zero fun k hk => ?_)
    rw [sum_comm]
    refine sum_eq_zero fun l _ => ?_
    rw [mem_range] at hk
    rw [← sum_mul, ← mul_sum]
    rcases Nat.eq_zero_or_pos k with rfl | h0
    · simp [kTheta, fftfreq_zero]
    · have h := root_sum (n := nlat) (by omega) k
      rw [if_neg (by exact_mod_cast Nat.not_dvd_of_pos_of_lt h0 hk)] at h
      rw [h]; simp
  rw [this]; simp

/-- C63. At the Nyquist frequency of an even number of longitudes the derivative is 0: the grid points are the extrema of the mode `cos(nlon/2 phi)`. -/
theorem C63_nyquist (nlat p : ℕ) (hp : 0 < p) (g : ℕ → ℝ) (i j : ℕ) (hi : i < nlat) :
    specDeriv nlat (2 * p) (kPhi nlat (2 * p)) (fun i j => g i * Real.cos (p * (2 * Real.pi * j / (2 * p : ℕ)))) i j = 0 := by
  have hn : 2 * p ≠ 0 := by omega
  have hpr : (p : ℝ) ≠ 0 := by exact_mod_cast hp.ne'
  have hc : (p : ℂ) ≠ 0 := by exact_mod_cast hp.ne'
  have hcos : ∀ j : ℕ, Real.cos (p * (2 * Real.pi * j / (2 * p : ℕ))) = (-1) ^ j := by
    intro j
    rw [← Real.cos_nat_mul_pi]
    congr 1
    push_cast
    field_simp
  have hr : ∀ j : ℕ, root (2 * p) (j * (p : ℤ)) = (-1) ^ j := by
    intro j
    rw [root_pow]
    congr 1
    unfold root
    rw [← Complex.exp_pi_mul_I]
    congr 1
    push_cast
    field_simp
  have e : (fun (i j : ℕ) => ((g i * Real.cos (p * (2 * Real.pi * j / (2 * p : ℕ))) : ℝ) : ℂ)) = fun (i j : ℕ) => (g i : ℂ) * root (2 * p) (j * (p : ℤ)) := by
    funext i j
    rw [hr, hcos]; push_cast; ring
  have hk : kPhi nlat (2 * p) = fun _ l => fftfreq (2 * p) (1 / (2 * p : ℕ)) l := by funext k l; exact kPhi_eq _ _ _ _ hn
  rw [specDeriv_eq, e, hk, cDeriv_lon (fun l => fftfreq (2 * p) (1 / (2 * p : ℕ)) l) _ _ i j hi hn, hr]
  have : ∀ f : ℝ, Complex.I * (f : ℂ) * ((g i : ℂ) * (-1) ^ j) = Complex.I * ((f * (g i * (-1) ^ j) : ℝ) : ℂ) := fun f => by push_cast; ring
  rw [this, Complex.re_mul_ofReal]
  simp

/-- The theorems apply to `2 + 3 sin(lat) cos(phi) + sin(3 phi)` on 8 longitudes: degree 3 is below 4. -/
example (lat : ℕ → ℝ) (i j : ℕ) (hi : i < 5) (hj : j < 8) :
    specDeriv 5 8 (kPhi 5 8) (fun i j => trigPoly 4 1 (fun m => if m = 0 then 2 else if m = 1 then 3 * Real.sin (lat i) else 0) (fun m => if m = 3 then 1 else 0)
      (2 * Real.pi * j / (8 : ℕ))) i j = -(3 * Real.sin (lat i)) * Real.sin (2 * Real.pi * j / (8 : ℕ)) + 3 * Real.cos (3 * (2 * Real.pi * j / (8 : ℕ))) := by
  rw [C63_longitude_derivative 5 8 4 (by norm_num) (fun i m => if m = 0 then 2 else if m = 1 then 3 * Real.sin (lat i) else 0) (fun _ m => if m = 3 then 1 else 0) i j hi hj,
    trigPoly_deriv]
  simp [sum_range_succ]

end Verif.Props
