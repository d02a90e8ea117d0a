import Mathlib.RingTheory.RootsOfUnity.Complex
import Verif.Model.FFT
/-!
Discrete orthogonality of the exponentials.
-/
namespace Verif.FFT
open Finset Complex

theorem root_add (n : ℕ) (a b : ℤ) : root n (a + b) = root n a * root n b := by
  unfold root; rw [← Complex.exp_add]; congr 1; push_cast; ring

theorem root_zero (n : ℕ) : root n 0 = 1 := by simp [root]

theorem root_self {n : ℕ} (hn : n ≠ 0) (z : ℤ) : root n (n * z) = 1 := by
  unfold root
  rw [Complex.exp_eq_one_iff]
  refine ⟨z, ?_⟩
  have : (n : ℂ) ≠ 0 := by exact_mod_cast hn
  push_cast; field_simp

theorem root_ne {n : ℕ} (hn : n ≠ 0) (z : ℤ) (h : ¬ (n : ℤ) ∣ z) : root n z ≠ 1 := by
  unfold root
  rw [Ne, Complex.exp_eq_one_iff]
  rintro ⟨k, hk⟩
  apply h
  refine ⟨k, ?_⟩
  have hn' : (n : ℂ) ≠ 0 := by exact_mod_cast hn
  have h2 : (2 * Real.pi * Complex.I : ℂ) ≠ 0 := Complex.two_pi_I_ne_zero
  have : (z : ℂ) = n * k := by
    field_simp at hk
    have := mul_left_cancel₀ h2 (a := 2 * (Real.pi : ℂ) * I) (b := (z : ℂ)) (c := n * k) (by linear_combination 2 * Real.pi * I * hk)
    exact this
  exact_mod_cast this

theorem root_pow (n : ℕ) (z : ℤ) (j : ℕ) : root n (j * z) = root n z ^ j := by
  unfold root; rw [← Complex.exp_nat_mul]; congr 1; push_cast; ring

theorem conj_root (n : ℕ) (z : ℤ) : (starRingEnd ℂ) (root n z) = root n (-z) := by
  unfold root
  rw [← Complex.exp_conj]
  congr 1
  simp [Complex.conj_ofNat]

theorem root_sum {n : ℕ} (hn : n ≠ 0) (z : ℤ) :
    ∑ j ∈ range n, root n (j * z) = if (n : ℤ) ∣ z then (n : ℂ) else 0 := by
  simp_rw [root_pow]
  split
  · next h =>
    obtain ⟨k, rfl⟩ := h
    simp [root_self hn]
  · next h =>
    have h1 := root_ne hn z h
    have h2 : root n z ^ n = 1 := by rw [← root_pow, root_self hn]
    have := mul_geom_sum (root n z) n
    rw [h2, sub_self] at this
    exact (mul_eq_zero.1 this).resolve_left (sub_ne_zero.2 h1)

theorem root_half {n : ℕ} (hn : n ≠ 0) (h : n % 2 = 0) (j : ℕ) : (root n (j * (n / 2 : ℕ))).im = 0 := by
  have h1 : root n (j * (n / 2 : ℕ)) = Complex.exp (Real.pi * I) ^ j := by
    unfold root; rw [← Complex.exp_nat_mul]; congr 1
    have hn' : (n : ℂ) ≠ 0 := by exact_mod_cast hn
    obtain ⟨k, hk⟩ : ∃ k, n = 2 * k := ⟨n / 2, by omega⟩
    have : n / 2 = k := by omega
    rw [this]; subst hk
    push_cast at hn' ⊢
    have : (k : ℂ) ≠ 0 := by intro h; apply hn'; rw [h]; ring
    field_simp
  rw [h1, Complex.exp_pi_mul_I]
  rcases neg_one_pow_eq_or ℂ j with h | h <;> rw [h] <;> simp

theorem re_eq (z : ℂ) : ((z.re : ℝ) : ℂ) = (z + (starRingEnd ℂ) z) / 2 := by
  rw [Complex.re_eq_add_conj]

/-- Summing a mirror-symmetric sequence over a full period. -/
theorem sum_fold (n : ℕ) (hn : n ≠ 0) (g : ℕ → ℝ) (hg : ∀ k, 0 < k → k < n → g (n - k) = g k) :
    ∑ k ∈ range n, g k = ∑ k ∈ range (n / 2 + 1), mult n k * g k := by
  obtain ⟨h, hh | hh⟩ : ∃ h, n = 2 * h ∨ n = 2 * h + 1 := ⟨n / 2, by omega⟩
  · obtain ⟨a, rfl⟩ : ∃ a, h = a + 1 := ⟨h - 1, by omega⟩
    have e1 : n / 2 = a + 1 := by omega
    have e2 : n = (a + 1 + a) + 1 := by omega
    rw [e1]
    conv_lhs => rw [e2]
    rw [sum_range_succ', sum_range_add, sum_range_succ, sum_range_succ', sum_range_succ]
    have r1 : ∑ k ∈ range a, g (a + 1 + k + 1) = ∑ k ∈ range a, g (k + 1) := by
      rw [← sum_range_reflect]
      refine sum_congr rfl fun k hk => ?_
      have := mem_range.1 hk
      rw [← hg (k + 1) (by omega) (by omega)]
      congr 1; omega
    rw [r1]
    have r2 : ∀ k ∈ range a, mult n (k + 1) * g (k + 1) = 2 * g (k + 1) := by
      intro k hk
      have := mem_range.1 hk
      rw [mult, if_neg (by omega)]
    rw [sum_congr rfl r2, ← mul_sum, mult, if_pos (by omega), mult, if_pos (by omega)]
    ring
  · have e1 : n / 2 = h := by omega
    rw [e1]
    conv_lhs => rw [hh, two_mul]
    rw [sum_range_succ', sum_range_add, sum_range_succ']
    have r1 : ∑ k ∈ range h, g (h + k + 1) = ∑ k ∈ range h, g (k + 1) := by
      rw [← sum_range_reflect]
      refine sum_congr rfl fun k hk => ?_
      have := mem_range.1 hk
      rw [← hg (k + 1) (by omega) (by omega)]
      congr 1; omega
    rw [r1]
    have r2 : ∀ k ∈ range h, mult n (k + 1) * g (k + 1) = 2 * g (k + 1) := by
      intro k hk
      have := mem_range.1 hk
      rw [mult, if_neg (by omega)]
    rw [sum_congr rfl r2, ← mul_sum, mult, if_pos (by omega)]
    ring

/-- Analysis of a synthesised signal gives back the spectrum. -/
theorem dft_c2r {n : ℕ} (hn : n ≠ 0) (X : ℕ → ℂ) (h0 : (X 0).im = 0) (h1 : n % 2 = 0 → (X (n / 2)).im = 0)
    (q : ℕ) (hq : q ≤ n / 2) :
    ∑ j ∈ range n, (c2rValue n X j : ℂ) * root n (-(j * q)) = n * X q := by
  have step : ∀ k ∈ range (n / 2 + 1),
      ∑ j ∈ range n, ((mult n k * (X k * root n (j * k)).re : ℝ) : ℂ) * root n (-(j * q))
        = if k = q then (n : ℂ) * X q else 0 := by
    intro k hk
    have hk := mem_range.1 hk
    have e : ∀ j ∈ range n, ((mult n k * (X k * root n (j * k)).re : ℝ) : ℂ) * root n (-(j * q))
        = (mult n k / 2 : ℂ) * (X k * root n (j * ((k : ℤ) - q))
            + (starRingEnd ℂ) (X k) * root n (j * (-((k : ℤ) + q)))) := by
      intro j _
      rw [Complex.ofReal_mul, re_eq, map_mul, conj_root]
      rw [show (j * ((k : ℤ) - q) : ℤ) = j * k + -(j * q) by ring,
        show (j * (-((k : ℤ) + q)) : ℤ) = -(j * k) + -(j * q) by ring, root_add, root_add]
      ring
    rw [sum_congr rfl e, ← mul_sum, sum_add_distrib, ← mul_sum, ← mul_sum, root_sum hn, root_sum hn]
    by_cases hkq : k = q
    · subst hkq
      rw [if_pos rfl, sub_self, if_pos (dvd_zero _)]
      by_cases hs : k = 0 ∨ 2 * k = n
      · have hd : (n : ℤ) ∣ -((k : ℤ) + k) := by
          rcases hs with rfl | h
          · simp
          · rw [← h]; exact ⟨-1, by push_cast; ring⟩
        have him : (X k).im = 0 := by
          rcases hs with rfl | h
          · exact h0
          · have : k = n / 2 := by omega
            rw [this]; exact h1 (by omega)
        have hconj : (starRingEnd ℂ) (X k) = X k := Complex.conj_eq_iff_im.2 him
        rw [if_pos hd, hconj, mult, if_pos hs]; push_cast; ring
      · have hd : ¬ (n : ℤ) ∣ -((k : ℤ) + k) := by
          rw [dvd_neg]; intro h
          have := Int.le_of_dvd (by omega) h
          omega
        rw [if_neg hd, mult, if_neg hs]; push_cast; ring
    · have hd1 : ¬ (n : ℤ) ∣ (k : ℤ) - q := by
        intro h
        have := Int.eq_zero_of_abs_lt_dvd h (by rw [abs_lt]; omega)
        omega
      have hd2 : ¬ (n : ℤ) ∣ -((k : ℤ) + q) := by
        rw [dvd_neg]; intro h
        have := Int.le_of_dvd (by omega) h
        omega
      rw [if_neg hkq, if_neg hd1, if_neg hd2]; ring
  have : ∑ j ∈ range n, (c2rValue n X j : ℂ) * root n (-(j * q))
      = ∑ k ∈ range (n / 2 + 1), ∑ j ∈ range n,
          ((mult n k * (X k * root n (j * k)).re : ℝ) : ℂ) * root n (-(j * q)) := by
    rw [sum_comm]
    refine sum_congr rfl fun j _ => ?_
    rw [c2rValue, Complex.ofReal_sum, sum_mul]
  rw [this, sum_congr rfl step, sum_ite_eq' (range (n / 2 + 1)) q (fun _ => (n : ℂ) * X q), if_pos]
  exact mem_range.2 (by omega)

/-- Synthesis of the spectrum of a real signal gives back the signal. -/
theorem c2r_dft {n : ℕ} (hn : n ≠ 0) (x : ℕ → ℝ) (j : ℕ) (hj : j < n) :
    c2rValue n (fun k => ∑ i ∈ range n, (x i : ℂ) * root n (-(i * k))) j = n * x j := by
  have full : ∑ k ∈ range n, ((∑ i ∈ range n, (x i : ℂ) * root n (-(i * k))) * root n (j * k)) = n * x j := by
    have : ∀ k ∈ range n, (∑ i ∈ range n, (x i : ℂ) * root n (-(i * k))) * root n (j * k)
        = ∑ i ∈ range n, (x i : ℂ) * root n (k * ((j : ℤ) - i)) := by
      intro k _
      rw [sum_mul]
      refine sum_congr rfl fun i _ => ?_
      rw [show (k * ((j : ℤ) - i) : ℤ) = -(i * k) + j * k by ring, root_add]; ring
    rw [sum_congr rfl this, sum_comm]
    have h2 : ∀ i ∈ range n, ∑ k ∈ range n, (x i : ℂ) * root n (k * ((j : ℤ) - i)) =
        if i = j then (n : ℂ) * x j else 0 := by
      intro i hi
      have hi := mem_range.1 hi
      rw [← mul_sum, root_sum hn]
      by_cases h : i = j
      · subst h; simp [mul_comm]
      · have : ¬ (n : ℤ) ∣ (j : ℤ) - i := by
          intro h'
          have := Int.eq_zero_of_abs_lt_dvd h' (by rw [abs_lt]; omega)
          omega
        simp [this, h]
    rw [sum_congr rfl h2, sum_ite_eq' (range n) j (fun _ => (n : ℂ) * x j), if_pos (mem_range.2 hj)]
  have hre := congrArg Complex.re full
  rw [Complex.re_sum] at hre
  rw [sum_fold n hn] at hre
  · rw [c2rValue, hre]; simp
  · intro k hk0 hkn
    have : ∀ i : ℕ, root n (-(i * ((n - k : ℕ) : ℤ))) = (starRingEnd ℂ) (root n (-(i * k))) := by
      intro i
      rw [conj_root, Nat.cast_sub hkn.le, show (-(i * ((n : ℤ) - k)) : ℤ) = n * (-i) + -(-(i * k)) by ring, root_add,
        root_self hn, one_mul]
    have h2 : root n (j * ((n - k : ℕ) : ℤ)) = (starRingEnd ℂ) (root n (j * k)) := by
      rw [conj_root, Nat.cast_sub hkn.le, show (j * ((n : ℤ) - k) : ℤ) = n * j + -(j * k) by ring, root_add,
        root_self hn, one_mul]
    simp only [this, h2]
    have h3 : (∑ i ∈ range n, (x i : ℂ) * (starRingEnd ℂ) (root n (-(i * k)))) * (starRingEnd ℂ) (root n (j * k))
        = (starRingEnd ℂ) ((∑ i ∈ range n, (x i : ℂ) * root n (-(i * k))) * root n (j * k)) := by
      simp [map_sum, map_mul]
    rw [h3, Complex.conj_re]

end Verif.FFT
