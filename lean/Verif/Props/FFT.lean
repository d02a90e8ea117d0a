import Verif.Lemmas.Fourier
import Verif.Spec.Fourier
/-!
Property theorems C12 and C13: the FFT wrappers.
-/
namespace Verif.Props
open Verif Verif.Dist Verif.FFT Finset

theorem sum_root_eq_dft (n : ℕ) (x : ℕ → ℝ) (k : ℕ) :
    ∑ j ∈ range n, (x j : ℂ) * root n (-(j * k)) = Spec.dft n x k := by
  unfold Spec.dft root
  refine sum_congr rfl fun j _ => ?_
  congr 2; push_cast; ring

theorem c2rValue_eq_synth (n : ℕ) (X : ℕ → ℂ) (j : ℕ) : c2rValue n X j = Spec.synth n X j := by
  unfold c2rValue Spec.synth mult
  refine sum_congr rfl fun k _ => ?_
  have : root n (j * k) = Complex.exp ((2 * Real.pi * j * k / n : ℝ) * Complex.I) := by
    unfold root; congr 1; push_cast; ring
  rw [this, Complex.mul_re, Complex.exp_ofReal_mul_I_re, Complex.exp_ofReal_mul_I_im]

/-- C12. `rfft(x, nmodes=m)` returns `m` values: the (normalised) Fourier coefficients up to `n//2`, zero above. -/
theorem C12_rfft_value (s : FFTNorm) (x : Vec ℝ) (hx : 0 < x.len) (m : ℕ) :
    ∃ y, rfft s false x (some m) = .ok y ∧ y.len = m ∧
      ∀ k < m, y.val k = if k ≤ x.len / 2 then (s.fwd x.len : ℂ) * Spec.dft x.len x.val k else 0 := by
  unfold rfft
  simp only [Bool.false_eq_true, if_false, hx.ne']
  by_cases h1 : m > x.len / 2 + 1
  · refine ⟨_, by rw [if_pos h1], rfl, ?_⟩
    intro k _
    simp only [padDimRight, Nat.lt_succ_iff, torchRfft, sum_root_eq_dft]
  · by_cases h2 : m < x.len / 2 + 1
    · refine ⟨_, by rw [if_neg h1, if_pos h2], rfl, ?_⟩
      intro k hk
      rw [if_pos (by omega)]
      simp only [torchRfft, sum_root_eq_dft]
    · refine ⟨_, by rw [if_neg h1, if_neg h2], by simp only; omega, ?_⟩
      intro k hk
      rw [if_pos (by omega)]
      simp only [torchRfft, sum_root_eq_dft]

/-- C12. Without `nmodes` all `n//2 + 1` coefficients are returned. -/
theorem C12_rfft_default (s : FFTNorm) (x : Vec ℝ) (hx : 0 < x.len) :
    ∃ y, rfft s false x none = .ok y ∧ y.len = x.len / 2 + 1 ∧
      ∀ k < y.len, y.val k = (s.fwd x.len : ℂ) * Spec.dft x.len x.val k := by
  refine ⟨⟨x.len / 2 + 1, torchRfft s x.len x.val⟩, ?_, rfl, ?_⟩
  · simp [rfft, hx.ne']
  · intro k _; simp only [torchRfft, sum_root_eq_dft]

/-- C12. The keyword `n` is rejected, whatever the signal. -/
theorem C12_rfft_rejects_n (s : FFTNorm) (x : Vec ℝ) (m : Option ℕ) :
    rfft s true x m = .error .valueError := by simp [rfft]

/-- The spectrum that the wrapper hands to the backend has real DC and Nyquist bins. -/
private theorem conditioned_real (n len : ℕ) (X : ℕ → ℂ) :
    Spec.SelfConjugateBinsReal n (resizeSpectrum len fun k => ⟨(X k).re, (X k).im * imagScale n len k⟩) := by
  refine ⟨?_, ?_⟩
  · unfold resizeSpectrum imagScale; split_ifs <;> simp
  · intro h
    unfold resizeSpectrum imagScale
    split_ifs <;> simp_all

/-- C13. The value of `irfft`, for every backend: the real synthesis of the spectrum, cut or zero-padded to `n//2+1`
bins, with DC and Nyquist replaced by their real parts. -/
theorem C13_irfft_value (be : C2R) (s : FFTNorm) (X : Vec ℂ) (hX : 0 < X.len) (n : ℕ) (hn : 0 < n) :
    ∃ y, irfft be s X (some n) = .ok y ∧ y.len = n ∧
      ∀ j < n, y.val j = s.inv n * Spec.synth n (fun k => if k < X.len then
        (if k = 0 ∨ 2 * k = n then ((X.val k).re : ℂ) else X.val k) else 0) j := by
  refine ⟨_, by simp only [irfft, hX.ne', hn.ne', if_false]; rfl, rfl, ?_⟩
  intro j hj
  simp only
  have hc := conditioned_real n X.len X.val
  rw [be.spec n _ hc.1 hc.2 j hj, c2rValue_eq_synth]
  congr 1
  unfold Spec.synth
  refine sum_congr rfl fun k hk => ?_
  have hk := mem_range.1 hk
  have : resizeSpectrum X.len (fun k => ⟨(X.val k).re, (X.val k).im * imagScale n X.len k⟩) k
      = (if k < X.len then (if k = 0 ∨ 2 * k = n then ((X.val k).re : ℂ) else X.val k) else 0) := by
    unfold resizeSpectrum
    by_cases h1 : k < X.len
    · rw [if_pos h1, if_pos h1]
      unfold imagScale
      dsimp only
      by_cases h2 : k = 0 ∨ 2 * k = n
      · rw [if_pos h2]
        have : (if n % 2 = 0 ∧ n / 2 < X.len ∧ k = n / 2 then (0 : ℝ) else if k = 0 then 0 else 1) = 0 := by
          rcases h2 with h2 | h2
          · simp [h2]
          · rw [if_pos ⟨by omega, by omega, by omega⟩]
        rw [this]; apply Complex.ext <;> simp
      · rw [if_neg h2, if_neg (by omega), if_neg (by omega)]
        apply Complex.ext <;> simp
    · rw [if_neg h1, if_neg h1]
  rw [this]

/-- C13. The result does not depend on the imaginary parts of the DC bin and (for even `n`) the Nyquist bin. -/
theorem C13_irfft_ignores_imag (be : C2R) (s : FFTNorm) (X X' : Vec ℂ) (n : ℕ) (hlen : X.len = X'.len)
    (hX : 0 < X.len) (hn : 0 < n) (hre : ∀ k < X.len, (X.val k).re = (X'.val k).re)
    (him : ∀ k < X.len, k ≠ 0 → 2 * k ≠ n → (X.val k).im = (X'.val k).im) :
    ∃ y y', irfft be s X (some n) = .ok y ∧ irfft be s X' (some n) = .ok y' ∧ y.len = n ∧ y'.len = n ∧
      ∀ j < n, y.val j = y'.val j := by
  obtain ⟨y, hy, hl, hv⟩ := C13_irfft_value be s X hX n hn
  obtain ⟨y', hy', hl', hv'⟩ := C13_irfft_value be s X' (hlen ▸ hX) n hn
  refine ⟨y, y', hy, hy', hl, hl', fun j hj => ?_⟩
  rw [hv j hj, hv' j hj]
  congr 1
  unfold Spec.synth
  refine sum_congr rfl fun k _ => ?_
  rw [← hlen]
  by_cases h1 : k < X.len
  · by_cases h2 : k = 0 ∨ 2 * k = n
    · simp [h1, h2, hre k h1]
    · have : ¬ k = 0 ∧ ¬ 2 * k = n := by tauto
      simp [h1, this.1, this.2, hre k h1, him k h1 this.1 this.2]
  · simp [h1]

private theorem fwd_mul_inv (s : FFTNorm) (n : ℕ) (hn : 0 < n) : s.fwd n * s.inv n * n = 1 := by
  have : (n : ℝ) ≠ 0 := by exact_mod_cast hn.ne'
  cases s <;> simp only [FFTNorm.fwd, FFTNorm.inv]
  · field_simp
  · have h2 : Real.sqrt n * Real.sqrt n = n := Real.mul_self_sqrt (by positivity)
    have : Real.sqrt n ≠ 0 := by positivity
    field_simp; nlinarith
  · field_simp

private theorem synth_smul (n : ℕ) (a : ℝ) (X : ℕ → ℂ) (j : ℕ) :
    Spec.synth n (fun k => (a : ℂ) * X k) j = a * Spec.synth n X j := by
  unfold Spec.synth
  rw [mul_sum]
  refine sum_congr rfl fun k _ => ?_
  simp; ring

private theorem synth_congr (n : ℕ) (X Y : ℕ → ℂ) (h : ∀ k ≤ n / 2, X k = Y k) (j : ℕ) :
    Spec.synth n X j = Spec.synth n Y j := by
  unfold Spec.synth
  refine sum_congr rfl fun k hk => ?_
  rw [h k (by have := mem_range.1 hk; omega)]

theorem dft_zero_im (n : ℕ) (x : ℕ → ℝ) : (Spec.dft n x 0).im = 0 := by
  unfold Spec.dft; simp

theorem dft_nyquist_im (n : ℕ) (hn : n ≠ 0) (x : ℕ → ℝ) (k : ℕ) (h : 2 * k = n) : (Spec.dft n x k).im = 0 := by
  rw [← sum_root_eq_dft, Complex.im_sum]
  refine sum_eq_zero fun j _ => ?_
  have h2 := root_half hn (by omega) j
  have : n / 2 = k := by omega
  rw [this] at h2
  rw [← conj_root, Complex.mul_im]; simp [h2]

/-- C13 (round trip). `irfft(rfft(x), n) = x` for every real signal, both parities, every norm. -/
theorem C13_irfft_rfft (be : C2R) (s : FFTNorm) (x : Vec ℝ) (hx : 0 < x.len) :
    ∃ X y, rfft s false x none = .ok X ∧ irfft be s X (some x.len) = .ok y ∧ y.len = x.len ∧
      ∀ j < x.len, y.val j = x.val j := by
  obtain ⟨X, hX, hlen, hval⟩ := C12_rfft_default s x hx
  obtain ⟨y, hy, hl, hv⟩ := C13_irfft_value be s X (by omega) x.len hx
  refine ⟨X, y, hX, hy, hl, fun j hj => ?_⟩
  rw [hv j hj, synth_congr _ _ (fun k => (s.fwd x.len : ℂ) * Spec.dft x.len x.val k), synth_smul]
  · have h := c2r_dft (n := x.len) (by omega) x.val j hj
    simp only [sum_root_eq_dft] at h
    rw [← c2rValue_eq_synth, h]
    have := fwd_mul_inv s x.len hx
    linear_combination x.val j * this
  · intro k hk
    rw [if_pos (by omega), hval k (by omega)]
    split
    · next h =>
      have : (Spec.dft x.len x.val k).im = 0 := by
        rcases h with rfl | h
        · exact dft_zero_im _ _
        · exact dft_nyquist_im _ (by omega) _ _ h
      apply Complex.ext <;> simp [this]
    · rfl

/-- C13 (round trip). `rfft(irfft(X, n), nmodes=len X) = X` for every spectrum with at most `n//2+1` bins whose
DC (and, if present, Nyquist) bin is real. -/
theorem C13_rfft_irfft (be : C2R) (s : FFTNorm) (X : Vec ℂ) (n : ℕ) (hX : 0 < X.len) (hn : 0 < n)
    (hle : X.len ≤ n / 2 + 1) (h0 : (X.val 0).im = 0) (h1 : ∀ k < X.len, 2 * k = n → (X.val k).im = 0) :
    ∃ y Z, irfft be s X (some n) = .ok y ∧ rfft s false y (some X.len) = .ok Z ∧ Z.len = X.len ∧
      ∀ k < X.len, Z.val k = X.val k := by
  obtain ⟨y, hy, hl, hv⟩ := C13_irfft_value be s X hX n hn
  obtain ⟨Z, hZ, hZl, hZv⟩ := C12_rfft_value s y (by omega) X.len
  refine ⟨y, Z, hy, hZ, hZl, fun k hk => ?_⟩
  rw [hZv k hk, hl, if_pos (by omega)]
  set W : ℕ → ℂ := fun k => if k < X.len then X.val k else 0 with hW
  have hyv : ∀ j < n, y.val j = s.inv n * c2rValue n W j := by
    intro j hj
    rw [hv j hj, c2rValue_eq_synth, synth_congr]
    intro k _
    simp only [hW]
    by_cases hk : k < X.len
    · rw [if_pos hk, if_pos hk]
      split
      · next h =>
        have : (X.val k).im = 0 := by
          rcases h with rfl | h
          · exact h0
          · exact h1 k hk h
        apply Complex.ext <;> simp [this]
      · rfl
    · rw [if_neg hk, if_neg hk]
  have hd : Spec.dft n y.val k = s.inv n * (n * W k) := by
    rw [← dft_c2r hn.ne' W ?_ ?_ k (by omega), ← sum_root_eq_dft, mul_sum]
    · refine sum_congr rfl fun j hj => ?_
      rw [hyv j (mem_range.1 hj)]; push_cast; ring
    · simp [hW, hX, h0]
    · intro he
      simp only [hW]
      split
      · next h => exact h1 _ h (by omega)
      · simp
  rw [hd]
  have hc : ((s.fwd n * s.inv n * n : ℝ) : ℂ) = 1 := by rw [fwd_mul_inv s n hn]; simp
  push_cast at hc
  have : W k = X.val k := by simp [hW, hk]
  rw [this]
  linear_combination X.val k * hc

/-- C13 (error branch): an empty requested length is rejected. -/
theorem C13_irfft_error (be : C2R) (s : FFTNorm) (X : Vec ℂ) (n? : Option ℕ) :
    (∃ e, irfft be s X n? = .error e) ↔ X.len = 0 ∨ n? = some 0 ∨ (n? = none ∧ X.len = 1) := by
  unfold irfft
  cases n? with
  | none =>
    by_cases h : X.len = 0
    · simp [h]
    · by_cases h1 : X.len = 1
      · simp [h1]
      · have : ¬ (X.len - 1 = 0) := by omega
        simp [h, h1, this]
  | some n =>
    by_cases h : X.len = 0
    · simp [h]
    · by_cases h1 : n = 0
      · simp [h, h1]
      · simp [h, h1]

/-- Non-vacuity: there is a backend (the mathematical C2R transform). -/
noncomputable example : C2R := ⟨c2rValue, fun _ _ _ _ _ _ => rfl⟩
/-- Non-vacuity: a spectrum with a complex middle bin, real DC and Nyquist, length 4. -/
example : let X : Vec ℂ := ⟨3, fun k => if k = 1 then ⟨1, 2⟩ else 5⟩
    0 < X.len ∧ X.len ≤ 4 / 2 + 1 ∧ (X.val 0).im = 0 ∧ ∀ k < X.len, 2 * k = 4 → (X.val k).im = 0 := by
  refine ⟨by decide, by decide, by simp, ?_⟩
  intro k _ hk
  obtain rfl : k = 2 := by omega
  simp

end Verif.Props
