import Verif.Model.Losses
import Verif.Lemmas.Fourier
/-!
The spectral derivative of the losses, on Fourier modes.
-/
namespace Verif.Loss
open Verif Verif.FFT Finset

/-- The bin of frequency `z` in a transform of length `n`. -/
def binOf (n : ℕ) (z : ℤ) : ℕ := (z % n).toNat

theorem binOf_lt {n : ℕ} (hn : n ≠ 0) (z : ℤ) : binOf n z < n := by
  have := Int.emod_lt_of_pos z (b := n) (by omega)
  have := Int.emod_nonneg z (b := n) (by omega)
  unfold binOf; omega

theorem binOf_cast {n : ℕ} (hn : n ≠ 0) (z : ℤ) : ((binOf n z : ℕ) : ℤ) = z % n := by
  have := Int.emod_nonneg z (b := n) (by omega)
  unfold binOf; omega

theorem root_bin {n : ℕ} (hn : n ≠ 0) (z : ℤ) (j : ℕ) : root n (j * (binOf n z : ℕ)) = root n (j * z) := by
  rw [binOf_cast hn]
  have h : (j : ℤ) * z = j * (z % n) + n * (j * (z / n)) := by
    have := Int.emod_add_mul_ediv z n
    linear_combination (-(j : ℤ)) * this
  rw [h, root_add, root_self hn, mul_one]

theorem dvd_sub_bin {n : ℕ} (hn : n ≠ 0) (z : ℤ) (l : ℕ) (hl : l < n) : (n : ℤ) ∣ z - l ↔ l = binOf n z := by
  constructor
  · intro h
    have this : z % n = (l : ℤ) % n := Int.emod_eq_emod_iff_emod_sub_eq_zero.2 (Int.emod_eq_zero_of_dvd h)
    rw [Int.emod_eq_of_lt (a := (l : ℤ)) (by omega) (by omega)] at this
    have := binOf_cast hn z
    omega
  · rintro rfl
    rw [binOf_cast hn]
    exact Int.dvd_self_sub_emod

/-- The transform of a mode is a multiple of the indicator of its bin. -/
theorem mode_sum {n : ℕ} (hn : n ≠ 0) (z : ℤ) (l : ℕ) (hl : l < n) :
    ∑ j ∈ range n, root n (j * z) * root n (-(j * l)) = if l = binOf n z then (n : ℂ) else 0 := by
  have h := root_sum hn (z - l)
  simp only [dvd_sub_bin hn z l hl] at h
  rw [← h]
  refine sum_congr rfl fun j _ => ?_
  rw [← root_add]
  congr 1; ring

/-- The inversion formula. -/
theorem dft_inv {n : ℕ} (g : ℕ → ℂ) (i : ℕ) (hi : i < n) :
    ∑ k ∈ range n, (∑ i' ∈ range n, g i' * root n (-(i' * k))) * root n (i * k) = n * g i := by
  have hn : n ≠ 0 := by omega
  simp only [sum_mul]
  rw [sum_comm]
  have h : ∀ i' ∈ range n, ∑ k ∈ range n, g i' * root n (-(i' * k)) * root n (i * k) = if i' = i then n * g i else 0 := by
    intro i' hi'
    have := mode_sum hn i i' (mem_range.1 hi')
    have hb : binOf n i = i := by
      have := binOf_cast hn i
      rw [Int.emod_eq_of_lt (by omega) (by omega)] at this
      omega
    rw [hb] at this
    calc _ = g i' * ∑ k ∈ range n, root n (k * (i : ℤ)) * root n (-(k * i')) := by
          rw [mul_sum]
          refine sum_congr rfl fun k _ => ?_
          rw [mul_comm (k : ℤ) i, mul_comm (k : ℤ) i']; ring
      _ = _ := by
          rw [this]
          split_ifs with h
          · rw [h]; ring
          · simp
  rw [sum_congr rfl h, sum_ite_eq' (range n), if_pos (mem_range.2 hi)]

theorem fftfreq_bin {n : ℕ} (z : ℤ) (h : 2 * |z| < n) (d : ℝ) : fftfreq n d (binOf n z) = z / (n * d) := by
  have hn : n ≠ 0 := by have := abs_nonneg z; omega
  have hc := binOf_cast hn z
  unfold fftfreq
  congr 1
  rcases le_or_gt 0 z with hz | hz
  · rw [abs_of_nonneg hz] at h
    rw [Int.emod_eq_of_lt hz (by omega)] at hc
    rw [if_pos (by omega)]
    exact_mod_cast hc
  · rw [abs_of_neg hz] at h
    have e : z % n = z + n := by
      rw [← Int.add_emod_right, Int.emod_eq_of_lt (by omega) (by omega)]
    rw [e] at hc
    rw [if_neg (by omega)]
    have : ((binOf n z : ℕ) : ℝ) = z + n := by exact_mod_cast hc
    rw [this]; ring

/-- The complex field of which `specDeriv` takes the real part. -/
noncomputable def cDeriv (H W : ℕ) (mesh : ℕ → ℕ → ℝ) (x : ℕ → ℕ → ℂ) (i j : ℕ) : ℂ :=
  ifft2 H W (fun k l => Complex.I * (mesh k l : ℂ) * fft2 H W x k l) i j

theorem cDeriv_add (H W : ℕ) (mesh : ℕ → ℕ → ℝ) (x y : ℕ → ℕ → ℂ) (i j : ℕ) :
    cDeriv H W mesh (fun i j => x i j + y i j) i j = cDeriv H W mesh x i j + cDeriv H W mesh y i j := by
  unfold cDeriv ifft2 fft2
  rw [← mul_add, ← sum_add_distrib]
  congr 1
  refine sum_congr rfl fun k _ => ?_
  rw [← sum_add_distrib]
  refine sum_congr rfl fun l _ => ?_
  simp only [add_mul, sum_add_distrib]
  ring

theorem cDeriv_zero (H W : ℕ) (mesh : ℕ → ℕ → ℝ) (i j : ℕ) : cDeriv H W mesh (fun _ _ => 0) i j = 0 := by
  simp [cDeriv, ifft2, fft2]

theorem cDeriv_sum (H W : ℕ) (mesh : ℕ → ℕ → ℝ) (M : ℕ) (x : ℕ → ℕ → ℕ → ℂ) (i j : ℕ) :
    cDeriv H W mesh (fun i j => ∑ m ∈ range M, x m i j) i j = ∑ m ∈ range M, cDeriv H W mesh (x m) i j := by
  induction M with
  | zero => simp [cDeriv_zero]
  | succ M ih =>
    simp only [sum_range_succ]
    rw [cDeriv_add, ih]

/-- A mode in the second index, with any dependence on the first, is multiplied by `i` times its frequency. -/
theorem cDeriv_lon {H W : ℕ} (mesh : ℕ → ℝ) (g : ℕ → ℂ) (z : ℤ) (i j : ℕ) (hi : i < H) (hW : W ≠ 0) :
    cDeriv H W (fun _ l => mesh l) (fun i j => g i * root W (j * z)) i j = Complex.I * mesh (binOf W z) * (g i * root W (j * z)) := by
  have hH : (H : ℂ) ≠ 0 := by exact_mod_cast (show H ≠ 0 by omega)
  have hWc : (W : ℂ) ≠ 0 := by exact_mod_cast hW
  have hf : ∀ k, ∀ l < W, fft2 H W (fun i j => g i * root W (j * z)) k l
      = (∑ i' ∈ range H, g i' * root H (-(i' * k))) * if l = binOf W z then (W : ℂ) else 0 := by
    intro k l hl
    rw [← mode_sum hW z l hl, sum_mul_sum]
    unfold fft2
    refine sum_congr rfl fun i' _ => sum_congr rfl fun j' _ => ?_
    ring
  unfold cDeriv ifft2
  have h2 : ∀ k ∈ range H, ∑ l ∈ range W, Complex.I * (mesh l : ℂ) * fft2 H W (fun i j => g i * root W (j * z)) k l * root H (i * k) * root W (j * l)
      = Complex.I * mesh (binOf W z) * W * root W (j * z) * ((∑ i' ∈ range H, g i' * root H (-(i' * k))) * root H (i * k)) := by
    intro k _
    rw [sum_congr rfl (g := fun l => if l = binOf W z then
      Complex.I * mesh (binOf W z) * W * root W (j * z) * ((∑ i' ∈ range H, g i' * root H (-(i' * k))) * root H (i * k)) else 0) ?_]
    · rw [sum_ite_eq' (range W), if_pos (mem_range.2 (binOf_lt hW z))]
    · intro l hl
      rw [hf k l (mem_range.1 hl)]
      split_ifs with h
      · rw [h, root_bin hW]; ring
      · simp
  rw [sum_congr rfl h2, ← mul_sum, dft_inv g i hi]
  field_simp

/-- The same in the first index. -/
theorem cDeriv_lat {H W : ℕ} (mesh : ℕ → ℝ) (g : ℕ → ℂ) (z : ℤ) (i j : ℕ) (hj : j < W) (hH : H ≠ 0) :
    cDeriv H W (fun k _ => mesh k) (fun i j => g j * root H (i * z)) i j = Complex.I * mesh (binOf H z) * (g j * root H (i * z)) := by
  have hHc : (H : ℂ) ≠ 0 := by exact_mod_cast hH
  have hWc : (W : ℂ) ≠ 0 := by exact_mod_cast (show W ≠ 0 by omega)
  have hf : ∀ l, ∀ k < H, fft2 H W (fun i j => g j * root H (i * z)) k l
      = (∑ j' ∈ range W, g j' * root W (-(j' * l))) * if k = binOf H z then (H : ℂ) else 0 := by
    intro l k hk
    rw [← mode_sum hH z k hk, mul_comm, sum_mul_sum]
    unfold fft2
    refine sum_congr rfl fun i' _ => sum_congr rfl fun j' _ => ?_
    ring
  unfold cDeriv ifft2
  rw [sum_comm]
  have h2 : ∀ l ∈ range W, ∑ k ∈ range H, Complex.I * (mesh k : ℂ) * fft2 H W (fun i j => g j * root H (i * z)) k l * root H (i * k) * root W (j * l)
      = Complex.I * mesh (binOf H z) * H * root H (i * z) * ((∑ j' ∈ range W, g j' * root W (-(j' * l))) * root W (j * l)) := by
    intro l _
    rw [sum_congr rfl (g := fun k => if k = binOf H z then
      Complex.I * mesh (binOf H z) * H * root H (i * z) * ((∑ j' ∈ range W, g j' * root W (-(j' * l))) * root W (j * l)) else 0) ?_]
    · rw [sum_ite_eq' (range H), if_pos (mem_range.2 (binOf_lt hH z))]
    · intro k hk
      rw [hf l k (mem_range.1 hk)]
      split_ifs with h
      · rw [h, root_bin hH]; ring
      · simp
  rw [sum_congr rfl h2, ← mul_sum, dft_inv g j hj]
  field_simp

end Verif.Loss
