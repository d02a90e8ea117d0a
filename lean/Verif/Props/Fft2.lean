import Verif.Model.Fft2
import Verif.Spec.Fft2
import Verif.Props.FFT
/-!
Property theorems C71: the two-dimensional Fourier transforms with the interface of the spherical harmonic transforms.
-/
namespace Verif.Props
open Verif Verif.Dist Verif.FFT Verif.Spec Finset

/-- The coefficients of `rfft2` are those of the two-dimensional transform. -/
theorem rfft2_value (x : Mat ℝ) (h0 : 0 < x.d0) (h1 : 0 < x.d1) :
    ∃ y, torchRfft2 x = .ok y ∧ y.d0 = x.d0 ∧ y.d1 = x.d1 / 2 + 1 ∧ ∀ (l : ℕ) (m : ℕ), y.val l m = dft2 x.d0 x.d1 x.val l m := by
  refine ⟨_, by unfold torchRfft2; rw [if_neg (by omega)], rfl, rfl, fun l m => ?_⟩
  simp only [torchRfft, FFTNorm.fwd, dft2]
  push_cast
  rw [← one_div_mul_one_div, mul_assoc (1 / _) (1 / _)]
  congr 1
  rw [mul_sum]
  refine sum_congr rfl fun k _ => ?_
  rw [mul_assoc, sum_mul]
  congr 1
  refine sum_congr rfl fun j _ => ?_
  rw [mul_assoc]
  congr 1
  unfold root
  rw [← Complex.exp_add]
  congr 1
  push_cast
  ring

/-- C71 (analysis). For `2 <= lmax <= nlat` rows of modes and `mmax <= nlon//2 + 1` columns, the forward transform returns `lmax` rows: first the
frequencies `0, 1, ...`, then the negative frequencies `..., -2, -1`, with the coefficients of the two-dimensional Fourier transform. -/
theorem C71_analysis (nlat nlon lmax mmax : ℕ) (x : Mat ℝ) (hx0 : x.d0 = nlat) (hx1 : x.d1 = nlon) (hlon : 0 < nlon) (hl : 2 ≤ lmax)
    (hle : lmax ≤ nlat) (hm : 0 < mmax) (hme : mmax ≤ nlon / 2 + 1) :
    ∃ y, (Fft2.init nlat nlon (some lmax) (some mmax)).forward x = .ok y ∧ y.d0 = lmax ∧ y.d1 = mmax ∧
      ∀ i < lmax, ∀ m < mmax, y.val i m = dft2 nlat nlon x.val (if i < (lmax + 1) / 2 then i else (i : ℤ) - lmax) m := by
  obtain ⟨y, e, h0, h1, hv⟩ := rfft2_value x (by omega) (by omega)
  have hs : Fft2.init nlat nlon (some lmax) (some mmax) = ⟨nlat, nlon, lmax, mmax⟩ := by
    obtain ⟨a, rfl⟩ : ∃ a, lmax = a + 1 := ⟨lmax - 1, by omega⟩
    obtain ⟨b, rfl⟩ : ∃ b, mmax = b + 1 := ⟨mmax - 1, by omega⟩
    rfl
  rw [hs]
  refine ⟨_, by unfold Fft2.forward; rw [e], ?_, ?_, fun i hi m _ => ?_⟩
  · simp only [catRows, headBlock, tailBlock]
    rw [if_neg (by omega)]
    dsimp only
    omega
  · simp only [catRows, headBlock]
    omega
  · simp only [catRows, headBlock, tailBlock]
    rw [if_neg (by omega : ¬ lmax / 2 = 0)]
    dsimp only
    have e1 : min ((lmax + 1) / 2) y.d0 = (lmax + 1) / 2 := by omega
    rw [e1]
    by_cases h : i < (lmax + 1) / 2
    · rw [if_pos h, if_pos h, hv, hx0, hx1]
    · rw [if_neg h, if_neg h, hv, hx0, hx1]
      have e2 : ((y.d0 - min (lmax / 2) y.d0 + (i - (lmax + 1) / 2) : ℕ) : ℤ) = ((i : ℤ) - lmax) + nlat := by omega
      rw [e2]
      unfold dft2
      congr 1
      refine sum_congr rfl fun k _ => sum_congr rfl fun j _ => ?_
      congr 1
      have hn : (nlat : ℂ) ≠ 0 := by
        have : nlat ≠ 0 := by omega
        exact_mod_cast this
      rw [Complex.exp_eq_exp_iff_exists_int]
      refine ⟨-k, ?_⟩
      push_cast
      field_simp
      ring

/-- The inverse column transform undoes the column transform. -/
theorem columns_inverse (H : ℕ) (hH : 0 < H) (R : ℕ → ℂ) (k : ℕ) (hk : k < H) :
    ((FFTNorm.ortho.inv H : ℝ) : ℂ) * ∑ l ∈ range H, (((FFTNorm.ortho.fwd H : ℝ) : ℂ) * ∑ i ∈ range H, R i * root H (-(i * l))) * root H (k * l)
      = R k := by
  have h1 : ∑ l ∈ range H, (((FFTNorm.ortho.fwd H : ℝ) : ℂ) * ∑ i ∈ range H, R i * root H (-(i * l))) * root H (k * l)
      = ((FFTNorm.ortho.fwd H : ℝ) : ℂ) * ∑ i ∈ range H, R i * ∑ l ∈ range H, root H (l * ((k : ℤ) - i)) := by
    rw [mul_sum]
    simp_rw [mul_sum, sum_mul]
    rw [sum_comm]
    refine sum_congr rfl fun i _ => sum_congr rfl fun l _ => ?_
    rw [show (l * ((k : ℤ) - i) : ℤ) = -(i * l) + k * l by ring, root_add]
    ring
  have h2 : ∀ i ∈ range H, R i * ∑ l ∈ range H, root H (l * ((k : ℤ) - i)) = if i = k then (H : ℂ) * R k else 0 := by
    intro i hi
    have hi := mem_range.1 hi
    rw [root_sum hH.ne']
    by_cases h : i = k
    · subst h; simp [mul_comm]
    · have : ¬ (H : ℤ) ∣ (k : ℤ) - i := by
        intro h'
        have := Int.eq_zero_of_abs_lt_dvd h' (by rw [abs_lt]; omega)
        omega
      simp [this, h]
  rw [h1, sum_congr rfl h2, sum_ite_eq' (range H) k (fun _ => (H : ℂ) * R k), if_pos (mem_range.2 hk)]
  have hs : Real.sqrt H * Real.sqrt H = H := Real.mul_self_sqrt (by positivity)
  have hp : Real.sqrt H ≠ 0 := by positivity
  have : FFTNorm.ortho.inv H * (FFTNorm.ortho.fwd H * H) = 1 := by
    simp only [FFTNorm.inv, FFTNorm.fwd]
    field_simp
    nlinarith
  have h3 : ((FFTNorm.ortho.inv H : ℝ) : ℂ) * (((FFTNorm.ortho.fwd H : ℝ) : ℂ) * (H : ℂ)) = 1 := by exact_mod_cast this
  linear_combination R k * h3

/-- C71 (round trip). With all modes (the default), the inverse transform returns every image unchanged, for every size and on every
backend. -/
theorem C71_roundtrip (be : C2R) (nlat nlon : ℕ) (lmax mmax : Option ℕ) (hl : lmax = none ∨ lmax = some nlat)
    (hm : mmax = none ∨ mmax = some (nlon / 2 + 1)) (x : Mat ℝ) (hx0 : x.d0 = nlat) (hx1 : x.d1 = nlon) (h0 : 0 < nlat) (h1 : 0 < nlon) :
    ∃ y z, (Fft2.init nlat nlon lmax mmax).forward x = .ok y ∧ (Fft2.init nlat nlon lmax mmax).inverse be y = .ok z ∧
      z.d0 = nlat ∧ z.d1 = nlon ∧ ∀ k < nlat, ∀ j < nlon, z.val k j = x.val k j := by
  have hs : Fft2.init nlat nlon lmax mmax = ⟨nlat, nlon, nlat, nlon / 2 + 1⟩ := by
    obtain ⟨a, rfl⟩ : ∃ a, nlat = a + 1 := ⟨nlat - 1, by omega⟩
    rcases hl with rfl | rfl <;> rcases hm with rfl | rfl <;> rfl
  rw [hs]
  obtain ⟨H, W, x⟩ := x
  dsimp only at hx0 hx1
  subst hx0 hx1
  refine ⟨_, _, by unfold Fft2.forward torchRfft2; rw [if_neg (by simp only; omega)], by unfold Fft2.inverse torchIrfft2; rw [if_neg (by simp only; omega)],
    rfl, rfl, fun k hk j hj => ?_⟩
  dsimp only
  have hrow : ∀ m ≤ W / 2, ((FFTNorm.ortho.inv H : ℝ) : ℂ) * ∑ l ∈ range H,
      (if l < (catRows (headBlock ((H + 1) / 2) (W / 2 + 1) ⟨H, W / 2 + 1, fun l m =>
          ((FFTNorm.ortho.fwd H : ℝ) : ℂ) * ∑ k ∈ range H, torchRfft .ortho W (x k) m * root H (-(k * l))⟩)
          (tailBlock (H / 2) (W / 2 + 1) ⟨H, W / 2 + 1, fun l m =>
          ((FFTNorm.ortho.fwd H : ℝ) : ℂ) * ∑ k ∈ range H, torchRfft .ortho W (x k) m * root H (-(k * l))⟩)).d0
        ∧ m < (catRows (headBlock ((H + 1) / 2) (W / 2 + 1) ⟨H, W / 2 + 1, fun l m =>
          ((FFTNorm.ortho.fwd H : ℝ) : ℂ) * ∑ k ∈ range H, torchRfft .ortho W (x k) m * root H (-(k * l))⟩)
          (tailBlock (H / 2) (W / 2 + 1) ⟨H, W / 2 + 1, fun l m =>
          ((FFTNorm.ortho.fwd H : ℝ) : ℂ) * ∑ k ∈ range H, torchRfft .ortho W (x k) m * root H (-(k * l))⟩)).d1
        then (catRows (headBlock ((H + 1) / 2) (W / 2 + 1) ⟨H, W / 2 + 1, fun l m =>
          ((FFTNorm.ortho.fwd H : ℝ) : ℂ) * ∑ k ∈ range H, torchRfft .ortho W (x k) m * root H (-(k * l))⟩)
          (tailBlock (H / 2) (W / 2 + 1) ⟨H, W / 2 + 1, fun l m =>
          ((FFTNorm.ortho.fwd H : ℝ) : ℂ) * ∑ k ∈ range H, torchRfft .ortho W (x k) m * root H (-(k * l))⟩)).val l m else 0)
        * root H (k * l) = torchRfft .ortho W (x k) m := by
    intro m hm
    rw [← columns_inverse H h0 (fun k => torchRfft .ortho W (x k) m) k hk]
    congr 1
    refine sum_congr rfl fun l hl => ?_
    have hl := mem_range.1 hl
    congr 1
    simp only [catRows, headBlock, tailBlock]
    by_cases hH : H / 2 = 0
    · rw [if_pos hH]
      dsimp only
      rw [if_pos (by omega), if_pos (by omega)]
    · rw [if_neg hH]
      dsimp only
      rw [if_pos (by omega)]
      split_ifs with h2
      · rfl
      · have : H - min (H / 2) H + (l - min ((H + 1) / 2) H) = l := by omega
        rw [this]
  rw [be.spec _ _ ?_ ?_ j hj]
  · have hc : ∀ X Y : ℕ → ℂ, (∀ m ≤ W / 2, X m = Y m) → c2rValue W X j = c2rValue W Y j := by
      intro X Y hXY
      unfold c2rValue
      exact sum_congr rfl fun m hm => by rw [hXY m (by have := mem_range.1 hm; omega)]
    rw [hc _ _ hrow]
    have h2 := c2r_dft (n := W) (by omega) (x k) j hj
    have h3 : c2rValue W (torchRfft .ortho W (x k)) j = FFTNorm.ortho.fwd W
        * c2rValue W (fun m => ∑ i ∈ range W, (x k i : ℂ) * root W (-(i * m))) j := by
      unfold c2rValue torchRfft
      rw [mul_sum]
      refine sum_congr rfl fun m _ => ?_
      rw [mul_assoc, Complex.re_ofReal_mul]
      ring
    rw [h3, h2]
    have hs : Real.sqrt W * Real.sqrt W = W := Real.mul_self_sqrt (by positivity)
    have hp : Real.sqrt W ≠ 0 := by positivity
    simp only [FFTNorm.inv, FFTNorm.fwd]
    field_simp
    linear_combination (-(x k j)) * hs
  · rw [hrow 0 (by omega)]
    unfold torchRfft
    rw [sum_root_eq_dft, Complex.im_ofReal_mul, dft_zero_im, mul_zero]
  · intro hW
    rw [hrow _ le_rfl]
    unfold torchRfft
    rw [sum_root_eq_dft, Complex.im_ofReal_mul, dft_nyquist_im W (by omega) _ _ (by omega), mul_zero]

/-- The transform of a plane wave with `0 < m < nlon / 2`. -/
theorem dft2_wave (H W : ℕ) (hH : 0 < H) (f l : ℤ) (m m' : ℕ) (hm : 0 < m) (hmW : 2 * m < W) (hm' : m' ≤ W / 2) :
    dft2 H W (wave H W f m) l m' = if m' = m ∧ (H : ℤ) ∣ f - l then ((Real.sqrt H * Real.sqrt W / 2 : ℝ) : ℂ) else 0 := by
  have hterm : ∀ k ∈ range H, ∀ j ∈ range W, ((wave H W f m k j : ℝ) : ℂ) * Complex.exp (-(2 * Real.pi * Complex.I * (k * l / H + j * m' / W)))
      = (root H (k * (f - l)) * root W (j * ((m : ℤ) - m')) + root H (k * (-(f + l))) * root W (j * (-((m : ℤ) + m')))) / 2 := by
    intro k _ j _
    unfold wave root
    rw [Complex.ofReal_cos, Complex.cos, ← Complex.exp_add, ← Complex.exp_add, div_mul_eq_mul_div, add_mul, ← Complex.exp_add, ← Complex.exp_add]
    congr 3 <;> push_cast <;> ring
  unfold dft2
  rw [sum_congr rfl fun k hk => sum_congr rfl (hterm k hk)]
  have hsum : ∑ k ∈ range H, ∑ j ∈ range W, (root H (k * (f - l)) * root W (j * ((m : ℤ) - m'))
      + root H (k * (-(f + l))) * root W (j * (-((m : ℤ) + m')))) / 2
      = ((∑ k ∈ range H, root H (k * (f - l))) * ∑ j ∈ range W, root W (j * ((m : ℤ) - m'))) / 2 := by
    have h2 : ∑ j ∈ range W, root W (j * (-((m : ℤ) + m'))) = 0 := by
      rw [root_sum (by omega), if_neg]
      rw [dvd_neg]
      intro h
      have := Int.le_of_dvd (by omega) h
      omega
    simp_rw [div_eq_mul_inv, ← sum_mul, sum_add_distrib, ← mul_sum, ← sum_mul]
    rw [h2, mul_zero, add_zero]
  rw [hsum, root_sum hH.ne', root_sum (by omega)]
  by_cases h1 : m' = m
  · subst h1
    rw [sub_self, if_pos (dvd_zero _)]
    by_cases h2 : (H : ℤ) ∣ f - l
    · rw [if_pos h2, if_pos ⟨rfl, h2⟩]
      have hs : Real.sqrt H * Real.sqrt H = H := Real.mul_self_sqrt (by positivity)
      have hs' : Real.sqrt W * Real.sqrt W = W := Real.mul_self_sqrt (by positivity)
      have hp : Real.sqrt H ≠ 0 := by positivity
      have hp' : Real.sqrt W ≠ 0 := by
        have : 0 < W := by omega
        positivity
      have : (1 / (Real.sqrt H * Real.sqrt W)) * ((H : ℝ) * W / 2) = Real.sqrt H * Real.sqrt W / 2 := by
        field_simp
        calc (H : ℝ) * W = (Real.sqrt H * Real.sqrt H) * (Real.sqrt W * Real.sqrt W) := by rw [hs, hs']
          _ = _ := by ring
      rw [← this]
      push_cast
      ring
    · rw [if_neg h2, if_neg (fun h : _ ∧ _ => h2 h.2)]
      simp
  · have h3 : ¬ (W : ℤ) ∣ (m : ℤ) - m' := by
      intro h
      have := Int.eq_zero_of_abs_lt_dvd h (by rw [abs_lt]; omega)
      omega
    rw [if_neg (fun h : _ ∧ _ => h1 h.1), if_neg h3]
    simp

/-- The inverse transform of a spectrum with a single bin. -/
theorem inverse_single (be : C2R) (S : Fft2) (X : Mat ℂ) (i m : ℕ) (hi : i < S.nlat) (hiX : i < X.d0) (hmX : m < X.d1) (hm : 0 < m) (hmW : 2 * m < S.nlon)
    (hX : ∀ l < X.d0, ∀ m' < X.d1, m' ≤ S.nlon / 2 → X.val l m' = if m' = m ∧ l = i then ((Real.sqrt S.nlat * Real.sqrt S.nlon / 2 : ℝ) : ℂ) else 0) :
    ∃ z, S.inverse be X = .ok z ∧ z.d0 = S.nlat ∧ z.d1 = S.nlon ∧ ∀ k < S.nlat, ∀ j < S.nlon, z.val k j = wave S.nlat S.nlon i m k j := by
  refine ⟨_, by unfold Fft2.inverse torchIrfft2; rw [if_neg (by omega)], rfl, rfl, fun k hk j hj => ?_⟩
  dsimp only
  have hZ : ∀ m' ≤ S.nlon / 2, ((FFTNorm.ortho.inv S.nlat : ℝ) : ℂ) * ∑ l ∈ range S.nlat,
      (if l < X.d0 ∧ m' < X.d1 then X.val l m' else 0) * root S.nlat (k * l)
      = if m' = m then ((Real.sqrt S.nlon / 2 : ℝ) : ℂ) * root S.nlat (k * i) else 0 := by
    intro m' hm'
    by_cases h : m' = m
    · subst h
      rw [if_pos rfl, sum_eq_single i]
      · rw [if_pos ⟨hiX, hmX⟩, hX i hiX m' hmX hm', if_pos ⟨rfl, rfl⟩, ← mul_assoc]
        congr 1
        have hp : Real.sqrt S.nlat ≠ 0 := by
          have : 0 < S.nlat := by omega
          positivity
        rw [← Complex.ofReal_mul]
        congr 1
        simp only [FFTNorm.inv]
        field_simp
      · intro l _ hl
        split_ifs with h2
        · rw [hX l h2.1 m' h2.2 hm', if_neg (fun h => hl h.2), zero_mul]
        · rw [zero_mul]
      · intro h; exact absurd (mem_range.2 hi) h
    · rw [if_neg h, sum_eq_zero, mul_zero]
      intro l _
      split_ifs with h2
      · rw [hX l h2.1 m' h2.2 hm', if_neg (fun h' => h h'.1), zero_mul]
      · rw [zero_mul]
  rw [be.spec _ _ ?_ ?_ j hj]
  · unfold c2rValue
    rw [sum_eq_single m]
    · beta_reduce
      rw [hZ m (by omega), if_pos rfl, mult, if_neg (by omega), mul_assoc, Complex.re_ofReal_mul]
      have hp : Real.sqrt S.nlon ≠ 0 := by
        have : 0 < S.nlon := by omega
        positivity
      have : root S.nlat (k * i) * root S.nlon (j * m)
          = Complex.exp ((2 * Real.pi * (k * (i : ℤ) / S.nlat + j * m / S.nlon) : ℝ) * Complex.I) := by
        unfold root
        rw [← Complex.exp_add]
        congr 1
        push_cast
        ring
      rw [this, Complex.exp_ofReal_mul_I_re]
      unfold wave
      simp only [FFTNorm.inv]
      field_simp
    · intro m' hm' hne
      beta_reduce
      rw [hZ m' (by have := mem_range.1 hm'; omega), if_neg hne]
      simp
    · intro h; exact absurd (mem_range.2 (by omega)) h
  · rw [hZ 0 (by omega), if_neg (by omega)]; rfl
  · intro hW
    rw [hZ _ le_rfl, if_neg (by omega)]; rfl

/-- C71 (non-negative frequencies). A plane wave whose frequency along the latitude index is non-negative and among the retained modes comes back
unchanged, for every truncation. -/
theorem C71_positive_wave (be : C2R) (nlat nlon lmax mmax f m : ℕ) (hl : 2 ≤ lmax) (hle : lmax ≤ nlat) (hme : mmax ≤ nlon / 2 + 1)
    (hf : f < (lmax + 1) / 2) (hm : 0 < m) (hmm : m < mmax) (hmW : 2 * m < nlon) :
    ∃ y z, (Fft2.init nlat nlon (some lmax) (some mmax)).forward ⟨nlat, nlon, wave nlat nlon f m⟩ = .ok y ∧
      (Fft2.init nlat nlon (some lmax) (some mmax)).inverse be y = .ok z ∧ z.d0 = nlat ∧ z.d1 = nlon ∧
      ∀ k < nlat, ∀ j < nlon, z.val k j = wave nlat nlon f m k j := by
  obtain ⟨y, e, h0, h1, hv⟩ := C71_analysis nlat nlon lmax mmax ⟨nlat, nlon, wave nlat nlon f m⟩ rfl rfl (by omega) hl hle (by omega) hme
  have hi : f < (Fft2.init nlat nlon (some lmax) (some mmax)).nlat := by show f < nlat; omega
  obtain ⟨z, ez, z0, z1, hz⟩ := inverse_single be (Fft2.init nlat nlon (some lmax) (some mmax)) y f m hi (by omega) (by omega) hm hmW
    (fun l hl' m' hm' hW => by
      rw [hv l (by omega) m' (by omega), dft2_wave nlat nlon (by omega) _ _ m m' hm hmW hW]
      refine if_congr ⟨fun h => ⟨h.1, ?_⟩, fun h => ⟨h.1, ?_⟩⟩ rfl rfl
      · have h2 := h.2
        split_ifs at h2 with h3
        · have := Int.eq_zero_of_abs_lt_dvd h2 (by rw [abs_lt]; omega)
          omega
        · have := Int.le_of_dvd (by omega) h2
          omega
      · rw [h.2, if_pos hf, sub_self]
        exact dvd_zero _)
  exact ⟨y, z, e, ez, z0, z1, hz⟩

/-- C71 (negative frequencies). A plane wave of frequency `-g` along the latitude index, `1 <= g <= lmax // 2`, is among the retained modes, and comes
back with frequency `lmax - g`: the inverse transform reads the rows of the negative frequencies as high positive ones. -/
theorem C71_negative_wave (be : C2R) (nlat nlon lmax mmax g m : ℕ) (hl : 2 ≤ lmax) (hle : lmax ≤ nlat) (hme : mmax ≤ nlon / 2 + 1)
    (hg : 0 < g) (hgl : g ≤ lmax / 2) (hm : 0 < m) (hmm : m < mmax) (hmW : 2 * m < nlon) :
    ∃ y z, (Fft2.init nlat nlon (some lmax) (some mmax)).forward ⟨nlat, nlon, wave nlat nlon (-g) m⟩ = .ok y ∧
      (Fft2.init nlat nlon (some lmax) (some mmax)).inverse be y = .ok z ∧ z.d0 = nlat ∧ z.d1 = nlon ∧
      ∀ k < nlat, ∀ j < nlon, z.val k j = wave nlat nlon ((lmax : ℤ) - g) m k j := by
  obtain ⟨y, e, h0, h1, hv⟩ := C71_analysis nlat nlon lmax mmax ⟨nlat, nlon, wave nlat nlon (-g) m⟩ rfl rfl (by omega) hl hle (by omega) hme
  have hi : lmax - g < (Fft2.init nlat nlon (some lmax) (some mmax)).nlat := by show lmax - g < nlat; omega
  obtain ⟨z, ez, z0, z1, hz⟩ := inverse_single be (Fft2.init nlat nlon (some lmax) (some mmax)) y (lmax - g) m hi (by omega) (by omega) hm hmW
    (fun l hl' m' hm' hW => by
      rw [hv l (by omega) m' (by omega), dft2_wave nlat nlon (by omega) _ _ m m' hm hmW hW]
      refine if_congr ⟨fun h => ⟨h.1, ?_⟩, fun h => ⟨h.1, ?_⟩⟩ rfl rfl
      · have h2 := h.2
        split_ifs at h2 with h3
        · rw [← dvd_neg] at h2
          have := Int.le_of_dvd (by omega) h2
          omega
        · have := Int.eq_zero_of_abs_lt_dvd h2 (by rw [abs_lt]; omega)
          omega
      · rw [h.2, if_neg (by omega)]
        refine ⟨0, ?_⟩
        omega)
  refine ⟨y, z, e, ez, z0, z1, fun k hk j hj => ?_⟩
  rw [hz k hk j hj]
  congr 1
  omega

/-- C71 (the truncated round trip fails). Whenever modes are cut off along the latitude index (`2 <= lmax < nlat`), every retained wave with a negative
frequency is changed by analysis followed by synthesis: truncation is not a projection. -/
theorem C71_truncated_changes (be : C2R) (nlat nlon lmax mmax g m : ℕ) (hl : 2 ≤ lmax) (hlt : lmax < nlat) (hme : mmax ≤ nlon / 2 + 1)
    (hg : 0 < g) (hgl : g ≤ lmax / 2) (hm : 0 < m) (hmm : m < mmax) (hmW : 2 * m < nlon) :
    ∃ y z, (Fft2.init nlat nlon (some lmax) (some mmax)).forward ⟨nlat, nlon, wave nlat nlon (-g) m⟩ = .ok y ∧
      (Fft2.init nlat nlon (some lmax) (some mmax)).inverse be y = .ok z ∧ ∃ k < nlat, ∃ j < nlon, z.val k j ≠ wave nlat nlon (-g) m k j := by
  obtain ⟨y, z, e, ez, _, _, hz⟩ := C71_negative_wave be nlat nlon lmax mmax g m hl hlt.le hme hg hgl hm hmm hmW
  refine ⟨y, z, e, ez, ?_⟩
  by_contra hcon
  push Not at hcon
  have h1 : dft2 nlat nlon (wave nlat nlon (-g) m) (-g) m = dft2 nlat nlon (wave nlat nlon ((lmax : ℤ) - g) m) (-g) m := by
    unfold dft2
    congr 1
    refine sum_congr rfl fun k hk => sum_congr rfl fun j hj => ?_
    rw [← hcon k (mem_range.1 hk) j (mem_range.1 hj), hz k (mem_range.1 hk) j (mem_range.1 hj)]
  rw [dft2_wave nlat nlon (by omega) _ _ m m hm hmW (by omega), dft2_wave nlat nlon (by omega) _ _ m m hm hmW (by omega), sub_self,
    if_pos ⟨rfl, dvd_zero _⟩, if_neg ?_] at h1
  · have hp : (0 : ℝ) < Real.sqrt nlat * Real.sqrt nlon / 2 := by
      have h2 : (0 : ℝ) < nlat := by
        have : 0 < nlat := by omega
        exact_mod_cast this
      have h3 : (0 : ℝ) < nlon := by
        have : 0 < nlon := by omega
        exact_mod_cast this
      positivity
    rw [Complex.ofReal_eq_zero] at h1
    exact hp.ne' h1
  · rintro ⟨-, h⟩
    have := Int.le_of_dvd (by omega) h
    omega

/-- C71 (a single row). With `lmax = 1` the slice for the negative frequencies is `[-0:]`, the whole spectrum: the transform returns `nlat + 1` rows
instead of one. -/
theorem C71_one_row (nlat nlon : ℕ) (mmax : Option ℕ) (x : Mat ℝ) (hx0 : x.d0 = nlat) (h0 : 0 < nlat) (h1 : 0 < x.d1) :
    ∃ y, (Fft2.init nlat nlon (some 1) mmax).forward x = .ok y ∧ y.d0 = nlat + 1 := by
  obtain ⟨y, e, h2, _, _⟩ := rfft2_value x (by omega) h1
  refine ⟨_, by unfold Fft2.forward; rw [e], ?_⟩
  show min ((1 + 1) / 2) y.d0 + (tailBlock (1 / 2) _ y).d0 = _
  unfold tailBlock
  rw [if_pos (by norm_num)]
  dsimp only
  omega

/-- The hypotheses are met: 8 latitudes, 16 longitudes, 4 rows and 5 columns of modes, the wave of frequency `(-1, 1)` becomes `(3, 1)`. -/
example (be : C2R) : ∃ y z, (Fft2.init 8 16 (some 4) (some 5)).forward ⟨8, 16, wave 8 16 (-1) 1⟩ = .ok y ∧
    (Fft2.init 8 16 (some 4) (some 5)).inverse be y = .ok z ∧ ∀ k < 8, ∀ j < 16, z.val k j = wave 8 16 3 1 k j := by
  obtain ⟨y, z, e, ez, _, _, h⟩ := C71_negative_wave be 8 16 4 5 1 1 (by norm_num) (by norm_num) (by norm_num) (by norm_num) (by norm_num)
    (by norm_num) (by norm_num) (by norm_num)
  refine ⟨y, z, by simpa using e, ez, fun k hk j hj => ?_⟩
  have := h k hk j hj
  norm_num at this
  exact this

/-- The round trip with all modes on a 3 by 4 image. -/
example (be : C2R) : ∃ y z, (Fft2.init 3 4 none none).forward ⟨3, 4, fun k j => (k : ℝ) ^ 2 - j⟩ = .ok y ∧
    (Fft2.init 3 4 none none).inverse be y = .ok z ∧ z.d0 = 3 ∧ z.d1 = 4 ∧ ∀ k < 3, ∀ j < 4, z.val k j = (k : ℝ) ^ 2 - j :=
  C71_roundtrip be 3 4 none none (.inl rfl) (.inl rfl) ⟨3, 4, fun k j => (k : ℝ) ^ 2 - j⟩ rfl rfl (by norm_num) (by norm_num)

end Verif.Props
