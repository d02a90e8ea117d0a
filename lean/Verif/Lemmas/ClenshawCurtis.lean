import Mathlib.Algebra.BigOperators.Field
import Mathlib.Tactic.Linarith
import Verif.Lemmas.Fourier
import Verif.Model.Quadrature
/-!
The Clenshaw-Curtis weights: discrete cosine identities.
-/
namespace Verif.Quad
open Finset Verif.FFT

/-- `cos(2 pi z / N)`. -/
noncomputable def cs (N : ℕ) (z : ℤ) : ℝ := Real.cos (2 * Real.pi * z / N)

theorem root_re (N : ℕ) (z : ℤ) : (root N z).re = cs N z := by
  have : root N z = Complex.exp ((2 * Real.pi * z / N : ℝ) * Complex.I) := by
    unfold root; congr 1; push_cast; ring
  rw [this, Complex.exp_ofReal_mul_I_re]; rfl

theorem cs_neg (N : ℕ) (z : ℤ) : cs N (-z) = cs N z := by
  unfold cs; rw [← Real.cos_neg]; congr 1; push_cast; ring

theorem cs_zero (N : ℕ) : cs N 0 = 1 := by simp [cs]

theorem cs_add_period {N : ℕ} (hN : N ≠ 0) (z k : ℤ) : cs N (z + N * k) = cs N z := by
  rw [← root_re, ← root_re, root_add, root_self hN, mul_one]

theorem cs_mul (N : ℕ) (a b : ℤ) : cs N a * cs N b = (cs N (a - b) + cs N (a + b)) / 2 := by
  unfold cs
  have h1 : (2 * Real.pi * ((a - b : ℤ) : ℝ) / N) = 2 * Real.pi * a / N - 2 * Real.pi * b / N := by push_cast; ring
  have h2 : (2 * Real.pi * ((a + b : ℤ) : ℝ) / N) = 2 * Real.pi * a / N + 2 * Real.pi * b / N := by push_cast; ring
  rw [h1, h2, Real.cos_sub, Real.cos_add]; ring

theorem cs_le_one (N : ℕ) (z : ℤ) : |cs N z| ≤ 1 := Real.abs_cos_le_one _

theorem cs_sum {N : ℕ} (hN : N ≠ 0) (z : ℤ) :
    ∑ j ∈ range N, cs N (j * z) = if (N : ℤ) ∣ z then (N : ℝ) else 0 := by
  have := congrArg Complex.re (root_sum hN z)
  rw [Complex.re_sum] at this
  simp only [root_re] at this
  rw [this]; split <;> simp

theorem ifftReal_eq (N : ℕ) (u : ℕ → ℝ) (j : ℕ) :
    ifftReal N u j = 1 / N * ∑ k ∈ range N, u k * cs N (j * k) := by
  unfold ifftReal
  have h1 : (1 / (N : ℂ)) = ((1 / N : ℝ) : ℂ) := by push_cast; rfl
  rw [h1, Complex.re_ofReal_mul, Complex.re_sum]
  congr 1
  refine sum_congr rfl fun k _ => ?_
  rw [Complex.re_ofReal_mul, root_re]

/-- Forward cosine transform of the weights. -/
theorem ifft_dft {N : ℕ} (hN : N ≠ 0) (u : ℕ → ℝ) (hu : ∀ k, 0 < k → k < N → u (N - k) = u k) (k : ℕ) (hk : k < N) :
    ∑ j ∈ range N, ifftReal N u j * cs N (j * k) = u k := by
  have hN' : (N : ℝ) ≠ 0 := by exact_mod_cast hN
  simp only [ifftReal_eq]
  have step : ∀ q ∈ range N, ∑ j ∈ range N, u q * (cs N (j * q) * cs N (j * k)) =
      u q * ((if q = k then (N : ℝ) else 0) + (if (q + k) % N = 0 then (N : ℝ) else 0)) / 2 := by
    intro q hq
    have hq := mem_range.1 hq
    rw [← mul_sum]
    have : ∀ j ∈ range N, cs N (j * q) * cs N (j * k) = (cs N (j * ((q : ℤ) - k)) + cs N (j * ((q : ℤ) + k))) / 2 := by
      intro j _
      rw [cs_mul]; congr 3 <;> ring
    rw [sum_congr rfl this, ← sum_div, sum_add_distrib, cs_sum hN, cs_sum hN]
    have e1 : ((N : ℤ) ∣ (q : ℤ) - k) ↔ q = k := by
      constructor
      · intro h
        have := Int.eq_zero_of_abs_lt_dvd h (by rw [abs_lt]; omega)
        omega
      · rintro rfl; simp
    have e2 : ((N : ℤ) ∣ (q : ℤ) + k) ↔ (q + k) % N = 0 := by
      rw [← Nat.dvd_iff_mod_eq_zero]; exact_mod_cast Iff.rfl
    rw [if_congr e1 rfl rfl, if_congr e2 rfl rfl]; ring
  have e : ∑ j ∈ range N, 1 / (N : ℝ) * (∑ q ∈ range N, u q * cs N (j * q)) * cs N (j * k)
      = 1 / N * ∑ q ∈ range N, ∑ j ∈ range N, u q * (cs N (j * q) * cs N (j * k)) := by
    rw [sum_comm, mul_sum]
    refine sum_congr rfl fun j _ => ?_
    rw [mul_assoc, sum_mul]; congr 1
    exact sum_congr rfl fun q _ => by ring
  rw [e, sum_congr rfl step, ← sum_div]
  simp only [mul_add, sum_add_distrib, mul_ite, mul_zero]
  rw [sum_ite_eq' (range N) k, if_pos (mem_range.2 hk)]
  have : ∑ q ∈ range N, (if (q + k) % N = 0 then u q * (N : ℝ) else 0) = u k * N := by
    rcases Nat.eq_zero_or_pos k with rfl | hk0
    · rw [sum_eq_single 0]
      · simp
      · intro b hb hb0
        rw [if_neg]; rw [add_zero, Nat.mod_eq_of_lt (mem_range.1 hb)]; exact hb0
      · intro h; exact absurd (mem_range.2 (by omega)) h
    · rw [sum_eq_single (N - k)]
      · rw [if_pos (by rw [Nat.sub_add_cancel hk.le, Nat.mod_self]), hu k hk0 hk]
      · intro b hb hb0
        have hb := mem_range.1 hb
        rw [if_neg]
        intro h
        have hd := Nat.dvd_of_mod_eq_zero h
        obtain ⟨c, hc⟩ := hd
        have : c = 1 := by
          have h1 : c < 2 := by
            by_contra hcc
            have : N * 2 ≤ N * c := Nat.mul_le_mul_left _ (by omega)
            omega
          have h2 : c ≠ 0 := by rintro rfl; omega
          omega
        subst this; omega
      · intro h; exact absurd (mem_range.2 (by omega)) h
  rw [this]; field_simp; ring

/-- The vector whose inverse transform gives the weights. -/
noncomputable def ccU (N k : ℕ) : ℝ := ccV N k + ccG N k

theorem ccU_symm (N k : ℕ) (h0 : 0 < k) (hk : k < N) : ccU N (N - k) = ccU N k := by
  unfold ccU ccV ccG ccG0
  have e1 : N - (N - k) = k := by omega
  rw [e1]
  have e2 : (N - k = N / 2) ↔ (k = N - N / 2) := by omega
  have e3 : (N - k = N - N / 2) ↔ (k = N / 2) := by omega
  simp only [e2, e3]
  split_ifs <;> ring

/-- Partial sums of the array `v`. -/
theorem ccA_sum (N h : ℕ) (hh : h ≤ N / 2) :
    ∑ i ∈ range h, ccA N i = -1 - 1 / (2 * (h : ℝ) - 1) := by
  induction h with
  | zero => norm_num
  | succ h ih =>
    rw [sum_range_succ, ih (by omega), ccA, if_pos (by omega)]
    have h1 : (2 * (h : ℝ) + 1) ≠ 0 := by positivity
    have h2 : (2 * (h : ℝ) - 1) ≠ 0 := by
      rcases Nat.eq_zero_or_pos h with rfl | hp
      · norm_num
      · have : (1 : ℝ) ≤ h := by exact_mod_cast hp
        linarith
    have h3 : (2 * (h : ℝ) + 1 - 2) ≠ 0 := by intro h'; apply h2; linarith
    have h4 : (2 * ((h + 1 : ℕ) : ℝ) - 1) = 2 * (h : ℝ) + 1 := by push_cast; ring
    rw [h4]
    have h5 : (2 * (h : ℝ) + 1 - 2) = 2 * h - 1 := by ring
    rw [h5]
    field_simp; ring

/-- Weighted sum of the symmetrised array. -/
theorem ccV_sum {N : ℕ} (hN : 2 ≤ N) (c : ℕ → ℝ) (h0 : c 0 = 1) (hc : ∀ k ≤ N, c (N - k) = c k) :
    ∑ k ∈ range N, ccV N k * c k = -2 * (∑ i ∈ range (N / 2 + 1), ccA N i * c i) + ccA N 0 := by
  have hcut : ∑ i ∈ range (N + 1), ccA N i * c i = ∑ i ∈ range (N / 2 + 1), ccA N i * c i := by
    symm
    apply sum_subset
    · intro i hi; have := mem_range.1 hi; exact mem_range.2 (by omega)
    · intro i _ hi
      have : ¬ i < N / 2 + 1 := fun h => hi (mem_range.2 h)
      rw [ccA, if_neg (by omega), if_neg (by omega), zero_mul]
  have hlast : ccA N N = 0 := by rw [ccA, if_neg (by omega), if_neg (by omega)]
  have hA : ∑ k ∈ range N, ccA N k * c k = ∑ i ∈ range (N / 2 + 1), ccA N i * c i := by
    rw [← hcut, sum_range_succ, hlast]; ring
  have hB : ∑ k ∈ range N, ccA N (N - k) * c k = ∑ i ∈ range (N / 2 + 1), ccA N i * c i - ccA N 0 := by
    rw [← hcut, sum_range_succ']
    rw [← sum_range_reflect]
    rw [h0, mul_one, add_sub_cancel_right]
    refine sum_congr rfl fun k hk => ?_
    have hk := mem_range.1 hk
    rw [show N - (N - 1 - k) = k + 1 by omega, show N - 1 - k = N - (k + 1) by omega, hc (k + 1) (by omega)]
  simp only [ccV, sub_mul, zero_sub, neg_mul, sum_sub_distrib, sum_neg_distrib]
  rw [hA, hB]; ring

theorem ccG_sum {N : ℕ} (hN : 2 ≤ N) (c : ℕ → ℝ) (hc : ∀ k ≤ N, c (N - k) = c k) :
    ∑ k ∈ range N, ccG N k * c k
      = (2 * N * c (N / 2) - ∑ k ∈ range N, c k) / ((N : ℝ) ^ 2 - 1 + ((N % 2 : ℕ) : ℝ)) := by
  have e : ∀ k ∈ range N, ccG N k * c k = (((if k = N / 2 then (N : ℝ) * c k else 0)
      + (if k = N - N / 2 then (N : ℝ) * c k else 0)) - c k) / ((N : ℝ) ^ 2 - 1 + ((N % 2 : ℕ) : ℝ)) := by
    intro k _
    unfold ccG ccG0
    split_ifs <;> ring
  rw [sum_congr rfl e, ← sum_div, sum_sub_distrib, sum_add_distrib, sum_ite_eq' (range N) (N / 2),
    if_pos (mem_range.2 (by omega)), sum_ite_eq' (range N) (N - N / 2), if_pos (mem_range.2 (by omega)),
    hc (N / 2) (by omega)]
  congr 1; ring

theorem ccD_pos {N : ℕ} (hN : 2 ≤ N) : 0 < (N : ℝ) ^ 2 - 1 + ((N % 2 : ℕ) : ℝ) := by
  have h1 : (2 : ℝ) ≤ N := by exact_mod_cast hN
  have h2 : (0 : ℝ) ≤ ((N % 2 : ℕ) : ℝ) := by positivity
  nlinarith

theorem ccA_half (N : ℕ) : ccA N (N / 2) = 1 / (2 * ((N / 2 : ℕ) : ℝ) - 1) := by
  rw [ccA, if_neg (lt_irrefl _), if_pos rfl]

theorem ccA_zero {N : ℕ} (hN : 2 ≤ N) : ccA N 0 = -2 := by
  rw [ccA, if_pos (by omega)]; norm_num

/-- The end-point weight. -/
theorem ccW_zero {N : ℕ} (hN : 2 ≤ N) : ifftReal N (ccU N) 0 = 1 / ((N : ℝ) ^ 2 - 1 + ((N % 2 : ℕ) : ℝ)) := by
  rw [ifftReal_eq]
  have e : ∀ k ∈ range N, ccU N k * cs N ((0 : ℕ) * k) = ccV N k * (fun _ => (1 : ℝ)) k + ccG N k * (fun _ => (1 : ℝ)) k := by
    intro k _; simp [cs_zero, ccU]
  rw [sum_congr rfl e, sum_add_distrib, ccV_sum hN (fun _ => 1) rfl (fun _ _ => rfl),
    ccG_sum hN (fun _ => 1) (fun _ _ => rfl)]
  simp only [mul_one]
  rw [sum_range_succ, ccA_sum N _ le_rfl, ccA_half, ccA_zero hN]
  have hD := ccD_pos hN
  have hN' : (N : ℝ) ≠ 0 := by have : (2 : ℝ) ≤ N := by exact_mod_cast hN
                               linarith
  simp only [sum_const, card_range, nsmul_eq_mul, mul_one]
  field_simp
  ring

/-- The moments: transform of the weights plus the appended end point. -/
theorem cc_moment {N : ℕ} (hN : 2 ≤ N) (k : ℕ) (hk : k ≤ N / 2) :
    ccU N k + ifftReal N (ccU N) 0 = 2 / (1 - 4 * (k : ℝ) ^ 2) := by
  rw [ccW_zero hN]
  have hD := ccD_pos hN
  unfold ccU ccV ccG ccG0
  have hNr : (2 : ℝ) ≤ N := by exact_mod_cast hN
  by_cases h1 : k < N / 2
  · have hne : (1 - 4 * (k : ℝ) ^ 2) ≠ 0 := by
      rcases Nat.eq_zero_or_pos k with rfl | hp
      · norm_num
      · have : (1 : ℝ) ≤ k := by exact_mod_cast hp
        nlinarith
    rw [if_neg (by omega), if_neg (by omega)]
    rw [ccA, if_pos h1, ccA, if_neg (by omega), if_neg (by omega)]
    have f1 : (2 * (k : ℝ) + 1) ≠ 0 := by positivity
    have f2 : (2 * (k : ℝ) - 1) ≠ 0 := by intro h; apply hne; nlinarith
    rw [show (2 * (k : ℝ) + 1 - 2) = 2 * k - 1 by ring]
    have f3 : (1 - 4 * (k : ℝ) ^ 2) = -((2 * k + 1) * (2 * k - 1)) := by ring
    rw [f3]
    field_simp; ring
  · have hkN : k = N / 2 := by omega
    subst hkN
    dsimp only
    rw [ccA_half, if_pos rfl]
    set h := N / 2 with hh
    have hh1 : 1 ≤ h := by omega
    have hr : (1 : ℝ) ≤ h := by exact_mod_cast hh1
    have f1 : (2 * (h : ℝ) + 1) ≠ 0 := by positivity
    have f2 : (2 * (h : ℝ) - 1) ≠ 0 := by linarith
    have f3 : (1 - 4 * (h : ℝ) ^ 2) = -((2 * h + 1) * (2 * h - 1)) := by ring
    rw [f3]
    rcases Nat.even_or_odd' N with ⟨c, hc | hc⟩
    · have hch : c = h := by omega
      rw [show N - h = h by omega, if_pos rfl, show ccA N h = 1 / (2 * (h : ℝ) - 1) from ccA_half N]
      have hm : N % 2 = 0 := by omega
      rw [hm]
      have hNN : (N : ℝ) = 2 * h := by rw [hc, hch]; push_cast; ring
      rw [hNN]
      have : ((2 * (h : ℝ)) ^ 2 - 1 + ((0 : ℕ) : ℝ)) = (2 * h + 1) * (2 * h - 1) := by push_cast; ring
      rw [this]
      field_simp; ring
    · have hch : c = h := by omega
      rw [if_neg (by omega), show N - h = h + 1 by omega, ccA, if_neg (by omega), if_neg (by omega)]
      have hm : N % 2 = 1 := by omega
      rw [hm]
      have hNN : (N : ℝ) = 2 * h + 1 := by rw [hc, hch]; push_cast; ring
      rw [hNN]
      have : ((2 * (h : ℝ) + 1) ^ 2 - 1 + ((1 : ℕ) : ℝ)) = (2 * h + 1) ^ 2 := by push_cast; ring
      rw [this]
      field_simp; ring

theorem ifftReal_symm {N : ℕ} (hN : N ≠ 0) (u : ℕ → ℝ) (j : ℕ) (hj : j ≤ N) :
    ifftReal N u (N - j) = ifftReal N u j := by
  rw [ifftReal_eq, ifftReal_eq]
  congr 1
  refine sum_congr rfl fun k _ => ?_
  rw [Nat.cast_sub hj, show (((N : ℤ) - j) * k) = -(j * k) + N * k by ring, cs_add_period hN, cs_neg]

/-- Positivity of the inner weights. -/
theorem ccW_pos {N : ℕ} (hN : 2 ≤ N) (j : ℕ) (hj0 : 0 < j) (hjN : j < N) : 0 < ifftReal N (ccU N) j := by
  have hN0 : N ≠ 0 := by omega
  rw [ifftReal_eq]
  let c : ℕ → ℝ := fun k => cs N (j * k)
  have hc0 : c 0 = 1 := by simp [c, cs_zero]
  have hcs : ∀ k ≤ N, c (N - k) = c k := by
    intro k hk
    simp only [c]
    rw [Nat.cast_sub hk, show ((j : ℤ) * ((N : ℤ) - k)) = -(j * k) + N * j by ring, cs_add_period hN0, cs_neg]
  have hsum : ∑ k ∈ range N, c k = 0 := by
    have := cs_sum hN0 (j : ℤ)
    rw [if_neg] at this
    · rw [← this]; refine sum_congr rfl fun k _ => ?_
      simp only [c]; rw [mul_comm]
    · intro h
      have := Int.le_of_dvd (by omega) h
      omega
  have e : ∑ k ∈ range N, ccU N k * cs N (j * k) = ∑ k ∈ range N, ccV N k * c k + ∑ k ∈ range N, ccG N k * c k := by
    rw [← sum_add_distrib]; exact sum_congr rfl fun k _ => by simp only [ccU, c]; ring
  rw [e, ccV_sum hN c hc0 hcs, ccG_sum hN c hcs, hsum, sub_zero, ccA_zero hN, sum_range_succ, ccA_half]
  set h := N / 2 with hh
  have hh1 : 1 ≤ h := by omega
  have hr : (1 : ℝ) ≤ h := by exact_mod_cast hh1
  set D := (N : ℝ) ^ 2 - 1 + ((N % 2 : ℕ) : ℝ) with hDdef
  have hD : 0 < D := ccD_pos hN
  have hNr : (2 : ℝ) ≤ N := by exact_mod_cast hN
  -- the inner sum
  have hin : ∑ i ∈ range h, ccA N i * c i ≤ -2 + (1 - 1 / (2 * (h : ℝ) - 1)) := by
    obtain ⟨g, hg⟩ : ∃ g, h = g + 1 := ⟨h - 1, by omega⟩
    have hs := ccA_sum N h le_rfl
    rw [hg, sum_range_succ', ccA_zero hN] at hs
    rw [hg, sum_range_succ', hc0, ccA_zero hN]
    have : ∑ i ∈ range g, ccA N (i + 1) * c (i + 1) ≤ ∑ i ∈ range g, ccA N (i + 1) := by
      refine sum_le_sum fun i hi => ?_
      have hi := mem_range.1 hi
      have hpos : 0 ≤ ccA N (i + 1) := by
        rw [ccA, if_pos (by omega)]
        have : (2 * ((i + 1 : ℕ) : ℝ) + 1 - 2) = 2 * i + 1 := by push_cast; ring
        rw [this]; positivity
      have := (abs_le.1 (cs_le_one N (j * ((i + 1 : ℕ) : ℤ)))).2
      calc ccA N (i + 1) * c (i + 1) ≤ ccA N (i + 1) * 1 := mul_le_mul_of_nonneg_left this hpos
        _ = _ := mul_one _
    linarith
  -- the coefficient of the last cosine
  have hratio : 0 < (N : ℝ) / D ∧ (N : ℝ) / D < 2 / (2 * (h : ℝ) - 1) := by
    refine ⟨by positivity, ?_⟩
    rw [div_lt_div_iff₀ hD (by linarith)]
    rcases Nat.even_or_odd' N with ⟨q, hq | hq⟩
    · have hm : N % 2 = 0 := by omega
      have hqh : q = h := by omega
      have hNN : (N : ℝ) = 2 * h := by rw [hq, hqh]; push_cast; ring
      rw [hDdef, hm, hNN]; push_cast; nlinarith
    · have hm : N % 2 = 1 := by omega
      have hqh : q = h := by omega
      have hNN : (N : ℝ) = 2 * h + 1 := by rw [hq, hqh]; push_cast; ring
      rw [hDdef, hm, hNN]; push_cast; nlinarith
  have hc := abs_le.1 (cs_le_one N (j * (h : ℤ)))
  have hcdef : c h = cs N (j * (h : ℤ)) := rfl
  rw [← hcdef] at hc
  have hp : 0 < 1 / (2 * (h : ℝ) - 1) := by
    apply one_div_pos.2; linarith
  set p := 1 / (2 * (h : ℝ) - 1) with hpd
  have hp2 : 2 / (2 * (h : ℝ) - 1) = 2 * p := by rw [hpd]; ring
  rw [hp2] at hratio
  have e2 : 2 * (N : ℝ) * c h / D = 2 * ((N : ℝ) / D) * c h := by ring
  rw [e2]
  set r := (N : ℝ) / D
  have hbound : (p - r) * c h < p := by
    have : |(p - r) * c h| < p := by
      rw [abs_mul]
      have a1 : |p - r| < p := by rw [abs_lt]; constructor <;> linarith [hratio.1, hratio.2]
      have a2 : |c h| ≤ 1 := abs_le.2 hc
      calc |p - r| * |c h| ≤ |p - r| * 1 := mul_le_mul_of_nonneg_left a2 (abs_nonneg _)
        _ < p := by rw [mul_one]; exact a1
    exact (abs_lt.1 this).2
  have : 0 < -2 * (∑ i ∈ range h, ccA N i * c i + p * c h) + -2 + 2 * r * c h := by
    nlinarith
  positivity

end Verif.Quad
