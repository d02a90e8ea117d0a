import Mathlib.Probability.Distributions.Gaussian.Real
import Mathlib.Probability.CDF
import Verif.Props.SFNO
/-!
C76, the parts of a block: activation functions, normalisation, and blocks between different numbers of channels.
-/
namespace Verif.Props
open Verif Verif.Dist Verif.FFT Verif.Quad Verif.Truncation Verif.SHT Verif.Spec Verif.SFNO Verif.Legendre Finset

/-- C76. The activation functions: `relu` keeps positive numbers and maps the others to 0, `gelu` multiplies by the distribution function of the standard normal
distribution, `identity` does nothing; other names are rejected. -/
theorem C76_activation :
    (∃ f, activation "relu" = .ok f ∧ ∀ x, (0 < x → f x = x) ∧ (x ≤ 0 → f x = 0)) ∧
    (∃ f, activation "gelu" = .ok f ∧ ∀ x, f x = x * ProbabilityTheory.cdf (ProbabilityTheory.gaussianReal 0 1) x) ∧
    (∃ f, activation "identity" = .ok f ∧ ∀ x, f x = x) ∧
    ∀ name, name ≠ "relu" → name ≠ "gelu" → name ≠ "identity" → activation name = .error .valueError := by
  refine ⟨⟨relu, by simp [activation], fun x => ⟨fun h => max_eq_left h.le, fun h => max_eq_right h⟩⟩, ⟨gelu, by simp [activation], fun x => ?_⟩,
    ⟨id, by simp [activation], fun _ => rfl⟩, fun name h1 h2 h3 => by simp [activation, h1, h2, h3]⟩
  unfold gelu
  congr 1
  rw [ProbabilityTheory.cdf_eq_real, MeasureTheory.measureReal_def, ProbabilityTheory.gaussianReal_apply_eq_integral 0 (by norm_num), ENNReal.toReal_ofReal
    (MeasureTheory.setIntegral_nonneg measurableSet_Iic fun t _ => ProbabilityTheory.gaussianPDFReal_nonneg _ _ _)]
  refine MeasureTheory.setIntegral_congr_fun measurableSet_Iic fun t _ => ?_
  rw [ProbabilityTheory.gaussianPDFReal]
  simp only [NNReal.coe_one, mul_one, sub_zero]
  rw [div_eq_mul_inv, mul_comm]

/-- C76. Normalisation. A layer norm or an instance norm replaces every channel by a positive multiple of it plus a constant, such that the mean is 0 and the
mean square is `v / (v + 1e-6)`, where `v` is the variance of the channel, and then applies the learned scale and offset (per pixel or per channel). -/
theorem C76_norm (N : Norm) (x : Ten3 ℝ) (hpix : 2 ≤ x.d1 * x.d2) (g b : ℕ → ℕ → ℕ → ℝ)
    (hN : (∃ g' b', N = .layer x.d1 x.d2 g' b' ∧ (∀ c k j, g c k j = g' k j) ∧ ∀ c k j, b c k j = b' k j) ∨
      ∃ g' b', N = .inst x.d0 g' b' ∧ (∀ c k j, g c k j = g' c) ∧ ∀ c k j, b c k j = b' c) :
    ∃ y, N.forward x = .ok y ∧ HasShape y x.d0 x.d1 x.d2 ∧ ∀ c, ∃ s t mean v, 0 < s ∧
      mean = (∑ k ∈ range x.d1, ∑ j ∈ range x.d2, x.val c k j) / (x.d1 * x.d2) ∧
      v = (∑ k ∈ range x.d1, ∑ j ∈ range x.d2, (x.val c k j - mean) ^ 2) / (x.d1 * x.d2) ∧
      (∑ k ∈ range x.d1, ∑ j ∈ range x.d2, (s * x.val c k j + t) = 0) ∧
      (∑ k ∈ range x.d1, ∑ j ∈ range x.d2, (s * x.val c k j + t) ^ 2) / (x.d1 * x.d2) = v / (v + 1 / 10 ^ 6) ∧
      ∀ k j, y.val c k j = (s * x.val c k j + t) * g c k j + b c k j := by
  have h1 : (x.d1 : ℝ) * x.d2 ≠ 0 := by exact_mod_cast (by omega : x.d1 * x.d2 ≠ 0)
  have key : ∀ c, ∃ s t mean v, 0 < s ∧
      mean = (∑ k ∈ range x.d1, ∑ j ∈ range x.d2, x.val c k j) / (x.d1 * x.d2) ∧
      v = (∑ k ∈ range x.d1, ∑ j ∈ range x.d2, (x.val c k j - mean) ^ 2) / (x.d1 * x.d2) ∧
      (∑ k ∈ range x.d1, ∑ j ∈ range x.d2, (s * x.val c k j + t) = 0) ∧
      (∑ k ∈ range x.d1, ∑ j ∈ range x.d2, (s * x.val c k j + t) ^ 2) / (x.d1 * x.d2) = v / (v + 1 / 10 ^ 6) ∧
      ∀ k j, imgNorm x.d1 x.d2 (x.val c) k j = s * x.val c k j + t := by
    intro c
    obtain ⟨m, hm⟩ : ∃ m, m = (∑ k ∈ range x.d1, ∑ j ∈ range x.d2, x.val c k j) / (x.d1 * x.d2) := ⟨_, rfl⟩
    obtain ⟨v, hv⟩ : ∃ v, v = (∑ k ∈ range x.d1, ∑ j ∈ range x.d2, (x.val c k j - m) ^ 2) / (x.d1 * x.d2) := ⟨_, rfl⟩
    have hv0 : 0 ≤ v := by
      rw [hv]
      exact div_nonneg (sum_nonneg fun _ _ => sum_nonneg fun _ _ => sq_nonneg _) (by positivity)
    have he : (0 : ℝ) < v + 1 / 10 ^ 6 := by positivity
    have hsq := Real.sq_sqrt he.le
    have hs : 0 < Real.sqrt (v + 1 / 10 ^ 6) := Real.sqrt_pos.2 he
    have hsum : ∑ k ∈ range x.d1, ∑ j ∈ range x.d2, (x.val c k j - m) = 0 := by
      simp only [sum_sub_distrib, sum_const, card_range, nsmul_eq_mul]
      rw [hm]
      have h2 : (∑ k ∈ range x.d1, ∑ j ∈ range x.d2, x.val c k j) / (x.d1 * x.d2) * (x.d1 * x.d2) = ∑ k ∈ range x.d1, ∑ j ∈ range x.d2, x.val c k j :=
        div_mul_cancel₀ _ h1
      linear_combination -h2
    have e : ∀ k j, 1 / Real.sqrt (v + 1 / 10 ^ 6) * x.val c k j + -(m / Real.sqrt (v + 1 / 10 ^ 6)) = 1 / Real.sqrt (v + 1 / 10 ^ 6) * (x.val c k j - m) :=
      fun k j => by ring
    refine ⟨1 / Real.sqrt (v + 1 / 10 ^ 6), -(m / Real.sqrt (v + 1 / 10 ^ 6)), m, v, by positivity, hm, hv, ?_, ?_, ?_⟩
    · simp only [e, ← mul_sum]
      rw [hsum, mul_zero]
    · simp only [e, mul_pow, ← mul_sum]
      rw [mul_div_assoc, ← hv, div_pow, one_pow, hsq, one_div, mul_comm, div_eq_mul_inv v]
    · intro k j
      rw [e]
      unfold imgNorm imgVar imgMean
      rw [← hm, ← hv, eps]
      ring
  rcases hN with ⟨g', b', rfl, hg, hb⟩ | ⟨g', b', rfl, hg, hb⟩
  · unfold Norm.forward
    dsimp only
    rw [if_neg (by simp)]
    refine ⟨_, rfl, ⟨rfl, rfl, rfl⟩, fun c => ?_⟩
    obtain ⟨s, t, m, v, a1, a2, a3, a4, a5, a6⟩ := key c
    refine ⟨s, t, m, v, a1, a2, a3, a4, a5, fun k j => ?_⟩
    dsimp only
    rw [a6, hg, hb]
  · unfold Norm.forward
    dsimp only
    rw [if_neg (by simp), if_neg (by omega)]
    refine ⟨_, rfl, ⟨rfl, rfl, rfl⟩, fun c => ?_⟩
    obtain ⟨s, t, m, v, a1, a2, a3, a4, a5, a6⟩ := key c
    refine ⟨s, t, m, v, a1, a2, a3, a4, a5, fun k j => ?_⟩
    dsimp only
    rw [a6, hg, hb]

/-- A linear skip connection, or none. -/
theorem skip_linear (kind : String) (inC outC H W : ℕ) (same : Bool) (w : ℕ → ℕ → ℝ) (b : ℕ → ℝ) (h : kind = "linear" ∨ kind = "none") :
    ∃ S, skipInit kind inC outC same w b = .ok S ∧ ∀ r x, HasShape r inC H W → HasShape x outC H W → ∃ y, S.add r x = .ok y ∧ HasShape y outC H W := by
  rcases h with rfl | rfl
  · refine ⟨.linear ⟨inC, outC, w, some b⟩, by simp [skipInit], fun r x hr hx => ?_⟩
    obtain ⟨z, _, hz, _, sz, _⟩ := conv1_roll (F := ⟨inC, outC, w, some b⟩) (x := r) hr.1 (rolled_refl r)
    obtain ⟨y, hy, sy, _⟩ := addEmbed_same (r := z) (x := x) (sz.1.trans hx.1.symm) (sz.2.1.trans (hr.2.1.trans hx.2.1.symm))
      (sz.2.2.trans (hr.2.2.trans hx.2.2.symm))
    rw [hx.1, hx.2.1, hx.2.2] at sy
    refine ⟨y, ?_, sy⟩
    unfold Skip.add
    dsimp only
    rw [hz]
    exact hy
  · exact ⟨.none, by simp [skipInit], fun r x _ hx => ⟨x, rfl, hx⟩⟩

/-- The perceptron of a block. -/
theorem mlp_channels (inC outC H W : ℕ) (hid : ℤ) (act : ℝ → ℝ) (p : MlpParams) (hi : inC ≠ 0) (ho : outC ≠ 0) (hh : 0 ≤ hid) :
    ∃ M, Mlp.init outC hid inC act p = .ok M ∧ ∀ x, HasShape x outC H W → ∃ y, M.forward x = .ok y ∧ HasShape y inC H W := by
  have a1 : ¬ ((inC : ℤ) = 0) := by exact_mod_cast hi
  have a2 : ¬ (if hid = 0 then (outC : ℤ) else hid) < 0 := by split_ifs <;> omega
  refine ⟨_, by unfold Mlp.init; simp only [if_neg a1, if_neg a2, if_neg ho]; rw [if_neg (by omega)], fun x hx => ?_⟩
  obtain ⟨y, _, hy, _, sy, _⟩ := mlp_roll (M := ⟨⟨outC, (if hid = 0 then (outC : ℤ) else hid).toNat, p.w1, some p.b1⟩, act,
    ⟨(if hid = 0 then (outC : ℤ) else hid).toNat, (inC : ℤ).toNat, p.w2, none⟩⟩) (x := x) hx.1 rfl (rolled_refl x)
  exact ⟨y, hy, by rw [sy.1]; simp, sy.2.1.trans hx.2.1, sy.2.2.trans hx.2.2⟩

/-- C76. A block between different numbers of channels. With the perceptron and skip connections that are linear or absent it returns as many channels as it
takes, on the grid of the inverse transform (the perceptron maps back); identity skip connections are rejected. -/
theorem C76_block_channels (be : C2R) (fwd : RealSHT) (inv : InverseRealSHT) (inC outC L : ℕ) (a : BlockArgs) (p : BlockParams)
    (hf : fwd.lmax = L ∧ fwd.mmax = L) (hi : inv.lmax = L ∧ inv.mmax = L) (hL : 0 < L) (hn : 0 < fwd.nlon ∧ 0 < inv.nlon)
    (hC : inC ≠ 0 ∧ outC ≠ 0 ∧ inC ≠ outC) :
    (a.useMlp = true → (a.norm = "none" ∨ a.norm = "layer_norm" ∨ a.norm = "instance_norm") → (inv.nlat * inv.nlon ≠ 1) →
      (a.inner = "linear" ∨ a.inner = "none") → (a.outer = "linear" ∨ a.outer = "none") → 0 ≤ pyInt (outC * a.mlpRatio) →
      ∃ B, Block.init fwd inv inC outC a p = .ok B ∧ ∀ x, HasShape x inC fwd.nlat fwd.nlon →
        ∃ y, B.forward be x = .ok y ∧ HasShape y inC inv.nlat inv.nlon) ∧
    (a.inner = "identity" → Block.init fwd inv inC outC a p = .error .valueError) ∧
    (a.useMlp = false → a.norm = "none" → a.inner = "none" → a.outer = "identity" → Block.init fwd inv inC outC a p = .error .valueError) ∧
    (a.useMlp = false → a.norm = "none" → a.inner = "none" → a.outer = "linear" → 2 ≤ inC → 2 ≤ outC →
      ∃ B, Block.init fwd inv inC outC a p = .ok B ∧ ∀ x, HasShape x inC fwd.nlat fwd.nlon → B.forward be x = .error .runtimeError) := by
  obtain ⟨c1, c2, c3⟩ := hC
  have e1 : SpecLayer.init fwd inv inC outC "driscoll-healy" p.weight (if a.bias then some p.bias else none)
      = .ok ⟨fwd, inv, inC, outC, .driscollHealy, p.weight, if a.bias then some p.bias else none⟩ := by
    simp [SpecLayer.init, c1]
  have hF : Fits ⟨fwd, inv, inC, outC, .driscollHealy, p.weight, if a.bias then some p.bias else none⟩ L :=
    ⟨hf.1, hf.2, hi.1, hi.2, hL, hn.1, hn.2, rfl⟩
  have spec : ∀ x, HasShape x inC fwd.nlat fwd.nlon → ∃ y r,
      SpecLayer.forward be ⟨fwd, inv, inC, outC, .driscollHealy, p.weight, if a.bias then some p.bias else none⟩ x = .ok (y, r) ∧
        HasShape y outC inv.nlat inv.nlon ∧ HasShape r inC inv.nlat inv.nlon := fun x hx => by
    obtain ⟨y, _, r, _, h1, _, h2, h3, _⟩ := spec_roll be (s := 0) (s' := 0) hF (by simp) hx.1 hx.2.1 hx.2.2 (rolled_refl x)
    exact ⟨y, r, h1, h2, h3⟩
  refine ⟨fun hm hno hpix hin hou hr => ?_, fun h => ?_, fun hm hno hin hou => ?_, fun hm hno hin hou h2 h2' => ?_⟩
  · obtain ⟨S1, i1, f1⟩ := skip_linear a.inner inC outC inv.nlat inv.nlon (inC = outC) p.innerW p.innerB hin
    obtain ⟨S2, i2, f2⟩ := skip_linear a.outer inC inC inv.nlat inv.nlon (inC = outC) p.outerW p.outerB hou
    obtain ⟨M, i3, f3⟩ := mlp_channels inC outC inv.nlat inv.nlon (pyInt (outC * a.mlpRatio)) a.act p.mlp c1 c2 hr
    obtain ⟨N, i4, f4⟩ : ∃ N, normInit a.norm inv.nlat inv.nlon outC p = .ok N ∧ ∀ x, HasShape x outC inv.nlat inv.nlon →
        ∃ y, N.forward x = .ok y ∧ HasShape y outC inv.nlat inv.nlon := by
      rcases hno with h | h | h
      · exact ⟨.none, by simp [normInit, h], fun x hx => ⟨x, rfl, hx⟩⟩
      · refine ⟨.layer inv.nlat inv.nlon p.layerG p.layerB, by simp [normInit, h], fun x hx => ?_⟩
        obtain ⟨y, _, hy, _, sy, _⟩ := norm_roll (N := .layer inv.nlat inv.nlon p.layerG p.layerB) (rolled_refl x) (by rw [hx.2.1, hx.2.2]; exact hpix)
          ⟨hx.2.1.symm, hx.2.2.symm, rfl⟩
        exact ⟨y, hy, sy.1.trans hx.1, sy.2.1.trans hx.2.1, sy.2.2.trans hx.2.2⟩
      · refine ⟨.inst outC p.instG p.instB, by simp [normInit, h], fun x hx => ?_⟩
        obtain ⟨y, _, hy, _, sy, _⟩ := norm_roll (N := .inst outC p.instG p.instB) (rolled_refl x) (by rw [hx.2.1, hx.2.2]; exact hpix) hx.1.symm
        exact ⟨y, hy, sy.1.trans hx.1, sy.2.1.trans hx.2.1, sy.2.2.trans hx.2.2⟩
    refine ⟨_, by unfold Block.init; rw [e1, except_bind_ok, i1, except_bind_ok, i4, except_bind_ok, if_pos hm, i3, i2]; rfl, fun x hx => ?_⟩
    obtain ⟨y, r, g1, sy, sr⟩ := spec x hx
    obtain ⟨y2, g2, s2⟩ := f4 y sy
    obtain ⟨y3, g3, s3⟩ := f1 r y2 sr s2
    obtain ⟨y4, g4, s4⟩ := f3 y3 s3
    obtain ⟨y5, g5, s5⟩ := f2 r y4 sr s4
    refine ⟨y5, ?_, s5⟩
    unfold Block.forward
    rw [g1, except_bind_ok]
    dsimp only
    rw [g2, except_bind_ok, g3, except_bind_ok]
    show (M.forward y3 >>= fun y => S2.add r y) = _
    rw [g4]
    exact g5
  · unfold Block.init
    rw [e1, except_bind_ok]
    have : skipInit a.inner inC outC (inC = outC) p.innerW p.innerB = .error .valueError := by simp [skipInit, h, c3]
    rw [this]; rfl
  · unfold Block.init
    rw [e1, except_bind_ok]
    simp [skipInit, hin, hou, hno, normInit, hm, c3, except_bind_ok]
  · refine ⟨_, by unfold Block.init; rw [e1, except_bind_ok]; simp only [skipInit, hin, hou, hno, normInit, hm]; rfl, fun x hx => ?_⟩
    obtain ⟨y, r, g1, sy, sr⟩ := spec x hx
    obtain ⟨z, _, g2, _, sz, _⟩ := conv1_roll (F := ⟨inC, inC, p.outerW, some p.outerB⟩) (x := r) sr.1 (rolled_refl r)
    unfold Block.forward
    rw [g1, except_bind_ok]
    show (match Conv1.forward ⟨inC, inC, p.outerW, some p.outerB⟩ r with | .error e => Except.error e | .ok r => addEmbed r y) = _
    rw [g2]
    dsimp only
    unfold addEmbed
    dsimp only
    rw [if_neg]
    have z0 : z.d0 = inC := sz.1
    have n1 : ¬ outC = inC := fun h => c3 h.symm
    have n2 : ¬ outC = 1 := by omega
    have n3 : ¬ inC = 1 := by omega
    simp [sy.1, z0, n1, n2, n3]

/-- The hypotheses of `C76_block_channels` are met by a block from 2 to 3 channels between grids of different sizes. -/
example : ∃ (fwd : RealSHT) (inv : InverseRealSHT) (a : BlockArgs), (fwd.lmax = 4 ∧ fwd.mmax = 4) ∧ (inv.lmax = 4 ∧ inv.mmax = 4) ∧ fwd.nlon ≠ inv.nlon ∧
    (0 < fwd.nlon ∧ 0 < inv.nlon) ∧ inv.nlat * inv.nlon ≠ 1 ∧ a.useMlp = true ∧ a.norm = "instance_norm" ∧ a.inner = "linear" ∧ a.outer = "linear" ∧
    0 ≤ pyInt (((3 : ℕ) : ℝ) * a.mlpRatio) :=
  ⟨⟨8, 16, 4, 4, fun m l k => m + l + k⟩, ⟨4, 8, 4, 4, fun m l k => m + l + k⟩, ⟨2, relu, "instance_norm", "linear", "linear", true, true⟩,
    ⟨rfl, rfl⟩, ⟨rfl, rfl⟩, by norm_num, by norm_num, by norm_num, rfl, rfl, rfl, rfl, by
      unfold pyInt
      norm_num⟩

/-- A two-pixel channel with values 1 and 3 has mean 2 and variance 1. -/
example : ∃ x : Ten3 ℝ, 2 ≤ x.d1 * x.d2 ∧ x.val 0 0 0 = 1 ∧ x.val 0 0 1 = 3 ∧ imgMean x.d1 x.d2 (x.val 0) = 2 ∧ imgVar x.d1 x.d2 (x.val 0) = 1 := by
  refine ⟨⟨1, 1, 2, fun _ _ j => 1 + 2 * j⟩, by norm_num, by norm_num, by norm_num, ?_, ?_⟩
  · simp [imgMean, sum_range_succ]; norm_num
  · simp [imgVar, imgMean, sum_range_succ]; norm_num

end Verif.Props
