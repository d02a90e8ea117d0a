import Mathlib.Analysis.Real.Pi.Bounds
import Verif.Model.FilterNorm
import Verif.Spec.Bessel
import Verif.Lemmas.Bessel
import Verif.Props.Zernike
/-!
C75: what `get_filter_basis` returns: the harmonic and the Fourier-Bessel families, their normalisation, their scaling with the cutoff
radius, and the rejected arguments.
-/
namespace Verif.Props
open Verif Verif.Filter Verif.Spec Finset

/-! ### Arguments -/

/-- C75: the kinds of basis and the kernel shapes that are accepted; everything else raises. -/
theorem C75_errors (jn : ℕ → ℝ → ℝ) (zero : ℕ → ℕ → ℝ) (arg : ShapeArg) (ty : String) :
    (ty ∉ ["piecewise linear", "harmonic", "zernike", "fourier-bessel", "morlet"] → getFilterBasis jn zero arg ty = .error .valueError) ∧
    (∀ n, arg = .int n → ty ∈ ["piecewise linear", "harmonic", "zernike", "fourier-bessel", "morlet"] →
      ∃ b, getFilterBasis jn zero arg ty = .ok b) ∧
    (∀ l, arg = .seq l →
      (ty = "piecewise linear" ∨ ty = "fourier-bessel" →
        if l.length = 1 ∨ l.length = 2 then ∃ b, getFilterBasis jn zero arg ty = .ok b else getFilterBasis jn zero arg ty = .error .valueError) ∧
      (ty = "harmonic" ∨ ty = "morlet" →
        if l.length = 2 then ∃ b, getFilterBasis jn zero arg ty = .ok b else getFilterBasis jn zero arg ty = .error .valueError) ∧
      (ty = "zernike" →
        if l.length = 0 then getFilterBasis jn zero arg ty = .error .indexError else ∃ b, getFilterBasis jn zero arg ty = .ok b)) := by
  refine ⟨?_, ?_, ?_⟩
  · intro h
    simp only [List.mem_cons, List.not_mem_nil, or_false, not_or] at h
    obtain ⟨h1, h2, h3, h4, h5⟩ := h
    simp [getFilterBasis, h1, h2, h3, h4, h5]
  · rintro n rfl h
    simp only [List.mem_cons, List.not_mem_nil, or_false] at h
    rcases h with rfl | rfl | rfl | rfl | rfl <;>
      simp [getFilterBasis, plShape, harmonicShape, zernikeShape, fbShape]
  · rintro l rfl
    refine ⟨?_, ?_, ?_⟩
    · rintro (rfl | rfl) <;> match l with
        | [] => simp [getFilterBasis, plShape, fbShape]
        | [a] => simp [getFilterBasis, plShape, fbShape]
        | [a, b] => simp [getFilterBasis, plShape, fbShape]
        | a :: b :: c :: t => simp [getFilterBasis, plShape, fbShape]
    · rintro (rfl | rfl) <;> match l with
        | [] => simp [getFilterBasis, harmonicShape]
        | [a] => simp [getFilterBasis, harmonicShape]
        | [a, b] => simp [getFilterBasis, harmonicShape]
        | a :: b :: c :: t => simp [getFilterBasis, harmonicShape]
    · rintro rfl
      match l with
        | [] => simp [getFilterBasis, zernikeShape]
        | a :: t => simp [getFilterBasis, zernikeShape]

/-- C75: an integer shape means the square shape for the two-index families and the isotropic one for the piecewise linear filters. -/
theorem C75_int (jn : ℕ → ℝ → ℝ) (zero : ℕ → ℕ → ℝ) (n : ℕ) :
    (∀ ty ∈ ["harmonic", "morlet", "fourier-bessel"], getFilterBasis jn zero (.int n) ty = getFilterBasis jn zero (.seq [n, n]) ty) ∧
    getFilterBasis jn zero (.int n) "piecewise linear" = getFilterBasis jn zero (.seq [n, 1]) "piecewise linear" ∧
    (∀ t, getFilterBasis jn zero (.int n) "zernike" = getFilterBasis jn zero (.seq (n :: t)) "zernike") := by
  refine ⟨?_, ?_, ?_⟩
  · intro ty h
    simp only [List.mem_cons, List.not_mem_nil, or_false] at h
    rcases h with rfl | rfl | rfl <;> simp [getFilterBasis, harmonicShape, fbShape]
  · simp [getFilterBasis, plShape]
  · intro t
    simp [getFilterBasis, zernikeShape]

/-! ### Harmonic filters -/

theorem harmonicFreq_even (q : ℕ) : harmonicFreq (2 * q) = q := by
  unfold harmonicFreq
  rw [show (((2 * q : ℕ) : ℝ) / 2) = ((q : ℤ) : ℝ) by push_cast; ring, Int.ceil_intCast]
  norm_num

theorem harmonicFreq_odd (q : ℕ) : harmonicFreq (2 * q + 1) = q + 1 := by
  unfold harmonicFreq
  have : ⌈((2 * q + 1 : ℕ) : ℝ) / 2⌉ = (q : ℤ) + 1 := by
    rw [Int.ceil_eq_iff]
    push_cast
    constructor <;> linarith
  rw [this]
  push_cast
  ring

theorem harmonicFactor_trigSeq (n : ℕ) (x : ℝ) : harmonicFactor 1 n x = trigSeq n x := by
  unfold harmonicFactor
  rcases Nat.even_or_odd' n with ⟨q, rfl | rfl⟩
  · rw [if_neg (by omega), harmonicFreq_even]
    rcases q with _ | q
    · simp [trigSeq]
    · rw [show 2 * (q + 1) = (2 * q + 1) + 1 by ring]
      simp only [trigSeq]
      rw [if_neg (by omega), show (2 * q + 1) / 2 = q by omega]
      rw [div_one]
  · rw [if_pos (by omega), harmonicFreq_odd]
    simp only [trigSeq]
    rw [if_pos (by omega), show 2 * q / 2 = q by omega, div_one]
    push_cast
    rfl

theorem hann_eq (u : ℝ) : hann 1 u = (1 + Real.cos (Real.pi * u)) / 2 := by
  unfold hann
  rw [Real.cos_sq, show 2 * (0.5 * Real.pi * u / 1) = Real.pi * u by ring]
  ring

/-- C75: the harmonic filters of shape `(s0, s1)` are the `s0 * s1` products of the first `s1` functions `1, sin, cos, sin 2, ...` in `x`
with the first `s0` of them in `y`, under a Hann window of radius `rc`, each divided by one positive number; nothing is stored
outside the disk. The deprecated "morlet" basis is the same family without the division. -/
theorem C75_harmonic (jn : ℕ → ℝ → ℝ) (zero : ℕ → ℕ → ℝ) (s0 s1 : ℕ) :
    ∃ bh bm : FBasis, ∃ c : ℕ → ℝ, getFilterBasis jn zero (.seq [s0, s1]) "harmonic" = .ok bh ∧
      getFilterBasis jn zero (.seq [s0, s1]) "morlet" = .ok bm ∧ bh.size = s0 * s1 ∧ bm.size = s0 * s1 ∧ (∀ k, 0 < c k) ∧
      ∀ a < s0, ∀ b < s1, ∀ rc r phi,
        bm.val rc r phi (a * s1 + b) = (if r ≤ rc then some (harmonicFn b a (r / rc) phi) else none) ∧
        bh.val rc r phi (a * s1 + b) = (if r ≤ rc then some (harmonicFn b a (r / rc) phi / c (a * s1 + b)) else none) := by
  refine ⟨_, _, fun k => max (l2Norm (fun rc r phi => harmonicVal s1 none 1 rc r phi k) 1 50 200) 1e-12, rfl, rfl, rfl, rfl, ?_, ?_⟩
  · intro k
    exact lt_max_of_lt_right (by norm_num)
  · intro a ha b hb rc r phi
    have h1 : (a * s1 + b) % s1 = b := by
      rw [Nat.add_comm, Nat.add_mul_mod_self_right, Nat.mod_eq_of_lt hb]
    have h2 : (a * s1 + b) / s1 = a := by
      rw [Nat.add_comm, Nat.add_mul_div_right _ _ (by omega), Nat.div_eq_of_lt hb, Nat.zero_add]
    simp only [harmonicVal, harmonicNorms, h1, h2, harmonicFactor_trigSeq, hann_eq, harmonicFn, if_true, Bool.false_eq_true, if_false, and_self]

/-- C75: distinct kernel indices mean distinct pairs, and every index is such a pair. -/
theorem C75_harmonic_index (s0 s1 k : ℕ) (hk : k < s0 * s1) : ∃! p : ℕ × ℕ, p.1 < s0 ∧ p.2 < s1 ∧ k = p.1 * s1 + p.2 := by
  have hs : 0 < s1 := by
    rcases Nat.eq_zero_or_pos s1 with rfl | h
    · simp at hk
    · exact h
  refine ⟨(k / s1, k % s1), ⟨?_, Nat.mod_lt _ hs, (Nat.div_add_mod' k s1).symm⟩, ?_⟩
  · exact (Nat.div_lt_iff_lt_mul hs).2 hk
  · rintro ⟨a, b⟩ ⟨_, hb, rfl⟩
    dsimp only at hb ⊢
    rw [Prod.mk.injEq]
    refine ⟨?_, ?_⟩
    · rw [Nat.add_comm, Nat.add_mul_div_right _ _ hs, Nat.div_eq_of_lt hb, Nat.zero_add]
    · rw [Nat.add_comm, Nat.add_mul_mod_self_right, Nat.mod_eq_of_lt hb]

theorem trigSeq_abs_le (n : ℕ) (x : ℝ) : |trigSeq n x| ≤ 1 := by
  cases n with
  | zero => simp [trigSeq]
  | succ n =>
    simp only [trigSeq]
    split
    · exact Real.abs_sin_le_one _
    · exact Real.abs_cos_le_one _

/-- C75: the filters vanish on the rim (so the filter is continuous across the cutoff), the constant one is 1 in the centre, and no
unnormalised filter exceeds 1 in magnitude. -/
theorem C75_harmonic_window (a b : ℕ) (phi : ℝ) :
    harmonicFn a b 1 phi = 0 ∧ harmonicFn 0 0 0 phi = 1 ∧ ∀ u, |harmonicFn a b u phi| ≤ 1 := by
  refine ⟨by simp [harmonicFn], by simp [harmonicFn, trigSeq], ?_⟩
  intro u
  unfold harmonicFn
  rw [abs_mul, abs_mul]
  have h1 : |(1 + Real.cos (Real.pi * u)) / 2| ≤ 1 := by
    rw [abs_le]
    have h2 := Real.cos_le_one (Real.pi * u)
    have h3 := Real.neg_one_le_cos (Real.pi * u)
    constructor <;> linarith
  have h2 := trigSeq_abs_le a (u * Real.sin phi)
  have h3 := trigSeq_abs_le b (u * Real.cos phi)
  have h4 : |trigSeq a (u * Real.sin phi)| * |trigSeq b (u * Real.cos phi)| ≤ 1 := mul_le_one₀ h2 (abs_nonneg _) h3
  exact mul_le_one₀ h1 (by positivity) h4

/-! ### Scaling with the cutoff -/

theorem scale_abs {rc : ℝ} (h : 0 < rc) (r c n : ℝ) : |r - c * (2 * rc / n)| = rc * |r / rc - c * (2 * 1 / n)| := by
  rw [← abs_of_pos h, ← abs_mul, abs_of_pos h]
  congr 1
  have := h.ne'
  field_simp

theorem scale_dr {rc : ℝ} (n : ℝ) : 2 * rc / n = rc * (2 * 1 / n) := by ring

theorem scale_le {rc : ℝ} (h : 0 < rc) (r : ℝ) : r ≤ rc ↔ r / rc ≤ 1 := (div_le_one h).symm

theorem plIso_scale (nr : ℕ) {rc : ℝ} (h : 0 < rc) (r : ℝ) (k : ℕ) : plIso nr rc r k = plIso nr 1 (r / rc) k := by
  unfold plIso
  dsimp only
  have e : ∀ c : ℝ, (|r - c * (2 * rc / ((nr : ℝ) + 1))| ≤ 2 * rc / ((nr : ℝ) + 1) ∧ r ≤ rc) ↔
      (|r / rc - c * (2 * 1 / ((nr : ℝ) + 1))| ≤ 2 * 1 / ((nr : ℝ) + 1) ∧ r / rc ≤ 1) := by
    intro c
    rw [scale_abs h, scale_le h r, scale_dr (rc := rc), mul_le_mul_iff_right₀ h]
  have v : ∀ c : ℝ, |r - c * (2 * rc / ((nr : ℝ) + 1))| / (2 * rc / ((nr : ℝ) + 1))
      = |r / rc - c * (2 * 1 / ((nr : ℝ) + 1))| / (2 * 1 / ((nr : ℝ) + 1)) := by
    intro c
    rw [scale_abs h, scale_dr (rc := rc), mul_div_mul_left _ _ h.ne']
  split
  · simp only [e, v]
  · simp only [e, v]

theorem plAnisoOdd_scale (nr nphi : ℕ) {rc : ℝ} (h : 0 < rc) (r phi : ℝ) (k : ℕ) :
    plAnisoOdd nr nphi rc r phi k = plAnisoOdd nr nphi 1 (r / rc) phi k := by
  unfold plAnisoOdd
  dsimp only
  have e : ∀ c : ℝ, (|r - c * (2 * rc / ((nr : ℝ) + 1))| ≤ 2 * rc / ((nr : ℝ) + 1) ∧ r ≤ rc) ↔
      (|r / rc - c * (2 * 1 / ((nr : ℝ) + 1))| ≤ 2 * 1 / ((nr : ℝ) + 1) ∧ r / rc ≤ 1) := by
    intro c
    rw [scale_abs h, scale_le h r, scale_dr (rc := rc), mul_le_mul_iff_right₀ h]
  have v : ∀ c : ℝ, |r - c * (2 * rc / ((nr : ℝ) + 1))| / (2 * rc / ((nr : ℝ) + 1))
      = |r / rc - c * (2 * 1 / ((nr : ℝ) + 1))| / (2 * 1 / ((nr : ℝ) + 1)) := by
    intro c
    rw [scale_abs h, scale_dr (rc := rc), mul_div_mul_left _ _ h.ne']
  simp only [e, v]

theorem plAnisoEven_scale (nr nphi : ℕ) {rc : ℝ} (h : 0 < rc) (r phi : ℝ) (k : ℕ) :
    plAnisoEven nr nphi rc r phi k = plAnisoEven nr nphi 1 (r / rc) phi k := by
  unfold plAnisoEven
  dsimp only
  have e : ∀ s c : ℝ, (|s - c * (2 * rc / ((nr : ℝ) + 1))| ≤ 2 * rc / ((nr : ℝ) + 1) ∧ s ≤ rc) ↔
      (|s / rc - c * (2 * 1 / ((nr : ℝ) + 1))| ≤ 2 * 1 / ((nr : ℝ) + 1) ∧ s / rc ≤ 1) := by
    intro s c
    rw [scale_abs h, scale_le h s, scale_dr (rc := rc), mul_le_mul_iff_right₀ h]
  have v : ∀ s c : ℝ, |s - c * (2 * rc / ((nr : ℝ) + 1))| / (2 * rc / ((nr : ℝ) + 1))
      = |s / rc - c * (2 * 1 / ((nr : ℝ) + 1))| / (2 * 1 / ((nr : ℝ) + 1)) := by
    intro s c
    rw [scale_abs h, scale_dr (rc := rc), mul_div_mul_left _ _ h.ne']
  simp only [e, v, neg_div]

/-- C75: every basis is a function of the radius relative to the cutoff: changing the cutoff stretches the filters and does nothing
else. -/
theorem C75_scale (jn : ℕ → ℝ → ℝ) (zero : ℕ → ℕ → ℝ) (arg : ShapeArg) (ty : String) (b : FBasis) (hb : getFilterBasis jn zero arg ty = .ok b)
    (rc : ℝ) (hrc : 0 < rc) (r phi : ℝ) (k : ℕ) : b.val rc r phi k = b.val 1 (r / rc) phi k := by
  have hl : (r ≤ rc) = (r / rc ≤ 1) := propext (scale_le hrc r)
  unfold getFilterBasis at hb
  split at hb
  · split at hb
    · cases hb
    · cases hb
      dsimp only
      unfold plVal
      split
      · split
        · exact plAnisoOdd_scale _ _ hrc _ _ _
        · exact plAnisoEven_scale _ _ hrc _ _ _
      · exact plIso_scale _ hrc _ _
  split at hb
  · split at hb
    · cases hb
    · cases hb
      simp only [harmonicVal, hl, div_one]
  split at hb
  · split at hb
    · cases hb
    · cases hb
      simp only [zernikeVal, hl, div_one]
  split at hb
  · split at hb
    · cases hb
    · cases hb
      simp only [fbVal, hl, div_one]
  split at hb
  · split at hb
    · cases hb
    · cases hb
      simp only [harmonicVal, hl, div_one]
  · cases hb

/-! ### Numerical norms -/

theorem l2Norm_scale (val : ℝ → ℝ → ℝ → Option ℝ) (rc : ℝ) (hrc : 0 < rc) (hs : ∀ r phi, val rc r phi = val 1 (r / rc) phi) (nr nphi : ℕ) :
    l2Norm val rc nr nphi = rc * l2Norm val 1 nr nphi := by
  unfold l2Norm
  dsimp only
  have hsq : ∀ S : ℝ, rc * Real.sqrt S = Real.sqrt (rc ^ 2 * S) := by
    intro S
    rw [Real.sqrt_mul (sq_nonneg rc), Real.sqrt_sq hrc.le]
  rw [hsq]
  congr 1
  rw [mul_sum]
  apply sum_congr rfl
  intro i _
  rw [mul_sum]
  apply sum_congr rfl
  intro j _
  rw [hs]
  have e : ((i : ℝ) + 0.5) * (rc / nr) / rc = ((i : ℝ) + 0.5) * (1 / nr) := by
    have := hrc.ne'
    field_simp
  rw [e]
  ring

theorem l2Norm_div (v w : ℝ → ℝ → ℝ → Option ℝ) (rc N : ℝ) (hN : 0 < N) (h : ∀ r phi, (v rc r phi).getD 0 = (w rc r phi).getD 0 / N)
    (nr nphi : ℕ) : l2Norm v rc nr nphi = l2Norm w rc nr nphi / N := by
  unfold l2Norm
  dsimp only
  have hs : ∀ S : ℝ, Real.sqrt S / N = Real.sqrt (S / N ^ 2) := by
    intro S
    rw [Real.sqrt_div' _ (sq_nonneg N), Real.sqrt_sq hN.le]
  rw [hs]
  congr 1
  rw [sum_div]
  apply sum_congr rfl
  intro i _
  rw [sum_div]
  apply sum_congr rfl
  intro j _
  rw [h]
  ring

/-- C75: the stored normalisation makes the discrete norm of every harmonic filter, on the sampling of the code, equal to the cutoff
radius (1 on the unit disk), unless the unnormalised norm is below the floor. -/
theorem C75_harmonic_norm (jn : ℕ → ℝ → ℝ) (zero : ℕ → ℕ → ℝ) (s0 s1 : ℕ) (bh bm : FBasis)
    (hh : getFilterBasis jn zero (.seq [s0, s1]) "harmonic" = .ok bh) (hm : getFilterBasis jn zero (.seq [s0, s1]) "morlet" = .ok bm)
    (k : ℕ) (hk : 1e-12 ≤ l2Norm (fun rc r phi => bm.val rc r phi k) 1 50 200) (rc : ℝ) (hrc : 0 < rc) :
    l2Norm (fun rc r phi => bh.val rc r phi k) rc 50 200 = rc := by
  rw [l2Norm_scale _ rc hrc (fun r phi => C75_scale jn zero _ _ bh hh rc hrc r phi k)]
  have hm' : bm = ⟨harmonicKernelSize s0 s1, fun rc r phi k => harmonicVal s1 (harmonicNorms s1 false) 1 rc r phi k⟩ := by
    simpa [getFilterBasis, harmonicShape] using hm.symm
  have hh' : bh = ⟨harmonicKernelSize s0 s1, fun rc r phi k => harmonicVal s1 (harmonicNorms s1 true) 1 rc r phi k⟩ := by
    simpa [getFilterBasis, harmonicShape] using hh.symm
  subst hm' hh'
  simp only [harmonicNorms, Bool.false_eq_true, if_false, if_true] at hk ⊢
  set N := l2Norm (fun rc r phi => harmonicVal s1 none 1 rc r phi k) 1 50 200 with hN
  have hpos : 0 < N := lt_of_lt_of_le (by norm_num) hk
  rw [l2Norm_div _ (fun rc r phi => harmonicVal s1 none 1 rc r phi k) 1 N hpos, ← hN, div_self hpos.ne', mul_one]
  intro r phi
  rw [harmonicVal, harmonicVal]
  split
  · dsimp only [Option.getD_some]
    rw [← hN, max_eq_left hk]
  · simp

/-- The hypothesis of C75_harmonic_norm holds for the first filter, whatever the shape. -/
example (jn : ℕ → ℝ → ℝ) (zero : ℕ → ℕ → ℝ) (s0 s1 : ℕ) (h0 : 0 < s0) (h1 : 0 < s1) (bm : FBasis)
    (hm : getFilterBasis jn zero (.seq [s0, s1]) "morlet" = .ok bm) :
    1e-12 ≤ l2Norm (fun rc r phi => bm.val rc r phi 0) 1 50 200 := by
  obtain ⟨_, bm', _, _, h, _, _, _, hv⟩ := C75_harmonic jn zero s0 s1
  rw [hm] at h
  cases h
  have hval : ∀ r phi : ℝ, bm.val 1 r phi 0 = if r ≤ 1 then some (harmonicFn 0 0 (r / 1) phi) else none := fun r phi => by
    have := (hv 0 h0 0 h1 1 r phi).1
    rwa [Nat.zero_mul, Nat.zero_add] at this
  unfold l2Norm
  dsimp only
  apply Real.le_sqrt_of_sq_le
  have hnn : ∀ i j : ℕ, (0 : ℝ) ≤ ((bm.val 1 (((i : ℝ) + 0.5) * (1 / (50 : ℕ))) ((j : ℝ) * (2 * Real.pi / (200 : ℕ))) 0).getD 0) ^ 2
      * (((i : ℝ) + 0.5) * (1 / (50 : ℕ))) * (1 / (50 : ℕ)) * (2 * Real.pi / (200 : ℕ)) := by
    intro i j
    have := Real.pi_pos
    positivity
  refine le_trans ?_ (single_le_sum (fun i _ => sum_nonneg fun j _ => hnn i j) (mem_range.2 (show 0 < 50 by norm_num)))
  refine le_trans ?_ (single_le_sum (fun j _ => hnn 0 j) (mem_range.2 (show 0 < 200 by norm_num)))
  rw [hval, if_pos (by norm_num)]
  simp only [Option.getD_some, harmonicFn, trigSeq, mul_one]
  have hc : (1 : ℝ) / 2 ≤ (1 + Real.cos (Real.pi * ((((0 : ℕ) : ℝ) + 0.5) * (1 / (50 : ℕ)) / 1))) / 2 := by
    have : 0 ≤ Real.cos (Real.pi * ((((0 : ℕ) : ℝ) + 0.5) * (1 / (50 : ℕ)) / 1)) := by
      apply Real.cos_nonneg_of_mem_Icc
      have := Real.pi_pos
      constructor <;> norm_num <;> linarith
    linarith
  have hpi := Real.pi_gt_three
  have hsq : (1 / 4 : ℝ) ≤ ((1 + Real.cos (Real.pi * ((((0 : ℕ) : ℝ) + 0.5) * (1 / (50 : ℕ)) / 1))) / 2) ^ 2 := by nlinarith
  have h3 : (3 : ℝ) / 100 ≤ 2 * Real.pi / (200 : ℕ) := by push_cast; linarith
  calc (1e-12 : ℝ) ^ 2 ≤ 1 / 4 * ((((0 : ℕ) : ℝ) + 0.5) * (1 / (50 : ℕ))) * (1 / (50 : ℕ)) * (3 / 100) := by norm_num
    _ ≤ _ := by gcongr

/-! ### Fourier-Bessel filters -/

theorem fbIndex_mem (zero : ℕ → ℕ → ℝ) (nmax mmax : ℕ) (hz : BesselZeros zero nmax mmax) (a : ℝ) (m n : ℕ) (c : Bool) :
    (a, m, n, c) ∈ fbIndex zero nmax mmax ↔
      a = zero m n ∧ m ≤ mmax ∧ 1 ≤ n ∧ n ≤ nmax ∧ zero m n ≤ zero 0 nmax ∧ (m = 0 → c = true) := by
  constructor
  · intro h
    obtain ⟨h1, h2, h3, h4, h5, h6, _⟩ := (C60_fourier_bessel zero nmax mmax).2.2 _ h
    dsimp only at h1 h2 h3 h4 h5 h6
    exact ⟨h1, h3, h4, h5, h1 ▸ h2, h6⟩
  · rintro ⟨rfl, h1, h2, h3, h4, h5⟩
    unfold fbIndex
    rw [List.mem_mergeSort, List.mem_flatMap]
    refine ⟨m, List.mem_range.2 (by omega), ?_⟩
    rw [List.mem_flatMap]
    refine ⟨n, ?_, ?_⟩
    · -- everything before `n` passes the test
      have : ∀ j, j ≤ nmax → ∀ s, 1 ≤ s → s ≤ n → n < s + j → s + j ≤ nmax + 1 →
          n ∈ ((List.range' s j).takeWhile fun n => decide (¬ zero m n > zero 0 nmax)) := by
        intro j
        induction j with
        | zero => intro _ s _ h1 h2; omega
        | succ j ih =>
          intro hj s hs hsn hn hle
          rw [List.range'_succ]
          have hzs : zero m s ≤ zero m n := by
            rcases hsn.lt_or_eq with h | h
            · exact (hz.incr m s n h1 hs h h3).le
            · rw [h]
          rw [List.takeWhile_cons_of_pos (by simp; linarith)]
          rcases hsn.lt_or_eq with h | h
          · exact List.mem_cons_of_mem _ (ih (by omega) (s + 1) (by omega) (by omega) (by omega) (by omega))
          · rw [h]; exact List.mem_cons_self
      have e : (List.range nmax).map (· + 1) = List.range' 1 nmax := by
        rw [List.range_eq_range', List.range'_eq_map_range, List.range'_eq_map_range]
        simp [Nat.add_comm]
      rw [e]
      exact this nmax (le_refl _) 1 (le_refl _) h2 (by omega) (by omega)
    · split
      · cases c <;> simp
      · rw [h5 (by omega)]; simp

theorem fbIndex_nodup (zero : ℕ → ℕ → ℝ) (nmax mmax : ℕ) : (fbIndex zero nmax mmax).Nodup := by
  unfold fbIndex
  rw [(List.mergeSort_perm _ _).nodup_iff, List.nodup_flatMap]
  refine ⟨?_, ?_⟩
  · intro m _
    rw [List.nodup_flatMap]
    refine ⟨?_, ?_⟩
    · intro n _
      split <;> simp
    · have : (((List.range nmax).map (· + 1)).takeWhile fun n => decide (¬ zero m n > zero 0 nmax)).Nodup :=
        (List.takeWhile_sublist _).nodup ((List.nodup_map_iff (fun a b h => by simpa using h)).2 List.nodup_range)
      refine this.imp ?_
      intro n n' hne e h1 h2
      have e1 : e.2.2.1 = n := by
        split at h1
        · simp only [List.mem_cons, List.not_mem_nil, or_false] at h1
          rcases h1 with rfl | rfl <;> rfl
        · simp only [List.mem_cons, List.not_mem_nil, or_false] at h1
          rw [h1]
      have e2 : e.2.2.1 = n' := by
        split at h2
        · simp only [List.mem_cons, List.not_mem_nil, or_false] at h2
          rcases h2 with rfl | rfl <;> rfl
        · simp only [List.mem_cons, List.not_mem_nil, or_false] at h2
          rw [h2]
      exact hne (e1.symm.trans e2)
  · refine (List.nodup_range).imp ?_
    intro m m' hne e h1 h2
    rw [List.mem_flatMap] at h1 h2
    obtain ⟨n, _, h1⟩ := h1
    obtain ⟨n', _, h2⟩ := h2
    have e1 : e.2.1 = m := by
      split at h1
      · simp only [List.mem_cons, List.not_mem_nil, or_false] at h1
        rcases h1 with rfl | rfl <;> rfl
      · simp only [List.mem_cons, List.not_mem_nil, or_false] at h1
        rw [h1]
    have e2 : e.2.1 = m' := by
      split at h2
      · simp only [List.mem_cons, List.not_mem_nil, or_false] at h2
        rcases h2 with rfl | rfl <;> rfl
      · simp only [List.mem_cons, List.not_mem_nil, or_false] at h2
        rw [h2]
    exact hne (e1.symm.trans e2)

/-- C75: the Fourier-Bessel basis of shape `(nmax, mmax)` has one function for every zero of `J_0, ..., J_mmax` that does not exceed the
`nmax`-th zero of `J_0` — twice (cosine and sine) for positive order — in the order of the zeros, that is of the eigenvalues. -/
theorem C75_fb_index (zero : ℕ → ℕ → ℝ) (nmax mmax : ℕ) (hz : BesselZeros zero nmax mmax) :
    (fbIndex zero nmax mmax).Nodup ∧ (fbIndex zero nmax mmax).Pairwise (fun a b => a.1 ≤ b.1) ∧
    ∀ a m n c, (a, m, n, c) ∈ fbIndex zero nmax mmax ↔
      a = zero m n ∧ m ≤ mmax ∧ 1 ≤ n ∧ n ≤ nmax ∧ zero m n ≤ zero 0 nmax ∧ (m = 0 → c = true) :=
  ⟨fbIndex_nodup zero nmax mmax, (C60_fourier_bessel zero nmax mmax).2.1, fbIndex_mem zero nmax mmax hz⟩

/-- The azimuthal order with the sign of the angular factor. -/
def signedOrder (m : ℕ) (c : Bool) : ℤ := if c then m else -m

theorem fb_angular (m : ℕ) (c : Bool) (h : m = 0 → c = true) (phi : ℝ) :
    (if c then Real.cos (m * phi) else Real.sin (m * phi)) = (if c then 1 else -1) * angular (signedOrder m c) phi := by
  unfold signedOrder angular
  cases c with
  | true => simp
  | false =>
    have hm : 0 < m := by
      rcases Nat.eq_zero_or_pos m with h0 | h0
      · exact absurd (h h0) (by simp)
      · exact h0
    simp [hm]

/-- C75: the Fourier-Bessel filters are orthonormal on the disk of radius `rc`, in units of `rc`, and vanish on its rim; nothing is stored
outside. SciPy's functions are assumed to be the Bessel functions and their zeros, and `J_{m+1}` to be above the floor `1e-12` of the
code at the zeros of `J_m`. -/
theorem C75_fourier_bessel (zero : ℕ → ℕ → ℝ) (nmax mmax : ℕ) (hz : BesselZeros zero nmax mmax)
    (hfloor : ∀ m n : ℕ, m ≤ mmax → 1 ≤ n → n ≤ nmax → 1e-12 ≤ |besselJ (m + 1 : ℕ) (zero m n)| / Real.sqrt 2)
    (b : FBasis) (hb : getFilterBasis (fun m => besselJ m) zero (.seq [nmax, mmax]) "fourier-bessel" = .ok b)
    (rc : ℝ) (hrc : 0 < rc) :
    (∀ k < b.size, ∀ k' < b.size,
      ∫ r in (0 : ℝ)..rc, ∫ φ in (0 : ℝ)..2 * Real.pi, (b.val rc r φ k).getD 0 * (b.val rc r φ k').getD 0 * r
        = if k = k' then rc ^ 2 else 0) ∧
    (∀ k < b.size, ∀ φ, b.val rc rc φ k = some 0) ∧
    (∀ k < b.size, ∀ r φ, b.val rc r φ k = none ↔ rc < r) := by
  have hb' : b = ⟨(fbIndex zero nmax mmax).length, fun rc r phi k => fbVal (fun m => besselJ m) zero nmax mmax rc r phi k⟩ := by
    simpa [getFilterBasis, fbShape] using hb.symm
  subst hb'
  dsimp only
  have hpi := Real.pi_pos
  -- the norm of one entry
  have hnorm : ∀ m n : ℕ, m ≤ mmax → 1 ≤ n → n ≤ nmax → fbNorm (fun m => besselJ m) 1 (zero m n) m
      = |besselJ (m + 1 : ℕ) (zero m n)| / Real.sqrt 2 * (if m = 0 then Real.sqrt (2 * Real.pi) else Real.sqrt Real.pi) := by
    intro m n h1 h2 h3
    unfold fbNorm
    dsimp only
    rw [max_eq_left (hfloor m n h1 h2 h3), one_mul, max_eq_left]
    have : (1 : ℝ) ≤ if m = 0 then Real.sqrt (2 * Real.pi) else Real.sqrt Real.pi := by
      have := Real.pi_gt_three
      split <;> exact Real.one_le_sqrt.2 (by linarith)
    calc (1e-12 : ℝ) ≤ |besselJ (m + 1 : ℕ) (zero m n)| / Real.sqrt 2 := hfloor m n h1 h2 h3
      _ = |besselJ (m + 1 : ℕ) (zero m n)| / Real.sqrt 2 * 1 := (mul_one _).symm
      _ ≤ _ := by gcongr
  have hval : ∀ k (hk : k < (fbIndex zero nmax mmax).length), ∃ m n c, (fbIndex zero nmax mmax)[k] = (zero m n, m, n, c) ∧ m ≤ mmax ∧
      1 ≤ n ∧ n ≤ nmax ∧ (m = 0 → c = true) ∧ ∀ r φ, fbVal (fun m => besselJ m) zero nmax mmax rc r φ k = if r ≤ rc then
        some (besselJ m (zero m n * (r / rc)) * ((if c then 1 else -1) * angular (signedOrder m c) φ) /
          fbNorm (fun m => besselJ m) 1 (zero m n) m) else none := by
    intro k hk
    rcases he : (fbIndex zero nmax mmax)[k] with ⟨a, m, n, c⟩
    have hmem : (a, m, n, c) ∈ fbIndex zero nmax mmax := he ▸ List.getElem_mem hk
    obtain ⟨rfl, h1, h2, h3, h4, h5⟩ := (fbIndex_mem zero nmax mmax hz a m n c).1 hmem
    refine ⟨m, n, c, rfl, h1, h2, h3, h5, ?_⟩
    intro r φ
    unfold fbVal
    rw [List.getElem?_eq_getElem hk, he]
    dsimp only
    rw [fb_angular m c h5]
  refine ⟨?_, ?_, ?_⟩
  · intro k hk k' hk'
    obtain ⟨m, n, c, he, h1, h2, h3, h4, hv⟩ := hval k hk
    obtain ⟨m', n', c', he', h1', h2', h3', h4', hv'⟩ := hval k' hk'
    have hkk : k = k' ↔ (m = m' ∧ n = n' ∧ c = c') := by
      constructor
      · rintro rfl
        rw [he] at he'
        simp only [Prod.mk.injEq] at he'
        exact he'.2
      · rintro ⟨rfl, rfl, rfl⟩
        exact (fbIndex_nodup zero nmax mmax).getElem_inj_iff.1 (he.trans he'.symm)
    set N := fbNorm (fun m => besselJ m) 1 (zero m n) m with hN
    set N' := fbNorm (fun m => besselJ m) 1 (zero m' n') m' with hN'
    have hinner : ∀ r ∈ Set.uIcc (0 : ℝ) rc, (∫ φ in (0 : ℝ)..2 * Real.pi, (fbVal (fun m => besselJ m) zero nmax mmax rc r φ k).getD 0 *
        (fbVal (fun m => besselJ m) zero nmax mmax rc r φ k').getD 0 * r)
        = (if signedOrder m c = signedOrder m' c' then (if signedOrder m c = 0 then 2 * Real.pi else Real.pi) else 0)
          * (((if c then 1 else -1) * (if c' then 1 else -1)) / (N * N') * rc) *
          (besselJ m (zero m n * (r / rc)) * besselJ m' (zero m' n' * (r / rc)) * (r / rc)) := by
      intro r hr
      rw [Set.uIcc_of_le hrc.le, Set.mem_Icc] at hr
      rw [← angular_integral, ← intervalIntegral.integral_mul_const, ← intervalIntegral.integral_mul_const]
      congr 1
      funext φ
      rw [hv r φ, hv' r φ, if_pos hr.2, if_pos hr.2]
      simp only [Option.getD_some]
      have : rc ≠ 0 := hrc.ne'
      field_simp
    rw [intervalIntegral.integral_congr hinner, intervalIntegral.integral_const_mul,
      intervalIntegral.integral_comp_div (fun u => besselJ m (zero m n * u) * besselJ m' (zero m' n' * u) * u) hrc.ne', zero_div,
      div_self hrc.ne']
    by_cases hs : signedOrder m c = signedOrder m' c'
    · have hmc : m = m' ∧ c = c' := by
        unfold signedOrder at hs
        cases c <;> cases c' <;> simp at hs h4 h4' ⊢ <;> omega
      obtain ⟨rfl, rfl⟩ := hmc
      rw [if_pos hs]
      by_cases hnn : n = n'
      · subst hnn
        rw [if_pos (hkk.2 ⟨rfl, rfl, rfl⟩)]
        have hr := Bessel.radial_norm m (zero m n) (hz.root m n h1 h2 h3) (hz.pos m n h1 h2 h3).ne'
        have hr' : (∫ u in (0 : ℝ)..1, besselJ m (zero m n * u) * besselJ m (zero m n * u) * u) = besselJ (m + 1) (zero m n) ^ 2 / 2 := by
          exact hr
        rw [hr']
        have hNN : N * N = besselJ (m + 1) (zero m n) ^ 2 / 2 * (if signedOrder m c = 0 then 2 * Real.pi else Real.pi) := by
          rw [hN, hnorm m n h1 h2 h3]
          have hso : signedOrder m c = 0 ↔ m = 0 := by unfold signedOrder; split <;> simp
          have e1 : |besselJ (m + 1 : ℕ) (zero m n)| * |besselJ (m + 1 : ℕ) (zero m n)| = besselJ (m + 1) (zero m n) ^ 2 := by
            rw [abs_mul_abs_self]; push_cast; ring
          have e2 : Real.sqrt 2 * Real.sqrt 2 = 2 := Real.mul_self_sqrt (by norm_num)
          have e3 : (if m = 0 then Real.sqrt (2 * Real.pi) else Real.sqrt Real.pi) * (if m = 0 then Real.sqrt (2 * Real.pi) else Real.sqrt Real.pi)
              = (if signedOrder m c = 0 then 2 * Real.pi else Real.pi) := by
            simp only [hso]
            split
            · exact Real.mul_self_sqrt (by positivity)
            · exact Real.mul_self_sqrt (by positivity)
          rw [← e1, ← e3]
          calc _ = |besselJ (m + 1 : ℕ) (zero m n)| * |besselJ (m + 1 : ℕ) (zero m n)| / (Real.sqrt 2 * Real.sqrt 2)
                * ((if m = 0 then Real.sqrt (2 * Real.pi) else Real.sqrt Real.pi) * (if m = 0 then Real.sqrt (2 * Real.pi) else Real.sqrt Real.pi)) := by ring
            _ = _ := by rw [e2]
        have hNpos : 0 < N := by
          rw [hN, fbNorm]
          exact lt_max_of_lt_right (by norm_num)
        rw [smul_eq_mul, hNN]
        have hne : besselJ (m + 1) (zero m n) ^ 2 / 2 * (if signedOrder m c = 0 then 2 * Real.pi else Real.pi) ≠ 0 := by
          rw [← hNN]; positivity
        have hc2 : ((if c then (1 : ℝ) else -1) * (if c then 1 else -1)) = 1 := by split <;> norm_num
        rw [hc2]
        generalize besselJ (m + 1) (zero m n) ^ 2 / 2 = A at *
        generalize (if signedOrder m c = 0 then 2 * Real.pi else Real.pi) = B at *
        have hA : A ≠ 0 := left_ne_zero_of_mul hne
        have hB : B ≠ 0 := right_ne_zero_of_mul hne
        field_simp
      · rw [if_neg (fun h => hnn (hkk.1 h).2.1)]
        have hab : zero m n ^ 2 ≠ zero m n' ^ 2 := by
          have hp := hz.pos m n h1 h2 h3
          have hp' := hz.pos m n' h1 h2' h3'
          have hne : zero m n ≠ zero m n' := by
            rcases Nat.lt_or_gt_of_ne hnn with h | h
            · exact (hz.incr m n n' h1 h2 h h3').ne
            · exact (hz.incr m n' n h1 h2' h h3).ne'
          intro h
          exact hne ((sq_eq_sq₀ hp.le hp'.le).1 h)
        rw [Bessel.radial_cross m (zero m n) (zero m n') (hz.root m n h1 h2 h3) (hz.root m n' h1 h2' h3') hab]
        simp
    · have hne : ¬ k = k' := fun h => by
        obtain ⟨rfl, _, rfl⟩ := hkk.1 h
        exact hs rfl
      rw [if_neg hs, if_neg hne]
      simp
  · intro k hk φ
    obtain ⟨m, n, c, he, h1, h2, h3, h4, hv⟩ := hval k hk
    rw [hv, if_pos (le_refl _), div_self hrc.ne', mul_one, hz.root m n h1 h2 h3]
    simp
  · intro k hk r φ
    obtain ⟨m, n, c, he, h1, h2, h3, h4, hv⟩ := hval k hk
    rw [hv]
    split
    · rename_i h; simp; exact h
    · rename_i h; simp; exact lt_of_not_ge h

/-- The hypotheses of C75_fourier_bessel hold for the shape `(1, 0)` with a zero of `J_0`, and the basis has one function. -/
example : ∃ zero : ℕ → ℕ → ℝ, BesselZeros zero 1 0 ∧
    (∀ m n : ℕ, m ≤ 0 → 1 ≤ n → n ≤ 1 → 1e-12 ≤ |besselJ (m + 1 : ℕ) (zero m n)| / Real.sqrt 2) ∧
    (fbIndex zero 1 0).length = 1 := by
  obtain ⟨a, ha, h0, h1⟩ := Bessel.exists_zero
  refine ⟨fun _ _ => a, ⟨fun _ _ _ _ _ => ha, ?_, ?_⟩, ?_, ?_⟩
  · intro m n hm _ _
    obtain rfl : m = 0 := by omega
    exact h0
  · intro m n n' _ _ _ _
    omega
  · intro m n hm _ _
    obtain rfl : m = 0 := by omega
    have hs : Real.sqrt 2 ≤ 2 := by
      rw [Real.sqrt_le_left (by norm_num)]; norm_num
    have hs0 : 0 < Real.sqrt 2 := Real.sqrt_pos.2 (by norm_num)
    rw [le_div_iff₀ hs0]
    have : (1 : ℝ) / 100 ≤ |besselJ (0 + 1 : ℕ) a| := le_trans h1 (le_abs_self _)
    refine le_trans ?_ this
    calc (1e-12 : ℝ) * Real.sqrt 2 ≤ 1e-12 * 2 := by gcongr
      _ ≤ 1 / 100 := by norm_num
  · simp [fbIndex, List.takeWhile]

end Verif.Props
