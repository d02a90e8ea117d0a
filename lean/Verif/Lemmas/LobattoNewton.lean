import Mathlib.Analysis.Real.Pi.Bounds
import Verif.Lemmas.LegendreRoots
/-!
Newton's iteration for the Lobatto nodes converges from the Chebyshev guess, for every number of nodes: the error of a step is at most `4/5` times the
third power of the error before, in units of the first error.
-/
namespace Verif.Lob
open Verif.Spec Verif.Quad Verif.Leg Polynomial Finset

theorem tan_bound (t : ℝ) (h0 : 0 ≤ t) (h1 : t ≤ 1) : Real.sin t ≤ (t + 4 / 5 * t ^ 3) * Real.cos t := by
  have hs := (abs_le.1 (Real.sin_bound (x := t) (by rw [abs_of_nonneg h0]; exact h1))).2
  rw [abs_of_nonneg h0] at hs
  have hc : 1 - t ^ 2 / 2 ≤ Real.cos t := Real.one_sub_sq_div_two_le_cos
  have h2 : (t + 4 / 5 * t ^ 3) * (1 - t ^ 2 / 2) ≤ (t + 4 / 5 * t ^ 3) * Real.cos t := mul_le_mul_of_nonneg_left hc (by positivity)
  have h3 : t ^ 4 ≤ t ^ 3 := pow_le_pow_of_le_one h0 h1 (by norm_num)
  have h4 : t ^ 5 ≤ t ^ 3 := pow_le_pow_of_le_one h0 h1 (by norm_num)
  have h5 : 0 ≤ t ^ 3 := by positivity
  nlinarith

/-- One side. `phi` has a maximum `phi 0 > 0`, `a phi' = F`, `F' = -lam phi`, and `a >= lam s0^2` up to the distance `s0`. Then `phi` stays positive and the
Newton correction `-F/(lam phi)` exceeds the distance `s`, by at most `4/5 s (s/s0)^2`; `phi` decreases by at most the share `(s/s0)^2/2`. -/
theorem newton_side (phi F a : ℝ → ℝ) (lam s0 : ℝ) (hlam : 0 < lam) (hs0 : 0 < s0) (hphi : ∀ s, 0 ≤ s → s ≤ s0 → HasDerivAt phi (F s / a s) s)
    (hF : ∀ s, 0 ≤ s → s ≤ s0 → HasDerivAt F (-lam * phi s) s) (ha : ∀ s, 0 ≤ s → s ≤ s0 → lam * s0 ^ 2 ≤ a s) (h0 : 0 < phi 0) (hF0 : F 0 = 0) (s : ℝ)
    (h1 : 0 ≤ s) (h2 : s ≤ s0) : 0 < phi s ∧ s * (lam * phi s) ≤ -F s ∧ -F s ≤ (s + 4 / 5 * s * (s / s0) ^ 2) * (lam * phi s) ∧
      phi 0 * (1 - (s / s0) ^ 2 / 2) ≤ phi s ∧ phi s ≤ phi 0 := by
  have hapos : ∀ s, 0 ≤ s → s ≤ s0 → 0 < a s := fun s h1 h2 => lt_of_lt_of_le (by positivity) (ha s h1 h2)
  have hcphi : ContinuousOn phi (Set.Icc 0 s0) := fun s hs => (hphi s hs.1 hs.2).continuousAt.continuousWithinAt
  have hcF : ContinuousOn F (Set.Icc 0 s0) := fun s hs => (hF s hs.1 hs.2).continuousAt.continuousWithinAt
  -- `F` on an interval on which `phi` is positive
  have hFneg : ∀ z, z ≤ s0 → (∀ s, 0 ≤ s → s < z → 0 < phi s) → ∀ s, 0 ≤ s → s ≤ z → F s ≤ 0 ∧ (0 < s → F s < 0) := by
    intro z hz hp s h1 h2
    have hanti : StrictAntiOn F (Set.Icc 0 z) := by
      refine strictAntiOn_of_deriv_neg (convex_Icc 0 z) (hcF.mono (Set.Icc_subset_Icc le_rfl hz)) fun t ht => ?_
      rw [interior_Icc] at ht
      rw [(hF t ht.1.le (by linarith [ht.2])).deriv]
      have := mul_pos hlam (hp t ht.1.le ht.2)
      linarith
    have hlt : 0 < s → F s < 0 := fun hs => by
      have := hanti ⟨le_rfl, by linarith⟩ ⟨h1, h2⟩ hs
      rwa [hF0] at this
    refine ⟨?_, hlt⟩
    rcases h1.eq_or_lt with h | h
    · rw [← h, hF0]
    · exact (hlt h).le
  -- the comparison function
  let G : ℝ → ℝ := fun s => F s * Real.cos (s / s0) + lam * s0 * phi s * Real.sin (s / s0)
  have hlin : ∀ s, HasDerivAt (fun s => s / s0) (1 / s0) s := fun s => by simpa using (hasDerivAt_id s).div_const s0
  have hG : ∀ s, 0 ≤ s → s ≤ s0 → HasDerivAt G (Real.sin (s / s0) / s0 * F s * (lam * s0 ^ 2 / a s - 1)) s := fun s h1 h2 => by
    have hc := (Real.hasDerivAt_cos _).comp s (hlin s)
    have hs := (Real.hasDerivAt_sin _).comp s (hlin s)
    refine (((hF s h1 h2).fun_mul hc).fun_add (((hphi s h1 h2).const_mul (lam * s0)).fun_mul hs)).congr_deriv ?_
    have := (hapos s h1 h2).ne'
    have := hs0.ne'
    simp only [Function.comp_apply]
    field_simp
    ring
  have hGmono : ∀ z, z ≤ s0 → (∀ s, 0 ≤ s → s < z → 0 < phi s) → ∀ s, 0 ≤ s → s ≤ z → 0 ≤ G s := by
    intro z hz hp s h1 h2
    have hm : MonotoneOn G (Set.Icc 0 z) := by
      refine monotoneOn_of_deriv_nonneg (convex_Icc 0 z) (fun t ht => (hG t ht.1 (ht.2.trans hz)).continuousAt.continuousWithinAt)
        (fun t ht => ?_) fun t ht => ?_
      · rw [interior_Icc] at ht
        exact (hG t ht.1.le (by linarith [ht.2])).differentiableAt.differentiableWithinAt
      · rw [interior_Icc] at ht
        rw [(hG t ht.1.le (by linarith [ht.2])).deriv]
        have hsin : 0 ≤ Real.sin (t / s0) := by
          refine Real.sin_nonneg_of_nonneg_of_le_pi (div_nonneg ht.1.le hs0.le) ?_
          have : t / s0 ≤ 1 := by rw [div_le_one hs0]; linarith [ht.2]
          linarith [Real.pi_gt_three]
        have hf := (hFneg z hz hp t ht.1.le ht.2.le).1
        have hr : lam * s0 ^ 2 / a t - 1 ≤ 0 := by
          rw [sub_nonpos, div_le_one (hapos t ht.1.le (by linarith [ht.2]))]
          exact ha t ht.1.le (by linarith [ht.2])
        exact mul_nonneg_of_nonpos_of_nonpos (mul_nonpos_of_nonneg_of_nonpos (div_nonneg hsin hs0.le) hf) hr
    have := hm ⟨le_rfl, by linarith⟩ ⟨h1, h2⟩ h1
    have hG0 : G 0 = 0 := by show F 0 * Real.cos (0 / s0) + lam * s0 * phi 0 * Real.sin (0 / s0) = 0; rw [hF0]; simp
    rwa [hG0] at this
  have hcos : ∀ s, 0 ≤ s → s ≤ s0 → 0 < Real.cos (s / s0) := fun s h1 h2 => by
    have h3 : s / s0 ≤ 1 := by rw [div_le_one hs0]; exact h2
    have h4 : 0 ≤ s / s0 := div_nonneg h1 hs0.le
    exact Real.cos_pos_of_mem_Ioo ⟨by linarith [Real.pi_pos], by linarith [Real.pi_gt_three]⟩
  -- positivity
  have hpos : ∀ s, 0 ≤ s → s ≤ s0 → 0 < phi s := by
    by_contra hcon
    push Not at hcon
    obtain ⟨s, h1, h2, h3⟩ := hcon
    have hcl : IsCompact {s | s ∈ Set.Icc 0 s0 ∧ phi s ≤ 0} := by
      have : {s | s ∈ Set.Icc 0 s0 ∧ phi s ≤ 0} = Set.Icc 0 s0 ∩ phi ⁻¹' Set.Iic 0 := rfl
      rw [this]
      exact isCompact_Icc.of_isClosed_subset (hcphi.preimage_isClosed_of_isClosed isClosed_Icc isClosed_Iic) Set.inter_subset_left
    obtain ⟨z, ⟨⟨hz0, hz1⟩, hz2⟩, hz3⟩ := hcl.exists_isLeast ⟨s, ⟨h1, h2⟩, h3⟩
    have hp : ∀ s, 0 ≤ s → s < z → 0 < phi s := fun s h4 h5 => by
      by_contra h6
      have := hz3 ⟨⟨h4, by linarith⟩, not_lt.1 h6⟩
      linarith
    have hzpos : 0 < z := by
      rcases hz0.eq_or_lt with h | h
      · rw [← h] at hz2; linarith
      · exact h
    have hg := hGmono z hz1 hp z hz0 le_rfl
    have hf := (hFneg z hz1 hp z hz0 le_rfl).2 hzpos
    have hsin : 0 ≤ Real.sin (z / s0) := by
      refine Real.sin_nonneg_of_nonneg_of_le_pi (div_nonneg hz0 hs0.le) ?_
      have : z / s0 ≤ 1 := by rw [div_le_one hs0]; exact hz1
      linarith [Real.pi_gt_three]
    have h7 : F z * Real.cos (z / s0) < 0 := mul_neg_of_neg_of_pos hf (hcos z hz0 hz1)
    have h8 : lam * s0 * phi z * Real.sin (z / s0) ≤ 0 :=
      mul_nonpos_of_nonpos_of_nonneg (mul_nonpos_of_nonneg_of_nonpos (by positivity) hz2) hsin
    have hg' : 0 ≤ F z * Real.cos (z / s0) + lam * s0 * phi z * Real.sin (z / s0) := hg
    linarith
  have hp := hpos s h1 h2
  have hFle : ∀ t, 0 ≤ t → t ≤ s0 → F t ≤ 0 := fun t h1 h2 => (hFneg s0 le_rfl (fun s h1 h2 => hpos s h1 h2.le) t h1 h2).1
  have hanti : AntitoneOn phi (Set.Icc 0 s0) := by
    refine antitoneOn_of_deriv_nonpos (convex_Icc 0 s0) hcphi (fun t ht => ?_) fun t ht => ?_
    · rw [interior_Icc] at ht
      exact (hphi t ht.1.le ht.2.le).differentiableAt.differentiableWithinAt
    · rw [interior_Icc] at ht
      rw [(hphi t ht.1.le ht.2.le).deriv]
      exact div_nonpos_of_nonpos_of_nonneg (hFle t ht.1.le ht.2.le) (hapos t ht.1.le ht.2.le).le
  have hle0 : ∀ t, 0 ≤ t → t ≤ s0 → phi t ≤ phi 0 := fun t h1 h2 => hanti ⟨le_rfl, hs0.le⟩ ⟨h1, h2⟩ h1
  have hFge : ∀ t, 0 ≤ t → t ≤ s0 → -(lam * phi 0 * t) ≤ F t := by
    have hd : ∀ t, 0 ≤ t → t ≤ s0 → HasDerivAt (fun s => F s + lam * phi 0 * s) (lam * (phi 0 - phi t)) t := fun t h1 h2 => by
      refine ((hF t h1 h2).fun_add ((hasDerivAt_id' t).const_mul (lam * phi 0))).congr_deriv ?_
      ring
    have hm : MonotoneOn (fun s => F s + lam * phi 0 * s) (Set.Icc 0 s0) := by
      refine monotoneOn_of_deriv_nonneg (convex_Icc 0 s0) (fun t ht => (hd t ht.1 ht.2).continuousAt.continuousWithinAt) (fun t ht => ?_) fun t ht => ?_
      · rw [interior_Icc] at ht
        exact (hd t ht.1.le ht.2.le).differentiableAt.differentiableWithinAt
      · rw [interior_Icc] at ht
        rw [(hd t ht.1.le ht.2.le).deriv]
        exact mul_nonneg hlam.le (by linarith [hle0 t ht.1.le ht.2.le])
    intro t h1 h2
    have := hm ⟨le_rfl, hs0.le⟩ ⟨h1, h2⟩ h1
    dsimp only at this
    rw [hF0] at this
    linarith
  have hlow : phi 0 * (1 - (s / s0) ^ 2 / 2) ≤ phi s := by
    have hd : ∀ t, 0 ≤ t → t ≤ s0 → HasDerivAt (fun s => phi s + phi 0 / (2 * s0 ^ 2) * s ^ 2) (F t / a t + phi 0 / s0 ^ 2 * t) t := fun t h1 h2 => by
      refine ((hphi t h1 h2).fun_add (((hasDerivAt_id' t).fun_pow 2).const_mul (phi 0 / (2 * s0 ^ 2)))).congr_deriv ?_
      have := hs0.ne'
      push_cast
      field_simp
    have hm : MonotoneOn (fun s => phi s + phi 0 / (2 * s0 ^ 2) * s ^ 2) (Set.Icc 0 s0) := by
      refine monotoneOn_of_deriv_nonneg (convex_Icc 0 s0) (fun t ht => (hd t ht.1 ht.2).continuousAt.continuousWithinAt) (fun t ht => ?_) fun t ht => ?_
      · rw [interior_Icc] at ht
        exact (hd t ht.1.le ht.2.le).differentiableAt.differentiableWithinAt
      · rw [interior_Icc] at ht
        rw [(hd t ht.1.le ht.2.le).deriv]
        have hat := hapos t ht.1.le ht.2.le
        have g1 : -(phi 0 / s0 ^ 2 * t) ≤ F t / a t := by
          rw [le_div_iff₀ hat]
          have g2 := hFge t ht.1.le ht.2.le
          have g3 : phi 0 / s0 ^ 2 * t * (lam * s0 ^ 2) ≤ phi 0 / s0 ^ 2 * t * a t :=
            mul_le_mul_of_nonneg_left (ha t ht.1.le ht.2.le) (mul_nonneg (by positivity) ht.1.le)
          have g4 : phi 0 / s0 ^ 2 * t * (lam * s0 ^ 2) = lam * phi 0 * t := by
            have := hs0.ne'
            field_simp
          linarith
        linarith
    have := hm ⟨le_rfl, hs0.le⟩ ⟨h1, h2⟩ h1
    dsimp only at this
    have e : phi 0 * (1 - (s / s0) ^ 2 / 2) = phi 0 - phi 0 / (2 * s0 ^ 2) * s ^ 2 := by
      have := hs0.ne'
      field_simp
    rw [e]
    linarith
  refine ⟨hp, ?_, ?_, hlow, hle0 s h1 h2⟩
  · -- lower bound
    have hm : MonotoneOn (fun s => -F s - s * (lam * phi s)) (Set.Icc 0 s0) := by
      have hd : ∀ t, 0 ≤ t → t ≤ s0 → HasDerivAt (fun s => -F s - s * (lam * phi s)) (-(t * (lam * (F t / a t)))) t := fun t h1 h2 => by
        refine ((hF t h1 h2).fun_neg.fun_sub ((hasDerivAt_id' t).fun_mul ((hphi t h1 h2).const_mul lam))).congr_deriv ?_
        ring
      refine monotoneOn_of_deriv_nonneg (convex_Icc 0 s0) (fun t ht => (hd t ht.1 ht.2).continuousAt.continuousWithinAt) (fun t ht => ?_) fun t ht => ?_
      · rw [interior_Icc] at ht
        exact (hd t ht.1.le ht.2.le).differentiableAt.differentiableWithinAt
      · rw [interior_Icc] at ht
        rw [(hd t ht.1.le ht.2.le).deriv]
        have hf := (hFneg s0 le_rfl (fun s h1 h2 => hpos s h1 h2.le) t ht.1.le ht.2.le).1
        have : F t / a t ≤ 0 := div_nonpos_of_nonpos_of_nonneg hf (hapos t ht.1.le ht.2.le).le
        have := mul_nonpos_of_nonneg_of_nonpos ht.1.le (mul_nonpos_of_nonneg_of_nonpos hlam.le this)
        linarith
    have := hm ⟨le_rfl, hs0.le⟩ ⟨h1, h2⟩ h1
    dsimp only at this
    rw [hF0] at this
    linarith
  · have hg : 0 ≤ F s * Real.cos (s / s0) + lam * s0 * phi s * Real.sin (s / s0) := hGmono s0 le_rfl (fun s h1 h2 => hpos s h1 h2.le) s h1 h2
    have hc := hcos s h1 h2
    have ht := tan_bound (s / s0) (div_nonneg h1 hs0.le) (by rw [div_le_one hs0]; exact h2)
    have h3 : lam * s0 * phi s * Real.sin (s / s0) ≤ lam * s0 * phi s * ((s / s0 + 4 / 5 * (s / s0) ^ 3) * Real.cos (s / s0)) :=
      mul_le_mul_of_nonneg_left ht (by positivity)
    have h4 : -F s * Real.cos (s / s0) ≤ lam * s0 * phi s * (s / s0 + 4 / 5 * (s / s0) ^ 3) * Real.cos (s / s0) := by linarith
    have h5 := le_of_mul_le_mul_right h4 hc
    have e : lam * s0 * phi s * (s / s0 + 4 / 5 * (s / s0) ^ 3) = (s + 4 / 5 * s * (s / s0) ^ 2) * (lam * phi s) := by
      have := hs0.ne'
      field_simp
    linarith

/-- The Newton step in terms of the derivative. -/
theorem step_eq (M : ℕ) (t : ℝ) : lobattoStep (M + 2) t
    = t + (1 - t ^ 2) * (legendreDeriv (M + 1) 1).eval t / (((M : ℝ) + 1) * ((M : ℝ) + 2) * (legendreDeriv (M + 1) 0).eval t) := by
  unfold lobattoStep
  rw [show M + 2 - 1 = M + 1 by omega, show M + 2 - 2 = M by omega, vdm_eq, vdm_eq]
  have h := congrArg (eval t) (f_eq M)
  rw [f] at h
  simp only [eval_mul, eval_sub, eval_add, eval_neg, eval_X, eval_natCast, eval_one, eval_pow] at h
  rw [h]
  have h1 : (M : ℝ) + 1 ≠ 0 := by positivity
  push_cast
  by_cases h0 : (legendreDeriv (M + 1) 0).eval t = 0
  · rw [h0]; simp
  · have h2 : (M : ℝ) + 2 ≠ 0 := by positivity
    field_simp
    ring

/-- One Newton step near a zero of `P_N'`. -/
theorem newton_step (M : ℕ) (xi s0 : ℝ) (hxi : (legendreDeriv (M + 1) 1).eval xi = 0) (hs0 : 0 < s0)
    (hin : ∀ x, |x - xi| ≤ s0 → ((M : ℝ) + 1) * ((M : ℝ) + 2) * s0 ^ 2 ≤ 1 - x ^ 2) (x : ℝ) (hx : |x - xi| ≤ s0) :
    vdm x (M + 1) ≠ 0 ∧ |lobattoStep (M + 2) x - xi| ≤ 4 / 5 * |x - xi| * (|x - xi| / s0) ^ 2 ∧
      vdm xi (M + 1) ^ 2 * (1 - (|x - xi| / s0) ^ 2 / 2) ≤ vdm xi (M + 1) * vdm x (M + 1) ∧ vdm xi (M + 1) * vdm x (M + 1) ≤ vdm xi (M + 1) ^ 2 := by
  set lam : ℝ := ((M : ℝ) + 1) * ((M : ℝ) + 2) with hl
  have hlam : 0 < lam := by positivity
  set e : ℝ := (legendreDeriv (M + 1) 0).eval xi with he
  have he0 : e ≠ 0 := fun h => Q_no_common (M + 1) 0 (by omega) xi h hxi
  obtain ⟨sg, hsg, hsx⟩ : ∃ sg : ℝ, sg ^ 2 = 1 ∧ x = xi + sg * |x - xi| := by
    rcases le_total 0 (x - xi) with h | h
    · exact ⟨1, by norm_num, by rw [abs_of_nonneg h]; ring⟩
    · exact ⟨-1, by norm_num, by rw [abs_of_nonpos h]; ring⟩
  have habs : |sg| = 1 := by
    have : |sg| ^ 2 = 1 := by rw [sq_abs]; exact hsg
    nlinarith [abs_nonneg sg]
  have hball : ∀ s, 0 ≤ s → s ≤ s0 → |xi + sg * s - xi| ≤ s0 := fun s h1 h2 => by
    rw [add_sub_cancel_left, abs_mul, habs, one_mul, abs_of_nonneg h1]; exact h2
  have hlin : ∀ s, HasDerivAt (fun s => xi + sg * s) sg s := fun s => by
    simpa using ((hasDerivAt_id s).const_mul sg).const_add xi
  have key := newton_side (fun s => e * (legendreDeriv (M + 1) 0).eval (xi + sg * s))
    (fun s => e * (sg * ((1 - (xi + sg * s) ^ 2) * (legendreDeriv (M + 1) 1).eval (xi + sg * s)))) (fun s => 1 - (xi + sg * s) ^ 2) lam s0 hlam hs0
    (fun s h1 h2 => by
      have hd := (((legendreDeriv (M + 1) 0).hasDerivAt (xi + sg * s)).comp s (hlin s)).const_mul e
      rw [deriv_Q] at hd
      refine hd.congr_deriv ?_
      have : 1 - (xi + sg * s) ^ 2 ≠ 0 := by
        have := hin _ (hball s h1 h2)
        have : 0 < lam * s0 ^ 2 := by positivity
        linarith
      rw [Nat.zero_add]
      field_simp)
    (fun s h1 h2 => by
      have hd := (((legendreDeriv (M + 1) 1).hasDerivAt (xi + sg * s)).comp s (hlin s))
      rw [deriv_Q] at hd
      have hd2 := ((((hlin s).fun_pow 2).const_sub 1).fun_mul hd).const_mul sg |>.const_mul e
      refine hd2.congr_deriv ?_
      have ho := congrArg (eval (xi + sg * s)) (ode (M + 1) 0)
      simp only [eval_mul, eval_sub, eval_add, eval_X, eval_natCast, eval_ofNat, eval_zero, eval_one, eval_pow, Nat.cast_zero] at ho
      push_cast at ho
      simp only [Function.comp_apply, show 1 + 1 = 2 from rfl] at ho ⊢
      generalize eval (xi + sg * s) (legendreDeriv (M + 1) 0) = p0 at *
      generalize eval (xi + sg * s) (legendreDeriv (M + 1) 1) = p1 at *
      generalize eval (xi + sg * s) (legendreDeriv (M + 1) 2) = p2 at *
      generalize xi + sg * s = z at *
      rw [hl]
      push_cast
      linear_combination e * ho + e * ((1 - z ^ 2) * p2 - 2 * z * p1) * hsg)
    (fun s h1 h2 => hin _ (hball s h1 h2))
    (by simp only [mul_zero, add_zero]; rw [← he]; exact mul_self_pos.2 he0)
    (by simp only [mul_zero, add_zero]; rw [hxi]; ring)
    |x - xi| (abs_nonneg _) hx
  rw [← hsx] at key
  obtain ⟨k1, k2, k3, k4, k5⟩ := key
  have hP : (legendreDeriv (M + 1) 0).eval x ≠ 0 := fun h => by rw [h, mul_zero] at k1; exact lt_irrefl _ k1
  refine ⟨by rw [vdm_eq]; exact hP, ?_, by
    rw [vdm_eq, vdm_eq, ← he]
    simp only [mul_zero, add_zero] at k4
    rw [← he] at k4
    linarith, by
    rw [vdm_eq, vdm_eq, ← he]
    simp only [mul_zero, add_zero] at k5
    rw [← he] at k5
    linarith⟩
  have hlp : 0 < lam * (e * (legendreDeriv (M + 1) 0).eval x) := mul_pos hlam k1
  have hstep : lobattoStep (M + 2) x - xi = sg * (|x - xi| + e * (sg * ((1 - x ^ 2) * (legendreDeriv (M + 1) 1).eval x)) / (lam * (e * (legendreDeriv (M + 1) 0).eval x))) := by
    rw [step_eq, ← hl]
    have e1 : x - xi = sg * |x - xi| := by linarith
    have e2 : sg * (e * (sg * ((1 - x ^ 2) * (legendreDeriv (M + 1) 1).eval x)) / (lam * (e * (legendreDeriv (M + 1) 0).eval x)))
        = (1 - x ^ 2) * (legendreDeriv (M + 1) 1).eval x / (lam * (legendreDeriv (M + 1) 0).eval x) := by
      have : sg * (e * (sg * ((1 - x ^ 2) * (legendreDeriv (M + 1) 1).eval x)) / (lam * (e * (legendreDeriv (M + 1) 0).eval x)))
        = sg ^ 2 * ((1 - x ^ 2) * (legendreDeriv (M + 1) 1).eval x) * e / (lam * (legendreDeriv (M + 1) 0).eval x * e) := by ring
      rw [this, mul_div_mul_right _ _ he0, hsg, one_mul]
    rw [mul_add, e2]
    linarith
  rw [hstep, abs_mul, habs, one_mul]
  generalize e * (sg * ((1 - x ^ 2) * (legendreDeriv (M + 1) 1).eval x)) = FF at *
  generalize lam * (e * (legendreDeriv (M + 1) 0).eval x) = D at *
  generalize |x - xi| = s at *
  have h1 : s ≤ -FF / D := by rw [le_div_iff₀ hlp]; exact k2
  have h2 : -FF / D ≤ s + 4 / 5 * s * (s / s0) ^ 2 := by rw [div_le_iff₀ hlp]; exact k3
  rw [neg_div] at h1 h2
  rw [abs_le]
  constructor <;> linarith

/-- The whole iteration, from a start at the distance `s0`. -/
theorem newton_iter (M : ℕ) (xi s0 x0 : ℝ) (hxi : (legendreDeriv (M + 1) 1).eval xi = 0) (hs0 : 0 < s0)
    (hin : ∀ x, |x - xi| ≤ s0 → ((M : ℝ) + 1) * ((M : ℝ) + 2) * s0 ^ 2 ≤ 1 - x ^ 2) (hx : |x0 - xi| ≤ s0) (k : ℕ) :
    vdm ((lobattoStep (M + 2))^[k] x0) (M + 1) ≠ 0 ∧ |(lobattoStep (M + 2))^[k] x0 - xi| ≤ s0 * (4 / 5) ^ ((3 ^ k - 1) / 2) ∧
      |(lobattoStep (M + 2))^[k + 1] x0 - xi| ≤ 4 / 5 * |(lobattoStep (M + 2))^[k] x0 - xi| := by
  have hb : ∀ k, |(lobattoStep (M + 2))^[k] x0 - xi| ≤ s0 * (4 / 5) ^ ((3 ^ k - 1) / 2) := by
    intro k
    induction k with
    | zero => simpa using hx
    | succ k ih =>
      have hle : |(lobattoStep (M + 2))^[k] x0 - xi| ≤ s0 := ih.trans (mul_le_of_le_one_right hs0.le (pow_le_one₀ (by norm_num) (by norm_num)))
      rw [Function.iterate_succ_apply']
      refine (newton_step M xi s0 hxi hs0 hin _ hle).2.1.trans ?_
      have hd0 := abs_nonneg ((lobattoStep (M + 2))^[k] x0 - xi)
      generalize |(lobattoStep (M + 2))^[k] x0 - xi| = d at *
      have hodd : (3 ^ (k + 1) - 1) / 2 = 3 * ((3 ^ k - 1) / 2) + 1 := by
        have h3 : 3 ^ k % 2 = 1 := by
          rw [Nat.pow_mod]; simp
        have : 1 ≤ 3 ^ k := Nat.one_le_pow _ _ (by norm_num)
        rw [pow_succ]
        omega
      rw [hodd, pow_succ (4 / 5 : ℝ), pow_mul']
      generalize (4 / 5 : ℝ) ^ ((3 ^ k - 1) / 2) = q at *
      have e : 4 / 5 * d * (d / s0) ^ 2 = s0 * ((d / s0) ^ 3 * (4 / 5)) := by
        have := hs0.ne'
        field_simp
      rw [e]
      have h1 : d / s0 ≤ q := by rw [div_le_iff₀ hs0]; linarith
      have h2 : 0 ≤ d / s0 := div_nonneg hd0 hs0.le
      exact mul_le_mul_of_nonneg_left (mul_le_mul_of_nonneg_right (pow_le_pow_left₀ h2 h1 3) (by norm_num)) hs0.le
  have hle : |(lobattoStep (M + 2))^[k] x0 - xi| ≤ s0 := (hb k).trans (mul_le_of_le_one_right hs0.le (pow_le_one₀ (by norm_num) (by norm_num)))
  obtain ⟨n1, n2, _⟩ := newton_step M xi s0 hxi hs0 hin _ hle
  refine ⟨n1, hb k, ?_⟩
  rw [Function.iterate_succ_apply']
  refine n2.trans (mul_le_of_le_one_right (by positivity) (pow_le_one₀ (by positivity) ?_))
  rw [div_le_one hs0]; exact hle

theorem cos_sub_le (a b : ℝ) (h0 : 0 ≤ a) (hab : a ≤ b) (hb : b ≤ Real.pi / 2) : Real.cos a - Real.cos b ≤ (b - a) * Real.sin ((a + b) / 2) := by
  rw [Real.cos_sub_cos]
  have h1 : Real.sin ((a - b) / 2) = -Real.sin ((b - a) / 2) := by rw [← Real.sin_neg]; congr 1; ring
  have h2 : Real.sin ((b - a) / 2) ≤ (b - a) / 2 := Real.sin_le (by linarith)
  have h3 : 0 ≤ Real.sin ((a + b) / 2) := Real.sin_nonneg_of_nonneg_of_le_pi (by linarith) (by linarith [Real.pi_pos])
  rw [h1]
  nlinarith

/-- `t cos t <= sin t` up to a right angle. -/
theorem mul_cos_le_sin (t : ℝ) (h0 : 0 ≤ t) (h1 : t ≤ Real.pi / 2) : t * Real.cos t ≤ Real.sin t := by
  rcases h1.lt_or_eq with h | h
  · have h2 := Real.le_tan h0 h
    have h3 : 0 < Real.cos t := Real.cos_pos_of_mem_Ioo ⟨by linarith [Real.pi_pos], h⟩
    rw [Real.tan_eq_sin_div_cos, le_div_iff₀ h3] at h2
    exact h2
  · rw [h]; simp

/-- The zero `b` beyond the guess `a`. -/
theorem guess_beyond (a b d h : ℝ) (hab : a ≤ b) (ha0 : 0 < a) (hb : b ≤ Real.pi / 2) (hh : 0 < h) (hhd : h * d = Real.pi) (hda : d ≤ a) (hdiff : b - a ≤ 1 / 4 * d) :
    h * (Real.cos a - Real.cos b) ≤ Real.sin a := by
  have hp := Real.pi_pos
  have hp4 : Real.pi < 3.15 := Real.pi_lt_d2
  have ha2 : a ≤ Real.pi / 2 := hab.trans hb
  have hsa : 0 < Real.sin a := Real.sin_pos_of_pos_of_lt_pi ha0 (by linarith)
  have hca : 0 ≤ Real.cos a := Real.cos_nonneg_of_mem_Icc ⟨by linarith, ha2⟩
  have hmul := mul_cos_le_sin a ha0.le ha2
  have hk := cos_sub_le a b ha0.le hab hb
  have hd : 0 < d := by
    by_contra hc
    have := mul_nonpos_of_nonneg_of_nonpos hh.le (not_lt.1 hc)
    linarith
  have hm : Real.sin ((a + b) / 2) ≤ 9 / 8 * Real.sin a := by
    have e : (a + b) / 2 = a + (b - a) / 2 := by ring
    rw [e, Real.sin_add]
    have g1 : Real.sin a * Real.cos ((b - a) / 2) ≤ Real.sin a := mul_le_of_le_one_right hsa.le (Real.cos_le_one _)
    have g2 : Real.sin ((b - a) / 2) ≤ (b - a) / 2 := Real.sin_le (by linarith)
    have g4 : Real.cos a * Real.sin ((b - a) / 2) ≤ Real.cos a * (a / 8) := mul_le_mul_of_nonneg_left (by linarith) hca
    linarith
  have g1 : (b - a) * Real.sin ((a + b) / 2) ≤ 1 / 4 * d * (9 / 8 * Real.sin a) :=
    mul_le_mul hdiff hm (Real.sin_nonneg_of_nonneg_of_le_pi (by linarith) (by linarith)) (by positivity)
  have g2 : h * (Real.cos a - Real.cos b) ≤ h * (1 / 4 * d * (9 / 8 * Real.sin a)) := mul_le_mul_of_nonneg_left (hk.trans g1) hh.le
  have g3 : h * (1 / 4 * d * (9 / 8 * Real.sin a)) = 9 / 32 * Real.pi * Real.sin a := by rw [← hhd]; ring
  have g4 : 9 / 32 * Real.pi * Real.sin a ≤ 1 * Real.sin a := mul_le_mul_of_nonneg_right (by linarith) hsa.le
  linarith

/-- The numbers for a zero before the guess. -/
theorem guess_numbers (N h u : ℝ) (hN : 3 ≤ N) (hh : h = N + 1 / 2) (hu0 : 0 ≤ u) (hu : u ≤ Real.pi / 4 * ((N - 1) / N)) : u ^ 2 * (1 + 4 / h ^ 2) ≤ 1 - 2 / h := by
  have hp := Real.pi_pos
  have hp4 : Real.pi < 3.15 := Real.pi_lt_d2
  have hh0 : 0 < h := by linarith
  have hN0 : 0 < N := by linarith
  have g1 : u ^ 2 ≤ (Real.pi / 4 * ((N - 1) / N)) ^ 2 := pow_le_pow_left₀ hu0 hu 2
  have g2 : (Real.pi / 4 * ((N - 1) / N)) ^ 2 ≤ 63 / 100 * ((N - 1) / N) ^ 2 := by
    rw [mul_pow]
    refine mul_le_mul_of_nonneg_right ?_ (sq_nonneg _)
    have : (Real.pi / 4) ^ 2 ≤ (3.15 / 4) ^ 2 := pow_le_pow_left₀ (by positivity) (by linarith) 2
    norm_num at this ⊢
    linarith
  have g3 : u ^ 2 * (1 + 4 / h ^ 2) ≤ 63 / 100 * ((N - 1) / N) ^ 2 * (1 + 4 / h ^ 2) := mul_le_mul_of_nonneg_right (g1.trans g2) (by positivity)
  refine g3.trans ?_
  have e : 63 / 100 * ((N - 1) / N) ^ 2 * (1 + 4 / h ^ 2) = (63 / 100 * (N - 1) ^ 2 * (h ^ 2 + 4)) / (N ^ 2 * h ^ 2) := by field_simp
  rw [e, div_le_iff₀ (by positivity)]
  have e2 : (1 - 2 / h) * (N ^ 2 * h ^ 2) = N ^ 2 * (h ^ 2 - 2 * h) := by field_simp
  rw [e2, hh]
  obtain ⟨k, hk⟩ : ∃ k : ℝ, N = 3 + k := ⟨N - 3, by ring⟩
  have hk0 : 0 ≤ k := by linarith
  rw [hk]
  have k2 : 0 ≤ k ^ 2 := sq_nonneg k
  have k3 : 0 ≤ k ^ 3 := by positivity
  have k4 : 0 ≤ k ^ 4 := by positivity
  have e3 : (3 + k) ^ 2 * ((3 + k + 1 / 2) ^ 2 - 2 * (3 + k + 1 / 2)) - 63 / 100 * (3 + k - 1) ^ 2 * ((3 + k + 1 / 2) ^ 2 + 4)
      = 37 / 100 * k ^ 4 + 407 / 100 * k ^ 3 + (9 + 30 + 21 / 4 - 63 / 100 * (65 / 4 + 28 + 4)) * k ^ 2 + (45 + 63 / 2 - 63 / 100 * (65 + 28)) * k
        + (189 / 4 - 63 / 100 * 65) := by ring
  nlinarith

/-- The zero `b` before the guess `a`. -/
theorem guess_before (a b N h x : ℝ) (hN : 3 ≤ N) (hh : h = N + 1 / 2) (hb0 : 0 < b) (hab : b ≤ a) (ha2 : a ≤ Real.pi / 2) (h1 : a - b ≤ a / (2 * h))
    (h2 : h * (a - b) ≤ Real.pi / 4 * ((N - 1) / N)) (hx : |x - Real.cos b| ≤ Real.cos b - Real.cos a) : h ^ 2 * (Real.cos b - Real.cos a) ^ 2 ≤ 1 - x ^ 2 := by
  have hp := Real.pi_pos
  have hh0 : 0 < h := by linarith
  have ha0 : 0 < a := by linarith
  have hsa : 0 < Real.sin a := Real.sin_pos_of_pos_of_lt_pi ha0 (by linarith)
  have hca : 0 ≤ Real.cos a := Real.cos_nonneg_of_mem_Icc ⟨by linarith, ha2⟩
  have hsc := Real.sin_sq_add_cos_sq a
  have hmul := mul_cos_le_sin a ha0.le ha2
  obtain ⟨hx1, hx2⟩ := abs_le.1 hx
  have hcs : Real.cos a ≤ Real.cos b := Real.cos_le_cos_of_nonneg_of_le_pi hb0.le (by linarith) hab
  have hk := cos_sub_le b a hb0.le hab ha2
  have hm : Real.sin ((b + a) / 2) ≤ Real.sin a := Real.sin_le_sin_of_le_of_le_pi_div_two (by linarith) ha2 (by linarith)
  set eta := a - b with heta
  have heta0 : 0 ≤ eta := by linarith
  have hs1 : Real.cos b - Real.cos a ≤ eta * Real.sin a := hk.trans (mul_le_mul_of_nonneg_left hm heta0)
  have he2 : eta * Real.cos a ≤ Real.sin a / (2 * h) := by
    have g1 : eta * Real.cos a ≤ a / (2 * h) * Real.cos a := mul_le_mul_of_nonneg_right h1 hca
    have e : a / (2 * h) * Real.cos a = a * Real.cos a / (2 * h) := by ring
    rw [e] at g1
    exact g1.trans (div_le_div_of_nonneg_right hmul (by positivity))
  have hy : x ≤ Real.cos a + 2 * (eta * Real.sin a) := by linarith
  have hx0 : 0 ≤ x := by linarith
  have hsq : x ^ 2 ≤ (Real.cos a + 2 * (eta * Real.sin a)) ^ 2 := pow_le_pow_left₀ hx0 hy 2
  have hr : h ^ 2 * (Real.cos b - Real.cos a) ^ 2 ≤ (h * eta) ^ 2 * Real.sin a ^ 2 := by
    have g2 : (Real.cos b - Real.cos a) ^ 2 ≤ (eta * Real.sin a) ^ 2 := pow_le_pow_left₀ (by linarith) hs1 2
    have g3 := mul_le_mul_of_nonneg_left g2 (sq_nonneg h)
    calc _ ≤ _ := g3
      _ = _ := by ring
  have hcross : 4 * (eta * Real.cos a * Real.sin a) ≤ 2 / h * Real.sin a ^ 2 := by
    have g1 := mul_le_mul_of_nonneg_right he2 hsa.le
    have e : Real.sin a / (2 * h) * Real.sin a * 4 = 2 / h * Real.sin a ^ 2 := by field_simp; ring
    linarith
  have hfin := guess_numbers N h (h * eta) hN hh (by positivity) h2
  have e4 : 4 * eta ^ 2 = (h * eta) ^ 2 * (4 / h ^ 2) := by field_simp
  have hfin2 := mul_le_mul_of_nonneg_right hfin (sq_nonneg (Real.sin a))
  have e5 : (h * eta) ^ 2 * (1 + 4 / h ^ 2) * Real.sin a ^ 2 = (h * eta) ^ 2 * Real.sin a ^ 2 + 4 * eta ^ 2 * Real.sin a ^ 2 := by rw [e4]; ring
  have e6 : (1 - 2 / h) * Real.sin a ^ 2 = Real.sin a ^ 2 - 2 / h * Real.sin a ^ 2 := by ring
  have e7 : (Real.cos a + 2 * (eta * Real.sin a)) ^ 2 = Real.cos a ^ 2 + 4 * (eta * Real.cos a * Real.sin a) + 4 * eta ^ 2 * Real.sin a ^ 2 := by ring
  rw [e5, e6] at hfin2
  rw [e7] at hsq
  linarith

/-- The Chebyshev guess is close enough to the zero: with `s0` its distance, `N (N+1) s0^2 <= 1 - x^2` for all `x` within this distance. -/
theorem guess_close (N j : ℕ) (h1 : 1 ≤ j) (h2 : 2 * j ≤ N) (h3 : j < N) (x : ℝ)
    (hx : |x - Real.cos (ang N j)| ≤ |Real.cos (Real.pi * j / N) - Real.cos (ang N j)|) :
    (N : ℝ) * ((N : ℝ) + 1) * |Real.cos (Real.pi * j / N) - Real.cos (ang N j)| ^ 2 ≤ 1 - x ^ 2 := by
  obtain ⟨hb1, hb2, hb3⟩ := ang_bounds N j h1 h2 h3
  have hb0 := (ang_inside N j h1 h3).1
  have hp := Real.pi_pos
  have hNpos : (0 : ℝ) < N := by exact_mod_cast (by omega : 0 < N)
  have hj1 : (1 : ℝ) ≤ j := by exact_mod_cast h1
  have hj2 : 2 * (j : ℝ) ≤ N := by exact_mod_cast h2
  have hsym := ang_symm N j (by omega) (by omega)
  set b := ang N j with hb
  obtain ⟨h, hh⟩ : ∃ h : ℝ, h = (N : ℝ) + 1 / 2 := ⟨_, rfl⟩
  rw [← hh] at hb1 hb2
  have hhpos : 0 < h := by rw [hh]; positivity
  have hlam : (N : ℝ) * ((N : ℝ) + 1) ≤ h ^ 2 := by
    have : h ^ 2 = (N : ℝ) * ((N : ℝ) + 1) + 1 / 4 := by rw [hh]; ring
    linarith
  obtain ⟨d, hd⟩ : ∃ d : ℝ, d = Real.pi / h := ⟨_, rfl⟩
  rw [← hd] at hb1 hb2
  have hdpos : 0 < d := by rw [hd]; exact div_pos hp hhpos
  have hhd : h * d = Real.pi := by rw [hd]; field_simp
  obtain ⟨a, ha⟩ : ∃ a : ℝ, a = Real.pi * j / N := ⟨_, rfl⟩
  rw [← ha] at hx ⊢
  have had : a = (j + j / (2 * N)) * d := by
    rw [ha, div_eq_iff hNpos.ne']
    have : ((j : ℝ) + j / (2 * N)) * d * N = j * (h * d) := by rw [hh]; field_simp
    rw [this, hhd]; ring
  have hq0 : 0 < (j : ℝ) / (2 * N) := by positivity
  have ha0 : 0 < a := by rw [ha]; positivity
  have ha2 : a ≤ Real.pi / 2 := by
    rw [ha, div_le_div_iff₀ hNpos (by norm_num)]
    have := mul_le_mul_of_nonneg_left hj2 hp.le
    linarith
  have hcb : 0 ≤ Real.cos b := Real.cos_nonneg_of_mem_Icc ⟨by linarith, hb3⟩
  have hsc := Real.sin_sq_add_cos_sq a
  obtain ⟨hx1, hx2⟩ := abs_le.1 hx
  rcases le_total a b with hab | hab
  · have hcs : Real.cos b ≤ Real.cos a := Real.cos_le_cos_of_nonneg_of_le_pi ha0.le (by linarith) hab
    rw [abs_of_nonneg (by linarith : 0 ≤ Real.cos a - Real.cos b)] at hx1 hx2 ⊢
    have hqd : 0 < (j : ℝ) / (2 * N) * d := mul_pos hq0 hdpos
    have hda : d ≤ a := by
      have : 1 * d ≤ (j : ℝ) * d := mul_le_mul_of_nonneg_right hj1 hdpos.le
      rw [had]; linarith
    have hbound := guess_beyond a b d h hab ha0 hb3 hhpos hhd hda (by rw [had]; linarith [hb2])
    have hx3 : |x| ≤ Real.cos a := by rw [abs_le]; constructor <;> linarith
    have hx4 : x ^ 2 ≤ Real.cos a ^ 2 := by rw [← sq_abs x]; exact pow_le_pow_left₀ (abs_nonneg _) hx3 2
    have g5 : (h * (Real.cos a - Real.cos b)) ^ 2 ≤ Real.sin a ^ 2 := pow_le_pow_left₀ (mul_nonneg hhpos.le (by linarith)) hbound 2
    have g6 := mul_le_mul_of_nonneg_right hlam (sq_nonneg (Real.cos a - Real.cos b))
    rw [mul_pow] at g5
    linarith
  · have hcs : Real.cos a ≤ Real.cos b := Real.cos_le_cos_of_nonneg_of_le_pi hb0.le (by linarith) hab
    have hse : |Real.cos a - Real.cos b| = Real.cos b - Real.cos a := by rw [abs_of_nonpos (by linarith)]; ring
    rw [hse] at hx ⊢
    have hdiff : a - b ≤ (j : ℝ) / (2 * N) * d := by rw [had]; linarith [hb1]
    have hda : (j : ℝ) / (2 * N) * d = a / (2 * h) := by
      rw [eq_div_iff (by positivity), ha, show (j : ℝ) / (2 * N) * d * (2 * h) = j / N * (h * d) by field_simp, hhd]; ring
    by_cases hmid : 2 * j = N
    · rw [show N - j = j by omega, ← hb] at hsym
      have hbm : b = Real.pi / 2 := by linarith
      have ham : a = Real.pi / 2 := by linarith
      have hx0 : x = 0 := by
        rw [hbm, ham, sub_self, Real.cos_pi_div_two, sub_zero] at hx
        exact abs_nonpos_iff.1 hx
      rw [hx0, hbm, ham]; simp
    · have hj3 : 2 * (j : ℝ) ≤ N - 1 := by
        have : 2 * j + 1 ≤ N := by omega
        have : 2 * (j : ℝ) + 1 ≤ N := by exact_mod_cast this
        linarith
      have he1 : h * (a - b) ≤ Real.pi / 4 * ((N - 1) / N) := by
        have g1 : h * (a - b) ≤ h * ((j : ℝ) / (2 * N) * d) := mul_le_mul_of_nonneg_left hdiff hhpos.le
        have e : h * ((j : ℝ) / (2 * N) * d) = Real.pi / 4 * (2 * j / N) := by
          rw [show h * ((j : ℝ) / (2 * N) * d) = j / (2 * N) * (h * d) by ring, hhd]; ring
        rw [e] at g1
        refine g1.trans (mul_le_mul_of_nonneg_left ?_ (by positivity))
        exact div_le_div_of_nonneg_right hj3 hNpos.le
      have key := guess_before a b N h x (by linarith) hh hb0 hab ha2 (by rw [← hda]; exact hdiff) he1 hx
      exact (mul_le_mul_of_nonneg_right hlam (sq_nonneg _)).trans key

/-- A radius around every zero within which one step converges, in terms of the number of nodes only. -/
theorem radius_ok (N j : ℕ) (h1 : 1 ≤ j) (h2 : j < N) (x : ℝ) (hx : |x - Real.cos (ang N j)| ≤ 1 / ((N : ℝ) + 1 / 2) ^ 2) :
    (N : ℝ) * ((N : ℝ) + 1) * (1 / ((N : ℝ) + 1 / 2) ^ 2) ^ 2 ≤ 1 - x ^ 2 := by
  have hp := Real.pi_pos
  have hN1 : (1 : ℝ) ≤ N := by exact_mod_cast (by omega : 1 ≤ N)
  obtain ⟨h, hh⟩ : ∃ h : ℝ, h = (N : ℝ) + 1 / 2 := ⟨_, rfl⟩
  have hh1 : 1 ≤ h := by linarith
  have hh0 : 0 < h := by linarith
  have hsin : 2 / h ≤ Real.sin (ang N j) := by
    have hlow : ∀ j, 1 ≤ j → 2 * j ≤ N → j < N → 2 / h ≤ Real.sin (ang N j) := by
      intro j h1 h2 h3
      obtain ⟨b1, _, b3⟩ := ang_bounds N j h1 h2 h3
      have hj : (1 : ℝ) ≤ j := by exact_mod_cast h1
      rw [← hh] at b1
      have := Real.mul_le_sin (ang_inside N j h1 h3).1.le b3
      have g : Real.pi / h ≤ ang N j := by
        have : 1 * (Real.pi / h) ≤ j * (Real.pi / h) := mul_le_mul_of_nonneg_right hj (by positivity)
        linarith
      have g2 : 2 / Real.pi * (Real.pi / h) ≤ 2 / Real.pi * ang N j := mul_le_mul_of_nonneg_left g (by positivity)
      have e : 2 / Real.pi * (Real.pi / h) = 2 / h := by field_simp
      linarith
    by_cases hc : 2 * j ≤ N
    · exact hlow j h1 hc h2
    · have := hlow (N - j) (by omega) (by omega) (by omega)
      rwa [ang_symm N j (by omega) (by omega), Real.sin_pi_sub] at this
  rw [← hh] at hx ⊢
  set R := 1 / h ^ 2 with hR
  have hR0 : 0 < R := by positivity
  have hR1 : R ≤ 1 := by rw [hR, div_le_one (by positivity)]; nlinarith
  have hs2 : 4 * R ≤ Real.sin (ang N j) ^ 2 := by
    have := pow_le_pow_left₀ (by positivity) hsin 2
    have e : (2 / h) ^ 2 = 4 * R := by rw [hR]; field_simp; norm_num
    linarith
  have hsc := Real.sin_sq_add_cos_sq (ang N j)
  have hlam : (N : ℝ) * ((N : ℝ) + 1) * R ^ 2 ≤ R := by
    have g : (N : ℝ) * ((N : ℝ) + 1) ≤ h ^ 2 := by
      have : h ^ 2 = (N : ℝ) * ((N : ℝ) + 1) + 1 / 4 := by rw [hh]; ring
      linarith
    have g2 := mul_le_mul_of_nonneg_right g (sq_nonneg R)
    have e : h ^ 2 * R ^ 2 = R := by rw [hR]; field_simp
    linarith
  have hc1 : |Real.cos (ang N j)| ≤ 1 := Real.abs_cos_le_one _
  have hx2 : |x| ≤ |Real.cos (ang N j)| + R := by
    have := abs_add_le (x - Real.cos (ang N j)) (Real.cos (ang N j))
    rw [sub_add_cancel] at this
    linarith
  have hx3 : x ^ 2 ≤ (|Real.cos (ang N j)| + R) ^ 2 := by rw [← sq_abs x]; exact pow_le_pow_left₀ (abs_nonneg _) hx2 2
  have hcsq : |Real.cos (ang N j)| ^ 2 = Real.cos (ang N j) ^ 2 := sq_abs _
  have g1 : 2 * |Real.cos (ang N j)| * R ≤ 2 * R := by
    have := mul_le_mul_of_nonneg_right hc1 hR0.le
    linarith
  have g2 : R ^ 2 ≤ R := by rw [sq]; exact mul_le_of_le_one_left hR0.le hR1
  have e : (|Real.cos (ang N j)| + R) ^ 2 = |Real.cos (ang N j)| ^ 2 + 2 * |Real.cos (ang N j)| * R + R ^ 2 := by ring
  linarith

end Verif.Lob
