import Mathlib.Tactic.NormNum
import Verif.Lemmas.FilterBasis
/-!
Property C36: the piecewise linear filter basis. `plVal nr nphi rc r phi k` is the value of basis function `k` at the polar
coordinates `(r, phi)`, `none` outside its stored support; the radial spacing is `2 rc / (nr + 1)`.
-/
namespace Verif.Props
open Verif Verif.Filter Finset

/-- The value of every function in closed form, as needed below. -/
theorem plVal_nonneg' (nr nphi : ℕ) (rc r phi : ℝ) (hrc : 0 < rc) (hr : 0 ≤ r) (k : ℕ) : 0 ≤ (plVal nr nphi rc r phi k).getD 0 := by
  unfold plVal
  split
  next hn =>
    have hn0 : 0 < nphi := by omega
    split
    · rcases Nat.eq_zero_or_pos k with rfl | hk
      · rw [plAnisoOdd_zero nr nphi hn0 rc r phi hrc]
        split
        · exact hat_nonneg _
        · exact le_refl 0
      · have e : k = 1 + ((k - 1) / nphi * nphi + (k - 1) % nphi) := by
          have := Nat.div_add_mod (k - 1) nphi
          rw [Nat.mul_comm] at this; omega
        rw [e, plAnisoOdd_succ nr nphi rc r phi hrc _ _ (Nat.mod_lt _ hn0)]
        split
        · exact mul_nonneg (hat_nonneg _) (circHat_nonneg _ _)
        · exact le_refl 0
    · have e : k = k / nphi * nphi + k % nphi := by
        have := Nat.div_add_mod k nphi
        rw [Nat.mul_comm] at this; omega
      rw [e, plAnisoEven_eq nr nphi rc r phi hrc hr _ _ (Nat.mod_lt _ hn0)]
      refine add_nonneg ?_ (mul_nonneg (hat_nonneg _) (circHat_nonneg _ _))
      split
      · exact mul_nonneg (hat_nonneg _) (circHat_nonneg _ _)
      · exact le_refl 0
  next =>
    rw [plIso_getD nr rc r hrc]
    split
    · exact hat_nonneg _
    · exact le_refl 0

/-- C36: no basis function takes a negative value. -/
theorem C36_nonneg (nr nphi : ℕ) (rc r phi : ℝ) (hrc : 0 < rc) (hr : 0 ≤ r) (k : ℕ) (v : ℝ)
    (h : plVal nr nphi rc r phi k = some v) : 0 ≤ v := by
  have := plVal_nonneg' nr nphi rc r phi hrc hr k
  rwa [h] at this

/-- C36: no basis function has a stored value beyond the cutoff radius. -/
theorem C36_support (nr nphi : ℕ) (rc r phi : ℝ) (hrc : 0 < rc) (hr : rc < r) (k : ℕ) : plVal nr nphi rc r phi k = none := by
  have hnot : ¬ r ≤ rc := not_le.2 hr
  unfold plVal
  split
  · split
    · unfold plAnisoOdd
      dsimp only
      rw [if_neg (fun h => hnot h.1.2)]
    · unfold plAnisoEven
      dsimp only
      rw [if_neg]
      rintro (h | h)
      · exact hnot h.1.2
      · have h1 := h.1.1
        have hs : 0 < 2 * rc / ((nr : ℝ) + 1) := by positivity
        have hs2 : 2 * rc / ((nr : ℝ) + 1) ≤ 2 * rc := div_le_self (by linarith) (by linarith [Nat.cast_nonneg (α := ℝ) nr])
        have hk : (0 : ℝ) ≤ ((k / nphi : ℕ) : ℝ) * (2 * rc / ((nr : ℝ) + 1)) := by positivity
        rw [abs_le] at h1
        have := h1.1
        norm_num at this
        linarith
  · unfold plIso
    dsimp only
    rw [if_neg (fun h => hnot h.2)]

theorem plKernelSize_odd {nr : ℕ} (h : nr % 2 = 1) (nphi : ℕ) : plKernelSize nr nphi = 1 + nr / 2 * nphi := by
  unfold plKernelSize; omega

theorem plKernelSize_even {nr : ℕ} (h : ¬ nr % 2 = 1) (nphi : ℕ) : plKernelSize nr nphi = nr / 2 * nphi := by
  unfold plKernelSize; omega

/-- `(rc - r) / dr` in units of the radial spacing. -/
theorem tail_eq (nr : ℕ) (rc r : ℝ) (hrc : 0 < rc) (x : ℝ)
    (hx : x = (r - (rc - 2 * rc / ((nr : ℝ) + 1))) / (2 * rc / ((nr : ℝ) + 1))) (hr : r ≤ rc) :
    1 - clamp x = if r ≤ rc - 2 * rc / ((nr : ℝ) + 1) then 1 else (rc - r) / (2 * rc / ((nr : ℝ) + 1)) := by
  have hs : 0 < 2 * rc / ((nr : ℝ) + 1) := by positivity
  split
  next h =>
    rw [clamp_zero, sub_zero]
    rw [hx]
    exact div_nonpos_of_nonpos_of_nonneg (by linarith) hs.le
  next h =>
    have h1 : 0 ≤ x := by rw [hx]; exact div_nonneg (by linarith) hs.le
    have h2 : x ≤ 1 := by rw [hx, div_le_one hs]; linarith
    unfold clamp
    rw [min_eq_left h2, max_eq_right h1, hx]
    field_simp
    ring

/-- The angular functions sum to one, for an angle in `[-pi, 2 pi)`. -/
theorem angular_sum (nphi : ℕ) (hn : 2 ≤ nphi) (phi : ℝ) (h0 : -Real.pi ≤ phi) (h1 : phi < 2 * Real.pi) :
    ∑ j ∈ range nphi, circHat nphi ((phi + Real.pi) / (2 * Real.pi / nphi) - j) = 1 := by
  have hp := Real.pi_pos
  have hnr : (0 : ℝ) < nphi := by exact_mod_cast (by omega : 0 < nphi)
  refine sum_circHat nphi hn _ (div_nonneg (by linarith) (by positivity)) ?_
  rw [div_lt_iff₀ (by positivity)]
  field_simp
  linarith

/-- C36: the sum of all basis functions, at every point of the disk: exactly 1 up to one radial spacing from the cutoff, then
falling linearly to 0 at the cutoff. Holds for every kernel shape with at least two angles, and for one angle (isotropic filters)
when the number of radial points is odd. -/
theorem C36_partition_of_unity (nr nphi : ℕ) (hnr : 1 ≤ nr) (hn : 1 ≤ nphi) (hodd : nphi = 1 → nr % 2 = 1)
    (rc r phi : ℝ) (hrc : 0 < rc) (hr : 0 ≤ r) (hr' : r ≤ rc) (h0 : -Real.pi ≤ phi) (h1 : phi < 2 * Real.pi) :
    ∑ k ∈ range (plKernelSize nr nphi), (plVal nr nphi rc r phi k).getD 0
      = if r ≤ rc - 2 * rc / ((nr : ℝ) + 1) then 1 else (rc - r) / (2 * rc / ((nr : ℝ) + 1)) := by
  have hs : 0 < 2 * rc / ((nr : ℝ) + 1) := by positivity
  have hrho : 0 ≤ r / (2 * rc / ((nr : ℝ) + 1)) := div_nonneg hr hs.le
  by_cases ho : nr % 2 = 1
  · have hnp : (nr : ℝ) = 2 * (nr / 2 : ℕ) + 1 := by exact_mod_cast (by omega : nr = 2 * (nr / 2) + 1)
    have hx : r / (2 * rc / ((nr : ℝ) + 1)) + 1 - ((nr / 2 + 1 : ℕ) : ℝ)
        = (r - (rc - 2 * rc / ((nr : ℝ) + 1))) / (2 * rc / ((nr : ℝ) + 1)) := by
      rw [sub_div, sub_div, div_self hs.ne']
      push_cast
      rw [hnp]
      field_simp
      ring
    rw [← tail_eq nr rc r hrc _ hx hr']
    have hradial : ∑ i ∈ range (nr / 2 + 1), hat (r / (2 * rc / ((nr : ℝ) + 1)) - i)
        = 1 - clamp (r / (2 * rc / ((nr : ℝ) + 1)) + 1 - ((nr / 2 + 1 : ℕ) : ℝ)) := by
      rw [sum_hat, clamp_one (by linarith)]
    rw [← hradial]
    by_cases hn1 : nphi = 1
    · subst hn1
      rw [plKernelSize_odd ho, Nat.mul_one, Nat.add_comm]
      refine sum_congr rfl fun k _ => ?_
      unfold plVal
      rw [if_neg (by omega), plIso_getD nr rc r hrc, if_pos hr', if_pos ho]
    · rw [plKernelSize_odd ho, sum_range_add, sum_range_blocks, sum_range_one, Nat.add_comm (nr / 2) 1, sum_range_add, sum_range_one]
      have hv : ∀ k, plVal nr nphi rc r phi k = plAnisoOdd nr nphi rc r phi k := by
        intro k; unfold plVal; rw [if_pos (by omega), if_pos ho]
      congr 1
      · rw [hv, plAnisoOdd_zero nr nphi (by omega) rc r phi hrc, if_pos hr', Nat.cast_zero, sub_zero]
      · refine sum_congr rfl fun i _ => ?_
        rw [sum_congr rfl fun j hj => by
          rw [hv, plAnisoOdd_succ nr nphi rc r phi hrc i j (mem_range.1 hj), if_pos hr'], ← mul_sum,
          angular_sum nphi (by omega) phi h0 h1, mul_one, Nat.add_comm]
  · have hn2 : 2 ≤ nphi := by
      rcases Nat.lt_or_ge nphi 2 with h | h
      · exact absurd (hodd (by omega)) ho
      · exact h
    have hnp : (nr : ℝ) = 2 * (nr / 2 : ℕ) := by exact_mod_cast (by omega : nr = 2 * (nr / 2))
    have hp1 : (1 : ℝ) ≤ (nr / 2 : ℕ) := by exact_mod_cast (by omega : 1 ≤ nr / 2)
    have hx : r / (2 * rc / ((nr : ℝ) + 1)) - 1 / 2 + 1 - (nr / 2 : ℕ)
        = (r - (rc - 2 * rc / ((nr : ℝ) + 1))) / (2 * rc / ((nr : ℝ) + 1)) := by
      rw [sub_div, sub_div, div_self hs.ne', hnp]
      field_simp
      ring
    rw [← tail_eq nr rc r hrc _ hx hr']
    have hv : ∀ k, plVal nr nphi rc r phi k = plAnisoEven nr nphi rc r phi k := by
      intro k; unfold plVal; rw [if_pos (by omega), if_neg ho]
    have hang' : ∑ j ∈ range nphi, circHat nphi
        (((if 0 ≤ phi then phi - Real.pi else phi + Real.pi) + Real.pi) / (2 * Real.pi / nphi) - j) = 1 := by
      have hp := Real.pi_pos
      split
      · exact angular_sum nphi hn2 _ (by linarith) (by linarith)
      · exact angular_sum nphi hn2 _ (by linarith) (by linarith)
    rw [plKernelSize_even ho, sum_range_blocks]
    have hrow : ∀ i : ℕ, ∑ j ∈ range nphi, (plVal nr nphi rc r phi (i * nphi + j)).getD 0
        = hat (r / (2 * rc / ((nr : ℝ) + 1)) - (1 / 2 + i)) + hat (r / (2 * rc / ((nr : ℝ) + 1)) + (1 / 2 + i)) := by
      intro i
      rw [sum_congr rfl fun j hj => by
        rw [hv, plAnisoEven_eq nr nphi rc r phi hrc hr i j (mem_range.1 hj), if_pos hr'], sum_add_distrib, ← mul_sum, ← mul_sum,
        angular_sum nphi hn2 phi h0 h1, hang', mul_one, mul_one]
    rw [sum_congr rfl fun i _ => hrow i, sum_add_distrib]
    have e1 : ∑ i ∈ range (nr / 2), hat (r / (2 * rc / ((nr : ℝ) + 1)) - (1 / 2 + i))
        = clamp (r / (2 * rc / ((nr : ℝ) + 1)) - 1 / 2 + 1) - clamp (r / (2 * rc / ((nr : ℝ) + 1)) - 1 / 2 + 1 - (nr / 2 : ℕ)) := by
      rw [← sum_hat]
      exact sum_congr rfl fun i _ => by rw [sub_sub]
    have e2 : ∑ i ∈ range (nr / 2), hat (r / (2 * rc / ((nr : ℝ) + 1)) + (1 / 2 + i))
        = 1 - clamp (r / (2 * rc / ((nr : ℝ) + 1)) - 1 / 2 + 1) := by
      have hc := clamp_one (show 1 ≤ r / (2 * rc / ((nr : ℝ) + 1)) + 1 / 2 + (nr / 2 : ℕ) by linarith)
      have hsum := sum_hat_neg (r / (2 * rc / ((nr : ℝ) + 1)) + 1 / 2) (nr / 2)
      rw [hc] at hsum
      rw [show r / (2 * rc / ((nr : ℝ) + 1)) - 1 / 2 + 1 = r / (2 * rc / ((nr : ℝ) + 1)) + 1 / 2 by ring, ← hsum]
      exact sum_congr rfl fun i _ => by rw [add_assoc]
    rw [e1, e2]
    ring

/-- C36: an isotropic basis with an even number of radial points is not a partition of unity near the centre: at the centre the
functions sum to one half. -/
theorem C36_isotropic_even_centre (nr : ℕ) (hnr : 2 ≤ nr) (he : nr % 2 = 0) (rc phi : ℝ) (hrc : 0 < rc) :
    ∑ k ∈ range (plKernelSize nr 1), (plVal nr 1 rc 0 phi k).getD 0 = 1 / 2 := by
  have hp1 : (1 : ℝ) ≤ (nr / 2 : ℕ) := by exact_mod_cast (by omega : 1 ≤ nr / 2)
  rw [plKernelSize_even (by omega), Nat.mul_one]
  have e : ∀ k ∈ range (nr / 2), (plVal nr 1 rc 0 phi k).getD 0 = hat ((-1 / 2 : ℝ) - k) := by
    intro k _
    unfold plVal
    rw [if_neg (by omega), plIso_getD nr rc 0 hrc, if_pos hrc.le, if_neg (by omega), zero_div]
    congr 1; norm_num; ring
  rw [sum_congr rfl e, sum_hat, clamp_zero (by linarith : (-1 / 2 : ℝ) + 1 - (nr / 2 : ℕ) ≤ 0)]
  unfold clamp
  norm_num

/-- C36: all `kernel_size` functions are present: each takes the value 1 at its own collocation point inside the disk (for an even
number of radial points: a positive value). -/
theorem C36_all_present (nr nphi : ℕ) (hn : 1 ≤ nphi) (rc : ℝ) (hrc : 0 < rc) (k : ℕ) (hk : k < plKernelSize nr nphi) :
    ∃ r phi v, 0 ≤ r ∧ r ≤ rc ∧ -Real.pi ≤ phi ∧ phi < 2 * Real.pi ∧ plVal nr nphi rc r phi k = some v ∧ 0 < v := by
  have hp := Real.pi_pos
  have hs : 0 < 2 * rc / ((nr : ℝ) + 1) := by positivity
  suffices h : ∃ r phi, 0 ≤ r ∧ r ≤ rc ∧ -Real.pi ≤ phi ∧ phi < 2 * Real.pi ∧ 0 < (plVal nr nphi rc r phi k).getD 0 by
    obtain ⟨r, phi, h1, h2, h3, h4, h5⟩ := h
    cases hv : plVal nr nphi rc r phi k with
    | none => rw [hv] at h5; exact absurd h5 (lt_irrefl _)
    | some v => rw [hv] at h5; exact ⟨r, phi, v, h1, h2, h3, h4, hv, h5⟩
  have hat0 : hat 0 = 1 := by unfold hat; simp
  have ch0 : circHat nphi 0 = 1 := by
    unfold circHat; simp
  have hmul : (nr : ℝ) + 1 = 2 * rc / (2 * rc / ((nr : ℝ) + 1)) := by field_simp
  by_cases ho : nr % 2 = 1
  · have hnp : (nr : ℝ) = 2 * (nr / 2 : ℕ) + 1 := by exact_mod_cast (by omega : nr = 2 * (nr / 2) + 1)
    have hle : ∀ i : ℕ, i ≤ nr / 2 → (i : ℝ) * (2 * rc / ((nr : ℝ) + 1)) ≤ rc := by
      intro i hi
      have : (i : ℝ) ≤ (nr / 2 : ℕ) := by exact_mod_cast hi
      rw [mul_div_assoc', div_le_iff₀ (by positivity), hnp]
      nlinarith
    by_cases hn1 : nphi = 1
    · subst hn1
      rw [plKernelSize_odd ho, Nat.mul_one] at hk
      refine ⟨k * (2 * rc / ((nr : ℝ) + 1)), 0, by positivity, hle k (by omega), by linarith, by linarith, ?_⟩
      unfold plVal
      rw [if_neg (by omega), plIso_getD nr rc _ hrc, if_pos (hle k (by omega)), if_pos ho, mul_div_cancel_right₀ _ hs.ne', sub_self, hat0]
      exact one_pos
    · rw [plKernelSize_odd ho] at hk
      have hv : ∀ r phi, plVal nr nphi rc r phi k = plAnisoOdd nr nphi rc r phi k := by
        intro r phi; unfold plVal; rw [if_pos (by omega), if_pos ho]
      rcases Nat.eq_zero_or_pos k with rfl | hk0
      · refine ⟨0, 0, le_refl _, hrc.le, by linarith, by linarith, ?_⟩
        rw [hv, plAnisoOdd_zero nr nphi (by omega) rc _ _ hrc, if_pos hrc.le, zero_div, hat0]; exact one_pos
      · obtain ⟨i, j, hj, rfl⟩ : ∃ i j, j < nphi ∧ k = 1 + (i * nphi + j) := by
          refine ⟨(k - 1) / nphi, (k - 1) % nphi, Nat.mod_lt _ (by omega), ?_⟩
          have := Nat.div_add_mod (k - 1) nphi
          rw [Nat.mul_comm] at this; omega
        have hi : i + 1 ≤ nr / 2 := by
          by_contra h
          have : nr / 2 * nphi ≤ i * nphi := Nat.mul_le_mul_right _ (by omega)
          omega
        have hjr : (j : ℝ) < nphi := by exact_mod_cast hj
        have hnr : (0 : ℝ) < nphi := by exact_mod_cast hn
        have hphi : ((j : ℝ) * (2 * Real.pi / nphi) - Real.pi + Real.pi) / (2 * Real.pi / nphi) - j = 0 := by
          field_simp; ring
        refine ⟨(i + 1 : ℕ) * (2 * rc / ((nr : ℝ) + 1)), j * (2 * Real.pi / nphi) - Real.pi, by positivity, hle _ hi, ?_, ?_, ?_⟩
        · have : 0 ≤ (j : ℝ) * (2 * Real.pi / nphi) := by positivity
          linarith
        · have : (j : ℝ) * (2 * Real.pi / nphi) ≤ 2 * Real.pi := by
            rw [mul_div_assoc', div_le_iff₀ hnr]; nlinarith
          linarith
        · rw [hv, plAnisoOdd_succ nr nphi rc _ _ hrc i j hj, if_pos (hle _ hi), mul_div_cancel_right₀ _ hs.ne', sub_self, hat0, hphi, ch0]
          norm_num
  · have hnp : (nr : ℝ) = 2 * (nr / 2 : ℕ) := by exact_mod_cast (by omega : nr = 2 * (nr / 2))
    have hle : ∀ i : ℕ, i < nr / 2 → ((i : ℝ) + 1 / 2) * (2 * rc / ((nr : ℝ) + 1)) ≤ rc := by
      intro i hi
      have : (i : ℝ) + 1 ≤ (nr / 2 : ℕ) := by exact_mod_cast hi
      rw [mul_div_assoc', div_le_iff₀ (by positivity), hnp]
      nlinarith
    rw [plKernelSize_even ho] at hk
    by_cases hn1 : nphi = 1
    · subst hn1
      rw [Nat.mul_one] at hk
      refine ⟨((k : ℝ) + 1 / 2) * (2 * rc / ((nr : ℝ) + 1)), 0, by positivity, hle k hk, by linarith, by linarith, ?_⟩
      unfold plVal
      rw [if_neg (by omega), plIso_getD nr rc _ hrc, if_pos (hle k hk), if_neg ho, mul_div_cancel_right₀ _ hs.ne',
        show (k : ℝ) + 1 / 2 - (k + 0.5) = 0 by norm_num, hat0]
      exact one_pos
    · have hv : ∀ r phi, plVal nr nphi rc r phi k = plAnisoEven nr nphi rc r phi k := by
        intro r phi; unfold plVal; rw [if_pos (by omega), if_neg ho]
      obtain ⟨i, j, hj, rfl⟩ : ∃ i j, j < nphi ∧ k = i * nphi + j := by
        refine ⟨k / nphi, k % nphi, Nat.mod_lt _ (by omega), ?_⟩
        have := Nat.div_add_mod k nphi
        rw [Nat.mul_comm] at this; omega
      have hi : i < nr / 2 := by
        by_contra h
        have : nr / 2 * nphi ≤ i * nphi := Nat.mul_le_mul_right _ (by omega)
        omega
      have hjr : (j : ℝ) < nphi := by exact_mod_cast hj
      have hnr : (0 : ℝ) < nphi := by exact_mod_cast hn
      have hphi : ((j : ℝ) * (2 * Real.pi / nphi) - Real.pi + Real.pi) / (2 * Real.pi / nphi) - j = 0 := by
        field_simp; ring
      have hr0 : 0 ≤ ((i : ℝ) + 1 / 2) * (2 * rc / ((nr : ℝ) + 1)) := by positivity
      refine ⟨((i : ℝ) + 1 / 2) * (2 * rc / ((nr : ℝ) + 1)), j * (2 * Real.pi / nphi) - Real.pi, hr0, hle _ hi, ?_, ?_, ?_⟩
      · have : 0 ≤ (j : ℝ) * (2 * Real.pi / nphi) := by positivity
        linarith
      · have : (j : ℝ) * (2 * Real.pi / nphi) ≤ 2 * Real.pi := by
          rw [mul_div_assoc', div_le_iff₀ hnr]; nlinarith
        linarith
      · rw [hv, plAnisoEven_eq nr nphi rc _ _ hrc hr0 i j hj, if_pos (hle _ hi), mul_div_cancel_right₀ _ hs.ne',
          show (i : ℝ) + 1 / 2 - (1 / 2 + i) = 0 by ring, hat0, hphi, ch0]
        have := mul_nonneg (hat_nonneg ((i : ℝ) + 1 / 2 + (1 / 2 + i))) (circHat_nonneg nphi
          (((if 0 ≤ (j : ℝ) * (2 * Real.pi / nphi) - Real.pi then (j : ℝ) * (2 * Real.pi / nphi) - Real.pi - Real.pi
            else (j : ℝ) * (2 * Real.pi / nphi) - Real.pi + Real.pi) + Real.pi) / (2 * Real.pi / nphi) - j))
        linarith

/-- C36: accepted kernel shapes are one or two numbers. -/
theorem C36_shape (l : List ℕ) : (∃ s, plShape l = .ok s) ↔ l.length = 1 ∨ l.length = 2 := by
  match l with
  | [] => simp [plShape]
  | [a] => simp [plShape]
  | [a, b] => simp [plShape]
  | a :: b :: c :: t => simp [plShape]

example : plKernelSize 5 4 = 9 ∧ plKernelSize 2 4 = 4 ∧ plKernelSize 3 1 = 2 := by decide
example : ((5 : ℕ) = 1 → (4 : ℕ) % 2 = 1) := by decide
example : (0.25 : ℝ) ≤ 1 - 2 * 1 / ((3 : ℕ) + 1) := by norm_num

end Verif.Props
