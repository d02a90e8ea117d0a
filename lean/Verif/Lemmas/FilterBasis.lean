import Mathlib.Algebra.BigOperators.Ring.Finset
import Mathlib.Algebra.Order.Floor.Ring
import Mathlib.Tactic.FieldSimp
import Mathlib.Tactic.Linarith
import Mathlib.Tactic.Positivity
import Verif.Model.FilterBasis
/-! Hat functions on the line and on the circle, and their sums. -/
namespace Verif.Filter
open Verif Finset

noncomputable def hat (x : ℝ) : ℝ := max 0 (1 - |x|)
noncomputable def clamp (x : ℝ) : ℝ := max 0 (min x 1)

theorem hat_nonneg (x : ℝ) : 0 ≤ hat x := le_max_left _ _

theorem hat_eq_clamp (x : ℝ) : hat x = clamp (x + 1) - clamp x := by
  unfold hat clamp
  rcases le_total 0 x with h | h
  · rw [abs_of_nonneg h, min_eq_right (by linarith : (1 : ℝ) ≤ x + 1), max_eq_right (zero_le_one)]
    rcases le_total x 1 with h1 | h1
    · rw [min_eq_left h1, max_eq_right h, max_eq_right (by linarith)]
    · rw [min_eq_right h1, max_eq_right zero_le_one, max_eq_left (by linarith)]; ring
  · rw [abs_of_nonpos h, min_eq_left (by linarith : x + 1 ≤ 1), min_eq_left (by linarith : x ≤ 1), max_eq_left h,
      sub_neg_eq_add, add_comm, sub_zero]

theorem clamp_one {x : ℝ} (h : 1 ≤ x) : clamp x = 1 := by
  unfold clamp; rw [min_eq_right h, max_eq_right zero_le_one]

theorem clamp_zero {x : ℝ} (h : x ≤ 0) : clamp x = 0 := by
  unfold clamp; rw [min_eq_left (by linarith), max_eq_left h]

theorem sum_hat (x : ℝ) (n : ℕ) : ∑ i ∈ range n, hat (x - i) = clamp (x + 1) - clamp (x + 1 - n) := by
  induction n with
  | zero => simp
  | succ n ih =>
    rw [sum_range_succ, ih, hat_eq_clamp]
    push_cast
    rw [show x - (n : ℝ) + 1 = x + 1 - n by ring, show x + 1 - ((n : ℝ) + 1) = x - n by ring]
    ring

theorem sum_hat_neg (y : ℝ) (n : ℕ) : ∑ i ∈ range n, hat (y + i) = clamp (y + n) - clamp y := by
  induction n with
  | zero => simp
  | succ n ih =>
    rw [sum_range_succ, ih, hat_eq_clamp]
    push_cast
    rw [show y + ((n : ℝ) + 1) = y + n + 1 by ring]
    ring

theorem sum_range_blocks (p n : ℕ) (f : ℕ → ℝ) : ∑ k ∈ range (p * n), f k = ∑ i ∈ range p, ∑ j ∈ range n, f (i * n + j) := by
  induction p with
  | zero => simp
  | succ p ih => rw [Nat.add_mul, Nat.one_mul, sum_range_add, ih, sum_range_succ]

/-- A hat function on a circle of circumference `N`. -/
noncomputable def circHat (N : ℕ) (d : ℝ) : ℝ := max 0 (1 - min |d| (abs ((N : ℝ) - |d|)))

theorem circHat_nonneg (N : ℕ) (d : ℝ) : 0 ≤ circHat N d := le_max_left _ _

theorem circHat_eq (N : ℕ) (hN : 2 ≤ N) (m j : ℕ) (hm : m + 1 < 2 * N) (hj : j < N) (f : ℝ) (hf0 : 0 ≤ f) (hf1 : f < 1) :
    circHat N ((m : ℝ) + f - j) = (if j = m % N then 1 - f else 0) + (if j = (m + 1) % N then f else 0) := by
  have hNr : (2 : ℝ) ≤ N := by exact_mod_cast hN
  have hm1 : m % N = if m < N then m else m - N := by
    split
    next h => exact Nat.mod_eq_of_lt h
    next h => rw [Nat.mod_eq_sub_mod (by omega), Nat.mod_eq_of_lt (by omega)]
  have hm2 : (m + 1) % N = if m + 1 < N then m + 1 else m + 1 - N := by
    split
    next h => exact Nat.mod_eq_of_lt h
    next h => rw [Nat.mod_eq_sub_mod (by omega), Nat.mod_eq_of_lt (by omega)]
  unfold circHat
  rcases Nat.lt_trichotomy j m with h | h | h
  · -- j < m
    obtain ⟨e, rfl⟩ : ∃ e, m = j + e := ⟨m - j, by omega⟩
    have hd : ((j + e : ℕ) : ℝ) + f - j = e + f := by push_cast; ring
    have he1 : (1 : ℝ) ≤ e := by exact_mod_cast (by omega : 1 ≤ e)
    rw [hd, abs_of_nonneg (by linarith : (0 : ℝ) ≤ e + f)]
    rcases Nat.lt_trichotomy e N with h1 | h1 | h1
    · by_cases h2 : e + 1 = N
      · -- e = N - 1
        have hNe : (N : ℝ) = e + 1 := by exact_mod_cast h2.symm
        have j1 : ¬ j = (j + e) % N := by rw [hm1]; split <;> omega
        have j2 : j = (j + e + 1) % N := by rw [hm2]; split <;> omega
        rw [if_neg j1, if_pos j2, hNe, show (e : ℝ) + 1 - (e + f) = 1 - f by ring, abs_of_nonneg (by linarith),
          min_eq_right (by linarith), max_eq_right (by linarith)]
        ring
      · have hle : (e : ℝ) + 2 ≤ N := by exact_mod_cast (by omega : e + 2 ≤ N)
        have j1 : ¬ j = (j + e) % N := by rw [hm1]; split <;> omega
        have j2 : ¬ j = (j + e + 1) % N := by rw [hm2]; split <;> omega
        rw [if_neg j1, if_neg j2, abs_of_nonneg (by linarith), max_eq_left, add_zero]
        have : 1 ≤ min ((e : ℝ) + f) (N - (e + f)) := le_min (by linarith) (by linarith)
        linarith
    · subst h1
      have j1 : j = (j + e) % e := by rw [hm1]; split <;> omega
      have j2 : ¬ j = (j + e + 1) % e := by rw [hm2]; split <;> omega
      rw [if_pos j1, if_neg j2, show (e : ℝ) - (e + f) = -f by ring, abs_neg, abs_of_nonneg hf0, min_eq_right (by linarith),
        max_eq_right (by linarith), add_zero]
    · have hle : (N : ℝ) + 1 ≤ e := by exact_mod_cast (by omega : N + 1 ≤ e)
      have j1 : ¬ j = (j + e) % N := by rw [hm1]; split <;> omega
      have j2 : ¬ j = (j + e + 1) % N := by rw [hm2]; split <;> omega
      rw [if_neg j1, if_neg j2, abs_of_nonpos (by linarith), max_eq_left, add_zero]
      have : 1 ≤ min ((e : ℝ) + f) (-(N - (e + f))) := le_min (by linarith) (by linarith)
      linarith
  · subst h
    have j1 : j = j % N := (Nat.mod_eq_of_lt hj).symm
    have j2 : ¬ j = (j + 1) % N := by rw [hm2]; split <;> omega
    rw [if_pos j1, if_neg j2, show (j : ℝ) + f - j = f by ring, abs_of_nonneg hf0, abs_of_nonneg (by linarith),
      min_eq_left (by linarith), max_eq_right (by linarith), add_zero]
  · obtain ⟨e, rfl⟩ : ∃ e, j = m + 1 + e := ⟨j - m - 1, by omega⟩
    have hd : (m : ℝ) + f - ((m + 1 + e : ℕ) : ℝ) = -(1 + e - f) := by push_cast; ring
    have he0 : (0 : ℝ) ≤ e := Nat.cast_nonneg e
    have hle : (e : ℝ) + 2 ≤ N := by exact_mod_cast (by omega : e + 2 ≤ N)
    have j1 : ¬ m + 1 + e = m % N := by rw [hm1]; split <;> omega
    rw [hd, abs_neg, abs_of_nonneg (by linarith : (0 : ℝ) ≤ 1 + e - f), abs_of_nonneg (by linarith), if_neg j1]
    by_cases h1 : e = 0
    · subst h1
      have j2 : m + 1 + 0 = (m + 1) % N := by rw [hm2]; split <;> omega
      rw [if_pos j2]
      push_cast at hle ⊢
      rw [min_eq_left (by linarith), max_eq_right (by linarith)]
      ring
    · have j2 : ¬ m + 1 + e = (m + 1) % N := by rw [hm2]; split <;> omega
      have he1 : (1 : ℝ) ≤ e := by exact_mod_cast (by omega : 1 ≤ e)
      rw [if_neg j2, max_eq_left, add_zero]
      have : 1 ≤ min (1 + (e : ℝ) - f) (N - (1 + e - f)) := le_min (by linarith) (by linarith)
      linarith

/-- Hat functions at the integer points of a circle of circumference `N` are a partition of unity. -/
theorem sum_circHat (N : ℕ) (hN : 2 ≤ N) (u : ℝ) (h0 : 0 ≤ u) (h1 : u < 3 * N / 2) : ∑ j ∈ range N, circHat N (u - j) = 1 := by
  have hNr : (2 : ℝ) ≤ N := by exact_mod_cast hN
  obtain ⟨m, hm⟩ : ∃ m : ℕ, (m : ℝ) ≤ u ∧ u < m + 1 := ⟨⌊u⌋₊, Nat.floor_le h0, Nat.lt_floor_add_one u⟩
  have hlt : m + 1 < 2 * N := by
    by_contra h
    have : (2 * N : ℝ) ≤ m + 1 := by exact_mod_cast (not_lt.1 h)
    have h2 : (m : ℝ) < 3 * N / 2 := lt_of_le_of_lt hm.1 h1
    have h3 : (N : ℝ) < 2 := by linarith
    linarith
  have e : ∀ j ∈ range N, circHat N (u - j)
      = (if j = m % N then 1 - (u - m) else 0) + (if j = (m + 1) % N then u - m else 0) := by
    intro j hj
    rw [← circHat_eq N hN m j hlt (mem_range.1 hj) (u - m) (by linarith) (by linarith)]
    congr 1; ring
  rw [sum_congr rfl e, sum_add_distrib, sum_ite_eq', sum_ite_eq', if_pos (mem_range.2 (Nat.mod_lt _ (by omega))),
    if_pos (mem_range.2 (Nat.mod_lt _ (by omega)))]
  ring

end Verif.Filter

namespace Verif.Filter
open Verif Finset

theorem ite_hat {d s : ℝ} (hs : 0 < s) : (if |d| ≤ s then 1 - |d| / s else 0) = hat (d / s) := by
  unfold hat
  rw [abs_div, abs_of_pos hs]
  split
  next h => rw [max_eq_right (sub_nonneg.2 ((div_le_one hs).2 h))]
  next h => rw [max_eq_left (sub_nonpos.2 ((one_le_div hs).2 (le_of_not_ge h)))]

theorem circleDist_nonneg (a b : ℝ) : 0 ≤ circleDist a b := le_min (abs_nonneg _) (abs_nonneg _)

/-- The angular factor of the code is a hat function on the circle of circumference `nphi`. -/
theorem ite_circHat (nphi : ℕ) (hn : 0 < nphi) (phi : ℝ) (j : ℕ) :
    (if circleDist phi ((j : ℝ) * (2 * Real.pi / nphi) - Real.pi) ≤ 2 * Real.pi / nphi then
      1 - circleDist phi ((j : ℝ) * (2 * Real.pi / nphi) - Real.pi) / (2 * Real.pi / nphi) else 0)
      = circHat nphi ((phi + Real.pi) / (2 * Real.pi / nphi) - j) := by
  have hp := Real.pi_pos
  have hnr : (0 : ℝ) < nphi := by exact_mod_cast hn
  have hs : 0 < 2 * Real.pi / nphi := by positivity
  set s := 2 * Real.pi / nphi with hsd
  have e : circleDist phi ((j : ℝ) * s - Real.pi) / s
      = min |(phi + Real.pi) / s - j| (abs ((nphi : ℝ) - |(phi + Real.pi) / s - j|)) := by
    have h1 : (phi + Real.pi) / s - j = (phi - (j * s - Real.pi)) / s := by field_simp; ring
    have h2 : (nphi : ℝ) = 2 * Real.pi / s := by rw [hsd]; field_simp
    unfold circleDist
    rw [h1, h2, abs_div, abs_of_pos hs, ← sub_div, abs_div, abs_of_pos hs, min_div_div_right hs.le]
  unfold circHat
  rw [← e]
  split
  next h => rw [max_eq_right (sub_nonneg.2 ((div_le_one hs).2 h))]
  next h => rw [max_eq_left (sub_nonpos.2 ((one_le_div hs).2 (le_of_not_ge h)))]

/-- Isotropic functions as hats. -/
theorem plIso_getD (nr : ℕ) (rc r : ℝ) (hrc : 0 < rc) (k : ℕ) : (plIso nr rc r k).getD 0
    = if r ≤ rc then hat (r / (2 * rc / (nr + 1)) - (if nr % 2 = 1 then (k : ℝ) else k + 0.5)) else 0 := by
  have hs : 0 < 2 * rc / ((nr : ℝ) + 1) := by positivity
  unfold plIso
  dsimp only
  set s := 2 * rc / ((nr : ℝ) + 1)
  have e : (if nr % 2 = 1 then (k : ℝ) * s else ((k : ℝ) + 0.5) * s) = (if nr % 2 = 1 then (k : ℝ) else k + 0.5) * s := by
    split <;> rfl
  rw [e]
  set c := (if nr % 2 = 1 then (k : ℝ) else k + 0.5)
  have h1 : r / s - c = (r - c * s) / s := by field_simp
  rw [h1, ← ite_hat hs]
  by_cases h2 : r ≤ rc <;> by_cases h3 : |r - c * s| ≤ s <;> simp [h2, h3]

theorem plAnisoOdd_zero (nr nphi : ℕ) (hn : 0 < nphi) (rc r phi : ℝ) (hrc : 0 < rc) : (plAnisoOdd nr nphi rc r phi 0).getD 0
    = if r ≤ rc then hat (r / (2 * rc / (nr + 1))) else 0 := by
  have hs : 0 < 2 * rc / ((nr : ℝ) + 1) := by positivity
  have e : (((0 : ℕ) : ℤ) - 1) / (nphi : ℤ) + 1 = 0 := by
    have hb : (0 : ℤ) < nphi := by omega
    have : ((((0 : ℕ) : ℤ) - 1) / (nphi : ℤ) = -1 ∧ (((0 : ℕ) : ℤ) - 1) % (nphi : ℤ) = nphi - 1) :=
      (Int.ediv_emod_unique hb).2 ⟨by push_cast; ring, by omega, by omega⟩
    omega
  unfold plAnisoOdd
  simp only [e, Int.cast_zero, zero_mul, sub_zero, true_or, and_true, lt_irrefl, if_false, mul_one]
  rw [← ite_hat hs]
  by_cases h2 : r ≤ rc <;> by_cases h3 : |r| ≤ 2 * rc / ((nr : ℝ) + 1) <;> simp [h2, h3]

theorem plAnisoOdd_succ (nr nphi : ℕ) (rc r phi : ℝ) (hrc : 0 < rc) (i j : ℕ) (hj : j < nphi) :
    (plAnisoOdd nr nphi rc r phi (1 + (i * nphi + j))).getD 0
    = if r ≤ rc then hat (r / (2 * rc / (nr + 1)) - (i + 1 : ℕ)) * circHat nphi ((phi + Real.pi) / (2 * Real.pi / nphi) - j) else 0 := by
  have hs : 0 < 2 * rc / ((nr : ℝ) + 1) := by positivity
  have hn : 0 < nphi := by omega
  have hb : (0 : ℤ) < nphi := by omega
  obtain ⟨e1, e2⟩ : ((((1 + (i * nphi + j) : ℕ)) : ℤ) - 1) / (nphi : ℤ) = (i : ℤ)
      ∧ ((((1 + (i * nphi + j) : ℕ)) : ℤ) - 1) % (nphi : ℤ) = (j : ℤ) :=
    (Int.ediv_emod_unique hb).2 ⟨by push_cast; ring, by omega, by omega⟩
  unfold plAnisoOdd
  dsimp only
  rw [e1, e2, abs_of_nonneg (circleDist_nonneg _ _)]
  have h1 : r / (2 * rc / ((nr : ℝ) + 1)) - ((i + 1 : ℕ) : ℝ)
      = (r - (((i : ℤ) + 1 : ℤ) : ℝ) * (2 * rc / ((nr : ℝ) + 1))) / (2 * rc / ((nr : ℝ) + 1)) := by
    push_cast
    rw [sub_div, mul_div_cancel_right₀ _ hs.ne']
  rw [h1, ← ite_hat hs, ← ite_circHat nphi hn, Int.cast_natCast j]
  generalize |r - (((i : ℤ) + 1 : ℤ) : ℝ) * (2 * rc / ((nr : ℝ) + 1))| = a
  generalize circleDist phi ((j : ℝ) * (2 * Real.pi / nphi) - Real.pi) = b
  generalize 2 * Real.pi / (nphi : ℝ) = d
  generalize 2 * rc / ((nr : ℝ) + 1) = s
  have hk : ¬ 1 + (i * nphi + j) = 0 := by omega
  have hk' : 0 < 1 + (i * nphi + j) := by omega
  by_cases h2 : r ≤ rc <;> by_cases h3 : a ≤ s <;> by_cases h4 : b ≤ d <;> simp [h2, h3, h4, hk']

theorem plAnisoEven_eq (nr nphi : ℕ) (rc r phi : ℝ) (hrc : 0 < rc) (hr : 0 ≤ r) (i j : ℕ) (hj : j < nphi) :
    (plAnisoEven nr nphi rc r phi (i * nphi + j)).getD 0
    = (if r ≤ rc then hat (r / (2 * rc / (nr + 1)) - (1 / 2 + i)) * circHat nphi ((phi + Real.pi) / (2 * Real.pi / nphi) - j) else 0)
      + hat (r / (2 * rc / (nr + 1)) + (1 / 2 + i)) * circHat nphi
        (((if 0 ≤ phi then phi - Real.pi else phi + Real.pi) + Real.pi) / (2 * Real.pi / nphi) - j) := by
  have hs : 0 < 2 * rc / ((nr : ℝ) + 1) := by positivity
  have hn : 0 < nphi := by omega
  have e1 : (i * nphi + j) / nphi = i := by
    rw [Nat.mul_comm, Nat.mul_add_div hn, Nat.div_eq_of_lt hj, Nat.add_zero]
  have e2 : (i * nphi + j) % nphi = j := by rw [Nat.mul_comm, Nat.mul_add_mod, Nat.mod_eq_of_lt hj]
  unfold plAnisoEven
  dsimp only
  have e3 : (if Real.pi ≤ phi + Real.pi then phi - Real.pi else phi + Real.pi)
      = (if 0 ≤ phi then phi - Real.pi else phi + Real.pi) := by
    by_cases h : 0 ≤ phi
    · rw [if_pos h, if_pos (by linarith)]
    · rw [if_neg h, if_neg (by linarith)]
  rw [e1, e2, e3, abs_of_nonneg (circleDist_nonneg _ _)]
  have h1 : r / (2 * rc / ((nr : ℝ) + 1)) - (1 / 2 + (i : ℝ))
      = (r - ((i : ℝ) + 0.5) * (2 * rc / ((nr : ℝ) + 1))) / (2 * rc / ((nr : ℝ) + 1)) := by
    rw [sub_div, mul_div_cancel_right₀ _ hs.ne']; norm_num; ring
  have h1' : r / (2 * rc / ((nr : ℝ) + 1)) + (1 / 2 + (i : ℝ))
      = - ((-r - ((i : ℝ) + 0.5) * (2 * rc / ((nr : ℝ) + 1))) / (2 * rc / ((nr : ℝ) + 1))) := by
    rw [sub_div, mul_div_cancel_right₀ _ hs.ne', neg_div]; norm_num; ring
  have hneg : ∀ x, hat (-x) = hat x := fun x => by unfold hat; rw [abs_neg]
  rw [h1, h1', hneg, ← ite_hat hs, ← ite_hat hs, ← ite_circHat nphi hn, ← ite_circHat nphi hn]
  generalize |r - ((i : ℝ) + 0.5) * (2 * rc / ((nr : ℝ) + 1))| = a
  generalize |-r - ((i : ℝ) + 0.5) * (2 * rc / ((nr : ℝ) + 1))| = a'
  generalize circleDist phi ((j : ℝ) * (2 * Real.pi / nphi) - Real.pi) = b
  generalize circleDist (if 0 ≤ phi then phi - Real.pi else phi + Real.pi) ((j : ℝ) * (2 * Real.pi / nphi) - Real.pi) = b'
  generalize 2 * Real.pi / (nphi : ℝ) = d
  generalize 2 * rc / ((nr : ℝ) + 1) = s
  have h5 : -r ≤ rc := by linarith
  by_cases h2 : r ≤ rc <;> by_cases h3 : a ≤ s <;> by_cases h4 : b ≤ d <;> by_cases h6 : a' ≤ s <;> by_cases h7 : b' ≤ d <;>
    simp [h2, h3, h4, h5, h6, h7]

end Verif.Filter
