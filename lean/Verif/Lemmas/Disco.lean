import Mathlib.Tactic.Ring
import Mathlib.Tactic.Linarith
import Mathlib.Algebra.BigOperators.Ring.Finset
import Mathlib.Algebra.BigOperators.Group.List.Lemmas
import Mathlib.Data.Int.Cast.Lemmas
import Verif.Model.Disco
import Verif.Spec.Disco
/-!
Values of the DISCO reference contractions.
-/
namespace Verif.Disco
open Verif Verif.Dist Verif.Spec Finset

variable {R : Type} [CommSemiring R]

/-- The stored entry of a tap: `idx = (ker, t, ilat * nlon_in + ilon)`, convolution.py 355-372. -/
def encode (nlon : ℕ) (a : Tap R) : Entry R := ⟨a.ker, a.latOut, a.latIn * nlon + a.lonIn, a.val⟩

theorem sum_coo (d0 d1 N : ℕ) (es : List (Entry R)) (h : ∀ e ∈ es, e.col < N) (f : ℕ → R) (k t : ℕ) :
    ∑ c ∈ range N, (coo d0 d1 N es).val k t c * f c
      = (es.map fun e => if e.ker = k ∧ e.row = t then e.val * f e.col else 0).sum := by
  induction es with
  | nil => simp [coo]
  | cons e es ih =>
    have ih := ih (fun e' he' => h e' (List.mem_cons_of_mem _ he'))
    have hc := h e (List.mem_cons_self ..)
    rw [List.map_cons, List.sum_cons, ← ih]
    have hs : ∀ c, (coo d0 d1 N (e :: es)).val k t c
        = (if e.ker = k ∧ e.row = t ∧ e.col = c then e.val else 0) + (coo d0 d1 N es).val k t c := by
      intro c
      simp only [coo, List.filter_cons]
      by_cases hk : e.ker = k ∧ e.row = t ∧ e.col = c
      · simp [hk]
      · simp [hk]
    simp only [hs, add_mul, sum_add_distrib]
    congr 1
    by_cases hk : e.ker = k ∧ e.row = t
    · simp only [hk, true_and, if_true, ite_mul, zero_mul]
      rw [sum_ite_eq]
      simp [hc]
    · have : ∀ c, ¬ (e.ker = k ∧ e.row = t ∧ e.col = c) := fun c hh => hk ⟨hh.1, hh.2.1⟩
      simp [hk, this]

theorem col_div {n i j : ℕ} (h : j < n) : (i * n + j) / n = i := by
  rw [Nat.mul_comm, Nat.mul_add_div (by omega), Nat.div_eq_of_lt h, Nat.add_zero]

theorem col_mod {n i j : ℕ} (h : j < n) : (i * n + j) % n = j := by
  rw [Nat.mul_comm, Nat.mul_add_mod, Nat.mod_eq_of_lt h]

theorem col_lt {n m i j : ℕ} (hi : i < m) (h : j < n) : i * n + j < m * n := by
  calc i * n + j < i * n + n := by omega
    _ = (i + 1) * n := by ring
    _ ≤ m * n := Nat.mul_le_mul_right _ hi

theorem rollLon_val {α : Type} (x : Mat α) (s : ℕ) (i j : ℕ) :
    (rollLon x (-(s : ℤ))).val i j = x.val i ((j + s) % x.d1) := by
  simp only [rollLon, sub_neg_eq_add]
  rw [← Nat.cast_add, ← Int.natCast_mod, Int.toNat_natCast]

/-- State of the rolled input after `n` passes. -/
theorem contractLoop_x (psi : Psi R) (ps : ℕ) (x : Mat R) (n : ℕ) :
    (contractLoop psi ps x n).2.d0 = x.d0 ∧ (contractLoop psi ps x n).2.d1 = x.d1 ∧
      ∀ i, ∀ j < x.d1, (contractLoop psi ps x n).2.val i j = x.val i ((j + n * ps) % x.d1) := by
  induction n with
  | zero =>
    refine ⟨rfl, rfl, fun i j hj => ?_⟩
    simp [contractLoop, Nat.mod_eq_of_lt hj]
  | succ n ih =>
    obtain ⟨h0, h1, h2⟩ := ih
    refine ⟨h0, h1, fun i j hj => ?_⟩
    simp only [contractLoop]
    rw [rollLon_val, h1, h2 i _ (Nat.mod_lt _ (by omega))]
    congr 1
    rw [Nat.mod_add_mod]
    congr 1
    ring

theorem contractLoop_y (psi : Psi R) (ps : ℕ) (x : Mat R) (n p : ℕ) (hp : p < n) :
    (contractLoop psi ps x n).1 p = bmm psi (fun _ => (contractLoop psi ps x p).2) := by
  induction n with
  | zero => omega
  | succ n ih =>
    simp only [contractLoop]
    by_cases h : p = n
    · subst h; simp
    · rw [Function.update_of_ne h]
      exact ih (by omega)

theorem bmm_coo (d0 d1 N : ℕ) (es : List (Entry R)) (h : ∀ e ∈ es, e.col < N) (x : ℕ → Mat R) (k t : ℕ) :
    bmm (coo d0 d1 N es) x k t
      = (es.map fun e => if e.ker = k ∧ e.row = t then e.val * (x k).val (e.col / (x k).d1) (e.col % (x k).d1) else 0).sum :=
  sum_coo d0 d1 N es h (fun c => (x k).val (c / (x k).d1) (c % (x k).d1)) k t

/-- The reference contraction computes the documented sum. -/
theorem contraction_value (taps : List (Tap R)) (K nlatOut nlonOut : ℕ) (x : Mat R) (hf : Fits taps K nlatOut x.d0 x.d1)
    (hW : 0 < nlonOut) (hd : nlonOut ∣ x.d1) (hle : nlatOut ≤ x.d1) :
    ∃ y, contraction x (getPsi K (taps.map (encode x.d1)) x.d0 x.d1 nlatOut) nlonOut = .ok y ∧
      y.d0 = K ∧ y.d1 = nlatOut ∧ y.d2 = nlonOut ∧
      ∀ k t, ∀ p < nlonOut, y.val k t p = discoSum taps x.d1 nlonOut x.val k t p := by
  have hc : ∀ e ∈ taps.map (encode x.d1), e.col < x.d0 * x.d1 := by
    intro e he
    obtain ⟨a, ha, rfl⟩ := List.mem_map.1 he
    obtain ⟨-, -, h3, h4⟩ := hf a ha
    exact col_lt h3 h4
  unfold contraction
  rw [if_neg (by simp [getPsi, coo]), if_neg (by omega), if_neg (by simp [Nat.mod_eq_zero_of_dvd hd]), if_neg (by simpa [getPsi, coo] using hle)]
  refine ⟨_, rfl, rfl, rfl, rfl, ?_⟩
  intro k t p hp
  simp only
  rw [contractLoop_y _ _ _ _ _ hp]
  obtain ⟨h0, h1, h2⟩ := contractLoop_x (getPsi K (taps.map (encode x.d1)) x.d0 x.d1 nlatOut) (x.d1 / nlonOut) x p
  unfold getPsi at h0 h1 h2 ⊢
  rw [bmm_coo _ _ _ _ hc]
  rw [List.map_map]
  unfold discoSum
  congr 1
  apply List.map_congr_left
  intro a ha
  obtain ⟨-, -, h3, h4⟩ := hf a ha
  simp only [Function.comp, encode]
  rw [h1, col_div h4, col_mod h4, h2 _ _ h4]
  rfl

theorem transposeLoop_x (psi : Psi R) (xe : ℕ → Mat R) (W : ℕ) (hW : ∀ k, (xe k).d1 = W) (n k : ℕ) :
    ((transposeLoop psi xe n).2 k).d1 = W ∧
      ∀ i, ∀ j < W, ((transposeLoop psi xe n).2 k).val i j = (xe k).val i ((j + n) % W) := by
  induction n with
  | zero =>
    refine ⟨hW k, fun i j hj => ?_⟩
    simp [transposeLoop, Nat.mod_eq_of_lt hj]
  | succ n ih =>
    obtain ⟨h1, h2⟩ := ih
    refine ⟨h1, fun i j hj => ?_⟩
    simp only [transposeLoop]
    have := rollLon_val ((transposeLoop psi xe n).2 k) 1 i j
    simp only [Nat.cast_one] at this
    rw [this, h1, h2 i _ (Nat.mod_lt _ (by omega)), Nat.mod_add_mod]
    congr 2
    ring

theorem transposeLoop_y (psi : Psi R) (xe : ℕ → Mat R) (n p : ℕ) (hp : p < n) :
    (transposeLoop psi xe n).1 p = bmm psi (transposeLoop psi xe (p + 1)).2 := by
  induction n with
  | zero => omega
  | succ n ih =>
    simp only [transposeLoop]
    by_cases h : p = n
    · subst h; simp
    · rw [Function.update_of_ne h, ih (by omega)]
      rfl

/-- Number-theoretic heart of the transposed contraction: after the flip and the rolls, the column read for output
longitude `q` by an entry at longitude `j` is `q - j` modulo the number of longitudes. -/
theorem flip_roll {W j q : ℕ} (hj : j < W) : (W - 1 - j + (q + 1)) % W = (q + W - j) % W := by
  congr 1
  omega

/-- Sum over the interleaved columns: the value at column `(q - j) mod W` of the zero-interleaved row is the sum over the
input columns `p` that a tap at `j` moves to `q`. -/
theorem interleave_pick {W n ps j q : ℕ} (hW : W = ps * n) (hps : 0 < ps) (hj : j < W) (hq : q < W) (f : ℕ → R) :
    (if (q + W - j) % W % ps = 0 then f ((q + W - j) % W / ps) else 0)
      = ∑ p ∈ range n, if (j + p * ps) % W = q then f p else 0 := by
  have key : ∀ p < n, ((j + p * ps) % W = q ↔ (q + W - j) % W = p * ps) := by
    intro p hp
    have hpW : p * ps < W := by
      rw [hW, Nat.mul_comm ps n]
      exact Nat.mul_lt_mul_of_pos_right hp hps
    have e1 : (j + p * ps) % W = if j + p * ps < W then j + p * ps else j + p * ps - W := by
      split
      · exact Nat.mod_eq_of_lt ‹_›
      · rw [Nat.mod_eq_sub_mod (by omega), Nat.mod_eq_of_lt (by omega)]
    have e2 : (q + W - j) % W = if q < j then q + W - j else q - j := by
      split
      · exact Nat.mod_eq_of_lt (by omega)
      · rw [show q + W - j = (q - j) + W by omega, Nat.add_mod_right, Nat.mod_eq_of_lt (by omega)]
    rw [e1, e2]
    split <;> split <;> omega
  set c := (q + W - j) % W with hc
  have hcW : c < W := Nat.mod_lt _ (by omega)
  by_cases h : c % ps = 0
  · have hcd : c / ps * ps = c := Nat.div_mul_cancel (Nat.dvd_of_mod_eq_zero h)
    have hcn : c / ps < n := by
      apply Nat.div_lt_of_lt_mul
      rw [← hW]; exact hcW
    rw [if_pos h, sum_eq_single (c / ps)]
    · rw [if_pos ((key _ hcn).2 hcd.symm)]
    · intro p hp hne
      rw [if_neg]
      intro hh
      have := (key p (mem_range.1 hp)).1 hh
      apply hne
      rw [this, Nat.mul_div_cancel _ hps]
    · intro hh
      exact absurd (mem_range.2 hcn) hh
  · rw [if_neg h, sum_eq_zero]
    intro p hp
    rw [if_neg]
    intro hh
    have := (key p (mem_range.1 hp)).1 hh
    apply h
    rw [this]
    exact Nat.mul_mod_left _ _

theorem ceil_div_eq {W n : ℕ} (hn : 0 < n) (hle : n ≤ W) : ((W + W / n - 1) / (W / n) = n) ↔ n ∣ W := by
  have hps : 0 < W / n := Nat.div_pos hle hn
  set a := W / n with ha
  have hmod := Nat.div_add_mod W n
  rw [← ha] at hmod
  have hr := Nat.mod_lt W hn
  constructor
  · intro h
    by_contra hd
    have hr0 : 0 < W % n := Nat.pos_of_ne_zero fun h0 => hd (Nat.dvd_of_mod_eq_zero h0)
    have : n + 1 ≤ (W + a - 1) / a := by
      rw [Nat.le_div_iff_mul_le hps]
      have : (n + 1) * a = n * a + a := by ring
      omega
    omega
  · intro h
    have h0 : W % n = 0 := Nat.mod_eq_zero_of_dvd h
    rw [h0, Nat.add_zero] at hmod
    rw [← hmod]
    apply Nat.div_eq_of_lt_le <;> nlinarith [Nat.sub_add_cancel (show 1 ≤ n * a + a by omega)]

end Verif.Disco

namespace Verif.Disco
open Verif Verif.Dist Verif.Spec Finset

variable {R : Type} [CommSemiring R]

theorem sum_list_sum {ι α : Type} (s : Finset ι) (l : List α) (f : ι → α → R) :
    ∑ i ∈ s, (l.map (f i)).sum = (l.map fun a => ∑ i ∈ s, f i a).sum := by
  induction l with
  | nil => simp
  | cons a l ih => simp [sum_add_distrib, ih]

/-- The transposed contraction sends every value back along the taps. -/
theorem transposeContraction_value (taps : List (Tap R)) (K nlatF W : ℕ) (y : Ten R) (hf : Fits taps K y.d1 nlatF W)
    (hK : y.d0 = K) (hn : 0 < y.d2) (hd : y.d2 ∣ W) (hW : 0 < W) :
    ∃ z, transposeContraction y (getPsiT K (taps.map (encode W)) y.d1 nlatF W) W = .ok z ∧
      z.d0 = nlatF ∧ z.d1 = W ∧ ∀ i, ∀ j < W, z.val i j = discoAdjoint taps W y.d2 y.val i j := by
  have hle : y.d2 ≤ W := Nat.le_of_dvd hW hd
  have hps : 0 < W / y.d2 := Nat.div_pos hle hn
  have hWe : W = W / y.d2 * y.d2 := (Nat.div_mul_cancel hd).symm
  have hc : ∀ e ∈ (taps.map (encode W)).map (semiTranspose W), e.col < y.d1 * W := by
    intro e he
    rw [List.map_map] at he
    obtain ⟨a, ha, rfl⟩ := List.mem_map.1 he
    obtain ⟨-, h2, h3, h4⟩ := hf a ha
    simp only [Function.comp, encode, semiTranspose]
    exact col_lt h2 (by rw [col_mod h4]; omega)
  unfold transposeContraction
  have e1 : (getPsiT K (taps.map (encode W)) y.d1 nlatF W).d2 = y.d1 * W := rfl
  have e0 : (getPsiT K (taps.map (encode W)) y.d1 nlatF W).d0 = K := rfl
  have e2 : (getPsiT K (taps.map (encode W)) y.d1 nlatF W).d1 = nlatF := rfl
  simp only [e0, e1, e2]
  rw [if_neg (by omega), if_neg (by simp), if_neg (by omega), if_neg (by omega), if_neg (by omega),
    if_neg (show ¬ ¬ (W + W / y.d2 - 1) / (W / y.d2) = y.d2 from not_not.2 ((ceil_div_eq hn hle).2 hd)), if_neg (by simp)]
  refine ⟨_, rfl, rfl, rfl, ?_⟩
  intro i j hj
  simp only
  have step : ∀ k, (transposeLoop (getPsiT K (taps.map (encode W)) y.d1 nlatF W)
      (fun k => interleave ⟨y.d1, y.d2, y.val k⟩ W (W / y.d2)) W).1 j k i
      = (taps.map fun a => if a.ker = k then (∑ p ∈ range y.d2,
          if a.latIn = i ∧ a.column W y.d2 p = j then a.val * y.val a.ker a.latOut p else 0) else 0).sum := by
    intro k
    rw [transposeLoop_y _ _ _ _ hj]
    obtain ⟨h1, h2⟩ := transposeLoop_x (getPsiT K (taps.map (encode W)) y.d1 nlatF W)
      (fun k => interleave ⟨y.d1, y.d2, y.val k⟩ W (W / y.d2)) W (fun _ => rfl) (j + 1) k
    unfold getPsiT at h1 h2 ⊢
    rw [bmm_coo _ _ _ _ hc, List.map_map, List.map_map]
    congr 1
    apply List.map_congr_left
    intro a ha
    obtain ⟨-, h3, h4, h5⟩ := hf a ha
    have hst : semiTranspose W (encode W a) = ⟨a.ker, a.latIn, a.latOut * W + (W - 1 - a.lonIn), a.val⟩ := by
      simp only [encode, semiTranspose, col_div h5, col_mod h5]
    simp only [Function.comp, hst]
    rw [h1, col_div (by omega), col_mod (by omega), h2 _ _ (by omega)]
    simp only [interleave]
    rw [flip_roll h5, interleave_pick hWe hps h5 hj (fun p => y.val k a.latOut p)]
    by_cases hk : a.ker = k
    · by_cases hi : a.latIn = i
      · simp only [hk, hi, true_and, if_true, Tap.column, mul_sum, mul_ite, mul_zero]
      · simp [hk, hi]
    · simp [hk]
  simp only [step]
  rw [sum_list_sum]
  unfold discoAdjoint
  congr 1
  apply List.map_congr_left
  intro a ha
  rw [sum_ite_eq, if_pos (mem_range.2 (hf a ha).1)]

/-- The reference transposed contraction raises exactly when a size is inconsistent. -/
theorem transposeContraction_ok_iff (x : Ten R) (psi : Psi R) (W : ℕ) :
    (∃ z, transposeContraction x psi W = .ok z) ↔
      0 < W ∧ 0 < x.d2 ∧ x.d2 ∣ W ∧ psi.d2 = x.d1 * W ∧ x.d0 = psi.d0 := by
  unfold transposeContraction
  constructor
  · rintro ⟨z, h⟩
    split at h
    · cases h
    split at h
    · cases h
    split at h
    · cases h
    split at h
    · cases h
    split at h
    · cases h
    simp only at h
    split at h
    · cases h
    split at h
    · cases h
    rename_i h1 h2 h3 h4 h5 h6 h7
    refine ⟨by omega, by omega, (ceil_div_eq (by omega) (by omega)).1 (not_not.1 h6), not_not.1 h7, not_not.1 h5⟩
  · rintro ⟨h1, h2, h3, h4, h5⟩
    have hle : x.d2 ≤ W := Nat.le_of_dvd h1 h3
    rw [if_neg (by omega), if_neg (by simp [h4]), if_neg (by omega), if_neg (by omega), if_neg (by omega)]
    simp only
    rw [if_neg (show ¬ ¬ (W + W / x.d2 - 1) / (W / x.d2) = x.d2 from not_not.2 ((ceil_div_eq h2 hle).2 h3)), if_neg (by simpa using h4)]
    exact ⟨_, rfl⟩

/-- The documented sum and the transposed sum are adjoint. -/
theorem disco_adjoint (taps : List (Tap R)) (K nlatOut nlatIn nlonIn nlonOut : ℕ) (hf : Fits taps K nlatOut nlatIn nlonIn)
    (x : ℕ → ℕ → R) (g : ℕ → ℕ → ℕ → R) :
    ∑ k ∈ range K, ∑ t ∈ range nlatOut, ∑ p ∈ range nlonOut, discoSum taps nlonIn nlonOut x k t p * g k t p
      = ∑ i ∈ range nlatIn, ∑ j ∈ range nlonIn, x i j * discoAdjoint taps nlonIn nlonOut g i j := by
  have hL : ∀ k t p, discoSum taps nlonIn nlonOut x k t p * g k t p
      = (taps.map fun a => if a.ker = k ∧ a.latOut = t then
          a.val * x a.latIn (a.column nlonIn nlonOut p) * g k t p else 0).sum := by
    intro k t p
    unfold discoSum
    rw [← List.sum_map_mul_right]
    simp only [ite_mul, zero_mul]
  have hR : ∀ i j, x i j * discoAdjoint taps nlonIn nlonOut g i j
      = (taps.map fun a => ∑ p ∈ range nlonOut, if a.latIn = i ∧ a.column nlonIn nlonOut p = j then
          x i j * (a.val * g a.ker a.latOut p) else 0).sum := by
    intro i j
    unfold discoAdjoint
    rw [← List.sum_map_mul_left]
    simp only [mul_sum, mul_ite, mul_zero]
  simp only [hL, hR, sum_list_sum]
  congr 1
  apply List.map_congr_left
  intro a ha
  obtain ⟨h1, h2, h3, h4⟩ := hf a ha
  have hcol : ∀ p, a.column nlonIn nlonOut p < nlonIn := fun p => Nat.mod_lt _ (by omega)
  trans ∑ p ∈ range nlonOut, a.val * x a.latIn (a.column nlonIn nlonOut p) * g a.ker a.latOut p
  · rw [sum_eq_single a.ker, sum_eq_single a.latOut]
    · simp
    · intro t _ ht
      refine sum_eq_zero fun p _ => ?_
      rw [if_neg]; exact fun h => ht h.2.symm
    · intro h; exact absurd (mem_range.2 h2) h
    · intro k _ hk
      refine sum_eq_zero fun t _ => sum_eq_zero fun p _ => ?_
      rw [if_neg]; exact fun h => hk h.1.symm
    · intro h; exact absurd (mem_range.2 h1) h
  · symm
    rw [sum_eq_single a.latIn]
    · rw [sum_comm]
      refine sum_congr rfl fun p _ => ?_
      rw [sum_eq_single (a.column nlonIn nlonOut p)]
      · simp; ring
      · intro j _ hj
        rw [if_neg]; exact fun h => hj h.2.symm
      · intro h; exact absurd (mem_range.2 (hcol p)) h
    · intro i _ hi
      refine sum_eq_zero fun j _ => sum_eq_zero fun p _ => ?_
      rw [if_neg]; exact fun h => hi h.1.symm
    · intro h; exact absurd (mem_range.2 h3) h

end Verif.Disco
