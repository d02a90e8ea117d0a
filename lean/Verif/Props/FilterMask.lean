import Mathlib.Tactic.NormNum
import Mathlib.Data.List.GetD
import Verif.Lemmas.FilterBasis
import Verif.Props.FilterBasis
/-!
Property C60: the isotropic mask of a filter basis marks exactly the axisymmetric functions, and the Zernike index decoding
enumerates the pyramid of polynomials once.
-/
namespace Verif.Props
open Verif Verif.Filter Finset

/-- C60: the mask of the piecewise linear basis has one entry per basis function. -/
theorem C60_pl_mask_length (nr nphi : ℕ) : (plMask nr nphi).length = plKernelSize nr nphi := by
  unfold plMask
  split
  · simp
  · dsimp only
    split <;> simp

theorem plMask_get (nr nphi k : ℕ) (hk : k < plKernelSize nr nphi) :
    (plMask nr nphi)[k]? = some (decide (nphi = 1 ∨ (nr % 2 = 1 ∧ k = 0))) := by
  unfold plMask
  split
  next h => subst h; simp [hk]
  next h =>
    dsimp only
    split
    next h1 =>
      rw [List.getElem?_set]
      by_cases h0 : k = 0
      · subst h0; simp [hk, h1]
      · rw [if_neg (fun h => h0 h.symm)]; simp [hk, h, h0]
    next h1 => simp [hk, h, h1]

/-- C60, piecewise linear basis: a function is marked isotropic exactly when its values do not depend on the angle. -/
theorem C60_pl_mask (nr nphi : ℕ) (hn : 1 ≤ nphi) (rc : ℝ) (hrc : 0 < rc) (k : ℕ) (hk : k < plKernelSize nr nphi) :
    (plMask nr nphi)[k]? = some true ↔ ∀ r phi phi', 0 ≤ r → -Real.pi ≤ phi → phi < 2 * Real.pi → -Real.pi ≤ phi' → phi' < 2 * Real.pi →
      (plVal nr nphi rc r phi k).getD 0 = (plVal nr nphi rc r phi' k).getD 0 := by
  have hp := Real.pi_pos
  have hs : 0 < 2 * rc / ((nr : ℝ) + 1) := by positivity
  rw [plMask_get nr nphi k hk]
  have hsome : (some (decide (nphi = 1 ∨ (nr % 2 = 1 ∧ k = 0))) = some true) ↔ (nphi = 1 ∨ (nr % 2 = 1 ∧ k = 0)) := by
    simp
  rw [hsome]
  constructor
  · intro h r phi phi' _ _ _ _ _
    by_cases h1 : nphi = 1
    · unfold plVal; rw [if_neg (by omega), if_neg (by omega)]
    · obtain ⟨ho, rfl⟩ := h.resolve_left h1
      have hv : ∀ phi, plVal nr nphi rc r phi 0 = plAnisoOdd nr nphi rc r phi 0 := by
        intro phi; unfold plVal; rw [if_pos (by omega), if_pos ho]
      rw [hv, hv, plAnisoOdd_zero nr nphi (by omega) rc r _ hrc, plAnisoOdd_zero nr nphi (by omega) rc r _ hrc]
  · intro hind
    by_contra hno
    have h1 : nphi ≠ 1 := fun h => hno (Or.inl h)
    have hn2 : (2 : ℝ) ≤ nphi := by exact_mod_cast (by omega : 2 ≤ nphi)
    have hnr : (0 : ℝ) < nphi := by linarith
    have hat0 : hat 0 = 1 := by unfold hat; simp
    have ch0 : circHat nphi 0 = 1 := by unfold circHat; simp
    have chh : circHat nphi ((nphi : ℝ) / 2) = 0 := by
      unfold circHat
      rw [abs_of_nonneg (by linarith), show (nphi : ℝ) - nphi / 2 = nphi / 2 by ring, abs_of_nonneg (by linarith), min_self,
        max_eq_left (by linarith)]
    -- own angle and opposite angle of the j-th collocation point
    have hang : ∀ j : ℕ, j < nphi → -Real.pi ≤ (j : ℝ) * (2 * Real.pi / nphi) - Real.pi ∧
        (j : ℝ) * (2 * Real.pi / nphi) - Real.pi < Real.pi := by
      intro j hj
      have hjr : (j : ℝ) + 1 ≤ nphi := by exact_mod_cast hj
      refine ⟨by have : 0 ≤ (j : ℝ) * (2 * Real.pi / nphi) := by positivity
                 linarith, ?_⟩
      have : (j : ℝ) * (2 * Real.pi / nphi) < 2 * Real.pi := by
        rw [mul_div_assoc', div_lt_iff₀ hnr]; nlinarith
      linarith
    have hown : ∀ j : ℕ, ((j : ℝ) * (2 * Real.pi / nphi) - Real.pi + Real.pi) / (2 * Real.pi / nphi) - j = 0 := by
      intro j; field_simp; ring
    have hopp : ∀ j : ℕ, ((j : ℝ) * (2 * Real.pi / nphi) + Real.pi) / (2 * Real.pi / nphi) - j = nphi / 2 := by
      intro j; field_simp; ring
    by_cases ho : nr % 2 = 1
    · have hk0 : k ≠ 0 := fun h => hno (Or.inr ⟨ho, h⟩)
      have hnp : (nr : ℝ) = 2 * (nr / 2 : ℕ) + 1 := by exact_mod_cast (by omega : nr = 2 * (nr / 2) + 1)
      have hv : ∀ r phi, plVal nr nphi rc r phi k = plAnisoOdd nr nphi rc r phi k := by
        intro r phi; unfold plVal; rw [if_pos (by omega), if_pos ho]
      rw [plKernelSize_odd ho] at hk
      obtain ⟨i, j, hj, rfl⟩ : ∃ i j, j < nphi ∧ k = 1 + (i * nphi + j) := by
        refine ⟨(k - 1) / nphi, (k - 1) % nphi, Nat.mod_lt _ (by omega), ?_⟩
        have := Nat.div_add_mod (k - 1) nphi
        rw [Nat.mul_comm] at this; omega
      have hi : i + 1 ≤ nr / 2 := by
        by_contra h
        have : nr / 2 * nphi ≤ i * nphi := Nat.mul_le_mul_right _ (by omega)
        omega
      have hle : ((i + 1 : ℕ) : ℝ) * (2 * rc / ((nr : ℝ) + 1)) ≤ rc := by
        have : ((i + 1 : ℕ) : ℝ) ≤ (nr / 2 : ℕ) := by exact_mod_cast hi
        rw [mul_div_assoc', div_le_iff₀ (by positivity), hnp]
        nlinarith
      have := hind (((i + 1 : ℕ) : ℝ) * (2 * rc / ((nr : ℝ) + 1))) ((j : ℝ) * (2 * Real.pi / nphi) - Real.pi)
        ((j : ℝ) * (2 * Real.pi / nphi)) (by positivity) (hang j hj).1 (by linarith [(hang j hj).2])
        (by linarith [(hang j hj).1]) (by linarith [(hang j hj).2])
      rw [hv, hv, plAnisoOdd_succ nr nphi rc _ _ hrc i j hj, plAnisoOdd_succ nr nphi rc _ _ hrc i j hj, if_pos hle, if_pos hle,
        mul_div_cancel_right₀ _ hs.ne', sub_self, hat0, hown, hopp, ch0, chh] at this
      norm_num at this
    · have hnp : (nr : ℝ) = 2 * (nr / 2 : ℕ) := by exact_mod_cast (by omega : nr = 2 * (nr / 2))
      have hv : ∀ r phi, plVal nr nphi rc r phi k = plAnisoEven nr nphi rc r phi k := by
        intro r phi; unfold plVal; rw [if_pos (by omega), if_neg ho]
      rw [plKernelSize_even ho] at hk
      obtain ⟨i, j, hj, rfl⟩ : ∃ i j, j < nphi ∧ k = i * nphi + j := by
        refine ⟨k / nphi, k % nphi, Nat.mod_lt _ (by omega), ?_⟩
        have := Nat.div_add_mod k nphi
        rw [Nat.mul_comm] at this; omega
      have hi : i < nr / 2 := by
        by_contra h
        have : nr / 2 * nphi ≤ i * nphi := Nat.mul_le_mul_right _ (by omega)
        omega
      have hle : ((i : ℝ) + 1 / 2) * (2 * rc / ((nr : ℝ) + 1)) ≤ rc := by
        have : (i : ℝ) + 1 ≤ (nr / 2 : ℕ) := by exact_mod_cast hi
        rw [mul_div_assoc', div_le_iff₀ (by positivity), hnp]
        nlinarith
      have hr0 : 0 ≤ ((i : ℝ) + 1 / 2) * (2 * rc / ((nr : ℝ) + 1)) := by positivity
      have hneg : hat ((i : ℝ) + 1 / 2 + (1 / 2 + i)) = 0 := by
        unfold hat
        have h0 : (0 : ℝ) ≤ i := Nat.cast_nonneg i
        rw [abs_of_nonneg (by linarith), max_eq_left (by linarith)]
      have := hind (((i : ℝ) + 1 / 2) * (2 * rc / ((nr : ℝ) + 1))) ((j : ℝ) * (2 * Real.pi / nphi) - Real.pi)
        ((j : ℝ) * (2 * Real.pi / nphi)) hr0 (hang j hj).1 (by linarith [(hang j hj).2])
        (by linarith [(hang j hj).1]) (by linarith [(hang j hj).2])
      rw [hv, hv, plAnisoEven_eq nr nphi rc _ _ hrc hr0 i j hj, plAnisoEven_eq nr nphi rc _ _ hrc hr0 i j hj, if_pos hle, if_pos hle,
        mul_div_cancel_right₀ _ hs.ne', show (i : ℝ) + 1 / 2 - (1 / 2 + i) = 0 by ring, hneg, hat0, hown, hopp, ch0, chh] at this
      norm_num at this

/-! ### Zernike -/

theorem tri_succ (n : ℕ) : (n + 1 + 1) * (n + 1) / 2 = (n + 1) * n / 2 + (n + 1) := by
  have : (n + 1 + 1) * (n + 1) = (n + 1) * n + (n + 1) * 2 := by ring
  rw [this, Nat.add_mul_div_right _ _ (by norm_num)]

theorem tri_mono {a b : ℕ} (h : a ≤ b) : (a + 1) * a / 2 ≤ (b + 1) * b / 2 :=
  Nat.div_le_div_right (Nat.mul_le_mul (by omega) h)

/-- The number of triangular numbers below `k` locates the level of the pyramid. -/
theorem searchsorted_tri (N n k : ℕ) (hn : n < N) (h1 : (n + 1) * n / 2 ≤ k) (h2 : k < (n + 1 + 1) * (n + 1) / 2) :
    searchsortedRight (nshifts N) k = n + 1 := by
  unfold searchsortedRight nshifts
  rw [List.filter_map, List.length_map]
  have : (List.range N).filter ((fun x => decide (x ≤ k)) ∘ fun n => (n + 1) * n / 2)
      = (List.range N).filter (fun i => decide (i < n + 1)) := by
    refine List.filter_congr fun i _ => ?_
    simp only [Function.comp, decide_eq_decide]
    constructor
    · intro h
      by_contra hc
      have := tri_mono (show n + 1 ≤ i by omega)
      omega
    · intro h
      exact le_trans (tri_mono (show i ≤ n by omega)) h1
  rw [this]
  obtain ⟨d, rfl⟩ : ∃ d, N = n + 1 + d := ⟨N - (n + 1), by omega⟩
  rw [List.range_add, List.filter_append, List.length_append]
  have ha : (List.range (n + 1)).filter (fun i => decide (i < n + 1)) = List.range (n + 1) :=
    List.filter_eq_self.2 fun i hi => by simpa using List.mem_range.1 hi
  have hb : (List.map (fun x => n + 1 + x) (List.range d)).filter (fun i => decide (i < n + 1)) = [] := by
    rw [List.filter_eq_nil_iff]
    intro i hi
    obtain ⟨x, _, rfl⟩ := List.mem_map.1 hi
    simp only [decide_eq_true_eq]
    omega
  rw [ha, hb]; simp

/-- C60, Zernike: the kernel index of the `l`-th polynomial of degree `n` is `n (n + 1) / 2 + l`, and decoding it gives back `(n, l)`;
these indices fill `0 .. kernel_size - 1`. -/
theorem C60_zernike_decode (N n l : ℕ) (hn : n < N) (hl : l ≤ n) :
    n * (n + 1) / 2 + l < zernikeKernelSize N ∧ zernikeDecode N (n * (n + 1) / 2 + l) = (n, l) := by
  have ht : n * (n + 1) / 2 = (n + 1) * n / 2 := by rw [Nat.mul_comm]
  have hb := tri_succ n
  constructor
  · have h1 := tri_mono (show n + 1 ≤ N by omega)
    unfold zernikeKernelSize
    rw [Nat.mul_comm N, ht]
    omega
  · have hs := searchsorted_tri N n (n * (n + 1) / 2 + l) hn (by omega) (by omega)
    unfold zernikeDecode
    dsimp only
    rw [hs, Nat.add_sub_cancel]
    have hg : (nshifts N).getD n 0 = (n + 1) * n / 2 := by
      unfold nshifts
      rw [List.getD_eq_getElem _ _ (by simpa using hn)]
      simp
    rw [hg, ht, Nat.add_sub_cancel_left]

/-- C60, Zernike: conversely every kernel index below `kernel_size` decodes to a pair `(n, l)` with `l <= n < N` that encodes to it,
so the decoding is a bijection. -/
theorem C60_zernike_encode (N k : ℕ) (hk : k < zernikeKernelSize N) :
    (zernikeDecode N k).1 < N ∧ (zernikeDecode N k).2 ≤ (zernikeDecode N k).1 ∧
      (zernikeDecode N k).1 * ((zernikeDecode N k).1 + 1) / 2 + (zernikeDecode N k).2 = k := by
  obtain ⟨n, hn, h1, h2⟩ : ∃ n, n < N ∧ (n + 1) * n / 2 ≤ k ∧ k < (n + 1 + 1) * (n + 1) / 2 := by
    unfold zernikeKernelSize at hk
    rw [Nat.mul_comm] at hk
    induction N with
    | zero => simp at hk
    | succ N ih =>
      by_cases h : k < (N + 1) * N / 2
      · obtain ⟨n, hn, h1, h2⟩ := ih h
        exact ⟨n, by omega, h1, h2⟩
      · exact ⟨N, by omega, by omega, hk⟩
  have hb := tri_succ n
  have ht : n * (n + 1) / 2 = (n + 1) * n / 2 := by rw [Nat.mul_comm]
  have h := (C60_zernike_decode N n (k - (n + 1) * n / 2) hn (by omega)).2
  rw [ht, Nat.add_sub_cancel' h1] at h
  rw [h]
  exact ⟨hn, by dsimp only; omega, by dsimp only; omega⟩

theorem zernikeMask_succ (N : ℕ) : zernikeMask (N + 1) = zernikeMask N ++
    (List.range (N + 1)).map fun l : ℕ => decide (2 * (l : ℤ) - (N : ℤ) = 0) := by
  unfold zernikeMask
  rw [List.range_succ (n := N), List.flatMap_append, List.flatMap_singleton, ← List.range_succ]

theorem zernikeMask_length (N : ℕ) : (zernikeMask N).length = zernikeKernelSize N := by
  induction N with
  | zero => rfl
  | succ N ih =>
    rw [zernikeMask_succ, List.length_append, ih, List.length_map, List.length_range]
    unfold zernikeKernelSize
    rw [Nat.mul_comm (N + 1), tri_succ, Nat.mul_comm N]

/-- C60, Zernike: the mask has `kernel_size` entries, and entry `k` is set exactly when the azimuthal order `2 l - n` of function `k` is
zero. -/
theorem C60_zernike_mask (N k : ℕ) (hk : k < zernikeKernelSize N) :
    (zernikeMask N).length = zernikeKernelSize N ∧
    (zernikeMask N)[k]? = some (decide (2 * ((zernikeDecode N k).2 : ℤ) - ((zernikeDecode N k).1 : ℤ) = 0)) := by
  refine ⟨zernikeMask_length N, ?_⟩
  obtain ⟨h1, h2, h3⟩ := C60_zernike_encode N k hk
  generalize (zernikeDecode N k).1 = n at *
  generalize (zernikeDecode N k).2 = l at *
  subst h3
  clear hk
  induction N with
  | zero => omega
  | succ N ih =>
    rw [zernikeMask_succ]
    by_cases h : n < N
    · have hlt := (C60_zernike_decode N n l h h2).1
      rw [List.getElem?_append_left (by rw [zernikeMask_length]; exact hlt)]
      exact ih h
    · have hnN : n = N := by omega
      subst hnN
      have hlen : (zernikeMask n).length = n * (n + 1) / 2 := zernikeMask_length n
      rw [List.getElem?_append_right (by rw [hlen]; omega), hlen, Nat.add_sub_cancel_left, List.getElem?_map,
        List.getElem?_range (by omega)]
      rfl

/-- C60, Zernike: a function marked isotropic does not depend on the angle. -/
theorem C60_zernike_axisymmetric (N k : ℕ) (hk : k < zernikeKernelSize N) (h : (zernikeMask N)[k]? = some true)
    (rc r phi phi' : ℝ) : zernikeVal N rc r phi k = zernikeVal N rc r phi' k := by
  rw [(C60_zernike_mask N k hk).2] at h
  have hm : 2 * ((zernikeDecode N k).2 : ℤ) - ((zernikeDecode N k).1 : ℤ) = 0 := by simpa using h
  unfold zernikeVal zernikePoly
  dsimp only
  rw [hm]
  simp

/-- C60, harmonic: function 0, the only one marked isotropic, does not depend on the angle. -/
theorem C60_harmonic_axisymmetric (n m : ℕ) (mask : List Bool) (hmask : harmonicMask n m = .ok mask) (norms : Option (ℕ → ℝ))
    (width rc : ℝ) (k : ℕ) (hk : mask[k]? = some true) :
    mask.length = harmonicKernelSize n m ∧ ∀ r phi phi', harmonicVal m norms width rc r phi k = harmonicVal m norms width rc r phi' k := by
  unfold harmonicMask at hmask
  split at hmask
  · cases hmask
  injection hmask with hmask
  subst hmask
  refine ⟨by simp, ?_⟩
  have hk0 : k = 0 := by
    by_contra h0
    rw [List.getElem?_set, if_neg (fun h => h0 h.symm), List.getElem?_replicate] at hk
    split at hk <;> simp at hk
  subst hk0
  intro r phi phi'
  unfold harmonicVal harmonicFactor harmonicFreq
  simp

/-- C60: the Fourier-Bessel mask has one entry per basis function and marks the order-zero functions; those are stored once (cosine
only), every higher order twice. -/
theorem C60_fourier_bessel (zero : ℕ → ℕ → ℝ) (nmax mmax : ℕ) :
    (fbMask zero nmax mmax).length = (fbIndex zero nmax mmax).length ∧
    (fbIndex zero nmax mmax).Pairwise (fun a b => a.1 ≤ b.1) ∧
    (∀ e ∈ fbIndex zero nmax mmax, e.1 = zero e.2.1 e.2.2.1 ∧ e.1 ≤ zero 0 nmax ∧ e.2.1 ≤ mmax ∧ 1 ≤ e.2.2.1 ∧ e.2.2.1 ≤ nmax ∧
      (e.2.1 = 0 → e.2.2.2 = true) ∧ (e.2.1 ≠ 0 → (e.1, e.2.1, e.2.2.1, !e.2.2.2) ∈ fbIndex zero nmax mmax)) := by
  refine ⟨by simp [fbMask], ?_, ?_⟩
  · have h := List.pairwise_mergeSort (le := fun a b : ℝ × ℕ × ℕ × Bool => decide (a.1 ≤ b.1))
      (fun a b c h1 h2 => by simp only [decide_eq_true_eq] at *; exact le_trans h1 h2)
      (fun a b => by
        simp only [Bool.or_eq_true, decide_eq_true_eq]; exact le_total _ _)
      ((List.range (mmax + 1)).flatMap fun m =>
    (((List.range nmax).map (· + 1)).takeWhile fun n => decide (¬ zero m n > zero 0 nmax)).flatMap fun n =>
      if m > 0 then [(zero m n, m, n, true), (zero m n, m, n, false)] else [(zero m n, m, n, true)])
    unfold fbIndex
    refine h.imp ?_
    intro a b hab
    simpa using hab
  · intro e he
    unfold fbIndex at he ⊢
    rw [List.mem_mergeSort] at he ⊢
    rw [List.mem_flatMap] at he
    obtain ⟨m, hm, he⟩ := he
    rw [List.mem_flatMap] at he
    obtain ⟨n, hn, he⟩ := he
    have hn1 := (List.all_eq_true.1 (List.all_takeWhile (l := (List.range nmax).map (· + 1)))) _ hn
    have hn2 := (List.takeWhile_subset _) hn
    obtain ⟨n', hn', rfl⟩ := List.mem_map.1 hn2
    have hn'' := List.mem_range.1 hn'
    have hm' := List.mem_range.1 hm
    have hz : zero m (n' + 1) ≤ zero 0 nmax := by simpa using hn1
    by_cases h0 : m > 0
    · rw [if_pos h0] at he
      have hback : ∀ b, (zero m (n' + 1), m, n' + 1, b) ∈ (List.range (mmax + 1)).flatMap fun m =>
          (((List.range nmax).map (· + 1)).takeWhile fun n => decide (¬ zero m n > zero 0 nmax)).flatMap fun n =>
            if m > 0 then [(zero m n, m, n, true), (zero m n, m, n, false)] else [(zero m n, m, n, true)] := by
        intro b
        refine List.mem_flatMap.2 ⟨m, hm, List.mem_flatMap.2 ⟨n' + 1, hn, ?_⟩⟩
        rw [if_pos h0]
        cases b <;> simp
      simp only [List.mem_cons, List.not_mem_nil, or_false] at he
      rcases he with rfl | rfl
      · exact ⟨rfl, hz, by dsimp only; omega, by dsimp only; omega, by dsimp only; omega, fun h => by dsimp only at h; omega, fun _ => hback _⟩
      · exact ⟨rfl, hz, by dsimp only; omega, by dsimp only; omega, by dsimp only; omega, fun h => by dsimp only at h; omega, fun _ => hback _⟩
    · rw [if_neg h0] at he
      simp only [List.mem_cons, List.not_mem_nil, or_false] at he
      subst he
      exact ⟨rfl, hz, by dsimp only; omega, by dsimp only; omega, by dsimp only; omega, fun _ => rfl, fun h => absurd (by dsimp only; omega) h⟩

example : zernikeKernelSize 4 = 10 ∧ zernikeDecode 4 7 = (3, 1) ∧ zernikeMask 3 = [true, false, false, false, true, false] := by decide
example : plMask 3 4 = [true, false, false, false, false] := by decide

end Verif.Props
