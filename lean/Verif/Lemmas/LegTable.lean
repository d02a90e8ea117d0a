import Verif.Model.Legendre
import Verif.Lemmas.Legendre
/-!
The loops of `legpoly` compute the normalised associated Legendre functions of the specification.
-/
namespace Verif.Leg
open Verif.Spec Verif.Legendre Polynomial

theorem norm_eq (l m : ℕ) : legendreNorm l m
    = Real.sqrt ((2 * (l : ℝ) + 1) / (4 * Real.pi) * (((l - m).factorial : ℝ) / ((l + m).factorial : ℝ))) := by
  unfold legendreNorm
  rw [← Real.sqrt_mul (by positivity)]

/-- A rational identity between squares lifts to square roots. -/
theorem mul_sqrt_eq {c A B : ℝ} (hc : 0 ≤ c) (h : c ^ 2 * A = B) : c * Real.sqrt A = Real.sqrt B := by
  rw [← h, Real.sqrt_mul (by positivity), Real.sqrt_sq hc]

theorem sq_one_sub (x : ℝ) (c : ℝ) (hc : 0 ≤ c) :
    Real.sqrt (c * (1 - x ^ 2)) = Real.sqrt c * Real.sqrt (1 - x ^ 2) := Real.sqrt_mul hc _

theorem assoc_zero (x : ℝ) : assocLegendre 0 0 x = 1 / Real.sqrt (4 * Real.pi) := by
  simp only [assocLegendre, legendreNorm, P_zero]
  simp

theorem fac_pos (l : ℕ) : (0 : ℝ) < l.factorial := by exact_mod_cast l.factorial_pos

/-- Diagonal step. -/
theorem assoc_diag (l : ℕ) (x : ℝ) : assocLegendre (l + 1) (l + 1) x
    = Real.sqrt ((2 * ((l + 1 : ℕ) : ℝ) + 1) * (1 + x) * (1 - x) / 2 / ((l + 1 : ℕ) : ℝ)) * assocLegendre l l x := by
  unfold assocLegendre
  rw [if_pos le_rfl, if_pos le_rfl, rec_diag]
  have hs : (2 * ((l + 1 : ℕ) : ℝ) + 1) * (1 + x) * (1 - x) / 2 / ((l + 1 : ℕ) : ℝ)
      = (2 * (l : ℝ) + 3) / (2 * (l + 1)) * (1 - x ^ 2) := by
    push_cast; field_simp; ring
  rw [hs, sq_one_sub x _ (by positivity)]
  have hn : (2 * (l : ℝ) + 1) * legendreNorm (l + 1) (l + 1)
      = Real.sqrt ((2 * (l : ℝ) + 3) / (2 * (l + 1))) * legendreNorm l l := by
    rw [norm_eq, norm_eq, ← Real.sqrt_mul (by positivity)]
    apply mul_sqrt_eq (by positivity)
    have e : l + 1 + (l + 1) = (l + l + 1) + 1 := by ring
    rw [e, Nat.factorial_succ, Nat.factorial_succ]
    simp only [Nat.sub_self, Nat.factorial_zero]
    have := fac_pos (l + l)
    have := Real.pi_pos
    push_cast; field_simp; ring
  simp only [eval_mul, eval_add, eval_ofNat, eval_natCast, eval_one]
  rw [pow_succ]
  linear_combination Real.sqrt (1 - x ^ 2) ^ l * Real.sqrt (1 - x ^ 2) * eval x (legendreDeriv l l) * hn

/-- Sub-diagonal step. -/
theorem assoc_subdiag (l : ℕ) (x : ℝ) : assocLegendre (l + 1) l x
    = Real.sqrt (2 * ((l + 1 : ℕ) : ℝ) + 1) * x * assocLegendre l l x := by
  unfold assocLegendre
  rw [if_pos (by omega), if_pos le_rfl, rec_subdiag]
  have hn : (2 * (l : ℝ) + 1) * legendreNorm (l + 1) l = Real.sqrt (2 * ((l + 1 : ℕ) : ℝ) + 1) * legendreNorm l l := by
    rw [norm_eq, norm_eq, ← Real.sqrt_mul (by positivity)]
    apply mul_sqrt_eq (by positivity)
    have e : l + 1 + l = (l + l) + 1 := by ring
    have e2 : l + 1 - l = 1 := by omega
    rw [e, e2, Nat.factorial_succ (l + l)]
    simp only [Nat.sub_self, Nat.factorial_zero, Nat.factorial_one]
    have := fac_pos (l + l)
    have := Real.pi_pos
    push_cast; field_simp; ring
  simp only [eval_mul, eval_add, eval_ofNat, eval_natCast, eval_one, eval_X]
  linear_combination Real.sqrt (1 - x ^ 2) ^ l * x * eval x (legendreDeriv l l) * hn

/-- Three-term step. -/
theorem assoc_three (l m : ℕ) (hm : m ≤ l) (x : ℝ) : assocLegendre (l + 2) m x
    = aCoef (l + 2) m * x * assocLegendre (l + 1) m x - bCoef (l + 2) m * assocLegendre l m x := by
  unfold assocLegendre
  rw [if_pos (by omega), if_pos (by omega), if_pos hm]
  have h3 := congrArg (eval x) (rec_three l m)
  simp only [eval_mul, eval_add, eval_sub, eval_ofNat, eval_natCast, eval_one, eval_X] at h3
  obtain ⟨d, rfl⟩ : ∃ d, l = m + d := ⟨l - m, by omega⟩
  have hd : ((m + d : ℕ) : ℝ) + 2 - m = d + 2 := by push_cast; ring
  rw [hd] at h3
  have hpi := Real.pi_pos
  have f0 := fac_pos d
  have f1 := fac_pos (m + d + m)
  have e1 : m + d - m = d := by omega
  have e2 : m + d + 1 - m = d + 1 := by omega
  have e3 : m + d + 2 - m = (d + 1) + 1 := by omega
  have e4 : m + d + 1 + m = (m + d + m) + 1 := by omega
  have e5 : m + d + 2 + m = ((m + d + m) + 1) + 1 := by omega
  have ha : (2 * ((m + d : ℕ) : ℝ) + 3) / (d + 2) * legendreNorm (m + d + 2) m = aCoef (m + d + 2) m * legendreNorm (m + d + 1) m := by
    unfold aCoef
    rw [norm_eq, norm_eq, ← Real.sqrt_mul (by
      push_cast
      have : (m : ℝ) + d + 2 - m = d + 2 := by ring
      rw [this]
      have : 2 * ((m : ℝ) + d + 2) - 1 = 2 * m + 2 * d + 3 := by ring
      rw [this]; positivity)]
    apply mul_sqrt_eq (by positivity)
    rw [e2, e3, e4, e5, Nat.factorial_succ (d + 1), Nat.factorial_succ (m + d + m + 1)]
    have g0 := fac_pos (d + 1)
    have g1 := fac_pos (m + d + m + 1)
    push_cast
    have : (m : ℝ) + d + 2 - m = d + 2 := by ring
    rw [this]
    field_simp; ring
  have hb : (((m + d : ℕ) : ℝ) + 1 + m) / (d + 2) * legendreNorm (m + d + 2) m = bCoef (m + d + 2) m * legendreNorm (m + d) m := by
    unfold bCoef
    rw [norm_eq, norm_eq, ← Real.sqrt_mul (by
      push_cast
      have : (m : ℝ) + d + 2 - m = d + 2 := by ring
      rw [this]
      have : (m : ℝ) + d + 2 + m - 1 = 2 * m + d + 1 := by ring
      rw [this]
      have : 2 * ((m : ℝ) + d + 2) - 3 = 2 * m + 2 * d + 1 := by ring
      rw [this]
      have : (d : ℝ) + 2 - 1 = d + 1 := by ring
      rw [this]; positivity)]
    apply mul_sqrt_eq (by positivity)
    rw [e1, e3, e5, Nat.factorial_succ (d + 1), Nat.factorial_succ (m + d + m + 1), Nat.factorial_succ d,
      Nat.factorial_succ (m + d + m)]
    push_cast
    have h1 : (m : ℝ) + d + 2 - m = d + 2 := by ring
    have h2 : 2 * ((m : ℝ) + d + 2) - 3 = 2 * m + 2 * d + 1 := by ring
    rw [h1, h2]
    field_simp; ring
  have hd2 : (d : ℝ) + 2 ≠ 0 := by positivity
  have h4 : eval x (legendreDeriv (m + d + 2) m) = (2 * ((m + d : ℕ) : ℝ) + 3) / (d + 2) * x * eval x (legendreDeriv (m + d + 1) m)
      - (((m + d : ℕ) : ℝ) + 1 + m) / (d + 2) * eval x (legendreDeriv (m + d) m) := by
    field_simp
    linear_combination h3
  rw [h4]
  linear_combination Real.sqrt (1 - x ^ 2) ^ m * x * eval x (legendreDeriv (m + d + 1) m) * ha
    - Real.sqrt (1 - x ^ 2) ^ m * eval x (legendreDeriv (m + d) m) * hb

theorem assoc_of_lt (l m : ℕ) (h : l < m) (x : ℝ) : assocLegendre l m x = 0 := by
  unfold assocLegendre; rw [if_neg (by omega)]

/-- Invariant of the diagonal loop. -/
theorem diag_loop (norm : String) (inverse : Bool) (x : ℝ) (K m l : ℕ) :
    (List.range' 1 K).foldl (diagStep x) (table0 norm inverse) m l
      = if l ≤ K ∧ (m = l ∨ m + 1 = l) then normFactor norm inverse * assocLegendre l m x else 0 := by
  induction K generalizing m l with
  | zero =>
    show table0 norm inverse m l = _
    unfold table0
    by_cases h : m = 0 ∧ l = 0
    · obtain ⟨rfl, rfl⟩ := h
      simp [assoc_zero, div_eq_mul_inv]
    · rw [if_neg h, if_neg (by omega)]
  | succ K ih =>
    rw [List.range'_concat, List.foldl_append, List.foldl_cons, List.foldl_nil, one_mul, add_comm 1 K]
    set v := (List.range' 1 K).foldl (diagStep x) (table0 norm inverse) with hv
    clear_value v
    have hKK : v K K = normFactor norm inverse * assocLegendre K K x := by rw [ih, if_pos ⟨le_rfl, Or.inl rfl⟩]
    unfold diagStep
    simp only [Nat.add_sub_cancel]
    by_cases h1 : m = K + 1 ∧ l = K + 1
    · obtain ⟨rfl, rfl⟩ := h1
      rw [if_pos ⟨rfl, rfl⟩, if_neg (by omega), if_pos ⟨le_rfl, Or.inl rfl⟩, assoc_diag, hKK]; ring
    · rw [if_neg h1]
      by_cases h2 : m = K ∧ l = K + 1
      · obtain ⟨rfl, rfl⟩ := h2
        rw [if_pos ⟨rfl, rfl⟩, if_pos ⟨le_rfl, Or.inr rfl⟩, assoc_subdiag, hKK]; ring
      · rw [if_neg h2, ih m l]
        by_cases h3 : l ≤ K ∧ (m = l ∨ m + 1 = l)
        · rw [if_pos h3, if_pos ⟨by omega, h3.2⟩]
        · rw [if_neg h3, if_neg (by omega)]

/-- Invariant of the three-term loop. -/
theorem rec_loop (c : ℝ) (x : ℝ) (v0 : ℕ → ℕ → ℝ) (N : ℕ)
    (h0 : ∀ m l, l ≤ N → v0 m l = if m = l ∨ m + 1 = l then c * assocLegendre l m x else 0) (K m l : ℕ) (hl : l ≤ N) :
    (List.range' 2 K).foldl (recStep x) v0 m l = if l ≤ K + 1 then c * assocLegendre l m x else v0 m l := by
  induction K generalizing m l with
  | zero =>
    show v0 m l = _
    split
    · next h =>
      rw [h0 m l hl]
      split
      · rfl
      · rw [assoc_of_lt l m (by omega)]; ring
    · rfl
  | succ K ih =>
    rw [List.range'_concat, List.foldl_append, List.foldl_cons, List.foldl_nil, one_mul, add_comm 2 K]
    rw [recStep]
    by_cases h1 : l = K + 2 ∧ m < K + 2 - 1
    · obtain ⟨rfl, hm⟩ := h1
      rw [if_pos ⟨rfl, hm⟩, ih m (K + 2 - 1) (by omega), ih m (K + 2 - 2) (by omega), if_pos (by omega), if_pos (by omega),
        if_pos (by omega), assoc_three K m (by omega)]
      have e1 : K + 2 - 1 = K + 1 := by omega
      have e2 : K + 2 - 2 = K := by omega
      rw [e1, e2]; ring
    · rw [if_neg h1, ih m l hl]
      by_cases h2 : l ≤ K + 1
      · rw [if_pos h2, if_pos (by omega)]
      · rw [if_neg h2]
        by_cases h3 : l = K + 2
        · subst h3
          rw [if_pos (by omega), h0 m _ hl]
          split
          · rfl
          · rw [assoc_of_lt _ m (by omega)]; ring
        · rw [if_neg (by omega)]

/-- The table built by the loops, before Schmidt scaling and phase. -/
theorem table_value (nmax : ℕ) (norm : String) (inverse : Bool) (x : ℝ) (m l : ℕ) (hl : l < nmax) :
    table nmax norm inverse x m l = normFactor norm inverse * assocLegendre l m x := by
  unfold table
  rw [rec_loop (normFactor norm inverse) x _ (nmax - 1) _ _ m l (by omega)]
  · split
    · rfl
    · next h =>
      have : nmax = 1 := by omega
      omega
  · intro m l hl
    rw [diag_loop]
    by_cases h : m = l ∨ m + 1 = l
    · rw [if_pos h, if_pos ⟨hl, h⟩]
    · rw [if_neg h, if_neg (by tauto)]

end Verif.Leg
