import Verif.Lemmas.LegendreRoots
import Verif.Props.QuadraturePos
/-!
The Gauss-Legendre rule that the model assumes of numpy exists for every number of nodes: the hypotheses `IsGaussRule (env.gauss n) n` of the theorems on the
`legendre-gauss` grid can be met at every size.
-/
namespace Verif.Props
open Verif Verif.Quad Verif.Spec Verif.Leg Polynomial Finset

/-- The zeros of `P_n` in increasing order. -/
noncomputable def gaussNode (n i : ℕ) : ℝ :=
  if h : i < n then (Lob.zeros n 0).orderEmbOfFin (Lob.card_zeros n 0 (by omega)) ⟨i, by omega⟩ else 0

theorem gaussNode_root (n i : ℕ) (hi : i < n) : (legendreDeriv n 0).eval (gaussNode n i) = 0 := by
  unfold gaussNode
  rw [dif_pos hi, ← Lob.mem_zeros n 0 (by omega)]
  exact orderEmbOfFin_mem _ _ _

theorem gaussNode_lt (n i j : ℕ) (hij : i < j) (hj : j < n) : gaussNode n i < gaussNode n j := by
  unfold gaussNode
  rw [dif_pos (by omega), dif_pos hj]
  exact (orderEmbOfFin _ _).strictMono (by rw [Fin.lt_def]; exact hij)

theorem gaussNode_injOn (n : ℕ) : Set.InjOn (gaussNode n) (range n : Set ℕ) := by
  intro i hi j hj h
  have hi := mem_range.1 (mem_coe.1 hi)
  have hj := mem_range.1 (mem_coe.1 hj)
  rcases lt_trichotomy i j with h' | h' | h'
  · exact absurd h (gaussNode_lt n i j h' hj).ne
  · exact h'
  · exact absurd h.symm (gaussNode_lt n j i h' hi).ne

theorem gaussNode_complete (n : ℕ) (x : ℝ) (h : (legendreDeriv n 0).eval x = 0) : ∃ i < n, gaussNode n i = x := by
  have hm : x ∈ (Lob.zeros n 0 : Set ℝ) := mem_coe.2 ((Lob.mem_zeros n 0 (by omega) x).2 h)
  rw [← range_orderEmbOfFin (Lob.zeros n 0) (Lob.card_zeros n 0 (by omega))] at hm
  obtain ⟨i, hi⟩ := hm
  refine ⟨i, by omega, ?_⟩
  unfold gaussNode
  rw [dif_pos (by omega)]
  exact hi

/-- A strictly increasing map of `0 .. n-1` to itself is the identity. -/
theorem strictMono_range_id (n : ℕ) (j : ℕ → ℕ) (h : ∀ i < n, j i < n) (hm : ∀ i, i + 1 < n → j i < j (i + 1)) : ∀ i < n, j i = i := by
  have h1 : ∀ i < n, i ≤ j i := by
    intro i
    induction i with
    | zero => intro _; exact Nat.zero_le _
    | succ i ih => intro h2; have := ih (by omega); have := hm i h2; omega
  have h2 : ∀ k i, i + k + 1 = n → j i ≤ i := by
    intro k
    induction k with
    | zero => intro i h2; have := h i (by omega); omega
    | succ k ih => intro i h2; have := ih (i + 1) (by omega); have := hm i (by omega); omega
  intro i hi
  have := h1 i hi
  have := h2 (n - i - 1) i (by omega)
  omega

theorem gaussNode_symm (n i : ℕ) (hi : i < n) : gaussNode n (n - 1 - i) = -gaussNode n i := by
  have hz : ∀ i, i < n → (legendreDeriv n 0).eval (-gaussNode n (n - 1 - i)) = 0 := fun i hi => by
    rw [Lob.Q_neg, gaussNode_root n _ (by omega), mul_zero]
  have hc : ∀ i, ∃ j, i < n → j < n ∧ gaussNode n j = -gaussNode n (n - 1 - i) := by
    intro i
    by_cases h : i < n
    · obtain ⟨j, hj⟩ := gaussNode_complete n _ (hz i h)
      exact ⟨j, fun _ => hj⟩
    · exact ⟨0, fun h' => absurd h' h⟩
  choose j hj using hc
  have := strictMono_range_id n j (fun i hi => (hj i hi).1) (by
    intro i h1
    by_contra hlt
    have hle : gaussNode n (j (i + 1)) ≤ gaussNode n (j i) := by
      rcases (by omega : j (i + 1) = j i ∨ j (i + 1) < j i) with h | h
      · rw [h]
      · exact (gaussNode_lt n _ _ h (hj i (by omega)).1).le
    rw [(hj i (by omega)).2, (hj (i + 1) h1).2] at hle
    have := gaussNode_lt n (n - 1 - (i + 1)) (n - 1 - i) (by omega) (by omega)
    linarith) i hi
  have h := (hj i hi).2
  rw [this] at h
  linarith

/-- The interpolatory weights. -/
noncomputable def gaussWeight (n i : ℕ) : ℝ := pint (Lagrange.basis (range n) (gaussNode n) i)

theorem gauss_low (n : ℕ) (q : ℝ[X]) (hq : q.degree < n) : pint q = ∑ i ∈ range n, gaussWeight n i * q.eval (gaussNode n i) := by
  have := Lagrange.eq_interpolate (s := range n) (v := gaussNode n) (f := q) (gaussNode_injOn n) (by rwa [card_range])
  conv_lhs => rw [this, Lagrange.interpolate_apply, pint_sum]
  refine sum_congr rfl fun i _ => ?_
  rw [pint_C_mul, mul_comm]; rfl

theorem gauss_exact (n : ℕ) (hn : 1 ≤ n) (p : ℝ[X]) (hp : p.natDegree ≤ 2 * n - 1) :
    ∑ i ∈ range n, gaussWeight n i * p.eval (gaussNode n i) = pint p := by
  have hP0 : legendreDeriv n 0 ≠ 0 := Lob.Q_ne_zero n 0 (by omega)
  have hPd : (legendreDeriv n 0).natDegree = n := by
    have h1 := Lob.Q_card_roots n 0 (by omega)
    have h2 := (legendreDeriv n 0).card_roots'
    have h3 : (legendreDeriv n 0).natDegree ≤ n := Leg.Q_natDegree_le n 0
    omega
  have hdm := EuclideanDomain.div_add_mod p (legendreDeriv n 0)
  have hq : (p / legendreDeriv n 0).natDegree < n := by
    by_cases hlt : p.degree < (legendreDeriv n 0).degree
    · rw [(Polynomial.div_eq_zero_iff hP0).2 hlt, natDegree_zero]; omega
    · have := Polynomial.degree_add_div hP0 (not_lt.1 hlt)
      by_cases hz : p / legendreDeriv n 0 = 0
      · rw [hz, natDegree_zero]; omega
      · by_cases hp0 : p = 0
        · rw [hp0] at hz; simp at hz
        · rw [Polynomial.degree_eq_natDegree hP0, Polynomial.degree_eq_natDegree hz, Polynomial.degree_eq_natDegree hp0, hPd] at this
          have : n + (p / legendreDeriv n 0).natDegree = p.natDegree := by exact_mod_cast this
          omega
  have hr : (p % legendreDeriv n 0).degree < n := by
    have := Polynomial.degree_mod_lt p hP0
    rwa [Polynomial.degree_eq_natDegree hP0, hPd] at this
  rw [← hdm, pint_add, Lob.pint_P_low n _ hq, zero_add, gauss_low n _ hr]
  refine sum_congr rfl fun i hi => ?_
  rw [eval_add, eval_mul, gaussNode_root n i (mem_range.1 hi), zero_mul, zero_add]

theorem gaussWeight_symm (n i : ℕ) (hi : i < n) : gaussWeight n (n - 1 - i) = gaussWeight n i := by
  have hb : ((Lagrange.basis (range n) (gaussNode n) i).comp (-X)).degree < n := by
    rw [Polynomial.degree_lt_iff_coeff_zero]
    intro k hk
    refine coeff_eq_zero_of_natDegree_lt ?_
    rw [natDegree_comp, natDegree_neg, natDegree_X, mul_one, Lagrange.natDegree_basis (gaussNode_injOn n) (mem_range.2 hi), card_range]
    omega
  have h := gauss_low n _ hb
  have e : pint ((Lagrange.basis (range n) (gaussNode n) i).comp (-X)) = gaussWeight n i := by
    unfold gaussWeight pint
    simp only [eval_comp, eval_neg, eval_X]
    rw [intervalIntegral.integral_comp_neg (fun t => (Lagrange.basis (range n) (gaussNode n) i).eval t), neg_neg]
  rw [e, sum_eq_single (n - 1 - i)] at h
  · rw [h, eval_comp, eval_neg, eval_X, gaussNode_symm n i hi, neg_neg, Lagrange.eval_basis_self (gaussNode_injOn n) (mem_range.2 hi), mul_one]
  · intro j hj hne
    have hj := mem_range.1 hj
    rw [eval_comp, eval_neg, eval_X, ← gaussNode_symm n j hj, Lagrange.eval_basis_of_ne (by omega) (mem_range.2 (by omega)), mul_zero]
  · intro h'; exact absurd (mem_range.2 (by omega)) h'

/-- C04. For every `n` from one on a rule with the properties assumed of `leggauss(n)` exists, and these properties determine it. -/
theorem C04_gauss_rule (n : ℕ) (hn : 1 ≤ n) :
    ∃ R, IsGaussRule R n ∧ ∀ r, IsGaussRule r n → ∀ i < n, r.x i = R.x i ∧ r.w i = R.w i := by
  refine ⟨⟨n, gaussNode n, gaussWeight n⟩, ⟨rfl, fun i hi => Lob.Q_root_inside n 0 (by omega) _ (gaussNode_root n i hi), gaussNode_lt n, gaussNode_symm n,
    gaussWeight_symm n, fun p hp => gauss_exact n hn p hp⟩, fun r hr => ?_⟩
  have hinj : Set.InjOn r.x (range n : Set ℕ) := by
    intro i hi j hj h
    have hi := mem_range.1 (mem_coe.1 hi)
    have hj := mem_range.1 (mem_coe.1 hj)
    rcases lt_trichotomy i j with h' | h' | h'
    · exact absurd h (hr.increasing i j h' hj).ne
    · exact h'
    · exact absurd h.symm (hr.increasing j i h' hi).ne
  have hbd : ∀ i < n, (Lagrange.basis (range n) r.x i).natDegree = n - 1 := fun i hi => by
    rw [Lagrange.natDegree_basis hinj (mem_range.2 hi), card_range]
  -- the nodes are zeros of `P_n`
  have hz : ∀ i < n, (legendreDeriv n 0).eval (r.x i) = 0 := by
    intro i hi
    have hw := C06_gauss_pos r n hr i hi
    have h := hr.exact (legendreDeriv n 0 * Lagrange.basis (range n) r.x i) (by
      refine natDegree_mul_le.trans ?_
      have := Leg.Q_natDegree_le n 0
      rw [hbd i hi]; omega)
    change _ = pint _ at h
    rw [Lob.pint_P_low n _ (by rw [hbd i hi]; omega), hr.size, sum_eq_single i] at h
    · rw [eval_mul, Lagrange.eval_basis_self hinj (mem_range.2 hi), mul_one] at h
      exact (mul_eq_zero.1 h).resolve_left hw.ne'
    · intro j hj hne
      rw [eval_mul, Lagrange.eval_basis_of_ne (Ne.symm hne) hj, mul_zero, mul_zero]
    · intro h'; exact absurd (mem_range.2 hi) h'
  have hx : ∀ i < n, r.x i = gaussNode n i := by
    have hc : ∀ i, ∃ j, i < n → j < n ∧ gaussNode n j = r.x i := by
      intro i
      by_cases h : i < n
      · obtain ⟨j, hj⟩ := gaussNode_complete n _ (hz i h)
        exact ⟨j, fun _ => hj⟩
      · exact ⟨0, fun h' => absurd h' h⟩
    choose j hj using hc
    intro i hi
    have := strictMono_range_id n j (fun i hi => (hj i hi).1) (by
      intro i h1
      by_contra hlt
      have hle : gaussNode n (j (i + 1)) ≤ gaussNode n (j i) := by
        rcases (by omega : j (i + 1) = j i ∨ j (i + 1) < j i) with h | h
        · rw [h]
        · exact (gaussNode_lt n _ _ h (hj i (by omega)).1).le
      rw [(hj i (by omega)).2, (hj (i + 1) h1).2] at hle
      have := hr.increasing i (i + 1) (by omega) h1
      linarith) i hi
    rw [← (hj i hi).2, this]
  refine fun i hi => ⟨hx i hi, ?_⟩
  have hb : (Lagrange.basis (range n) (gaussNode n) i).natDegree = n - 1 := by
    rw [Lagrange.natDegree_basis (gaussNode_injOn n) (mem_range.2 hi), card_range]
  have h := hr.exact (Lagrange.basis (range n) (gaussNode n) i) (by rw [hb]; omega)
  rw [hr.size, sum_eq_single i] at h
  · rw [hx i hi, Lagrange.eval_basis_self (gaussNode_injOn n) (mem_range.2 hi), mul_one] at h
    exact h
  · intro j hj hne
    rw [hx j (mem_range.1 hj), Lagrange.eval_basis_of_ne (Ne.symm hne) hj, mul_zero]
  · intro h'; exact absurd (mem_range.2 hi) h'

/-- Non-vacuity of every hypothesis `IsGaussRule (gauss n) n`: one function `gauss` meets all of them at once. -/
example : ∃ gauss : ℕ → Rule, ∀ n, 1 ≤ n → IsGaussRule (gauss n) n := by
  have h : ∀ n, ∃ R, 1 ≤ n → IsGaussRule R n := fun n => by
    by_cases hn : 1 ≤ n
    · obtain ⟨R, hR, _⟩ := C04_gauss_rule n hn
      exact ⟨R, fun _ => hR⟩
    · exact ⟨⟨0, 0, 0⟩, fun h => absurd h hn⟩
  choose g hg using h
  exact ⟨g, hg⟩

end Verif.Props
