import Verif.Lemmas.LegTable
import Mathlib.Analysis.SpecialFunctions.Trigonometric.Deriv
/-!
Property theorems C09-C11: associated Legendre tables.
-/
namespace Verif.Props
open Verif Verif.Legendre Verif.Spec Verif.Leg Verif.Quad Polynomial

theorem phase_eq (cs : Bool) (v : ℕ → ℕ → ℝ) (m l : ℕ) : phase cs v m l = csSign cs m * v m l := by
  unfold phase csSign
  cases cs
  · simp
  · rcases Nat.mod_two_eq_zero_or_one m with h | h
    · have : Even m := Nat.even_iff.2 h
      simp [h, this.neg_one_pow]
    · have : Odd m := Nat.odd_iff.2 h
      simp [h, this.neg_one_pow]

theorem four_pi_pos : 0 < Real.sqrt (4 * Real.pi) := Real.sqrt_pos.2 (by have := Real.pi_pos; positivity)

theorem schmidt_eq (norm : String) (inverse : Bool) (v : ℕ → ℕ → ℝ) (m l : ℕ) (y : ℝ)
    (hv : v m l = normFactor norm inverse * y) : schmidt norm inverse v m l = tableScale norm inverse l * y := by
  have h4 := four_pi_pos
  have hl : 0 < Real.sqrt (2 * (l : ℝ) + 1) := Real.sqrt_pos.2 (by positivity)
  unfold schmidt tableScale normScale
  unfold normFactor at hv
  by_cases h1 : norm = "ortho"
  · subst h1; cases inverse <;> simp [hv]
  · by_cases h2 : norm = "schmidt"
    · subst h2
      rw [Real.sqrt_div (by have := Real.pi_pos; positivity)]
      cases inverse
      · simp [hv]; field_simp
      · simp [hv]; field_simp
    · cases inverse <;> simp [hv, h1, h2]

theorem legpolyVal_eq (mmax lmax : ℕ) (x : ℝ) (norm : String) (inverse csphase : Bool) (m l : ℕ) (hl : l < lmax) :
    legpolyVal mmax lmax norm inverse csphase x m l = csSign csphase m * (tableScale norm inverse l * assocLegendre l m x) := by
  unfold legpolyVal
  rw [phase_eq, schmidt_eq norm inverse _ m l _ (table_value _ norm inverse x m l (lt_of_lt_of_le hl (le_max_right _ _)))]

/-- C09 (and C10). Every entry of the table is the normalised associated Legendre function of Rodrigues' formula, times the
documented scale of the normalisation and the Condon-Shortley sign; entries with `l < m` are zero. -/
theorem C09_legpoly_value (mmax lmax : ℕ) (x : ℝ) (_hx : -1 ≤ x ∧ x ≤ 1) (norm : String) (inverse csphase : Bool)
    (T : ℕ → ℕ → ℝ) (hT : legpoly mmax lmax x norm inverse csphase = .ok T) (m l : ℕ) (_hm : m < mmax) (hl : l < lmax) :
    T m l = csSign csphase m * (tableScale norm inverse l * assocLegendre l m x) := by
  unfold legpoly at hT
  split at hT
  · cases hT
  · cases hT
    exact legpolyVal_eq mmax lmax x norm inverse csphase m l hl

/-- C09 (error branch): only the empty table fails. -/
theorem C09_legpoly_ok_iff (mmax lmax : ℕ) (x : ℝ) (norm : String) (inverse csphase : Bool) :
    (∃ T, legpoly mmax lmax x norm inverse csphase = .ok T) ↔ 0 < mmax ∨ 0 < lmax := by
  unfold legpoly
  by_cases h : max mmax lmax = 0
  · rw [if_pos h]; simp at h; simp [h]
  · rw [if_neg h]
    have : 0 < mmax ∨ 0 < lmax := by
      by_contra hc; apply h; simp at hc; simp [hc]
    simp [this]

theorem assoc_form (l m : ℕ) (h : m ≤ l) (x : ℝ) :
    assocLegendre l m x = Real.sqrt (1 - x ^ 2) ^ m * (C (legendreNorm l m) * legendreDeriv l m).eval x := by
  unfold assocLegendre; rw [if_pos h]; simp; ring

theorem norm_pos (l m : ℕ) : 0 < legendreNorm l m := by
  unfold legendreNorm
  have h1 := Real.pi_pos
  have h2 := fac_pos (l - m)
  have h3 := fac_pos (l + m)
  exact mul_pos (Real.sqrt_pos.2 (by positivity)) (Real.sqrt_pos.2 (by positivity))

/-- C09. Shape of the functions: `(1-x^2)^(m/2)` times a polynomial of degree exactly `l-m`. -/
theorem C09_legpoly_shape (mmax lmax : ℕ) (T : ℝ → ℕ → ℕ → ℝ)
    (hT : ∀ x, -1 ≤ x → x ≤ 1 → legpoly mmax lmax x "ortho" false false = .ok (T x)) (m l : ℕ) (hm : m < mmax) (hl : l < lmax) :
    (l < m → ∀ x, -1 ≤ x → x ≤ 1 → T x m l = 0) ∧
    (m ≤ l → ∃ p : ℝ[X], p.natDegree = l - m ∧ ∀ x, -1 ≤ x → x ≤ 1 → T x m l = Real.sqrt (1 - x ^ 2) ^ m * p.eval x) := by
  have key : ∀ x, -1 ≤ x → x ≤ 1 → T x m l = assocLegendre l m x := by
    intro x h1 h2
    rw [C09_legpoly_value mmax lmax x ⟨h1, h2⟩ "ortho" false false _ (hT x h1 h2) m l hm hl]
    simp [csSign, tableScale, normScale]
  refine ⟨fun h x h1 h2 => by rw [key x h1 h2, assoc_of_lt l m h], fun h => ?_⟩
  refine ⟨C (legendreNorm l m) * legendreDeriv l m, ?_, fun x h1 h2 => by rw [key x h1 h2, assoc_form l m h]⟩
  rw [natDegree_C_mul (norm_pos l m).ne', Q_natDegree l m h]

theorem assoc_mul_integral (l l' m : ℕ) :
    2 * Real.pi * ∫ x in (-1 : ℝ)..1, assocLegendre l m x * assocLegendre l' m x
      = if l = l' ∧ m ≤ l then 1 else 0 := by
  by_cases hl : m ≤ l
  · by_cases hl' : m ≤ l'
    · have e : ∫ x in (-1 : ℝ)..1, assocLegendre l m x * assocLegendre l' m x
          = legendreNorm l m * legendreNorm l' m * ip m l l' := by
        unfold ip pint
        rw [← intervalIntegral.integral_const_mul]
        apply intervalIntegral.integral_congr
        intro x hx
        rw [Set.uIcc_of_le (by norm_num)] at hx
        have hx2 : 0 ≤ 1 - x ^ 2 := by nlinarith [hx.1, hx.2]
        have hs : Real.sqrt (1 - x ^ 2) ^ m * Real.sqrt (1 - x ^ 2) ^ m = (1 - x ^ 2) ^ m := by
          rw [← mul_pow, Real.mul_self_sqrt hx2]
        simp only [assocLegendre, if_pos hl, if_pos hl']
        simp only [eval_mul, eval_pow, eval_sub, eval_one, eval_X]
        rw [← hs]; ring
      rw [e, ip_value m l l' hl]
      by_cases h : l = l'
      · subst h
        rw [if_pos rfl, if_pos ⟨rfl, hl⟩]
        have hn : legendreNorm l m * legendreNorm l m
            = (2 * (l : ℝ) + 1) / (4 * Real.pi) * (((l - m).factorial : ℝ) / ((l + m).factorial : ℝ)) := by
          rw [norm_eq]
          apply Real.mul_self_sqrt
          have h1 := Real.pi_pos
          have h2 := fac_pos (l - m)
          have h3 := fac_pos (l + m)
          positivity
        rw [hn]
        have h1 := Real.pi_pos
        have h2 := fac_pos (l - m)
        have h3 := fac_pos (l + m)
        field_simp; ring
      · rw [if_neg h, if_neg (by tauto)]; ring
    · rw [if_neg (by omega)]
      simp [assocLegendre, hl']
  · rw [if_neg (by omega)]
    simp [assocLegendre, hl]

/-- C09. Orthonormality: for every order, the table rows are orthonormal on `[-1,1]` up to the factor `2 pi` of the
longitude integral. -/
theorem C09_legpoly_orthonormal (mmax lmax : ℕ) (csphase : Bool) (T : ℝ → ℕ → ℕ → ℝ)
    (hT : ∀ x, -1 ≤ x → x ≤ 1 → legpoly mmax lmax x "ortho" false csphase = .ok (T x)) (m l l' : ℕ) (hm : m < mmax)
    (hl : l < lmax) (hl' : l' < lmax) (hml : m ≤ l) :
    2 * Real.pi * ∫ x in (-1 : ℝ)..1, T x m l * T x m l' = if l = l' then 1 else 0 := by
  have hs : csSign csphase m * csSign csphase m = 1 := by
    unfold csSign; cases csphase
    · simp
    · simp [← mul_pow]
  have e : ∫ x in (-1 : ℝ)..1, T x m l * T x m l' = ∫ x in (-1 : ℝ)..1, assocLegendre l m x * assocLegendre l' m x := by
    apply intervalIntegral.integral_congr
    intro x hx
    rw [Set.uIcc_of_le (by norm_num)] at hx
    have k : ∀ l, l < lmax → T x m l = csSign csphase m * assocLegendre l m x := by
      intro l hl
      rw [C09_legpoly_value mmax lmax x ⟨hx.1, hx.2⟩ "ortho" false csphase _ (hT x hx.1 hx.2) m l hm hl]
      simp [tableScale, normScale]
    show T x m l * T x m l' = _
    rw [k l hl, k l' hl']
    linear_combination (assocLegendre l m x * assocLegendre l' m x) * hs
  rw [e, assoc_mul_integral]
  by_cases h : l = l' <;> simp [h, hml]
  omega

/-- C09. Entries do not depend on the size of the table they are read from. -/
theorem C09_legpoly_size_independent (mmax lmax mmax' lmax' : ℕ) (x : ℝ) (hx : -1 ≤ x ∧ x ≤ 1) (norm : String)
    (inverse csphase : Bool) (T T' : ℕ → ℕ → ℝ) (hT : legpoly mmax lmax x norm inverse csphase = .ok T)
    (hT' : legpoly mmax' lmax' x norm inverse csphase = .ok T') (m l : ℕ) (hm : m < mmax) (hl : l < lmax) (hm' : m < mmax')
    (hl' : l < lmax') : T m l = T' m l := by
  rw [C09_legpoly_value mmax lmax x hx _ _ _ _ hT m l hm hl, C09_legpoly_value mmax' lmax' x hx _ _ _ _ hT' m l hm' hl']

/-- Non-vacuity: `mmax = 2`, `lmax = 3` tables exist at every abscissa, and entry `(0,1)` is `sqrt(3/(4 pi)) x`. -/
example (x : ℝ) (hx : -1 ≤ x ∧ x ≤ 1) : ∃ T, legpoly 2 3 x "ortho" false true = .ok T ∧
    T 0 1 = Real.sqrt (3 / (4 * Real.pi)) * x := by
  obtain ⟨T, hT⟩ := (C09_legpoly_ok_iff 2 3 x "ortho" false true).2 (by norm_num)
  refine ⟨T, hT, ?_⟩
  rw [C09_legpoly_value 2 3 x hx _ _ _ _ hT 0 1 (by norm_num) (by norm_num)]
  simp [csSign, tableScale, normScale, assocLegendre, legendreNorm, P_one]
  norm_num

/-! ## C10 -/

theorem normScale_pos (norm : String) (l : ℕ) : 0 < normScale norm l := by
  have hpi := Real.pi_pos
  unfold normScale
  split
  · norm_num
  · split
    · exact Real.sqrt_pos.2 (by positivity)
    · exact Real.sqrt_pos.2 (by positivity)

/-- C10. For every normalisation the forward entry times the inverse entry is the square of the orthonormal entry, so
analysis followed by synthesis does not depend on `norm`; and each differs from the orthonormal one by `normScale`. -/
theorem C10_norm_rescale (mmax lmax : ℕ) (x : ℝ) (hx : -1 ≤ x ∧ x ≤ 1) (norm : String) (csphase : Bool)
    (F I O : ℕ → ℕ → ℝ) (hF : legpoly mmax lmax x norm false csphase = .ok F)
    (hI : legpoly mmax lmax x norm true csphase = .ok I) (hO : legpoly mmax lmax x "ortho" false csphase = .ok O)
    (m l : ℕ) (hm : m < mmax) (hl : l < lmax) :
    F m l = normScale norm l * O m l ∧ I m l = O m l / normScale norm l ∧ F m l * I m l = O m l ^ 2 := by
  have h0 := (normScale_pos norm l).ne'
  rw [C09_legpoly_value mmax lmax x hx _ _ _ _ hF m l hm hl, C09_legpoly_value mmax lmax x hx _ _ _ _ hI m l hm hl,
    C09_legpoly_value mmax lmax x hx _ _ _ _ hO m l hm hl]
  have e1 : tableScale norm false l = normScale norm l := by simp [tableScale]
  have e2 : tableScale norm true l = (normScale norm l)⁻¹ := by simp [tableScale]
  have e3 : tableScale "ortho" false l = 1 := by simp [tableScale, normScale]
  rw [e1, e2, e3]
  refine ⟨by ring, by field_simp, ?_⟩
  field_simp

/-- C10. The forward and inverse orthonormal tables are the same. -/
theorem C10_ortho_inverse_same (mmax lmax : ℕ) (x : ℝ) (hx : -1 ≤ x ∧ x ≤ 1) (csphase : Bool)
    (F I : ℕ → ℕ → ℝ) (hF : legpoly mmax lmax x "ortho" false csphase = .ok F)
    (hI : legpoly mmax lmax x "ortho" true csphase = .ok I) (m l : ℕ) (hm : m < mmax) (hl : l < lmax) : F m l = I m l := by
  rw [C09_legpoly_value mmax lmax x hx _ _ _ _ hF m l hm hl, C09_legpoly_value mmax lmax x hx _ _ _ _ hI m l hm hl]
  simp [tableScale, normScale]

/-- C10. The phase flag multiplies order `m` by `(-1)^m` and changes nothing else. -/
theorem C10_csphase (mmax lmax : ℕ) (x : ℝ) (norm : String) (inverse : Bool) (A B : ℕ → ℕ → ℝ)
    (hA : legpoly mmax lmax x norm inverse false = .ok A) (hB : legpoly mmax lmax x norm inverse true = .ok B) (m l : ℕ) :
    B m l = (-1) ^ m * A m l := by
  unfold legpoly at hA hB
  split at hA
  · cases hA
  · next h =>
    rw [if_neg h] at hB
    cases hA; cases hB
    unfold legpolyVal
    rw [phase_eq, phase_eq]; simp [csSign]

/-! ## C11 -/

theorem theta_eq (l m : ℕ) (th : ℝ) (h0 : 0 ≤ th) (h1 : th ≤ Real.pi) :
    assocLegendre l m (Real.cos th) = legendreTheta l m th := by
  unfold assocLegendre legendreTheta
  have : Real.sqrt (1 - Real.cos th ^ 2) = Real.sin th := by
    rw [← Real.sin_sq, Real.sqrt_sq (Real.sin_nonneg_of_nonneg_of_le_pi h0 h1)]
  rw [this]

/-- `n_{l,m+1} sqrt((l-m)(l+m+1)) = n_{l,m}` times `(l-m)(l+m+1)` the other way round. -/
theorem norm_up (l m : ℕ) (h : m + 1 ≤ l) :
    Real.sqrt (((l : ℝ) - m) * ((l : ℝ) + m + 1)) * legendreNorm l m
      = ((l : ℝ) - m) * ((l : ℝ) + m + 1) * legendreNorm l (m + 1)
    ∧ Real.sqrt (((l : ℝ) - m) * ((l : ℝ) + m + 1)) * legendreNorm l (m + 1) = legendreNorm l m := by
  obtain ⟨d, rfl⟩ : ∃ d, l = m + 1 + d := ⟨l - (m + 1), by omega⟩
  have hpi := Real.pi_pos
  have f0 := fac_pos d
  have f1 := fac_pos (m + 1 + d + m)
  have e1 : m + 1 + d - m = d + 1 := by omega
  have e2 : m + 1 + d - (m + 1) = d := by omega
  have e3 : m + 1 + d + (m + 1) = (m + 1 + d + m) + 1 := by omega
  have c1 : ((m + 1 + d : ℕ) : ℝ) - m = d + 1 := by push_cast; ring
  have second : Real.sqrt ((((m + 1 + d : ℕ) : ℝ) - m) * (((m + 1 + d : ℕ) : ℝ) + m + 1)) * legendreNorm (m + 1 + d) (m + 1)
      = legendreNorm (m + 1 + d) m := by
    rw [norm_eq, norm_eq, ← Real.sqrt_mul (by rw [c1]; positivity), e1, e2, e3, Nat.factorial_succ d,
      Nat.factorial_succ (m + 1 + d + m), c1]
    congr 1
    push_cast
    field_simp
  refine ⟨?_, second⟩
  have hs : Real.sqrt ((((m + 1 + d : ℕ) : ℝ) - m) * (((m + 1 + d : ℕ) : ℝ) + m + 1))
      * Real.sqrt ((((m + 1 + d : ℕ) : ℝ) - m) * (((m + 1 + d : ℕ) : ℝ) + m + 1))
      = (((m + 1 + d : ℕ) : ℝ) - m) * (((m + 1 + d : ℕ) : ℝ) + m + 1) := Real.mul_self_sqrt (by rw [c1]; positivity)
  rw [← second, ← mul_assoc, hs]

theorem sin_sq_eval (th : ℝ) : Real.sin th ^ 2 = 1 - Real.cos th ^ 2 := Real.sin_sq th

/-- The derivative with respect to colatitude. -/
noncomputable def dTheta (l m : ℕ) (th : ℝ) : ℝ :=
  if m ≤ l then legendreNorm l m * (m * Real.sin th ^ (m - 1) * Real.cos th * (legendreDeriv l m).eval (Real.cos th)
    - Real.sin th ^ m * (Real.sin th * (legendreDeriv l (m + 1)).eval (Real.cos th))) else 0

theorem hasDeriv_theta (l m : ℕ) (th : ℝ) : HasDerivAt (legendreTheta l m) (dTheta l m th) th := by
  unfold dTheta
  by_cases h : m ≤ l
  · have hf : legendreTheta l m = fun th => legendreNorm l m * Real.sin th ^ m * (legendreDeriv l m).eval (Real.cos th) := by
      funext t; unfold legendreTheta; rw [if_pos h]
    rw [hf, if_pos h]
    have hq := ((legendreDeriv l m).hasDerivAt (Real.cos th)).comp th (Real.hasDerivAt_cos th)
    have hs := ((Real.hasDerivAt_sin th).pow m).const_mul (legendreNorm l m)
    have := hs.mul hq
    rw [deriv_Q] at this
    refine HasDerivAt.congr_deriv (f := fun th => legendreNorm l m * Real.sin th ^ m * (legendreDeriv l m).eval (Real.cos th)) this ?_
    simp only [Function.comp_apply, Pi.pow_apply]
    ring
  · have hf : legendreTheta l m = fun _ => 0 := by
      funext t; unfold legendreTheta; rw [if_neg h]
    rw [hf, if_neg h]; exact hasDerivAt_const _ _

theorem dpct0_value (l m : ℕ) (th c : ℝ) (pct : ℕ → ℕ → ℝ) (hp : ∀ m', m' ≤ m + 1 → pct m' l = c * legendreTheta l m' th) :
    dpct0 pct m l = c * dTheta l m th := by
  unfold dpct0 dTheta
  by_cases h0 : m = 0
  · subst h0
    rw [if_pos rfl, if_pos (by omega), hp 1 (by omega)]
    unfold legendreTheta
    rcases Nat.eq_zero_or_pos l with rfl | hl
    · rw [if_neg (by omega), Q_zero 0 (0 + 1) (by omega)]; simp
    · rw [if_pos (by omega)]
      have := (norm_up l 0 (by omega)).2
      simp only [Nat.cast_zero, sub_zero, add_zero, zero_add] at this ⊢
      rw [← this]
      ring
  · rw [if_neg h0]
    obtain ⟨k, rfl⟩ : ∃ k, m = k + 1 := ⟨m - 1, by omega⟩
    by_cases hml : k + 1 ≤ l
    · have hmask : mask (k + 1) l = 1 := by unfold mask; rw [if_pos ⟨by omega, hml⟩]
      have hlr : ((k : ℝ) + 1) ≤ l := by exact_mod_cast hml
      rw [hmask, if_pos hml, hp _ (by omega), hp _ (by omega), Nat.add_sub_cancel]
      have n1 := (norm_up l k hml).1
      have m1 : max (((l : ℝ) + ((k + 1 : ℕ) : ℝ)) * ((l : ℝ) - ((k + 1 : ℕ) : ℝ) + 1)) 0 = ((l : ℝ) - k) * ((l : ℝ) + k + 1) := by
        rw [max_eq_left]
        · push_cast; ring
        · push_cast
          have : 0 ≤ (l : ℝ) - (k + 1) := by linarith
          positivity
      have m2 : max (((l : ℝ) - ((k + 1 : ℕ) : ℝ)) * ((l : ℝ) + ((k + 1 : ℕ) : ℝ) + 1)) 0
          = ((l : ℝ) - ((k + 1 : ℕ) : ℝ)) * ((l : ℝ) + ((k + 1 : ℕ) : ℝ) + 1) := by
        rw [max_eq_left]
        push_cast
        have : 0 ≤ (l : ℝ) - (k + 1) := by linarith
        positivity
      rw [m1, m2]
      have t1 : legendreTheta l k th = legendreNorm l k * Real.sin th ^ k * (legendreDeriv l k).eval (Real.cos th) := by
        unfold legendreTheta; rw [if_pos (by omega)]
      have ho := congrArg (eval (Real.cos th)) (ode l k)
      simp only [eval_mul, eval_add, eval_sub, eval_pow, eval_ofNat, eval_natCast, eval_one, eval_X, eval_zero] at ho
      rw [← Real.sin_sq] at ho
      have t2 : Real.sqrt (((l : ℝ) - ((k + 1 : ℕ) : ℝ)) * ((l : ℝ) + ((k + 1 : ℕ) : ℝ) + 1)) * legendreTheta l (k + 1 + 1) th
          = legendreNorm l (k + 1) * Real.sin th ^ (k + 2) * (legendreDeriv l (k + 2)).eval (Real.cos th) := by
        unfold legendreTheta
        by_cases h2 : k + 1 + 1 ≤ l
        · rw [if_pos h2, ← (norm_up l (k + 1) h2).2]; ring
        · rw [if_neg h2, Q_zero l (k + 2) (by omega)]; simp
      rw [t1]
      rw [show Real.sqrt (((l : ℝ) - k) * ((l : ℝ) + k + 1)) * (c * (legendreNorm l k * Real.sin th ^ k * eval (Real.cos th) (legendreDeriv l k)))
        = c * (Real.sqrt (((l : ℝ) - k) * ((l : ℝ) + k + 1)) * legendreNorm l k) * (Real.sin th ^ k * eval (Real.cos th) (legendreDeriv l k)) by ring]
      rw [n1]
      rw [show Real.sqrt (((l : ℝ) - ((k + 1 : ℕ) : ℝ)) * ((l : ℝ) + ((k + 1 : ℕ) : ℝ) + 1)) * (c * legendreTheta l (k + 1 + 1) th)
        = c * (Real.sqrt (((l : ℝ) - ((k + 1 : ℕ) : ℝ)) * ((l : ℝ) + ((k + 1 : ℕ) : ℝ) + 1)) * legendreTheta l (k + 1 + 1) th) by ring]
      rw [t2]
      push_cast
      linear_combination (c * legendreNorm l (k + 1) * Real.sin th ^ k / 2) * ho
    · have hmask : mask (k + 1) l = 0 := by unfold mask; rw [if_neg (by omega)]
      rw [hmask, if_neg hml]; ring

/-- The two norm identities behind `dpct[1]`. -/
theorem norm_cross (l k : ℕ) (h : k + 1 ≤ l) :
    Real.sqrt ((2 * (l : ℝ) + 1) / (2 * (l : ℝ) + 3)) * Real.sqrt (((l : ℝ) - k) * ((l : ℝ) - k + 1)) * legendreNorm (l + 1) k
      = ((l : ℝ) - k) * ((l : ℝ) - k + 1) * legendreNorm l (k + 1)
    ∧ Real.sqrt ((2 * (l : ℝ) + 1) / (2 * (l : ℝ) + 3)) * Real.sqrt (((l : ℝ) + k + 2) * ((l : ℝ) + k + 3)) * legendreNorm (l + 1) (k + 2)
      = legendreNorm l (k + 1) := by
  obtain ⟨d, rfl⟩ : ∃ d, l = k + 1 + d := ⟨l - (k + 1), by omega⟩
  have hpi := Real.pi_pos
  have f0 := fac_pos d
  have f1 := fac_pos (k + 1 + d + (k + 1))
  have e1 : k + 1 + d + 1 - k = d + 1 + 1 := by omega
  have e2 : k + 1 + d + 1 + k = k + 1 + d + (k + 1) := by omega
  have e3 : k + 1 + d - (k + 1) = d := by omega
  have e4 : k + 1 + d + 1 - (k + 2) = d := by omega
  have e5 : k + 1 + d + 1 + (k + 2) = (k + 1 + d + (k + 1)) + 1 + 1 := by omega
  have c1 : ((k + 1 + d : ℕ) : ℝ) - k = d + 1 := by push_cast; ring
  constructor
  · rw [norm_eq, norm_eq, ← Real.sqrt_mul (by positivity), ← Real.sqrt_mul (by rw [c1]; positivity)]
    symm
    apply mul_sqrt_eq (by rw [c1]; positivity)
    rw [c1, e1, e2, e3, Nat.factorial_succ (d + 1), Nat.factorial_succ d]
    push_cast; field_simp; ring
  · rw [norm_eq, norm_eq, ← Real.sqrt_mul (by positivity), ← Real.sqrt_mul (by positivity), e3, e4, e5,
      Nat.factorial_succ (k + 1 + d + (k + 1) + 1), Nat.factorial_succ (k + 1 + d + (k + 1))]
    congr 1
    push_cast; field_simp; ring

theorem rec_E (l k : ℕ) : X * legendreDeriv (l + 1) (k + 1) - ((l : ℝ[X]) + 1 - (k : ℝ[X])) * legendreDeriv (l + 1) k
    = legendreDeriv l (k + 1) := by
  linear_combination X * rec_B l k - rec_A l k

/-- The core of `dpct[1]`, before the Schmidt correction. -/
theorem dpct1_core (l m : ℕ) (th c : ℝ) (pct : ℕ → ℕ → ℝ) (hp : ∀ m', m' ≤ m + 1 → pct m' (l + 1) = c * legendreTheta (l + 1) m' th) :
    mask m l * (1 / 2) * Real.sqrt ((2 * (l : ℝ) + 1) / (2 * (l : ℝ) + 3))
    * (Real.sqrt (max (((l : ℝ) - m + 1) * ((l : ℝ) - m + 2)) 0) * pct (m - 1) (l + 1)
      + Real.sqrt (((l : ℝ) + m + 1) * ((l : ℝ) + m + 2)) * pct (m + 1) (l + 1)) = c * legendreOverSin l m th := by
  unfold legendreOverSin
  by_cases h0 : m = 0
  · subst h0
    have hmask : mask 0 l = 0 := by unfold mask; rw [if_neg (by omega)]
    rw [hmask]; simp
  · obtain ⟨k, rfl⟩ : ∃ k, m = k + 1 := ⟨m - 1, by omega⟩
    by_cases hml : k + 1 ≤ l
    · have hmask : mask (k + 1) l = 1 := by unfold mask; rw [if_pos ⟨by omega, hml⟩]
      have hlr : ((k : ℝ) + 1) ≤ l := by exact_mod_cast hml
      rw [hmask, if_pos hml, hp _ (by omega), hp _ (by omega), Nat.add_sub_cancel]
      obtain ⟨n1, n2⟩ := norm_cross l k hml
      have m1 : max (((l : ℝ) - ((k + 1 : ℕ) : ℝ) + 1) * ((l : ℝ) - ((k + 1 : ℕ) : ℝ) + 2)) 0 = ((l : ℝ) - k) * ((l : ℝ) - k + 1) := by
        rw [max_eq_left]
        · push_cast; ring
        · push_cast
          have : 0 ≤ (l : ℝ) - (k + 1) := by linarith
          positivity
      have m2 : ((l : ℝ) + ((k + 1 : ℕ) : ℝ) + 1) * ((l : ℝ) + ((k + 1 : ℕ) : ℝ) + 2) = ((l : ℝ) + k + 2) * ((l : ℝ) + k + 3) := by
        push_cast; ring
      rw [m1, m2]
      unfold legendreTheta
      rw [if_pos (by omega), if_pos (by omega)]
      have ho := congrArg (eval (Real.cos th)) (ode (l + 1) k)
      have hE := congrArg (eval (Real.cos th)) (rec_E l k)
      simp only [eval_mul, eval_add, eval_sub, eval_pow, eval_ofNat, eval_natCast, eval_one, eval_X, eval_zero] at ho hE
      rw [← Real.sin_sq] at ho
      push_cast at ho
      rw [show k + 1 + 1 = k + 2 from rfl]
      push_cast
      linear_combination (1 / 2 * c * Real.sin th ^ k * eval (Real.cos th) (legendreDeriv (l + 1) k)) * n1
        + (1 / 2 * c * Real.sin th ^ (k + 2) * eval (Real.cos th) (legendreDeriv (l + 1) (k + 2))) * n2
        + (1 / 2 * c * legendreNorm l (k + 1) * Real.sin th ^ k) * ho
        + (c * legendreNorm l (k + 1) * Real.sin th ^ k * ((k : ℝ) + 1)) * hE
    · have hmask : mask (k + 1) l = 0 := by unfold mask; rw [if_neg (by omega)]
      rw [hmask, if_neg hml]; ring

theorem scale_succ (norm : String) (inverse : Bool) (l : ℕ) :
    (if norm = "schmidt" then
      if inverse = false then tableScale norm inverse (l + 1) * Real.sqrt ((2 * (l : ℝ) + 3) / (2 * (l : ℝ) + 1))
      else tableScale norm inverse (l + 1) * Real.sqrt ((2 * (l : ℝ) + 1) / (2 * (l : ℝ) + 3))
    else tableScale norm inverse (l + 1)) = tableScale norm inverse l := by
  have hpi := Real.pi_pos
  unfold tableScale normScale
  by_cases h1 : norm = "ortho"
  · subst h1; simp
  · by_cases h2 : norm = "schmidt"
    · subst h2
      have a1 : Real.sqrt (2 * (l : ℝ) + 1) ≠ 0 := (Real.sqrt_pos.2 (by positivity)).ne'
      have a3 : Real.sqrt (2 * (l : ℝ) + 3) ≠ 0 := (Real.sqrt_pos.2 (by positivity)).ne'
      have a4 : Real.sqrt (4 * Real.pi) ≠ 0 := four_pi_pos.ne'
      have e : 2 * ((l + 1 : ℕ) : ℝ) + 1 = 2 * (l : ℝ) + 3 := by push_cast; ring
      rw [e, Real.sqrt_div (by positivity), Real.sqrt_div (by positivity), Real.sqrt_div (by positivity), Real.sqrt_div (by positivity)]
      cases inverse
      · simp; field_simp
      · simp; field_simp
    · simp [h1, h2]

theorem dpct1_value (l m : ℕ) (th : ℝ) (norm : String) (inverse : Bool) (pct : ℕ → ℕ → ℝ)
    (hp : ∀ m', m' ≤ m + 1 → pct m' (l + 1) = tableScale norm inverse (l + 1) * legendreTheta (l + 1) m' th) :
    dpct1 norm inverse pct m l = tableScale norm inverse l * legendreOverSin l m th := by
  unfold dpct1
  dsimp only
  rw [dpct1_core l m th _ pct hp]
  rw [← scale_succ norm inverse l]
  split
  · split
    · ring
    · ring
  · rfl

theorem dlegpolyVal_eq (mmax lmax : ℕ) (th : ℝ) (h0 : 0 ≤ th) (h1 : th ≤ Real.pi) (norm : String) (inverse csphase : Bool)
    (m l : ℕ) (hl : l < lmax) :
    (dlegpolyVal mmax lmax norm inverse csphase th).1 m l = csSign csphase m * (tableScale norm inverse l * dTheta l m th) ∧
    (dlegpolyVal mmax lmax norm inverse csphase th).2 m l
      = csSign csphase m * (tableScale norm inverse l * legendreOverSin l m th) := by
  have hb : ∀ m' l', l' < lmax + 1 → legpolyVal (mmax + 1) (lmax + 1) norm inverse false (Real.cos th) m' l'
      = tableScale norm inverse l' * legendreTheta l' m' th := by
    intro m' l' hl'
    rw [legpolyVal_eq _ _ _ _ _ _ m' l' hl', theta_eq l' m' th h0 h1]
    simp [csSign]
  unfold dlegpolyVal
  dsimp only
  refine ⟨?_, ?_⟩
  · rw [phase_eq, dpct0_value l m th (tableScale norm inverse l) _ (fun m' hm' => hb m' l (by omega))]
  · rw [phase_eq, dpct1_value l m th norm inverse _ (fun m' hm' => hb m' (l + 1) (by omega))]

theorem dleg_tables (mmax lmax : ℕ) (th : ℝ) (h0 : 0 ≤ th) (h1 : th ≤ Real.pi) (norm : String) (inverse csphase : Bool)
    (D : (ℕ → ℕ → ℝ) × (ℕ → ℕ → ℝ)) (hD : precomputeDlegpoly mmax lmax th norm inverse csphase = .ok D) (m l : ℕ)
    (hl : l < lmax) :
    D.1 m l = csSign csphase m * (tableScale norm inverse l * dTheta l m th) ∧
    D.2 m l = csSign csphase m * (tableScale norm inverse l * legendreOverSin l m th) := by
  unfold precomputeDlegpoly at hD
  split at hD
  · cases hD
  · cases hD
    exact dlegpolyVal_eq mmax lmax th h0 h1 norm inverse csphase m l hl

/-- C11. `_precompute_dlegpoly[0]` is the colatitude derivative of the Legendre function, with the same scale and phase as
`_precompute_legpoly`, at every colatitude including the poles. -/
theorem C11_theta_derivative (mmax lmax : ℕ) (th : ℝ) (h0 : 0 ≤ th) (h1 : th ≤ Real.pi) (norm : String)
    (inverse csphase : Bool) (D : (ℕ → ℕ → ℝ) × (ℕ → ℕ → ℝ))
    (hD : precomputeDlegpoly mmax lmax th norm inverse csphase = .ok D) (m l : ℕ) (_hm : m < mmax) (hl : l < lmax) :
    HasDerivAt (fun t => csSign csphase m * (tableScale norm inverse l * legendreTheta l m t)) (D.1 m l) th := by
  rw [(dleg_tables mmax lmax th h0 h1 norm inverse csphase D hD m l hl).1]
  exact ((hasDeriv_theta l m th).const_mul _).const_mul _

/-- C11. The same, phrased on the tables: away from the poles `_precompute_dlegpoly[0]` is the derivative of the map sending
a colatitude to the `_precompute_legpoly` entry. -/
theorem C11_derivative_of_table (mmax lmax : ℕ) (th : ℝ) (h0 : 0 < th) (h1 : th < Real.pi) (norm : String)
    (inverse csphase : Bool) (D : (ℕ → ℕ → ℝ) × (ℕ → ℕ → ℝ))
    (hD : precomputeDlegpoly mmax lmax th norm inverse csphase = .ok D) (T : ℝ → ℕ → ℕ → ℝ)
    (hT : ∀ t, precomputeLegpoly mmax lmax t norm inverse csphase = .ok (T t)) (m l : ℕ) (hm : m < mmax) (hl : l < lmax) :
    HasDerivAt (fun t => T t m l) (D.1 m l) th := by
  refine (C11_theta_derivative mmax lmax th h0.le h1.le norm inverse csphase D hD m l hm hl).congr_of_eventuallyEq ?_
  have : Set.Ioo 0 Real.pi ∈ nhds th := Ioo_mem_nhds h0 h1
  filter_upwards [this] with t ht
  rw [C09_legpoly_value mmax lmax (Real.cos t) ⟨Real.neg_one_le_cos t, Real.cos_le_one t⟩ norm inverse csphase _ (hT t) m l hm hl,
    theta_eq l m t ht.1.le ht.2.le]

/-- C11. `_precompute_dlegpoly[1]` times `sin(theta)` is `m` times the `_precompute_legpoly` entry; at the poles it is the
analytic continuation of the quotient. -/
theorem C11_m_over_sin (mmax lmax : ℕ) (th : ℝ) (h0 : 0 ≤ th) (h1 : th ≤ Real.pi) (norm : String)
    (inverse csphase : Bool) (D : (ℕ → ℕ → ℝ) × (ℕ → ℕ → ℝ))
    (hD : precomputeDlegpoly mmax lmax th norm inverse csphase = .ok D) (T : ℕ → ℕ → ℝ)
    (hT : precomputeLegpoly mmax lmax th norm inverse csphase = .ok T) (m l : ℕ) (hm : m < mmax) (hl : l < lmax) :
    Real.sin th * D.2 m l = m * T m l ∧
    D.2 m l = csSign csphase m * (tableScale norm inverse l * legendreOverSin l m th) := by
  have h2 := (dleg_tables mmax lmax th h0 h1 norm inverse csphase D hD m l hl).2
  refine ⟨?_, h2⟩
  rw [h2, C09_legpoly_value mmax lmax (Real.cos th) ⟨Real.neg_one_le_cos th, Real.cos_le_one th⟩ norm inverse csphase _ hT m l hm hl,
    theta_eq l m th h0 h1]
  unfold legendreOverSin legendreTheta
  by_cases h : m ≤ l
  · rw [if_pos h, if_pos h]
    cases m with
    | zero => simp
    | succ k => rw [Nat.add_sub_cancel, pow_succ]; ring
  · rw [if_neg h, if_neg h]; ring

/-- C11 (error branch). -/
theorem C11_error_iff (mmax lmax : ℕ) (th : ℝ) (norm : String) (inverse csphase : Bool) :
    precomputeDlegpoly mmax lmax th norm inverse csphase = .error .indexError ↔ mmax = 0 := by
  unfold precomputeDlegpoly
  by_cases h : mmax = 0 <;> simp [h]

/-- Non-vacuity: `mmax = 3`, `lmax = 4` derivative tables exist; entry `(m,l) = (0,1)` of the first is
`-sqrt(3/(4 pi)) sin(theta)`. -/
example (th : ℝ) (h0 : 0 ≤ th) (h1 : th ≤ Real.pi) : ∃ D, precomputeDlegpoly 3 4 th "ortho" false false = .ok D ∧
    D.1 0 1 = -(Real.sqrt (3 / (4 * Real.pi)) * Real.sin th) := by
  refine ⟨_, by rw [precomputeDlegpoly, if_neg (by norm_num)], ?_⟩
  rw [(dlegpolyVal_eq 3 4 th h0 h1 "ortho" false false 0 1 (by norm_num)).1]
  have : legendreDeriv 1 1 = 1 := by rw [← deriv_Q, P_one]; simp
  simp [csSign, tableScale, normScale, dTheta, legendreNorm, P_one, this]
  norm_num

end Verif.Props
