import Verif.Lemmas.VectorSHT
/-!
Property theorems C18 and C19: the vector spherical harmonic transforms.
-/
namespace Verif.Props
open Verif Verif.Dist Verif.FFT Verif.Quad Verif.Legendre Verif.Truncation Verif.Spec Verif.SHT Verif.Leg Finset Polynomial

/-- Inverting the vector Legendre sums by discrete orthogonality. -/
theorem vec_inversion {r : Rule} {n d L : ℕ} (hx : SymmetricExactRule r n d) (hd : 2 * (L - 1) ≤ d) (norm : String)
    (cs : Bool) (A B : ℕ → ℂ) (l m : ℕ) (hl : l < L) :
    ∑ k ∈ range n, ((2 * Real.pi * ∑ l' ∈ range L, (A l' * (dlegpolyVal L L norm true cs (colat r k)).1 m l'
        + Complex.I * B l' * (dlegpolyVal L L norm true cs (colat r k)).2 m l'))
        * (((dlegpolyVal L L norm false cs (colat r k)).1 m l * r.w k * normFactorV l : ℝ) : ℂ)
      + Complex.I * (2 * Real.pi * ∑ l' ∈ range L, (Complex.I * A l' * (dlegpolyVal L L norm true cs (colat r k)).2 m l'
        - B l' * (dlegpolyVal L L norm true cs (colat r k)).1 m l'))
        * ((-1 * ((dlegpolyVal L L norm false cs (colat r k)).2 m l * r.w k * normFactorV l) : ℝ) : ℂ))
      = if l = 0 ∨ l < m then 0 else A l := by
  have hcs : ((csSign cs m * csSign cs m : ℝ) : ℂ) = 1 := by rw [csSign_sq]; simp
  have e : ∀ k ∈ range n, ((2 * Real.pi * ∑ l' ∈ range L, (A l' * (dlegpolyVal L L norm true cs (colat r k)).1 m l'
        + Complex.I * B l' * (dlegpolyVal L L norm true cs (colat r k)).2 m l'))
        * (((dlegpolyVal L L norm false cs (colat r k)).1 m l * r.w k * normFactorV l : ℝ) : ℂ)
      + Complex.I * (2 * Real.pi * ∑ l' ∈ range L, (Complex.I * A l' * (dlegpolyVal L L norm true cs (colat r k)).2 m l'
        - B l' * (dlegpolyVal L L norm true cs (colat r k)).1 m l'))
        * ((-1 * ((dlegpolyVal L L norm false cs (colat r k)).2 m l * r.w k * normFactorV l) : ℝ) : ℂ))
      = ∑ l' ∈ range L, ((tableScale norm true l' * tableScale norm false l * normFactorV l : ℝ) : ℂ) *
        (A l' * ((2 * Real.pi * (r.w k * (dTheta l m (colat r k) * dTheta l' m (colat r k)
          + legendreOverSin l m (colat r k) * legendreOverSin l' m (colat r k))) : ℝ) : ℂ)
        + Complex.I * B l' * ((2 * Real.pi * (r.w k * (dTheta l m (colat r k) * legendreOverSin l' m (colat r k)
          + legendreOverSin l m (colat r k) * dTheta l' m (colat r k))) : ℝ) : ℂ)) := by
    intro k _
    rw [mul_sum, sum_mul, mul_sum, mul_sum, sum_mul, ← sum_add_distrib]
    refine sum_congr rfl fun l' hl' => ?_
    have h1 := dlegpolyVal_eq L L (colat r k) (Real.arccos_nonneg _) (Real.arccos_le_pi _) norm true cs m l' (mem_range.1 hl')
    have h2 := dlegpolyVal_eq L L (colat r k) (Real.arccos_nonneg _) (Real.arccos_le_pi _) norm false cs m l hl
    rw [h1.1, h1.2, h2.1, h2.2]
    have hI : Complex.I * Complex.I = -1 := Complex.I_mul_I
    push_cast at hcs ⊢
    linear_combination (2 * Real.pi * (tableScale norm true l' : ℂ) * (tableScale norm false l : ℂ) * (normFactorV l : ℂ) * (r.w k : ℂ)
      * (A l' * (dTheta l m (colat r k) * dTheta l' m (colat r k) + legendreOverSin l m (colat r k) * legendreOverSin l' m (colat r k))
      + Complex.I * B l' * (dTheta l m (colat r k) * legendreOverSin l' m (colat r k)
          + legendreOverSin l m (colat r k) * dTheta l' m (colat r k)))) * hcs
      - (2 * Real.pi * (tableScale norm true l' : ℂ) * (tableScale norm false l : ℂ) * (normFactorV l : ℂ) * (r.w k : ℂ)
        * (csSign cs m) * (csSign cs m) * A l' * (legendreOverSin l m (colat r k) * legendreOverSin l' m (colat r k))) * hI
  rw [sum_congr rfl e, sum_comm]
  have e2 : ∀ l' ∈ range L, ∑ k ∈ range n, ((tableScale norm true l' * tableScale norm false l * normFactorV l : ℝ) : ℂ) *
        (A l' * ((2 * Real.pi * (r.w k * (dTheta l m (colat r k) * dTheta l' m (colat r k)
          + legendreOverSin l m (colat r k) * legendreOverSin l' m (colat r k))) : ℝ) : ℂ)
        + Complex.I * B l' * ((2 * Real.pi * (r.w k * (dTheta l m (colat r k) * legendreOverSin l' m (colat r k)
          + legendreOverSin l m (colat r k) * dTheta l' m (colat r k))) : ℝ) : ℂ))
      = if l' = l then (if l = 0 ∨ l < m then 0 else A l) else 0 := by
    intro l' hl'
    have hl' := mem_range.1 hl'
    rw [← mul_sum, sum_add_distrib, ← mul_sum, ← mul_sum, ← Complex.ofReal_sum, ← Complex.ofReal_sum, ← mul_sum, ← mul_sum,
      disc_energy hx l l' m (by omega), disc_cross hx l l' m (by omega)]
    by_cases h : l' = l
    · subst h
      have ht := tableScale_mul norm l'
      rw [mul_comm] at ht
      rw [ht, if_pos rfl]
      by_cases h2 : m ≤ l'
      · rw [if_pos ⟨rfl, h2⟩]
        by_cases h3 : l' = 0
        · simp [h3]
        · rw [if_neg (by omega)]
          have hl0 : (l' : ℝ) ≠ 0 := by exact_mod_cast h3
          have hl1 : (l' : ℝ) + 1 ≠ 0 := by positivity
          have : normFactorV l' * ((l' : ℝ) * (l' + 1)) = 1 := by
            rw [normFactorV, if_neg h3]; field_simp
          have hc : ((normFactorV l' * ((l' : ℝ) * (l' + 1)) : ℝ) : ℂ) = 1 := by rw [this]; simp
          push_cast at hc ⊢
          linear_combination A l' * hc
      · rw [if_neg (by tauto), if_pos (Or.inr (by omega))]; simp
    · rw [if_neg h, if_neg (by tauto)]; simp
  rw [sum_congr rfl e2, sum_ite_eq', if_pos (mem_range.2 hl)]

/-- C18. Analysis after synthesis of vector coefficients (spheroidal, toroidal) returns their admissible part, provided the
Nyquist order is absent or carries nothing. -/
theorem C18_analysis_of_synthesis (env : Env) (be : C2R) (a : Args) (r : Rule) (d L : ℕ) (hn : 0 < a.nlon)
    (hr : gridRule env.gauss env.tol env.maxiter a.nlat a.grid = .ok r) (hx : SymmetricExactRule r a.nlat d)
    (hL : sizes a.nlat a.nlon a.lmax a.mmax a.grid = .ok (L, L)) (h0 : 0 < L) (hd : 2 * (L - 1) ≤ d)
    (hm : 2 * (L - 1) ≤ a.nlon) (c : Ten3 ℂ) (hc0 : c.d0 = 2) (hc1 : c.d1 = L) (hc2 : c.d2 = L)
    (hny : ∀ e < 2, ∀ l < L, ∀ m < L, 2 * m = a.nlon → c.val e l m = 0) :
    ∃ S I f c', RealVectorSHT.init env a = .ok S ∧ InverseRealVectorSHT.init env a = .ok I ∧ I.forward be c = .ok f ∧
      S.forward f = .ok c' ∧ c'.d0 = 2 ∧ c'.d1 = L ∧ c'.d2 = L ∧
      ∀ e < 2, ∀ l < L, ∀ m < L, c'.val e l m = vecAdmissible (c.val e) l m := by
  set S : RealVectorSHT := ⟨a.nlat, a.nlon, L, L,
      fun m l k => (dlegpolyVal L L a.norm false a.csphase (colat r k)).1 m l * r.w k * normFactorV l,
      fun m l k => -1 * ((dlegpolyVal L L a.norm false a.csphase (colat r k)).2 m l * r.w k * normFactorV l)⟩ with hS
  set I : InverseRealVectorSHT := ⟨a.nlat, a.nlon, L, L,
      fun m k l => (dlegpolyVal L L a.norm true a.csphase (colat r k)).1 m l,
      fun m k l => (dlegpolyVal L L a.norm true a.csphase (colat r k)).2 m l⟩ with hI
  obtain ⟨f, hf, hf0, hf1, hf2, hv⟩ := inverseRealVectorSHT_forward be I c hc0 hc1 hc2 h0 hn
  obtain ⟨c', z, hc', hc0', hc1', hc2', hz, hv'⟩ := realVectorSHT_forward S f hf0 hf1 hf2 hn
  refine ⟨S, I, f, c', realVectorSHT_init env a r L hr hL h0, inverseRealVectorSHT_init env a r L hr hL h0, hf, hc',
    hc0', hc1', hc2', ?_⟩
  have hnc : (a.nlon : ℂ) ≠ 0 := by exact_mod_cast hn.ne'
  -- the coefficients with the imaginary part of order 0 removed
  set cc : ℕ → ℕ → ℕ → ℂ := fun e l m => if m = 0 then ((c.val e l m).re : ℂ) else c.val e l m with hcc
  have hspec : ∀ e < 2, ∀ k < a.nlat, ∀ m < L, (if m = 0 ∨ 2 * m = a.nlon then ((vecSpec I c.val e k m).re : ℂ) else vecSpec I c.val e k m)
      = vecSpec I cc e k m := by
    intro e he k hk m hmL
    by_cases hm0 : m = 0
    · subst hm0
      have hd1 : ∀ l ∈ range L, (dlegpolyVal L L a.norm true a.csphase (colat r k)).2 0 l = 0 := by
        intro l hl
        rw [(dlegpolyVal_eq L L (colat r k) (Real.arccos_nonneg _) (Real.arccos_le_pi _) a.norm true a.csphase 0 l (mem_range.1 hl)).2]
        simp [legendreOverSin]
      rw [if_pos (Or.inl rfl)]
      unfold vecSpec
      obtain rfl | rfl : e = 0 ∨ e = 1 := by omega
      · simp only [if_true, hI, hcc]
        rw [Complex.re_sum]
        push_cast
        refine sum_congr rfl fun l hl => ?_
        rw [hd1 l hl]; simp
      · simp only [one_ne_zero, if_false, if_true, hI, hcc]
        rw [Complex.re_sum]
        push_cast
        refine sum_congr rfl fun l hl => ?_
        rw [hd1 l hl]; simp
    · have hceq : vecSpec I cc e k m = vecSpec I c.val e k m := by
        unfold vecSpec
        simp only [hcc, if_neg hm0]
      rw [hceq]
      by_cases h2 : 2 * m = a.nlon
      · have hz : vecSpec I c.val e k m = 0 := by
          unfold vecSpec
          have h0 : ∀ l ∈ range I.lmax, c.val 0 l m = 0 := fun l hl => hny 0 (by norm_num) l (mem_range.1 hl) m hmL h2
          have h1 : ∀ l ∈ range I.lmax, c.val 1 l m = 0 := fun l hl => hny 1 (by norm_num) l (mem_range.1 hl) m hmL h2
          split
          · exact sum_eq_zero fun l hl => by rw [h0 l hl, h1 l hl]; simp
          · exact sum_eq_zero fun l hl => by rw [h0 l hl, h1 l hl]; simp
        rw [hz]; simp
      · rw [if_neg (by tauto)]
  have hz' : ∀ e < 2, ∀ k < a.nlat, ∀ m < L, z e k m = 2 * Real.pi * vecSpec I cc e k m := by
    intro e he k hk m hmL
    rw [hz e he k m hmL]
    simp only [hS]
    rw [if_pos (by omega), dft_congr a.nlon _ _ (hv e he k), dft_synth a.nlon hn]
    · rw [if_pos hmL]
      simp only [hI]
      rw [← hI, hspec e he k hk m hmL]
      field_simp
    · rw [if_pos (show 0 < I.mmax from h0)]; simp
    · intro k' hk'
      split
      · simp [hk', hI]
      · rfl
    · omega
  intro e he l hl m hmL
  have hA : ∀ e, (if l = 0 ∨ l < m then 0 else cc e l m) = vecAdmissible (c.val e) l m := by
    intro e; unfold vecAdmissible; simp only [hcc]
  obtain rfl | rfl : e = 0 ∨ e = 1 := by omega
  · rw [(hv' l m hmL).1, ← hA 0, ← vec_inversion hx hd a.norm a.csphase (fun l => cc 0 l m) (fun l => cc 1 l m) l m hl]
    refine sum_congr rfl fun k hk => ?_
    have hk := mem_range.1 hk
    rw [hz' 0 (by norm_num) k hk m hmL, hz' 1 (by norm_num) k hk m hmL]
    simp only [vecSpec, hI, hS, if_true, one_ne_zero, if_false]
  · rw [(hv' l m hmL).2, ← hA 1, ← vec_inversion hx hd a.norm a.csphase (fun l => cc 1 l m) (fun l => -cc 0 l m) l m hl]
    refine sum_congr rfl fun k hk => ?_
    have hk := mem_range.1 hk
    rw [hz' 0 (by norm_num) k hk m hmL, hz' 1 (by norm_num) k hk m hmL]
    simp only [vecSpec, hI, hS, if_true, one_ne_zero, if_false]
    have e0 : ∑ l ∈ range L, (cc 1 l m * ((dlegpolyVal L L a.norm true a.csphase (colat r k)).1 m l : ℂ)
        + Complex.I * -cc 0 l m * ((dlegpolyVal L L a.norm true a.csphase (colat r k)).2 m l : ℂ))
        = -∑ l ∈ range L, (Complex.I * cc 0 l m * ((dlegpolyVal L L a.norm true a.csphase (colat r k)).2 m l : ℂ)
          - cc 1 l m * ((dlegpolyVal L L a.norm true a.csphase (colat r k)).1 m l : ℂ)) := by
      rw [← sum_neg_distrib]; exact sum_congr rfl fun l _ => by ring
    have e1 : ∑ l ∈ range L, (Complex.I * cc 1 l m * ((dlegpolyVal L L a.norm true a.csphase (colat r k)).2 m l : ℂ)
        - -cc 0 l m * ((dlegpolyVal L L a.norm true a.csphase (colat r k)).1 m l : ℂ))
        = ∑ l ∈ range L, (cc 0 l m * ((dlegpolyVal L L a.norm true a.csphase (colat r k)).1 m l : ℂ)
          + Complex.I * cc 1 l m * ((dlegpolyVal L L a.norm true a.csphase (colat r k)).2 m l : ℂ)) := by
      exact sum_congr rfl fun l _ => by ring
    rw [e0, e1]
    ring

/-- C18. Round trip for admissible vector coefficients without a Nyquist order. -/
theorem C18_roundtrip (env : Env) (be : C2R) (a : Args) (r : Rule) (d L : ℕ) (hn : 0 < a.nlon)
    (hr : gridRule env.gauss env.tol env.maxiter a.nlat a.grid = .ok r) (hx : SymmetricExactRule r a.nlat d)
    (hL : sizes a.nlat a.nlon a.lmax a.mmax a.grid = .ok (L, L)) (h0 : 0 < L) (hd : 2 * (L - 1) ≤ d)
    (hm : 2 * (L - 1) < a.nlon) (c : Ten3 ℂ) (hc0 : c.d0 = 2) (hc1 : c.d1 = L) (hc2 : c.d2 = L)
    (htri : ∀ e < 2, ∀ l < L, ∀ m < L, l < m → c.val e l m = 0) (hzero : ∀ e < 2, c.val e 0 0 = 0)
    (hdc : ∀ e < 2, ∀ l < L, (c.val e l 0).im = 0) :
    ∃ S I f c', RealVectorSHT.init env a = .ok S ∧ InverseRealVectorSHT.init env a = .ok I ∧ I.forward be c = .ok f ∧
      S.forward f = .ok c' ∧ c'.d0 = 2 ∧ c'.d1 = L ∧ c'.d2 = L ∧ ∀ e < 2, ∀ l < L, ∀ m < L, c'.val e l m = c.val e l m := by
  obtain ⟨S, I, f, c', h1, h2, h3, h4, h5, h6, h7, h8⟩ := C18_analysis_of_synthesis env be a r d L hn hr hx hL h0 hd
    (by omega) c hc0 hc1 hc2 (fun e _ l _ m hmL h => by omega)
  refine ⟨S, I, f, c', h1, h2, h3, h4, h5, h6, h7, fun e he l hl m hmL => ?_⟩
  rw [h8 e he l hl m hmL]
  unfold vecAdmissible
  split_ifs with ha hb
  · rcases ha with ha | ha
    · subst ha
      rcases Nat.eq_zero_or_pos m with hm0 | hm0
      · subst hm0; rw [hzero e he]
      · rw [htri e he 0 hl m hmL hm0]
    · rw [htri e he l hl m hmL ha]
  · subst hb
    apply Complex.ext <;> simp [hdc e he l hl]
  · rfl

/-- C18 for default-constructed vector transforms. -/
theorem C18_default (env : Env) (be : C2R) (a : Args) (hgrid : a.grid = "equiangular" ∨
    (a.grid = "legendre-gauss" ∧ IsGaussRule (env.gauss a.nlat) a.nlat)) (hlat : 2 ≤ a.nlat) (hlon : 1 ≤ a.nlon)
    (hl : a.lmax = none) (hm : a.mmax = none) :
    ∃ S I, RealVectorSHT.init env a = .ok S ∧ InverseRealVectorSHT.init env a = .ok I ∧ 0 < S.lmax ∧ S.mmax = S.lmax ∧
      I.lmax = S.lmax ∧ I.mmax = S.lmax ∧ ∀ c : Ten3 ℂ, c.d0 = 2 → c.d1 = S.lmax → c.d2 = S.mmax →
        (∀ e < 2, ∀ l < S.lmax, ∀ m < S.mmax, 2 * m = a.nlon → c.val e l m = 0) →
        ∃ f c', I.forward be c = .ok f ∧ S.forward f = .ok c' ∧ c'.d0 = 2 ∧ c'.d1 = S.lmax ∧ c'.d2 = S.mmax ∧
          ∀ e < 2, ∀ l < S.lmax, ∀ m < S.mmax, c'.val e l m = vecAdmissible (c.val e) l m := by
  obtain ⟨r, d, L, hr, hx, hL, h0, hd, hmm⟩ := default_grid env a hgrid hlat hlon hl hm
  refine ⟨_, _, realVectorSHT_init env a r L hr hL h0, inverseRealVectorSHT_init env a r L hr hL h0, h0, rfl, rfl, rfl, ?_⟩
  intro c hc0 hc1 hc2 hny
  obtain ⟨S', I', f, c', hS', hI', hf, hc', h1, h2, h3, h4⟩ :=
    C18_analysis_of_synthesis env be a r d L hlon hr hx hL h0 hd hmm c hc0 hc1 hc2 hny
  rw [realVectorSHT_init env a r L hr hL h0] at hS'; cases hS'
  rw [inverseRealVectorSHT_init env a r L hr hL h0] at hI'; cases hI'
  exact ⟨f, c', hf, hc', h1, h2, h3, h4⟩

theorem sin_mul_overSin (l m : ℕ) (th : ℝ) : Real.sin th * legendreOverSin l m th = m * legendreTheta l m th := by
  unfold legendreOverSin legendreTheta
  by_cases h : m ≤ l
  · rw [if_pos h, if_pos h]
    cases m with
    | zero => simp
    | succ u => simp only [Nat.add_sub_cancel]; rw [pow_succ]; ring
  · rw [if_neg h, if_neg h]; simp

/-- Colatitude derivative of a spherical harmonic series. -/
noncomputable def seriesDth (norm : String) (cs : Bool) (nlon L M : ℕ) (c : ℕ → ℕ → ℂ) (th ph : ℝ) : ℝ :=
  ∑ m ∈ range (min M (nlon / 2 + 1)), realMult nlon m * ∑ l ∈ range L, (csSign cs m * (tableScale norm true l * dTheta l m th)) *
    ((c l m).re * Real.cos (m * ph) - (c l m).im * Real.sin (m * ph))

/-- Longitude derivative of a spherical harmonic series. -/
noncomputable def seriesDph (norm : String) (cs : Bool) (nlon L M : ℕ) (c : ℕ → ℕ → ℂ) (th ph : ℝ) : ℝ :=
  ∑ m ∈ range (min M (nlon / 2 + 1)), realMult nlon m * ∑ l ∈ range L, synthFactor norm cs l m th *
    ((c l m).re * (-Real.sin (m * ph) * m) - (c l m).im * (Real.cos (m * ph) * m))

theorem hasDeriv_series_th (norm : String) (cs : Bool) (nlon L M : ℕ) (c : ℕ → ℕ → ℂ) (th ph : ℝ) :
    HasDerivAt (fun t => harmonicSeries norm cs nlon L M c t ph) (seriesDth norm cs nlon L M c th ph) th := by
  unfold harmonicSeries seriesDth synthFactor
  refine HasDerivAt.fun_sum fun m _ => HasDerivAt.const_mul _ (HasDerivAt.fun_sum fun l _ => ?_)
  exact (((hasDeriv_theta l m th).const_mul _).const_mul _).mul_const _

theorem hasDeriv_series_ph (norm : String) (cs : Bool) (nlon L M : ℕ) (c : ℕ → ℕ → ℂ) (th ph : ℝ) :
    HasDerivAt (fun p => harmonicSeries norm cs nlon L M c th p) (seriesDph norm cs nlon L M c th ph) ph := by
  unfold harmonicSeries seriesDph
  refine HasDerivAt.fun_sum fun m _ => HasDerivAt.const_mul _ (HasDerivAt.fun_sum fun l _ => HasDerivAt.const_mul _ ?_)
  have h : HasDerivAt (fun p : ℝ => (m : ℝ) * p) (m : ℝ) ph := by simpa using (hasDerivAt_id ph).const_mul (m : ℝ)
  exact ((h.cos).const_mul _).sub ((h.sin).const_mul _)

/-- C19. The vector synthesis of `(s, t)` is the gradient of the scalar series of `s` plus the rotated gradient of the scalar
series of `t`, at every grid point: with `F_s`, `F_t` the scalar spherical harmonic series that `InverseRealSHT` evaluates,
`u_theta = d F_s/d theta + (1/sin theta) d F_t/d phi` and `u_phi = (1/sin theta) d F_s/d phi - d F_t/d theta` (multiplied by
`sin theta`, so that the poles are included). -/
theorem C19_vector_synthesis (env : Env) (be : C2R) (a : Args) (r : Rule) (d L : ℕ) (hn : 0 < a.nlon)
    (hr : gridRule env.gauss env.tol env.maxiter a.nlat a.grid = .ok r) (hx : SymmetricExactRule r a.nlat d)
    (hL : sizes a.nlat a.nlon a.lmax a.mmax a.grid = .ok (L, L)) (h0 : 0 < L)
    (c : Ten3 ℂ) (hc0 : c.d0 = 2) (hc1 : c.d1 = L) (hc2 : c.d2 = L) :
    ∃ I u, InverseRealVectorSHT.init env a = .ok I ∧ I.forward be c = .ok u ∧ u.d0 = 2 ∧ u.d1 = a.nlat ∧ u.d2 = a.nlon ∧
      ∀ k < a.nlat, ∀ j < a.nlon, ∃ sth sph tth tph : ℝ,
        HasDerivAt (fun th => harmonicSeries a.norm a.csphase a.nlon L L (c.val 0) th (2 * Real.pi * j / a.nlon)) sth
          (Real.arccos (r.x (a.nlat - 1 - k))) ∧
        HasDerivAt (fun ph => harmonicSeries a.norm a.csphase a.nlon L L (c.val 0) (Real.arccos (r.x (a.nlat - 1 - k))) ph) sph
          (2 * Real.pi * j / a.nlon) ∧
        HasDerivAt (fun th => harmonicSeries a.norm a.csphase a.nlon L L (c.val 1) th (2 * Real.pi * j / a.nlon)) tth
          (Real.arccos (r.x (a.nlat - 1 - k))) ∧
        HasDerivAt (fun ph => harmonicSeries a.norm a.csphase a.nlon L L (c.val 1) (Real.arccos (r.x (a.nlat - 1 - k))) ph) tph
          (2 * Real.pi * j / a.nlon) ∧
        Real.sin (Real.arccos (r.x (a.nlat - 1 - k))) * u.val 0 k j = Real.sin (Real.arccos (r.x (a.nlat - 1 - k))) * sth + tph ∧
        Real.sin (Real.arccos (r.x (a.nlat - 1 - k))) * u.val 1 k j = sph - Real.sin (Real.arccos (r.x (a.nlat - 1 - k))) * tth ∧
        ((∀ l < L, ∀ m < L, c.val 1 l m = 0) → u.val 0 k j = sth) ∧
        ((∀ l < L, ∀ m < L, c.val 0 l m = 0) → u.val 1 k j = -tth) := by
  set I : InverseRealVectorSHT := ⟨a.nlat, a.nlon, L, L,
      fun m k l => (dlegpolyVal L L a.norm true a.csphase (colat r k)).1 m l,
      fun m k l => (dlegpolyVal L L a.norm true a.csphase (colat r k)).2 m l⟩ with hI
  obtain ⟨u, hu, hu0, hu1, hu2, hv⟩ := inverseRealVectorSHT_forward be I c hc0 hc1 hc2 h0 hn
  refine ⟨I, u, inverseRealVectorSHT_init env a r L hr hL h0, hu, hu0, hu1, hu2, ?_⟩
  intro k hk j hj
  have hcol : Real.arccos (r.x (a.nlat - 1 - k)) = colat r k := by unfold colat; rw [hx.size]
  rw [hcol]
  set th := colat r k with hth
  set ph : ℝ := 2 * Real.pi * j / a.nlon with hph
  have hD := fun l (hl : l < L) m => dlegpolyVal_eq L L (colat r k) (Real.arccos_nonneg _) (Real.arccos_le_pi _) a.norm true a.csphase m l hl
  have hv0 := hv 0 (by norm_num) k j hj
  have hv1 := hv 1 (by norm_num) k j hj
  rw [synth_cond I.nlon I.mmax hn (fun m => vecSpec I c.val 0 k m)] at hv0
  rw [synth_cond I.nlon I.mmax hn (fun m => vecSpec I c.val 1 k m)] at hv1
  simp only [hI, vecSpec, if_true, one_ne_zero, if_false, Complex.re_sum, Complex.im_sum] at hv0 hv1
  -- the two components as sums
  have u0 : u.val 0 k j = seriesDth a.norm a.csphase a.nlon L L (c.val 0) th ph
      + ∑ m ∈ range (min L (a.nlon / 2 + 1)), realMult a.nlon m * ∑ l ∈ range L, (csSign a.csphase m * (tableScale a.norm true l * legendreOverSin l m th)) *
        ((c.val 1 l m).re * (-Real.sin (m * ph)) - (c.val 1 l m).im * Real.cos (m * ph)) := by
    rw [hv0]
    unfold seriesDth
    rw [← sum_add_distrib]
    refine sum_congr rfl fun m _ => ?_
    rw [← mul_add, ← sum_add_distrib, sum_mul, sum_mul, ← sum_sub_distrib]
    congr 1
    refine sum_congr rfl fun l hl => ?_
    rw [(hD l (mem_range.1 hl) m).1, (hD l (mem_range.1 hl) m).2]
    generalize c.val 0 l m = p
    generalize c.val 1 l m = q
    simp; ring
  have u1 : u.val 1 k j = (∑ m ∈ range (min L (a.nlon / 2 + 1)), realMult a.nlon m * ∑ l ∈ range L, (csSign a.csphase m * (tableScale a.norm true l * legendreOverSin l m th)) *
        ((c.val 0 l m).re * (-Real.sin (m * ph)) - (c.val 0 l m).im * Real.cos (m * ph)))
      - seriesDth a.norm a.csphase a.nlon L L (c.val 1) th ph := by
    rw [hv1]
    unfold seriesDth
    rw [← sum_sub_distrib]
    refine sum_congr rfl fun m _ => ?_
    rw [← mul_sub, ← sum_sub_distrib, sum_mul, sum_mul, ← sum_sub_distrib]
    congr 1
    refine sum_congr rfl fun l hl => ?_
    rw [(hD l (mem_range.1 hl) m).1, (hD l (mem_range.1 hl) m).2]
    generalize c.val 0 l m = p
    generalize c.val 1 l m = q
    simp; ring
  have hsin : ∀ e, Real.sin th * ∑ m ∈ range (min L (a.nlon / 2 + 1)), realMult a.nlon m * ∑ l ∈ range L, (csSign a.csphase m * (tableScale a.norm true l * legendreOverSin l m th)) *
        ((c.val e l m).re * (-Real.sin (m * ph)) - (c.val e l m).im * Real.cos (m * ph))
      = seriesDph a.norm a.csphase a.nlon L L (c.val e) th ph := by
    intro e
    unfold seriesDph synthFactor
    rw [mul_sum]
    refine sum_congr rfl fun m _ => ?_
    rw [mul_sum, mul_sum, mul_sum]
    refine sum_congr rfl fun l _ => ?_
    have := sin_mul_overSin l m th
    linear_combination (realMult a.nlon m * (csSign a.csphase m * tableScale a.norm true l) *
      ((c.val e l m).re * (-Real.sin (m * ph)) - (c.val e l m).im * Real.cos (m * ph))) * this
  refine ⟨_, _, _, _, hasDeriv_series_th a.norm a.csphase a.nlon L L (c.val 0) th ph,
    hasDeriv_series_ph a.norm a.csphase a.nlon L L (c.val 0) th ph, hasDeriv_series_th a.norm a.csphase a.nlon L L (c.val 1) th ph,
    hasDeriv_series_ph a.norm a.csphase a.nlon L L (c.val 1) th ph, ?_, ?_, ?_, ?_⟩
  · rw [u0, mul_add, hsin 1]
  · rw [u1, mul_sub, hsin 0]
  · intro hz
    rw [u0]
    have : ∀ m ∈ range (min L (a.nlon / 2 + 1)), realMult a.nlon m * ∑ l ∈ range L, (csSign a.csphase m * (tableScale a.norm true l * legendreOverSin l m th)) *
        ((c.val 1 l m).re * (-Real.sin (m * ph)) - (c.val 1 l m).im * Real.cos (m * ph)) = 0 := by
      intro m hm
      have hm := mem_range.1 hm
      rw [sum_eq_zero, mul_zero]
      intro l hl
      rw [hz l (mem_range.1 hl) m (by omega)]; simp
    rw [sum_eq_zero this, add_zero]
  · intro hz
    rw [u1]
    have : ∀ m ∈ range (min L (a.nlon / 2 + 1)), realMult a.nlon m * ∑ l ∈ range L, (csSign a.csphase m * (tableScale a.norm true l * legendreOverSin l m th)) *
        ((c.val 0 l m).re * (-Real.sin (m * ph)) - (c.val 0 l m).im * Real.cos (m * ph)) = 0 := by
      intro m hm
      have hm := mem_range.1 hm
      rw [sum_eq_zero, mul_zero]
      intro l hl
      rw [hz l (mem_range.1 hl) m (by omega)]; simp
    rw [sum_eq_zero this, zero_sub]

/-- C18: the restriction on the Nyquist order is needed. On a default 3 x 2 equiangular grid the order `m = 1 = nlon/2` is
kept by the truncation, but the spheroidal coefficient 1 at `(l, m) = (1, 1)` comes back as 1/4. -/
theorem C18_nyquist_not_recovered (env : Env) (be : C2R) :
    ∃ S I f c', RealVectorSHT.init env ⟨3, 2, none, none, "equiangular", "ortho", true⟩ = .ok S ∧
      InverseRealVectorSHT.init env ⟨3, 2, none, none, "equiangular", "ortho", true⟩ = .ok I ∧
      I.forward be ⟨2, 2, 2, fun e l m => if e = 0 ∧ l = 1 ∧ m = 1 then 1 else 0⟩ = .ok f ∧ S.forward f = .ok c' ∧
      c'.val 0 1 1 = 1 / 4 := by
  set a : Args := ⟨3, 2, none, none, "equiangular", "ortho", true⟩ with ha
  have hrr : clenshawCurtissWeights 3 (-1) 1
      = .ok (rescale ⟨3, fun i => Real.cos (linspace Real.pi 0 3 i), ccW 3⟩ (-1) 1) := by
    rw [clenshawCurtissWeights, if_neg (by omega)]
  set r : Rule := rescale ⟨3, fun i => Real.cos (linspace Real.pi 0 3 i), ccW 3⟩ (-1) 1 with hrdef
  have hx : SymmetricExactRule r 3 2 := equiangular_symmetricExact 3 (by norm_num) r hrr
  have hr : gridRule env.gauss env.tol env.maxiter a.nlat a.grid = .ok r := by
    simp only [ha, gridRule]; simp [hrr]
  have hL : sizes a.nlat a.nlon a.lmax a.mmax a.grid = .ok (2, 2) := by simp only [ha]; decide
  set S : RealVectorSHT := ⟨a.nlat, a.nlon, 2, 2,
      fun m l k => (dlegpolyVal 2 2 a.norm false a.csphase (colat r k)).1 m l * r.w k * normFactorV l,
      fun m l k => -1 * ((dlegpolyVal 2 2 a.norm false a.csphase (colat r k)).2 m l * r.w k * normFactorV l)⟩ with hS
  set I : InverseRealVectorSHT := ⟨a.nlat, a.nlon, 2, 2,
      fun m k l => (dlegpolyVal 2 2 a.norm true a.csphase (colat r k)).1 m l,
      fun m k l => (dlegpolyVal 2 2 a.norm true a.csphase (colat r k)).2 m l⟩ with hI
  set c : Ten3 ℂ := ⟨2, 2, 2, fun e l m => if e = 0 ∧ l = 1 ∧ m = 1 then 1 else 0⟩ with hc
  obtain ⟨f, hf, hf0, hf1, hf2, hv⟩ := inverseRealVectorSHT_forward be I c rfl rfl rfl (by norm_num [hI]) (by norm_num [hI, ha])
  obtain ⟨c', z, hc', _, _, _, hz, hv'⟩ := realVectorSHT_forward S f hf0 hf1 hf2 (by norm_num [hS, ha])
  refine ⟨S, I, f, c', realVectorSHT_init env a r 2 hr hL (by norm_num), inverseRealVectorSHT_init env a r 2 hr hL (by norm_num), hf, hc', ?_⟩
  have hz' : ∀ e < 2, ∀ k, z e k 1 = 2 * Real.pi * ((vecSpec I c.val e k 1).re : ℂ) := by
    intro e he k
    rw [hz e he k 1 (by norm_num [hS])]
    simp only [hS, ha]
    rw [if_pos (by norm_num), dft_congr 2 _ _ (hv e he k), dft_synth I.nlon (by norm_num [hI, ha])]
    · simp [hI, ha]
    · simp [hI]
    · intro k' hk'
      split
      · simp [hk']
      · rfl
    · norm_num [hI, ha]
  have hD := fun norm b k l (hl : l < 2) m => dlegpolyVal_eq 2 2 (colat r k) (Real.arccos_nonneg _) (Real.arccos_le_pi _) norm b true m l hl
  have z0 : ∀ k, z 0 k 1 = 2 * Real.pi * (((-1) * dTheta 1 1 (colat r k) : ℝ) : ℂ) := by
    intro k
    rw [hz' 0 (by norm_num) k]
    simp only [vecSpec, hI, hc, ha, if_true]
    rw [sum_range_succ, sum_range_one, (hD "ortho" true k 1 (by norm_num) 1).1]
    simp [csSign, tableScale, normScale]
  have z1 : ∀ k, z 1 k 1 = 0 := by
    intro k
    rw [hz' 1 (by norm_num) k]
    simp only [vecSpec, hI, hc, ha, one_ne_zero, if_false]
    rw [sum_range_succ, sum_range_one]
    simp
  have hQ : legendreDeriv 1 1 = 1 := by rw [← deriv_Q, P_one]; simp
  have hQ2 : legendreDeriv 1 2 = 0 := Q_zero 1 2 (by norm_num)
  have hdth : ∀ th, dTheta 1 1 th = legendreNorm 1 1 * Real.cos th := by
    intro th
    simp [dTheta, hQ, hQ2]
  have hnn : legendreNorm 1 1 ^ 2 = 3 / (8 * Real.pi) := by
    rw [norm_eq, Real.sq_sqrt (by have := Real.pi_pos; positivity)]
    norm_num [Nat.factorial]
    field_simp; norm_num
  have hsum : ∑ k ∈ range 3, r.w k * (dTheta 1 1 (colat r k)) ^ 2 = 1 / (4 * Real.pi) := by
    rw [disc_theta hx (fun th => dTheta 1 1 th ^ 2) (C (3 / (8 * Real.pi)) * X ^ 2)]
    · rw [pint_C_mul]
      have : pint (X ^ 2) = 2 / 3 := by unfold pint; simp; norm_num
      rw [this]
      have := Real.pi_ne_zero
      field_simp; norm_num
    · exact (natDegree_C_mul_le _ _).trans (by simp)
    · intro th
      simp only [eval_mul, eval_C, eval_pow, eval_X]
      rw [hdth, mul_pow, hnn]
  rw [(hv' 1 1 (by norm_num [hS])).1]
  have : ∀ k ∈ range S.nlat, z 0 k 1 * (S.w0 1 1 k : ℂ) + Complex.I * z 1 k 1 * (S.w1 1 1 k : ℂ)
      = ((Real.pi * (r.w k * dTheta 1 1 (colat r k) ^ 2) : ℝ) : ℂ) := by
    intro k _
    rw [z0, z1]
    simp only [hS, ha]
    rw [(hD "ortho" false k 1 (by norm_num) 1).1]
    simp [csSign, tableScale, normScale, normFactorV]
    ring
  rw [sum_congr rfl this, ← Complex.ofReal_sum, ← mul_sum]
  have h3 : range S.nlat = range 3 := rfl
  rw [h3, hsum]
  have := Real.pi_ne_zero
  have h4 : Real.pi * (1 / (4 * Real.pi)) = 1 / 4 := by field_simp
  rw [h4]; push_cast; rfl

/-- C18/C19 (error branches). Tensors of the wrong shape are rejected. -/
theorem C18_shape_errors (be : C2R) (S : RealVectorSHT) (I : InverseRealVectorSHT) (f : Ten3 ℝ) (c : Ten3 ℂ) :
    (f.d0 ≠ 2 ∨ f.d1 ≠ S.nlat ∨ f.d2 ≠ S.nlon → S.forward f = .error .runtimeError) ∧
    (c.d0 ≠ 2 ∨ c.d1 ≠ I.lmax ∨ c.d2 ≠ I.mmax → I.forward be c = .error .runtimeError) := by
  constructor
  · intro h
    unfold RealVectorSHT.forward
    by_cases h0 : f.d0 = 2
    · by_cases h1 : f.d1 = S.nlat
      · have : f.d2 ≠ S.nlon := by tauto
        rw [if_neg (by simp [h0]), if_neg (by simp [h1]), if_pos this]
      · rw [if_neg (by simp [h0]), if_pos h1]
    · rw [if_pos h0]
  · intro h
    unfold InverseRealVectorSHT.forward
    by_cases h0 : c.d0 = 2
    · by_cases h1 : c.d1 = I.lmax
      · have : c.d2 ≠ I.mmax := by tauto
        rw [if_neg (by simp [h0]), if_neg (by simp [h1]), if_pos this]
      · rw [if_neg (by simp [h0]), if_pos h1]
    · rw [if_pos h0]

end Verif.Props
