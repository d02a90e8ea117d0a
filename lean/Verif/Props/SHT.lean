import Verif.Lemmas.SHT
/-!
Property theorems C14-C17 (and C59): the scalar spherical harmonic transforms.

Hypotheses shared by the theorems. `hr`: the latitude rule exists (the constructor does not raise `ValueError`); `hx`: it is
mirror-symmetric, with nodes in `[-1,1]`, exact to degree `d`; `hL`: the truncation resolves to `L` degrees and orders;
`hd`: the rule is exact to degree `2(L-1)`; `hm`: `nlon` longitudes carry the orders below `L`. The last sections discharge
all of them for the default truncation of each grid.
-/
namespace Verif.Props
open Verif Verif.Dist Verif.FFT Verif.Quad Verif.Legendre Verif.Truncation Verif.Spec Verif.SHT Finset

/-- C59. The synthesis `InverseRealSHT` evaluates the spherical harmonic series of its coefficients at the grid points, for
every coefficient array, every grid and every backend. -/
theorem C59_synthesis_value (env : Env) (be : C2R) (a : Args) (r : Rule) (d L : ℕ) (hn : 0 < a.nlon)
    (hr : gridRule env.gauss env.tol env.maxiter a.nlat a.grid = .ok r) (hx : SymmetricExactRule r a.nlat d)
    (hL : sizes a.nlat a.nlon a.lmax a.mmax a.grid = .ok (L, L)) (h0 : 0 < L) (c : Mat ℂ) (hc0 : c.d0 = L) (hc1 : c.d1 = L) :
    ∃ I f, InverseRealSHT.init env a = .ok I ∧ I.forward be c = .ok f ∧ f.d0 = a.nlat ∧ f.d1 = a.nlon ∧
      ∀ k < a.nlat, ∀ j < a.nlon, f.val k j
        = harmonicSeries a.norm a.csphase a.nlon L L c.val (Real.arccos (r.x (a.nlat - 1 - k))) (2 * Real.pi * j / a.nlon) := by
  obtain ⟨f, hf, hf0, hf1, hv⟩ := inverseRealSHT_forward be ⟨a.nlat, a.nlon, L, L,
      fun m k l => legpolyVal L L a.norm true a.csphase (Real.cos (colat r k)) m l⟩ c hc0 hc1 h0 hn
  refine ⟨_, f, inverseRealSHT_init env a r L hr hL h0, hf, hf0, hf1, ?_⟩
  intro k hk j hj
  rw [hv k j hj]
  unfold synth harmonicSeries
  dsimp only
  have hsub : range (min L (a.nlon / 2 + 1)) ⊆ range (a.nlon / 2 + 1) := range_subset_range.2 (min_le_right _ _)
  rw [← sum_subset hsub]
  · refine sum_congr rfl fun m hm => ?_
    have hm := mem_range.1 hm
    have hmL : m < L := by omega
    have hn' : (a.nlon : ℝ) ≠ 0 := by exact_mod_cast hn.ne'
    rw [if_pos hmL]
    unfold realMult
    congr 1
    rw [Complex.re_sum, Complex.im_sum, sum_mul, sum_mul, ← sum_sub_distrib]
    refine sum_congr rfl fun l hl => ?_
    have hang : 2 * Real.pi * (j : ℝ) * (m : ℝ) / a.nlon = m * (2 * Real.pi * j / a.nlon) := by ring
    have hcol : Real.arccos (r.x (a.nlat - 1 - k)) = colat r k := by unfold colat; rw [hx.size]
    rw [legpolyVal_eq L L _ a.norm true a.csphase m l (mem_range.1 hl), hang, hcol]
    unfold synthFactor
    rw [theta_eq l m (colat r k) (Real.arccos_nonneg _) (Real.arccos_le_pi _)]
    by_cases h : m = 0 ∨ 2 * m = a.nlon
    · have hs : Real.sin (m * (2 * Real.pi * j / a.nlon)) = 0 := by
        rcases h with h | h
        · simp [h]
        · have : (m : ℝ) * (2 * Real.pi * j / a.nlon) = j * Real.pi := by
            rw [← h] at hn' ⊢
            push_cast at hn' ⊢
            have : (m : ℝ) ≠ 0 := by intro h'; apply hn'; rw [h']; ring
            field_simp
          rw [this, Real.sin_nat_mul_pi]
      rw [if_pos h, hs]
      simp
      ring
    · rw [if_neg h]
      simp
      ring
  · intro m hm hm'
    have h1 : m < a.nlon / 2 + 1 := mem_range.1 hm
    have h2 : ¬ m < min L (a.nlon / 2 + 1) := fun h => hm' (mem_range.2 h)
    rw [if_neg (show ¬ m < L by omega)]
    simp

/-- C59. The analysis `RealSHT` is the discrete inner product with the (conjugate) spherical harmonics, for every field. -/
theorem C59_analysis_value (env : Env) (a : Args) (r : Rule) (d L : ℕ) (hn : 0 < a.nlon)
    (hr : gridRule env.gauss env.tol env.maxiter a.nlat a.grid = .ok r) (hx : SymmetricExactRule r a.nlat d)
    (hL : sizes a.nlat a.nlon a.lmax a.mmax a.grid = .ok (L, L)) (h0 : 0 < L) (hm : 2 * (L - 1) ≤ a.nlon)
    (f : Mat ℝ) (hf0 : f.d0 = a.nlat) (hf1 : f.d1 = a.nlon) :
    ∃ S c, RealSHT.init env a = .ok S ∧ S.forward f = .ok c ∧ c.d0 = L ∧ c.d1 = L ∧
      ∀ l < L, ∀ m < L, c.val l m = ∑ k ∈ range a.nlat, ∑ j ∈ range a.nlon, (2 * Real.pi / a.nlon * r.w k : ℝ) *
        (f.val k j : ℂ) * ((csSign a.csphase m * (tableScale a.norm false l * assocLegendre l m (r.x (a.nlat - 1 - k))) : ℝ) : ℂ)
        * Complex.exp (-(m * (2 * Real.pi * j / a.nlon)) * Complex.I) := by
  obtain ⟨c, hc, hc0, hc1, hv⟩ := realSHT_forward ⟨a.nlat, a.nlon, L, L,
      fun m l k => legpolyVal L L a.norm false a.csphase (Real.cos (colat r k)) m l * r.w k⟩ f hf0 hf1 hn
  refine ⟨_, c, realSHT_init env a r L hr hL h0, hc, hc0, hc1, ?_⟩
  intro l hl m hmL
  rw [hv l m hmL]
  refine sum_congr rfl fun k hk => ?_
  dsimp only
  rw [if_pos (by omega), legpolyVal_eq L L _ a.norm false a.csphase m l hl, cos_colat hx k (mem_range.1 hk)]
  unfold dft
  rw [mul_sum, mul_sum, sum_mul]
  refine sum_congr rfl fun j _ => ?_
  have : Complex.exp (-(m * (2 * Real.pi * j / a.nlon)) * Complex.I) = Complex.exp (-(2 * Real.pi * Complex.I * j * m / a.nlon)) := by
    congr 1; ring
  rw [this]
  push_cast
  ring

/-- The spectra of one latitude row of a synthesised field. -/
theorem dft_synthesis (nlon : ℕ) (hn : 0 < nlon) (L : ℕ) (c : ℕ → ℕ → ℂ) (P : ℕ → ℕ → ℝ) (f : ℕ → ℝ)
    (hf : ∀ j < nlon, f j = synth nlon (fun m => if m < L then ∑ l ∈ range L,
      (if m = 0 ∨ 2 * m = nlon then ((c l m).re : ℂ) else c l m) * (P m l : ℂ) else 0) j) (m : ℕ) (hm : m < L)
    (hm2 : m ≤ nlon / 2) :
    dft nlon f m = nlon * ∑ l ∈ range L, (if m = 0 ∨ 2 * m = nlon then ((c l m).re : ℂ) else c l m) * (P m l : ℂ) := by
  rw [dft_congr nlon f _ hf, dft_synth nlon hn _ ?_ ?_ m hm2, if_pos hm]
  · split
    · rw [Complex.im_sum]; apply sum_eq_zero; intro l _; simp
    · rfl
  · intro k hk
    split
    · rw [Complex.im_sum]; apply sum_eq_zero; intro l _; simp [hk]
    · rfl

/-- Inverting the Legendre sum by discrete orthogonality. -/
theorem legendre_inversion {r : Rule} {n d L : ℕ} (hx : SymmetricExactRule r n d) (hd : 2 * (L - 1) ≤ d) (norm : String)
    (cs : Bool) (c : ℕ → ℂ) (l m : ℕ) (hl : l < L) :
    ∑ k ∈ range n, (2 * Real.pi * ∑ l' ∈ range L, c l' * (legpolyVal L L norm true cs (Real.cos (colat r k)) m l' : ℂ))
      * ((legpolyVal L L norm false cs (Real.cos (colat r k)) m l * r.w k : ℝ) : ℂ) = if m ≤ l then c l else 0 := by
  have e : ∀ k ∈ range n, (2 * Real.pi * ∑ l' ∈ range L, c l' * (legpolyVal L L norm true cs (Real.cos (colat r k)) m l' : ℂ))
      * ((legpolyVal L L norm false cs (Real.cos (colat r k)) m l * r.w k : ℝ) : ℂ)
      = ∑ l' ∈ range L, c l' * ((tableScale norm true l' * tableScale norm false l * (2 * Real.pi *
        (r.w k * (assocLegendre l m (Real.cos (colat r k)) * assocLegendre l' m (Real.cos (colat r k))))) : ℝ) : ℂ) := by
    intro k _
    rw [mul_sum, sum_mul]
    refine sum_congr rfl fun l' hl' => ?_
    rw [legpolyVal_eq L L _ norm true cs m l' (mem_range.1 hl'), legpolyVal_eq L L _ norm false cs m l hl]
    have : ((csSign cs m * csSign cs m : ℝ) : ℂ) = 1 := by rw [csSign_sq]; simp
    push_cast at this ⊢
    linear_combination (2 * Real.pi * c l' * (tableScale norm true l' * assocLegendre l' m (Real.cos (colat r k)) *
      (tableScale norm false l * assocLegendre l m (Real.cos (colat r k))) * r.w k)) * this
  rw [sum_congr rfl e, sum_comm]
  have e2 : ∀ l' ∈ range L, ∑ k ∈ range n, c l' * ((tableScale norm true l' * tableScale norm false l * (2 * Real.pi *
        (r.w k * (assocLegendre l m (Real.cos (colat r k)) * assocLegendre l' m (Real.cos (colat r k))))) : ℝ) : ℂ)
      = if l' = l then (if m ≤ l then c l else 0) else 0 := by
    intro l' hl'
    have hl' := mem_range.1 hl'
    rw [← mul_sum, ← Complex.ofReal_sum, ← mul_sum, ← mul_sum, disc_orth hx l l' m (by omega)]
    by_cases h : l' = l
    · subst h
      have := tableScale_mul norm l'
      rw [mul_comm] at this
      rw [this]
      by_cases h2 : m ≤ l' <;> simp [h2]
    · rw [if_neg h, if_neg (by tauto)]; simp
  rw [sum_congr rfl e2, sum_ite_eq', if_pos (mem_range.2 hl)]

/-- C14. Analysis after synthesis returns the admissible part of the coefficients: everything on and below the diagonal, with
the imaginary parts of order 0 and of the Nyquist order removed. -/
theorem C14_analysis_of_synthesis (env : Env) (be : C2R) (a : Args) (r : Rule) (d L : ℕ) (hn : 0 < a.nlon)
    (hr : gridRule env.gauss env.tol env.maxiter a.nlat a.grid = .ok r) (hx : SymmetricExactRule r a.nlat d)
    (hL : sizes a.nlat a.nlon a.lmax a.mmax a.grid = .ok (L, L)) (h0 : 0 < L) (hd : 2 * (L - 1) ≤ d)
    (hm : 2 * (L - 1) ≤ a.nlon) (c : Mat ℂ) (hc0 : c.d0 = L) (hc1 : c.d1 = L) :
    ∃ S I f c', RealSHT.init env a = .ok S ∧ InverseRealSHT.init env a = .ok I ∧ I.forward be c = .ok f ∧
      S.forward f = .ok c' ∧ c'.d0 = L ∧ c'.d1 = L ∧ ∀ l < L, ∀ m < L, c'.val l m = admissible a.nlon c.val l m := by
  obtain ⟨f, hf, hf0, hf1, hv⟩ := inverseRealSHT_forward be ⟨a.nlat, a.nlon, L, L,
      fun m k l => legpolyVal L L a.norm true a.csphase (Real.cos (colat r k)) m l⟩ c hc0 hc1 h0 hn
  obtain ⟨c', hc', hc0', hc1', hv'⟩ := realSHT_forward ⟨a.nlat, a.nlon, L, L,
      fun m l k => legpolyVal L L a.norm false a.csphase (Real.cos (colat r k)) m l * r.w k⟩ f hf0 hf1 hn
  refine ⟨_, _, f, c', realSHT_init env a r L hr hL h0, inverseRealSHT_init env a r L hr hL h0, hf, hc', hc0', hc1', ?_⟩
  intro l hl m hmL
  rw [hv' l m hmL]
  dsimp only
  have hm2 : m ≤ a.nlon / 2 := by omega
  have hnc : (a.nlon : ℂ) ≠ 0 := by exact_mod_cast hn.ne'
  have e : ∀ k, (1 / a.nlon : ℂ) * dft a.nlon (f.val k) m = ∑ l ∈ range L,
      (if m = 0 ∨ 2 * m = a.nlon then ((c.val l m).re : ℂ) else c.val l m)
        * (legpolyVal L L a.norm true a.csphase (Real.cos (colat r k)) m l : ℂ) := by
    intro k
    rw [dft_synthesis a.nlon hn L c.val (fun m l => legpolyVal L L a.norm true a.csphase (Real.cos (colat r k)) m l)
      (f.val k) (hv k) m hmL hm2]
    field_simp
  simp only [if_pos hm2, e]
  rw [legendre_inversion hx hd a.norm a.csphase (fun l => if m = 0 ∨ 2 * m = a.nlon then ((c.val l m).re : ℂ) else c.val l m)
    l m hl]
  unfold admissible
  by_cases h : m ≤ l
  · rw [if_pos h, if_neg (show ¬ l < m by omega)]
  · rw [if_neg h, if_pos (show l < m by omega)]

/-- C14. `RealSHT (InverseRealSHT c) = c` for every admissible coefficient array. -/
theorem C14_roundtrip (env : Env) (be : C2R) (a : Args) (r : Rule) (d L : ℕ) (hn : 0 < a.nlon)
    (hr : gridRule env.gauss env.tol env.maxiter a.nlat a.grid = .ok r) (hx : SymmetricExactRule r a.nlat d)
    (hL : sizes a.nlat a.nlon a.lmax a.mmax a.grid = .ok (L, L)) (h0 : 0 < L) (hd : 2 * (L - 1) ≤ d)
    (hm : 2 * (L - 1) ≤ a.nlon) (c : Mat ℂ) (hc0 : c.d0 = L) (hc1 : c.d1 = L)
    (htri : ∀ l < L, ∀ m < L, l < m → c.val l m = 0) (hdc : ∀ l < L, (c.val l 0).im = 0)
    (hny : ∀ l < L, ∀ m < L, 2 * m = a.nlon → (c.val l m).im = 0) :
    ∃ S I f c', RealSHT.init env a = .ok S ∧ InverseRealSHT.init env a = .ok I ∧ I.forward be c = .ok f ∧
      S.forward f = .ok c' ∧ c'.d0 = L ∧ c'.d1 = L ∧ ∀ l < L, ∀ m < L, c'.val l m = c.val l m := by
  obtain ⟨S, I, f, c', h1, h2, h3, h4, h5, h6, h7⟩ := C14_analysis_of_synthesis env be a r d L hn hr hx hL h0 hd hm c hc0 hc1
  refine ⟨S, I, f, c', h1, h2, h3, h4, h5, h6, fun l hl m hmL => ?_⟩
  rw [h7 l hl m hmL]
  unfold admissible
  split_ifs with ha hb
  · rw [htri l hl m hmL ha]
  · have : (c.val l m).im = 0 := by
      rcases hb with rfl | hb
      · exact hdc l hl
      · exact hny l hl m hmL hb
    apply Complex.ext <;> simp [this]
  · rfl

/-- Every analysis result is admissible: zero above the diagonal, real at order 0 and at the Nyquist order. -/
theorem C15_analysis_admissible (env : Env) (a : Args) (r : Rule) (d L : ℕ) (hn : 0 < a.nlon)
    (hr : gridRule env.gauss env.tol env.maxiter a.nlat a.grid = .ok r) (_hx : SymmetricExactRule r a.nlat d)
    (hL : sizes a.nlat a.nlon a.lmax a.mmax a.grid = .ok (L, L)) (h0 : 0 < L)
    (f : Mat ℝ) (hf0 : f.d0 = a.nlat) (hf1 : f.d1 = a.nlon) :
    ∃ S c, RealSHT.init env a = .ok S ∧ S.forward f = .ok c ∧ c.d0 = L ∧ c.d1 = L ∧
      ∀ l < L, ∀ m < L, admissible a.nlon c.val l m = c.val l m := by
  obtain ⟨c, hc, hc0, hc1, hv⟩ := realSHT_forward ⟨a.nlat, a.nlon, L, L,
      fun m l k => legpolyVal L L a.norm false a.csphase (Real.cos (colat r k)) m l * r.w k⟩ f hf0 hf1 hn
  refine ⟨_, c, realSHT_init env a r L hr hL h0, hc, hc0, hc1, ?_⟩
  intro l hl m hmL
  unfold admissible
  dsimp only at hv
  split_ifs with h1 h2
  · rw [hv l m hmL]
    symm
    apply sum_eq_zero
    intro k _
    rw [legpolyVal_eq L L _ a.norm false a.csphase m l hl]
    simp [assocLegendre, h1]
  · have : (c.val l m).im = 0 := by
      rw [hv l m hmL, Complex.im_sum]
      apply sum_eq_zero
      intro k _
      split_ifs
      · have hz : (dft a.nlon (f.val k) m).im = 0 := by
          rcases h2 with rfl | h2
          · exact dft_zero_im _ _
          · exact dft_nyquist_im _ hn.ne' _ _ h2
        have : (1 / a.nlon : ℂ) = ((1 / a.nlon : ℝ) : ℂ) := by push_cast; rfl
        rw [this, Complex.mul_im]
        simp [hz]
      · simp
    apply Complex.ext <;> simp [this]
  · rfl

/-- Synthesis only sees the admissible part of its coefficients. -/
theorem C15_synthesis_admissible (env : Env) (be : C2R) (a : Args) (r : Rule) (d L : ℕ) (hn : 0 < a.nlon)
    (hr : gridRule env.gauss env.tol env.maxiter a.nlat a.grid = .ok r) (_hx : SymmetricExactRule r a.nlat d)
    (hL : sizes a.nlat a.nlon a.lmax a.mmax a.grid = .ok (L, L)) (h0 : 0 < L) (c c' : Mat ℂ) (hc0 : c.d0 = L) (hc1 : c.d1 = L)
    (hc0' : c'.d0 = L) (hc1' : c'.d1 = L)
    (h : ∀ l < L, ∀ m < L, admissible a.nlon c.val l m = admissible a.nlon c'.val l m) :
    ∃ I f f', InverseRealSHT.init env a = .ok I ∧ I.forward be c = .ok f ∧ I.forward be c' = .ok f' ∧
      f.d0 = a.nlat ∧ f.d1 = a.nlon ∧ f'.d0 = a.nlat ∧ f'.d1 = a.nlon ∧
      ∀ k < a.nlat, ∀ j < a.nlon, f.val k j = f'.val k j := by
  set I : InverseRealSHT := ⟨a.nlat, a.nlon, L, L,
      fun m k l => legpolyVal L L a.norm true a.csphase (Real.cos (colat r k)) m l⟩ with hI
  obtain ⟨f, hf, hf0, hf1, hv⟩ := inverseRealSHT_forward be I c hc0 hc1 h0 hn
  obtain ⟨f', hf', hf0', hf1', hv'⟩ := inverseRealSHT_forward be I c' hc0' hc1' h0 hn
  refine ⟨I, f, f', inverseRealSHT_init env a r L hr hL h0, hf, hf', hf0, hf1, hf0', hf1', ?_⟩
  intro k _ j hj
  rw [hv k j hj, hv' k j hj]
  congr 1
  funext m
  simp only [hI]
  by_cases hm : m < L
  · rw [if_pos hm, if_pos hm]
    refine sum_congr rfl fun l hl => ?_
    have hl := mem_range.1 hl
    by_cases hlm : l < m
    · have hz : ∀ x, assocLegendre l m x = 0 := fun x => by simp [assocLegendre, hlm]
      rw [legpolyVal_eq L L _ a.norm true a.csphase m l hl, hz]
      simp
    · have := h l hl m hm
      unfold admissible at this
      rw [if_neg hlm, if_neg hlm] at this
      rw [this]
  · rw [if_neg hm, if_neg hm]

/-- C15. `P = InverseRealSHT ∘ RealSHT` is a projection on every field: analysing the projected field gives the same
coefficients, so `P (P f) = P f`. -/
theorem C15_idempotent (env : Env) (be : C2R) (a : Args) (r : Rule) (d L : ℕ) (hn : 0 < a.nlon)
    (hr : gridRule env.gauss env.tol env.maxiter a.nlat a.grid = .ok r) (hx : SymmetricExactRule r a.nlat d)
    (hL : sizes a.nlat a.nlon a.lmax a.mmax a.grid = .ok (L, L)) (h0 : 0 < L) (hd : 2 * (L - 1) ≤ d)
    (hm : 2 * (L - 1) ≤ a.nlon) (f : Mat ℝ) (hf0 : f.d0 = a.nlat) (hf1 : f.d1 = a.nlon) :
    ∃ S I c g c' g', RealSHT.init env a = .ok S ∧ InverseRealSHT.init env a = .ok I ∧
      S.forward f = .ok c ∧ I.forward be c = .ok g ∧ S.forward g = .ok c' ∧ I.forward be c' = .ok g' ∧
      (∀ l < L, ∀ m < L, c'.val l m = c.val l m) ∧ ∀ k < a.nlat, ∀ j < a.nlon, g'.val k j = g.val k j := by
  obtain ⟨S, c, hS, hc, hc0, hc1, hadm⟩ := C15_analysis_admissible env a r d L hn hr hx hL h0 f hf0 hf1
  obtain ⟨S', I, g, c', hS', hI, hg, hc', hc0', hc1', hv⟩ :=
    C14_analysis_of_synthesis env be a r d L hn hr hx hL h0 hd hm c hc0 hc1
  rw [hS] at hS'; cases hS'
  have e : ∀ l < L, ∀ m < L, c'.val l m = c.val l m := fun l hl m hmL => by rw [hv l hl m hmL, hadm l hl m hmL]
  obtain ⟨I', g1, g', hI', hg1, hg', _, _, _, _, he⟩ := C15_synthesis_admissible env be a r d L hn hr hx hL h0 c c' hc0 hc1 hc0' hc1'
    (fun l hl m hmL => by unfold admissible; rw [e l hl m hmL])
  rw [hI] at hI'; cases hI'
  rw [hg] at hg1; cases hg1
  exact ⟨S, I, c, g, c', g', hS, hI, hc, hg, hc', hg', e, fun k hk j hj => (he k hk j hj).symm⟩

/-- C15. `P = InverseRealSHT ∘ RealSHT` fixes every synthesised field. -/
theorem C15_fixes_range (env : Env) (be : C2R) (a : Args) (r : Rule) (d L : ℕ) (hn : 0 < a.nlon)
    (hr : gridRule env.gauss env.tol env.maxiter a.nlat a.grid = .ok r) (hx : SymmetricExactRule r a.nlat d)
    (hL : sizes a.nlat a.nlon a.lmax a.mmax a.grid = .ok (L, L)) (h0 : 0 < L) (hd : 2 * (L - 1) ≤ d)
    (hm : 2 * (L - 1) ≤ a.nlon) (c : Mat ℂ) (hc0 : c.d0 = L) (hc1 : c.d1 = L) :
    ∃ S I f c' f', RealSHT.init env a = .ok S ∧ InverseRealSHT.init env a = .ok I ∧
      I.forward be c = .ok f ∧ S.forward f = .ok c' ∧ I.forward be c' = .ok f' ∧ f'.d0 = a.nlat ∧ f'.d1 = a.nlon ∧
      ∀ k < a.nlat, ∀ j < a.nlon, f'.val k j = f.val k j := by
  obtain ⟨S, I, f, c', hS, hI, hf, hc', hc0', hc1', hv⟩ :=
    C14_analysis_of_synthesis env be a r d L hn hr hx hL h0 hd hm c hc0 hc1
  obtain ⟨I', f1, f', hI', hf1, hf', _, _, h3, h4, he⟩ := C15_synthesis_admissible env be a r d L hn hr hx hL h0 c c' hc0 hc1 hc0' hc1'
    (fun l hl m hmL => by
      unfold admissible; rw [hv l hl m hmL]; unfold admissible
      split_ifs <;> simp)
  rw [hI] at hI'; cases hI'
  rw [hf] at hf1; cases hf1
  exact ⟨S, I, f, c', f', hS, hI, hf, hc', hf', h3, h4, fun k hk j hj => (he k hk j hj).symm⟩

theorem dft_lin (n : ℕ) (x y : ℕ → ℝ) (u v : ℝ) (k : ℕ) :
    dft n (fun j => u * x j + v * y j) k = u * dft n x k + v * dft n y k := by
  unfold dft
  rw [mul_sum, mul_sum, ← sum_add_distrib]
  refine sum_congr rfl fun j _ => ?_
  push_cast; ring

/-- C16. The analysis is linear. -/
theorem C16_analysis_linear (S : RealSHT) (hn : 0 < S.nlon) (f g h : Mat ℝ) (u v : ℝ)
    (hf : f.d0 = S.nlat ∧ f.d1 = S.nlon) (hg : g.d0 = S.nlat ∧ g.d1 = S.nlon) (hh : h.d0 = S.nlat ∧ h.d1 = S.nlon)
    (hval : ∀ k < S.nlat, ∀ j < S.nlon, h.val k j = u * f.val k j + v * g.val k j) :
    ∃ cf cg ch, S.forward f = .ok cf ∧ S.forward g = .ok cg ∧ S.forward h = .ok ch ∧
      ∀ l < S.lmax, ∀ m < S.mmax, ch.val l m = u * cf.val l m + v * cg.val l m := by
  obtain ⟨cf, h1, _, _, v1⟩ := realSHT_forward S f hf.1 hf.2 hn
  obtain ⟨cg, h2, _, _, v2⟩ := realSHT_forward S g hg.1 hg.2 hn
  obtain ⟨ch, h3, _, _, v3⟩ := realSHT_forward S h hh.1 hh.2 hn
  refine ⟨cf, cg, ch, h1, h2, h3, fun l _ m hm => ?_⟩
  rw [v1 l m hm, v2 l m hm, v3 l m hm, mul_sum, mul_sum, ← sum_add_distrib]
  refine sum_congr rfl fun k hk => ?_
  rw [dft_congr S.nlon _ _ (hval k (mem_range.1 hk)), dft_lin]
  split_ifs <;> ring

theorem synth_lin (n : ℕ) (X Y : ℕ → ℂ) (u v : ℝ) (j : ℕ) :
    synth n (fun m => (u : ℂ) * X m + (v : ℂ) * Y m) j = u * synth n X j + v * synth n Y j := by
  unfold synth
  rw [mul_sum, mul_sum, ← sum_add_distrib]
  refine sum_congr rfl fun k _ => ?_
  have e1 : ((u : ℂ) * X k + (v : ℂ) * Y k).re = u * (X k).re + v * (Y k).re := by simp
  have e2 : ((u : ℂ) * X k + (v : ℂ) * Y k).im = u * (X k).im + v * (Y k).im := by simp
  rw [e1, e2]; ring

/-- C16. The synthesis is linear (real scalars). -/
theorem C16_synthesis_linear (be : C2R) (I : InverseRealSHT) (hn : 0 < I.nlon) (hM : 0 < I.mmax) (c e h : Mat ℂ) (u v : ℝ)
    (hc : c.d0 = I.lmax ∧ c.d1 = I.mmax) (he : e.d0 = I.lmax ∧ e.d1 = I.mmax) (hh : h.d0 = I.lmax ∧ h.d1 = I.mmax)
    (hval : ∀ l < I.lmax, ∀ m < I.mmax, h.val l m = u * c.val l m + v * e.val l m) :
    ∃ fc fe fh, I.forward be c = .ok fc ∧ I.forward be e = .ok fe ∧ I.forward be h = .ok fh ∧
      ∀ k < I.nlat, ∀ j < I.nlon, fh.val k j = u * fc.val k j + v * fe.val k j := by
  obtain ⟨fc, h1, _, _, v1⟩ := inverseRealSHT_forward be I c hc.1 hc.2 hM hn
  obtain ⟨fe, h2, _, _, v2⟩ := inverseRealSHT_forward be I e he.1 he.2 hM hn
  obtain ⟨fh, h3, _, _, v3⟩ := inverseRealSHT_forward be I h hh.1 hh.2 hM hn
  refine ⟨fc, fe, fh, h1, h2, h3, fun k _ j hj => ?_⟩
  rw [v1 k j hj, v2 k j hj, v3 k j hj, ← synth_lin]
  congr 1
  funext m
  by_cases hm : m < I.mmax
  · rw [if_pos hm, if_pos hm, if_pos hm, mul_sum, mul_sum, ← sum_add_distrib]
    refine sum_congr rfl fun l hl => ?_
    rw [hval l (mem_range.1 hl) m hm]
    split_ifs
    · have : ((u : ℂ) * c.val l m + v * e.val l m).re = u * (c.val l m).re + v * (e.val l m).re := by simp
      rw [this]; push_cast; ring
    · ring
  · simp [hm]

theorem exp_period (n : ℕ) (hn : 0 < n) (k j : ℕ) :
    Complex.exp (2 * Real.pi * Complex.I * ((j % n : ℕ) : ℂ) * k / n) = Complex.exp (2 * Real.pi * Complex.I * j * k / n) := by
  have hnc : (n : ℂ) ≠ 0 := by exact_mod_cast hn.ne'
  have : (2 * Real.pi * Complex.I * j * k / n : ℂ)
      = 2 * Real.pi * Complex.I * ((j % n : ℕ) : ℂ) * k / n + ((j / n * k : ℕ) : ℤ) * (2 * Real.pi * Complex.I) := by
    have e : (j : ℂ) = ((j % n : ℕ) : ℂ) + n * ((j / n : ℕ) : ℂ) := by exact_mod_cast (Nat.mod_add_div j n).symm
    generalize j / n = q at e ⊢
    rw [e]
    push_cast; field_simp
  rw [this, Complex.exp_add, Complex.exp_int_mul_two_pi_mul_I, mul_one]

theorem sum_mod_shift {β : Type} [AddCommMonoid β] (n s : ℕ) (hn : 0 < n) (g : ℕ → β) :
    ∑ j ∈ range n, g ((j + s) % n) = ∑ j ∈ range n, g j := by
  refine sum_bij' (fun j _ => (j + s) % n) (fun j _ => (j + (n - s % n)) % n) ?_ ?_ ?_ ?_ ?_
  · intro j _; exact mem_range.2 (Nat.mod_lt _ hn)
  · intro j _; exact mem_range.2 (Nat.mod_lt _ hn)
  · intro j hj
    have hj := mem_range.1 hj
    have h1 := Nat.mod_lt s hn
    simp only [Nat.mod_add_mod]
    have : j + s + (n - s % n) = j + n * (s / n + 1) := by
      have := Nat.mod_add_div s n
      rw [mul_add]; omega
    rw [this, Nat.add_mul_mod_self_left, Nat.mod_eq_of_lt hj]
  · intro j hj
    have hj := mem_range.1 hj
    have h1 := Nat.mod_lt s hn
    simp only [Nat.mod_add_mod]
    have : j + (n - s % n) + s = j + n * (s / n + 1) := by
      have := Nat.mod_add_div s n
      rw [mul_add]; omega
    rw [this, Nat.add_mul_mod_self_left, Nat.mod_eq_of_lt hj]
  · intro j _; rfl

theorem dft_shift (n : ℕ) (hn : 0 < n) (x : ℕ → ℝ) (s k : ℕ) :
    dft n (fun j => x ((j + s) % n)) k = Complex.exp (2 * Real.pi * Complex.I * s * k / n) * dft n x k := by
  unfold dft
  rw [mul_sum]
  have h := sum_mod_shift n s hn (fun i => (x i : ℂ) * (Complex.exp (2 * Real.pi * Complex.I * s * k / n)
    * Complex.exp (-(2 * Real.pi * Complex.I * i * k / n))))
  have e2 : ∀ i ∈ range n, Complex.exp (2 * Real.pi * Complex.I * s * k / n) * ((x i : ℂ) * Complex.exp (-(2 * Real.pi * Complex.I * i * k / n)))
      = (x i : ℂ) * (Complex.exp (2 * Real.pi * Complex.I * s * k / n) * Complex.exp (-(2 * Real.pi * Complex.I * i * k / n))) := by
    intro i _; ring
  rw [sum_congr rfl e2, ← h]
  refine sum_congr rfl fun j _ => ?_
  congr 1
  rw [Complex.exp_neg (2 * Real.pi * Complex.I * (((j + s) % n : ℕ) : ℂ) * k / n), exp_period n hn k (j + s), ← Complex.exp_neg, ← Complex.exp_add]
  congr 1
  push_cast; ring

/-- C16. Rotating a field about the polar axis by `s` grid points multiplies the coefficients of order `m` by
`exp(2 pi i m s / nlon)`. -/
theorem C16_analysis_rotation (S : RealSHT) (hn : 0 < S.nlon) (f g : Mat ℝ) (s : ℕ)
    (hf : f.d0 = S.nlat ∧ f.d1 = S.nlon) (hg : g.d0 = S.nlat ∧ g.d1 = S.nlon)
    (hval : ∀ k < S.nlat, ∀ j < S.nlon, g.val k j = f.val k ((j + s) % S.nlon)) :
    ∃ cf cg, S.forward f = .ok cf ∧ S.forward g = .ok cg ∧
      ∀ l < S.lmax, ∀ m < S.mmax, cg.val l m = Complex.exp (2 * Real.pi * Complex.I * s * m / S.nlon) * cf.val l m := by
  obtain ⟨cf, h1, _, _, v1⟩ := realSHT_forward S f hf.1 hf.2 hn
  obtain ⟨cg, h2, _, _, v2⟩ := realSHT_forward S g hg.1 hg.2 hn
  refine ⟨cf, cg, h1, h2, fun l _ m hm => ?_⟩
  rw [v1 l m hm, v2 l m hm, mul_sum]
  refine sum_congr rfl fun k hk => ?_
  rw [dft_congr S.nlon _ _ (hval k (mem_range.1 hk)), dft_shift S.nlon hn]
  split_ifs <;> ring

theorem synth_shift (n : ℕ) (hn : 0 < n) (X : ℕ → ℂ) (s j : ℕ) :
    synth n (fun m => Complex.exp (2 * Real.pi * Complex.I * s * m / n) * X m) j = synth n X ((j + s) % n) := by
  rw [← c2rValue_eq_synth, ← c2rValue_eq_synth]
  unfold c2rValue
  refine sum_congr rfl fun k _ => ?_
  congr 2
  have e1 : root n ((((j + s) % n : ℕ) : ℤ) * k) = Complex.exp (2 * Real.pi * Complex.I * (((j + s) % n : ℕ) : ℂ) * k / n) := by
    generalize (j + s) % n = q
    unfold root; congr 1; push_cast; ring
  have e2 : root n ((j : ℤ) * k) = Complex.exp (2 * Real.pi * Complex.I * j * k / n) := by
    unfold root; congr 1; push_cast; ring
  rw [e1, exp_period n hn k (j + s), e2]
  have : Complex.exp (2 * Real.pi * Complex.I * ((j + s : ℕ) : ℂ) * k / n)
      = Complex.exp (2 * Real.pi * Complex.I * s * k / n) * Complex.exp (2 * Real.pi * Complex.I * j * k / n) := by
    rw [← Complex.exp_add]; congr 1; push_cast; ring
  rw [this]; ring

theorem phase_real (n : ℕ) (hn : 0 < n) (s m : ℕ) (h : m = 0 ∨ 2 * m = n) :
    (Complex.exp (2 * Real.pi * Complex.I * s * m / n)).im = 0 := by
  rcases h with rfl | h
  · simp
  · have := root_half (n := n) hn.ne' (by omega) s
    have e : n / 2 = m := by omega
    rw [e] at this
    rw [← this]
    unfold root; congr 2; push_cast; ring

/-- C16. Multiplying the coefficients of order `m` by `exp(2 pi i m s / nlon)` rotates the synthesised field by `s` grid
points; for every coefficient array, also with complex entries at order 0 and at the Nyquist order. -/
theorem C16_synthesis_rotation (be : C2R) (I : InverseRealSHT) (hn : 0 < I.nlon) (hM : 0 < I.mmax) (c e : Mat ℂ) (s : ℕ)
    (hc : c.d0 = I.lmax ∧ c.d1 = I.mmax) (he : e.d0 = I.lmax ∧ e.d1 = I.mmax)
    (hval : ∀ l < I.lmax, ∀ m < I.mmax, e.val l m = Complex.exp (2 * Real.pi * Complex.I * s * m / I.nlon) * c.val l m) :
    ∃ fc fe, I.forward be c = .ok fc ∧ I.forward be e = .ok fe ∧
      ∀ k < I.nlat, ∀ j < I.nlon, fe.val k j = fc.val k ((j + s) % I.nlon) := by
  obtain ⟨fc, h1, _, _, v1⟩ := inverseRealSHT_forward be I c hc.1 hc.2 hM hn
  obtain ⟨fe, h2, _, _, v2⟩ := inverseRealSHT_forward be I e he.1 he.2 hM hn
  refine ⟨fc, fe, h1, h2, fun k _ j hj => ?_⟩
  rw [v1 k _ (Nat.mod_lt _ hn), v2 k j hj, ← synth_shift I.nlon hn]
  congr 1
  funext m
  by_cases hm : m < I.mmax
  · rw [if_pos hm, if_pos hm, mul_sum]
    refine sum_congr rfl fun l hl => ?_
    rw [hval l (mem_range.1 hl) m hm]
    split_ifs with h
    · have hp := phase_real I.nlon hn s m h
      set p := Complex.exp (2 * Real.pi * Complex.I * s * m / I.nlon)
      have hp' : p = (p.re : ℂ) := by apply Complex.ext <;> simp [hp]
      rw [Complex.mul_re, hp]
      conv_rhs => rw [hp']
      push_cast; ring
    · ring
  · simp [hm]

/-- One-dimensional Parseval identity for the synthesis of a real signal. -/
theorem synth_parseval (n : ℕ) (hn : 0 < n) (X : ℕ → ℂ) (h0 : (X 0).im = 0) (h1 : ∀ k, 2 * k = n → (X k).im = 0) :
    ∑ j ∈ range n, synth n X j ^ 2 = n * ∑ k ∈ range (n / 2 + 1), realMult n k * ‖X k‖ ^ 2 := by
  have key : ∀ k ∈ range (n / 2 + 1), ∑ j ∈ range n, synth n X j * (X k * root n (j * k)).re = n * ‖X k‖ ^ 2 := by
    intro k hk
    have hk := mem_range.1 hk
    have h := dft_synth n hn X h0 h1 k (by omega)
    rw [← sum_root_eq_dft] at h
    have h2 : ∑ j ∈ range n, (synth n X j : ℂ) * root n (j * k) = n * (starRingEnd ℂ) (X k) := by
      have := congrArg (starRingEnd ℂ) h
      rw [map_sum] at this
      simp only [map_mul, Complex.conj_ofReal, conj_root, neg_neg] at this
      rw [this]; simp
    have h3 : (∑ j ∈ range n, synth n X j * (X k * root n (j * k)).re) = (X k * ∑ j ∈ range n, (synth n X j : ℂ) * root n (j * k)).re := by
      rw [mul_sum, Complex.re_sum]
      refine sum_congr rfl fun j _ => ?_
      have : X k * ((synth n X j : ℂ) * root n (j * k)) = (synth n X j : ℂ) * (X k * root n (j * k)) := by ring
      rw [this, Complex.re_ofReal_mul]
    rw [h3, h2]
    have : X k * (n * (starRingEnd ℂ) (X k)) = ((n * ‖X k‖ ^ 2 : ℝ) : ℂ) := by
      have := Complex.mul_conj' (X k)
      push_cast
      linear_combination (n : ℂ) * this
    rw [this, Complex.ofReal_re]
  have e : ∀ j ∈ range n, synth n X j ^ 2 = ∑ k ∈ range (n / 2 + 1), realMult n k * (synth n X j * (X k * root n (j * k)).re) := by
    intro j _
    rw [pow_two]
    conv_lhs => rw [← c2rValue_eq_synth]; arg 2; rw [c2rValue]
    rw [mul_sum]
    refine sum_congr rfl fun k _ => ?_
    rw [c2rValue_eq_synth]
    unfold mult realMult
    ring
  rw [sum_congr rfl e, sum_comm, mul_sum]
  refine sum_congr rfl fun k hk => ?_
  rw [← mul_sum, key k hk]; ring

/-- The `k`-sum of the squared Legendre sums. -/
theorem legendre_parseval {r : Rule} {n d L : ℕ} (hx : SymmetricExactRule r n d) (hd : 2 * (L - 1) ≤ d) (norm : String)
    (cs : Bool) (c : ℕ → ℂ) (m : ℕ) :
    2 * Real.pi * ∑ k ∈ range n, r.w k * ‖∑ l ∈ range L, c l * (legpolyVal L L norm true cs (Real.cos (colat r k)) m l : ℂ)‖ ^ 2
      = ∑ l ∈ range L, if m ≤ l then (tableScale norm true l) ^ 2 * ‖c l‖ ^ 2 else 0 := by
  have e : ∀ k ∈ range n, ((r.w k * ‖∑ l ∈ range L, c l * (legpolyVal L L norm true cs (Real.cos (colat r k)) m l : ℂ)‖ ^ 2 : ℝ) : ℂ)
      = ∑ l ∈ range L, ∑ l' ∈ range L, (starRingEnd ℂ) (c l) * c l' * ((tableScale norm true l * tableScale norm true l' *
        (r.w k * (assocLegendre l m (Real.cos (colat r k)) * assocLegendre l' m (Real.cos (colat r k)))) : ℝ) : ℂ) := by
    intro k _
    push_cast
    rw [← Complex.conj_mul', map_sum, sum_mul_sum, mul_sum]
    refine sum_congr rfl fun l hl => ?_
    rw [mul_sum]
    refine sum_congr rfl fun l' hl' => ?_
    rw [legpolyVal_eq L L _ norm true cs m l' (mem_range.1 hl'), legpolyVal_eq L L _ norm true cs m l (mem_range.1 hl)]
    have : ((csSign cs m * csSign cs m : ℝ) : ℂ) = 1 := by rw [csSign_sq]; simp
    rw [map_mul, Complex.conj_ofReal]
    push_cast at this ⊢
    linear_combination ((starRingEnd ℂ) (c l) * c l' * (tableScale norm true l * tableScale norm true l' *
        (r.w k * (assocLegendre l m (Real.cos (colat r k)) * assocLegendre l' m (Real.cos (colat r k)))))) * this
  have main : ((2 * Real.pi * ∑ k ∈ range n, r.w k * ‖∑ l ∈ range L, c l * (legpolyVal L L norm true cs (Real.cos (colat r k)) m l : ℂ)‖ ^ 2 : ℝ) : ℂ)
      = ((∑ l ∈ range L, if m ≤ l then (tableScale norm true l) ^ 2 * ‖c l‖ ^ 2 else 0 : ℝ) : ℂ) := by
    rw [Complex.ofReal_mul, Complex.ofReal_sum, sum_congr rfl e, sum_comm, mul_sum, Complex.ofReal_sum]
    refine sum_congr rfl fun l hl => ?_
    have hl := mem_range.1 hl
    rw [sum_comm, mul_sum]
    have e2 : ∀ l' ∈ range L, ((2 * Real.pi : ℝ) : ℂ) * ∑ k ∈ range n, (starRingEnd ℂ) (c l) * c l' * ((tableScale norm true l * tableScale norm true l' *
        (r.w k * (assocLegendre l m (Real.cos (colat r k)) * assocLegendre l' m (Real.cos (colat r k)))) : ℝ) : ℂ)
        = if l' = l then (((if m ≤ l then (tableScale norm true l) ^ 2 * ‖c l‖ ^ 2 else 0 : ℝ)) : ℂ) else 0 := by
      intro l' hl'
      have hl' := mem_range.1 hl'
      have h := disc_orth hx l l' m (by omega)
      rw [← mul_sum, ← Complex.ofReal_sum, ← mul_sum]
      have h' : ((2 * Real.pi : ℝ) : ℂ) * ((∑ k ∈ range n, r.w k * (assocLegendre l m (Real.cos (colat r k)) * assocLegendre l' m (Real.cos (colat r k))) : ℝ) : ℂ)
          = ((if l = l' ∧ m ≤ l then 1 else 0 : ℝ) : ℂ) := by rw [← Complex.ofReal_mul, h]
      rw [Complex.ofReal_mul (tableScale norm true l * tableScale norm true l')]
      have h3 : ∀ A B C D : ℂ, A * (B * (C * D)) = B * (C * (A * D)) := by intros; ring
      rw [h3, h']
      by_cases hll : l' = l
      · subst hll
        by_cases h2 : m ≤ l'
        · rw [if_pos rfl, if_pos h2, if_pos ⟨rfl, h2⟩]
          have := Complex.conj_mul' (c l')
          push_cast
          linear_combination (tableScale norm true l' : ℂ) ^ 2 * this
        · rw [if_pos rfl, if_neg h2, if_neg (by tauto)]; simp
      · rw [if_neg hll, if_neg (by tauto)]; simp
    rw [sum_congr rfl e2, sum_ite_eq', if_pos (mem_range.2 hl)]
  exact_mod_cast main

/-- C17 (Parseval). The quadrature of the square of a synthesised field is the sum of the squared coefficient magnitudes
(orders other than 0 and Nyquist counted twice), scaled by the square of the synthesis normalisation (1 for `ortho`). The
left-hand side is `QuadratureS2` applied to `f^2`. -/
theorem C17_parseval (env : Env) (be : C2R) (a : Args) (r : Rule) (d L : ℕ) (hn : 0 < a.nlon)
    (hr : gridRule env.gauss env.tol env.maxiter a.nlat a.grid = .ok r) (hx : SymmetricExactRule r a.nlat d)
    (hL : sizes a.nlat a.nlon a.lmax a.mmax a.grid = .ok (L, L)) (h0 : 0 < L) (hd : 2 * (L - 1) ≤ d)
    (hm : 2 * (L - 1) ≤ a.nlon) (c : Mat ℂ) (hc0 : c.d0 = L) (hc1 : c.d1 = L) :
    ∃ I f, InverseRealSHT.init env a = .ok I ∧ I.forward be c = .ok f ∧
      quadForward r a.nlon false (fun k j => f.val k j ^ 2)
        = ∑ m ∈ range L, ∑ l ∈ range L, realMult a.nlon m * (tableScale a.norm true l ^ 2 * ‖admissible a.nlon c.val l m‖ ^ 2) := by
  obtain ⟨f, hf, hf0, hf1, hv⟩ := inverseRealSHT_forward be ⟨a.nlat, a.nlon, L, L,
      fun m k l => legpolyVal L L a.norm true a.csphase (Real.cos (colat r k)) m l⟩ c hc0 hc1 h0 hn
  refine ⟨_, f, inverseRealSHT_init env a r L hr hL h0, hf, ?_⟩
  dsimp only at hv
  have hnr : (a.nlon : ℝ) ≠ 0 := by exact_mod_cast hn.ne'
  set cc : ℕ → ℕ → ℂ := fun l m => if m = 0 ∨ 2 * m = a.nlon then ((c.val l m).re : ℂ) else c.val l m with hcc
  set Y : ℕ → ℕ → ℂ := fun k m => ∑ l ∈ range L, cc l m * (legpolyVal L L a.norm true a.csphase (Real.cos (colat r k)) m l : ℂ) with hY
  have row : ∀ k, ∑ j ∈ range a.nlon, f.val k j ^ 2 = a.nlon * ∑ m ∈ range L, realMult a.nlon m * ‖Y k m‖ ^ 2 := by
    intro k
    have e : ∀ j ∈ range a.nlon, f.val k j ^ 2 = synth a.nlon (fun m => if m < L then Y k m else 0) j ^ 2 :=
      fun j hj => by rw [hv k j (mem_range.1 hj)]
    rw [sum_congr rfl e, synth_parseval a.nlon hn]
    · congr 1
      have hsub : range L ⊆ range (a.nlon / 2 + 1) := range_subset_range.2 (by omega)
      rw [← sum_subset hsub]
      · exact sum_congr rfl fun m hm => by rw [if_pos (mem_range.1 hm)]
      · intro m _ h2
        rw [if_neg (fun h => h2 (mem_range.2 h))]; simp
    · rw [if_pos h0]
      simp only [hY, hcc]
      rw [Complex.im_sum]
      exact sum_eq_zero fun l _ => by simp
    · intro k' hk'
      split
      · simp only [hY, hcc]
        rw [Complex.im_sum]
        exact sum_eq_zero fun l _ => by simp [hk']
      · rfl
  unfold quadForward quadWeight
  simp only [Bool.false_eq_true, if_false, ← sum_mul, row, hx.size]
  have e1 : ∀ k ∈ range a.nlat, (a.nlon * ∑ m ∈ range L, realMult a.nlon m * ‖Y k m‖ ^ 2) * (2 * Real.pi / a.nlon * r.w k)
      = ∑ m ∈ range L, realMult a.nlon m * (2 * Real.pi * (r.w k * ‖Y k m‖ ^ 2)) := by
    intro k _
    rw [mul_sum, sum_mul]
    refine sum_congr rfl fun m _ => ?_
    field_simp
  rw [sum_congr rfl e1, sum_comm]
  refine sum_congr rfl fun m hmL => ?_
  rw [← mul_sum, ← mul_sum, legendre_parseval hx hd a.norm a.csphase (fun l => cc l m) m, mul_sum]
  refine sum_congr rfl fun l _ => ?_
  unfold admissible
  by_cases h : m ≤ l
  · rw [if_pos h, if_neg (show ¬ l < m by omega)]
  · rw [if_neg h, if_pos (show l < m by omega)]; simp

/-! ### The hypotheses hold for the default truncation -/

theorem default_sizes (nlat nlon : ℕ) (grid : String) (d : ℕ) (hlat : 2 ≤ nlat) (hlon : 1 ≤ nlon) (hd : ExactDegree grid nlat d) :
    ∃ L, sizes nlat nlon none none grid = .ok (L, L) ∧ 0 < L ∧ 2 * (L - 1) ≤ d ∧ 2 * (L - 1) ≤ nlon := by
  obtain ⟨L, hL⟩ := C02_default_truncation_defined nlat nlon grid d hd
  obtain ⟨h1, h2, h3⟩ := C02_default_truncation_resolvable nlat nlon grid L L d (by omega) (by omega) hd hL
  refine ⟨L.toNat, ?_, by omega, by omega, ?_⟩
  · unfold sizes
    rw [hL]
    dsimp only
    rw [if_neg (by omega)]
  · have := h2 (L - 1) (by omega)
    omega

/-- Every hypothesis of the theorems above holds for a default-constructed transform on an `equiangular` or
`legendre-gauss` grid with at least two latitudes and one longitude. -/
theorem default_grid (env : Env) (a : Args) (hgrid : a.grid = "equiangular" ∨
    (a.grid = "legendre-gauss" ∧ IsGaussRule (env.gauss a.nlat) a.nlat)) (hlat : 2 ≤ a.nlat) (hlon : 1 ≤ a.nlon)
    (hl : a.lmax = none) (hm : a.mmax = none) :
    ∃ r d L, gridRule env.gauss env.tol env.maxiter a.nlat a.grid = .ok r ∧ SymmetricExactRule r a.nlat d ∧
      sizes a.nlat a.nlon a.lmax a.mmax a.grid = .ok (L, L) ∧ 0 < L ∧ 2 * (L - 1) ≤ d ∧ 2 * (L - 1) ≤ a.nlon := by
  rw [hl, hm]
  rcases hgrid with hg | ⟨hg, hgauss⟩
  · have hr : clenshawCurtissWeights a.nlat (-1) 1
        = .ok (rescale ⟨a.nlat, fun i => Real.cos (linspace Real.pi 0 a.nlat i), ccW a.nlat⟩ (-1) 1) := by
      rw [clenshawCurtissWeights, if_neg (by omega)]
    obtain ⟨L, h1, h2, h3, h4⟩ := default_sizes a.nlat a.nlon a.grid (a.nlat - 1) hlat hlon
      (Or.inr (Or.inr ⟨hg, by omega⟩))
    refine ⟨_, a.nlat - 1, L, ?_, equiangular_symmetricExact a.nlat hlat _ hr, h1, h2, h3, h4⟩
    rw [hg, gridRule]
    simp [hr]
  · have hr : legendreGaussWeights env.gauss a.nlat (-1) 1 = .ok (rescale (env.gauss a.nlat) (-1) 1) := by
      rw [legendreGaussWeights, if_neg (by omega)]
    obtain ⟨L, h1, h2, h3, h4⟩ := default_sizes a.nlat a.nlon a.grid (2 * a.nlat - 1) hlat hlon
      (Or.inl ⟨hg, by omega⟩)
    refine ⟨_, 2 * a.nlat - 1, L, ?_, gauss_symmetricExact env.gauss a.nlat hgauss _ hr, h1, h2, h3, h4⟩
    rw [hg, gridRule, if_pos rfl, hr]

/-- C14 for default-constructed transforms: they are built, and analysis after synthesis is the identity on admissible
coefficients. -/
theorem C14_default (env : Env) (be : C2R) (a : Args) (hgrid : a.grid = "equiangular" ∨
    (a.grid = "legendre-gauss" ∧ IsGaussRule (env.gauss a.nlat) a.nlat)) (hlat : 2 ≤ a.nlat) (hlon : 1 ≤ a.nlon)
    (hl : a.lmax = none) (hm : a.mmax = none) :
    ∃ S I, RealSHT.init env a = .ok S ∧ InverseRealSHT.init env a = .ok I ∧ 0 < S.lmax ∧ S.mmax = S.lmax ∧ I.lmax = S.lmax ∧
      I.mmax = S.lmax ∧ ∀ c : Mat ℂ, c.d0 = S.lmax → c.d1 = S.mmax →
        ∃ f c', I.forward be c = .ok f ∧ S.forward f = .ok c' ∧ c'.d0 = S.lmax ∧ c'.d1 = S.mmax ∧
          ∀ l < S.lmax, ∀ m < S.mmax, c'.val l m = admissible a.nlon c.val l m := by
  obtain ⟨r, d, L, hr, hx, hL, h0, hd, hmm⟩ := default_grid env a hgrid hlat hlon hl hm
  refine ⟨_, _, realSHT_init env a r L hr hL h0, inverseRealSHT_init env a r L hr hL h0, h0, rfl, rfl, rfl, ?_⟩
  intro c hc0 hc1
  obtain ⟨S', I', f, c', hS', hI', hf, hc', h1, h2, h3⟩ := C14_analysis_of_synthesis env be a r d L hlon hr hx hL h0 hd hmm c hc0 hc1
  rw [realSHT_init env a r L hr hL h0] at hS'; cases hS'
  rw [inverseRealSHT_init env a r L hr hL h0] at hI'; cases hI'
  exact ⟨f, c', hf, hc', h1, h2, h3⟩

/-- C14 (error branches). A field or coefficient array of the wrong shape is rejected. -/
theorem C14_shape_errors (be : C2R) (S : RealSHT) (I : InverseRealSHT) (f : Mat ℝ) (c : Mat ℂ) :
    (f.d0 ≠ S.nlat ∨ f.d1 ≠ S.nlon → S.forward f = .error .runtimeError) ∧
    (c.d0 ≠ I.lmax ∨ c.d1 ≠ I.mmax → I.forward be c = .error .runtimeError) := by
  constructor
  · intro h
    unfold RealSHT.forward
    by_cases h0 : f.d0 = S.nlat
    · have : f.d1 ≠ S.nlon := by tauto
      rw [if_neg (by simp [h0]), if_pos this]
    · rw [if_pos h0]
  · intro h
    unfold InverseRealSHT.forward
    by_cases h0 : c.d0 = I.lmax
    · have : c.d1 ≠ I.mmax := by tauto
      rw [if_neg (by simp [h0]), if_pos this]
    · rw [if_pos h0]

/-- C14 (error branch). The transforms refuse every grid other than the three quadrature grids (the trapezoidal one included). -/
theorem C14_unknown_grid (env : Env) (a : Args) (h1 : a.grid ≠ "legendre-gauss") (h2 : a.grid ≠ "lobatto")
    (h3 : a.grid ≠ "equiangular") :
    RealSHT.init env a = .error .valueError ∧ InverseRealSHT.init env a = .error .valueError := by
  have : gridRule env.gauss env.tol env.maxiter a.nlat a.grid = .error .valueError := by
    rw [gridRule, if_neg h1, if_neg h2, if_neg h3]
  constructor
  · unfold RealSHT.init; rw [this]; rfl
  · unfold InverseRealSHT.init; rw [this]; rfl

/-- Non-vacuity: the default transform on an 8 x 16 equiangular grid. -/
example (env : Env) : ∃ r d L, gridRule env.gauss env.tol env.maxiter 8 "equiangular" = .ok r ∧ SymmetricExactRule r 8 d ∧
      sizes 8 16 none none "equiangular" = .ok (L, L) ∧ 0 < L ∧ 2 * (L - 1) ≤ d ∧ 2 * (L - 1) ≤ 16 :=
  default_grid env ⟨8, 16, none, none, "equiangular", "ortho", true⟩ (Or.inl rfl) (by norm_num) (by norm_num) rfl rfl
/-- Its truncation is 4: with coefficients of degree up to 3. -/
example : sizes 8 16 none none "equiangular" = .ok (4, 4) := by decide

end Verif.Props
