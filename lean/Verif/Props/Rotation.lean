import Verif.Props.SpectralConv
import Verif.Props.QuadratureS2
import Verif.Lemmas.Rotation
/-!
Property theorems C74: rotations of the sphere. Band-limited fields stay band-limited, with the same energy in every degree; the transform and the
quadrature see that; the spectral convolution with real weights commutes with every rotation, the one with complex weights does not.
-/
namespace Verif.Props
open Verif Verif.Dist Verif.FFT Verif.Quad Verif.Legendre Verif.Truncation Verif.Spec Verif.SHT Verif.Rot Finset

theorem mult_mul_re (l m : ℕ) (hm : m ≤ l) (u : ℂ) (th ph : ℝ) :
    (u * oharm l m (spherePoint th ph)).re = legendreTheta l m th * (u.re * Real.cos (m * ph) - u.im * Real.sin (m * ph)) := by
  have e : Complex.exp (m * ph * Complex.I) = Complex.exp (((m * ph : ℝ) : ℂ) * Complex.I) := by push_cast; rfl
  rw [oharm_point l m hm, e, Complex.mul_re, Complex.re_ofReal_mul, Complex.im_ofReal_mul, Complex.exp_ofReal_mul_I_re, Complex.exp_ofReal_mul_I_im]
  ring

theorem degField_point (l : ℕ) (u : ℕ → ℂ) (th ph : ℝ) : degField l u (spherePoint th ph)
    = ∑ m ∈ range (l + 1), Rot.mult m * (legendreTheta l m th * ((u m).re * Real.cos (m * ph) - (u m).im * Real.sin (m * ph))) := by
  unfold degField
  exact sum_congr rfl fun m hm => by rw [mult_mul_re l m (by have := mem_range.1 hm; omega)]

theorem degField_congr (l : ℕ) (u v : ℕ → ℂ) (h : ∀ m ≤ l, u m = v m) (p : Fin 3 → ℝ) : degField l u p = degField l v p := by
  unfold degField
  exact sum_congr rfl fun m hm => by rw [h m (by have := mem_range.1 hm; omega)]

theorem degField_tame (l : ℕ) (u : ℕ → ℂ) (p : Fin 3 → ℝ) : degField l (tame u) p = degField l u p := by
  unfold degField
  refine sum_congr rfl fun m _ => ?_
  congr 1
  unfold tame
  split_ifs with h
  · subst h
    rw [Complex.mul_re, Complex.mul_re, oharm_zero_im]
    simp
  · rfl

theorem degField_combine {ι : Type} (s : Finset ι) (l : ℕ) (r : ι → ℝ) (u : ι → ℕ → ℂ) (p : Fin 3 → ℝ) :
    degField l (fun m => ∑ i ∈ s, u i m * (r i : ℂ)) p = ∑ i ∈ s, r i * degField l (u i) p := by
  unfold degField
  simp only [mul_sum]
  rw [sum_comm]
  refine sum_congr rfl fun m _ => ?_
  rw [sum_mul, Complex.re_sum, mul_sum]
  refine sum_congr rfl fun i _ => ?_
  have : u i m * (r i : ℂ) * oharm l m p = (r i : ℂ) * (u i m * oharm l m p) := by ring
  rw [this, Complex.re_ofReal_mul]
  ring

theorem onSphere_grid (r : Rule) (nlat nlon k j : ℕ) : OnSphere (gridPoint r nlat nlon k j) := onSphere_point _ _

/-- Complex coefficients of a real series. -/
noncomputable def uOf (a b : ℕ → ℕ → ℝ) (l m : ℕ) : ℂ := ⟨a l m / Rot.mult m, -(b l m / Rot.mult m)⟩

theorem mult_ne (m : ℕ) : Rot.mult m ≠ 0 := by unfold Rot.mult; split_ifs <;> norm_num

theorem isSeries_iff (K : ℕ) (a b : ℕ → ℕ → ℝ) (F : (Fin 3 → ℝ) → ℝ) :
    IsSeries K a b F ↔ ∀ p, OnSphere p → F p = ∑ l ∈ range K, degField l (uOf a b l) p := by
  have key : ∀ th ph, ∑ l ∈ range K, degField l (uOf a b l) (spherePoint th ph) = ∑ l ∈ range K, ∑ m ∈ range (l + 1), legendreTheta l m th
      * (a l m * Real.cos (m * ph) + b l m * Real.sin (m * ph)) := by
    intro th ph
    refine sum_congr rfl fun l _ => ?_
    rw [degField_point]
    refine sum_congr rfl fun m _ => ?_
    have := mult_ne m
    simp only [uOf]
    field_simp
    ring
  constructor
  · intro h p hp
    obtain ⟨th, ph, rfl⟩ := exists_point p hp
    rw [key]
    exact h th ph
  · intro h th ph
    rw [h _ (onSphere_point th ph), key]

theorem uOf_surj (u : ℕ → ℕ → ℂ) : ∃ a b, uOf a b = u := by
  refine ⟨fun l m => Rot.mult m * (u l m).re, fun l m => -(Rot.mult m * (u l m).im), ?_⟩
  funext l m
  have := mult_ne m
  apply Complex.ext
  · simp only [uOf]; field_simp
  · simp only [uOf]; field_simp

theorem power_uOf (l : ℕ) (a b : ℕ → ℕ → ℝ) : power l (uOf a b l) = seriesPower l a b := by
  unfold power seriesPower
  congr 1
  · simp [uOf, Rot.mult]
  · rw [mul_sum, sum_div]
    refine sum_congr rfl fun m _ => ?_
    rw [Complex.sq_norm, Complex.normSq_apply]
    simp only [uOf, Rot.mult, if_neg (Nat.succ_ne_zero m)]
    ring

theorem bandLimited_iff (K : ℕ) (F : (Fin 3 → ℝ) → ℝ) :
    BandLimited K F ↔ ∃ u : ℕ → ℕ → ℂ, ∀ p, OnSphere p → F p = ∑ l ∈ range K, degField l (u l) p := by
  constructor
  · rintro ⟨a, b, h⟩
    exact ⟨uOf a b, (isSeries_iff K a b F).1 h⟩
  · rintro ⟨u, h⟩
    obtain ⟨a, b, rfl⟩ := uOf_surj u
    exact ⟨a, b, (isSeries_iff K a b F).2 h⟩

/-- C74. Rotating a combination of spherical harmonics of degree below `L` (by any rotation or reflection, not only about the polar axis) gives
such a combination again, and each degree keeps its energy. -/
theorem C74_band_limited (L : ℕ) (a b : ℕ → ℕ → ℝ) (F : (Fin 3 → ℝ) → ℝ) (hF : IsSeries L a b F) (R : Matrix (Fin 3) (Fin 3) ℝ)
    (hR : Orthogonal R) : ∃ a' b', IsSeries L a' b' (rotated R F) ∧ ∀ l, seriesPower l a' b' = seriesPower l a b := by
  have hI := isotypic_orthogonal R hR
  choose u' hp hf using fun l => hI.2 l (uOf a b l)
  obtain ⟨a', b', e⟩ := uOf_surj u'
  refine ⟨a', b', (isSeries_iff L a' b' _).2 fun p hp => ?_, fun l => ?_⟩
  · rw [e]
    unfold rotated
    rw [(isSeries_iff L a b F).1 hF _ (hI.1 p hp)]
    exact sum_congr rfl fun l _ => hf l p hp
  · rw [← power_uOf, ← power_uOf, e, hp]

/-- The series evaluated by the inverse transform, as a sum over degrees. -/
theorem harmonicSeries_degField (cs : Bool) (nlon L K : ℕ) (hKL : K ≤ L) (hK : 2 * (K - 1) < nlon) (c : ℕ → ℕ → ℂ) (hc : ∀ l, K ≤ l → ∀ m, c l m = 0)
    (th ph : ℝ) : harmonicSeries "ortho" cs nlon L L c th ph = ∑ l ∈ range K, degField l (fun m => csSign cs m * c l m) (spherePoint th ph) := by
  unfold harmonicSeries
  simp only [mul_sum]
  rw [sum_comm]
  rw [← sum_subset (range_subset_range.2 hKL) (fun l _ hl => by
    refine sum_eq_zero fun m _ => ?_
    rw [hc l (by simpa using hl) m]
    simp)]
  refine sum_congr rfl fun l hl => ?_
  have hl := mem_range.1 hl
  rw [degField_point, ← sum_subset (s₁ := range (l + 1)) (fun m hm => by
    have := mem_range.1 hm
    rw [mem_range]
    omega) (fun m _ hm => by
    have : ¬ m ≤ l := by simpa using hm
    simp [synthFactor, legendreTheta, this])]
  refine sum_congr rfl fun m hm => ?_
  have hm := mem_range.1 hm
  have h1 : realMult nlon m = Rot.mult m := by
    unfold realMult Rot.mult
    by_cases h0 : m = 0
    · simp [h0]
    · rw [if_neg (by omega), if_neg h0]
  have h2 : tableScale "ortho" true l = 1 := by simp [tableScale, normScale]
  rw [h1]
  simp only [synthFactor, h2, Complex.re_ofReal_mul, Complex.im_ofReal_mul]
  ring

/-- The coefficient array of a band-limited field, as the transform with the given phase convention stores it. -/
noncomputable def arrayOf (cs : Bool) (K : ℕ) (u : ℕ → ℕ → ℂ) (l m : ℕ) : ℂ := if l < K ∧ m ≤ l then (csSign cs m : ℂ) * tame (u l) m else 0

theorem csSign_sq (cs : Bool) (m : ℕ) : csSign cs m * csSign cs m = 1 := by
  unfold csSign
  split_ifs
  · rw [← mul_pow]; norm_num
  · norm_num

theorem series_arrayOf (cs : Bool) (nlon L K : ℕ) (hKL : K ≤ L) (hK : 2 * (K - 1) < nlon) (u : ℕ → ℕ → ℂ) (th ph : ℝ) :
    harmonicSeries "ortho" cs nlon L L (arrayOf cs K u) th ph = ∑ l ∈ range K, degField l (u l) (spherePoint th ph) := by
  rw [harmonicSeries_degField cs nlon L K hKL hK _ (fun l hl m => by simp [arrayOf, not_lt.2 hl])]
  refine sum_congr rfl fun l hl => ?_
  rw [← degField_tame l (u l)]
  apply degField_congr
  intro m hm
  rw [arrayOf, if_pos ⟨mem_range.1 hl, hm⟩, ← mul_assoc, ← Complex.ofReal_mul, csSign_sq]
  simp

theorem admissible_arrayOf (cs : Bool) (nlon K : ℕ) (hK : 2 * (K - 1) < nlon) (u : ℕ → ℕ → ℂ) (l m : ℕ) :
    admissible nlon (arrayOf cs K u) l m = arrayOf cs K u l m := by
  unfold admissible
  split_ifs with h1 h2
  · rw [arrayOf, if_neg (by omega)]
  · by_cases h3 : l < K
    · rcases h2 with h2 | h2
      · subst h2
        rw [arrayOf, if_pos ⟨h3, by omega⟩]
        apply Complex.ext <;> simp [tame, csSign]
      · omega
    · simp [arrayOf, h3]
  · rfl

/-- C74. The power spectrum computed by `RealSHT` is invariant under rotation: on any grid that resolves the field, the samples of a band-limited
field and those of any rotated copy of it have the same energy in every degree. -/
theorem C74_spectrum (env : Env) (be : C2R) (a : Args) (hnorm : a.norm = "ortho") (r : Rule) (d L K : ℕ) (hn : 0 < a.nlon)
    (hr : gridRule env.gauss env.tol env.maxiter a.nlat a.grid = .ok r) (hx : SymmetricExactRule r a.nlat d)
    (hL : sizes a.nlat a.nlon a.lmax a.mmax a.grid = .ok (L, L)) (h0 : 0 < L) (hd : 2 * (L - 1) ≤ d) (hm : 2 * (L - 1) ≤ a.nlon)
    (hKL : K ≤ L) (hK : 2 * (K - 1) < a.nlon) (F : (Fin 3 → ℝ) → ℝ) (hF : BandLimited K F) (R : Matrix (Fin 3) (Fin 3) ℝ) (hR : Orthogonal R)
    (f g : Mat ℝ) (f0 : f.d0 = a.nlat) (f1 : f.d1 = a.nlon) (g0 : g.d0 = a.nlat) (g1 : g.d1 = a.nlon)
    (fv : ∀ k < a.nlat, ∀ j < a.nlon, f.val k j = F (gridPoint r a.nlat a.nlon k j))
    (gv : ∀ k < a.nlat, ∀ j < a.nlon, g.val k j = rotated R F (gridPoint r a.nlat a.nlon k j)) :
    ∃ S cf cg, RealSHT.init env a = .ok S ∧ S.forward f = .ok cf ∧ S.forward g = .ok cg ∧
      ∀ l < L, degreePower l cf.val = degreePower l cg.val := by
  have analyse : ∀ (u : ℕ → ℕ → ℂ) (x : Mat ℝ), x.d0 = a.nlat → x.d1 = a.nlon →
      (∀ k < a.nlat, ∀ j < a.nlon, x.val k j = ∑ l ∈ range K, degField l (u l) (gridPoint r a.nlat a.nlon k j)) →
      ∃ S c, RealSHT.init env a = .ok S ∧ S.forward x = .ok c ∧ ∀ l < L, degreePower l c.val = if l < K then power l (u l) else 0 := by
    intro u x x0 x1 xv
    obtain ⟨S, I, y, c', hS, hI, hy, hc', _, _, hval⟩ := C14_analysis_of_synthesis env be a r d L hn hr hx hL h0 hd hm
      ⟨L, L, arrayOf a.csphase K u⟩ rfl rfl
    obtain ⟨I', y', hI', hy', y0, y1, yv⟩ := C59_synthesis_value env be a r d L hn hr hx hL h0 ⟨L, L, arrayOf a.csphase K u⟩ rfl rfl
    rw [hI] at hI'; cases hI'
    rw [hy] at hy'; cases hy'
    have hSeq := hS.symm.trans (realSHT_init env a r L hr hL h0)
    injection hSeq with hSeq
    have t1 : S.nlat = a.nlat := by rw [hSeq]
    have t2 : S.nlon = a.nlon := by rw [hSeq]
    have t3 : S.mmax = L := by rw [hSeq]
    obtain ⟨cf, cg, e1, e2, e3⟩ := realSHT_congr S (by omega) x y ⟨by omega, by omega⟩ ⟨by omega, by omega⟩ (fun k hk j hj => by
      rw [t1] at hk; rw [t2] at hj
      rw [xv k hk j hj, yv k hk j hj, hnorm, series_arrayOf a.csphase a.nlon L K hKL hK]
      rfl)
    rw [hc'] at e2; cases e2
    refine ⟨S, cf, hS, e1, fun l hl => ?_⟩
    have hv : ∀ m ≤ l, cf.val l m = arrayOf a.csphase K u l m := by
      intro m hml
      rw [e3 l m (by omega), hval l hl m (by omega)]
      exact admissible_arrayOf a.csphase a.nlon K hK u l m
    have hsign : ∀ m, ‖((csSign a.csphase m : ℝ) : ℂ)‖ = 1 := by
      intro m
      rw [Complex.norm_real]
      unfold csSign
      split_ifs <;> simp
    unfold degreePower
    rw [hv 0 (Nat.zero_le _), sum_congr rfl fun m hm => by rw [hv (m + 1) (by have := mem_range.1 hm; omega)]]
    split_ifs with h
    · unfold power
      congr 1
      · rw [arrayOf, if_pos ⟨h, Nat.zero_le _⟩, norm_mul, hsign, one_mul, tame, if_pos rfl, Complex.norm_real]
        simp
      · congr 1
        refine sum_congr rfl fun m hm => ?_
        rw [arrayOf, if_pos ⟨h, by have := mem_range.1 hm; omega⟩, norm_mul, hsign, one_mul, tame, if_neg (Nat.succ_ne_zero m)]
    · simp [arrayOf, h]
  obtain ⟨u, hu⟩ := (bandLimited_iff K F).1 hF
  have hI := isotypic_orthogonal R hR
  choose u' hp hf using fun l => hI.2 l (u l)
  obtain ⟨S, cf, s1, s2, s3⟩ := analyse u f f0 f1 (fun k hk j hj => by rw [fv k hk j hj, hu _ (onSphere_grid _ _ _ _ _)])
  obtain ⟨S', cg, s1', s2', s3'⟩ := analyse u' g g0 g1 (fun k hk j hj => by
    rw [gv k hk j hj]
    unfold rotated
    rw [hu _ (hI.1 _ (onSphere_grid _ _ _ _ _))]
    exact sum_congr rfl fun l _ => hf l _ (onSphere_grid _ _ _ _ _))
  rw [s1] at s1'; cases s1'
  refine ⟨S, cf, cg, s1, s2, s2', fun l hl => ?_⟩
  rw [s3 l hl, s3' l hl, hp]

theorem deriv00 : legendreDeriv 0 0 = 1 := Leg.P_zero

/-- The quadrature of a sum over degrees sees the degree 0 only. -/
theorem quad_degrees (r : Rule) (nlat d nlon K : ℕ) (hx : SymmetricExactRule r nlat d) (hK0 : 0 < K) (hKd : K - 1 ≤ d) (hKn : K - 1 < nlon)
    (u : ℕ → ℕ → ℂ) (f : ℕ → ℕ → ℝ)
    (fv : ∀ k < nlat, ∀ j < nlon, f k j = ∑ l ∈ range K, degField l (u l) (gridPoint r nlat nlon k j)) :
    quadForward r nlon false f * legendreNorm 0 0 = (u 0 0).re := by
  have hnl : (nlon : ℝ) ≠ 0 := by exact_mod_cast (by omega : nlon ≠ 0)
  have hlon : ∀ j < nlon, 2 * Real.pi * j / nlon = precomputeLongitudes nlon j := fun j hj => ((C05_longitudes nlon j hj).1).symm
  have inner : ∀ k < nlat, ∑ j ∈ range nlon, f k j = nlon * ∑ l ∈ range K, legendreTheta l 0 (Real.arccos (r.x (nlat - 1 - k))) * (u l 0).re := by
    intro k hk
    rw [sum_congr rfl fun j hj => fv k hk j (mem_range.1 hj), sum_comm, mul_sum]
    refine sum_congr rfl fun l hl => ?_
    have hl := mem_range.1 hl
    unfold gridPoint
    simp only [degField_point]
    rw [sum_comm]
    have e : ∀ m ∈ range (l + 1), ∑ j ∈ range nlon, Rot.mult m * (legendreTheta l m (Real.arccos (r.x (nlat - 1 - k)))
        * ((u l m).re * Real.cos (m * (2 * Real.pi * j / nlon)) - (u l m).im * Real.sin (m * (2 * Real.pi * j / nlon))))
        = if m = 0 then nlon * (legendreTheta l 0 (Real.arccos (r.x (nlat - 1 - k))) * (u l 0).re) else 0 := by
      intro m hm
      have hm := mem_range.1 hm
      rw [← mul_sum, ← mul_sum, sum_sub_distrib, ← mul_sum, ← mul_sum,
        sum_congr rfl fun j hj => by rw [hlon j (mem_range.1 hj)], sum_cos_lon nlon m (by omega)]
      rw [sum_congr (g := fun j => Real.sin (m * precomputeLongitudes nlon j)) rfl fun j hj => by rw [hlon j (mem_range.1 hj)], sum_sin_lon nlon m (by omega)]
      by_cases h0 : m = 0
      · subst h0; simp [Rot.mult]; ring
      · simp [h0]
    rw [sum_congr rfl e, sum_ite_eq' (range (l + 1)) 0, if_pos (mem_range.2 (by omega))]
  unfold quadForward
  simp only [← sum_mul]
  rw [hx.size, sum_congr rfl fun k hk => by rw [inner k (mem_range.1 hk)]]
  simp only [quadWeight, Bool.false_eq_true, if_false]
  have horth : ∀ l, l < K → 2 * Real.pi * ∑ k ∈ range nlat, r.w k * (legendreTheta l 0 (Real.arccos (r.x (nlat - 1 - k))) * legendreNorm 0 0)
      = if l = 0 then 1 else 0 := by
    intro l hl
    have := disc_orth hx l 0 0 (by omega)
    have e : (if l = 0 ∧ 0 ≤ l then (1 : ℝ) else 0) = if l = 0 then 1 else 0 := by simp
    rw [e] at this
    rw [← this]
    congr 1
    refine sum_congr rfl fun k hk => ?_
    have hk := mem_range.1 hk
    have hin := hx.inside (nlat - 1 - k) (by omega)
    have h0 : assocLegendre 0 0 (Real.cos (colat r k)) = legendreNorm 0 0 := by
      simp [assocLegendre, deriv00]
    rw [h0, cos_colat hx k hk, ← theta_eq l 0 _ (Real.arccos_nonneg _) (Real.arccos_le_pi _), Real.cos_arccos hin.1 hin.2]
  calc (∑ k ∈ range nlat, nlon * (∑ l ∈ range K, legendreTheta l 0 (Real.arccos (r.x (nlat - 1 - k))) * (u l 0).re) * (2 * Real.pi / nlon * r.w k)) * legendreNorm 0 0
      = ∑ l ∈ range K, (u l 0).re * (2 * Real.pi * ∑ k ∈ range nlat, r.w k * (legendreTheta l 0 (Real.arccos (r.x (nlat - 1 - k))) * legendreNorm 0 0)) := by
        simp only [mul_sum, sum_mul]
        rw [sum_comm]
        refine sum_congr rfl fun l _ => sum_congr rfl fun k _ => ?_
        field_simp
    _ = ∑ l ∈ range K, (u l 0).re * (if l = 0 then 1 else 0) := sum_congr rfl fun l hl => by rw [horth l (mem_range.1 hl)]
    _ = (u 0 0).re := by
        simp only [mul_ite, mul_one, mul_zero]
        rw [sum_ite_eq' (range K) 0, if_pos (mem_range.2 hK0)]

theorem norm00_ne : legendreNorm 0 0 ≠ 0 := by
  unfold legendreNorm
  have := Real.pi_pos
  positivity

/-- C74. The value of `QuadratureS2` does not depend on the orientation of a band-limited field: any rotated copy has the same integral, although
it is sampled at other points of the field. -/
theorem C74_integral (r : Rule) (nlat d nlon K : ℕ) (hx : SymmetricExactRule r nlat d) (hKd : K - 1 ≤ d) (hKn : K - 1 < nlon) (nz : Bool)
    (F : (Fin 3 → ℝ) → ℝ) (hF : BandLimited K F) (R : Matrix (Fin 3) (Fin 3) ℝ) (hR : Orthogonal R) :
    quadForward r nlon nz (fun k j => rotated R F (gridPoint r nlat nlon k j)) = quadForward r nlon nz (fun k j => F (gridPoint r nlat nlon k j)) := by
  have main : quadForward r nlon false (fun k j => rotated R F (gridPoint r nlat nlon k j)) = quadForward r nlon false (fun k j => F (gridPoint r nlat nlon k j)) := by
    obtain ⟨u, hu⟩ := (bandLimited_iff K F).1 hF
    have hI := isotypic_orthogonal R hR
    choose u' hp hf using fun l => hI.2 l (u l)
    have hrot : ∀ p, OnSphere p → rotated R F p = ∑ l ∈ range K, degField l (u' l) p := by
      intro p hp
      unfold rotated
      rw [hu _ (hI.1 _ hp)]
      exact sum_congr rfl fun l _ => hf l _ hp
    rcases Nat.eq_zero_or_pos K with h0 | h0
    · subst h0
      have e1 : ∀ k j, rotated R F (gridPoint r nlat nlon k j) = 0 := fun k j => by rw [hrot _ (onSphere_grid _ _ _ _ _)]; simp
      have e2 : ∀ k j, F (gridPoint r nlat nlon k j) = 0 := fun k j => by rw [hu _ (onSphere_grid _ _ _ _ _)]; simp
      simp only [e1, e2]
    · have q1 := quad_degrees r nlat d nlon K hx h0 hKd hKn u _ (fun k _ j _ => hu _ (onSphere_grid _ _ _ _ _))
      have q2 := quad_degrees r nlat d nlon K hx h0 hKd hKn u' _ (fun k _ j _ => hrot _ (onSphere_grid _ _ _ _ _))
      have e : (u' 0 0).re = (u 0 0).re := by
        have hd : ∀ (v : ℕ → ℂ) (p : Fin 3 → ℝ), degField 0 v p = (v 0).re * legendreNorm 0 0 := by
          intro v p
          simp [degField, Rot.mult, oharm, harm, deriv00]
        have := hf 0 _ (onSphere_point 0 0)
        rw [hd, hd] at this
        exact (mul_right_cancel₀ norm00_ne this).symm
      exact mul_right_cancel₀ norm00_ne (q2.trans (e.trans q1.symm))
  cases nz with
  | false => exact main
  | true =>
    have h : ∀ f : ℕ → ℕ → ℝ, quadForward r nlon true f = quadForward r nlon false f / (4 * Real.pi) := by
      intro f
      simp only [quadForward, quadWeight, if_true, Bool.false_eq_true, if_false, sum_div, mul_div_assoc]
    rw [h, h, main]

/-- C74. Equivariance. Without bias and with real weights, the spectral convolution commutes with every rotation and reflection of the sphere, for
any number of channels and groups, between any two grids that resolve the fields: if the input channels are the samples of the rotated fields `F`,
the output channels are the samples of the rotated fields `G`, where `G` is the answer for the unrotated input. -/
theorem C74_equivariant (env : Env) (be : C2R) (A : ConvArgs) (rin rout : Rule) (din dout L K : ℕ) (H : ConvBuilt env A rin rout din dout L)
    (hKL : K ≤ L) (hKi : 2 * (K - 1) < A.nlonIn) (hKo : 2 * (K - 1) < A.nlonOut) (w : ℕ → ℕ → ℕ → ℕ → ℂ) (hw : ∀ g i o l, (w g i o l).im = 0)
    (F : ℕ → (Fin 3 → ℝ) → ℝ) (hF : ∀ ch < A.inChannels, BandLimited K (F ch)) :
    ∃ S, SpectralConv.init env A w none = .ok S ∧ ∃ G : ℕ → (Fin 3 → ℝ) → ℝ, (∀ oc < A.outChannels, BandLimited K (G oc)) ∧
      ∀ R, Orthogonal R → ∀ x : Ten3 ℝ, x.d0 = A.inChannels → x.d1 = A.nlatIn → x.d2 = A.nlonIn →
        (∀ ch < A.inChannels, ∀ k < A.nlatIn, ∀ j < A.nlonIn, x.val ch k j = rotated R (F ch) (gridPoint rin A.nlatIn A.nlonIn k j)) →
        ∃ y, S.forward be x = .ok y ∧ y.d0 = A.outChannels ∧ y.d1 = A.nlatOut ∧ y.d2 = A.nlonOut ∧
          ∀ oc < A.outChannels, ∀ k < A.nlatOut, ∀ j < A.nlonOut, y.val oc k j = rotated R (G oc) (gridPoint rout A.nlatOut A.nlonOut k j) := by
  have hex : ∀ ch, ∃ u : ℕ → ℕ → ℂ, ch < A.inChannels → ∀ p, OnSphere p → F ch p = ∑ l ∈ range K, degField l (u l) p := by
    intro ch
    by_cases h : ch < A.inChannels
    · obtain ⟨u, hu⟩ := (bandLimited_iff K (F ch)).1 (hF ch h)
      exact ⟨u, fun _ => hu⟩
    · exact ⟨0, fun h' => absurd h' h⟩
  choose u hu using hex
  obtain ⟨S, hS, _⟩ := conv_init H w none
  -- index of the input channel, and the weights
  let ci : ℕ → ℕ → ℕ := fun oc i => oc / (A.outChannels / A.groups) * (A.inChannels / A.groups) + i
  let wr : ℕ → ℕ → ℕ → ℝ := fun oc i l => (w (oc / (A.outChannels / A.groups)) i (oc % (A.outChannels / A.groups)) l).re
  have hwr : ∀ oc i l, w (oc / (A.outChannels / A.groups)) i (oc % (A.outChannels / A.groups)) l = ((wr oc i l : ℝ) : ℂ) := by
    intro oc i l
    apply Complex.ext
    · simp [wr]
    · simp [wr, hw]
  refine ⟨S, hS, fun oc p => ∑ l ∈ range K, ∑ i ∈ range (A.inChannels / A.groups), wr oc i l * degField l (u (ci oc i) l) p, ?_, ?_⟩
  · intro oc _
    refine (bandLimited_iff K _).2 ⟨fun l m => ∑ i ∈ range (A.inChannels / A.groups), u (ci oc i) l m * (wr oc i l : ℂ), fun p _ => ?_⟩
    exact sum_congr rfl fun l _ => (degField_combine _ l (fun i => wr oc i l) (fun i => u (ci oc i) l) p).symm
  · intro R hR x x0 x1 x2 xv
    have hI := isotypic_orthogonal R hR
    choose u' hp hf using fun ch l => hI.2 l (u ch l)
    obtain ⟨S', y, hS', hy, y0, y1, y2, yv⟩ := C20_coefficients env be A rin rout din dout L H w x x0 x1 x2 (fun ch => arrayOf true K (u' ch))
      (fun ch hch k hk j hj => by
        rw [xv ch hch k hk j hj, series_arrayOf true _ L K hKL hKi]
        unfold rotated
        rw [hu ch hch _ (hI.1 _ (onSphere_grid _ _ _ _ _))]
        exact sum_congr rfl fun l _ => hf ch l _ (onSphere_grid _ _ _ _ _))
    rw [hS] at hS'; cases hS'
    refine ⟨y, hy, y0, y1, y2, fun oc hoc k hk j hj => ?_⟩
    rw [yv oc hoc k hk j hj, harmonicSeries_degField true _ L K hKL hKo _ (fun l hl m => by
      unfold mixed
      refine sum_eq_zero fun i _ => ?_
      dsimp only
      rw [admissible_arrayOf true _ K hKi, arrayOf, if_neg (by omega), zero_mul])]
    unfold rotated
    refine sum_congr rfl fun l hl => ?_
    have hl := mem_range.1 hl
    have step : ∀ m ≤ l, ((csSign true m : ℝ) : ℂ) * mixed A w (fun ch => admissible A.nlonIn (arrayOf true K (u' ch))) oc l m
        = ∑ i ∈ range (A.inChannels / A.groups), tame (u' (ci oc i) l) m * (wr oc i l : ℂ) := by
      intro m hm
      unfold mixed
      rw [mul_sum]
      refine sum_congr rfl fun i _ => ?_
      dsimp only
      rw [admissible_arrayOf true _ K hKi, arrayOf, if_pos ⟨hl, hm⟩, hwr, ← mul_assoc, ← mul_assoc, ← Complex.ofReal_mul, csSign_sq]
      simp [ci]
    rw [degField_congr l _ _ step, degField_combine _ l (fun i => wr oc i l) (fun i => tame (u' (ci oc i) l))]
    refine sum_congr rfl fun i _ => ?_
    rw [degField_tame, hf _ _ _ (onSphere_grid _ _ _ _ _)]
    rfl

/-- The coordinate functions `x`, `y`, `z` are fields of degree 1. -/
theorem deg1_field (u0 u1 : ℂ) (th ph : ℝ) : degField 1 (fun m => if m = 0 then u0 else u1) (spherePoint th ph)
    = legendreNorm 1 0 * Real.cos th * u0.re + 2 * legendreNorm 1 1 * Real.sin th * (u1.re * Real.cos ph - u1.im * Real.sin ph) := by
  have d0 : legendreDeriv 1 0 = Polynomial.X := Leg.P_one
  have d1 : legendreDeriv 1 1 = 1 := by rw [← Leg.deriv_Q, d0, Polynomial.derivative_X]
  rw [degField_point, sum_range_succ, sum_range_one]
  simp [Rot.mult, legendreTheta, d0, d1]
  ring

theorem norm1_ne : legendreNorm 1 0 ≠ 0 ∧ legendreNorm 1 1 ≠ 0 := by
  have := Real.pi_pos
  unfold legendreNorm
  constructor <;> positivity

/-- The quarter turn about the `y` axis that takes the pole to the equator. -/
def quarterTurn : Matrix (Fin 3) (Fin 3) ℝ := !![0, 0, -1; 0, 1, 0; 1, 0, 0]

theorem quarterTurn_orthogonal : Orthogonal quarterTurn := by
  unfold Orthogonal quarterTurn
  ext i j
  fin_cases i <;> fin_cases j <;> simp [Matrix.mul_apply, Fin.sum_univ_three]

theorem quarterTurn_z (p : Fin 3 → ℝ) : rotated quarterTurn (fun p => p 2) p = p 0 := by
  simp [rotated, quarterTurn, Matrix.mulVec, dotProduct, Fin.sum_univ_three]

theorem z_bandLimited : BandLimited 2 (fun p => p 2) := by
  refine (bandLimited_iff 2 _).2 ⟨fun l m => if l = 1 ∧ m = 0 then ((1 / legendreNorm 1 0 : ℝ) : ℂ) else 0, fun p hp => ?_⟩
  obtain ⟨th, ph, rfl⟩ := exists_point p hp
  have := norm1_ne.1
  rw [sum_range_succ, sum_range_one]
  have e : ∀ p, degField 0 (fun m => if (0 : ℕ) = 1 ∧ m = 0 then ((1 / legendreNorm 1 0 : ℝ) : ℂ) else 0) p = 0 := by intro p; simp [degField]
  have e1 : (fun m => if (1 : ℕ) = 1 ∧ m = 0 then ((1 / legendreNorm 1 0 : ℝ) : ℂ) else 0) = fun m => if m = 0 then ((1 / legendreNorm 1 0 : ℝ) : ℂ) else 0 := by
    funext m; simp
  rw [e]
  dsimp only
  rw [e1, deg1_field, Complex.ofReal_re]
  simp [spherePoint]
  field_simp

/-- C74. Complex weights, which the layer allows and initialises by default, break the equivariance: with weight `i` at degree 1, the field `z` is
mapped to 0, and the same field turned by a quarter about the `y` axis (the field `x`) is mapped to `-y`, which is not 0 on the grid. -/
theorem C74_complex_weights (env : Env) (be : C2R) (A : ConvArgs) (rin rout : Rule) (din dout L : ℕ) (H : ConvBuilt env A rin rout din dout L)
    (h1 : A.inChannels = 1) (h2 : A.outChannels = 1) (h3 : A.groups = 1) (hL : 2 ≤ L) (hi : 3 ≤ A.nlonIn) (ho : 3 ≤ A.nlonOut)
    (w : ℕ → ℕ → ℕ → ℕ → ℂ) (hw : w 0 0 0 1 = Complex.I) (x x' : Ten3 ℝ) (x0 : x.d0 = 1) (x1 : x.d1 = A.nlatIn) (x2 : x.d2 = A.nlonIn)
    (x0' : x'.d0 = 1) (x1' : x'.d1 = A.nlatIn) (x2' : x'.d2 = A.nlonIn)
    (xv : ∀ k < A.nlatIn, ∀ j < A.nlonIn, x.val 0 k j = gridPoint rin A.nlatIn A.nlonIn k j 2)
    (xv' : ∀ k < A.nlatIn, ∀ j < A.nlonIn, x'.val 0 k j = rotated quarterTurn (fun p => p 2) (gridPoint rin A.nlatIn A.nlonIn k j)) :
    ∃ S y y', SpectralConv.init env A w none = .ok S ∧ S.forward be x = .ok y ∧ S.forward be x' = .ok y' ∧
      (∀ k < A.nlatOut, ∀ j < A.nlonOut, y.val 0 k j = 0) ∧
      (∀ k < A.nlatOut, ∀ j < A.nlonOut, y'.val 0 k j = -gridPoint rout A.nlatOut A.nlonOut k j 1) ∧
      ∃ k < A.nlatOut, ∃ j < A.nlonOut, y'.val 0 k j ≠ 0 := by
  obtain ⟨n0, n1⟩ := norm1_ne
  -- the value of the layer on a field of degree 1
  have run : ∀ (u0 : ℝ) (u1 : ℂ) (z : Ten3 ℝ), z.d0 = 1 → z.d1 = A.nlatIn → z.d2 = A.nlonIn →
      (∀ k < A.nlatIn, ∀ j < A.nlonIn, z.val 0 k j = degField 1 (fun m => if m = 0 then (u0 : ℂ) else u1) (gridPoint rin A.nlatIn A.nlonIn k j)) →
      ∃ S y, SpectralConv.init env A w none = .ok S ∧ S.forward be z = .ok y ∧ ∀ k < A.nlatOut, ∀ j < A.nlonOut,
        y.val 0 k j = degField 1 (fun m => if m = 0 then (u0 : ℂ) * Complex.I else u1 * Complex.I) (gridPoint rout A.nlatOut A.nlonOut k j) := by
    intro u0 u1 z z0 z1 z2 zv
    set v : ℕ → ℕ → ℂ := fun l m => if l = 1 then (if m = 0 then (u0 : ℂ) else u1) else 0 with hv
    have hv1 : v 1 = fun m => if m = 0 then (u0 : ℂ) else u1 := by funext m; simp [hv]
    have hv0 : ∀ p, degField 0 (v 0) p = 0 := by intro p; simp [degField, hv]
    obtain ⟨S, y, hS, hy, y0, y1, y2, yv⟩ := C20_coefficients env be A rin rout din dout L H w z (by omega) z1 z2 (fun _ => arrayOf true 2 v)
      (fun ch hch k hk j hj => by
        have : ch = 0 := by omega
        subst this
        rw [zv k hk j hj, series_arrayOf true _ L 2 hL (by omega), sum_range_succ, sum_range_one, hv0, zero_add, hv1]
        rfl)
    refine ⟨S, y, hS, hy, fun k hk j hj => ?_⟩
    have hmix : ∀ l m, mixed A w (fun _ => admissible A.nlonIn (arrayOf true 2 v)) 0 l m = arrayOf true 2 v l m * w 0 0 0 l := by
      intro l m
      unfold mixed
      rw [h1, h2, h3]
      dsimp only
      simp only [admissible_arrayOf true A.nlonIn 2 (by omega) v]
      simp
    rw [yv 0 (by omega) k hk j hj, harmonicSeries_degField true _ L 2 hL (by omega) _ (fun l hl m => by
      rw [hmix, arrayOf, if_neg (by omega), zero_mul]), sum_range_succ, sum_range_one]
    have e0 : ∀ p, degField 0 (fun m => (csSign true m : ℂ) * mixed A w (fun _ => admissible A.nlonIn (arrayOf true 2 v)) 0 0 m) p = 0 := by
      intro p
      refine sum_eq_zero fun m hm => ?_
      have : m = 0 := by have := mem_range.1 hm; omega
      subst this
      dsimp only
      rw [hmix]
      simp [arrayOf, hv, tame]
    rw [e0, zero_add]
    apply degField_congr
    intro m hm
    rw [hmix, hw, arrayOf, if_pos ⟨by omega, hm⟩, ← mul_assoc, ← mul_assoc, ← Complex.ofReal_mul, csSign_sq, hv1]
    rcases Nat.eq_zero_or_pos m with h | h
    · subst h
      simp [tame]
    · have : m ≠ 0 := by omega
      simp [tame, this]
  obtain ⟨S, y, hS, hy, yv⟩ := run (1 / legendreNorm 1 0) 0 x x0 x1 x2 (fun k hk j hj => by
    rw [xv k hk j hj]
    unfold gridPoint
    rw [deg1_field, Complex.ofReal_re]
    simp [spherePoint]
    field_simp)
  obtain ⟨S', y', hS', hy', yv'⟩ := run 0 ((1 / (2 * legendreNorm 1 1) : ℝ) : ℂ) x' x0' x1' x2' (fun k hk j hj => by
    rw [xv' k hk j hj, quarterTurn_z]
    unfold gridPoint
    rw [deg1_field, Complex.ofReal_re, Complex.ofReal_re, Complex.ofReal_im]
    simp [spherePoint]
    field_simp)
  rw [hS] at hS'; cases hS'
  have val' : ∀ k < A.nlatOut, ∀ j < A.nlonOut, y'.val 0 k j = -gridPoint rout A.nlatOut A.nlonOut k j 1 := by
    intro k hk j hj
    rw [yv' k hk j hj]
    unfold gridPoint
    rw [deg1_field]
    simp [spherePoint]
    field_simp
  refine ⟨S, y, y', hS, hy, hy', fun k hk j hj => ?_, val', ?_⟩
  · rw [yv k hk j hj]
    unfold gridPoint
    rw [deg1_field]
    simp
  · -- a latitude away from the poles
    have hdeg := H.degOut
    have hex : ∃ k < A.nlatOut, rout.x (A.nlatOut - 1 - k) ^ 2 ≠ 1 := by
      by_contra hne
      push Not at hne
      have hq := H.exactOut.flip_sum ((1 : Polynomial ℝ) - Polynomial.X ^ 2) (by
        have : ((1 : Polynomial ℝ) - Polynomial.X ^ 2).natDegree ≤ 2 := by compute_degree
        omega)
      rw [sum_eq_zero fun k hk => by
        rw [Polynomial.eval_sub, Polynomial.eval_pow, Polynomial.eval_X, Polynomial.eval_one, hne k (mem_range.1 hk)]; ring] at hq
      have : ∫ t in (-1 : ℝ)..1, ((1 : Polynomial ℝ) - Polynomial.X ^ 2).eval t = 4 / 3 := by
        simp only [Polynomial.eval_sub, Polynomial.eval_pow, Polynomial.eval_X, Polynomial.eval_one]
        rw [intervalIntegral.integral_sub (by simp) (by apply Continuous.intervalIntegrable; fun_prop)]
        simp
        norm_num
      rw [this] at hq
      norm_num at hq
    obtain ⟨k, hk, hne⟩ := hex
    refine ⟨k, hk, 1, by omega, ?_⟩
    rw [val' k hk 1 (by omega)]
    have hin := H.exactOut.inside (A.nlatOut - 1 - k) (by omega)
    have hs : Real.sin (Real.arccos (rout.x (A.nlatOut - 1 - k))) ≠ 0 := by
      rw [Real.sin_arccos]
      apply ne_of_gt
      apply Real.sqrt_pos.2
      have : rout.x (A.nlatOut - 1 - k) ^ 2 ≤ 1 := by nlinarith [hin.1, hin.2]
      have := lt_of_le_of_ne this hne
      linarith
    have hsj : 0 < Real.sin (2 * Real.pi * (1 : ℕ) / A.nlonOut) := by
      have hpi := Real.pi_pos
      have hn : (3 : ℝ) ≤ A.nlonOut := by exact_mod_cast ho
      apply Real.sin_pos_of_pos_of_lt_pi
      · push_cast; positivity
      · rw [div_lt_iff₀ (by linarith)]
        push_cast
        nlinarith
    have : gridPoint rout A.nlatOut A.nlonOut k 1 1 = Real.sin (Real.arccos (rout.x (A.nlatOut - 1 - k))) * Real.sin (2 * Real.pi * (1 : ℕ) / A.nlonOut) := by
      simp [gridPoint, spherePoint]
    rw [this]
    exact neg_ne_zero.2 (mul_ne_zero hs hsj.ne')

/-! ### Non-vacuity -/

/-- The rotations are more than the identity: a quarter turn about the `y` axis takes the field `z` to the field `x`. -/
example : Orthogonal quarterTurn ∧ BandLimited 2 (fun p => p 2) ∧ rotated quarterTurn (fun p => p 2) = fun p => p 0 :=
  ⟨quarterTurn_orthogonal, z_bandLimited, funext quarterTurn_z⟩

/-- A layer with 4 input and 6 output channels in 2 groups between an 8 x 16 and a 5 x 12 grid meets the hypotheses of C74_equivariant with `K = 2`. -/
example (env : Env) : ∃ rin rout din dout L, ConvBuilt env ⟨8, 16, 5, 12, 6, 4, 2, "equiangular", "equiangular"⟩ rin rout din dout L ∧ 2 * (2 - 1) < 16 := by
  obtain ⟨rin, rout, din, dout, L, h⟩ := C20_default env ⟨8, 16, 5, 12, 6, 4, 2, "equiangular", "equiangular"⟩ (by decide) (by decide) (by decide) (by decide)
    (Or.inl rfl) (Or.inl rfl) (by decide) (by decide) (by decide) (by decide)
  exact ⟨rin, rout, din, dout, L, h, by decide⟩

/-- A layer with one channel between an 8 x 16 and a 5 x 12 grid meets those of C74_complex_weights. -/
example (env : Env) : ∃ rin rout din dout L, ConvBuilt env ⟨8, 16, 5, 12, 1, 1, 1, "equiangular", "equiangular"⟩ rin rout din dout L ∧ 2 ≤ L := by
  obtain ⟨rin, rout, din, dout, L, h⟩ := C20_default env ⟨8, 16, 5, 12, 1, 1, 1, "equiangular", "equiangular"⟩ (by decide) (by decide) (by decide) (by decide)
    (Or.inl rfl) (Or.inl rfl) (by decide) (by decide) (by decide) (by decide)
  refine ⟨rin, rout, din, dout, L, h, ?_⟩
  have h3 : convLmax ⟨8, 16, 5, 12, 1, 1, 1, "equiangular", "equiangular"⟩ = .ok 3 := by decide
  have := h.trunc
  rw [h3] at this
  injection this with this
  omega

end Verif.Props
