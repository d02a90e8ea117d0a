import Verif.Props.ShallowWater
import Verif.Model.ShallowWaterIc
/-!
Property theorems C79: initial conditions and diagnostics of the shallow-water solver, and the data set of its trajectories.
-/
namespace Verif.Props
open Verif Verif.Dist Verif.FFT Verif.Quad Verif.Legendre Verif.Truncation Verif.Spec Verif.SHT Finset

/-! ### Fields that do not depend on the longitude -/

/-- A spectrum with only the zero frequency is a constant signal. -/
theorem synth_zonal (n : ℕ) (X : ℕ → ℂ) (h : ∀ k ≤ n / 2, k ≠ 0 → X k = 0) (j : ℕ) : synth n X j = (X 0).re := by
  unfold synth
  rw [sum_eq_single_of_mem 0 (by simp)]
  · simp
  · intro k hk hk0
    rw [h k (by have := mem_range.1 hk; omega) hk0]
    simp

theorem dft_zonal (n : ℕ) (hn : 0 < n) (f : ℕ → ℝ) (c : ℝ) (h : ∀ j < n, f j = c) (q : ℕ) (hq : q ≤ n / 2) :
    dft n f q = if q = 0 then (n : ℂ) * c else 0 := by
  have e := dft_synth n hn (fun k => if k = 0 then (c : ℂ) else 0) (by simp) (fun k _ => by split_ifs <;> simp) q hq
  rw [dft_congr n f (synth n fun k => if k = 0 then (c : ℂ) else 0) (fun j hj => by
    rw [h j hj, synth_zonal n _ (fun k _ hk => by simp [hk])]; simp), e]
  split_ifs <;> simp

/-- Orders above 0 vanish. -/
def Zonal (L : ℕ) (c : ℕ → ℕ → ℂ) : Prop := ∀ l < L, ∀ m < L, m ≠ 0 → c l m = 0

variable {env : Env} {A : SweArgs} {r : Rule} {d L : ℕ} {S : Swe}

theorem swe_sht_zonal (H : SweBuilt env A r d L) (hS : SweIs env A r L S) (g : ℕ → ℝ) (f : Mat ℝ) (h0 : f.d0 = A.nlat)
    (h1 : f.d1 = A.nlon) (h : ∀ k < A.nlat, ∀ j < A.nlon, f.val k j = g k) :
    ∃ c, S.sht.forward f = .ok c ∧ c.d0 = L ∧ c.d1 = L ∧ Zonal L c.val := by
  have hn := H.lon_pos
  have ho := H.ord
  obtain ⟨c, hc, c0, c1, hv⟩ := realSHT_forward S.sht f (by rw [h0, hS.s1.1]) (by rw [h1, hS.s1.2.1]) (by rw [hS.s1.2.1]; exact hn)
  refine ⟨c, hc, by rw [c0, hS.s1.2.2.1], by rw [c1, hS.s1.2.2.2], fun l hl m hm hm0 => ?_⟩
  rw [hv l m (by rw [hS.s1.2.2.2]; exact hm), hS.s1.1, hS.s1.2.1]
  refine sum_eq_zero fun k hk => ?_
  rw [if_pos (by omega), dft_zonal A.nlon hn (f.val k) (g k) (h k (mem_range.1 hk)) m (by omega), if_neg hm0]
  simp

theorem swe_isht_zonal (be : C2R) (H : SweBuilt env A r d L) (hS : SweIs env A r L S) (c : ℕ → ℕ → ℂ) (h : Zonal L c) :
    ∃ f, S.isht.forward be ⟨L, L, c⟩ = .ok f ∧ f.d0 = A.nlat ∧ f.d1 = A.nlon ∧ ∀ k, ∀ j < A.nlon, f.val k j = f.val k 0 := by
  have hL := H.two
  have hn := H.lon_pos
  obtain ⟨f, hf, f0, f1, hv⟩ := inverseRealSHT_forward be S.isht ⟨L, L, c⟩ hS.s2.2.2.1.symm hS.s2.2.2.2.symm (by rw [hS.s2.2.2.2]; omega)
    (by rw [hS.s2.2.1]; exact hn)
  refine ⟨f, hf, by rw [f0, hS.s2.1], by rw [f1, hS.s2.2.1], fun k j hj => ?_⟩
  have z : ∀ m ≤ S.isht.nlon / 2, m ≠ 0 → (if m < S.isht.mmax then ∑ l ∈ range S.isht.lmax,
      (if m = 0 ∨ 2 * m = S.isht.nlon then ((c l m).re : ℂ) else c l m) * (S.isht.pct m k l : ℂ) else 0) = 0 := by
    intro m _ hm0
    split_ifs with h1 h2
    · refine sum_eq_zero fun l hl => ?_
      rw [h l (by rw [← hS.s2.2.2.1]; exact mem_range.1 hl) m (by rw [← hS.s2.2.2.2]; exact h1) hm0]; simp
    · refine sum_eq_zero fun l hl => ?_
      rw [h l (by rw [← hS.s2.2.2.1]; exact mem_range.1 hl) m (by rw [← hS.s2.2.2.2]; exact h1) hm0]; simp
    · rfl
  rw [hv k j (by rw [hS.s2.2.1]; exact hj), hv k 0 (by rw [hS.s2.2.1]; exact hn), synth_zonal _ _ z, synth_zonal _ _ z]

theorem ivsht_order0 (H : SweBuilt env A r d L) (hS : SweIs env A r L S) (k l : ℕ) (hl : l < L) : S.ivsht.d1 0 k l = 0 := by
  have hI := hS.ivsht
  rw [inverseRealVectorSHT_init env A.transform r L H.rule H.trunc (by have := H.two; omega)] at hI
  rw [← Except.ok.inj hI]
  have hd := dlegpolyVal_eq L L (colat r k) (Real.arccos_nonneg _) (Real.arccos_le_pi _) "ortho" true false 0 l hl
  simp only [SweArgs.transform]
  rw [hd.2]
  simp [legendreOverSin]

/-- The wind of a zonal state is zonal; without divergence it has no meridional component. -/
theorem swe_getuv_zonal (be : C2R) (H : SweBuilt env A r d L) (hS : SweIs env A r L S) (z : ℕ → ℕ → ℕ → ℂ) (h : ∀ e < 2, Zonal L (z e)) :
    ∃ f, S.getuv be ⟨2, L, L, z⟩ = .ok f ∧ f.d0 = 2 ∧ f.d1 = A.nlat ∧ f.d2 = A.nlon ∧
      (∀ e < 2, ∀ k, ∀ j < A.nlon, f.val e k j = f.val e k 0) ∧
      ((∀ l < L, z 1 l 0 = 0) → ∀ k, ∀ j < A.nlon, f.val 1 k j = 0) := by
  have hL := H.two
  have hn := H.lon_pos
  obtain ⟨f, hf, f0, f1, f2, hv⟩ := inverseRealVectorSHT_forward be S.ivsht
    ⟨2, L, L, fun d l m => (S.invlap l : ℂ) * z d l m / (S.radius : ℂ)⟩ rfl hS.s4.2.2.1.symm hS.s4.2.2.2.symm
    (by rw [hS.s4.2.2.2]; omega) (by rw [hS.s4.2.1]; omega)
  have zv : ∀ e k m, m < L → m ≠ 0 → vecSpec S.ivsht (fun d l m => (S.invlap l : ℂ) * z d l m / (S.radius : ℂ)) e k m = 0 := by
    intro e k m hm hm0
    unfold vecSpec
    split_ifs
    · refine sum_eq_zero fun l hl => ?_
      have hl' : l < L := by rw [← hS.s4.2.2.1]; exact mem_range.1 hl
      dsimp only
      rw [h 0 (by norm_num) l hl' m hm hm0, h 1 (by norm_num) l hl' m hm hm0]; simp
    · refine sum_eq_zero fun l hl => ?_
      have hl' : l < L := by rw [← hS.s4.2.2.1]; exact mem_range.1 hl
      dsimp only
      rw [h 0 (by norm_num) l hl' m hm hm0, h 1 (by norm_num) l hl' m hm hm0]; simp
  have zz : ∀ e k, ∀ m ≤ S.ivsht.nlon / 2, m ≠ 0 → (if m < S.ivsht.mmax then
      (if m = 0 ∨ 2 * m = S.ivsht.nlon then ((vecSpec S.ivsht (fun d l m => (S.invlap l : ℂ) * z d l m / (S.radius : ℂ)) e k m).re : ℂ)
        else vecSpec S.ivsht (fun d l m => (S.invlap l : ℂ) * z d l m / (S.radius : ℂ)) e k m) else 0) = 0 := by
    intro e k m _ hm0
    by_cases hm : m < S.ivsht.mmax
    · rw [if_pos hm, zv e k m (by rw [← hS.s4.2.2.2]; exact hm) hm0]; simp
    · rw [if_neg hm]
  refine ⟨f, hf, f0, by rw [f1, hS.s4.1], by rw [f2, hS.s4.2.1], fun e he k j hj => ?_, fun hz k j hj => ?_⟩
  · rw [hv e he k j (by rw [hS.s4.2.1]; exact hj), hv e he k 0 (by rw [hS.s4.2.1]; exact hn), synth_zonal _ _ (zz e k), synth_zonal _ _ (zz e k)]
  · rw [hv 1 (by norm_num) k j (by rw [hS.s4.2.1]; exact hj), synth_zonal _ _ (zz 1 k), if_pos (by rw [hS.s4.2.2.2]; omega), if_pos (Or.inl rfl)]
    rw [Complex.ofReal_re]
    unfold vecSpec
    rw [if_neg (by norm_num)]
    have : ∑ l ∈ range S.ivsht.lmax, (Complex.I * ((S.invlap l : ℂ) * z 0 l 0 / (S.radius : ℂ)) * S.ivsht.d1 0 k l
        - ((S.invlap l : ℂ) * z 1 l 0 / (S.radius : ℂ)) * S.ivsht.d0 0 k l) = 0 := by
      refine sum_eq_zero fun l hl => ?_
      have hl' : l < L := by rw [← hS.s4.2.2.1]; exact mem_range.1 hl
      rw [hz l hl', ivsht_order0 H hS k l hl']; simp
    rw [this]; simp

theorem sum_exp_zonal (n : ℕ) (hn : 0 < n) (m : ℕ) (hm : m ≤ n / 2) (hm0 : m ≠ 0) :
    ∑ j ∈ range n, Complex.exp (-(m * (2 * Real.pi * j / n)) * Complex.I) = 0 := by
  have := dft_zonal n hn (fun _ => 1) 1 (fun _ _ => rfl) m hm
  rw [if_neg hm0] at this
  rw [← this]
  unfold dft
  refine sum_congr rfl fun j _ => ?_
  rw [Complex.ofReal_one, one_mul]
  congr 1; ring

/-- Vorticity and divergence of a zonal wind are zonal; without meridional wind there is no divergence. -/
theorem swe_vrtdiv_zonal (H : SweBuilt env A r d L) (hS0 : Swe.init env A = .ok S) (g : ℕ → ℕ → ℝ) (f : Ten3 ℝ) (h0 : f.d0 = 2)
    (h1 : f.d1 = A.nlat) (h2 : f.d2 = A.nlon) (h : ∀ e < 2, ∀ k < A.nlat, ∀ j < A.nlon, f.val e k j = g e k) :
    ∃ z, S.vrtdivspec f = .ok z ∧ z.d0 = 2 ∧ z.d1 = L ∧ z.d2 = L ∧ (∀ e < 2, Zonal L (z.val e)) ∧
      (∀ l < L, z.val 0 l 0 = ((-(1 / A.radius) * ∑ k ∈ range A.nlat,
        2 * Real.pi * r.w k * g 0 k * deriv (legendreTheta l 0) (Real.arccos (r.x (A.nlat - 1 - k))) : ℝ) : ℂ)) ∧
      ((∀ k < A.nlat, g 1 k = 0) → ∀ l < L, z.val 1 l 0 = 0) := by
  have hn := H.lon_pos
  have ho := H.ord
  have hnr : (A.nlon : ℝ) ≠ 0 := by exact_mod_cast hn.ne'
  obtain ⟨S', z, hS', hz, z0, z1, z2, hv⟩ := C61_vrtdiv_value env A r d L H f h0 h1 h2
  rw [hS0] at hS'; cases hS'
  refine ⟨z, hz, z0, z1, z2, fun e he l hl m hm hm0 => ?_, fun l hl => ?_, fun hg l hl => ?_⟩
  · have hs := sum_exp_zonal A.nlon hn m (by omega) hm0
    obtain ⟨ha, hb⟩ := hv l hl m hm
    match e, he with
    | 0, _ =>
      rw [ha]
      convert mul_zero _
      refine sum_eq_zero fun k hk => ?_
      rw [sum_congr rfl fun j hj => by
        rw [h 0 (by norm_num) k (mem_range.1 hk) j (mem_range.1 hj), h 1 (by norm_num) k (mem_range.1 hk) j (mem_range.1 hj)], ← mul_sum, hs, mul_zero]
    | 1, _ =>
      rw [hb]
      convert mul_zero _
      refine sum_eq_zero fun k hk => ?_
      rw [sum_congr rfl fun j hj => by
        rw [h 0 (by norm_num) k (mem_range.1 hk) j (mem_range.1 hj), h 1 (by norm_num) k (mem_range.1 hk) j (mem_range.1 hj)], ← mul_sum, hs, mul_zero]
  · have hL := H.two
    rw [(hv l hl 0 (by omega)).1]
    push_cast
    congr 1
    refine sum_congr rfl fun k hk => ?_
    rw [sum_congr rfl fun j hj => by rw [h 0 (by norm_num) k (mem_range.1 hk) j (mem_range.1 hj)]]
    simp only [legendreOverSin, Nat.zero_le, if_true, Nat.cast_zero, zero_mul, mul_zero, Complex.ofReal_zero, sub_zero, neg_zero, Complex.exp_zero, mul_one]
    rw [sum_const, card_range, nsmul_eq_mul]
    have : (A.nlon : ℂ) ≠ 0 := by exact_mod_cast hn.ne'
    field_simp
  · have hL := H.two
    rw [(hv l hl 0 (by omega)).2]
    convert mul_zero _
    refine sum_eq_zero fun k hk => sum_eq_zero fun j hj => ?_
    rw [h 1 (by norm_num) k (mem_range.1 hk) j (mem_range.1 hj), hg k (mem_range.1 hk)]
    simp [legendreOverSin]

/-! ### C79: zonal states -/

/-- The tendency of a zonal state is zonal; without divergence, geopotential and vorticity do not change. -/
theorem swe_tendency_zonal (be : C2R) (H : SweBuilt env A r d L) (hS0 : Swe.init env A = .ok S) (u : ℕ → ℕ → ℕ → ℂ)
    (h : ∀ e < 3, Zonal L (u e)) :
    ∃ t, S.dudtspec be u = .ok t ∧ (∀ e < 3, Zonal L (t e)) ∧
      ((∀ l < L, u 2 l 0 = 0) → ∀ l < L, ∀ m < L, t 0 l m = 0 ∧ t 1 l m = 0) := by
  obtain ⟨S', hS', hI⟩ := swe_init H
  rw [hS0] at hS'; cases hS'
  obtain ⟨S', hS', _, hT⟩ := C61_tendency env be A r d L H
  rw [hS0] at hS'; cases hS'
  obtain ⟨ug, V, aF, pF, en, t, h1, h2, h3, h4, h5, h6, _, h8⟩ := hT u
  have hL := H.two
  have hn := H.lon_pos
  -- the gridded fields
  have hg : ∀ e, ∃ f, S.isht.forward be ⟨L, L, u e⟩ = .ok f ∧ (e < 3 → ∀ k, ∀ j < A.nlon, f.val k j = f.val k 0) := by
    intro e
    by_cases he : e < 3
    · obtain ⟨f, hf, _, _, hv⟩ := swe_isht_zonal be H hI (u e) (h e he)
      exact ⟨f, hf, fun _ => hv⟩
    · obtain ⟨f, hf, _⟩ := inverseRealSHT_forward be S.isht ⟨L, L, u e⟩ hI.s2.2.2.1.symm hI.s2.2.2.2.symm (by rw [hI.s2.2.2.2]; omega)
        (by rw [hI.s2.2.1]; exact hn)
      exact ⟨f, hf, fun h => absurd h he⟩
  choose g hg1 hg2 using hg
  have hsg : S.spec2grid be ⟨3, L, L, u⟩ = .ok ⟨3, (g 0).d0, (g 0).d1, fun e => (g e).val⟩ := mapChannels_ok g hg1
  rw [h1] at hsg
  have hug := Except.ok.inj hsg
  have ugz : ∀ e < 3, ∀ k, ∀ j < A.nlon, ug.val e k j = ug.val e k 0 := by
    intro e he k j hj; rw [hug]; exact hg2 e he k j hj
  obtain ⟨V', hV', _, _, _, hVz, hV0⟩ := swe_getuv_zonal be H hI (fun e => u (e + 1)) (fun e he => h (e + 1) (by omega))
  rw [h2] at hV'; cases hV'
  obtain ⟨a', ha', _, _, _, haz, _, ha0⟩ := swe_vrtdiv_zonal H hS0
    (fun e k => (ug.val 1 k 0 + 2 * A.omega * Real.cos (Real.arccos (r.x (A.nlat - 1 - k)))) * V.val e k 0)
    ⟨2, A.nlat, A.nlon, fun e k j => (ug.val 1 k j + 2 * A.omega * Real.cos (Real.arccos (r.x (A.nlat - 1 - k)))) * V.val e k j⟩ rfl rfl rfl
    (fun e he k _ j hj => by dsimp only; rw [ugz 1 (by norm_num) k j hj, hVz e he k j hj])
  rw [h3] at ha'; cases ha'
  obtain ⟨p', hp', _, _, _, hpz, _, hp0⟩ := swe_vrtdiv_zonal H hS0 (fun e k => ug.val 0 k 0 * V.val e k 0)
    ⟨2, A.nlat, A.nlon, fun e k j => ug.val 0 k j * V.val e k j⟩ rfl rfl rfl
    (fun e he k _ j hj => by dsimp only; rw [ugz 0 (by norm_num) k j hj, hVz e he k j hj])
  rw [h4] at hp'; cases hp'
  obtain ⟨e', he', _, _, hez⟩ := swe_sht_zonal H hI (fun k => ug.val 0 k 0 + (V.val 0 k 0 ^ 2 + V.val 1 k 0 ^ 2) / 2)
    ⟨A.nlat, A.nlon, fun k j => ug.val 0 k j + (V.val 0 k j ^ 2 + V.val 1 k j ^ 2) / 2⟩ rfl rfl
    (fun k _ j hj => by dsimp only; rw [ugz 0 (by norm_num) k j hj, hVz 0 (by norm_num) k j hj, hVz 1 (by norm_num) k j hj])
  rw [h5] at he'; cases he'
  refine ⟨t, h6, fun e he l hl m hm hm0 => ?_, fun hz l hl m hm => ?_⟩
  · obtain ⟨t0, t1, t2⟩ := h8 l hl m hm
    match e, he with
    | 0, _ => rw [t0, hpz 1 (by norm_num) l hl m hm hm0, neg_zero]
    | 1, _ => rw [t1, haz 1 (by norm_num) l hl m hm hm0, neg_zero]
    | 2, _ => rw [t2, haz 0 (by norm_num) l hl m hm hm0, hez l hl m hm hm0]; simp
  · obtain ⟨t0, t1, _⟩ := h8 l hl m hm
    have hv0 := hV0 hz
    by_cases hm0 : m = 0
    · subst hm0
      rw [t0, t1, ha0 (fun k _ => by rw [hv0 k 0 hn, mul_zero]) l hl, hp0 (fun k _ => by rw [hv0 k 0 hn, mul_zero]) l hl]
      simp
    · rw [t0, t1, hpz 1 (by norm_num) l hl m hm hm0, haz 1 (by norm_num) l hl m hm hm0]; simp

/-- C79. A state without variation in longitude (no order above 0) has none after any number of steps: the solver does not break the symmetry. -/
theorem C79_zonal_invariant (be : C2R) (H : SweBuilt env A r d L) (hS0 : Swe.init env A = .ok S) (u0 : Ten3 ℂ) (h0 : u0.d0 = 3)
    (h1 : u0.d1 = L) (h2 : u0.d2 = L) (h : ∀ e < 3, ∀ l < L, ∀ m < L, m ≠ 0 → u0.val e l m = 0) (n : ℕ) :
    ∃ w, S.timestep be u0 n = .ok w ∧ ∀ e < 3, ∀ l < L, ∀ m < L, m ≠ 0 → w.val e l m = 0 := by
  obtain ⟨S', F, u, hS', hF, hu, hw⟩ := C23_timestep env be A r d L H u0 h0 h1 h2
  rw [hS0] at hS'; cases hS'
  have hFz : ∀ v, (∀ e < 3, Zonal L (v e)) → ∀ e < 3, ∀ l < L, ∀ m < L, m ≠ 0 → F v e l m = 0 := by
    intro v hv
    obtain ⟨t, ht, hz, _⟩ := swe_tendency_zonal be H hS0 v hv
    rw [hF v] at ht; cases ht
    exact hz
  have key : ∀ n, ∀ e < 3, Zonal L (u n e) := by
    intro n
    induction n using Nat.strong_induction_on with
    | _ n ih =>
      intro e he l hl m hm hm0
      match n with
      | 0 => rw [hu.start]; exact h e he l hl m hm hm0
      | 1 =>
        rw [hu.euler]
        simp only [Pi.add_apply, Pi.smul_apply, hFz _ (ih 0 (by norm_num)) e he l hl m hm hm0, ih 0 (by norm_num) e he l hl m hm hm0]
        simp
      | 2 =>
        rw [hu.second]
        simp only [Pi.add_apply, Pi.sub_apply, Pi.smul_apply, hFz _ (ih 0 (by norm_num)) e he l hl m hm hm0,
          hFz _ (ih 1 (by norm_num)) e he l hl m hm hm0, ih 1 (by norm_num) e he l hl m hm hm0]
        simp
      | n + 3 =>
        rw [hu.ab3 (n + 2) (by omega)]
        simp only [Pi.add_apply, Pi.sub_apply, Pi.smul_apply, hFz _ (ih (n + 2) (by omega)) e he l hl m hm hm0,
          hFz _ (ih (n + 2 - 1) (by omega)) e he l hl m hm hm0, hFz _ (ih (n + 2 - 2) (by omega)) e he l hl m hm hm0,
          ih (n + 2) (by omega) e he l hl m hm hm0]
        simp
  obtain ⟨w, h3, _, _, _, h7⟩ := hw n
  exact ⟨w, h3, fun e he => by rw [h7]; exact key n e he⟩

/-! ### Integrals -/

theorem integrate_fold (hI : SweIs env A r L S) (dl : Bool) (f : ℕ → ℕ → ℝ) :
    S.integrateGrid f dl = (∑ k ∈ range A.nlat, ∑ j ∈ range A.nlon, f k j * (2 * Real.pi / A.nlon * r.w k)) * (if dl then 1 else A.radius) ^ 2 := by
  unfold Swe.integrateGrid
  rw [hI.nlat, hI.nlon, hI.quad, hI.radius, sum_mul]
  refine sum_congr rfl fun k _ => ?_
  rw [sum_mul]
  exact sum_congr rfl fun j _ => by ring

theorem norm00 : legendreNorm 0 0 * Real.sqrt (4 * Real.pi) = 1 := by
  have hp := Real.pi_pos
  unfold legendreNorm
  simp only [Nat.cast_zero, mul_zero, zero_add, Nat.sub_self, Nat.factorial_zero, Nat.cast_one, div_one, Real.sqrt_one, mul_one]
  rw [← Real.sqrt_mul (by positivity), one_div_mul_cancel (by positivity), Real.sqrt_one]

/-- The quadrature of an analysed field is `sqrt(4 pi)` times its `(0, 0)` coefficient. -/
theorem analysis_quad (H : SweBuilt env A r d L) (hI : SweIs env A r L S) (f : Mat ℝ) (h0 : f.d0 = A.nlat) (h1 : f.d1 = A.nlon) (c : Mat ℂ)
    (hc : S.sht.forward f = .ok c) :
    ((∑ k ∈ range A.nlat, ∑ j ∈ range A.nlon, f.val k j * (2 * Real.pi / A.nlon * r.w k) : ℝ) : ℂ) = Real.sqrt (4 * Real.pi) * c.val 0 0 := by
  have hL := H.two
  have h := coefficient_quad env A.transform r d L H.lon_pos H.rule H.exact H.trunc (by omega) H.ord f h0 h1 S.sht c hI.sht hc
  rw [h]
  have t1 : tableScale A.transform.norm false 0 = 1 := by simp [tableScale, normScale, SweArgs.transform]
  rw [t1, one_mul, ← Complex.ofReal_mul, ← mul_assoc, mul_comm (Real.sqrt _), norm00, one_mul]
  rfl

/-- The quadrature of a synthesised field is `sqrt(4 pi)` times the real part of its `(0, 0)` coefficient. -/
theorem synthesis_quad (be : C2R) (H : SweBuilt env A r d L) (hI : SweIs env A r L S) (c : ℕ → ℕ → ℂ) (f : Mat ℝ)
    (hf : S.isht.forward be ⟨L, L, c⟩ = .ok f) :
    ∑ k ∈ range A.nlat, ∑ j ∈ range A.nlon, f.val k j * (2 * Real.pi / A.nlon * r.w k) = Real.sqrt (4 * Real.pi) * (c 0 0).re := by
  have hL := H.two
  have hn := H.lon_pos
  obtain ⟨T, I, f', c', hT, hI', hf', hc', _, _, hv⟩ := C14_analysis_of_synthesis env be A.transform r d L hn H.rule H.exact H.trunc (by omega) H.deg
    H.ord ⟨L, L, c⟩ rfl rfl
  rw [hI.isht] at hI'; cases hI'
  rw [hI.sht] at hT; cases hT
  rw [hf] at hf'; cases hf'
  obtain ⟨f', e1, e2, e3, _⟩ := inverseRealSHT_forward be S.isht ⟨L, L, c⟩ hI.s2.2.2.1.symm hI.s2.2.2.2.symm (by rw [hI.s2.2.2.2]; omega)
    (by rw [hI.s2.2.1]; omega)
  rw [hf] at e1; cases e1
  have h := analysis_quad H hI f (by rw [e2, hI.s2.1]) (by rw [e3, hI.s2.2.1]) c' hc'
  rw [hv 0 (by omega) 0 (by omega)] at h
  unfold admissible at h
  rw [if_neg (by omega), if_pos (Or.inl rfl)] at h
  exact_mod_cast h

/-- Synthesis of a stack of coefficient arrays, field by field. -/
theorem swe_spec2grid (be : C2R) (H : SweBuilt env A r d L) (hI : SweIs env A r L S) (n : ℕ) (u : ℕ → ℕ → ℕ → ℂ) :
    ∃ g, S.spec2grid be ⟨n, L, L, u⟩ = .ok g ∧ g.d0 = n ∧ g.d1 = A.nlat ∧ g.d2 = A.nlon ∧
      ∀ e, ∃ f, S.isht.forward be ⟨L, L, u e⟩ = .ok f ∧ f.d0 = A.nlat ∧ f.d1 = A.nlon ∧ f.val = g.val e := by
  have hL := H.two
  have hn := H.lon_pos
  have hug : ∀ e, ∃ f, S.isht.forward be ⟨L, L, u e⟩ = .ok f ∧ f.d0 = A.nlat ∧ f.d1 = A.nlon := by
    intro e
    obtain ⟨f, h1, h2, h3, _⟩ := inverseRealSHT_forward be S.isht ⟨L, L, u e⟩ hI.s2.2.2.1.symm hI.s2.2.2.2.symm (by rw [hI.s2.2.2.2]; omega)
      (by rw [hI.s2.2.1]; omega)
    exact ⟨f, h1, by rw [h2, hI.s2.1], by rw [h3, hI.s2.2.1]⟩
  choose g hg1 hg2 hg3 using hug
  exact ⟨⟨n, (g 0).d0, (g 0).d1, fun e => (g e).val⟩, mapChannels_ok g hg1, rfl, hg2 0, hg3 0, fun e => ⟨g e, hg1 e, hg2 e, hg3 e, rfl⟩⟩

/-- A constant field has no coefficients but the one of degree 0. -/
theorem analysis_const (be : C2R) (H : SweBuilt env A r d L) (hI : SweIs env A r L S) (v : ℝ) :
    ∃ c, S.sht.forward ⟨A.nlat, A.nlon, fun _ _ => v⟩ = .ok c ∧ ∀ l < L, ∀ m < L, l ≠ 0 → c.val l m = 0 := by
  have hL := H.two
  have hn := H.lon_pos
  set c0 : ℕ → ℕ → ℂ := fun l m => if l = 0 ∧ m = 0 then ((Real.sqrt (4 * Real.pi) * v : ℝ) : ℂ) else 0 with hc0
  obtain ⟨T, I, f, c', hT, hI', hf, hc', _, _, hv⟩ := C14_analysis_of_synthesis env be A.transform r d L hn H.rule H.exact H.trunc (by omega) H.deg
    H.ord ⟨L, L, c0⟩ rfl rfl
  rw [hI.isht] at hI'; cases hI'
  rw [hI.sht] at hT; cases hT
  obtain ⟨I, f', hI', hf', f0, f1, hval⟩ := C59_synthesis_value env be A.transform r d L hn H.rule H.exact H.trunc (by omega) ⟨L, L, c0⟩ rfl rfl
  rw [hI.isht] at hI'; cases hI'
  rw [hf] at hf'; cases hf'
  have hfv : ∀ k < A.nlat, ∀ j < A.nlon, f.val k j = v := by
    intro k hk j hj
    rw [hval k hk j hj]
    unfold harmonicSeries
    rw [sum_eq_single_of_mem 0 (by rw [mem_range]; omega), sum_eq_single_of_mem 0 (by rw [mem_range]; omega)]
    · rw [hc0]
      simp only [and_self, if_true, Complex.ofReal_re, Complex.ofReal_im, Nat.cast_zero, zero_mul, Real.cos_zero, mul_one, sub_zero]
      have e1 : synthFactor A.transform.norm A.transform.csphase 0 0 (Real.arccos (r.x (A.transform.nlat - 1 - k))) = legendreNorm 0 0 := by
        simp [synthFactor, csSign, tableScale, normScale, SweArgs.transform, legendreTheta, legendreDeriv, rodriguesBase]
      rw [e1, ← mul_assoc (legendreNorm 0 0), norm00]
      simp [realMult]
    · intro l _ hl; simp [hc0, hl]
    · intro m _ hm; simp [hc0, hm]
  obtain ⟨cf, cg, h1, h2, h3⟩ := realSHT_congr S.sht (by rw [hI.s1.2.1]; omega) ⟨A.nlat, A.nlon, fun _ _ => v⟩ f
    ⟨hI.s1.1.symm, hI.s1.2.1.symm⟩ ⟨by rw [f0, hI.s1.1]; rfl, by rw [f1, hI.s1.2.1]; rfl⟩
    (fun k hk j hj => (hfv k (by rw [← hI.s1.1]; exact hk) j (by rw [← hI.s1.2.1]; exact hj)).symm)
  rw [hc'] at h2; cases h2
  refine ⟨cf, h1, fun l hl m hm hl0 => ?_⟩
  rw [h3 l m (by rw [hI.s1.2.2.2]; exact hm), hv l hl m hm]
  unfold admissible
  simp [hc0, hl0]

/-! ### C79: the random initial condition -/

/-- What the constructor stores beside the operators: rows of the grid are at latitude `pi/2 - theta`, columns at longitude `2 pi j / nlon`. -/
theorem sweFull_init (H : SweBuilt env A r d L) (P : SwePhys) :
    ∃ F, SweFull.init env A P = .ok F ∧ Swe.init env A = .ok F.core ∧ SweIs env A r L F.core ∧ F.omega = A.omega ∧ F.gravity = P.gravity ∧
      F.havg = P.havg ∧ F.hamp = P.hamp ∧ (∀ k < A.nlat, F.lats k = Real.pi / 2 - Real.arccos (r.x (A.nlat - 1 - k))) ∧
      ∀ j < A.nlon, F.lons j = 2 * Real.pi * j / A.nlon := by
  obtain ⟨S, hS, hI⟩ := swe_init H
  refine ⟨⟨S, fun k => -Real.arcsin (r.x k), precomputeLongitudes A.nlon, A.omega, P.gravity, P.havg, P.hamp⟩, ?_, hS, hI, rfl, rfl, rfl, rfl, ?_, ?_⟩
  · unfold SweFull.init
    rw [hS]
    dsimp only
    rw [H.rule]
  · intro k hk
    dsimp only
    rw [H.exact.symm_x k hk, ← Real.arcsin_neg, Real.arccos_eq_pi_div_two_sub_arcsin]
    ring
  · intro j hj
    exact (C05_longitudes A.nlon j hj).1

/-- C79. The random initial state: every array is triangular and has nothing at degrees or orders from 120 on; the mean of the geopotential is
`g (havg + hamp Re(xi) / sqrt(120 * 121))` with one random number `xi`. -/
theorem C79_random (be : C2R) (H : SweBuilt env A r d L) (P : SwePhys) (mach : ℝ) (xi : ℕ → ℕ → ℕ → ℂ) :
    ∃ F, SweFull.init env A P = .ok F ∧ (F.randomState mach xi).d0 = 3 ∧ (F.randomState mach xi).d1 = L ∧ (F.randomState mach xi).d2 = L ∧
      (∀ e l m, l < m → (F.randomState mach xi).val e l m = 0) ∧
      (∀ e l m, 120 ≤ l ∨ 120 ≤ m → (F.randomState mach xi).val e l m = 0) ∧
      (∀ l m, m ≤ l → l < 120 → l ≠ 0 → (F.randomState mach xi).val 0 l m = (P.gravity * P.hamp * Real.sqrt (4 * Real.pi / (120 * 121)) : ℝ) * xi 0 l m) ∧
      (∀ e l m, m ≤ l → l < 120 → e ≠ 0 → (F.randomState mach xi).val e l m
        = (mach * Real.sqrt (P.gravity * P.havg) / A.radius * Real.sqrt (4 * Real.pi / (120 * 121)) : ℝ) * xi e l m) ∧
      ∃ g, F.core.spec2grid be (F.randomState mach xi) = .ok g ∧ g.d0 = 3 ∧ g.d1 = A.nlat ∧ g.d2 = A.nlon ∧
        F.core.integrateGrid (g.val 0) false
          = 4 * Real.pi * A.radius ^ 2 * (P.gravity * (P.havg + P.hamp * (xi 0 0 0).re / Real.sqrt (120 * 121))) ∧
        F.core.integrateGrid (g.val 1) false
          = 4 * Real.pi * A.radius * (mach * Real.sqrt (P.gravity * P.havg) * (xi 1 0 0).re / Real.sqrt (120 * 121)) := by
  obtain ⟨F, hF, hS, hI, _, hg, hh, ha, _, _⟩ := sweFull_init H P
  have hp := Real.pi_pos
  have e3 : F.randomState mach xi = ⟨3, L, L, (F.randomState mach xi).val⟩ := ten3_eta _ rfl hI.lmax hI.mmax
  obtain ⟨g, g1, g2, g3, g4, g5⟩ := swe_spec2grid be H hI 3 (F.randomState mach xi).val
  have hs4 : Real.sqrt (4 * Real.pi / 120 / (120 + 1)) = Real.sqrt (4 * Real.pi) / Real.sqrt (120 * 121) := by
    rw [← Real.sqrt_div (by positivity)]; congr 1; ring
  have hs5 : Real.sqrt (4 * Real.pi / 120 / (120 + 1)) = Real.sqrt (4 * Real.pi / (120 * 121)) := by
    congr 1; ring
  have hsq : Real.sqrt (4 * Real.pi) * Real.sqrt (4 * Real.pi) = 4 * Real.pi := Real.mul_self_sqrt (by positivity)
  refine ⟨F, hF, rfl, hI.lmax, hI.mmax, fun e l m h => ?_, fun e l m h => ?_, fun l m h1 h2 h3 => ?_, fun e l m h1 h2 h3 => ?_, g,
    by rw [e3]; exact g1, g2, g3, g4, ?_, ?_⟩
  · simp [SweFull.randomState, h]
  · unfold SweFull.randomState
    dsimp only
    rw [if_neg (show ¬ (l < 120 ∧ m < 120) by omega), if_neg (show ¬ (l < 120 ∧ m < 120) by omega), if_neg (show ¬ (l = 0 ∧ m = 0) by omega)]
    simp
  · unfold SweFull.randomState
    dsimp only
    rw [if_neg (by omega), if_pos rfl, if_pos (by omega), if_neg (by omega), hs5, hg, ha]
    push_cast
    ring
  · unfold SweFull.randomState
    dsimp only
    rw [if_neg (by omega), if_neg h3, if_pos (by omega), hs5, hg, hh, hI.radius]
    push_cast
    ring
  · obtain ⟨f, hf, _, _, hfe⟩ := g5 0
    have q := synthesis_quad be H hI _ f hf
    rw [hfe] at q
    rw [integrate_fold hI, q]
    have e : ((F.randomState mach xi).val 0 0 0).re = P.gravity * P.hamp * (Real.sqrt (4 * Real.pi) / Real.sqrt (120 * 121) * (xi 0 0 0).re)
        + Real.sqrt (4 * Real.pi) * P.havg * P.gravity := by
      unfold SweFull.randomState
      simp only [lt_self_iff_false, if_false, if_true, and_self, show (0 : ℕ) < 120 by norm_num]
      rw [hg, hh, ha, hs4]
      simp only [Complex.add_re, Complex.mul_re, Complex.ofReal_re, Complex.ofReal_im, Complex.mul_im]
      ring
    rw [e]
    simp only [Bool.false_eq_true, if_false]
    linear_combination (P.gravity * (P.havg + P.hamp * (xi 0 0 0).re / Real.sqrt (120 * 121))) * A.radius ^ 2 * hsq
  · obtain ⟨f, hf, _, _, hfe⟩ := g5 1
    have q := synthesis_quad be H hI _ f hf
    rw [hfe] at q
    rw [integrate_fold hI, q]
    have hR := H.radius_ne
    have e : ((F.randomState mach xi).val 1 0 0).re = mach * (Real.sqrt (4 * Real.pi) / Real.sqrt (120 * 121) * (xi 1 0 0).re)
        * Real.sqrt (P.gravity * P.havg) / A.radius := by
      unfold SweFull.randomState
      simp only [lt_self_iff_false, if_false, if_true, and_self, show (0 : ℕ) < 120 by norm_num, one_ne_zero]
      rw [hg, hh, hs4, hI.radius, Complex.div_ofReal_re]
      simp only [Complex.mul_re, Complex.ofReal_re, Complex.ofReal_im, Complex.mul_im]
      ring
    rw [e]
    simp only [Bool.false_eq_true, if_false]
    have : A.radius ^ 2 = A.radius * A.radius := sq _
    rw [this]
    field_simp
    linear_combination (mach * Real.sqrt (P.gravity * P.havg) * (xi 1 0 0).re) * hsq

/-- C79. The degree-0 coefficients of vorticity and divergence have no wind: two states that differ only there have the same wind. (A random initial
state has them, so the vorticity it is given integrates to a nonzero number, which by C22 stays; the vorticity of a wind on the sphere integrates
to 0.) -/
theorem C79_mean_vorticity_no_wind (be : C2R) (S : Swe) (z z' : Ten3 ℂ) (h : z'.d0 = z.d0 ∧ z'.d1 = z.d1 ∧ z'.d2 = z.d2)
    (hz : ∀ e l m, l ≠ 0 → z'.val e l m = z.val e l m) : S.getuv be z' = S.getuv be z := by
  unfold Swe.getuv
  rw [h.1, h.2.1, h.2.2]
  congr 2
  funext e l m
  by_cases hl : l = 0
  · subst hl; simp [Swe.invlap]
  · rw [hz e l m hl]

/-! ### C79: Galewsky's initial condition -/

/-- C79. The jet: no wind outside the band from `pi/7` to `pi/2 - pi/7`, an eastward wind inside it, at most 80 m/s, and 80 m/s exactly at 45 degrees
north. -/
theorem C79_jet (lat : ℝ) :
    (lat ≤ Real.pi / 7 ∨ Real.pi / 2 - Real.pi / 7 ≤ lat → galJet lat = 0) ∧
      (Real.pi / 7 < lat → lat < Real.pi / 2 - Real.pi / 7 → 0 < galJet lat ∧ galJet lat ≤ 80 ∧ (galJet lat = 80 ↔ lat = Real.pi / 4)) := by
  have hp := Real.pi_pos
  have e0 : galPhi0 = Real.pi / 7 := rfl
  have e1 : galPhi1 = Real.pi / 2 - Real.pi / 7 := by unfold galPhi1 galPhi0; ring
  refine ⟨fun h => ?_, fun h1 h2 => ?_⟩
  · unfold galJet
    rw [if_neg (by rw [e0, e1]; rintro ⟨h1, h2⟩; rcases h with h | h <;> linarith)]
  · unfold galJet
    rw [if_pos ⟨by rw [e0]; exact h1, by rw [e1]; exact h2⟩, div_mul_eq_mul_div, mul_div_assoc, ← Real.exp_sub, e0, e1]
    set a := lat - Real.pi / 7 with ha
    set b := lat - (Real.pi / 2 - Real.pi / 7) with hb
    have ha0 : 0 < a := by rw [ha]; linarith
    have hb0 : b < 0 := by rw [hb]; linarith
    have hD : Real.pi / 2 - Real.pi / 7 - Real.pi / 7 = a - b := by rw [ha, hb]; ring
    rw [hD]
    have hab : a * b < 0 := mul_neg_of_pos_of_neg ha0 hb0
    have hs : 0 < (a - b) ^ 2 := by have : 0 < a - b := by linarith
                                    positivity
    have hx : 1 / (a * b) - -4 / (a - b) ^ 2 = (a + b) ^ 2 / ((a * b) * (a - b) ^ 2) := by
      have n1 := ha0.ne'
      have n2 := hb0.ne
      have n3 : a - b ≠ 0 := by intro h; rw [h] at hs; simp at hs
      field_simp
      ring
    have hm : a + b = 2 * (lat - Real.pi / 4) := by rw [ha, hb]; ring
    have hle : (a + b) ^ 2 / ((a * b) * (a - b) ^ 2) ≤ 0 := div_nonpos_of_nonneg_of_nonpos (sq_nonneg _) (mul_neg_of_neg_of_pos hab hs).le
    rw [hx]
    refine ⟨by positivity, ?_, ?_⟩
    · have := Real.exp_le_one_iff.2 hle
      linarith
    · constructor
      · intro h
        have h3 : Real.exp ((a + b) ^ 2 / ((a * b) * (a - b) ^ 2)) = 1 := by linarith
        rw [Real.exp_eq_one_iff, div_eq_zero_iff] at h3
        rcases h3 with h3 | h3
        · have := pow_eq_zero_iff (two_ne_zero) |>.1 h3
          rw [hm] at this
          linarith
        · exact absurd h3 (mul_neg_of_neg_of_pos hab hs).ne
      · intro h
        have : a + b = 0 := by rw [hm, h]; ring
        rw [this]; simp

/-- C79. The perturbation of the height, with latitude between the poles and `hamp >= 0`: between 0 and `hamp cos(lat)`, 0 at the poles, symmetric about the meridian
`pi` and, for `hamp > 0`, largest on each latitude at this meridian only. Along it, the factor besides the cosine is largest at 45 degrees north only. -/
theorem C79_bump (hamp lat lon : ℝ) (hh : 0 ≤ hamp) (h1 : -(Real.pi / 2) ≤ lat) (h2 : lat ≤ Real.pi / 2) :
    0 ≤ galBump hamp lat lon ∧ galBump hamp lat lon ≤ hamp * Real.cos lat ∧ galBump hamp (Real.pi / 2) lon = 0 ∧ galBump hamp (-(Real.pi / 2)) lon = 0 ∧
      galBump hamp lat (Real.pi + lon) = galBump hamp lat (Real.pi - lon) ∧
      (0 < hamp → -(Real.pi / 2) < lat → lat < Real.pi / 2 → lon ≠ Real.pi → galBump hamp lat lon < galBump hamp lat Real.pi) ∧
      (galBump hamp lat Real.pi = hamp * Real.cos lat ↔ hamp * Real.cos lat = 0 ∨ lat = Real.pi / 4) := by
  have hc : 0 ≤ Real.cos lat := Real.cos_nonneg_of_neg_pi_div_two_le_of_le h1 h2
  have hhc := mul_nonneg hh hc
  have e1 : Real.exp (-((lon - Real.pi) / (1 / 3)) ^ 2) ≤ 1 := Real.exp_le_one_iff.2 (by have := sq_nonneg ((lon - Real.pi) / (1 / 3)); linarith)
  have e2 : Real.exp (-(0.25 * Real.pi - lat) ^ 2 / (1 / 15)) ≤ 1 :=
    Real.exp_le_one_iff.2 (by have := sq_nonneg (0.25 * Real.pi - lat); rw [div_le_iff₀ (by norm_num)]; linarith)
  have p1 := Real.exp_pos (-((lon - Real.pi) / (1 / 3)) ^ 2)
  have p2 := Real.exp_pos (-(0.25 * Real.pi - lat) ^ 2 / (1 / 15))
  refine ⟨by unfold galBump; positivity, ?_, by simp [galBump], by simp [galBump], ?_, fun hp l1 l2 hne => ?_, ?_⟩
  · unfold galBump
    rw [mul_assoc (hamp * Real.cos lat)]
    exact mul_le_of_le_one_right hhc (mul_le_one₀ e1 p2.le e2)
  · unfold galBump
    congr 3; ring
  · have hcp := Real.cos_pos_of_mem_Ioo ⟨l1, l2⟩
    unfold galBump
    have : Real.exp (-((lon - Real.pi) / (1 / 3)) ^ 2) < Real.exp (-((Real.pi - Real.pi) / (1 / 3)) ^ 2) := by
      rw [Real.exp_lt_exp]
      have : 0 < ((lon - Real.pi) / (1 / 3)) ^ 2 := by
        have : (lon - Real.pi) / (1 / 3) ≠ 0 := div_ne_zero (sub_ne_zero.2 hne) (by norm_num)
        positivity
      simpa using this
    exact mul_lt_mul_of_pos_right (mul_lt_mul_of_pos_left this (mul_pos hp hcp)) p2
  · unfold galBump
    simp only [sub_self, zero_div, ne_eq, OfNat.ofNat_ne_zero, not_false_eq_true, zero_pow, neg_zero, Real.exp_zero, mul_one]
    constructor
    · intro h
      by_contra hcon
      rw [not_or] at hcon
      have h3 : Real.exp (-(0.25 * Real.pi - lat) ^ 2 / (1 / 15)) = 1 := by
        have := mul_left_cancel₀ hcon.1 (h.trans (mul_one _).symm)
        exact this
      rw [Real.exp_eq_one_iff] at h3
      have h4 : (0.25 * Real.pi - lat) ^ 2 = 0 := by
        rw [div_eq_zero_iff] at h3
        rcases h3 with h3 | h3
        · linarith
        · norm_num at h3
      have h5 := pow_eq_zero_iff (two_ne_zero) |>.1 h4
      exact hcon.2 (by linarith)
    · rintro (h | rfl)
      · rw [h]; simp
      · have : (0.25 * Real.pi - Real.pi / 4) = 0 := by ring
        rw [this]; simp

/-- C79, finding. The perturbation is `1 / sqrt 15` wide in latitude, not `1/15` as in the test case of Galewsky, Scott and Polvani, whose factor is
`exp(-((pi/4 - lat) / beta)^2)` with `beta = 1/15`: the code divides by `beta` without squaring it. The exponent of the code is `1/15` of the exponent there. -/
theorem C79_bump_width (hamp lat lon : ℝ) :
    galBump hamp lat lon = hamp * Real.cos lat * Real.exp (-(3 * (lon - Real.pi)) ^ 2) * Real.exp (-(15 * (Real.pi / 4 - lat)) ^ 2 / 15) := by
  unfold galBump
  congr 2
  · congr 2; ring
  · ring

/-- The steps of the construction. -/
theorem galewsky_steps (be : C2R) (H : SweBuilt env A r d L) (F : SweFull) (hS : Swe.init env A = .ok F.core) (hI : SweIs env A r L F.core) :
    ∃ (u vd t : Ten3 ℂ) (vg : Ten3 ℝ) (ke h : Mat ℂ), F.galewsky be = .ok u ∧ u.d0 = 3 ∧ u.d1 = L ∧ u.d2 = L ∧
      F.core.vrtdivspec ⟨2, A.nlat, A.nlon, fun e k _ => F.galWind e k⟩ = .ok vd ∧
      (∀ e < 2, Zonal L (vd.val e)) ∧ (∀ l < L, vd.val 1 l 0 = 0) ∧
      (∀ l < L, vd.val 0 l 0 = ((-(1 / A.radius) * ∑ k ∈ range A.nlat,
        2 * Real.pi * r.w k * galJet (F.lats k) * deriv (legendreTheta l 0) (Real.arccos (r.x (A.nlat - 1 - k))) : ℝ) : ℂ)) ∧
      F.core.spec2grid be vd = .ok vg ∧ (∀ e < 2, ∀ k, ∀ j < A.nlon, vg.val e k j = vg.val e k 0) ∧
      F.core.vrtdivspec ⟨2, A.nlat, A.nlon, fun e k j => F.galWind e k * (vg.val e k j + F.core.coriolis k)⟩ = .ok t ∧
      (∀ e < 2, Zonal L (t.val e)) ∧
      (∀ l < L, t.val 0 l 0 = ((-(1 / A.radius) * ∑ k ∈ range A.nlat,
        2 * Real.pi * r.w k * (galJet (F.lats k) * (vg.val 0 k 0 + F.core.coriolis k))
          * deriv (legendreTheta l 0) (Real.arccos (r.x (A.nlat - 1 - k))) : ℝ) : ℂ)) ∧
      F.core.sht.forward ⟨A.nlat, A.nlon, fun k _ => galJet (F.lats k) ^ 2 / 2⟩ = .ok ke ∧ Zonal L ke.val ∧
      F.core.sht.forward ⟨A.nlat, A.nlon, fun k j => F.gravity * (F.havg + galBump F.hamp (F.lats k) (F.lons j))⟩ = .ok h ∧
      (∀ e l m, l < m → u.val e l m = 0) ∧
      ∀ l < L, ∀ m < L, u.val 0 l m = (F.core.invlap l : ℂ) * t.val 0 l m - ke.val l m + (if l < m then 0 else h.val l m) ∧
        u.val 1 l m = vd.val 0 l m ∧ u.val 2 l m = vd.val 1 l m := by
  have hL := H.two
  have hn := H.lon_pos
  obtain ⟨vd, hvd, d0, d1, d2, vz, v0, v1⟩ := swe_vrtdiv_zonal H hS (fun e k => F.galWind e k) ⟨2, A.nlat, A.nlon, fun e k _ => F.galWind e k⟩ rfl rfl rfl
    (fun e _ k _ j _ => rfl)
  have hvde : vd = ⟨2, L, L, vd.val⟩ := ten3_eta vd d0 d1 d2
  obtain ⟨vg, hvg, _, _, _, hvf⟩ := swe_spec2grid be H hI 2 vd.val
  rw [← hvde] at hvg
  have vgz : ∀ e < 2, ∀ k, ∀ j < A.nlon, vg.val e k j = vg.val e k 0 := by
    intro e he k j hj
    obtain ⟨f, hf, _, _, hfe⟩ := hvf e
    obtain ⟨f', hf', _, _, hz⟩ := swe_isht_zonal be H hI (vd.val e) (vz e he)
    rw [hf] at hf'; cases hf'
    rw [← hfe]; exact hz k j hj
  obtain ⟨t, ht, _, _, _, tz, t0, _⟩ := swe_vrtdiv_zonal H hS (fun e k => F.galWind e k * (vg.val e k 0 + F.core.coriolis k))
    ⟨2, A.nlat, A.nlon, fun e k j => F.galWind e k * (vg.val e k j + F.core.coriolis k)⟩ rfl rfl rfl
    (fun e he k _ j hj => by dsimp only; rw [vgz e he k j hj])
  obtain ⟨ke, hke, _, _, kz⟩ := swe_sht_zonal H hI (fun k => galJet (F.lats k) ^ 2 / 2) ⟨A.nlat, A.nlon, fun k _ => galJet (F.lats k) ^ 2 / 2⟩ rfl rfl
    (fun k _ j _ => rfl)
  have hkf : (⟨A.nlat, A.nlon, fun k _ => 0.5 * (F.galWind 0 k ^ 2 + F.galWind 1 k ^ 2)⟩ : Mat ℝ) = ⟨A.nlat, A.nlon, fun k _ => galJet (F.lats k) ^ 2 / 2⟩ := by
    congr 1
    funext k j
    simp only [SweFull.galWind, if_true, one_ne_zero, if_false]
    ring
  obtain ⟨h, hh, _⟩ := realSHT_forward F.core.sht ⟨A.nlat, A.nlon, fun k j => F.gravity * (F.havg + galBump F.hamp (F.lats k) (F.lons j))⟩
    hI.s1.1.symm hI.s1.2.1.symm (by rw [hI.s1.2.1]; exact hn)
  have hdef : F.galewsky be = .ok ⟨3, L, L, fun e l m => if l < m then 0
      else if e = 0 then (F.core.invlap l : ℂ) * t.val 0 l m - ke.val l m + h.val l m else vd.val (e - 1) l m⟩ := by
    unfold SweFull.galewsky
    dsimp only
    rw [hI.nlat, hI.nlon, hvd]
    dsimp only
    rw [hvg]
    dsimp only
    rw [ht]
    dsimp only
    rw [hkf, hke]
    dsimp only
    rw [hh]
    dsimp only
    rw [hI.lmax, hI.mmax]
  refine ⟨_, vd, t, vg, ke, h, hdef, rfl, rfl, rfl, hvd, vz, v1 (fun k _ => by simp [SweFull.galWind]), v0, hvg, vgz, ht, tz, t0, hke, kz, hh,
    fun e l m hlm => if_pos hlm, fun l hl m hm => ?_⟩
  dsimp only
  by_cases hlm : l < m
  · have hm0 : m ≠ 0 := by omega
    simp only [if_pos hlm]
    rw [tz 0 (by norm_num) l hl m hm hm0, kz l hl m hm hm0, vz 0 (by norm_num) l hl m hm hm0, vz 1 (by norm_num) l hl m hm hm0]
    simp
  · simp only [if_neg hlm]
    simp

/-- C79. Galewsky's initial state: triangular; no divergence at all; a vorticity without variation in longitude, the discrete weak form of the curl of
the jet. -/
theorem C79_galewsky (be : C2R) (H : SweBuilt env A r d L) (P : SwePhys) :
    ∃ F u, SweFull.init env A P = .ok F ∧ F.galewsky be = .ok u ∧ u.d0 = 3 ∧ u.d1 = L ∧ u.d2 = L ∧
      (∀ e l m, l < m → u.val e l m = 0) ∧ (∀ l < L, ∀ m < L, u.val 2 l m = 0) ∧ (∀ l < L, ∀ m < L, m ≠ 0 → u.val 1 l m = 0) ∧
      ∀ l < L, u.val 1 l 0 = ((-(1 / A.radius) * ∑ k ∈ range A.nlat, 2 * Real.pi * r.w k * galJet (Real.pi / 2 - Real.arccos (r.x (A.nlat - 1 - k)))
        * deriv (legendreTheta l 0) (Real.arccos (r.x (A.nlat - 1 - k))) : ℝ) : ℂ) := by
  obtain ⟨F, hF, hS, hI, _, _, _, _, hlat, _⟩ := sweFull_init H P
  obtain ⟨u, vd, t, vg, ke, h, hu, u0, u1, u2, _, vz, v1, v0, _, _, _, _, _, _, _, _, htri, hval⟩ := galewsky_steps be H F hS hI
  have hL := H.two
  refine ⟨F, u, hF, hu, u0, u1, u2, htri, fun l hl m hm => ?_, fun l hl m hm hm0 => ?_, fun l hl => ?_⟩
  · rw [(hval l hl m hm).2.2]
    by_cases hm0 : m = 0
    · rw [hm0]; exact v1 l hl
    · exact vz 1 (by norm_num) l hl m hm hm0
  · rw [(hval l hl m hm).2.1]; exact vz 0 (by norm_num) l hl m hm hm0
  · rw [(hval l hl 0 (by omega)).2.1, v0 l hl]
    congr 2
    refine sum_congr rfl fun k hk => ?_
    rw [hlat k (mem_range.1 hk)]

/-- C79. The mean geopotential of Galewsky's initial state is that of `g (havg + bump)` less the mean kinetic energy of the jet: the balance equation is solved
without fixing its constant. -/
theorem C79_galewsky_mean (be : C2R) (H : SweBuilt env A r d L) (P : SwePhys) :
    ∃ F u g, SweFull.init env A P = .ok F ∧ F.galewsky be = .ok u ∧ F.core.spec2grid be u = .ok g ∧
      F.core.integrateGrid (g.val 0) false
        = F.core.integrateGrid (fun k j => P.gravity * (P.havg + galBump P.hamp (Real.pi / 2 - Real.arccos (r.x (A.nlat - 1 - k))) (2 * Real.pi * j / A.nlon))) false
          - F.core.integrateGrid (fun k _ => galJet (Real.pi / 2 - Real.arccos (r.x (A.nlat - 1 - k))) ^ 2 / 2) false := by
  obtain ⟨F, hF, hS, hI, _, hg, hh, ha, hlat, hlon⟩ := sweFull_init H P
  obtain ⟨u, vd, t, vg, ke, h, hu, u0, u1, u2, _, _, _, _, _, _, _, _, _, hke, _, hhh, _, hval⟩ := galewsky_steps be H F hS hI
  have hL := H.two
  obtain ⟨g, g1, _, _, _, g5⟩ := swe_spec2grid be H hI 3 u.val
  rw [← ten3_eta u u0 u1 u2] at g1
  refine ⟨F, u, g, hF, hu, g1, ?_⟩
  obtain ⟨f, hf, _, _, hfe⟩ := g5 0
  have q := synthesis_quad be H hI _ f hf
  rw [hfe] at q
  have q1 := analysis_quad H hI _ rfl rfl ke hke
  have q2 := analysis_quad H hI _ rfl rfl h hhh
  have e := (hval 0 (by omega) 0 (by omega)).1
  have e' : u.val 0 0 0 = h.val 0 0 - ke.val 0 0 := by
    rw [e]; simp [Swe.invlap]; ring
  rw [integrate_fold hI, integrate_fold hI, integrate_fold hI, q, e', Complex.sub_re, ← sub_mul]
  congr 1
  have r1 := congrArg Complex.re q1
  have r2 := congrArg Complex.re q2
  rw [Complex.ofReal_re, Complex.re_ofReal_mul] at r1 r2
  rw [mul_sub, ← r1, ← r2]
  congr 1
  · refine sum_congr rfl fun k hk => sum_congr rfl fun j hj => ?_
    dsimp only
    rw [hlat k (mem_range.1 hk), hlon j (mem_range.1 hj), hg, hh, ha]
  · refine sum_congr rfl fun k hk => sum_congr rfl fun j hj => ?_
    dsimp only
    rw [hlat k (mem_range.1 hk)]

theorem admissible_of (nlon L : ℕ) (c : ℕ → ℕ → ℂ) (h : ∀ l < L, ∀ m < L, l < m → c l m = 0)
    (h' : ∀ l < L, ∀ m < L, m ≤ l → m = 0 ∨ 2 * m = nlon → (c l m).im = 0) (l m : ℕ) (hl : l < L) (hm : m < L) : admissible nlon c l m = c l m := by
  unfold admissible
  split_ifs with h1 h2
  · rw [h l hl m hm h1]
  · apply Complex.ext <;> simp [h' l hl m hm (by omega) h2]
  · rfl

/-- C79. Galewsky's initial state is balanced up to the truncation and the bump: with `U` the jet, `V` the wind of the truncated state and `zeta` its
vorticity, the vorticity does not change at first, and the divergence changes at the rate `vort((zeta + f)(V - U)) - lap(g bump + (V^2 - U^2)/2)`, which is
0 where `V = U` and there is no bump. -/
theorem C79_balance (be : C2R) (H : SweBuilt env A r d L) (P : SwePhys) :
    ∃ (F : SweFull) (u : Ten3 ℂ) (t : ℕ → ℕ → ℕ → ℂ) (ug V : Ten3 ℝ) (dv : Ten3 ℂ) (rest : Mat ℂ), SweFull.init env A P = .ok F ∧ F.galewsky be = .ok u ∧
      F.core.dudtspec be u.val = .ok t ∧ F.core.spec2grid be u = .ok ug ∧ F.core.getuv be ⟨2, L, L, fun e => u.val (e + 1)⟩ = .ok V ∧
      F.core.vrtdivspec ⟨2, A.nlat, A.nlon, fun e k j => if e = 0 then (ug.val 1 k j + 2 * A.omega * Real.cos (Real.arccos (r.x (A.nlat - 1 - k))))
        * (V.val 0 k j - galJet (Real.pi / 2 - Real.arccos (r.x (A.nlat - 1 - k)))) else 0⟩ = .ok dv ∧
      F.core.sht.forward ⟨A.nlat, A.nlon, fun k j =>
        P.gravity * galBump P.hamp (Real.pi / 2 - Real.arccos (r.x (A.nlat - 1 - k))) (2 * Real.pi * j / A.nlon)
          + (V.val 0 k j ^ 2 - galJet (Real.pi / 2 - Real.arccos (r.x (A.nlat - 1 - k))) ^ 2) / 2⟩ = .ok rest ∧
      (∀ k, ∀ j < A.nlon, V.val 1 k j = 0) ∧
      ∀ l < L, ∀ m < L, t 1 l m = 0 ∧ t 2 l m = dv.val 0 l m + ((l * (l + 1) : ℝ) / A.radius ^ 2 : ℝ) * rest.val l m := by
  obtain ⟨F, hF, hS, hI, _, hg, hh, ha, hlat, hlon⟩ := sweFull_init H P
  obtain ⟨u, vd, tm, vg, ke, h, hu, u0, u1, u2, hvd, vz, v1, _, hvg, vgz, _, tz, t0, hke, kz, hhh, htri, hval⟩ := galewsky_steps be H F hS hI
  obtain ⟨S', hS', _, hT⟩ := C61_tendency env be A r d L H
  rw [hS] at hS'; cases hS'
  obtain ⟨ug, V, aF, pF, en, t, h1, h2, h3, h4, h5, h6, h7, h8⟩ := hT u.val
  have hL := H.two
  have hn := H.lon_pos
  have s1n : 0 < F.core.sht.nlon := by rw [hI.s1.2.1]; exact hn
  have sz : ∀ f : ℕ → ℕ → ℝ, (⟨A.nlat, A.nlon, f⟩ : Mat ℝ).d0 = F.core.sht.nlat ∧ (⟨A.nlat, A.nlon, f⟩ : Mat ℝ).d1 = F.core.sht.nlon :=
    fun f => ⟨hI.s1.1.symm, hI.s1.2.1.symm⟩
  -- the gridded vorticity is that of the construction
  obtain ⟨ug', hug', _, _, _, ugf⟩ := swe_spec2grid be H hI 3 u.val
  rw [h1] at hug'; cases hug'
  obtain ⟨vg', hvg', _, _, _, vgf⟩ := swe_spec2grid be H hI vd.d0 vd.val
  have hvde : (⟨vd.d0, L, L, vd.val⟩ : Ten3 ℂ) = vd := by
    obtain ⟨z, hz, z0, z1, z2, _⟩ := swe_vrtdiv H hI ⟨2, A.nlat, A.nlon, fun e k _ => F.galWind e k⟩ rfl rfl rfl
    rw [hvd] at hz; cases hz
    exact (ten3_eta vd rfl z1 z2).symm
  rw [hvde, hvg] at hvg'; cases hvg'
  have hzeta : ∀ k, ∀ j < A.nlon, ug.val 1 k j = vg.val 0 k j := by
    intro k j hj
    obtain ⟨f, hf, _, _, hfe⟩ := ugf 1
    obtain ⟨f', hf', _, _, hfe'⟩ := vgf 0
    obtain ⟨q, hq, _, _, qv⟩ := inverseRealSHT_forward be F.core.isht ⟨L, L, u.val 1⟩ hI.s2.2.2.1.symm hI.s2.2.2.2.symm (by rw [hI.s2.2.2.2]; omega)
      (by rw [hI.s2.2.1]; exact hn)
    obtain ⟨q', hq', _, _, qv'⟩ := inverseRealSHT_forward be F.core.isht ⟨L, L, vd.val 0⟩ hI.s2.2.2.1.symm hI.s2.2.2.2.symm (by rw [hI.s2.2.2.2]; omega)
      (by rw [hI.s2.2.1]; exact hn)
    rw [hf] at hq; cases hq
    rw [hf'] at hq'; cases hq'
    rw [← hfe, ← hfe', qv k j (by rw [hI.s2.2.1]; exact hj), qv' k j (by rw [hI.s2.2.1]; exact hj)]
    congr 1
    funext m
    by_cases hm : m < F.core.isht.mmax
    · rw [if_pos hm, if_pos hm]
      refine sum_congr rfl fun l hl => ?_
      dsimp only
      rw [(hval l (by rw [← hI.s2.2.2.1]; exact mem_range.1 hl) m (by rw [← hI.s2.2.2.2]; exact hm)).2.1]
    · rw [if_neg hm, if_neg hm]
  -- the wind
  have uz : ∀ e < 2, Zonal L ((fun e => u.val (e + 1)) e) := by
    intro e he l hl m hm hm0
    match e, he with
    | 0, _ => exact (hval l hl m hm).2.1.trans (vz 0 (by norm_num) l hl m hm hm0)
    | 1, _ => exact (hval l hl m hm).2.2.trans (vz 1 (by norm_num) l hl m hm hm0)
  obtain ⟨V', hV', _, _, _, hVz, hV0⟩ := swe_getuv_zonal be H hI (fun e => u.val (e + 1)) uz
  rw [h2] at hV'; cases hV'
  have hV1 := hV0 (fun l hl => (hval l hl 0 (by omega)).2.2.trans (v1 l hl))
  have ugz : ∀ k, ∀ j < A.nlon, ug.val 1 k j = ug.val 1 k 0 := fun k j hj => by
    rw [hzeta k j hj, hzeta k 0 hn, vgz 0 (by norm_num) k j hj]
  -- absolute vorticity flux
  obtain ⟨aF', haF', _, _, _, az, a0, a1⟩ := swe_vrtdiv_zonal H hS
    (fun e k => (ug.val 1 k 0 + 2 * A.omega * Real.cos (Real.arccos (r.x (A.nlat - 1 - k)))) * V.val e k 0)
    ⟨2, A.nlat, A.nlon, fun e k j => (ug.val 1 k j + 2 * A.omega * Real.cos (Real.arccos (r.x (A.nlat - 1 - k)))) * V.val e k j⟩ rfl rfl rfl
    (fun e he k _ j hj => by dsimp only; rw [ugz k j hj, hVz e he k j hj])
  rw [h3] at haF'; cases haF'
  obtain ⟨dv, hdv, _, _, _, dz, dv0, _⟩ := swe_vrtdiv_zonal H hS
    (fun e k => if e = 0 then (ug.val 1 k 0 + 2 * A.omega * Real.cos (Real.arccos (r.x (A.nlat - 1 - k))))
        * (V.val 0 k 0 - galJet (Real.pi / 2 - Real.arccos (r.x (A.nlat - 1 - k)))) else 0)
    ⟨2, A.nlat, A.nlon, fun e k j => if e = 0 then (ug.val 1 k j + 2 * A.omega * Real.cos (Real.arccos (r.x (A.nlat - 1 - k))))
        * (V.val 0 k j - galJet (Real.pi / 2 - Real.arccos (r.x (A.nlat - 1 - k)))) else 0⟩ rfl rfl rfl
    (fun e he k _ j hj => by dsimp only; rw [ugz k j hj, hVz 0 (by norm_num) k j hj])
  have hflux : ∀ l < L, ∀ m < L, aF.val 0 l m = dv.val 0 l m + tm.val 0 l m := by
    intro l hl m hm
    by_cases hm0 : m = 0
    · subst hm0
      rw [a0 l hl, dv0 l hl, t0 l hl, ← Complex.ofReal_add, ← mul_add, ← sum_add_distrib]
      congr 2
      refine sum_congr rfl fun k hk => ?_
      rw [hlat k (mem_range.1 hk), swe_coriolis H hI k (mem_range.1 hk), if_pos rfl, hzeta k 0 hn]
      ring
    · rw [az 0 (by norm_num) l hl m hm hm0, dz 0 (by norm_num) l hl m hm hm0, tz 0 (by norm_num) l hl m hm hm0, add_zero]
  -- analysis of the synthesised geopotential
  have hadm : ∀ f : Mat ℝ, f.d0 = A.nlat → f.d1 = A.nlon → ∀ c, F.core.sht.forward f = .ok c →
      ∀ l < L, ∀ m < L, admissible A.nlon c.val l m = c.val l m := by
    intro f f0 f1 c hc
    obtain ⟨T, c', hT', hc', _, _, hv⟩ := C15_analysis_admissible env A.transform r d L hn H.rule H.exact H.trunc (by omega) f f0 f1
    rw [hI.sht] at hT'; cases hT'
    rw [hc] at hc'; cases hc'
    exact hv
  have kadm := hadm _ rfl rfl ke hke
  have hadm' := hadm _ rfl rfl h hhh
  have im0 : ∀ c : ℕ → ℕ → ℂ, (∀ l < L, ∀ m < L, admissible A.nlon c l m = c l m) → ∀ l < L, ∀ m < L, m ≤ l → m = 0 ∨ 2 * m = A.nlon → (c l m).im = 0 := by
    intro c hc l hl m hm hml hs
    rw [← hc l hl m hm]
    unfold admissible
    rw [if_neg (by omega), if_pos hs, Complex.ofReal_im]
  have htz0 : ∀ l < L, ∀ m < L, l < m → h.val l m = 0 := by
    intro l hl m hm hlm
    rw [← hadm' l hl m hm]
    unfold admissible
    rw [if_pos hlm]
  have hphi : ∀ l < L, ∀ m < L, u.val 0 l m = (F.core.invlap l : ℂ) * tm.val 0 l m - ke.val l m + h.val l m := by
    intro l hl m hm
    rw [(hval l hl m hm).1]
    split_ifs with hlm
    · rw [htz0 l hl m hm hlm]
    · rfl
  have hphadm : ∀ l < L, ∀ m < L, admissible A.nlon (u.val 0) l m = u.val 0 l m := fun l hl m hm =>
    admissible_of A.nlon L (u.val 0) (fun l _ m _ h => htri 0 l m h) (fun l hl m hm hml hs => by
      rw [hphi l hl m hm, Complex.add_im, Complex.sub_im, im0 _ kadm l hl m hm hml hs, im0 _ hadm' l hl m hm hml hs, Complex.im_ofReal_mul]
      by_cases hm0 : m = 0
      · rw [hm0, t0 l hl, Complex.ofReal_im]; simp
      · rw [tz 0 (by norm_num) l hl m hm hm0]; simp) l m hl hm
  obtain ⟨T, I, f, c', hT', hI', hf, hc', _, _, hv⟩ := C14_analysis_of_synthesis env be A.transform r d L hn H.rule H.exact H.trunc (by omega) H.deg
    H.ord ⟨L, L, u.val 0⟩ rfl rfl
  rw [hI.isht] at hI'; cases hI'
  rw [hI.sht] at hT'; cases hT'
  obtain ⟨f', hf', f0, f1, hfe⟩ := ugf 0
  rw [hf] at hf'; cases hf'
  -- linearity
  obtain ⟨c1, cV, en', e1, eV, e3, el⟩ := C16_analysis_linear F.core.sht s1n f ⟨A.nlat, A.nlon, fun k j => V.val 0 k j ^ 2 / 2⟩
    ⟨A.nlat, A.nlon, fun k j => ug.val 0 k j + (V.val 0 k j ^ 2 + V.val 1 k j ^ 2) / 2⟩ 1 1 ⟨by rw [f0, hI.s1.1], by rw [f1, hI.s1.2.1]⟩ (sz _) (sz _)
    (fun k hk j hj => by dsimp only; rw [hfe, hV1 k j (by rw [← hI.s1.2.1]; exact hj)]; ring)
  rw [hc'] at e1; cases e1
  rw [h5] at e3; cases e3
  obtain ⟨cc, hcc, ccz⟩ := analysis_const be H hI (P.gravity * P.havg)
  obtain ⟨h', cc', x1, a1', a2, a3, l1⟩ := C16_analysis_linear F.core.sht s1n
    ⟨A.nlat, A.nlon, fun k j => F.gravity * (F.havg + galBump F.hamp (F.lats k) (F.lons j))⟩ ⟨A.nlat, A.nlon, fun _ _ => P.gravity * P.havg⟩
    ⟨A.nlat, A.nlon, fun k j => P.gravity * galBump P.hamp (F.lats k) (F.lons j)⟩ 1 (-1) (sz _) (sz _) (sz _)
    (fun k hk j hj => by dsimp only; rw [hg, hh, ha]; ring)
  rw [hhh] at a1'; cases a1'
  rw [hcc] at a2; cases a2
  obtain ⟨cV', ke', x2, b1, b2, b3, l2⟩ := C16_analysis_linear F.core.sht s1n ⟨A.nlat, A.nlon, fun k j => V.val 0 k j ^ 2 / 2⟩
    ⟨A.nlat, A.nlon, fun k _ => galJet (F.lats k) ^ 2 / 2⟩ ⟨A.nlat, A.nlon, fun k j => (V.val 0 k j ^ 2 - galJet (F.lats k) ^ 2) / 2⟩ 1 (-1) (sz _) (sz _) (sz _)
    (fun k hk j hj => by dsimp only; ring)
  rw [eV] at b1; cases b1
  rw [hke] at b2; cases b2
  obtain ⟨y1, y2, rest, d1, d2, d3, l3⟩ := C16_analysis_linear F.core.sht s1n ⟨A.nlat, A.nlon, fun k j => P.gravity * galBump P.hamp (F.lats k) (F.lons j)⟩
    ⟨A.nlat, A.nlon, fun k j => (V.val 0 k j ^ 2 - galJet (F.lats k) ^ 2) / 2⟩
    ⟨A.nlat, A.nlon, fun k j => P.gravity * galBump P.hamp (Real.pi / 2 - Real.arccos (r.x (A.nlat - 1 - k))) (2 * Real.pi * j / A.nlon)
          + (V.val 0 k j ^ 2 - galJet (Real.pi / 2 - Real.arccos (r.x (A.nlat - 1 - k))) ^ 2) / 2⟩ 1 1 (sz _) (sz _) (sz _)
    (fun k hk j hj => by
      dsimp only
      rw [hlat k (by rw [← hI.s1.1]; exact hk), hlon j (by rw [← hI.s1.2.1]; exact hj)]; ring)
  rw [a3] at d1; cases d1
  rw [b3] at d2; cases d2
  refine ⟨F, u, t, ug, V, dv, rest, hF, hu, h6, by rw [ten3_eta u u0 u1 u2]; exact h1, h2, hdv, d3, hV1, fun l hl m hm => ⟨?_, ?_⟩⟩
  · rw [(h8 l hl m hm).2.1]
    by_cases hm0 : m = 0
    · subst hm0
      rw [a1 (fun k _ => by rw [hV1 k 0 hn, mul_zero]) l hl, neg_zero]
    · rw [az 1 (by norm_num) l hl m hm hm0, neg_zero]
  · have hl' : l < F.core.sht.lmax := by rw [hI.s1.2.2.1]; exact hl
    have hm' : m < F.core.sht.mmax := by rw [hI.s1.2.2.2]; exact hm
    by_cases hl0 : l = 0
    · subst hl0
      obtain ⟨z, hz, _, _, _, zz⟩ := swe_vrtdiv H hI _ rfl rfl rfl |> fun (q : ∃ z, F.core.vrtdivspec ⟨2, A.nlat, A.nlon, fun e k j => if e = 0 then (ug.val 1 k j + 2 * A.omega * Real.cos (Real.arccos (r.x (A.nlat - 1 - k))))
        * (V.val 0 k j - galJet (Real.pi / 2 - Real.arccos (r.x (A.nlat - 1 - k)))) else 0⟩ = .ok z ∧ _) => q
      rw [hdv] at hz; cases hz
      rw [h7 2 m, zz 0 m]
      simp
    · rw [(h8 l hl m hm).2.2, hflux l hl m hm, el l hl' m hm', l3 l hl' m hm', l1 l hl' m hm', l2 l hl' m hm', hv l hl m hm, ccz l hl m hm hl0]
      have e0 : admissible A.transform.nlon (u.val 0) l m = u.val 0 l m := hphadm l hl m hm
      dsimp only
      rw [e0, hphi l hl m hm]
      have hR : (A.radius : ℂ) ≠ 0 := by exact_mod_cast H.radius_ne
      have hl1 : (l : ℂ) ≠ 0 := by exact_mod_cast hl0
      have hl2 : (l : ℂ) + 1 ≠ 0 := by exact_mod_cast Nat.succ_ne_zero l
      have hinv : (F.core.invlap l : ℂ) = -(A.radius : ℂ) ^ 2 / l / (l + 1) := by
        unfold Swe.invlap
        rw [if_neg hl0, hI.radius]; push_cast; ring
      rw [hinv]
      push_cast
      field_simp
      ring

/-! ### C79: diagnostics -/

/-- C79. `gethuv` returns the geopotential and the wind, without raising. -/
theorem C79_gethuv (be : C2R) (H : SweBuilt env A r d L) (P : SwePhys) (u : ℕ → ℕ → ℕ → ℂ) :
    ∃ F g V w, SweFull.init env A P = .ok F ∧ F.core.spec2grid be ⟨3, L, L, u⟩ = .ok g ∧ F.core.getuv be ⟨2, L, L, fun e => u (e + 1)⟩ = .ok V ∧
      F.gethuv be ⟨3, L, L, u⟩ = .ok w ∧ w.d0 = 3 ∧ w.d1 = A.nlat ∧ w.d2 = A.nlon ∧
      w.val 0 = g.val 0 ∧ w.val 1 = V.val 0 ∧ w.val 2 = V.val 1 := by
  obtain ⟨F, hF, hS, hI, _⟩ := sweFull_init H P
  obtain ⟨g, hg, _, _, _, gf⟩ := swe_spec2grid be H hI 3 u
  obtain ⟨g', hg', g0, g1, g2, gf'⟩ := swe_spec2grid be H hI 1 u
  obtain ⟨V, hV, V0, V1, V2⟩ := swe_getuv be H hI ⟨2, L, L, fun e => u (e + 1)⟩ rfl rfl rfl
  refine ⟨F, g, V, ⟨g'.d0 + V.d0, g'.d1, g'.d2, fun e => if e < g'.d0 then g'.val e else V.val (e - g'.d0)⟩, hF, hg, hV, ?_, by rw [g0, V0], g1, g2, ?_, ?_, ?_⟩
  · unfold SweFull.gethuv
    have e1 : (⟨min 1 3, L, L, u⟩ : Ten3 ℂ) = ⟨1, L, L, u⟩ := rfl
    have e2 : (⟨3 - 1, L, L, fun e => u (e + 1)⟩ : Ten3 ℂ) = ⟨2, L, L, fun e => u (e + 1)⟩ := rfl
    dsimp only
    rw [e1, hg']
    dsimp only
    rw [e2, hV]
  · obtain ⟨f, hf, _, _, e⟩ := gf 0
    obtain ⟨f', hf', _, _, e'⟩ := gf' 0
    rw [hf] at hf'; cases hf'
    dsimp only
    rw [g0, if_pos (by norm_num), ← e, ← e']
  · dsimp only; rw [g0, if_neg (by norm_num)]
  · dsimp only; rw [g0, if_neg (by norm_num)]

/-- C79. Potential vorticity: `(zeta + f)/h` times `havg/(2 omega)`, where `h = phi/g`; a quotient by zero exactly where the planet does not rotate or the
fluid has no depth. -/
theorem C79_potential_vorticity (be : C2R) (H : SweBuilt env A r d L) (P : SwePhys) (u : ℕ → ℕ → ℕ → ℂ) (hg0 : P.gravity ≠ 0) :
    ∃ F g q, SweFull.init env A P = .ok F ∧ F.core.spec2grid be ⟨3, L, L, u⟩ = .ok g ∧ F.potentialVorticity be ⟨3, L, L, u⟩ = .ok q ∧
      q.d0 = A.nlat ∧ q.d1 = A.nlon ∧ ∀ k < A.nlat, ∀ j < A.nlon,
        (q.val k j = none ↔ A.omega = 0 ∨ g.val 0 k j = 0) ∧
        (A.omega ≠ 0 → g.val 0 k j ≠ 0 → q.val k j = some ((g.val 1 k j + 2 * A.omega * Real.cos (Real.arccos (r.x (A.nlat - 1 - k))))
          / (g.val 0 k j / P.gravity) * (P.havg / (2 * A.omega)))) := by
  obtain ⟨F, hF, hS, hI, ho, hgr, hh, _⟩ := sweFull_init H P
  obtain ⟨g, hg, _, g1, g2, _⟩ := swe_spec2grid be H hI 3 u
  refine ⟨F, g, ⟨g.d1, g.d2, fun k j => if F.omega = 0 ∨ g.val 0 k j = 0 then none
      else some ((0.5 * F.havg * F.gravity / F.omega) * (g.val 1 k j + F.core.coriolis k) / g.val 0 k j)⟩, hF, hg, ?_, g1, g2, ?_⟩
  · unfold SweFull.potentialVorticity
    rw [hg]
  · intro k hk j hj
    dsimp only
    rw [ho]
    refine ⟨?_, fun h1 h2 => ?_⟩
    · split_ifs with h <;> simp [h]
    · rw [if_neg (by tauto), swe_coriolis H hI k hk, hh, hgr]
      congr 1
      field_simp
      ring

/-- C79. For a fluid at rest of uniform depth `havg` the potential vorticity is the sine of the latitude, whatever the constants. -/
theorem C79_potential_vorticity_rest (be : C2R) (H : SweBuilt env A r d L) (P : SwePhys) (hg0 : P.gravity ≠ 0) (hh0 : P.havg ≠ 0) (ho : A.omega ≠ 0)
    (u : ℕ → ℕ → ℕ → ℂ) (hu : ∀ e < 3, ∀ l < L, ∀ m < L, u e l m = if e = 0 ∧ l = 0 ∧ m = 0 then (Real.sqrt (4 * Real.pi) * (P.gravity * P.havg) : ℝ) else 0) :
    ∃ F q, SweFull.init env A P = .ok F ∧ F.potentialVorticity be ⟨3, L, L, u⟩ = .ok q ∧
      ∀ k < A.nlat, ∀ j < A.nlon, q.val k j = some (Real.sin (Real.pi / 2 - Real.arccos (r.x (A.nlat - 1 - k)))) := by
  obtain ⟨F, g, q, hF, hg, hq, _, _, hv⟩ := C79_potential_vorticity be H P u hg0
  obtain ⟨F', hF', hS, hI, _⟩ := sweFull_init H P
  rw [hF] at hF'; cases hF'
  obtain ⟨g', hg', _, _, _, gf⟩ := swe_spec2grid be H hI 3 u
  rw [hg] at hg'; cases hg'
  have hL := H.two
  have hn := H.lon_pos
  have hser : ∀ e < 3, ∀ k < A.nlat, ∀ j < A.nlon, g.val e k j = if e = 0 then P.gravity * P.havg else 0 := by
    intro e he k hk j hj
    obtain ⟨f, hf, _, _, hfe⟩ := gf e
    obtain ⟨I, f', hI', hf', _, _, hval⟩ := C59_synthesis_value env be A.transform r d L hn H.rule H.exact H.trunc (by omega) ⟨L, L, u e⟩ rfl rfl
    rw [hI.isht] at hI'; cases hI'
    rw [hf] at hf'; cases hf'
    rw [← hfe, hval k hk j hj]
    unfold harmonicSeries
    rw [sum_eq_single_of_mem 0 (by rw [mem_range]; omega), sum_eq_single_of_mem 0 (by rw [mem_range]; omega)]
    · dsimp only
      rw [hu e he 0 (by omega) 0 (by omega)]
      by_cases he0 : e = 0
      · simp only [he0, and_self, if_true, Complex.ofReal_re, Complex.ofReal_im, Nat.cast_zero, zero_mul, Real.cos_zero, mul_one, sub_zero]
        have e1 : synthFactor A.transform.norm A.transform.csphase 0 0 (Real.arccos (r.x (A.transform.nlat - 1 - k))) = legendreNorm 0 0 := by
          simp [synthFactor, csSign, tableScale, normScale, SweArgs.transform, legendreTheta, legendreDeriv, rodriguesBase]
        rw [e1, ← mul_assoc (legendreNorm 0 0), norm00]
        simp [realMult]
      · simp [he0]
    · intro l hl hl0
      dsimp only
      rw [hu e he l (mem_range.1 hl) 0 (by omega)]
      simp [hl0]
    · intro m hm hm0
      have hm1 := mem_range.1 hm
      rw [sum_eq_zero, mul_zero]
      intro l hl
      dsimp only
      rw [hu e he l (mem_range.1 hl) m (by omega)]
      simp [hm0]
  refine ⟨F, q, hF, hq, fun k hk j hj => ?_⟩
  have h0 : g.val 0 k j = P.gravity * P.havg := by rw [hser 0 (by norm_num) k hk j hj]; simp
  have h1 : g.val 1 k j = 0 := by rw [hser 1 (by norm_num) k hk j hj]; simp
  rw [(hv k hk j hj).2 ho (by rw [h0]; exact mul_ne_zero hg0 hh0), h0, h1, Real.sin_pi_div_two_sub]
  congr 1
  field_simp
  ring

/-- C79. `dimensionless` of gridded fields: height above `havg` in units of `hamp`, vorticity and divergence in units of `sqrt(g havg) / radius`. -/
theorem C79_dimensionless (H : SweBuilt env A r d L) (P : SwePhys) (hg0 : P.gravity ≠ 0) (u : ℕ → ℕ → ℕ → ℝ) :
    ∃ F, SweFull.init env A P = .ok F ∧ ∀ k j, F.dimensionless u 0 k j = (u 0 k j / P.gravity - P.havg) / P.hamp ∧
      ∀ e, e ≠ 0 → F.dimensionless u e k j = u e k j / (Real.sqrt (P.gravity * P.havg) / A.radius) := by
  obtain ⟨F, hF, hS, hI, _, hg, hh, ha, _⟩ := sweFull_init H P
  have hR := H.radius_ne
  refine ⟨F, hF, fun k j => ⟨?_, fun e he => ?_⟩⟩
  · unfold SweFull.dimensionless
    simp only [if_true, Algebra.algebraMap_self, RingHom.id_apply]
    rw [hg, hh, ha]
    by_cases hp : P.hamp = 0
    · simp [hp]
    · field_simp
  · unfold SweFull.dimensionless
    simp only [if_neg he, Algebra.algebraMap_self, RingHom.id_apply]
    rw [hg, hh, hI.radius, div_div_eq_mul_div]

/-- C79. Applied to spectral coefficients, which is what its argument is called, it does not: for the fluid at rest, whose height above `havg` is 0 everywhere,
it returns `-havg/hamp` at every degree and order but (0, 0): the mean is subtracted from all coefficients. -/
theorem C79_dimensionless_spectral (H : SweBuilt env A r d L) (P : SwePhys) (hg0 : P.gravity ≠ 0) (u : ℕ → ℕ → ℕ → ℂ)
    (hu : ∀ l m, u 0 l m = if l = 0 ∧ m = 0 then (Real.sqrt (4 * Real.pi) * (P.gravity * P.havg) : ℝ) else 0) :
    ∃ F, SweFull.init env A P = .ok F ∧ ∀ l m, ¬ (l = 0 ∧ m = 0) → F.dimensionless u 0 l m = (-(P.havg / P.hamp) : ℝ) := by
  obtain ⟨F, hF, hS, hI, _, hg, hh, ha, _⟩ := sweFull_init H P
  refine ⟨F, hF, fun l m h => ?_⟩
  unfold SweFull.dimensionless
  rw [if_pos rfl, hu l m, if_neg h, hg, hh, ha]
  simp only [Complex.coe_algebraMap]
  have hg' : (P.gravity : ℂ) ≠ 0 := by exact_mod_cast hg0
  by_cases hp : P.hamp = 0
  · simp [hp]
  · have hp' : (P.hamp : ℂ) ≠ 0 := by exact_mod_cast hp
    push_cast
    field_simp
    ring

/-- C79. `integrate_grid` with `polar_opt = p`: the integral without the `p` rows next to each pole; all rows if `p` is not positive; 0 if no row is left. -/
theorem C79_polar_opt (H : SweBuilt env A r d L) (hS : Swe.init env A = .ok S) (f : ℕ → ℕ → ℝ) (dl : Bool) (p : ℤ) :
    (p ≤ 0 → S.integrateGridPolar f dl p = S.integrateGrid f dl) ∧
      (0 < p → S.integrateGridPolar f dl p
        = S.integrateGrid (fun k j => if p ≤ k ∧ (k : ℤ) < A.nlat - p then f k j else 0) dl) ∧
      ((A.nlat : ℤ) ≤ 2 * p → 0 < p → S.integrateGridPolar f dl p = 0) := by
  obtain ⟨S', hS', hI⟩ := swe_init H
  rw [hS] at hS'; cases hS'
  have key : 0 < p → S.integrateGridPolar f dl p
        = S.integrateGrid (fun k j => if p ≤ k ∧ (k : ℤ) < A.nlat - p then f k j else 0) dl := by
    intro hp
    unfold Swe.integrateGridPolar Swe.integrateGrid
    rw [if_pos hp, hI.nlat]
    have hsub : Ico p.toNat (A.nlat - p.toNat) ⊆ range A.nlat := by
      intro k hk
      have := mem_Ico.1 hk
      rw [mem_range]; omega
    rw [← sum_subset hsub]
    · refine sum_congr rfl fun k hk => sum_congr rfl fun j _ => ?_
      have := mem_Ico.1 hk
      dsimp only
      rw [if_pos (show p ≤ k ∧ (k : ℤ) < A.nlat - p by omega)]
    · intro k hk hk'
      refine sum_eq_zero fun j _ => ?_
      have h1 := mem_range.1 hk
      rw [mem_Ico] at hk'
      dsimp only
      rw [if_neg (show ¬ (p ≤ k ∧ (k : ℤ) < A.nlat - p) by omega)]
      ring
  refine ⟨fun hp => ?_, key, fun h hp => ?_⟩
  · unfold Swe.integrateGridPolar
    rw [if_neg (by omega)]
  · unfold Swe.integrateGridPolar
    rw [if_pos hp, hI.nlat, Ico_eq_empty (by omega), sum_empty]

/-! ### C79: the data set -/

/-- The items of the data set: what `_get_sample` returns. -/
structure IsSample (be : C2R) (F : SweFull) (nsteps : ℤ) (ictype : String) (xi : ℕ → ℕ → ℕ → ℂ) (inp tar : Ten3 ℝ) : Prop where
  run : ∃ u w, (ictype = "random" ∧ u = F.randomState 0.2 xi ∨ ictype = "galewsky" ∧ F.galewsky be = .ok u) ∧
    F.core.timestep be u nsteps.toNat = .ok w ∧ F.core.spec2grid be u = .ok inp ∧ F.core.spec2grid be w = .ok tar
  shape : inp.d0 = 3 ∧ inp.d1 = F.core.nlat ∧ inp.d2 = F.core.nlon ∧ tar.d0 = 3 ∧ tar.d1 = F.core.nlat ∧ tar.d2 = F.core.nlon

theorem pde_sample (be : C2R) (H : SweBuilt env A r d L) (F : SweFull) (hS : Swe.init env A = .ok F.core) (hI : SweIs env A r L F.core) (nsteps : ℤ)
    (ictype : String) (h : ictype = "random" ∨ ictype = "galewsky") (xi : ℕ → ℕ → ℕ → ℂ) :
    ∃ inp tar, pdeSample be F nsteps ictype xi = .ok (inp, tar) ∧ IsSample be F nsteps ictype xi inp tar := by
  have hu : ∃ u : Ten3 ℂ, (if ictype = "random" then .ok (F.randomState 0.2 xi) else if ictype = "galewsky" then F.galewsky be else .error .nameError) = Except.ok u ∧
      (ictype = "random" ∧ u = F.randomState 0.2 xi ∨ ictype = "galewsky" ∧ F.galewsky be = .ok u) ∧ u.d0 = 3 ∧ u.d1 = L ∧ u.d2 = L := by
    rcases h with h | h
    · exact ⟨F.randomState 0.2 xi, by rw [if_pos h], Or.inl ⟨h, rfl⟩, rfl, hI.lmax, hI.mmax⟩
    · obtain ⟨u, _, _, _, _, _, hu, u0, u1, u2, _⟩ := galewsky_steps be H F hS hI
      exact ⟨u, by rw [if_neg (by rw [h]; decide), if_pos h]; exact hu, Or.inr ⟨h, hu⟩, u0, u1, u2⟩
  obtain ⟨u, hu, hc, u0, u1, u2⟩ := hu
  obtain ⟨S', _, _, hS', _, _, hw⟩ := C23_timestep env be A r d L H u u0 u1 u2
  rw [hS] at hS'; cases hS'
  obtain ⟨w, hw, w0, w1, w2, _⟩ := hw nsteps.toNat
  obtain ⟨gi, hgi, i0, i1, i2, _⟩ := swe_spec2grid be H hI 3 u.val
  obtain ⟨gt, hgt, t0, t1, t2, _⟩ := swe_spec2grid be H hI 3 w.val
  rw [← ten3_eta u u0 u1 u2] at hgi
  rw [← ten3_eta w w0 w1 w2] at hgt
  refine ⟨gi, gt, ?_, ⟨⟨u, w, hc, hw, hgi, hgt⟩, i0, ?_, ?_, t0, ?_, ?_⟩⟩
  · unfold pdeSample
    rw [hu]
    dsimp only
    rw [hw]
    dsimp only
    rw [hgi]
    dsimp only
    rw [hgt]
  all_goals first | rw [hI.nlat]; assumption | rw [hI.nlon]; assumption

/-- C79. After `set_initial_condition` the items are samples of the new kind, but they are shifted and scaled by the mean and variance of the sample of the old kind
that was drawn at construction. -/
theorem C79_dataset_switch (be : C2R) (a : PdeDsArgs) (hp : a.pde = "shallow water equations") (hs : a.nsteps ≠ 0) (hi : a.ictype = "random" ∨ a.ictype = "galewsky")
    (H : SweBuilt env a.solver r d L) (xi0 : ℕ → ℕ → ℕ → ℂ) :
    ∃ D inp0 tar0, PdeDs.init env be a xi0 = .ok D ∧ D.ictype = a.ictype ∧ SweFull.init env a.solver swePhysDefault = .ok D.solver ∧
      D.solver.core.dt = a.dt / a.nsteps ∧ D.solver.core.nlat = a.nlat ∧ D.solver.core.nlon = a.nlon ∧
      IsSample be D.solver a.nsteps a.ictype xi0 inp0 tar0 ∧
      ∀ ictype', (ictype' = "random" ∨ ictype' = "galewsky") → ∀ (index : ℤ) (xi : ℕ → ℕ → ℕ → ℂ), ∃ inp tar x y,
        IsSample be D.solver a.nsteps ictype' xi inp tar ∧ (D.setInitialCondition ictype').getitem be index xi = .ok (x, y) ∧
        x.d0 = 3 ∧ x.d1 = a.nlat ∧ x.d2 = a.nlon ∧ y.d0 = 3 ∧ y.d1 = a.nlat ∧ y.d2 = a.nlon ∧
        ∀ c k j, (a.normalize = false → x.val c k j = some (inp.val c k j) ∧ y.val c k j = some (tar.val c k j)) ∧
          (a.normalize = true → chanVar inp0 c ≠ 0 →
            x.val c k j = some ((inp.val c k j - chanMean inp0 c) / Real.sqrt (chanVar inp0 c)) ∧
            y.val c k j = some ((tar.val c k j - chanMean inp0 c) / Real.sqrt (chanVar inp0 c))) ∧
          (a.normalize = true → chanVar inp0 c = 0 → x.val c k j = none ∧ y.val c k j = none) := by
  obtain ⟨F, hF, hS, hI, _⟩ := sweFull_init H swePhysDefault
  obtain ⟨inp0, tar0, h0, s0⟩ := pde_sample be H F hS hI a.nsteps a.ictype hi xi0
  have hdt : F.core.dt = a.dt / a.nsteps := hI.dt
  have hla : F.core.nlat = a.nlat := hI.nlat
  have hlo : F.core.nlon = a.nlon := hI.nlon
  have hD : ∃ D, PdeDs.init env be a xi0 = .ok D ∧ D.solver = F ∧ D.nsteps = a.nsteps ∧ D.ictype = a.ictype ∧ D.normalize = a.normalize ∧
      (a.normalize = true → D.mean = chanMean inp0 ∧ D.var = chanVar inp0) := by
    unfold PdeDs.init
    rw [if_neg (by simp [hp]), if_neg hs, hF]
    dsimp only
    by_cases hn : a.normalize = true
    · rw [if_pos hn, h0]
      exact ⟨_, rfl, rfl, rfl, rfl, hn.symm, fun _ => ⟨rfl, rfl⟩⟩
    · rw [if_neg hn]
      exact ⟨_, rfl, rfl, rfl, rfl, by simpa using (Bool.not_eq_true _ ▸ hn : a.normalize = false).symm, fun h => absurd h hn⟩
  obtain ⟨D, hD, d1, d2, d3, d4, d5⟩ := hD
  refine ⟨D, inp0, tar0, hD, d3, by rw [d1]; exact hF, by rw [d1, hdt], by rw [d1, hla], by rw [d1, hlo], by rw [d1]; exact s0, fun ictype' hi' index xi => ?_⟩
  obtain ⟨inp, tar, h1, s1⟩ := pde_sample be H F hS hI a.nsteps ictype' hi' xi
  obtain ⟨z0, z1, z2, z3, z4, z5⟩ := s1.shape
  refine ⟨inp, tar, D.scale inp, D.scale tar, by rw [d1]; exact s1, ?_, z0, by rw [← hla]; exact z1, by rw [← hlo]; exact z2, z3, by rw [← hla]; exact z4,
    by rw [← hlo]; exact z5, fun c k j => ⟨fun hn => ?_, fun hn hv => ?_, fun hn hv => ?_⟩⟩
  · unfold PdeDs.getitem PdeDs.setInitialCondition
    dsimp only
    rw [d1, d2, h1]
    rfl
  · unfold PdeDs.scale
    dsimp only
    rw [d4, hn]
    simp
  · obtain ⟨m1, m2⟩ := d5 hn
    unfold PdeDs.scale
    dsimp only
    rw [d4, hn, m1, m2, if_pos rfl, if_neg hv, if_pos rfl, if_neg hv]
    exact ⟨rfl, rfl⟩
  · obtain ⟨m1, m2⟩ := d5 hn
    unfold PdeDs.scale
    dsimp only
    rw [d4, hn, m1, m2, if_pos rfl, if_pos hv, if_pos rfl, if_pos hv]
    exact ⟨rfl, rfl⟩

/-- C79. The data set, for either initial condition: every index, whatever its value, gives a pair of shape `(3, nlat, nlon)`: the gridded initial state, and the
gridded state after `nsteps` steps of length `dt/nsteps`. With `normalize` both are shifted and scaled, field by field, by the mean and the (unbiased) variance of the
one sample drawn at construction. -/
theorem C79_dataset (be : C2R) (a : PdeDsArgs) (hp : a.pde = "shallow water equations") (hs : a.nsteps ≠ 0) (hi : a.ictype = "random" ∨ a.ictype = "galewsky")
    (H : SweBuilt env a.solver r d L) (xi0 : ℕ → ℕ → ℕ → ℂ) :
    ∃ D inp0 tar0, PdeDs.init env be a xi0 = .ok D ∧ SweFull.init env a.solver swePhysDefault = .ok D.solver ∧
      D.solver.core.dt = a.dt / a.nsteps ∧ D.solver.core.nlat = a.nlat ∧ D.solver.core.nlon = a.nlon ∧
      IsSample be D.solver a.nsteps a.ictype xi0 inp0 tar0 ∧
      ∀ (index : ℤ) (xi : ℕ → ℕ → ℕ → ℂ), ∃ inp tar x y, IsSample be D.solver a.nsteps a.ictype xi inp tar ∧ D.getitem be index xi = .ok (x, y) ∧
        x.d0 = 3 ∧ x.d1 = a.nlat ∧ x.d2 = a.nlon ∧ y.d0 = 3 ∧ y.d1 = a.nlat ∧ y.d2 = a.nlon ∧
        ∀ c k j, (a.normalize = false → x.val c k j = some (inp.val c k j) ∧ y.val c k j = some (tar.val c k j)) ∧
          (a.normalize = true → chanVar inp0 c ≠ 0 →
            x.val c k j = some ((inp.val c k j - chanMean inp0 c) / Real.sqrt (chanVar inp0 c)) ∧
            y.val c k j = some ((tar.val c k j - chanMean inp0 c) / Real.sqrt (chanVar inp0 c))) ∧
          (a.normalize = true → chanVar inp0 c = 0 → x.val c k j = none ∧ y.val c k j = none) := by
  obtain ⟨D, inp0, tar0, h1, h2, h3, h4, h5, h6, h7, h8⟩ := C79_dataset_switch be a hp hs hi H xi0
  refine ⟨D, inp0, tar0, h1, h3, h4, h5, h6, h7, fun index xi => ?_⟩
  have := h8 a.ictype hi index xi
  rw [← h2] at this ⊢
  exact this

theorem chan_scale (x y : Ten3 ℝ) (c : ℕ) (hy : y.d1 = x.d1 ∧ y.d2 = x.d2) (hv : chanVar x c ≠ 0)
    (h : ∀ k j, y.val c k j = (x.val c k j - chanMean x c) / Real.sqrt (chanVar x c)) : chanMean y c = 0 ∧ chanVar y c = 1 := by
  set N : ℕ := x.d1 * x.d2 with hN
  have hN2 : 2 ≤ N := by
    by_contra hlt
    have h01 : N = 0 ∨ N = 1 := by omega
    rcases h01 with h0 | h1
    · apply hv
      unfold chanVar
      rcases Nat.mul_eq_zero.1 (hN.symm.trans h0) with h | h <;> simp [h]
    · apply hv
      unfold chanVar
      rw [← hN, h1]; simp
  have hN0 : (N : ℝ) ≠ 0 := by exact_mod_cast (by omega : N ≠ 0)
  have hN1 : 0 < (N : ℝ) - 1 := by
    have : (2 : ℝ) ≤ N := by exact_mod_cast hN2
    linarith
  have hv0 : 0 ≤ chanVar x c := by
    unfold chanVar
    rw [← hN]
    exact div_nonneg (sum_nonneg fun k _ => sum_nonneg fun j _ => sq_nonneg _) hN1.le
  have hsum : ∑ k ∈ range x.d1, ∑ j ∈ range x.d2, (x.val c k j - chanMean x c) = 0 := by
    simp only [sum_sub_distrib, sum_const, card_range, nsmul_eq_mul]
    have : chanMean x c * N = ∑ k ∈ range x.d1, ∑ j ∈ range x.d2, x.val c k j := by
      unfold chanMean
      rw [← hN, div_mul_cancel₀ _ hN0]
    have e : (x.d1 : ℝ) * ((x.d2 : ℝ) * chanMean x c) = chanMean x c * N := by rw [hN]; push_cast; ring
    rw [e, this, sub_self]
  have hm : chanMean y c = 0 := by
    unfold chanMean
    rw [hy.1, hy.2]
    simp only [h, ← sum_div]
    rw [hsum]; simp
  refine ⟨hm, ?_⟩
  have e : chanVar x c * ((N : ℝ) - 1) = ∑ k ∈ range x.d1, ∑ j ∈ range x.d2, (x.val c k j - chanMean x c) ^ 2 := by
    conv_lhs => unfold chanVar
    rw [← hN, div_mul_cancel₀ _ hN1.ne']
  unfold chanVar
  rw [hm, hy.1, hy.2, ← hN]
  simp only [h, sub_zero, div_pow, ← sum_div]
  rw [← e, Real.sq_sqrt hv0, mul_div_cancel_left₀ _ hv, div_self hN1.ne']

/-- C79. With `normalize`, every field of the Galewsky item that varies at all over the grid has mean 0 and variance 1 over the grid points. (For random initial
states the shift and the scale come from another sample, `C79_dataset`.) -/
theorem C79_dataset_normalised (be : C2R) (a : PdeDsArgs) (hp : a.pde = "shallow water equations") (hs : a.nsteps ≠ 0) (hi : a.ictype = "galewsky")
    (hn : a.normalize = true) (H : SweBuilt env a.solver r d L) (xi0 : ℕ → ℕ → ℕ → ℂ) :
    ∃ D inp, PdeDs.init env be a xi0 = .ok D ∧ (∃ u, D.solver.galewsky be = .ok u ∧ D.solver.core.spec2grid be u = .ok inp) ∧
      ∀ index xi, ∃ x y, D.getitem be index xi = .ok (x, y) ∧ ∀ c, chanVar inp c ≠ 0 →
        ∃ f : Ten3 ℝ, f.d0 = 3 ∧ f.d1 = a.nlat ∧ f.d2 = a.nlon ∧ (∀ k j, x.val c k j = some (f.val c k j)) ∧ chanMean f c = 0 ∧ chanVar f c = 1 := by
  obtain ⟨D, inp0, tar0, hD, _, _, hla, hlo, s0, hget⟩ := C79_dataset be a hp hs (Or.inr hi) H xi0
  have hr : ∀ xi inp tar, IsSample be D.solver a.nsteps a.ictype xi inp tar → ∃ u, D.solver.galewsky be = .ok u ∧ D.solver.core.spec2grid be u = .ok inp := by
    intro xi inp tar hs
    obtain ⟨u, w, hc, _, h2, _⟩ := hs.run
    rcases hc with ⟨h, _⟩ | ⟨_, h⟩
    · rw [hi] at h; exact absurd h (by decide)
    · exact ⟨u, h, h2⟩
  obtain ⟨u, hu, hg⟩ := hr xi0 inp0 tar0 s0
  refine ⟨D, inp0, hD, ⟨u, hu, hg⟩, fun index xi => ?_⟩
  obtain ⟨inp, tar, x, y, s1, h1, _, _, _, _, _, _, hval⟩ := hget index xi
  obtain ⟨u', hu', hg'⟩ := hr xi inp tar s1
  rw [hu] at hu'; cases hu'
  rw [hg] at hg'; cases hg'
  refine ⟨x, y, h1, fun c hc => ?_⟩
  obtain ⟨z0, z1, z2, _⟩ := s0.shape
  refine ⟨⟨3, a.nlat, a.nlon, fun c k j => (inp0.val c k j - chanMean inp0 c) / Real.sqrt (chanVar inp0 c)⟩, rfl, rfl, rfl,
    fun k j => ((hval c k j).2.1 hn hc).1, ?_⟩
  exact chan_scale inp0 _ c ⟨by rw [z1, hla], by rw [z2, hlo]⟩ hc (fun k j => rfl)

/-- C79. The divergence of the Galewsky item is 0 everywhere, so that its variance is 0 and `normalize` (the default) divides 0 by 0: the field has no
value at any point of the input. -/
theorem C79_dataset_divergence (be : C2R) (a : PdeDsArgs) (hp : a.pde = "shallow water equations") (hs : a.nsteps ≠ 0) (hi : a.ictype = "galewsky")
    (hn : a.normalize = true) (H : SweBuilt env a.solver r d L) (xi0 : ℕ → ℕ → ℕ → ℂ) :
    ∃ D, PdeDs.init env be a xi0 = .ok D ∧ ∀ index xi, ∃ x y, D.getitem be index xi = .ok (x, y) ∧ ∀ k j, x.val 2 k j = none ∧ y.val 2 k j = none := by
  obtain ⟨D, inp0, tar0, hD, hF, _, hla, hlo, s0, hget⟩ := C79_dataset be a hp hs (Or.inr hi) H xi0
  obtain ⟨F, u, hF', hu, u0, u1, u2, _, hdiv, _⟩ := C79_galewsky be H swePhysDefault
  rw [hF] at hF'; cases hF'
  obtain ⟨F, hF', hS, hI, _⟩ := sweFull_init H swePhysDefault
  rw [hF] at hF'; cases hF'
  have hL := H.two
  have hlonpos : 0 < a.nlon := H.lon_pos
  obtain ⟨u', w, hc, _, hg, _⟩ := s0.run
  have huu : u' = u := by
    rcases hc with ⟨h, _⟩ | ⟨_, h⟩
    · rw [hi] at h; exact absurd h (by decide)
    · rw [hu] at h; exact (Except.ok.inj h).symm
  subst huu
  obtain ⟨g, hg', _, _, _, gf⟩ := swe_spec2grid be H hI 3 u'.val
  rw [← ten3_eta u' u0 u1 u2, hg] at hg'; cases hg'
  obtain ⟨f, hf, _, _, hfe⟩ := gf 2
  obtain ⟨q, hq, _, _, qv⟩ := inverseRealSHT_forward be D.solver.core.isht ⟨L, L, u'.val 2⟩ hI.s2.2.2.1.symm hI.s2.2.2.2.symm (by rw [hI.s2.2.2.2]; omega)
    (by rw [hI.s2.2.1]; exact hlonpos)
  rw [hf] at hq; cases hq
  have hz : ∀ k, ∀ j < a.nlon, inp0.val 2 k j = 0 := by
    intro k j hj
    rw [← hfe, qv k j (by rw [hI.s2.2.1]; exact hj)]
    have e : (fun m => if m < D.solver.core.isht.mmax then ∑ l ∈ range D.solver.core.isht.lmax,
        (if m = 0 ∨ 2 * m = D.solver.core.isht.nlon then ((u'.val 2 l m).re : ℂ) else u'.val 2 l m) * (D.solver.core.isht.pct m k l : ℂ) else 0)
        = fun _ => 0 := by
      funext m
      split_ifs with h
      · refine sum_eq_zero fun l hl => ?_
        rw [hdiv l (by rw [← hI.s2.2.2.1]; exact mem_range.1 hl) m (by rw [← hI.s2.2.2.2]; exact h)]; simp
      · refine sum_eq_zero fun l hl => ?_
        rw [hdiv l (by rw [← hI.s2.2.2.1]; exact mem_range.1 hl) m (by rw [← hI.s2.2.2.2]; exact h)]; simp
      · rfl
    dsimp only
    rw [e]
    simp [synth]
  obtain ⟨z0, z1, z2, _⟩ := s0.shape
  have hm : chanMean inp0 2 = 0 := by
    unfold chanMean
    rw [sum_eq_zero fun k _ => sum_eq_zero fun j hj => hz k j (by rw [← hlo, ← z2]; exact mem_range.1 hj), zero_div]
  have hv : chanVar inp0 2 = 0 := by
    unfold chanVar
    rw [hm, sum_eq_zero fun k _ => sum_eq_zero fun j hj => by rw [hz k j (by rw [← hlo, ← z2]; exact mem_range.1 hj)]; simp, zero_div]
  refine ⟨D, hD, fun index xi => ?_⟩
  obtain ⟨_, _, x, y, _, h1, _, _, _, _, _, _, hval⟩ := hget index xi
  exact ⟨x, y, h1, fun k j => (hval 2 k j).2.2 hn hv⟩

/-- C79. `len` is `num_examples` for random initial states and 1 otherwise, but no index is out of range: the item does not depend on the index, and a plain
`for x in dataset`, which ends at the first `IndexError`, never ends. -/
theorem C79_dataset_len (be : C2R) (a : PdeDsArgs) (hp : a.pde = "shallow water equations") (hs : a.nsteps ≠ 0) (hi : a.ictype = "random" ∨ a.ictype = "galewsky")
    (H : SweBuilt env a.solver r d L) (xi0 : ℕ → ℕ → ℕ → ℂ) :
    ∃ D, PdeDs.init env be a xi0 = .ok D ∧ (a.ictype = "random" → D.len = a.numExamples ∧ ∀ n, (D.setNumExamples n).len = n) ∧ (a.ictype = "galewsky" → D.len = 1) ∧
      ∀ index xi, (∃ p, D.getitem be index xi = .ok p) ∧ ∀ index', D.getitem be index' xi = D.getitem be index xi := by
  obtain ⟨D, inp0, tar0, hD, _, _, _, _, _, hget⟩ := C79_dataset be a hp hs hi H xi0
  have hf : D.ictype = a.ictype ∧ D.numExamples = a.numExamples := by
    unfold PdeDs.init at hD
    rw [if_neg (by simp [hp]), if_neg hs] at hD
    split at hD
    · cases hD
    · by_cases hn : a.normalize = true
      · rw [if_pos hn] at hD
        split at hD
        · cases hD
        · cases hD; exact ⟨rfl, rfl⟩
      · rw [if_neg hn] at hD
        cases hD; exact ⟨rfl, rfl⟩
  refine ⟨D, hD, fun h => ⟨?_, fun n => ?_⟩, fun h => ?_, fun index xi => ⟨?_, fun _ => rfl⟩⟩
  · unfold PdeDs.len; rw [hf.1, if_pos h, hf.2]
  · unfold PdeDs.len PdeDs.setNumExamples; dsimp only; rw [hf.1, if_pos h]
  · unfold PdeDs.len; rw [hf.1, if_neg (by rw [h]; decide)]
  · obtain ⟨_, _, x, y, _, h1, _⟩ := hget index xi
    exact ⟨_, h1⟩

/-- C79. A negative number of steps is accepted (a negative step length, no step taken): the target equals the input. -/
theorem C79_dataset_negative_steps (be : C2R) (F : SweFull) (n : ℤ) (hn : n < 0) (ictype : String) (xi : ℕ → ℕ → ℕ → ℂ) (inp tar : Ten3 ℝ)
    (h : IsSample be F n ictype xi inp tar) : tar = inp := by
  obtain ⟨u, w, _, h1, h2, h3⟩ := h.run
  unfold Swe.timestep at h1
  rw [if_pos (by omega)] at h1
  cases h1
  rw [h2] at h3
  exact (Except.ok.inj h3).symm

/-- C79 (error branches). An unknown equation is `NotImplementedError`, before anything else is looked at; zero steps are a `ZeroDivisionError`; an unknown initial
condition is not looked at by the constructor: without `normalize` it raises (an unbound name) only when an item is taken. -/
theorem C79_dataset_errors (be : C2R) (a : PdeDsArgs) (xi0 : ℕ → ℕ → ℕ → ℂ) :
    (a.pde ≠ "shallow water equations" → PdeDs.init env be a xi0 = .error .notImplemented) ∧
      (a.pde = "shallow water equations" → a.nsteps = 0 → PdeDs.init env be a xi0 = .error .zeroDivision) ∧
      (a.pde = "shallow water equations" → a.nsteps ≠ 0 → a.ictype ≠ "random" → a.ictype ≠ "galewsky" → SweBuilt env a.solver r d L →
        (a.normalize = true → PdeDs.init env be a xi0 = .error .nameError) ∧
        (a.normalize = false → ∃ D, PdeDs.init env be a xi0 = .ok D ∧ ∀ index xi, D.getitem be index xi = .error .nameError)) := by
  refine ⟨fun h => by unfold PdeDs.init; rw [if_pos h], fun h h0 => by unfold PdeDs.init; rw [if_neg (by simp [h]), if_pos h0], fun h h0 h1 h2 H => ?_⟩
  obtain ⟨F, hF, _⟩ := sweFull_init H swePhysDefault
  have hs : ∀ xi, pdeSample be F a.nsteps a.ictype xi = .error .nameError := by
    intro xi
    unfold pdeSample
    rw [if_neg h1, if_neg h2]
  refine ⟨fun hn => ?_, fun hn => ?_⟩
  · unfold PdeDs.init
    rw [if_neg (by simp [h]), if_neg h0, hF]
    dsimp only
    rw [if_pos hn, hs]
  · refine ⟨⟨F, a.nsteps, a.ictype, a.numExamples, false, fun _ => 0, fun _ => 0⟩, ?_, fun index xi => ?_⟩
    · unfold PdeDs.init
      rw [if_neg (by simp [h]), if_neg h0, hF]
      dsimp only
      rw [hn]
      simp
    · unfold PdeDs.getitem
      dsimp only
      rw [hs]

/-- The solver of the data set is built, with a third as many degrees as latitudes, for at least four latitudes and longitudes enough for these orders. -/
theorem C79_dataset_built (env : Env) (a : PdeDsArgs) (hg : a.grid = "equiangular" ∨ (a.grid = "legendre-gauss" ∧ IsGaussRule (env.gauss a.nlat) a.nlat))
    (h : 4 ≤ a.nlat) (h' : 2 ≤ a.nlon) (ho : 2 * ((a.nlat + 2) / 3 - 1) ≤ a.nlon) : ∃ r d, SweBuilt env a.solver r d ((a.nlat + 2) / 3) := by
  obtain ⟨r, d, L, h1, h2, h3, h4, h5, h6⟩ := default_grid env ⟨a.nlat, 2 * a.nlat, none, none, a.grid, "ortho", false⟩ hg (by show 2 ≤ a.nlat; omega)
    (by show 1 ≤ 2 * a.nlat; omega) rfl rfl
  refine ⟨r, d, by show 0 < a.nlon; omega, by show (6371220 : ℝ) ≠ 0; norm_num, h1, h2, ?_, by omega, ?_, ho⟩
  · show sizes a.nlat a.nlon (some (((a.nlat + 2) / 3 : ℕ) : ℤ)) (some (((a.nlat + 2) / 3 : ℕ) : ℤ)) a.grid = _
    unfold sizes truncateSht pyOr
    have h0 : (((a.nlat + 2) / 3 : ℕ) : ℤ) ≠ 0 := by omega
    simp only [except_bind_ok, pure, Except.pure, if_neg h0, min_self]
    rw [if_neg (by omega), Int.toNat_natCast]
  · have hs : ∃ b : ℤ, ((a.nlat : ℤ) + 1) / 2 ≤ b ∧ truncateLmax a.nlat a.grid = .ok b := by
      rcases hg with hg | ⟨hg, _⟩
      · exact ⟨((a.nlat : ℤ) + 1) / 2, le_refl _, by rw [hg]; simp [truncateLmax]⟩
      · exact ⟨a.nlat, by omega, by rw [hg]; simp [truncateLmax]⟩
    obtain ⟨b, hb, hs⟩ := hs
    have h3' : sizes a.nlat (2 * a.nlat : ℕ) none none a.grid = .ok (L, L) := h3
    unfold sizes truncateSht pyOr at h3'
    rw [hs] at h3'
    simp only [except_bind_ok, pure, Except.pure] at h3'
    have hm : truncateMmax ((2 * a.nlat : ℕ) : ℤ) = a.nlat + 1 := by unfold truncateMmax; omega
    rw [hm, if_neg (by omega)] at h3'
    have := congrArg Prod.fst (Except.ok.inj h3')
    dsimp only at this
    omega

/-- Non-vacuity: the default grid of the data set, one hour in 30 steps. -/
example (env : Env) (be : C2R) (xi0 : ℕ → ℕ → ℕ → ℂ) : ∃ D, PdeDs.init env be ⟨3600, 30, 384, 768, "equiangular", "shallow water equations", "random", 32, true⟩ xi0 = .ok D ∧
    D.len = 32 := by
  obtain ⟨r, d, H⟩ := C79_dataset_built env ⟨3600, 30, 384, 768, "equiangular", "shallow water equations", "random", 32, true⟩ (Or.inl rfl) (by norm_num) (by norm_num)
    (by norm_num)
  obtain ⟨D, hD, h1, _⟩ := C79_dataset_len be _ rfl (by norm_num) (Or.inl rfl) H xi0
  exact ⟨D, hD, (h1 rfl).1⟩

/-- The default solver grid satisfies the hypotheses of the other theorems, and its jet blows: some rows lie in the band. -/
example : 0 < galJet (Real.pi / 4) ∧ galJet 0 = 0 := by
  have hp := Real.pi_pos
  exact ⟨((C79_jet (Real.pi / 4)).2 (by linarith) (by linarith)).1, (C79_jet 0).1 (Or.inl (by positivity))⟩

/-- A random state with a nonzero mean vorticity: `C79_random` with `xi = 1`. -/
example (env : Env) (be : C2R) : ∃ F g, SweFull.init env ⟨16, 32, 600, none, none, "equiangular", 6371220, 7292 / 100000000⟩ swePhysDefault = .ok F ∧
    F.core.spec2grid be (F.randomState 0.2 fun _ _ _ => 1) = .ok g ∧ F.core.integrateGrid (g.val 1) false ≠ 0 := by
  obtain ⟨r, d, L, H⟩ := C22_default env ⟨16, 32, 600, none, none, "equiangular", 6371220, 7292 / 100000000⟩ (Or.inl rfl) (by norm_num) (by norm_num) rfl rfl (by norm_num)
  obtain ⟨F, hF, _, _, _, _, _, _, _, g, hg, _, _, _, _, h⟩ := C79_random be H swePhysDefault 0.2 (fun _ _ _ => 1)
  refine ⟨F, g, hF, hg, ?_⟩
  rw [h]
  have hp := Real.pi_pos
  have : 0 < Real.sqrt (swePhysDefault.gravity * swePhysDefault.havg) := Real.sqrt_pos.2 (by unfold swePhysDefault; norm_num)
  simp only [Complex.one_re]
  positivity

end Verif.Props
