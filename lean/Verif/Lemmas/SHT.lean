import Verif.Model.SHT
import Verif.Spec.SHT
import Verif.Props.Legendre
import Verif.Props.QuadratureS2
import Verif.Props.FFT
import Verif.Props.Truncation
/-!
Values of the transforms, and discrete orthogonality of the Legendre functions.
-/
theorem Verif.except_bind_ok {ε α β : Type} (x : α) (f : α → Except ε β) : ((Except.ok x : Except ε α) >>= f) = f x := rfl

namespace Verif.SHT
open Verif Verif.Dist Verif.FFT Verif.Quad Verif.Legendre Verif.Truncation Verif.Spec Verif.Props Verif.Leg Finset Polynomial

theorem mapRows_ok {α β : Type} {f : Vec α → Except PyErr (Vec β)} {x : Mat α} (g : ℕ → Vec β)
    (h : ∀ k, f ⟨x.d1, x.val k⟩ = .ok (g k)) : mapRows f x = .ok ⟨x.d0, (g 0).len, fun k j => (g k).val j⟩ := by
  unfold mapRows
  simp only [h]

theorem mk_sum {ι : Type} (s : Finset ι) (f : ι → ℂ) (w : ι → ℝ) :
    (⟨∑ k ∈ s, (f k).re * w k, ∑ k ∈ s, (f k).im * w k⟩ : ℂ) = ∑ k ∈ s, f k * (w k : ℂ) := by
  apply Complex.ext <;> simp [Complex.re_sum, Complex.im_sum]

theorem rfftRows (x : Mat ℝ) (hx : 0 < x.d1) (M : ℕ) :
    ∃ y, mapRows (fun v => rfft .forward false v (some M)) x = .ok y ∧ y.d0 = x.d0 ∧ y.d1 = M ∧
      ∀ k, ∀ m < M, y.val k m = if m ≤ x.d1 / 2 then (1 / x.d1 : ℂ) * dft x.d1 (x.val k) m else 0 := by
  have h := fun k => C12_rfft_value .forward ⟨x.d1, x.val k⟩ hx M
  choose g hg hl hv using h
  refine ⟨_, mapRows_ok g hg, rfl, hl 0, ?_⟩
  intro k m hm
  simp only
  rw [hv k m hm]
  simp [FFTNorm.fwd]

theorem irfftRows (be : C2R) (x : Mat ℂ) (hx : 0 < x.d1) (n : ℕ) (hn : 0 < n) :
    ∃ y, mapRows (fun v => irfft be .forward v (some n)) x = .ok y ∧ y.d0 = x.d0 ∧ y.d1 = n ∧
      ∀ k, ∀ j < n, y.val k j = synth n (fun m => if m < x.d1 then
        (if m = 0 ∨ 2 * m = n then ((x.val k m).re : ℂ) else x.val k m) else 0) j := by
  have h := fun k => C13_irfft_value be .forward ⟨x.d1, x.val k⟩ hx n hn
  choose g hg hl hv using h
  refine ⟨_, mapRows_ok g hg, rfl, hl 0, ?_⟩
  intro k j hj
  simp only
  rw [hv k j hj]
  simp [FFTNorm.inv]

theorem dft_congr (n : ℕ) (x y : ℕ → ℝ) (h : ∀ j < n, x j = y j) (k : ℕ) : dft n x k = dft n y k := by
  unfold dft
  exact sum_congr rfl fun j hj => by rw [h j (mem_range.1 hj)]

theorem dft_synth (n : ℕ) (hn : 0 < n) (X : ℕ → ℂ) (h0 : (X 0).im = 0) (h1 : ∀ k, 2 * k = n → (X k).im = 0) (q : ℕ)
    (hq : q ≤ n / 2) : dft n (synth n X) q = n * X q := by
  rw [← dft_c2r hn.ne' X h0 (fun h => h1 _ (by omega)) q hq, ← sum_root_eq_dft]
  simp only [c2rValue_eq_synth]

theorem sizes_eq (nlat nlon : ℕ) (lmax mmax : Option ℤ) (grid : String) (L M : ℕ)
    (h : sizes nlat nlon lmax mmax grid = .ok (L, M)) : L = M ∧ truncateSht nlat nlon lmax mmax grid = .ok ((L : ℤ), (L : ℤ)) := by
  unfold sizes at h
  split at h
  · cases h
  · next L' M' h' =>
    have := C01_truncation_sound _ _ _ _ _ _ _ h'
    split at h
    · cases h
    · cases h
      obtain ⟨rfl, _⟩ := this
      refine ⟨rfl, ?_⟩
      rw [h']
      congr 2 <;> omega

theorem realSHT_init (env : Env) (a : Args) (r : Rule) (L : ℕ)
    (hr : gridRule env.gauss env.tol env.maxiter a.nlat a.grid = .ok r)
    (hL : sizes a.nlat a.nlon a.lmax a.mmax a.grid = .ok (L, L)) (h0 : 0 < L) :
    RealSHT.init env a = .ok ⟨a.nlat, a.nlon, L, L,
      fun m l k => legpolyVal L L a.norm false a.csphase (Real.cos (colat r k)) m l * r.w k⟩ := by
  have : ¬ max L L = 0 := by simp; omega
  simp only [RealSHT.init, hr, hL, legpolyTensor, except_bind_ok, if_neg this]
  rfl

theorem inverseRealSHT_init (env : Env) (a : Args) (r : Rule) (L : ℕ)
    (hr : gridRule env.gauss env.tol env.maxiter a.nlat a.grid = .ok r)
    (hL : sizes a.nlat a.nlon a.lmax a.mmax a.grid = .ok (L, L)) (h0 : 0 < L) :
    InverseRealSHT.init env a = .ok ⟨a.nlat, a.nlon, L, L,
      fun m k l => legpolyVal L L a.norm true a.csphase (Real.cos (colat r k)) m l⟩ := by
  have : ¬ max L L = 0 := by simp; omega
  simp only [InverseRealSHT.init, hr, hL, legpolyTensor, except_bind_ok, if_neg this]
  rfl

theorem realSHT_forward (S : RealSHT) (x : Mat ℝ) (h0 : x.d0 = S.nlat) (h1 : x.d1 = S.nlon) (hn : 0 < S.nlon) :
    ∃ c, S.forward x = .ok c ∧ c.d0 = S.lmax ∧ c.d1 = S.mmax ∧ ∀ l, ∀ m < S.mmax,
      c.val l m = ∑ k ∈ range S.nlat, (2 * Real.pi * (if m ≤ S.nlon / 2 then (1 / S.nlon : ℂ) * dft S.nlon (x.val k) m else 0))
        * (S.weights m l k : ℂ) := by
  obtain ⟨y, hy, hy0, hy1, hv⟩ := rfftRows x (by omega) S.mmax
  refine ⟨⟨S.lmax, S.mmax, fun l m => ⟨∑ k ∈ range S.nlat, (2 * Real.pi * y.val k m : ℂ).re * S.weights m l k,
    ∑ k ∈ range S.nlat, (2 * Real.pi * y.val k m : ℂ).im * S.weights m l k⟩⟩, ?_, rfl, rfl, ?_⟩
  · unfold RealSHT.forward
    rw [if_neg (by simp [h0]), if_neg (by simp [h1]), hy]
    rfl
  · intro l m hm
    simp only
    rw [mk_sum]
    refine sum_congr rfl fun k _ => ?_
    rw [hv k m hm, h1]

theorem inverseRealSHT_forward (be : C2R) (I : InverseRealSHT) (c : Mat ℂ) (h0 : c.d0 = I.lmax) (h1 : c.d1 = I.mmax)
    (hm : 0 < I.mmax) (hn : 0 < I.nlon) :
    ∃ f, I.forward be c = .ok f ∧ f.d0 = I.nlat ∧ f.d1 = I.nlon ∧ ∀ k, ∀ j < I.nlon,
      f.val k j = synth I.nlon (fun m => if m < I.mmax then ∑ l ∈ range I.lmax,
        (if m = 0 ∨ 2 * m = I.nlon then ((c.val l m).re : ℂ) else c.val l m) * (I.pct m k l : ℂ) else 0) j := by
  obtain ⟨y, hy, hy0, hy1, hv⟩ := irfftRows be (⟨I.nlat, I.mmax, fun k m =>
      ⟨∑ l ∈ range I.lmax, (c.val l m).re * I.pct m k l, ∑ l ∈ range I.lmax, (c.val l m).im * I.pct m k l⟩⟩ : Mat ℂ) hm I.nlon hn
  refine ⟨y, ?_, hy0, hy1, ?_⟩
  · unfold InverseRealSHT.forward
    rw [if_neg (by simp [h0]), if_neg (by simp [h1])]
    exact hy
  · intro k j hj
    rw [hv k j hj]
    congr 1
    funext m
    simp only
    split_ifs
    · push_cast; rfl
    · rw [mk_sum]
    · rfl

theorem cos_colat {r : Rule} {n d : ℕ} (h : SymmetricExactRule r n d) (k : ℕ) (hk : k < n) :
    Real.cos (colat r k) = r.x (n - 1 - k) := by
  unfold colat
  have := h.inside (n - 1 - k) (by omega)
  rw [h.size, Real.cos_arccos this.1 this.2]

theorem disc_poly {r : Rule} {n d : ℕ} (h : SymmetricExactRule r n d) (F : ℝ → ℝ) (p : ℝ[X]) (hp : p.natDegree ≤ d)
    (hF : ∀ x, -1 ≤ x → x ≤ 1 → F x = p.eval x) :
    ∑ k ∈ range n, r.w k * F (Real.cos (colat r k)) = ∫ x in (-1 : ℝ)..1, F x := by
  have e : ∫ x in (-1 : ℝ)..1, F x = ∫ x in (-1 : ℝ)..1, p.eval x := by
    apply intervalIntegral.integral_congr
    intro x hx
    rw [Set.uIcc_of_le (by norm_num)] at hx
    exact hF x hx.1 hx.2
  rw [e, ← h.flip_sum p hp]
  refine sum_congr rfl fun k hk => ?_
  have hk := mem_range.1 hk
  have := h.inside (n - 1 - k) (by omega)
  rw [cos_colat h k hk, hF _ this.1 this.2]

/-- Discrete orthogonality of the associated Legendre functions on a rule that is exact to degree `l + l'`. -/
theorem disc_orth {r : Rule} {n d : ℕ} (h : SymmetricExactRule r n d) (l l' m : ℕ) (hd : l + l' ≤ d) :
    2 * Real.pi * ∑ k ∈ range n, r.w k * (assocLegendre l m (Real.cos (colat r k)) * assocLegendre l' m (Real.cos (colat r k)))
      = if l = l' ∧ m ≤ l then 1 else 0 := by
  rw [← assoc_mul_integral]
  congr 1
  by_cases hm : m ≤ l ∧ m ≤ l'
  · apply disc_poly h (fun x => assocLegendre l m x * assocLegendre l' m x)
      (C (legendreNorm l m * legendreNorm l' m) * ((1 - X ^ 2) ^ m * legendreDeriv l m * legendreDeriv l' m))
    · refine (natDegree_C_mul_le _ _).trans ?_
      have h1 : ((1 : ℝ[X]) - X ^ 2).natDegree ≤ 2 := by compute_degree
      have h2 := natDegree_pow_le_of_le (n := m) h1
      have h3 := Q_natDegree_le l m
      have h4 := Q_natDegree_le l' m
      refine (natDegree_mul_le).trans ?_
      have := natDegree_mul_le (p := ((1 : ℝ[X]) - X ^ 2) ^ m) (q := legendreDeriv l m)
      omega
    · intro x h1 h2
      have hx2 : 0 ≤ 1 - x ^ 2 := by nlinarith
      have hs : Real.sqrt (1 - x ^ 2) ^ m * Real.sqrt (1 - x ^ 2) ^ m = (1 - x ^ 2) ^ m := by
        rw [← mul_pow, Real.mul_self_sqrt hx2]
      simp only [assocLegendre, if_pos hm.1, if_pos hm.2]
      simp only [eval_mul, eval_pow, eval_sub, eval_one, eval_X, eval_C]
      rw [← hs]; ring
  · have : ∀ x, assocLegendre l m x * assocLegendre l' m x = 0 := by
      intro x; unfold assocLegendre
      by_cases h1 : m ≤ l
      · have : ¬ m ≤ l' := by tauto
        simp [this]
      · simp [h1]
    simp [this]

theorem csSign_sq (cs : Bool) (m : ℕ) : csSign cs m * csSign cs m = 1 := by
  unfold csSign; split
  · rw [← mul_pow]; norm_num
  · norm_num

theorem tableScale_mul (norm : String) (l : ℕ) : tableScale norm false l * tableScale norm true l = 1 := by
  unfold tableScale
  simp only [Bool.false_eq_true, if_false, if_true]
  exact mul_inv_cancel₀ (normScale_pos norm l).ne'

end Verif.SHT
