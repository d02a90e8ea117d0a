import Verif.Props.SpectralConv
import Verif.Model.PosEmbed
import Verif.Spec.PosEmbed
import Mathlib.Analysis.Real.Pi.Irrational
/-!
Property theorems C73: the position embeddings of the example models.
-/
namespace Verif.Props
open Verif Verif.Dist Verif.FFT Verif.Quad Verif.Legendre Verif.Truncation Verif.Spec Verif.SHT Finset

/-! ### Sequence embedding -/

theorem sin_nat_injective (p q : ℕ) (h : Real.sin p = Real.sin q) : p = q := by
  have hpi := irrational_pi
  obtain ⟨k, hk | hk⟩ := Real.sin_eq_sin_iff.1 h
  · by_cases h0 : k = 0
    · subst h0
      have : (q : ℝ) = p := by rw [hk]; push_cast; ring
      exact (by exact_mod_cast this : q = p).symm
    · exfalso
      refine hpi ⟨((q : ℚ) - p) / (2 * k), ?_⟩
      have h1 : (k : ℝ) ≠ 0 := by exact_mod_cast h0
      push_cast
      rw [hk]
      field_simp
      ring
  · exfalso
    refine hpi ⟨((q : ℚ) + p) / (2 * k + 1), ?_⟩
    have h1 : (2 * (k : ℝ) + 1) ≠ 0 := by
      have : 2 * k + 1 ≠ 0 := by omega
      exact_mod_cast this
    push_cast
    rw [hk]
    field_simp
    ring

/-- C73 (sequence embedding). Every value is between -1 and 1, and the embedding tells all pixels apart: already the first channel takes different values at
different pixels, for every image size and number of channels. -/
theorem C73_sequence (nlat nlon chans : ℕ) :
    (seqEmbed nlat nlon chans).d0 = chans ∧ (seqEmbed nlat nlon chans).d1 = nlat ∧ (seqEmbed nlat nlon chans).d2 = nlon ∧
      (∀ c k j, (seqEmbed nlat nlon chans).val (2 * c) k j = Real.sin ((k * nlon + j) / (10000 : ℝ) ^ (4 * c / chans : ℝ)) ∧
        (seqEmbed nlat nlon chans).val (2 * c + 1) k j = Real.cos ((k * nlon + j) / (10000 : ℝ) ^ ((4 * c + 2) / chans : ℝ))) ∧
      (∀ c k j, |(seqEmbed nlat nlon chans).val c k j| ≤ 1) ∧
      ∀ k < nlat, ∀ j < nlon, ∀ k' < nlat, ∀ j' < nlon, (k, j) ≠ (k', j') →
        (seqEmbed nlat nlon chans).val 0 k j ≠ (seqEmbed nlat nlon chans).val 0 k' j' := by
  refine ⟨rfl, rfl, rfl, fun c k j => ⟨?_, ?_⟩, fun c k j => ?_, fun k _ j hj k' _ j' hj' hne he => hne ?_⟩
  · unfold seqEmbed
    dsimp only
    rw [if_pos (by omega)]
    push_cast
    ring_nf
  · unfold seqEmbed
    dsimp only
    rw [if_neg (by omega)]
    push_cast
    ring_nf
  · unfold seqEmbed
    dsimp only
    split_ifs
    · exact Real.abs_sin_le_one _
    · exact Real.abs_cos_le_one _
  · have e : ∀ k j, (seqEmbed nlat nlon chans).val 0 k j = Real.sin ((k * nlon + j : ℕ) : ℝ) := by
      intro k j
      simp [seqEmbed]
    rw [e, e] at he
    have := sin_nat_injective _ _ he
    have hn : 0 < nlon := by omega
    have h1 : k = k' := by
      have := congrArg (· / nlon) this
      simpa [Nat.add_comm, Nat.add_mul_div_right _ _ hn, Nat.div_eq_of_lt hj, Nat.div_eq_of_lt hj'] using this
    subst h1
    have h2 : j = j' := by omega
    rw [h2]

/-! ### Spectral embedding -/

theorem embedIndex_spec (i : ℕ) : ((embedIndex i).1 : ℤ) ^ 2 + (embedIndex i).1 + (embedIndex i).2 = i ∧
    -((embedIndex i).1 : ℤ) ≤ (embedIndex i).2 ∧ (embedIndex i).2 ≤ (embedIndex i).1 := by
  unfold embedIndex
  have h1 := Nat.sqrt_le' i
  have h2 := Nat.sqrt_le_add i
  dsimp only
  generalize Nat.sqrt i = l at *
  have h1' : (l : ℤ) ^ 2 ≤ i := by exact_mod_cast h1
  have h2' : (i : ℤ) ≤ l * l + l + l := by exact_mod_cast h2
  refine ⟨by ring, by linarith, by nlinarith⟩

/-- C73 (channels). The channels are in bijection with the pairs of a degree `l` and an order `-l <= m <= l`: channel `l^2 + l + m`. The first `L^2` channels
are exactly those of degree below `L`. -/
theorem C73_channels (l : ℕ) (m : ℤ) (h : -(l : ℤ) ≤ m ∧ m ≤ l) :
    (∃ i : ℕ, (i : ℤ) = (l : ℤ) ^ 2 + l + m ∧ embedIndex i = (l, m)) ∧ ∀ i, embedIndex i = (l, m) → (i : ℤ) = (l : ℤ) ^ 2 + l + m := by
  refine ⟨?_, fun i hi => ?_⟩
  · have h0 : 0 ≤ (l : ℤ) ^ 2 + l + m := by nlinarith [sq_nonneg (l : ℤ)]
    obtain ⟨i, hi⟩ := Int.eq_ofNat_of_zero_le h0
    refine ⟨i, hi.symm, ?_⟩
    have hs : Nat.sqrt i = l := by
      rw [eq_comm, Nat.eq_sqrt]
      constructor
      · have : ((l * l : ℕ) : ℤ) ≤ i := by push_cast; rw [← hi]; nlinarith
        exact_mod_cast this
      · have : (i : ℤ) < ((l + 1) * (l + 1) : ℕ) := by push_cast; rw [← hi]; nlinarith
        exact_mod_cast this
    unfold embedIndex
    rw [hs, ← hi]
    refine Prod.ext rfl ?_
    dsimp only
    ring
  · have := (embedIndex_spec i).1
    rw [hi] at this
    exact this.symm

theorem embedIndex_lt (i L : ℕ) : (embedIndex i).1 < L ↔ i < L ^ 2 := by
  show Nat.sqrt i < L ↔ _
  exact Nat.sqrt_lt'

theorem absMax_spec (H W : ℕ) (x : ℕ → ℕ → ℝ) : (∀ k < H, ∀ j < W, |x k j| ≤ absMax H W x) ∧
    (absMax H W x ≠ 0 → ∃ k < H, ∃ j < W, |x k j| = absMax H W x) ∧ (absMax H W x = 0 ↔ ∀ k < H, ∀ j < W, x k j = 0) ∧ 0 ≤ absMax H W x := by
  have key : ∀ s : Finset (ℕ × ℕ), (∀ p ∈ s, |x p.1 p.2| ≤ s.fold max 0 fun p => |x p.1 p.2|) ∧
      ((s.fold max 0 fun p => |x p.1 p.2|) = 0 ∨ ∃ p ∈ s, |x p.1 p.2| = s.fold max 0 fun p => |x p.1 p.2|) ∧
      0 ≤ s.fold max 0 fun p => |x p.1 p.2| := by
    intro s
    induction s using Finset.induction_on with
    | empty => simp
    | insert a s ha ih =>
      rw [fold_insert ha]
      obtain ⟨i1, i2, i3⟩ := ih
      refine ⟨fun p hp => ?_, ?_, le_max_of_le_right i3⟩
      · rcases mem_insert.1 hp with rfl | hp
        · exact le_max_left _ _
        · exact (i1 p hp).trans (le_max_right _ _)
      · rcases le_total (|x a.1 a.2|) (s.fold max 0 fun p => |x p.1 p.2|) with h | h
        · rw [max_eq_right h]
          rcases i2 with i2 | ⟨p, hp, i2⟩
          · exact Or.inl i2
          · exact Or.inr ⟨p, mem_insert_of_mem hp, i2⟩
        · rw [max_eq_left h]
          exact Or.inr ⟨a, mem_insert_self _ _, rfl⟩
  obtain ⟨k1, k2, k3⟩ := key (range H ×ˢ range W)
  have k1' : ∀ k < H, ∀ j < W, |x k j| ≤ absMax H W x := fun k hk j hj => k1 (k, j) (mem_product.2 ⟨mem_range.2 hk, mem_range.2 hj⟩)
  refine ⟨k1', fun h => ?_, ⟨fun h k hk j hj => ?_, fun h => ?_⟩, k3⟩
  · rcases k2 with k2 | ⟨p, hp, k2⟩
    · exact absurd k2 h
    · exact ⟨p.1, mem_range.1 (mem_product.1 hp).1, p.2, mem_range.1 (mem_product.1 hp).2, k2⟩
  · have := k1' k hk j hj
    rw [h] at this
    exact abs_eq_zero.1 (le_antisymm this (abs_nonneg _))
  · rcases k2 with k2 | ⟨p, hp, k2⟩
    · exact k2
    · rw [h p.1 (mem_range.1 (mem_product.1 hp).1) p.2 (mem_range.1 (mem_product.1 hp).2), abs_zero] at k2
      exact k2.symm

/-- The arguments of the synthesis. -/
def embedArgs (nlat nlon : ℕ) (lmax mmax : Option ℤ) (grid : String) : Args := ⟨nlat, nlon, lmax, mmax, grid, "ortho", true⟩

/-- The hypotheses under which the harmonics are defined: as for the transforms (`C14`). -/
structure EmbedBuilt (env : Env) (nlat nlon : ℕ) (lmax mmax : Option ℤ) (grid : String) (r : Rule) (d L : ℕ) : Prop where
  lon_pos : 0 < nlon
  rule : gridRule env.gauss env.tol env.maxiter nlat grid = .ok r
  exact : SymmetricExactRule r nlat d
  trunc : sizes nlat nlon lmax mmax grid = .ok (L, L)
  pos : 0 < L
  deg : 2 * (L - 1) ≤ d
  ord : 2 * (L - 1) ≤ nlon

/-- Sign of a channel: the Condon-Shortley phase, and the minus sign of the imaginary coefficients. -/
def embedSign (m : ℤ) : ℝ := (-1) ^ m.natAbs * (if m < 0 then -1 else 1)

theorem embed_series (nlon L i : ℕ) (hL : i < L ^ 2) (hn : 2 * (L - 1) ≤ nlon) (th ph : ℝ) :
    harmonicSeries "ortho" true nlon L L (embedFreq i) th ph
      = realMult nlon (embedIndex i).2.natAbs * (embedSign (embedIndex i).2 * realHarmonic (embedIndex i).1 (embedIndex i).2 th ph) := by
  obtain ⟨_, h1, h2⟩ := embedIndex_spec i
  have h3 := (embedIndex_lt i L).2 hL
  unfold embedFreq
  generalize (embedIndex i).1 = l at *
  generalize (embedIndex i).2 = m at *
  unfold harmonicSeries
  rw [sum_eq_single m.natAbs, sum_eq_single l]
  · simp only [and_self, if_true]
    unfold synthFactor csSign tableScale normScale realHarmonic embedSign
    by_cases hm : m < 0
    · simp only [if_pos hm, if_true]
      simp only [Complex.I_re, Complex.I_im]
      ring
    · simp only [if_neg hm, if_true]
      simp only [Complex.one_re, Complex.one_im]
      ring
  · intro l' _ hl'
    simp only [hl', false_and, if_false]
    simp
  · intro h; exact absurd (mem_range.2 h3) h
  · intro m' _ hm'
    rw [sum_eq_zero, mul_zero]
    intro l' _
    simp only [hm', and_false, if_false]
    simp
  · intro h; exact absurd (mem_range.2 (by omega)) h

/-- The synthesised channels before normalisation, and their analysis. -/
theorem embed_raw {env : Env} (be : C2R) {nlat nlon : ℕ} {lmax mmax : Option ℤ} {grid : String} {r : Rule} {d L : ℕ}
    (H : EmbedBuilt env nlat nlon lmax mmax grid r d L) : ∃ I, InverseRealSHT.init env ⟨nlat, nlon, lmax, mmax, grid, "ortho", true⟩ = .ok I ∧ I.lmax = L ∧ I.mmax = L ∧
      ∀ i, ∃ f, I.forward be ⟨L, L, embedFreq i⟩ = .ok f ∧ f.d0 = nlat ∧ f.d1 = nlon ∧
        (∀ k < nlat, ∀ j < nlon, f.val k j = harmonicSeries "ortho" true nlon L L (embedFreq i) (Real.arccos (r.x (nlat - 1 - k))) (2 * Real.pi * j / nlon)) ∧
        ∀ l < L, ∀ m < L, admissible nlon (embedFreq i) l m = ∑ k ∈ range nlat, ∑ j ∈ range nlon, (2 * Real.pi / nlon * r.w k : ℝ) *
          (f.val k j : ℂ) * (((-1) ^ m * legendreTheta l m (Real.arccos (r.x (nlat - 1 - k))) : ℝ) : ℂ)
          * Complex.exp (-(m * (2 * Real.pi * j / nlon)) * Complex.I) := by
  refine ⟨_, inverseRealSHT_init env (embedArgs nlat nlon lmax mmax grid) r L H.rule H.trunc H.pos, rfl, rfl, fun i => ?_⟩
  obtain ⟨I, f, hI, hf, f0, f1, hv⟩ := C59_synthesis_value env be (embedArgs nlat nlon lmax mmax grid) r d L H.lon_pos H.rule H.exact H.trunc H.pos
    ⟨L, L, embedFreq i⟩ rfl rfl
  rw [inverseRealSHT_init env (embedArgs nlat nlon lmax mmax grid) r L H.rule H.trunc H.pos] at hI
  cases hI
  obtain ⟨S, I, f', c', hS, hI, hf', hc', _, _, hround⟩ := C14_analysis_of_synthesis env be (embedArgs nlat nlon lmax mmax grid) r d L H.lon_pos H.rule H.exact H.trunc H.pos
    H.deg H.ord ⟨L, L, embedFreq i⟩ rfl rfl
  rw [inverseRealSHT_init env (embedArgs nlat nlon lmax mmax grid) r L H.rule H.trunc H.pos] at hI
  cases hI
  rw [hf] at hf'
  cases hf'
  obtain ⟨S', c2, hS', hc2, _, _, han⟩ := C59_analysis_value env (embedArgs nlat nlon lmax mmax grid) r d L H.lon_pos H.rule H.exact H.trunc H.pos H.ord f f0 f1
  rw [hS] at hS'
  cases hS'
  rw [hc'] at hc2
  cases hc2
  refine ⟨f, hf, f0, f1, hv, fun l hl m hm => ?_⟩
  have e := hround l hl m hm
  rw [han l hl m hm] at e
  rw [show admissible nlon (embedFreq i) l m = admissible (embedArgs nlat nlon lmax mmax grid).nlon (embedFreq i) l m from rfl, ← e]
  refine sum_congr rfl fun k hk => sum_congr rfl fun j _ => ?_
  have hk : k < nlat := mem_range.1 hk
  have hx := H.exact.inside (nlat - 1 - k) (by omega)
  have : assocLegendre l m (r.x (nlat - 1 - k)) = legendreTheta l m (Real.arccos (r.x (nlat - 1 - k))) := by
    conv_lhs => rw [← Real.cos_arccos hx.1 hx.2]
    exact theta_eq l m _ (Real.arccos_nonneg _) (Real.arccos_le_pi _)
  simp only [embedArgs, csSign, tableScale, normScale]
  rw [this]
  simp

/-- C73 (spectral embedding). Channel `i` is the real spherical harmonic of its degree and order at the grid points, divided by its largest absolute value
on the grid, up to sign: every channel has maximum 1. The exception is the sine at the Nyquist order, which vanishes on the grid and becomes NaN. -/
theorem C73_spectral (env : Env) (be : C2R) (nlat nlon : ℕ) (lmax mmax : Option ℤ) (grid : String) (r : Rule) (d L chans : ℕ)
    (H : EmbedBuilt env nlat nlon lmax mmax grid r d L) (hc : chans ≤ L ^ 2) :
    ∃ p, spectralEmbed env be nlat nlon lmax mmax grid chans = .ok p ∧ p.d0 = chans ∧ p.d1 = nlat ∧ p.d2 = nlon ∧ ∀ i < chans, ∀ l m, embedIndex i = (l, m) →
      (¬ (m < 0 ∧ 2 * m.natAbs = nlon) → ∃ A : ℝ, 0 < A ∧
        (∀ k < nlat, ∀ j < nlon, p.val i k j
            = some (embedSign m * realHarmonic l m (Real.arccos (r.x (nlat - 1 - k))) (2 * Real.pi * j / nlon) / A) ∧
          |realHarmonic l m (Real.arccos (r.x (nlat - 1 - k))) (2 * Real.pi * j / nlon)| ≤ A) ∧
        ∃ k < nlat, ∃ j < nlon, |realHarmonic l m (Real.arccos (r.x (nlat - 1 - k))) (2 * Real.pi * j / nlon)| = A) ∧
      (m < 0 ∧ 2 * m.natAbs = nlon → ∀ k < nlat, ∀ j < nlon, p.val i k j = none) := by
  obtain ⟨I, hI, IL, IM, hraw⟩ := embed_raw be H
  choose f hf f0 f1 hv hadm using hraw
  have hmap : mapChannels (I.forward be) ⟨chans, I.lmax, I.mmax, embedFreq⟩ = .ok ⟨chans, (f 0).d0, (f 0).d1, fun c => (f c).val⟩ := by
    rw [IL, IM]
    exact mapChannels_ok (x := ⟨chans, L, L, embedFreq⟩) f hf
  refine ⟨_, by
    unfold spectralEmbed
    rw [hI]
    dsimp only
    rw [if_neg ?_, hmap]
    rintro ⟨i, hi, hbad⟩
    have hi := mem_range.1 hi
    obtain ⟨_, h1, h2⟩ := embedIndex_spec i
    have h3 := (embedIndex_lt i L).2 (by omega)
    exact hbad ⟨by omega, by omega⟩, rfl, f0 0, f1 0, fun i hi l m hlm => ?_⟩
  dsimp only
  rw [f0 0, f1 0]
  obtain ⟨_, h1, h2⟩ := embedIndex_spec i
  have h3 := (embedIndex_lt i L).2 (by omega)
  rw [hlm] at h1 h2 h3
  dsimp only at h1 h2 h3
  have hval : ∀ k < nlat, ∀ j < nlon, (f i).val k j
      = realMult nlon m.natAbs * (embedSign m * realHarmonic l m (Real.arccos (r.x (nlat - 1 - k))) (2 * Real.pi * j / nlon)) := by
    intro k hk j hj
    rw [hv i k hk j hj, embed_series nlon L i (by omega) H.ord, hlm]
  have hmult : 0 < realMult nlon m.natAbs := by unfold realMult; split_ifs <;> norm_num
  have hsg : |embedSign m| = 1 := by unfold embedSign; rw [abs_mul, abs_pow]; split_ifs <;> simp
  have habs : ∀ k < nlat, ∀ j < nlon, |(f i).val k j|
      = realMult nlon m.natAbs * |realHarmonic l m (Real.arccos (r.x (nlat - 1 - k))) (2 * Real.pi * j / nlon)| := by
    intro k hk j hj
    rw [hval k hk j hj, abs_mul, abs_mul, hsg, one_mul, abs_of_pos hmult]
  obtain ⟨a1, a2, a3, a4⟩ := absMax_spec nlat nlon (f i).val
  refine ⟨fun hny => ?_, fun hny k hk j hj => ?_⟩
  · have hne : absMax nlat nlon (f i).val ≠ 0 := by
      intro hz
      have hzero := a3.1 hz
      have e := hadm i l h3 m.natAbs (by omega)
      rw [sum_eq_zero (fun k hk => sum_eq_zero fun j hj => by rw [hzero k (mem_range.1 hk) j (mem_range.1 hj)]; simp)] at e
      unfold admissible embedFreq at e
      rw [hlm] at e
      dsimp only at e
      rw [if_neg (show ¬ l < m.natAbs by omega)] at e
      simp only [and_self, if_true] at e
      by_cases hm : m < 0
      · have hcond : ¬ (m.natAbs = 0 ∨ 2 * m.natAbs = nlon) := by
          rintro (h | h)
          · omega
          · exact hny ⟨hm, h⟩
        rw [if_neg hcond, if_pos hm] at e
        exact Complex.I_ne_zero e
      · simp only [if_neg hm] at e
        split_ifs at e <;> simp at e
    have hpos : 0 < absMax nlat nlon (f i).val := lt_of_le_of_ne a4 (Ne.symm hne)
    refine ⟨absMax nlat nlon (f i).val / realMult nlon m.natAbs, div_pos hpos hmult, fun k hk j hj => ⟨?_, ?_⟩, ?_⟩
    · rw [if_neg hne, hval k hk j hj]
      congr 1
      field_simp
    · rw [le_div_iff₀ hmult, mul_comm, ← habs k hk j hj]
      exact a1 k hk j hj
    · obtain ⟨k, hk, j, hj, e⟩ := a2 hne
      refine ⟨k, hk, j, hj, ?_⟩
      rw [eq_div_iff hmult.ne', mul_comm, ← habs k hk j hj]
      exact e
  · rw [if_pos]
    refine a3.2 fun k hk j hj => ?_
    rw [hval k hk j hj]
    unfold realHarmonic
    rw [if_pos hny.1]
    have : Real.sin (m.natAbs * (2 * Real.pi * j / nlon)) = 0 := by
      have hn : (nlon : ℝ) ≠ 0 := by exact_mod_cast H.lon_pos.ne'
      have hc2 : (2 * (m.natAbs : ℝ)) = nlon := by exact_mod_cast hny.2
      have : (m.natAbs : ℝ) * (2 * Real.pi * j / nlon) = j * Real.pi := by
        have hm0 : (m.natAbs : ℝ) ≠ 0 := fun h => hn (by rw [← hc2, h, mul_zero])
        rw [← hc2, show (m.natAbs : ℝ) * (2 * Real.pi * j / (2 * m.natAbs)) = (m.natAbs : ℝ) * (2 * Real.pi * j) / (2 * m.natAbs) from by ring, div_eq_iff (by positivity)]
        ring
      rw [this]
      exact Real.sin_nat_mul_pi j
    rw [this]
    ring

/-- C73 (too many channels). More than `L^2` channels, with `L` the truncation, are rejected. -/
theorem C73_spectral_error (env : Env) (be : C2R) (nlat nlon : ℕ) (lmax mmax : Option ℤ) (grid : String) (r : Rule) (d L chans : ℕ)
    (H : EmbedBuilt env nlat nlon lmax mmax grid r d L) (hc : L ^ 2 < chans) :
    spectralEmbed env be nlat nlon lmax mmax grid chans = .error .indexError := by
  obtain ⟨I, hI, IL, IM, _⟩ := embed_raw be H
  unfold spectralEmbed
  rw [hI]
  dsimp only
  rw [if_pos]
  refine ⟨L ^ 2, mem_range.2 hc, fun h => ?_⟩
  rw [IL] at h
  have := (embedIndex_lt (L ^ 2) L).1 h.1
  omega

/-- C73 (orthogonality). Distinct channels are orthogonal with respect to the quadrature on the sphere. -/
theorem C73_orthogonal (env : Env) (be : C2R) (nlat nlon : ℕ) (lmax mmax : Option ℤ) (grid : String) (r : Rule) (d L chans : ℕ)
    (H : EmbedBuilt env nlat nlon lmax mmax grid r d L) (hc : chans ≤ L ^ 2) :
    ∃ p, spectralEmbed env be nlat nlon lmax mmax grid chans = .ok p ∧ ∀ i < chans, ∀ i' < chans, i ≠ i' →
      ∑ k ∈ range nlat, ∑ j ∈ range nlon, r.w k * (p.val i k j).getD 0 * (p.val i' k j).getD 0 = 0 := by
  obtain ⟨p, hp, _, _, _, hpv⟩ := C73_spectral env be nlat nlon lmax mmax grid r d L chans H hc
  refine ⟨p, hp, fun i hi i' hi' hne => ?_⟩
  obtain ⟨I, hI, IL, IM, hraw⟩ := embed_raw be H
  choose f hf f0 f1 hv hadm using hraw
  -- the embedding is a multiple of the synthesised field
  have hscale : ∀ i < chans, ∃ t : ℝ, ∀ k < nlat, ∀ j < nlon, (p.val i k j).getD 0 = t * (f i).val k j := by
    intro i hi
    obtain ⟨q1, q2⟩ := hpv i hi (embedIndex i).1 (embedIndex i).2 rfl
    by_cases hny : (embedIndex i).2 < 0 ∧ 2 * (embedIndex i).2.natAbs = nlon
    · refine ⟨0, fun k hk j hj => ?_⟩
      rw [q2 hny k hk j hj]
      simp
    · obtain ⟨A, hA, hB, _⟩ := q1 hny
      have hmult : 0 < realMult nlon (embedIndex i).2.natAbs := by unfold realMult; split_ifs <;> norm_num
      refine ⟨1 / (A * realMult nlon (embedIndex i).2.natAbs), fun k hk j hj => ?_⟩
      rw [(hB k hk j hj).1, hv i k hk j hj, embed_series nlon L i (by omega) H.ord]
      simp only [Option.getD_some]
      field_simp
  obtain ⟨t, ht⟩ := hscale i hi
  obtain ⟨t', ht'⟩ := hscale i' hi'
  have hn : (nlon : ℝ) ≠ 0 := by exact_mod_cast H.lon_pos.ne'
  obtain ⟨s1, s2, s3⟩ := embedIndex_spec i
  obtain ⟨s1', s2', s3'⟩ := embedIndex_spec i'
  have h3' := (embedIndex_lt i' L).2 (by omega)
  -- the inner product is a part of an analysis coefficient
  have hcoef : admissible nlon (embedFreq i) (embedIndex i').1 (embedIndex i').2.natAbs = 0 ∨
      (if (embedIndex i').2 < 0 then (admissible nlon (embedFreq i) (embedIndex i').1 (embedIndex i').2.natAbs).im
        else (admissible nlon (embedFreq i) (embedIndex i').1 (embedIndex i').2.natAbs).re) = 0 := by
    unfold admissible embedFreq
    rw [if_neg (by omega)]
    by_cases he : (embedIndex i').1 = (embedIndex i).1 ∧ (embedIndex i').2.natAbs = (embedIndex i).2.natAbs
    · right
      rw [if_pos he]
      have hm : (embedIndex i').2 ≠ (embedIndex i).2 := by
        intro h
        rw [he.1, h, s1] at s1'
        exact hne (by exact_mod_cast s1')
      by_cases hneg : (embedIndex i').2 < 0
      · rw [if_pos hneg, if_neg (show ¬ (embedIndex i).2 < 0 by omega)]
        split_ifs <;> simp
      · rw [if_neg hneg, if_pos (show (embedIndex i).2 < 0 by omega)]
        split_ifs <;> simp
    · left
      rw [if_neg he]
      simp
  have hpart : (if (embedIndex i').2 < 0 then (admissible nlon (embedFreq i) (embedIndex i').1 (embedIndex i').2.natAbs).im
      else (admissible nlon (embedFreq i) (embedIndex i').1 (embedIndex i').2.natAbs).re) = 0 := by
    rcases hcoef with h | h
    · rw [h]; simp
    · exact h
  have hsum : ∑ k ∈ range nlat, ∑ j ∈ range nlon, (2 * Real.pi / nlon * r.w k) * (f i).val k j * (f i').val k j
      = realMult nlon (embedIndex i').2.natAbs * (if (embedIndex i').2 < 0 then (admissible nlon (embedFreq i) (embedIndex i').1 (embedIndex i').2.natAbs).im
        else (admissible nlon (embedFreq i) (embedIndex i').1 (embedIndex i').2.natAbs).re) := by
    rw [hadm i (embedIndex i').1 h3' (embedIndex i').2.natAbs (by omega), Complex.im_sum, Complex.re_sum]
    simp only [Complex.im_sum, Complex.re_sum]
    have hterm : ∀ (_k j : ℕ), (Complex.exp (-(((embedIndex i').2.natAbs : ℕ) * (2 * Real.pi * j / nlon)) * Complex.I)).re = Real.cos ((embedIndex i').2.natAbs * (2 * Real.pi * (j : ℕ) / nlon)) ∧
        (Complex.exp (-(((embedIndex i').2.natAbs : ℕ) * (2 * Real.pi * j / nlon)) * Complex.I)).im = -Real.sin ((embedIndex i').2.natAbs * (2 * Real.pi * (j : ℕ) / nlon)) := by
      intro k j
      have : (-(((embedIndex i').2.natAbs : ℕ) * (2 * Real.pi * j / nlon)) * Complex.I : ℂ) = ((-(((embedIndex i').2.natAbs : ℕ) * (2 * Real.pi * j / nlon)) : ℝ) : ℂ) * Complex.I := by
        push_cast; ring
      rw [this, Complex.exp_ofReal_mul_I_re, Complex.exp_ofReal_mul_I_im, Real.cos_neg, Real.sin_neg]
      exact ⟨rfl, rfl⟩
    have hcast : ∀ k j, ((2 * Real.pi / nlon * r.w k : ℝ) : ℂ) * ((f i).val k j : ℂ) * (((-1) ^ (embedIndex i').2.natAbs * legendreTheta (embedIndex i').1 (embedIndex i').2.natAbs (Real.arccos (r.x (nlat - 1 - k))) : ℝ) : ℂ)
        = (((2 * Real.pi / nlon * r.w k) * (f i).val k j * ((-1) ^ (embedIndex i').2.natAbs * legendreTheta (embedIndex i').1 (embedIndex i').2.natAbs (Real.arccos (r.x (nlat - 1 - k)))) : ℝ) : ℂ) := by
      intro k j; push_cast; ring
    simp only [hcast, Complex.re_ofReal_mul, Complex.im_ofReal_mul, (hterm 0 _).1, (hterm 0 _).2]
    by_cases hneg : (embedIndex i').2 < 0
    · rw [if_pos hneg, mul_sum]
      refine sum_congr rfl fun k hk => ?_
      rw [mul_sum]
      refine sum_congr rfl fun j hj => ?_
      rw [hv i' k (mem_range.1 hk) j (mem_range.1 hj), embed_series nlon L i' (by omega) H.ord]
      unfold embedSign realHarmonic
      simp only [if_pos hneg]
      ring
    · rw [if_neg hneg, mul_sum]
      refine sum_congr rfl fun k hk => ?_
      rw [mul_sum]
      refine sum_congr rfl fun j hj => ?_
      rw [hv i' k (mem_range.1 hk) j (mem_range.1 hj), embed_series nlon L i' (by omega) H.ord]
      unfold embedSign realHarmonic
      simp only [if_neg hneg]
      ring
  rw [hpart, mul_zero] at hsum
  have hfin : ∑ k ∈ range nlat, ∑ j ∈ range nlon, r.w k * (p.val i k j).getD 0 * (p.val i' k j).getD 0
      = t * t' * (nlon / (2 * Real.pi)) * ∑ k ∈ range nlat, ∑ j ∈ range nlon, (2 * Real.pi / nlon * r.w k) * (f i).val k j * (f i').val k j := by
    rw [mul_sum]
    refine sum_congr rfl fun k hk => ?_
    rw [mul_sum]
    refine sum_congr rfl fun j hj => ?_
    rw [ht k (mem_range.1 hk) j (mem_range.1 hj), ht' k (mem_range.1 hk) j (mem_range.1 hj)]
    have := Real.pi_pos.ne'
    field_simp
  rw [hfin, hsum, mul_zero]

/-! ### Learnable embedding and the addition -/

/-- C73 (learnable embedding). A new embedding is zero, of the size of the image or of one column; other types are rejected. -/
theorem C73_learnable (nlat nlon chans : ℕ) (t : String) :
    (t = "latlon" → ∃ p, learnableEmbed nlat nlon chans t = .ok p ∧ p.d0 = chans ∧ p.d1 = nlat ∧ p.d2 = nlon ∧ ∀ c k j, p.val c k j = 0) ∧
    (t = "lat" → ∃ p, learnableEmbed nlat nlon chans t = .ok p ∧ p.d0 = chans ∧ p.d1 = nlat ∧ p.d2 = 1 ∧ ∀ c k j, p.val c k j = 0) ∧
    (t ≠ "latlon" → t ≠ "lat" → learnableEmbed nlat nlon chans t = .error .valueError) := by
  refine ⟨fun h => ?_, fun h => ?_, fun h1 h2 => ?_⟩
  · subst h; exact ⟨_, rfl, rfl, rfl, rfl, fun _ _ _ => rfl⟩
  · subst h; exact ⟨_, rfl, rfl, rfl, rfl, fun _ _ _ => rfl⟩
  · unfold learnableEmbed; rw [if_neg h1, if_neg h2]

/-- C73 (addition). An embedding of the size of the image is added pixel by pixel; an embedding of one column is added to every column; the shape of the image
does not change. -/
theorem C73_add (pe x : Ten3 ℝ) (h0 : pe.d0 = x.d0) (h1 : pe.d1 = x.d1) (h2 : pe.d2 = x.d2 ∨ pe.d2 = 1) :
    ∃ y, addEmbed pe x = .ok y ∧ y.d0 = x.d0 ∧ y.d1 = x.d1 ∧ y.d2 = x.d2 ∧ ∀ c < x.d0, ∀ k < x.d1, ∀ j < x.d2,
      y.val c k j = x.val c k j + pe.val c k (if pe.d2 = 1 then 0 else j) := by
  have hcond : ((fun a b : ℕ => decide (a = b) || decide (a = 1) || decide (b = 1)) x.d0 pe.d0 &&
      (fun a b : ℕ => decide (a = b) || decide (a = 1) || decide (b = 1)) x.d1 pe.d1 &&
      (fun a b : ℕ => decide (a = b) || decide (a = 1) || decide (b = 1)) x.d2 pe.d2) = true := by
    rw [h0, h1]
    rcases h2 with h | h <;> rw [h] <;> simp
  refine ⟨_, by unfold addEmbed; exact if_pos hcond, ?_, ?_, ?_, fun c hc k hk j hj => ?_⟩
  · dsimp only; rw [h0]; simp
  · dsimp only; rw [h1]; simp
  · dsimp only; rcases h2 with h | h <;> rw [h] <;> split_ifs <;> omega
  · dsimp only
    rw [h0, h1]
    have e0 : (if x.d0 = 1 then 0 else c) = c := by split_ifs <;> omega
    have e1 : (if x.d1 = 1 then 0 else k) = k := by split_ifs <;> omega
    have e2 : (if x.d2 = 1 then 0 else j) = j := by split_ifs <;> omega
    rw [e0, e1, e2]

/-- The hypotheses are met at the default truncation on `equiangular` and `legendre-gauss` grids. -/
theorem C73_default (env : Env) (nlat nlon : ℕ) (grid : String) (hg : grid = "equiangular" ∨ (grid = "legendre-gauss" ∧ IsGaussRule (env.gauss nlat) nlat))
    (h : 2 ≤ nlat) (h' : 1 ≤ nlon) : ∃ r d L, EmbedBuilt env nlat nlon none none grid r d L := by
  obtain ⟨r, d, L, h1, h2, h3, h4, h5, h6⟩ := default_grid env (embedArgs nlat nlon none none grid) hg h h' rfl rfl
  exact ⟨r, d, L, h', h1, h2, h3, h4, h5, h6⟩

/-- Concrete cases: an 8 x 16 equiangular grid; on a 5 x 8 Gauss grid, 25 channels are allowed and channel 16 is the sine at the Nyquist order. -/
example (env : Env) : ∃ r d L, EmbedBuilt env 8 16 none none "equiangular" r d L := C73_default env 8 16 "equiangular" (Or.inl rfl) (by norm_num) (by norm_num)
example (env : Env) (h : IsGaussRule (env.gauss 5) 5) : ∃ r d L, EmbedBuilt env 5 8 none none "legendre-gauss" r d L :=
  C73_default env 5 8 "legendre-gauss" (Or.inr ⟨rfl, h⟩) (by norm_num) (by norm_num)
example : sizes 5 8 none none "legendre-gauss" = .ok (5, 5) ∧ embedIndex 16 = (4, -4) ∧ 2 * (embedIndex 16).2.natAbs = 8 := by
  have h : Nat.sqrt 16 = 4 := (Nat.eq_sqrt.2 ⟨by norm_num, by norm_num⟩).symm
  have : embedIndex 16 = (4, -4) := by unfold embedIndex; rw [h]; norm_num
  rw [this]
  decide
example : embedIndex 0 = (0, 0) ∧ embedIndex 1 = (1, -1) ∧ embedIndex 2 = (1, 0) ∧ embedIndex 3 = (1, 1) ∧ embedIndex 4 = (2, -2) := by
  have h2 : Nat.sqrt 2 = 1 := (Nat.eq_sqrt.2 ⟨by norm_num, by norm_num⟩).symm
  have h3 : Nat.sqrt 3 = 1 := (Nat.eq_sqrt.2 ⟨by norm_num, by norm_num⟩).symm
  have h4 : Nat.sqrt 4 = 2 := (Nat.eq_sqrt.2 ⟨by norm_num, by norm_num⟩).symm
  unfold embedIndex
  simp [h2, h3, h4]

end Verif.Props
