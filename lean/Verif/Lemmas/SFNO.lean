import Verif.Model.SFNO
import Verif.Spec.SFNO
import Verif.Props.SpectralConv
/-!
The layers of the spherical Fourier neural operator commute with shifts in longitude. With the shift `0` the lemmas say that a layer accepts
inputs of the right shape, and which shape its result has.
-/
namespace Verif.SFNO
open Verif Verif.Dist Verif.FFT Verif.Quad Verif.Truncation Verif.SHT Verif.Spec Verif.Props Finset

theorem rolled_refl (x : Ten3 ℝ) : Rolled 0 x x :=
  ⟨rfl, rfl, rfl, fun c _ k _ j hj => by rw [Nat.add_zero, Nat.mod_eq_of_lt hj]⟩

theorem conv1_roll {F : Conv1} {s : ℕ} {x x' : Ten3 ℝ} (h0 : x.d0 = F.inC) (hr : Rolled s x x') :
    ∃ y y', F.forward x = .ok y ∧ F.forward x' = .ok y' ∧ HasShape y F.outC x.d1 x.d2 ∧ Rolled s y y' := by
  have h0' : x'.d0 = F.inC := hr.d0.trans h0
  unfold Conv1.forward
  rw [if_neg (by simp [h0]), if_neg (by simp [h0'])]
  refine ⟨_, _, rfl, rfl, ⟨rfl, rfl, rfl⟩, rfl, hr.d1, hr.d2, ?_⟩
  intro o _ k hk j hj
  dsimp only at hk hj ⊢
  congr 1
  refine sum_congr rfl fun i hi => ?_
  rw [hr.val i (by rw [h0]; exact mem_range.1 hi) k hk j hj]

theorem pointwise_roll (f : ℝ → ℝ) {s : ℕ} {x x' : Ten3 ℝ} (hr : Rolled s x x') : Rolled s (pointwise f x) (pointwise f x') :=
  ⟨hr.d0, hr.d1, hr.d2, fun c hc k hk j hj => by
    show f _ = f _
    rw [hr.val c hc k hk j hj]; rfl⟩

theorem mlp_roll {M : Mlp} {s : ℕ} {x x' : Ten3 ℝ} (h0 : x.d0 = M.fc1.inC) (h1 : M.fc1.outC = M.fc2.inC) (hr : Rolled s x x') :
    ∃ y y', M.forward x = .ok y ∧ M.forward x' = .ok y' ∧ HasShape y M.fc2.outC x.d1 x.d2 ∧ Rolled s y y' := by
  obtain ⟨y, y', hy, hy', hs, hr1⟩ := conv1_roll h0 hr
  obtain ⟨z, z', hz, hz', hs2, hr2⟩ := conv1_roll (F := M.fc2) (x := pointwise M.act y) (by rw [← h1]; exact hs.1) (pointwise_roll M.act hr1)
  refine ⟨z, z', ?_, ?_, ⟨hs2.1, ?_, ?_⟩, hr2⟩
  · unfold Mlp.forward; rw [hy]; exact hz
  · unfold Mlp.forward; rw [hy']; exact hz'
  · rw [hs2.2.1]; exact hs.2.1
  · rw [hs2.2.2]; exact hs.2.2

/-! ### Addition -/

theorem addEmbed_same {r x : Ten3 ℝ} (h0 : r.d0 = x.d0) (h1 : r.d1 = x.d1) (h2 : r.d2 = x.d2) :
    ∃ y, addEmbed r x = .ok y ∧ HasShape y x.d0 x.d1 x.d2 ∧
      ∀ c < x.d0, ∀ k < x.d1, ∀ j < x.d2, y.val c k j = x.val c k j + r.val c k j := by
  unfold addEmbed
  dsimp only
  rw [if_pos (by simp [h0, h1, h2])]
  refine ⟨_, rfl, ⟨?_, ?_, ?_⟩, ?_⟩
  · dsimp only; split <;> omega
  · dsimp only; split <;> omega
  · dsimp only; split <;> omega
  · intro c hc k hk j hj
    have e : ∀ a i : ℕ, i < a → (if a = 1 then 0 else i) = i := by intro a i h; split <;> omega
    dsimp only
    rw [h0, h1, h2, e _ _ hc, e _ _ hk, e _ _ hj]

theorem addEmbed_lat {r x : Ten3 ℝ} (h0 : r.d0 = x.d0) (h1 : r.d1 = x.d1) (h2 : r.d2 = 1) :
    ∃ y, addEmbed r x = .ok y ∧ HasShape y x.d0 x.d1 x.d2 ∧
      ∀ c < x.d0, ∀ k < x.d1, ∀ j < x.d2, y.val c k j = x.val c k j + r.val c k 0 := by
  unfold addEmbed
  dsimp only
  rw [if_pos (by simp [h0, h1, h2])]
  refine ⟨_, rfl, ⟨?_, ?_, ?_⟩, ?_⟩
  · dsimp only; split <;> omega
  · dsimp only; split <;> omega
  · dsimp only; split <;> omega
  · intro c hc k hk j hj
    have e : ∀ a i : ℕ, i < a → (if a = 1 then 0 else i) = i := by intro a i h; split <;> omega
    dsimp only
    rw [h0, h1, e _ _ hc, e _ _ hk, e _ _ hj, if_pos h2]

theorem addEmbed_roll {s : ℕ} {r r' x x' : Ten3 ℝ} (hr : Rolled s r r') (hx : Rolled s x x') (h0 : r.d0 = x.d0) (h1 : r.d1 = x.d1)
    (h2 : r.d2 = x.d2) : ∃ y y', addEmbed r x = .ok y ∧ addEmbed r' x' = .ok y' ∧ HasShape y x.d0 x.d1 x.d2 ∧ Rolled s y y' := by
  obtain ⟨y, hy, hs, hv⟩ := addEmbed_same h0 h1 h2
  obtain ⟨y', hy', hs', hv'⟩ := addEmbed_same (r := r') (x := x') (by rw [hr.d0, hx.d0, h0]) (by rw [hr.d1, hx.d1, h1]) (by rw [hr.d2, hx.d2, h2])
  refine ⟨y, y', hy, hy', hs, ?_, ?_, ?_, ?_⟩
  · rw [hs.1, hs'.1, hx.d0]
  · rw [hs.2.1, hs'.2.1, hx.d1]
  · rw [hs.2.2, hs'.2.2, hx.d2]
  · intro c hc k hk j hj
    rw [hs.1] at hc
    rw [hs.2.1] at hk
    rw [hs.2.2] at hj ⊢
    rw [hv' c (hx.d0 ▸ hc) k (hx.d1 ▸ hk) j (hx.d2 ▸ hj), hv c hc k hk _ (Nat.mod_lt _ (by omega)), hx.val c hc k hk j hj,
      hr.val c (h0 ▸ hc) k (h1 ▸ hk) j (h2 ▸ hj), h2]

theorem skip_roll {S : Skip} {s : ℕ} {r r' x x' : Ten3 ℝ} (hS : S = .identity ∨ S = .none) (hr : Rolled s r r') (hx : Rolled s x x') (h0 : r.d0 = x.d0)
    (h1 : r.d1 = x.d1) (h2 : r.d2 = x.d2) :
    ∃ y y', S.add r x = .ok y ∧ S.add r' x' = .ok y' ∧ HasShape y x.d0 x.d1 x.d2 ∧ Rolled s y y' := by
  rcases hS with rfl | rfl
  · exact addEmbed_roll hr hx h0 h1 h2
  · exact ⟨x, x', rfl, rfl, ⟨rfl, rfl, rfl⟩, hx⟩

/-! ### Normalisation -/

theorem imgMean_roll (H W s : ℕ) (x x' : ℕ → ℕ → ℝ) (h : ∀ k < H, ∀ j < W, x' k j = x k ((j + s) % W)) : imgMean H W x' = imgMean H W x := by
  unfold imgMean
  congr 1
  refine sum_congr rfl fun k hk => ?_
  rcases Nat.eq_zero_or_pos W with rfl | hW
  · simp
  · rw [sum_congr rfl fun j hj => h k (mem_range.1 hk) j (mem_range.1 hj)]
    exact sum_mod_shift W s hW (fun j => x k j)

theorem imgVar_roll (H W s : ℕ) (x x' : ℕ → ℕ → ℝ) (h : ∀ k < H, ∀ j < W, x' k j = x k ((j + s) % W)) : imgVar H W x' = imgVar H W x := by
  unfold imgVar
  rw [imgMean_roll H W s x x' h]
  apply imgMean_roll H W s
  intro k hk j hj
  rw [h k hk j hj]

theorem norm_roll {N : Norm} {s : ℕ} {x x' : Ten3 ℝ} (hx : Rolled s x x') (h1 : x.d1 * x.d2 ≠ 1)
    (hN : match N with | .none => True | .inst c _ _ => c = x.d0 | .layer h w _ _ => h = x.d1 ∧ w = x.d2 ∧ s = 0) :
    ∃ y y', N.forward x = .ok y ∧ N.forward x' = .ok y' ∧ HasShape y x.d0 x.d1 x.d2 ∧ Rolled s y y' := by
  have key : ∀ c < x.d0, ∀ k < x.d1, ∀ j < x.d2, imgNorm x'.d1 x'.d2 (x'.val c) k j = imgNorm x.d1 x.d2 (x.val c) k ((j + s) % x.d2) := by
    intro c hc k hk j hj
    unfold imgNorm
    rw [hx.d1, hx.d2, imgMean_roll x.d1 x.d2 s (x.val c) (x'.val c) (hx.val c hc), imgVar_roll x.d1 x.d2 s (x.val c) (x'.val c) (hx.val c hc),
      hx.val c hc k hk j hj]
  match N with
  | .none => exact ⟨x, x', rfl, rfl, ⟨rfl, rfl, rfl⟩, hx⟩
  | .inst ch g b =>
    dsimp only at hN
    unfold Norm.forward
    dsimp only
    rw [if_neg (by simp [hN]), if_neg h1, if_neg (by simp [hN, hx.d0]), if_neg (by rw [hx.d1, hx.d2]; exact h1)]
    refine ⟨_, _, rfl, rfl, ⟨rfl, rfl, rfl⟩, hx.d0, hx.d1, hx.d2, ?_⟩
    intro c hc k hk j hj
    dsimp only at hc hk hj ⊢
    rw [key c hc k hk j hj]
  | .layer h w g b =>
    dsimp only at hN
    obtain ⟨hh, hw, rfl⟩ := hN
    unfold Norm.forward
    dsimp only
    rw [if_neg (by simp [hh, hw]), if_neg (by simp [hh, hw, hx.d1, hx.d2])]
    refine ⟨_, _, rfl, rfl, ⟨rfl, rfl, rfl⟩, hx.d0, hx.d1, hx.d2, ?_⟩
    intro c hc k hk j hj
    dsimp only at hc hk hj ⊢
    rw [key c hc k hk j hj, Nat.add_zero, Nat.mod_eq_of_lt hj]

/-! ### The spectral convolution -/

theorem shiftPhase_eq {n n' s s' : ℕ} (hn : 0 < n) (hn' : 0 < n') (h : s * n' = s' * n) (m : ℕ) :
    Complex.exp (2 * Real.pi * Complex.I * s * m / n) = Complex.exp (2 * Real.pi * Complex.I * s' * m / n') := by
  congr 1
  have h1 : (n : ℂ) ≠ 0 := by exact_mod_cast hn.ne'
  have h2 : (n' : ℂ) ≠ 0 := by exact_mod_cast hn'.ne'
  have h3 : (s : ℂ) * n' = s' * n := by exact_mod_cast h
  field_simp
  linear_combination (m : ℂ) * h3

/-- A layer whose two transforms have the same truncation. -/
structure Fits (S : SpecLayer) (L : ℕ) : Prop where
  fl : S.fwd.lmax = L
  fm : S.fwd.mmax = L
  il : S.inv.lmax = L
  im : S.inv.mmax = L
  pos : 0 < L
  fn : 0 < S.fwd.nlon
  in' : 0 < S.inv.nlon
  op : S.op = .driscollHealy

theorem analysis_roll {S : SpecLayer} {L s : ℕ} (H : Fits S L) {x x' : Ten3 ℝ} (h1 : x.d1 = S.fwd.nlat)
    (h2 : x.d2 = S.fwd.nlon) (hx : Rolled s x x') :
    ∃ c c' : Ten3 ℂ, mapChannels S.fwd.forward x = .ok c ∧ mapChannels S.fwd.forward x' = .ok c' ∧ c.d0 = x.d0 ∧ c.d1 = L ∧ c.d2 = L ∧
      c'.d0 = x.d0 ∧ c'.d1 = L ∧ c'.d2 = L ∧ ∀ i < x.d0, ∀ l < L, ∀ m < L,
        c'.val i l m = Complex.exp (2 * Real.pi * Complex.I * s * m / S.fwd.nlon) * c.val i l m := by
  have f1 : ∀ i, ∃ c, S.fwd.forward ⟨x.d1, x.d2, x.val i⟩ = .ok c ∧ c.d0 = L ∧ c.d1 = L := fun i => by
    obtain ⟨c, hc, a, b, _⟩ := realSHT_forward S.fwd ⟨x.d1, x.d2, x.val i⟩ h1 h2 H.fn
    exact ⟨c, hc, a.trans H.fl, b.trans H.fm⟩
  have f2 : ∀ i, ∃ c, S.fwd.forward ⟨x'.d1, x'.d2, x'.val i⟩ = .ok c ∧ c.d0 = L ∧ c.d1 = L := fun i => by
    obtain ⟨c, hc, a, b, _⟩ := realSHT_forward S.fwd ⟨x'.d1, x'.d2, x'.val i⟩ (hx.d1.trans h1) (hx.d2.trans h2) H.fn
    exact ⟨c, hc, a.trans H.fl, b.trans H.fm⟩
  choose g hg g1 g2 using f1
  choose g' hg' g1' g2' using f2
  refine ⟨_, _, mapChannels_ok g hg, mapChannels_ok g' hg', rfl, g1 0, g2 0, hx.d0, g1' 0, g2' 0, ?_⟩
  intro i hi l hl m hm
  obtain ⟨cf, cg, e1, e2, e3⟩ := C16_analysis_rotation S.fwd H.fn ⟨x.d1, x.d2, x.val i⟩ ⟨x'.d1, x'.d2, x'.val i⟩ s ⟨h1, h2⟩
    ⟨hx.d1.trans h1, hx.d2.trans h2⟩ (fun k hk j hj => by
      have := hx.val i hi k (h1 ▸ hk) j (h2 ▸ hj)
      dsimp only
      rw [this, h2])
  rw [hg] at e1
  rw [hg'] at e2
  cases e1
  cases e2
  exact e3 l (H.fl ▸ hl) m (H.fm ▸ hm)

theorem synthesis_roll (be : C2R) {S : SpecLayer} {L s' : ℕ} (H : Fits S L) {c c' : Ten3 ℂ} (h1 : c.d1 = L) (h2 : c.d2 = L) (h0' : c'.d0 = c.d0)
    (h1' : c'.d1 = L) (h2' : c'.d2 = L) (hv : ∀ i < c.d0, ∀ l < L, ∀ m < L,
      c'.val i l m = Complex.exp (2 * Real.pi * Complex.I * s' * m / S.inv.nlon) * c.val i l m) :
    ∃ y y' : Ten3 ℝ, mapChannels (S.inv.forward be) c = .ok y ∧ mapChannels (S.inv.forward be) c' = .ok y' ∧
      HasShape y c.d0 S.inv.nlat S.inv.nlon ∧ Rolled s' y y' := by
  have hM : 0 < S.inv.mmax := H.im ▸ H.pos
  have f1 : ∀ i, ∃ y, S.inv.forward be ⟨c.d1, c.d2, c.val i⟩ = .ok y ∧ y.d0 = S.inv.nlat ∧ y.d1 = S.inv.nlon := fun i => by
    obtain ⟨y, hy, a, b, _⟩ := inverseRealSHT_forward be S.inv ⟨c.d1, c.d2, c.val i⟩ (h1.trans H.il.symm) (h2.trans H.im.symm) hM H.in'
    exact ⟨y, hy, a, b⟩
  have f2 : ∀ i, ∃ y, S.inv.forward be ⟨c'.d1, c'.d2, c'.val i⟩ = .ok y ∧ y.d0 = S.inv.nlat ∧ y.d1 = S.inv.nlon := fun i => by
    obtain ⟨y, hy, a, b, _⟩ := inverseRealSHT_forward be S.inv ⟨c'.d1, c'.d2, c'.val i⟩ (h1'.trans H.il.symm) (h2'.trans H.im.symm) hM H.in'
    exact ⟨y, hy, a, b⟩
  choose g hg g1 g2 using f1
  choose g' hg' g1' g2' using f2
  refine ⟨_, _, mapChannels_ok g hg, mapChannels_ok g' hg', ⟨rfl, g1 0, g2 0⟩, h0', ?_, ?_, ?_⟩
  · exact (g1' 0).trans (g1 0).symm
  · exact (g2' 0).trans (g2 0).symm
  · intro i hi k hk j hj
    dsimp only at hi hk hj ⊢
    rw [g1 0] at hk
    rw [g2 0] at hj ⊢
    obtain ⟨fc, fe, e1, e2, e3⟩ := C16_synthesis_rotation be S.inv H.in' hM ⟨c.d1, c.d2, c.val i⟩ ⟨c'.d1, c'.d2, c'.val i⟩ s'
      ⟨h1.trans H.il.symm, h2.trans H.im.symm⟩ ⟨h1'.trans H.il.symm, h2'.trans H.im.symm⟩
      (fun l hl m hm => hv i hi l (H.il ▸ hl) m (H.im ▸ hm))
    rw [hg] at e1
    rw [hg'] at e2
    cases e1
    cases e2
    exact e3 k hk j hj

theorem contract_ok {S : SpecLayer} {L : ℕ} (H : Fits S L) {c : Ten3 ℂ} (h0 : c.d0 = S.inC) (h1 : c.d1 = L) (h2 : c.d2 = L) :
    ∃ z, S.contract c = .ok z ∧ z.d0 = S.outC ∧ z.d1 = L ∧ z.d2 = L ∧ ∀ o, ∀ l < L, ∀ m < L,
      z.val o l m = ∑ i ∈ range S.inC, c.val i l m * S.weight o i l 0 0 := by
  have e : ∀ a i : ℕ, i < a → bidx a i = i := by intro a i h; unfold bidx; split <;> omega
  have b : ∀ a : ℕ, bcast a a = some a := fun a => by simp [bcast]
  unfold SpecLayer.contract
  rw [h0, h1, H.il, b, b, H.op]
  refine ⟨_, rfl, rfl, rfl, h2, ?_⟩
  intro o l hl m hm
  dsimp only
  refine sum_congr rfl fun i hi => ?_
  rw [e _ _ (mem_range.1 hi), e _ _ hl]

/-- The spectral convolution shifts its result and its residual by the same angle as the input. -/
theorem spec_roll (be : C2R) {S : SpecLayer} {L s s' : ℕ} (H : Fits S L) (hs : s * S.inv.nlon = s' * S.fwd.nlon) {x x' : Ten3 ℝ}
    (h0 : x.d0 = S.inC) (h1 : x.d1 = S.fwd.nlat) (h2 : x.d2 = S.fwd.nlon) (hx : Rolled s x x') :
    ∃ y y' r r', S.forward be x = .ok (y, r) ∧ S.forward be x' = .ok (y', r') ∧ HasShape y S.outC S.inv.nlat S.inv.nlon ∧
      HasShape r S.inC S.inv.nlat S.inv.nlon ∧ Rolled s' y y' ∧ Rolled s' r r' := by
  obtain ⟨c, c', hc, hc', d0, d1, d2, d0', d1', d2', hv⟩ := analysis_roll H h1 h2 hx
  replace hv : ∀ i < x.d0, ∀ l < L, ∀ m < L, c'.val i l m = Complex.exp (2 * Real.pi * Complex.I * s' * m / S.inv.nlon) * c.val i l m := by
    intro i hi l hl m hm
    rw [hv i hi l hl m hm, shiftPhase_eq H.fn H.in' hs]
  obtain ⟨z, hz, z0, z1, z2, zv⟩ := contract_ok H (d0.trans h0) d1 d2
  obtain ⟨z', hz', z0', z1', z2', zv'⟩ := contract_ok H (d0'.trans h0) d1' d2'
  obtain ⟨y, y', hy, hy', ys, yr⟩ := synthesis_roll be (s' := s') H z1 z2 (z0'.trans z0.symm) z1' z2' (by
    intro o _ l hl m hm
    rw [zv o l hl m hm, zv' o l hl m hm, mul_sum]
    refine sum_congr rfl fun i hi => ?_
    rw [hv i (h0 ▸ mem_range.1 hi) l hl m hm]
    ring)
  obtain ⟨r, r', hr, hr', rs, rr⟩ : ∃ r r', (if S.scaleResidual then mapChannels (S.inv.forward be) c else .ok x) = .ok r ∧
      (if S.scaleResidual then mapChannels (S.inv.forward be) c' else .ok x') = .ok r' ∧ HasShape r S.inC S.inv.nlat S.inv.nlon ∧ Rolled s' r r' := by
    by_cases hsr : S.scaleResidual
    · rw [if_pos hsr, if_pos hsr]
      obtain ⟨r, r', hr, hr', rs, rr⟩ := synthesis_roll be (s' := s') H d1 d2 (d0'.trans d0.symm) d1' d2' (by
        rw [d0]; exact hv)
      exact ⟨r, r', hr, hr', ⟨rs.1.trans (d0.trans h0), rs.2.1, rs.2.2⟩, rr⟩
    · rw [if_neg hsr, if_neg hsr]
      unfold SpecLayer.scaleResidual at hsr
      push Not at hsr
      have : s = s' := by
        rw [hsr.2] at hs
        exact Nat.eq_of_mul_eq_mul_right H.in' hs
      exact ⟨x, x', rfl, rfl, ⟨h0, h1.trans hsr.1, h2.trans hsr.2⟩, this ▸ hx⟩
  unfold SpecLayer.forward
  rw [hc, hc']
  dsimp only
  rw [hr, hr']
  dsimp only
  rw [hz, hz']
  dsimp only
  rw [hy, hy']
  dsimp only
  cases hb : S.bias with
  | none => exact ⟨y, y', r, r', rfl, rfl, ⟨ys.1.trans z0, ys.2.1, ys.2.2⟩, rs, yr, rr⟩
  | some b =>
    refine ⟨_, _, r, r', rfl, rfl, ⟨ys.1.trans z0, ys.2.1, ys.2.2⟩, rs, ⟨yr.d0, yr.d1, yr.d2, ?_⟩, rr⟩
    intro o ho k hk j hj
    dsimp only at ho hk hj ⊢
    rw [yr.val o ho k hk j hj]

/-! ### Blocks -/

/-- A block between stacks of `D` fields as the network builds it. -/
structure BlockFits (B : Block) (D L : ℕ) : Prop where
  conv : Fits B.conv L
  inC : B.conv.inC = D
  outC : B.conv.outC = D
  pix : B.conv.inv.nlat * B.conv.inv.nlon ≠ 1
  inner : B.inner = .none
  outer : B.outer = .identity
  norm : match B.norm with | .none => True | .inst c _ _ => c = D | .layer h w _ _ => h = B.conv.inv.nlat ∧ w = B.conv.inv.nlon
  mlp : ∀ M, B.mlp = some M → M.fc1.inC = D ∧ M.fc1.outC = M.fc2.inC ∧ M.fc2.outC = D

theorem block_roll (be : C2R) {B : Block} {D L s s' : ℕ} (H : BlockFits B D L) (hs : s * B.conv.inv.nlon = s' * B.conv.fwd.nlon)
    (hn : (∀ h w g b, B.norm ≠ .layer h w g b) ∨ s' = 0) {x x' : Ten3 ℝ} (hx : HasShape x D B.conv.fwd.nlat B.conv.fwd.nlon) (hr : Rolled s x x') :
    ∃ y y', B.forward be x = .ok y ∧ B.forward be x' = .ok y' ∧ HasShape y D B.conv.inv.nlat B.conv.inv.nlon ∧ Rolled s' y y' := by
  obtain ⟨y1, y1', r, r', e1, e1', sy, sr, ry, rr⟩ := spec_roll be H.conv hs (hx.1.trans H.inC.symm) hx.2.1 hx.2.2 hr
  obtain ⟨y2, y2', e2, e2', s2, r2⟩ := norm_roll (N := B.norm) ry (by rw [sy.2.1, sy.2.2]; exact H.pix) (by
    have := H.norm
    cases hB : B.norm with
    | none => trivial
    | inst c g b => rw [hB] at this; exact this.trans (H.outC.symm.trans sy.1.symm)
    | layer h w g b =>
      rw [hB] at this
      refine ⟨this.1.trans sy.2.1.symm, this.2.trans sy.2.2.symm, ?_⟩
      rcases hn with hn | hn
      · exact absurd hB (hn h w g b)
      · exact hn)
  rw [sy.1, sy.2.1, sy.2.2, H.outC] at s2
  obtain ⟨y3, y3', e3, e3', s3, r3⟩ : ∃ y3 y3', (match B.mlp with | none => .ok y2 | some M => M.forward y2 : Except PyErr (Ten3 ℝ)) = .ok y3 ∧
      (match B.mlp with | none => .ok y2' | some M => M.forward y2' : Except PyErr (Ten3 ℝ)) = .ok y3' ∧
      HasShape y3 D B.conv.inv.nlat B.conv.inv.nlon ∧ Rolled s' y3 y3' := by
    cases hM : B.mlp with
    | none => exact ⟨y2, y2', rfl, rfl, s2, r2⟩
    | some M =>
      obtain ⟨a1, a2, a3⟩ := H.mlp M hM
      obtain ⟨z, z', hz, hz', sz, rz⟩ := mlp_roll (s2.1.trans a1.symm) a2 r2
      exact ⟨z, z', hz, hz', ⟨sz.1.trans a3, sz.2.1.trans s2.2.1, sz.2.2.trans s2.2.2⟩, rz⟩
  obtain ⟨y4, y4', e4, e4', s4, r4⟩ := addEmbed_roll rr r3 (by rw [sr.1, s3.1, H.inC]) (by rw [sr.2.1, s3.2.1]) (by rw [sr.2.2, s3.2.2])
  refine ⟨y4, y4', ?_, ?_, ⟨s4.1.trans s3.1, s4.2.1.trans s3.2.1, s4.2.2.trans s3.2.2⟩, r4⟩
  · unfold Block.forward
    rw [e1, except_bind_ok]
    dsimp only
    rw [e2, except_bind_ok, H.inner]
    show (match B.mlp with | none => _ | some M => _) = _
    cases hM : B.mlp with
    | none => rw [hM] at e3; cases e3; rw [H.outer]; exact e4
    | some M => rw [hM] at e3; dsimp only at e3 ⊢; rw [e3, H.outer]; exact e4
  · unfold Block.forward
    rw [e1', except_bind_ok]
    dsimp only
    rw [e2', except_bind_ok, H.inner]
    show (match B.mlp with | none => _ | some M => _) = _
    cases hM : B.mlp with
    | none => rw [hM] at e3'; cases e3'; rw [H.outer]; exact e4'
    | some M => rw [hM] at e3'; dsimp only at e3' ⊢; rw [e3', H.outer]; exact e4'

/-! ### Chains of blocks -/

/-- Blocks that fit together, from a grid with `W` columns on which fields are shifted by `s` columns, to one with `W'` columns and shift `s'`. -/
inductive Chain (D L : ℕ) : ℕ → ℕ → ℕ → List Block → ℕ → ℕ → ℕ → Prop
  | nil (H W s : ℕ) : Chain D L H W s [] H W s
  | cons {B : Block} {bs : List Block} {H W s s1 H' W' s' : ℕ} (fits : BlockFits B D L) (lat : B.conv.fwd.nlat = H) (lon : B.conv.fwd.nlon = W)
      (shift : s * B.conv.inv.nlon = s1 * W) (norm : (∀ h w g b, B.norm ≠ .layer h w g b) ∨ s1 = 0)
      (rest : Chain D L B.conv.inv.nlat B.conv.inv.nlon s1 bs H' W' s') : Chain D L H W s (B :: bs) H' W' s'

theorem runBlocks_roll (be : C2R) {D L H W s H' W' s' : ℕ} {bs : List Block} (C : Chain D L H W s bs H' W' s') :
    ∀ {x x' : Ten3 ℝ}, HasShape x D H W → Rolled s x x' →
      ∃ y y', runBlocks be bs x = .ok y ∧ runBlocks be bs x' = .ok y' ∧ HasShape y D H' W' ∧ Rolled s' y y' := by
  induction C with
  | nil H W s => intro x x' hx hr; exact ⟨x, x', rfl, rfl, hx, hr⟩
  | cons fits lat lon shift norm rest ih =>
    intro x x' hx hr
    subst lat lon
    obtain ⟨y, y', hy, hy', sy, ry⟩ := block_roll be fits shift norm hx hr
    obtain ⟨z, z', hz, hz', sz, rz⟩ := ih sy ry
    refine ⟨z, z', ?_, ?_, sz, rz⟩
    · unfold runBlocks; rw [hy, except_bind_ok]; exact hz
    · unfold runBlocks; rw [hy', except_bind_ok]; exact hz'

/-! ### What the constructors build -/

/-- The block that the network builds from its arguments. -/
noncomputable def netBlock (fwd : RealSHT) (inv : InverseRealSHT) (D : ℕ) (a : BlockArgs) (N : Norm) (p : BlockParams) : Block :=
  ⟨⟨fwd, inv, D, D, .driscollHealy, p.weight, if a.bias then some p.bias else none⟩, .none, N,
    if a.useMlp then
      let hid := if pyInt (D * a.mlpRatio) = 0 then D else (pyInt (D * a.mlpRatio)).toNat
      some ⟨⟨D, hid, p.mlp.w1, some p.mlp.b1⟩, a.act, ⟨hid, D, p.mlp.w2, none⟩⟩
    else none, .identity⟩

theorem block_init (fwd : RealSHT) (inv : InverseRealSHT) (D : ℕ) (a : BlockArgs) (N : Norm) (p : BlockParams) (hD : D ≠ 0)
    (hi : a.inner = "none") (ho : a.outer = "identity") (hN : normInit a.norm inv.nlat inv.nlon D p = .ok N)
    (hr : a.useMlp = true → 0 ≤ pyInt (D * a.mlpRatio)) :
    Block.init fwd inv D D a p = .ok (netBlock fwd inv D a N p) := by
  unfold Block.init
  have e1 : SpecLayer.init fwd inv D D "driscoll-healy" p.weight (if a.bias then some p.bias else none)
      = .ok ⟨fwd, inv, D, D, .driscollHealy, p.weight, if a.bias then some p.bias else none⟩ := by
    simp [SpecLayer.init, hD]
  have e2 : skipInit a.inner D D (D = D) p.innerW p.innerB = .ok .none := by simp [skipInit, hi]
  have e3 : skipInit a.outer D D (D = D) p.outerW p.outerB = .ok .identity := by simp [skipInit, ho]
  rw [e1, except_bind_ok, e2, except_bind_ok, hN, except_bind_ok, e3]
  cases hm : a.useMlp with
  | false => simp only [netBlock, hm]; rfl
  | true =>
    have h0 := hr hm
    have hD' : ¬ ((D : ℤ) = 0) := by exact_mod_cast hD
    have hneg : ¬ (if pyInt (D * a.mlpRatio) = 0 then (D : ℤ) else pyInt (D * a.mlpRatio)) < 0 := by split_ifs <;> omega
    have htn : (if pyInt (D * a.mlpRatio) = 0 then (D : ℤ) else pyInt (D * a.mlpRatio)).toNat
        = if pyInt (D * a.mlpRatio) = 0 then D else (pyInt (D * a.mlpRatio)).toNat := by split_ifs <;> simp
    have e4 : Mlp.init D (pyInt (D * a.mlpRatio)) D a.act p.mlp = .ok
        ⟨⟨D, if pyInt (D * a.mlpRatio) = 0 then D else (pyInt (D * a.mlpRatio)).toNat, p.mlp.w1, some p.mlp.b1⟩, a.act,
          ⟨if pyInt (D * a.mlpRatio) = 0 then D else (pyInt (D * a.mlpRatio)).toNat, D, p.mlp.w2, none⟩⟩ := by
      unfold Mlp.init
      simp only [if_neg hD', if_neg hneg, if_neg hD, htn]
      rw [if_neg (by omega)]
      simp
    simp only [if_true, e4, netBlock, hm]
    rfl

/-! ### Blocks whose perceptron is zero -/

theorem mlp_zero {M : Mlp} {x : Ten3 ℝ} (h0 : x.d0 = M.fc1.inC) (h1 : M.fc1.outC = M.fc2.inC) (hb : M.fc2.b = none) (hw : ∀ o i, M.fc2.w o i = 0) :
    ∃ y, M.forward x = .ok y ∧ HasShape y M.fc2.outC x.d1 x.d2 ∧ ∀ c k j, y.val c k j = 0 := by
  unfold Mlp.forward
  simp only [Conv1.forward, h0, ne_eq, not_true_eq_false, if_false, pointwise, h1]
  refine ⟨_, rfl, ⟨rfl, rfl, rfl⟩, ?_⟩
  intro c k j
  simp [hw, hb]

/-- Such a block returns its residual. -/
theorem block_residual (be : C2R) {B : Block} {D L : ℕ} (H : BlockFits B D L) {M : Mlp} (hM : B.mlp = some M) (hb : M.fc2.b = none)
    (hw : ∀ o i, M.fc2.w o i = 0) {x : Ten3 ℝ} (hx : HasShape x D B.conv.fwd.nlat B.conv.fwd.nlon) :
    ∃ y1 r y, B.conv.forward be x = .ok (y1, r) ∧ B.forward be x = .ok y ∧ HasShape r D B.conv.inv.nlat B.conv.inv.nlon ∧
      HasShape y D B.conv.inv.nlat B.conv.inv.nlon ∧
      ∀ c < D, ∀ k < B.conv.inv.nlat, ∀ j < B.conv.inv.nlon, y.val c k j = r.val c k j := by
  obtain ⟨y1, _, r, _, e1, _, sy, sr, _, _⟩ := spec_roll be (s := 0) (s' := 0) H.conv (by simp) (hx.1.trans H.inC.symm) hx.2.1 hx.2.2 (rolled_refl x)
  rw [H.inC] at sr
  obtain ⟨y2, _, e2, _, s2, _⟩ := norm_roll (N := B.norm) (rolled_refl y1) (by rw [sy.2.1, sy.2.2]; exact H.pix) (by
    have := H.norm
    cases hB : B.norm with
    | none => trivial
    | inst c g b => rw [hB] at this; exact this.trans (H.outC.symm.trans sy.1.symm)
    | layer h w g b => rw [hB] at this; exact ⟨this.1.trans sy.2.1.symm, this.2.trans sy.2.2.symm, rfl⟩)
  rw [sy.1, sy.2.1, sy.2.2, H.outC] at s2
  obtain ⟨a1, a2, a3⟩ := H.mlp M hM
  obtain ⟨y3, e3, s3, v3⟩ := mlp_zero (s2.1.trans a1.symm) a2 hb hw
  rw [a3, s2.2.1, s2.2.2] at s3
  obtain ⟨y4, e4, s4, v4⟩ := addEmbed_same (sr.1.trans s3.1.symm) (sr.2.1.trans s3.2.1.symm) (sr.2.2.trans s3.2.2.symm)
  rw [s3.1, s3.2.1, s3.2.2] at s4 v4
  refine ⟨y1, r, y4, e1, ?_, sr, s4, fun c hc k hk j hj => by rw [v4 c hc k hk j hj, v3, zero_add]⟩
  unfold Block.forward
  rw [e1, except_bind_ok]
  dsimp only
  rw [e2, except_bind_ok, H.inner]
  show (match B.mlp with | none => _ | some M => _) = _
  rw [hM]
  dsimp only
  rw [e3, H.outer]
  exact e4

theorem forward_residual {be : C2R} {S : SpecLayer} {x y r : Ten3 ℝ} (h : S.forward be x = .ok (y, r)) :
    ∃ c, mapChannels S.fwd.forward x = .ok c ∧ (if S.scaleResidual then mapChannels (S.inv.forward be) c else .ok x) = .ok r := by
  unfold SpecLayer.forward at h
  cases hc : mapChannels S.fwd.forward x with
  | error e => rw [hc] at h; cases h
  | ok c =>
    rw [hc] at h
    dsimp only at h
    refine ⟨c, rfl, ?_⟩
    cases hr : (if S.scaleResidual then mapChannels (S.inv.forward be) c else .ok x : Except PyErr (Ten3 ℝ)) with
    | error e => rw [hr] at h; cases h
    | ok r' =>
      rw [hr] at h
      dsimp only at h
      cases hz : S.contract c with
      | error e => rw [hz] at h; cases h
      | ok z =>
        rw [hz] at h
        dsimp only at h
        cases hy : mapChannels (S.inv.forward be) z with
        | error e => rw [hy] at h; cases h
        | ok y' =>
          rw [hy] at h
          dsimp only at h
          cases hb : S.bias with
          | none => rw [hb] at h; cases h; rfl
          | some b => rw [hb] at h; cases h; rfl

/-! ### Band-limited fields -/

/-- `x` holds the values of the fields with coefficients `c 0, c 1, ...` on the grid with the latitude rule `r` and `W` longitudes. -/
def Samples (D L : ℕ) (c : ℕ → ℕ → ℕ → ℂ) (H W : ℕ) (r : Rule) (x : Ten3 ℝ) : Prop :=
  HasShape x D H W ∧ ∀ i < D, ∀ k < H, ∀ j < W,
    x.val i k j = harmonicSeries "ortho" true W L L (c i) (Real.arccos (r.x (H - 1 - k))) (2 * Real.pi * j / W)

/-- A grid that resolves the truncation `L`. -/
structure Resolves (env : Env) (H W L : ℕ) (grid : String) (r : Rule) (d : ℕ) : Prop where
  rule : gridRule env.gauss env.tol env.maxiter H grid = .ok r
  exact' : SymmetricExactRule r H d
  lat : 2 * (L - 1) ≤ d
  lon : 2 * (L - 1) < W

theorem samples_analysis {env : Env} (be : C2R) {D L H W d : ℕ} {grid : String} {r : Rule} (R : Resolves env H W L grid r d) (hL : 0 < L)
    {S : RealSHT} (hS : RealSHT.init env ⟨H, W, some L, some L, grid, "ortho", true⟩ = .ok S) {c : ℕ → ℕ → ℕ → ℂ}
    (htri : ∀ i < D, ∀ l < L, ∀ m < L, l < m → c i l m = 0) (hdc : ∀ i < D, ∀ l < L, (c i l 0).im = 0) {x : Ten3 ℝ} (hx : Samples D L c H W r x)
    {z : Ten3 ℂ} (hz : mapChannels S.forward x = .ok z) :
    z.d0 = D ∧ z.d1 = L ∧ z.d2 = L ∧ ∀ i < D, ∀ l < L, ∀ m < L, z.val i l m = c i l m := by
  have hW : 0 < W := by have := R.lon; omega
  have hsz : sizes H W (some L) (some L) grid = .ok (L, L) := sizes_explicit _ _ _ _ hL
  have hS' := hS
  rw [realSHT_init env _ r L R.rule hsz hL] at hS'
  cases hS'
  set S : RealSHT := ⟨H, W, L, L, fun m l k => Legendre.legpolyVal L L "ortho" false true (Real.cos (colat r k)) m l * r.w k⟩ with hSdef
  have f1 : ∀ i, ∃ c, S.forward ⟨x.d1, x.d2, x.val i⟩ = .ok c ∧ c.d0 = L ∧ c.d1 = L := fun i => by
    obtain ⟨c, hc, a, b, _⟩ := realSHT_forward S ⟨x.d1, x.d2, x.val i⟩ hx.1.2.1 hx.1.2.2 hW
    exact ⟨c, hc, a, b⟩
  choose g hg g1 g2 using f1
  rw [mapChannels_ok g hg] at hz
  cases hz
  refine ⟨hx.1.1, g1 0, g2 0, ?_⟩
  intro i hi l hl m hm
  obtain ⟨S0, I0, f, c', h1, h2, h3, h4, h5, h6, h7⟩ := C14_roundtrip env be ⟨H, W, some L, some L, grid, "ortho", true⟩ r d L hW R.rule R.exact' hsz hL
    R.lat R.lon.le ⟨L, L, c i⟩ rfl rfl (htri i hi) (hdc i hi) (fun l hl m hm h => by have := R.lon; dsimp only at h; omega)
  obtain ⟨I1, f', k1, k2, k3, k4, k5⟩ := C59_synthesis_value env be ⟨H, W, some L, some L, grid, "ortho", true⟩ r d L hW R.rule R.exact' hsz hL
    ⟨L, L, c i⟩ rfl rfl
  rw [h2] at k1; cases k1
  rw [h3] at k2; cases k2
  rw [hS] at h1; cases h1
  obtain ⟨cf, cg, q1, q2, q3⟩ := realSHT_congr S hW ⟨x.d1, x.d2, x.val i⟩ f hx.1.2 ⟨k3, k4⟩ (fun k hk j hj => by
    rw [k5 k hk j hj]; exact hx.2 i hi k hk j hj)
  rw [hg] at q1; cases q1
  rw [h4] at q2; cases q2
  dsimp only
  rw [q3 l m hm, h7 l hl m hm]

theorem samples_synthesis {env : Env} (be : C2R) {D L H W d : ℕ} {grid : String} {r : Rule} (R : Resolves env H W L grid r d) (hL : 0 < L)
    {I : InverseRealSHT} (hI : InverseRealSHT.init env ⟨H, W, some L, some L, grid, "ortho", true⟩ = .ok I) {c : ℕ → ℕ → ℕ → ℂ} {z : Ten3 ℂ}
    (h0 : z.d0 = D) (h1 : z.d1 = L) (h2 : z.d2 = L) (hv : ∀ i < D, ∀ l < L, ∀ m < L, z.val i l m = c i l m) {y : Ten3 ℝ}
    (hy : mapChannels (I.forward be) z = .ok y) : Samples D L c H W r y := by
  have hW : 0 < W := by have := R.lon; omega
  have hsz : sizes H W (some L) (some L) grid = .ok (L, L) := sizes_explicit _ _ _ _ hL
  have key : ∀ i, ∃ f, I.forward be ⟨z.d1, z.d2, z.val i⟩ = .ok f ∧ f.d0 = H ∧ f.d1 = W ∧ ∀ k < H, ∀ j < W,
      f.val k j = harmonicSeries "ortho" true W L L (z.val i) (Real.arccos (r.x (H - 1 - k))) (2 * Real.pi * j / W) := fun i => by
    obtain ⟨I1, f, k1, k2, k3, k4, k5⟩ := C59_synthesis_value env be ⟨H, W, some L, some L, grid, "ortho", true⟩ r d L hW R.rule R.exact' hsz hL
      ⟨z.d1, z.d2, z.val i⟩ h1 h2
    rw [hI] at k1; cases k1
    exact ⟨f, k2, k3, k4, k5⟩
  choose g hg g1 g2 g3 using key
  rw [mapChannels_ok g hg] at hy
  cases hy
  refine ⟨⟨h0, g1 0, g2 0⟩, fun i hi k hk j hj => ?_⟩
  dsimp only
  rw [g3 i k hk j hj]
  exact harmonicSeries_congr _ _ _ _ _ _ _ _ (hv i hi)

end Verif.SFNO
