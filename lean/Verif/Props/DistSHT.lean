import Verif.Model.DistSHT
import Verif.Lemmas.DistGrid
import Verif.Props.SpectralConv
import Verif.Props.VectorSHT
/-!
Property theorems C51: the distributed transforms return the tiles of the result of the serial transforms.
-/
namespace Verif.Props
open Verif Verif.Dist Verif.SHT Verif.FFT Verif.Quad Verif.Legendre Verif.Spec Finset

/-! ### Local steps -/

/-- The FFT of a global tensor along longitude. -/
noncomputable def rfftG (nlon : ℕ) (X : ℕ → ℕ → ℕ → ℝ) (c k m : ℕ) : ℂ :=
  2 * Real.pi * if m ≤ nlon / 2 then (1 / nlon : ℂ) * dft nlon (X c k) m else 0

/-- The Legendre contraction of a global tensor. -/
noncomputable def legG (n1 : ℕ) (W : ℕ → ℕ → ℕ → ℝ) (Z : ℕ → ℕ → ℕ → ℂ) (c l m : ℕ) : ℂ :=
  ⟨∑ k ∈ range n1, (Z c k m).re * W m l k, ∑ k ∈ range n1, (Z c k m).im * W m l k⟩

/-- The inverse FFT of a global tensor along orders. -/
noncomputable def irfftG (mmax nlon : ℕ) (Z : ℕ → ℕ → ℕ → ℂ) (c k j : ℕ) : ℝ :=
  synth nlon (fun m => if m < mmax then (if m = 0 ∨ 2 * m = nlon then ((Z c k m).re : ℂ) else Z c k m) else 0) j

theorem localRfft_part (M nlon : ℕ) (hn : 0 < nlon) (c0 c1 : Cut) (X : ℕ → ℕ → ℕ → ℝ) (x : Ten3 ℝ)
    (hx : IsPart c0 c1 (whole nlon) X x) : ∃ y, localRfft M x = .ok y ∧ IsPart c0 c1 (whole M) (rfftG nlon X) y := by
  obtain ⟨h0, h1, h2, h3⟩ := hx
  rw [whole_size] at h2 h3
  have h := fun c => rfftRows ⟨x.d1, x.d2, x.val c⟩ (by show 0 < x.d2; omega) M
  choose g hg hg0 hg1 hgv using h
  unfold localRfft
  rw [mapChannels_ok g hg]
  refine ⟨_, rfl, h0, (hg0 0).trans h1, ?_, fun i hi j hj m hm => ?_⟩
  · rw [whole_size]; exact hg1 0
  · rw [whole_size] at hm
    rw [whole_start, zero_add]
    show 2 * (Real.pi : ℂ) * (g i).val j m = _
    rw [hgv i j m hm]
    unfold rfftG
    dsimp only
    rw [h2, dft_congr nlon _ (X (c0.start + i) (c1.start + j)) fun k hk => by
      have := h3 i hi j hj k hk
      rwa [whole_start, zero_add] at this]

theorem localLegendre_part (L n1 : ℕ) (c0 c2 : Cut) (W w : ℕ → ℕ → ℕ → ℝ) (hw : ∀ m < c2.size, w m = W (c2.start + m))
    (Z : ℕ → ℕ → ℕ → ℂ) (x : Ten3 ℂ) (hx : IsPart c0 (whole n1) c2 Z x) :
    IsPart c0 (whole L) c2 (legG n1 W Z) (localLegendre L w x) := by
  obtain ⟨h0, h1, h2, h3⟩ := hx
  rw [whole_size] at h1 h3
  refine ⟨h0, ?_, h2, fun i hi l _ m hm => ?_⟩
  · rw [whole_size]; rfl
  · rw [whole_start, zero_add]
    have e : ∀ k ∈ range n1, x.val i k m = Z (c0.start + i) k (c2.start + m) := fun k hk => by
      have := h3 i hi k (mem_range.1 hk) m hm
      rwa [whole_start, zero_add] at this
    unfold localLegendre legG
    dsimp only
    rw [h1, hw m hm, sum_congr rfl fun k hk => by rw [e k hk]]
    congr 1
    exact sum_congr rfl fun k hk => by rw [e k hk]

theorem localIrfft_part (be : C2R) (M nlon : ℕ) (hn : 0 < nlon) (hM : 0 < M) (c0 c1 : Cut) (Z : ℕ → ℕ → ℕ → ℂ) (x : Ten3 ℂ)
    (hx : IsPart c0 c1 (whole M) Z x) : ∃ y, localIrfft be nlon x = .ok y ∧ IsPart c0 c1 (whole nlon) (irfftG M nlon Z) y := by
  obtain ⟨h0, h1, h2, h3⟩ := hx
  rw [whole_size] at h2 h3
  have h := fun c => irfftRows be ⟨x.d1, x.d2, x.val c⟩ (by show 0 < x.d2; omega) nlon hn
  choose g hg hg0 hg1 hgv using h
  unfold localIrfft
  rw [mapChannels_ok g hg]
  refine ⟨_, rfl, h0, (hg0 0).trans h1, ?_, fun i hi j hj m hm => ?_⟩
  · rw [whole_size]; exact hg1 0
  · rw [whole_size] at hm
    rw [whole_start, zero_add]
    show (g i).val j m = _
    rw [hgv i j m hm]
    unfold irfftG
    dsimp only
    rw [h2]
    congr 1
    funext m'
    split
    · next hm' =>
      have := h3 i hi j hj m' hm'
      rw [whole_start, zero_add] at this
      rw [this]
    · rfl

/-! ### Values of the serial transforms -/

theorem realSHT_value (S : RealSHT) (hn : 0 < S.nlon) (f : ℕ → ℕ → ℝ) :
    ∃ y, S.forward ⟨S.nlat, S.nlon, f⟩ = .ok y ∧ y.d0 = S.lmax ∧ y.d1 = S.mmax ∧
      ∀ l, ∀ m < S.mmax, y.val l m = legG S.nlat S.weights (rfftG S.nlon fun _ => f) 0 l m := by
  obtain ⟨z, hz, _, _, hv⟩ := rfftRows ⟨S.nlat, S.nlon, f⟩ hn S.mmax
  unfold RealSHT.forward
  rw [if_neg (by simp), if_neg (by simp), hz]
  refine ⟨_, rfl, rfl, rfl, fun l m hm => ?_⟩
  unfold legG rfftG
  dsimp only
  congr 1 <;> exact sum_congr rfl fun k _ => by rw [hv k m hm]

theorem inverseSHT_value (be : C2R) (S : InverseRealSHT) (hn : 0 < S.nlon) (hM : 0 < S.mmax) (c : ℕ → ℕ → ℂ) :
    ∃ y, S.forward be ⟨S.lmax, S.mmax, c⟩ = .ok y ∧ y.d0 = S.nlat ∧ y.d1 = S.nlon ∧
      ∀ k, ∀ j < S.nlon, y.val k j = irfftG S.mmax S.nlon (legG S.lmax S.pct fun _ => c) 0 k j := by
  unfold InverseRealSHT.forward
  rw [if_neg (by simp), if_neg (by simp)]
  obtain ⟨y, hy, h0, h1, hv⟩ := irfftRows be ⟨S.nlat, S.mmax, fun k m =>
      ⟨∑ l ∈ range S.lmax, (c l m).re * S.pct m k l, ∑ l ∈ range S.lmax, (c l m).im * S.pct m k l⟩⟩ hM S.nlon hn
  exact ⟨y, hy, h0, h1, fun k j hj => by rw [hv k j hj]; rfl⟩

theorem realSHT_sizes {env : Env} {A : Args} {S : RealSHT} (h : RealSHT.init env A = .ok S) : S.nlat = A.nlat ∧ S.nlon = A.nlon := by
  unfold RealSHT.init at h
  cases hr : gridRule env.gauss env.tol env.maxiter A.nlat A.grid with
  | error e => rw [hr] at h; cases h
  | ok r =>
    rw [hr] at h
    rw [except_bind_ok] at h
    cases hs : sizes A.nlat A.nlon A.lmax A.mmax A.grid with
    | error e => rw [hs] at h; cases h
    | ok LM =>
      obtain ⟨L, M⟩ := LM
      rw [hs] at h
      rw [except_bind_ok] at h
      dsimp only at h
      cases hl : legpolyTensor M L (colat r) A.norm false A.csphase with
      | error e => rw [hl] at h; cases h
      | ok pct => rw [hl] at h; cases h; exact ⟨rfl, rfl⟩

theorem inverseSHT_sizes {env : Env} {A : Args} {S : InverseRealSHT} (h : InverseRealSHT.init env A = .ok S) :
    S.nlat = A.nlat ∧ S.nlon = A.nlon := by
  unfold InverseRealSHT.init at h
  cases hr : gridRule env.gauss env.tol env.maxiter A.nlat A.grid with
  | error e => rw [hr] at h; cases h
  | ok r =>
    rw [hr] at h
    rw [except_bind_ok] at h
    cases hs : sizes A.nlat A.nlon A.lmax A.mmax A.grid with
    | error e => rw [hs] at h; cases h
    | ok LM =>
      obtain ⟨L, M⟩ := LM
      rw [hs] at h
      rw [except_bind_ok] at h
      dsimp only at h
      cases hl : legpolyTensor M L (colat r) A.norm true A.csphase with
      | error e => rw [hl] at h; cases h
      | ok pct => rw [hl] at h; cases h; exact ⟨rfl, rfl⟩

theorem flatGlobal_at {α : Type} [Zero α] (lead idx : List ℕ) (h : LeadIndex lead idx) (X : List ℕ → ℕ → ℕ → α) :
    flatGlobal lead X (flatIndex lead idx) = X idx := by
  obtain ⟨h1, h2⟩ := C55_flatten_roundtrip lead idx ((leadIndex_valid _ _).1 h)
  funext j k
  unfold flatGlobal
  rw [if_pos h1, h2]

/-! ### Construction -/

/-- The process grid is not larger than any extent it has to share. -/
structure Fits (Pp Pa nlat nlon lmax mmax : ℕ) : Prop where
  polar : 0 < Pp
  azimuth : 0 < Pa
  lat : Pp ≤ nlat
  lon : Pa ≤ nlon
  degrees : Pp ≤ lmax
  orders : Pa ≤ mmax

theorem mkShapes_ok {Pp Pa nlat nlon lmax mmax : ℕ} (h : Fits Pp Pa nlat nlon lmax mmax) :
    ∃ sh, mkShapes Pp Pa nlat nlon lmax mmax = .ok sh ∧ computeSplitShapes nlat Pp = .ok sh.lat ∧
      computeSplitShapes nlon Pa = .ok sh.lon ∧ computeSplitShapes lmax Pp = .ok sh.l ∧ computeSplitShapes mmax Pa = .ok sh.m := by
  obtain ⟨s1, h1⟩ := css_exists h.lat h.polar
  obtain ⟨s2, h2⟩ := css_exists h.lon h.azimuth
  obtain ⟨s3, h3⟩ := css_exists h.degrees h.polar
  obtain ⟨s4, h4⟩ := css_exists h.orders h.azimuth
  exact ⟨⟨s1, s2, s3, s4⟩, by simp [mkShapes, h1, h2, h3, h4, bind, Except.bind, pure, Except.pure], h1, h2, h3, h4⟩

theorem split_weights {α : Type} (M Pa a : ℕ) (h0 : 0 < Pa) (h : Pa ≤ M) (ha : a < Pa) (W : ℕ → α) :
    ∃ w, splitTensorAlongDim (⟨M, W⟩ : Vec α) Pa = .ok w ∧ ∀ m, (w a).val m = W (blockStart M Pa a + m) := by
  obtain ⟨s, hs⟩ := css_exists h h0
  refine ⟨fun r => (⟨M, W⟩ : Vec α).chunk s r, ?_, fun m => ?_⟩
  · unfold splitTensorAlongDim
    rw [if_neg (by show ¬ ¬ Pa ≤ M; omega), show computeSplitShapes (⟨M, W⟩ : Vec α).len Pa = .ok s from hs]
    simp [bind, Except.bind, pure, Except.pure, css_sum hs]
  · simp only [Vec.chunk]
    rw [css_offset_block hs a (by omega)]

/-- C51. On a process grid that fits, the distributed transform is constructed on every rank as soon as the serial one is, with the same
truncation; a rank keeps the weights of its orders. -/
theorem C51_real_init (env : Env) (A : Args) (S : RealSHT) (hS : RealSHT.init env A = .ok S) (Pp Pa : ℕ)
    (hf : Fits Pp Pa A.nlat A.nlon S.lmax S.mmax) (p a : ℕ) (hp : p < Pp) (ha : a < Pa) :
    ∃ D, DRealSHT.init env A Pp Pa p a = .ok D ∧ D.nlat = A.nlat ∧ D.nlon = A.nlon ∧ D.lmax = S.lmax ∧ D.mmax = S.mmax ∧
      D.nlatLocal = blockSize A.nlat Pp p ∧ D.nlonLocal = blockSize A.nlon Pa a ∧
      computeSplitShapes A.nlat Pp = .ok D.sh.lat ∧ computeSplitShapes A.nlon Pa = .ok D.sh.lon ∧
      ∀ m, D.weights m = S.weights (blockStart S.mmax Pa a + m) := by
  unfold RealSHT.init at hS
  unfold DRealSHT.init
  cases hr : gridRule env.gauss env.tol env.maxiter A.nlat A.grid with
  | error e => rw [hr] at hS; cases hS
  | ok r =>
    rw [hr] at hS
    rw [except_bind_ok] at hS ⊢
    cases hs : sizes A.nlat A.nlon A.lmax A.mmax A.grid with
    | error e => rw [hs] at hS; cases hS
    | ok LM =>
      obtain ⟨L, M⟩ := LM
      rw [hs] at hS
      rw [except_bind_ok] at hS ⊢
      dsimp only at hS ⊢
      cases hl : legpolyTensor M L (colat r) A.norm false A.csphase with
      | error e => rw [hl] at hS; cases hS
      | ok pct =>
        rw [hl] at hS
        cases hS
        obtain ⟨sh, h0, h1, h2, h3, h4⟩ := mkShapes_ok hf
        obtain ⟨w, hw, hwv⟩ := split_weights M Pa a hf.azimuth hf.orders ha (fun m l k => pct m l k * r.w k)
        rw [h0, except_bind_ok, except_bind_ok, hw, except_bind_ok]
        exact ⟨_, rfl, rfl, rfl, rfl, rfl, css_getD_block h1 p hp, css_getD_block h2 a ha, h1, h2, fun m => hwv m⟩

theorem C51_inverse_init (env : Env) (A : Args) (S : InverseRealSHT) (hS : InverseRealSHT.init env A = .ok S) (Pp Pa : ℕ)
    (hf : Fits Pp Pa A.nlat A.nlon S.lmax S.mmax) (p a : ℕ) (hp : p < Pp) (ha : a < Pa) :
    ∃ D, DInverseRealSHT.init env A Pp Pa p a = .ok D ∧ D.nlat = A.nlat ∧ D.nlon = A.nlon ∧ D.lmax = S.lmax ∧ D.mmax = S.mmax ∧
      D.lmaxLocal = blockSize S.lmax Pp p ∧ D.mmaxLocal = blockSize S.mmax Pa a ∧
      computeSplitShapes S.lmax Pp = .ok D.sh.l ∧ computeSplitShapes S.mmax Pa = .ok D.sh.m ∧
      ∀ m, D.pct m = S.pct (blockStart S.mmax Pa a + m) := by
  unfold InverseRealSHT.init at hS
  unfold DInverseRealSHT.init
  cases hr : gridRule env.gauss env.tol env.maxiter A.nlat A.grid with
  | error e => rw [hr] at hS; cases hS
  | ok r =>
    rw [hr] at hS
    rw [except_bind_ok] at hS ⊢
    cases hs : sizes A.nlat A.nlon A.lmax A.mmax A.grid with
    | error e => rw [hs] at hS; cases hS
    | ok LM =>
      obtain ⟨L, M⟩ := LM
      rw [hs] at hS
      rw [except_bind_ok] at hS ⊢
      dsimp only at hS ⊢
      cases hl : legpolyTensor M L (colat r) A.norm true A.csphase with
      | error e => rw [hl] at hS; cases hS
      | ok pct =>
        rw [hl] at hS
        cases hS
        obtain ⟨sh, h0, h1, h2, h3, h4⟩ := mkShapes_ok hf
        obtain ⟨w, hw, hwv⟩ := split_weights M Pa a hf.azimuth hf.orders ha (fun m k l => pct m l k)
        rw [h0, except_bind_ok, except_bind_ok, hw, except_bind_ok]
        exact ⟨_, rfl, rfl, rfl, rfl, rfl, css_getD_block h3 p hp, css_getD_block h4 a ha, h3, h4, fun m => hwv m⟩

/-- A process grid that is too large for one of the extents. -/
def TooLarge (Pp Pa nlat nlon lmax mmax : ℕ) : Prop := nlat < Pp ∨ nlon < Pa ∨ lmax < Pp ∨ mmax < Pa

theorem mkShapes_error {Pp Pa nlat nlon lmax mmax : ℕ} (h : TooLarge Pp Pa nlat nlon lmax mmax) :
    ∃ e, mkShapes Pp Pa nlat nlon lmax mmax = .error e := by
  unfold mkShapes
  cases h1 : computeSplitShapes nlat Pp with
  | error e => exact ⟨e, rfl⟩
  | ok s1 =>
    cases h2 : computeSplitShapes nlon Pa with
    | error e => exact ⟨e, rfl⟩
    | ok s2 =>
      cases h3 : computeSplitShapes lmax Pp with
      | error e => exact ⟨e, rfl⟩
      | ok s3 =>
        cases h4 : computeSplitShapes mmax Pa with
        | error e => exact ⟨e, rfl⟩
        | ok s4 =>
          have := ((css_ok_iff _ _ _).1 h1).1
          have := ((css_ok_iff _ _ _).1 h2).1
          have := ((css_ok_iff _ _ _).1 h3).1
          have := ((css_ok_iff _ _ _).1 h4).1
          unfold TooLarge at h
          omega

/-- C51 (error branch). A process grid with more ranks than latitudes, longitudes, degrees or orders to share is refused on every rank. -/
theorem C51_too_many_ranks (env : Env) (A : Args) (S : RealSHT) (hS : RealSHT.init env A = .ok S) (Pp Pa : ℕ)
    (hf : TooLarge Pp Pa A.nlat A.nlon S.lmax S.mmax) (p a : ℕ) :
    (∃ e, DRealSHT.init env A Pp Pa p a = .error e) ∧ ∃ e, DInverseRealSHT.init env A Pp Pa p a = .error e := by
  unfold RealSHT.init at hS
  unfold DRealSHT.init DInverseRealSHT.init
  cases hr : gridRule env.gauss env.tol env.maxiter A.nlat A.grid with
  | error e => rw [hr] at hS; cases hS
  | ok r =>
    rw [hr] at hS
    rw [except_bind_ok] at hS
    cases hs : sizes A.nlat A.nlon A.lmax A.mmax A.grid with
    | error e => rw [hs] at hS; cases hS
    | ok LM =>
      obtain ⟨L, M⟩ := LM
      rw [hs] at hS
      rw [except_bind_ok] at hS
      dsimp only at hS
      cases hl : legpolyTensor M L (colat r) A.norm false A.csphase with
      | error e => rw [hl] at hS; cases hS
      | ok pct =>
        rw [hl] at hS
        cases hS
        obtain ⟨e, he⟩ := mkShapes_error hf
        exact ⟨⟨e, by rw [except_bind_ok, except_bind_ok]; dsimp only; rw [he]; rfl⟩,
          ⟨e, by rw [except_bind_ok, except_bind_ok]; dsimp only; rw [he]; rfl⟩⟩

/-! ### The scalar transforms -/

theorem checkShape_ok {α : Type} {x : LTen α} {n1 n2 : ℕ} (h0 : x.lead ≠ []) (h1 : x.d1 = n1) (h2 : x.d2 = n2) :
    checkShape x n1 n2 = .ok () := by
  have : ¬ x.lead.length < 1 := by
    have := List.length_pos_iff.2 h0; omega
  unfold checkShape
  rw [if_neg this, if_neg (not_not.2 h1), if_neg (not_not.2 h2)]

/-- The data flow shared by the two forward transforms. -/
def analysisPipe {α β γ : Type} [Zero α] (Pp Pa : ℕ) (n1 n2 : ℕ → ℕ → ℕ) (shlon shlat : ℕ → ℕ → List ℕ)
    (F : ℕ → ℕ → Ten3 α → Except PyErr (Ten3 β)) (G : ℕ → ℕ → Ten3 β → Ten3 γ) (x : ℕ → ℕ → LTen α) : Except PyErr (ℕ → ℕ → LTen γ) := do
  let _ ← collect Pp Pa fun p a => checkShape (x p a) (n1 p a) (n2 p a)
  let x0 : ℕ → ℕ → Ten3 α := fun p a => (flattenPad (x p a) (max Pp Pa)).1
  let x1 ← collect Pp Pa fun p a => azimuthIn Pa x0 (shlon p a) p a
  let x2 ← collect Pp Pa fun p a => F p a (x1 p a)
  let x3 ← collect Pp Pa fun p a => azimuthOut Pa x2 (x0 p a).d0 p a
  let x4 ← collect Pp Pa fun p a => polarIn Pp x3 (shlat p a) p a
  let x5 : ℕ → ℕ → Ten3 γ := fun p a => G p a (x4 p a)
  let x6 ← collect Pp Pa fun p a => polarOut Pp x5 (x0 p a).d0 p a
  collect Pp Pa fun p a => unpadUnflatten (x6 p a) (x p a).lead (flattenPad (x p a) (max Pp Pa)).2

/-- The data flow shared by the two inverse transforms. -/
def synthesisPipe {α β γ : Type} [Zero α] (Pp Pa : ℕ) (n1 n2 : ℕ → ℕ → ℕ) (shl shm : ℕ → ℕ → List ℕ)
    (G : ℕ → ℕ → Ten3 α → Ten3 β) (F : ℕ → ℕ → Ten3 β → Except PyErr (Ten3 γ)) (x : ℕ → ℕ → LTen α) : Except PyErr (ℕ → ℕ → LTen γ) := do
  let _ ← collect Pp Pa fun p a => checkShape (x p a) (n1 p a) (n2 p a)
  let x0 : ℕ → ℕ → Ten3 α := fun p a => (flattenPad (x p a) (max Pp Pa)).1
  let x1 ← collect Pp Pa fun p a => polarIn Pp x0 (shl p a) p a
  let x2 : ℕ → ℕ → Ten3 β := fun p a => G p a (x1 p a)
  let x3 ← collect Pp Pa fun p a => polarOut Pp x2 (x0 p a).d0 p a
  let x4 ← collect Pp Pa fun p a => azimuthIn Pa x3 (shm p a) p a
  let x5 ← collect Pp Pa fun p a => F p a (x4 p a)
  let x6 ← collect Pp Pa fun p a => azimuthOut Pa x5 (x0 p a).d0 p a
  collect Pp Pa fun p a => unpadUnflatten (x6 p a) (x p a).lead (flattenPad (x p a) (max Pp Pa)).2

theorem analysis_tile {α β γ : Type} [Zero α] {Pp Pa nlat nlon L M : ℕ} (hf : Fits Pp Pa nlat nlon L M)
    (n1 n2 : ℕ → ℕ → ℕ) (shlon shlat : ℕ → ℕ → List ℕ) (F : ℕ → ℕ → Ten3 α → Except PyErr (Ten3 β)) (G : ℕ → ℕ → Ten3 β → Ten3 γ)
    (Fg : (ℕ → ℕ → ℕ → α) → ℕ → ℕ → ℕ → β) (Gg : (ℕ → ℕ → ℕ → β) → ℕ → ℕ → ℕ → γ)
    (h1 : ∀ p < Pp, ∀ a < Pa, n1 p a = blockSize nlat Pp p) (h2 : ∀ p < Pp, ∀ a < Pa, n2 p a = blockSize nlon Pa a)
    (hlon : ∀ p < Pp, ∀ a < Pa, computeSplitShapes nlon Pa = .ok (shlon p a))
    (hlat : ∀ p < Pp, ∀ a < Pa, computeSplitShapes nlat Pp = .ok (shlat p a))
    (hF : ∀ p < Pp, ∀ a < Pa, ∀ (c0 c1 : Cut) (X : ℕ → ℕ → ℕ → α) x, IsPart c0 c1 (whole nlon) X x →
      ∃ y, F p a x = .ok y ∧ IsPart c0 c1 (whole M) (Fg X) y)
    (hG : ∀ p < Pp, ∀ a < Pa, ∀ (c0 : Cut) (Z : ℕ → ℕ → ℕ → β) x, IsPart c0 (whole nlat) ⟨M, Pa, a⟩ Z x →
      IsPart c0 (whole L) ⟨M, Pa, a⟩ (Gg Z) (G p a x))
    (lead : List ℕ) (hl : lead ≠ []) (X : List ℕ → ℕ → ℕ → α) (x : ℕ → ℕ → LTen α)
    (hx : ∀ p < Pp, ∀ a < Pa, IsTile lead nlat nlon Pp Pa X p a (x p a)) :
    ∃ y, analysisPipe Pp Pa n1 n2 shlon shlat F G x = .ok y ∧
      ∀ p < Pp, ∀ a < Pa, IsTile lead L M Pp Pa (fun idx => Gg (Fg (flatGlobal lead X)) (flatIndex lead idx)) p a (y p a) := by
  let N := max lead.prod (max Pp Pa)
  have hNp : Pp ≤ N := le_trans (le_max_left _ _) (le_max_right _ _)
  have hNa : Pa ≤ N := le_trans (le_max_right _ _) (le_max_right _ _)
  have hflat := fun p hp a ha => flattenPad_part lead nlat nlon Pp Pa (max Pp Pa) X p a (x p a) (hx p hp a ha)
  obtain ⟨u, hu, -⟩ := collect_ok (Q := fun _ _ _ => True) hf.polar hf.azimuth (f := fun p a => checkShape (x p a) (n1 p a) (n2 p a))
    fun p hp a ha => ⟨(), checkShape_ok (by rw [(hx p hp a ha).1]; exact hl) (by rw [(hx p hp a ha).2.1, h1 p hp a ha])
      (by rw [(hx p hp a ha).2.2.1, h2 p hp a ha]), trivial⟩
  obtain ⟨x1, hx1, q1⟩ := collect_ok hf.polar hf.azimuth (f := fun p a => azimuthIn Pa (fun p a => (flattenPad (x p a) (max Pp Pa)).1) (shlon p a) p a)
    fun p hp a ha => azimuthIn_part N nlon Pp Pa (fun p => ⟨nlat, Pp, p⟩) hf.azimuth hNa hf.lon (flatGlobal lead X) _
      (fun p hp a ha => (hflat p hp a ha).2) _ (hlon p hp a ha) p hp a ha
  obtain ⟨x2, hx2, q2⟩ := collect_ok hf.polar hf.azimuth (f := fun p a => F p a (x1 p a))
    fun p hp a ha => hF p hp a ha _ _ _ _ (q1 p hp a ha).2
  have hd0 : ∀ p < Pp, ∀ a < Pa, (flattenPad (x p a) (max Pp Pa)).1.d0 = N := fun p hp a ha => by
    rw [(hflat p hp a ha).2.1, whole_size]
  obtain ⟨x3, hx3, q3⟩ := collect_ok hf.polar hf.azimuth (f := fun p a => azimuthOut Pa x2 (flattenPad (x p a) (max Pp Pa)).1.d0 p a)
    fun p hp a ha => by
      rw [hd0 p hp a ha]
      exact azimuthOut_part N M Pp Pa (fun p => ⟨nlat, Pp, p⟩) hf.azimuth hNa hf.orders _ x2 (fun p hp a ha => (q2 p hp a ha).2) p hp a ha
  obtain ⟨x4, hx4, q4⟩ := collect_ok hf.polar hf.azimuth (f := fun p a => polarIn Pp x3 (shlat p a) p a)
    fun p hp a ha => polarIn_part N nlat Pp Pa (fun a => ⟨M, Pa, a⟩) hf.polar hNp hf.lat _ x3 (fun p hp a ha => (q3 p hp a ha).2) _
      (hlat p hp a ha) p hp a ha
  have q5 : ∀ p < Pp, ∀ a < Pa, IsPart ⟨N, Pp, p⟩ (whole L) ⟨M, Pa, a⟩ (Gg (Fg (flatGlobal lead X))) (G p a (x4 p a)) :=
    fun p hp a ha => hG p hp a ha _ _ _ (q4 p hp a ha).2
  obtain ⟨x6, hx6, q6⟩ := collect_ok hf.polar hf.azimuth
    (f := fun p a => polarOut Pp (fun p a => G p a (x4 p a)) (flattenPad (x p a) (max Pp Pa)).1.d0 p a)
    fun p hp a ha => by
      rw [hd0 p hp a ha]
      exact polarOut_part N L Pp Pa (fun a => ⟨M, Pa, a⟩) hf.polar hNp hf.degrees _ _ q5 p hp a ha
  obtain ⟨y, hy, qy⟩ := collect_ok hf.polar hf.azimuth
    (f := fun p a => unpadUnflatten (x6 p a) (x p a).lead (flattenPad (x p a) (max Pp Pa)).2)
    fun p hp a ha => by
      rw [(hx p hp a ha).1, (hflat p hp a ha).1]
      exact unpad_tile lead L M Pp Pa N (le_max_left _ _) _ p a (x6 p a) (q6 p hp a ha).2
  refine ⟨y, ?_, fun p hp a ha => (qy p hp a ha).2⟩
  unfold analysisPipe
  rw [hu, except_bind_ok]
  dsimp only
  rw [hx1, except_bind_ok, hx2, except_bind_ok, hx3, except_bind_ok, hx4, except_bind_ok, hx6, except_bind_ok, hy]

theorem synthesis_tile {α β γ : Type} [Zero α] {Pp Pa nlat nlon L M : ℕ} (hf : Fits Pp Pa nlat nlon L M)
    (n1 n2 : ℕ → ℕ → ℕ) (shl shm : ℕ → ℕ → List ℕ) (G : ℕ → ℕ → Ten3 α → Ten3 β) (F : ℕ → ℕ → Ten3 β → Except PyErr (Ten3 γ))
    (Gg : (ℕ → ℕ → ℕ → α) → ℕ → ℕ → ℕ → β) (Fg : (ℕ → ℕ → ℕ → β) → ℕ → ℕ → ℕ → γ)
    (h1 : ∀ p < Pp, ∀ a < Pa, n1 p a = blockSize L Pp p) (h2 : ∀ p < Pp, ∀ a < Pa, n2 p a = blockSize M Pa a)
    (hshl : ∀ p < Pp, ∀ a < Pa, computeSplitShapes L Pp = .ok (shl p a))
    (hshm : ∀ p < Pp, ∀ a < Pa, computeSplitShapes M Pa = .ok (shm p a))
    (hG : ∀ p < Pp, ∀ a < Pa, ∀ (c0 : Cut) (Z : ℕ → ℕ → ℕ → α) x, IsPart c0 (whole L) ⟨M, Pa, a⟩ Z x →
      IsPart c0 (whole nlat) ⟨M, Pa, a⟩ (Gg Z) (G p a x))
    (hF : ∀ p < Pp, ∀ a < Pa, ∀ (c0 c1 : Cut) (X : ℕ → ℕ → ℕ → β) x, IsPart c0 c1 (whole M) X x →
      ∃ y, F p a x = .ok y ∧ IsPart c0 c1 (whole nlon) (Fg X) y)
    (lead : List ℕ) (hl : lead ≠ []) (X : List ℕ → ℕ → ℕ → α) (x : ℕ → ℕ → LTen α)
    (hx : ∀ p < Pp, ∀ a < Pa, IsTile lead L M Pp Pa X p a (x p a)) :
    ∃ y, synthesisPipe Pp Pa n1 n2 shl shm G F x = .ok y ∧
      ∀ p < Pp, ∀ a < Pa, IsTile lead nlat nlon Pp Pa (fun idx => Fg (Gg (flatGlobal lead X)) (flatIndex lead idx)) p a (y p a) := by
  let N := max lead.prod (max Pp Pa)
  have hNp : Pp ≤ N := le_trans (le_max_left _ _) (le_max_right _ _)
  have hNa : Pa ≤ N := le_trans (le_max_right _ _) (le_max_right _ _)
  have hflat := fun p hp a ha => flattenPad_part lead L M Pp Pa (max Pp Pa) X p a (x p a) (hx p hp a ha)
  obtain ⟨u, hu, -⟩ := collect_ok (Q := fun _ _ _ => True) hf.polar hf.azimuth (f := fun p a => checkShape (x p a) (n1 p a) (n2 p a))
    fun p hp a ha => ⟨(), checkShape_ok (by rw [(hx p hp a ha).1]; exact hl) (by rw [(hx p hp a ha).2.1, h1 p hp a ha])
      (by rw [(hx p hp a ha).2.2.1, h2 p hp a ha]), trivial⟩
  have hd0 : ∀ p < Pp, ∀ a < Pa, (flattenPad (x p a) (max Pp Pa)).1.d0 = N := fun p hp a ha => by
    rw [(hflat p hp a ha).2.1, whole_size]
  obtain ⟨x1, hx1, q1⟩ := collect_ok hf.polar hf.azimuth (f := fun p a => polarIn Pp (fun p a => (flattenPad (x p a) (max Pp Pa)).1) (shl p a) p a)
    fun p hp a ha => polarIn_part N L Pp Pa (fun a => ⟨M, Pa, a⟩) hf.polar hNp hf.degrees (flatGlobal lead X) _
      (fun p hp a ha => (hflat p hp a ha).2) _ (hshl p hp a ha) p hp a ha
  have q2 : ∀ p < Pp, ∀ a < Pa, IsPart ⟨N, Pp, p⟩ (whole nlat) ⟨M, Pa, a⟩ (Gg (flatGlobal lead X)) (G p a (x1 p a)) :=
    fun p hp a ha => hG p hp a ha _ _ _ (q1 p hp a ha).2
  obtain ⟨x3, hx3, q3⟩ := collect_ok hf.polar hf.azimuth
    (f := fun p a => polarOut Pp (fun p a => G p a (x1 p a)) (flattenPad (x p a) (max Pp Pa)).1.d0 p a)
    fun p hp a ha => by
      rw [hd0 p hp a ha]
      exact polarOut_part N nlat Pp Pa (fun a => ⟨M, Pa, a⟩) hf.polar hNp hf.lat _ _ q2 p hp a ha
  obtain ⟨x4, hx4, q4⟩ := collect_ok hf.polar hf.azimuth (f := fun p a => azimuthIn Pa x3 (shm p a) p a)
    fun p hp a ha => azimuthIn_part N M Pp Pa (fun p => ⟨nlat, Pp, p⟩) hf.azimuth hNa hf.orders _ x3
      (fun p hp a ha => (q3 p hp a ha).2) _ (hshm p hp a ha) p hp a ha
  obtain ⟨x5, hx5, q5⟩ := collect_ok hf.polar hf.azimuth (f := fun p a => F p a (x4 p a))
    fun p hp a ha => hF p hp a ha _ _ _ _ (q4 p hp a ha).2
  obtain ⟨x6, hx6, q6⟩ := collect_ok hf.polar hf.azimuth (f := fun p a => azimuthOut Pa x5 (flattenPad (x p a) (max Pp Pa)).1.d0 p a)
    fun p hp a ha => by
      rw [hd0 p hp a ha]
      exact azimuthOut_part N nlon Pp Pa (fun p => ⟨nlat, Pp, p⟩) hf.azimuth hNa hf.lon _ x5 (fun p hp a ha => (q5 p hp a ha).2) p hp a ha
  obtain ⟨y, hy, qy⟩ := collect_ok hf.polar hf.azimuth
    (f := fun p a => unpadUnflatten (x6 p a) (x p a).lead (flattenPad (x p a) (max Pp Pa)).2)
    fun p hp a ha => by
      rw [(hx p hp a ha).1, (hflat p hp a ha).1]
      exact unpad_tile lead nlat nlon Pp Pa N (le_max_left _ _) _ p a (x6 p a) (q6 p hp a ha).2
  refine ⟨y, ?_, fun p hp a ha => (qy p hp a ha).2⟩
  unfold synthesisPipe
  rw [hu, except_bind_ok]
  dsimp only
  rw [hx1, except_bind_ok, hx3, except_bind_ok, hx4, except_bind_ok, hx5, except_bind_ok, hx6, except_bind_ok, hy]

/-- C51. Let the ranks hold the tiles of a global field `X` of shape `(*lead, nlat, nlon)`. Then the distributed transform returns on
every rank the tile of the coefficients that the serial transform computes from `X`. Any leading shape is allowed, also one with fewer
elements than ranks (the code pads and removes the padding). -/
theorem C51_real_sht (env : Env) (A : Args) (S : RealSHT) (hS : RealSHT.init env A = .ok S) (Pp Pa : ℕ)
    (hf : Fits Pp Pa A.nlat A.nlon S.lmax S.mmax) (D : ℕ → ℕ → DRealSHT)
    (hD : ∀ p < Pp, ∀ a < Pa, DRealSHT.init env A Pp Pa p a = .ok (D p a))
    (lead : List ℕ) (hl : lead ≠ []) (X : List ℕ → ℕ → ℕ → ℝ) (x : ℕ → ℕ → LTen ℝ)
    (hx : ∀ p < Pp, ∀ a < Pa, IsTile lead A.nlat A.nlon Pp Pa X p a (x p a))
    (Y : List ℕ → Mat ℂ) (hY : ∀ idx, LeadIndex lead idx → S.forward ⟨A.nlat, A.nlon, X idx⟩ = .ok (Y idx)) :
    ∃ y, DRealSHT.forward Pp Pa D x = .ok y ∧
      ∀ p < Pp, ∀ a < Pa, IsTile lead S.lmax S.mmax Pp Pa (fun idx => (Y idx).val) p a (y p a) := by
  have hSn : S.nlat = A.nlat ∧ S.nlon = A.nlon := realSHT_sizes hS
  have hd : ∀ p < Pp, ∀ a < Pa, (D p a).nlat = A.nlat ∧ (D p a).nlon = A.nlon ∧ (D p a).lmax = S.lmax ∧ (D p a).mmax = S.mmax ∧
      (D p a).nlatLocal = blockSize A.nlat Pp p ∧ (D p a).nlonLocal = blockSize A.nlon Pa a ∧
      computeSplitShapes A.nlat Pp = .ok (D p a).sh.lat ∧ computeSplitShapes A.nlon Pa = .ok (D p a).sh.lon ∧
      ∀ m, (D p a).weights m = S.weights (blockStart S.mmax Pa a + m) := fun p hp a ha => by
    obtain ⟨D', h, h'⟩ := C51_real_init env A S hS Pp Pa hf p a hp ha
    rw [hD p hp a ha] at h
    cases h
    exact h'
  have hnl : 0 < A.nlon := lt_of_lt_of_le hf.azimuth hf.lon
  obtain ⟨y, hy, qy⟩ := analysis_tile hf (fun p a => (D p a).nlatLocal) (fun p a => (D p a).nlonLocal) (fun p a => (D p a).sh.lon)
    (fun p a => (D p a).sh.lat) (fun p a => localRfft (D p a).mmax) (fun p a => localLegendre (D p a).lmax (D p a).weights)
    (rfftG A.nlon) (legG A.nlat S.weights) (fun p hp a ha => (hd p hp a ha).2.2.2.2.1) (fun p hp a ha => (hd p hp a ha).2.2.2.2.2.1)
    (fun p hp a ha => (hd p hp a ha).2.2.2.2.2.2.2.1) (fun p hp a ha => (hd p hp a ha).2.2.2.2.2.2.1)
    (fun p hp a ha c0 c1 X x hx => by
      rw [(hd p hp a ha).2.2.2.1]
      exact localRfft_part S.mmax A.nlon hnl c0 c1 X x hx)
    (fun p hp a ha c0 Z x hx => by
      rw [(hd p hp a ha).2.2.1]
      exact localLegendre_part S.lmax A.nlat c0 ⟨S.mmax, Pa, a⟩ S.weights (D p a).weights
        (fun m _ => (hd p hp a ha).2.2.2.2.2.2.2.2 m) Z x hx) lead hl X x hx
  refine ⟨y, hy, fun p hp a ha => tile_congr hf.polar hf.azimuth hp ha (qy p hp a ha) fun idx hi l _ m hm => ?_⟩
  obtain ⟨y', hy', _, _, hv⟩ := realSHT_value S (by omega) (X idx)
  rw [hSn.1, hSn.2, hY idx hi] at hy'
  cases hy'
  rw [hv l m hm, hSn.1, hSn.2]
  unfold legG rfftG
  dsimp only
  rw [flatGlobal_at lead idx hi]

/-- C51. The distributed inverse transform returns on every rank the tile of the field that the serial inverse transform computes from
the global coefficients. -/
theorem C51_inverse_sht (env : Env) (be : C2R) (A : Args) (S : InverseRealSHT) (hS : InverseRealSHT.init env A = .ok S) (Pp Pa : ℕ)
    (hf : Fits Pp Pa A.nlat A.nlon S.lmax S.mmax) (D : ℕ → ℕ → DInverseRealSHT)
    (hD : ∀ p < Pp, ∀ a < Pa, DInverseRealSHT.init env A Pp Pa p a = .ok (D p a))
    (lead : List ℕ) (hl : lead ≠ []) (X : List ℕ → ℕ → ℕ → ℂ) (x : ℕ → ℕ → LTen ℂ)
    (hx : ∀ p < Pp, ∀ a < Pa, IsTile lead S.lmax S.mmax Pp Pa X p a (x p a))
    (Y : List ℕ → Mat ℝ) (hY : ∀ idx, LeadIndex lead idx → S.forward be ⟨S.lmax, S.mmax, X idx⟩ = .ok (Y idx)) :
    ∃ y, DInverseRealSHT.forward be Pp Pa D x = .ok y ∧
      ∀ p < Pp, ∀ a < Pa, IsTile lead A.nlat A.nlon Pp Pa (fun idx => (Y idx).val) p a (y p a) := by
  have hSn : S.nlat = A.nlat ∧ S.nlon = A.nlon := inverseSHT_sizes hS
  have hd : ∀ p < Pp, ∀ a < Pa, (D p a).nlat = A.nlat ∧ (D p a).nlon = A.nlon ∧ (D p a).lmax = S.lmax ∧ (D p a).mmax = S.mmax ∧
      (D p a).lmaxLocal = blockSize S.lmax Pp p ∧ (D p a).mmaxLocal = blockSize S.mmax Pa a ∧
      computeSplitShapes S.lmax Pp = .ok (D p a).sh.l ∧ computeSplitShapes S.mmax Pa = .ok (D p a).sh.m ∧
      ∀ m, (D p a).pct m = S.pct (blockStart S.mmax Pa a + m) := fun p hp a ha => by
    obtain ⟨D', h, h'⟩ := C51_inverse_init env A S hS Pp Pa hf p a hp ha
    rw [hD p hp a ha] at h
    cases h
    exact h'
  have hnl : 0 < A.nlon := lt_of_lt_of_le hf.azimuth hf.lon
  have hM : 0 < S.mmax := lt_of_lt_of_le hf.azimuth hf.orders
  obtain ⟨y, hy, qy⟩ := synthesis_tile hf (fun p a => (D p a).lmaxLocal) (fun p a => (D p a).mmaxLocal) (fun p a => (D p a).sh.l)
    (fun p a => (D p a).sh.m) (fun p a => localLegendre (D p a).nlat (D p a).pct) (fun p a => localIrfft be (D p a).nlon)
    (legG S.lmax S.pct) (irfftG S.mmax A.nlon) (fun p hp a ha => (hd p hp a ha).2.2.2.2.1) (fun p hp a ha => (hd p hp a ha).2.2.2.2.2.1)
    (fun p hp a ha => (hd p hp a ha).2.2.2.2.2.2.1) (fun p hp a ha => (hd p hp a ha).2.2.2.2.2.2.2.1)
    (fun p hp a ha c0 Z x hx => by
      rw [(hd p hp a ha).1]
      exact localLegendre_part A.nlat S.lmax c0 ⟨S.mmax, Pa, a⟩ S.pct (D p a).pct
        (fun m _ => (hd p hp a ha).2.2.2.2.2.2.2.2 m) Z x hx)
    (fun p hp a ha c0 c1 X x hx => by
      rw [(hd p hp a ha).2.1]
      exact localIrfft_part be S.mmax A.nlon hnl hM c0 c1 X x hx) lead hl X x hx
  refine ⟨y, hy, fun p hp a ha => tile_congr hf.polar hf.azimuth hp ha (qy p hp a ha) fun idx hi l _ m hm => ?_⟩
  obtain ⟨y', hy', _, _, hv⟩ := inverseSHT_value be S (by omega) hM (X idx)
  rw [hY idx hi] at hy'
  cases hy'
  rw [hv l m (by rw [hSn.2]; exact hm), hSn.2]
  unfold irfftG legG
  dsimp only
  rw [flatGlobal_at lead idx hi]

/-! ### The vector transforms -/

theorem vectorSHT_sizes {env : Env} {A : Args} {S : RealVectorSHT} (h : RealVectorSHT.init env A = .ok S) :
    S.nlat = A.nlat ∧ S.nlon = A.nlon := by
  unfold RealVectorSHT.init at h
  cases hr : gridRule env.gauss env.tol env.maxiter A.nlat A.grid with
  | error e => rw [hr] at h; cases h
  | ok r =>
    rw [hr] at h
    rw [except_bind_ok] at h
    cases hs : sizes A.nlat A.nlon A.lmax A.mmax A.grid with
    | error e => rw [hs] at h; cases h
    | ok LM =>
      obtain ⟨L, M⟩ := LM
      rw [hs] at h
      rw [except_bind_ok] at h
      dsimp only at h
      cases hl : dlegpolyTensor M L (colat r) A.norm false A.csphase with
      | error e => rw [hl] at h; cases h
      | ok pct => rw [hl] at h; cases h; exact ⟨rfl, rfl⟩

theorem inverseVectorSHT_sizes {env : Env} {A : Args} {S : InverseRealVectorSHT} (h : InverseRealVectorSHT.init env A = .ok S) :
    S.nlat = A.nlat ∧ S.nlon = A.nlon := by
  unfold InverseRealVectorSHT.init at h
  cases hr : gridRule env.gauss env.tol env.maxiter A.nlat A.grid with
  | error e => rw [hr] at h; cases h
  | ok r =>
    rw [hr] at h
    rw [except_bind_ok] at h
    cases hs : sizes A.nlat A.nlon A.lmax A.mmax A.grid with
    | error e => rw [hs] at h; cases h
    | ok LM =>
      obtain ⟨L, M⟩ := LM
      rw [hs] at h
      rw [except_bind_ok] at h
      dsimp only at h
      cases hl : dlegpolyTensor M L (colat r) A.norm true A.csphase with
      | error e => rw [hl] at h; cases h
      | ok pct => rw [hl] at h; cases h; exact ⟨rfl, rfl⟩

theorem C51_vector_init (env : Env) (A : Args) (S : RealVectorSHT) (hS : RealVectorSHT.init env A = .ok S) (Pp Pa : ℕ)
    (hf : Fits Pp Pa A.nlat A.nlon S.lmax S.mmax) (p a : ℕ) (hp : p < Pp) (ha : a < Pa) :
    ∃ D, DRealVectorSHT.init env A Pp Pa p a = .ok D ∧ D.nlat = A.nlat ∧ D.nlon = A.nlon ∧ D.lmax = S.lmax ∧ D.mmax = S.mmax ∧
      D.nlatLocal = blockSize A.nlat Pp p ∧ D.nlonLocal = blockSize A.nlon Pa a ∧
      computeSplitShapes A.nlat Pp = .ok D.sh.lat ∧ computeSplitShapes A.nlon Pa = .ok D.sh.lon ∧
      (∀ m, D.w0 m = S.w0 (blockStart S.mmax Pa a + m)) ∧ ∀ m, D.w1 m = S.w1 (blockStart S.mmax Pa a + m) := by
  unfold RealVectorSHT.init at hS
  unfold DRealVectorSHT.init
  cases hr : gridRule env.gauss env.tol env.maxiter A.nlat A.grid with
  | error e => rw [hr] at hS; cases hS
  | ok r =>
    rw [hr] at hS
    rw [except_bind_ok] at hS ⊢
    cases hs : sizes A.nlat A.nlon A.lmax A.mmax A.grid with
    | error e => rw [hs] at hS; cases hS
    | ok LM =>
      obtain ⟨L, M⟩ := LM
      rw [hs] at hS
      rw [except_bind_ok] at hS ⊢
      dsimp only at hS ⊢
      cases hl : dlegpolyTensor M L (colat r) A.norm false A.csphase with
      | error e => rw [hl] at hS; cases hS
      | ok d =>
        rw [hl] at hS
        cases hS
        obtain ⟨sh, h0, h1, h2, h3, h4⟩ := mkShapes_ok hf
        obtain ⟨w, hw, hwv⟩ := split_weights M Pa a hf.azimuth hf.orders ha (fun m l k => (d.1 m l k * r.w k * normFactorV l, -1 * (d.2 m l k * r.w k * normFactorV l)))
        rw [h0, except_bind_ok, except_bind_ok, hw, except_bind_ok]
        exact ⟨_, rfl, rfl, rfl, rfl, rfl, css_getD_block h1 p hp, css_getD_block h2 a ha, h1, h2,
          fun m => by funext u v; dsimp only; rw [hwv m], fun m => by funext u v; dsimp only; rw [hwv m]⟩

theorem C51_inverse_vector_init (env : Env) (A : Args) (S : InverseRealVectorSHT) (hS : InverseRealVectorSHT.init env A = .ok S) (Pp Pa : ℕ)
    (hf : Fits Pp Pa A.nlat A.nlon S.lmax S.mmax) (p a : ℕ) (hp : p < Pp) (ha : a < Pa) :
    ∃ D, DInverseRealVectorSHT.init env A Pp Pa p a = .ok D ∧ D.nlat = A.nlat ∧ D.nlon = A.nlon ∧ D.lmax = S.lmax ∧ D.mmax = S.mmax ∧
      D.lmaxLocal = blockSize S.lmax Pp p ∧ D.mmaxLocal = blockSize S.mmax Pa a ∧
      computeSplitShapes S.lmax Pp = .ok D.sh.l ∧ computeSplitShapes S.mmax Pa = .ok D.sh.m ∧
      (∀ m, D.d0 m = S.d0 (blockStart S.mmax Pa a + m)) ∧ ∀ m, D.d1 m = S.d1 (blockStart S.mmax Pa a + m) := by
  unfold InverseRealVectorSHT.init at hS
  unfold DInverseRealVectorSHT.init
  cases hr : gridRule env.gauss env.tol env.maxiter A.nlat A.grid with
  | error e => rw [hr] at hS; cases hS
  | ok r =>
    rw [hr] at hS
    rw [except_bind_ok] at hS ⊢
    cases hs : sizes A.nlat A.nlon A.lmax A.mmax A.grid with
    | error e => rw [hs] at hS; cases hS
    | ok LM =>
      obtain ⟨L, M⟩ := LM
      rw [hs] at hS
      rw [except_bind_ok] at hS ⊢
      dsimp only at hS ⊢
      cases hl : dlegpolyTensor M L (colat r) A.norm true A.csphase with
      | error e => rw [hl] at hS; cases hS
      | ok d =>
        rw [hl] at hS
        cases hS
        obtain ⟨sh, h0, h1, h2, h3, h4⟩ := mkShapes_ok hf
        obtain ⟨w, hw, hwv⟩ := split_weights M Pa a hf.azimuth hf.orders ha (fun m k l => (d.1 m l k, d.2 m l k))
        rw [h0, except_bind_ok, except_bind_ok, hw, except_bind_ok]
        exact ⟨_, rfl, rfl, rfl, rfl, rfl, css_getD_block h3 p hp, css_getD_block h4 a ha, h3, h4,
          fun m => by funext u v; dsimp only; rw [hwv m], fun m => by funext u v; dsimp only; rw [hwv m]⟩

/-- A pair of fields as the stacked tensor of shape `(2, n1, n2)` that the serial vector transforms take. -/
def stacked {α : Type} (n1 n2 : ℕ) (f : ℕ → ℕ → α × α) : Ten3 α := ⟨2, n1, n2, fun d i j => if d = 0 then (f i j).1 else (f i j).2⟩

/-- The FFT of both components of a global tensor. -/
noncomputable def rfftG2 (nlon : ℕ) (X : ℕ → ℕ → ℕ → ℝ × ℝ) (c k m : ℕ) : ℂ × ℂ :=
  (rfftG nlon (fun c k j => (X c k j).1) c k m, rfftG nlon (fun c k j => (X c k j).2) c k m)

/-- The two contractions of a global tensor. -/
noncomputable def vlegG (n1 : ℕ) (w0 w1 : ℕ → ℕ → ℕ → ℝ) (Z : ℕ → ℕ → ℕ → ℂ × ℂ) (c l m : ℕ) : ℂ × ℂ :=
  (⟨∑ k ∈ range n1, (Z c k m).1.re * w0 m l k - ∑ k ∈ range n1, (Z c k m).2.im * w1 m l k,
      ∑ k ∈ range n1, (Z c k m).1.im * w0 m l k + ∑ k ∈ range n1, (Z c k m).2.re * w1 m l k⟩,
     ⟨-∑ k ∈ range n1, (Z c k m).1.im * w1 m l k - ∑ k ∈ range n1, (Z c k m).2.re * w0 m l k,
      ∑ k ∈ range n1, (Z c k m).1.re * w1 m l k - ∑ k ∈ range n1, (Z c k m).2.im * w0 m l k⟩)

/-- The inverse FFT of both components of a global tensor. -/
noncomputable def irfftG2 (mmax nlon : ℕ) (Z : ℕ → ℕ → ℕ → ℂ × ℂ) (c k j : ℕ) : ℝ × ℝ :=
  (irfftG mmax nlon (fun c k m => (Z c k m).1) c k j, irfftG mmax nlon (fun c k m => (Z c k m).2) c k j)

theorem fst_part {α β : Type} {c0 c1 c2 : Cut} {X : ℕ → ℕ → ℕ → α × β} {x : Ten3 (α × β)} (h : IsPart c0 c1 c2 X x) :
    IsPart c0 c1 c2 (fun i j k => (X i j k).1) (fstT x) :=
  ⟨h.1, h.2.1, h.2.2.1, fun i hi j hj k hk => by show (x.val i j k).1 = _; rw [h.2.2.2 i hi j hj k hk]⟩

theorem snd_part {α β : Type} {c0 c1 c2 : Cut} {X : ℕ → ℕ → ℕ → α × β} {x : Ten3 (α × β)} (h : IsPart c0 c1 c2 X x) :
    IsPart c0 c1 c2 (fun i j k => (X i j k).2) (sndT x) :=
  ⟨h.1, h.2.1, h.2.2.1, fun i hi j hj k hk => by show (x.val i j k).2 = _; rw [h.2.2.2 i hi j hj k hk]⟩

theorem stack_part {α β : Type} {c0 c1 c2 : Cut} {X : ℕ → ℕ → ℕ → α} {Y : ℕ → ℕ → ℕ → β} {x : Ten3 α} {y : Ten3 β}
    (hx : IsPart c0 c1 c2 X x) (hy : IsPart c0 c1 c2 Y y) : IsPart c0 c1 c2 (fun i j k => (X i j k, Y i j k)) (stackT x y) :=
  ⟨hx.1, hx.2.1, hx.2.2.1, fun i hi j hj k hk => by
    show (x.val i j k, y.val i j k) = _; rw [hx.2.2.2 i hi j hj k hk, hy.2.2.2 i hi j hj k hk]⟩

theorem localRfft2_part (M nlon : ℕ) (hn : 0 < nlon) (c0 c1 : Cut) (X : ℕ → ℕ → ℕ → ℝ × ℝ) (x : Ten3 (ℝ × ℝ))
    (hx : IsPart c0 c1 (whole nlon) X x) : ∃ y, localRfft2 M x = .ok y ∧ IsPart c0 c1 (whole M) (rfftG2 nlon X) y := by
  obtain ⟨y0, h0, p0⟩ := localRfft_part M nlon hn c0 c1 _ _ (fst_part hx)
  obtain ⟨y1, h1, p1⟩ := localRfft_part M nlon hn c0 c1 _ _ (snd_part hx)
  exact ⟨stackT y0 y1, by unfold localRfft2; rw [h0, except_bind_ok, h1, except_bind_ok]; rfl, stack_part p0 p1⟩

theorem localIrfft2_part (be : C2R) (M nlon : ℕ) (hn : 0 < nlon) (hM : 0 < M) (c0 c1 : Cut) (Z : ℕ → ℕ → ℕ → ℂ × ℂ) (x : Ten3 (ℂ × ℂ))
    (hx : IsPart c0 c1 (whole M) Z x) : ∃ y, localIrfft2 be nlon x = .ok y ∧ IsPart c0 c1 (whole nlon) (irfftG2 M nlon Z) y := by
  obtain ⟨y0, h0, p0⟩ := localIrfft_part be M nlon hn hM c0 c1 _ _ (fst_part hx)
  obtain ⟨y1, h1, p1⟩ := localIrfft_part be M nlon hn hM c0 c1 _ _ (snd_part hx)
  exact ⟨stackT y0 y1, by unfold localIrfft2; rw [h0, except_bind_ok, h1, except_bind_ok]; rfl, stack_part p0 p1⟩

theorem localVectorLegendre_part (L n1 : ℕ) (c0 c2 : Cut) (W0 W1 w0 w1 : ℕ → ℕ → ℕ → ℝ) (hw0 : ∀ m, w0 m = W0 (c2.start + m))
    (hw1 : ∀ m, w1 m = W1 (c2.start + m)) (Z : ℕ → ℕ → ℕ → ℂ × ℂ) (x : Ten3 (ℂ × ℂ)) (hx : IsPart c0 (whole n1) c2 Z x) :
    IsPart c0 (whole L) c2 (vlegG n1 W0 W1 Z) (localVectorLegendre L w0 w1 x) := by
  obtain ⟨h0, h1, h2, h3⟩ := hx
  rw [whole_size] at h1 h3
  refine ⟨h0, ?_, h2, fun i hi l _ m hm => ?_⟩
  · rw [whole_size]; rfl
  · rw [whole_start, zero_add]
    have e : ∀ F : ℂ × ℂ → ℕ → ℝ, ∑ k ∈ range n1, F (x.val i k m) k = ∑ k ∈ range n1, F (Z (c0.start + i) k (c2.start + m)) k := fun F =>
      sum_congr rfl fun k hk => by
        have := h3 i hi k (mem_range.1 hk) m hm
        rw [whole_start, zero_add] at this
        rw [this]
    unfold localVectorLegendre vlegG
    dsimp only
    rw [h1, hw0 m, hw1 m, e fun z k => z.1.re * W0 (c2.start + m) l k, e fun z k => z.2.im * W1 (c2.start + m) l k,
      e fun z k => z.1.im * W0 (c2.start + m) l k, e fun z k => z.2.re * W1 (c2.start + m) l k,
      e fun z k => z.1.im * W1 (c2.start + m) l k, e fun z k => z.2.re * W0 (c2.start + m) l k,
      e fun z k => z.1.re * W1 (c2.start + m) l k, e fun z k => z.2.im * W0 (c2.start + m) l k]

theorem vectorSHT_value (S : RealVectorSHT) (hn : 0 < S.nlon) (f : ℕ → ℕ → ℝ × ℝ) :
    ∃ y, S.forward (stacked S.nlat S.nlon f) = .ok y ∧
      ∀ l, ∀ m < S.mmax, (y.val 0 l m, y.val 1 l m) = vlegG S.nlat S.w0 S.w1 (rfftG2 S.nlon fun _ => f) 0 l m := by
  obtain ⟨z0, hz0, _, _, hv0⟩ := rfftRows ⟨S.nlat, S.nlon, fun i j => (f i j).1⟩ hn S.mmax
  obtain ⟨z1, hz1, _, _, hv1⟩ := rfftRows ⟨S.nlat, S.nlon, fun i j => (f i j).2⟩ hn S.mmax
  unfold RealVectorSHT.forward stacked
  rw [if_neg (by simp), if_neg (by simp), if_neg (by simp)]
  simp only [if_true, Nat.one_ne_zero, if_false]
  rw [hz0, except_bind_ok, hz1, except_bind_ok]
  refine ⟨_, rfl, fun l m hm => ?_⟩
  unfold vlegG rfftG2 rfftG
  simp only [if_true, Nat.one_ne_zero, if_false]
  have e0 : ∀ k, z0.val k m = if m ≤ S.nlon / 2 then (1 / S.nlon : ℂ) * dft S.nlon (fun j => (f k j).1) m else 0 := fun k => hv0 k m hm
  have e1 : ∀ k, z1.val k m = if m ≤ S.nlon / 2 then (1 / S.nlon : ℂ) * dft S.nlon (fun j => (f k j).2) m else 0 := fun k => hv1 k m hm
  simp only [e0, e1]

theorem inverseVectorSHT_value (be : C2R) (S : InverseRealVectorSHT) (hn : 0 < S.nlon) (hM : 0 < S.mmax) (c : ℕ → ℕ → ℂ × ℂ) :
    ∃ y, S.forward be (stacked S.lmax S.mmax c) = .ok y ∧
      ∀ k, ∀ j < S.nlon, (y.val 0 k j, y.val 1 k j) = irfftG2 S.mmax S.nlon (vlegG S.lmax S.d0 S.d1 fun _ => c) 0 k j := by
  unfold InverseRealVectorSHT.forward stacked
  rw [if_neg (by simp), if_neg (by simp), if_neg (by simp)]
  simp only [if_true, Nat.one_ne_zero, if_false]
  obtain ⟨z0, hz0, _, _, hv0⟩ := irfftRows be (⟨S.nlat, S.mmax, fun k m => (vlegG S.lmax S.d0 S.d1 (fun _ => c) 0 k m).1⟩ : Mat ℂ) hM S.nlon hn
  obtain ⟨z1, hz1, _, _, hv1⟩ := irfftRows be (⟨S.nlat, S.mmax, fun k m => (vlegG S.lmax S.d0 S.d1 (fun _ => c) 0 k m).2⟩ : Mat ℂ) hM S.nlon hn
  unfold vlegG at hz0 hz1
  dsimp only at hz0 hz1
  rw [hz0, except_bind_ok, hz1, except_bind_ok]
  refine ⟨_, rfl, fun k j hj => ?_⟩
  simp only [if_true, Nat.one_ne_zero, if_false]
  rw [hv0 k j hj, hv1 k j hj]
  rfl

/-- C51. The same for the vector transform: the ranks hold the tiles of a pair of global fields and obtain the tiles of the two
coefficient arrays that the serial transform computes. -/
theorem C51_vector_sht (env : Env) (A : Args) (S : RealVectorSHT) (hS : RealVectorSHT.init env A = .ok S) (Pp Pa : ℕ)
    (hf : Fits Pp Pa A.nlat A.nlon S.lmax S.mmax) (D : ℕ → ℕ → DRealVectorSHT)
    (hD : ∀ p < Pp, ∀ a < Pa, DRealVectorSHT.init env A Pp Pa p a = .ok (D p a))
    (lead : List ℕ) (hl : lead ≠ []) (X : List ℕ → ℕ → ℕ → ℝ × ℝ) (x : ℕ → ℕ → LTen (ℝ × ℝ))
    (hx : ∀ p < Pp, ∀ a < Pa, IsTile lead A.nlat A.nlon Pp Pa X p a (x p a))
    (Y : List ℕ → Ten3 ℂ) (hY : ∀ idx, LeadIndex lead idx → S.forward (stacked A.nlat A.nlon (X idx)) = .ok (Y idx)) :
    ∃ y, DRealVectorSHT.forward Pp Pa D x = .ok y ∧
      ∀ p < Pp, ∀ a < Pa, IsTile lead S.lmax S.mmax Pp Pa (fun idx l m => ((Y idx).val 0 l m, (Y idx).val 1 l m)) p a (y p a) := by
  have hSn : S.nlat = A.nlat ∧ S.nlon = A.nlon := vectorSHT_sizes hS
  have hd : ∀ p < Pp, ∀ a < Pa, (D p a).nlat = A.nlat ∧ (D p a).nlon = A.nlon ∧ (D p a).lmax = S.lmax ∧ (D p a).mmax = S.mmax ∧
      (D p a).nlatLocal = blockSize A.nlat Pp p ∧ (D p a).nlonLocal = blockSize A.nlon Pa a ∧
      computeSplitShapes A.nlat Pp = .ok (D p a).sh.lat ∧ computeSplitShapes A.nlon Pa = .ok (D p a).sh.lon ∧
      (∀ m, (D p a).w0 m = S.w0 (blockStart S.mmax Pa a + m)) ∧ ∀ m, (D p a).w1 m = S.w1 (blockStart S.mmax Pa a + m) := fun p hp a ha => by
    obtain ⟨D', h, h'⟩ := C51_vector_init env A S hS Pp Pa hf p a hp ha
    rw [hD p hp a ha] at h
    cases h
    exact h'
  have hnl : 0 < A.nlon := lt_of_lt_of_le hf.azimuth hf.lon
  obtain ⟨y, hy, qy⟩ := analysis_tile hf (fun p a => (D p a).nlatLocal) (fun p a => (D p a).nlonLocal) (fun p a => (D p a).sh.lon)
    (fun p a => (D p a).sh.lat) (fun p a => localRfft2 (D p a).mmax) (fun p a => localVectorLegendre (D p a).lmax (D p a).w0 (D p a).w1)
    (rfftG2 A.nlon) (vlegG A.nlat S.w0 S.w1) (fun p hp a ha => (hd p hp a ha).2.2.2.2.1) (fun p hp a ha => (hd p hp a ha).2.2.2.2.2.1)
    (fun p hp a ha => (hd p hp a ha).2.2.2.2.2.2.2.1) (fun p hp a ha => (hd p hp a ha).2.2.2.2.2.2.1)
    (fun p hp a ha c0 c1 X x hx => by
      rw [(hd p hp a ha).2.2.2.1]
      exact localRfft2_part S.mmax A.nlon hnl c0 c1 X x hx)
    (fun p hp a ha c0 Z x hx => by
      rw [(hd p hp a ha).2.2.1]
      exact localVectorLegendre_part S.lmax A.nlat c0 ⟨S.mmax, Pa, a⟩ S.w0 S.w1 (D p a).w0 (D p a).w1
        (hd p hp a ha).2.2.2.2.2.2.2.2.1 (hd p hp a ha).2.2.2.2.2.2.2.2.2 Z x hx) lead hl X x hx
  refine ⟨y, hy, fun p hp a ha => tile_congr hf.polar hf.azimuth hp ha (qy p hp a ha) fun idx hi l _ m hm => ?_⟩
  obtain ⟨y', hy', hv⟩ := vectorSHT_value S (by omega) (X idx)
  rw [hSn.1, hSn.2, hY idx hi] at hy'
  cases hy'
  rw [hv l m hm, hSn.1, hSn.2]
  unfold vlegG rfftG2 rfftG
  dsimp only
  rw [flatGlobal_at lead idx hi]

/-- C51. The same for the inverse vector transform. -/
theorem C51_inverse_vector_sht (env : Env) (be : C2R) (A : Args) (S : InverseRealVectorSHT) (hS : InverseRealVectorSHT.init env A = .ok S)
    (Pp Pa : ℕ) (hf : Fits Pp Pa A.nlat A.nlon S.lmax S.mmax) (D : ℕ → ℕ → DInverseRealVectorSHT)
    (hD : ∀ p < Pp, ∀ a < Pa, DInverseRealVectorSHT.init env A Pp Pa p a = .ok (D p a))
    (lead : List ℕ) (hl : lead ≠ []) (X : List ℕ → ℕ → ℕ → ℂ × ℂ) (x : ℕ → ℕ → LTen (ℂ × ℂ))
    (hx : ∀ p < Pp, ∀ a < Pa, IsTile lead S.lmax S.mmax Pp Pa X p a (x p a))
    (Y : List ℕ → Ten3 ℝ) (hY : ∀ idx, LeadIndex lead idx → S.forward be (stacked S.lmax S.mmax (X idx)) = .ok (Y idx)) :
    ∃ y, DInverseRealVectorSHT.forward be Pp Pa D x = .ok y ∧
      ∀ p < Pp, ∀ a < Pa, IsTile lead A.nlat A.nlon Pp Pa (fun idx k j => ((Y idx).val 0 k j, (Y idx).val 1 k j)) p a (y p a) := by
  have hSn : S.nlat = A.nlat ∧ S.nlon = A.nlon := inverseVectorSHT_sizes hS
  have hd : ∀ p < Pp, ∀ a < Pa, (D p a).nlat = A.nlat ∧ (D p a).nlon = A.nlon ∧ (D p a).lmax = S.lmax ∧ (D p a).mmax = S.mmax ∧
      (D p a).lmaxLocal = blockSize S.lmax Pp p ∧ (D p a).mmaxLocal = blockSize S.mmax Pa a ∧
      computeSplitShapes S.lmax Pp = .ok (D p a).sh.l ∧ computeSplitShapes S.mmax Pa = .ok (D p a).sh.m ∧
      (∀ m, (D p a).d0 m = S.d0 (blockStart S.mmax Pa a + m)) ∧ ∀ m, (D p a).d1 m = S.d1 (blockStart S.mmax Pa a + m) := fun p hp a ha => by
    obtain ⟨D', h, h'⟩ := C51_inverse_vector_init env A S hS Pp Pa hf p a hp ha
    rw [hD p hp a ha] at h
    cases h
    exact h'
  have hnl : 0 < A.nlon := lt_of_lt_of_le hf.azimuth hf.lon
  have hM : 0 < S.mmax := lt_of_lt_of_le hf.azimuth hf.orders
  obtain ⟨y, hy, qy⟩ := synthesis_tile hf (fun p a => (D p a).lmaxLocal) (fun p a => (D p a).mmaxLocal) (fun p a => (D p a).sh.l)
    (fun p a => (D p a).sh.m) (fun p a => localVectorLegendre (D p a).nlat (D p a).d0 (D p a).d1) (fun p a => localIrfft2 be (D p a).nlon)
    (vlegG S.lmax S.d0 S.d1) (irfftG2 S.mmax A.nlon) (fun p hp a ha => (hd p hp a ha).2.2.2.2.1) (fun p hp a ha => (hd p hp a ha).2.2.2.2.2.1)
    (fun p hp a ha => (hd p hp a ha).2.2.2.2.2.2.1) (fun p hp a ha => (hd p hp a ha).2.2.2.2.2.2.2.1)
    (fun p hp a ha c0 Z x hx => by
      rw [(hd p hp a ha).1]
      exact localVectorLegendre_part A.nlat S.lmax c0 ⟨S.mmax, Pa, a⟩ S.d0 S.d1 (D p a).d0 (D p a).d1
        (hd p hp a ha).2.2.2.2.2.2.2.2.1 (hd p hp a ha).2.2.2.2.2.2.2.2.2 Z x hx)
    (fun p hp a ha c0 c1 X x hx => by
      rw [(hd p hp a ha).2.1]
      exact localIrfft2_part be S.mmax A.nlon hnl hM c0 c1 X x hx) lead hl X x hx
  refine ⟨y, hy, fun p hp a ha => tile_congr hf.polar hf.azimuth hp ha (qy p hp a ha) fun idx hi l _ m hm => ?_⟩
  obtain ⟨y', hy', hv⟩ := inverseVectorSHT_value be S (by omega) hM (X idx)
  rw [hY idx hi] at hy'
  cases hy'
  rw [hv l m (by rw [hSn.2]; exact hm), hSn.2]
  unfold irfftG2 irfftG vlegG
  dsimp only
  rw [flatGlobal_at lead idx hi]

/-! ### Errors and concrete cases -/

/-- C51 (error branch). If one rank holds a local tensor of the wrong shape, or without a leading dimension, the distributed transform
raises. -/
theorem C51_shape_error (Pp Pa : ℕ) (D : ℕ → ℕ → DRealSHT) (x : ℕ → ℕ → LTen ℝ) (p a : ℕ) (hp : p < Pp) (ha : a < Pa)
    (h : (x p a).lead = [] ∨ (x p a).d1 ≠ (D p a).nlatLocal ∨ (x p a).d2 ≠ (D p a).nlonLocal) :
    ∃ e, DRealSHT.forward Pp Pa D x = .error e := by
  have : ∃ e, checkShape (x p a) (D p a).nlatLocal (D p a).nlonLocal = .error e := by
    unfold checkShape
    split_ifs with h1 h2 h3
    · exact ⟨_, rfl⟩
    · exact ⟨_, rfl⟩
    · exact ⟨_, rfl⟩
    · rcases h with h | h | h
      · rw [h] at h1; simp at h1
      · exact absurd h h2
      · exact absurd h h3
  obtain ⟨e, he⟩ := this
  obtain ⟨e', he'⟩ := collect_error (f := fun p a => checkShape (x p a) (D p a).nlatLocal (D p a).nlonLocal) hp ha he
  exact ⟨e', by unfold DRealSHT.forward; rw [he']; rfl⟩

/-- The tile of a global tensor. -/
def tileOf {α : Type} (lead : List ℕ) (n1 n2 Pp Pa : ℕ) (X : List ℕ → ℕ → ℕ → α) (p a : ℕ) : LTen α :=
  ⟨lead, blockSize n1 Pp p, blockSize n2 Pa a, fun idx j k => X idx (blockStart n1 Pp p + j) (blockStart n2 Pa a + k)⟩

theorem tileOf_isTile {α : Type} (lead : List ℕ) (n1 n2 Pp Pa : ℕ) (X : List ℕ → ℕ → ℕ → α) (p a : ℕ) :
    IsTile lead n1 n2 Pp Pa X p a (tileOf lead n1 n2 Pp Pa X p a) := ⟨rfl, rfl, rfl, fun _ _ _ _ _ _ => rfl⟩

/-- An 8 by 16 equiangular grid (truncation 4) on a 3 by 2 process grid: nothing divides evenly (8 = 3 + 3 + 2, 4 = 2 + 1 + 1), and the
leading shape `(1,)` has fewer elements than ranks. The transform runs and returns the tiles of the serial result, for every field. -/
example (env : Env) (X : List ℕ → ℕ → ℕ → ℝ) :
    ∃ (S : RealSHT) (D : ℕ → ℕ → DRealSHT) (Y : List ℕ → Mat ℂ) (y : ℕ → ℕ → LTen ℂ),
      RealSHT.init env ⟨8, 16, none, none, "equiangular", "ortho", true⟩ = .ok S ∧ S.lmax = 4 ∧ S.mmax = 4 ∧
      (∀ idx, S.forward ⟨8, 16, X idx⟩ = .ok (Y idx)) ∧
      DRealSHT.forward 3 2 D (tileOf [1] 8 16 3 2 X) = .ok y ∧
      ∀ p < 3, ∀ a < 2, IsTile [1] 4 4 3 2 (fun idx => (Y idx).val) p a (y p a) := by
  obtain ⟨r, d, L, hr, _, hL, h0, _⟩ := default_grid env ⟨8, 16, none, none, "equiangular", "ortho", true⟩ (Or.inl rfl) (by norm_num)
    (by norm_num) rfl rfl
  have h4 : L = 4 := by
    have : sizes 8 16 none none "equiangular" = .ok (4, 4) := by decide
    rw [show sizes 8 16 none none "equiangular" = .ok (L, L) from hL] at this
    cases this; rfl
  subst h4
  have hS := realSHT_init env ⟨8, 16, none, none, "equiangular", "ortho", true⟩ r 4 hr hL h0
  have hf : Fits 3 2 8 16 4 4 := ⟨by norm_num, by norm_num, by norm_num, by norm_num, by norm_num, by norm_num⟩
  have hD : ∀ p a, ∃ D : DRealSHT, p < 3 → a < 2 → DRealSHT.init env ⟨8, 16, none, none, "equiangular", "ortho", true⟩ 3 2 p a = .ok D :=
    fun p a => by
      by_cases hp : p < 3
      · by_cases ha : a < 2
        · obtain ⟨D, h, _⟩ := C51_real_init env _ _ hS 3 2 hf p a hp ha
          exact ⟨D, fun _ _ => h⟩
        · exact ⟨⟨0, 0, 0, 0, ⟨[], [], [], []⟩, 0, 0, 0, fun _ _ _ => 0⟩, fun _ h => absurd h ha⟩
      · exact ⟨⟨0, 0, 0, 0, ⟨[], [], [], []⟩, 0, 0, 0, fun _ _ _ => 0⟩, fun h => absurd h hp⟩
  choose D hD using hD
  have hY := fun idx => realSHT_value
    ⟨8, 16, 4, 4, fun m l k => legpolyVal 4 4 "ortho" false true (Real.cos (colat r k)) m l * r.w k⟩ (show 0 < (16 : ℕ) by norm_num) (X idx)
  choose Y hY _ using hY
  obtain ⟨y, hy, hq⟩ := C51_real_sht env _ _ hS 3 2 hf D (fun p hp a ha => hD p a hp ha) [1] (by simp) X (tileOf [1] 8 16 3 2 X)
    (fun p _ a _ => tileOf_isTile _ _ _ _ _ _ _ _) Y (fun idx _ => hY idx)
  exact ⟨_, D, Y, y, hS, rfl, rfl, hY, hy, hq⟩

/-- The other three transforms are constructed for the same grids. -/
example (env : Env) : (∃ S, InverseRealSHT.init env ⟨8, 16, none, none, "equiangular", "ortho", true⟩ = .ok S ∧ Fits 3 2 8 16 S.lmax S.mmax) ∧
    (∃ S, RealVectorSHT.init env ⟨8, 16, none, none, "equiangular", "ortho", true⟩ = .ok S ∧ Fits 3 2 8 16 S.lmax S.mmax) ∧
    (∃ S, InverseRealVectorSHT.init env ⟨8, 16, none, none, "equiangular", "ortho", true⟩ = .ok S ∧ Fits 3 2 8 16 S.lmax S.mmax) := by
  obtain ⟨r, d, L, hr, _, hL, h0, _⟩ := default_grid env ⟨8, 16, none, none, "equiangular", "ortho", true⟩ (Or.inl rfl) (by norm_num)
    (by norm_num) rfl rfl
  have h4 : L = 4 := by
    have : sizes 8 16 none none "equiangular" = .ok (4, 4) := by decide
    rw [show sizes 8 16 none none "equiangular" = .ok (L, L) from hL] at this
    cases this; rfl
  subst h4
  have hf : Fits 3 2 8 16 4 4 := ⟨by norm_num, by norm_num, by norm_num, by norm_num, by norm_num, by norm_num⟩
  exact ⟨⟨_, inverseRealSHT_init env _ r 4 hr hL h0, hf⟩, ⟨_, realVectorSHT_init env _ r 4 hr hL h0, hf⟩,
    ⟨_, inverseRealVectorSHT_init env _ r 4 hr hL h0, hf⟩⟩

/-- With five polar ranks the truncation 4 cannot be shared. -/
example : TooLarge 5 2 8 16 4 4 := Or.inr (Or.inr (Or.inl (by norm_num)))

end Verif.Props
