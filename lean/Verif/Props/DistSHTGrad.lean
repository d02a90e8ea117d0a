import Verif.Lemmas.DistSHTGrad
import Verif.Props.MessagesSHT
/-!
C104: the gradients of the distributed spherical harmonic transforms, in lockstep and under every schedule of ranks and messages.
-/
namespace Verif.Props
open Verif Verif.Msg Verif.Spec.Msg Verif.Dist Verif.SHT Verif.FFT Verif.Spec Finset

theorem chanShapes_ok {n P : ℕ} (h : P ≤ n) (h0 : 0 < P) : computeSplitShapes n P = .ok (chanShapes n P) := by
  obtain ⟨sh, hs⟩ := css_exists h h0
  unfold chanShapes
  rw [hs]

theorem analysis_back {α γ : Type} [Zero α] [Zero γ] [Inhabited α] [Inhabited γ] {Pp Pa nlat nlon L M : ℕ} (hf : Fits Pp Pa nlat nlon L M)
    {glob : ℕ → ℕ → ℕ} (hglob : GlobInj Pp Pa glob) (lmax mmax : ℕ → ℕ → ℕ) (GT : ℕ → ℕ → Ten3 γ → Ten3 γ) (FT : ℕ → ℕ → Ten3 γ → Ten3 α)
    (Gg : (ℕ → ℕ → ℕ → γ) → ℕ → ℕ → ℕ → γ) (Fg : (ℕ → ℕ → ℕ → γ) → ℕ → ℕ → ℕ → α)
    (h1 : ∀ p < Pp, ∀ a < Pa, lmax p a = L) (h2 : ∀ p < Pp, ∀ a < Pa, mmax p a = M)
    (hG : ∀ p < Pp, ∀ a < Pa, ∀ (c0 : Cut) (Z : ℕ → ℕ → ℕ → γ) x, IsPart c0 (whole L) ⟨M, Pa, a⟩ Z x →
      IsPart c0 (whole nlat) ⟨M, Pa, a⟩ (Gg Z) (GT p a x))
    (hF : ∀ p < Pp, ∀ a < Pa, ∀ (c0 c1 : Cut) (X : ℕ → ℕ → ℕ → γ) x, IsPart c0 c1 (whole M) X x → IsPart c0 c1 (whole nlon) (Fg X) (FT p a x))
    (lead : List ℕ) (hl : lead ≠ []) (X : List ℕ → ℕ → ℕ → α) (x : ℕ → ℕ → LTen α) (hx : ∀ p < Pp, ∀ a < Pa, IsTile lead nlat nlon Pp Pa X p a (x p a))
    (Q : List ℕ → ℕ → ℕ → γ) (g : ℕ → ℕ → LTen γ) (hg : ∀ p < Pp, ∀ a < Pa, IsTile lead L M Pp Pa Q p a (g p a)) :
    (∃ y, analysisBackward Pp Pa lmax mmax GT FT x g = .ok y ∧
      ∀ p < Pp, ∀ a < Pa, IsTile lead nlat nlon Pp Pa (fun idx => Fg (Gg (flatGlobal lead Q)) (flatIndex lead idx)) p a (y p a)) ∧
    TilesEverySchedule (ofRounds (fun i : Fin Pp × Fin Pa => glob i.1 i.2) (synthesisRounds Pp Pa glob (numChans Pp Pa g) (fun p a => chanShapes (lmax p a) Pp)
        (fun p a => chanShapes (mmax p a) Pa) GT fun p a y => .ok (FT p a y)))
      (shtMem Pp Pa g) (shtOut g) lead nlat nlon fun idx => Fg (Gg (flatGlobal lead Q)) (flatIndex lead idx) := by
  refine ⟨analysisBackward_tile hf lmax mmax GT FT Gg Fg h1 h2 hG hF lead X x hx Q g hg, ?_⟩
  obtain ⟨y, hy, hT⟩ := synthesis_tile hf (fun p a => (g p a).d1) (fun p a => (g p a).d2) (fun p a => chanShapes (lmax p a) Pp)
    (fun p a => chanShapes (mmax p a) Pa) GT (fun p a y => .ok (FT p a y)) Gg Fg (fun p hp a ha => (hg p hp a ha).2.1) (fun p hp a ha => (hg p hp a ha).2.2.1)
    (fun p hp a ha => by rw [h1 p hp a ha]; exact chanShapes_ok hf.degrees hf.polar)
    (fun p hp a ha => by rw [h2 p hp a ha]; exact chanShapes_ok hf.orders hf.azimuth)
    hG (fun p hp a ha c0 c1 X x h => ⟨_, rfl, hF p hp a ha c0 c1 X x h⟩) lead hl Q g hg
  obtain ⟨r1, r2⟩ := synthesis_run hglob _ _ _ _ _ _ g y hy
  exact tilesEverySchedule (everySchedule _ (matched_synthesis hglob _ _ _ _ _) _ r1 _ _ r2) hT

theorem synthesis_back {α γ : Type} [Zero α] [Zero γ] [Inhabited α] [Inhabited γ] {Pp Pa nlat nlon L M : ℕ} (hf : Fits Pp Pa nlat nlon L M)
    {glob : ℕ → ℕ → ℕ} (hglob : GlobInj Pp Pa glob) (lat lon : ℕ → ℕ → ℕ) (FT : ℕ → ℕ → Ten3 γ → Ten3 α) (GT : ℕ → ℕ → Ten3 α → Ten3 α)
    (Fg : (ℕ → ℕ → ℕ → γ) → ℕ → ℕ → ℕ → α) (Gg : (ℕ → ℕ → ℕ → α) → ℕ → ℕ → ℕ → α)
    (h1 : ∀ p < Pp, ∀ a < Pa, lat p a = nlat) (h2 : ∀ p < Pp, ∀ a < Pa, lon p a = nlon)
    (hF : ∀ p < Pp, ∀ a < Pa, ∀ (c0 c1 : Cut) (X : ℕ → ℕ → ℕ → γ) x, IsPart c0 c1 (whole nlon) X x → IsPart c0 c1 (whole M) (Fg X) (FT p a x))
    (hG : ∀ p < Pp, ∀ a < Pa, ∀ (c0 : Cut) (Z : ℕ → ℕ → ℕ → α) x, IsPart c0 (whole nlat) ⟨M, Pa, a⟩ Z x →
      IsPart c0 (whole L) ⟨M, Pa, a⟩ (Gg Z) (GT p a x))
    (lead : List ℕ) (hl : lead ≠ []) (X : List ℕ → ℕ → ℕ → α) (x : ℕ → ℕ → LTen α) (hx : ∀ p < Pp, ∀ a < Pa, IsTile lead L M Pp Pa X p a (x p a))
    (Q : List ℕ → ℕ → ℕ → γ) (g : ℕ → ℕ → LTen γ) (hg : ∀ p < Pp, ∀ a < Pa, IsTile lead nlat nlon Pp Pa Q p a (g p a)) :
    (∃ y, synthesisBackward Pp Pa lat lon FT GT x g = .ok y ∧
      ∀ p < Pp, ∀ a < Pa, IsTile lead L M Pp Pa (fun idx => Gg (Fg (flatGlobal lead Q)) (flatIndex lead idx)) p a (y p a)) ∧
    TilesEverySchedule (ofRounds (fun i : Fin Pp × Fin Pa => glob i.1 i.2) (analysisRounds Pp Pa glob (numChans Pp Pa g) (fun p a => chanShapes (lon p a) Pa)
        (fun p a => chanShapes (lat p a) Pp) (fun p a y => .ok (FT p a y)) GT))
      (shtMem Pp Pa g) (shtOut g) lead L M fun idx => Gg (Fg (flatGlobal lead Q)) (flatIndex lead idx) := by
  refine ⟨synthesisBackward_tile hf lat lon FT GT Fg Gg h1 h2 hF hG lead X x hx Q g hg, ?_⟩
  obtain ⟨y, hy, hT⟩ := analysis_tile hf (fun p a => (g p a).d1) (fun p a => (g p a).d2) (fun p a => chanShapes (lon p a) Pa)
    (fun p a => chanShapes (lat p a) Pp) (fun p a y => .ok (FT p a y)) GT Fg Gg (fun p hp a ha => (hg p hp a ha).2.1) (fun p hp a ha => (hg p hp a ha).2.2.1)
    (fun p hp a ha => by rw [h2 p hp a ha]; exact chanShapes_ok hf.lon hf.azimuth)
    (fun p hp a ha => by rw [h1 p hp a ha]; exact chanShapes_ok hf.lat hf.polar)
    (fun p hp a ha c0 c1 X x h => ⟨_, rfl, hF p hp a ha c0 c1 X x h⟩) hG lead hl Q g hg
  obtain ⟨r1, r2⟩ := analysis_run hglob _ _ _ _ _ _ g y hy
  exact tilesEverySchedule (everySchedule _ (matched_analysis hglob _ _ _ _ _) _ r1 _ _ r2) hT

theorem pairC_congr {n1 n2 : ℕ} {u u' v : ℕ → ℕ → ℂ} (h : ∀ i, ∀ j < n2, u i j = u' i j) : pairC n1 n2 u v = pairC n1 n2 u' v :=
  sum_congr rfl fun i _ => sum_congr rfl fun j hj => by rw [h i j (mem_range.1 hj)]

theorem pairR_congr {n1 n2 : ℕ} {u u' v : ℕ → ℕ → ℝ} (h : ∀ i, ∀ j < n2, u i j = u' i j) : pairR n1 n2 u v = pairR n1 n2 u' v :=
  sum_congr rfl fun i _ => sum_congr rfl fun j hj => by rw [h i j (mem_range.1 hj)]

theorem pairC2_congr {n1 n2 : ℕ} {u u' v : ℕ → ℕ → ℂ × ℂ} (h : ∀ i, ∀ j < n2, u i j = u' i j) : pairC2 n1 n2 u v = pairC2 n1 n2 u' v :=
  congrArg₂ (· + ·) (pairC_congr fun i j hj => congrArg Prod.fst (h i j hj)) (pairC_congr fun i j hj => congrArg Prod.snd (h i j hj))

theorem pairR2_congr {n1 n2 : ℕ} {u u' v : ℕ → ℕ → ℝ × ℝ} (h : ∀ i, ∀ j < n2, u i j = u' i j) : pairR2 n1 n2 u v = pairR2 n1 n2 u' v :=
  congrArg₂ (· + ·) (pairR_congr fun i j hj => congrArg Prod.fst (h i j hj)) (pairR_congr fun i j hj => congrArg Prod.snd (h i j hj))

/-- C104. The pairing determines the gradient: two arrays with the same pairing with every array are equal. -/
theorem C104_unique (n1 n2 : ℕ) :
    (∀ v w : ℕ → ℕ → ℝ, (∀ f, pairR n1 n2 f v = pairR n1 n2 f w) → ∀ i < n1, ∀ j < n2, v i j = w i j) ∧
    ∀ v w : ℕ → ℕ → ℂ, (∀ f, pairC n1 n2 f v = pairC n1 n2 f w) → ∀ i < n1, ∀ j < n2, v i j = w i j := by
  have hs : ∀ (u : ℕ → ℕ → ℝ) (i j : ℕ), i < n1 → j < n2 →
      ∑ i' ∈ range n1, ∑ j' ∈ range n2, (if i' = i ∧ j' = j then (1 : ℝ) else 0) * u i' j' = u i j := fun u i j hi hj => by
    rw [sum_eq_single_of_mem i (mem_range.2 hi) fun i' _ h => sum_eq_zero fun j' _ => by rw [if_neg fun h' => h h'.1, zero_mul],
      sum_eq_single_of_mem j (mem_range.2 hj) fun j' _ h => by rw [if_neg fun h' => h h'.2, zero_mul], if_pos ⟨rfl, rfl⟩, one_mul]
  refine ⟨fun v w h i hi j hj => ?_, fun v w h i hi j hj => ?_⟩
  · have := h fun i' j' => if i' = i ∧ j' = j then 1 else 0
    unfold pairR at this
    rwa [hs _ i j hi hj, hs _ i j hi hj] at this
  · have a := h fun i' j' => ⟨if i' = i ∧ j' = j then 1 else 0, 0⟩
    have b := h fun i' j' => ⟨0, if i' = i ∧ j' = j then 1 else 0⟩
    unfold pairC at a b
    simp only [zero_mul, add_zero, zero_add] at a b
    rw [hs (fun i j => (v i j).re) i j hi hj, hs (fun i j => (w i j).re) i j hi hj] at a
    rw [hs (fun i j => (v i j).im) i j hi hj, hs (fun i j => (w i j).im) i j hi hj] at b
    exact Complex.ext a b

/-- C104. Let every rank hold the tile of a global gradient `Q` of the coefficients. Then the backward pass of `DistributedRealSHT` returns on every
rank, without error, the tile of one global array `V`, and `V` is the gradient of the serial transform: its pairing with every field equals the
pairing of `Q` with the coefficients that the serial transform computes from that field. The same holds for every execution of the backward pass as
a message-passing program: it ends, without error, with these tiles. Any leading shape is allowed. -/
theorem C104_real_sht (env : Env) (A : Args) (S : RealSHT) (hS : RealSHT.init env A = .ok S) (Pp Pa : ℕ)
    (hf : Fits Pp Pa A.nlat A.nlon S.lmax S.mmax) (glob : ℕ → ℕ → ℕ) (hglob : GlobInj Pp Pa glob) (D : ℕ → ℕ → DRealSHT)
    (hD : ∀ p < Pp, ∀ a < Pa, DRealSHT.init env A Pp Pa p a = .ok (D p a))
    (lead : List ℕ) (hl : lead ≠ []) (X : List ℕ → ℕ → ℕ → ℝ) (x : ℕ → ℕ → LTen ℝ)
    (hx : ∀ p < Pp, ∀ a < Pa, IsTile lead A.nlat A.nlon Pp Pa X p a (x p a))
    (Q : List ℕ → ℕ → ℕ → ℂ) (g : ℕ → ℕ → LTen ℂ) (hg : ∀ p < Pp, ∀ a < Pa, IsTile lead S.lmax S.mmax Pp Pa Q p a (g p a)) :
    ∃ V : List ℕ → ℕ → ℕ → ℝ,
      (∀ idx, LeadIndex lead idx → ∀ f y, S.forward ⟨A.nlat, A.nlon, f⟩ = .ok y →
        pairR A.nlat A.nlon f (V idx) = pairC S.lmax S.mmax y.val (Q idx)) ∧
      (∃ y, DRealSHT.backward Pp Pa D x g = .ok y ∧ ∀ p < Pp, ∀ a < Pa, IsTile lead A.nlat A.nlon Pp Pa V p a (y p a)) ∧
      TilesEverySchedule (realBackProg Pp Pa glob D g) (shtMem Pp Pa g) (shtOut g) lead A.nlat A.nlon V := by
  have hSn : S.nlat = A.nlat ∧ S.nlon = A.nlon := realSHT_sizes hS
  have hd : ∀ p < Pp, ∀ a < Pa, (D p a).nlat = A.nlat ∧ (D p a).nlon = A.nlon ∧ (D p a).lmax = S.lmax ∧ (D p a).mmax = S.mmax ∧
      ∀ m, (D p a).weights m = S.weights (blockStart S.mmax Pa a + m) := fun p hp a ha => by
    obtain ⟨D', h, h1, h2, h3, h4, _, _, _, _, h5⟩ := C51_real_init env A S hS Pp Pa hf p a hp ha
    rw [hD p hp a ha] at h
    cases h
    exact ⟨h1, h2, h3, h4, h5⟩
  have hnl : 0 < A.nlon := lt_of_lt_of_le hf.azimuth hf.lon
  refine ⟨_, fun idx hi f y hy => ?_, analysis_back hf hglob (fun p a => (D p a).lmax) (fun p a => (D p a).mmax)
    (fun p a => localLegendreBackward (D p a).nlat (D p a).weights) (fun p a => localRfftBackward (D p a).nlon) (legT S.lmax S.weights)
    (rfftT S.mmax A.nlon) (fun p hp a ha => (hd p hp a ha).2.2.1) (fun p hp a ha => (hd p hp a ha).2.2.2.1)
    (fun p hp a ha c0 Z x h => by
      rw [(hd p hp a ha).1]
      exact localLegendreBackward_part S.lmax A.nlat c0 ⟨S.mmax, Pa, a⟩ S.weights (D p a).weights (hd p hp a ha).2.2.2.2 Z x h)
    (fun p hp a ha c0 c1 Z x h => by
      rw [(hd p hp a ha).2.1]
      exact localRfftBackward_part S.mmax A.nlon c0 c1 Z x h) lead hl X x hx Q g hg⟩
  obtain ⟨y', hy', _, _, hv⟩ := realSHT_value S (by omega) f
  rw [hSn.1, hSn.2, hy] at hy'
  cases hy'
  rw [hSn.1, hSn.2] at hv
  rw [pairC_congr hv, ← rfft_adjoint A.nlat S.mmax A.nlon (fun _ => f) _ 0, ← leg_adjoint, flatGlobal_at lead idx hi]

/-- C104. The same for `DistributedInverseRealSHT`: the ranks hold the tiles of a gradient `Q` of the field and obtain the tiles of the gradient of
the coefficients; with the imaginary parts that the transform ignores having gradient zero. -/
theorem C104_inverse_sht (env : Env) (be : C2R) (A : Args) (S : InverseRealSHT) (hS : InverseRealSHT.init env A = .ok S) (Pp Pa : ℕ)
    (hf : Fits Pp Pa A.nlat A.nlon S.lmax S.mmax) (glob : ℕ → ℕ → ℕ) (hglob : GlobInj Pp Pa glob) (D : ℕ → ℕ → DInverseRealSHT)
    (hD : ∀ p < Pp, ∀ a < Pa, DInverseRealSHT.init env A Pp Pa p a = .ok (D p a))
    (lead : List ℕ) (hl : lead ≠ []) (X : List ℕ → ℕ → ℕ → ℂ) (x : ℕ → ℕ → LTen ℂ)
    (hx : ∀ p < Pp, ∀ a < Pa, IsTile lead S.lmax S.mmax Pp Pa X p a (x p a))
    (Q : List ℕ → ℕ → ℕ → ℝ) (g : ℕ → ℕ → LTen ℝ) (hg : ∀ p < Pp, ∀ a < Pa, IsTile lead A.nlat A.nlon Pp Pa Q p a (g p a)) :
    ∃ V : List ℕ → ℕ → ℕ → ℂ,
      (∀ idx, LeadIndex lead idx → ∀ f y, S.forward be ⟨S.lmax, S.mmax, f⟩ = .ok y →
        pairC S.lmax S.mmax f (V idx) = pairR A.nlat A.nlon y.val (Q idx)) ∧
      (∃ y, DInverseRealSHT.backward Pp Pa D x g = .ok y ∧ ∀ p < Pp, ∀ a < Pa, IsTile lead S.lmax S.mmax Pp Pa V p a (y p a)) ∧
      TilesEverySchedule (inverseBackProg Pp Pa glob D g) (shtMem Pp Pa g) (shtOut g) lead S.lmax S.mmax V := by
  have hSn : S.nlat = A.nlat ∧ S.nlon = A.nlon := inverseSHT_sizes hS
  have hd : ∀ p < Pp, ∀ a < Pa, (D p a).nlat = A.nlat ∧ (D p a).nlon = A.nlon ∧ (D p a).lmax = S.lmax ∧ (D p a).mmax = S.mmax ∧
      ∀ m, (D p a).pct m = S.pct (blockStart S.mmax Pa a + m) := fun p hp a ha => by
    obtain ⟨D', h, h1, h2, h3, h4, _, _, _, _, h5⟩ := C51_inverse_init env A S hS Pp Pa hf p a hp ha
    rw [hD p hp a ha] at h
    cases h
    exact ⟨h1, h2, h3, h4, h5⟩
  have hnl : 0 < A.nlon := lt_of_lt_of_le hf.azimuth hf.lon
  have hM : 0 < S.mmax := lt_of_lt_of_le hf.azimuth hf.orders
  refine ⟨_, fun idx hi f y hy => ?_, synthesis_back hf hglob (fun p a => (D p a).nlat) (fun p a => (D p a).nlon)
    (fun p a => localIrfftBackward (D p a).mmax) (fun p a => localLegendreBackward (D p a).lmax (D p a).pct) (irfftT A.nlon) (legT A.nlat S.pct)
    (fun p hp a ha => (hd p hp a ha).1) (fun p hp a ha => (hd p hp a ha).2.1)
    (fun p hp a ha c0 c1 Z x h => by
      rw [(hd p hp a ha).2.2.2.1]
      exact localIrfftBackward_part S.mmax A.nlon c0 c1 Z x h)
    (fun p hp a ha c0 Z x h => by
      rw [(hd p hp a ha).2.2.1]
      exact localLegendreBackward_part A.nlat S.lmax c0 ⟨S.mmax, Pa, a⟩ S.pct (D p a).pct (hd p hp a ha).2.2.2.2 Z x h) lead hl X x hx Q g hg⟩
  obtain ⟨y', hy', _, _, hv⟩ := inverseSHT_value be S (by omega) hM f
  rw [hy] at hy'
  cases hy'
  rw [hSn.2] at hv
  rw [pairR_congr hv, ← leg_adjoint S.lmax A.nlat S.mmax S.pct (fun _ => f) _ 0, ← irfft_adjoint, flatGlobal_at lead idx hi]

/-- C104. The same for `DistributedRealVectorSHT`, for pairs of fields and pairs of coefficient arrays. -/
theorem C104_vector_sht (env : Env) (A : Args) (S : RealVectorSHT) (hS : RealVectorSHT.init env A = .ok S) (Pp Pa : ℕ)
    (hf : Fits Pp Pa A.nlat A.nlon S.lmax S.mmax) (glob : ℕ → ℕ → ℕ) (hglob : GlobInj Pp Pa glob) (D : ℕ → ℕ → DRealVectorSHT)
    (hD : ∀ p < Pp, ∀ a < Pa, DRealVectorSHT.init env A Pp Pa p a = .ok (D p a))
    (lead : List ℕ) (hl : lead ≠ []) (X : List ℕ → ℕ → ℕ → ℝ × ℝ) (x : ℕ → ℕ → LTen (ℝ × ℝ))
    (hx : ∀ p < Pp, ∀ a < Pa, IsTile lead A.nlat A.nlon Pp Pa X p a (x p a))
    (Q : List ℕ → ℕ → ℕ → ℂ × ℂ) (g : ℕ → ℕ → LTen (ℂ × ℂ)) (hg : ∀ p < Pp, ∀ a < Pa, IsTile lead S.lmax S.mmax Pp Pa Q p a (g p a)) :
    ∃ V : List ℕ → ℕ → ℕ → ℝ × ℝ,
      (∀ idx, LeadIndex lead idx → ∀ f y, S.forward (stacked A.nlat A.nlon f) = .ok y →
        pairR2 A.nlat A.nlon f (V idx) = pairC2 S.lmax S.mmax (fun l m => (y.val 0 l m, y.val 1 l m)) (Q idx)) ∧
      (∃ y, DRealVectorSHT.backward Pp Pa D x g = .ok y ∧ ∀ p < Pp, ∀ a < Pa, IsTile lead A.nlat A.nlon Pp Pa V p a (y p a)) ∧
      TilesEverySchedule (vectorBackProg Pp Pa glob D g) (shtMem Pp Pa g) (shtOut g) lead A.nlat A.nlon V := by
  have hSn : S.nlat = A.nlat ∧ S.nlon = A.nlon := vectorSHT_sizes hS
  have hd : ∀ p < Pp, ∀ a < Pa, (D p a).nlat = A.nlat ∧ (D p a).nlon = A.nlon ∧ (D p a).lmax = S.lmax ∧ (D p a).mmax = S.mmax ∧
      (∀ m, (D p a).w0 m = S.w0 (blockStart S.mmax Pa a + m)) ∧ ∀ m, (D p a).w1 m = S.w1 (blockStart S.mmax Pa a + m) := fun p hp a ha => by
    obtain ⟨D', h, h1, h2, h3, h4, _, _, _, _, h5⟩ := C51_vector_init env A S hS Pp Pa hf p a hp ha
    rw [hD p hp a ha] at h
    cases h
    exact ⟨h1, h2, h3, h4, h5⟩
  have hnl : 0 < A.nlon := lt_of_lt_of_le hf.azimuth hf.lon
  refine ⟨_, fun idx hi f y hy => ?_, analysis_back hf hglob (fun p a => (D p a).lmax) (fun p a => (D p a).mmax)
    (fun p a => localVectorLegendreBackward (D p a).nlat (D p a).w0 (D p a).w1) (fun p a => localRfft2Backward (D p a).nlon) (vlegT S.lmax S.w0 S.w1)
    (rfftT2 S.mmax A.nlon) (fun p hp a ha => (hd p hp a ha).2.2.1) (fun p hp a ha => (hd p hp a ha).2.2.2.1)
    (fun p hp a ha c0 Z x h => by
      rw [(hd p hp a ha).1]
      exact localVectorLegendreBackward_part S.lmax A.nlat c0 ⟨S.mmax, Pa, a⟩ S.w0 S.w1 _ _ (hd p hp a ha).2.2.2.2.1 (hd p hp a ha).2.2.2.2.2 Z x h)
    (fun p hp a ha c0 c1 Z x h => by
      rw [(hd p hp a ha).2.1]
      exact localRfft2Backward_part S.mmax A.nlon c0 c1 Z x h) lead hl X x hx Q g hg⟩
  obtain ⟨y', hy', hv⟩ := vectorSHT_value S (by omega) f
  rw [hSn.1, hSn.2, hy] at hy'
  cases hy'
  rw [hSn.1, hSn.2] at hv
  rw [pairC2_congr hv, ← rfft2_adjoint A.nlat S.mmax A.nlon (fun _ => f) _ 0, ← vleg_adjoint, flatGlobal_at lead idx hi]

/-- C104. The same for `DistributedInverseRealVectorSHT`. -/
theorem C104_inverse_vector_sht (env : Env) (be : C2R) (A : Args) (S : InverseRealVectorSHT) (hS : InverseRealVectorSHT.init env A = .ok S) (Pp Pa : ℕ)
    (hf : Fits Pp Pa A.nlat A.nlon S.lmax S.mmax) (glob : ℕ → ℕ → ℕ) (hglob : GlobInj Pp Pa glob) (D : ℕ → ℕ → DInverseRealVectorSHT)
    (hD : ∀ p < Pp, ∀ a < Pa, DInverseRealVectorSHT.init env A Pp Pa p a = .ok (D p a))
    (lead : List ℕ) (hl : lead ≠ []) (X : List ℕ → ℕ → ℕ → ℂ × ℂ) (x : ℕ → ℕ → LTen (ℂ × ℂ))
    (hx : ∀ p < Pp, ∀ a < Pa, IsTile lead S.lmax S.mmax Pp Pa X p a (x p a))
    (Q : List ℕ → ℕ → ℕ → ℝ × ℝ) (g : ℕ → ℕ → LTen (ℝ × ℝ)) (hg : ∀ p < Pp, ∀ a < Pa, IsTile lead A.nlat A.nlon Pp Pa Q p a (g p a)) :
    ∃ V : List ℕ → ℕ → ℕ → ℂ × ℂ,
      (∀ idx, LeadIndex lead idx → ∀ f y, S.forward be (stacked S.lmax S.mmax f) = .ok y →
        pairC2 S.lmax S.mmax f (V idx) = pairR2 A.nlat A.nlon (fun k j => (y.val 0 k j, y.val 1 k j)) (Q idx)) ∧
      (∃ y, DInverseRealVectorSHT.backward Pp Pa D x g = .ok y ∧ ∀ p < Pp, ∀ a < Pa, IsTile lead S.lmax S.mmax Pp Pa V p a (y p a)) ∧
      TilesEverySchedule (inverseVectorBackProg Pp Pa glob D g) (shtMem Pp Pa g) (shtOut g) lead S.lmax S.mmax V := by
  have hSn : S.nlat = A.nlat ∧ S.nlon = A.nlon := inverseVectorSHT_sizes hS
  have hd : ∀ p < Pp, ∀ a < Pa, (D p a).nlat = A.nlat ∧ (D p a).nlon = A.nlon ∧ (D p a).lmax = S.lmax ∧ (D p a).mmax = S.mmax ∧
      (∀ m, (D p a).d0 m = S.d0 (blockStart S.mmax Pa a + m)) ∧ ∀ m, (D p a).d1 m = S.d1 (blockStart S.mmax Pa a + m) := fun p hp a ha => by
    obtain ⟨D', h, h1, h2, h3, h4, _, _, _, _, h5⟩ := C51_inverse_vector_init env A S hS Pp Pa hf p a hp ha
    rw [hD p hp a ha] at h
    cases h
    exact ⟨h1, h2, h3, h4, h5⟩
  have hnl : 0 < A.nlon := lt_of_lt_of_le hf.azimuth hf.lon
  have hM : 0 < S.mmax := lt_of_lt_of_le hf.azimuth hf.orders
  refine ⟨_, fun idx hi f y hy => ?_, synthesis_back hf hglob (fun p a => (D p a).nlat) (fun p a => (D p a).nlon)
    (fun p a => localIrfft2Backward (D p a).mmax) (fun p a => localVectorLegendreBackward (D p a).lmax (D p a).d0 (D p a).d1) (irfftT2 A.nlon)
    (vlegT A.nlat S.d0 S.d1) (fun p hp a ha => (hd p hp a ha).1) (fun p hp a ha => (hd p hp a ha).2.1)
    (fun p hp a ha c0 c1 Z x h => by
      rw [(hd p hp a ha).2.2.2.1]
      exact localIrfft2Backward_part S.mmax A.nlon c0 c1 Z x h)
    (fun p hp a ha c0 Z x h => by
      rw [(hd p hp a ha).2.2.1]
      exact localVectorLegendreBackward_part A.nlat S.lmax c0 ⟨S.mmax, Pa, a⟩ S.d0 S.d1 _ _ (hd p hp a ha).2.2.2.2.1 (hd p hp a ha).2.2.2.2.2 Z x h)
    lead hl X x hx Q g hg⟩
  obtain ⟨y', hy', hv⟩ := inverseVectorSHT_value be S (by omega) hM f
  rw [hy] at hy'
  cases hy'
  rw [hSn.2] at hv
  rw [pairR2_congr hv, ← vleg_adjoint S.lmax A.nlat S.mmax S.d0 S.d1 (fun _ => f) _ 0, ← irfft2_adjoint, flatGlobal_at lead idx hi]

/-- An 8 by 16 equiangular grid (truncation 4) on a 3 by 2 process grid, leading shape `(1,)`: the backward pass returns the tiles of the gradient of
the serial transform, for every gradient of the coefficients. The serial transform returns a result for every field, so the pairing is not vacuous. -/
example (env : Env) (Q : List ℕ → ℕ → ℕ → ℂ) :
    ∃ (S : RealSHT) (D : ℕ → ℕ → DRealSHT) (V : List ℕ → ℕ → ℕ → ℝ) (y : ℕ → ℕ → LTen ℝ),
      RealSHT.init env ⟨8, 16, none, none, "equiangular", "ortho", true⟩ = .ok S ∧ S.lmax = 4 ∧ S.mmax = 4 ∧
      (∀ f, ∃ z, S.forward ⟨8, 16, f⟩ = .ok z ∧ pairR 8 16 f (V [0]) = pairC 4 4 z.val (Q [0])) ∧
      DRealSHT.backward 3 2 D (tileOf [1] 8 16 3 2 fun _ _ _ => 0) (tileOf [1] 4 4 3 2 Q) = .ok y ∧
      ∀ p < 3, ∀ a < 2, IsTile [1] 8 16 3 2 V p a (y p a) := by
  obtain ⟨r, d, L, hr, _, hL, h0, _⟩ := default_grid env ⟨8, 16, none, none, "equiangular", "ortho", true⟩ (Or.inl rfl) (by norm_num)
    (by norm_num) rfl rfl
  have h4 : L = 4 := by
    have : sizes 8 16 none none "equiangular" = .ok (4, 4) := by decide
    rw [show sizes 8 16 none none "equiangular" = .ok (L, L) from hL] at this
    cases this; rfl
  subst h4
  have hS := realSHT_init env ⟨8, 16, none, none, "equiangular", "ortho", true⟩ r 4 hr hL h0
  have hf : Fits 3 2 8 16 4 4 := ⟨by norm_num, by norm_num, by norm_num, by norm_num, by norm_num, by norm_num⟩
  have hD : ∀ p a, ∃ D : DRealSHT, p < 3 → a < 2 → DRealSHT.init env ⟨8, 16, none, none, "equiangular", "ortho", true⟩ 3 2 p a = .ok D :=
    fun p a => by
      by_cases hp : p < 3
      · by_cases ha : a < 2
        · obtain ⟨D, h, _⟩ := C51_real_init env _ _ hS 3 2 hf p a hp ha
          exact ⟨D, fun _ _ => h⟩
        · exact ⟨⟨0, 0, 0, 0, ⟨[], [], [], []⟩, 0, 0, 0, fun _ _ _ => 0⟩, fun _ h => absurd h ha⟩
      · exact ⟨⟨0, 0, 0, 0, ⟨[], [], [], []⟩, 0, 0, 0, fun _ _ _ => 0⟩, fun h => absurd h hp⟩
  choose D hD using hD
  have hY := fun f => realSHT_value
    ⟨8, 16, 4, 4, fun m l k => Legendre.legpolyVal 4 4 "ortho" false true (Real.cos (colat r k)) m l * r.w k⟩ (show 0 < (16 : ℕ) by norm_num) f
  obtain ⟨V, hV, ⟨y, hy, hT⟩, _⟩ := C104_real_sht env _ _ hS 3 2 hf (fun p a => p * 2 + a) (globInj_rowMajor 3 2) D (fun p hp a ha => hD p a hp ha) [1] (by simp)
    (fun _ _ _ => 0) (tileOf [1] 8 16 3 2 fun _ _ _ => 0) (fun p _ a _ => tileOf_isTile _ _ _ _ _ _ _ _) Q (tileOf [1] 4 4 3 2 Q)
    (fun p _ a _ => tileOf_isTile _ _ _ _ _ _ _ _)
  refine ⟨_, D, V, y, hS, rfl, rfl, fun f => ?_, hy, hT⟩
  obtain ⟨z, hz, _⟩ := hY f
  exact ⟨z, hz, hV [0] (by simp [LeadIndex]) f z hz⟩

end Verif.Props
