import Verif.Model.DistSpectralConv
import Verif.Props.DistSHT
import Verif.Props.DistQuadrature
/-!
Property theorems C64: the distributed spectral convolution returns the tiles of the result of the serial layer.
-/
namespace Verif.Props
open Verif Verif.Dist Verif.SHT Verif.FFT Verif.Quad Verif.Legendre Verif.Spec Verif.Truncation Finset

/-- What a successfully constructed serial layer contains. -/
theorem spectralConv_parts {env : Env} {A : ConvArgs} {w : ℕ → ℕ → ℕ → ℕ → ℂ} {b : Option (ℕ → ℕ → ℕ → ℂ)} {S : SpectralConv}
    (h : SpectralConv.init env A w b = .ok S) :
    0 < A.groups ∧ A.groups ∣ A.inChannels ∧ A.groups ∣ A.outChannels ∧ A.inChannels / A.groups ≠ 0 ∧
      ∃ L : ℕ, 0 < L ∧ convLmax A = .ok (L : ℤ) ∧
      RealSHT.init env ⟨A.nlatIn, A.nlonIn, some (L : ℤ), some (L : ℤ), A.gridIn, "ortho", true⟩ = .ok S.sht ∧
      InverseRealSHT.init env ⟨A.nlatOut, A.nlonOut, some (L : ℤ), some (L : ℤ), A.gridOut, "ortho", true⟩ = .ok S.isht ∧
      S.inChannels = A.inChannels ∧ S.outChannels = A.outChannels ∧ S.groups = A.groups ∧ S.weight = w ∧ S.lmax = L ∧
      ((b = none ∧ S.bias = none) ∨ ∃ b' r, b = some b' ∧ quadratureS2Rule env.gauss env.tol env.maxiter A.nlatIn A.gridIn = .ok r ∧
        S.bias = some (r, b')) := by
  unfold SpectralConv.init at h
  split at h
  · cases h
  rename_i h0
  split at h
  · cases h
  rename_i h1
  split at h
  · cases h
  rename_i h2
  split at h
  · cases h
  rename_i lmax hl
  split at h
  · cases h
  rename_i T hT
  split at h
  · cases h
  rename_i I hI
  split at h
  · cases h
  rename_i h3
  split at h
  · cases h
  rename_i h4
  split at h
  · cases h
  rename_i h5
  obtain ⟨L, rfl⟩ : ∃ L : ℕ, lmax = (L : ℤ) := ⟨lmax.toNat, (Int.toNat_of_nonneg (by omega)).symm⟩
  refine ⟨Nat.pos_of_ne_zero h0, Nat.dvd_of_mod_eq_zero (not_not.1 h1), Nat.dvd_of_mod_eq_zero (not_not.1 h2), h3, L, by omega, hl, ?_⟩
  split at h
  · cases h
    exact ⟨hT, hI, rfl, rfl, rfl, rfl, by simp, Or.inl ⟨rfl, rfl⟩⟩
  · rename_i b'
    split at h
    · cases h
    rename_i r hr
    cases h
    exact ⟨hT, hI, rfl, rfl, rfl, rfl, by simp, Or.inr ⟨b', r, rfl, hr, rfl⟩⟩

/-- The transforms of the layer have the truncation that was asked for. -/
theorem realSHT_trunc {env : Env} {nlat nlon L : ℕ} {grid norm : String} {cs : Bool} {S : RealSHT} (hL : 0 < L)
    (h : RealSHT.init env ⟨nlat, nlon, some (L : ℤ), some (L : ℤ), grid, norm, cs⟩ = .ok S) :
    S.lmax = L ∧ S.mmax = L ∧ grid ≠ "equiangular-trapezoidal" := by
  unfold RealSHT.init at h
  cases hr : gridRule env.gauss env.tol env.maxiter nlat grid with
  | error e => rw [hr] at h; cases h
  | ok r =>
    rw [hr] at h
    rw [except_bind_ok] at h
    dsimp only at h
    rw [sizes_explicit nlat nlon L grid hL, except_bind_ok] at h
    dsimp only at h
    cases hl : legpolyTensor L L (colat r) norm false cs with
    | error e => rw [hl] at h; cases h
    | ok pct =>
      rw [hl] at h
      cases h
      refine ⟨rfl, rfl, ?_⟩
      rintro rfl
      unfold gridRule at hr
      split_ifs at hr <;> simp_all

theorem inverseSHT_trunc {env : Env} {nlat nlon L : ℕ} {grid norm : String} {cs : Bool} {S : InverseRealSHT} (hL : 0 < L)
    (h : InverseRealSHT.init env ⟨nlat, nlon, some (L : ℤ), some (L : ℤ), grid, norm, cs⟩ = .ok S) : S.lmax = L ∧ S.mmax = L := by
  unfold InverseRealSHT.init at h
  cases hr : gridRule env.gauss env.tol env.maxiter nlat grid with
  | error e => rw [hr] at h; cases h
  | ok r =>
    rw [hr] at h
    rw [except_bind_ok] at h
    dsimp only at h
    rw [sizes_explicit nlat nlon L grid hL, except_bind_ok] at h
    dsimp only at h
    cases hl : legpolyTensor L L (colat r) norm true cs with
    | error e => rw [hl] at h; cases h
    | ok pct => rw [hl] at h; cases h; exact ⟨rfl, rfl⟩

/-- The process grid is not larger than the two grids of points and the truncation. -/
structure ConvFits (Pp Pa : ℕ) (A : ConvArgs) (L : ℕ) : Prop where
  polar : 0 < Pp
  azimuth : 0 < Pa
  latIn : Pp ≤ A.nlatIn
  lonIn : Pa ≤ A.nlonIn
  latOut : Pp ≤ A.nlatOut
  lonOut : Pa ≤ A.nlonOut
  degrees : Pp ≤ L
  orders : Pa ≤ L

/-- C64. On a process grid that fits, the distributed layer is constructed on every rank as soon as the serial one is, whatever weights the rank is
given. -/
theorem C64_init (env : Env) (hg : ∀ n, (env.gauss n).n = n) (A : ConvArgs) (w : ℕ → ℕ → ℕ → ℕ → ℂ) (b : Option (ℕ → ℕ → ℕ → ℂ))
    (S : SpectralConv) (hS : SpectralConv.init env A w b = .ok S) (Pp Pa : ℕ) (hf : ConvFits Pp Pa A S.lmax) (p a : ℕ) (hp : p < Pp) (ha : a < Pa)
    (w' : ℕ → ℕ → ℕ → ℕ → ℂ) (b' : ℕ → ℕ → ℕ → ℂ) :
    ∃ D, DSpectralConv.init env A b.isSome Pp Pa p a w' b' = .ok D ∧ D.inChannels = A.inChannels ∧ D.outChannels = A.outChannels ∧
      D.groups = A.groups ∧ D.weight = w' ∧ D.bias = b' ∧
      DRealSHT.init env ⟨A.nlatIn, A.nlonIn, some (S.lmax : ℤ), some (S.lmax : ℤ), A.gridIn, "ortho", true⟩ Pp Pa p a = .ok D.sht ∧
      DInverseRealSHT.init env ⟨A.nlatOut, A.nlonOut, some (S.lmax : ℤ), some (S.lmax : ℤ), A.gridOut, "ortho", true⟩ Pp Pa p a = .ok D.isht ∧
      (b.isSome = true → dquadInit env.gauss env.tol env.maxiter A.nlatIn A.nlonIn A.gridIn false Pp Pa p a = .ok D.quad) := by
  obtain ⟨hgp, hin, hout, hdiv, L, hL, hc, hT, hI, -, -, -, -, hSL, hb⟩ := spectralConv_parts hS
  obtain ⟨t1, t2, hgr⟩ := realSHT_trunc hL hT
  obtain ⟨i1, i2⟩ := inverseSHT_trunc hL hI
  rw [hSL] at hf ⊢
  obtain ⟨D1, e1, -⟩ := C51_real_init env _ _ hT Pp Pa ⟨hf.polar, hf.azimuth, hf.latIn, hf.lonIn, by rw [t1]; exact hf.degrees,
    by rw [t2]; exact hf.orders⟩ p a hp ha
  obtain ⟨D2, e2, -⟩ := C51_inverse_init env _ _ hI Pp Pa ⟨hf.polar, hf.azimuth, hf.latOut, hf.lonOut, by rw [i1]; exact hf.degrees,
    by rw [i2]; exact hf.orders⟩ p a hp ha
  unfold DSpectralConv.init
  rw [if_neg (by omega), if_neg (by simp [Nat.mod_eq_zero_of_dvd hin]), if_neg (by simp [Nat.mod_eq_zero_of_dvd hout]), hc, except_bind_ok, e1,
    except_bind_ok, e2, except_bind_ok, if_neg hdiv]
  rcases hb with ⟨rfl, -⟩ | ⟨b', r, rfl, hr, -⟩
  · rw [if_neg (by simp)]
    exact ⟨_, rfl, rfl, rfl, rfl, rfl, rfl, rfl, rfl, by simp⟩
  · rw [if_pos (by simp)]
    obtain ⟨q, hq, -⟩ := C54_quadrature_init env.gauss hg env.tol env.maxiter A.nlatIn A.nlonIn A.gridIn false hgr r hr Pp Pa hf.polar hf.azimuth
      hf.latIn hf.lonIn p a hp ha
    rw [hq, except_bind_ok]
    exact ⟨_, rfl, rfl, rfl, rfl, rfl, rfl, rfl, rfl, fun _ => rfl⟩

/-- Rank `(p, a)` holds its share of the global parameters: the degrees of the rank of the weight, the degrees and orders of the rank of
the bias. -/
def HoldsShare (A : ConvArgs) (L Pp Pa : ℕ) (w : ℕ → ℕ → ℕ → ℕ → ℂ) (b : Option (ℕ → ℕ → ℕ → ℂ)) (p a : ℕ) (w' : ℕ → ℕ → ℕ → ℕ → ℂ)
    (b' : ℕ → ℕ → ℕ → ℂ) : Prop :=
  (∀ g < A.groups, ∀ i < A.inChannels / A.groups, ∀ o < A.outChannels / A.groups, ∀ l < blockSize L Pp p,
      w' g i o l = w g i o (blockStart L Pp p + l)) ∧
    ∀ B, b = some B → ∀ c < A.inChannels, ∀ l < blockSize L Pp p, ∀ m < blockSize L Pa a,
      b' c l m = B c (blockStart L Pp p + l) (blockStart L Pa a + m)

theorem leadIndex_two {B C : ℕ} {idx : List ℕ} (h : LeadIndex [B, C] idx) : ∃ b c, idx = [b, c] ∧ b < B ∧ c < C := by
  match idx, h with
  | [b, c], h => exact ⟨b, c, rfl, h.1, h.2.1⟩

/-- The serial layer between the transforms, for an input of the right shape. -/
theorem serial_mix {env : Env} {A : ConvArgs} {w : ℕ → ℕ → ℕ → ℕ → ℂ} {b : Option (ℕ → ℕ → ℕ → ℂ)} {S : SpectralConv}
    (hS : SpectralConv.init env A w b = .ok S) (r : Rule) (hr : ∀ B, b = some B → S.bias = some (r, B)) (hr0 : b = none → S.bias = none)
    (be : C2R) (x : Ten3 ℝ) (hx : x.d0 = A.inChannels)
    (c : ℕ → Mat ℂ) (hc : ∀ ch, S.sht.forward ⟨x.d1, x.d2, x.val ch⟩ = .ok (c ch)) :
    ∃ z : Ten3 ℂ, S.forward be x = mapChannels (S.isht.forward be) z ∧ z.d0 = A.outChannels ∧ z.d1 = (c 0).d0 ∧ z.d2 = (c 0).d1 ∧
      ∀ oc < A.outChannels, ∀ l m, z.val oc l m = mixed A w (fun ch l m => (c ch).val l m + biasTerm r b x ch l m) oc l m := by
  obtain ⟨hgp, hin, hout, hdiv, L, hL, -, -, -, a1, a2, a3, hw, -, -⟩ := spectralConv_parts hS
  have hgin : A.groups * (A.inChannels / A.groups) = A.inChannels := Nat.mul_div_cancel' hin
  obtain ⟨z', hz', z0, z1, z2, zv⟩ : ∃ z', S.addBias x ⟨x.d0, (c 0).d0, (c 0).d1, fun ch => (c ch).val⟩ = .ok z' ∧ z'.d0 = A.inChannels ∧
      z'.d1 = (c 0).d0 ∧ z'.d2 = (c 0).d1 ∧
      ∀ ch < A.inChannels, ∀ l m, z'.val ch l m = (c ch).val l m + biasTerm r b x ch l m := by
    unfold SpectralConv.addBias
    cases b with
    | none => rw [hr0 rfl]; exact ⟨_, rfl, hx, rfl, rfl, fun ch _ l m => by simp [biasTerm]⟩
    | some B =>
      rw [hr B rfl]
      dsimp only
      rw [a1, hx, bcast_self]
      refine ⟨_, rfl, rfl, rfl, rfl, fun ch hch l m => ?_⟩
      simp only [bidx_lt _ _ hch, biasTerm]
  unfold SpectralConv.forward
  rw [mapChannels_ok c hc]
  dsimp only
  rw [hz']
  dsimp only
  unfold SpectralConv.contract
  dsimp only
  rw [a1, a2, a3, z0, hx, if_neg (by simp [hgin]), bcast_self]
  refine ⟨_, rfl, rfl, z1, z2, fun oc hoc l m => ?_⟩
  unfold mixed
  dsimp only
  refine sum_congr rfl fun i hi => ?_
  have hi := mem_range.1 hi
  rw [bidx_lt _ _ hi, zv _ (group_index hin hout oc i hoc hi), hw]

theorem mapBatch_ok (f : ℕ → Ten3 ℂ → Except PyErr (Ten3 ℂ)) (x : LTen ℂ) (B C : ℕ) (hl : x.lead = [B, C]) (g : ℕ → Ten3 ℂ)
    (h : ∀ b, f b ⟨C, x.d1, x.d2, fun c => x.val [b, c]⟩ = .ok (g b)) :
    mapBatch f x = .ok ⟨[B, (g 0).d0], (g 0).d1, (g 0).d2, fun idx => (g (idx.getD 0 0)).val (idx.getD 1 0)⟩ := by
  unfold mapBatch
  rw [hl]
  simp only [h]

/-- The local part of the distributed layer. -/
theorem dist_mix (D : DSpectralConv) (A : ConvArgs) (hin : A.groups ∣ A.inChannels) (hout : A.groups ∣ A.outChannels)
    (a1 : D.inChannels = A.inChannels) (a2 : D.outChannels = A.outChannels) (a3 : D.groups = A.groups) (hb : Bool) (I : ℕ → ℕ → ℝ) (x : LTen ℂ)
    (B : ℕ) (hl : x.lead = [B, A.inChannels]) :
    ∃ y, D.mix hb I x = .ok y ∧ y.lead = [B, A.outChannels] ∧ y.d1 = x.d1 ∧ y.d2 = x.d2 ∧ ∀ b, ∀ oc < A.outChannels, ∀ l m,
      y.val [b, oc] l m = mixed A D.weight (fun ch l m => x.val [b, ch] l m + if hb then (I b ch : ℂ) * D.bias ch l m else 0) oc l m := by
  have hgin : A.groups * (A.inChannels / A.groups) = A.inChannels := Nat.mul_div_cancel' hin
  have h : ∀ b, ∃ g, (do
      let c' ← D.maybeBias hb (I b) ⟨A.inChannels, x.d1, x.d2, fun c => x.val [b, c]⟩
      D.contract A.inChannels c') = .ok g ∧ g.d0 = A.outChannels ∧ g.d1 = x.d1 ∧ g.d2 = x.d2 ∧ ∀ oc < A.outChannels, ∀ l m,
        g.val oc l m = mixed A D.weight (fun ch l m => x.val [b, ch] l m + if hb then (I b ch : ℂ) * D.bias ch l m else 0) oc l m := by
    intro b
    obtain ⟨c', hc', c0, c1, c2, cv⟩ : ∃ c', D.maybeBias hb (I b) ⟨A.inChannels, x.d1, x.d2, fun c => x.val [b, c]⟩ = .ok c' ∧ c'.d0 = A.inChannels ∧ c'.d1 = x.d1 ∧ c'.d2 = x.d2 ∧
        ∀ ch < A.inChannels, ∀ l m, c'.val ch l m = x.val [b, ch] l m + if hb then (I b ch : ℂ) * D.bias ch l m else 0 := by
      unfold DSpectralConv.maybeBias
      cases hb with
      | false => exact ⟨_, rfl, rfl, rfl, rfl, fun ch _ l m => by simp⟩
      | true =>
        rw [if_pos rfl]
        unfold DSpectralConv.addBias
        dsimp only
        rw [a1, bcast_self]
        refine ⟨_, rfl, rfl, rfl, rfl, fun ch hch l m => ?_⟩
        simp only [bidx_lt _ _ hch, if_true]
    rw [hc', except_bind_ok]
    unfold DSpectralConv.contract
    dsimp only
    rw [a1, a2, a3, c0, if_neg (by simp [hgin]), bcast_self]
    refine ⟨_, rfl, rfl, c1, c2, fun oc hoc l m => ?_⟩
    unfold mixed
    dsimp only
    refine sum_congr rfl fun i hi => ?_
    have hi := mem_range.1 hi
    rw [bidx_lt _ _ hi, cv _ (group_index hin hout oc i hoc hi)]
  choose g hg g0 g1 g2 gv using h
  unfold DSpectralConv.mix
  rw [mapBatch_ok _ x B A.inChannels hl g hg]
  exact ⟨_, rfl, by rw [g0], g1 0, g2 0, fun b oc hoc l m => gv b oc hoc l m⟩

/-- The integrals succeed as soon as the shapes fit, and have the value of the single quadratures. -/
theorem integrals_ok {Pp Pa : ℕ} (hp : 0 < Pp) (ha : 0 < Pa) (w : ℕ → ℕ → Mat ℝ) (x : ℕ → ℕ → LTen ℝ)
    (h : ∀ p < Pp, ∀ a < Pa, (x p a).d1 = (w p a).d0 ∧ (x p a).d2 = (w p a).d1) :
    ∃ I, integrals Pp Pa w x = .ok I ∧
      ∀ b c y, dquadForward Pp Pa w (fun p a => ⟨(x p a).d1, (x p a).d2, (x p a).val [b, c]⟩) = .ok y → ∀ p a, I p a b c = y p a := by
  obtain ⟨y0, h0⟩ : ∃ y0, dquadForward Pp Pa w (fun p a => ⟨(x p a).d1, (x p a).d2, (x p a).val [0, 0]⟩) = .ok y0 := by
    obtain ⟨q, hq, -⟩ := collect_ok hp ha (f := fun p a => dquadLocal (w p a) ⟨(x p a).d1, (x p a).d2, (x p a).val [0, 0]⟩)
      (Q := fun _ _ _ => True) (fun p hp' a ha' => ⟨_, by
        unfold dquadLocal
        obtain ⟨e1, e2⟩ := h p hp' a ha'
        rw [if_neg (by simp [e1, e2])], trivial⟩)
    unfold dquadForward
    rw [hq]
    exact ⟨_, rfl⟩
  have e : ∃ I, integrals Pp Pa w x = .ok I ∧ I = fun p a b c =>
      match dquadForward Pp Pa w fun p a => ⟨(x p a).d1, (x p a).d2, (x p a).val [b, c]⟩ with
      | .error _ => y0 p a
      | .ok y => y p a := by
    unfold integrals
    generalize hF : (fun b c => dquadForward Pp Pa w fun p a => (⟨(x p a).d1, (x p a).d2, (x p a).val [b, c]⟩ : Mat ℝ)) = F
    have h0' : F 0 0 = .ok y0 := by rw [← hF]; exact h0
    simp only [h0']
    subst hF
    exact ⟨_, rfl, rfl⟩
  obtain ⟨I, e, rfl⟩ := e
  refine ⟨_, e, fun b c y hy p a => ?_⟩
  simp only [hy]

/-- C64. Let the ranks hold their shares of the weights and the bias of a serial layer, and the tiles of a global tensor `X` of
shape `(batch, in_channels, nlat_in, nlon_in)`. Then the distributed layer returns on every rank the tile of the result of the serial layer. -/
theorem C64_forward (env : Env) (hg : ∀ n, (env.gauss n).n = n) (be : C2R) (A : ConvArgs) (w : ℕ → ℕ → ℕ → ℕ → ℂ)
    (b : Option (ℕ → ℕ → ℕ → ℂ)) (S : SpectralConv) (hS : SpectralConv.init env A w b = .ok S) (Pp Pa : ℕ) (hf : ConvFits Pp Pa A S.lmax)
    (w' : ℕ → ℕ → ℕ → ℕ → ℕ → ℕ → ℂ) (b' : ℕ → ℕ → ℕ → ℕ → ℕ → ℂ)
    (hsh : ∀ p < Pp, ∀ a < Pa, HoldsShare A S.lmax Pp Pa w b p a (w' p a) (b' p a)) (D : ℕ → ℕ → DSpectralConv)
    (hD : ∀ p < Pp, ∀ a < Pa, DSpectralConv.init env A b.isSome Pp Pa p a (w' p a) (b' p a) = .ok (D p a))
    (B : ℕ) (X : List ℕ → ℕ → ℕ → ℝ) (x : ℕ → ℕ → LTen ℝ)
    (hx : ∀ p < Pp, ∀ a < Pa, IsTile [B, A.inChannels] A.nlatIn A.nlonIn Pp Pa X p a (x p a))
    (Y : ℕ → Ten3 ℝ) (hY : ∀ n < B, S.forward be ⟨A.inChannels, A.nlatIn, A.nlonIn, fun c => X [n, c]⟩ = .ok (Y n)) :
    ∃ y, DSpectralConv.forward be Pp Pa b.isSome D x = .ok y ∧ ∀ p < Pp, ∀ a < Pa,
      IsTile [B, A.outChannels] A.nlatOut A.nlonOut Pp Pa (fun idx => (Y (idx.getD 0 0)).val (idx.getD 1 0)) p a (y p a) := by
  obtain ⟨hgp, hin, hout, hdiv, L, hL, hc, hT, hI, -, -, -, -, hSL, hb⟩ := spectralConv_parts hS
  obtain ⟨t1, t2, hgr⟩ := realSHT_trunc hL hT
  obtain ⟨i1, i2⟩ := inverseSHT_trunc hL hI
  obtain ⟨n1, n2⟩ := realSHT_sizes hT
  obtain ⟨n3, n4⟩ := inverseSHT_sizes hI
  dsimp only at n1 n2 n3 n4
  have hd : ∀ p < Pp, ∀ a < Pa, _ := fun p hp a ha => C64_init env hg A w b S hS Pp Pa hf p a hp ha (w' p a) (b' p a)
  replace hd : ∀ p < Pp, ∀ a < Pa, (D p a).inChannels = A.inChannels ∧ (D p a).outChannels = A.outChannels ∧
      (D p a).groups = A.groups ∧ (D p a).weight = w' p a ∧ (D p a).bias = b' p a ∧
      DRealSHT.init env ⟨A.nlatIn, A.nlonIn, some (L : ℤ), some (L : ℤ), A.gridIn, "ortho", true⟩ Pp Pa p a = .ok (D p a).sht ∧
      DInverseRealSHT.init env ⟨A.nlatOut, A.nlonOut, some (L : ℤ), some (L : ℤ), A.gridOut, "ortho", true⟩ Pp Pa p a = .ok (D p a).isht ∧
      (b.isSome = true → dquadInit env.gauss env.tol env.maxiter A.nlatIn A.nlonIn A.gridIn false Pp Pa p a = .ok (D p a).quad) := by
    intro p hp a ha
    obtain ⟨D', h1, h2⟩ := hd p hp a ha
    rw [hD p hp a ha] at h1
    cases h1
    rw [hSL] at h2
    exact h2
  rw [hSL] at hf hsh
  have hlonI : 0 < A.nlonIn := lt_of_lt_of_le hf.azimuth hf.lonIn
  have hlonO : 0 < A.nlonOut := lt_of_lt_of_le hf.azimuth hf.lonOut
  have hfI : Fits Pp Pa A.nlatIn A.nlonIn S.sht.lmax S.sht.mmax :=
    ⟨hf.polar, hf.azimuth, hf.latIn, hf.lonIn, by rw [t1]; exact hf.degrees, by rw [t2]; exact hf.orders⟩
  have hfO : Fits Pp Pa A.nlatOut A.nlonOut S.isht.lmax S.isht.mmax :=
    ⟨hf.polar, hf.azimuth, hf.latOut, hf.lonOut, by rw [i1]; exact hf.degrees, by rw [i2]; exact hf.orders⟩
  -- the global coefficients
  have hC := fun idx => realSHT_value S.sht (by rw [n2]; exact hlonI) (X idx)
  rw [n1, n2] at hC
  choose Cf hCf c0 c1 _ using hC
  obtain ⟨r, hr1, hr2, hr3⟩ : ∃ r, (∀ B, b = some B → S.bias = some (r, B)) ∧ (b = none → S.bias = none) ∧
      (b.isSome = true → quadratureS2Rule env.gauss env.tol env.maxiter A.nlatIn A.gridIn = .ok r) := by
    rcases hb with ⟨rfl, h⟩ | ⟨B', r, rfl, hr, h⟩
    · exact ⟨⟨0, fun _ => 0, fun _ => 0⟩, by simp, fun _ => h, by simp⟩
    · exact ⟨r, fun B hB => by cases hB; exact h, by simp, fun _ => hr⟩
  have hser := fun n => serial_mix hS r hr1 hr2 be ⟨A.inChannels, A.nlatIn, A.nlonIn, fun c => X [n, c]⟩ rfl (fun c => Cf [n, c])
    (fun c => hCf [n, c])
  choose Z hZ z0 z1 z2 zv using hser
  simp only [c0, c1, t1, t2] at z1 z2
  have hinv := fun n oc => inverseSHT_value be S.isht (by rw [n4]; exact hlonO) (by rw [i2]; exact hL) ((Z n).val oc)
  rw [i1, i2] at hinv
  choose F hF _ _ _ using hinv
  have hYF : ∀ n < B, ∀ oc, (Y n).val oc = (F n oc).val := by
    intro n hn oc
    have e := hY n hn
    rw [hZ n, mapChannels_ok (F n) (fun ch => by rw [z1, z2]; exact hF n ch)] at e
    rw [← Except.ok.inj e]
  -- the integrals
  obtain ⟨I, hIv, hIq⟩ : ∃ I, maybeIntegrals Pp Pa b.isSome (fun p a => (D p a).quad) x = .ok I ∧
      (b.isSome = true → ∀ p < Pp, ∀ a < Pa, ∀ n < B, ∀ c < A.inChannels, I p a n c = quadForward r A.nlonIn false (X [n, c])) := by
    unfold maybeIntegrals
    cases hbs : b.isSome with
    | false => exact ⟨_, by rw [if_neg (by simp)], by simp⟩
    | true =>
      rw [if_pos rfl]
      have hq : ∀ p < Pp, ∀ a < Pa, IsFieldTile A.nlatIn A.nlonIn Pp Pa (fun k _ => quadWeight r A.nlonIn false k) p a (D p a).quad := by
        intro p hp a ha
        obtain ⟨q, h1, h2⟩ := C54_quadrature_init env.gauss hg env.tol env.maxiter A.nlatIn A.nlonIn A.gridIn false hgr r (hr3 hbs) Pp Pa
          hf.polar hf.azimuth hf.latIn hf.lonIn p a hp ha
        rw [(hd p hp a ha).2.2.2.2.2.2.2 hbs] at h1
        cases h1
        exact h2
      obtain ⟨I, h1, h2⟩ := integrals_ok hf.polar hf.azimuth (fun p a => (D p a).quad) x (fun p hp a ha => by
        obtain ⟨-, e1, e2, -⟩ := hx p hp a ha
        obtain ⟨f1, f2, -⟩ := hq p hp a ha
        exact ⟨e1.trans f1.symm, e2.trans f2.symm⟩)
      refine ⟨I, h1, fun _ p hp a ha n hn c hc => ?_⟩
      obtain ⟨y, hy, yv⟩ := C54_quadrature env.gauss hg env.tol env.maxiter A.nlatIn A.nlonIn A.gridIn false hgr r (hr3 hbs) Pp Pa
        hf.polar hf.azimuth hf.latIn hf.lonIn (fun p a => (D p a).quad) (fun p hp a ha => (hd p hp a ha).2.2.2.2.2.2.2 hbs) (X [n, c])
        (fun p a => ⟨(x p a).d1, (x p a).d2, (x p a).val [n, c]⟩) (fun p hp a ha => by
          obtain ⟨-, e1, e2, e3⟩ := hx p hp a ha
          exact ⟨e1, e2, fun j hj k hk => e3 [n, c] ⟨hn, hc, trivial⟩ j hj k hk⟩)
      rw [h2 n c y hy p a, yv p hp a ha]
  -- the distributed coefficients
  obtain ⟨c, hcf, hct⟩ := C51_real_sht env _ S.sht hT Pp Pa hfI (fun p a => (D p a).sht) (fun p hp a ha => (hd p hp a ha).2.2.2.2.2.1)
    [B, A.inChannels] (by simp) X x hx Cf (fun idx _ => hCf idx)
  rw [t1, t2] at hct
  obtain ⟨z, hz, hzt⟩ := collect_ok hf.polar hf.azimuth (f := fun p a => (D p a).mix b.isSome (I p a) (c p a))
    (Q := fun p a y => IsTile [B, A.outChannels] L L Pp Pa (fun idx => (Z (idx.getD 0 0)).val (idx.getD 1 0)) p a y) (fun p hp a ha => by
      obtain ⟨d1, d2, d3, d4, d5, -, -, -⟩ := hd p hp a ha
      obtain ⟨l1, l2, l3, l4⟩ := hct p hp a ha
      obtain ⟨y, hy, y1, y2, y3, yv⟩ := dist_mix (D p a) A hin hout d1 d2 d3 b.isSome (I p a) (c p a) B l1
      refine ⟨y, hy, y1, y2.trans l2, y3.trans l3, fun idx hidx j hj k hk => ?_⟩
      obtain ⟨n, oc, rfl, hn, hoc⟩ := leadIndex_two hidx
      rw [yv n oc hoc j k]
      show _ = (Z n).val oc _ _
      rw [zv n oc hoc, d4, d5]
      unfold mixed
      refine sum_congr rfl fun i hi => ?_
      have hi := mem_range.1 hi
      have hch := group_index hin hout oc i hoc hi
      have hog : 0 < A.outChannels / A.groups := by
        rcases Nat.eq_zero_or_pos (A.outChannels / A.groups) with h | h
        · have := Nat.mul_div_cancel' hout
          rw [h] at this; omega
        · exact h
      have hgo : oc / (A.outChannels / A.groups) < A.groups := by
        apply Nat.div_lt_of_lt_mul
        rw [mul_comm, Nat.mul_div_cancel' hout]; exact hoc
      dsimp only
      rw [(hsh p hp a ha).1 _ hgo i hi _ (Nat.mod_lt _ hog) j hj, l4 [n, _] ⟨hn, hch, trivial⟩ j hj k hk]
      congr 1
      congr 1
      unfold biasTerm
      cases b with
      | none => simp
      | some b0 =>
        dsimp only
        rw [if_pos (by rfl), hIq rfl p hp a ha n hn _ hch, (hsh p hp a ha).2 b0 rfl _ hch j hj k hk])
  obtain ⟨y, hy, hyt⟩ := C51_inverse_sht env be _ S.isht hI Pp Pa hfO (fun p a => (D p a).isht)
    (fun p hp a ha => (hd p hp a ha).2.2.2.2.2.2.1) [B, A.outChannels] (by simp) (fun idx => (Z (idx.getD 0 0)).val (idx.getD 1 0)) z
    (fun p hp a ha => by rw [i1, i2]; exact (hzt p hp a ha).2) (fun idx => F (idx.getD 0 0) (idx.getD 1 0))
    (fun idx _ => by rw [i1, i2]; exact hF _ _)
  refine ⟨y, ?_, fun p hp a ha => ?_⟩
  · unfold DSpectralConv.forward
    rw [hIv, except_bind_ok, hcf, except_bind_ok, hz, except_bind_ok, hy]
  · obtain ⟨q1, q2, q3, q4⟩ := hyt p hp a ha
    refine ⟨q1, q2, q3, fun idx hidx j hj k hk => ?_⟩
    rw [q4 idx hidx j hj k hk]
    obtain ⟨n, oc, rfl, hn, hoc⟩ := leadIndex_two hidx
    show (F n oc).val _ _ = (Y n).val oc _ _
    rw [hYF n hn oc]

/-- C64 (error branch). A tensor that does not have the four dimensions `(batch, channel, lat, lon)` is refused on every rank after the transform
(the class documents `(..., out_channels, lat, lon)`). -/
theorem C64_four_dimensions (D : DSpectralConv) (hb : Bool) (I : ℕ → ℕ → ℝ) (x : LTen ℂ) (h : x.lead.length ≠ 2) :
    D.mix hb I x = .error .valueError := by
  unfold DSpectralConv.mix mapBatch
  split
  · rename_i h'; rw [h'] at h; simp at h
  · rfl

theorem sum_range_mul' (f : ℕ → ℂ) (n G : ℕ) : ∑ k ∈ range (G * n), f k = ∑ g ∈ range G, ∑ o ∈ range n, f (g * n + o) := by
  induction G with
  | zero => simp
  | succ G ih => rw [Nat.succ_mul, sum_range_add, ih, sum_range_succ]

/-- C64. `weightGrad` is the gradient of the channel mixing with respect to the weight: for a real loss whose differential with respect to the mixed
coefficients is `Re ∑ conj g · d`, the differential with respect to the weight in the direction `δ` is `Re ∑ conj (weightGrad) · δ`. The identity holds for
the complex sums. (`mixed` is linear in the weight, so that `mixed A δ` is its differential.) -/
theorem C64_weight_gradient_adjoint (A : ConvArgs) (hout : A.groups ∣ A.outChannels) (B L W : ℕ) (δ : ℕ → ℕ → ℕ → ℕ → ℂ)
    (c g : ℕ → ℕ → ℕ → ℕ → ℂ) :
    ∑ b ∈ range B, ∑ oc ∈ range A.outChannels, ∑ l ∈ range L, ∑ m ∈ range W, (starRingEnd ℂ) (g b oc l m) * mixed A δ (c b) oc l m =
      ∑ gr ∈ range A.groups, ∑ i ∈ range (A.inChannels / A.groups), ∑ o ∈ range (A.outChannels / A.groups), ∑ l ∈ range L,
        (starRingEnd ℂ) (weightGrad B (A.inChannels / A.groups) (A.outChannels / A.groups) W c g gr i o l) * δ gr i o l := by
  set n := A.inChannels / A.groups with hn
  set og := A.outChannels / A.groups with hog
  have hmul : A.groups * og = A.outChannels := Nat.mul_div_cancel' hout
  have e1 : ∀ b, ∑ oc ∈ range A.outChannels, ∑ l ∈ range L, ∑ m ∈ range W, (starRingEnd ℂ) (g b oc l m) * mixed A δ (c b) oc l m =
      ∑ gr ∈ range A.groups, ∑ o ∈ range og, ∑ l ∈ range L, ∑ m ∈ range W, ∑ i ∈ range n,
        (starRingEnd ℂ) (g b (gr * og + o) l m) * (c b (gr * n + i) l m * δ gr i o l) := by
    intro b
    rw [← hmul, sum_range_mul']
    refine sum_congr rfl fun gr _ => sum_congr rfl fun o ho => sum_congr rfl fun l _ => sum_congr rfl fun m _ => ?_
    have ho := mem_range.1 ho
    have hd : (gr * og + o) / og = gr := by
      rw [mul_comm, Nat.mul_add_div (by omega), Nat.div_eq_of_lt ho]; omega
    have hm : (gr * og + o) % og = o := by
      rw [mul_comm, Nat.mul_add_mod, Nat.mod_eq_of_lt ho]
    unfold mixed
    rw [← hn, ← hog, hd, hm, mul_sum]
  simp only [e1]
  rw [sum_comm]
  refine sum_congr rfl fun gr _ => ?_
  rw [sum_congr rfl fun b _ => sum_congr rfl fun o _ => sum_congr rfl fun l _ => sum_comm]
  rw [sum_congr rfl fun b _ => sum_congr rfl fun o _ => sum_comm]
  rw [sum_congr rfl fun b _ => sum_comm]
  rw [sum_comm]
  refine sum_congr rfl fun i _ => ?_
  rw [sum_comm]
  refine sum_congr rfl fun o _ => ?_
  rw [sum_comm]
  refine sum_congr rfl fun l _ => ?_
  unfold weightGrad
  rw [map_sum, sum_mul]
  refine sum_congr rfl fun b _ => ?_
  rw [map_sum, sum_mul]
  refine sum_congr rfl fun m _ => ?_
  rw [map_mul, Complex.conj_conj]
  ring

/-- C64. The documented duty of the user: the weight gradients of the azimuth ranks of a polar rank add up to the share of that polar rank of the serial gradient.
`c` and `g` are the global coefficients and the global gradient that arrives at the mixing, `c'` and `g'` what the ranks hold of them. -/
theorem C64_weight_gradient (B n og L Pp Pa p : ℕ) (ha : 0 < Pa) (c g : ℕ → ℕ → ℕ → ℕ → ℂ) (c' g' : ℕ → ℕ → ℕ → ℕ → ℕ → ℂ)
    (hc : ∀ a < Pa, ∀ b ch, ∀ l < blockSize L Pp p, ∀ m < blockSize L Pa a, c' a b ch l m = c b ch (blockStart L Pp p + l) (blockStart L Pa a + m))
    (hg : ∀ a < Pa, ∀ b ch, ∀ l < blockSize L Pp p, ∀ m < blockSize L Pa a, g' a b ch l m = g b ch (blockStart L Pp p + l) (blockStart L Pa a + m))
    (gr i o l : ℕ) (hl : l < blockSize L Pp p) :
    ∑ a ∈ range Pa, weightGrad B n og (blockSize L Pa a) (c' a) (g' a) gr i o l = weightGrad B n og L c g gr i o (blockStart L Pp p + l) := by
  unfold weightGrad
  rw [sum_comm]
  refine sum_congr rfl fun b _ => ?_
  rw [sum_blocks (n := L) ha (fun m => g b (gr * og + o) (blockStart L Pp p + l) m * (starRingEnd ℂ) (c b (gr * n + i) (blockStart L Pp p + l) m))]
  refine sum_congr rfl fun a ha' => sum_congr rfl fun m hm => ?_
  have ha' := mem_range.1 ha'
  have hm := mem_range.1 hm
  rw [hc a ha' _ _ l hl m hm, hg a ha' _ _ l hl m hm]

/-- C64. Without that sum the gradient of one rank is in general not the serial one. -/
theorem C64_weight_gradient_one_rank : ∃ (L Pa : ℕ) (c g : ℕ → ℕ → ℕ → ℕ → ℂ), 0 < Pa ∧ Pa ≤ L ∧
    ∀ a < Pa, weightGrad 1 1 1 (blockSize L Pa a) (fun b ch l m => c b ch l (blockStart L Pa a + m)) (fun b ch l m => g b ch l (blockStart L Pa a + m)) 0 0 0 0 ≠
      weightGrad 1 1 1 L c g 0 0 0 0 := by
  refine ⟨2, 2, fun _ _ _ _ => 1, fun _ _ _ _ => 1, by norm_num, le_refl _, fun a ha => ?_⟩
  interval_cases a <;> simp [weightGrad, blockSize]

/-- C64, a difference between the two layers. The serial layer scales the initial weights of the degree 0 only by a further `√2`
(`initScale` at the global degree); in the distributed layer every polar rank does so for the first degree that it holds. -/
theorem C64_init_scale (inChannels groups L Pp p : ℕ) (hgr : 0 < inChannels / groups) (hp : 0 < Pp) (hL : Pp ≤ L) (hp0 : 0 < p) :
    0 < blockSize L Pp p ∧ initScale inChannels groups 0 = Real.sqrt 2 * initScale inChannels groups (blockStart L Pp p + 0) ∧
      initScale inChannels groups 0 ≠ initScale inChannels groups (blockStart L Pp p + 0) := by
  have h1 : 1 ≤ L / Pp := (Nat.one_le_div_iff hp).2 hL
  have hs : blockStart L Pp p ≠ 0 := by
    unfold blockStart
    have := Nat.mul_le_mul hp0 h1
    omega
  have hpos : 0 < Real.sqrt (1 / (inChannels / groups : ℕ)) := Real.sqrt_pos.2 (by positivity)
  have h2 : (1 : ℝ) < Real.sqrt 2 := by rw [Real.lt_sqrt] <;> norm_num
  refine ⟨blockSize_pos hL hp, ?_, ?_⟩
  · unfold initScale
    dsimp only
    rw [if_pos rfl, if_neg (by simpa using hs), mul_comm]
  · unfold initScale
    dsimp only
    rw [if_pos rfl, if_neg (by simpa using hs)]
    nlinarith

/-- From an 8 by 16 to a 5 by 12 equiangular grid (truncation 3), 6 to 4 channels in two groups, a batch of two, on a 3 by 2 process grid; with and
without bias, for all parameters and fields: the serial layer runs, the ranks hold shares, and the distributed layer returns the tiles. -/
example (env : Env) (hg : ∀ n, (env.gauss n).n = n) (be : C2R) (w : ℕ → ℕ → ℕ → ℕ → ℂ) (b : Option (ℕ → ℕ → ℕ → ℂ)) (X : List ℕ → ℕ → ℕ → ℝ) :
    ∃ (S : SpectralConv) (D : ℕ → ℕ → DSpectralConv) (Y : ℕ → Ten3 ℝ) (y : ℕ → ℕ → LTen ℝ),
      SpectralConv.init env ⟨8, 16, 5, 12, 6, 4, 2, "equiangular", "equiangular"⟩ w b = .ok S ∧
      (∀ n, S.forward be ⟨6, 8, 16, fun c => X [n, c]⟩ = .ok (Y n)) ∧ DSpectralConv.forward be 3 2 b.isSome D (tileOf [2, 6] 8 16 3 2 X) = .ok y ∧
      ∀ p < 3, ∀ a < 2, IsTile [2, 4] 5 12 3 2 (fun idx => (Y (idx.getD 0 0)).val (idx.getD 1 0)) p a (y p a) := by
  set A : ConvArgs := ⟨8, 16, 5, 12, 6, 4, 2, "equiangular", "equiangular"⟩ with hA
  obtain ⟨rin, rout, din, dout, L, H⟩ := C20_default env A (by norm_num [A]) (by norm_num [A]) (by norm_num [A]) (by norm_num [A]) (Or.inl rfl) (Or.inl rfl)
    (by norm_num [A]) (by norm_num [A]) (by norm_num [A]) (by norm_num [A])
  have hL : L = 3 := by
    have h := H.trunc
    rw [show convLmax A = .ok 3 by decide] at h
    have := Except.ok.inj h
    omega
  subst hL
  obtain ⟨S, hS, -, -, -, hlm, -⟩ := conv_init H w b
  have hY := fun n => C20_value env be A rin rout din dout 3 H w b ⟨6, 8, 16, fun c => X [n, c]⟩ rfl rfl rfl
  choose S' T c Y hS' _ _ hY _ _ _ _ using hY
  have hSS : ∀ n, S' n = S := fun n => by
    have := hS' n
    rw [hS] at this
    exact (Except.ok.inj this).symm
  have hf : ConvFits 3 2 A S.lmax := by
    rw [hlm]
    exact ⟨by norm_num, by norm_num, by norm_num [A], by norm_num [A], by norm_num [A], by norm_num [A], by norm_num, by norm_num⟩
  have hd : ∀ p a, ∃ D, p < 3 → a < 2 → DSpectralConv.init env A b.isSome 3 2 p a (fun g i o l => w g i o (blockStart 3 3 p + l))
      (fun ch l m => (b.getD fun _ _ _ => 0) ch (blockStart 3 3 p + l) (blockStart 3 2 a + m)) = .ok D := by
    intro p a
    by_cases h : p < 3 ∧ a < 2
    · obtain ⟨D, hD, -⟩ := C64_init env hg A w b S hS 3 2 hf p a h.1 h.2 (fun g i o l => w g i o (blockStart 3 3 p + l))
        (fun ch l m => (b.getD fun _ _ _ => 0) ch (blockStart 3 3 p + l) (blockStart 3 2 a + m))
      exact ⟨D, fun _ _ => hD⟩
    · obtain ⟨D0, -⟩ := C64_init env hg A w b S hS 3 2 hf 0 0 (by norm_num) (by norm_num) w (fun _ _ _ => 0)
      exact ⟨D0, fun h1 h2 => absurd ⟨h1, h2⟩ h⟩
  choose D hD using hd
  obtain ⟨y, hy, hq⟩ := C64_forward env hg be A w b S hS 3 2 hf _ _ (fun p _ a _ => ⟨fun g _ i _ o _ l _ => by rw [hlm], fun B hB ch _ l _ m _ => by
    rw [hlm, hB]; rfl⟩) D (fun p hp a ha => hD p a hp ha) 2 X (tileOf [2, 6] 8 16 3 2 X) (fun p _ a _ => tileOf_isTile _ _ _ _ _ _ _ _) Y
    (fun n _ => by have := hY n; rw [hSS n] at this; exact this)
  exact ⟨S, D, Y, y, hS, fun n => by have := hY n; rw [hSS n] at this; exact this, hy, hq⟩

/-- Polar rank 1 of 3, truncation 3: its degree is 1, and its weights get the factor of degree 0. -/
example : blockStart 3 3 1 = 1 ∧ initScale 6 2 0 ≠ initScale 6 2 (blockStart 3 3 1 + 0) :=
  ⟨by decide, (C64_init_scale 6 2 3 3 1 (by norm_num) (by norm_num) (by norm_num) (by norm_num)).2.2⟩

end Verif.Props
