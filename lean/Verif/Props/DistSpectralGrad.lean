import Verif.Model.DistSpectralGrad
import Verif.Props.DistSpectralConv
import Verif.Props.DistSHTGrad
/-!
Property theorems C109: the input gradient that the distributed spectral convolution computes is the tile of the gradient of the serial layer.
-/
namespace Verif.Props
open Verif Verif.Dist Verif.SHT Verif.FFT Verif.Quad Verif.Legendre Verif.Spec Verif.Spec.Msg Verif.Truncation Finset

theorem pairC_sum_left (n1 n2 : ℕ) (s : Finset ℕ) (f : ℕ → ℕ → ℕ → ℂ) (v : ℕ → ℕ → ℂ) :
    pairC n1 n2 (fun l m => ∑ i ∈ s, f i l m) v = ∑ i ∈ s, pairC n1 n2 (f i) v := by
  unfold pairC
  refine Eq.trans (sum_congr rfl fun l _ => ?_) sum_comm
  refine Eq.trans (sum_congr rfl fun m _ => ?_) sum_comm
  rw [Complex.re_sum, Complex.im_sum, sum_mul, sum_mul, ← sum_add_distrib]

theorem pairC_comm (n1 n2 : ℕ) (u v : ℕ → ℕ → ℂ) : pairC n1 n2 u v = pairC n1 n2 v u := by
  unfold pairC
  exact sum_congr rfl fun l _ => sum_congr rfl fun m _ => by ring

theorem pairC_sum_right (n1 n2 : ℕ) (s : Finset ℕ) (f : ℕ → ℕ → ℕ → ℂ) (v : ℕ → ℕ → ℂ) :
    pairC n1 n2 v (fun l m => ∑ i ∈ s, f i l m) = ∑ i ∈ s, pairC n1 n2 v (f i) := by
  rw [pairC_comm, pairC_sum_left]
  exact sum_congr rfl fun i _ => pairC_comm _ _ _ _

theorem pairC_mul (n1 n2 : ℕ) (x v : ℕ → ℕ → ℂ) (w : ℕ → ℂ) :
    pairC n1 n2 (fun l m => x l m * w l) v = pairC n1 n2 x fun l m => v l m * (starRingEnd ℂ) (w l) := by
  unfold pairC
  refine sum_congr rfl fun l _ => sum_congr rfl fun m _ => ?_
  simp only [Complex.mul_re, Complex.mul_im, Complex.conj_re, Complex.conj_im]
  ring

theorem pairC_add_real (n1 n2 : ℕ) (x y v : ℕ → ℕ → ℂ) (t : ℝ) :
    pairC n1 n2 (fun l m => x l m + (t : ℂ) * y l m) v = pairC n1 n2 x v + t * pairC n1 n2 y v := by
  unfold pairC
  rw [mul_sum, ← sum_add_distrib]
  refine sum_congr rfl fun l _ => ?_
  rw [mul_sum, ← sum_add_distrib]
  refine sum_congr rfl fun m _ => ?_
  simp only [Complex.add_re, Complex.add_im, Complex.mul_re, Complex.mul_im, Complex.ofReal_re, Complex.ofReal_im]
  ring

theorem sum_range_groups (f : ℕ → ℝ) (n G : ℕ) : ∑ k ∈ range (G * n), f k = ∑ g ∈ range G, ∑ o ∈ range n, f (g * n + o) := by
  induction G with
  | zero => simp
  | succ G ih => rw [Nat.succ_mul, sum_range_add, ih, sum_range_succ]

/-- The adjoint of the channel mixing. -/
theorem mixed_adjoint (A : ConvArgs) (hin : A.groups ∣ A.inChannels) (hout : A.groups ∣ A.outChannels) (n1 n2 : ℕ) (w : ℕ → ℕ → ℕ → ℕ → ℂ)
    (X V : ℕ → ℕ → ℕ → ℂ) :
    ∑ c ∈ range A.inChannels, pairC n1 n2 (X c) (fun l m => ∑ o ∈ range (A.outChannels / A.groups),
        V (c / (A.inChannels / A.groups) * (A.outChannels / A.groups) + o) l m *
          (starRingEnd ℂ) (w (c / (A.inChannels / A.groups)) (c % (A.inChannels / A.groups)) o l)) =
      ∑ oc ∈ range A.outChannels, pairC n1 n2 (mixed A w X oc) (V oc) := by
  set n := A.inChannels / A.groups with hn
  set og := A.outChannels / A.groups with hog
  have h1 : A.groups * n = A.inChannels := Nat.mul_div_cancel' hin
  have h2 : A.groups * og = A.outChannels := Nat.mul_div_cancel' hout
  have hdm : ∀ {k i gr : ℕ}, i < k → (gr * k + i) / k = gr ∧ (gr * k + i) % k = i := fun {k i gr} hi => by
    have hk : 0 < k := by omega
    constructor
    · rw [mul_comm, Nat.mul_add_div hk, Nat.div_eq_of_lt hi, Nat.add_zero]
    · rw [mul_comm, Nat.mul_add_mod, Nat.mod_eq_of_lt hi]
  rw [← h1, ← h2, sum_range_groups, sum_range_groups]
  refine sum_congr rfl fun gr _ => ?_
  have e1 : ∀ i ∈ range n, (pairC n1 n2 (X (gr * n + i)) fun l m => ∑ o ∈ range og,
      V ((gr * n + i) / n * og + o) l m * (starRingEnd ℂ) (w ((gr * n + i) / n) ((gr * n + i) % n) o l)) =
      ∑ o ∈ range og, pairC n1 n2 (fun l m => X (gr * n + i) l m * w gr i o l) (V (gr * og + o)) := fun i hi => by
    obtain ⟨q1, q2⟩ := hdm (gr := gr) (mem_range.1 hi)
    rw [q1, q2, pairC_sum_right]
    exact sum_congr rfl fun o _ => (pairC_mul n1 n2 (X (gr * n + i)) (V (gr * og + o)) (w gr i o)).symm
  rw [sum_congr rfl e1, sum_comm]
  refine sum_congr rfl fun o ho => ?_
  obtain ⟨q1, q2⟩ := hdm (gr := gr) (mem_range.1 ho)
  rw [← pairC_sum_left]
  congr 1
  funext l m
  unfold mixed
  rw [← hn, ← hog, q1, q2]

/-- The spectral bias, zero if the layer has none. -/
noncomputable def biasOr0 (b : Option (ℕ → ℕ → ℕ → ℂ)) (c l m : ℕ) : ℂ :=
  match b with
  | none => 0
  | some b => b c l m

/-- The backward pass of the inverse transform of the layer. -/
theorem conv_inverse_back (env : Env) (hg : ∀ n, (env.gauss n).n = n) (be : C2R) (A : ConvArgs) (w : ℕ → ℕ → ℕ → ℕ → ℂ)
    (b : Option (ℕ → ℕ → ℕ → ℂ)) (S : SpectralConv) (hS : SpectralConv.init env A w b = .ok S) (Pp Pa : ℕ) (hf : ConvFits Pp Pa A S.lmax)
    (w' : ℕ → ℕ → ℕ → ℕ → ℕ → ℕ → ℂ) (b' : ℕ → ℕ → ℕ → ℕ → ℕ → ℂ)
    (D : ℕ → ℕ → DSpectralConv)
    (hD : ∀ p < Pp, ∀ a < Pa, DSpectralConv.init env A b.isSome Pp Pa p a (w' p a) (b' p a) = .ok (D p a))
    (B : ℕ) (X : List ℕ → ℕ → ℕ → ℝ) (x : ℕ → ℕ → LTen ℝ)
    (hx : ∀ p < Pp, ∀ a < Pa, IsTile [B, A.inChannels] A.nlatIn A.nlonIn Pp Pa X p a (x p a))
    (Q : List ℕ → ℕ → ℕ → ℝ) (g : ℕ → ℕ → LTen ℝ)
    (hgt : ∀ p < Pp, ∀ a < Pa, IsTile [B, A.outChannels] A.nlatOut A.nlonOut Pp Pa Q p a (g p a)) :
    ∃ V : List ℕ → ℕ → ℕ → ℂ,
      (∀ n < B, ∀ o < A.outChannels, ∀ f y, S.isht.forward be ⟨S.lmax, S.lmax, f⟩ = .ok y →
        pairC S.lmax S.lmax f (V [n, o]) = pairR A.nlatOut A.nlonOut y.val (Q [n, o])) ∧
      ∃ v, DInverseRealSHT.backward Pp Pa (fun p a => (D p a).isht)
          (fun p a => ⟨[(x p a).lead.getD 0 0, (D p a).outChannels], (D p a).isht.lmaxLocal, (D p a).isht.mmaxLocal, fun _ _ _ => 0⟩) g = .ok v ∧
        ∀ p < Pp, ∀ a < Pa, IsTile [B, A.outChannels] S.lmax S.lmax Pp Pa V p a (v p a) := by
  obtain ⟨hgp, hin, hout, hdiv, L, hL, hc, hT, hI, -, -, -, -, hSL, hb⟩ := spectralConv_parts hS
  obtain ⟨t1, t2, hgr⟩ := realSHT_trunc hL hT
  obtain ⟨i1, i2⟩ := inverseSHT_trunc hL hI
  obtain ⟨n1, n2⟩ := realSHT_sizes hT
  obtain ⟨n3, n4⟩ := inverseSHT_sizes hI
  dsimp only at n1 n2 n3 n4
  have hd : ∀ p < Pp, ∀ a < Pa, (D p a).inChannels = A.inChannels ∧ (D p a).outChannels = A.outChannels ∧
      (D p a).groups = A.groups ∧ (D p a).weight = w' p a ∧ (D p a).bias = b' p a ∧
      DRealSHT.init env ⟨A.nlatIn, A.nlonIn, some (L : ℤ), some (L : ℤ), A.gridIn, "ortho", true⟩ Pp Pa p a = .ok (D p a).sht ∧
      DInverseRealSHT.init env ⟨A.nlatOut, A.nlonOut, some (L : ℤ), some (L : ℤ), A.gridOut, "ortho", true⟩ Pp Pa p a = .ok (D p a).isht ∧
      (b.isSome = true → dquadInit env.gauss env.tol env.maxiter A.nlatIn A.nlonIn A.gridIn false Pp Pa p a = .ok (D p a).quad) := by
    intro p hp a ha
    obtain ⟨D', h1, h2⟩ := C64_init env hg A w b S hS Pp Pa hf p a hp ha (w' p a) (b' p a)
    rw [hD p hp a ha] at h1
    cases h1
    rw [hSL] at h2
    exact h2
  rw [hSL] at hf ⊢
  have hlonI : 0 < A.nlonIn := lt_of_lt_of_le hf.azimuth hf.lonIn
  have hlonO : 0 < A.nlonOut := lt_of_lt_of_le hf.azimuth hf.lonOut
  have hfI : Fits Pp Pa A.nlatIn A.nlonIn S.sht.lmax S.sht.mmax :=
    ⟨hf.polar, hf.azimuth, hf.latIn, hf.lonIn, by rw [t1]; exact hf.degrees, by rw [t2]; exact hf.orders⟩
  have hfO : Fits Pp Pa A.nlatOut A.nlonOut S.isht.lmax S.isht.mmax :=
    ⟨hf.polar, hf.azimuth, hf.latOut, hf.lonOut, by rw [i1]; exact hf.degrees, by rw [i2]; exact hf.orders⟩
  -- some injective numbering of the ranks
  have hglob : GlobInj Pp Pa fun p a => p * Pa + a := by
    intro p hp a ha p' hp' a' ha' h
    have e := congrArg (· / Pa) h
    have e2 := congrArg (· % Pa) h
    dsimp only at h e e2
    have hP : 0 < Pa := by omega
    rw [mul_comm p, mul_comm p', Nat.mul_add_div hP, Nat.mul_add_div hP, Nat.div_eq_of_lt ha, Nat.div_eq_of_lt ha'] at e
    rw [mul_comm p, mul_comm p', Nat.mul_add_mod, Nat.mul_add_mod, Nat.mod_eq_of_lt ha, Nat.mod_eq_of_lt ha'] at e2
    exact ⟨by simpa using e, e2⟩
  -- backward of the inverse transform
  obtain ⟨V, hV, ⟨v, hv, hvt⟩, -⟩ := C104_inverse_sht env be _ S.isht hI Pp Pa hfO _ hglob (fun p a => (D p a).isht)
    (fun p hp a ha => (hd p hp a ha).2.2.2.2.2.2.1) [B, A.outChannels] (by simp) (fun _ _ _ => 0)
    (fun p a => ⟨[(x p a).lead.getD 0 0, (D p a).outChannels], (D p a).isht.lmaxLocal, (D p a).isht.mmaxLocal, fun _ _ _ => 0⟩)
    (fun p hp a ha => by
      obtain ⟨D', h1, -, -, -, -, h2, h3, -⟩ := C51_inverse_init env _ S.isht hI Pp Pa hfO p a hp ha
      rw [(hd p hp a ha).2.2.2.2.2.2.1] at h1
      cases h1
      refine ⟨?_, h2, h3, fun _ _ _ _ _ _ => rfl⟩
      show [(x p a).lead.getD 0 0, (D p a).outChannels] = _
      rw [(hx p hp a ha).1, (hd p hp a ha).2.1]
      rfl) Q g hgt
  rw [i1, i2] at hV hvt
  exact ⟨V, fun n hn o ho f y hy => hV [n, o] ⟨hn, ho, trivial⟩ f y hy, v, hv, hvt⟩

/-- The part of the backward pass down to the gradient with respect to the coefficients that enter the mixing. -/
theorem conv_back_core (env : Env) (hg : ∀ n, (env.gauss n).n = n) (be : C2R) (A : ConvArgs) (w : ℕ → ℕ → ℕ → ℕ → ℂ)
    (b : Option (ℕ → ℕ → ℕ → ℂ)) (S : SpectralConv) (hS : SpectralConv.init env A w b = .ok S) (Pp Pa : ℕ) (hf : ConvFits Pp Pa A S.lmax)
    (w' : ℕ → ℕ → ℕ → ℕ → ℕ → ℕ → ℂ) (b' : ℕ → ℕ → ℕ → ℕ → ℕ → ℂ)
    (hsh : ∀ p < Pp, ∀ a < Pa, HoldsShare A S.lmax Pp Pa w b p a (w' p a) (b' p a)) (D : ℕ → ℕ → DSpectralConv)
    (hD : ∀ p < Pp, ∀ a < Pa, DSpectralConv.init env A b.isSome Pp Pa p a (w' p a) (b' p a) = .ok (D p a))
    (B : ℕ) (X : List ℕ → ℕ → ℕ → ℝ) (x : ℕ → ℕ → LTen ℝ)
    (hx : ∀ p < Pp, ∀ a < Pa, IsTile [B, A.inChannels] A.nlatIn A.nlonIn Pp Pa X p a (x p a))
    (Q : List ℕ → ℕ → ℕ → ℝ) (g : ℕ → ℕ → LTen ℝ)
    (hgt : ∀ p < Pp, ∀ a < Pa, IsTile [B, A.outChannels] A.nlatOut A.nlonOut Pp Pa Q p a (g p a)) :
    ∃ U : List ℕ → ℕ → ℕ → ℂ,
      (∀ n < B, ∀ (Xc : ℕ → ℕ → ℕ → ℂ) (F : ℕ → Mat ℝ), (∀ o < A.outChannels, S.isht.forward be ⟨S.lmax, S.lmax, mixed A w Xc o⟩ = .ok (F o)) →
        ∑ c ∈ range A.inChannels, pairC S.lmax S.lmax (Xc c) (U [n, c]) = ∑ o ∈ range A.outChannels, pairR A.nlatOut A.nlonOut (F o).val (Q [n, o])) ∧
      ∃ v, DInverseRealSHT.backward Pp Pa (fun p a => (D p a).isht)
          (fun p a => ⟨[(x p a).lead.getD 0 0, (D p a).outChannels], (D p a).isht.lmaxLocal, (D p a).isht.mmaxLocal, fun _ _ _ => 0⟩) g = .ok v ∧
        ∀ p < Pp, ∀ a < Pa, IsTile [B, A.inChannels] S.lmax S.lmax Pp Pa U p a ((D p a).mixBackward (v p a)) := by
  obtain ⟨V, hV, v, hv, hvt⟩ := conv_inverse_back env hg be A w b S hS Pp Pa hf w' b' D hD B X x hx Q g hgt
  obtain ⟨hgp, hin, hout, hdiv, L, hL, hc, hT, hI, -, -, -, -, hSL, hb⟩ := spectralConv_parts hS
  obtain ⟨t1, t2, hgr⟩ := realSHT_trunc hL hT
  obtain ⟨i1, i2⟩ := inverseSHT_trunc hL hI
  obtain ⟨n1, n2⟩ := realSHT_sizes hT
  obtain ⟨n3, n4⟩ := inverseSHT_sizes hI
  dsimp only at n1 n2 n3 n4
  have hd : ∀ p < Pp, ∀ a < Pa, (D p a).inChannels = A.inChannels ∧ (D p a).outChannels = A.outChannels ∧
      (D p a).groups = A.groups ∧ (D p a).weight = w' p a ∧ (D p a).bias = b' p a ∧
      DRealSHT.init env ⟨A.nlatIn, A.nlonIn, some (L : ℤ), some (L : ℤ), A.gridIn, "ortho", true⟩ Pp Pa p a = .ok (D p a).sht ∧
      DInverseRealSHT.init env ⟨A.nlatOut, A.nlonOut, some (L : ℤ), some (L : ℤ), A.gridOut, "ortho", true⟩ Pp Pa p a = .ok (D p a).isht ∧
      (b.isSome = true → dquadInit env.gauss env.tol env.maxiter A.nlatIn A.nlonIn A.gridIn false Pp Pa p a = .ok (D p a).quad) := by
    intro p hp a ha
    obtain ⟨D', h1, h2⟩ := C64_init env hg A w b S hS Pp Pa hf p a hp ha (w' p a) (b' p a)
    rw [hD p hp a ha] at h1
    cases h1
    rw [hSL] at h2
    exact h2
  rw [hSL] at hf hsh hV hvt ⊢
  have hlonI : 0 < A.nlonIn := lt_of_lt_of_le hf.azimuth hf.lonIn
  have hlonO : 0 < A.nlonOut := lt_of_lt_of_le hf.azimuth hf.lonOut
  have hfI : Fits Pp Pa A.nlatIn A.nlonIn S.sht.lmax S.sht.mmax :=
    ⟨hf.polar, hf.azimuth, hf.latIn, hf.lonIn, by rw [t1]; exact hf.degrees, by rw [t2]; exact hf.orders⟩
  have hfO : Fits Pp Pa A.nlatOut A.nlonOut S.isht.lmax S.isht.mmax :=
    ⟨hf.polar, hf.azimuth, hf.latOut, hf.lonOut, by rw [i1]; exact hf.degrees, by rw [i2]; exact hf.orders⟩
  -- backward of the mixing
  set U : List ℕ → ℕ → ℕ → ℂ := fun idx l m => ∑ o ∈ range (A.outChannels / A.groups),
    V [idx.getD 0 0, idx.getD 1 0 / (A.inChannels / A.groups) * (A.outChannels / A.groups) + o] l m *
      (starRingEnd ℂ) (w (idx.getD 1 0 / (A.inChannels / A.groups)) (idx.getD 1 0 % (A.inChannels / A.groups)) o l) with hU
  have hut : ∀ p < Pp, ∀ a < Pa, IsTile [B, A.inChannels] L L Pp Pa U p a ((D p a).mixBackward (v p a)) := fun p hp a ha => by
    obtain ⟨d1, d2, d3, d4, -⟩ := hd p hp a ha
    obtain ⟨l1, l2, l3, l4⟩ := hvt p hp a ha
    unfold DSpectralConv.mixBackward
    refine ⟨by dsimp only; rw [l1, d1]; rfl, l2, l3, fun idx hidx j hj k hk => ?_⟩
    obtain ⟨n, c, rfl, hn, hcc⟩ := leadIndex_two hidx
    dsimp only
    rw [d1, d2, d3, d4, hU]
    show ∑ o ∈ range (A.outChannels / A.groups), (v p a).val [n, c / (A.inChannels / A.groups) * (A.outChannels / A.groups) + o] j k *
      (starRingEnd ℂ) (w' p a (c / (A.inChannels / A.groups)) (c % (A.inChannels / A.groups)) o j) = _
    refine sum_congr rfl fun o ho => ?_
    have ho := mem_range.1 ho
    have hgc : c / (A.inChannels / A.groups) < A.groups := by
      apply Nat.div_lt_of_lt_mul
      rw [mul_comm, Nat.mul_div_cancel' hin]; exact hcc
    have hoc : c / (A.inChannels / A.groups) * (A.outChannels / A.groups) + o < A.outChannels := by
      have e := Nat.mul_le_mul_right (A.outChannels / A.groups) (Nat.succ_le_of_lt hgc)
      rw [Nat.mul_div_cancel' hout, Nat.succ_mul] at e
      omega
    rw [l4 [n, _] ⟨hn, hoc, trivial⟩ j hj k hk, (hsh p hp a ha).1 _ hgc _ (Nat.mod_lt _ (Nat.pos_of_ne_zero hdiv)) o ho j hj]
    rfl
  refine ⟨U, fun n hn Xc F hF => ?_, v, hv, hut⟩
  rw [sum_congr rfl fun o ho => (hV n hn o (mem_range.1 ho) _ (F o) (hF o (mem_range.1 ho))).symm,
    ← mixed_adjoint A hin hout L L w Xc fun o => V [n, o]]
  rfl

/-- C109. Let the ranks hold their shares of the weights and the bias of a serial layer, the tiles of an input of shape
`(batch, in_channels, nlat_in, nlon_in)` and the tiles of a gradient `Q` of the output. There is one global array `G`, the gradient of the serial layer with
respect to its input: for every batch element `n` and every input `f` of the serial layer, `<f, G n> = <layer f, Q n>`; and the backward pass of the
distributed layer succeeds and returns on every rank the tile of `G`. -/
theorem C109_input_gradient (env : Env) (hg : ∀ n, (env.gauss n).n = n) (be : C2R) (A : ConvArgs) (w : ℕ → ℕ → ℕ → ℕ → ℂ)
    (b : Option (ℕ → ℕ → ℕ → ℂ)) (S : SpectralConv) (hS : SpectralConv.init env A w b = .ok S) (Pp Pa : ℕ) (hf : ConvFits Pp Pa A S.lmax)
    (w' : ℕ → ℕ → ℕ → ℕ → ℕ → ℕ → ℂ) (b' : ℕ → ℕ → ℕ → ℕ → ℕ → ℂ)
    (hsh : ∀ p < Pp, ∀ a < Pa, HoldsShare A S.lmax Pp Pa w b p a (w' p a) (b' p a)) (D : ℕ → ℕ → DSpectralConv)
    (hD : ∀ p < Pp, ∀ a < Pa, DSpectralConv.init env A b.isSome Pp Pa p a (w' p a) (b' p a) = .ok (D p a))
    (B : ℕ) (X : List ℕ → ℕ → ℕ → ℝ) (x : ℕ → ℕ → LTen ℝ)
    (hx : ∀ p < Pp, ∀ a < Pa, IsTile [B, A.inChannels] A.nlatIn A.nlonIn Pp Pa X p a (x p a))
    (Q : List ℕ → ℕ → ℕ → ℝ) (g : ℕ → ℕ → LTen ℝ)
    (hgt : ∀ p < Pp, ∀ a < Pa, IsTile [B, A.outChannels] A.nlatOut A.nlonOut Pp Pa Q p a (g p a)) :
    ∃ G : List ℕ → ℕ → ℕ → ℝ,
      (∀ n < B, ∀ (f : ℕ → ℕ → ℕ → ℝ) (y : Ten3 ℝ), S.forward be ⟨A.inChannels, A.nlatIn, A.nlonIn, f⟩ = .ok y →
        ∑ c ∈ range A.inChannels, pairR A.nlatIn A.nlonIn (f c) (G [n, c]) =
          ∑ o ∈ range A.outChannels, pairR A.nlatOut A.nlonOut (y.val o) (Q [n, o])) ∧
      ∃ y, DSpectralConv.backward Pp Pa b.isSome D x g = .ok y ∧
        ∀ p < Pp, ∀ a < Pa, IsTile [B, A.inChannels] A.nlatIn A.nlonIn Pp Pa G p a (y p a) := by
  obtain ⟨U, hUp, v, hv, hut⟩ := conv_back_core env hg be A w b S hS Pp Pa hf w' b' hsh D hD B X x hx Q g hgt
  obtain ⟨hgp, hin, hout, hdiv, L, hL, hc, hT, hI, -, -, -, -, hSL, hb⟩ := spectralConv_parts hS
  obtain ⟨t1, t2, hgr⟩ := realSHT_trunc hL hT
  obtain ⟨i1, i2⟩ := inverseSHT_trunc hL hI
  obtain ⟨n1, n2⟩ := realSHT_sizes hT
  obtain ⟨n3, n4⟩ := inverseSHT_sizes hI
  dsimp only at n1 n2 n3 n4
  have hd : ∀ p < Pp, ∀ a < Pa, (D p a).inChannels = A.inChannels ∧ (D p a).outChannels = A.outChannels ∧
      (D p a).groups = A.groups ∧ (D p a).weight = w' p a ∧ (D p a).bias = b' p a ∧
      DRealSHT.init env ⟨A.nlatIn, A.nlonIn, some (L : ℤ), some (L : ℤ), A.gridIn, "ortho", true⟩ Pp Pa p a = .ok (D p a).sht ∧
      DInverseRealSHT.init env ⟨A.nlatOut, A.nlonOut, some (L : ℤ), some (L : ℤ), A.gridOut, "ortho", true⟩ Pp Pa p a = .ok (D p a).isht ∧
      (b.isSome = true → dquadInit env.gauss env.tol env.maxiter A.nlatIn A.nlonIn A.gridIn false Pp Pa p a = .ok (D p a).quad) := by
    intro p hp a ha
    obtain ⟨D', h1, h2⟩ := C64_init env hg A w b S hS Pp Pa hf p a hp ha (w' p a) (b' p a)
    rw [hD p hp a ha] at h1
    cases h1
    rw [hSL] at h2
    exact h2
  rw [hSL] at hf hsh hUp hut
  have hlonI : 0 < A.nlonIn := lt_of_lt_of_le hf.azimuth hf.lonIn
  have hlonO : 0 < A.nlonOut := lt_of_lt_of_le hf.azimuth hf.lonOut
  have hfI : Fits Pp Pa A.nlatIn A.nlonIn S.sht.lmax S.sht.mmax :=
    ⟨hf.polar, hf.azimuth, hf.latIn, hf.lonIn, by rw [t1]; exact hf.degrees, by rw [t2]; exact hf.orders⟩
  have hfO : Fits Pp Pa A.nlatOut A.nlonOut S.isht.lmax S.isht.mmax :=
    ⟨hf.polar, hf.azimuth, hf.latOut, hf.lonOut, by rw [i1]; exact hf.degrees, by rw [i2]; exact hf.orders⟩
  obtain ⟨r, hr1, hr2, hr3⟩ : ∃ r, (∀ B, b = some B → S.bias = some (r, B)) ∧ (b = none → S.bias = none) ∧
      (b.isSome = true → quadratureS2Rule env.gauss env.tol env.maxiter A.nlatIn A.gridIn = .ok r) := by
    rcases hb with ⟨rfl, h⟩ | ⟨B', r, rfl, hr, h⟩
    · exact ⟨⟨0, fun _ => 0, fun _ => 0⟩, by simp, fun _ => h, by simp⟩
    · exact ⟨r, fun B hB => by cases hB; exact h, by simp, fun _ => hr⟩
  -- some injective numbering of the ranks
  have hglob : GlobInj Pp Pa fun p a => p * Pa + a := by
    intro p hp a ha p' hp' a' ha' h
    have e := congrArg (· / Pa) h
    have e2 := congrArg (· % Pa) h
    dsimp only at h e e2
    have hP : 0 < Pa := by omega
    rw [mul_comm p, mul_comm p', Nat.mul_add_div hP, Nat.mul_add_div hP, Nat.div_eq_of_lt ha, Nat.div_eq_of_lt ha'] at e
    rw [mul_comm p, mul_comm p', Nat.mul_add_mod, Nat.mul_add_mod, Nat.mod_eq_of_lt ha, Nat.mod_eq_of_lt ha'] at e2
    exact ⟨by simpa using e, e2⟩
  -- backward of the transform
  obtain ⟨G1, hG1, ⟨gx, hgx, hgxt⟩, -⟩ := C104_real_sht env _ S.sht hT Pp Pa hfI _ hglob (fun p a => (D p a).sht)
    (fun p hp a ha => (hd p hp a ha).2.2.2.2.2.1) [B, A.inChannels] (by simp) X x hx U (fun p a => (D p a).mixBackward (v p a))
    (fun p hp a ha => by rw [t1, t2]; exact hut p hp a ha)
  rw [t1, t2] at hG1
  -- the path through the integral
  have hJ : b.isSome = true → ∀ n < B, ∀ c < A.inChannels, ∀ p < Pp, ∀ a < Pa,
      DSpectralConv.integralBackward Pp Pa D (fun p a => (D p a).mixBackward (v p a)) n c p a = pairC L L (biasOr0 b c) (U [n, c]) := by
    intro hbs n hn c hcc p hp a ha
    obtain ⟨b0, rfl⟩ := Option.isSome_iff_exists.1 hbs
    unfold DSpectralConv.integralBackward
    dsimp only
    set g0 : ℕ → ℕ → ℝ := fun p a => ∑ l ∈ range ((D p a).mixBackward (v p a)).d1, ∑ m ∈ range ((D p a).mixBackward (v p a)).d2,
      (((D p a).bias c l m).re * (((D p a).mixBackward (v p a)).val [n, c] l m).re +
        ((D p a).bias c l m).im * (((D p a).mixBackward (v p a)).val [n, c] l m).im) with hg0
    have e1 : ∀ p' < Pp, (if Pa > 1 then (copyToBackward Pa (fun s => (⟨1, fun _ => g0 p' s⟩ : Vec ℝ)) a).val 0 else g0 p' a) = ∑ s ∈ range Pa, g0 p' s :=
      fun p' _ => reduce_all Pa a ha fun s => g0 p' s
    refine (reduce_all Pp p hp fun s => if Pa > 1 then (copyToBackward Pa (fun t => (⟨1, fun _ => g0 s t⟩ : Vec ℝ)) a).val 0 else g0 s a).trans ?_
    rw [sum_congr rfl fun s hs => e1 s (mem_range.1 hs)]
    unfold pairC
    rw [sum_blocks (n := L) hf.polar]
    refine sum_congr rfl fun s hs => ?_
    have hs := mem_range.1 hs
    have e2 : ∀ t ∈ range Pa, g0 s t = ∑ l ∈ range (blockSize L Pp s), ∑ m ∈ range (blockSize L Pa t),
        ((biasOr0 (some b0) c (blockStart L Pp s + l) (blockStart L Pa t + m)).re * (U [n, c] (blockStart L Pp s + l) (blockStart L Pa t + m)).re +
        (biasOr0 (some b0) c (blockStart L Pp s + l) (blockStart L Pa t + m)).im * (U [n, c] (blockStart L Pp s + l) (blockStart L Pa t + m)).im) := by
      intro t ht
      have ht := mem_range.1 ht
      obtain ⟨-, u2, u3, u4⟩ := hut s hs t ht
      rw [hg0]
      dsimp only
      rw [u2, u3, (hd s hs t ht).2.2.2.2.1]
      refine sum_congr rfl fun l hl => sum_congr rfl fun m hm => ?_
      rw [u4 [n, c] ⟨hn, hcc, trivial⟩ l (mem_range.1 hl) m (mem_range.1 hm),
        (hsh s hs t ht).2 b0 rfl c hcc l (mem_range.1 hl) m (mem_range.1 hm)]
      rfl
    rw [sum_congr rfl e2, sum_comm]
    refine sum_congr rfl fun l _ => ?_
    exact (sum_blocks hf.azimuth fun m => (biasOr0 (some b0) c (blockStart L Pp s + l) m).re * (U [n, c] (blockStart L Pp s + l) m).re +
      (biasOr0 (some b0) c (blockStart L Pp s + l) m).im * (U [n, c] (blockStart L Pp s + l) m).im).symm
  refine ⟨fun idx k j => G1 idx k j + pairC L L (biasOr0 b (idx.getD 1 0)) (U idx) * quadWeight r A.nlonIn false k, fun n hn f y hy => ?_, ?_⟩
  · -- the pairing
    have hC := fun c => realSHT_value S.sht (by rw [n2]; exact hlonI) (f c)
    rw [n1, n2] at hC
    choose Cf hCf c0 c1 _ using hC
    obtain ⟨Z, hZ, z0, z1, z2, zv⟩ := serial_mix hS r hr1 hr2 be ⟨A.inChannels, A.nlatIn, A.nlonIn, f⟩ rfl Cf hCf
    simp only [c0, c1, t1, t2] at z1 z2
    have hinv := fun oc => inverseSHT_value be S.isht (by rw [n4]; exact hlonO) (by rw [i2]; exact hL) (Z.val oc)
    rw [i1, i2] at hinv
    choose F hF _ _ _ using hinv
    rw [hZ, mapChannels_ok F (fun ch => by rw [z1, z2]; exact hF ch)] at hy
    have hyv : ∀ o, y.val o = (F o).val := fun o => by rw [← Except.ok.inj hy]
    have hmix : ∀ o < A.outChannels, S.isht.forward be ⟨L, L, mixed A w (fun ch l m => (Cf ch).val l m +
        biasTerm r b ⟨A.inChannels, A.nlatIn, A.nlonIn, f⟩ ch l m) o⟩ = .ok (F o) := fun o ho => by
      rw [← hF o]
      congr 2
      funext l m
      exact (zv o ho l m).symm
    simp only [hyv]
    rw [← hUp n hn _ F hmix]
    refine sum_congr rfl fun c hcc => ?_
    have hcc := mem_range.1 hcc
    have hbt : (fun l m => (Cf c).val l m + biasTerm r b ⟨A.inChannels, A.nlatIn, A.nlonIn, f⟩ c l m) =
        fun l m => (Cf c).val l m + ((quadForward r A.nlonIn false (f c) : ℝ) : ℂ) * biasOr0 b c l m := by
      funext l m
      unfold biasTerm biasOr0
      cases b <;> simp
    rw [hbt, pairC_add_real]
    show _ = pairC L L (Cf c).val (U [n, c]) + _ * pairC L L (biasOr0 b c) (U [n, c])
    rw [← hG1 [n, c] ⟨hn, hcc, trivial⟩ (f c) (Cf c) (hCf c)]
    have hq : quadForward r A.nlonIn false (f c) * pairC L L (biasOr0 b c) (U [n, c]) =
        pairR A.nlatIn A.nlonIn (f c) fun k _ => pairC L L (biasOr0 b c) (U [n, c]) * quadWeight r A.nlonIn false k := by
      cases b with
      | none =>
        have : pairC L L (biasOr0 none c) (U [n, c]) = 0 := by simp [pairC, biasOr0]
        rw [this]
        simp [pairR]
      | some b0 =>
        have hrn : r.n = A.nlatIn := by
          have hr := hr3 rfl
          refine rule_size env.gauss hg env.tol env.maxiter A.nlatIn A.gridIn r ?_
          unfold quadratureS2Rule at hr
          unfold distQuadratureRule
          split_ifs at hr ⊢ <;> exact hr
        unfold quadForward pairR
        rw [hrn, sum_mul]
        refine sum_congr rfl fun k _ => ?_
        rw [sum_mul]
        exact sum_congr rfl fun j _ => by ring
    rw [hq]
    unfold pairR
    rw [← sum_add_distrib]
    refine sum_congr rfl fun k _ => ?_
    rw [← sum_add_distrib]
    exact sum_congr rfl fun j _ => by
      show f c k j * (G1 [n, c] k j + pairC L L (biasOr0 b c) (U [n, c]) * quadWeight r A.nlonIn false k) = _
      ring
  · unfold DSpectralConv.backward
    rw [hv, except_bind_ok]
    dsimp only
    rw [hgx, except_bind_ok]
    refine ⟨_, rfl, fun p hp a ha => ?_⟩
    obtain ⟨q1, q2, q3, q4⟩ := hgxt p hp a ha
    cases hbs : b.isSome with
    | false =>
      rw [if_neg (by simp)]
      refine ⟨q1, q2, q3, fun idx hidx k hk j hj => ?_⟩
      rw [q4 idx hidx k hk j hj]
      have : b = none := by simpa using hbs
      subst this
      simp [pairC, biasOr0]
    | true =>
      rw [if_pos rfl]
      refine ⟨q1, q2, q3, fun idx hidx k hk j hj => ?_⟩
      obtain ⟨n, c, rfl, hn, hcc⟩ := leadIndex_two hidx
      obtain ⟨qq, e1, e2⟩ := C54_quadrature_init env.gauss hg env.tol env.maxiter A.nlatIn A.nlonIn A.gridIn false hgr r (hr3 hbs) Pp Pa
        hf.polar hf.azimuth hf.latIn hf.lonIn p a hp ha
      rw [(hd p hp a ha).2.2.2.2.2.2.2 hbs] at e1
      cases e1
      dsimp only
      rw [q4 [n, c] ⟨hn, hcc, trivial⟩ k hk j hj]
      congr 1
      have hred : ∀ h : ℕ → ℕ → ℝ, (dquadBackward Pp Pa (fun p a => (D p a).quad) h p a).val k j = h p a * (D p a).quad.val k j := by
        intro h
        unfold dquadBackward reduceFromBackward
        dsimp only
        split_ifs <;> rfl
      rw [hred, e2.2.2 k hk j hj]
      congr 1
      exact hJ hbs n hn c hcc p hp a ha

/-- C109: the identity of `C109_input_gradient` determines the gradient. Two arrays that have the same pairing with every input agree in every channel and at every point. -/
theorem C109_unique (C n1 n2 : ℕ) (G G' : ℕ → ℕ → ℕ → ℝ)
    (h : ∀ f : ℕ → ℕ → ℕ → ℝ, ∑ c ∈ range C, pairR n1 n2 (f c) (G c) = ∑ c ∈ range C, pairR n1 n2 (f c) (G' c)) :
    ∀ c < C, ∀ i < n1, ∀ j < n2, G c i j = G' c i j := by
  intro c hc i hi j hj
  have one : ∀ H : ℕ → ℕ → ℕ → ℝ, ∑ c' ∈ range C, pairR n1 n2 (fun i' j' => if c' = c ∧ i' = i ∧ j' = j then 1 else 0) (H c') = H c i j := by
    intro H
    unfold pairR
    rw [sum_eq_single c (fun c' _ hne => by simp [hne]) (fun hn => absurd (mem_range.2 hc) hn),
      sum_eq_single i (fun i' _ hne => by simp [hne]) (fun hn => absurd (mem_range.2 hi) hn),
      sum_eq_single j (fun j' _ hne => by simp [hne]) (fun hn => absurd (mem_range.2 hj) hn)]
    simp
  rw [← one G, ← one G']
  exact h fun c' i' j' => if c' = c ∧ i' = i ∧ j' = j then 1 else 0

/-- C109. The gradient of the bias: with the same hypotheses, for a layer with a bias, there is one global array `BG` of which every rank computes the tile, and `BG` is the
gradient of the serial layer with respect to its bias: when the bias `b0` is replaced by any other `b1`, the pairing of the outputs for the inputs `X n` with `Q` changes by
the pairing of `b1 - b0` with `BG`. No reduction by the user is needed (as it is for the weight, C64). -/
theorem C109_bias_gradient (env : Env) (hg : ∀ n, (env.gauss n).n = n) (be : C2R) (A : ConvArgs) (w : ℕ → ℕ → ℕ → ℕ → ℂ)
    (b0 : ℕ → ℕ → ℕ → ℂ) (S : SpectralConv) (hS : SpectralConv.init env A w (some b0) = .ok S) (Pp Pa : ℕ) (hf : ConvFits Pp Pa A S.lmax)
    (w' : ℕ → ℕ → ℕ → ℕ → ℕ → ℕ → ℂ) (b' : ℕ → ℕ → ℕ → ℕ → ℕ → ℂ)
    (hsh : ∀ p < Pp, ∀ a < Pa, HoldsShare A S.lmax Pp Pa w (some b0) p a (w' p a) (b' p a)) (D : ℕ → ℕ → DSpectralConv)
    (hD : ∀ p < Pp, ∀ a < Pa, DSpectralConv.init env A true Pp Pa p a (w' p a) (b' p a) = .ok (D p a))
    (B : ℕ) (X : List ℕ → ℕ → ℕ → ℝ) (x : ℕ → ℕ → LTen ℝ)
    (hx : ∀ p < Pp, ∀ a < Pa, IsTile [B, A.inChannels] A.nlatIn A.nlonIn Pp Pa X p a (x p a))
    (Q : List ℕ → ℕ → ℕ → ℝ) (g : ℕ → ℕ → LTen ℝ)
    (hgt : ∀ p < Pp, ∀ a < Pa, IsTile [B, A.outChannels] A.nlatOut A.nlonOut Pp Pa Q p a (g p a)) :
    ∃ BG : ℕ → ℕ → ℕ → ℂ,
      (∀ b1 S1, SpectralConv.init env A w (some b1) = .ok S1 → ∀ Y0 Y1 : ℕ → Ten3 ℝ,
        (∀ n < B, S.forward be ⟨A.inChannels, A.nlatIn, A.nlonIn, fun c => X [n, c]⟩ = .ok (Y0 n)) →
        (∀ n < B, S1.forward be ⟨A.inChannels, A.nlatIn, A.nlonIn, fun c => X [n, c]⟩ = .ok (Y1 n)) →
        ∑ n ∈ range B, ∑ o ∈ range A.outChannels, pairR A.nlatOut A.nlonOut ((Y1 n).val o) (Q [n, o]) -
            ∑ n ∈ range B, ∑ o ∈ range A.outChannels, pairR A.nlatOut A.nlonOut ((Y0 n).val o) (Q [n, o]) =
          ∑ c ∈ range A.inChannels, pairC S.lmax S.lmax (fun l m => b1 c l m - b0 c l m) (BG c)) ∧
      ∃ β, DSpectralConv.biasBackward Pp Pa D x g = .ok β ∧ ∀ p < Pp, ∀ a < Pa,
        (β p a).d0 = A.inChannels ∧ (β p a).d1 = blockSize S.lmax Pp p ∧ (β p a).d2 = blockSize S.lmax Pa a ∧
        ∀ c < A.inChannels, ∀ l < blockSize S.lmax Pp p, ∀ m < blockSize S.lmax Pa a,
          (β p a).val c l m = BG c (blockStart S.lmax Pp p + l) (blockStart S.lmax Pa a + m) := by
  obtain ⟨U, hUp, v, hv, hut⟩ := conv_back_core env hg be A w (some b0) S hS Pp Pa hf w' b' hsh D hD B X x hx Q g hgt
  obtain ⟨hgp, hin, hout, hdiv, L, hL, hc, hT, hI, -, -, -, -, hSL, hb⟩ := spectralConv_parts hS
  obtain ⟨t1, t2, hgr⟩ := realSHT_trunc hL hT
  obtain ⟨i1, i2⟩ := inverseSHT_trunc hL hI
  obtain ⟨n1, n2⟩ := realSHT_sizes hT
  obtain ⟨n3, n4⟩ := inverseSHT_sizes hI
  dsimp only at n1 n2 n3 n4
  obtain ⟨b0', r, hbb, hr, hSb⟩ : ∃ b' r, some b0 = some b' ∧ quadratureS2Rule env.gauss env.tol env.maxiter A.nlatIn A.gridIn = .ok r ∧ S.bias = some (r, b') := by
    rcases hb with ⟨h, -⟩ | h
    · cases h
    · exact h
  cases hbb
  have hd : ∀ p < Pp, ∀ a < Pa, (D p a).inChannels = A.inChannels ∧
      dquadInit env.gauss env.tol env.maxiter A.nlatIn A.nlonIn A.gridIn false Pp Pa p a = .ok (D p a).quad := by
    intro p hp a ha
    obtain ⟨D', h1, h2, -, -, -, -, -, -, h3⟩ := C64_init env hg A w (some b0) S hS Pp Pa hf p a hp ha (w' p a) (b' p a)
    rw [show (some b0).isSome = true from rfl, hD p hp a ha] at h1
    cases h1
    exact ⟨h2, h3 rfl⟩
  rw [hSL] at hf hsh hUp hut ⊢
  have hlonI : 0 < A.nlonIn := lt_of_lt_of_le hf.azimuth hf.lonIn
  have hlonO : 0 < A.nlonOut := lt_of_lt_of_le hf.azimuth hf.lonOut
  have hq : ∀ p < Pp, ∀ a < Pa, IsFieldTile A.nlatIn A.nlonIn Pp Pa (fun k _ => quadWeight r A.nlonIn false k) p a (D p a).quad := by
    intro p hp a ha
    obtain ⟨q, h1, h2⟩ := C54_quadrature_init env.gauss hg env.tol env.maxiter A.nlatIn A.nlonIn A.gridIn false hgr r hr Pp Pa
      hf.polar hf.azimuth hf.latIn hf.lonIn p a hp ha
    rw [(hd p hp a ha).2] at h1
    cases h1
    exact h2
  obtain ⟨I, h1, h2⟩ := integrals_ok hf.polar hf.azimuth (fun p a => (D p a).quad) x (fun p hp a ha => by
    obtain ⟨-, e1, e2, -⟩ := hx p hp a ha
    obtain ⟨f1, f2, -⟩ := hq p hp a ha
    exact ⟨e1.trans f1.symm, e2.trans f2.symm⟩)
  have hIq : ∀ p < Pp, ∀ a < Pa, ∀ n < B, ∀ c < A.inChannels, I p a n c = quadForward r A.nlonIn false (X [n, c]) := by
    intro p hp a ha n hn c hc
    obtain ⟨y, hy, yv⟩ := C54_quadrature env.gauss hg env.tol env.maxiter A.nlatIn A.nlonIn A.gridIn false hgr r hr Pp Pa
      hf.polar hf.azimuth hf.latIn hf.lonIn (fun p a => (D p a).quad) (fun p hp a ha => (hd p hp a ha).2) (X [n, c])
      (fun p a => ⟨(x p a).d1, (x p a).d2, (x p a).val [n, c]⟩) (fun p hp a ha => by
        obtain ⟨-, e1, e2, e3⟩ := hx p hp a ha
        exact ⟨e1, e2, fun j hj k hk => e3 [n, c] ⟨hn, hc, trivial⟩ j hj k hk⟩)
    rw [h2 n c y hy p a, yv p hp a ha]
  have hC := fun idx => realSHT_value S.sht (by rw [n2]; exact hlonI) (X idx)
  rw [n1, n2] at hC
  choose Cf hCf c0 c1 _ using hC
  -- the pairing of the output of a layer with the same transforms and another bias
  have hpair : ∀ b1 S1, SpectralConv.init env A w (some b1) = .ok S1 → ∀ n < B, ∀ y,
      S1.forward be ⟨A.inChannels, A.nlatIn, A.nlonIn, fun c => X [n, c]⟩ = .ok y →
      ∑ o ∈ range A.outChannels, pairR A.nlatOut A.nlonOut (y.val o) (Q [n, o]) = ∑ c ∈ range A.inChannels,
        (pairC L L (Cf [n, c]).val (U [n, c]) + quadForward r A.nlonIn false (X [n, c]) * pairC L L (b1 c) (U [n, c])) := by
    intro b1 S1 hS1 n hn y hy
    obtain ⟨-, -, -, -, L1, -, hc1, hT1, hI1, -, -, -, -, -, hb1⟩ := spectralConv_parts hS1
    rw [hc] at hc1
    have hLL : L = L1 := by have := Except.ok.inj hc1; omega
    subst hLL
    rw [hT] at hT1
    rw [hI] at hI1
    have eT := Except.ok.inj hT1
    have eI := Except.ok.inj hI1
    obtain ⟨r1, hb1a, hb1b⟩ : ∃ r1, S1.bias = some (r1, b1) ∧ r1 = r := by
      rcases hb1 with ⟨h, -⟩ | ⟨b1', r1, e, h, h'⟩
      · cases h
      · cases e
        rw [hr] at h
        exact ⟨r1, h', (Except.ok.inj h).symm⟩
    subst hb1b
    obtain ⟨Z, hZ, z0, z1, z2, zv⟩ := serial_mix hS1 r1 (fun B' hB' => by cases hB'; exact hb1a) (by simp) be
      ⟨A.inChannels, A.nlatIn, A.nlonIn, fun c => X [n, c]⟩ rfl (fun c => Cf [n, c]) (fun c => by rw [← eT]; exact hCf [n, c])
    simp only [c0, c1, t1, t2] at z1 z2
    have hinv := fun oc => inverseSHT_value be S.isht (by rw [n4]; exact hlonO) (by rw [i2]; exact hL) (Z.val oc)
    rw [i1, i2] at hinv
    choose F hF _ _ _ using hinv
    rw [hZ, ← eI, mapChannels_ok F (fun ch => by rw [z1, z2]; exact hF ch)] at hy
    have hyv : ∀ o, y.val o = (F o).val := fun o => by rw [← Except.ok.inj hy]
    rw [sum_congr rfl fun o _ => by rw [hyv o], ← hUp n hn _ F fun o ho => by
      rw [← hF o]
      congr 2
      funext l m
      exact (zv o ho l m).symm]
    refine sum_congr rfl fun c _ => ?_
    unfold biasTerm
    dsimp only
    exact pairC_add_real L L (Cf [n, c]).val (b1 c) (U [n, c]) (quadForward r1 A.nlonIn false (X [n, c]))
  refine ⟨fun c l m => ∑ n ∈ range B, ((quadForward r A.nlonIn false (X [n, c]) : ℝ) : ℂ) * U [n, c] l m, fun b1 S1 hS1 Y0 Y1 hY0 hY1 => ?_, ?_⟩
  · rw [sum_congr rfl fun n hn => hpair b1 S1 hS1 n (mem_range.1 hn) (Y1 n) (hY1 n (mem_range.1 hn)),
      sum_congr rfl fun n hn => hpair b0 S hS n (mem_range.1 hn) (Y0 n) (hY0 n (mem_range.1 hn)), ← sum_sub_distrib]
    rw [sum_congr rfl fun n _ => (sum_sub_distrib _ _).symm, sum_comm]
    refine sum_congr rfl fun c _ => ?_
    rw [pairC_sum_right]
    refine sum_congr rfl fun n _ => ?_
    unfold pairC
    rw [add_sub_add_left_eq_sub, ← mul_sub, ← sum_sub_distrib, mul_sum]
    refine sum_congr rfl fun l _ => ?_
    rw [← sum_sub_distrib, mul_sum]
    refine sum_congr rfl fun m _ => ?_
    simp only [Complex.sub_re, Complex.sub_im, Complex.mul_re, Complex.mul_im, Complex.ofReal_re, Complex.ofReal_im]
    ring
  · unfold DSpectralConv.biasBackward
    rw [h1, except_bind_ok, hv, except_bind_ok]
    refine ⟨_, rfl, fun p hp a ha => ?_⟩
    obtain ⟨-, u2, u3, u4⟩ := hut p hp a ha
    refine ⟨(hd p hp a ha).1, u2, u3, fun c hcc l hl m hm => ?_⟩
    dsimp only
    rw [(hx p hp a ha).1]
    refine sum_congr rfl fun n hn => ?_
    have hn : n < B := mem_range.1 hn
    rw [hIq p hp a ha n hn c hcc, u4 [n, c] ⟨hn, hcc, trivial⟩ l hl m hm]

theorem pairC_re (n1 n2 : ℕ) (u v : ℕ → ℕ → ℂ) :
    pairC n1 n2 u v = (∑ l ∈ range n1, ∑ m ∈ range n2, (starRingEnd ℂ) (v l m) * u l m).re := by
  unfold pairC
  rw [Complex.re_sum]
  refine sum_congr rfl fun l _ => ?_
  rw [Complex.re_sum]
  refine sum_congr rfl fun m _ => ?_
  simp only [Complex.mul_re, Complex.conj_re, Complex.conj_im]
  ring

theorem pairC_sub (n1 n2 : ℕ) (x y v : ℕ → ℕ → ℂ) : pairC n1 n2 (fun l m => x l m - y l m) v = pairC n1 n2 x v - pairC n1 n2 y v := by
  unfold pairC
  rw [← sum_sub_distrib]
  refine sum_congr rfl fun l _ => ?_
  rw [← sum_sub_distrib]
  refine sum_congr rfl fun m _ => ?_
  simp only [Complex.sub_re, Complex.sub_im]
  ring

/-- C109. The gradient of the weight: with the same hypotheses, there is one global array `WG`, and the gradients that the azimuth ranks of a polar rank compute add up to the
share of this polar rank of `WG` (the sum is the documented duty of the user, see C64). `WG` is the gradient of the serial layer with respect to its weight: when the weight `w`
is replaced by any other `w1`, the pairing of the outputs for the inputs `X n` with `Q` changes by the pairing of `w1 - w` with `WG`. -/
theorem C109_weight_gradient (env : Env) (hg : ∀ n, (env.gauss n).n = n) (be : C2R) (A : ConvArgs) (w : ℕ → ℕ → ℕ → ℕ → ℂ)
    (b : Option (ℕ → ℕ → ℕ → ℂ)) (S : SpectralConv) (hS : SpectralConv.init env A w b = .ok S) (Pp Pa : ℕ) (hf : ConvFits Pp Pa A S.lmax)
    (w' : ℕ → ℕ → ℕ → ℕ → ℕ → ℕ → ℂ) (b' : ℕ → ℕ → ℕ → ℕ → ℕ → ℂ)
    (hsh : ∀ p < Pp, ∀ a < Pa, HoldsShare A S.lmax Pp Pa w b p a (w' p a) (b' p a)) (D : ℕ → ℕ → DSpectralConv)
    (hD : ∀ p < Pp, ∀ a < Pa, DSpectralConv.init env A b.isSome Pp Pa p a (w' p a) (b' p a) = .ok (D p a))
    (B : ℕ) (X : List ℕ → ℕ → ℕ → ℝ) (x : ℕ → ℕ → LTen ℝ)
    (hx : ∀ p < Pp, ∀ a < Pa, IsTile [B, A.inChannels] A.nlatIn A.nlonIn Pp Pa X p a (x p a))
    (Q : List ℕ → ℕ → ℕ → ℝ) (g : ℕ → ℕ → LTen ℝ)
    (hgt : ∀ p < Pp, ∀ a < Pa, IsTile [B, A.outChannels] A.nlatOut A.nlonOut Pp Pa Q p a (g p a)) :
    ∃ WG : ℕ → ℕ → ℕ → ℕ → ℂ,
      (∀ w1 S1, SpectralConv.init env A w1 b = .ok S1 → ∀ Y0 Y1 : ℕ → Ten3 ℝ,
        (∀ n < B, S.forward be ⟨A.inChannels, A.nlatIn, A.nlonIn, fun c => X [n, c]⟩ = .ok (Y0 n)) →
        (∀ n < B, S1.forward be ⟨A.inChannels, A.nlatIn, A.nlonIn, fun c => X [n, c]⟩ = .ok (Y1 n)) →
        ∑ n ∈ range B, ∑ o ∈ range A.outChannels, pairR A.nlatOut A.nlonOut ((Y1 n).val o) (Q [n, o]) -
            ∑ n ∈ range B, ∑ o ∈ range A.outChannels, pairR A.nlatOut A.nlonOut ((Y0 n).val o) (Q [n, o]) =
          ∑ gr ∈ range A.groups, ∑ i ∈ range (A.inChannels / A.groups),
            pairC (A.outChannels / A.groups) S.lmax (fun o l => w1 gr i o l - w gr i o l) (WG gr i)) ∧
      ∃ γ, DSpectralConv.weightBackward Pp Pa b.isSome D x g = .ok γ ∧ ∀ p < Pp, ∀ gr < A.groups, ∀ i < A.inChannels / A.groups,
        ∀ o < A.outChannels / A.groups, ∀ l < blockSize S.lmax Pp p,
          ∑ a ∈ range Pa, γ p a gr i o l = WG gr i o (blockStart S.lmax Pp p + l) := by
  obtain ⟨V, hV, v, hv, hvt⟩ := conv_inverse_back env hg be A w b S hS Pp Pa hf w' b' D hD B X x hx Q g hgt
  obtain ⟨hgp, hin, hout, hdiv, L, hL, hc, hT, hI, -, -, -, -, hSL, hb⟩ := spectralConv_parts hS
  obtain ⟨t1, t2, hgr⟩ := realSHT_trunc hL hT
  obtain ⟨i1, i2⟩ := inverseSHT_trunc hL hI
  obtain ⟨n1, n2⟩ := realSHT_sizes hT
  obtain ⟨n3, n4⟩ := inverseSHT_sizes hI
  dsimp only at n1 n2 n3 n4
  have hd : ∀ p < Pp, ∀ a < Pa, (D p a).inChannels = A.inChannels ∧ (D p a).outChannels = A.outChannels ∧
      (D p a).groups = A.groups ∧ (D p a).weight = w' p a ∧ (D p a).bias = b' p a ∧
      DRealSHT.init env ⟨A.nlatIn, A.nlonIn, some (L : ℤ), some (L : ℤ), A.gridIn, "ortho", true⟩ Pp Pa p a = .ok (D p a).sht ∧
      DInverseRealSHT.init env ⟨A.nlatOut, A.nlonOut, some (L : ℤ), some (L : ℤ), A.gridOut, "ortho", true⟩ Pp Pa p a = .ok (D p a).isht ∧
      (b.isSome = true → dquadInit env.gauss env.tol env.maxiter A.nlatIn A.nlonIn A.gridIn false Pp Pa p a = .ok (D p a).quad) := by
    intro p hp a ha
    obtain ⟨D', h1, h2⟩ := C64_init env hg A w b S hS Pp Pa hf p a hp ha (w' p a) (b' p a)
    rw [hD p hp a ha] at h1
    cases h1
    rw [hSL] at h2
    exact h2
  rw [hSL] at hf hsh hV hvt ⊢
  have hlonI : 0 < A.nlonIn := lt_of_lt_of_le hf.azimuth hf.lonIn
  have hlonO : 0 < A.nlonOut := lt_of_lt_of_le hf.azimuth hf.lonOut
  have hfI : Fits Pp Pa A.nlatIn A.nlonIn S.sht.lmax S.sht.mmax :=
    ⟨hf.polar, hf.azimuth, hf.latIn, hf.lonIn, by rw [t1]; exact hf.degrees, by rw [t2]; exact hf.orders⟩
  obtain ⟨r, hr3, hr4⟩ : ∃ r, (b.isSome = true → quadratureS2Rule env.gauss env.tol env.maxiter A.nlatIn A.gridIn = .ok r) ∧
      ∀ w1 S1, SpectralConv.init env A w1 b = .ok S1 → (∀ B, b = some B → S1.bias = some (r, B)) ∧ (b = none → S1.bias = none) := by
    rcases hb with ⟨rfl, h⟩ | ⟨B', r, rfl, hr, h⟩
    · refine ⟨⟨0, fun _ => 0, fun _ => 0⟩, by simp, fun w1 S1 h1 => ⟨by simp, fun _ => ?_⟩⟩
      obtain ⟨-, -, -, -, L1, -, -, -, -, -, -, -, -, -, hb1⟩ := spectralConv_parts h1
      rcases hb1 with ⟨-, h⟩ | ⟨_, _, h, -⟩
      · exact h
      · cases h
    · refine ⟨r, fun _ => hr, fun w1 S1 h1 => ⟨fun B hB => ?_, by simp⟩⟩
      obtain ⟨-, -, -, -, L1, -, -, -, -, -, -, -, -, -, hb1⟩ := spectralConv_parts h1
      rcases hb1 with ⟨h, -⟩ | ⟨B1, r1, e, h, h'⟩
      · cases h
      · cases e
        cases hB
        rw [hr] at h
        rw [h', Except.ok.inj h]
  have hC := fun idx => realSHT_value S.sht (by rw [n2]; exact hlonI) (X idx)
  rw [n1, n2] at hC
  choose Cf hCf c0 c1 _ using hC
  set K : ℕ → ℕ → ℕ → ℕ → ℂ := fun n ch l m => (Cf [n, ch]).val l m + biasTerm r b ⟨A.inChannels, A.nlatIn, A.nlonIn, fun c => X [n, c]⟩ ch l m with hK
  -- the pairing of the output of a layer with the same transforms and another weight
  have hpair : ∀ w1 S1, SpectralConv.init env A w1 b = .ok S1 → ∀ n < B, ∀ y,
      S1.forward be ⟨A.inChannels, A.nlatIn, A.nlonIn, fun c => X [n, c]⟩ = .ok y →
      ∑ o ∈ range A.outChannels, pairR A.nlatOut A.nlonOut (y.val o) (Q [n, o]) =
        ∑ o ∈ range A.outChannels, pairC L L (mixed A w1 (K n) o) (V [n, o]) := by
    intro w1 S1 hS1 n hn y hy
    obtain ⟨-, -, -, -, L1, -, hc1, hT1, hI1, -⟩ := spectralConv_parts hS1
    rw [hc] at hc1
    have hLL : L = L1 := by have := Except.ok.inj hc1; omega
    subst hLL
    rw [hT] at hT1
    rw [hI] at hI1
    have eT := Except.ok.inj hT1
    have eI := Except.ok.inj hI1
    obtain ⟨Z, hZ, z0, z1, z2, zv⟩ := serial_mix hS1 r (hr4 w1 S1 hS1).1 (hr4 w1 S1 hS1).2 be
      ⟨A.inChannels, A.nlatIn, A.nlonIn, fun c => X [n, c]⟩ rfl (fun c => Cf [n, c]) (fun c => by rw [← eT]; exact hCf [n, c])
    simp only [c0, c1, t1, t2] at z1 z2
    have hinv := fun oc => inverseSHT_value be S.isht (by rw [n4]; exact hlonO) (by rw [i2]; exact hL) (Z.val oc)
    rw [i1, i2] at hinv
    choose F hF _ _ _ using hinv
    rw [hZ, ← eI, mapChannels_ok F (fun ch => by rw [z1, z2]; exact hF ch)] at hy
    have hyv : ∀ o, y.val o = (F o).val := fun o => by rw [← Except.ok.inj hy]
    refine sum_congr rfl fun o ho => ?_
    have ho := mem_range.1 ho
    rw [hyv o, ← hV n hn o ho (Z.val o) (F o) (hF o)]
    congr 1
    funext l m
    exact zv o ho l m
  -- the integrals and the coefficients of the ranks
  obtain ⟨I, hIv, hIq⟩ : ∃ I, maybeIntegrals Pp Pa b.isSome (fun p a => (D p a).quad) x = .ok I ∧
      (b.isSome = true → ∀ p < Pp, ∀ a < Pa, ∀ n < B, ∀ c < A.inChannels, I p a n c = quadForward r A.nlonIn false (X [n, c])) := by
    unfold maybeIntegrals
    cases hbs : b.isSome with
    | false => exact ⟨_, by rw [if_neg (by simp)], by simp⟩
    | true =>
      rw [if_pos rfl]
      have hq : ∀ p < Pp, ∀ a < Pa, IsFieldTile A.nlatIn A.nlonIn Pp Pa (fun k _ => quadWeight r A.nlonIn false k) p a (D p a).quad := by
        intro p hp a ha
        obtain ⟨q, h1, h2⟩ := C54_quadrature_init env.gauss hg env.tol env.maxiter A.nlatIn A.nlonIn A.gridIn false hgr r (hr3 hbs) Pp Pa
          hf.polar hf.azimuth hf.latIn hf.lonIn p a hp ha
        rw [(hd p hp a ha).2.2.2.2.2.2.2 hbs] at h1
        cases h1
        exact h2
      obtain ⟨I, h1, h2⟩ := integrals_ok hf.polar hf.azimuth (fun p a => (D p a).quad) x (fun p hp a ha => by
        obtain ⟨-, e1, e2, -⟩ := hx p hp a ha
        obtain ⟨f1, f2, -⟩ := hq p hp a ha
        exact ⟨e1.trans f1.symm, e2.trans f2.symm⟩)
      refine ⟨I, h1, fun _ p hp a ha n hn c hc => ?_⟩
      obtain ⟨y, hy, yv⟩ := C54_quadrature env.gauss hg env.tol env.maxiter A.nlatIn A.nlonIn A.gridIn false hgr r (hr3 hbs) Pp Pa
        hf.polar hf.azimuth hf.latIn hf.lonIn (fun p a => (D p a).quad) (fun p hp a ha => (hd p hp a ha).2.2.2.2.2.2.2 hbs) (X [n, c])
        (fun p a => ⟨(x p a).d1, (x p a).d2, (x p a).val [n, c]⟩) (fun p hp a ha => by
          obtain ⟨-, e1, e2, e3⟩ := hx p hp a ha
          exact ⟨e1, e2, fun j hj k hk => e3 [n, c] ⟨hn, hc, trivial⟩ j hj k hk⟩)
      rw [h2 n c y hy p a, yv p hp a ha]
  obtain ⟨c, hcf, hct⟩ := C51_real_sht env _ S.sht hT Pp Pa hfI (fun p a => (D p a).sht) (fun p hp a ha => (hd p hp a ha).2.2.2.2.2.1)
    [B, A.inChannels] (by simp) X x hx Cf (fun idx _ => hCf idx)
  rw [t1, t2] at hct
  refine ⟨weightGrad B (A.inChannels / A.groups) (A.outChannels / A.groups) L K (fun n o => V [n, o]), fun w1 S1 hS1 Y0 Y1 hY0 hY1 => ?_, ?_⟩
  · have hmix : ∀ n o, (fun l m => mixed A w1 (K n) o l m - mixed A w (K n) o l m) = mixed A (fun gr i o l => w1 gr i o l - w gr i o l) (K n) o := by
      intro n o
      funext l m
      unfold mixed
      rw [← sum_sub_distrib]
      exact sum_congr rfl fun i _ => by ring
    rw [sum_congr rfl fun n hn => hpair w1 S1 hS1 n (mem_range.1 hn) (Y1 n) (hY1 n (mem_range.1 hn)),
      sum_congr rfl fun n hn => hpair w S hS n (mem_range.1 hn) (Y0 n) (hY0 n (mem_range.1 hn)), ← sum_sub_distrib]
    have e1 : ∀ n ∈ range B, ∑ o ∈ range A.outChannels, pairC L L (mixed A w1 (K n) o) (V [n, o]) -
        ∑ o ∈ range A.outChannels, pairC L L (mixed A w (K n) o) (V [n, o]) =
        (∑ o ∈ range A.outChannels, ∑ l ∈ range L, ∑ m ∈ range L, (starRingEnd ℂ) (V [n, o] l m) *
          mixed A (fun gr i o l => w1 gr i o l - w gr i o l) (K n) o l m).re := by
      intro n _
      rw [← sum_sub_distrib, Complex.re_sum]
      refine sum_congr rfl fun o _ => ?_
      rw [← pairC_sub, hmix, pairC_re]
    rw [sum_congr rfl e1, ← Complex.re_sum,
      C64_weight_gradient_adjoint A hout B L L (fun gr i o l => w1 gr i o l - w gr i o l) K (fun n o => V [n, o]), Complex.re_sum]
    refine sum_congr rfl fun gr _ => ?_
    rw [Complex.re_sum]
    exact sum_congr rfl fun i _ => (pairC_re _ _ _ _).symm
  · unfold DSpectralConv.weightBackward
    rw [hIv, except_bind_ok, hcf, except_bind_ok, hv, except_bind_ok]
    refine ⟨_, rfl, fun p hp gr hgr' i hi o ho l hl => ?_⟩
    have hci : gr * (A.inChannels / A.groups) + i < A.inChannels := by
      have e := Nat.mul_le_mul_right (A.inChannels / A.groups) (Nat.succ_le_of_lt hgr')
      rw [Nat.mul_div_cancel' hin, Nat.succ_mul] at e
      omega
    have hco : gr * (A.outChannels / A.groups) + o < A.outChannels := by
      have e := Nat.mul_le_mul_right (A.outChannels / A.groups) (Nat.succ_le_of_lt hgr')
      rw [Nat.mul_div_cancel' hout, Nat.succ_mul] at e
      omega
    have e2 : ∀ a ∈ range Pa, _ = ∑ n ∈ range B, ∑ m ∈ range (blockSize L Pa a),
        V [n, gr * (A.outChannels / A.groups) + o] (blockStart L Pp p + l) (blockStart L Pa a + m) *
          (starRingEnd ℂ) (K n (gr * (A.inChannels / A.groups) + i) (blockStart L Pp p + l) (blockStart L Pa a + m)) := fun a ha => by
      have ha := mem_range.1 ha
      obtain ⟨d1, d2, d3, -, d5, -⟩ := hd p hp a ha
      obtain ⟨-, -, v3, v4⟩ := hvt p hp a ha
      obtain ⟨-, -, -, l4⟩ := hct p hp a ha
      show weightGrad ((x p a).lead.getD 0 0) ((D p a).inChannels / (D p a).groups) ((D p a).outChannels / (D p a).groups) (v p a).d2
        (fun n ch l m => (c p a).val [n, ch] l m + if b.isSome then (I p a n ch : ℂ) * (D p a).bias ch l m else 0) (fun n o => (v p a).val [n, o])
        gr i o l = _
      unfold weightGrad
      rw [(hx p hp a ha).1, d1, d2, d3, v3, d5]
      refine sum_congr rfl fun n hn => sum_congr rfl fun m hm => ?_
      have hn : n < B := mem_range.1 hn
      have hm := mem_range.1 hm
      dsimp only
      rw [v4 [n, _] ⟨hn, hco, trivial⟩ l hl m hm, l4 [n, _] ⟨hn, hci, trivial⟩ l hl m hm, hK]
      congr 3
      unfold biasTerm
      cases b with
      | none => simp
      | some b0 =>
        dsimp only
        rw [if_pos (by rfl), hIq rfl p hp a ha n hn _ hci, (hsh p hp a ha).2 b0 rfl _ hci l hl m hm]
    rw [sum_congr rfl e2, sum_comm]
    unfold weightGrad
    exact sum_congr rfl fun n _ => (sum_blocks hf.azimuth fun m => V [n, gr * (A.outChannels / A.groups) + o] (blockStart L Pp p + l) m *
      (starRingEnd ℂ) (K n (gr * (A.inChannels / A.groups) + i) (blockStart L Pp p + l) m)).symm

/-- From an 8 by 16 to a 5 by 12 equiangular grid (truncation 3), 6 to 4 channels in two groups, a batch of two, on a 3 by 2 process grid; with and
without bias, for all parameters, fields and gradients: the serial layer exists and runs, the ranks hold shares, and the distributed backward pass returns
the tiles of the gradient. -/
example (env : Env) (hg : ∀ n, (env.gauss n).n = n) (be : C2R) (w : ℕ → ℕ → ℕ → ℕ → ℂ) (b : Option (ℕ → ℕ → ℕ → ℂ)) (X Q : List ℕ → ℕ → ℕ → ℝ) :
    ∃ (S : SpectralConv) (D : ℕ → ℕ → DSpectralConv) (Y : ℕ → Ten3 ℝ) (G : List ℕ → ℕ → ℕ → ℝ) (y : ℕ → ℕ → LTen ℝ),
      SpectralConv.init env ⟨8, 16, 5, 12, 6, 4, 2, "equiangular", "equiangular"⟩ w b = .ok S ∧
      (∀ n, S.forward be ⟨6, 8, 16, fun c => X [n, c]⟩ = .ok (Y n)) ∧
      (∀ n < 2, ∑ c ∈ range 6, pairR 8 16 (X [n, c]) (G [n, c]) = ∑ o ∈ range 4, pairR 5 12 ((Y n).val o) (Q [n, o])) ∧
      DSpectralConv.backward 3 2 b.isSome D (tileOf [2, 6] 8 16 3 2 X) (tileOf [2, 4] 5 12 3 2 Q) = .ok y ∧
      ∀ p < 3, ∀ a < 2, IsTile [2, 6] 8 16 3 2 G p a (y p a) := by
  set A : ConvArgs := ⟨8, 16, 5, 12, 6, 4, 2, "equiangular", "equiangular"⟩ with hA
  obtain ⟨rin, rout, din, dout, L, H⟩ := C20_default env A (by norm_num [A]) (by norm_num [A]) (by norm_num [A]) (by norm_num [A]) (Or.inl rfl) (Or.inl rfl)
    (by norm_num [A]) (by norm_num [A]) (by norm_num [A]) (by norm_num [A])
  have hL : L = 3 := by
    have h := H.trunc
    rw [show convLmax A = .ok 3 by decide] at h
    have := Except.ok.inj h
    omega
  subst hL
  obtain ⟨S, hS, -, -, -, hlm, -⟩ := conv_init H w b
  have hY := fun n => C20_value env be A rin rout din dout 3 H w b ⟨6, 8, 16, fun c => X [n, c]⟩ rfl rfl rfl
  choose S' T c Y hS' _ _ hY _ _ _ _ using hY
  have hSS : ∀ n, S' n = S := fun n => by
    have := hS' n
    rw [hS] at this
    exact (Except.ok.inj this).symm
  have hY' : ∀ n, S.forward be ⟨6, 8, 16, fun c => X [n, c]⟩ = .ok (Y n) := fun n => by have := hY n; rw [hSS n] at this; exact this
  have hf : ConvFits 3 2 A S.lmax := by
    rw [hlm]
    exact ⟨by norm_num, by norm_num, by norm_num [A], by norm_num [A], by norm_num [A], by norm_num [A], by norm_num, by norm_num⟩
  have hd : ∀ p a, ∃ D, p < 3 → a < 2 → DSpectralConv.init env A b.isSome 3 2 p a (fun g i o l => w g i o (blockStart 3 3 p + l))
      (fun ch l m => (b.getD fun _ _ _ => 0) ch (blockStart 3 3 p + l) (blockStart 3 2 a + m)) = .ok D := by
    intro p a
    by_cases h : p < 3 ∧ a < 2
    · obtain ⟨D, hD, -⟩ := C64_init env hg A w b S hS 3 2 hf p a h.1 h.2 (fun g i o l => w g i o (blockStart 3 3 p + l))
        (fun ch l m => (b.getD fun _ _ _ => 0) ch (blockStart 3 3 p + l) (blockStart 3 2 a + m))
      exact ⟨D, fun _ _ => hD⟩
    · obtain ⟨D0, -⟩ := C64_init env hg A w b S hS 3 2 hf 0 0 (by norm_num) (by norm_num) w (fun _ _ _ => 0)
      exact ⟨D0, fun h1 h2 => absurd ⟨h1, h2⟩ h⟩
  choose D hD using hd
  obtain ⟨G, hG, y, hy, hq⟩ := C109_input_gradient env hg be A w b S hS 3 2 hf _ _ (fun p _ a _ => ⟨fun g _ i _ o _ l _ => by rw [hlm],
    fun B hB ch _ l _ m _ => by rw [hlm, hB]; rfl⟩) D (fun p hp a ha => hD p a hp ha) 2 X (tileOf [2, 6] 8 16 3 2 X)
    (fun p _ a _ => tileOf_isTile _ _ _ _ _ _ _ _) Q (tileOf [2, 4] 5 12 3 2 Q) (fun p _ a _ => tileOf_isTile _ _ _ _ _ _ _ _)
  exact ⟨S, D, Y, G, y, hS, hY', fun n hn => hG n hn _ (Y n) (hY' n), hy, hq⟩

/-- The bias of the same layer: two biases, and the ranks compute the tiles of the gradient. -/
example (env : Env) (hg : ∀ n, (env.gauss n).n = n) (be : C2R) (w : ℕ → ℕ → ℕ → ℕ → ℂ) (b0 b1 : ℕ → ℕ → ℕ → ℂ) (X Q : List ℕ → ℕ → ℕ → ℝ) :
    ∃ (D : ℕ → ℕ → DSpectralConv) (Y0 Y1 : ℕ → Ten3 ℝ) (BG : ℕ → ℕ → ℕ → ℂ) (β : ℕ → ℕ → Ten3 ℂ),
      ∑ n ∈ range 2, ∑ o ∈ range 4, pairR 5 12 ((Y1 n).val o) (Q [n, o]) - ∑ n ∈ range 2, ∑ o ∈ range 4, pairR 5 12 ((Y0 n).val o) (Q [n, o]) =
        ∑ c ∈ range 6, pairC 3 3 (fun l m => b1 c l m - b0 c l m) (BG c) ∧
      DSpectralConv.biasBackward 3 2 D (tileOf [2, 6] 8 16 3 2 X) (tileOf [2, 4] 5 12 3 2 Q) = .ok β ∧
      (β 2 1).val 5 0 0 = BG 5 2 2 := by
  set A : ConvArgs := ⟨8, 16, 5, 12, 6, 4, 2, "equiangular", "equiangular"⟩ with hA
  obtain ⟨rin, rout, din, dout, L, H⟩ := C20_default env A (by norm_num [A]) (by norm_num [A]) (by norm_num [A]) (by norm_num [A]) (Or.inl rfl) (Or.inl rfl)
    (by norm_num [A]) (by norm_num [A]) (by norm_num [A]) (by norm_num [A])
  have hL : L = 3 := by
    have h := H.trunc
    rw [show convLmax A = .ok 3 by decide] at h
    have := Except.ok.inj h
    omega
  subst hL
  obtain ⟨S, hS, -, -, -, hlm, -⟩ := conv_init H w (some b0)
  have hY := fun n => C20_value env be A rin rout din dout 3 H w (some b0) ⟨6, 8, 16, fun c => X [n, c]⟩ rfl rfl rfl
  choose S' T c Y hS' _ _ hY _ _ _ _ using hY
  have hSS : ∀ n, S' n = S := fun n => by
    have := hS' n
    rw [hS] at this
    exact (Except.ok.inj this).symm
  have hY' : ∀ n, S.forward be ⟨6, 8, 16, fun c => X [n, c]⟩ = .ok (Y n) := fun n => by have := hY n; rw [hSS n] at this; exact this
  obtain ⟨S1, hS1, -⟩ := conv_init H w (some b1)
  have hZ := fun n => C20_value env be A rin rout din dout 3 H w (some b1) ⟨6, 8, 16, fun c => X [n, c]⟩ rfl rfl rfl
  choose S1' T1 c1 Y1 hS1' _ _ hY1 _ _ _ _ using hZ
  have hY1' : ∀ n, S1.forward be ⟨6, 8, 16, fun c => X [n, c]⟩ = .ok (Y1 n) := fun n => by
    have h := hS1' n
    rw [hS1] at h
    have := hY1 n
    rw [← Except.ok.inj h] at this
    exact this
  have hf : ConvFits 3 2 A S.lmax := by
    rw [hlm]
    exact ⟨by norm_num, by norm_num, by norm_num [A], by norm_num [A], by norm_num [A], by norm_num [A], by norm_num, by norm_num⟩
  have hd : ∀ p a, ∃ D, p < 3 → a < 2 → DSpectralConv.init env A true 3 2 p a (fun g i o l => w g i o (blockStart 3 3 p + l))
      (fun ch l m => b0 ch (blockStart 3 3 p + l) (blockStart 3 2 a + m)) = .ok D := by
    intro p a
    by_cases h : p < 3 ∧ a < 2
    · obtain ⟨D, hD, -⟩ := C64_init env hg A w (some b0) S hS 3 2 hf p a h.1 h.2 (fun g i o l => w g i o (blockStart 3 3 p + l))
        (fun ch l m => b0 ch (blockStart 3 3 p + l) (blockStart 3 2 a + m))
      exact ⟨D, fun _ _ => hD⟩
    · obtain ⟨D0, -⟩ := C64_init env hg A w (some b0) S hS 3 2 hf 0 0 (by norm_num) (by norm_num) w (fun _ _ _ => 0)
      exact ⟨D0, fun h1 h2 => absurd ⟨h1, h2⟩ h⟩
  choose D hD using hd
  obtain ⟨BG, hG, β, hβ, hq⟩ := C109_bias_gradient env hg be A w b0 S hS 3 2 hf _ _ (fun p _ a _ => ⟨fun g _ i _ o _ l _ => by rw [hlm],
    fun B hB ch _ l _ m _ => by rw [hlm]; cases hB; rfl⟩) D (fun p hp a ha => hD p a hp ha) 2 X (tileOf [2, 6] 8 16 3 2 X)
    (fun p _ a _ => tileOf_isTile _ _ _ _ _ _ _ _) Q (tileOf [2, 4] 5 12 3 2 Q) (fun p _ a _ => tileOf_isTile _ _ _ _ _ _ _ _)
  rw [hlm] at hG hq
  exact ⟨D, Y, Y1, BG, β, hG b1 S1 hS1 Y Y1 (fun n _ => hY' n) (fun n _ => hY1' n), hβ,
    (hq 2 (by norm_num) 1 (by norm_num)).2.2.2 5 (by norm_num [A]) 0 (by decide) 0 (by decide)⟩

/-- The weight of the same layer, with and without bias: two weights, and the two azimuth ranks of polar rank 2 add up to its share of the gradient. -/
example (env : Env) (hg : ∀ n, (env.gauss n).n = n) (be : C2R) (w w1 : ℕ → ℕ → ℕ → ℕ → ℂ) (b : Option (ℕ → ℕ → ℕ → ℂ)) (X Q : List ℕ → ℕ → ℕ → ℝ) :
    ∃ (D : ℕ → ℕ → DSpectralConv) (Y0 Y1 : ℕ → Ten3 ℝ) (WG : ℕ → ℕ → ℕ → ℕ → ℂ) (γ : ℕ → ℕ → ℕ → ℕ → ℕ → ℕ → ℂ),
      ∑ n ∈ range 2, ∑ o ∈ range 4, pairR 5 12 ((Y1 n).val o) (Q [n, o]) - ∑ n ∈ range 2, ∑ o ∈ range 4, pairR 5 12 ((Y0 n).val o) (Q [n, o]) =
        ∑ gr ∈ range 2, ∑ i ∈ range 3, pairC 2 3 (fun o l => w1 gr i o l - w gr i o l) (WG gr i) ∧
      DSpectralConv.weightBackward 3 2 b.isSome D (tileOf [2, 6] 8 16 3 2 X) (tileOf [2, 4] 5 12 3 2 Q) = .ok γ ∧
      ∑ a ∈ range 2, γ 2 a 1 2 1 0 = WG 1 2 1 2 := by
  set A : ConvArgs := ⟨8, 16, 5, 12, 6, 4, 2, "equiangular", "equiangular"⟩ with hA
  obtain ⟨rin, rout, din, dout, L, H⟩ := C20_default env A (by norm_num [A]) (by norm_num [A]) (by norm_num [A]) (by norm_num [A]) (Or.inl rfl) (Or.inl rfl)
    (by norm_num [A]) (by norm_num [A]) (by norm_num [A]) (by norm_num [A])
  have hL : L = 3 := by
    have h := H.trunc
    rw [show convLmax A = .ok 3 by decide] at h
    have := Except.ok.inj h
    omega
  subst hL
  obtain ⟨S, hS, -, -, -, hlm, -⟩ := conv_init H w b
  have hY := fun n => C20_value env be A rin rout din dout 3 H w b ⟨6, 8, 16, fun c => X [n, c]⟩ rfl rfl rfl
  choose S' T c Y hS' _ _ hY _ _ _ _ using hY
  have hSS : ∀ n, S' n = S := fun n => by
    have := hS' n
    rw [hS] at this
    exact (Except.ok.inj this).symm
  have hY' : ∀ n, S.forward be ⟨6, 8, 16, fun c => X [n, c]⟩ = .ok (Y n) := fun n => by have := hY n; rw [hSS n] at this; exact this
  obtain ⟨S1, hS1, -⟩ := conv_init H w1 b
  have hZ := fun n => C20_value env be A rin rout din dout 3 H w1 b ⟨6, 8, 16, fun c => X [n, c]⟩ rfl rfl rfl
  choose S1' T1 c1 Y1 hS1' _ _ hY1 _ _ _ _ using hZ
  have hY1' : ∀ n, S1.forward be ⟨6, 8, 16, fun c => X [n, c]⟩ = .ok (Y1 n) := fun n => by
    have h := hS1' n
    rw [hS1] at h
    have := hY1 n
    rw [← Except.ok.inj h] at this
    exact this
  have hf : ConvFits 3 2 A S.lmax := by
    rw [hlm]
    exact ⟨by norm_num, by norm_num, by norm_num [A], by norm_num [A], by norm_num [A], by norm_num [A], by norm_num, by norm_num⟩
  have hd : ∀ p a, ∃ D, p < 3 → a < 2 → DSpectralConv.init env A b.isSome 3 2 p a (fun g i o l => w g i o (blockStart 3 3 p + l))
      (fun ch l m => (b.getD fun _ _ _ => 0) ch (blockStart 3 3 p + l) (blockStart 3 2 a + m)) = .ok D := by
    intro p a
    by_cases h : p < 3 ∧ a < 2
    · obtain ⟨D, hD, -⟩ := C64_init env hg A w b S hS 3 2 hf p a h.1 h.2 (fun g i o l => w g i o (blockStart 3 3 p + l))
        (fun ch l m => (b.getD fun _ _ _ => 0) ch (blockStart 3 3 p + l) (blockStart 3 2 a + m))
      exact ⟨D, fun _ _ => hD⟩
    · obtain ⟨D0, -⟩ := C64_init env hg A w b S hS 3 2 hf 0 0 (by norm_num) (by norm_num) w (fun _ _ _ => 0)
      exact ⟨D0, fun h1 h2 => absurd ⟨h1, h2⟩ h⟩
  choose D hD using hd
  obtain ⟨WG, hG, γ, hγ, hq⟩ := C109_weight_gradient env hg be A w b S hS 3 2 hf _ _ (fun p _ a _ => ⟨fun g _ i _ o _ l _ => by rw [hlm],
    fun B hB ch _ l _ m _ => by rw [hlm, hB]; rfl⟩) D (fun p hp a ha => hD p a hp ha) 2 X (tileOf [2, 6] 8 16 3 2 X)
    (fun p _ a _ => tileOf_isTile _ _ _ _ _ _ _ _) Q (tileOf [2, 4] 5 12 3 2 Q) (fun p _ a _ => tileOf_isTile _ _ _ _ _ _ _ _)
  rw [hlm, show A.inChannels / A.groups = 3 by norm_num [A], show A.outChannels / A.groups = 2 by norm_num [A]] at hG hq
  exact ⟨D, Y, Y1, WG, γ, hG w1 S1 hS1 Y Y1 (fun n _ => hY' n) (fun n _ => hY1' n), hγ,
    hq 2 (by norm_num) 1 (by norm_num [A]) 2 (by norm_num) 1 (by norm_num) 0 (by decide)⟩

/-- Six channels of 8 by 16 points: an array with the pairings of a given one is this one at the last point. -/
example (G : ℕ → ℕ → ℕ → ℝ) (G' : ℕ → ℕ → ℕ → ℝ) (hG : ∀ c < 6, ∀ i < 8, ∀ j < 16, G' c i j = G c i j) : G' 5 7 15 = G 5 7 15 :=
  C109_unique 6 8 16 G' G (fun f => sum_congr rfl fun c hc => sum_congr rfl fun i hi => sum_congr rfl fun j hj => by
    rw [hG c (mem_range.1 hc) i (mem_range.1 hi) j (mem_range.1 hj)]) 5 (by norm_num) 7 (by norm_num) 15 (by norm_num)

end Verif.Props
