import Verif.Model.DistSpectralTrain
import Verif.Props.DistSpectralGrad
/-!
Property theorems C110: gradient descent with the distributed spectral convolution follows gradient descent with the serial layer, for any number of steps.
-/
namespace Verif.Props
open Verif Verif.Dist Verif.SHT Verif.FFT Verif.Quad Verif.Legendre Verif.Spec Verif.Truncation Finset

/-- The pairing of the outputs of the serial layer `S` for the inputs `X n` with `Q`; `v` is its value. -/
def LossPairing (be : C2R) (A : ConvArgs) (S : SpectralConv) (B : ℕ) (X Q : List ℕ → ℕ → ℕ → ℝ) (v : ℝ) : Prop :=
  ∃ Y : ℕ → Ten3 ℝ, (∀ n < B, S.forward be ⟨A.inChannels, A.nlatIn, A.nlonIn, fun c => X [n, c]⟩ = .ok (Y n)) ∧
    v = ∑ n ∈ range B, ∑ o ∈ range A.outChannels, pairR A.nlatOut A.nlonOut ((Y n).val o) (Q [n, o])

/-- `WG` and `BG` are the gradients of the pairing with `Q` with respect to the weight and (if there is one) the bias, at the weight `w` and the bias `b`: it changes by the pairing
of the change with the gradient when one of the two is replaced. -/
def ParamGradients (env : Env) (be : C2R) (A : ConvArgs) (L : ℕ) (w : ℕ → ℕ → ℕ → ℕ → ℂ) (b : Option (ℕ → ℕ → ℕ → ℂ)) (B : ℕ) (X Q : List ℕ → ℕ → ℕ → ℝ)
    (WG : ℕ → ℕ → ℕ → ℕ → ℂ) (BG : ℕ → ℕ → ℕ → ℂ) : Prop :=
  ∃ S v, SpectralConv.init env A w b = .ok S ∧ LossPairing be A S B X Q v ∧
    (∀ w1 S1 v1, SpectralConv.init env A w1 b = .ok S1 → LossPairing be A S1 B X Q v1 →
      v1 - v = ∑ gr ∈ range A.groups, ∑ i ∈ range (A.inChannels / A.groups), pairC (A.outChannels / A.groups) L (fun o l => w1 gr i o l - w gr i o l) (WG gr i)) ∧
    ∀ b0, b = some b0 → ∀ b1 S1 v1, SpectralConv.init env A w (some b1) = .ok S1 → LossPairing be A S1 B X Q v1 →
      v1 - v = ∑ c ∈ range A.inChannels, pairC L L (fun l m => b1 c l m - b0 c l m) (BG c)

/-- A step of serial gradient descent from `(w, b)` to `(w1, b1)`: `Y` are the outputs of the serial layer, the gradient of the loss is taken at these outputs. -/
def DescentStep (env : Env) (be : C2R) (A : ConvArgs) (L : ℕ) (lr : ℝ) (B : ℕ) (X : List ℕ → ℕ → ℕ → ℝ)
    (loss : (List ℕ → ℕ → ℕ → ℝ) → List ℕ → ℕ → ℕ → ℝ) (w : ℕ → ℕ → ℕ → ℕ → ℂ) (b : Option (ℕ → ℕ → ℕ → ℂ)) (w1 : ℕ → ℕ → ℕ → ℕ → ℂ)
    (b1 : Option (ℕ → ℕ → ℕ → ℂ)) : Prop :=
  ∃ (S : SpectralConv) (Y : ℕ → Ten3 ℝ), SpectralConv.init env A w b = .ok S ∧
    (∀ n < B, S.forward be ⟨A.inChannels, A.nlatIn, A.nlonIn, fun c => X [n, c]⟩ = .ok (Y n)) ∧
    ∃ WG BG, ParamGradients env be A L w b B X (loss fun idx => (Y (idx.getD 0 0)).val (idx.getD 1 0)) WG BG ∧
      (∀ gr i o l, w1 gr i o l = w gr i o l - lr * WG gr i o l) ∧ b1 = b.map fun b0 c l m => b0 c l m - lr * BG c l m

/-- The ranks compute the tiles of the gradient of the loss from the tiles of the outputs. -/
def LossLocal (A : ConvArgs) (Pp Pa B : ℕ) (lossD : (ℕ → ℕ → LTen ℝ) → ℕ → ℕ → LTen ℝ) (loss : (List ℕ → ℕ → ℕ → ℝ) → List ℕ → ℕ → ℕ → ℝ) : Prop :=
  ∀ Y y, (∀ p < Pp, ∀ a < Pa, IsTile [B, A.outChannels] A.nlatOut A.nlonOut Pp Pa Y p a (y p a)) →
    ∀ p < Pp, ∀ a < Pa, IsTile [B, A.outChannels] A.nlatOut A.nlonOut Pp Pa (loss Y) p a (lossD y p a)

theorem init_any {env : Env} {A : ConvArgs} {w : ℕ → ℕ → ℕ → ℕ → ℂ} {b : Option (ℕ → ℕ → ℕ → ℂ)} {S : SpectralConv}
    (h : SpectralConv.init env A w b = .ok S) (w1 : ℕ → ℕ → ℕ → ℕ → ℂ) (b1 : Option (ℕ → ℕ → ℕ → ℂ)) (hb : b1.isSome = b.isSome) :
    ∃ S1, SpectralConv.init env A w1 b1 = .ok S1 ∧ S1.lmax = S.lmax := by
  unfold SpectralConv.init at h ⊢
  split at h
  · cases h
  rename_i h0
  rw [if_neg h0]
  split at h
  · cases h
  rename_i h1
  rw [if_neg h1]
  split at h
  · cases h
  rename_i h2
  rw [if_neg h2]
  split at h
  · cases h
  rename_i lmax hl
  split at h
  · cases h
  rename_i T hT
  split at h
  · cases h
  rename_i I hI
  split at h
  · cases h
  rename_i h3
  split at h
  · cases h
  rename_i h4
  split at h
  · cases h
  rename_i h5
  rw [if_neg h3, if_neg h4, if_neg h5]
  cases b with
  | none =>
    cases b1 with
    | none => cases h; exact ⟨_, rfl, rfl⟩
    | some b1 => cases hb
  | some b =>
    cases b1 with
    | none => cases hb
    | some b1 =>
      dsimp only at h ⊢
      split at h
      · cases h
      cases h
      exact ⟨_, rfl, rfl⟩

/-- The serial layer accepts every input of its shape. -/
theorem serial_forward_ok {env : Env} {A : ConvArgs} {w : ℕ → ℕ → ℕ → ℕ → ℂ} {b : Option (ℕ → ℕ → ℕ → ℂ)} {S : SpectralConv}
    (hS : SpectralConv.init env A w b = .ok S) (hi : 0 < A.nlonIn) (ho : 0 < A.nlonOut) (be : C2R) (f : ℕ → ℕ → ℕ → ℝ) :
    ∃ y, S.forward be ⟨A.inChannels, A.nlatIn, A.nlonIn, f⟩ = .ok y := by
  obtain ⟨hgp, hin, hout, hdiv, L, hL, hc, hT, hI, -, -, -, -, hSL, hb⟩ := spectralConv_parts hS
  obtain ⟨t1, t2, hgr⟩ := realSHT_trunc hL hT
  obtain ⟨i1, i2⟩ := inverseSHT_trunc hL hI
  obtain ⟨n1, n2⟩ := realSHT_sizes hT
  obtain ⟨n3, n4⟩ := inverseSHT_sizes hI
  dsimp only at n1 n2 n3 n4
  obtain ⟨r, hr1, hr2⟩ : ∃ r, (∀ B, b = some B → S.bias = some (r, B)) ∧ (b = none → S.bias = none) := by
    rcases hb with ⟨rfl, h⟩ | ⟨B', r, rfl, hr, h⟩
    · exact ⟨⟨0, fun _ => 0, fun _ => 0⟩, by simp, fun _ => h⟩
    · exact ⟨r, fun B hB => by cases hB; exact h, by simp⟩
  have hC := fun c => realSHT_value S.sht (by rw [n2]; exact hi) (f c)
  rw [n1, n2] at hC
  choose Cf hCf c0 c1 _ using hC
  obtain ⟨Z, hZ, z0, z1, z2, zv⟩ := serial_mix hS r hr1 hr2 be
    ⟨A.inChannels, A.nlatIn, A.nlonIn, f⟩ rfl Cf hCf
  simp only [c0, c1, t1, t2] at z1 z2
  have hinv := fun oc => inverseSHT_value be S.isht (by rw [n4]; exact ho) (by rw [i2]; exact hL) (Z.val oc)
  rw [i1, i2] at hinv
  choose F hF _ _ _ using hinv
  rw [hZ, mapChannels_ok F (fun ch => by rw [z1, z2]; exact hF ch)]
  exact ⟨_, rfl⟩

theorem lossPairing_unique {be : C2R} {A : ConvArgs} {S : SpectralConv} {B : ℕ} {X Q : List ℕ → ℕ → ℕ → ℝ} {v v' : ℝ}
    (h : LossPairing be A S B X Q v) (h' : LossPairing be A S B X Q v') : v = v' := by
  obtain ⟨Y, hY, rfl⟩ := h
  obtain ⟨Y', hY', rfl⟩ := h'
  refine sum_congr rfl fun n hn => ?_
  have e := hY n (mem_range.1 hn)
  rw [hY' n (mem_range.1 hn)] at e
  rw [Except.ok.inj e]

/-- C110: `ParamGradients` determines the gradients: at every index of the weight and of the bias there is only one value. -/
theorem C110_gradients_unique (env : Env) (be : C2R) (A : ConvArgs) (hi : 0 < A.nlonIn) (ho : 0 < A.nlonOut) (L : ℕ) (w : ℕ → ℕ → ℕ → ℕ → ℂ)
    (b : Option (ℕ → ℕ → ℕ → ℂ)) (B : ℕ) (X Q : List ℕ → ℕ → ℕ → ℝ) (WG WG' : ℕ → ℕ → ℕ → ℕ → ℂ) (BG BG' : ℕ → ℕ → ℕ → ℂ)
    (h : ParamGradients env be A L w b B X Q WG BG) (h' : ParamGradients env be A L w b B X Q WG' BG') :
    (∀ gr < A.groups, ∀ i < A.inChannels / A.groups, ∀ o < A.outChannels / A.groups, ∀ l < L, WG gr i o l = WG' gr i o l) ∧
      (b.isSome = true → ∀ c < A.inChannels, ∀ l < L, ∀ m < L, BG c l m = BG' c l m) := by
  obtain ⟨S, v, hS, hv, h1, h2⟩ := h
  obtain ⟨S', v', hS', hv', h1', h2'⟩ := h'
  rw [hS] at hS'
  cases hS'
  have hvv := lossPairing_unique hv hv'
  subst hvv
  have hval : ∀ w1 b1, b1.isSome = b.isSome → ∃ S1 v1, SpectralConv.init env A w1 b1 = .ok S1 ∧ LossPairing be A S1 B X Q v1 := by
    intro w1 b1 hb
    obtain ⟨S1, hS1, -⟩ := init_any hS w1 b1 hb
    choose Y hY using fun n => serial_forward_ok hS1 hi ho be fun c => X [n, c]
    exact ⟨S1, _, hS1, Y, fun n _ => hY n, rfl⟩
  have hz : ∀ n1 n2 (u : ℕ → ℕ → ℂ), pairC n1 n2 (fun _ _ => 0) u = 0 := fun n1 n2 u => by simp [pairC]
  refine ⟨fun gr hgr i hii => ?_, fun hbs c hc => ?_⟩
  · refine (C104_unique (A.outChannels / A.groups) L).2 (WG gr i) (WG' gr i) fun f => ?_
    obtain ⟨S1, v1, e1, e2⟩ := hval (fun gr' i' o l => w gr' i' o l + if gr' = gr ∧ i' = i then f o l else 0) b rfl
    have e := (h1 _ S1 v1 e1 e2).symm.trans (h1' _ S1 v1 e1 e2)
    have one : ∀ H : ℕ → ℕ → ℕ → ℕ → ℂ, ∑ gr' ∈ range A.groups, ∑ i' ∈ range (A.inChannels / A.groups), pairC (A.outChannels / A.groups) L
        (fun o l => (w gr' i' o l + if gr' = gr ∧ i' = i then f o l else 0) - w gr' i' o l) (H gr' i') = pairC (A.outChannels / A.groups) L f (H gr i) := by
      intro H
      rw [sum_eq_single_of_mem gr (mem_range.2 hgr) fun gr' _ hne => sum_eq_zero fun i' _ => by simp [hne, hz],
        sum_eq_single_of_mem i (mem_range.2 hii) fun i' _ hne => by simp [hne, hz]]
      simp
    rw [one WG, one WG'] at e
    exact e
  · obtain ⟨b, rfl⟩ := Option.isSome_iff_exists.1 hbs
    refine (C104_unique L L).2 (BG c) (BG' c) fun f => ?_
    obtain ⟨S1, v1, e1, e2⟩ := hval w (some fun c' l m => b c' l m + if c' = c then f l m else 0) rfl
    have e := (h2 b rfl _ S1 v1 e1 e2).symm.trans (h2' b rfl _ S1 v1 e1 e2)
    have one : ∀ H : ℕ → ℕ → ℕ → ℂ, ∑ c' ∈ range A.inChannels, pairC L L (fun l m => (b c' l m + if c' = c then f l m else 0) - b c' l m) (H c') =
        pairC L L f (H c) := by
      intro H
      rw [sum_eq_single_of_mem c (mem_range.2 hc) fun c' _ hne => by simp [hne, hz]]
      simp
    rw [one BG, one BG'] at e
    exact e

/-- One step: the distributed update leads from shares of `(w, b)` to shares of the serially updated parameters. -/
theorem C110_step (env : Env) (hg : ∀ n, (env.gauss n).n = n) (be : C2R) (A : ConvArgs) (w : ℕ → ℕ → ℕ → ℕ → ℂ)
    (b : Option (ℕ → ℕ → ℕ → ℂ)) (S : SpectralConv) (hS : SpectralConv.init env A w b = .ok S) (Pp Pa : ℕ) (hf : ConvFits Pp Pa A S.lmax)
    (θ : ConvParams) (hsh : ∀ p < Pp, ∀ a < Pa, HoldsShare A S.lmax Pp Pa w b p a (θ.weight p a) (θ.bias p a)) (lr : ℝ)
    (B : ℕ) (X : List ℕ → ℕ → ℕ → ℝ) (x : ℕ → ℕ → LTen ℝ)
    (hx : ∀ p < Pp, ∀ a < Pa, IsTile [B, A.inChannels] A.nlatIn A.nlonIn Pp Pa X p a (x p a))
    (lossD : (ℕ → ℕ → LTen ℝ) → ℕ → ℕ → LTen ℝ) (loss : (List ℕ → ℕ → ℕ → ℝ) → List ℕ → ℕ → ℕ → ℝ) (hloss : LossLocal A Pp Pa B lossD loss) :
    ∃ w1 b1, DescentStep env be A S.lmax lr B X loss w b w1 b1 ∧ ∃ θ', trainStep env be A b.isSome Pp Pa lr x lossD θ = .ok θ' ∧
      ∀ p < Pp, ∀ a < Pa, HoldsShare A S.lmax Pp Pa w1 b1 p a (θ'.weight p a) (θ'.bias p a) := by
  have hY := fun n => serial_forward_ok hS (lt_of_lt_of_le hf.azimuth hf.lonIn) (lt_of_lt_of_le hf.azimuth hf.lonOut) be fun c => X [n, c]
  choose Y hY using hY
  obtain ⟨D, hD, hDv⟩ := collect_ok hf.polar hf.azimuth (f := fun p a => DSpectralConv.init env A b.isSome Pp Pa p a (θ.weight p a) (θ.bias p a))
    (Q := fun p a d => DSpectralConv.init env A b.isSome Pp Pa p a (θ.weight p a) (θ.bias p a) = .ok d) (fun p hp a ha => by
      obtain ⟨d, h, -⟩ := C64_init env hg A w b S hS Pp Pa hf p a hp ha (θ.weight p a) (θ.bias p a)
      exact ⟨d, h, h⟩)
  have hD' : ∀ p < Pp, ∀ a < Pa, DSpectralConv.init env A b.isSome Pp Pa p a (θ.weight p a) (θ.bias p a) = .ok (D p a) := fun p hp a ha => (hDv p hp a ha).2
  obtain ⟨y, hy, hyt⟩ := C64_forward env hg be A w b S hS Pp Pa hf θ.weight θ.bias hsh D hD' B X x hx Y (fun n _ => hY n)
  set Q := loss fun idx => (Y (idx.getD 0 0)).val (idx.getD 1 0) with hQ
  have hgt := hloss _ y hyt
  obtain ⟨WG, hW, γ, hγ, hγt⟩ := C109_weight_gradient env hg be A w b S hS Pp Pa hf θ.weight θ.bias hsh D hD' B X x hx Q (lossD y) hgt
  have hWv : ∀ w1 S1 v1, SpectralConv.init env A w1 b = .ok S1 → LossPairing be A S1 B X Q v1 →
      v1 - ∑ n ∈ range B, ∑ o ∈ range A.outChannels, pairR A.nlatOut A.nlonOut ((Y n).val o) (Q [n, o]) = ∑ gr ∈ range A.groups,
        ∑ i ∈ range (A.inChannels / A.groups), pairC (A.outChannels / A.groups) S.lmax (fun o l => w1 gr i o l - w gr i o l) (WG gr i) := by
    rintro w1 S1 v1 h1 ⟨Y1, hY1, e⟩
    rw [e]
    exact hW w1 S1 h1 Y Y1 (fun n _ => hY n) hY1
  have hw' : ∀ p < Pp, ∀ a, a < Pa → ∀ gr < A.groups, ∀ i < A.inChannels / A.groups, ∀ o < A.outChannels / A.groups, ∀ l < blockSize S.lmax Pp p,
      sgdWeight Pa lr θ.weight γ p a gr i o l = w gr i o (blockStart S.lmax Pp p + l) - lr * WG gr i o (blockStart S.lmax Pp p + l) := by
    intro p hp a ha gr hgr i hi o ho l hl
    unfold sgdWeight
    rw [hγt p hp gr hgr i hi o ho l hl, (hsh p hp a ha).1 gr hgr i hi o ho l hl]
  cases b with
  | none =>
    refine ⟨fun gr i o l => w gr i o l - lr * WG gr i o l, none, ⟨S, Y, hS, fun n _ => hY n, WG, fun _ _ _ => 0,
      ⟨S, _, hS, ⟨Y, fun n _ => hY n, rfl⟩, hWv, by simp⟩, fun _ _ _ _ => rfl, rfl⟩, ⟨sgdWeight Pa lr θ.weight γ, θ.bias⟩, ?_,
      fun p hp a ha => ⟨hw' p hp a ha, by simp⟩⟩
    unfold trainStep
    rw [hD, except_bind_ok, hy, except_bind_ok, hγ, except_bind_ok, if_neg (by simp)]
    rfl
  | some b =>
    obtain ⟨BG, hB, β, hβ, hβt⟩ := C109_bias_gradient env hg be A w b S hS Pp Pa hf θ.weight θ.bias hsh D hD' B X x hx Q (lossD y) hgt
    refine ⟨fun gr i o l => w gr i o l - lr * WG gr i o l, some fun c l m => b c l m - lr * BG c l m, ⟨S, Y, hS, fun n _ => hY n, WG, BG,
      ⟨S, _, hS, ⟨Y, fun n _ => hY n, rfl⟩, hWv, ?_⟩, fun _ _ _ _ => rfl, rfl⟩, ⟨sgdWeight Pa lr θ.weight γ, sgdBias lr θ.bias β⟩, ?_,
      fun p hp a ha => ⟨hw' p hp a ha, fun b1 e c hc l hl m hm => ?_⟩⟩
    · rintro b0 e0 b1 S1 v1 h1 ⟨Y1, hY1, e⟩
      cases e0
      rw [e]
      exact hB b1 S1 h1 Y Y1 (fun n _ => hY n) hY1
    · unfold trainStep
      rw [hD, except_bind_ok, hy, except_bind_ok, hγ, except_bind_ok, if_pos (by simp), hβ, except_bind_ok]
      rfl
    · cases e
      show sgdBias lr θ.bias β p a c l m = _
      unfold sgdBias
      rw [(hβt p hp a ha).2.2.2 c hc l hl m hm, (hsh p hp a ha).2 b rfl c hc l hl m hm]

/-- C110. Let the ranks hold their shares of the parameters `(w0, b0)` of a serial spectral convolution (with or without bias), let `X t` be the input of step `t`, of which they
hold the tiles, and let them compute the tiles of the gradient of the loss. Then there is a run `(W t, Bi t)` of serial gradient descent from `(w0, b0)` such that, for every
number of steps, the distributed training succeeds and the ranks hold their shares of the parameters of that run. -/
theorem C110_training (env : Env) (hg : ∀ n, (env.gauss n).n = n) (be : C2R) (A : ConvArgs) (w0 : ℕ → ℕ → ℕ → ℕ → ℂ)
    (b0 : Option (ℕ → ℕ → ℕ → ℂ)) (S : SpectralConv) (hS : SpectralConv.init env A w0 b0 = .ok S) (Pp Pa : ℕ) (hf : ConvFits Pp Pa A S.lmax)
    (θ : ConvParams) (hsh : ∀ p < Pp, ∀ a < Pa, HoldsShare A S.lmax Pp Pa w0 b0 p a (θ.weight p a) (θ.bias p a)) (lr : ℝ)
    (B : ℕ) (X : ℕ → List ℕ → ℕ → ℕ → ℝ) (x : ℕ → ℕ → ℕ → LTen ℝ)
    (hx : ∀ t, ∀ p < Pp, ∀ a < Pa, IsTile [B, A.inChannels] A.nlatIn A.nlonIn Pp Pa (X t) p a (x t p a))
    (lossD : ℕ → (ℕ → ℕ → LTen ℝ) → ℕ → ℕ → LTen ℝ) (loss : ℕ → (List ℕ → ℕ → ℕ → ℝ) → List ℕ → ℕ → ℕ → ℝ)
    (hloss : ∀ t, LossLocal A Pp Pa B (lossD t) (loss t)) :
    ∃ (W : ℕ → ℕ → ℕ → ℕ → ℕ → ℂ) (Bi : ℕ → Option (ℕ → ℕ → ℕ → ℂ)), W 0 = w0 ∧ Bi 0 = b0 ∧
      (∀ t, DescentStep env be A S.lmax lr B (X t) (loss t) (W t) (Bi t) (W (t + 1)) (Bi (t + 1))) ∧
      ∀ t, ∃ θ', train env be A b0.isSome Pp Pa lr x lossD θ t = .ok θ' ∧
        ∀ p < Pp, ∀ a < Pa, HoldsShare A S.lmax Pp Pa (W t) (Bi t) p a (θ'.weight p a) (θ'.bias p a) := by
  -- a state of both runs
  let Inv : (ℕ → ℕ → ℕ → ℕ → ℂ) × Option (ℕ → ℕ → ℕ → ℂ) → ConvParams → Prop := fun u θ => u.2.isSome = b0.isSome ∧ ∀ p < Pp, ∀ a < Pa,
    HoldsShare A S.lmax Pp Pa u.1 u.2 p a (θ.weight p a) (θ.bias p a)
  have step : ∀ (t : ℕ) (u : (ℕ → ℕ → ℕ → ℕ → ℂ) × Option (ℕ → ℕ → ℕ → ℂ)) (θ : ConvParams),
      ∃ (u' : (ℕ → ℕ → ℕ → ℕ → ℂ) × Option (ℕ → ℕ → ℕ → ℂ)) (θ' : ConvParams),
      Inv u θ → DescentStep env be A S.lmax lr B (X t) (loss t) u.1 u.2 u'.1 u'.2 ∧
        trainStep env be A b0.isSome Pp Pa lr (x t) (lossD t) θ = .ok θ' ∧ Inv u' θ' := by
    intro t u θ
    by_cases h : Inv u θ
    · obtain ⟨S1, hS1, e1⟩ := init_any hS u.1 u.2 h.1
      obtain ⟨w1, b1, h1, θ', h2, h3⟩ := C110_step env hg be A u.1 u.2 S1 hS1 Pp Pa (by rw [e1]; exact hf) θ (by rw [e1]; exact h.2) lr B (X t) (x t) (hx t)
        (lossD t) (loss t) (hloss t)
      rw [e1] at h1 h3
      rw [h.1] at h2
      refine ⟨(w1, b1), θ', fun _ => ⟨h1, h2, ?_, h3⟩⟩
      obtain ⟨_, _, _, _, _, _, _, _, e⟩ := h1
      dsimp only
      rw [e, ← h.1, Option.isSome_map]
    · exact ⟨u, θ, fun h' => absurd h' h⟩
  choose U T hstep using step
  let run : ℕ → ((ℕ → ℕ → ℕ → ℕ → ℂ) × Option (ℕ → ℕ → ℕ → ℂ)) × ConvParams :=
    fun t => Nat.rec ((w0, b0), θ) (fun t s => (U t s.1 s.2, T t s.1 s.2)) t
  have hinv : ∀ t, Inv (run t).1 (run t).2 := by
    intro t
    induction t with
    | zero => exact ⟨rfl, hsh⟩
    | succ t ih => exact (hstep t _ _ ih).2.2
  have htr : ∀ t, train env be A b0.isSome Pp Pa lr x lossD θ t = .ok (run t).2 := by
    intro t
    induction t with
    | zero => rfl
    | succ t ih =>
      unfold train
      rw [ih, except_bind_ok]
      exact (hstep t _ _ (hinv t)).2.1
  exact ⟨fun t => (run t).1.1, fun t => (run t).1.2, rfl, rfl, fun t => (hstep t _ _ (hinv t)).1, fun t => ⟨(run t).2, htr t, (hinv t).2⟩⟩

/-- From an 8 by 16 to a 5 by 12 equiangular grid (truncation 3), 6 to 4 channels in two groups, a batch of two, on a 3 by 2 process grid, with the gradient `2 (y - target)` of the
squared distance to targets: with and without bias, for all initial parameters, inputs, targets and learning rates and every number of steps the distributed training succeeds, and the ranks
hold shares of a serial run. -/
example (env : Env) (hg : ∀ n, (env.gauss n).n = n) (be : C2R) (w0 : ℕ → ℕ → ℕ → ℕ → ℂ) (b0 : Option (ℕ → ℕ → ℕ → ℂ)) (lr : ℝ) (X Tg : ℕ → List ℕ → ℕ → ℕ → ℝ) :
    ∃ (W : ℕ → ℕ → ℕ → ℕ → ℕ → ℂ) (Bi : ℕ → Option (ℕ → ℕ → ℕ → ℂ)), W 0 = w0 ∧ Bi 0 = b0 ∧
      (∀ t, DescentStep env be ⟨8, 16, 5, 12, 6, 4, 2, "equiangular", "equiangular"⟩ 3 lr 2 (X t) (fun Y idx k j => 2 * (Y idx k j - Tg t idx k j))
        (W t) (Bi t) (W (t + 1)) (Bi (t + 1))) ∧
      ∀ t, ∃ θ', train env be ⟨8, 16, 5, 12, 6, 4, 2, "equiangular", "equiangular"⟩ b0.isSome 3 2 lr (fun t => tileOf [2, 6] 8 16 3 2 (X t))
          (fun t y p a => ⟨(y p a).lead, (y p a).d1, (y p a).d2, fun idx k j => 2 * ((y p a).val idx k j - (tileOf [2, 4] 5 12 3 2 (Tg t) p a).val idx k j)⟩)
          ⟨fun p _ gr i o l => w0 gr i o (blockStart 3 3 p + l), fun p a c l m => (b0.getD fun _ _ _ => 0) c (blockStart 3 3 p + l) (blockStart 3 2 a + m)⟩ t = .ok θ' ∧
        ∀ p < 3, ∀ a < 2, HoldsShare ⟨8, 16, 5, 12, 6, 4, 2, "equiangular", "equiangular"⟩ 3 3 2 (W t) (Bi t) p a (θ'.weight p a) (θ'.bias p a) := by
  set A : ConvArgs := ⟨8, 16, 5, 12, 6, 4, 2, "equiangular", "equiangular"⟩ with hA
  obtain ⟨rin, rout, din, dout, L, H⟩ := C20_default env A (by norm_num [A]) (by norm_num [A]) (by norm_num [A]) (by norm_num [A]) (Or.inl rfl) (Or.inl rfl)
    (by norm_num [A]) (by norm_num [A]) (by norm_num [A]) (by norm_num [A])
  have hL : L = 3 := by
    have h := H.trunc
    rw [show convLmax A = .ok 3 by decide] at h
    have := Except.ok.inj h
    omega
  subst hL
  obtain ⟨S, hS, -, -, -, hlm, -⟩ := conv_init H w0 b0
  have hf : ConvFits 3 2 A S.lmax := by
    rw [hlm]
    exact ⟨by norm_num, by norm_num, by norm_num [A], by norm_num [A], by norm_num [A], by norm_num [A], by norm_num, by norm_num⟩
  have h := C110_training env hg be A w0 b0 S hS 3 2 hf
    ⟨fun p _ gr i o l => w0 gr i o (blockStart 3 3 p + l), fun p a c l m => (b0.getD fun _ _ _ => 0) c (blockStart 3 3 p + l) (blockStart 3 2 a + m)⟩
    (fun p _ a _ => ⟨fun g _ i _ o _ l _ => by rw [hlm], fun B hB ch _ l _ m _ => by rw [hlm, hB]; rfl⟩) lr 2 X
    (fun t => tileOf [2, 6] 8 16 3 2 (X t)) (fun t p _ a _ => tileOf_isTile _ _ _ _ _ _ _ _)
    (fun t y p a => ⟨(y p a).lead, (y p a).d1, (y p a).d2, fun idx k j => 2 * ((y p a).val idx k j - (tileOf [2, 4] 5 12 3 2 (Tg t) p a).val idx k j)⟩)
    (fun t Y idx k j => 2 * (Y idx k j - Tg t idx k j)) (fun t Y y hy p hp a ha => by
      obtain ⟨e1, e2, e3, e4⟩ := hy p hp a ha
      refine ⟨e1, e2, e3, fun idx hidx k hk j hj => ?_⟩
      dsimp only
      rw [e4 idx hidx k hk j hj]
      rfl)
  rw [hlm] at h
  exact h

end Verif.Props
