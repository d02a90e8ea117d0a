import Mathlib.Geometry.Euclidean.Angle.Unoriented.TriangleInequality
import Mathlib.Analysis.InnerProductSpace.PiL2
import Verif.Spec.Transformer
import Verif.Props.LSNO
import Verif.Props.AttentionLayer
/-!
Lemmas about the layers of the spherical transformer.
-/
namespace Verif.S2T
open Verif Verif.Dist Verif.FFT Verif.Quad Verif.Truncation Verif.SHT Verif.SFNO Verif.Filter Verif.Disco Verif.Spec Verif.Spec.Attn Verif.Attn Verif.Props Finset

/-! ### Encoder and decoder -/

section EncDec
variable {env : Env} {inC outC nlatIn nlonIn nlatOut nlonOut : ℕ} {shape : List ℕ} {basis gridIn gridOut : String} {B : Basis} {rin rout : Rule}

/-- An encoder is built, and convolves with filters of the cutoff of its input grid. -/
theorem encoder_ready (hB : LSNO.getBasis shape basis = .ok B) (hK : 0 < B.kernelSize) (hC : inC ≠ 0)
    (hin : precomputeLatitudes env.gauss env.tol env.maxiter nlatIn gridIn = .ok rin) (hnin : rin.n = nlatIn)
    (hout : precomputeLatitudes env.gauss env.tol env.maxiter nlatOut gridOut = .ok rout) (h2 : 2 ≤ nlatIn) (ho : 0 < nlatOut) (hI : 0 < nlonIn)
    (hO : 0 < nlonOut) (hd : nlonOut ∣ nlonIn) (hle : nlatOut ≤ nlonIn) (w : ℕ → ℕ → ℕ → ℝ) :
    ∃ k rest f N, shape = k :: rest ∧ LSNO.cutoffFactor basis = some f ∧
      LSNO.encoderInit env inC outC nlatIn nlonIn nlatOut nlonOut shape basis gridIn gridOut w = .ok N ∧
      LSNO.DiscoFits N inC outC nlatIn nlonIn nlatOut nlonOut ∧
      Convolves N B rin rout inC outC nlonIn nlatOut nlonOut (((k : ℝ) + 1) * f * Real.pi / ((nlatIn : ℝ) - 1)) w none := by
  obtain ⟨k, rest, f, e1, e2, e3, e4⟩ := cutoff_pos h2 hB
  obtain ⟨N, n1, n2, n3, n4, n5, n6⟩ := LSNO.discoInit_ready (a := ⟨inC, outC, nlatIn, nlonIn, nlatOut, nlonOut, shape, basis, gridIn,
      gridOut, ((k : ℝ) + 1) * f * Real.pi / ((nlatIn : ℝ) - 1)⟩) (B := B) (rin := rin) (rout := rout)
    ⟨hB, hK, hC, hin, hnin, hout, ho, hI, hO, hd, e4⟩ hle w none
  have := disco_value n2 hB hK hin hnin hout hI hle n5 n6
  rw [n3, n4] at this
  refine ⟨k, rest, f, N, e1, e2, ?_, n2, this⟩
  unfold LSNO.encoderInit
  rw [e3, except_bind_ok, n1]

/-- A decoder is built; it convolves on its output grid with filters of the cutoff of its input grid. -/
theorem decoder_ready (sht : Bool) (hB : LSNO.getBasis shape basis = .ok B) (hK : 0 < B.kernelSize) (hC : inC ≠ 0)
    (hin : precomputeLatitudes env.gauss env.tol env.maxiter nlatIn gridIn = .ok rin) (hnin : rin.n = nlatIn)
    (hout : precomputeLatitudes env.gauss env.tol env.maxiter nlatOut gridOut = .ok rout) (hnout : rout.n = nlatOut) (h2 : 2 ≤ nlatIn) (h2' : 2 ≤ nlonIn)
    (ho : 0 < nlatOut) (hO : 0 < nlonOut) (hle : nlatOut ≤ nlonOut)
    (up : if sht then (∃ qi qo, gridRule env.gauss env.tol env.maxiter nlatIn gridIn = .ok qi ∧ gridRule env.gauss env.tol env.maxiter nlatOut gridOut = .ok qo) ∧
        ∃ M, 0 < M ∧ sizes nlatIn nlonIn none none gridIn = .ok (M, M)
      else LatGrid nlatOut rout.x ∧ LatGrid nlatIn rin.x) (w : ℕ → ℕ → ℕ → ℝ) :
    ∃ k rest f D, shape = k :: rest ∧ LSNO.cutoffFactor basis = some f ∧
      LSNO.Decoder.init env sht inC outC nlatIn nlonIn nlatOut nlonOut shape basis gridIn gridOut w = .ok D ∧
      LSNO.UpFits D.up nlatIn nlonIn nlatOut nlonOut ∧ LSNO.Upsample.init env sht nlatIn nlonIn nlatOut nlonOut gridIn gridOut = .ok D.up ∧
      LSNO.DiscoFits D.conv inC outC nlatOut nlonOut nlatOut nlonOut ∧
      Convolves D.conv B rout rout inC outC nlonOut nlatOut nlonOut (((k : ℝ) + 1) * f * Real.pi / ((nlatIn : ℝ) - 1)) w none := by
  obtain ⟨k, rest, f, e1, e2, e3, e4⟩ := cutoff_pos h2 hB
  obtain ⟨N, n1, n2, n3, n4, n5, n6⟩ := LSNO.discoInit_ready (a := ⟨inC, outC, nlatOut, nlonOut, nlatOut, nlonOut, shape, basis,
      gridOut, gridOut, ((k : ℝ) + 1) * f * Real.pi / ((nlatIn : ℝ) - 1)⟩) (B := B) (rin := rout) (rout := rout)
    ⟨hB, hK, hC, hout, hnout, hout, ho, hO, hO, dvd_refl _, e4⟩ hle w none
  have hv := disco_value n2 hB hK hout hnout hout hO hle n5 n6
  rw [n3, n4] at hv
  obtain ⟨U, u1, u2⟩ : ∃ U, LSNO.Upsample.init env sht nlatIn nlonIn nlatOut nlonOut gridIn gridOut = .ok U ∧ LSNO.UpFits U nlatIn nlonIn nlatOut nlonOut := by
    cases sht with
    | true =>
      rw [if_pos rfl] at up
      obtain ⟨⟨ri, ro, hri, hro⟩, M, hM, hs⟩ := up
      refine ⟨.sht (shtOf nlatIn nlonIn M ri) (ishtOf nlatOut nlonOut M ro), ?_, .sht M rfl rfl rfl rfl hM ?_ ?_⟩
      · rw [LSNO.Upsample.init, if_pos rfl, realSHT_init env _ ri M hri hs hM, except_bind_ok]
        rw [inverseRealSHT_init env _ ro M hro (sizes_explicit _ _ _ _ hM) hM]
        rfl
      · show 0 < nlonIn; omega
      · exact hO
    | false =>
      rw [if_neg (by simp)] at up
      have hb : ResampleBuilt env.gauss env.tol env.maxiter ⟨nlatIn, nlonIn, nlatOut, nlonOut, gridIn, gridOut, "bilinear"⟩ rin rout :=
        ⟨.inl rfl, hin, hout, hnin, hnout, up.2, up.1, h2, h2'⟩
      obtain ⟨R, _, _, _, hR, _⟩ := resample_forward hb
      refine ⟨.resample R, ?_, .resample hb hR hO⟩
      rw [LSNO.Upsample.init, if_neg (by simp), hR]
      rfl
  refine ⟨k, rest, f, ⟨U, N⟩, e1, e2, ?_, u2, u1, n2, hv⟩
  unfold LSNO.Decoder.init
  rw [u1, except_bind_ok, e3, except_bind_ok, n1]
  rfl

end EncDec

/-! ### Attention -/

/-- The whole layer at two output points whose sets of input points correspond. -/
theorem layer_map {p : Params} {inC Ck Cv outC : ℕ} {scale : ℝ} {w : ℕ → ℝ} {nb nb' : ℕ → ℕ → Finset (ℕ × ℕ)} {k v q k' v' q' : T4} {b ho wo ho' wo' : ℕ}
    (σ : ℕ × ℕ → ℕ × ℕ) (hnb : nb' ho' wo' = (nb ho wo).image σ) (hσ : Set.InjOn σ (nb ho wo))
    (hw : ∀ z ∈ nb ho wo, w (σ z).1 = w z.1)
    (hk : ∀ z ∈ nb ho wo, ∀ c < inC, k' b c (σ z).1 (σ z).2 = k b c z.1 z.2)
    (hv : ∀ z ∈ nb ho wo, ∀ c < inC, v' b c (σ z).1 (σ z).2 = v b c z.1 z.2)
    (hq : ∀ c < inC, q' b c ho' wo' = q b c ho wo) (o : ℕ) :
    layer p inC Ck Cv outC scale w nb' k' v' q' b o ho' wo' = layer p inC Ck Cv outC scale w nb k v q b o ho wo := by
  have pk : ∀ z ∈ nb ho wo, ∀ o, proj inC p.wk p.bk k' b o (σ z).1 (σ z).2 = proj inC p.wk p.bk k b o z.1 z.2 := by
    intro z hz o
    unfold proj
    congr 1
    exact sum_congr rfl fun c hc => by rw [hk z hz c (mem_range.1 hc)]
  have pv : ∀ z ∈ nb ho wo, ∀ o, proj inC p.wv p.bv v' b o (σ z).1 (σ z).2 = proj inC p.wv p.bv v b o z.1 z.2 := by
    intro z hz o
    unfold proj
    congr 1
    exact sum_congr rfl fun c hc => by rw [hv z hz c (mem_range.1 hc)]
  have pq : ∀ o, proj inC p.wq p.bq q' b o ho' wo' = proj inC p.wq p.bq q b o ho wo := by
    intro o
    unfold proj
    congr 1
    exact sum_congr rfl fun c hc => by rw [hq c (mem_range.1 hc)]
  have nk : ∀ n, ∀ z ∈ nb ho wo, ∀ c, headNorm Ck p.eps p.nk (head Ck n (proj inC p.wk p.bk k')) b c (σ z).1 (σ z).2
      = headNorm Ck p.eps p.nk (head Ck n (proj inC p.wk p.bk k)) b c z.1 z.2 := by
    intro n z hz c
    unfold headNorm head
    cases p.nk with
    | none => exact pk z hz _
    | some g => simp only [pk z hz]
  have nq : ∀ n c, headNorm Ck p.eps p.nq (head Ck n (proj inC p.wq p.bq q')) b c ho' wo'
      = headNorm Ck p.eps p.nq (head Ck n (proj inC p.wq p.bq q)) b c ho wo := by
    intro n c
    unfold headNorm head
    cases p.nq with
    | none => exact pq _
    | some g => simp only [pq]
  unfold layer
  rw [show ∀ y : T4, proj outC p.wp p.bp y b o ho' wo' = (∑ c ∈ range outC, y b c ho' wo' * p.wp o c) + p.bp.elim 0 (fun f => f o) from fun _ => rfl,
    show ∀ y : T4, proj outC p.wp p.bp y b o ho wo = (∑ c ∈ range outC, y b c ho wo * p.wp o c) + p.bp.elim 0 (fun f => f o) from fun _ => rfl]
  congr 1
  refine sum_congr rfl fun j _ => ?_
  congr 1
  unfold setAttention
  rw [hnb, sum_image hσ, sum_image hσ]
  have sc : ∀ z ∈ nb ho wo, score Ck (headNorm Ck p.eps p.nk (head Ck (j / Cv) (proj inC p.wk p.bk k')))
        (fun b c h w => headNorm Ck p.eps p.nq (head Ck (j / Cv) (proj inC p.wq p.bq q')) b c h w * scale) b ho' wo' (σ z)
      = score Ck (headNorm Ck p.eps p.nk (head Ck (j / Cv) (proj inC p.wk p.bk k)))
        (fun b c h w => headNorm Ck p.eps p.nq (head Ck (j / Cv) (proj inC p.wq p.bq q)) b c h w * scale) b ho wo z := by
    intro z hz
    unfold score
    exact sum_congr rfl fun c _ => by dsimp only; rw [nk _ z hz, nq]
  congr 1
  · refine sum_congr rfl fun z hz => ?_
    rw [sc z hz, hw z hz]
    congr 1
    unfold head
    exact pv z hz _
  · exact sum_congr rfl fun z hz => by rw [sc z hz, hw z hz]

theorem toArr_fn4 (x : Ten3 ℝ) {c k j : ℕ} (hc : c < x.d0) (hk : k < x.d1) (hj : j < x.d2) : (toArr x).fn4 0 c k j = x.val c k j := by
  unfold toArr Arr.fn4
  rw [of4_at _ (by omega) hc hk hj]

theorem toArr_shape (x : Ten3 ℝ) : (toArr x).shape = [1, x.d0, x.d1, x.d2] := rfl

/-- Neighbourhood attention from a grid to itself is built. -/
theorem nbhd_ready {gauss : ℕ → Rule} {tol : ℝ} {maxiter : ℕ} {A : LayerArgs} {p : Params} {theta : ℝ} {r : Rule} (ht : 0 < theta)
    (hlat : A.nlatOut = A.nlatIn) (hlon : A.nlonOut = A.nlonIn) (hgrid : A.gridOut = A.gridIn) (hH : 0 < A.nlatIn) (hW : 0 < A.nlonIn)
    (hr : precomputeLatitudes gauss tol maxiter A.nlatIn A.gridIn = .ok r) (hn : r.n = A.nlatIn) (hh : headChecks A = .ok ()) (hk : 0 < A.kC) :
    ∃ L, Nbhd.init gauss tol maxiter A (some theta) p = .ok L := by
  have hu : ¬ A.upsample = true := by
    unfold LayerArgs.upsample
    rw [decide_eq_true_eq, hlon]
    exact fun h => h.2 h.1
  have hck : A.kC / A.numHeads ≠ 0 := by
    intro h0
    have := (headChecks_ok hh).2.1
    rw [h0] at this
    omega
  have hA : NormFits (preNorm ⟨A.nlatIn, A.nlonIn, A.nlatOut, A.nlonOut, nbhdBasis, A.gridIn, A.gridOut, theta, 1 / 10 ^ 3, false, "none", true⟩ r r)
      (rawTaps nbhdBasis r.x r.x A.nlatIn A.nlonIn A.nlatOut ((1 + 1 / 10 ^ 3) * theta)) := by
    refine ⟨hW, fits_rawTaps _ _ _ _ _ _ _, hn, ?_, Nat.one_pos⟩
    intro m hm
    cases hm
    exact nbhd_mask_length
  have hval := normalize_val hA "none" (by decide)
  have hr' : precomputeLatitudes gauss tol maxiter A.nlatOut A.gridOut = .ok r := by rw [hlat, hgrid]; exact hr
  obtain ⟨⟨es, roff⟩, he⟩ : ∃ e, precompute gauss tol maxiter (nbhdPre A theta) = .ok e := by
    unfold nbhdPre precompute
    rw [if_neg hu]
    dsimp only
    rw [hr]
    dsimp only
    rw [hr']
    dsimp only
    rw [if_neg (by omega), rawEntries_eq]
    have := hval
    dsimp only [preNorm] at this
    dsimp only [preNorm]
    rw [this]
    exact ⟨_, rfl⟩
  unfold Nbhd.init nbhdCutoff
  rw [if_neg (by omega), if_neg (by rw [not_not, hlon]; exact Or.inl (Nat.mod_self _))]
  dsimp only
  rw [if_neg (not_le.2 ht), hr]
  dsimp only
  rw [he]
  dsimp only
  rw [hh]
  dsimp only
  rw [if_neg (fun h => hck h.2)]
  exact ⟨_, rfl⟩

theorem reach_lt {mode : String} {r : Rule} {H W : ℕ} {theta : ℝ} {t j : ℕ} {z : ℕ × ℕ} (hz : z ∈ reach mode r H W theta t j) : z.1 < H ∧ z.2 < W := by
  unfold reach at hz
  split_ifs at hz
  · exact (mem_diskPoints.1 hz).1
  · unfold wholeGrid at hz
    rw [mem_product, mem_range, mem_range] at hz
    exact hz

/-- The hypotheses under which an attention layer from a grid to itself is built. -/
structure AttnReady (env : Env) (a : BlockArgs) (r : Rule) : Prop where
  lat : a.nlatOut = a.nlatIn
  lon : a.nlonOut = a.nlonIn
  grid : a.gridOut = a.gridIn
  twoLat : 2 ≤ a.nlatIn
  posLon : 0 < a.nlonIn
  rule : precomputeLatitudes env.gauss env.tol env.maxiter a.nlatIn a.gridIn = .ok r
  size : r.n = a.nlatIn
  inC : a.inC ≠ 0
  outC : a.outC ≠ 0
  heads : a.heads ≠ 0
  dvdIn : a.heads ∣ a.inC
  dvdOut : a.heads ∣ a.outC
  theta : a.mode = "neighborhood" → ∀ t, a.theta = some t → 0 < t
  wpos : a.mode ≠ "neighborhood" → ∀ i < a.nlatIn, 0 < r.w i

theorem thetaOf_pos {H : ℕ} (hH : 2 ≤ H) {theta : Option ℝ} (h : ∀ t, theta = some t → 0 < t) : 0 < thetaOf H theta := by
  unfold thetaOf
  cases theta with
  | some t => exact h t rfl
  | none =>
    have : (2 : ℝ) ≤ H := by exact_mod_cast hH
    have h1 : (0 : ℝ) < H - 1 := by linarith
    have := Real.pi_pos
    simp only [Option.getD_none]
    positivity

theorem cutoff_eq {H : ℕ} (hH : 2 ≤ H) (theta : Option ℝ) : cutoff H theta = .ok (thetaOf H theta) := by
  unfold cutoff thetaOf
  cases theta with
  | some t => rfl
  | none => dsimp only; rw [if_neg (by omega)]; rfl

theorem toParams_given (p : AttnParams) (bias : Bool) : p.toParams bias = given p bias := by
  unfold AttnParams.toParams given
  cases bias <;> rfl

theorem attn_ready {env : Env} {a : BlockArgs} {r : Rule} (R : AttnReady env a r) (p : AttnParams) :
    ∃ T, Attention.init env a p = .ok T ∧
      Attends T (given p a.bias) r a.inC a.outC a.heads a.nlatIn a.nlonIn (reach a.mode r a.nlatIn a.nlonIn (thetaOf a.nlatIn a.theta)) := by
  rw [← toParams_given]
  have h1 := R.inC
  have h2 := R.outC
  have h3 := R.twoLat
  have hh : headChecks a.layerArgs = .ok () := by
    have e1 : a.inC % a.heads = 0 := Nat.mod_eq_zero_of_dvd R.dvdIn
    have e2 : a.outC % a.heads = 0 := Nat.mod_eq_zero_of_dvd R.dvdOut
    simp [headChecks, BlockArgs.layerArgs, LayerArgs.kC, LayerArgs.oC, R.heads, e1, e2, h1, h2]
  have hI : ∀ x, HasShape x a.inC a.nlatIn a.nlonIn → LayerInputs a.layerArgs 1 (toArr x) ((none : Option Arr).getD (toArr x)) ((none : Option Arr).getD (toArr x)) := by
    intro x hx
    have hs : (toArr x).shape = [1, a.inC, a.nlatIn, a.nlonIn] := by rw [toArr_shape, hx.1, hx.2.1, hx.2.2]
    refine ⟨?_, hs, hs, Nat.one_pos, by show 0 < a.nlatIn; omega, by show 0 < a.nlatOut; rw [R.lat]; omega⟩
    rw [hs]
    show _ = [1, a.inC, a.nlatOut, a.nlonOut]
    rw [R.lat, R.lon]
  -- reading a stack of fields as a batch of one
  have key : ∀ (x : Ten3 ℝ) (nb : ℕ → ℕ → Finset (ℕ × ℕ)), HasShape x a.inC a.nlatIn a.nlonIn → (∀ t j, ∀ z ∈ nb t j, z.1 < a.nlatIn ∧ z.2 < a.nlonIn) →
      ∀ o, ∀ t < a.nlatIn, ∀ j < a.nlonIn, ∀ w,
      layer (p.toParams a.bias) a.inC (a.inC / a.heads) (a.outC / a.heads) a.outC (1 / Real.sqrt ((a.inC / a.heads : ℕ) : ℝ)) w nb
          (toArr x).fn4 (toArr x).fn4 (toArr x).fn4 0 o t j
        = layer (p.toParams a.bias) a.inC (a.inC / a.heads) (a.outC / a.heads) a.outC (1 / Real.sqrt ((a.inC / a.heads : ℕ) : ℝ)) w nb
          (t4 x) (t4 x) (t4 x) 0 o t j := by
    intro x nb hx hnb o t ht j hj w
    have hv : ∀ c < a.inC, ∀ k < a.nlatIn, ∀ l < a.nlonIn, (toArr x).fn4 0 c k l = t4 x 0 c k l := fun c hc k hk l hl =>
      toArr_fn4 x (by rw [hx.1]; exact hc) (by rw [hx.2.1]; exact hk) (by rw [hx.2.2]; exact hl)
    exact layer_map id (by simp) (fun _ _ _ _ h => h) (fun _ _ => rfl) (fun z hz c hc => hv c hc _ (hnb t j z hz).1 _ (hnb t j z hz).2)
      (fun z hz c hc => hv c hc _ (hnb t j z hz).1 _ (hnb t j z hz).2) (fun c hc => hv c hc t ht j hj) o
  have fin : ∀ (y : Arr) (x : Ten3 ℝ) (nb : ℕ → ℕ → Finset (ℕ × ℕ)), HasShape x a.inC a.nlatIn a.nlonIn →
      (∀ t j, ∀ z ∈ nb t j, z.1 < a.nlatIn ∧ z.2 < a.nlonIn) → y.shape = [1, a.outC, a.nlatOut, a.nlonOut] →
      (∀ b < 1, ∀ o < a.outC, ∀ ho < a.nlatOut, ∀ wo < a.nlonOut, y.at [b, o, ho, wo]
        = layer (p.toParams a.bias) a.inC (a.inC / a.heads) (a.outC / a.heads) a.outC (1 / Real.sqrt ((a.inC / a.heads : ℕ) : ℝ))
          (fun i => 2 * Real.pi * r.w i / a.nlonIn) nb (toArr x).fn4 (toArr x).fn4 (toArr x).fn4 b o ho wo) →
      HasShape (ofArr y) a.outC a.nlatIn a.nlonIn ∧ ∀ o < a.outC, ∀ t < a.nlatIn, ∀ j < a.nlonIn, (ofArr y).val o t j
        = layer (p.toParams a.bias) a.inC (a.inC / a.heads) (a.outC / a.heads) a.outC (1 / Real.sqrt ((a.inC / a.heads : ℕ) : ℝ))
          (fun i => 2 * Real.pi * r.w i / a.nlonIn) nb (t4 x) (t4 x) (t4 x) 0 o t j := by
    intro y x nb hx hnb hs hv
    refine ⟨⟨by simp [ofArr, hs], by simp [ofArr, hs, R.lat], by simp [ofArr, hs, R.lon]⟩, fun o ho t ht j hj => ?_⟩
    show y.at [0, o, t, j] = _
    rw [hv 0 Nat.one_pos o ho t (by rw [R.lat]; exact ht) j (by rw [R.lon]; exact hj), key x nb hx hnb o t ht j hj]
  unfold Attention.init reach
  by_cases hm : a.mode = "neighborhood"
  · have hth := thetaOf_pos h3 (R.theta hm)
    obtain ⟨L, hL⟩ := nbhd_ready (A := a.layerArgs) (p := p.toParams a.bias) hth R.lat R.lon R.grid (by show 0 < a.nlatIn; omega) R.posLon R.rule R.size hh
      (by show 0 < a.inC; omega)
    rw [if_pos hm, if_pos hm, cutoff_eq h3, except_bind_ok, hL, except_bind_ok]
    refine ⟨_, rfl, fun run hrun x hx => ?_⟩
    obtain ⟨c, y, e1, e2, e3, e4⟩ := C43_neighbourhood (rout := r) hL R.rule (by
      show precomputeLatitudes _ _ _ a.nlatOut a.gridOut = _; rw [R.lat, R.grid]; exact R.rule) (B := 1) (hI x hx) run (by
      intro k hk
      have := hrun k hk
      rw [one_mul]
      show CoversBlocks ⟨a.heads, a.inC / a.heads, a.outC / a.heads, a.nlatIn, a.nlonIn, a.nlatOut, a.nlonOut⟩ k.order
      rw [R.lat, R.lon]
      exact this)
    cases e1
    have e4' := e4
    simp only [Option.getD_none] at e4'
    have hd : diskPoints r.x r.x a.layerArgs.nlatIn a.layerArgs.nlonIn a.layerArgs.nlonOut ((1 + 1 / 10 ^ 3) * thetaOf a.nlatIn a.theta)
        = diskPoints r.x r.x a.nlatIn a.nlonIn a.nlonIn ((1 + 1 / 10 ^ 3) * thetaOf a.nlatIn a.theta) := by
      show diskPoints _ _ a.nlatIn a.nlonIn a.nlonOut _ = _
      rw [R.lon]
    rw [hd] at e4'
    obtain ⟨f1, f2⟩ := fin y x _ hx (fun t j z hz => (mem_diskPoints.1 hz).1) e3 e4'
    refine ⟨ofArr y, ?_, f1, f2⟩
    unfold Attention.forward
    dsimp only
    rw [e2]
    rfl
  · have hG : ∃ G, Global.init env.gauss env.tol env.maxiter a.layerArgs (p.toParams a.bias) = .ok G := by
      have hl : a.layerArgs.nlonOut = a.layerArgs.nlonIn := R.lon
      have hp : 0 < a.layerArgs.nlonIn := R.posLon
      have hr : precomputeLatitudes env.gauss env.tol env.maxiter a.layerArgs.nlatIn a.layerArgs.gridIn = .ok r := R.rule
      unfold Global.init
      rw [if_neg (by omega), if_neg (by rw [not_not, hl]; exact Nat.mod_self _), hr]
      dsimp only
      rw [hh]
      exact ⟨_, rfl⟩
    obtain ⟨G, hG⟩ := hG
    rw [if_neg hm, if_neg hm, hG, except_bind_ok]
    refine ⟨_, rfl, fun run _ x hx => ?_⟩
    obtain ⟨y, e2, e3, e4⟩ := C43_global hG R.rule R.posLon (R.wpos hm) (B := 1) (hI x hx)
    obtain ⟨f1, f2⟩ := fin y x _ hx (fun t j z hz => by
      unfold wholeGrid at hz
      rw [mem_product] at hz
      exact ⟨mem_range.1 hz.1, mem_range.1 hz.2⟩) e3 e4
    refine ⟨ofArr y, ?_, f1, f2⟩
    unfold Attention.forward
    dsimp only
    rw [e2]
    rfl

/-! ### Shifts in longitude -/

/-- Turning a column. -/
def turn (W s : ℕ) (z : ℕ × ℕ) : ℕ × ℕ := (z.1, (z.2 + s) % W)

theorem turn_injOn {W s : ℕ} {S : Finset (ℕ × ℕ)} (h : ∀ z ∈ S, z.2 < W) : Set.InjOn (turn W s) S := by
  intro z hz z' hz' he
  unfold turn at he
  rw [Prod.mk.injEq] at he
  exact Prod.ext he.1 (turn_inj (h z hz) (h z' hz') he.2)

theorem geodesic_turn (ga a : ℝ) {W : ℕ} (hW : 0 < W) (l j s : ℕ) :
    geodesic (point ga (lonOf W ((l + s) % W))) (point a (lonOf W ((j + s) % W))) = geodesic (point ga (lonOf W l)) (point a (lonOf W j)) := by
  have hlon : ∀ i, ∃ n : ℤ, lonOf W (i % W) = lonOf W i + n * (2 * Real.pi) := by
    intro i
    have h := Nat.div_add_mod i W
    generalize i / W = q at h
    refine ⟨-(q : ℤ), ?_⟩
    unfold lonOf
    have h' : (i : ℝ) = W * (q : ℝ) + ((i % W : ℕ) : ℝ) := by exact_mod_cast h.symm
    have hW' : (W : ℝ) ≠ 0 := by exact_mod_cast hW.ne'
    rw [h']
    push_cast
    field_simp
    ring
  obtain ⟨n, hn⟩ := hlon (l + s)
  obtain ⟨m, hm⟩ := hlon (j + s)
  have hadd : ∀ i, lonOf W (i + s) = lonOf W i + lonOf W s := by
    intro i; unfold lonOf; push_cast; ring
  have hp : ∀ b x (n : ℤ), point b (x + n * (2 * Real.pi)) = point b x := by
    intro b x n
    unfold point
    rw [Real.cos_add_int_mul_two_pi, Real.sin_add_int_mul_two_pi]
  rw [hn, hm, hp, hp, hadd, hadd]
  have e : ∀ x, geodesic (point ga (x + lonOf W s)) (point a (lonOf W j + lonOf W s)) = geodesic (point ga x) (point a (lonOf W j)) := by
    intro x
    have h1 := geodesic_shift ga (x - lonOf W j) a (lonOf W j + lonOf W s)
    have h2 := geodesic_shift ga (x - lonOf W j) a (lonOf W j)
    rw [show x - lonOf W j + (lonOf W j + lonOf W s) = x + lonOf W s by ring] at h1
    rw [sub_add_cancel] at h2
    rw [h1, h2]
  exact e _

/-- The set of points that a point attends to turns with it. -/
theorem reach_turn {mode : String} {r : Rule} {H W : ℕ} {theta : ℝ} (hW : 0 < W) (t j s : ℕ) :
    reach mode r H W theta t ((j + s) % W) = (reach mode r H W theta t j).image (turn W s) := by
  ext z
  rw [mem_image]
  have back : ∀ l < W, ∃ l' < W, (l' + s) % W = l := fun l hl => ⟨(l + (W - s % W)) % W, Nat.mod_lt _ hW, turn_back hl⟩
  unfold reach turn
  split_ifs
  · rw [mem_diskPoints]
    constructor
    · rintro ⟨⟨h1, h2⟩, h3⟩
      obtain ⟨l, hl, he⟩ := back z.2 h2
      refine ⟨(z.1, l), mem_diskPoints.2 ⟨⟨h1, hl⟩, ?_⟩, Prod.ext rfl he⟩
      rw [← he, geodesic_turn _ _ hW] at h3
      exact h3
    · rintro ⟨z', h', rfl⟩
      obtain ⟨⟨h1, h2⟩, h3⟩ := mem_diskPoints.1 h'
      refine ⟨⟨h1, Nat.mod_lt _ hW⟩, ?_⟩
      dsimp only
      rw [geodesic_turn _ _ hW]
      exact h3
  · unfold wholeGrid
    simp only [mem_product, mem_range]
    constructor
    · rintro ⟨h1, h2⟩
      obtain ⟨l, hl, he⟩ := back z.2 h2
      exact ⟨(z.1, l), ⟨h1, hl⟩, Prod.ext rfl he⟩
    · rintro ⟨z', ⟨h1, h2⟩, rfl⟩
      exact ⟨h1, Nat.mod_lt _ hW⟩

/-- Two attention layers with the same parameters and sets of points, run in two ways on fields that are shifted against one another. -/
theorem attends_roll {T T' : Attention} {p : Params} {r : Rule} {C D heads H W s : ℕ} {nb nb' : ℕ → ℕ → Finset (ℕ × ℕ)} (hW : 0 < W)
    (hT : Attends T p r C D heads H W nb) (hT' : Attends T' p r C D heads H W nb') (hlt : ∀ t j, ∀ z ∈ nb' t j, z.1 < H ∧ z.2 < W)
    (hnb : ∀ t < H, ∀ j < W, nb t ((j + s) % W) = (nb' t j).image (turn W s)) {run run' : Option CpuRun}
    (hrun : ∀ k, run = some k → CoversBlocks ⟨heads, C / heads, D / heads, H, W, H, W⟩ k.order)
    (hrun' : ∀ k, run' = some k → CoversBlocks ⟨heads, C / heads, D / heads, H, W, H, W⟩ k.order) {x x' : Ten3 ℝ} (hx : HasShape x C H W) (hr : Rolled s x x') :
    ∃ y y', T.forward run x = .ok y ∧ T'.forward run' x' = .ok y' ∧ HasShape y D H W ∧ Rolled s y y' := by
  obtain ⟨y, e, sy, vy⟩ := hT run hrun x hx
  obtain ⟨y', e', sy', vy'⟩ := hT' run' hrun' x' ⟨hr.d0.trans hx.1, hr.d1.trans hx.2.1, hr.d2.trans hx.2.2⟩
  refine ⟨y, y', e, e', sy, sy'.1.trans sy.1.symm, sy'.2.1.trans sy.2.1.symm, sy'.2.2.trans sy.2.2.symm, fun o ho t ht j hj => ?_⟩
  rw [sy.1] at ho
  rw [sy.2.1] at ht
  rw [sy.2.2] at hj ⊢
  have hv : ∀ c < C, ∀ k < H, ∀ l < W, x.val c k ((l + s) % W) = x'.val c k l := by
    intro c hc k hk l hl
    have := hr.val c (by rw [hx.1]; exact hc) k (by rw [hx.2.1]; exact hk) l (by rw [hx.2.2]; exact hl)
    rw [hx.2.2] at this
    exact this.symm
  rw [vy' o ho t ht j hj, vy o ho t ht _ (Nat.mod_lt _ hW)]
  refine (layer_map (turn W s) (hnb t ht j hj) (turn_injOn fun z hz => (hlt t j z hz).2) (fun _ _ => rfl) ?_ ?_ ?_ o).symm
  · exact fun z hz c hc => hv c hc _ (hlt t j z hz).1 _ (hlt t j z hz).2
  · exact fun z hz c hc => hv c hc _ (hlt t j z hz).1 _ (hlt t j z hz).2
  · exact fun c hc => hv c hc t ht j hj

theorem chanMean_congr {C : ℕ} {x x' : ℕ → ℝ} (h : ∀ c < C, x' c = x c) : chanMean C x' = chanMean C x := by
  unfold chanMean
  rw [sum_congr rfl fun c hc => h c (mem_range.1 hc)]

theorem chanVar_congr {C : ℕ} {x x' : ℕ → ℝ} (h : ∀ c < C, x' c = x c) : chanVar C x' = chanVar C x := by
  unfold chanVar
  refine chanMean_congr fun c hc => ?_
  rw [h c hc, chanMean_congr h]

/-- The normalisation fits stacks of `C` fields. -/
def Norm.Fits (N : Norm) (C : ℕ) : Prop := match N with | .layer c _ _ => c = C | .inst c _ _ => c = C | .none => True

theorem snorm_roll {N : Norm} {C H W s : ℕ} (hN : N.Fits C) (h1 : H * W ≠ 1) {x x' : Ten3 ℝ} (hx : HasShape x C H W) (hr : Rolled s x x') :
    ∃ y y', N.forward x = .ok y ∧ N.forward x' = .ok y' ∧ HasShape y C H W ∧ Rolled s y y' := by
  match N, hN with
  | .none, _ => exact ⟨x, x', rfl, rfl, hx, hr⟩
  | .inst c g b, hN =>
    obtain ⟨y, y', e, e', sy, ry⟩ := norm_roll (N := .inst c g b) hr (by rw [hx.2.1, hx.2.2]; exact h1) (by dsimp only; rw [hx.1]; exact hN)
    rw [hx.1, hx.2.1, hx.2.2] at sy
    exact ⟨y, y', e, e', sy, ry⟩
  | .layer c g b, hN =>
    have hN : c = C := hN
    unfold Norm.forward
    dsimp only
    rw [if_neg (by rw [hx.1, hN]; simp), if_neg (by rw [hr.d0, hx.1, hN]; simp)]
    refine ⟨_, _, rfl, rfl, hx, hr.d0, hr.d1, hr.d2, ?_⟩
    intro c hc k hk j hj
    dsimp only at hc hk hj ⊢
    have hv : ∀ i < x.d0, x'.val i k j = x.val i k ((j + s) % x.d2) := fun i hi => hr.val i hi k hk j hj
    rw [hr.d0, chanMean_congr hv, chanVar_congr hv, hv c hc]

/-- The perceptron of a block. -/
noncomputable def mlpStep (M : Option Mlp) (x : Ten3 ℝ) : Except PyErr (Ten3 ℝ) := match M with | none => .ok x | some M => M.forward x

def MlpFits (M : Option Mlp) (D : ℕ) : Prop := ∀ m, M = some m → m.fc1.inC = D ∧ m.fc1.outC = m.fc2.inC ∧ m.fc2.outC = D

theorem mlpStep_roll {M : Option Mlp} {D H W s : ℕ} (hM : MlpFits M D) {x x' : Ten3 ℝ} (hx : HasShape x D H W) (hr : Rolled s x x') :
    ∃ y y', mlpStep M x = .ok y ∧ mlpStep M x' = .ok y' ∧ HasShape y D H W ∧ Rolled s y y' := by
  cases M with
  | none => exact ⟨x, x', rfl, rfl, hx, hr⟩
  | some m =>
    obtain ⟨a1, a2, a3⟩ := hM m rfl
    obtain ⟨z, z', hz, hz', sz, rz⟩ := mlp_roll (hx.1.trans a1.symm) a2 hr
    exact ⟨z, z', hz, hz', ⟨sz.1.trans a3, sz.2.1.trans hx.2.1, sz.2.2.trans hx.2.2⟩, rz⟩

/-- A perceptron with an admissible hidden width is built. -/
theorem mlp_ready {D : ℕ} (hD : D ≠ 0) {ratio : ℝ} (use : Bool) (h : use = true → 0 ≤ pyInt (D * ratio)) (act : ℝ → ℝ) (p : MlpParams) :
    ∃ M, (if use then (Mlp.init D (pyInt (D * ratio)) D act p).map some else .ok none) = .ok M ∧ MlpFits M D ∧
      (use = false → M = none) ∧ (use = true → ∃ hid : ℕ, (hid : ℤ) = (if pyInt (D * ratio) = 0 then (D : ℤ) else pyInt (D * ratio)) ∧
        M = some ⟨⟨D, hid, p.w1, some p.b1⟩, act, ⟨hid, D, p.w2, none⟩⟩) := by
  cases use with
  | false => exact ⟨none, rfl, fun _ h => (by cases h), fun _ => rfl, fun h => (by cases h)⟩
  | true =>
    have h0 := h rfl
    have hD' : ¬ ((D : ℤ) = 0) := by exact_mod_cast hD
    have hneg : ¬ (if pyInt (D * ratio) = 0 then (D : ℤ) else pyInt (D * ratio)) < 0 := by split_ifs <;> omega
    refine ⟨_, by
      unfold Mlp.init
      simp only [if_neg hD', if_neg hneg, if_neg hD, if_true]
      rw [if_neg (by omega)]
      rfl, ?_, fun h => (by cases h), fun _ => ⟨_, Int.toNat_of_nonneg (not_lt.1 hneg), rfl⟩⟩
    intro M' hM'
    cases hM'
    exact ⟨rfl, rfl, by simp⟩

/-! ### Blocks -/

/-- A block of `D` fields on a grid. -/
structure BlockFits (B : Block) (p : Params) (r : Rule) (D heads H W : ℕ) (nb : ℕ → ℕ → Finset (ℕ × ℕ)) : Prop where
  norm0 : B.norm0.Fits D
  norm1 : B.norm1.Fits D
  attn : Attends B.attn p r D D heads H W nb
  mlp : MlpFits B.mlp D

theorem block_step {run : Option CpuRun} {B : Block} {x y1 y2 y3 y4 y5 : Ten3 ℝ} (h1 : B.norm0.forward x = .ok y1) (h2 : B.attn.forward run y1 = .ok y2)
    (h3 : addEmbed x y2 = .ok y3) (h4 : B.norm1.forward y3 = .ok y4) (h5 : mlpStep B.mlp y4 = .ok y5) : B.forward run x = addEmbed y3 y5 := by
  unfold Block.forward
  rw [h1, except_bind_ok, h2, except_bind_ok, h3, except_bind_ok, h4, except_bind_ok]
  unfold mlpStep at h5
  cases hM : B.mlp with
  | none => rw [hM] at h5; cases h5; rfl
  | some M =>
    rw [hM] at h5
    dsimp only at h5 ⊢
    rw [h5, except_bind_ok]

/-- The intermediate results of a block. -/
structure BlockSteps (run : Option CpuRun) (B : Block) (D H W : ℕ) (x y1 y2 y3 y4 y5 y : Ten3 ℝ) : Prop where
  norm0 : B.norm0.forward x = .ok y1
  attn : B.attn.forward run y1 = .ok y2
  skip0 : addEmbed x y2 = .ok y3
  norm1 : B.norm1.forward y3 = .ok y4
  mlp : mlpStep B.mlp y4 = .ok y5
  out : B.forward run x = .ok y
  shape : HasShape y D H W
  shape3 : HasShape y3 D H W
  mid : ∀ c < D, ∀ t < H, ∀ j < W, y3.val c t j = y2.val c t j + x.val c t j
  val : ∀ c < D, ∀ t < H, ∀ j < W, y.val c t j = y5.val c t j + y3.val c t j

/-- Two blocks that differ in their attention layers only, run in two ways on fields that are shifted against one another. -/
theorem block_roll {B B' : Block} {p : Params} {r : Rule} {D heads H W s : ℕ} {nb nb' : ℕ → ℕ → Finset (ℕ × ℕ)} (h2W : 2 ≤ W)
    (F : BlockFits B p r D heads H W nb) (hB' : B' = { B with attn := B'.attn }) (hT' : Attends B'.attn p r D D heads H W nb')
    (hlt : ∀ t j, ∀ z ∈ nb' t j, z.1 < H ∧ z.2 < W)
    (hnb : ∀ t < H, ∀ j < W, nb t ((j + s) % W) = (nb' t j).image (turn W s)) {run run' : Option CpuRun}
    (hrun : ∀ k, run = some k → CoversBlocks ⟨heads, D / heads, D / heads, H, W, H, W⟩ k.order)
    (hrun' : ∀ k, run' = some k → CoversBlocks ⟨heads, D / heads, D / heads, H, W, H, W⟩ k.order) {x x' : Ten3 ℝ} (hx : HasShape x D H W) (hr : Rolled s x x') :
    ∃ y1 y2 y3 y4 y5 y y', BlockSteps run B D H W x y1 y2 y3 y4 y5 y ∧ B'.forward run' x' = .ok y' ∧ Rolled s y y' := by
  have hHW : H * W ≠ 1 := by
    intro h
    have := Nat.eq_one_of_mul_eq_one_left h
    omega
  have hN0 : B'.norm0 = B.norm0 := by rw [hB']
  have hN1 : B'.norm1 = B.norm1 := by rw [hB']
  have hM : B'.mlp = B.mlp := by rw [hB']
  obtain ⟨y1, y1', e1, e1', s1, r1⟩ := snorm_roll F.norm0 hHW hx hr
  obtain ⟨y2, y2', e2, e2', s2, r2⟩ := attends_roll (by omega) F.attn hT' hlt hnb hrun hrun' s1 r1
  obtain ⟨y3, y3', e3, e3', s3, r3⟩ := addEmbed_roll hr r2 (hx.1.trans s2.1.symm) (hx.2.1.trans s2.2.1.symm) (hx.2.2.trans s2.2.2.symm)
  obtain ⟨_, f3, _, v3⟩ := addEmbed_same (r := x) (x := y2) (hx.1.trans s2.1.symm) (hx.2.1.trans s2.2.1.symm) (hx.2.2.trans s2.2.2.symm)
  have := f3.symm.trans e3
  cases this
  rw [s2.1, s2.2.1, s2.2.2] at s3 v3
  obtain ⟨y4, y4', e4, e4', s4, r4⟩ := snorm_roll F.norm1 hHW s3 r3
  obtain ⟨y5, y5', e5, e5', s5, r5⟩ := mlpStep_roll F.mlp s4 r4
  obtain ⟨y, y', e6, e6', s6, r6⟩ := addEmbed_roll r3 r5 (s3.1.trans s5.1.symm) (s3.2.1.trans s5.2.1.symm) (s3.2.2.trans s5.2.2.symm)
  obtain ⟨_, f6, _, v6⟩ := addEmbed_same (r := y3) (x := y5) (s3.1.trans s5.1.symm) (s3.2.1.trans s5.2.1.symm) (s3.2.2.trans s5.2.2.symm)
  have := f6.symm.trans e6
  cases this
  rw [s5.1, s5.2.1, s5.2.2] at s6 v6
  exact ⟨y1, y2, y3, y4, y5, y, y', ⟨e1, e2, e3, e4, e5, (block_step e1 e2 e3 e4 e5).trans e6, s6, s3, v3, v6⟩,
    (block_step (hN0 ▸ e1') e2' e3' (hN1 ▸ e4') (hM ▸ e5')).trans e6', r6⟩

/-- Two stacks of blocks that differ in their attention layers only. -/
theorem runBlocks_roll {r : Rule} {D heads H W s : ℕ} {nb nb' : ℕ → ℕ → Finset (ℕ × ℕ)} (h2W : 2 ≤ W) {p : ℕ → Params}
    (hlt : ∀ t j, ∀ z ∈ nb' t j, z.1 < H ∧ z.2 < W) (hnb : ∀ t < H, ∀ j < W, nb t ((j + s) % W) = (nb' t j).image (turn W s))
    {run run' : ℕ → Option CpuRun} (hrun : ∀ i k, run i = some k → CoversBlocks ⟨heads, D / heads, D / heads, H, W, H, W⟩ k.order)
    (hrun' : ∀ i k, run' i = some k → CoversBlocks ⟨heads, D / heads, D / heads, H, W, H, W⟩ k.order) {bs bs' : List Block} (i : ℕ) (hl : bs'.length = bs.length)
    (F : ∀ j (h : j < bs.length), BlockFits bs[j] (p (i + j)) r D heads H W nb)
    (F' : ∀ j (h : j < bs.length) (h' : j < bs'.length), bs'[j] = { bs[j] with attn := bs'[j].attn } ∧ Attends bs'[j].attn (p (i + j)) r D D heads H W nb')
    {x x' : Ten3 ℝ} (hx : HasShape x D H W) (hr : Rolled s x x') :
    ∃ y y', runBlocks run i bs x = .ok y ∧ runBlocks run' i bs' x' = .ok y' ∧ HasShape y D H W ∧ Rolled s y y' := by
  induction bs generalizing x x' i bs' with
  | nil =>
    obtain rfl : bs' = [] := List.eq_nil_of_length_eq_zero hl
    exact ⟨x, x', rfl, rfl, hx, hr⟩
  | cons B bs ih =>
    match bs', hl with
    | B' :: bs', hl =>
      obtain ⟨g1, g2⟩ := F' 0 (by simp) (by simp)
      obtain ⟨_, _, _, _, _, y, y', e, e', ry⟩ := block_roll h2W (F 0 (by simp)) g1 g2 hlt hnb (hrun i) (hrun' i) hx hr
      obtain ⟨z, z', f, f', sz, rz⟩ := ih (i := i + 1) (bs' := bs') (by simpa using hl)
        (fun j h => by
          have := F (j + 1) (by simpa using h)
          rw [show i + (j + 1) = i + 1 + j by omega] at this
          exact this)
        (fun j h h' => by
          have := F' (j + 1) (by simpa using h) (by simpa using h')
          rw [show i + (j + 1) = i + 1 + j by omega] at this
          exact this) e.shape ry
      have e1 : B.forward (run i) x = .ok y := e.out
      have e1' : B'.forward (run' i) x' = .ok y' := e'
      exact ⟨z, z', by simp only [runBlocks]; rw [e1, except_bind_ok, f], by simp only [runBlocks]; rw [e1', except_bind_ok, f'], sz, rz⟩

/-- The states between the blocks. -/
theorem runBlocks_states {run : ℕ → Option CpuRun} {bs : List Block} {i : ℕ} {x y : Ten3 ℝ} (h : runBlocks run i bs x = .ok y) :
    ∃ u : ℕ → Ten3 ℝ, u 0 = x ∧ u bs.length = y ∧ ∀ j (hj : j < bs.length), bs[j].forward (run (i + j)) (u j) = .ok (u (j + 1)) := by
  induction bs generalizing x i with
  | nil => exact ⟨fun _ => x, rfl, Except.ok.inj h, fun i hi => absurd hi (by simp)⟩
  | cons B bs ih =>
    simp only [runBlocks] at h
    cases hB : B.forward (run i) x with
    | error e => rw [hB] at h; cases h
    | ok z =>
      rw [hB, except_bind_ok] at h
      obtain ⟨u, h0, h1, h2⟩ := ih h
      refine ⟨fun i => match i with | 0 => x | i + 1 => u i, rfl, h1, fun j hj => ?_⟩
      cases j with
      | zero => rw [List.getElem_cons_zero]; dsimp only; rw [h0]; exact hB
      | succ j =>
        have := h2 j (by simpa using hj)
        rw [show i + 1 + j = i + (j + 1) by omega] at this
        exact this

/-! ### Locality -/

/-- Two stacks of fields agree at a point. -/
def AgreeAt (x x' : Ten3 ℝ) (C k l : ℕ) : Prop := ∀ c < C, x.val c k l = x'.val c k l

theorem snorm_point {N : Norm} (hi : ∀ c g b, N ≠ .inst c g b) {C H W : ℕ} {x x' y y' : Ten3 ℝ} (hx : HasShape x C H W) (hx' : HasShape x' C H W)
    (h : N.forward x = .ok y) (h' : N.forward x' = .ok y') (k l : ℕ) (ha : AgreeAt x x' C k l) : AgreeAt y y' C k l := by
  match N with
  | .none => cases h; cases h'; exact ha
  | .inst c g b => exact absurd rfl (hi c g b)
  | .layer c g b =>
    simp only [Norm.forward] at h h'
    split_ifs at h
    split_ifs at h'
    cases h
    cases h'
    intro c hc
    dsimp only
    rw [hx.1, hx'.1, chanMean_congr (fun i hi => ha i hi), chanVar_congr (fun i hi => ha i hi), ha c hc]

theorem conv1_point {F : Conv1} {C D : ℕ} (hD : F.outC = D) {x x' y y' : Ten3 ℝ} (h0 : x.d0 = C) (h : F.forward x = .ok y)
    (h' : F.forward x' = .ok y') (k l : ℕ) (ha : AgreeAt x x' C k l) : y.d0 = D ∧ y'.d0 = D ∧ AgreeAt y y' D k l := by
  unfold Conv1.forward at h h'
  split_ifs at h with g
  split_ifs at h' with g'
  cases h
  cases h'
  refine ⟨hD, hD, fun o _ => ?_⟩
  dsimp only
  congr 1
  refine sum_congr ?_ fun c hc => ?_
  · rfl
  · rw [not_not] at g
    rw [ha c (by rw [← h0, g]; exact mem_range.1 hc)]

theorem mlpStep_point {M : Option Mlp} {D : ℕ} (hM : MlpFits M D) {x x' y y' : Ten3 ℝ} (h0 : x.d0 = D) (h : mlpStep M x = .ok y)
    (h' : mlpStep M x' = .ok y') (k l : ℕ) (ha : AgreeAt x x' D k l) : AgreeAt y y' D k l := by
  cases M with
  | none => cases h; cases h'; exact ha
  | some m =>
    obtain ⟨a1, a2, a3⟩ := hM m rfl
    simp only [mlpStep, Mlp.forward] at h h'
    cases g : m.fc1.forward x with
    | error e => rw [g] at h; cases h
    | ok z =>
      cases g' : m.fc1.forward x' with
      | error e => rw [g'] at h'; cases h'
      | ok z' =>
        rw [g] at h
        rw [g'] at h'
        obtain ⟨b1, b2, b3⟩ := conv1_point rfl h0 g g' k l ha
        exact (conv1_point (x := pointwise m.act z) (x' := pointwise m.act z') a3 b1 h h' k l (fun c hc => by
          show m.act (z.val c k l) = m.act (z'.val c k l)
          rw [b3 c hc])).2.2

/-- What a block without instance normalisation puts at a point depends only on the points that it attends to and on the point itself. -/
theorem block_local {B : Block} {p : Params} {r : Rule} {D heads H W : ℕ} {nb : ℕ → ℕ → Finset (ℕ × ℕ)} (h2W : 2 ≤ W)
    (F : BlockFits B p r D heads H W nb) (hi0 : ∀ c g b, B.norm0 ≠ .inst c g b) (hi1 : ∀ c g b, B.norm1 ≠ .inst c g b)
    (hlt : ∀ t j, ∀ z ∈ nb t j, z.1 < H ∧ z.2 < W) {run run' : Option CpuRun}
    (hrun : ∀ k, run = some k → CoversBlocks ⟨heads, D / heads, D / heads, H, W, H, W⟩ k.order)
    (hrun' : ∀ k, run' = some k → CoversBlocks ⟨heads, D / heads, D / heads, H, W, H, W⟩ k.order) {x x' : Ten3 ℝ}
    (hx : HasShape x D H W) (hx' : HasShape x' D H W) :
    ∃ y y', B.forward run x = .ok y ∧ B.forward run' x' = .ok y' ∧ HasShape y D H W ∧ HasShape y' D H W ∧ ∀ t < H, ∀ j < W,
      AgreeAt x x' D t j → (∀ z ∈ nb t j, AgreeAt x x' D z.1 z.2) → AgreeAt y y' D t j := by
  have hz : ∀ t < H, ∀ j < W, nb t ((j + 0) % W) = (nb t j).image (turn W 0) := by
    intro t _ j hj
    rw [Nat.add_zero, Nat.mod_eq_of_lt hj]
    refine ((image_congr fun z hz => ?_).trans image_id).symm
    exact Prod.ext rfl (by simp [turn, Nat.mod_eq_of_lt (hlt t j z hz).2])
  obtain ⟨y1, y2, y3, y4, y5, y, _, S, _, _⟩ := block_roll (s := 0) h2W F rfl F.attn hlt hz hrun hrun hx (rolled_refl x)
  obtain ⟨y1', y2', y3', y4', y5', y', _, S', _, _⟩ := block_roll (s := 0) h2W F rfl F.attn hlt hz hrun' hrun' hx' (rolled_refl x')
  refine ⟨y, y', S.out, S'.out, S.shape, S'.shape, fun t ht j hj ha hn => ?_⟩
  have hHW : H * W ≠ 1 := by
    intro h
    have := Nat.eq_one_of_mul_eq_one_left h
    omega
  obtain ⟨_, _, f1, _, s1, _⟩ := snorm_roll F.norm0 hHW hx (rolled_refl x)
  have := f1.symm.trans S.norm0
  cases this
  obtain ⟨_, _, f1', _, s1', _⟩ := snorm_roll F.norm0 hHW hx' (rolled_refl x')
  have := f1'.symm.trans S'.norm0
  cases this
  obtain ⟨_, f2, _, v2⟩ := F.attn run hrun y1 s1
  have := f2.symm.trans S.attn
  cases this
  obtain ⟨_, f2', _, v2'⟩ := F.attn run' hrun' y1' s1'
  have := f2'.symm.trans S'.attn
  cases this
  have a1 := fun k l => snorm_point hi0 hx hx' S.norm0 S'.norm0 k l
  have a3 : AgreeAt y3 y3' D t j := by
    intro o ho
    rw [S.mid o ho t ht j hj, S'.mid o ho t ht j hj, ha o ho, v2 o ho t ht j hj, v2' o ho t ht j hj]
    congr 1
    refine (layer_map id (by simp) (fun _ _ _ _ h => h) (fun _ _ => rfl) ?_ ?_ ?_ o).symm
    · exact fun z hz c hc => (a1 _ _ (hn z hz) c hc).symm
    · exact fun z hz c hc => (a1 _ _ (hn z hz) c hc).symm
    · exact fun c hc => (a1 _ _ ha c hc).symm
  obtain ⟨_, _, f4, _, s4, _⟩ := snorm_roll F.norm1 hHW S.shape3 (rolled_refl y3)
  have := f4.symm.trans S.norm1
  cases this
  obtain ⟨_, _, f4', _, s4', _⟩ := snorm_roll F.norm1 hHW S'.shape3 (rolled_refl y3')
  have := f4'.symm.trans S'.norm1
  cases this
  have a4 := snorm_point hi1 S.shape3 S'.shape3 S.norm1 S'.norm1 t j a3
  have a5 := mlpStep_point F.mlp s4.1 S.mlp S'.mlp t j a4
  intro o ho
  rw [S.val o ho t ht j hj, S'.val o ho t ht j hj, a3 o ho, a5 o ho]

/-! ### Great-circle distances -/

/-- The triangle inequality on the sphere. -/
theorem geodesic_triangle (a b c u v w : ℝ) : geodesic (point a u) (point c w) ≤ geodesic (point a u) (point b v) + geodesic (point b v) (point c w) := by
  have e : ∀ x y : ℝ × ℝ × ℝ, dot3 x x = 1 → dot3 y y = 1 → geodesic x y
      = InnerProductGeometry.angle (!₂[x.1, x.2.1, x.2.2] : EuclideanSpace ℝ (Fin 3)) !₂[y.1, y.2.1, y.2.2] := by
    intro x y hx hy
    have hn : ∀ z : ℝ × ℝ × ℝ, dot3 z z = 1 → ‖(!₂[z.1, z.2.1, z.2.2] : EuclideanSpace ℝ (Fin 3))‖ = 1 := by
      intro z hz
      rw [EuclideanSpace.norm_eq, Real.sqrt_eq_one, Fin.sum_univ_three]
      simp only [Real.norm_eq_abs, sq_abs]
      unfold dot3 at hz
      simp
      linarith
    unfold InnerProductGeometry.angle geodesic
    rw [hn x hx, hn y hy]
    congr 1
    simp [dot3, PiLp.inner_apply, Fin.sum_univ_three]
    ring
  have h1 : ∀ th ph, dot3 (point th ph) (point th ph) = 1 := by
    intro th ph
    unfold dot3 point
    have h1 := Real.sin_sq_add_cos_sq th
    have h2 := Real.sin_sq_add_cos_sq ph
    dsimp only
    linear_combination Real.sin th ^ 2 * h2 + h1
  rw [e _ _ (h1 _ _) (h1 _ _), e _ _ (h1 _ _) (h1 _ _), e _ _ (h1 _ _) (h1 _ _)]
  exact InnerProductGeometry.angle_le_angle_add_angle _ _ _

theorem geodesic_self (a u : ℝ) : geodesic (point a u) (point a u) = 0 := by
  unfold geodesic
  have : dot3 (point a u) (point a u) = 1 := by
    unfold dot3 point
    have h1 := Real.sin_sq_add_cos_sq a
    have h2 := Real.sin_sq_add_cos_sq u
    dsimp only
    linear_combination Real.sin a ^ 2 * h2 + h1
  rw [this, Real.arccos_one]

end Verif.S2T
