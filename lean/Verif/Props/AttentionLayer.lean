import Verif.Lemmas.AttentionLayer
import Verif.Props.AttentionLayout
/-!
Property C43: the attention layers. `layer` (Spec/AttentionLayer.lean) says what an attention layer computes for a given
family of neighbourhoods. `NeighborhoodAttentionS2` is `layer` with spherical disks, `AttentionS2` is `layer` with the whole grid, so
they agree once the disks cover the sphere.
-/
namespace Verif.Props
open Verif Verif.Spec Verif.Spec.Attn Verif.Attn Verif.Quad Verif.Filter Verif.Disco Finset

/-- The factor applied to the queries: `scale` if given, one over the square root of the head width otherwise. -/
noncomputable def layerScale (s : Scale) (Ck : ℕ) : ℝ :=
  match s with
  | .absent => 1 / Real.sqrt (Ck : ℝ)
  | .float a => a
  | .tensor a => a

/-- Queries, keys and values as the layers expect them. -/
structure LayerInputs (A : LayerArgs) (B : ℕ) (q k v : Arr) : Prop where
  hq : q.shape = [B, A.inChannels, A.nlatOut, A.nlonOut]
  hk : k.shape = [B, A.inChannels, A.nlatIn, A.nlonIn]
  hv : v.shape = [B, A.inChannels, A.nlatIn, A.nlonIn]
  posB : 0 < B
  poslatIn : 0 < A.nlatIn
  poslatOut : 0 < A.nlatOut

theorem headChecks_ok {A : LayerArgs} (h : headChecks A = .ok ()) :
    0 < A.numHeads ∧ A.kC = A.numHeads * (A.kC / A.numHeads) ∧ A.oC = A.numHeads * (A.oC / A.numHeads) := by
  unfold headChecks at h
  split at h
  · cases h
  next h0 =>
    split at h
    · cases h
    next h1 =>
      split at h
      · cases h
      next h2 =>
        rw [not_not] at h1 h2
        exact ⟨by omega, (Nat.mul_div_cancel' (Nat.dvd_of_mod_eq_zero h1)).symm, (Nat.mul_div_cancel' (Nat.dvd_of_mod_eq_zero h2)).symm⟩

/-! ### `NeighborhoodAttentionS2` -/

theorem normalize_cols {N : NormArgs} {mode : String} {raw es : List (Entry ℝ)} (h : Disco.normalize N mode raw = .ok es) :
    es.map (fun e => e.col) = raw.map fun e => e.col := by
  unfold Disco.normalize at h
  dsimp only at h
  split at h
  · cases h
  split at h
  · cases h
  split at h
  · cases h
  split at h
  · cases h
  split at h
  · cases h
  cases h
  rw [List.map_map]
  rfl

theorem precompute_ok {gauss : ℕ → Rule} {tol : ℝ} {maxiter : ℕ} {P : PreArgs} {es : List (Entry ℝ)} {roff : ℕ → ℕ} {rin rout : Rule}
    (h : precompute gauss tol maxiter P = .ok (es, roff)) (hin : precomputeLatitudes gauss tol maxiter P.nlatIn P.gridIn = .ok rin)
    (hout : precomputeLatitudes gauss tol maxiter P.nlatOut P.gridOut = .ok rout) :
    es.map (fun e => e.col) = (rawEntries P.basis rin.x rout.x P.nlatIn P.nlonIn P.nlatOut ((1 + P.thetaEps) * P.thetaCutoff)).map (fun e => e.col) ∧
      roff = rowOffsetsRaw P.basis rin.x rout.x P.nlatIn P.nlonIn ((1 + P.thetaEps) * P.thetaCutoff) := by
  unfold precompute at h
  rw [hin] at h
  dsimp only at h
  rw [hout] at h
  dsimp only at h
  split at h
  · cases h
  split at h
  · cases h
  next e he =>
    cases h
    exact ⟨normalize_cols he, rfl⟩

/-- What a successful construction has checked and stored. -/
theorem nbhd_init {gauss : ℕ → Rule} {tol : ℝ} {maxiter : ℕ} {A : LayerArgs} {theta : Option ℝ} {p : Params} {L : Nbhd} {rin rout : Rule}
    (hL : Nbhd.init gauss tol maxiter A theta p = .ok L) (hin : precomputeLatitudes gauss tol maxiter A.nlatIn A.gridIn = .ok rin)
    (hout : precomputeLatitudes gauss tol maxiter A.nlatOut A.gridOut = .ok rout) :
    0 < A.nlonIn ∧ 0 < A.nlonOut ∧ (A.nlonIn % A.nlonOut = 0 ∨ A.nlonOut % A.nlonIn = 0) ∧ headChecks A = .ok () ∧
      L.args = A ∧ L.params = p ∧ L.quad = (fun i => 2 * Real.pi * rin.w i / A.nlonIn) ∧ ∃ cutoff, nbhdCutoff A theta = .ok cutoff ∧ 0 < cutoff ∧
      (A.nlonIn % A.nlonOut = 0 → ∀ h < A.nlatOut, (L.pattern.row h).map L.pattern.col
        = rowCols rin.x A.nlatIn A.nlonIn ((1 + 1 / 10 ^ 3) * cutoff) (rout.x h) h) ∧
      (A.nlonIn % A.nlonOut ≠ 0 → ∀ h < A.nlatIn, (L.pattern.row h).map L.pattern.col
        = rowCols rout.x A.nlatOut A.nlonOut ((1 + 1 / 10 ^ 3) * cutoff) (rin.x h) h) := by
  unfold Nbhd.init at hL
  split at hL
  · cases hL
  next h0 =>
    split at hL
    · cases hL
    next h1 =>
      split at hL
      · cases hL
      next cutoff hc =>
        split at hL
        · cases hL
        next hpos =>
          rw [hin] at hL
          dsimp only at hL
          split at hL
          · cases hL
          next es roff hpre =>
            split at hL
            · cases hL
            next hhead =>
              split at hL
              · cases hL
              cases hL
              rw [not_not] at h1
              have hup : A.upsample = true ↔ A.nlonOut % A.nlonIn = 0 ∧ A.nlonIn % A.nlonOut ≠ 0 := by
                unfold LayerArgs.upsample; rw [decide_eq_true_eq]
              refine ⟨by omega, by omega, h1.imp_right fun h => (hup.1 h).1, hhead, rfl, rfl, rfl, cutoff, hc, not_le.1 hpos,
                fun hg h hh => ?_, fun hg h hh => ?_⟩
              · have hu : ¬ A.upsample = true := fun h => (hup.1 h).2 hg
                unfold nbhdPre at hpre
                rw [if_neg hu] at hpre
                obtain ⟨e1, e2⟩ := precompute_ok hpre hin hout
                dsimp only at e1 e2
                rw [e2]
                exact pattern_row rin.x rout.x A.nlatIn A.nlonIn A.nlatOut _ es e1 h hh
              · have hu : A.upsample = true := h1.resolve_left hg
                unfold nbhdPre at hpre
                rw [if_pos hu] at hpre
                obtain ⟨e1, e2⟩ := precompute_ok hpre hout hin
                dsimp only at e1 e2
                rw [e2]
                exact pattern_row rout.x rin.x A.nlatOut A.nlonOut A.nlatIn _ es e1 h hh

theorem project_ok {x : Arr} {B H V Cin : ℕ} (Cout : ℕ) (W : ℕ → ℕ → ℝ) (bias : Option (ℕ → ℝ)) (hx : x.shape = [B, Cin, H, V]) :
    ∃ y z, toNhwc x = .ok y ∧ linear Cin Cout W bias y = .ok z ∧ z.shape = [B, H, V, Cout] ∧ ∀ b < B, ∀ h < H, ∀ w < V, ∀ o < Cout,
      z.at [b, h, w, o] = proj Cin W bias x.fn4 b o h w := by
  obtain ⟨h1, h2⟩ := permute_0231 hx
  obtain ⟨z, z1, z2, z3⟩ := linear_ok Cout W bias h1
  refine ⟨_, z, by simp [toNhwc, hx], z1, z2, fun b hb h hh w hw o ho => ?_⟩
  rw [z3 b hb h hh w hw o ho]
  unfold proj
  congr 1
  refine sum_congr rfl fun c hc => ?_
  rw [h2 b hb c (mem_range.1 hc) h hh w hw]
  rfl

theorem scale_at (x : Arr) (a : ℝ) (i : List ℕ) : (x.scale a).at i = x.at i * a := rfl

theorem rowCols_lt {lats : ℕ → ℝ} {nlat nlon : ℕ} {rc lat : ℝ} {t c : ℕ} (h : c ∈ rowCols lats nlat nlon rc lat t) : c < nlat * nlon := by
  obtain ⟨i, hi, j, hj, rfl, -⟩ := (mem_rowCols ..).1 h
  exact packed_lt hi hj

theorem fits_of_rows {P : Pattern} {nrows nlat nlon : ℕ} {lats lat : ℕ → ℝ} {rc : ℝ}
    (h : ∀ t < nrows, (P.row t).map P.col = rowCols lats nlat nlon rc (lat t) t) : P.Fits nrows (nlat * nlon) := by
  intro t ht z hz
  refine rowCols_lt (lats := lats) (rc := rc) (lat := lat t) (t := t) ?_
  rw [← h t ht]
  exact List.mem_map_of_mem hz

/-- The operators on their own: set attention over the disks. -/
theorem handle_ok {B nh Ck Cv nlatIn nlonIn nlatOut nlonOut : ℕ} {P : Pattern} {k v q : Arr} {thIn thOut : ℕ → ℝ} {rc : ℝ}
    (hk : k.shape = [B, nlatIn, nlonIn, nh * Ck]) (hv : v.shape = [B, nlatIn, nlonIn, nh * Cv]) (hq : q.shape = [B, nlatOut, nlonOut, nh * Ck])
    (hB : 0 < B) (hn : 0 < nh) (h1 : 0 < nlatIn) (h2 : 0 < nlonIn) (h3 : 0 < nlatOut) (h4 : 0 < nlonOut)
    (hdir : nlonIn % nlonOut = 0 ∨ nlonOut % nlonIn = 0)
    (hg : nlonIn % nlonOut = 0 → ∀ h < nlatOut, (P.row h).map P.col = rowCols thIn nlatIn nlonIn rc (thOut h) h)
    (hs : nlonIn % nlonOut ≠ 0 → ∀ h < nlatIn, (P.row h).map P.col = rowCols thOut nlatOut nlonOut rc (thIn h) h) (w : ℕ → ℝ)
    (run : Option CpuRun) (hrun : ∀ r, run = some r → CoversBlocks ⟨B * nh, Ck, Cv, nlatIn, nlonIn, nlatOut, nlonOut⟩ r.order) :
    ∃ y, attentionHandle run w P nh nlonIn nlatOut nlonOut k v q = .ok y ∧ y.shape = [B, nlatOut, nlonOut, nh * Cv] ∧
      ∀ b < B, ∀ n < nh, ∀ c < Cv, ∀ ho < nlatOut, ∀ wo < nlonOut, y.at [b, ho, wo, n * Cv + c]
        = setAttention Ck w (diskPoints thIn thOut nlatIn nlonIn nlonOut rc ho wo) (packedHead Ck n k) (packedHead Cv n v) (packedHead Ck n q)
          b c ho wo := by
  have F : OpFits B nh Ck Cv nlatIn nlonIn nlatOut nlonOut P k v q := ⟨hk, hv, hq, hB, hn, h1, h2, h3, h4, hdir, by
    split
    · next h => exact fits_of_rows (hg h)
    · next h => exact fits_of_rows (hs h)⟩
  have hset : ∀ ho < nlatOut, ∀ wo < nlonOut, (opNbrs P nlatIn nlonIn nlonOut ho wo).Nodup ∧
      ∀ p, p ∈ opNbrs P nlatIn nlonIn nlonOut ho wo ↔ p ∈ diskPoints thIn thOut nlatIn nlonIn nlonOut rc ho wo := by
    intro ho hho wo hwo
    unfold opNbrs
    split
    · next h => exact gather_disk P thIn thOut nlatIn nlonIn nlonOut rc h2 h4 (Nat.dvd_of_mod_eq_zero h) ho wo (hg h ho hho)
    · next h =>
      exact scatter_disk P thIn thOut nlatIn nlonIn nlatOut nlonOut rc h2 h4 (Nat.dvd_of_mod_eq_zero (hdir.resolve_left h)) ho wo hho hwo (hs h)
  have key : ∃ y, attentionHandle run w P nh nlonIn nlatOut nlonOut k v q = .ok y ∧ y.shape = [B, nlatOut, nlonOut, nh * Cv] ∧
      ∀ b < B, ∀ n < nh, ∀ c < Cv, ∀ ho < nlatOut, ∀ wo < nlonOut, y.at [b, ho, wo, n * Cv + c]
        = attention Ck w (opNbrs P nlatIn nlonIn nlonOut) (packedHead Ck n k) (packedHead Cv n v) (packedHead Ck n q) b c ho wo := by
    cases run with
    | none => exact C44_operator_reference F w
    | some r => exact C44_operator_cpu F w r (hrun r rfl)
  obtain ⟨y, y1, y2, y3⟩ := key
  refine ⟨y, y1, y2, fun b hb n hn c hc ho hho wo hwo => ?_⟩
  rw [y3 b hb n hn c hc ho hho wo hwo]
  exact attention_set _ _ _ _ _ _ _ (hset ho hho wo hwo).1 (hset ho hho wo hwo).2

/-- C43, `NeighborhoodAttentionS2`: the layer attends to exactly the input points whose great-circle distance from the output point is
at most `(1 + 1e-3) * theta_cutoff`, with the quadrature weights of the input grid. For the reference and for the CPU operator (and
every schedule of it), for self-attention, downsampling and upsampling. -/
theorem C43_neighbourhood {gauss : ℕ → Rule} {tol : ℝ} {maxiter : ℕ} {A : LayerArgs} {theta : Option ℝ} {p : Params} {L : Nbhd}
    {rin rout : Rule} (hL : Nbhd.init gauss tol maxiter A theta p = .ok L)
    (hin : precomputeLatitudes gauss tol maxiter A.nlatIn A.gridIn = .ok rin)
    (hout : precomputeLatitudes gauss tol maxiter A.nlatOut A.gridOut = .ok rout)
    {B : ℕ} {query : Arr} {key value : Option Arr} (hI : LayerInputs A B query (key.getD query) (value.getD query)) (run : Option CpuRun)
    (hrun : ∀ r, run = some r → CoversBlocks ⟨B * A.numHeads, A.kC / A.numHeads, A.oC / A.numHeads, A.nlatIn, A.nlonIn, A.nlatOut, A.nlonOut⟩ r.order) :
    ∃ cutoff y, nbhdCutoff A theta = .ok cutoff ∧ L.forward run query key value = .ok y ∧ y.shape = [B, A.oC, A.nlatOut, A.nlonOut] ∧
      ∀ b < B, ∀ o < A.oC, ∀ ho < A.nlatOut, ∀ wo < A.nlonOut, y.at [b, o, ho, wo]
        = layer p A.inChannels (A.kC / A.numHeads) (A.oC / A.numHeads) A.oC (layerScale A.scale (A.kC / A.numHeads))
          (fun i => 2 * Real.pi * rin.w i / A.nlonIn)
          (diskPoints rin.x rout.x A.nlatIn A.nlonIn A.nlonOut ((1 + 1 / 10 ^ 3) * cutoff))
          (key.getD query).fn4 (value.getD query).fn4 query.fn4 b o ho wo := by
  obtain ⟨i1, i2, i3, i4, i5, i6, i7, cutoff, i8, i9, i10, i11⟩ := nbhd_init hL hin hout
  obtain ⟨hn, hkC, hoC⟩ := headChecks_ok i4
  obtain ⟨q1, q2, eq1, eq2, sq2, vq2⟩ := project_ok A.kC p.wq p.bq hI.hq
  obtain ⟨k1, k2, ek1, ek2, sk2, vk2⟩ := project_ok A.kC p.wk p.bk hI.hk
  obtain ⟨v1, v2, ev1, ev2, sv2, vv2⟩ := project_ok A.oC p.wv p.bv hI.hv
  rw [hkC] at sq2 sk2
  rw [hoC] at sv2
  obtain ⟨q3, eq3, sq3, vq3⟩ := nbhdNorm_ok p.eps p.nq sq2 hI.posB hI.poslatOut i2 hn
  obtain ⟨k3, ek3, sk3, vk3⟩ := nbhdNorm_ok p.eps p.nk sk2 hI.posB hI.poslatIn i1 hn
  obtain ⟨o1, eo1, so1, vo1⟩ := handle_ok (k := k3) (v := v2) (q := q3.scale (layerScale A.scale (A.kC / A.numHeads))) sk3 sv2 sq3 hI.posB hn hI.poslatIn i1 hI.poslatOut i2 i3 i10 i11
    (fun i => 2 * Real.pi * rin.w i / A.nlonIn) run hrun
  rw [← hoC] at so1
  obtain ⟨o2, eo2, so2, vo2⟩ := linear_ok A.oC p.wp p.bp so1
  obtain ⟨so3, vo3⟩ := permute_0312 so2
  have hsc : nbhdScale A = layerScale A.scale (A.kC / A.numHeads) := by unfold nbhdScale layerScale; cases A.scale <;> rfl
  refine ⟨cutoff, o2.permute [0, 3, 1, 2], i8, ?_, so3, fun b hb o ho' ho hho wo hwo => ?_⟩
  · unfold Nbhd.forward
    dsimp only
    rw [i5, i6, i7, hI.hq, hI.hk, hI.hv, if_neg (by simp), if_neg (by simp), if_neg (by simp), if_neg (by simp)]
    simp only [eq1, ek1, ev1, eq2, ek2, ev2, eq3, ek3, hsc, eo1, eo2, bind, Except.bind]
    unfold toNchw
    rw [so2]
    rfl
  · rw [vo3 b hb o ho' ho hho wo hwo, vo2 b hb ho hho wo hwo o ho']
    unfold layer proj
    congr 1
    refine sum_congr rfl fun j hj => ?_
    congr 1
    have hj' := mem_range.1 hj
    rw [hoC] at hj'
    obtain ⟨e1, e2, e3⟩ := packed_split hj'
    rw [← e3, vo1 b hb _ e1 _ e2 ho hho wo hwo, e3]
    refine setAttention_congr (fun _ _ => rfl) (fun pt hpt e he => ?_) (fun pt hpt => ?_) (fun e he => ?_)
    · obtain ⟨⟨h1, h2⟩, -⟩ := mem_diskPoints.1 hpt
      unfold packedHead
      rw [vk3 b hb _ e1 e he _ h1 _ h2]
      refine headNorm_congr (fun c hc => ?_) e he
      rw [vk2 b hb _ h1 _ h2 _ (lt_of_lt_of_eq (packed_lt e1 hc) hkC.symm)]
      rfl
    · obtain ⟨⟨h1, h2⟩, -⟩ := mem_diskPoints.1 hpt
      unfold packedHead
      rw [vv2 b hb _ h1 _ h2 _ (lt_of_lt_of_eq (packed_lt e1 e2) hoC.symm)]
      rfl
    · unfold packedHead
      rw [scale_at, vq3 b hb _ e1 e he _ hho _ hwo]
      congr 1
      refine headNorm_congr (fun c hc => ?_) e he
      rw [vq2 b hb _ hho _ hwo _ (lt_of_lt_of_eq (packed_lt e1 hc) hkC.symm)]
      rfl

/-! ### `AttentionS2` -/

theorem global_init {gauss : ℕ → Rule} {tol : ℝ} {maxiter : ℕ} {A : LayerArgs} {p : Params} {L : Global} {rin : Rule}
    (hL : Global.init gauss tol maxiter A p = .ok L) (hin : precomputeLatitudes gauss tol maxiter A.nlatIn A.gridIn = .ok rin) :
    0 < A.nlonOut ∧ A.nlonIn % A.nlonOut = 0 ∧ headChecks A = .ok () ∧ L.args = A ∧ L.params = p ∧
      L.logQuad = fun s => Real.log (2 * Real.pi * rin.w (s / A.nlonIn) / A.nlonIn) := by
  unfold Global.init at hL
  split at hL
  · cases hL
  next h0 =>
    split at hL
    · cases hL
    next h1 =>
      rw [hin] at hL
      dsimp only at hL
      split at hL
      · cases hL
      next hh =>
        cases hL
        exact ⟨by omega, not_not.1 h1, hh, rfl, rfl, rfl⟩

theorem scaledAttention_ok {q k v : Arr} {B nh L E S F M : ℕ} (sc : Scale) (mask : ℕ → ℝ) (hq : q.shape = [B, nh, L, E])
    (hk : k.shape = [B, nh, S, E]) (hv : v.shape = [B, nh, S, F]) (hM : M = S) :
    ∃ y, scaledAttention sc q k v M mask = .ok y ∧ y.shape = [B, nh, L, F] ∧ ∀ b < B, ∀ n < nh, ∀ l < L, ∀ f < F, y.at [b, n, l, f]
      = (∑ j ∈ range S, Real.exp ((∑ e ∈ range E, q.at [b, n, l, e] * layerScale sc E * k.at [b, n, j, e]) + mask j) * v.at [b, n, j, f])
        / ∑ j ∈ range S, Real.exp ((∑ e ∈ range E, q.at [b, n, l, e] * layerScale sc E * k.at [b, n, j, e]) + mask j) := by
  have key : ∀ a, ∃ y, sdpa q k v M mask a = .ok y ∧ y.shape = [B, nh, L, F] ∧ ∀ b < B, ∀ n < nh, ∀ l < L, ∀ f < F, y.at [b, n, l, f]
      = (∑ j ∈ range S, Real.exp ((∑ e ∈ range E, q.at [b, n, l, e] * a * k.at [b, n, j, e]) + mask j) * v.at [b, n, j, f])
        / ∑ j ∈ range S, Real.exp ((∑ e ∈ range E, q.at [b, n, l, e] * a * k.at [b, n, j, e]) + mask j) := by
    intro a
    obtain ⟨y, y1, y2, y3⟩ := sdpa_ok mask a hq hk hv hM
    refine ⟨y, y1, y2, fun b hb n hn l hl f hf => ?_⟩
    rw [y3 b hb n hn l hl f hf]
    have e : ∀ j, (∑ e ∈ range E, q.at [b, n, l, e] * k.at [b, n, j, e]) * a = ∑ e ∈ range E, q.at [b, n, l, e] * a * k.at [b, n, j, e] :=
      fun j => by rw [sum_mul]; exact sum_congr rfl fun e _ => by ring
    simp only [e]
  cases sc with
  | float a => exact key a
  | absent =>
    obtain ⟨y, y1, y2⟩ := key (1 / Real.sqrt (E : ℝ))
    refine ⟨y, ?_, y2⟩
    unfold scaledAttention
    dsimp only
    rw [hq]
    exact y1
  | tensor a =>
    obtain ⟨y, y1, y2, y3⟩ := sdpa_ok (q := q.scale a) mask 1 hq hk hv hM
    refine ⟨y, y1, y2, fun b hb n hn l hl f hf => ?_⟩
    rw [y3 b hb n hn l hl f hf]
    simp only [scale_at, mul_one, layerScale]

theorem proj_apply (Cin : ℕ) (W : ℕ → ℕ → ℝ) (bias : Option (ℕ → ℝ)) (x : T4) (b o h w : ℕ) :
    proj Cin W bias x b o h w = (∑ c ∈ range Cin, x b c h w * W o c) + bias.elim 0 (fun f => f o) := rfl

/-- C43, `AttentionS2`: the layer attends to all input points, with the quadrature weights of the input grid (they enter as logarithms
added to the scores). -/
theorem C43_global {gauss : ℕ → Rule} {tol : ℝ} {maxiter : ℕ} {A : LayerArgs} {p : Params} {L : Global} {rin : Rule}
    (hL : Global.init gauss tol maxiter A p = .ok L) (hin : precomputeLatitudes gauss tol maxiter A.nlatIn A.gridIn = .ok rin)
    (hlon : 0 < A.nlonIn) (hw : ∀ i < A.nlatIn, 0 < rin.w i)
    {B : ℕ} {query : Arr} {key value : Option Arr} (hI : LayerInputs A B query (key.getD query) (value.getD query)) :
    ∃ y, L.forward query key value = .ok y ∧ y.shape = [B, A.oC, A.nlatOut, A.nlonOut] ∧
      ∀ b < B, ∀ o < A.oC, ∀ ho < A.nlatOut, ∀ wo < A.nlonOut, y.at [b, o, ho, wo]
        = layer p A.inChannels (A.kC / A.numHeads) (A.oC / A.numHeads) A.oC (layerScale A.scale (A.kC / A.numHeads))
          (fun i => 2 * Real.pi * rin.w i / A.nlonIn) (fun _ _ => wholeGrid A.nlatIn A.nlonIn)
          (key.getD query).fn4 (value.getD query).fn4 query.fn4 b o ho wo := by
  obtain ⟨i2, i3, i4, i5, i6, i7⟩ := global_init hL hin
  obtain ⟨hn, hkC, hoC⟩ := headChecks_ok i4
  obtain ⟨q1, eq1, sq1, vq1⟩ := conv1x1_ok A.kC p.wq p.bq hI.hq
  obtain ⟨k1, ek1, sk1, vk1⟩ := conv1x1_ok A.kC p.wk p.bk hI.hk
  obtain ⟨v1, ev1, sv1, vv1⟩ := conv1x1_ok A.oC p.wv p.bv hI.hv
  rw [hkC] at sq1 sk1
  rw [hoC] at sv1
  obtain ⟨q2, eq2, sq2, vq2⟩ := splitHeads_ok sq1 hI.posB hI.poslatOut i2 hn
  obtain ⟨k2, ek2, sk2, vk2⟩ := splitHeads_ok sk1 hI.posB hI.poslatIn hlon hn
  obtain ⟨v2, ev2, sv2, vv2⟩ := splitHeads_ok sv1 hI.posB hI.poslatIn hlon hn
  obtain ⟨q3, eq3, sq3, vq3⟩ := optNorm_ok p.eps p.nq sq2
  obtain ⟨k3, ek3, sk3, vk3⟩ := optNorm_ok p.eps p.nk sk2
  obtain ⟨o1, eo1, so1, vo1⟩ := scaledAttention_ok A.scale (fun s => Real.log (2 * Real.pi * rin.w (s / A.nlonIn) / A.nlonIn)) sq3 sk3 sv2 rfl
  obtain ⟨so2, vo2⟩ := permute_0132 so1
  have eo3 := reshape_full (o1.permute [0, 1, 3, 2]) [B, A.numHeads * (A.oC / A.numHeads), A.nlatOut, A.nlonOut] (by
    rw [so2]; simp only [List.prod_cons, List.prod_nil]; ring)
  rw [List.map_cons, List.map_cons, List.map_cons, List.map_cons, List.map_nil] at eo3
  obtain ⟨o4, eo4, so4, vo4⟩ := conv1x1_ok (x := ⟨[B, A.oC, A.nlatOut, A.nlonOut], (o1.permute [0, 1, 3, 2]).data⟩) A.oC p.wp p.bp rfl
  refine ⟨o4, ?_, so4, fun b hb o ho' ho hho wo hwo => ?_⟩
  · unfold Global.forward
    dsimp only
    rw [i5, i6, i7, hI.hq, hI.hk, hI.hv, if_neg (by simp)]
    simp only [eq1, ek1, ev1, eq2, ek2, ev2, eq3, ek3, eo1, bind, Except.bind]
    rw [so1]
    simp only [List.getD_cons_zero, List.getD_cons_succ]
    rw [eo3]
    dsimp only
    rw [← hoC]
    exact eo4
  · rw [vo4 b hb ho hho wo hwo o ho']
    unfold layer
    rw [proj_apply]
    congr 1
    refine sum_congr rfl fun j hj => ?_
    congr 1
    have hj' := mem_range.1 hj
    rw [hoC] at hj'
    obtain ⟨e1, e2, e3⟩ := packed_split hj'
    generalize hnj : j / (A.oC / A.numHeads) = n at e1 e3 ⊢
    generalize hcj : j % (A.oC / A.numHeads) = c at e2 e3 ⊢
    have hl : ho * A.nlonOut + wo < A.nlatOut * A.nlonOut := packed_lt hho hwo
    have ez : (⟨[B, A.oC, A.nlatOut, A.nlonOut], (o1.permute [0, 1, 3, 2]).data⟩ : Arr).at [b, j, ho, wo]
        = o1.at [b, n, ho * A.nlonOut + wo, c] := by
      rw [← vo2 b hb n e1 _ hl c e2, ← e3]
      unfold Arr.at
      rw [so2]
      refine congrArg (Arr.data _) ?_
      rw [flat4, flat4]
      nth_rewrite 1 [hoC]
      ring
    rw [ez, vo1 b hb n e1 _ hl c e2]
    have hwpos : ∀ i < A.nlatIn, 0 < 2 * Real.pi * rin.w i / A.nlonIn := fun i hi => by
      have := hw i hi
      have := Real.pi_pos
      have : (0 : ℝ) < A.nlonIn := by exact_mod_cast hlon
      positivity
    have hq' : ∀ e < A.kC / A.numHeads, q3.at [b, n, ho * A.nlonOut + wo, e]
        = headNorm (A.kC / A.numHeads) p.eps p.nq (head (A.kC / A.numHeads) n (proj A.inChannels p.wq p.bq query.fn4)) b e ho wo := by
      intro e he
      rw [vq3 b n _ e he]
      refine headNorm_congr (fun c hc => ?_) e he
      rw [vq2 b hb n e1 ho hho wo hwo c hc, vq1 b hb ho hho wo hwo _ (lt_of_lt_of_eq (packed_lt e1 hc) hkC.symm)]
      rfl
    have hk' : ∀ i < A.nlatIn, ∀ l < A.nlonIn, ∀ e < A.kC / A.numHeads, k3.at [b, n, i * A.nlonIn + l, e]
        = headNorm (A.kC / A.numHeads) p.eps p.nk (head (A.kC / A.numHeads) n (proj A.inChannels p.wk p.bk (key.getD query).fn4)) b e i l := by
      intro i hi l hl e he
      rw [vk3 b n _ e he]
      refine headNorm_congr (fun c hc => ?_) e he
      rw [vk2 b hb n e1 i hi l hl c hc, vk1 b hb i hi l hl _ (lt_of_lt_of_eq (packed_lt e1 hc) hkC.symm)]
      rfl
    have hexp : ∀ i < A.nlatIn, ∀ l < A.nlonIn,
        Real.exp ((∑ e ∈ range (A.kC / A.numHeads), q3.at [b, n, ho * A.nlonOut + wo, e] * layerScale A.scale (A.kC / A.numHeads)
          * k3.at [b, n, i * A.nlonIn + l, e]) + Real.log (2 * Real.pi * rin.w ((i * A.nlonIn + l) / A.nlonIn) / A.nlonIn))
        = 2 * Real.pi * rin.w i / A.nlonIn * Real.exp (score (A.kC / A.numHeads)
          (headNorm (A.kC / A.numHeads) p.eps p.nk (head (A.kC / A.numHeads) n (proj A.inChannels p.wk p.bk (key.getD query).fn4)))
          (fun b c h w => headNorm (A.kC / A.numHeads) p.eps p.nq (head (A.kC / A.numHeads) n (proj A.inChannels p.wq p.bq query.fn4)) b c h w
            * layerScale A.scale (A.kC / A.numHeads)) b ho wo (i, l)) := by
      intro i hi l hl
      have hdiv : (i * A.nlonIn + l) / A.nlonIn = i := by
        rw [Nat.mul_comm, Nat.mul_add_div hlon, Nat.div_eq_of_lt hl, add_zero]
      rw [hdiv, Real.exp_add, Real.exp_log (hwpos i hi), mul_comm]
      congr 2
      unfold score
      exact sum_congr rfl fun e he => by rw [hq' e (mem_range.1 he), hk' i hi l hl e (mem_range.1 he)]
    unfold setAttention
    congr 1
    · refine sum_wholeGrid A.nlatIn A.nlonIn _ _ fun i hi l hl => ?_
      rw [hexp i hi l hl, vv2 b hb n e1 i hi l hl c e2, vv1 b hb i hi l hl _ (lt_of_lt_of_eq (packed_lt e1 e2) hoC.symm)]
      rfl
    · exact sum_wholeGrid A.nlatIn A.nlonIn _ _ fun i hi l hl => hexp i hi l hl

/-! ### The two layers agree -/

theorem layer_congr_set (p : Params) (inC Ck Cv outC : ℕ) (scale : ℝ) (w : ℕ → ℝ) {nb nb' : ℕ → ℕ → Finset (ℕ × ℕ)} (k v q : T4) {b o ho wo : ℕ}
    (h : nb ho wo = nb' ho wo) : layer p inC Ck Cv outC scale w nb k v q b o ho wo = layer p inC Ck Cv outC scale w nb' k v q b o ho wo := by
  unfold layer
  exact proj_congr fun c _ => by rw [h]

theorem geodesic_le_pi (u v : ℝ × ℝ × ℝ) : geodesic u v ≤ Real.pi := Real.arccos_le_pi _

/-- C43: with a cutoff of at least pi the neighbourhood of every point is the whole grid. -/
theorem C43_full_disk (thIn thOut : ℕ → ℝ) (nlatIn nlonIn nlonOut : ℕ) (rc : ℝ) (hrc : Real.pi ≤ rc) (ho wo : ℕ) :
    diskPoints thIn thOut nlatIn nlonIn nlonOut rc ho wo = wholeGrid nlatIn nlonIn := by
  ext pt
  rw [mem_diskPoints]
  unfold wholeGrid
  rw [mem_product, mem_range, mem_range]
  exact and_iff_left ((geodesic_le_pi _ _).trans hrc)

/-- C43: `NeighborhoodAttentionS2` whose neighbourhoods contain every grid point is `AttentionS2`: with the same parameters the two
forward passes return the same tensor. In particular for every `theta_cutoff ≥ pi`. -/
theorem C43_neighbourhood_is_global {gauss : ℕ → Rule} {tol : ℝ} {maxiter : ℕ} {A : LayerArgs} {theta : ℝ} {p : Params} {L : Nbhd} {G : Global}
    {rin rout : Rule} (hL : Nbhd.init gauss tol maxiter A (some theta) p = .ok L) (hG : Global.init gauss tol maxiter A p = .ok G)
    (hin : precomputeLatitudes gauss tol maxiter A.nlatIn A.gridIn = .ok rin)
    (hout : precomputeLatitudes gauss tol maxiter A.nlatOut A.gridOut = .ok rout) (hw : ∀ i < A.nlatIn, 0 < rin.w i)
    {B : ℕ} {query : Arr} {key value : Option Arr} (hI : LayerInputs A B query (key.getD query) (value.getD query)) (run : Option CpuRun)
    (hrun : ∀ r, run = some r → CoversBlocks ⟨B * A.numHeads, A.kC / A.numHeads, A.oC / A.numHeads, A.nlatIn, A.nlonIn, A.nlatOut, A.nlonOut⟩ r.order)
    (hfull : (∀ ho < A.nlatOut, ∀ wo < A.nlonOut, ∀ hi < A.nlatIn, ∀ wi < A.nlonIn,
      geodesic (point (rin.x hi) (lonOf A.nlonIn wi)) (point (rout.x ho) (lonOf A.nlonOut wo)) ≤ (1 + 1 / 10 ^ 3) * theta) ∨ Real.pi ≤ theta) :
    ∃ y z, L.forward run query key value = .ok y ∧ G.forward query key value = .ok z ∧ SameTensor y z := by
  obtain ⟨i1, -⟩ := nbhd_init hL hin hout
  obtain ⟨cutoff, y, c1, y1, y2, y3⟩ := C43_neighbourhood hL hin hout hI run hrun
  obtain ⟨z, z1, z2, z3⟩ := C43_global hG hin i1 hw hI
  cases c1
  refine ⟨y, z, y1, z1, by rw [y2, z2], fun i hi => ?_⟩
  rw [y2] at hi
  obtain ⟨b, o, ho, wo, rfl, hb, ho', hho, hwo⟩ := inside4_iff hi
  rw [y3 b hb o ho' ho hho wo hwo, z3 b hb o ho' ho hho wo hwo]
  refine layer_congr_set _ _ _ _ _ _ _ _ _ _ ?_
  rcases hfull with h | h
  · ext pt
    rw [mem_diskPoints]
    unfold wholeGrid
    rw [mem_product, mem_range, mem_range]
    exact and_iff_left_of_imp fun hpt => h ho hho wo hwo _ hpt.1 _ hpt.2
  · exact C43_full_disk _ _ _ _ _ _ (by nlinarith [Real.pi_pos]) _ _

/-! ### Constructors -/

theorem nbhd_mask_length : nbhdBasis.mask.length = nbhdBasis.kernelSize := by decide

/-- Both constructors accept every equiangular grid pair with matching longitudes. -/
theorem C43_constructible (gauss : ℕ → Rule) (tol : ℝ) (maxiter : ℕ) (A : LayerArgs) (p : Params) (theta : ℝ) (ht : 0 < theta)
    (hin : 2 ≤ A.nlatIn) (hout : 2 ≤ A.nlatOut) (hI : 0 < A.nlonIn) (hW : 0 < A.nlonOut) (hd : A.nlonIn % A.nlonOut = 0 ∨ A.nlonOut % A.nlonIn = 0)
    (gi : A.gridIn = "equiangular") (go : A.gridOut = "equiangular") (hh : headChecks A = .ok ()) (hk : 0 < A.kC) :
    (∃ L, Nbhd.init gauss tol maxiter A (some theta) p = .ok L) ∧ (A.nlonIn % A.nlonOut = 0 → ∃ G, Global.init gauss tol maxiter A p = .ok G) ∧
      ∃ rin, precomputeLatitudes gauss tol maxiter A.nlatIn A.gridIn = .ok rin ∧ (∀ i < A.nlatIn, 0 < rin.w i) ∧
        ∃ rout, precomputeLatitudes gauss tol maxiter A.nlatOut A.gridOut = .ok rout := by
  obtain ⟨rin, h1, h2, h3⟩ := C05_equiangular_latitudes gauss tol maxiter A.nlatIn hin
  obtain ⟨rout, h4, h5, -⟩ := C05_equiangular_latitudes gauss tol maxiter A.nlatOut hout
  rw [← gi] at h1
  rw [← go] at h4
  have hpos : ∀ i < A.nlatIn, 0 < rin.w i := by
    intro i hi
    rw [(h3 i hi).2]
    have := C06_clenshaw_curtis_pos A.nlatIn 0 2 (by norm_num) _ (by unfold clenshawCurtissWeights; rw [if_neg (by omega)]) i hi
    have e : 0 < ccW A.nlatIn i * (2 - 0) * (1 / 2) := this
    linarith
  refine ⟨?_, fun hg => ?_, rin, h1, hpos, rout, h4⟩
  · have hn0 : A.numHeads ≠ 0 := (headChecks_ok hh).1.ne'
    have hck : A.kC / A.numHeads ≠ 0 := by
      intro h0
      have := (headChecks_ok hh).2.1
      rw [h0] at this
      omega
    have hnorm : ∃ e, precompute gauss tol maxiter (nbhdPre A theta) = .ok e := by
      unfold nbhdPre
      split
      · have hA : NormFits (preNorm ⟨A.nlatOut, A.nlonOut, A.nlatIn, A.nlonIn, nbhdBasis, A.gridOut, A.gridIn, theta, 1 / 10 ^ 3, true, "none", true⟩ rout rin)
            (rawTaps nbhdBasis rout.x rin.x A.nlatOut A.nlonOut A.nlatIn ((1 + 1 / 10 ^ 3) * theta)) := by
          refine ⟨hW, fits_rawTaps _ _ _ _ _ _ _, ?_, ?_, Nat.one_pos⟩
          · exact h2
          · intro m hm
            cases hm
            exact nbhd_mask_length
        have hval := normalize_val hA "none" (by decide)
        unfold precompute
        dsimp only
        rw [h4]
        dsimp only
        rw [h1]
        dsimp only
        rw [if_neg (by omega), rawEntries_eq]
        have := hval
        dsimp only [preNorm] at this
        dsimp only [preNorm]
        rw [this]
        exact ⟨_, rfl⟩
      · have hA : NormFits (preNorm ⟨A.nlatIn, A.nlonIn, A.nlatOut, A.nlonOut, nbhdBasis, A.gridIn, A.gridOut, theta, 1 / 10 ^ 3, false, "none", true⟩ rin rout)
            (rawTaps nbhdBasis rin.x rout.x A.nlatIn A.nlonIn A.nlatOut ((1 + 1 / 10 ^ 3) * theta)) := by
          refine ⟨hI, fits_rawTaps _ _ _ _ _ _ _, ?_, ?_, Nat.one_pos⟩
          · exact h2
          · intro m hm
            cases hm
            exact nbhd_mask_length
        have hval := normalize_val hA "none" (by decide)
        unfold precompute
        dsimp only
        rw [h1]
        dsimp only
        rw [h4]
        dsimp only
        rw [if_neg (by omega), rawEntries_eq]
        have := hval
        dsimp only [preNorm] at this
        dsimp only [preNorm]
        rw [this]
        exact ⟨_, rfl⟩
    obtain ⟨⟨es, roff⟩, he⟩ := hnorm
    have hup : A.nlonIn % A.nlonOut = 0 ∨ A.upsample = true := by
      by_cases h : A.nlonIn % A.nlonOut = 0
      · exact Or.inl h
      · refine Or.inr ?_
        unfold LayerArgs.upsample
        rw [decide_eq_true_eq]
        exact ⟨hd.resolve_left h, h⟩
    unfold Nbhd.init nbhdCutoff
    rw [if_neg (by omega), if_neg (by rw [not_not]; exact hup)]
    dsimp only
    rw [if_neg (not_le.2 ht), h1]
    dsimp only
    rw [he]
    dsimp only
    rw [hh]
    dsimp only
    rw [if_neg (fun h => hck h.2)]
    exact ⟨_, rfl⟩
  · unfold Global.init
    rw [if_neg (by omega), if_neg (by rw [not_not]; exact hg), h1]
    dsimp only
    rw [hh]
    exact ⟨_, rfl⟩

/-- Requests the constructors refuse. `AttentionS2` refuses upsampling shapes although its forward pass does not need the check. -/
theorem C43_refused (gauss : ℕ → Rule) (tol : ℝ) (maxiter : ℕ) (A : LayerArgs) (p : Params) (theta : Option ℝ) (hI : 0 < A.nlonIn) (hW : 0 < A.nlonOut) :
    (A.nlonIn % A.nlonOut ≠ 0 → Global.init gauss tol maxiter A p = .error .valueError) ∧
    (A.nlonIn % A.nlonOut ≠ 0 → A.nlonOut % A.nlonIn ≠ 0 → Nbhd.init gauss tol maxiter A theta p = .error .valueError) ∧
    (∀ t, theta = some t → t ≤ 0 → Nbhd.init gauss tol maxiter A theta p = .error .valueError) ∧
    (A.nlonIn % A.nlonOut = 0 → theta = none → A.nlatOut = 1 → Nbhd.init gauss tol maxiter A theta p = .error .zeroDivision) := by
  refine ⟨fun h => ?_, fun h h' => ?_, fun t h h' => ?_, fun h h' h'' => ?_⟩
  · unfold Global.init; rw [if_neg (by omega), if_pos h]
  · unfold Nbhd.init
    rw [if_neg (by omega), if_pos]
    rintro (h1 | h1)
    · exact h h1
    · unfold LayerArgs.upsample at h1
      rw [decide_eq_true_eq] at h1
      exact h' h1.1
  · subst h
    unfold Nbhd.init nbhdCutoff
    rw [if_neg (by omega)]
    split
    · rfl
    · dsimp only; rw [if_pos h']
  · subst h'
    have hu : ¬ A.upsample = true := by
      unfold LayerArgs.upsample
      rw [decide_eq_true_eq]
      exact fun hh => hh.2 h
    unfold Nbhd.init nbhdCutoff
    rw [if_neg (by omega), if_neg (by rw [not_not]; exact Or.inl h)]
    dsimp only
    rw [if_neg hu, if_pos h'']

/-- C43: tensors that do not have four axes, or not the extents of the grids, are refused. -/
theorem C43_shape_errors (L : Nbhd) (G : Global) (run : Option CpuRun) (query : Arr) (key value : Option Arr) :
    (query.shape.length ≠ 4 → L.forward run query key value = .error .runtimeError ∧ G.forward query key value = .error .runtimeError) ∧
    (∀ B C H W, query.shape = [B, C, H, W] → (H ≠ L.args.nlatOut ∨ W ≠ L.args.nlonOut) → L.forward run query key value = .error .runtimeError) := by
  refine ⟨fun h => ⟨?_, ?_⟩, fun B C H W hs h => ?_⟩
  · unfold Nbhd.forward; dsimp only; rw [if_pos (Or.inl h)]
  · unfold Global.forward; dsimp only; rw [if_pos (Or.inl h)]
  · unfold Nbhd.forward
    dsimp only
    split
    · rfl
    · rw [hs, if_pos (show [B, C, H, W].getD 2 0 ≠ _ ∨ [B, C, H, W].getD 3 0 ≠ _ from h)]

example (gauss : ℕ → Rule) (tol : ℝ) (maxiter : ℕ) (p : Params) :
    ∃ L G, Nbhd.init gauss tol maxiter ⟨4, 2, 5, 8, 3, 4, "equiangular", "equiangular", .absent, none, some 6⟩ (some 4) p = .ok L ∧
      Global.init gauss tol maxiter ⟨4, 2, 5, 8, 3, 4, "equiangular", "equiangular", .absent, none, some 6⟩ p = .ok G := by
  obtain ⟨⟨L, hL⟩, hG, -⟩ := C43_constructible gauss tol maxiter ⟨4, 2, 5, 8, 3, 4, "equiangular", "equiangular", .absent, none, some 6⟩ p 4
    (by norm_num) (by decide) (by decide) (by decide) (by decide) (Or.inl rfl) rfl rfl rfl (by decide)
  obtain ⟨G, hG⟩ := hG rfl
  exact ⟨L, G, hL, hG⟩

example : LayerInputs ⟨4, 2, 5, 8, 3, 4, "equiangular", "equiangular", .absent, none, some 6⟩ 2 ⟨[2, 4, 3, 4], fun i => i⟩
    ⟨[2, 4, 5, 8], fun i => i⟩ ⟨[2, 4, 5, 8], fun i => 1 / (i + 1)⟩ :=
  ⟨rfl, rfl, rfl, by decide, by decide, by decide⟩

end Verif.Props
