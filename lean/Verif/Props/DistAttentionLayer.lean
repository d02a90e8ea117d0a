import Verif.Lemmas.DistAttentionLayer
import Verif.Props.AttentionLayer
import Verif.Props.DistAttention
/-!
Property C70: the distributed attention layer computes the serial layer. `DNbhd` is the layer on a process grid; `Nbhd` is the serial
layer (C43). A tile (`ArrTile`, Spec/DistAttentionLayer.lean) is the part of a global tensor that a rank owns.
-/
namespace Verif.Props
open Verif Verif.Attn Verif.Ring Verif.Dist Verif.Quad Verif.Disco Verif.Spec Verif.Spec.Attn Verif.Spec.Ring Finset

/-! ### What the constructor stores -/

theorem rowOffsetsRaw_mono (B : Basis) (l1 l2 : ℕ → ℝ) (n1 n2 : ℕ) (rc : ℝ) : Monotone (rowOffsetsRaw B l1 l2 n1 n2 rc) :=
  monotone_nat_of_le_succ fun t => by rw [rowOffsetsRaw]; omega

theorem nbhd_init_mono {gauss : ℕ → Rule} {tol : ℝ} {maxiter : ℕ} {A : LayerArgs} {theta : Option ℝ} {p : Params} {L : Nbhd} {rin rout : Rule}
    (hL : Nbhd.init gauss tol maxiter A theta p = .ok L) (hin : precomputeLatitudes gauss tol maxiter A.nlatIn A.gridIn = .ok rin)
    (hout : precomputeLatitudes gauss tol maxiter A.nlatOut A.gridOut = .ok rout) : Monotone L.pattern.roff := by
  unfold Nbhd.init at hL
  split at hL
  · cases hL
  split at hL
  · cases hL
  split at hL
  · cases hL
  next cutoff hc =>
    split at hL
    · cases hL
    rw [hin] at hL
    dsimp only at hL
    split at hL
    · cases hL
    next es roff hpre =>
      split at hL
      · cases hL
      split at hL
      · cases hL
      cases hL
      show Monotone roff
      unfold nbhdPre at hpre
      split at hpre
      · rw [(precompute_ok hpre hout hin).2]; exact rowOffsetsRaw_mono ..
      · rw [(precompute_ok hpre hin hout).2]; exact rowOffsetsRaw_mono ..

theorem gridsOf_upsample (A : LayerArgs) : (gridsOf A).upsample = true ↔ A.nlonOut % A.nlonIn = 0 ∧ A.nlonIn % A.nlonOut ≠ 0 := by
  unfold Grids.upsample gridsOf
  rw [decide_eq_true_eq]

/-- The pattern of a constructed layer is in order, and the neighbours it stores are the points of the disks. -/
theorem nbhd_pattern {gauss : ℕ → Rule} {tol : ℝ} {maxiter : ℕ} {A : LayerArgs} {theta : Option ℝ} {p : Params} {L : Nbhd} {rin rout : Rule}
    (hL : Nbhd.init gauss tol maxiter A theta p = .ok L) (hin : precomputeLatitudes gauss tol maxiter A.nlatIn A.gridIn = .ok rin)
    (hout : precomputeLatitudes gauss tol maxiter A.nlatOut A.gridOut = .ok rout) {cutoff : ℝ} (hc : nbhdCutoff A theta = .ok cutoff) :
    PatternOK (gridsOf A) L.pattern ∧ ∀ ho < A.nlatOut, ∀ wo < A.nlonOut, (neighbours (gridsOf A) L.pattern ho wo).Nodup ∧
      ∀ t, t ∈ neighbours (gridsOf A) L.pattern ho wo ↔
        t ∈ diskPoints rin.x rout.x A.nlatIn A.nlonIn A.nlonOut ((1 + 1 / 10 ^ 3) * cutoff) ho wo := by
  obtain ⟨i1, i2, i3, -, -, -, -, cutoff', i8, -, i10, i11⟩ := nbhd_init hL hin hout
  rw [hc] at i8
  cases i8
  have hup := gridsOf_upsample A
  refine ⟨⟨nbhd_init_mono hL hin hout, ?_⟩, fun ho hho wo hwo => ?_⟩
  · split
    · next h => exact fits_of_rows (i11 (hup.1 h).2)
    · next h => exact fits_of_rows (i10 (by by_contra h'; exact h (hup.2 ⟨i3.resolve_left h', h'⟩)))
  · unfold neighbours
    split
    · next h =>
      exact scatter_disk L.pattern rin.x rout.x A.nlatIn A.nlonIn A.nlatOut A.nlonOut _ i1 i2 (Nat.dvd_of_mod_eq_zero (hup.1 h).1) ho wo hho hwo
        (i11 (hup.1 h).2)
    · next h =>
      have h' : A.nlonIn % A.nlonOut = 0 := by by_contra h'; exact h (hup.2 ⟨i3.resolve_left h', h'⟩)
      exact gather_disk L.pattern rin.x rout.x A.nlatIn A.nlonIn A.nlonOut _ i1 i2 (Nat.dvd_of_mod_eq_zero h') ho wo (i10 h' ho hho)

theorem dnbhd_init {gauss : ℕ → Rule} {tol : ℝ} {maxiter : ℕ} {A : LayerArgs} {theta : Option ℝ} {w : Params} {Pp Pa : ℕ} {L : DNbhd}
    (hPp : 0 < Pp) (hPa : 0 < Pa) (hL : DNbhd.init gauss tol maxiter A theta w Pp Pa = .ok L) :
    Nbhd.init gauss tol maxiter A theta w = .ok L.serial ∧
      ∀ p < Pp, ∀ a < Pa, DAttn.init (gridsOf A) L.serial.pattern Pp Pa p a = .ok (L.rank p a) := by
  unfold DNbhd.init at hL
  split at hL
  · cases hL
  next S hS =>
    split at hL
    · cases hL
    next D hD =>
      cases hL
      refine ⟨hS, ?_⟩
      by_cases hall : ∀ p < Pp, ∀ a < Pa, ∃ d, DAttn.init (gridsOf A) S.pattern Pp Pa p a = .ok d ∧ True
      · obtain ⟨D', h1, h2⟩ := collect_ok hPp hPa hall
        rw [hD] at h1
        cases h1
        exact fun p hp a ha => (h2 p hp a ha).1
      · push Not at hall
        obtain ⟨p, hp, a, ha, h⟩ := hall
        cases hd : DAttn.init (gridsOf A) S.pattern Pp Pa p a with
        | ok d => exact (h d hd).elim
        | error e =>
          obtain ⟨e', he⟩ := collect_error (f := fun r a => DAttn.init (gridsOf A) S.pattern Pp Pa r a) hp ha hd
          rw [he] at hD
          cases hD

theorem blockSize_pos {n P r : ℕ} (hP : 0 < P) (h : P ≤ n) : 0 < blockSize n P r := by
  have := Nat.div_pos h hP
  unfold Spec.blockSize
  omega

/-- C70, constructor: on a process grid the layer can be built exactly when the serial layer can, there are no more ranks than latitudes
and longitudes, and the longitudes of the coarser grid can be split evenly (or both grids have the same longitudes). -/
theorem C70_constructor (gauss : ℕ → Rule) (tol : ℝ) (maxiter : ℕ) (A : LayerArgs) (theta : Option ℝ) (w : Params) (Pp Pa : ℕ)
    (hPp : 0 < Pp) (hPa : 0 < Pa) :
    (∃ L, DNbhd.init gauss tol maxiter A theta w Pp Pa = .ok L) ↔ (∃ S, Nbhd.init gauss tol maxiter A theta w = .ok S) ∧
      Pp ≤ A.nlatIn ∧ Pp ≤ A.nlatOut ∧ Pa ≤ A.nlonIn ∧ Pa ≤ A.nlonOut ∧ (A.nlonIn = A.nlonOut ∨ Pa ∣ min A.nlonIn A.nlonOut) := by
  have key : ∀ S, Nbhd.init gauss tol maxiter A theta w = .ok S → ∀ p a,
      ((∃ D, DAttn.init (gridsOf A) S.pattern Pp Pa p a = .ok D) ↔ Pp ≤ A.nlatIn ∧ Pp ≤ A.nlatOut ∧ Pa ≤ A.nlonIn ∧ Pa ≤ A.nlonOut ∧
        (A.nlonIn = A.nlonOut ∨ Pa ∣ min A.nlonIn A.nlonOut)) := by
    intro S hS p a
    have h : 0 < A.nlonIn ∧ 0 < A.nlonOut ∧ (A.nlonOut ∣ A.nlonIn ∨ A.nlonIn ∣ A.nlonOut) := by
      unfold Nbhd.init at hS
      split at hS
      · cases hS
      next h0 =>
        split at hS
        · cases hS
        next h1 =>
          rw [not_not] at h1
          refine ⟨by omega, by omega, h1.imp Nat.dvd_of_mod_eq_zero fun h => Nat.dvd_of_mod_eq_zero ?_⟩
          unfold LayerArgs.upsample at h
          rw [decide_eq_true_eq] at h
          exact h.1
    exact C53_init (gridsOf A) S.pattern Pp Pa p a hPp hPa h.1 h.2.1 h.2.2
  constructor
  · rintro ⟨L, hL⟩
    obtain ⟨h1, h2⟩ := dnbhd_init hPp hPa hL
    exact ⟨⟨_, h1⟩, (key _ h1 0 0).1 ⟨_, h2 0 hPp 0 hPa⟩⟩
  · rintro ⟨⟨S, hS⟩, h⟩
    obtain ⟨D, hD, -⟩ := collect_ok hPp hPa (Q := fun _ _ _ => True) fun p _ a _ => ((key S hS p a).2 h).imp fun d hd => ⟨hd, trivial⟩
    refine ⟨⟨S, D⟩, ?_⟩
    unfold DNbhd.init
    rw [hS]
    dsimp only
    rw [hD]

/-- The halo of a constructed layer fits into the blocks exactly when the disks do not reach too far. -/
theorem halos_fit_iff {gauss : ℕ → Rule} {tol : ℝ} {maxiter : ℕ} {A : LayerArgs} {theta : Option ℝ} {w : Params} {Pp Pa : ℕ} {L : DNbhd}
    (hPp : 0 < Pp) (hPa : 0 < Pa) (hL : DNbhd.init gauss tol maxiter A theta w Pp Pa = .ok L) {rin rout : Rule}
    (hin : precomputeLatitudes gauss tol maxiter A.nlatIn A.gridIn = .ok rin)
    (hout : precomputeLatitudes gauss tol maxiter A.nlatOut A.gridOut = .ok rout) {cutoff : ℝ} (hc : nbhdCutoff A theta = .ok cutoff)
    {p a : ℕ} (hp : p < Pp) (ha : a < Pa) :
    HalosFit rin.x rout.x A.nlatIn A.nlonIn A.nlatOut A.nlonOut ((1 + 1 / 10 ^ 3) * cutoff) Pp ↔
      ∀ s < Pp, (L.rank p a).r ≤ blockSize A.nlatIn Pp s := by
  obtain ⟨h1, h2⟩ := dnbhd_init hPp hPa hL
  obtain ⟨hP, hnb⟩ := nbhd_pattern h1 hin hout hc
  obtain ⟨i1, i2, -⟩ := nbhd_init h1 hin hout
  obtain ⟨w1, w2⟩ := C53_halo_width (gridsOf A) L.serial.pattern hP Pp Pa p a i1 i2 _ (h2 p hp a ha)
  unfold HalosFit
  by_cases hone : Pp = 1
  · rw [w1 hone]
    exact ⟨fun _ s _ => Nat.zero_le _, fun _ => Or.inl hone⟩
  · rw [or_iff_right hone]
    refine forall₂_congr fun s _ => ?_
    rw [w2 hone]
    unfold ReachAtMost
    refine forall₂_congr fun p' hp' => forall₂_congr fun h hh => forall₂_congr fun wo hwo => forall_congr' fun t => ?_
    have hrow : blockStart A.nlatOut Pp p' + h < A.nlatOut := block_lt hPp hp' hh
    rw [← (hnb _ hrow wo hwo).2 t]
    rfl

/-! ### The forward pass -/

/-- The part of the forward pass before the first message: every rank holds tiles of the folded projections. -/
theorem project_tiles {gauss : ℕ → Rule} {tol : ℝ} {maxiter : ℕ} {A : LayerArgs} {theta : Option ℝ} {w : Params} {Pp Pa : ℕ} {L : DNbhd}
    (hPp : 0 < Pp) (hPa : 0 < Pa) (hL : DNbhd.init gauss tol maxiter A theta w Pp Pa = .ok L) {rin rout : Rule}
    (hin : precomputeLatitudes gauss tol maxiter A.nlatIn A.gridIn = .ok rin)
    (hout : precomputeLatitudes gauss tol maxiter A.nlatOut A.gridOut = .ok rout)
    {B : ℕ} (hB : 0 < B) {query key value : Arr} {ql : ℕ → ℕ → Arr} {kl vl : Option (ℕ → ℕ → Arr)}
    (hq : ∀ p < Pp, ∀ a < Pa, ArrTile B A.inChannels A.nlatOut A.nlonOut Pp Pa query p a (ql p a))
    (hk : ∀ p < Pp, ∀ a < Pa, ArrTile B A.inChannels A.nlatIn A.nlonIn Pp Pa key p a (kl.getD ql p a))
    (hv : ∀ p < Pp, ∀ a < Pa, ArrTile B A.inChannels A.nlatIn A.nlonIn Pp Pa value p a (vl.getD ql p a)) :
    ∀ p < Pp, ∀ a < Pa, ∃ t, distProject L.serial (L.rank p a) p a (ql p a) (kl.getD ql p a) (vl.getD ql p a) = .ok t ∧
      (Tile (B * A.numHeads) (A.kC / A.numHeads) A.nlatIn A.nlonIn Pp Pa
          (foldedGlobal A.numHeads (A.kC / A.numHeads) A.inChannels w.eps w.nk w.wk w.bk key.fn4) p a t.k ∧
        Tile (B * A.numHeads) (A.oC / A.numHeads) A.nlatIn A.nlonIn Pp Pa
          (foldedGlobal A.numHeads (A.oC / A.numHeads) A.inChannels w.eps none w.wv w.bv value.fn4) p a t.v ∧
        Tile (B * A.numHeads) (A.kC / A.numHeads) A.nlatOut A.nlonOut Pp Pa
          (fun b c h j => foldedGlobal A.numHeads (A.kC / A.numHeads) A.inChannels w.eps w.nq w.wq w.bq query.fn4 b c h j
            * layerScale A.scale (A.kC / A.numHeads)) p a t.q) := by
  obtain ⟨h1, h2⟩ := dnbhd_init hPp hPa hL
  obtain ⟨i1, i2, i3, i4, i5, i6, i7, -⟩ := nbhd_init h1 hin hout
  obtain ⟨hn, hkC, hoC⟩ := headChecks_ok i4
  obtain ⟨-, s1, s2, s3, s4, -⟩ := (C70_constructor gauss tol maxiter A theta w Pp Pa hPp hPa).1 ⟨L, hL⟩
  have hsc : nbhdScale A = layerScale A.scale (A.kC / A.numHeads) := by unfold nbhdScale layerScale; cases A.scale <;> rfl
  set nh := A.numHeads with hnh
  set Ck := A.kC / nh with hCk
  set Cv := A.oC / nh with hCv
  set sc := layerScale A.scale Ck with hscd
  intro p hp a ha
  obtain ⟨e1, e2, e3, e4, -⟩ := init_fields (h2 p hp a ha)
  obtain ⟨k1, k2, ek1, ek2, ⟨kf, ek3, tk⟩, -⟩ := branch_ok (C := Ck) (hk p hp a ha) hB hn (blockSize_pos hPp s1) (blockSize_pos hPa s3)
    w.wk w.bk w.eps w.nk
  obtain ⟨v1, v2, ev1, ev2, ⟨vf, ev3, tv⟩, -⟩ := branch_ok (C := Cv) (hv p hp a ha) hB hn (blockSize_pos hPp s1) (blockSize_pos hPa s3)
    w.wv w.bv w.eps none
  obtain ⟨q1, q2, eq1, eq2, -, hqf⟩ := branch_ok (C := Ck) (hq p hp a ha) hB hn (blockSize_pos hPp s2) (blockSize_pos hPa s4)
    w.wq w.bq w.eps w.nq
  obtain ⟨qf, eq3, tq⟩ := hqf sc
  have hv12 : v1 = v2 := by unfold distNorm at ev2; exact Except.ok.inj ev2
  have hchk : distChecks (L.rank p a) p a (ql p a) (kl.getD ql p a) (vl.getD ql p a) = .ok () := by
    have f1 : (L.rank p a).latIn.getD p 0 = blockSize A.nlatIn Pp p := css_getD_block e1 p hp
    have f2 : (L.rank p a).lonIn.getD a 0 = blockSize A.nlonIn Pa a := css_getD_block e2 a ha
    have f3 : (L.rank p a).latOut.getD p 0 = blockSize A.nlatOut Pp p := css_getD_block e3 p hp
    have f4 : (L.rank p a).lonOut.getD a 0 = blockSize A.nlonOut Pa a := css_getD_block e4 a ha
    unfold distChecks
    rw [f1, f2, f3, f4, (hq p hp a ha).shape, (hk p hp a ha).shape, (hv p hp a ha).shape, if_neg (by simp), if_neg (by simp),
      if_neg (by simp), if_neg (by simp)]
  refine ⟨⟨kf, vf, qf⟩, ?_, tk, tv, tq⟩
  unfold distProject
  dsimp only
  rw [i5, i6, hchk]
  simp only [bind, Except.bind, pure, Except.pure]
  rw [← hkC] at ek1 eq1
  rw [← hoC, hv12] at ev1
  simp only [← hnh, ← hCk, ek1, ev1, eq1, eq2, ek2, ek3, ev3, hsc, eq3]

/-- C70: on any process grid on which the layer can be built, if the blocks of latitudes are not smaller than the reach of the disks, the
forward pass of the distributed layer gives every rank its tile of the output of the serial layer: for every schedule of the kernels,
with and without query-key normalisation, biases and explicit keys and values, for self-attention, downsampling and upsampling. -/
theorem C70_forward {gauss : ℕ → Rule} {tol : ℝ} {maxiter : ℕ} {A : LayerArgs} {theta : Option ℝ} {w : Params} {Pp Pa : ℕ} {L : DNbhd} {S : Nbhd}
    (hPp : 0 < Pp) (hPa : 0 < Pa) (hL : DNbhd.init gauss tol maxiter A theta w Pp Pa = .ok L)
    (hS : Nbhd.init gauss tol maxiter A theta w = .ok S) {rin rout : Rule}
    (hin : precomputeLatitudes gauss tol maxiter A.nlatIn A.gridIn = .ok rin)
    (hout : precomputeLatitudes gauss tol maxiter A.nlatOut A.gridOut = .ok rout) {cutoff : ℝ} (hc : nbhdCutoff A theta = .ok cutoff)
    (hr : HalosFit rin.x rout.x A.nlatIn A.nlonIn A.nlatOut A.nlonOut ((1 + 1 / 10 ^ 3) * cutoff) Pp)
    {B : ℕ} {query : Arr} {key value : Option Arr} (hI : LayerInputs A B query (key.getD query) (value.getD query))
    {ql : ℕ → ℕ → Arr} {kl vl : Option (ℕ → ℕ → Arr)}
    (hq : ∀ p < Pp, ∀ a < Pa, ArrTile B A.inChannels A.nlatOut A.nlonOut Pp Pa query p a (ql p a))
    (hk : ∀ p < Pp, ∀ a < Pa, ArrTile B A.inChannels A.nlatIn A.nlonIn Pp Pa (key.getD query) p a (kl.getD ql p a))
    (hv : ∀ p < Pp, ∀ a < Pa, ArrTile B A.inChannels A.nlatIn A.nlonIn Pp Pa (value.getD query) p a (vl.getD ql p a))
    (gl : ℕ → ℕ → ℕ → Launch)
    (hgl : ∀ p < Pp, ∀ a < Pa, ∀ step, LaunchOK (B * A.numHeads) (blockSize A.nlatOut Pp p) (blockSize A.nlonOut Pa a) (gl p a step))
    (ul : ℕ → ℕ → ℕ → UpLaunch) (hul : ∀ p < Pp, ∀ a < Pa, ∀ step, UpLaunchOK (ul p a step)) (run : Option CpuRun)
    (hrun : ∀ r, run = some r → CoversBlocks ⟨B * A.numHeads, A.kC / A.numHeads, A.oC / A.numHeads, A.nlatIn, A.nlonIn, A.nlatOut, A.nlonOut⟩ r.order) :
    ∃ Y y, S.forward run query key value = .ok Y ∧ L.forward Pp Pa gl ul ql kl vl = .ok y ∧
      ∀ p < Pp, ∀ a < Pa, ArrTile B A.oC A.nlatOut A.nlonOut Pp Pa Y p a (y p a) := by
  obtain ⟨h1, h2⟩ := dnbhd_init hPp hPa hL
  obtain ⟨hP, hnb⟩ := nbhd_pattern h1 hin hout hc
  obtain ⟨i1, i2, i3, i4, i5, i6, i7, -⟩ := nbhd_init h1 hin hout
  obtain ⟨hn, hkC, hoC⟩ := headChecks_ok i4
  obtain ⟨cutoff', Y, c1, Y1, Y2, Y3⟩ := C43_neighbourhood hS hin hout hI run hrun
  rw [hc] at c1
  cases c1
  set nh := A.numHeads with hnh
  set Ck := A.kC / nh with hCk
  set Cv := A.oC / nh with hCv
  set sc := layerScale A.scale Ck with hscd
  set K := foldedGlobal nh Ck A.inChannels w.eps w.nk w.wk w.bk (key.getD query).fn4 with hK
  set V := foldedGlobal nh Cv A.inChannels w.eps none w.wv w.bv (value.getD query).fn4 with hV
  set Q : T4 := fun b c h j => foldedGlobal nh Ck A.inChannels w.eps w.nq w.wq w.bq query.fn4 b c h j * sc with hQ
  -- before the first message
  obtain ⟨t, ht, ht'⟩ := collect_ok hPp hPa (project_tiles hPp hPa hL hin hout hI.posB hq hk hv)
  obtain ⟨z, hz, hz'⟩ := C53_forward (gridsOf A) L.serial.pattern hP L.serial.quad Pp Pa (B * nh) Ck Cv hPp hPa i1 i2 L.rank h2
    (fun p hp a ha s hs => (halos_fit_iff hPp hPa hL hin hout hc hp ha).1 hr s hs) K V Q (fun p a => (t p a).k) (fun p a => (t p a).v)
    (fun p a => (t p a).q) (fun p hp a ha => (ht' p hp a ha).2.1) (fun p hp a ha => (ht' p hp a ha).2.2.1)
    (fun p hp a ha => (ht' p hp a ha).2.2.2) gl hgl ul hul
  -- after the last message
  have hfin : ∀ p < Pp, ∀ a < Pa, ∃ y, distFinish L.serial (z p a) = .ok y ∧ ArrTile B A.oC A.nlatOut A.nlonOut Pp Pa Y p a y := by
    intro p hp a ha
    have T := hz' p hp a ha
    obtain ⟨o, o1, o2, o3⟩ := unfoldHeads_ok T.B_eq T.C_eq T.H_eq T.W_eq hn
    rw [← hoC] at o2
    obtain ⟨y, y1, y2, y3⟩ := conv1x1_ok A.oC w.wp w.bp o2
    refine ⟨y, ?_, y2, fun b hb c hc' h hh j hj => ?_⟩
    · unfold distFinish
      rw [i5, i6, ← hnh, o1]
      exact y1
    · have hh' : blockStart A.nlatOut Pp p + h < A.nlatOut := block_lt hPp hp hh
      have hj' : blockStart A.nlonOut Pa a + j < A.nlonOut := block_lt hPa ha hj
      rw [y3 b hb h hh j hj c hc', Y3 b hb c hc' _ hh' _ hj']
      unfold layer proj
      congr 1
      refine sum_congr rfl fun m hm => ?_
      congr 1
      have hm' := mem_range.1 hm
      rw [hoC] at hm'
      obtain ⟨m1, m2, m3⟩ := packed_split hm'
      have hbn : b * nh + m / Cv < B * nh := packed_lt hb m1
      obtain ⟨d1, d2⟩ := AttnGpu.div_mul_add (a := b) m1
      have e1 := o3 b hb _ m1 _ m2 h hh j hj
      rw [m3] at e1
      rw [e1, T.val_eq _ hbn _ m2 h hh j hj]
      refine (attention_set _ _ _ _ _ _ _ (hnb _ hh' _ hj').1 (hnb _ hh' _ hj').2).trans ?_
      rw [i7]
      refine setAttention_batch (fun e i j => ?_) (fun i j => ?_) fun e => ?_
      · rw [hK]; unfold foldedGlobal; rw [d1, d2]; rfl
      · rw [hV]; unfold foldedGlobal; rw [d1, d2]; rfl
      · rw [hQ]; dsimp only; unfold foldedGlobal; rw [d1, d2]; rfl
  obtain ⟨y, hy, hy'⟩ := collect_ok hPp hPa hfin
  refine ⟨Y, y, Y1, ?_, fun p hp a ha => (hy' p hp a ha).2⟩
  unfold DNbhd.forward
  dsimp only
  rw [ht]
  simp only [bind, Except.bind]
  rw [i5, hz]
  exact hy

/-! ### Errors -/

/-- A rank that raises before the first message makes the call fail. -/
theorem project_error {L : DNbhd} {Pp Pa p a : ℕ} (hp : p < Pp) (ha : a < Pa) {ql : ℕ → ℕ → Arr} {kl vl : Option (ℕ → ℕ → Arr)} {e : PyErr}
    (h : distProject L.serial (L.rank p a) p a (ql p a) (kl.getD ql p a) (vl.getD ql p a) = .error e) (gl : ℕ → ℕ → ℕ → Launch)
    (ul : ℕ → ℕ → ℕ → UpLaunch) : ∃ e', L.forward Pp Pa gl ul ql kl vl = .error e' := by
  obtain ⟨e', he⟩ := collect_error (f := fun p a => distProject L.serial (L.rank p a) p a (ql p a) (kl.getD ql p a) (vl.getD ql p a)) hp ha h
  refine ⟨e', ?_⟩
  unfold DNbhd.forward
  dsimp only
  rw [he]
  rfl

/-- C70: an argument that is not the rank's block of a four-dimensional tensor is rejected. -/
theorem C70_wrong_block {gauss : ℕ → Rule} {tol : ℝ} {maxiter : ℕ} {A : LayerArgs} {theta : Option ℝ} {w : Params} {Pp Pa : ℕ} {L : DNbhd}
    (hPp : 0 < Pp) (hPa : 0 < Pa) (hL : DNbhd.init gauss tol maxiter A theta w Pp Pa = .ok L) {ql : ℕ → ℕ → Arr}
    {kl vl : Option (ℕ → ℕ → Arr)} {p a : ℕ} (hp : p < Pp) (ha : a < Pa)
    (h : ¬ ((∃ B C, (ql p a).shape = [B, C, Spec.blockSize A.nlatOut Pp p, Spec.blockSize A.nlonOut Pa a]) ∧
      (∃ B C, (kl.getD ql p a).shape = [B, C, Spec.blockSize A.nlatIn Pp p, Spec.blockSize A.nlonIn Pa a]) ∧
      ∃ B C, (vl.getD ql p a).shape = [B, C, Spec.blockSize A.nlatIn Pp p, Spec.blockSize A.nlonIn Pa a]))
    (gl : ℕ → ℕ → ℕ → Launch) (ul : ℕ → ℕ → ℕ → UpLaunch) : ∃ e, L.forward Pp Pa gl ul ql kl vl = .error e := by
  obtain ⟨-, h2⟩ := dnbhd_init hPp hPa hL
  obtain ⟨e1, e2, e3, e4, -⟩ := init_fields (h2 p hp a ha)
  have f1 : (L.rank p a).latIn.getD p 0 = Spec.blockSize A.nlatIn Pp p := css_getD_block e1 p hp
  have f2 : (L.rank p a).lonIn.getD a 0 = Spec.blockSize A.nlonIn Pa a := css_getD_block e2 a ha
  have f3 : (L.rank p a).latOut.getD p 0 = Spec.blockSize A.nlatOut Pp p := css_getD_block e3 p hp
  have f4 : (L.rank p a).lonOut.getD a 0 = Spec.blockSize A.nlonOut Pa a := css_getD_block e4 a ha
  have four : ∀ (s : List ℕ) (H W : ℕ), s.length = 4 → s.getD 2 0 = H → s.getD 3 0 = W → ∃ B C, s = [B, C, H, W] := by
    intro s H W hl h2 h3
    match s, hl with
    | [B, C, H', W'], _ => exact ⟨B, C, by rw [show H' = H from h2, show W' = W from h3]⟩
  have hchk : distChecks (L.rank p a) p a (ql p a) (kl.getD ql p a) (vl.getD ql p a) = .error .runtimeError := by
    unfold distChecks
    rw [f1, f2, f3, f4]
    by_cases c1 : (ql p a).shape.length ≠ 4 ∨ (kl.getD ql p a).shape.length ≠ 4 ∨ (vl.getD ql p a).shape.length ≠ 4
    · rw [if_pos c1]
    rw [if_neg c1]
    split
    · rfl
    next c2 =>
      split
      · rfl
      next c3 =>
        split
        · rfl
        next c4 =>
          push Not at c1 c2 c3 c4
          exact absurd ⟨four _ _ _ c1.1 c2.1 c2.2, four _ _ _ c1.2.1 c3.1 c3.2, four _ _ _ c1.2.2 c4.1 c4.2⟩ h
  refine project_error (e := .runtimeError) hp ha ?_ gl ul
  unfold distProject
  dsimp only
  rw [hchk]
  rfl

/-- C70: if the disks of some rank reach further than the block of latitudes of some rank, the forward pass raises; the constructor does
not check this. -/
theorem C70_reach_too_far {gauss : ℕ → Rule} {tol : ℝ} {maxiter : ℕ} {A : LayerArgs} {theta : Option ℝ} {w : Params} {Pp Pa : ℕ} {L : DNbhd}
    (hPp : 0 < Pp) (hPa : 0 < Pa) (hL : DNbhd.init gauss tol maxiter A theta w Pp Pa = .ok L) {rin rout : Rule}
    (hin : precomputeLatitudes gauss tol maxiter A.nlatIn A.gridIn = .ok rin)
    (hout : precomputeLatitudes gauss tol maxiter A.nlatOut A.gridOut = .ok rout) {cutoff : ℝ} (hc : nbhdCutoff A theta = .ok cutoff)
    (hr : ¬ HalosFit rin.x rout.x A.nlatIn A.nlonIn A.nlatOut A.nlonOut ((1 + 1 / 10 ^ 3) * cutoff) Pp)
    {B : ℕ} (hB : 0 < B) {query key value : Arr} {ql : ℕ → ℕ → Arr} {kl vl : Option (ℕ → ℕ → Arr)}
    (hq : ∀ p < Pp, ∀ a < Pa, ArrTile B A.inChannels A.nlatOut A.nlonOut Pp Pa query p a (ql p a))
    (hk : ∀ p < Pp, ∀ a < Pa, ArrTile B A.inChannels A.nlatIn A.nlonIn Pp Pa key p a (kl.getD ql p a))
    (hv : ∀ p < Pp, ∀ a < Pa, ArrTile B A.inChannels A.nlatIn A.nlonIn Pp Pa value p a (vl.getD ql p a))
    (gl : ℕ → ℕ → ℕ → Launch) (ul : ℕ → ℕ → ℕ → UpLaunch) : ∃ e, L.forward Pp Pa gl ul ql kl vl = .error e := by
  obtain ⟨h1, h2⟩ := dnbhd_init hPp hPa hL
  obtain ⟨hP, -⟩ := nbhd_pattern h1 hin hout hc
  obtain ⟨i1, i2, -, -, i5, -⟩ := nbhd_init h1 hin hout
  obtain ⟨t, ht, ht'⟩ := collect_ok hPp hPa (project_tiles hPp hPa hL hin hout hB hq hk hv)
  rw [halos_fit_iff hPp hPa hL hin hout hc hPp hPa] at hr
  push Not at hr
  obtain ⟨s, hs, hr⟩ := hr
  have F := rank_facts hP hPp hPa i1 i2 h2
  obtain ⟨e, he⟩ := C53_halo_too_wide (gridsOf A) L.serial.pattern hP L.serial.quad Pp Pa (B * A.numHeads) (A.kC / A.numHeads) hPp hPa i1 i2 L.rank h2
    s hs (by rw [F.r_eq s hs 0 hPa]; exact hr) _ (fun p a => (t p a).k) (fun p a => (t p a).v) (fun p a => (t p a).q)
    (fun p hp a ha => (ht' p hp a ha).2.1) gl ul
  refine ⟨e, ?_⟩
  unfold DNbhd.forward
  dsimp only
  rw [ht]
  simp only [bind, Except.bind]
  rw [i5, he]

/-! ### When the halos fit -/

/-- C70: two polar ranks with equally many input latitudes work for every cutoff. -/
theorem C70_two_ranks (thIn thOut : ℕ → ℝ) (m nlonIn nlatOut nlonOut : ℕ) (rc : ℝ) :
    HalosFit thIn thOut (2 * m) nlonIn nlatOut nlonOut rc 2 := by
  have hs : ∀ s, Spec.blockSize (2 * m) 2 s = m := fun s => by unfold Spec.blockSize; simp
  have h0 : ∀ r, blockStart (2 * m) 2 r = r * m := fun r => by unfold blockStart; simp
  refine Or.inr fun s _ p hp h _ wo _ t ht => ?_
  have h1 := (mem_diskPoints.1 ht).1.1
  rw [hs, hs, h0]
  have hp' : p = 0 ∨ p = 1 := by omega
  rcases hp' with rfl | rfl <;> omega

/-- C70: with at least three polar ranks and one latitude per rank, a cutoff of `π` is refused. -/
theorem C70_whole_sphere_refused (thIn thOut : ℕ → ℝ) (n nlonIn nlonOut : ℕ) (rc : ℝ) (hrc : Real.pi ≤ rc) (hn : 3 ≤ n) (hI : 0 < nlonIn)
    (hO : 0 < nlonOut) : ¬ HalosFit thIn thOut n nlonIn n nlonOut rc n := by
  have hs : ∀ s, Spec.blockSize n n s = 1 := fun s => by
    unfold Spec.blockSize; rw [Nat.div_self (by omega), Nat.mod_self, if_neg (by omega)]
  have h0 : ∀ r, blockStart n n r = r := fun r => by unfold blockStart; rw [Nat.div_self (by omega), Nat.mod_self]; omega
  rintro (h | h)
  · omega
  · have := (h 0 (by omega) 0 (by omega) 0 (by rw [hs]; omega) 0 hO (n - 1, 0) (by
      rw [C43_full_disk _ _ _ _ _ _ hrc]
      exact mem_product.2 ⟨mem_range.2 (by show n - 1 < n; omega), mem_range.2 hI⟩)).2
    rw [hs, h0] at this
    dsimp only at this
    omega

/-! ### The hypotheses can be met -/

/-- The layer on a 4 × 8 and a 5 × 4 grid with two heads, on two by two ranks. -/
example (gauss : ℕ → Rule) (tol : ℝ) (maxiter : ℕ) (w : Params) :
    ∃ L, DNbhd.init gauss tol maxiter ⟨4, 2, 4, 8, 5, 4, "equiangular", "equiangular", .absent, none, some 6⟩ (some 1) w 2 2 = .ok L := by
  rw [C70_constructor _ _ _ _ _ _ _ _ (by decide) (by decide)]
  refine ⟨(C43_constructible gauss tol maxiter ⟨4, 2, 4, 8, 5, 4, "equiangular", "equiangular", .absent, none, some 6⟩ w 1
    (by norm_num) (by decide) (by decide) (by decide) (by decide) (Or.inl rfl) rfl rfl rfl (by decide)).1, by decide, by decide, by decide,
    by decide, Or.inr ⟨2, rfl⟩⟩

/-- Its inputs: a global tensor and its tiles. -/
example : ArrTile 2 4 5 4 2 2 ⟨[2, 4, 5, 4], fun i => i⟩ 1 1 (Arr.of4 2 4 2 2 fun b c h w => (⟨[2, 4, 5, 4], fun i => i⟩ : Arr).at [b, c, 3 + h, 2 + w]) :=
  ⟨rfl, fun _ hb _ hc _ hh _ hw => of4_at _ hb hc hh hw⟩

example (p a : ℕ) : LaunchOK (2 * 2) (Spec.blockSize 5 2 p) (Spec.blockSize 4 2 a) (revLaunch (Spec.blockSize 5 2 p) (Spec.blockSize 4 2 a)) :=
  revLaunch_ok _ _ _

end Verif.Props
