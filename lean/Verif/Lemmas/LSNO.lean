import Verif.Model.LSNO
import Verif.Lemmas.SFNO
import Verif.Props.SFNO
import Verif.Props.DiscoGeom
import Verif.Props.Resample
/-!
The layers of the local spherical neural operator commute with shifts in longitude. As in `Lemmas/SFNO.lean`, the shift `0` says that a layer accepts
inputs of the right shape, and which shape its result has.
-/
namespace Verif.LSNO
open Verif Verif.Dist Verif.FFT Verif.Quad Verif.Truncation Verif.SHT Verif.SFNO Verif.Filter Verif.Disco Verif.Spec Verif.Props Finset

/-! ### DISCO convolutions -/

theorem getBasis_mask {shape : List ℕ} {basis : String} {B : Basis} (h : getBasis shape basis = .ok B) : B.mask.length = B.kernelSize := by
  unfold getBasis at h
  split_ifs at h with h1 h2 h3
  · cases hs : plShape shape with
    | error e => rw [hs] at h; cases h
    | ok s => rw [hs] at h; cases h; exact C60_pl_mask_length _ _
  · match shape, h with
    | n :: _, h => cases h; exact zernikeMask_length n
  · match shape, h with
    | [n, m], h =>
      cases hm : harmonicMask n m with
      | error e => simp [hm, Except.map] at h
      | ok mask =>
        simp only [hm, Except.map] at h
        cases h
        unfold harmonicMask at hm
        split_ifs at hm
        cases hm
        simp
    | [], h => cases h
    | [_], h => cases h
    | _ :: _ :: _ :: _, h => cases h

theorem getBasis_known {shape : List ℕ} {basis : String} {B : Basis} (h : getBasis shape basis = .ok B) :
    ∃ k rest f, shape = k :: rest ∧ cutoffFactor basis = some f ∧ 0 < f := by
  have hf : ∃ f, cutoffFactor basis = some f ∧ 0 < f := by
    unfold getBasis at h
    unfold cutoffFactor
    split_ifs at h with h1 h2 h3
    · exact ⟨1 / 2, by rw [if_pos h1], by norm_num⟩
    · subst h2
      exact ⟨Real.sqrt 2, by simp, by positivity⟩
    · exact ⟨1 / 2, by rw [if_neg h1, if_pos h3], by norm_num⟩
  obtain ⟨f, hf, h0⟩ := hf
  cases shape with
  | nil =>
    unfold getBasis at h
    split_ifs at h
    cases h
  | cons k rest => exact ⟨k, rest, f, rfl, hf, h0⟩

/-- The hypotheses under which a DISCO convolution is built. -/
structure DiscoReady (env : Env) (a : DiscoArgs) (B : Basis) (rin rout : Rule) : Prop where
  basis : getBasis a.shape a.basis = .ok B
  ker : 0 < B.kernelSize
  inC : a.inC ≠ 0
  latIn : precomputeLatitudes env.gauss env.tol env.maxiter a.nlatIn a.gridIn = .ok rin
  sizeIn : rin.n = a.nlatIn
  latOut : precomputeLatitudes env.gauss env.tol env.maxiter a.nlatOut a.gridOut = .ok rout
  out : 0 < a.nlatOut
  lonIn : 0 < a.nlonIn
  lonOut : 0 < a.nlonOut
  dvd : a.nlonOut ∣ a.nlonIn
  theta : 0 < a.theta

/-- A convolution between stacks of `C` and `D` fields on grids of these sizes. -/
structure DiscoFits (L : Disco.Layer ℝ) (C D nlatIn nlonIn nlatOut nlonOut : ℕ) : Prop where
  taps : ∃ taps, LayerOf L taps
  groups : L.groups = 1
  inC : L.groupsize = C
  outC : L.outPerGroup = D
  latIn : L.nlatIn = nlatIn
  lonIn : L.nlonIn = nlonIn
  latOut : L.nlatOut = nlatOut
  lonOut : L.nlonOut = nlonOut

theorem convEntries_ready {env : Env} {a : DiscoArgs} {B : Basis} {rin rout : Rule} (H : DiscoReady env a B rin rout) :
    ∃ es taps, convEntries env.gauss env.tol env.maxiter a.nlatIn a.nlonIn a.nlatOut a.nlonOut B a.gridIn a.gridOut "nodal" (some a.theta) = .ok es ∧
      es = taps.map (encode a.nlonIn) ∧ Spec.Fits taps B.kernelSize a.nlatOut a.nlatIn a.nlonIn := by
  set P : PreArgs := ⟨a.nlatIn, a.nlonIn, a.nlatOut, a.nlonOut, B, a.gridIn, a.gridOut, a.theta, 1 / 10 ^ 3, false, "nodal", true⟩ with hP
  set taps := rawTaps B rin.x rout.x a.nlatIn a.nlonIn a.nlatOut ((1 + 1 / 10 ^ 3) * a.theta) with ht
  have hfit : Spec.Fits taps B.kernelSize a.nlatOut a.nlatIn a.nlonIn := fits_rawTaps _ _ _ _ _ _ _
  have hA : NormFits (preNorm P rin rout) taps := by
    refine ⟨H.lonIn, hfit, H.sizeIn, ?_, H.ker⟩
    intro m hm
    cases hm
    exact getBasis_mask H.basis
  have hval := normalize_val hA "nodal" (normAlias_nodal (Or.inl rfl) ▸ knownMode_nodal)
  refine ⟨_, taps.map fun b => { b with val := finishOf (preNorm P rin rout) b (selectOf (preNorm P rin rout) (normAlias "nodal") taps b) }, ?_, rfl, ?_⟩
  · unfold convEntries
    rw [if_neg H.lonOut.ne', if_neg (by rw [not_not]; exact Nat.mod_eq_zero_of_dvd H.dvd), if_neg (fun h => by cases h.1)]
    dsimp only [Option.getD_some]
    rw [if_neg (not_le.2 H.theta)]
    unfold precompute
    dsimp only
    rw [H.latIn]
    dsimp only
    rw [H.latOut]
    dsimp only
    rw [if_neg H.out.ne', rawEntries_eq]
    have := hval
    dsimp only [preNorm, P] at this
    dsimp only [preNorm]
    rw [this]
  · intro b hb
    obtain ⟨c, hc, rfl⟩ := List.mem_map.1 hb
    exact hfit c hc

/-- What the constructor of a convolution stores. -/
theorem discoInit_ready {env : Env} {a : DiscoArgs} {B : Basis} {rin rout : Rule} (H : DiscoReady env a B rin rout) (hle : a.nlatOut ≤ a.nlonIn)
    (w : ℕ → ℕ → ℕ → ℝ) (bias : Option (ℕ → ℝ)) :
    ∃ L, discoInit env a w bias = .ok L ∧ DiscoFits L a.inC a.outC a.nlatIn a.nlonIn a.nlatOut a.nlonOut ∧ L.weight = w ∧ L.bias = bias ∧
      L.kernelSize = B.kernelSize ∧
      convEntries env.gauss env.tol env.maxiter a.nlatIn a.nlonIn a.nlatOut a.nlonOut B a.gridIn a.gridOut "nodal" (some a.theta) = .ok L.entries := by
  obtain ⟨es, taps, he, hes, hfit⟩ := convEntries_ready H
  refine ⟨⟨1, a.inC, a.outC, B.kernelSize, a.nlatIn, a.nlonIn, a.nlatOut, a.nlonOut, w, bias, es⟩, ?_, ⟨⟨taps, hes, hfit, H.lonOut, H.dvd, hle⟩,
    rfl, rfl, rfl, rfl, rfl, rfl, rfl⟩, rfl, rfl, rfl, he⟩
  unfold discoInit
  rw [H.basis, except_bind_ok]
  have : channelSplit a.inC a.outC 1 = .ok (a.inC, a.outC) := by simp [channelSplit, Nat.mod_one]
  rw [this, except_bind_ok]
  dsimp only
  rw [if_neg H.inC, he]
  rfl

theorem discoSum_congr {taps : List (Tap ℝ)} {K nlatOut nlatIn nI : ℕ} (hf : Spec.Fits taps K nlatOut nlatIn nI) (nO : ℕ) (hI : 0 < nI) {x y : ℕ → ℕ → ℝ}
    (h : ∀ i < nlatIn, ∀ j < nI, x i j = y i j) (k t p : ℕ) : discoSum taps nI nO x k t p = discoSum taps nI nO y k t p := by
  unfold discoSum
  congr 1
  refine List.map_congr_left fun a ha => ?_
  rw [h a.latIn (hf a ha).2.2.1 (a.column nI nO p) (Nat.mod_lt _ hI)]

/-- A convolution shifts its result by as many columns of its output grid as the input is shifted by groups of columns of its input grid. -/
theorem disco_roll {L : Disco.Layer ℝ} {C D nlatIn nlonIn nlatOut nlonOut s s' : ℕ} (H : DiscoFits L C D nlatIn nlonIn nlatOut nlonOut)
    (hs : s = s' * (nlonIn / nlonOut)) {x x' : Ten3 ℝ} (hx : HasShape x C nlatIn nlonIn) (hr : Rolled s x x') :
    ∃ y y', discoForward L x = .ok y ∧ discoForward L x' = .ok y' ∧ HasShape y D nlatOut nlonOut ∧ Rolled s' y y' := by
  obtain ⟨⟨taps, hL⟩, hg, rfl, rfl, rfl, rfl, rfl, rfl⟩ := H
  have hI : 0 < L.nlonIn ∨ L.nlonIn = 0 := by omega
  obtain ⟨y, h1, h2, h3, h4, h5⟩ := C28_layer L taps hL ⟨x.d0, x.d1, x.d2, x.val⟩ ⟨by rw [hg, one_mul]; exact hx.1, hx.2.1, hx.2.2⟩
  obtain ⟨y', h1', h2', h3', h4', h5'⟩ := C28_layer L taps hL ⟨x'.d0, x'.d1, x'.d2, x'.val⟩
    ⟨by rw [hg, one_mul]; exact hr.d0.trans hx.1, hr.d1.trans hx.2.1, hr.d2.trans hx.2.2⟩
  rw [hg, one_mul] at h2 h2'
  refine ⟨⟨y.d0, y.d1, y.d2, y.val⟩, ⟨y'.d0, y'.d1, y'.d2, y'.val⟩, ?_, ?_, ⟨h2, h3, h4⟩, h2'.trans h2.symm, h3'.trans h3.symm, h4'.trans h4.symm, ?_⟩
  · unfold discoForward; rw [h1]; rfl
  · unfold discoForward; rw [h1']; rfl
  · intro oc ho t _ p hp
    dsimp only at ho hp ⊢
    rw [h4] at hp ⊢
    rw [h2] at ho
    rw [h5' oc t p hp, h5 oc t _ (Nat.mod_lt _ hL.nlon)]
    refine congrArg₂ (· + ·) (sum_congr rfl fun c hc => sum_congr rfl fun k _ => ?_) rfl
    congr 1
    have hc0 : oc / L.outPerGroup * L.groupsize + c = c := by rw [Nat.div_eq_of_lt ho]; omega
    rw [hc0]
    rcases hI with hI | hI
    · rw [← discoSum_shift taps L.nlonIn L.nlonOut s' hL.dvd]
      refine discoSum_congr hL.fits _ hI (fun i hi j hj => ?_) k t p
      dsimp only
      rw [hr.val c (by rw [hx.1]; exact mem_range.1 hc) i (by rw [hx.2.1]; exact hi) j (by rw [hx.2.2]; exact hj), hx.2.2, hs]
    · have : taps = [] := List.eq_nil_iff_forall_not_mem.2 fun b hb => by have := (hL.fits b hb).2.2.2; omega
      subst this
      rfl

/-! ### Upsampling -/

/-- An upsampling that was built. -/
inductive UpFits : Upsample → ℕ → ℕ → ℕ → ℕ → Prop
  | sht {fwd : RealSHT} {inv : InverseRealSHT} (M : ℕ) (fl : fwd.lmax = M) (fm : fwd.mmax = M) (il : inv.lmax = M) (im : inv.mmax = M) (pos : 0 < M)
      (fn : 0 < fwd.nlon) (in' : 0 < inv.nlon) : UpFits (.sht fwd inv) fwd.nlat fwd.nlon inv.nlat inv.nlon
  | resample {R : Resample.Resampler} {gauss : ℕ → Rule} {tol : ℝ} {maxiter : ℕ} {A : Resample.Args} {rin rout : Rule}
      (built : ResampleBuilt gauss tol maxiter A rin rout) (init : Resample.init gauss tol maxiter A = .ok R) (lon : 0 < A.nlonOut) :
      UpFits (.resample R) A.nlatIn A.nlonIn A.nlatOut A.nlonOut

theorem resample_shape {gauss : ℕ → Rule} {tol : ℝ} {maxiter : ℕ} {A : Resample.Args} {rin rout : Rule} {R : Resample.Resampler}
    (H : ResampleBuilt gauss tol maxiter A rin rout) (hR : Resample.init gauss tol maxiter A = .ok R) (x : Mat ℝ) (h0 : x.d0 = A.nlatIn)
    (h1 : x.d1 = A.nlonIn) : ∃ y, R.forward x = .ok y ∧ y.d0 = A.nlatOut ∧ y.d1 = A.nlonOut := by
  obtain ⟨R', N, lats, I, hR', _, hskip, _, _, hf⟩ := resample_forward H
  rw [hR] at hR'
  cases hR'
  obtain ⟨X, _, hy⟩ := hf x h0 h1
  cases hs : R.skip with
  | false =>
    obtain ⟨y, e, a, b, _⟩ := hy hs
    exact ⟨y, e, a, b⟩
  | true =>
    obtain ⟨e1, e2, _⟩ := hskip.1 hs
    exact ⟨x, by simp [Resample.Resampler.forward, hs], h0.trans e2, h1.trans e1⟩

theorem up_roll (be : C2R) {U : Upsample} {nlatIn nlonIn nlatOut nlonOut s s' : ℕ} (H : UpFits U nlatIn nlonIn nlatOut nlonOut)
    (hs : s * nlonOut = s' * nlonIn) {x x' : Ten3 ℝ} (h1 : x.d1 = nlatIn) (h2 : x.d2 = nlonIn) (hr : Rolled s x x') :
    ∃ y y', U.forward be x = .ok y ∧ U.forward be x' = .ok y' ∧ HasShape y x.d0 nlatOut nlonOut ∧ Rolled s' y y' := by
  cases H with
  | @sht fwd inv M fl fm il im pos fn in' =>
    have F : SFNO.Fits ⟨fwd, inv, 1, 1, .driscollHealy, fun _ _ _ _ _ => 0, none⟩ M := ⟨fl, fm, il, im, pos, fn, in', rfl⟩
    obtain ⟨c, c', hc, hc', d0, d1, d2, d0', d1', d2', hv⟩ := analysis_roll F h1 h2 hr
    obtain ⟨y, y', hy, hy', ys, yr⟩ := synthesis_roll be (s' := s') F d1 d2 (d0'.trans d0.symm) d1' d2' (by
      intro i hi l hl m hm
      rw [hv i (d0 ▸ hi) l hl m hm]
      congr 1
      exact shiftPhase_eq fn in' hs m)
    rw [d0] at ys
    refine ⟨y, y', ?_, ?_, ys, yr⟩
    · simp only [Upsample.forward]; rw [hc, except_bind_ok]; exact hy
    · simp only [Upsample.forward]; rw [hc', except_bind_ok]; exact hy'
  | @resample R gauss tol maxiter A rin rout built init lon =>
    have f1 : ∀ c, ∃ y, R.forward ⟨x.d1, x.d2, x.val c⟩ = .ok y ∧ y.d0 = A.nlatOut ∧ y.d1 = A.nlonOut := fun c =>
      resample_shape built init _ h1 h2
    have f2 : ∀ c, ∃ y, R.forward ⟨x'.d1, x'.d2, x'.val c⟩ = .ok y ∧ y.d0 = A.nlatOut ∧ y.d1 = A.nlonOut := fun c =>
      resample_shape built init _ (hr.d1.trans h1) (hr.d2.trans h2)
    choose g hg g1 g2 using f1
    choose g' hg' g1' g2' using f2
    refine ⟨_, _, mapChannels_ok g hg, mapChannels_ok g' hg', ⟨rfl, g1 0, g2 0⟩, hr.d0, (g1' 0).trans (g1 0).symm, (g2' 0).trans (g2 0).symm, ?_⟩
    intro c hc i hi j hj
    dsimp only at hc hi hj ⊢
    rw [g1 0] at hi
    rw [g2 0] at hj ⊢
    have hI : (0 : ℝ) < A.nlonIn := by have := built.twoLon; exact_mod_cast (by omega : 0 < A.nlonIn)
    have hO : (0 : ℝ) < A.nlonOut := by exact_mod_cast lon
    obtain ⟨R', y, y', e, e1, e2, _, _, hv⟩ := C27_rotation gauss tol maxiter A rin rout built s s' (by
        have : (s : ℝ) * A.nlonOut = s' * A.nlonIn := by exact_mod_cast hs
        rw [div_eq_div_iff hI.ne' hO.ne']
        linear_combination (2 * Real.pi) * this) ⟨x.d1, x.d2, x.val c⟩ ⟨x'.d1, x'.d2, x'.val c⟩ h1 h2 (hr.d1.trans h1) (hr.d2.trans h2)
      (fun k hk j hj => by
        dsimp only
        rw [hr.val c hc k (by rw [h1]; exact hk) j (by rw [h2]; exact hj), h2])
    rw [init] at e
    cases e
    rw [hg] at e1
    rw [hg'] at e2
    cases e1
    cases e2
    exact hv i hi j hj

/-! ### Blocks -/

/-- A convolution of a block, of `D` fields on a grid of `H` latitudes and `W` longitudes. -/
def ConvFits (C : Conv) (D H W : ℕ) : Prop :=
  match C with
  | .local L => DiscoFits L D D H W H W
  | .global S => (∃ M, SFNO.Fits S M) ∧ S.inC = D ∧ S.outC = D ∧ S.fwd.nlat = H ∧ S.fwd.nlon = W ∧ S.inv.nlat = H ∧ S.inv.nlon = W

theorem conv_roll (be : C2R) {C : Conv} {D H W s : ℕ} (F : ConvFits C D H W) (hW : 0 < W) {x x' : Ten3 ℝ} (hx : HasShape x D H W) (hr : Rolled s x x') :
    ∃ y y', C.forward be x = .ok y ∧ C.forward be x' = .ok y' ∧ HasShape y D H W ∧ Rolled s y y' := by
  cases C with
  | «local» L =>
    exact disco_roll F (by rw [Nat.div_self hW, mul_one]) hx hr
  | «global» S =>
    obtain ⟨⟨M, hM⟩, e1, e2, e3, e4, e5, e6⟩ := F
    obtain ⟨y, y', r, r', a, b, c, _, d, _⟩ := spec_roll be (s := s) (s' := s) hM (by rw [e4, e6]) (hx.1.trans e1.symm) (hx.2.1.trans e3.symm)
      (hx.2.2.trans e4.symm) hr
    rw [e2, e5, e6] at c
    refine ⟨y, y', ?_, ?_, c, d⟩
    · simp only [Conv.forward, a]; rfl
    · simp only [Conv.forward, b]; rfl

/-- A block as the network builds it. -/
structure BlockFits (B : Block) (D H W : ℕ) : Prop where
  conv : ConvFits B.conv D H W
  inner : B.inner = .none
  outer : B.outer = .identity
  norm : match B.norm with | .none => True | .inst c _ _ => c = D | .layer h w _ _ => h = H ∧ w = W
  mlp : ∀ M, B.mlp = some M → M.fc1.inC = D ∧ M.fc1.outC = M.fc2.inC ∧ M.fc2.outC = D

theorem block_step {be : C2R} {B : Block} {x y1 y2 y3 : Ten3 ℝ} (hi : B.inner = .none) (ho : B.outer = .identity) (h1 : B.conv.forward be x = .ok y1)
    (h2 : B.norm.forward y1 = .ok y2) (h3 : (match B.mlp with | none => .ok y2 | some M => M.forward y2 : Except PyErr (Ten3 ℝ)) = .ok y3) :
    B.forward be x = addEmbed x y3 := by
  unfold Block.forward
  rw [h1, except_bind_ok, h2, except_bind_ok, hi, ho]
  cases hM : B.mlp with
  | none => rw [hM] at h3; cases h3; rfl
  | some M =>
    rw [hM] at h3
    dsimp only at h3
    simp only [Skip.add]
    rw [except_bind_ok, h3, except_bind_ok]

theorem block_roll (be : C2R) {B : Block} {D H W s : ℕ} (F : BlockFits B D H W) (hW : 2 ≤ W)
    (hn : (∀ h w g b, B.norm ≠ .layer h w g b) ∨ s = 0) {x x' : Ten3 ℝ} (hx : HasShape x D H W) (hr : Rolled s x x') :
    ∃ y y', B.forward be x = .ok y ∧ B.forward be x' = .ok y' ∧ HasShape y D H W ∧ Rolled s y y' := by
  obtain ⟨y1, y1', e1, e1', s1, r1⟩ := conv_roll be F.conv (by omega) hx hr
  obtain ⟨y2, y2', e2, e2', s2, r2⟩ := norm_roll (N := B.norm) r1 (by
    rw [s1.2.1, s1.2.2]
    intro h
    have := Nat.eq_one_of_mul_eq_one_left h
    omega) (by
    have := F.norm
    cases hB : B.norm with
    | none => trivial
    | inst c g b => rw [hB] at this; exact this.trans s1.1.symm
    | layer h w g b =>
      rw [hB] at this
      refine ⟨this.1.trans s1.2.1.symm, this.2.trans s1.2.2.symm, ?_⟩
      rcases hn with hn | hn
      · exact absurd hB (hn h w g b)
      · exact hn)
  rw [s1.1, s1.2.1, s1.2.2] at s2
  obtain ⟨y3, y3', e3, e3', s3, r3⟩ : ∃ y3 y3', (match B.mlp with | none => .ok y2 | some M => M.forward y2 : Except PyErr (Ten3 ℝ)) = .ok y3 ∧
      (match B.mlp with | none => .ok y2' | some M => M.forward y2' : Except PyErr (Ten3 ℝ)) = .ok y3' ∧
      HasShape y3 D H W ∧ Rolled s y3 y3' := by
    cases hM : B.mlp with
    | none => exact ⟨y2, y2', rfl, rfl, s2, r2⟩
    | some M =>
      obtain ⟨a1, a2, a3⟩ := F.mlp M hM
      obtain ⟨z, z', hz, hz', sz, rz⟩ := mlp_roll (s2.1.trans a1.symm) a2 r2
      exact ⟨z, z', hz, hz', ⟨sz.1.trans a3, sz.2.1.trans s2.2.1, sz.2.2.trans s2.2.2⟩, rz⟩
  obtain ⟨y4, y4', e4, e4', s4, r4⟩ := addEmbed_roll hr r3 (hx.1.trans s3.1.symm) (hx.2.1.trans s3.2.1.symm) (hx.2.2.trans s3.2.2.symm)
  rw [s3.1, s3.2.1, s3.2.2] at s4
  exact ⟨y4, y4', by rw [block_step F.inner F.outer e1 e2 e3, e4], by rw [block_step F.inner F.outer e1' e2' e3', e4'], s4, r4⟩

theorem runBlocks_roll (be : C2R) {D H W s : ℕ} (hW : 2 ≤ W) {bs : List Block} (F : ∀ B ∈ bs, BlockFits B D H W)
    (hn : (∀ B ∈ bs, ∀ h w g b, B.norm ≠ .layer h w g b) ∨ s = 0) {x x' : Ten3 ℝ} (hx : HasShape x D H W) (hr : Rolled s x x') :
    ∃ y y', runBlocks be bs x = .ok y ∧ runBlocks be bs x' = .ok y' ∧ HasShape y D H W ∧ Rolled s y y' := by
  induction bs generalizing x x' with
  | nil => exact ⟨x, x', rfl, rfl, hx, hr⟩
  | cons B bs ih =>
    obtain ⟨y, y', e, e', sy, ry⟩ := block_roll be (F B (by simp)) hW (hn.imp (fun h => h B (by simp)) id) hx hr
    obtain ⟨z, z', f, f', sz, rz⟩ := ih (fun C hC => F C (by simp [hC])) (hn.imp (fun h C hC => h C (by simp [hC])) id) sy ry
    exact ⟨z, z', by simp only [runBlocks]; rw [e, except_bind_ok, f], by simp only [runBlocks]; rw [e', except_bind_ok, f'], sz, rz⟩

/-- The steps of one block. -/
theorem block_pipe (be : C2R) {B : Block} {D H W : ℕ} (F : BlockFits B D H W) (hW : 2 ≤ W) {x : Ten3 ℝ} (hx : HasShape x D H W) :
    ∃ v v' v'' y, B.conv.forward be x = .ok v ∧ B.norm.forward v = .ok v' ∧
      (match B.mlp with | none => .ok v' | some M => M.forward v' : Except PyErr (Ten3 ℝ)) = .ok v'' ∧ B.forward be x = .ok y ∧
      HasShape v D H W ∧ HasShape v' D H W ∧ HasShape v'' D H W ∧ HasShape y D H W ∧
      ∀ c < D, ∀ t < H, ∀ j < W, y.val c t j = v''.val c t j + x.val c t j := by
  obtain ⟨y1, _, e1, _, s1, _⟩ := conv_roll be F.conv (by omega) hx (rolled_refl x)
  obtain ⟨y2, _, e2, _, s2, _⟩ := norm_roll (N := B.norm) (rolled_refl y1) (by
    rw [s1.2.1, s1.2.2]
    intro h
    have := Nat.eq_one_of_mul_eq_one_left h
    omega) (by
    have := F.norm
    cases hB : B.norm with
    | none => trivial
    | inst c g b => rw [hB] at this; exact this.trans s1.1.symm
    | layer h w g b =>
      rw [hB] at this
      exact ⟨this.1.trans s1.2.1.symm, this.2.trans s1.2.2.symm, rfl⟩)
  rw [s1.1, s1.2.1, s1.2.2] at s2
  obtain ⟨y3, e3, s3⟩ : ∃ y3, (match B.mlp with | none => .ok y2 | some M => M.forward y2 : Except PyErr (Ten3 ℝ)) = .ok y3 ∧ HasShape y3 D H W := by
    cases hM : B.mlp with
    | none => exact ⟨y2, rfl, s2⟩
    | some M =>
      obtain ⟨a1, a2, a3⟩ := F.mlp M hM
      obtain ⟨z, _, hz, _, sz, _⟩ := mlp_roll (s2.1.trans a1.symm) a2 (rolled_refl y2)
      exact ⟨z, hz, ⟨sz.1.trans a3, sz.2.1.trans s2.2.1, sz.2.2.trans s2.2.2⟩⟩
  obtain ⟨y4, e4, s4, v4⟩ := addEmbed_same (r := x) (x := y3) (hx.1.trans s3.1.symm) (hx.2.1.trans s3.2.1.symm) (hx.2.2.trans s3.2.2.symm)
  rw [s3.1, s3.2.1, s3.2.2] at s4 v4
  exact ⟨y1, y2, y3, y4, e1, e2, e3, by rw [block_step F.inner F.outer e1 e2 e3, e4], s1, s2, s3, s4, v4⟩

/-- The states between the blocks. -/
theorem runBlocks_states {be : C2R} {bs : List Block} {x y : Ten3 ℝ} (h : runBlocks be bs x = .ok y) :
    ∃ u : ℕ → Ten3 ℝ, u 0 = x ∧ u bs.length = y ∧ ∀ i (hi : i < bs.length), bs[i].forward be (u i) = .ok (u (i + 1)) := by
  induction bs generalizing x with
  | nil => exact ⟨fun _ => x, rfl, Except.ok.inj h, fun i hi => absurd hi (by simp)⟩
  | cons B bs ih =>
    simp only [runBlocks] at h
    cases hB : B.forward be x with
    | error e => rw [hB] at h; cases h
    | ok z =>
      rw [hB, except_bind_ok] at h
      obtain ⟨u, h0, h1, h2⟩ := ih h
      refine ⟨fun i => match i with | 0 => x | i + 1 => u i, rfl, h1, fun i hi => ?_⟩
      cases i with
      | zero => rw [List.getElem_cons_zero, hB]; dsimp only; rw [h0]
      | succ i => exact h2 i (by simpa using hi)

end Verif.LSNO
