import Verif.Spec.UNet
import Verif.Lemmas.LSNO
import Verif.Props.DiscoTranspose
/-!
The layers of the spherical U-Net commute with shifts in longitude. As in `Lemmas/SFNO.lean`, the shift `0` says that a layer accepts inputs of the right
shape, and which shape its result has.
-/
namespace Verif.UNet
open Verif Verif.Dist Verif.FFT Verif.Quad Verif.SHT Verif.SFNO Verif.Filter Verif.Disco Verif.LSNO Verif.Spec Verif.Props Finset

/-! ### Transposed convolutions -/

/-- The hypotheses under which a transposed convolution is built. -/
structure TransReady (env : Env) (a : DiscoArgs) (B : Basis) (rin rout : Rule) : Prop where
  basis : getBasis a.shape a.basis = .ok B
  ker : 0 < B.kernelSize
  inC : a.inC ≠ 0
  latIn : precomputeLatitudes env.gauss env.tol env.maxiter a.nlatIn a.gridIn = .ok rin
  sizeIn : rin.n = a.nlatIn
  latOut : precomputeLatitudes env.gauss env.tol env.maxiter a.nlatOut a.gridOut = .ok rout
  pos : 0 < a.nlatIn
  lonIn : 0 < a.nlonIn
  lonOut : 0 < a.nlonOut
  dvd : a.nlonIn ∣ a.nlonOut
  theta : 0 < a.theta

/-- A transposed convolution between stacks of `C` and `D` fields on grids of these sizes. -/
structure TransFits (L : Disco.Layer ℝ) (C D nlatIn nlonIn nlatOut nlonOut : ℕ) : Prop where
  taps : ∃ taps, TLayerOf L taps
  groups : L.groups = 1
  inC : L.groupsize = C
  outC : L.outPerGroup = D
  latIn : L.nlatIn = nlatIn
  lonIn : L.nlonIn = nlonIn
  latOut : L.nlatOut = nlatOut
  lonOut : L.nlonOut = nlonOut

theorem transEntries_ready {env : Env} {a : DiscoArgs} {B : Basis} {rin rout : Rule} (H : TransReady env a B rin rout) :
    ∃ es taps, transEntries env.gauss env.tol env.maxiter a.nlatIn a.nlonIn a.nlatOut a.nlonOut B a.gridIn a.gridOut "nodal" (some a.theta) = .ok es ∧
      es = taps.map (encode a.nlonOut) ∧ Spec.Fits taps B.kernelSize a.nlatIn a.nlatOut a.nlonOut := by
  set P : PreArgs := ⟨a.nlatOut, a.nlonOut, a.nlatIn, a.nlonIn, B, a.gridOut, a.gridIn, a.theta, 1 / 10 ^ 3, true, "nodal", true⟩ with hP
  set taps := rawTaps B rout.x rin.x a.nlatOut a.nlonOut a.nlatIn ((1 + 1 / 10 ^ 3) * a.theta) with ht
  have hfit : Spec.Fits taps B.kernelSize a.nlatIn a.nlatOut a.nlonOut := fits_rawTaps _ _ _ _ _ _ _
  have hA : NormFits (preNorm P rout rin) taps := by
    refine ⟨H.lonOut, hfit, H.sizeIn, ?_, H.ker⟩
    intro m hm
    cases hm
    exact getBasis_mask H.basis
  have hval := normalize_val hA "nodal" (normAlias_nodal (Or.inl rfl) ▸ knownMode_nodal)
  refine ⟨_, taps.map fun b => { b with val := finishOf (preNorm P rout rin) b (selectOf (preNorm P rout rin) (normAlias "nodal") taps b) }, ?_, rfl, ?_⟩
  · unfold transEntries
    rw [if_neg H.lonIn.ne', if_neg (by rw [not_not]; exact Nat.mod_eq_zero_of_dvd H.dvd), if_neg (fun h => by cases h.1)]
    dsimp only [Option.getD_some]
    rw [if_neg (not_le.2 H.theta)]
    unfold precompute
    dsimp only
    rw [H.latOut]
    dsimp only
    rw [H.latIn]
    dsimp only
    rw [if_neg H.pos.ne', rawEntries_eq]
    have := hval
    dsimp only [preNorm, P] at this
    dsimp only [preNorm]
    rw [this]
  · intro b hb
    obtain ⟨c, hc, rfl⟩ := List.mem_map.1 hb
    exact hfit c hc

/-- What the constructor of a transposed convolution stores. -/
theorem transInit_ready {env : Env} {a : DiscoArgs} {B : Basis} {rin rout : Rule} (H : TransReady env a B rin rout)
    (w : ℕ → ℕ → ℕ → ℝ) (bias : Option (ℕ → ℝ)) :
    ∃ L, transInit env a w bias = .ok L ∧ TransFits L a.inC a.outC a.nlatIn a.nlonIn a.nlatOut a.nlonOut ∧ L.weight = w ∧ L.bias = bias ∧
      L.kernelSize = B.kernelSize ∧
      transEntries env.gauss env.tol env.maxiter a.nlatIn a.nlonIn a.nlatOut a.nlonOut B a.gridIn a.gridOut "nodal" (some a.theta) = .ok L.entries := by
  obtain ⟨es, taps, he, hes, hfit⟩ := transEntries_ready H
  refine ⟨⟨1, a.inC, a.outC, B.kernelSize, a.nlatIn, a.nlonIn, a.nlatOut, a.nlonOut, w, bias, es⟩, ?_, ⟨⟨taps, hes, hfit, H.lonIn, H.lonOut, H.dvd⟩,
    rfl, rfl, rfl, rfl, rfl, rfl, rfl⟩, rfl, rfl, rfl, he⟩
  unfold transInit
  rw [H.basis, except_bind_ok]
  have : channelSplit a.inC a.outC 1 = .ok (a.inC, a.outC) := by simp [channelSplit, Nat.mod_one]
  rw [this, except_bind_ok]
  dsimp only
  rw [if_neg H.inC, he]
  rfl

theorem discoAdjoint_congr {taps : List (Tap ℝ)} {K nlatOut nlatIn nI nO : ℕ} (hf : Spec.Fits taps K nlatOut nlatIn nI) {y z : ℕ → ℕ → ℕ → ℝ}
    (h : ∀ k, ∀ t < nlatOut, ∀ p < nO, y k t p = z k t p) (i j : ℕ) : discoAdjoint taps nI nO y i j = discoAdjoint taps nI nO z i j := by
  unfold discoAdjoint
  congr 1
  refine List.map_congr_left fun a ha => ?_
  refine sum_congr rfl fun p hp => ?_
  rw [h a.ker a.latOut (hf a ha).2.1 p (mem_range.1 hp)]

/-- A transposed convolution shifts its result by as many groups of columns of its output grid as the input is shifted by columns of its input grid. -/
theorem trans_roll {L : Disco.Layer ℝ} {C D nlatIn nlonIn nlatOut nlonOut s s' : ℕ} (H : TransFits L C D nlatIn nlonIn nlatOut nlonOut)
    (hs : s' = s * (nlonOut / nlonIn)) {x x' : Ten3 ℝ} (hx : HasShape x C nlatIn nlonIn) (hr : Rolled s x x') :
    ∃ y y', transForward L x = .ok y ∧ transForward L x' = .ok y' ∧ HasShape y D nlatOut nlonOut ∧ Rolled s' y y' := by
  obtain ⟨⟨taps, hL⟩, hg, rfl, rfl, rfl, rfl, rfl, rfl⟩ := H
  have hx1 : x.d0 = L.groups * L.groupsize ∧ x.d1 = L.nlatIn ∧ x.d2 = L.nlonIn := ⟨by rw [hg, one_mul]; exact hx.1, hx.2.1, hx.2.2⟩
  obtain ⟨y, h1, h2, h3, h4, h5⟩ := C32_transpose_layer L taps hL ⟨x.d0, x.d1, x.d2, x.val⟩ hx1
  obtain ⟨y', h1', h2', h3', h4', h5'⟩ := C32_transpose_layer L taps hL ⟨x'.d0, x'.d1, x'.d2, x'.val⟩
    ⟨hr.d0.trans hx1.1, hr.d1.trans hx1.2.1, hr.d2.trans hx1.2.2⟩
  obtain ⟨u, z, g1, g2, g3⟩ := C29_transpose_rotation L taps hL ⟨x.d0, x.d1, x.d2, x.val⟩ hx1 s
  rw [h1] at g1
  cases g1
  obtain ⟨z', k1, -, -, -, k5⟩ := C32_transpose_layer L taps hL ⟨x.d0, x.d1, x.d2, fun c i j => x.val c i ((j + s) % L.nlonIn)⟩ hx1
  have k2 := g2.symm.trans k1
  cases k2
  rw [hg, one_mul] at h2 h2'
  refine ⟨⟨y.d0, y.d1, y.d2, y.val⟩, ⟨y'.d0, y'.d1, y'.d2, y'.val⟩, ?_, ?_, ⟨h2, h3, h4⟩, h2'.trans h2.symm, h3'.trans h3.symm, h4'.trans h4.symm, ?_⟩
  · unfold transForward; rw [h1]; rfl
  · unfold transForward; rw [h1']; rfl
  · intro oc ho t _ p hp
    dsimp only at ho hp ⊢
    rw [h4] at hp ⊢
    rw [h2] at ho
    rw [hs, ← g3 oc t p hp, h5' oc t p hp, k5 oc t p hp]
    refine congrArg₂ (· + ·) (discoAdjoint_congr hL.fits (fun k t ht p hp => sum_congr rfl fun c hc => ?_) _ _) rfl
    have hc0 : oc / L.outPerGroup * L.groupsize + c = c := by rw [Nat.div_eq_of_lt ho]; omega
    rw [hc0]
    dsimp only
    rw [hr.val c (by rw [hx.1]; exact mem_range.1 hc) t (by rw [hx.2.1]; exact ht) p (by rw [hx.2.2]; exact hp), hx.2.2]

/-! ### Stages -/

theorem norm_roll {N : BatchNorm} {s : ℕ} {x x' : Ten3 ℝ} (h0 : x.d0 = N.chans) (hr : Rolled s x x') :
    ∃ y y', N.forward x = .ok y ∧ N.forward x' = .ok y' ∧ HasShape y x.d0 x.d1 x.d2 ∧ Rolled s y y' := by
  unfold BatchNorm.forward
  rw [if_neg (by simp [h0]), if_neg (by simp [hr.d0, h0])]
  refine ⟨_, _, rfl, rfl, ⟨rfl, rfl, rfl⟩, hr.d0, hr.d1, hr.d2, fun c hc k hk j hj => ?_⟩
  dsimp only at hc hk hj ⊢
  rw [hr.val c hc k hk j hj]

/-- A stage from `C` to `D` fields. -/
structure StageFits (S : Stage) (C D H W : ℕ) : Prop where
  conv : DiscoFits S.conv C D H W H W
  norm : S.norm.chans = D

theorem stage_roll {S : Stage} {C D H W s : ℕ} (F : StageFits S C D H W) (hW : 0 < W) {x x' : Ten3 ℝ} (hx : HasShape x C H W) (hr : Rolled s x x') :
    ∃ y y', S.forward x = .ok y ∧ S.forward x' = .ok y' ∧ HasShape y D H W ∧ Rolled s y y' := by
  obtain ⟨y, y', e, e', sy, ry⟩ := disco_roll (s := s) (s' := s) F.conv (by rw [Nat.div_self hW, mul_one]) hx hr
  obtain ⟨z, z', f, f', sz, rz⟩ := norm_roll (N := S.norm) (sy.1.trans F.norm.symm) ry
  rw [sy.1, sy.2.1, sy.2.2] at sz
  refine ⟨pointwise S.act z, pointwise S.act z', ?_, ?_, sz, pointwise_roll _ rz⟩
  · unfold Stage.forward; rw [e, except_bind_ok, f, except_bind_ok]; rfl
  · unfold Stage.forward; rw [e', except_bind_ok, f', except_bind_ok]; rfl

/-- Stages that fit together. -/
inductive StagesFit (H W : ℕ) : List Stage → ℕ → ℕ → Prop
  | nil (C : ℕ) : StagesFit H W [] C C
  | cons {S : Stage} {l : List Stage} {C E D : ℕ} : StageFits S C E H W → StagesFit H W l E D → StagesFit H W (S :: l) C D

theorem stages_roll {H W s : ℕ} (hW : 0 < W) {l : List Stage} {C D : ℕ} (F : StagesFit H W l C D) : ∀ {x x' : Ten3 ℝ}, HasShape x C H W → Rolled s x x' →
    ∃ y y', runStages l x = .ok y ∧ runStages l x' = .ok y' ∧ HasShape y D H W ∧ Rolled s y y' := by
  induction F with
  | nil C => intro x x' hx hr; exact ⟨x, x', rfl, rfl, hx, hr⟩
  | cons f _ ih =>
    intro x x' hx hr
    obtain ⟨y, y', e, e', sy, ry⟩ := stage_roll f hW hx hr
    obtain ⟨z, z', g, g', sz, rz⟩ := ih sy ry
    exact ⟨z, z', by simp only [runStages]; rw [e, except_bind_ok, g], by simp only [runStages]; rw [e', except_bind_ok, g'], sz, rz⟩

theorem stages_append {H W : ℕ} {l m : List Stage} {C E D : ℕ} (h1 : StagesFit H W l C E) (h2 : StagesFit H W m E D) : StagesFit H W (l ++ m) C D := by
  induction h1 with
  | nil => exact h2
  | cons f _ ih => exact .cons f (ih h2)

/-! ### Changes of the grid -/

/-- A change of the grid of `D` fields. -/
inductive ResizeFits : Resize → ℕ → ℕ → ℕ → ℕ → ℕ → Prop
  | conv {L : Disco.Layer ℝ} {D H W H' W' : ℕ} (fits : DiscoFits L D D H W H' W') (pos : 0 < W') (dvd : W' ∣ W) : ResizeFits (.conv L) D H W H' W'
  | resample {R : Resample.Resampler} {gauss : ℕ → Rule} {tol : ℝ} {maxiter : ℕ} {A : Resample.Args} {rin rout : Rule} (D : ℕ)
      (built : ResampleBuilt gauss tol maxiter A rin rout) (init : Resample.init gauss tol maxiter A = .ok R) (lon : 0 < A.nlonOut) :
      ResizeFits (.resample R) D A.nlatIn A.nlonIn A.nlatOut A.nlonOut
  | transpose {T : Disco.Layer ℝ} {N : BatchNorm} {act : ℝ → ℝ} {L : Disco.Layer ℝ} {D H W H' W' : ℕ} (fits : TransFits T D D H W H' W')
      (norm : N.chans = D) (conv : DiscoFits L D D H' W' H' W') (pos : 0 < W) (pos' : 0 < W') (dvd : W ∣ W') : ResizeFits (.transpose T N act L) D H W H' W'

theorem resize_roll {R : Resize} {D H W H' W' s s' : ℕ} (F : ResizeFits R D H W H' W') (hs : s * W' = s' * W) {x x' : Ten3 ℝ} (hx : HasShape x D H W)
    (hr : Rolled s x x') : ∃ y y', R.forward x = .ok y ∧ R.forward x' = .ok y' ∧ HasShape y D H' W' ∧ Rolled s' y y' := by
  cases F with
  | @conv L D H W H' W' fits pos dvd =>
    refine disco_roll fits ?_ hx hr
    obtain ⟨q, rfl⟩ := dvd
    rw [Nat.mul_div_cancel_left _ pos]
    refine Nat.eq_of_mul_eq_mul_right pos ?_
    rw [hs]; ring
  | @resample R gauss tol maxiter A rin rout D built init lon =>
    have be : C2R := ⟨c2rValue, fun _ _ _ _ _ _ => rfl⟩
    obtain ⟨y, y', e, e', sy, ry⟩ := up_roll be (U := .resample R) (UpFits.resample built init lon) hs hx.2.1 hx.2.2 hr
    rw [hx.1] at sy
    exact ⟨y, y', e, e', sy, ry⟩
  | @transpose T N act L D H W H' W' fits norm conv pos pos' dvd =>
    obtain ⟨y, y', e, e', sy, ry⟩ := trans_roll (s' := s') fits (by
      obtain ⟨q, rfl⟩ := dvd
      rw [Nat.mul_div_cancel_left _ pos]
      refine Nat.eq_of_mul_eq_mul_right pos ?_
      rw [← hs]; ring) hx hr
    obtain ⟨z, z', f, f', sz, rz⟩ := norm_roll (N := N) (sy.1.trans norm.symm) ry
    rw [sy.1, sy.2.1, sy.2.2] at sz
    obtain ⟨u, u', g, g', su, ru⟩ := disco_roll (s := s') (s' := s') conv (by rw [Nat.div_self pos', mul_one]) (x := pointwise act z) (x' := pointwise act z') sz (pointwise_roll _ rz)
    refine ⟨u, u', ?_, ?_, su, ru⟩
    · simp only [Resize.forward]; rw [e, except_bind_ok, f, except_bind_ok, g]
    · simp only [Resize.forward]; rw [e', except_bind_ok, f', except_bind_ok, g']

/-! ### Blocks -/

/-- A block from `C` fields on a grid to `D` fields on another. -/
structure BlockFits (B : Block) (C D H W H' W' : ℕ) : Prop where
  stages : StagesFit H W B.stages C D
  resize : ResizeFits B.resize D H W H' W'
  skip : match B.skip with | none => C = D | some F => F.inC = C ∧ F.outC = D

theorem skip_roll {B : Block} {C D H W s : ℕ} (h : match B.skip with | none => C = D | some F => F.inC = C ∧ F.outC = D) {x x' : Ten3 ℝ}
    (hx : HasShape x C H W) (hr : Rolled s x x') : ∃ y y', skipForward B.skip x = .ok y ∧
      skipForward B.skip x' = .ok y' ∧ HasShape y D H W ∧ Rolled s y y' := by
  cases hB : B.skip with
  | none => rw [hB] at h; dsimp only at h; subst h; exact ⟨x, x', rfl, rfl, hx, hr⟩
  | some F =>
    rw [hB] at h
    obtain ⟨h1, h2⟩ := h
    obtain ⟨y, y', e, e', sy, ry⟩ := conv1_roll (F := F) (hx.1.trans h1.symm) hr
    rw [h2, hx.2.1, hx.2.2] at sy
    exact ⟨y, y', e, e', sy, ry⟩

theorem block_roll {B : Block} {C D H W H' W' s s' : ℕ} (F : BlockFits B C D H W H' W') (hW : 0 < W) (hs : s * W' = s' * W) {x x' : Ten3 ℝ}
    (hx : HasShape x C H W) (hr : Rolled s x x') : ∃ y y', B.forward x = .ok y ∧ B.forward x' = .ok y' ∧ HasShape y D H' W' ∧ Rolled s' y y' := by
  obtain ⟨r, r', e1, e1', s1, r1⟩ := skip_roll F.skip hx hr
  obtain ⟨y, y', e2, e2', s2, r2⟩ := stages_roll hW F.stages hx hr
  obtain ⟨z, z', e3, e3', s3, r3⟩ := addEmbed_roll r2 r1 (s2.1.trans s1.1.symm) (s2.2.1.trans s1.2.1.symm) (s2.2.2.trans s1.2.2.symm)
  rw [s1.1, s1.2.1, s1.2.2] at s3
  obtain ⟨v, v', e4, e4', s4, r4⟩ := resize_roll F.resize hs s3 r3
  refine ⟨v, v', ?_, ?_, s4, r4⟩
  · unfold Block.forward; rw [e1, except_bind_ok, e2, except_bind_ok, e3, except_bind_ok, e4]
  · unfold Block.forward; rw [e1', except_bind_ok, e2', except_bind_ok, e3', except_bind_ok, e4']

theorem cat_roll {s C D H W : ℕ} {f f' v v' : Ten3 ℝ} (hf : HasShape f C H W) (hv : HasShape v D H W) (rf : Rolled s f f') (rv : Rolled s v v') :
    ∃ y y', cat f v = .ok y ∧ cat f' v' = .ok y' ∧ HasShape y (C + D) H W ∧ Rolled s y y' := by
  unfold cat
  rw [if_pos ⟨hf.2.1.trans hv.2.1.symm, hf.2.2.trans hv.2.2.symm⟩,
    if_pos ⟨(rf.d1.trans (hf.2.1.trans hv.2.1.symm)).trans rv.d1.symm, (rf.d2.trans (hf.2.2.trans hv.2.2.symm)).trans rv.d2.symm⟩]
  refine ⟨_, _, rfl, rfl, ⟨by rw [hf.1, hv.1], hf.2.1, hf.2.2⟩, by rw [rf.d0, rv.d0], rf.d1, rf.d2, ?_⟩
  intro c hc k hk j hj
  dsimp only at hc hk hj ⊢
  rw [rf.d0]
  by_cases h : c < f.d0
  · rw [if_pos h, if_pos h, rf.val c h k hk j hj]
  · rw [if_neg h, if_neg h, rv.val (c - f.d0) (by omega) k (by rw [hv.2.1, ← hf.2.1]; exact hk) j (by rw [hv.2.2, ← hf.2.2]; exact hj), hv.2.2, hf.2.2]

/-! ### The U shape -/

/-- Pairs of blocks that fit together from level `i` on: level `i` has `C i` fields on `H i × W i` points, and the upsampling block to level `i` returns `O i`
fields. -/
inductive UFits (H W C O : ℕ → ℕ) : ℕ → List (Block × Block) → Prop
  | last {i : ℕ} {d u : Block} (hd : BlockFits d (C i) (C (i + 1)) (H i) (W i) (H (i + 1)) (W (i + 1)))
      (hu : BlockFits u (C (i + 1)) (O i) (H (i + 1)) (W (i + 1)) (H i) (W i)) : UFits H W C O i [(d, u)]
  | cons {i : ℕ} {d u : Block} {q : Block × Block} {rest : List (Block × Block)}
      (hd : BlockFits d (C i) (C (i + 1)) (H i) (W i) (H (i + 1)) (W (i + 1)))
      (hu : BlockFits u (C (i + 1) + O (i + 1)) (O i) (H (i + 1)) (W (i + 1)) (H i) (W i)) (tail : UFits H W C O (i + 1) (q :: rest)) :
      UFits H W C O i ((d, u) :: q :: rest)

theorem uPass_roll {H W C O s : ℕ → ℕ} {n : ℕ} (hW : ∀ i ≤ n, 0 < W i) (hs : ∀ i < n, s i * W (i + 1) = s (i + 1) * W i) {i : ℕ} {l : List (Block × Block)}
    (F : UFits H W C O i l) : i + l.length ≤ n → ∀ {x x' : Ten3 ℝ}, HasShape x (C i) (H i) (W i) → Rolled (s i) x x' →
      ∃ y y', uPass l x = .ok y ∧ uPass l x' = .ok y' ∧ HasShape y (O i) (H i) (W i) ∧ Rolled (s i) y y' := by
  induction F with
  | @last i d u hd hu =>
    intro hn x x' hx hr
    simp only [List.length_cons, List.length_nil] at hn
    obtain ⟨f, f', e1, e1', s1, r1⟩ := block_roll hd (hW i (by omega)) (hs i (by omega)) hx hr
    obtain ⟨v, v', e2, e2', s2, r2⟩ := block_roll hu (hW (i + 1) (by omega)) (hs i (by omega)).symm s1 r1
    refine ⟨v, v', ?_, ?_, s2, r2⟩
    · simp only [uPass]; rw [e1, except_bind_ok, e2]
    · simp only [uPass]; rw [e1', except_bind_ok, e2']
  | @cons i d u q rest hd hu _ ih =>
    intro hn x x' hx hr
    simp only [List.length_cons] at hn ih
    obtain ⟨f, f', e1, e1', s1, r1⟩ := block_roll hd (hW i (by omega)) (hs i (by omega)) hx hr
    obtain ⟨v, v', e2, e2', s2, r2⟩ := ih (by omega) s1 r1
    obtain ⟨c, c', e3, e3', s3, r3⟩ := cat_roll s1 s2 r1 r2
    obtain ⟨y, y', e4, e4', s4, r4⟩ := block_roll hu (hW (i + 1) (by omega)) (hs i (by omega)).symm s3 r3
    refine ⟨y, y', ?_, ?_, s4, r4⟩
    · simp only [uPass]; rw [e1, except_bind_ok, e2, except_bind_ok, e3, except_bind_ok, e4]
    · simp only [uPass]; rw [e1', except_bind_ok, e2', except_bind_ok, e3', except_bind_ok, e4']

/-- The pairs of blocks of levels `i, i + 1, ..., i + n`. -/
theorem uFits_range {H W C O : ℕ → ℕ} (d u : ℕ → Block) : ∀ (n i : ℕ),
    (∀ j, i ≤ j → j ≤ i + n → BlockFits (d j) (C j) (C (j + 1)) (H j) (W j) (H (j + 1)) (W (j + 1))) →
    (∀ j, i ≤ j → j ≤ i + n → BlockFits (u j) (if j = i + n then C (j + 1) else C (j + 1) + O (j + 1)) (O j) (H (j + 1)) (W (j + 1)) (H j) (W j)) →
    UFits H W C O i ((List.range' i (n + 1)).map fun j => (d j, u j))
  | 0, i, hd, hu => by
    have := hu i le_rfl (by omega)
    rw [if_pos (by omega)] at this
    exact .last (hd i le_rfl (by omega)) this
  | n + 1, i, hd, hu => by
    have h1 := uFits_range d u n (i + 1) (fun j h h' => hd j (by omega) (by omega)) (fun j h h' => by
      have := hu j (by omega) (by omega)
      by_cases e : j = i + 1 + n
      · rw [if_pos e]; rw [if_pos (by omega)] at this; exact this
      · rw [if_neg e]; rw [if_neg (by omega)] at this; exact this)
    have h2 := hu i le_rfl (by omega)
    rw [if_neg (by omega)] at h2
    rw [List.range'_succ, List.map_cons, List.range'_succ, List.map_cons]
    rw [List.range'_succ, List.map_cons] at h1
    exact .cons (hd i le_rfl (by omega)) h2 h1

/-! ### The loops of the forward pass -/

theorem runStages_append (l m : List Stage) (x : Ten3 ℝ) : runStages (l ++ m) x = runStages l x >>= runStages m := by
  induction l generalizing x with
  | nil => rfl
  | cons S l ih =>
    simp only [List.cons_append, runStages]
    cases S.forward x with
    | error e => rfl
    | ok y => exact ih y

theorem encodeFeatures_length : ∀ (ds : List Block) (x : Ten3 ℝ) (fs), encodeFeatures ds x = .ok fs → fs.length = ds.length := by
  intro ds
  induction ds with
  | nil => intro x fs h; cases h; rfl
  | cons d ds ih =>
    intro x fs h
    simp only [encodeFeatures] at h
    cases h1 : d.forward x with
    | error e => rw [h1] at h; cases h
    | ok y =>
      rw [h1, except_bind_ok] at h
      cases h2 : encodeFeatures ds y with
      | error e => rw [h2] at h; cases h
      | ok gs => rw [h2] at h; cases h; simp [ih y gs h2]

theorem decodeFeatures_append (f : Ten3 ℝ) (u : Block) : ∀ (gs : List (Ten3 ℝ)) (us : List Block) (v : Ten3 ℝ), gs.length = us.length →
    decodeFeatures (gs ++ [f]) (us ++ [u]) v = (decodeFeatures gs us v >>= fun w => cat f w >>= fun c => u.forward c) := by
  intro gs
  induction gs with
  | nil =>
    intro us v h
    match us, h with
    | [], _ =>
      simp only [List.nil_append, decodeFeatures, except_bind_ok]
      cases cat f v with
      | error e => rfl
      | ok c =>
        simp only [except_bind_ok]
        cases u.forward c <;> rfl
  | cons g gs ih =>
    intro us v h
    match us, h with
    | u' :: us, h =>
      simp only [List.cons_append, decodeFeatures]
      cases cat g v with
      | error e => rfl
      | ok c =>
        simp only [except_bind_ok]
        cases u'.forward c with
        | error e => rfl
        | ok w => exact ih us w (by simpa using h)

theorem decodeAll_append (f : Ten3 ℝ) (u : Block) (gs : List (Ten3 ℝ)) (us : List Block) (h : us.length = gs.length) (h0 : us ≠ []) :
    decodeAll (us ++ [u]) (gs ++ [f]) = (decodeAll us gs >>= fun w => cat f w >>= fun c => u.forward c) := by
  match us, gs, h, h0 with
  | u' :: us, f' :: gs, h, _ =>
    simp only [List.cons_append, decodeAll]
    cases u'.forward f' with
    | error e => rfl
    | ok v => exact decodeFeatures_append f u gs us v (by simpa using h.symm)

/-- The encoder and decoder loops run the U shape: same result, and same error. -/
theorem loops_eq : ∀ (l : List (Block × Block)), l ≠ [] → ∀ x : Ten3 ℝ,
    uPass l x = (encodeFeatures (l.map Prod.fst) x >>= fun fs => decodeAll (l.map Prod.snd).reverse fs.reverse)
  | [], h, _ => absurd rfl h
  | [(d, u)], _, x => by
    simp only [uPass, List.map_cons, List.map_nil, encodeFeatures]
    cases d.forward x with
    | error e => rfl
    | ok f =>
      show u.forward f = (u.forward f >>= fun v => decodeFeatures [] [] v)
      cases u.forward f <;> rfl
  | (d, u) :: q :: rest, _, x => by
    have ih := loops_eq (q :: rest) (by simp)
    simp only [uPass]
    rw [List.map_cons]
    simp only [encodeFeatures]
    cases hd : d.forward x with
    | error e => rfl
    | ok f =>
      simp only [except_bind_ok]
      rw [ih f]
      cases he : encodeFeatures ((q :: rest).map Prod.fst) f with
      | error e => rfl
      | ok fs =>
        simp only [except_bind_ok]
        show _ = decodeAll (((d, u) :: q :: rest).map Prod.snd).reverse (f :: fs).reverse
        have e : (((d, u) :: q :: rest).map Prod.snd).reverse = ((q :: rest).map Prod.snd).reverse ++ [u] := by
          rw [List.map_cons (l := q :: rest), List.reverse_cons (as := (q :: rest).map Prod.snd)]
        rw [e, List.reverse_cons (as := fs), decodeAll_append f u]
        · rw [List.length_reverse, List.length_reverse, encodeFeatures_length _ _ _ he, List.length_map, List.length_map]
        · simp

end Verif.UNet
