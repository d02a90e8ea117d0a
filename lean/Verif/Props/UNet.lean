import Verif.Lemmas.UNet
import Verif.Lemmas.DiscoKpacked
import Verif.Props.LSNO
/-!
C87: the spherical U-Net.
-/
namespace Verif.Props
open Verif Verif.Dist Verif.FFT Verif.Quad Verif.SHT Verif.Spec Verif.SFNO Verif.Filter Verif.Disco Verif.UNet Finset

/-- The hypotheses under which the network is built: as many depths as dimensions, none of them zero, a known activation, grids with colatitudes `outer`
and `inner`, a filter basis `B`, two latitudes and longitudes at the last level, and known modes. Where grids are changed by convolutions, the numbers of longitudes
have to divide one another. `le` is demanded by the reference kernels of the convolutions. -/
structure UnetBuilt (env : Env) (a : UNet.NetArgs) (act : ℝ → ℝ) (B : Basis) (outer : Rule) (inner : ℕ → Rule) : Prop where
  depths : a.depths.length = a.embedDims.length
  dims : a.embedDims ≠ []
  act : activation a.act = .ok act
  scale : a.scale ≠ 0
  latOut : precomputeLatitudes env.gauss env.tol env.maxiter a.nlat a.grid = .ok outer
  sizeOut : outer.n = a.nlat
  latIn : ∀ i ≤ a.embedDims.length, precomputeLatitudes env.gauss env.tol env.maxiter (uH a i) a.gridInternal = .ok (inner i)
  sizeIn : ∀ i ≤ a.embedDims.length, (inner i).n = uH a i
  basis : LSNO.getBasis a.shape a.basis = .ok B
  ker : 0 < B.kernelSize
  chans : ∀ i ≤ a.embedDims.length, uC a i ≠ 0
  depth : ∀ i < a.embedDims.length, a.depths.getD i 0 ≠ 0
  twoLat : 2 ≤ uH a a.embedDims.length
  twoLon : 2 ≤ uW a a.embedDims.length
  le : a.nlat ≤ a.nlon
  down : if a.downMode = "conv" then ∀ i < a.embedDims.length, uW a (i + 1) ∣ uW a i
    else (a.downMode = "bilinear" ∨ a.downMode = "bilinear-spherical") ∧ ∀ i ≤ a.embedDims.length, LatGrid (uH a i) (uRule outer inner i).x
  up : a.scale = 1 ∨ if a.upMode = "conv" then ∀ i < a.embedDims.length, uW a (i + 1) ∣ uW a i
    else (a.upMode = "bilinear" ∨ a.upMode = "bilinear-spherical") ∧ ∀ i ≤ a.embedDims.length, LatGrid (uH a i) (uRule outer inner i).x

/-! ### Layers -/

section Build
variable {env : Env} {a : UNet.NetArgs} {p : UNet.NetParams} {act : ℝ → ℝ} {B : Basis} {outer : Rule} {inner : ℕ → Rule}

theorem level_eq (a : UNet.NetArgs) (i : ℕ) : level a i = ⟨uH a i, uW a i, uH a (i + 1), uW a (i + 1), uC a i, uC a (i + 1),
    if i = 0 then a.grid else a.gridInternal, a.gridInternal, a.depths.getD i 0⟩ := by
  induction i with
  | zero => simp [level, uH, uW, uC]
  | succ i ih =>
    simp only [level, ih]
    rw [if_neg (by omega)]
    simp only [uH, uW, uC, Nat.div_div_eq_div_mul, ← pow_succ]

theorem uH_anti (a : UNet.NetArgs) (hs : a.scale ≠ 0) {i j : ℕ} (h : i ≤ j) : uH a j ≤ uH a i :=
  Nat.div_le_div_left (Nat.pow_le_pow_right (by omega) h) (Nat.pos_of_ne_zero (pow_ne_zero _ hs))

theorem uW_anti (a : UNet.NetArgs) (hs : a.scale ≠ 0) {i j : ℕ} (h : i ≤ j) : uW a j ≤ uW a i :=
  Nat.div_le_div_left (Nat.pow_le_pow_right (by omega) h) (Nat.pos_of_ne_zero (pow_ne_zero _ hs))

/-- The sizes of all levels that are used. -/
theorem unet_sizes (H : UnetBuilt env a act B outer inner) {i : ℕ} (hi : i ≤ a.embedDims.length) : 2 ≤ uH a i ∧ 2 ≤ uW a i ∧ uH a i ≤ uW a i :=
  ⟨H.twoLat.trans (uH_anti a H.scale hi), H.twoLon.trans (uW_anti a H.scale hi), Nat.div_le_div_right H.le⟩

theorem cutoff_eq (hB : LSNO.getBasis a.shape a.basis = .ok B) {n : ℕ} (hn : 2 ≤ n) :
    LSNO.cutoffRadius n a.shape a.basis = .ok (cutoffOf a n) ∧ 0 < cutoffOf a n := by
  obtain ⟨k, rest, f, e1, e2, e3, e4⟩ := cutoff_pos hn hB
  have : cutoffOf a n = ((k : ℝ) + 1) * f * Real.pi / ((n : ℝ) - 1) := by
    unfold cutoffOf
    rw [e1, List.headD_cons]
    unfold LSNO.cutoffFactor at e2
    split_ifs at e2 with c1 c2 c3
    · rw [if_neg (by rw [c1]; decide), ← Option.some.inj e2]
    · rw [if_neg (by rw [c2]; decide), ← Option.some.inj e2]
    · rw [if_pos c3, ← Option.some.inj e2]
  rw [this]
  exact ⟨e3, e4⟩

/-- A convolution of the network, and what it computes. -/
theorem conv_built (hB : LSNO.getBasis a.shape a.basis = .ok B) (hK : 0 < B.kernelSize) {C D H W H' W' : ℕ} {g g' : String} {r r' : Rule} {theta : ℝ}
    (hC : C ≠ 0) (h1 : precomputeLatitudes env.gauss env.tol env.maxiter H g = .ok r) (h2 : r.n = H)
    (h3 : precomputeLatitudes env.gauss env.tol env.maxiter H' g' = .ok r') (hH : 0 < H') (hW : 0 < W) (hW' : 0 < W') (hd : W' ∣ W) (hle : H' ≤ W)
    (ht : 0 < theta) (w : ℕ → ℕ → ℕ → ℝ) :
    ∃ L, LSNO.discoInit env ⟨C, D, H, W, H', W', a.shape, a.basis, g, g', theta⟩ w none = .ok L ∧ LSNO.DiscoFits L C D H W H' W' ∧
      ∀ x, HasShape x C H W → ∃ y, LSNO.discoForward L x = .ok y ∧ Is y D H' W' (convAt B r r' W W' C theta w x) := by
  obtain ⟨L, n1, n2, n3, n4, n5, n6⟩ := LSNO.discoInit_ready (a := ⟨C, D, H, W, H', W', a.shape, a.basis, g, g', theta⟩) (B := B) (rin := r) (rout := r')
    ⟨hB, hK, hC, h1, h2, h3, hH, hW, hW', hd, ht⟩ hle w none
  refine ⟨L, n1, n2, fun x hx => ?_⟩
  have := disco_value n2 hB hK h1 h2 h3 hW hle n5 n6
  rw [n3, n4] at this
  obtain ⟨y, e1, e2, e3⟩ := this x (by rw [h2]; exact hx)
  exact ⟨y, e1, e2, fun o ho t ht j hj => by rw [e3 o ho t ht j hj, add_zero]; rfl⟩

/-- A transposed convolution of the network, and what it computes. -/
theorem trans_built (hB : LSNO.getBasis a.shape a.basis = .ok B) (hK : 0 < B.kernelSize) {C D H W H' W' : ℕ} {g g' : String} {r r' : Rule} {theta : ℝ}
    (hC : C ≠ 0) (h1 : precomputeLatitudes env.gauss env.tol env.maxiter H g = .ok r) (h2 : r.n = H)
    (h3 : precomputeLatitudes env.gauss env.tol env.maxiter H' g' = .ok r') (hH : 0 < H) (hW : 0 < W) (hW' : 0 < W') (hd : W ∣ W')
    (ht : 0 < theta) (w : ℕ → ℕ → ℕ → ℝ) :
    ∃ L, transInit env ⟨C, D, H, W, H', W', a.shape, a.basis, g, g', theta⟩ w none = .ok L ∧ TransFits L C D H W H' W' ∧
      ∀ x, HasShape x C H W → ∃ y, transForward L x = .ok y ∧ Is y D H' W' (spreadAt B r r' W W' C theta w x) := by
  obtain ⟨L, n1, n2, n3, n4, n5, n6⟩ := transInit_ready (a := ⟨C, D, H, W, H', W', a.shape, a.basis, g, g', theta⟩) (B := B) (rin := r) (rout := r')
    ⟨hB, hK, hC, h1, h2, h3, hH, hW, hW', hd, ht⟩ w none
  refine ⟨L, n1, n2, fun x hx => ?_⟩
  dsimp only at n2 n6
  obtain ⟨y, e1, e2, e3, e4, e5⟩ := C37_transpose_layer env.gauss env.tol env.maxiter H W H' W' B g g' (some theta) L.entries r r' n6 h1 h3 h2 hW' hK
    (LSNO.getBasis_mask hB) L ⟨rfl, n5, n2.latIn, n2.lonIn, n2.latOut, n2.lonOut⟩ ⟨x.d0, x.d1, x.d2, x.val⟩
    ⟨by rw [n2.groups, one_mul, n2.inC]; exact hx.1, hx.2.1, hx.2.2⟩
  rw [n2.groups, one_mul, n2.outC] at e2
  refine ⟨⟨y.d0, y.d1, y.d2, y.val⟩, by unfold transForward; rw [e1]; rfl, ⟨e2, e3, e4⟩, fun o ho t ht j hj => ?_⟩
  dsimp only
  rw [e5 o t ht j hj, n2.outC, n2.inC, Nat.div_eq_of_lt ho, n3, n4]
  simp only [Nat.zero_mul, Nat.zero_add, Option.getD_some, add_zero]
  rfl

/-- Normalisation and activation. -/
theorem norm_act {q : NormParams} {f : ℝ → ℝ} {y : Ten3 ℝ} {D H W : ℕ} {v : ℕ → ℕ → ℕ → ℝ} (hy : Is y D H W v) :
    ∃ z, (q.norm D).forward y = .ok z ∧ Is (pointwise f z) D H W fun o t j => normAct f q o (v o t j) := by
  unfold BatchNorm.forward
  rw [if_neg (by rw [not_not]; exact hy.1.1)]
  refine ⟨_, rfl, hy.1, fun o ho t ht j hj => ?_⟩
  simp only [pointwise, normAct, NormParams.norm, hy.2 o ho t ht j hj]

theorem stage_built (hB : LSNO.getBasis a.shape a.basis = .ok B) (hK : 0 < B.kernelSize) {C D H W : ℕ} {g : String} {r : Rule}
    (hC : C ≠ 0) (h1 : precomputeLatitudes env.gauss env.tol env.maxiter H g = .ok r) (h2 : r.n = H) (hH : 2 ≤ H) (hW : 0 < W) (hle : H ≤ W)
    (f : ℝ → ℝ) (q : StageParams) :
    ∃ S, Stage.init env C D H W a.shape a.basis g f q = .ok S ∧ StageFits S C D H W ∧ ∀ x, HasShape x C H W → ∃ y, S.forward x = .ok y ∧
      Is y D H W fun o t j => normAct f q.norm o (convAt B r r W W C (cutoffOf a H) q.w x o t j) := by
  obtain ⟨c1, c2⟩ := cutoff_eq hB hH
  obtain ⟨L, n1, n2, n3⟩ := conv_built (D := D) hB hK hC h1 h2 h1 (by omega) hW hW (dvd_refl W) hle c2 q.w
  refine ⟨⟨L, q.norm.norm D, f⟩, ?_, ⟨n2, rfl⟩, fun x hx => ?_⟩
  · unfold Stage.init
    rw [c1, except_bind_ok, n1]
    rfl
  · obtain ⟨y, e1, e2⟩ := n3 x hx
    obtain ⟨z, e3, e4⟩ := norm_act (q := q.norm) (f := f) e2
    refine ⟨pointwise f z, ?_, e4⟩
    unfold Stage.forward
    dsimp only
    rw [e1, except_bind_ok, e3]
    rfl

/-! ### Blocks -/

/-- A list of stages, step by step. -/
theorem stages_trace (F : ℕ → Stage) (C : ℕ → ℕ) (H W : ℕ) (P : ℕ → Ten3 ℝ → Ten3 ℝ → Prop)
    (h : ∀ q x, HasShape x (C q) H W → ∃ y, (F q).forward x = .ok y ∧ HasShape y (C (q + 1)) H W ∧ P q x y) (m : ℕ) (x : Ten3 ℝ)
    (hx : HasShape x (C 0) H W) :
    ∃ g : ℕ → Ten3 ℝ, g 0 = x ∧ runStages ((List.range m).map F) x = .ok (g m) ∧ HasShape (g m) (C m) H W ∧ ∀ q < m, P q (g q) (g (q + 1)) := by
  induction m with
  | zero => exact ⟨fun _ => x, rfl, rfl, hx, fun q hq => by omega⟩
  | succ m ih =>
    obtain ⟨g, g1, g2, g3, g4⟩ := ih
    obtain ⟨y, y1, y2, y3⟩ := h m (g m) g3
    refine ⟨fun q => if q = m + 1 then y else g q, by dsimp only; rw [if_neg (by omega)]; exact g1, ?_, by dsimp only; rw [if_pos rfl]; exact y2, ?_⟩
    · rw [List.range_succ, List.map_append, runStages_append, g2, except_bind_ok]
      dsimp only
      rw [if_pos rfl]
      simp only [List.map_cons, List.map_nil, runStages]
      rw [y1]
      rfl
    · intro q hq
      dsimp only
      by_cases e : q = m
      · subst e
        rw [if_neg (by omega), if_pos rfl]
        exact y3
      · rw [if_neg (by omega), if_neg (by omega)]
        exact g4 q (by omega)

theorem stagesFit_range (F : ℕ → Stage) (C : ℕ → ℕ) (H W : ℕ) (h : ∀ q, StageFits (F q) (C q) (C (q + 1)) H W) (m : ℕ) :
    StagesFit H W ((List.range m).map F) (C 0) (C m) := by
  induction m with
  | zero => exact .nil _
  | succ m ih =>
    rw [List.range_succ, List.map_append]
    exact stages_append ih (.cons (h m) (.nil _))

/-- The residual connection. -/
theorem residual_built {A : UNet.BlockArgs} {q : UNet.BlockParams} {H W : ℕ} {x h : Ten3 ℝ} (hx : HasShape x A.inC H W) (hh : HasShape h A.outC H W) :
    ∃ r z, skipForward (UNet.skipInit A q) x = .ok r ∧ addEmbed h r = .ok z ∧ Is z A.outC H W (residualAt A.transformSkip A.inC A.outC q x h) := by
  obtain ⟨r, r1, r2, r3⟩ : ∃ r, skipForward (UNet.skipInit A q) x = .ok r ∧ HasShape r A.outC H W ∧ ∀ o t j, r.val o t j =
      if A.transformSkip = true ∨ A.inC ≠ A.outC then ∑ c ∈ range A.inC, q.skipW o c * x.val c t j + q.skipB o else x.val o t j := by
    unfold UNet.skipInit
    by_cases hc : A.transformSkip = true ∨ A.inC ≠ A.outC
    · rw [if_pos hc]
      simp only [skipForward, Conv1.forward]
      rw [if_neg (by rw [not_not]; exact hx.1)]
      exact ⟨_, rfl, ⟨rfl, hx.2.1, hx.2.2⟩, fun o t j => by rw [if_pos hc]⟩
    · rw [if_neg hc]
      refine ⟨x, rfl, ?_, fun o t j => by rw [if_neg hc]⟩
      have : A.inC = A.outC := by by_contra e; exact hc (.inr e)
      rw [← this]; exact hx
  obtain ⟨z, z1, z2, z3⟩ := addEmbed_same (r := h) (x := r) (hh.1.trans r2.1.symm) (hh.2.1.trans r2.2.1.symm) (hh.2.2.trans r2.2.2.symm)
  rw [r2.1, r2.2.1, r2.2.2] at z2 z3
  refine ⟨r, z, r1, z1, z2, fun o ho t ht j hj => ?_⟩
  rw [z3 o ho t ht j hj, r3]
  rfl

theorem skip_fits (A : UNet.BlockArgs) (q : UNet.BlockParams) : match UNet.skipInit A q with | none => A.inC = A.outC | some F => F.inC = A.inC ∧ F.outC = A.outC := by
  unfold UNet.skipInit
  by_cases hc : A.transformSkip = true ∨ A.inC ≠ A.outC
  · rw [if_pos hc]; exact ⟨rfl, rfl⟩
  · rw [if_neg hc]
    by_contra e
    exact hc (.inr e)

theorem unet_rule (H : UnetBuilt env a act B outer inner) {i : ℕ} (hi : i ≤ a.embedDims.length) :
    precomputeLatitudes env.gauss env.tol env.maxiter (uH a i) (if i = 0 then a.grid else a.gridInternal) = .ok (uRule outer inner i) ∧
      (uRule outer inner i).n = uH a i := by
  unfold uRule
  by_cases h0 : i = 0
  · subst h0
    simp only [if_true, uH, pow_zero, Nat.div_one]
    exact ⟨H.latOut, H.sizeOut⟩
  · simp only [if_neg h0]
    exact ⟨H.latIn i hi, H.sizeIn i hi⟩

/-- A resampling of the network. -/
theorem resample_built {A : Resample.Args} {rin rout : Rule} (hb : ResampleBuilt env.gauss env.tol env.maxiter A rin rout) (hl : 0 < A.nlonOut) (D : ℕ) :
    ∃ R, Resample.init env.gauss env.tol env.maxiter A = .ok R ∧ ResizeFits (.resample R) D A.nlatIn A.nlonIn A.nlatOut A.nlonOut := by
  obtain ⟨R, _, _, _, hR, _⟩ := resample_forward hb
  exact ⟨R, hR, .resample D hb hR hl⟩

theorem down_built (H : UnetBuilt env a act B outer inner) {i : ℕ} (hi : i < a.embedDims.length) :
    ∃ D, downInit env (downArgs a act i) (p.down i) = .ok D ∧ BlockFits D (uC a i) (uC a (i + 1)) (uH a i) (uW a i) (uH a (i + 1)) (uW a (i + 1)) ∧
      D.stages.length = a.depths.getD i 0 ∧ ∀ x, HasShape x (uC a i) (uH a i) (uW a i) → ∃ y, D.forward x = .ok y ∧ DownStep env a p act B outer inner i x y := by
  obtain ⟨s1, s2, s3⟩ := unet_sizes H hi.le
  obtain ⟨t1, t2, t3⟩ := unet_sizes H (show i + 1 ≤ _ from hi)
  have hW := uW_anti a H.scale (show i ≤ i + 1 by omega)
  have hH := uH_anti a H.scale (show i ≤ i + 1 by omega)
  have hch := H.chans (i + 1) hi
  have hdep := H.depth i hi
  obtain ⟨q1, q2⟩ := unet_rule H hi.le
  have hA : downArgs a act i = ⟨uH a i, uW a i, uH a (i + 1), uW a (i + 1), uC a i, uC a (i + 1), if i = 0 then a.grid else a.gridInternal, a.gridInternal,
      a.depths.getD i 0, a.shape, a.basis, act, a.transformSkip, a.downMode⟩ := by
    unfold downArgs; rw [level_eq]
  -- the stages
  obtain ⟨C, hC⟩ : ∃ C : ℕ → ℕ, ∀ q, C q = if q = 0 then uC a i else uC a (i + 1) := ⟨_, fun _ => rfl⟩
  have hC0 : C 0 = uC a i := by rw [hC, if_pos rfl]
  have hC1 : ∀ q, C (q + 1) = uC a (i + 1) := fun q => by rw [hC, if_neg (by omega)]
  have hCn : ∀ q, C q ≠ 0 := fun q => by rw [hC]; split_ifs; exacts [H.chans i hi.le, hch]
  choose F f1 f2 f3 using fun q => stage_built (D := C (q + 1)) H.basis H.ker (hCn q) (H.latIn i hi.le) (H.sizeIn i hi.le) s1 (by omega) s3 act ((p.down i).stage q)
  have hst : downStages env (downArgs a act i) (p.down i) = .ok ((List.range (a.depths.getD i 0)).map F) := by
    rw [hA]
    unfold downStages
    dsimp only
    refine mapM_ok _ F _ fun q _ => ?_
    rw [← hC q, ← hC1 q]
    exact f1 q
  -- the change of the grid
  obtain ⟨R, r1, r2, r3⟩ : ∃ R, downResize env (downArgs a act i) (p.down i) = .ok R ∧ ResizeFits R (uC a (i + 1)) (uH a i) (uW a i) (uH a (i + 1)) (uW a (i + 1)) ∧
      ∀ z, HasShape z (uC a (i + 1)) (uH a i) (uW a i) → ∃ y, R.forward z = .ok y ∧ HasShape y (uC a (i + 1)) (uH a (i + 1)) (uW a (i + 1)) ∧
        if a.downMode = "conv" then Is y (uC a (i + 1)) (uH a (i + 1)) (uW a (i + 1))
          (convAt B (uRule outer inner i) (inner (i + 1)) (uW a i) (uW a (i + 1)) (uC a (i + 1)) (cutoffOf a (uH a (i + 1))) (p.down i).resizeW z)
        else Resampled env ⟨uH a i, uW a i, uH a (i + 1), uW a (i + 1), if i = 0 then a.grid else a.gridInternal, a.gridInternal, a.downMode⟩ z y := by
    have hd := H.down
    rw [hA]
    unfold downResize
    dsimp only
    by_cases hm : a.downMode = "conv"
    · rw [if_pos hm] at hd ⊢
      obtain ⟨c1, c2⟩ := cutoff_eq H.basis t1
      obtain ⟨L, n1, n2, n3⟩ := conv_built (a := a) (D := uC a (i + 1)) H.basis H.ker hch q1 q2 (H.latIn (i + 1) hi) (by omega) (by omega)
        (show 0 < uW a (i + 1) by omega) (hd i hi) (by omega) c2 (p.down i).resizeW
      refine ⟨.conv L, ?_, .conv n2 (by omega) (hd i hi), fun z hz => ?_⟩
      · rw [c1, except_bind_ok, n1]; rfl
      · obtain ⟨y, y1, y2⟩ := n3 z hz
        exact ⟨y, y1, y2.1, by rw [if_pos hm]; exact y2⟩
    · rw [if_neg hm] at hd ⊢
      have hb : ResampleBuilt env.gauss env.tol env.maxiter ⟨uH a i, uW a i, uH a (i + 1), uW a (i + 1), if i = 0 then a.grid else a.gridInternal,
          a.gridInternal, a.downMode⟩ (uRule outer inner i) (inner (i + 1)) :=
        ⟨hd.1, q1, H.latIn (i + 1) hi, q2, H.sizeIn (i + 1) hi, hd.2 i hi.le, by
          have := hd.2 (i + 1) hi
          rwa [uRule, if_neg (by omega)] at this, s1, s2⟩
      obtain ⟨R, n1, n2⟩ := resample_built hb (by dsimp only; omega) (uC a (i + 1))
      refine ⟨.resample R, by rw [n1]; rfl, n2, fun z hz => ?_⟩
      obtain ⟨y, _, y1, _, y2, _⟩ := resize_roll n2 (s := 0) (s' := 0) (by simp) hz (rolled_refl z)
      exact ⟨y, y1, y2, by rw [if_neg hm]; exact ⟨R, n1, y1⟩⟩
  have hm : C (a.depths.getD i 0) = uC a (i + 1) := by
    obtain ⟨m, hm⟩ := Nat.exists_eq_succ_of_ne_zero hdep
    rw [hm]; exact hC1 m
  refine ⟨⟨(List.range (a.depths.getD i 0)).map F, R, UNet.skipInit (downArgs a act i) (p.down i)⟩, ?_, ⟨?_, r2, ?_⟩, by simp, fun x hx => ?_⟩
  · unfold downInit
    rw [hst, except_bind_ok, r1]
    rfl
  · have := stagesFit_range F C _ _ f2 (a.depths.getD i 0)
    rwa [hC0, hm] at this
  · have := skip_fits (downArgs a act i) (p.down i)
    rw [hA] at this ⊢
    exact this
  · obtain ⟨g, g1, g2, g3, g4⟩ := stages_trace F C (uH a i) (uW a i) _ (fun q x hx => by
      obtain ⟨y, y1, y2⟩ := f3 q x hx
      exact ⟨y, y1, y2.1, y2⟩) (a.depths.getD i 0) x (by rw [hC0]; exact hx)
    rw [hm] at g3
    obtain ⟨r, z, z1, z2, z3⟩ := residual_built (A := downArgs a act i) (q := p.down i) (H := uH a i) (W := uW a i) (x := x) (h := g (a.depths.getD i 0))
      (by rw [hA]; exact hx) (by rw [hA]; exact g3)
    rw [hA] at z3
    dsimp only at z3
    obtain ⟨y, y1, y2, y3⟩ := r3 z z3.1
    refine ⟨y, ?_, g, z, g1, fun q hq => ?_, z3, y2, y3⟩
    · unfold UNet.Block.forward
      dsimp only
      rw [z1, except_bind_ok, g2, except_bind_ok, z2, except_bind_ok, y1]
    · have := g4 q hq
      rw [hC1, hC q] at this
      exact this

/-- The number of channels that the upsampling block back to level `i` gets. -/
def uIn (a : UNet.NetArgs) (i : ℕ) : ℕ := if i + 1 = a.embedDims.length then uC a (i + 1) else uC a (i + 1) + uC a (i + 1)

theorem up_built (H : UnetBuilt env a act B outer inner) {i : ℕ} (hi : i < a.embedDims.length) :
    ∃ U, upInit env (upArgs a act i) (p.up i) = .ok U ∧ BlockFits U (uIn a i) (uO a i) (uH a (i + 1)) (uW a (i + 1)) (uH a i) (uW a i) ∧
      U.stages.length = 1 ∧
      ∀ x, HasShape x (uIn a i) (uH a (i + 1)) (uW a (i + 1)) → ∃ y, U.forward x = .ok y ∧ UpStep env a p act B outer inner i (uIn a i) x y := by
  obtain ⟨s1, s2, s3⟩ := unet_sizes H hi.le
  obtain ⟨t1, t2, t3⟩ := unet_sizes H (show i + 1 ≤ _ from hi)
  have hW := uW_anti a H.scale (show i ≤ i + 1 by omega)
  have hH := uH_anti a H.scale (show i ≤ i + 1 by omega)
  have hch : uIn a i ≠ 0 := by
    have := H.chans (i + 1) hi
    unfold uIn
    split_ifs <;> omega
  have hO : uO a i ≠ 0 := by
    unfold uO
    split_ifs with h0
    · subst h0; exact H.chans (0 + 1) hi
    · exact H.chans i hi.le
  obtain ⟨q1, q2⟩ := unet_rule H hi.le
  have hA : upArgs a act i = ⟨uH a (i + 1), uW a (i + 1), uH a i, uW a i, uIn a i, uO a i, a.gridInternal, if i = 0 then a.grid else a.gridInternal,
      1, a.shape, a.basis, act, a.transformSkip, a.upMode⟩ := by
    unfold upArgs uIn uO; rw [level_eq]
    dsimp only
    congr 1
    by_cases h : i + 1 = a.embedDims.length
    · rw [if_pos h, if_neg (by omega)]
    · rw [if_neg h, if_pos (by omega)]; omega
  obtain ⟨c1, c2⟩ := cutoff_eq H.basis t1
  obtain ⟨S, f1, f2, f3⟩ := stage_built (D := uO a i) H.basis H.ker hch (H.latIn (i + 1) hi) (H.sizeIn (i + 1) hi) t1 (show 0 < uW a (i + 1) by omega) t3 act
    ((p.up i).stage 0)
  have hst : upStages env (upArgs a act i) (p.up i) = .ok [S] := by
    rw [hA]
    unfold upStages
    dsimp only
    rw [show (List.range 1) = [0] from rfl]
    simp only [List.mapM_cons, List.mapM_nil, Nat.zero_add, if_true]
    rw [f1]
    rfl
  have hne : a.scale ≠ 1 → (uH a (i + 1), uW a (i + 1)) ≠ (uH a i, uW a i) := by
    intro hs e
    have e := congrArg Prod.fst e
    dsimp only at e
    have h2 : uH a (i + 1) = uH a i / a.scale := by simp only [uH, Nat.div_div_eq_div_mul, ← pow_succ]
    have := Nat.div_lt_self (show 0 < uH a i by omega) (show 1 < a.scale by have := H.scale; omega)
    omega
  obtain ⟨R, r1, r2, r3⟩ : ∃ R, upResize env (upArgs a act i) (p.up i) = .ok R ∧ ResizeFits R (uO a i) (uH a (i + 1)) (uW a (i + 1)) (uH a i) (uW a i) ∧
      ∀ z, HasShape z (uO a i) (uH a (i + 1)) (uW a (i + 1)) → ∃ y, R.forward z = .ok y ∧ HasShape y (uO a i) (uH a i) (uW a i) ∧
        if a.scale = 1 then
          Is y (uO a i) (uH a i) (uW a i)
            (convAt B (inner (i + 1)) (uRule outer inner i) (uW a (i + 1)) (uW a i) (uO a i) (cutoffOf a (uH a (i + 1))) (p.up i).resizeW z)
        else if a.upMode = "conv" then ∃ m : Ten3 ℝ,
          (Is m (uO a i) (uH a i) (uW a i) fun o t j => normAct act (p.up i).resizeNorm o
            (spreadAt B (inner (i + 1)) (uRule outer inner i) (uW a (i + 1)) (uW a i) (uO a i) (cutoffOf a (uH a (i + 1))) (p.up i).resizeW z o t j)) ∧
          Is y (uO a i) (uH a i) (uW a i)
            (convAt B (inner i) (uRule outer inner i) (uW a i) (uW a i) (uO a i) (cutoffOf a (uH a (i + 1))) (p.up i).resizeW2 m)
        else Resampled env ⟨uH a (i + 1), uW a (i + 1), uH a i, uW a i, a.gridInternal, if i = 0 then a.grid else a.gridInternal, a.upMode⟩ z y := by
    rw [hA]
    unfold upResize
    dsimp only
    by_cases hs : a.scale = 1
    · have eH : uH a (i + 1) = uH a i := by simp [uH, hs]
      have eW : uW a (i + 1) = uW a i := by simp [uW, hs]
      rw [if_neg (by rw [not_not, eH, eW])]
      have h3 : precomputeLatitudes env.gauss env.tol env.maxiter (uH a (i + 1)) (if i = 0 then a.grid else a.gridInternal) = .ok (uRule outer inner i) := by
        rw [eH]; exact q1
      obtain ⟨L, n1, n2, n3⟩ := conv_built (a := a) (D := uO a i) H.basis H.ker hO (H.latIn (i + 1) hi) (H.sizeIn (i + 1) hi) h3 (by omega) (by omega)
        (show 0 < uW a (i + 1) by omega) (dvd_refl _) t3 c2 (p.up i).resizeW
      refine ⟨.conv L, ?_, ?_, fun z hz => ?_⟩
      · rw [c1, except_bind_ok, n1]; rfl
      · have := ResizeFits.conv n2 (by omega) (dvd_refl _)
        rw [eH, eW] at this ⊢
        exact this
      · obtain ⟨y, y1, y2⟩ := n3 z hz
        have y3 : Is y (uO a i) (uH a i) (uW a i)
            (convAt B (inner (i + 1)) (uRule outer inner i) (uW a (i + 1)) (uW a i) (uO a i) (cutoffOf a (uH a (i + 1))) (p.up i).resizeW z) := by
          rw [eH, eW] at y2 ⊢
          exact y2
        exact ⟨y, y1, y3.1, by rw [if_pos hs]; exact y3⟩
    · rw [if_pos (hne hs)]
      have hu := H.up.resolve_left hs
      by_cases hm : a.upMode = "conv"
      · rw [if_pos hm] at hu ⊢
        obtain ⟨T, m1, m2, m3⟩ := trans_built (a := a) (D := uO a i) H.basis H.ker hO (H.latIn (i + 1) hi) (H.sizeIn (i + 1) hi) q1 (by omega)
          (show 0 < uW a (i + 1) by omega) (show 0 < uW a i by omega) (hu i hi) c2 (p.up i).resizeW
        obtain ⟨L, n1, n2, n3⟩ := conv_built (a := a) (D := uO a i) H.basis H.ker hO (H.latIn i hi.le) (H.sizeIn i hi.le) q1 (by omega) (by omega)
          (show 0 < uW a i by omega) (dvd_refl _) s3 c2 (p.up i).resizeW2
        refine ⟨.transpose T ((p.up i).resizeNorm.norm (uO a i)) act L, ?_, .transpose m2 rfl n2 (by omega) (by omega) (hu i hi), fun z hz => ?_⟩
        · rw [c1, except_bind_ok, m1, except_bind_ok, n1]; rfl
        · obtain ⟨m, y1, y2⟩ := m3 z hz
          obtain ⟨v, v1, v2⟩ := norm_act (q := (p.up i).resizeNorm) (f := act) y2
          obtain ⟨y, y3, y4⟩ := n3 _ v2.1
          refine ⟨y, ?_, y4.1, ?_⟩
          · simp only [Resize.forward]
            rw [y1, except_bind_ok, v1, except_bind_ok, y3]
          · rw [if_neg hs, if_pos hm]
            exact ⟨_, v2, y4⟩
      · rw [if_neg hm] at hu ⊢
        have hb : ResampleBuilt env.gauss env.tol env.maxiter ⟨uH a (i + 1), uW a (i + 1), uH a i, uW a i, a.gridInternal,
            if i = 0 then a.grid else a.gridInternal, a.upMode⟩ (inner (i + 1)) (uRule outer inner i) :=
          ⟨hu.1, H.latIn (i + 1) hi, q1, H.sizeIn (i + 1) hi, q2, by
            have := hu.2 (i + 1) hi
            rwa [uRule, if_neg (by omega)] at this, hu.2 i hi.le, t1, t2⟩
        obtain ⟨R, n1, n2⟩ := resample_built hb (by dsimp only; omega) (uO a i)
        refine ⟨.resample R, by rw [n1]; rfl, n2, fun z hz => ?_⟩
        obtain ⟨y, _, y1, _, y2, _⟩ := resize_roll n2 (s := 0) (s' := 0) (by simp) hz (rolled_refl z)
        exact ⟨y, y1, y2, by rw [if_neg hs, if_neg hm]; exact ⟨R, n1, y1⟩⟩
  refine ⟨⟨[S], R, UNet.skipInit (upArgs a act i) (p.up i)⟩, ?_, ⟨.cons f2 (.nil _), r2, ?_⟩, rfl, fun x hx => ?_⟩
  · unfold upInit
    rw [r1, except_bind_ok, hst]
    rfl
  · have := skip_fits (upArgs a act i) (p.up i)
    rw [hA] at this ⊢
    exact this
  · obtain ⟨h, h1, h2⟩ := f3 x hx
    obtain ⟨r, z, z1, z2, z3⟩ := residual_built (A := upArgs a act i) (q := p.up i) (H := uH a (i + 1)) (W := uW a (i + 1)) (x := x) (h := h)
      (by rw [hA]; exact hx) (by rw [hA]; exact h2.1)
    rw [hA] at z3
    dsimp only at z3
    obtain ⟨y, y1, y2, y3⟩ := r3 z z3.1
    refine ⟨y, ?_, h, z, h2, z3, y2, y3⟩
    unfold UNet.Block.forward
    dsimp only
    have hr : runStages [S] x = .ok h := by simp only [runStages]; rw [h1]; rfl
    rw [z1, except_bind_ok, hr, except_bind_ok, z2, except_bind_ok, y1]

/-! ### The network -/

/-- What the constructor builds. -/
theorem unet_init (H : UnetBuilt env a act B outer inner) (p : UNet.NetParams) :
    ∃ d u : ℕ → UNet.Block, UNet.Net.init env a p = .ok ⟨(List.range a.embedDims.length).map d, ((List.range a.embedDims.length).map u).reverse,
        ⟨uC a 1, a.outChans, p.headW, some p.headB⟩⟩ ∧
      ∀ i < a.embedDims.length, (BlockFits (d i) (uC a i) (uC a (i + 1)) (uH a i) (uW a i) (uH a (i + 1)) (uW a (i + 1)) ∧ (d i).stages.length = a.depths.getD i 0 ∧
          ∀ x, HasShape x (uC a i) (uH a i) (uW a i) → ∃ y, (d i).forward x = .ok y ∧ DownStep env a p act B outer inner i x y) ∧
        BlockFits (u i) (uIn a i) (uO a i) (uH a (i + 1)) (uW a (i + 1)) (uH a i) (uW a i) ∧ (u i).stages.length = 1 ∧
          ∀ x, HasShape x (uIn a i) (uH a (i + 1)) (uW a (i + 1)) → ∃ y, (u i).forward x = .ok y ∧ UpStep env a p act B outer inner i (uIn a i) x y := by
  have hd : ∀ i, ∃ D, i < a.embedDims.length → downInit env (downArgs a act i) (p.down i) = .ok D ∧
      BlockFits D (uC a i) (uC a (i + 1)) (uH a i) (uW a i) (uH a (i + 1)) (uW a (i + 1)) ∧
      D.stages.length = a.depths.getD i 0 ∧ ∀ x, HasShape x (uC a i) (uH a i) (uW a i) → ∃ y, D.forward x = .ok y ∧ DownStep env a p act B outer inner i x y := by
    intro i
    by_cases hi : i < a.embedDims.length
    · obtain ⟨D, h⟩ := down_built (p := p) H hi
      exact ⟨D, fun _ => h⟩
    · exact ⟨⟨[], .conv ⟨0, 0, 0, 0, 0, 0, 0, 0, fun _ _ _ => 0, none, []⟩, none⟩, fun h => absurd h hi⟩
  have hu : ∀ i, ∃ U, i < a.embedDims.length → upInit env (upArgs a act i) (p.up i) = .ok U ∧
      BlockFits U (uIn a i) (uO a i) (uH a (i + 1)) (uW a (i + 1)) (uH a i) (uW a i) ∧ U.stages.length = 1 ∧
      ∀ x, HasShape x (uIn a i) (uH a (i + 1)) (uW a (i + 1)) → ∃ y, U.forward x = .ok y ∧ UpStep env a p act B outer inner i (uIn a i) x y := by
    intro i
    by_cases hi : i < a.embedDims.length
    · obtain ⟨D, h⟩ := up_built (p := p) H hi
      exact ⟨D, fun _ => h⟩
    · exact ⟨⟨[], .conv ⟨0, 0, 0, 0, 0, 0, 0, 0, fun _ _ _ => 0, none, []⟩, none⟩, fun h => absurd h hi⟩
  choose d hd using hd
  choose u hu using hu
  refine ⟨d, u, ?_, fun i hi => ⟨⟨(hd i hi).2.1, (hd i hi).2.2.1, (hd i hi).2.2.2⟩, (hu i hi).2.1, (hu i hi).2.2.1, (hu i hi).2.2.2⟩⟩
  unfold UNet.Net.init
  dsimp only
  rw [if_neg (by rw [not_not]; exact H.depths), H.act, except_bind_ok, if_neg (fun h => H.scale h.2)]
  rw [mapM_ok _ d _ fun i hi => (hd i (List.mem_range.1 hi)).1, except_bind_ok,
    mapM_ok _ u _ fun i hi => (hu i (List.mem_range.1 (List.mem_reverse.1 hi))).1, except_bind_ok, List.map_reverse]
  cases he : a.embedDims with
  | nil => exact absurd he H.dims
  | cons e es => simp [uC, he]

/-- The forward pass is the U shape followed by the head. -/
theorem forward_eq (d u : ℕ → UNet.Block) (n : ℕ) (hn : n ≠ 0) (head : Conv1) (x : Ten3 ℝ) :
    UNet.Net.forward ⟨(List.range n).map d, ((List.range n).map u).reverse, head⟩ x
      = (uPass ((List.range' 0 n).map fun j => (d j, u j)) x >>= head.forward) := by
  rw [loops_eq _ (by simp [hn])]
  unfold UNet.Net.forward
  dsimp only
  simp only [List.map_map, Function.comp_def, ← List.range_eq_range']
  cases encodeFeatures ((List.range n).map d) x with
  | error e => rfl
  | ok fs => rfl

theorem unet_fits (H : UnetBuilt env a act B outer inner) {d u : ℕ → UNet.Block}
    (hd : ∀ i < a.embedDims.length, BlockFits (d i) (uC a i) (uC a (i + 1)) (uH a i) (uW a i) (uH a (i + 1)) (uW a (i + 1)))
    (hu : ∀ i < a.embedDims.length, BlockFits (u i) (uIn a i) (uO a i) (uH a (i + 1)) (uW a (i + 1)) (uH a i) (uW a i)) :
    UFits (uH a) (uW a) (uC a) (uO a) 0 ((List.range' 0 a.embedDims.length).map fun j => (d j, u j)) := by
  obtain ⟨n, hn⟩ : ∃ n, a.embedDims.length = n + 1 := Nat.exists_eq_succ_of_ne_zero (by simpa using H.dims)
  rw [hn] at hd hu ⊢
  refine uFits_range d u n 0 (fun j _ hj => hd j (by omega)) fun j _ hj => ?_
  have := hu j (by omega)
  unfold uIn at this
  rw [hn] at this
  by_cases e : j = 0 + n
  · rw [if_pos e]; rwa [if_pos (by omega)] at this
  · rw [if_neg e]; rw [if_neg (by omega)] at this
    rw [uO, if_neg (by omega)]
    exact this

theorem unet_roll (H : UnetBuilt env a act B outer inner) (p : UNet.NetParams) {s : ℕ} (hs : ∀ i ≤ a.embedDims.length, a.nlon ∣ s * uW a i) :
    ∃ N, UNet.Net.init env a p = .ok N ∧ ∀ {x x' : Ten3 ℝ}, HasShape x a.inChans a.nlat a.nlon → Rolled s x x' →
    ∃ y y', N.forward x = .ok y ∧ N.forward x' = .ok y' ∧ HasShape y a.outChans a.nlat a.nlon ∧ Rolled s y y' := by
  obtain ⟨d, u, hN, h⟩ := unet_init H p
  refine ⟨_, hN, fun {x x'} hx hr => ?_⟩
  have hlen : a.embedDims.length ≠ 0 := by simpa using H.dims
  have hpos : 0 < a.nlon := by
    have := (unet_sizes H (Nat.zero_le _)).2.1
    simp only [uW, pow_zero, Nat.div_one] at this
    omega
  have e0 : uH a 0 = a.nlat ∧ uW a 0 = a.nlon := by simp [uH, uW]
  obtain ⟨y, y', e, e', sy, ry⟩ := uPass_roll (s := fun i => s * uW a i / a.nlon) (n := a.embedDims.length)
    (fun i hi => by have := (unet_sizes H hi).2.1; omega)
    (fun i hi => by
      obtain ⟨c, hc⟩ := hs i (by omega)
      obtain ⟨c', hc'⟩ := hs (i + 1) (by omega)
      rw [hc, hc', Nat.mul_div_cancel_left _ hpos, Nat.mul_div_cancel_left _ hpos]
      refine Nat.eq_of_mul_eq_mul_left hpos ?_
      rw [← mul_assoc, ← hc, ← mul_assoc, ← hc']; ring)
    (unet_fits H (fun i hi => (h i hi).1.1) fun i hi => (h i hi).2.1) (by simp) (x := x) (x' := x') (by rw [e0.1, e0.2]; exact hx)
    (by
      rw [e0.2, Nat.mul_div_cancel _ hpos]
      exact hr)
  rw [e0.2, Nat.mul_div_cancel _ hpos] at ry
  rw [e0.1, e0.2] at sy
  obtain ⟨z, z', f, f', sz, rz⟩ := conv1_roll (F := ⟨uC a 1, a.outChans, p.headW, some p.headB⟩) (by rw [sy.1, uO, if_pos rfl, uC]) ry
  rw [sy.2.1, sy.2.2] at sz
  refine ⟨z, z', ?_, ?_, sz, rz⟩
  · rw [forward_eq d u _ hlen, e, except_bind_ok, f]
  · rw [forward_eq d u _ hlen, e', except_bind_ok, f']

/-- The U shape, step by step. -/
theorem uPass_trace {H W C O : ℕ → ℕ} (d u : ℕ → UNet.Block) (P Q : ℕ → Ten3 ℝ → Ten3 ℝ → Prop) : ∀ (m i : ℕ),
    (∀ j, i ≤ j → j ≤ i + m → ∀ x, HasShape x (C j) (H j) (W j) → ∃ y, (d j).forward x = .ok y ∧ P j x y ∧ HasShape y (C (j + 1)) (H (j + 1)) (W (j + 1))) →
    (∀ j, i ≤ j → j ≤ i + m → ∀ x, HasShape x (if j = i + m then C (j + 1) else C (j + 1) + O (j + 1)) (H (j + 1)) (W (j + 1)) →
      ∃ y, (u j).forward x = .ok y ∧ Q j x y ∧ HasShape y (O j) (H j) (W j)) → ∀ x, HasShape x (C i) (H i) (W i) →
    ∃ f g : ℕ → Ten3 ℝ, f i = x ∧ uPass ((List.range' i (m + 1)).map fun j => (d j, u j)) x = .ok (g i) ∧ HasShape (g i) (O i) (H i) (W i) ∧
      ∀ j, i ≤ j → j ≤ i + m → P j (f j) (f (j + 1)) ∧ if j = i + m then Q j (f (j + 1)) (g j)
        else ∃ c, Q j c (g j) ∧ Is c (C (j + 1) + O (j + 1)) (H (j + 1)) (W (j + 1))
          fun o t l => if o < C (j + 1) then (f (j + 1)).val o t l else (g (j + 1)).val (o - C (j + 1)) t l
  | 0, i, hd, hu, x, hx => by
    obtain ⟨y, y1, y2, y3⟩ := hd i le_rfl (by omega) x hx
    obtain ⟨z, z1, z2, z3⟩ := hu i le_rfl (by omega) y (by rw [if_pos (by omega)]; exact y3)
    refine ⟨fun j => if j = i then x else y, fun _ => z, if_pos rfl, ?_, z3, fun j h1 h2 => ?_⟩
    · simp only [List.range'_succ, List.range'_zero, List.map_cons, List.map_nil, uPass]
      rw [y1, except_bind_ok, z1]
    · obtain rfl : j = i := by omega
      dsimp only
      rw [if_pos rfl, if_neg (show ¬ j + 1 = j by omega), if_pos (show j = j + 0 by omega)]
      exact ⟨y2, z2⟩
  | m + 1, i, hd, hu, x, hx => by
    obtain ⟨y, y1, y2, y3⟩ := hd i le_rfl (by omega) x hx
    obtain ⟨f, g, h1, h2, h3, h4⟩ := uPass_trace d u P Q m (i + 1) (fun j e e' => hd j (by omega) (by omega)) (fun j e e' x hx => hu j (by omega) (by omega) x (by
      by_cases h : j = i + 1 + m
      · rw [if_pos h] at hx; rw [if_pos (by omega)]; exact hx
      · rw [if_neg h] at hx; rw [if_neg (by omega)]; exact hx)) y y3
    have hcat : cat y (g (i + 1)) = .ok ⟨y.d0 + (g (i + 1)).d0, y.d1, y.d2, fun c k j => if c < y.d0 then y.val c k j else (g (i + 1)).val (c - y.d0) k j⟩ := by
      unfold cat
      rw [if_pos ⟨y3.2.1.trans h3.2.1.symm, y3.2.2.trans h3.2.2.symm⟩]
    obtain ⟨z, z1, z2, z3⟩ := hu i le_rfl (by omega) ⟨y.d0 + (g (i + 1)).d0, y.d1, y.d2, fun c k j => if c < y.d0 then y.val c k j else (g (i + 1)).val (c - y.d0) k j⟩
      (by rw [if_neg (by omega)]; exact ⟨by dsimp only; rw [y3.1, h3.1], y3.2.1, y3.2.2⟩)
    refine ⟨fun j => if j = i then x else f j, fun j => if j = i then z else g j, if_pos rfl, ?_, by dsimp only; rw [if_pos rfl]; exact z3, fun j e e' => ?_⟩
    · dsimp only
      rw [List.range'_succ, List.map_cons, if_pos rfl]
      rw [List.range'_succ, List.map_cons] at h2 ⊢
      simp only [uPass]
      rw [y1, except_bind_ok, h2, except_bind_ok, hcat, except_bind_ok, z1]
    · dsimp only
      by_cases hj : j = i
      · subst hj
        rw [if_pos rfl, if_pos rfl, if_neg (by omega), if_neg (by omega), if_neg (by omega), h1]
        refine ⟨y2, _, z2, ⟨by dsimp only; rw [y3.1, h3.1], y3.2.1, y3.2.2⟩, fun o _ t _ l _ => ?_⟩
        dsimp only
        rw [y3.1]
      · obtain ⟨k1, k2⟩ := h4 j (by omega) (by omega)
        have hj' : ¬ j + 1 = i := by omega
        rw [if_neg hj, if_neg hj, if_neg hj', if_neg hj']
        refine ⟨k1, ?_⟩
        by_cases h : j = i + 1 + m
        · rw [if_pos h] at k2; rw [if_pos (by omega)]; exact k2
        · rw [if_neg h] at k2; rw [if_neg (by omega)]; exact k2

theorem mapM_inv {α β : Type} (f : α → Except PyErr β) : ∀ (l : List α) (r : List β), l.mapM f = .ok r →
    r.length = l.length ∧ ∀ k (h : k < l.length) (h' : k < r.length), f l[k] = .ok r[k]
  | [], r, h => by cases h; exact ⟨rfl, fun k h => absurd h (by simp)⟩
  | x :: l, r, h => by
    rw [List.mapM_cons] at h
    cases h1 : f x with
    | error e => rw [h1] at h; cases h
    | ok y =>
      rw [h1, except_bind_ok] at h
      cases h2 : l.mapM f with
      | error e => rw [h2] at h; cases h
      | ok t =>
        rw [h2, except_bind_ok] at h
        cases h
        obtain ⟨e1, e2⟩ := mapM_inv f l t h2
        refine ⟨by simp [e1], fun k hk hk' => ?_⟩
        cases k with
        | zero => exact h1
        | succ k => exact e2 k (by simpa using hk) (by simpa using hk')

/-- What a network that was built says about its arguments. -/
theorem unet_inv {N : UNet.Net} (h : UNet.Net.init env a p = .ok N) : ∃ act, a.depths.length = a.embedDims.length ∧ activation a.act = .ok act ∧
    a.embedDims.length ≠ 0 ∧ a.scale ≠ 0 ∧ N.head = ⟨uC a 1, a.outChans, p.headW, some p.headB⟩ ∧
    (List.range a.embedDims.length).mapM (fun i => downInit env (downArgs a act i) (p.down i)) = .ok N.downs ∧
    (List.range a.embedDims.length).reverse.mapM (fun i => upInit env (upArgs a act i) (p.up i)) = .ok N.ups := by
  unfold UNet.Net.init at h
  dsimp only at h
  by_cases h1 : a.depths.length = a.embedDims.length
  swap
  · rw [if_pos h1] at h; cases h
  rw [if_neg (by rw [not_not]; exact h1)] at h
  cases h2 : activation a.act with
  | error e => rw [h2] at h; cases h
  | ok act =>
    rw [h2, except_bind_ok] at h
    by_cases h3 : a.embedDims.length ≠ 0 ∧ a.scale = 0
    · rw [if_pos h3] at h; cases h
    rw [if_neg h3] at h
    cases h4 : (List.range a.embedDims.length).mapM (fun i => downInit env (downArgs a act i) (p.down i)) with
    | error e => rw [h4] at h; cases h
    | ok ds =>
      rw [h4, except_bind_ok] at h
      cases h5 : (List.range a.embedDims.length).reverse.mapM (fun i => upInit env (upArgs a act i) (p.up i)) with
      | error e => rw [h5] at h; cases h
      | ok us =>
        rw [h5, except_bind_ok] at h
        cases he : a.embedDims with
        | nil => rw [he] at h; cases h
        | cons e es =>
          rw [he] at h
          cases h
          refine ⟨act, by rw [← he]; exact h1, rfl, by simp, fun hc => h3 ⟨by rw [he]; simp, hc⟩, by simp [uC, he], ?_, ?_⟩
          · rw [← he]; exact h4
          · rw [← he]; exact h5

/-- The blocks of a network that was built. -/
theorem unet_blocks {N : UNet.Net} (h : UNet.Net.init env a p = .ok N) : ∃ act, activation a.act = .ok act ∧ N.downs.length = a.embedDims.length ∧
    N.ups.length = a.embedDims.length ∧ (∀ i (h : i < N.downs.length), downInit env (downArgs a act i) (p.down i) = .ok N.downs[i]) ∧
    ∀ i (h : i < N.ups.length), upInit env (upArgs a act (a.embedDims.length - 1 - i)) (p.up (a.embedDims.length - 1 - i)) = .ok N.ups[i] := by
  obtain ⟨act, _, h1, _, _, _, h2, h3⟩ := unet_inv h
  obtain ⟨d1, d2⟩ := mapM_inv _ _ _ h2
  obtain ⟨u1, u2⟩ := mapM_inv _ _ _ h3
  rw [List.length_range] at d1
  rw [List.length_reverse, List.length_range] at u1
  refine ⟨act, h1, d1, u1, fun i hi => ?_, fun i hi => ?_⟩
  · have := d2 i (by simpa using (d1 ▸ hi)) hi
    rwa [List.getElem_range] at this
  · have := u2 i (by simpa using (u1 ▸ hi)) hi
    rwa [List.getElem_reverse, List.getElem_range, List.length_range] at this

theorem stage_cutoff {C D H W : ℕ} {shape : List ℕ} {basis g : String} {f : ℝ → ℝ} {q : StageParams} {S : Stage}
    (h : Stage.init env C D H W shape basis g f q = .ok S) : 2 ≤ H := by
  unfold Stage.init at h
  cases h1 : LSNO.cutoffRadius H shape basis with
  | error e => rw [h1] at h; cases h
  | ok th =>
    rw [h1, except_bind_ok] at h
    cases h2 : LSNO.discoInit env ⟨C, D, H, W, H, W, shape, basis, g, g, th⟩ q.w none with
    | error e => rw [h2] at h; cases h
    | ok L =>
      obtain ⟨th', B, e1, e2⟩ : ∃ (th' : ℝ) (B : Basis), th' = th ∧ 0 < th := by
        unfold LSNO.discoInit at h2
        dsimp only at h2
        cases h3 : LSNO.getBasis shape basis with
        | error e => rw [h3] at h2; cases h2
        | ok B =>
          rw [h3, except_bind_ok] at h2
          cases h4 : channelSplit C D 1 with
          | error e => rw [h4] at h2; cases h2
          | ok s =>
            rw [h4, except_bind_ok] at h2
            split_ifs at h2 with h5
            cases h6 : convEntries env.gauss env.tol env.maxiter H W H W B g g "nodal" (some th) with
            | error e => rw [h6] at h2; cases h2
            | ok es =>
              obtain ⟨c, _, _, e1, e2, _⟩ := convEntries_ok h6
              exact ⟨th, B, rfl, by rw [e1] at e2; exact e2⟩
      unfold LSNO.cutoffRadius at h1
      cases shape with
      | nil => cases h1
      | cons k rest =>
        dsimp only at h1
        cases hf : LSNO.cutoffFactor basis with
        | none => rw [hf] at h1; cases h1
        | some c =>
          rw [hf] at h1
          dsimp only at h1
          split_ifs at h1 with h7
          have h1 := Except.ok.inj h1
          have hc : 0 < c := by
            unfold LSNO.cutoffFactor at hf
            split_ifs at hf <;> (rw [← Option.some.inj hf]; positivity)
          by_contra hH
          obtain rfl : H = 0 := by omega
          have : ((k : ℝ) + 1) * c * Real.pi / (((0 : ℕ) : ℝ) - 1) < 0 := by
            refine div_neg_of_pos_of_neg (mul_pos (mul_pos (by positivity) hc) Real.pi_pos) (by norm_num)
          linarith

end Build

section
variable {env : Env} {a : UNet.NetArgs} {act : ℝ → ℝ} {B : Basis} {outer : Rule} {inner : ℕ → Rule}

/-- C87. A network with admissible arguments is built, and maps every stack of `in_chans` fields on the outer grid to one of `out_chans` fields on the
outer grid, whatever the parameters are. -/
theorem C87_shape (H : UnetBuilt env a act B outer inner) (p : UNet.NetParams) :
    ∃ N, UNet.Net.init env a p = .ok N ∧ ∀ x, HasShape x a.inChans a.nlat a.nlon → ∃ y, N.forward x = .ok y ∧ HasShape y a.outChans a.nlat a.nlon := by
  obtain ⟨N, hN, h⟩ := unet_roll H p (s := 0) (fun i _ => by simp)
  refine ⟨N, hN, fun x hx => ?_⟩
  obtain ⟨y, _, hy, _, hs, _⟩ := h hx (rolled_refl x)
  exact ⟨y, hy, hs⟩

/-- C87. The network commutes with all shifts in longitude that the grids of all levels have. -/
theorem C87_longitude (H : UnetBuilt env a act B outer inner) (p : UNet.NetParams) (s : ℕ)
    (hs : ∀ i ≤ a.embedDims.length, a.nlon ∣ s * (a.nlon / a.scale ^ i)) :
    ∃ N, UNet.Net.init env a p = .ok N ∧ ∀ x x', HasShape x a.inChans a.nlat a.nlon → Rolled s x x' →
      ∃ y y', N.forward x = .ok y ∧ N.forward x' = .ok y' ∧ HasShape y a.outChans a.nlat a.nlon ∧ Rolled s y y' := by
  obtain ⟨N, hN, h⟩ := unet_roll H p (s := s) hs
  exact ⟨N, hN, fun x x' hx hr => h hx hr⟩

/-- In particular, if the product `scale_factor ** num_blocks` of the scale factors divides the number of longitudes, with all shifts by multiples of it. -/
theorem C87_longitude_scale (H : UnetBuilt env a act B outer inner) (p : UNet.NetParams) (hd : a.scale ^ a.embedDims.length ∣ a.nlon) (s : ℕ)
    (hs : a.scale ^ a.embedDims.length ∣ s) :
    ∃ N, UNet.Net.init env a p = .ok N ∧ ∀ x x', HasShape x a.inChans a.nlat a.nlon → Rolled s x x' →
      ∃ y y', N.forward x = .ok y ∧ N.forward x' = .ok y' ∧ HasShape y a.outChans a.nlat a.nlon ∧ Rolled s y y' := by
  refine C87_longitude H p s fun i hi => ?_
  obtain ⟨t, rfl⟩ := (pow_dvd_pow a.scale hi).trans hs
  exact ⟨t, by rw [mul_comm _ t, mul_assoc, Nat.mul_div_cancel' ((pow_dvd_pow a.scale hi).trans hd), mul_comm]⟩

/-- C87. What the network computes: the fields go down through blocks of convolutions with normalisation, activation and residual connection to coarser and
coarser grids, and up again, every block but the innermost getting the fields of its level from both directions (`NetStep`). -/
theorem C87_values (H : UnetBuilt env a act B outer inner) (p : UNet.NetParams) :
    ∃ N, UNet.Net.init env a p = .ok N ∧ ∀ x, HasShape x a.inChans a.nlat a.nlon → ∃ y, N.forward x = .ok y ∧ NetStep env a p act B outer inner x y := by
  obtain ⟨d, u, hN, h⟩ := unet_init H p
  refine ⟨_, hN, fun x hx => ?_⟩
  have hlen : a.embedDims.length ≠ 0 := by simpa using H.dims
  obtain ⟨n, hn⟩ : ∃ n, a.embedDims.length = n + 1 := Nat.exists_eq_succ_of_ne_zero hlen
  have e0 : uH a 0 = a.nlat ∧ uW a 0 = a.nlon := by simp [uH, uW]
  have hin : ∀ j ≤ n, uIn a j = if j = 0 + n then uC a (j + 1) else uC a (j + 1) + uO a (j + 1) := by
    intro j hj
    unfold uIn
    rw [hn]
    by_cases e : j = 0 + n
    · rw [if_pos e, if_pos (by omega)]
    · rw [if_neg e, if_neg (by omega), uO, if_neg (by omega)]
  obtain ⟨f, g, h1, h2, h3, h4⟩ := uPass_trace (H := uH a) (W := uW a) (C := uC a) (O := uO a) d u (DownStep env a p act B outer inner)
    (fun j => UpStep env a p act B outer inner j (uIn a j)) n 0
    (fun j _ hj x hx => by
      obtain ⟨y, y1, y2⟩ := (h j (by omega)).1.2.2 x hx
      have y2' := y2
      obtain ⟨_, _, _, _, _, y3, _⟩ := y2'
      exact ⟨y, y1, y2, y3⟩)
    (fun j _ hj x hx => by
      obtain ⟨y, y1, y2⟩ := (h j (by omega)).2.2.2 x (by rw [hin j (by omega)]; exact hx)
      have y2' := y2
      obtain ⟨_, _, _, _, y3, _⟩ := y2'
      exact ⟨y, y1, y2, y3⟩) x (by rw [e0.1, e0.2]; exact hx)
  rw [← hn] at h2
  have hO0 : uO a 0 = uC a 1 := by rw [uO, if_pos rfl, uC]
  refine ⟨⟨a.outChans, (g 0).d1, (g 0).d2, fun o k j => ∑ i ∈ range (uC a 1), p.headW o i * (g 0).val i k j + p.headB o⟩, ?_, f, g, h1, fun i hi => ?_, ?_⟩
  · rw [forward_eq d u _ hlen, h2, except_bind_ok]
    unfold Conv1.forward
    rw [if_neg (by rw [not_not, h3.1, hO0])]
  · obtain ⟨k1, k2⟩ := h4 i (by omega) (by omega)
    refine ⟨k1, ?_⟩
    by_cases e : i = 0 + n
    · rw [if_pos e] at k2
      rw [if_pos (by omega)]
      rw [hin i (by omega), if_pos e] at k2
      exact k2
    · rw [if_neg e] at k2
      rw [if_neg (by omega)]
      obtain ⟨c, c1, c2⟩ := k2
      rw [hin i (by omega), if_neg e] at c1
      have hO : uO a (i + 1) = uC a (i + 1) := by rw [uO, if_neg (by omega)]
      rw [hO] at c1 c2
      exact ⟨c, c1, c2⟩
  · rw [e0.1, e0.2] at h3
    exact ⟨⟨rfl, h3.2.1, h3.2.2⟩, fun _ _ _ _ _ _ => rfl⟩

/-- C87. The forward pass of any network that was built is the U shape, followed by the head: the innermost upsampling block gets the result of the innermost
downsampling block, the others get what came down, and after it what came up. The same holds for the error raised on inputs of a wrong shape. There are as many blocks
of either kind as there are embedding dimensions. -/
theorem C87_pipeline (p : UNet.NetParams) (N : UNet.Net) (h : UNet.Net.init env a p = .ok N) :
    N.downs.length = a.embedDims.length ∧ N.ups.length = a.embedDims.length ∧
      ∀ x, N.forward x = (uPass (N.downs.zip N.ups.reverse) x >>= N.head.forward) := by
  obtain ⟨act, _, h1, h2, _, _⟩ := unet_blocks h
  obtain ⟨_, _, _, h0, _⟩ := unet_inv h
  refine ⟨h1, h2, fun x => ?_⟩
  rw [loops_eq _ (by
    intro e
    have := congrArg List.length e
    rw [List.length_zip, List.length_reverse, h1, h2, min_self, List.length_nil] at this
    exact h0 this)]
  rw [List.map_fst_zip (by rw [List.length_reverse, h1, h2]), List.map_snd_zip (by rw [List.length_reverse, h1, h2]), List.reverse_reverse]
  unfold UNet.Net.forward
  cases encodeFeatures N.downs x with
  | error e => rfl
  | ok fs => rfl

/-- C87. Downsampling block `i` repeats its convolutions `depths[i]` times, every upsampling block has exactly one, whatever `depths` says. -/
theorem C87_repetitions (p : UNet.NetParams) (N : UNet.Net) (h : UNet.Net.init env a p = .ok N) :
    (∀ i (hi : i < N.downs.length), N.downs[i].stages.length = a.depths.getD i 0) ∧ ∀ U ∈ N.ups, U.stages.length = 1 := by
  obtain ⟨act, _, _, _, h1, h2⟩ := unet_blocks h
  refine ⟨fun i hi => ?_, fun U hU => ?_⟩
  · have := h1 i hi
    unfold downInit at this
    cases e : downStages env (downArgs a act i) (p.down i) with
    | error e' => rw [e] at this; cases this
    | ok st =>
      rw [e, except_bind_ok] at this
      cases e2 : downResize env (downArgs a act i) (p.down i) with
      | error e' => rw [e2] at this; cases this
      | ok R =>
        rw [e2, except_bind_ok] at this
        rw [← Except.ok.inj this]
        unfold downStages at e
        have := (mapM_inv _ _ _ e).1
        rw [List.length_range, downArgs, level_eq] at this
        exact this
  · obtain ⟨i, hi, rfl⟩ := List.getElem_of_mem hU
    have := h2 i hi
    unfold upInit at this
    cases e2 : upResize env (upArgs a act (a.embedDims.length - 1 - i)) (p.up (a.embedDims.length - 1 - i)) with
    | error e' => rw [e2] at this; cases this
    | ok R =>
      rw [e2, except_bind_ok] at this
      cases e : upStages env (upArgs a act (a.embedDims.length - 1 - i)) (p.up (a.embedDims.length - 1 - i)) with
      | error e' => rw [e] at this; cases this
      | ok st =>
        rw [e, except_bind_ok] at this
        rw [← Except.ok.inj this]
        unfold upStages at e
        have := (mapM_inv _ _ _ e).1
        rw [List.length_range, upArgs] at this
        exact this

/-! ### Networks that are not built -/

/-- C87. If fewer than two latitudes are left at the last level, no network is built. -/
theorem C87_too_deep (p : UNet.NetParams) (hd : a.nlat / a.scale ^ a.embedDims.length < 2) (N : UNet.Net) : UNet.Net.init env a p ≠ .ok N := by
  intro h
  obtain ⟨act, _, _, h2, _, h4⟩ := unet_blocks h
  obtain ⟨_, _, _, h0, _⟩ := unet_inv h
  have := h4 0 (by omega)
  rw [Nat.sub_zero] at this
  unfold upInit at this
  cases e2 : upResize env (upArgs a act (a.embedDims.length - 1)) (p.up (a.embedDims.length - 1)) with
  | error e' => rw [e2] at this; cases this
  | ok R =>
    rw [e2, except_bind_ok] at this
    cases e : upStages env (upArgs a act (a.embedDims.length - 1)) (p.up (a.embedDims.length - 1)) with
    | error e' => rw [e] at this; cases this
    | ok st =>
      unfold upStages at e
      obtain ⟨l1, l2⟩ := mapM_inv _ _ _ e
      rw [List.length_range] at l1
      have hl : (upArgs a act (a.embedDims.length - 1)).nrep = 1 := rfl
      have hS := stage_cutoff (l2 0 (by rw [List.length_range, hl]; omega) (by rw [l1, hl]; omega))
      rw [upArgs, level_eq] at hS
      dsimp only at hS
      rw [show a.embedDims.length - 1 + 1 = a.embedDims.length by omega] at hS
      unfold uH at hS
      omega

/-- A convolution that was built. -/
theorem conv_dvd {A : LSNO.DiscoArgs} {w : ℕ → ℕ → ℕ → ℝ} {b : Option (ℕ → ℝ)} {L : Disco.Layer ℝ} (h : LSNO.discoInit env A w b = .ok L) :
    A.nlonOut ∣ A.nlonIn := by
  unfold LSNO.discoInit at h
  cases h3 : LSNO.getBasis A.shape A.basis with
  | error e => rw [h3] at h; cases h
  | ok B =>
    rw [h3, except_bind_ok] at h
    cases h4 : channelSplit A.inC A.outC 1 with
    | error e => rw [h4] at h; cases h
    | ok s =>
      rw [h4, except_bind_ok] at h
      dsimp only at h
      split_ifs at h with h5
      cases h6 : convEntries env.gauss env.tol env.maxiter A.nlatIn A.nlonIn A.nlatOut A.nlonOut B A.gridIn A.gridOut "nodal" (some A.theta) with
      | error e => rw [h6] at h; cases h
      | ok es =>
        obtain ⟨_, _, _, _, _, _, hdvd, _⟩ := convEntries_ok h6
        exact hdvd

theorem trans_dvd {A : LSNO.DiscoArgs} {w : ℕ → ℕ → ℕ → ℝ} {b : Option (ℕ → ℝ)} {L : Disco.Layer ℝ} (h : transInit env A w b = .ok L) :
    A.nlonIn ∣ A.nlonOut := by
  unfold transInit at h
  cases h3 : LSNO.getBasis A.shape A.basis with
  | error e => rw [h3] at h; cases h
  | ok B =>
    rw [h3, except_bind_ok] at h
    cases h4 : channelSplit A.inC A.outC 1 with
    | error e => rw [h4] at h; cases h
    | ok s =>
      rw [h4, except_bind_ok] at h
      dsimp only at h
      split_ifs at h with h5
      cases h6 : transEntries env.gauss env.tol env.maxiter A.nlatIn A.nlonIn A.nlatOut A.nlonOut B A.gridIn A.gridOut "nodal" (some A.theta) with
      | error e => rw [h6] at h; cases h
      | ok es =>
        obtain ⟨_, _, _, _, _, _, hdvd, _⟩ := transEntries_ok h6
        exact hdvd

/-- C87. A network that changes grids by convolutions is only built if the number of longitudes of every level divides that of the level above, whichever of the two
modes is "conv" (the upsampling mode does not matter for scale factor 1); other modes are the bilinear ones of `ResampleS2`. -/
theorem C87_modes (p : UNet.NetParams) (N : UNet.Net) (h : UNet.Net.init env a p = .ok N) :
    (a.downMode = "conv" ∨ a.downMode = "bilinear" ∨ a.downMode = "bilinear-spherical") ∧
      (a.downMode = "conv" → ∀ i < a.embedDims.length, a.nlon / a.scale ^ (i + 1) ∣ a.nlon / a.scale ^ i) ∧
      (a.scale = 1 ∨ a.upMode = "conv" ∨ a.upMode = "bilinear" ∨ a.upMode = "bilinear-spherical") ∧
      (a.scale ≠ 1 → a.upMode = "conv" → ∀ i < a.embedDims.length, a.nlon / a.scale ^ (i + 1) ∣ a.nlon / a.scale ^ i) := by
  obtain ⟨act, _, h1, h2, h3, h4⟩ := unet_blocks h
  obtain ⟨_, _, _, h0, hs0, _⟩ := unet_inv h
  have hdeep : 2 ≤ uH a a.embedDims.length := by
    by_contra hc
    exact C87_too_deep p (by unfold uH at hc; omega) N h
  have hd : ∀ i < a.embedDims.length, (a.downMode = "conv" ∨ a.downMode = "bilinear" ∨ a.downMode = "bilinear-spherical") ∧
      (a.downMode = "conv" → uW a (i + 1) ∣ uW a i) := by
    intro i hi
    have := h3 i (by omega)
    unfold downInit at this
    cases e : downStages env (downArgs a act i) (p.down i) with
    | error e' => rw [e] at this; cases this
    | ok st =>
      rw [e, except_bind_ok] at this
      cases e2 : downResize env (downArgs a act i) (p.down i) with
      | error e' => rw [e2] at this; cases this
      | ok R =>
        clear this
        rw [downArgs, level_eq] at e2
        unfold downResize at e2
        dsimp only at e2
        by_cases hm : a.downMode = "conv"
        · rw [if_pos hm] at e2
          refine ⟨.inl hm, fun _ => ?_⟩
          cases e3 : LSNO.cutoffRadius (uH a (i + 1)) a.shape a.basis with
          | error e' => rw [e3] at e2; cases e2
          | ok th =>
            rw [e3, except_bind_ok] at e2
            cases e4 : LSNO.discoInit env ⟨uC a (i + 1), uC a (i + 1), uH a i, uW a i, uH a (i + 1), uW a (i + 1), a.shape, a.basis,
                if i = 0 then a.grid else a.gridInternal, a.gridInternal, th⟩ (p.down i).resizeW none with
            | error e' => rw [e4] at e2; cases e2
            | ok L => exact conv_dvd e4
        · rw [if_neg hm] at e2
          refine ⟨.inr ?_, fun hc => absurd hc hm⟩
          by_contra hc
          unfold Resample.init at e2
          rw [if_pos (by push Not at hc; exact hc)] at e2
          cases e2
  have hu : a.scale ≠ 1 → ∀ i < a.embedDims.length, (a.upMode = "conv" ∨ a.upMode = "bilinear" ∨ a.upMode = "bilinear-spherical") ∧
      (a.upMode = "conv" → uW a (i + 1) ∣ uW a i) := by
    intro hs i hi
    have := h4 (a.embedDims.length - 1 - i) (by omega)
    rw [show a.embedDims.length - 1 - (a.embedDims.length - 1 - i) = i by omega] at this
    unfold upInit at this
    cases e2 : upResize env (upArgs a act i) (p.up i) with
    | error e' => rw [e2] at this; cases this
    | ok R =>
      clear this
      rw [upArgs, level_eq] at e2
      unfold upResize at e2
      dsimp only at e2
      have hne : (uH a (i + 1), uW a (i + 1)) ≠ (uH a i, uW a i) := by
        intro e
        have e := congrArg Prod.fst e
        dsimp only at e
        have h2 : uH a (i + 1) = uH a i / a.scale := by simp only [uH, Nat.div_div_eq_div_mul, ← pow_succ]
        have h5 := uH_anti a hs0 (show i ≤ a.embedDims.length by omega)
        have := Nat.div_lt_self (show 0 < uH a i by omega) (show 1 < a.scale by omega)
        omega
      rw [if_pos hne] at e2
      by_cases hm : a.upMode = "conv"
      · rw [if_pos hm] at e2
        refine ⟨.inl hm, fun _ => ?_⟩
        cases e3 : LSNO.cutoffRadius (uH a (i + 1)) a.shape a.basis with
        | error e' => rw [e3] at e2; cases e2
        | ok th =>
          rw [e3, except_bind_ok] at e2
          generalize hA : (LSNO.DiscoArgs.mk _ _ (uH a (i + 1)) (uW a (i + 1)) (uH a i) (uW a i) a.shape a.basis _ _ th) = A at e2
          cases e4 : transInit env A (p.up i).resizeW none with
          | error e' => rw [e4] at e2; cases e2
          | ok L =>
            have := trans_dvd e4
            rw [← hA] at this
            exact this
      · rw [if_neg hm] at e2
        refine ⟨.inr ?_, fun hc => absurd hc hm⟩
        by_contra hc
        unfold Resample.init at e2
        rw [if_pos (by push Not at hc; exact hc)] at e2
        cases e2
  refine ⟨(hd 0 (by omega)).1, fun hc i hi => (hd i hi).2 hc, ?_, fun hs hc i hi => (hu hs i hi).2 hc⟩
  by_cases hs : a.scale = 1
  · exact .inl hs
  · exact .inr (hu hs 0 (by omega)).1

/-- C87. With scale factor 1 the upsampling mode is not looked at. -/
theorem C87_scale_one (p : UNet.NetParams) (hs : a.scale = 1) (m : String) : UNet.Net.init env { a with upMode := m } p = UNet.Net.init env a p := by
  have hl : ∀ i, level { a with upMode := m } i = level a i := by
    intro i
    rw [level_eq, level_eq]
    congr 1
  have hd : ∀ act i, downArgs { a with upMode := m } act i = downArgs a act i := by
    intro act i
    unfold downArgs
    rw [hl]
  have hu : ∀ act i q, upInit env (upArgs { a with upMode := m } act i) q = upInit env (upArgs a act i) q := by
    intro act i q
    have hr : upResize env (upArgs { a with upMode := m } act i) q = upResize env (upArgs a act i) q := by
      unfold upArgs
      rw [hl, level_eq]
      unfold upResize
      dsimp only
      have eH : uH a (i + 1) = uH a i := by simp [uH, hs]
      have eW : uW a (i + 1) = uW a i := by simp [uW, hs]
      have hne : ¬ (uH a (i + 1), uW a (i + 1)) ≠ (uH a i, uW a i) := by rw [not_not, eH, eW]
      rw [if_neg hne, if_neg hne]
    unfold upInit
    rw [hr]
    unfold upArgs upStages UNet.skipInit
    rw [hl]
  unfold UNet.Net.init
  simp only [hd, hu]

theorem mapM_first {β : Type} (f : ℕ → Except PyErr β) (n : ℕ) (hn : n ≠ 0) {e : PyErr} (h : f 0 = .error e) : (List.range n).mapM f = .error e := by
  obtain ⟨m, rfl⟩ := Nat.exists_eq_succ_of_ne_zero hn
  rw [List.range_succ_eq_map, List.mapM_cons, h]
  rfl

/-- C87. What the constructor raises: a list of depths of another length than that of the dimensions, an unknown activation, a scale factor 0, no dimensions at all,
an unknown filter basis (if the first block has convolutions). -/
theorem C87_errors (p : UNet.NetParams) :
    (a.depths.length ≠ a.embedDims.length → UNet.Net.init env a p = .error .valueError) ∧
    (a.act ≠ "relu" → a.act ≠ "gelu" → a.act ≠ "identity" → UNet.Net.init env a p = .error .valueError) ∧
    (a.depths.length = a.embedDims.length → (a.act = "relu" ∨ a.act = "gelu" ∨ a.act = "identity") →
      (a.embedDims = [] → UNet.Net.init env a p = .error .indexError) ∧
      (a.embedDims ≠ [] → a.scale = 0 → UNet.Net.init env a p = .error .zeroDivision) ∧
      (a.embedDims ≠ [] → a.scale ≠ 0 → a.shape ≠ [] → a.depths.getD 0 0 ≠ 0 → a.basis ≠ "piecewise linear" → a.basis ≠ "morlet" → a.basis ≠ "zernike" →
        UNet.Net.init env a p = .error .keyError)) := by
  refine ⟨fun h => ?_, fun h1 h2 h3 => ?_, fun h hact => ?_⟩
  · unfold UNet.Net.init
    exact if_pos h
  · unfold UNet.Net.init
    dsimp only
    by_cases h : a.depths.length ≠ a.embedDims.length
    · rw [if_pos h]
    · have : activation a.act = .error .valueError := by simp [activation, h1, h2, h3]
      rw [if_neg h, this]
      rfl
  · obtain ⟨f, hf⟩ : ∃ f, activation a.act = .ok f := by
      rcases hact with h | h | h <;> simp [activation, h]
    have h' : ¬ a.depths.length ≠ a.embedDims.length := by rw [not_not]; exact h
    refine ⟨fun h1 => ?_, fun h1 h2 => ?_, fun h1 h2 h3 h4 h5 h6 h7 => ?_⟩
    · unfold UNet.Net.init
      dsimp only
      rw [if_neg h', hf, except_bind_ok, h1]
      rfl
    · unfold UNet.Net.init
      dsimp only
      rw [if_neg h', hf, except_bind_ok, if_pos ⟨by simpa using h1, h2⟩]
    · unfold UNet.Net.init
      dsimp only
      rw [if_neg h', hf, except_bind_ok, if_neg (fun h => h2 h.2)]
      have hdown : downInit env (downArgs a f 0) (p.down 0) = .error .keyError := by
        unfold downInit
        have : downStages env (downArgs a f 0) (p.down 0) = .error .keyError := by
          rw [downArgs, level_eq]
          unfold downStages
          dsimp only
          refine mapM_first _ _ h4 ?_
          unfold Stage.init LSNO.cutoffRadius
          cases hs : a.shape with
          | nil => exact absurd hs h3
          | cons k rest =>
            have : LSNO.cutoffFactor a.basis = none := by simp [LSNO.cutoffFactor, h5, h6, h7]
            dsimp only
            rw [this]
            rfl
        rw [this]
        rfl
      rw [mapM_first _ _ (by simpa using h1) hdown]
      rfl

/-! ### The grid of the first block -/

/-- C87. The convolutions with which the network starts act on fields on the outer grid, but they are built for the internal grid: the name of the outer grid does
not enter them at all. -/
theorem C87_wrong_grid (p : UNet.NetParams) (g : String) (N N' : UNet.Net) (h : UNet.Net.init env a p = .ok N)
    (h' : UNet.Net.init env { a with grid := g } p = .ok N') : ∃ (hN : 0 < N.downs.length) (hN' : 0 < N'.downs.length), N'.downs[0].stages = N.downs[0].stages := by
  obtain ⟨act, e1, l1, _, d1, _⟩ := unet_blocks h
  obtain ⟨act', e2, l2, _, d2, _⟩ := unet_blocks h'
  obtain ⟨_, _, _, h0, _⟩ := unet_inv h
  have : act' = act := Except.ok.inj (e2.symm.trans e1)
  subst this
  have hl : 0 < N.downs.length := by omega
  have hl' : 0 < N'.downs.length := by rw [l2]; exact Nat.pos_of_ne_zero h0
  refine ⟨hl, hl', ?_⟩
  have key : ∀ (A : UNet.BlockArgs) (q : UNet.BlockParams) D, downInit env A q = .ok D → downStages env A q = .ok D.stages := by
    intro A q D hD
    unfold downInit at hD
    cases e : downStages env A q with
    | error e' => rw [e] at hD; cases hD
    | ok st =>
      rw [e, except_bind_ok] at hD
      cases e2 : downResize env A q with
      | error e' => rw [e2] at hD; cases hD
      | ok R => rw [e2, except_bind_ok] at hD; rw [← Except.ok.inj hD]
  have k1 := key _ _ _ (d1 0 hl)
  have k2 := key _ _ _ (d2 0 hl')
  exact Except.ok.inj (k2.symm.trans k1)

/-- C87. With the default grids these convolutions are misplaced: the first row of an equiangular field is at the pole, the first colatitude in the sums `convAt` that
`C87_values` gives for the first block is that of a Gauss grid, which is not. -/
theorem C87_wrong_grid_default (H : UnetBuilt env a act B outer inner) (hg : a.grid = "equiangular") (hi : a.gridInternal = "legendre-gauss")
    (hgauss : IsGaussRule (env.gauss a.nlat) a.nlat) : outer.x 0 = 0 ∧ 0 < (inner 0).x 0 := by
  have h2 := (unet_sizes H (Nat.zero_le _)).1
  have h0 : uH a 0 = a.nlat := by simp [uH]
  rw [h0] at h2
  obtain ⟨r, r1, _, r3⟩ := C05_equiangular_latitudes env.gauss env.tol env.maxiter a.nlat h2
  obtain ⟨r', r1', _, r3', _⟩ := C05_gauss_latitudes env.gauss env.tol env.maxiter a.nlat (by omega) hgauss
  have e : outer = r := Except.ok.inj ((hg ▸ H.latOut).symm.trans r1)
  have e' : inner 0 = r' := by
    have := H.latIn 0 (Nat.zero_le _)
    rw [h0, hi] at this
    exact Except.ok.inj (this.symm.trans r1')
  rw [e, e', (r3 0 (by omega)).1]
  exact ⟨by simp, (r3' 0 (by omega)).1⟩

/-! ### The hypotheses can be met -/

/-- Networks on equiangular and Gauss grids are built as soon as the sizes and the filters fit. -/
theorem C87_built (env : Env) (a : UNet.NetArgs) (hgauss : ∀ n, 1 ≤ n → IsGaussRule (env.gauss n) n)
    (hg : a.grid = "equiangular" ∨ a.grid = "legendre-gauss") (hg' : a.gridInternal = "equiangular" ∨ a.gridInternal = "legendre-gauss")
    (hlen : a.depths.length = a.embedDims.length) (hdims : a.embedDims ≠ []) (hdim : ∀ e ∈ a.embedDims, e ≠ 0) (hdep : ∀ e ∈ a.depths, e ≠ 0)
    (hin : a.inChans ≠ 0) (hact : a.act = "relu" ∨ a.act = "gelu" ∨ a.act = "identity") (hs : a.scale ≠ 0)
    (hlat : 2 ≤ a.nlat / a.scale ^ a.embedDims.length) (hlon : 2 ≤ a.nlon / a.scale ^ a.embedDims.length) (hle : a.nlat ≤ a.nlon)
    (hdown : a.downMode = "conv" ∨ a.downMode = "bilinear" ∨ a.downMode = "bilinear-spherical")
    (hup : a.upMode = "conv" ∨ a.upMode = "bilinear" ∨ a.upMode = "bilinear-spherical")
    (hconv : a.downMode = "conv" ∨ a.upMode = "conv" → a.scale ^ a.embedDims.length ∣ a.nlon)
    (B : Basis) (hB : LSNO.getBasis a.shape a.basis = .ok B) (hK : 0 < B.kernelSize) :
    ∃ act outer inner, UnetBuilt env a act B outer inner := by
  have named : ∀ n grid, 2 ≤ n → (grid = "equiangular" ∨ grid = "legendre-gauss") →
      ∃ r, precomputeLatitudes env.gauss env.tol env.maxiter n grid = .ok r ∧ r.n = n ∧ LatGrid n r.x := by
    intro n grid h2 h
    refine latGrid_named _ _ _ _ _ ?_
    rcases h with h | h
    · exact .inl ⟨h2, .inl h⟩
    · exact .inr ⟨by omega, h, hgauss n (by omega)⟩
  have hH : ∀ i ≤ a.embedDims.length, 2 ≤ uH a i := fun i hi => le_trans hlat (uH_anti a hs hi)
  have h0 : uH a 0 = a.nlat := by simp [uH]
  obtain ⟨outer, o1, o2, o3⟩ := named a.nlat a.grid (h0 ▸ hH 0 (Nat.zero_le _)) hg
  have : ∀ i, ∃ r : Rule, i ≤ a.embedDims.length → precomputeLatitudes env.gauss env.tol env.maxiter (uH a i) a.gridInternal = .ok r ∧ r.n = uH a i ∧
      LatGrid (uH a i) r.x := by
    intro i
    by_cases hi : i ≤ a.embedDims.length
    · obtain ⟨r, h⟩ := named (uH a i) a.gridInternal (hH i hi) hg'
      exact ⟨r, fun _ => h⟩
    · exact ⟨outer, fun h => absurd h hi⟩
  choose inner hinner using this
  obtain ⟨act, h3⟩ : ∃ act, activation a.act = .ok act := by
    rcases hact with h | h | h <;> simp [activation, h]
  have hrule : ∀ i ≤ a.embedDims.length, LatGrid (uH a i) (uRule outer inner i).x := by
    intro i hi
    unfold uRule
    split_ifs with e
    · subst e; rw [h0]; exact o3
    · exact (hinner i hi).2.2
  have hdvd : a.scale ^ a.embedDims.length ∣ a.nlon → ∀ i < a.embedDims.length, uW a (i + 1) ∣ uW a i := by
    intro hd i hi
    have hd' : a.scale ^ (i + 1) ∣ a.nlon := (pow_dvd_pow a.scale hi).trans hd
    obtain ⟨t, ht⟩ := hd'
    refine ⟨a.scale, ?_⟩
    unfold uW
    rw [ht, Nat.mul_div_cancel_left _ (Nat.pos_of_ne_zero (pow_ne_zero _ hs)), pow_succ, mul_assoc,
      Nat.mul_div_cancel_left _ (Nat.pos_of_ne_zero (pow_ne_zero _ hs)), mul_comm]
  refine ⟨act, outer, inner, hlen, hdims, h3, hs, o1, o2, fun i hi => (hinner i hi).1, fun i hi => (hinner i hi).2.1, hB, hK, fun i hi => ?_, fun i hi => ?_, hlat, hlon,
    hle, ?_, .inr ?_⟩
  · cases i with
    | zero => exact hin
    | succ i =>
      have hi' : i < a.embedDims.length := hi
      rw [uC, List.getD_eq_getElem _ _ hi']
      exact hdim _ (List.getElem_mem _)
  · rw [← hlen] at hi
    rw [List.getD_eq_getElem _ _ hi]
    exact hdep _ (List.getElem_mem _)
  · split_ifs with hm
    · exact hdvd (hconv (.inl hm))
    · exact ⟨hdown.resolve_left hm, hrule⟩
  · split_ifs with hm
    · exact hdvd (hconv (.inr hm))
    · exact ⟨hup.resolve_left hm, hrule⟩

/-- The default arguments, s2unet.py 459-478. -/
def unetDefault (scale : ℕ) (dims : List ℕ) (down up : String) : UNet.NetArgs :=
  ⟨128, 256, "equiangular", "legendre-gauss", 3, 3, dims, [2, 2, 2, 2], scale, "relu", [3, 3], "morlet", false, down, up⟩

/-- C87. With the default arguments the network is built, and so it is if the grids are changed by convolutions; it commutes with shifts by multiples of 16 columns. -/
theorem C87_default (env : Env) (p : UNet.NetParams) (hgauss : ∀ n, 1 ≤ n → IsGaussRule (env.gauss n) n) (down up : String)
    (hdown : down = "conv" ∨ down = "bilinear" ∨ down = "bilinear-spherical") (hup : up = "conv" ∨ up = "bilinear" ∨ up = "bilinear-spherical") :
    (∃ act B outer inner, UnetBuilt env (unetDefault 2 [64, 128, 256, 512] down up) act B outer inner) ∧
    ∃ N, UNet.Net.init env (unetDefault 2 [64, 128, 256, 512] down up) p = .ok N ∧ ∀ q x x', HasShape x 3 128 256 → Rolled (16 * q) x x' →
      ∃ y y', N.forward x = .ok y ∧ N.forward x' = .ok y' ∧ HasShape y 3 128 256 ∧ Rolled (16 * q) y y' := by
  have hB : LSNO.getBasis [3, 3] "morlet" = .ok ⟨9, (List.replicate 9 false).set 0 true, harmonicVal 3 none 1⟩ := by
    simp [LSNO.getBasis, harmonicMask, harmonicKernelSize, Except.map]
  obtain ⟨act, outer, inner, H⟩ := C87_built env (unetDefault 2 [64, 128, 256, 512] down up) hgauss (.inl rfl) (.inr rfl) rfl (by simp [unetDefault])
    (by simp [unetDefault]) (by simp [unetDefault]) (by simp [unetDefault]) (.inl rfl) (by simp [unetDefault]) (by norm_num [unetDefault])
    (by norm_num [unetDefault]) (by norm_num [unetDefault]) hdown hup (fun _ => by norm_num [unetDefault]) _ hB (by decide)
  refine ⟨⟨act, _, outer, inner, H⟩, ?_⟩
  obtain ⟨N, hN, _⟩ := C87_shape H p
  refine ⟨N, hN, fun q x x' hx hr => ?_⟩
  obtain ⟨N', hN', h⟩ := C87_longitude_scale H p (by norm_num [unetDefault]) (16 * q) (by norm_num [unetDefault])
  rw [hN] at hN'
  cases hN'
  exact h x x' hx hr

/-- C87. The network of the docstring (s2unet.py 446-454; without `use_mlp`, which is no argument) is not built: with scale factor 4 the four levels leave
128, 32, 8, 2 and no latitudes. -/
theorem C87_docstring (env : Env) (p : UNet.NetParams) (N : UNet.Net) :
    UNet.Net.init env { unetDefault 4 [16, 32, 64, 128] "bilinear" "bilinear" with inChans := 2, outChans := 2 } p ≠ .ok N :=
  C87_too_deep p (by norm_num [unetDefault]) N

/-- The sizes of the levels of the default network. -/
example : (List.range 5).map (uH (unetDefault 2 [64, 128, 256, 512] "conv" "conv")) = [128, 64, 32, 16, 8] ∧
    (List.range 5).map (uC (unetDefault 2 [64, 128, 256, 512] "conv" "conv")) = [3, 64, 128, 256, 512] := by decide

end
end Verif.Props
