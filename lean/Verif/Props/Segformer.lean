import Verif.Lemmas.Segformer
import Verif.Props.UNet
import Verif.Props.Transformer
/-!
C88: the spherical Segformer.
-/
namespace Verif.Props
open Verif Verif.Dist Verif.FFT Verif.Quad Verif.SHT Verif.Spec Verif.SFNO Verif.Filter Verif.Disco Verif.Attn Verif.UNet Verif.Seg Finset

/-- The hypotheses under which the network is built: as many heads and depths as dimensions, a known activation, grids with colatitudes `outer` and `inner`, a filter
basis `B`, numbers of heads that divide the dimensions, two latitudes and longitudes at the last level, numbers of longitudes that divide one another, a known
upsampling method. `le` is demanded by the reference kernels of the convolutions. -/
structure SegBuilt (env : Env) (a : Seg.NetArgs) (act : ℝ → ℝ) (B : Basis) (outer : Rule) (inner : ℕ → Rule) : Prop where
  heads : a.heads.length = a.embedDims.length
  depths : a.depths.length = a.embedDims.length
  dims : a.embedDims ≠ []
  act : activation a.act = .ok act
  scale : a.scale ≠ 0
  latOut : precomputeLatitudes env.gauss env.tol env.maxiter a.nlat a.grid = .ok outer
  sizeOut : outer.n = a.nlat
  latIn : ∀ i < a.embedDims.length, precomputeLatitudes env.gauss env.tol env.maxiter (sH a (i + 1)) a.gridInternal = .ok (inner (i + 1))
  sizeIn : ∀ i < a.embedDims.length, (inner (i + 1)).n = sH a (i + 1)
  basis : LSNO.getBasis a.shape a.basis = .ok B
  ker : 0 < B.kernelSize
  chans : ∀ i ≤ a.embedDims.length, sC a i ≠ 0
  heads0 : ∀ i < a.embedDims.length, a.heads.getD i 0 ≠ 0 ∧ a.heads.getD i 0 ∣ sC a (i + 1)
  theta : a.mode = "neighborhood" → ∀ t, a.theta = some t → 0 < t
  wpos : a.mode ≠ "neighborhood" → ∀ i < a.embedDims.length, ∀ t < sH a (i + 1), 0 < (inner (i + 1)).w t
  twoLat : 2 ≤ sH a a.embedDims.length
  twoLon : 2 ≤ sW a a.embedDims.length
  le : a.nlat ≤ a.nlon
  dvd : ∀ i < a.embedDims.length, sW a (i + 1) ∣ sW a i
  up : a.upMethod = "conv" ∨ a.upMethod = "bilinear" ∧ LatGrid a.nlat outer.x ∧ ∀ i < a.embedDims.length, LatGrid (sH a (i + 1)) (inner (i + 1)).x

/-- The arguments that the Segformer shares with the U-Net. -/
def toU (a : Seg.NetArgs) : UNet.NetArgs :=
  ⟨a.nlat, a.nlon, a.grid, a.gridInternal, a.inChans, a.outChans, a.embedDims, a.depths, a.scale, a.act, a.shape, a.basis, false, "", ""⟩

section Build
variable {env : Env} {a : Seg.NetArgs} {p : Seg.NetParams} {act : ℝ → ℝ} {B : Basis} {outer : Rule} {inner : ℕ → Rule}

theorem seg_level (a : Seg.NetArgs) (i : ℕ) : Seg.level a i = ⟨sH a i, sW a i, sH a (i + 1), sW a (i + 1), sC a i, sC a (i + 1), sGrid a i⟩ := by
  induction i with
  | zero => simp [Seg.level, sH, sW, sC, sGrid]
  | succ i ih =>
    simp only [Seg.level, ih]
    simp only [sH, sW, sC, sGrid, Nat.div_div_eq_div_mul, ← pow_succ]
    rw [if_neg (by omega)]

theorem seg_sizes (H : SegBuilt env a act B outer inner) {i : ℕ} (hi : i ≤ a.embedDims.length) : 2 ≤ sH a i ∧ 2 ≤ sW a i ∧ sH a i ≤ sW a i :=
  ⟨H.twoLat.trans (uH_anti (toU a) H.scale hi), H.twoLon.trans (uW_anti (toU a) H.scale hi), Nat.div_le_div_right H.le⟩

theorem seg_rule (H : SegBuilt env a act B outer inner) {i : ℕ} (hi : i ≤ a.embedDims.length) :
    precomputeLatitudes env.gauss env.tol env.maxiter (sH a i) (sGrid a i) = .ok (uRule outer inner i) ∧ (uRule outer inner i).n = sH a i := by
  unfold uRule sGrid
  cases i with
  | zero =>
    simp only [if_true, sH, pow_zero, Nat.div_one]
    exact ⟨H.latOut, H.sizeOut⟩
  | succ i =>
    rw [if_neg (by omega), if_neg (by omega)]
    exact ⟨H.latIn i hi, H.sizeIn i hi⟩

/-- One repetition of a block. -/
theorem rep_built (H : SegBuilt env a act B outer inner) {i : ℕ} (hi : i < a.embedDims.length) (q : RepParams) :
    ∃ R, Rep.init env (Seg.blockArgs a act i) q = .ok R ∧ ∀ s,
      (∀ run run' : Option CpuRun,
        (∀ k, run = some k → CoversBlocks ⟨a.heads.getD i 0, sC a (i + 1) / a.heads.getD i 0, sC a (i + 1) / a.heads.getD i 0, sH a (i + 1), sW a (i + 1),
          sH a (i + 1), sW a (i + 1)⟩ k.order) →
        (∀ k, run' = some k → CoversBlocks ⟨a.heads.getD i 0, sC a (i + 1) / a.heads.getD i 0, sC a (i + 1) / a.heads.getD i 0, sH a (i + 1), sW a (i + 1),
          sH a (i + 1), sW a (i + 1)⟩ k.order) →
        Acts (R.att.forward run) (R.att.forward run') (sC a (i + 1)) (sH a (i + 1)) (sW a (i + 1)) s (sC a (i + 1)) (sH a (i + 1)) (sW a (i + 1)) s
          (AttStep a.bias (inner (i + 1)) (sReach a inner (i + 1)) (sC a (i + 1)) (a.heads.getD i 0) (sH a (i + 1)) (sW a (i + 1)) q.att)) ∧
      Acts R.ffn.forward R.ffn.forward (sC a (i + 1)) (sH a (i + 1)) (sW a (i + 1)) s (sC a (i + 1)) (sH a (i + 1)) (sW a (i + 1)) s
        (FfnStep B (inner (i + 1)) (sC a (i + 1)) (sH a (i + 1)) (sW a (i + 1)) (sCut a (sH a (i + 1))) act q.ffn) := by
  obtain ⟨t1, t2, t3⟩ := seg_sizes H (show i + 1 ≤ _ from hi)
  have hch := H.chans (i + 1) hi
  have hW : 0 < sW a (i + 1) := by omega
  obtain ⟨c1, c2⟩ := cutoff_eq (a := toU a) H.basis t1
  -- attention
  obtain ⟨T, g1, g2⟩ := S2T.attn_ready (env := env) (r := inner (i + 1))
    (a := attnArgs (sC a (i + 1)) (sH a (i + 1)) (sW a (i + 1)) a.gridInternal (a.heads.getD i 0) a.mode a.theta a.bias)
    ⟨rfl, rfl, rfl, t1, hW, H.latIn i hi, H.sizeIn i hi, hch, hch, (H.heads0 i hi).1, (H.heads0 i hi).2, (H.heads0 i hi).2, H.theta, fun hm => H.wpos hm i hi⟩ q.att.attn
  -- feed-forward
  obtain ⟨L, n1, n2⟩ := depth_acts (C := sC a (i + 1)) (W := sW a (i + 1)) H.basis H.ker hch (H.latIn i hi) (H.sizeIn i hi) (by omega) hW t3 c2 q.ffn.w
  refine ⟨⟨⟨some ⟨sC a (i + 1), q.att.g, q.att.b⟩, T⟩, ⟨⟨sC a (i + 1), q.ffn.g, q.ffn.b⟩, .conv ⟨sC a (i + 1), sC a (i + 1), q.ffn.inn.w, some q.ffn.inn.b⟩, L,
    .conv ⟨sC a (i + 1), sC a (i + 1), q.ffn.out.w, some q.ffn.out.b⟩, act⟩⟩, ?_, fun s => ⟨fun run run' hrun hrun' => ?_, ?_⟩⟩
  · unfold Rep.init Wrapper.init MixFFN.init Seg.blockArgs
    rw [seg_level]
    dsimp only
    rw [g1, show LSNO.cutoffRadius (sH a (i + 1)) a.shape a.basis = .ok (cutoffOf (toU a) (sH a (i + 1))) from c1]
    simp only [except_bind_ok, pure_bind, Lin.init, Bool.false_eq_true, if_false, if_true]
    rw [show cutoffOf (toU a) (sH a (i + 1)) = cutoffOf (toU a) (sH a (i + 1)) from rfl, n1]
    rfl
  · have h1 := attn_acts (C := sC a (i + 1)) (heads := a.heads.getD i 0) (H := sH a (i + 1)) (s := s) hW g2 hrun hrun'
    refine Acts.of_eq (Acts.mono ((norm_acts (sC a (i + 1)) (sH a (i + 1)) (sW a (i + 1)) s q.att.g q.att.b).comp h1).residual ?_)
      (fun x => (bind_assoc _ _ _).symm) (fun x => (bind_assoc _ _ _).symm)
    rintro x y hx ⟨z, sz, ⟨n, hn, hz⟩, hy⟩
    refine ⟨n, hn, hy.1, fun o ho t ht j hj => ?_⟩
    rw [hy.2 o ho t ht j hj]
    dsimp only
    rw [hz.2 o ho t ht j hj]
    rfl
  · refine Acts.of_eq (Acts.mono (((((norm_acts (sC a (i + 1)) (sH a (i + 1)) (sW a (i + 1)) s q.ffn.g q.ffn.b).comp
      (conv1_acts (sC a (i + 1)) (sC a (i + 1)) (sH a (i + 1)) (sW a (i + 1)) s q.ffn.inn)).comp (n2 s)).comp
      (pointwise_acts act (sC a (i + 1)) (sH a (i + 1)) (sW a (i + 1)) s)).comp
      (conv1_acts (sC a (i + 1)) (sC a (i + 1)) (sH a (i + 1)) (sW a (i + 1)) s q.ffn.out)).residual ?_)
      (fun x => by simp only [MixFFN.forward, bind_assoc, except_bind_ok]) (fun x => by simp only [MixFFN.forward, bind_assoc, except_bind_ok])
    rintro x y hx ⟨z, sz, ⟨v, ⟨d, ⟨u, ⟨n, hn, hu⟩, hd⟩, hv⟩, hz⟩, hy⟩
    refine ⟨n, u, v, hn, hu, ⟨hv.1, fun o ho t ht j hj => ?_⟩, hy.1, fun o ho t ht j hj => ?_⟩
    · rw [hv.2 o ho t ht j hj]
      dsimp only
      rw [hd.2 o ho t ht j hj]
      rfl
    · rw [hy.2 o ho t ht j hj]
      dsimp only
      rw [hz.2 o ho t ht j hj]

theorem block_built (H : SegBuilt env a act B outer inner) (p : Seg.NetParams) {i : ℕ} (hi : i < a.embedDims.length) :
    ∃ D, Seg.Block.init env (Seg.blockArgs a act i) (p.block i) = .ok D ∧ ∀ run run' s s', s * sW a (i + 1) = s' * sW a i →
      (∀ q k, run q = some k → CoversBlocks ⟨a.heads.getD i 0, sC a (i + 1) / a.heads.getD i 0, sC a (i + 1) / a.heads.getD i 0, sH a (i + 1), sW a (i + 1),
          sH a (i + 1), sW a (i + 1)⟩ k.order) →
      (∀ q k, run' q = some k → CoversBlocks ⟨a.heads.getD i 0, sC a (i + 1) / a.heads.getD i 0, sC a (i + 1) / a.heads.getD i 0, sH a (i + 1), sW a (i + 1),
          sH a (i + 1), sW a (i + 1)⟩ k.order) →
      Acts (D.forward run) (D.forward run') (sC a i) (sH a i) (sW a i) s (sC a (i + 1)) (sH a (i + 1)) (sW a (i + 1)) s' (BlockStep a p act B outer inner i) := by
  obtain ⟨s1, s2, s3⟩ := seg_sizes H hi.le
  obtain ⟨t1, t2, t3⟩ := seg_sizes H (show i + 1 ≤ _ from hi)
  have hle : sH a (i + 1) ≤ sH a i := uH_anti (toU a) H.scale (Nat.le_succ i)
  obtain ⟨q1, q2⟩ := seg_rule H hi.le
  obtain ⟨c1, c2⟩ := cutoff_eq (a := toU a) H.basis t1
  obtain ⟨L, n1, n2, n3⟩ := conv_built (a := toU a) (env := env) (D := sC a (i + 1)) (g := sGrid a i) (g' := a.gridInternal) H.basis H.ker (H.chans i hi.le) q1 q2
    (H.latIn i hi) (by omega) (show 0 < sW a i by omega) (show 0 < sW a (i + 1) by omega) (H.dvd i hi) (by omega) c2 (p.block i).merge.w
  choose R r1 r2 using fun q => rep_built H hi ((p.block i).rep q)
  refine ⟨⟨⟨L, ⟨sC a (i + 1), (p.block i).merge.g, (p.block i).merge.b⟩⟩, (List.range (a.depths.getD i 0)).map R, ⟨sC a (i + 1), (p.block i).g, (p.block i).b⟩⟩, ?_, ?_⟩
  · unfold Seg.Block.init Merge.init
    have hreps : (List.range (a.depths.getD i 0)).mapM (fun q => Rep.init env (Seg.blockArgs a act i) ((p.block i).rep q))
        = .ok ((List.range (a.depths.getD i 0)).map R) := mapM_ok _ R _ fun q _ => r1 q
    have hA : Seg.blockArgs a act i = ⟨sH a i, sW a i, sH a (i + 1), sW a (i + 1), sC a i, sC a (i + 1), pyInt (a.mlpRatio * sC a (i + 1)), sGrid a i, a.gridInternal,
        a.depths.getD i 0, a.heads.getD i 0, a.shape, a.basis, act, a.mode, a.theta, a.bias⟩ := by
      unfold Seg.blockArgs; rw [seg_level]
    rw [hA] at hreps ⊢
    dsimp only
    rw [show LSNO.cutoffRadius (sH a (i + 1)) a.shape a.basis = .ok (cutoffOf (toU a) (sH a (i + 1))) from c1, except_bind_ok,
      show LSNO.discoInit env ⟨sC a i, sC a (i + 1), sH a i, sW a i, sH a (i + 1), sW a (i + 1), a.shape, a.basis, sGrid a i, a.gridInternal,
        cutoffOf (toU a) (sH a (i + 1))⟩ (p.block i).merge.w none = .ok L from n1]
    simp only [except_bind_ok, pure_bind]
    rw [hreps]
    rfl
  · intro run run' s s' hs hrun hrun'
    refine Acts.of_eq (Acts.mono ((((conv_acts (s := s) (s' := s') n2 (by omega) (H.dvd i hi) hs n3).comp
      (norm_acts (sC a (i + 1)) (sH a (i + 1)) (sW a (i + 1)) s' (p.block i).merge.g (p.block i).merge.b)).comp
      (reps_acts (run := run) (run' := run') R (fun q => (r2 q s').1 _ _ (hrun q) (hrun' q)) (fun q => (r2 q s').2) (a.depths.getD i 0) 0)).comp
      (norm_acts (sC a (i + 1)) (sH a (i + 1)) (sW a (i + 1)) s' (p.block i).g (p.block i).b)) ?_) (fun x => ?_) (fun x => ?_)
    · rintro x y hx ⟨z, ⟨w, ⟨v, hv, hw⟩, h, m, h1, h2, h3⟩, hy⟩
      refine ⟨h, m, ⟨v, hv, by rw [h1]; exact hw⟩, fun q hq => h3 q (Nat.zero_le _) (by omega), ?_⟩
      rw [Nat.zero_add] at h2
      rw [h2]
      exact hy
    · simp only [Seg.Block.forward, Merge.forward, List.range_eq_range', bind_assoc]
    · simp only [Seg.Block.forward, Merge.forward, List.range_eq_range', bind_assoc]

theorem sW_dvd (H : SegBuilt env a act B outer inner) {i : ℕ} (hi : i ≤ a.embedDims.length) : sW a i ∣ a.nlon := by
  induction i with
  | zero => simp [sW]
  | succ i ih => exact (H.dvd i hi).trans (ih (Nat.le_of_succ_le hi))

theorem seg_up_built (H : SegBuilt env a act B outer inner) (p : Seg.NetParams) {i : ℕ} (hi : i < a.embedDims.length) :
    ∃ U, Seg.upInit env a p i = .ok U ∧ ∀ s s', s * a.nlon = s' * sW a (i + 1) →
      Acts U.forward U.forward (sC a (i + 1)) (sH a (i + 1)) (sW a (i + 1)) s (sC a (i + 1)) a.nlat a.nlon s' (Seg.UpStep env a p B outer inner i) := by
  obtain ⟨s1, s2, s3⟩ := seg_sizes H (Nat.zero_le _)
  obtain ⟨t1, t2, t3⟩ := seg_sizes H (show i + 1 ≤ _ from hi)
  have h0 : sH a 0 = a.nlat ∧ sW a 0 = a.nlon := by simp [sH, sW]
  rw [h0.1, h0.2] at s3
  rw [h0.2] at s2
  have hch := H.chans (i + 1) hi
  have key : ∃ R, Seg.Resize.init env (sH a (i + 1)) (sW a (i + 1)) a.nlat a.nlon (sC a (i + 1)) a.gridInternal a.grid a.shape a.basis a.upMethod (p.up i).w = .ok R ∧
      ∀ s s', s * a.nlon = s' * sW a (i + 1) →
      Acts R.forward R.forward (sC a (i + 1)) (sH a (i + 1)) (sW a (i + 1)) s (sC a (i + 1)) a.nlat a.nlon s' fun m y => HasShape y (sC a (i + 1)) a.nlat a.nlon ∧
        if a.upMethod = "conv" then
          Is y (sC a (i + 1)) a.nlat a.nlon (spreadAt B (inner (i + 1)) outer (sW a (i + 1)) a.nlon (sC a (i + 1)) (sCut a (sH a (i + 1))) (p.up i).w m)
        else Resampled env ⟨sH a (i + 1), sW a (i + 1), a.nlat, a.nlon, a.gridInternal, a.grid, "bilinear"⟩ m y := by
    by_cases hm : a.upMethod = "conv"
    · obtain ⟨c1, c2⟩ := cutoff_eq (a := toU a) H.basis t1
      obtain ⟨L, n1, n2, n3⟩ := trans_built (a := toU a) (env := env) (D := sC a (i + 1)) (g := a.gridInternal) (g' := a.grid) H.basis H.ker hch (H.latIn i hi) (H.sizeIn i hi)
        H.latOut (by omega) (show 0 < sW a (i + 1) by omega) (show 0 < a.nlon by omega) (sW_dvd H hi) c2 (p.up i).w
      refine ⟨.transpose L, ?_, fun s s' hs => ?_⟩
      · unfold Seg.Resize.init
        rw [if_pos hm, show LSNO.cutoffRadius (sH a (i + 1)) a.shape a.basis = .ok (cutoffOf (toU a) (sH a (i + 1))) from c1, except_bind_ok,
          show transInit env ⟨sC a (i + 1), sC a (i + 1), sH a (i + 1), sW a (i + 1), a.nlat, a.nlon, a.shape, a.basis, a.gridInternal, a.grid,
            cutoffOf (toU a) (sH a (i + 1))⟩ (p.up i).w none = .ok L from n1]
        rfl
      · refine Acts.mono (trans_acts (s := s) (s' := s') n2 (by omega) (sW_dvd H hi) hs n3) fun x y _ hy => ⟨hy.1, ?_⟩
        rw [if_pos hm]
        exact hy
    · obtain ⟨hb, hg, hg'⟩ := H.up.resolve_left hm
      have hR : ResampleBuilt env.gauss env.tol env.maxiter ⟨sH a (i + 1), sW a (i + 1), a.nlat, a.nlon, a.gridInternal, a.grid, "bilinear"⟩ (inner (i + 1)) outer :=
        ⟨.inl rfl, H.latIn i hi, H.latOut, H.sizeIn i hi, H.sizeOut, hg' i hi, hg, t1, t2⟩
      obtain ⟨R, n1, n2⟩ := resample_built hR (by dsimp only; omega) (sC a (i + 1))
      refine ⟨.resample R, ?_, fun s s' hs x x' hx hr => ?_⟩
      · unfold Seg.Resize.init
        rw [if_neg hm, if_pos hb, n1]
        rfl
      · obtain ⟨y, y', e, e', sy, ry⟩ := resize_roll n2 hs hx hr
        refine ⟨y, y', e, e', sy, ry, sy, ?_⟩
        rw [if_neg hm]
        exact ⟨R, n1, e⟩
  obtain ⟨R, r1, r2⟩ := key
  refine ⟨⟨.conv ⟨sC a (i + 1), sC a (i + 1), (p.up i).lin.w, some (p.up i).lin.b⟩, R⟩, ?_, fun s s' hs => ?_⟩
  · unfold Seg.upInit Up.init
    rw [seg_level]
    dsimp only
    rw [show a.embedDims.getD i 0 = sC a (i + 1) from rfl, r1]
    rfl
  · exact Acts.mono ((conv1_acts _ _ _ _ s (p.up i).lin).comp (r2 s s' hs)) fun x y _ ⟨m, hm, hy⟩ => ⟨m, hm, hy⟩

/-- What the constructor builds, and what it does to shifted fields. -/
theorem seg_acts (H : SegBuilt env a act B outer inner) (p : Seg.NetParams) : ∃ N, Seg.Net.init env a p = .ok N ∧
    ∀ run run' s, Seg.RunsCover a run → Seg.RunsCover a run' → (∀ i ≤ a.embedDims.length, a.nlon ∣ s * sW a i) →
      Acts (N.forward run) (N.forward run') a.inChans a.nlat a.nlon s a.outChans a.nlat a.nlon s (Seg.NetStep env a p act B outer inner) := by
  have e0 : sH a 0 = a.nlat ∧ sW a 0 = a.nlon := by simp [sH, sW]
  have hpos : 0 < a.nlon := by
    have := (seg_sizes H (Nat.zero_le _)).2.1
    rw [e0.2] at this
    omega
  have hd : ∀ i, ∃ D, i < a.embedDims.length → Seg.Block.init env (Seg.blockArgs a act i) (p.block i) = .ok D ∧ ∀ run run' s s', s * sW a (i + 1) = s' * sW a i →
      (∀ q k, run q = some k → CoversBlocks ⟨a.heads.getD i 0, sC a (i + 1) / a.heads.getD i 0, sC a (i + 1) / a.heads.getD i 0, sH a (i + 1), sW a (i + 1),
          sH a (i + 1), sW a (i + 1)⟩ k.order) →
      (∀ q k, run' q = some k → CoversBlocks ⟨a.heads.getD i 0, sC a (i + 1) / a.heads.getD i 0, sC a (i + 1) / a.heads.getD i 0, sH a (i + 1), sW a (i + 1),
          sH a (i + 1), sW a (i + 1)⟩ k.order) →
      Acts (D.forward run) (D.forward run') (sC a i) (sH a i) (sW a i) s (sC a (i + 1)) (sH a (i + 1)) (sW a (i + 1)) s' (BlockStep a p act B outer inner i) := by
    intro i
    by_cases hi : i < a.embedDims.length
    · obtain ⟨D, h⟩ := block_built H p hi
      exact ⟨D, fun _ => h⟩
    · exact ⟨⟨⟨⟨0, 0, 0, 0, 0, 0, 0, 0, fun _ _ _ => 0, none, []⟩, ⟨0, fun _ => 0, fun _ => 0⟩⟩, [], ⟨0, fun _ => 0, fun _ => 0⟩⟩, fun h => absurd h hi⟩
  have hu : ∀ i, ∃ U, i < a.embedDims.length → Seg.upInit env a p i = .ok U ∧ ∀ s s', s * a.nlon = s' * sW a (i + 1) →
      Acts U.forward U.forward (sC a (i + 1)) (sH a (i + 1)) (sW a (i + 1)) s (sC a (i + 1)) a.nlat a.nlon s' (Seg.UpStep env a p B outer inner i) := by
    intro i
    by_cases hi : i < a.embedDims.length
    · obtain ⟨U, h⟩ := seg_up_built H p hi
      exact ⟨U, fun _ => h⟩
    · exact ⟨⟨.conv ⟨0, 0, fun _ _ => 0, none⟩, .transpose ⟨0, 0, 0, 0, 0, 0, 0, 0, fun _ _ _ => 0, none, []⟩⟩, fun h => absurd h hi⟩
  choose D hD using hd
  choose U hU using hu
  obtain ⟨n, hn⟩ : ∃ n, a.embedDims.length = n + 1 := Nat.exists_eq_succ_of_ne_zero (by simpa using H.dims)
  have hdimsum : a.embedDims.sum = ∑ l ∈ range (n + 1), sC a (0 + l + 1) := by
    rw [← hn]
    have key : ∀ l : List ℕ, l.sum = ∑ k ∈ range l.length, l.getD k 0 := by
      intro l
      induction l with
      | nil => rfl
      | cons e l ih =>
        rw [List.sum_cons, List.length_cons, sum_range_succ', ih, add_comm]
        rfl
    rw [key]
    refine sum_congr rfl fun l _ => ?_
    rw [Nat.zero_add]
    rfl
  refine ⟨⟨(List.range a.embedDims.length).map D, (List.range a.embedDims.length).map U, ⟨a.embedDims.sum, a.outChans, p.headW, some p.headB⟩⟩, ?_, ?_⟩
  · unfold Seg.Net.init
    dsimp only
    rw [if_neg (by rw [not_not]; exact H.heads), if_neg (by rw [not_not]; exact H.depths), H.act, except_bind_ok, if_neg (fun h => H.scale h.2),
      mapM_ok _ D _ fun i hi => (hD i (List.mem_range.1 hi)).1, except_bind_ok, mapM_ok _ U _ fun i hi => (hU i (List.mem_range.1 hi)).1]
    rfl
  · intro run run' s hrun hrun' hs x x' hx hr
    have hsh : ∀ i ≤ a.embedDims.length, (s * sW a i / a.nlon) * a.nlon = s * sW a i := fun i hi => Nat.div_mul_cancel (hs i hi)
    obtain ⟨fs, fs', f, u, u', g1, g1', g2, g3, g3', g4⟩ := encode_acts (C := sC a) (H := sH a) (W := sW a) (s := fun i => s * sW a i / a.nlon) (H0 := a.nlat)
      (W0 := a.nlon) (s0 := s) (n := a.embedDims.length) D U (run := run) (run' := run')
      (fun i hi => (hD i hi).2 _ _ _ _ (by
        refine Nat.eq_of_mul_eq_mul_right hpos ?_
        have e1 := hsh i hi.le
        have e2 := hsh (i + 1) hi
        generalize s * sW a i / a.nlon = u at e1 ⊢
        generalize s * sW a (i + 1) / a.nlon = v at e2 ⊢
        calc u * sW a (i + 1) * a.nlon = u * a.nlon * sW a (i + 1) := by ring
          _ = v * a.nlon * sW a i := by rw [e1, e2]; ring
          _ = v * sW a i * a.nlon := by ring) (hrun i hi) (hrun' i hi))
      (fun i hi => (hU i hi).2 _ _ (hsh (i + 1) hi)) a.embedDims.length 0 (by omega) x x' (by rw [e0.1, e0.2]; exact hx)
      (by rw [e0.2, Nat.mul_div_cancel _ hpos]; exact hr)
    rw [hn] at g1 g1' g3 g3' g4
    obtain ⟨c, c', k1, k1', k2, k3, k4⟩ := catAll_acts (H := a.nlat) (W := a.nlon) (s := s) (C := fun l => sC a (l + 1)) (u := u) (u' := u') n 0
      (fun l h1 h2 => ⟨(g4 l h1 h2).2.2.1, (g4 l h1 h2).2.2.2⟩)
    rw [← hdimsum] at k2
    obtain ⟨y, y', z1, z1', z2, z3⟩ := conv1_roll (F := ⟨a.embedDims.sum, a.outChans, p.headW, some p.headB⟩) k2.1 k3
    rw [k2.2.1, k2.2.2] at z2
    refine ⟨y, y', ?_, ?_, z2, z3, f, u, g2, fun i hi => ?_, z2, fun o _ t _ j _ => ?_⟩
    · unfold Seg.Net.forward
      rw [hn, List.range_eq_range']
      dsimp only
      rw [g1, except_bind_ok, g3, except_bind_ok, k1, except_bind_ok, z1]
    · unfold Seg.Net.forward
      rw [hn, List.range_eq_range']
      dsimp only
      rw [g1', except_bind_ok, g3', except_bind_ok, k1', except_bind_ok, z1']
    · obtain ⟨m1, m2, _⟩ := g4 i (Nat.zero_le _) (by omega)
      exact ⟨m1, m2⟩
    · unfold Conv1.forward at z1
      rw [if_neg (by rw [k2.1]; simp)] at z1
      cases z1
      dsimp only
      rw [hdimsum, k4 (p.headW o) t j, hn]
      simp only [Nat.zero_add]
      rfl

/-! ### What a network that was built tells -/

theorem seg_inv {N : Seg.Net} (h : Seg.Net.init env a p = .ok N) : ∃ act, a.heads.length = a.embedDims.length ∧ a.depths.length = a.embedDims.length ∧
    activation a.act = .ok act ∧ (a.embedDims.length ≠ 0 → a.scale ≠ 0) ∧
    ((List.range a.embedDims.length).mapM fun i => Seg.Block.init env (Seg.blockArgs a act i) (p.block i)) = .ok N.blocks ∧
    ((List.range a.embedDims.length).mapM fun i => Seg.upInit env a p i) = .ok N.ups ∧ N.head = ⟨a.embedDims.sum, a.outChans, p.headW, some p.headB⟩ := by
  unfold Seg.Net.init at h
  dsimp only at h
  by_cases h1 : a.heads.length ≠ a.embedDims.length
  · rw [if_pos h1] at h; cases h
  by_cases h2 : a.depths.length ≠ a.embedDims.length
  · rw [if_neg h1, if_pos h2] at h; cases h
  rw [if_neg h1, if_neg h2] at h
  obtain ⟨act, e1, h⟩ := bind_inv' h
  by_cases h3 : a.embedDims.length ≠ 0 ∧ a.scale = 0
  · rw [if_pos h3] at h; cases h
  rw [if_neg h3] at h
  obtain ⟨bs, e2, h⟩ := bind_inv' h
  obtain ⟨us, e3, h⟩ := bind_inv' h
  cases h
  exact ⟨act, not_not.1 h1, not_not.1 h2, e1, fun h0 hs => h3 ⟨h0, hs⟩, e2, e3, rfl⟩

theorem seg_block_ok {N : Seg.Net} (h : Seg.Net.init env a p = .ok N) {i : ℕ} (hi : i < a.embedDims.length) :
    ∃ act D, Seg.Block.init env (Seg.blockArgs a act i) (p.block i) = .ok D := by
  obtain ⟨act, _, _, _, _, h1, _⟩ := seg_inv h
  obtain ⟨l1, l2⟩ := mapM_inv _ _ _ h1
  rw [List.length_range] at l1
  have := l2 i (by simpa using hi) (by omega)
  rw [List.getElem_range] at this
  exact ⟨act, _, this⟩

/-- The cutoff of a convolution that was built is positive, so that there are two latitudes. -/
theorem cutoff_two {A : LSNO.DiscoArgs} {w : ℕ → ℕ → ℕ → ℝ} {b : Option (ℕ → ℝ)} {L : Disco.Layer ℝ} {n : ℕ} (hth : LSNO.cutoffRadius n A.shape A.basis = .ok A.theta)
    (h : LSNO.discoInit env A w b = .ok L) : 2 ≤ n := by
  obtain ⟨B, e2⟩ : ∃ _ : Basis, 0 < A.theta := by
    unfold LSNO.discoInit at h
    obtain ⟨B, _, h⟩ := bind_inv' h
    obtain ⟨s, _, h⟩ := bind_inv' h
    dsimp only at h
    by_cases h5 : s.1 = 0
    · rw [if_pos h5] at h; cases h
    rw [if_neg h5] at h
    obtain ⟨es, h6, _⟩ := bind_inv' h
    obtain ⟨c, _, _, e1, e2, _⟩ := convEntries_ok h6
    exact ⟨B, by rw [e1] at e2; exact e2⟩
  unfold LSNO.cutoffRadius at hth
  cases hs : A.shape with
  | nil => rw [hs] at hth; cases hth
  | cons k rest =>
    rw [hs] at hth
    dsimp only at hth
    cases hf : LSNO.cutoffFactor A.basis with
    | none => rw [hf] at hth; cases hth
    | some c =>
      rw [hf] at hth
      dsimp only at hth
      by_cases h7 : n = 1
      · rw [if_pos h7] at hth; cases hth
      rw [if_neg h7] at hth
      have h1 := Except.ok.inj hth
      have hc : 0 < c := by
        unfold LSNO.cutoffFactor at hf
        split_ifs at hf <;> (rw [← Option.some.inj hf]; positivity)
      by_contra hH
      obtain rfl : n = 0 := by omega
      have : ((k : ℝ) + 1) * c * Real.pi / (((0 : ℕ) : ℝ) - 1) < 0 :=
        div_neg_of_pos_of_neg (mul_pos (mul_pos (by positivity) hc) Real.pi_pos) (by norm_num)
      linarith

theorem seg_block_inv {i : ℕ} {q : Seg.BlockParams} {D : Seg.Block} (h : Seg.Block.init env (Seg.blockArgs a act i) q = .ok D) :
    2 ≤ sH a (i + 1) ∧ sW a (i + 1) ∣ sW a i ∧ ∀ r < a.depths.getD i 0, ∃ T,
      S2T.Attention.init env (attnArgs (sC a (i + 1)) (sH a (i + 1)) (sW a (i + 1)) a.gridInternal (a.heads.getD i 0) a.mode a.theta a.bias) (q.rep r).att.attn = .ok T := by
  have hA : Seg.blockArgs a act i = ⟨sH a i, sW a i, sH a (i + 1), sW a (i + 1), sC a i, sC a (i + 1), pyInt (a.mlpRatio * sC a (i + 1)), sGrid a i, a.gridInternal,
      a.depths.getD i 0, a.heads.getD i 0, a.shape, a.basis, act, a.mode, a.theta, a.bias⟩ := by
    unfold Seg.blockArgs; rw [seg_level]
  rw [hA] at h
  unfold Seg.Block.init at h
  obtain ⟨M, h1, h⟩ := bind_inv' h
  obtain ⟨R, h2, _⟩ := bind_inv' h
  unfold Merge.init at h1
  obtain ⟨th, e1, h1⟩ := bind_inv' h1
  obtain ⟨L, e2, _⟩ := bind_inv' h1
  refine ⟨cutoff_two (A := ⟨sC a i, sC a (i + 1), sH a i, sW a i, sH a (i + 1), sW a (i + 1), a.shape, a.basis, sGrid a i, a.gridInternal, th⟩) e1 e2, conv_dvd e2,
    fun r hr => ?_⟩
  obtain ⟨l1, l2⟩ := mapM_inv _ _ _ h2
  rw [List.length_range] at l1
  have := l2 r (by simpa using hr) (by rw [l1]; exact hr)
  rw [List.getElem_range] at this
  unfold Rep.init at this
  obtain ⟨W, e3, _⟩ := bind_inv' this
  unfold Wrapper.init at e3
  obtain ⟨T, e4, _⟩ := bind_inv' e3
  exact ⟨T, e4⟩

end Build

section
variable {env : Env} {a : Seg.NetArgs} {act : ℝ → ℝ} {B : Basis} {outer : Rule} {inner : ℕ → Rule}

/-- C88. A network with admissible arguments is built, and maps every stack of `in_chans` fields on the outer grid to one of `out_chans` fields on the outer grid,
whatever the parameters are. The result does not depend on which kernels compute the neighbourhood attention, and in which order they visit the points. -/
theorem C88_shape (H : SegBuilt env a act B outer inner) (p : Seg.NetParams) :
    ∃ N, Seg.Net.init env a p = .ok N ∧ ∀ run run', Seg.RunsCover a run → Seg.RunsCover a run' → ∀ x, HasShape x a.inChans a.nlat a.nlon →
      ∃ y y', N.forward run x = .ok y ∧ N.forward run' x = .ok y' ∧ HasShape y a.outChans a.nlat a.nlon ∧ HasShape y' a.outChans a.nlat a.nlon ∧
        ∀ c < a.outChans, ∀ t < a.nlat, ∀ j < a.nlon, y'.val c t j = y.val c t j := by
  obtain ⟨N, hN, h⟩ := seg_acts H p
  refine ⟨N, hN, fun run run' hrun hrun' x hx => ?_⟩
  obtain ⟨y, y', e, e', sy, ry, _⟩ := h run run' 0 hrun hrun' (by simp) x x hx (rolled_refl x)
  refine ⟨y, y', e, e', sy, ⟨ry.d0.trans sy.1, ry.d1.trans sy.2.1, ry.d2.trans sy.2.2⟩, fun c hc t ht j hj => ?_⟩
  rw [ry.val c (by rw [sy.1]; exact hc) t (by rw [sy.2.1]; exact ht) j (by rw [sy.2.2]; exact hj), sy.2.2, Nat.add_zero, Nat.mod_eq_of_lt hj]

/-- C88. The network commutes with all shifts in longitude that the grids of all levels have, also when the two inputs are processed by different kernels. -/
theorem C88_longitude (H : SegBuilt env a act B outer inner) (p : Seg.NetParams) (s : ℕ)
    (hs : ∀ i ≤ a.embedDims.length, a.nlon ∣ s * (a.nlon / a.scale ^ i)) :
    ∃ N, Seg.Net.init env a p = .ok N ∧ ∀ run run', Seg.RunsCover a run → Seg.RunsCover a run' → ∀ x x', HasShape x a.inChans a.nlat a.nlon → Rolled s x x' →
      ∃ y y', N.forward run x = .ok y ∧ N.forward run' x' = .ok y' ∧ HasShape y a.outChans a.nlat a.nlon ∧ Rolled s y y' := by
  obtain ⟨N, hN, h⟩ := seg_acts H p
  refine ⟨N, hN, fun run run' hrun hrun' x x' hx hr => ?_⟩
  obtain ⟨y, y', e, e', sy, ry, _⟩ := h run run' s hrun hrun' hs x x' hx hr
  exact ⟨y, y', e, e', sy, ry⟩

/-- In particular, if the product `scale_factor ** num_blocks` of the scale factors divides the number of longitudes, with all shifts by multiples of it. -/
theorem C88_longitude_scale (H : SegBuilt env a act B outer inner) (p : Seg.NetParams) (hd : a.scale ^ a.embedDims.length ∣ a.nlon) (s : ℕ)
    (hs : a.scale ^ a.embedDims.length ∣ s) :
    ∃ N, Seg.Net.init env a p = .ok N ∧ ∀ run run', Seg.RunsCover a run → Seg.RunsCover a run' → ∀ x x', HasShape x a.inChans a.nlat a.nlon → Rolled s x x' →
      ∃ y y', N.forward run x = .ok y ∧ N.forward run' x' = .ok y' ∧ HasShape y a.outChans a.nlat a.nlon ∧ Rolled s y y' := by
  refine C88_longitude H p s fun i hi => ?_
  obtain ⟨t, rfl⟩ := (pow_dvd_pow a.scale hi).trans hs
  exact ⟨t, by rw [mul_comm _ t, mul_assoc, Nat.mul_div_cancel' ((pow_dvd_pow a.scale hi).trans hd), mul_comm]⟩

/-- C88. What the network computes: the fields go down through blocks of patch merging, attention and feed-forward networks with residual connections to coarser and
coarser grids, the results of all blocks are brought back to the outer grid, and a linear map of all of them is the prediction (`NetStep`). -/
theorem C88_values (H : SegBuilt env a act B outer inner) (p : Seg.NetParams) :
    ∃ N, Seg.Net.init env a p = .ok N ∧ ∀ run, Seg.RunsCover a run → ∀ x, HasShape x a.inChans a.nlat a.nlon →
      ∃ y, N.forward run x = .ok y ∧ Seg.NetStep env a p act B outer inner x y := by
  obtain ⟨N, hN, h⟩ := seg_acts H p
  refine ⟨N, hN, fun run hrun x hx => ?_⟩
  obtain ⟨y, _, e, _, _, _, hp⟩ := h run run 0 hrun hrun (by simp) x x hx (rolled_refl x)
  exact ⟨y, e, hp⟩

/-! ### Arguments without effect -/

theorem seg_init_congr {a a' : Seg.NetArgs} {p : Seg.NetParams} (h1 : a'.heads = a.heads) (h2 : a'.depths = a.depths) (h3 : a'.embedDims = a.embedDims)
    (h4 : a'.act = a.act) (h5 : a'.scale = a.scale) (h6 : a'.outChans = a.outChans)
    (hb : ∀ act i, Seg.Block.init env (Seg.blockArgs a' act i) (p.block i) = Seg.Block.init env (Seg.blockArgs a act i) (p.block i))
    (hu : ∀ i, Seg.upInit env a' p i = Seg.upInit env a p i) : Seg.Net.init env a' p = Seg.Net.init env a p := by
  unfold Seg.Net.init
  simp only [h1, h2, h3, h4, h5, h6, hb, hu]

/-- C88. `mlp_ratio` has no effect: the hidden layers that it sizes are never built. -/
theorem C88_mlp_ratio (env : Env) (a : Seg.NetArgs) (p : Seg.NetParams) (r : ℝ) : Seg.Net.init env { a with mlpRatio := r } p = Seg.Net.init env a p := by
  refine seg_init_congr rfl rfl rfl rfl rfl rfl (fun act i => ?_) (fun i => ?_)
  · unfold Seg.blockArgs
    rw [seg_level, seg_level]
    rfl
  · unfold Seg.upInit
    rw [seg_level, seg_level]
    rfl

/-- C88. All attention modes but `"neighborhood"` mean global attention, unknown names included, and then the cutoff has no effect, whatever it is. -/
theorem C88_mode (env : Env) (a : Seg.NetArgs) (p : Seg.NetParams) (m : String) (th : Option ℝ) (ha : a.mode ≠ "neighborhood") (hm : m ≠ "neighborhood") :
    Seg.Net.init env { a with mode := m, theta := th } p = Seg.Net.init env a p := by
  refine seg_init_congr rfl rfl rfl rfl rfl rfl (fun act i => ?_) (fun i => ?_)
  · have hr : ∀ q, Rep.init env (Seg.blockArgs { a with mode := m, theta := th } act i) q = Rep.init env (Seg.blockArgs a act i) q := by
      intro q
      unfold Rep.init Wrapper.init Seg.blockArgs
      rw [seg_level, seg_level]
      dsimp only
      have e : ∀ C H W, S2T.Attention.init env (attnArgs C H W a.gridInternal (a.heads.getD i 0) m th a.bias) q.att.attn
          = S2T.Attention.init env (attnArgs C H W a.gridInternal (a.heads.getD i 0) a.mode a.theta a.bias) q.att.attn := by
        intro C H W
        unfold S2T.Attention.init
        rw [if_neg (show ¬ (attnArgs C H W a.gridInternal (a.heads.getD i 0) m th a.bias).mode = "neighborhood" from hm),
          if_neg (show ¬ (attnArgs C H W a.gridInternal (a.heads.getD i 0) a.mode a.theta a.bias).mode = "neighborhood" from ha)]
        rfl
      rw [e]
      rfl
    unfold Seg.Block.init
    simp only [hr]
    unfold Seg.blockArgs
    rw [seg_level, seg_level]
    rfl
  · unfold Seg.upInit
    rw [seg_level, seg_level]
    rfl

/-! ### Networks that are not built -/

/-- C88. If fewer than two latitudes are left at the last level, no network is built. -/
theorem C88_too_deep (p : Seg.NetParams) (h0 : a.embedDims ≠ []) (hd : a.nlat / a.scale ^ a.embedDims.length < 2) (N : Seg.Net) : Seg.Net.init env a p ≠ .ok N := by
  intro h
  have hl : 0 < a.embedDims.length := List.length_pos_of_ne_nil h0
  obtain ⟨_, _, hD⟩ := seg_block_ok h (show a.embedDims.length - 1 < a.embedDims.length by omega)
  have := (seg_block_inv hD).1
  rw [show a.embedDims.length - 1 + 1 = a.embedDims.length by omega] at this
  unfold sH at this
  omega

/-- C88. Whatever the upsampling method is, a network is only built if the number of longitudes of every level divides that of the level above, and if the number
of heads of every level that has attention is not 0 and divides its embedding dimension. -/
theorem C88_needs (p : Seg.NetParams) (N : Seg.Net) (h : Seg.Net.init env a p = .ok N) : ∀ i < a.embedDims.length,
    a.nlon / a.scale ^ (i + 1) ∣ a.nlon / a.scale ^ i ∧ (a.depths.getD i 0 ≠ 0 → a.heads.getD i 0 ≠ 0 ∧ a.heads.getD i 0 ∣ a.embedDims.getD i 0) := by
  intro i hi
  obtain ⟨act, D, hD⟩ := seg_block_ok h hi
  obtain ⟨_, h1, h2⟩ := seg_block_inv hD
  refine ⟨h1, fun h0 => ?_⟩
  obtain ⟨T, hT⟩ := h2 0 (by omega)
  have hno : ∀ e, headChecks (attnArgs (sC a (i + 1)) (sH a (i + 1)) (sW a (i + 1)) a.gridInternal (a.heads.getD i 0) a.mode a.theta a.bias).layerArgs ≠ .error e := by
    intro e he
    have := attention_heads (ba := attnArgs (sC a (i + 1)) (sH a (i + 1)) (sW a (i + 1)) a.gridInternal (a.heads.getD i 0) a.mode a.theta a.bias) (h := a.heads.getD i 0) hT he
    rw [this] at hT
    cases hT
  constructor
  · intro hz
    refine hno .zeroDivision ?_
    unfold headChecks
    rw [if_pos (show (attnArgs (sC a (i + 1)) (sH a (i + 1)) (sW a (i + 1)) a.gridInternal (a.heads.getD i 0) a.mode a.theta a.bias).layerArgs.numHeads = 0 from hz)]
  · by_contra hz
    have h3 : a.heads.getD i 0 ≠ 0 := by
      intro h4
      refine hno .zeroDivision ?_
      unfold headChecks
      rw [if_pos (show (attnArgs (sC a (i + 1)) (sH a (i + 1)) (sW a (i + 1)) a.gridInternal (a.heads.getD i 0) a.mode a.theta a.bias).layerArgs.numHeads = 0 from h4)]
    refine hno .valueError ?_
    unfold headChecks
    rw [if_neg (show ¬ (attnArgs (sC a (i + 1)) (sH a (i + 1)) (sW a (i + 1)) a.gridInternal (a.heads.getD i 0) a.mode a.theta a.bias).layerArgs.numHeads = 0 from h3),
      if_pos (show (attnArgs (sC a (i + 1)) (sH a (i + 1)) (sW a (i + 1)) a.gridInternal (a.heads.getD i 0) a.mode a.theta a.bias).layerArgs.kC %
        (attnArgs (sC a (i + 1)) (sH a (i + 1)) (sW a (i + 1)) a.gridInternal (a.heads.getD i 0) a.mode a.theta a.bias).layerArgs.numHeads ≠ 0 from
          fun hm => hz (Nat.dvd_of_mod_eq_zero hm))]

/-- C88 (error branches). Lists of heads or depths of another length than that of the dimensions and unknown activations raise a `ValueError`; a scale factor 0
raises a `ZeroDivisionError`, filters that no cutoff is defined for a `KeyError`. If a network can be built with some upsampling method, an unknown one raises a
`ValueError`. -/
theorem C88_errors (p : Seg.NetParams) :
    (a.heads.length ≠ a.embedDims.length → Seg.Net.init env a p = .error .valueError) ∧
    (a.depths.length ≠ a.embedDims.length → Seg.Net.init env a p = .error .valueError) ∧
    (a.act ≠ "relu" → a.act ≠ "gelu" → a.act ≠ "identity" → Seg.Net.init env a p = .error .valueError) ∧
    (a.heads.length = a.embedDims.length → a.depths.length = a.embedDims.length → (a.act = "relu" ∨ a.act = "gelu" ∨ a.act = "identity") → a.embedDims ≠ [] →
      (a.scale = 0 → Seg.Net.init env a p = .error .zeroDivision) ∧
      (a.scale ≠ 0 → a.shape ≠ [] → a.basis ≠ "piecewise linear" → a.basis ≠ "morlet" → a.basis ≠ "zernike" → Seg.Net.init env a p = .error .keyError)) ∧
    (∀ N m, Seg.Net.init env a p = .ok N → a.embedDims ≠ [] → m ≠ "conv" → m ≠ "bilinear" → Seg.Net.init env { a with upMethod := m } p = .error .valueError) := by
  refine ⟨fun h => ?_, fun h => ?_, fun h1 h2 h3 => ?_, fun h h' hact h0 => ?_, fun N m h h0 h1 h2 => ?_⟩
  · unfold Seg.Net.init
    exact if_pos h
  · unfold Seg.Net.init
    dsimp only
    by_cases h1 : a.heads.length ≠ a.embedDims.length
    · rw [if_pos h1]
    · rw [if_neg h1, if_pos h]
  · unfold Seg.Net.init
    dsimp only
    have : activation a.act = .error .valueError := by simp [activation, h1, h2, h3]
    by_cases h1 : a.heads.length ≠ a.embedDims.length
    · rw [if_pos h1]
    · by_cases h2 : a.depths.length ≠ a.embedDims.length
      · rw [if_neg h1, if_pos h2]
      · rw [if_neg h1, if_neg h2, this]
        rfl
  · obtain ⟨f, hf⟩ : ∃ f, activation a.act = .ok f := by
      rcases hact with h | h | h <;> simp [activation, h]
    refine ⟨fun h2 => ?_, fun h2 h3 h5 h6 h7 => ?_⟩
    · unfold Seg.Net.init
      dsimp only
      rw [if_neg (not_not.2 h), if_neg (not_not.2 h'), hf, except_bind_ok, if_pos ⟨by simpa using h0, h2⟩]
    · unfold Seg.Net.init
      dsimp only
      rw [if_neg (not_not.2 h), if_neg (not_not.2 h'), hf, except_bind_ok, if_neg (fun h => h2 h.2)]
      have hblock : Seg.Block.init env (Seg.blockArgs a f 0) (p.block 0) = .error .keyError := by
        unfold Seg.Block.init Merge.init LSNO.cutoffRadius Seg.blockArgs
        dsimp only
        cases hs : a.shape with
        | nil => exact absurd hs h3
        | cons k rest =>
          have : LSNO.cutoffFactor a.basis = none := by simp [LSNO.cutoffFactor, h5, h6, h7]
          dsimp only
          rw [this]
          rfl
      rw [mapM_first _ _ (by simpa using h0) hblock]
      rfl
  · obtain ⟨act, k1, k2, k3, k4, k5, _⟩ := seg_inv h
    have hb : ∀ i, Seg.blockArgs { a with upMethod := m } act i = Seg.blockArgs a act i := by
      intro i
      unfold Seg.blockArgs
      rw [seg_level, seg_level]
      rfl
    have hu : Seg.upInit env { a with upMethod := m } p 0 = .error .valueError := by
      unfold Seg.upInit Up.init Lin.init Resize.init
      dsimp only
      rw [if_neg (by simp), except_bind_ok, if_neg h1, if_neg h2]
      rfl
    unfold Seg.Net.init
    dsimp only
    rw [if_neg (not_not.2 k1), if_neg (not_not.2 k2), k3, except_bind_ok, if_neg (fun h => k4 h.1 h.2)]
    simp only [hb]
    rw [k5, except_bind_ok, mapM_first _ _ (by simpa using h0) hu]
    rfl

/-- C88. Without any dimensions a network is built whose forward passes all fail: there is nothing to concatenate. -/
theorem C88_empty (env : Env) (a : Seg.NetArgs) (p : Seg.NetParams) (h : a.embedDims = []) (hh : a.heads = []) (hd : a.depths = [])
    (hact : a.act = "relu" ∨ a.act = "gelu" ∨ a.act = "identity") : ∃ N, Seg.Net.init env a p = .ok N ∧ ∀ run x, N.forward run x = .error .runtimeError := by
  obtain ⟨f, hf⟩ : ∃ f, activation a.act = .ok f := by
    rcases hact with h | h | h <;> simp [activation, h]
  refine ⟨⟨[], [], ⟨0, a.outChans, p.headW, some p.headB⟩⟩, ?_, fun run x => rfl⟩
  unfold Seg.Net.init
  dsimp only
  rw [if_neg (by rw [h, hh]; simp), if_neg (by rw [h, hd]; simp), hf, except_bind_ok, if_neg (by rw [h]; simp), h]
  rfl

/-! ### The hypotheses can be met -/

/-- Networks on equiangular and Gauss grids are built as soon as the sizes, the heads and the filters fit, for both kinds of attention. -/
theorem C88_built (env : Env) (a : Seg.NetArgs) (hgauss : ∀ n, 1 ≤ n → IsGaussRule (env.gauss n) n) (hit : 1 ≤ env.maxiter)
    (hg : a.grid = "equiangular" ∨ a.grid = "legendre-gauss") (hg' : a.gridInternal = "equiangular" ∨ a.gridInternal = "legendre-gauss")
    (hheads : a.heads.length = a.embedDims.length) (hdepths : a.depths.length = a.embedDims.length) (hdims : a.embedDims ≠ []) (hdim : ∀ e ∈ a.embedDims, e ≠ 0)
    (hhd : ∀ i < a.embedDims.length, a.heads.getD i 0 ≠ 0 ∧ a.heads.getD i 0 ∣ a.embedDims.getD i 0)
    (hin : a.inChans ≠ 0) (hact : a.act = "relu" ∨ a.act = "gelu" ∨ a.act = "identity") (hs : a.scale ≠ 0) (hth : ∀ t, a.theta = some t → 0 < t)
    (hlat : 2 ≤ a.nlat / a.scale ^ a.embedDims.length) (hlon : 2 ≤ a.nlon / a.scale ^ a.embedDims.length) (hle : a.nlat ≤ a.nlon)
    (hup : a.upMethod = "conv" ∨ a.upMethod = "bilinear") (hdvd : a.scale ^ a.embedDims.length ∣ a.nlon)
    (B : Basis) (hB : LSNO.getBasis a.shape a.basis = .ok B) (hK : 0 < B.kernelSize) :
    ∃ act outer inner, SegBuilt env a act B outer inner := by
  have named : ∀ n grid, 2 ≤ n → (grid = "equiangular" ∨ grid = "legendre-gauss") →
      ∃ r, precomputeLatitudes env.gauss env.tol env.maxiter n grid = .ok r ∧ r.n = n ∧ LatGrid n r.x := by
    intro n grid h2 h
    refine latGrid_named _ _ _ _ _ ?_
    rcases h with h | h
    · exact .inl ⟨h2, .inl h⟩
    · exact .inr ⟨by omega, h, hgauss n (by omega)⟩
  have hH : ∀ i ≤ a.embedDims.length, 2 ≤ sH a i := fun i hi => le_trans hlat (uH_anti (toU a) hs hi)
  have h0 : sH a 0 = a.nlat := by simp [sH]
  obtain ⟨outer, o1, o2, o3⟩ := named a.nlat a.grid (h0 ▸ hH 0 (Nat.zero_le _)) hg
  have : ∀ i, ∃ r : Rule, i ≤ a.embedDims.length → precomputeLatitudes env.gauss env.tol env.maxiter (sH a i) a.gridInternal = .ok r ∧ r.n = sH a i ∧
      LatGrid (sH a i) r.x := by
    intro i
    by_cases hi : i ≤ a.embedDims.length
    · obtain ⟨r, h⟩ := named (sH a i) a.gridInternal (hH i hi) hg'
      exact ⟨r, fun _ => h⟩
    · exact ⟨outer, fun h => absurd h hi⟩
  choose inner hinner using this
  obtain ⟨act, h3⟩ : ∃ act, activation a.act = .ok act := by
    rcases hact with h | h | h <;> simp [activation, h]
  refine ⟨act, outer, inner, hheads, hdepths, hdims, h3, hs, o1, o2, fun i hi => (hinner (i + 1) hi).1, fun i hi => (hinner (i + 1) hi).2.1, hB, hK, fun i hi => ?_,
    hhd, fun _ => hth, fun _ i hi => ?_, hlat, hlon, hle, fun i hi => ?_, hup.imp id fun h => ⟨h, o3, fun i hi => (hinner (i + 1) hi).2.2⟩⟩
  · cases i with
    | zero => exact hin
    | succ i =>
      have hi' : i < a.embedDims.length := hi
      rw [sC, List.getD_eq_getElem _ _ hi']
      exact hdim _ (List.getElem_mem _)
  · have h2 := hH (i + 1) hi
    have := C06_latitude_weights_pos env.gauss env.tol env.maxiter (sH a (i + 1)) a.gridInternal (inner (i + 1)) hit (fun _ => hgauss _ (by omega)) (hinner (i + 1) hi).1
    rwa [(hinner (i + 1) hi).2.1] at this
  · obtain ⟨t, ht⟩ := (pow_dvd_pow a.scale hi).trans hdvd
    refine ⟨a.scale, ?_⟩
    unfold sW
    rw [ht, Nat.mul_div_cancel_left _ (Nat.pos_of_ne_zero (pow_ne_zero _ hs)), Nat.succ_eq_add_one, pow_succ, mul_assoc,
      Nat.mul_div_cancel_left _ (Nat.pos_of_ne_zero (pow_ne_zero _ hs)), mul_comm]

/-- The default arguments, s2segformer.py 646-667, for any scale factor, dimensions, attention mode and upsampling method. -/
noncomputable def segDefault (scale : ℕ) (dims : List ℕ) (mode up : String) : Seg.NetArgs :=
  ⟨128, 256, "equiangular", "legendre-gauss", 3, 3, dims, [1, 2, 4, 8], [3, 4, 6, 3], scale, "gelu", [3, 3], "morlet", 2, mode, none, up, true⟩

/-- C88. With the default arguments the network is built, and so it is with global attention or upsampling by convolutions; it commutes with shifts by multiples of 16
columns. -/
theorem C88_default (env : Env) (p : Seg.NetParams) (hgauss : ∀ n, 1 ≤ n → IsGaussRule (env.gauss n) n) (hit : 1 ≤ env.maxiter) (mode up : String)
    (hup : up = "conv" ∨ up = "bilinear") :
    (∃ act B outer inner, SegBuilt env (segDefault 2 [64, 128, 256, 512] mode up) act B outer inner) ∧
    ∃ N, Seg.Net.init env (segDefault 2 [64, 128, 256, 512] mode up) p = .ok N ∧ ∀ run run', Seg.RunsCover (segDefault 2 [64, 128, 256, 512] mode up) run →
      Seg.RunsCover (segDefault 2 [64, 128, 256, 512] mode up) run' → ∀ q x x', HasShape x 3 128 256 → Rolled (16 * q) x x' →
      ∃ y y', N.forward run x = .ok y ∧ N.forward run' x' = .ok y' ∧ HasShape y 3 128 256 ∧ Rolled (16 * q) y y' := by
  have hB : LSNO.getBasis [3, 3] "morlet" = .ok ⟨9, (List.replicate 9 false).set 0 true, harmonicVal 3 none 1⟩ := by
    simp [LSNO.getBasis, harmonicMask, harmonicKernelSize, Except.map]
  obtain ⟨act, outer, inner, H⟩ := C88_built env (segDefault 2 [64, 128, 256, 512] mode up) hgauss hit (.inl rfl) (.inr rfl) rfl rfl (by simp [segDefault])
    (by simp [segDefault]) (by
      intro i hi
      have hi : i < 4 := hi
      interval_cases i <;> simp [segDefault]) (by simp [segDefault]) (.inr (.inl rfl)) (by simp [segDefault]) (by simp [segDefault])
    (by norm_num [segDefault]) (by norm_num [segDefault]) (by norm_num [segDefault]) hup (by norm_num [segDefault]) _ hB (by decide)
  refine ⟨⟨act, _, outer, inner, H⟩, ?_⟩
  obtain ⟨N, hN, _⟩ := C88_shape H p
  refine ⟨N, hN, fun run run' hrun hrun' q x x' hx hr => ?_⟩
  obtain ⟨N', hN', h⟩ := C88_longitude_scale H p (by norm_num [segDefault]) (16 * q) (by norm_num [segDefault])
  rw [hN] at hN'
  cases hN'
  exact h run run' hrun hrun' x x' hx hr

/-- C88. The network of the docstring (s2segformer.py 632-641; without `use_mlp`, which is no argument) is not built: with scale factor 4 the four levels leave
128, 32, 8, 2 and no latitudes. -/
theorem C88_docstring (env : Env) (p : Seg.NetParams) (N : Seg.Net) :
    Seg.Net.init env { segDefault 4 [16, 32, 64, 128] "neighborhood" "bilinear" with inChans := 2, outChans := 2 } p ≠ .ok N :=
  C88_too_deep p (by simp [segDefault]) (by norm_num [segDefault]) N

/-- The reference kernel covers everything, and so does the optimised one that visits every row and block of columns of every head. -/
example (a : Seg.NetArgs) : Seg.RunsCover a (fun _ _ => none) := fun _ _ _ _ h => by cases h
example (a : Seg.NetArgs) (r : ℕ → CpuRun)
    (hr : ∀ i, (r i).order = (List.range (a.heads.getD i 0)).flatMap fun b => (List.range (sH a (i + 1))).flatMap fun h => (List.range (sW a (i + 1))).map fun w => (b, h, w)) :
    Seg.RunsCover a (fun i _ => some (r i)) := by
  intro i _ q k hk b hb ho hho bw hbw
  cases hk
  rw [hr]
  simp only [List.mem_flatMap, List.mem_map, List.mem_range]
  have hbw' : 64 * bw < sW a (i + 1) := hbw
  exact ⟨b, hb, ho, hho, bw, by omega, rfl⟩

/-- The sizes of the levels of the default network. -/
example : (List.range 5).map (sH (segDefault 2 [64, 128, 256, 512] "neighborhood" "conv")) = [128, 64, 32, 16, 8] ∧
    (List.range 5).map (sC (segDefault 2 [64, 128, 256, 512] "neighborhood" "conv")) = [3, 64, 128, 256, 512] := ⟨rfl, rfl⟩

end
end Verif.Props
