import Verif.Lemmas.AttentionCudaBwdOp
import Verif.Props.AttentionCuda
/-!
Property C69: the GPU backward operator of neighbourhood attention returns the gradients of the GPU forward operator, for every channel
count its launches admit, whatever kernel variants are chosen, whatever order rows, stores and atomic operations come in, and whatever
shared and fresh memory contain.
-/
namespace Verif.Props
open Verif Verif.Attn Verif.Spec.Attn Verif.AttnGpu Finset

/-- What the GPU backward operator admits. Gather direction: at least one query channel per head, at most 65535 pairs of batch entry and
head; up to 512 query channels per head 6144 query and value channels together; beyond, up to 8192 query channels, and 12288 channels
together less the warps of a block. Scatter direction: at most 3072 channels together. Grid extents are below `2 ^ 31`. -/
def GpuBwdFits (B nh Ck Cv nlatIn nlonIn nlatOut nlonOut : ℕ) : Prop :=
  if nlonIn % nlonOut = 0 then
    0 < Ck ∧ B * nh ≤ 65535 ∧
      if Ck ≤ 512 then nlatOut * nlonOut ≤ 2 * 2147483647 ∧ Ck + Cv ≤ 6144
      else nlatOut * nlonOut ≤ 2147483647 ∧ Ck ≤ 8192 ∧
        Ck + Cv + (if Ck ≤ 1024 then 2 else if Ck ≤ 2048 then 4 else if Ck ≤ 4096 then 8 else if Ck ≤ 8192 then 16 else 32) ≤ 12288
  else B * nh ≤ 65535 ∧ nlatIn * nlonIn ≤ 2 * 2147483647 ∧ nlatOut * nlonOut ≤ 2 * 2147483647 ∧ Ck + Cv ≤ 3072

section
variable {B nh Ck Cv nlatIn nlonIn nlatOut nlonOut : ℕ} {P : Pattern} {k v q : Arr}

theorem gpuBwdFits_gather (F : OpFits B nh Ck Cv nlatIn nlonIn nlatOut nlonOut P k v q) (hg : nlonIn % nlonOut = 0) :
    GpuBwdFits B nh Ck Cv nlatIn nlonIn nlatOut nlonOut ↔ 0 < Ck ∧ GatherBwdLaunch (B * nh) Ck Cv (nlatOut * nlonOut) := by
  have h1 := Nat.mul_pos F.posB F.posn
  have h2 := Nat.mul_pos F.poslatOut F.poslonOut
  unfold GpuBwdFits GatherBwdLaunch fwdWarps
  rw [if_pos hg]
  exact ⟨fun ⟨h, h'⟩ => ⟨h, h2, h1, h'⟩, fun ⟨h, _, _, h'⟩ => ⟨h, h'⟩⟩

theorem gpuBwdFits_scatter (F : OpFits B nh Ck Cv nlatIn nlonIn nlatOut nlonOut P k v q) (hg : ¬ nlonIn % nlonOut = 0) :
    GpuBwdFits B nh Ck Cv nlatIn nlonIn nlatOut nlonOut ↔ ScatterBwdLaunch ⟨B, Ck, Cv, nlatIn, nlonIn, nlatOut, nlonOut⟩ nh := by
  have h1 := Nat.mul_pos F.posB F.posn
  have h2 := Nat.mul_pos F.poslatOut F.poslonOut
  have h3 := Nat.mul_pos F.poslatIn F.poslonIn
  rw [scatterBwdLaunch_iff]
  unfold GpuBwdFits
  rw [if_neg hg]
  dsimp only
  exact ⟨fun h => ⟨h3, h2, h1, h⟩, fun h => h.2.2.2⟩

theorem folded_headView {x : Arr} {B H W nh C : ℕ} (hx : x.shape = [B, H, W, nh * C]) : Folded B nh C H W (headView H W nh C x.data) x :=
  fun _ _ _ hn _ _ _ _ _ _ => headView_at hx hn _ _ _

/-- The backward operator accepts its input, and every entry of its three results is given by the gradient formulas. -/
theorem gpuOpBwd_ok (F : OpFits B nh Ck Cv nlatIn nlonIn nlatOut nlonOut P k v q) (w : ℕ → ℝ) (dy : Arr) (r : BwdRun)
    (hr : RunOk r.toGpuRun nlatOut) (hl : GpuBwdFits B nh Ck Cv nlatIn nlonIn nlatOut nlonOut) :
    ∃ dk dv dq, gpuOpBwd r w P nh nlonIn nlatOut nlonOut k v q dy = .ok (dk, dv, dq) ∧
      dk.shape = k.shape ∧ dv.shape = v.shape ∧ dq.shape = q.shape ∧
      Folded B nh Ck nlatIn nlonIn (gradK Ck Cv w (opNbrs P nlatIn nlonIn nlonOut) nlatOut nlonOut (headView nlatIn nlonIn nh Ck k.data)
        (headView nlatIn nlonIn nh Cv v.data) (headView nlatOut nlonOut nh Ck q.data) (headView nlatOut nlonOut nh Cv dy.data)) dk ∧
      Folded B nh Cv nlatIn nlonIn (gradV Ck w (opNbrs P nlatIn nlonIn nlonOut) nlatOut nlonOut (headView nlatIn nlonIn nh Ck k.data)
        (headView nlatOut nlonOut nh Ck q.data) (headView nlatOut nlonOut nh Cv dy.data)) dv ∧
      Folded B nh Ck nlatOut nlonOut (gradQ Ck Cv w (opNbrs P nlatIn nlonIn nlonOut) (headView nlatIn nlonIn nh Ck k.data)
        (headView nlatIn nlonIn nh Cv v.data) (headView nlatOut nlonOut nh Ck q.data) (headView nlatOut nlonOut nh Cv dy.data)) dq := by
  have fin : ∀ (C H W : ℕ) (s : List ℕ) (f : T4) (a : ℕ → ℝ), s = [B, H, W, nh * C] →
      (∀ bh < B * nh, ∀ c < C, ∀ h < H, ∀ w < W, headView H W nh C a bh c h w = f bh c h w) → Folded B nh C H W f ⟨s, a⟩ := by
    intro C H W s f a hs ha b hb n hn c hc h hh w hw
    rw [← ha (b * nh + n) (packed_lt hb hn) c hc h hh w hw, show a = (⟨s, a⟩ : Arr).data from rfl, headView_at hs hn]
    rfl
  by_cases hg : nlonIn % nlonOut = 0
  · have hfit := F.fits
    rw [if_pos hg] at hfit
    have hs := (gpuBwdFits_gather F hg).1 hl
    obtain ⟨g, g1, g2, g3, g4⟩ := gpuBwdGather_eq (r := r) (d := ⟨B, Ck, Cv, nlatIn, nlonIn, nlatOut, nlonOut⟩) (nh := nh)
      (x := ⟨w, P, k.data, v.data, q.data, dy.data⟩) F.posn hr F.poslonIn hfit hs.1 hs.2
    have hnb : opNbrs P nlatIn nlonIn nlonOut = gatherNbrs P nlonIn (nlonIn / nlonOut) := by
      funext ho wo
      unfold opNbrs
      rw [if_pos hg]
    rw [hnb]
    refine ⟨⟨k.shape, g.dk⟩, ⟨v.shape, g.dv⟩, ⟨q.shape, g.dq⟩, ?_, rfl, rfl, rfl, fin _ _ _ _ _ _ F.hk g2, fin _ _ _ _ _ _ F.hv g3,
      fin _ _ _ _ _ _ F.hq g4⟩
    unfold gpuOpBwd
    rw [gpuChecks_ok F, bind_ok]
    dsimp only
    rw [gpuDims_eq F, decide_eq_true hg, if_pos rfl, g1]
    rfl
  · have hfit := F.fits
    rw [if_neg hg] at hfit
    obtain ⟨g, g1, g2, g3, g4⟩ := gpuBwdScatter_eq (r := r) (d := ⟨B, Ck, Cv, nlatIn, nlonIn, nlatOut, nlonOut⟩) (nh := nh)
      (x := ⟨w, P, k.data, v.data, q.data, dy.data⟩) F.posn hr.perm hfit (F.dir.resolve_left hg) F.poslonOut ((gpuBwdFits_scatter F hg).1 hl)
    have hnb : opNbrs P nlatIn nlonIn nlonOut = scatterNbrs P nlatIn nlonIn nlonOut (nlonOut / nlonIn) := by
      funext ho wo
      unfold opNbrs
      rw [if_neg hg]
    rw [hnb]
    refine ⟨⟨k.shape, g.dk⟩, ⟨v.shape, g.dv⟩, ⟨q.shape, g.dq⟩, ?_, rfl, rfl, rfl, fin _ _ _ _ _ _ F.hk g2, fin _ _ _ _ _ _ F.hv g3,
      fin _ _ _ _ _ _ F.hq g4⟩
    unfold gpuOpBwd
    rw [gpuChecks_ok F, bind_ok]
    dsimp only
    rw [gpuDims_eq F, decide_eq_false hg, if_neg (by simp), g1]
    rfl

/-- C69: along every direction, the derivative of the inner product of `dy` with the forward output is the inner product of the direction
with what the backward operator returns. The forward and backward runs are unrelated: any schedules, any memory contents. -/
theorem C69_gradient_gpu (F : OpFits B nh Ck Cv nlatIn nlonIn nlatOut nlonOut P k v q) (w : ℕ → ℝ) (hw : ∀ hi < nlatIn, 0 < w hi)
    (hne : ∀ ho < nlatOut, ∀ wo < nlonOut, opNbrs P nlatIn nlonIn nlonOut ho wo ≠ []) (dy : Arr)
    (hdy : dy.shape = [B, nlatOut, nlonOut, nh * Cv]) (rf : GpuRun) (hrf : RunOk rf nlatOut) (r : BwdRun) (hr : RunOk r.toGpuRun nlatOut)
    (hlf : GpuFits B nh Ck Cv nlatIn nlonIn nlatOut nlonOut) (hl : GpuBwdFits B nh Ck Cv nlatIn nlonIn nlatOut nlonOut) :
    ∃ dk dv dq, gpuOpBwd r w P nh nlonIn nlatOut nlonOut k v q dy = .ok (dk, dv, dq) ∧
      dk.shape = k.shape ∧ dv.shape = v.shape ∧ dq.shape = q.shape ∧
      ∀ δk δv δq : Arr, δk.shape = k.shape → δv.shape = v.shape → δq.shape = q.shape →
        ∃ y : ℝ → Arr, (∀ t, gpuOp rf w P nh nlonIn nlatOut nlonOut (lineArr k δk t) (lineArr v δv t) (lineArr q δq t) = .ok (y t)) ∧
          HasDerivAt (fun t => packedInner B nlatOut nlonOut (nh * Cv) dy (y t))
            (packedInner B nlatIn nlonIn (nh * Ck) dk δk + packedInner B nlatIn nlonIn (nh * Cv) dv δv
              + packedInner B nlatOut nlonOut (nh * Ck) dq δq) 0 := by
  obtain ⟨dk, dv, dq, h1, h2, h3, h4, g1, g2, g3⟩ := gpuOpBwd_ok F w dy r hr hl
  refine ⟨dk, dv, dq, h1, h2, h3, h4, fun δk δv δq sk sv sq => ?_⟩
  have hy := fun t => C68_operator_gpu (F.line δk δv δq t) w rf hrf hlf
  choose y e1 e2 e3 e4 using hy
  refine ⟨y, e1, packed_hasDerivAt F w (folded_headView F.hk) (folded_headView F.hv) (folded_headView F.hq) (folded_headView hdy) g1 g2 g3 sk sv sq
    (fun a b c => attention_hasDerivAt (B * nh) Ck Cv nlatIn nlonIn nlatOut nlonOut w (opNbrs P nlatIn nlonIn nlonOut) _ _ _ _ a b c
      (fun ho hho wo _ p hp => opNbrs_inside F hho wo p hp) fun b _ ho hho wo hwo => ?_) y e3⟩
  exact (weight_sum_pos (hne ho hho wo hwo) (fun p hp => hw _ (opNbrs_inside F hho wo p hp).1) _).ne'

/-- C69: two backward runs return the same three tensors, whatever differs between them in memory contents, alignment and order of
execution. -/
theorem C69_deterministic (F : OpFits B nh Ck Cv nlatIn nlonIn nlatOut nlonOut P k v q) (w : ℕ → ℝ) (dy : Arr) (r r' : BwdRun)
    (hr : RunOk r.toGpuRun nlatOut) (hr' : RunOk r'.toGpuRun nlatOut) (hl : GpuBwdFits B nh Ck Cv nlatIn nlonIn nlatOut nlonOut) :
    ∃ dk dv dq dk' dv' dq', gpuOpBwd r w P nh nlonIn nlatOut nlonOut k v q dy = .ok (dk, dv, dq) ∧
      gpuOpBwd r' w P nh nlonIn nlatOut nlonOut k v q dy = .ok (dk', dv', dq') ∧ SameTensor dk dk' ∧ SameTensor dv dv' ∧ SameTensor dq dq' := by
  obtain ⟨dk, dv, dq, h1, h2, h3, h4, g1, g2, g3⟩ := gpuOpBwd_ok F w dy r hr hl
  obtain ⟨dk', dv', dq', h1', h2', h3', h4', g1', g2', g3'⟩ := gpuOpBwd_ok F w dy r' hr' hl
  have fin : ∀ {C H W : ℕ} {f : T4} {x x' : Arr} {s : List ℕ}, s = [B, H, W, nh * C] → x.shape = s → x'.shape = s → Folded B nh C H W f x →
      Folded B nh C H W f x' → SameTensor x x' := by
    intro C H W f x x' s hs e e' h h'
    refine ⟨by rw [e, e'], fun i hi => ?_⟩
    rw [e, hs] at hi
    obtain ⟨b, a, c, j, rfl, hb, ha, hc, hj⟩ := inside4_iff hi
    obtain ⟨e1, e2, e3⟩ := packed_split hj
    rw [← e3, ← h b hb _ e1 _ e2 a ha c hc, ← h' b hb _ e1 _ e2 a ha c hc]
  exact ⟨dk, dv, dq, dk', dv', dq', h1, h1', fin F.hk h2 h2' g1 g1', fin F.hv h3 h3' g2 g2', fin F.hq h4 h4' g3 g3'⟩

/-- A tensor whose inner product with every tensor is that of another is the other. -/
theorem sameTensor_of_inner {B H W N : ℕ} {x x' : Arr} (hx : x.shape = [B, H, W, N]) (hx' : x'.shape = [B, H, W, N])
    (h : ∀ δ : Arr, δ.shape = [B, H, W, N] → packedInner B H W N x δ = packedInner B H W N x' δ) : SameTensor x x' := by
  have e := h ⟨[B, H, W, N], fun i => x.data i - x'.data i⟩ rfl
  have hat : ∀ i, (⟨[B, H, W, N], fun i => x.data i - x'.data i⟩ : Arr).at i = x.at i - x'.at i := by
    intro i
    unfold Arr.at
    rw [hx, hx']
  have h0 : ∑ b ∈ range B, ∑ h ∈ range H, ∑ w ∈ range W, ∑ j ∈ range N, (x.at [b, h, w, j] - x'.at [b, h, w, j]) ^ 2 = 0 := by
    unfold packedInner at e
    simp only [hat] at e
    rw [← sub_eq_zero] at e
    simp only [← sum_sub_distrib] at e
    rw [← e]
    refine sum_congr rfl fun b _ => sum_congr rfl fun h _ => sum_congr rfl fun w _ => sum_congr rfl fun j _ => by ring
  refine ⟨by rw [hx, hx'], fun i hi => ?_⟩
  rw [hx] at hi
  obtain ⟨b, a, c, j, rfl, hb, ha, hc, hj⟩ := inside4_iff hi
  have n1 : ∀ b h w, 0 ≤ ∑ j ∈ range N, (x.at [b, h, w, j] - x'.at [b, h, w, j]) ^ 2 := fun b h w => sum_nonneg fun j _ => sq_nonneg _
  have n2 : ∀ b h, 0 ≤ ∑ w ∈ range W, ∑ j ∈ range N, (x.at [b, h, w, j] - x'.at [b, h, w, j]) ^ 2 := fun b h => sum_nonneg fun w _ => n1 b h w
  have n3 : ∀ b, 0 ≤ ∑ h ∈ range H, ∑ w ∈ range W, ∑ j ∈ range N, (x.at [b, h, w, j] - x'.at [b, h, w, j]) ^ 2 := fun b => sum_nonneg fun h _ => n2 b h
  rw [sum_eq_zero_iff_of_nonneg fun b _ => n3 b] at h0
  have h1 := h0 b (mem_range.2 hb)
  rw [sum_eq_zero_iff_of_nonneg fun h _ => n2 b h] at h1
  have h2 := h1 a (mem_range.2 ha)
  rw [sum_eq_zero_iff_of_nonneg fun w _ => n1 b a w] at h2
  have h3 := h2 c (mem_range.2 hc)
  rw [sum_eq_zero_iff_of_nonneg fun j _ => sq_nonneg _] at h3
  exact sub_eq_zero.1 (pow_eq_zero_iff (two_ne_zero) |>.1 (h3 j (mem_range.2 hj)))

/-- C69: the GPU and the CPU backward operators return the same three tensors. -/
theorem C69_operators_agree (F : OpFits B nh Ck Cv nlatIn nlonIn nlatOut nlonOut P k v q) (w : ℕ → ℝ) (hw : ∀ hi < nlatIn, 0 < w hi)
    (hne : ∀ ho < nlatOut, ∀ wo < nlonOut, opNbrs P nlatIn nlonIn nlonOut ho wo ≠ []) (dy : Arr)
    (hdy : dy.shape = [B, nlatOut, nlonOut, nh * Cv]) (rf : GpuRun) (hrf : RunOk rf nlatOut) (r : BwdRun) (hr : RunOk r.toGpuRun nlatOut)
    (hlf : GpuFits B nh Ck Cv nlatIn nlonIn nlatOut nlonOut) (hl : GpuBwdFits B nh Ck Cv nlatIn nlonIn nlatOut nlonOut) (rc : CpuRun)
    (hrc : CpuRun.Complete rc ⟨B * nh, Ck, Cv, nlatIn, nlonIn, nlatOut, nlonOut⟩) :
    ∃ dk dv dq dk' dv' dq', gpuOpBwd r w P nh nlonIn nlatOut nlonOut k v q dy = .ok (dk, dv, dq) ∧
      cpuOpBwd rc w P nh nlonIn nlatOut nlonOut k v q dy = .ok (dk', dv', dq') ∧ SameTensor dk dk' ∧ SameTensor dv dv' ∧ SameTensor dq dq' := by
  obtain ⟨dk, dv, dq, h1, h2, h3, h4, H⟩ := C69_gradient_gpu F w hw hne dy hdy rf hrf r hr hlf hl
  obtain ⟨dk', dv', dq', h1', h2', h3', h4', H'⟩ := C44_gradient_cpu F w hw hne dy hdy rc hrc
  have key : ∀ δk δv δq : Arr, δk.shape = k.shape → δv.shape = v.shape → δq.shape = q.shape →
      packedInner B nlatIn nlonIn (nh * Ck) dk δk + packedInner B nlatIn nlonIn (nh * Cv) dv δv + packedInner B nlatOut nlonOut (nh * Ck) dq δq
      = packedInner B nlatIn nlonIn (nh * Ck) dk' δk + packedInner B nlatIn nlonIn (nh * Cv) dv' δv
        + packedInner B nlatOut nlonOut (nh * Ck) dq' δq := by
    intro δk δv δq sk sv sq
    obtain ⟨y, y1, y2⟩ := H δk δv δq sk sv sq
    obtain ⟨z, z1, z2⟩ := H' δk δv δq sk sv sq
    refine y2.unique (z2.congr_of_eventuallyEq (Filter.Eventually.of_forall fun t => ?_))
    dsimp only
    obtain ⟨a, b, c, a1, -, c1, -, hs⟩ := C68_operators_agree (F.line δk δv δq t) w rf hrf hlf rc hrc.fwd
    obtain ⟨a', a1', s', -, -⟩ := C68_operator_gpu (F.line δk δv δq t) w rf hrf hlf
    rw [y1] at a1 a1'
    rw [z1] at c1
    cases a1
    cases c1
    cases a1'
    unfold packedInner
    refine sum_congr rfl fun b hb => sum_congr rfl fun h hh => sum_congr rfl fun w hw => sum_congr rfl fun j hj => ?_
    rw [mem_range] at hb hh hw hj
    rw [hs.2 [b, h, w, j] (by rw [s']; exact inside4 hb hh hw hj)]
  have zero : ∀ (B H W N : ℕ) (x : Arr) (s : List ℕ), packedInner B H W N x ⟨s, fun _ => 0⟩ = 0 := by
    intro B H W N x s
    unfold packedInner Arr.at
    simp
  refine ⟨dk, dv, dq, dk', dv', dq', h1, h1', ?_, ?_, ?_⟩
  · refine sameTensor_of_inner (by rw [h2, F.hk]) (by rw [h2', F.hk]) fun δ hδ => ?_
    have := key δ ⟨v.shape, fun _ => 0⟩ ⟨q.shape, fun _ => 0⟩ (by rw [hδ, F.hk]) rfl rfl
    simpa only [zero, add_zero] using this
  · refine sameTensor_of_inner (by rw [h3, F.hv]) (by rw [h3', F.hv]) fun δ hδ => ?_
    have := key ⟨k.shape, fun _ => 0⟩ δ ⟨q.shape, fun _ => 0⟩ rfl (by rw [hδ, F.hv]) rfl
    simpa only [zero, add_zero, zero_add] using this
  · refine sameTensor_of_inner (by rw [h4, F.hq]) (by rw [h4', F.hq]) fun δ hδ => ?_
    have := key ⟨k.shape, fun _ => 0⟩ ⟨v.shape, fun _ => 0⟩ δ rfl rfl (by rw [hδ, F.hq])
    simpa only [zero, add_zero, zero_add] using this

/-- C69, the limits are sharp: beyond them the process ends. -/
theorem C69_refused (F : OpFits B nh Ck Cv nlatIn nlonIn nlatOut nlonOut P k v q) (w : ℕ → ℝ) (dy : Arr) (r : BwdRun)
    (hr : RunOk r.toGpuRun nlatOut) (hk : 0 < Ck) (hl : ¬ GpuBwdFits B nh Ck Cv nlatIn nlonIn nlatOut nlonOut) :
    gpuOpBwd r w P nh nlonIn nlatOut nlonOut k v q dy = .error .processExit := by
  unfold gpuOpBwd
  rw [gpuChecks_ok F, bind_ok]
  dsimp only
  rw [gpuDims_eq F]
  by_cases hg : nlonIn % nlonOut = 0
  · rw [gpuBwdFits_gather F hg] at hl
    rw [decide_eq_true hg, if_pos rfl, gpuBwdGather_refused hk fun h => hl ⟨hk, h⟩]
    rfl
  · have hfit := F.fits
    rw [if_neg hg] at hfit
    rw [gpuBwdFits_scatter F hg] at hl
    rw [decide_eq_false hg, if_neg (by simp), gpuBwdScatter_refused F.posn hr.perm hfit (F.dir.resolve_left hg) F.poslonOut hl]
    rfl

/-- C69, the kernel for more than 8192 query channels per head never runs: its shared memory always exceeds the limit. -/
theorem C69_generic_never (F : OpFits B nh Ck Cv nlatIn nlonIn nlatOut nlonOut P k v q) (w : ℕ → ℝ) (dy : Arr) (r : BwdRun)
    (hr : RunOk r.toGpuRun nlatOut) (hg : nlonIn % nlonOut = 0) (hk : 8192 < Ck) :
    gpuOpBwd r w P nh nlonIn nlatOut nlonOut k v q dy = .error .processExit := by
  refine C69_refused F w dy r hr (by omega) ?_
  unfold GpuBwdFits
  rw [if_pos hg, if_neg (by omega)]
  omega

/-- C69: upsampling with between 3073 and 6144 channels per head, the forward operator returns its result and the backward operator ends
the process. -/
theorem C69_forward_only_scatter (F : OpFits B nh Ck Cv nlatIn nlonIn nlatOut nlonOut P k v q) (w : ℕ → ℝ) (dy : Arr) (rf : GpuRun)
    (hrf : RunOk rf nlatOut) (r : BwdRun) (hr : RunOk r.toGpuRun nlatOut) (hg : ¬ nlonIn % nlonOut = 0) (hk : 0 < Ck) (hB : B * nh ≤ 65535)
    (h1 : nlatIn * nlonIn ≤ 2 * 2147483647) (h2 : nlatOut * nlonOut ≤ 2 * 2147483647) (h3 : 3072 < Ck + Cv) (h4 : Ck + Cv ≤ 6144) :
    (∃ y, gpuOp rf w P nh nlonIn nlatOut nlonOut k v q = .ok y) ∧
      gpuOpBwd r w P nh nlonIn nlatOut nlonOut k v q dy = .error .processExit := by
  refine ⟨?_, C69_refused F w dy r hr hk ?_⟩
  · obtain ⟨y, hy, -⟩ := C68_operator_gpu F w rf hrf (by unfold GpuFits; rw [if_neg hg]; exact ⟨hB, h1, h2, h4⟩)
    exact ⟨y, hy⟩
  · unfold GpuBwdFits
    rw [if_neg hg]
    omega

/-- C69: in the gather direction, the same for up to 512 query and between 6144 and 16384 value channels per head. -/
theorem C69_forward_only_gather (F : OpFits B nh Ck Cv nlatIn nlonIn nlatOut nlonOut P k v q) (w : ℕ → ℝ) (dy : Arr) (rf : GpuRun)
    (hrf : RunOk rf nlatOut) (r : BwdRun) (hr : RunOk r.toGpuRun nlatOut) (hg : nlonIn % nlonOut = 0) (hk : 0 < Ck) (hk' : Ck ≤ 512)
    (hB : B * nh ≤ 65535) (h2 : nlatOut * nlonOut ≤ 2147483647) (h3 : 6144 ≤ Cv) (h4 : Cv ≤ 16384) :
    (∃ y, gpuOp rf w P nh nlonIn nlatOut nlonOut k v q = .ok y) ∧
      gpuOpBwd r w P nh nlonIn nlatOut nlonOut k v q dy = .error .processExit := by
  refine ⟨?_, C69_refused F w dy r hr hk ?_⟩
  · obtain ⟨y, hy, -⟩ := C68_operator_gpu F w rf hrf (by
      unfold GpuFits
      rw [if_pos hg, if_neg (by omega)]
      exact Or.inr ⟨hB, h2, h4, by split_ifs <;> omega⟩)
    exact ⟨y, hy⟩
  · unfold GpuBwdFits
    rw [if_pos hg, if_pos hk']
    omega

/-- C69 fails without query channels: in the gather direction the backward operator launches nothing and returns zero gradients, although
the output, the weighted mean of the values, depends on the values: adding `t` to every value adds `t` to every entry of the output. -/
theorem C69_no_query_channels (F : OpFits B nh 0 Cv nlatIn nlonIn nlatOut nlonOut P k v q) (w : ℕ → ℝ) (hw : ∀ hi < nlatIn, 0 < w hi)
    (hne : ∀ ho < nlatOut, ∀ wo < nlonOut, opNbrs P nlatIn nlonIn nlonOut ho wo ≠ []) (rf : GpuRun) (hrf : RunOk rf nlatOut) (r : BwdRun)
    (hg : nlonIn % nlonOut = 0) (hlf : GpuFits B nh 0 Cv nlatIn nlonIn nlatOut nlonOut) (dy : Arr) :
    gpuOpBwd r w P nh nlonIn nlatOut nlonOut k v q dy = .ok (⟨k.shape, fun _ => 0⟩, ⟨v.shape, fun _ => 0⟩, ⟨q.shape, fun _ => 0⟩) ∧
    ∃ y : ℝ → Arr, (∀ t, gpuOp rf w P nh nlonIn nlatOut nlonOut k (lineArr v ⟨v.shape, fun _ => 1⟩ t) q = .ok (y t)) ∧
      ∀ t, ∀ b < B, ∀ n < nh, ∀ c < Cv, ∀ ho < nlatOut, ∀ wo < nlonOut,
        (y t).at [b, ho, wo, n * Cv + c] = (y 0).at [b, ho, wo, n * Cv + c] + t := by
  constructor
  · unfold gpuOpBwd
    rw [gpuChecks_ok F, bind_ok]
    dsimp only
    rw [gpuDims_eq F, decide_eq_true hg, if_pos rfl, gpuBwdGather_none rfl]
    rfl
  · have F' : ∀ t, OpFits B nh 0 Cv nlatIn nlonIn nlatOut nlonOut P k (lineArr v ⟨v.shape, fun _ => 1⟩ t) q := fun t =>
      ⟨F.hk, F.hv, F.hq, F.posB, F.posn, F.poslatIn, F.poslonIn, F.poslatOut, F.poslonOut, F.dir, F.fits⟩
    have hy := fun t => C68_operator_gpu (F' t) w rf hrf hlf
    choose y e1 e2 e3 e4 using hy
    refine ⟨y, e1, fun t b hb n hn c hc ho hho wo hwo => ?_⟩
    rw [e3 t b hb n hn c hc ho hho wo hwo, e3 0 b hb n hn c hc ho hho wo hwo]
    have hZ := weight_sum_pos (hne ho hho wo hwo) (fun p hp => hw _ (opNbrs_inside F hho wo p hp).1)
      (score 0 (packedHead 0 n k) (packedHead 0 n q) b ho wo)
    have hat : ∀ (t : ℝ) (p : ℕ × ℕ), packedHead Cv n (lineArr v ⟨v.shape, fun _ => 1⟩ t) b c p.1 p.2 = packedHead Cv n v b c p.1 p.2 + t := by
      intro t p
      unfold packedHead
      rw [lineArr_at (show (⟨v.shape, fun _ => 1⟩ : Arr).shape = v.shape from rfl)]
      unfold Arr.at
      ring
    unfold attention softAvg
    simp only [hat, mul_add, List.sum_map_add, List.sum_map_mul_right]
    rw [add_div, add_div, mul_div_assoc _ t, mul_div_assoc _ (0 : ℝ)]
    field_simp
    ring


end

/-- C69, error branches, as for the forward operator. -/
theorem C69_errors (r : BwdRun) (w : ℕ → ℝ) (P : Pattern) (nh nlonIn nlatOut nlonOut B H W H' W' Ck Cv : ℕ) (k v q dy : Arr)
    (hv : v.shape = [B, H, W, Cv]) (hq : q.shape = [B, H', W', Ck]) :
    ((nlonIn = 0 ∨ nlonOut = 0) → gpuOpBwd r w P nh nlonIn nlatOut nlonOut k v q dy = .error .processExit) ∧
    (0 < nlonIn → 0 < nlonOut → ¬ (nlonOut ∣ nlonIn ∨ nlonIn ∣ nlonOut) →
      gpuOpBwd r w P nh nlonIn nlatOut nlonOut k v q dy = .error .runtimeError) ∧
    (0 < nlonIn → 0 < nlonOut → (nh = 0 ∨ ¬ nh ∣ Ck ∨ ¬ nh ∣ Cv) →
      gpuOpBwd r w P nh nlonIn nlatOut nlonOut k v q dy = .error .runtimeError) := by
  have lift : ∀ e, gpuChecks nh v q nlonIn nlonOut = .error e → gpuOpBwd r w P nh nlonIn nlatOut nlonOut k v q dy = .error e := by
    intro e he
    unfold gpuOpBwd
    rw [he]
    rfl
  obtain ⟨h1, h2, h3⟩ := gpuChecks_errors nh nlonIn nlonOut B H W H' W' Ck Cv v q hv hq
  exact ⟨fun h => lift _ (h1 h), fun a b h => lift _ (h2 a b h), fun a b h => lift _ (h3 a b h)⟩

/-! ### Hypotheses are met -/

/-- A backward run: rows and operations in reverse order, memory full of sevens. -/
def exBwdRun : BwdRun := { exGpuRun with wide := true, junk3 := fun _ _ _ _ _ _ => 7 }

example : RunOk exBwdRun.toGpuRun 2 := ⟨fun L => List.reverse_perm L, by decide⟩
example : GpuFits 1 2 3 2 2 4 2 2 ∧ GpuBwdFits 1 2 3 2 2 4 2 2 := by unfold GpuFits GpuBwdFits; decide
example : ¬ 4 % 8 = 0 ∧ GpuFits 1 2 3 2 2 4 1 8 ∧ GpuBwdFits 1 2 3 2 2 4 1 8 := ⟨by decide, by unfold GpuFits GpuBwdFits; decide⟩
/-- Beyond the limits of the backward operator, within those of the forward operator. -/
example : GpuFits 1 1 2000 2000 2 4 1 8 ∧ ¬ GpuBwdFits 1 1 2000 2000 2 4 1 8 := by unfold GpuFits GpuBwdFits; decide
/-- Hypotheses of `C69_no_query_channels`. -/
example : OpFits 1 2 0 2 2 4 2 2 exPattern ⟨[1, 2, 4, 0], fun i => i⟩ ⟨[1, 2, 4, 4], fun i => i⟩ ⟨[1, 2, 2, 0], fun i => i⟩ where
  hk := rfl
  hv := rfl
  hq := rfl
  posB := by decide
  posn := by decide
  poslatIn := by decide
  poslonIn := by decide
  poslatOut := by decide
  poslonOut := by decide
  dir := Or.inl rfl
  fits := by rw [if_pos rfl]; unfold Pattern.Fits; decide

end Verif.Props
