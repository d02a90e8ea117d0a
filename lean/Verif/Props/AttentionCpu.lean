import Verif.Lemmas.AttentionCpuUp
import Verif.Props.Attention
/-!
C38, C41 and C42 for the CPU kernels. `order`, `orderA`, `orderB`, `orderC` are the schedules of the OpenMP loops: arbitrary lists that
contain every iteration (for the accumulating loops: exactly once). `mem` and `loc` are what the threads left in their scratch
buffers, `fmin` is the number the running maximum starts from. Tensors of the CPU kernels are channels-last, `nchw` is their
channels-first view.
-/
namespace Verif.Props
open Verif Verif.Attn Verif.Spec.Attn Finset

/-- Every iteration of the forward loop `(b, ho, block of wo)` is scheduled. -/
def CoversBlocks (d : Dims) (order : List (ℕ × ℕ × ℕ)) : Prop :=
  ∀ b < d.B, ∀ ho < d.nlatOut, ∀ bw, 64 * bw < d.nlonOut → (b, ho, bw) ∈ order

theorem CoversBlocks.nblocks {d : Dims} {order : List (ℕ × ℕ × ℕ)} (h : CoversBlocks d order) :
    ∀ b < d.B, ∀ ho < d.nlatOut, ∀ bw < nblocks d.nlonOut, (b, ho, bw) ∈ order := by
  intro b hb ho hho bw hbw
  refine h b hb ho hho bw ?_
  unfold Attn.nblocks blockSize at hbw
  omega

theorem cpuDirection_gather {d : Dims} (h0 : 0 < d.nlonOut) (hin : 0 < d.nlonIn) (hdiv : d.nlonIn % d.nlonOut = 0) :
    cpuDirection d = .ok true := by
  unfold cpuDirection
  rw [if_neg (by omega), if_pos hdiv]

theorem cpuDirection_scatter {d : Dims} (h0 : 0 < d.nlonOut) (hin : 0 < d.nlonIn) (hnd : d.nlonIn % d.nlonOut ≠ 0)
    (hdiv : d.nlonOut % d.nlonIn = 0) : cpuDirection d = .ok false := by
  unfold cpuDirection
  rw [if_neg (by omega), if_neg hnd, if_pos hdiv]

/-- C38 for the CPU kernel: for every schedule, every content of the scratch memory and every start of the maximum, the output is the
weighted softmax average. -/
theorem C38_cpu (d : Dims) (h0 : 0 < d.nlonOut) (hin : 0 < d.nlonIn) (hdiv : d.nlonIn % d.nlonOut = 0) (w : ℕ → ℝ) (P : Pattern)
    (k v q : T4) (fmin : ℝ) (mem : ℕ × ℕ × ℕ → ℕ → ℝ) (order : List (ℕ × ℕ × ℕ)) (hord : CoversBlocks d order) :
    ∃ y, cpuForward d w P k v q fmin mem order = .ok y ∧ ∀ b < d.B, ∀ c < d.Cv, ∀ ho < d.nlatOut, ∀ wo < d.nlonOut,
      y b ho wo c = attention d.Ck w (gatherNbrs P d.nlonIn (d.nlonIn / d.nlonOut)) (nchw k) (nchw v) (nchw q) b c ho wo := by
  unfold cpuForward
  rw [cpuDirection_gather h0 hin hdiv]
  exact ⟨_, rfl, fun b hb c hc ho hho wo hwo => cpuFwdKernel_eq d hin w P k v q fmin mem order hord.nblocks hb hho hwo hc⟩

/-- C38: reference and CPU kernel agree. -/
theorem C38_cpu_is_reference (d : Dims) (h0 : 0 < d.nlonOut) (hin : 0 < d.nlonIn) (hdiv : d.nlonIn % d.nlonOut = 0) (w : ℕ → ℝ)
    (P : Pattern) (k v q : T4) (fmin : ℝ) (mem : ℕ × ℕ × ℕ → ℕ → ℝ) (order : List (ℕ × ℕ × ℕ)) (hord : CoversBlocks d order) :
    ∃ y y', cpuForward d w P k v q fmin mem order = .ok y ∧ refForward d w P (nchw k) (nchw v) (nchw q) = .ok y' ∧
      ∀ b < d.B, ∀ c < d.Cv, ∀ ho < d.nlatOut, ∀ wo < d.nlonOut, y b ho wo c = y' b c ho wo := by
  obtain ⟨y, h1, h2⟩ := C38_cpu d h0 hin hdiv w P k v q fmin mem order hord
  exact ⟨y, _, h1, C38_reference d h0 hdiv w P _ _ _, h2⟩

/-- C38, error branches of the CPU entry point. -/
theorem C38_cpu_errors (d : Dims) (w : ℕ → ℝ) (P : Pattern) (k v q dy : T4) (fmin : ℝ) (mem : ℕ × ℕ × ℕ → ℕ → ℝ)
    (order : List (ℕ × ℕ × ℕ)) (oB oC : List (ℕ × ℕ)) :
    (d.nlonOut = 0 ∨ d.nlonIn = 0 → cpuForward d w P k v q fmin mem order = .error .processExit ∧
      cpuBackward d w P k v q dy fmin mem order oB oC = .error .processExit) ∧
    (0 < d.nlonOut → 0 < d.nlonIn → d.nlonIn % d.nlonOut ≠ 0 → d.nlonOut % d.nlonIn ≠ 0 →
      cpuForward d w P k v q fmin mem order = .error .runtimeError ∧
      cpuBackward d w P k v q dy fmin mem order oB oC = .error .runtimeError) := by
  refine ⟨fun h => ?_, fun h1 h2 h3 h4 => ?_⟩
  · have : cpuDirection d = .error .processExit := by unfold cpuDirection; rw [if_pos h]
    unfold cpuForward cpuBackward
    rw [this]; exact ⟨rfl, rfl⟩
  · have : cpuDirection d = .error .runtimeError := by
      unfold cpuDirection; rw [if_neg (by omega), if_neg h3, if_neg h4]
    unfold cpuForward cpuBackward
    rw [this]; exact ⟨rfl, rfl⟩

/-- C41 for the CPU kernel: the gather-style scan with its divisibility filter computes the same scatter average. -/
theorem C41_cpu (d : Dims) (h0 : 0 < d.nlonOut) (hin : 0 < d.nlonIn) (hnd : d.nlonIn % d.nlonOut ≠ 0) (hdiv : d.nlonOut % d.nlonIn = 0)
    (w : ℕ → ℝ) (P : Pattern) (k v q : T4) (fmin : ℝ) (mem : ℕ × ℕ × ℕ → ℕ → ℝ) (order : List (ℕ × ℕ × ℕ))
    (hord : CoversBlocks d order) :
    ∃ y y', cpuForward d w P k v q fmin mem order = .ok y ∧ refUpForward d w P (nchw k) (nchw v) (nchw q) = .ok y' ∧
      ∀ b < d.B, ∀ c < d.Cv, ∀ ho < d.nlatOut, ∀ wo < d.nlonOut, y b ho wo c = y' b c ho wo ∧ y b ho wo c
        = attention d.Ck w (scatterNbrs P d.nlatIn d.nlonIn d.nlonOut (d.nlonOut / d.nlonIn)) (nchw k) (nchw v) (nchw q) b c ho wo := by
  unfold cpuForward
  rw [cpuDirection_scatter h0 hin hnd hdiv]
  refine ⟨_, _, rfl, C41_reference d hin hdiv w P _ _ _, fun b hb c hc ho hho wo hwo => ?_⟩
  have := cpuUpFwdKernel_eq d hdiv w P k v q fmin mem order hord.nblocks hb hho hwo hc
  exact ⟨this, this⟩

example : CoversBlocks exDims [(0, 1, 0), (0, 0, 0)] := by
  intro b hb ho hho bw hbw
  change b < 1 at hb
  change ho < 2 at hho
  change 64 * bw < 2 at hbw
  have h1 : b = 0 := by omega
  have h2 : bw = 0 := by omega
  have h3 : ho = 0 ∨ ho = 1 := by omega
  subst h1; subst h2
  rcases h3 with rfl | rfl <;> simp

/-! ### C42 -/

theorem inner4_nchw (B C H W : ℕ) (x y : T4) : inner4 B H W C x y = inner4 B C H W (nchw x) (nchw y) := by
  unfold inner4 nchw
  refine Finset.sum_congr rfl fun b _ => ?_
  rw [Finset.sum_congr rfl fun h _ => Finset.sum_comm (s := range W) (t := range C) (f := fun w c => x b h w c * y b h w c)]
  exact Finset.sum_comm

theorem inner4_congr_right {B C H W : ℕ} (x : T4) {y y' : T4} (h : ∀ b < B, ∀ c < C, ∀ i < H, ∀ j < W, y b c i j = y' b c i j) :
    inner4 B C H W x y = inner4 B C H W x y' := by
  unfold inner4
  refine Finset.sum_congr rfl fun b hb => Finset.sum_congr rfl fun c hc => Finset.sum_congr rfl fun i hi =>
    Finset.sum_congr rfl fun j hj => ?_
  rw [h b (mem_range.1 hb) c (mem_range.1 hc) i (mem_range.1 hi) j (mem_range.1 hj)]

/-- A schedule of the loop over all output cells. -/
def SchedCells (d : Dims) (order : List (ℕ × ℕ × ℕ)) : Prop :=
  ∀ b ho wo, (b, ho, wo) ∈ order ↔ b < d.B ∧ ho < d.nlatOut ∧ wo < d.nlonOut

/-- A schedule of a loop over batch and channels: every pair once. -/
def SchedChannels (B C : ℕ) (order : List (ℕ × ℕ)) : Prop := order.Nodup ∧ ∀ b c, (b, c) ∈ order ↔ b < B ∧ c < C

/-- C42 for the CPU kernels, gather direction: for every schedule and every content of the scratch memory the three returned
gradients are the derivative of `<dy, output>`, where the output is that of the CPU forward kernel. -/
theorem C42_cpu (d : Dims) (h0 : 0 < d.nlonOut) (hin : 0 < d.nlonIn) (hdiv : d.nlonIn % d.nlonOut = 0) (w : ℕ → ℝ)
    (hw : ∀ hi < d.nlatIn, 0 < w hi) (P : Pattern) (hfit : P.Fits d.nlatOut (d.nlatIn * d.nlonIn))
    (hrow : ∀ ho < d.nlatOut, P.row ho ≠ []) (k v q dy : T4) (fmin : ℝ) (mem loc : ℕ × ℕ × ℕ → ℕ → ℝ)
    (order : List (ℕ × ℕ × ℕ)) (hord : CoversBlocks d order) (orderA : List (ℕ × ℕ × ℕ)) (hA : SchedCells d orderA)
    (orderB orderC : List (ℕ × ℕ)) (hB : SchedChannels d.B d.Ck orderB) (hC : SchedChannels d.B d.Cv orderC) :
    ∃ (y : T4 → T4 → T4 → T4) (g : Grads), (∀ k v q, cpuForward d w P k v q fmin mem order = .ok (y k v q)) ∧
      cpuBackward d w P k v q dy fmin loc orderA orderB orderC = .ok g ∧
      ∀ δk δv δq : T4, HasDerivAt
        (fun t => inner4 d.B d.nlatOut d.nlonOut d.Cv dy (y (line k δk t) (line v δv t) (line q δq t)))
        (inner4 d.B d.nlatIn d.nlonIn d.Ck g.dk δk + inner4 d.B d.nlatIn d.nlonIn d.Cv g.dv δv
          + inner4 d.B d.nlatOut d.nlonOut d.Ck g.dq δq) 0 := by
  obtain ⟨e1, e2, e3⟩ := cpuBwdKernel_eq d w P k v q dy hdiv hin hfit fmin loc orderA orderB orderC hA hB.1 hB.2 hC.1 hC.2
  refine ⟨fun k v q => cpuFwdKernel d w P k v q fmin mem order, cpuBwdKernel d w P k v q dy fmin loc orderA orderB orderC, ?_, ?_, ?_⟩
  · intro k v q; unfold cpuForward; rw [cpuDirection_gather h0 hin hdiv]
  · unfold cpuBackward; rw [cpuDirection_gather h0 hin hdiv]
  · intro δk δv δq
    rw [inner4_nchw d.B d.Ck d.nlatIn d.nlonIn _ δk, inner4_nchw d.B d.Cv d.nlatIn d.nlonIn _ δv,
      inner4_nchw d.B d.Ck d.nlatOut d.nlonOut _ δq, inner4_congr (x := nchw (cpuBwdKernel d w P k v q dy fmin loc orderA orderB orderC).dk) (fun b hb c hc i hi j hj => e1 b hb c hc i hi j hj) (nchw δk),
      inner4_congr (x := nchw (cpuBwdKernel d w P k v q dy fmin loc orderA orderB orderC).dv) (fun b hb c hc i hi j hj => e2 b hb c hc i hi j hj) (nchw δv),
      inner4_congr (x := nchw (cpuBwdKernel d w P k v q dy fmin loc orderA orderB orderC).dq) (fun b hb c hc i hi j hj => e3 b hb c hc i hi j hj) (nchw δq)]
    have hfun : (fun t => inner4 d.B d.nlatOut d.nlonOut d.Cv dy
        ((cpuFwdKernel d w P (line k δk t) (line v δv t) (line q δq t) fmin mem order)))
        = fun t => inner4 d.B d.Cv d.nlatOut d.nlonOut (nchw dy)
          (attention d.Ck w (gatherNbrs P d.nlonIn (d.nlonIn / d.nlonOut)) (line (nchw k) (nchw δk) t) (line (nchw v) (nchw δv) t)
            (line (nchw q) (nchw δq) t)) := by
      funext t
      rw [inner4_nchw]
      exact inner4_congr_right _ fun b hb c hc ho hho wo hwo =>
        cpuFwdKernel_eq d hin w P _ _ _ fmin mem order hord.nblocks hb hho hwo hc
    rw [hfun]
    refine attention_hasDerivAt d.B d.Ck d.Cv d.nlatIn d.nlonIn d.nlatOut d.nlonOut w _ (nchw k) (nchw v) (nchw q) (nchw dy)
      (nchw δk) (nchw δv) (nchw δq)
      (fun ho hho wo _ => gatherNbrs_fits hfit hin _ hho wo) (fun b _ ho hho wo _ => ?_)
    refine (weight_sum_pos (by simpa [gatherNbrs] using hrow ho hho) (fun p hp => ?_) _).ne'
    exact hw _ (gatherNbrs_fits hfit hin _ hho wo p hp).1

/-- C42 for the CPU kernels, upsampling direction. -/
theorem C42_cpu_upsample (d : Dims) (h0 : 0 < d.nlonOut) (hin : 0 < d.nlonIn) (hnd : d.nlonIn % d.nlonOut ≠ 0)
    (hdiv : d.nlonOut % d.nlonIn = 0) (w : ℕ → ℝ)
    (hw : ∀ hi < d.nlatIn, 0 < w hi) (P : Pattern) (hfit : P.Fits d.nlatIn (d.nlatOut * d.nlonOut))
    (hne : ∀ ho < d.nlatOut, ∀ wo < d.nlonOut, scatterNbrs P d.nlatIn d.nlonIn d.nlonOut (d.nlonOut / d.nlonIn) ho wo ≠ [])
    (k v q dy : T4) (fmin : ℝ) (mem loc : ℕ × ℕ × ℕ → ℕ → ℝ)
    (order : List (ℕ × ℕ × ℕ)) (hord : CoversBlocks d order) (orderA : List (ℕ × ℕ × ℕ)) (hA : SchedCells d orderA)
    (orderB orderC : List (ℕ × ℕ)) (hB : SchedChannels d.B d.Ck orderB) (hC : SchedChannels d.B d.Cv orderC) :
    ∃ (y : T4 → T4 → T4 → T4) (g : Grads), (∀ k v q, cpuForward d w P k v q fmin mem order = .ok (y k v q)) ∧
      cpuBackward d w P k v q dy fmin loc orderA orderB orderC = .ok g ∧
      ∀ δk δv δq : T4, HasDerivAt
        (fun t => inner4 d.B d.nlatOut d.nlonOut d.Cv dy (y (line k δk t) (line v δv t) (line q δq t)))
        (inner4 d.B d.nlatIn d.nlonIn d.Ck g.dk δk + inner4 d.B d.nlatIn d.nlonIn d.Cv g.dv δv
          + inner4 d.B d.nlatOut d.nlonOut d.Ck g.dq δq) 0 := by
  obtain ⟨e1, e2, e3⟩ := cpuUpBwdKernel_eq d w P k v q dy hdiv h0 hfit fmin loc orderA orderB orderC hA hB.1 hB.2 hC.1 hC.2
  refine ⟨fun k v q => cpuUpFwdKernel d w P k v q fmin mem order, cpuUpBwdKernel d w P k v q dy fmin loc orderA orderB orderC, ?_, ?_, ?_⟩
  · intro k v q; unfold cpuForward; rw [cpuDirection_scatter h0 hin hnd hdiv]
  · unfold cpuBackward; rw [cpuDirection_scatter h0 hin hnd hdiv]
  · intro δk δv δq
    rw [inner4_nchw d.B d.Ck d.nlatIn d.nlonIn _ δk, inner4_nchw d.B d.Cv d.nlatIn d.nlonIn _ δv,
      inner4_nchw d.B d.Ck d.nlatOut d.nlonOut _ δq, inner4_congr (x := nchw (cpuUpBwdKernel d w P k v q dy fmin loc orderA orderB orderC).dk) (fun b hb c hc i hi j hj => e1 b hb c hc i hi j hj) (nchw δk),
      inner4_congr (x := nchw (cpuUpBwdKernel d w P k v q dy fmin loc orderA orderB orderC).dv) (fun b hb c hc i hi j hj => e2 b hb c hc i hi j hj) (nchw δv),
      inner4_congr (x := nchw (cpuUpBwdKernel d w P k v q dy fmin loc orderA orderB orderC).dq) (fun b hb c hc i hi j hj => e3 b hb c hc i hi j hj) (nchw δq)]
    have hfun : (fun t => inner4 d.B d.nlatOut d.nlonOut d.Cv dy
        ((cpuUpFwdKernel d w P (line k δk t) (line v δv t) (line q δq t) fmin mem order)))
        = fun t => inner4 d.B d.Cv d.nlatOut d.nlonOut (nchw dy)
          (attention d.Ck w (upNb d P) (line (nchw k) (nchw δk) t) (line (nchw v) (nchw δv) t)
            (line (nchw q) (nchw δq) t)) := by
      funext t
      rw [inner4_nchw]
      exact inner4_congr_right _ fun b hb c hc ho hho wo hwo =>
        cpuUpFwdKernel_eq d hdiv w P _ _ _ fmin mem order hord.nblocks hb hho hwo hc
    rw [hfun]
    refine attention_hasDerivAt d.B d.Ck d.Cv d.nlatIn d.nlonIn d.nlatOut d.nlonOut w _ (nchw k) (nchw v) (nchw q) (nchw dy)
      (nchw δk) (nchw δv) (nchw δq)
      (fun ho hho wo _ p hp => mem_scatterNbrs hp) (fun b _ ho hho wo hwo => ?_)
    exact (weight_sum_pos (hne ho hho wo hwo) (fun p hp => hw _ (mem_scatterNbrs hp).1) _).ne'

/-- The schedules the hypotheses speak of exist: the sequential loop is one. -/
theorem sched_exists (B C : ℕ) : ∃ order, SchedChannels B C order := by
  refine ⟨(List.range B) ×ˢ (List.range C), List.Nodup.product List.nodup_range List.nodup_range, fun b c => ?_⟩
  rw [show ((b, c) ∈ List.range B ×ˢ List.range C ↔ _) from List.pair_mem_product, List.mem_range, List.mem_range]

example : SchedCells exDims [(0, 0, 0), (0, 1, 1), (0, 0, 1), (0, 1, 0)] := by
  intro b ho wo
  simp only [List.mem_cons, Prod.mk.injEq, List.not_mem_nil, or_false, exDims]
  omega

end Verif.Props
