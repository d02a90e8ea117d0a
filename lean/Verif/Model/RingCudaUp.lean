import Verif.Model.RingCuda
import Verif.Model.DistAttentionBwd
/-!
Model of the GPU kernels behind the steps of distributed neighbourhood attention in the upsampling direction,
`attention/optimized/kernels_cuda/attention_cuda_fwd_ring_upsample.cu` and `attention_cuda_bwd_ring_upsample.cu`, thread by thread.

Conventions are those of `Model.RingCuda` and `Model.AttentionCuda`. A warp works on one point. What a thread finds in shared memory where it has not written itself is
arbitrary. Atomic operations and stores of all warps happen in any order. The kernels of a call run one after the other. The threads of one warp of the kernel `rescale`
load before thread 0 of the warp stores. Row offsets do not decrease. Weights are read at an integer index, which may be negative.
-/
namespace Verif.RingGpuUp
open Verif Verif.Attn Verif.Spec.Attn Verif.AttnGpu Verif.Ring Verif.RingGpu

/-- The integer arguments of the kernels, attention_cuda_fwd_ring_upsample.cu 109-113 and 186-192, attention_cuda_bwd_ring_upsample.cu 91-98 and 164-171. -/
structure UParams where
  nci : ℕ
  nco : ℕ
  nlatHalo : ℕ
  nlonKx : ℕ
  nlonOutG : ℕ
  pscaleOut : ℕ
  lonLo : ℕ
  start : ℤ
  nlatOut : ℕ
  nlonOut : ℕ

/-- What a call depends on besides its arguments: the contents of shared memory for every kernel, batch entry, warp and thread, and the orders in which the stores and
atomic operations on every array take effect. -/
structure URun where
  junk : ℕ → ℕ → ℕ → ShJunk
  perm : ℕ → List (ℕ × ℝ) → List (ℕ × ℝ)
  permM : ℕ → List (ℕ × Option ℝ) → List (ℕ × Option ℝ)

/-! ### Compare and swap -/

/-- Where a thread is in `ring_up_atomicMaxf`: before its load, before the test of the loop with `old`, at its end. -/
inductive CasPc where
  | start
  | loop (old : Option ℝ)
  | done

/-- The number in memory, and where the threads are. -/
structure CasState where
  mem : Option ℝ
  pc : ℕ → CasPc

/-- `val > old`, with minus infinity. -/
def exceeds (v : ℝ) (old : Option ℝ) : Prop := ∀ o ∈ old, o < v

open Classical in
/-- One step of thread `t`, which has the value `v t`, in `ring_up_atomicMaxf`, attention_cuda_fwd_ring_upsample.cu 85-95 (the same loop is in
attention_cuda_fwd_upsample.cu 89-99, attention_cuda_bwd_upsample.cu 94-104 and, with the test inside, attention_cuda_utils.cuh 209-221): the load, or one turn of the loop. `atomicCAS` compares and stores in one step and
returns what it found. -/
noncomputable def casStep (v : ℕ → ℝ) (s : CasState) (t : ℕ) : CasState :=
  match s.pc t with
  | .start => { s with pc := Function.update s.pc t (.loop s.mem) }
  | .loop old =>
    if exceeds (v t) old then
      if s.mem = old then ⟨some (v t), Function.update s.pc t .done⟩
      else { s with pc := Function.update s.pc t (.loop s.mem) }
    else { s with pc := Function.update s.pc t .done }
  | .done => s

/-! ### What a warp does -/

/-- The output points of this rank that the row of a chunk cell names, attention_cuda_fwd_ring_upsample.cu 137-142 and 224-229, attention_cuda_bwd_ring_upsample.cu 132-137 and 214-219. -/
def hits (p : UParams) (P : Pattern) (hi wi : ℕ) : List (ℕ × ℕ) :=
  (P.row hi).filterMap fun z =>
    let ho := P.col z / p.nlonOutG
    match upLocalWo (P.col z - ho * p.nlonOutG) (p.lonLo + wi) p.pscaleOut p.nlonOutG p.nlonOut with
    | none => none
    | some wo => some (ho, wo)

/-- Where the `C` numbers of a chunk cell start, attention_cuda_fwd_ring_upsample.cu 131 and 211-212. -/
def inAt (p : UParams) (C b hi wi : ℕ) : ℕ := b * p.nlatHalo * p.nlonKx * C + (hi * p.nlonKx + wi) * C

/-- Where the `C` numbers of an output point start, attention_cuda_fwd_ring_upsample.cu 132, 144, 213, 216, 232 and 240. -/
def outAt (p : UParams) (C b : ℕ) (x : ℕ × ℕ) : ℕ := b * p.nlatOut * p.nlonOut * C + (x.1 * p.nlonOut + x.2) * C

/-- The place of an output point, attention_cuda_fwd_ring_upsample.cu 133, 149, 214-215 and 231. -/
def cellAt (p : UParams) (b : ℕ) (x : ℕ × ℕ) : ℕ := b * p.nlatOut * p.nlonOut + (x.1 * p.nlonOut + x.2)

/-- The warp of chunk cell `wid`, attention_cuda_fwd_ring_upsample.cu 117-123 and 197-203. -/
def atCell {α : Type} (p : UParams) (f : ℕ → ℕ → List α) (wid : ℕ) : List α :=
  if wid ≥ p.nlatHalo * p.nlonKx then [] else f (wid / p.nlonKx) (wid - wid / p.nlonKx * p.nlonKx)

/-- `sh_k`, attention_cuda_fwd_ring_upsample.cu 135 and 218. -/
def shK (p : UParams) (k : ℕ → ℝ) (junk : ShJunk) (b hi wi : ℕ) : ℕ → ℕ → ℝ := fun t => AttnGpu.staged p.nci k (inAt p p.nci b hi wi) (junk t 0) t

/-- `sh_v`, attention_cuda_fwd_ring_upsample.cu 219. -/
def shV (p : UParams) (v : ℕ → ℝ) (junk : ShJunk) (b hi wi : ℕ) : ℕ → ℕ → ℝ := fun t => AttnGpu.staged p.nco v (inAt p p.nco b hi wi) (junk t 1) t

/-- `qd` after `__warp_sum`, attention_cuda_fwd_ring_upsample.cu 144-148 and 232-236. -/
def scoreAt (p : UParams) (sh : ℕ → ℕ → ℝ) (q : ℕ → ℝ) (b : ℕ) (x : ℕ × ℕ) : ℕ → ℝ := warpDot p.nci sh q (outAt p p.nci b x)

/-- `gd` after `__warp_sum`, attention_cuda_bwd_ring_upsample.cu 141-147 and 223-229. -/
def gradAt (p : UParams) (sh : ℕ → ℕ → ℝ) (dy : ℕ → ℝ) (b : ℕ) (x : ℕ × ℕ) : ℕ → ℝ := warpDot p.nco sh dy (outAt p p.nco b x)

/-- The channels that the threads of a warp visit, with their threads. -/
def lanes (C : ℕ) : List (ℕ × ℕ) := (List.range 32).flatMap fun t => (Disco.strided 32 C t).map fun c => (t, c)

/-! ### The forward step -/

/-- `s2_attn_fwd_ring_upsample_max_k`, attention_cuda_fwd_ring_upsample.cu 109-151: the `atomicMax` operations of one warp. -/
def maxOps (p : UParams) (P : Pattern) (k q : ℕ → ℝ) (junk : ℕ → ℕ → ShJunk) (b wid : ℕ) : List (ℕ × Option ℝ) :=
  atCell p (fun hi wi => (hits p P hi wi).map fun x => (cellAt p b x, some (scoreAt p (shK p k (junk b wid) b hi wi) q b x 0))) wid

open Classical in
/-- The factor of `s2_attn_fwd_ring_upsample_rescale_k`, attention_cuda_fwd_ring_upsample.cu 166-172, with the new maximum; none if the warp returns. (The new maximum is not
minus infinity if it differs from the old one.) -/
noncomputable def factor (old new : Option ℝ) : Option (ℝ × ℝ) :=
  if old = new then none
  else
    match new with
    | none => none
    | some n => some (expDiff old n, n)

/-- `s2_attn_fwd_ring_upsample_rescale_k`, attention_cuda_fwd_ring_upsample.cu 156-181: the stores of one warp to `y_acc`, `alpha_sum_buf` and `qdotk_max_buf`. -/
noncomputable def rescaleOps (p : UParams) (curr : ℕ → Option ℝ) (bufs : RingGpu.Bufs) (b wid : ℕ) : List ((List (ℕ × ℝ)) × (ℕ × ℝ) × (ℕ × Option ℝ)) :=
  if wid ≥ p.nlatOut * p.nlonOut then []
  else
    let cell := b * p.nlatOut * p.nlonOut + wid
    match factor (bufs.qmax cell) (curr cell) with
    | none => []
    | some (x, n) => [((lanes p.nco).map fun l => (cell * p.nco + l.2, bufs.y (cell * p.nco + l.2) * x), (cell, bufs.alpha cell * x), (cell, some n))]

/-- `alpha`, attention_cuda_fwd_ring_upsample.cu 222 and 238, attention_cuda_bwd_ring_upsample.cu 130 and 149. -/
noncomputable def alphaAt (p : UParams) (w : ℤ → ℝ) (qmax : ℕ → Option ℝ) (sh : ℕ → ℕ → ℝ) (q : ℕ → ℝ) (b hi : ℕ) (x : ℕ × ℕ) (t : ℕ) : ℝ :=
  Real.exp (scoreAt p sh q b x t - (qmax (cellAt p b x)).getD 0) * w (p.start + hi)

/-- `s2_attn_fwd_ring_upsample_acc_k`, attention_cuda_fwd_ring_upsample.cu 186-239: the additions of one warp to `alpha_sum_buf`. -/
noncomputable def addAOps (p : UParams) (w : ℤ → ℝ) (P : Pattern) (k q : ℕ → ℝ) (qmax : ℕ → Option ℝ) (junk : ℕ → ℕ → ShJunk) (b wid : ℕ) : List (ℕ × ℝ) :=
  atCell p (fun hi wi => (hits p P hi wi).map fun x => (cellAt p b x, alphaAt p w qmax (shK p k (junk b wid) b hi wi) q b hi x 0)) wid

/-- `s2_attn_fwd_ring_upsample_acc_k`, attention_cuda_fwd_ring_upsample.cu 186-238 and 240-243: the additions of one warp to `y_acc`. -/
noncomputable def addYOps (p : UParams) (w : ℤ → ℝ) (P : Pattern) (k v q : ℕ → ℝ) (qmax : ℕ → Option ℝ) (junk : ℕ → ℕ → ShJunk) (b wid : ℕ) : List (ℕ × ℝ) :=
  atCell p (fun hi wi => (hits p P hi wi).flatMap fun x => (lanes p.nco).map fun l =>
    (outAt p p.nco b x + l.2, alphaAt p w qmax (shK p k (junk b wid) b hi wi) q b hi x l.1 * shV p v (junk b wid) b hi wi l.1 l.2)) wid

/-- `launch_attn_fwd_ring_upsample_step`, attention_cuda_fwd_ring_upsample.cu 248-284, and the operator around it, 286-343. No launcher asks for more than 48 KiB. -/
noncomputable def upStep (r : URun) (p : UParams) (B : ℕ) (w : ℤ → ℝ) (P : Pattern) (k v q : ℕ → ℝ) (bufs : RingGpu.Bufs) : Except PyErr RingGpu.Bufs :=
  let gIn := divUp (p.nlatHalo * p.nlonKx) 2
  let gOut := divUp (p.nlatOut * p.nlonOut) 2
  let n := B * p.nlatOut * p.nlonOut
  if launchOk gIn B (4 * p.nci * 2) then do
    let curr ← (r.permM 0 (overGrid B gIn 2 (maxOps p P k q (r.junk 0)))).foldlM (atomicMaxOpt n) bufs.qmax
    if launchOk gOut B 0 then do
      let ops := overGrid B gOut 2 (rescaleOps p curr bufs)
      let y ← (r.perm 0 (ops.flatMap fun o => o.1)).foldlM (storeTo (n * p.nco)) bufs.y
      let alpha ← (r.perm 1 (ops.map fun o => o.2.1)).foldlM (storeTo n) bufs.alpha
      let qmax ← (r.permM 1 (ops.map fun o => o.2.2)).foldlM (fun m a => Disco.store n m a.1 a.2) bufs.qmax
      if launchOk gIn B (4 * (p.nci + p.nco) * 2) then do
        let alpha ← (r.perm 2 (overGrid B gIn 2 (addAOps p w P k q qmax (r.junk 1)))).foldlM (Disco.atomicAddTo n) alpha
        let y ← (r.perm 3 (overGrid B gIn 2 (addYOps p w P k v q qmax (r.junk 1)))).foldlM (Disco.atomicAddTo (n * p.nco)) y
        return ⟨y, alpha, qmax⟩
      else .error .processExit
    else .error .processExit
  else .error .processExit

/-! ### The backward steps -/

/-- `integral_buf`, `alpha_k_buf`, `alpha_kvw_buf`. -/
structure StatBufs where
  integral : ℕ → ℝ
  alphaK : ℕ → ℝ
  alphaKvw : ℕ → ℝ

/-- `ag`, attention_cuda_bwd_ring_upsample.cu 150. -/
noncomputable def agAt (p : UParams) (w : ℤ → ℝ) (qmax : ℕ → Option ℝ) (sh sv : ℕ → ℕ → ℝ) (q dy : ℕ → ℝ) (b hi : ℕ) (x : ℕ × ℕ) (t : ℕ) : ℝ :=
  alphaAt p w qmax sh q b hi x t * gradAt p sv dy b x t

/-- `s2_attn_bwd_ring_upsample_stats_k`, attention_cuda_bwd_ring_upsample.cu 91-151: the additions of one warp to `integral_buf`. -/
noncomputable def addIOps (p : UParams) (w : ℤ → ℝ) (P : Pattern) (k v q dy : ℕ → ℝ) (qmax : ℕ → Option ℝ) (junk : ℕ → ℕ → ShJunk) (b wid : ℕ) : List (ℕ × ℝ) :=
  atCell p (fun hi wi => (hits p P hi wi).map fun x =>
    (cellAt p b x, agAt p w qmax (shK p k (junk b wid) b hi wi) (shV p v (junk b wid) b hi wi) q dy b hi x 0)) wid

/-- `s2_attn_bwd_ring_upsample_stats_k`, attention_cuda_bwd_ring_upsample.cu 152-155: the additions of one warp to `alpha_k_buf`. -/
noncomputable def addKOps (p : UParams) (w : ℤ → ℝ) (P : Pattern) (k q : ℕ → ℝ) (qmax : ℕ → Option ℝ) (junk : ℕ → ℕ → ShJunk) (b wid : ℕ) : List (ℕ × ℝ) :=
  atCell p (fun hi wi => (hits p P hi wi).flatMap fun x => (lanes p.nci).map fun l =>
    (outAt p p.nci b x + l.2, alphaAt p w qmax (shK p k (junk b wid) b hi wi) q b hi x l.1 * shK p k (junk b wid) b hi wi l.1 l.2)) wid

/-- `s2_attn_bwd_ring_upsample_stats_k`, attention_cuda_bwd_ring_upsample.cu 153-156: the additions of one warp to `alpha_kvw_buf`. -/
noncomputable def addKvwOps (p : UParams) (w : ℤ → ℝ) (P : Pattern) (k v q dy : ℕ → ℝ) (qmax : ℕ → Option ℝ) (junk : ℕ → ℕ → ShJunk) (b wid : ℕ) : List (ℕ × ℝ) :=
  atCell p (fun hi wi => (hits p P hi wi).flatMap fun x => (lanes p.nci).map fun l =>
    (outAt p p.nci b x + l.2,
      agAt p w qmax (shK p k (junk b wid) b hi wi) (shV p v (junk b wid) b hi wi) q dy b hi x l.1 * shK p k (junk b wid) b hi wi l.1 l.2)) wid

/-- `s2_attention_bwd_ring_step_upsample_pass1_cuda`, attention_cuda_bwd_ring_upsample.cu 242-309. -/
noncomputable def upPass1 (r : URun) (p : UParams) (B : ℕ) (w : ℤ → ℝ) (P : Pattern) (k v q dy : ℕ → ℝ) (qmax : ℕ → Option ℝ) (s : StatBufs) : Except PyErr StatBufs :=
  let gIn := divUp (p.nlatHalo * p.nlonKx) 2
  let n := B * p.nlatOut * p.nlonOut
  if launchOk gIn B (4 * (p.nci + p.nco) * 2) then do
    let i ← (r.perm 0 (overGrid B gIn 2 (addIOps p w P k v q dy qmax (r.junk 0)))).foldlM (Disco.atomicAddTo n) s.integral
    let ak ← (r.perm 1 (overGrid B gIn 2 (addKOps p w P k q qmax (r.junk 0)))).foldlM (Disco.atomicAddTo (n * p.nci)) s.alphaK
    let akvw ← (r.perm 2 (overGrid B gIn 2 (addKvwOps p w P k v q dy qmax (r.junk 0)))).foldlM (Disco.atomicAddTo (n * p.nci)) s.alphaKvw
    return ⟨i, ak, akvw⟩
  else .error .processExit

/-- `alpha_norm`, attention_cuda_bwd_ring_upsample.cu 231. -/
noncomputable def alphaNorm (p : UParams) (w : ℤ → ℝ) (qmax : ℕ → Option ℝ) (asum : ℕ → ℝ) (sh : ℕ → ℕ → ℝ) (q : ℕ → ℝ) (b hi : ℕ) (x : ℕ × ℕ) (t : ℕ) : ℝ :=
  alphaAt p w qmax sh q b hi x t / asum (cellAt p b x)

/-- A sum over the row that thread `t` keeps in shared memory: zero at first, then one addition per output point and channel, attention_cuda_bwd_ring_upsample.cu 202-209 and
234-235. -/
noncomputable def rowAcc (C : ℕ) (L : List (ℕ × ℕ)) (x : ℕ × ℕ → ℕ → ℝ) (junk : ℕ → ℝ) (t : ℕ) : ℕ → ℝ :=
  L.foldl (fun sh o => (Disco.strided 32 C t).foldl (fun sh c => Function.update sh c (sh c + x o c)) sh)
    ((Disco.strided 32 C t).foldl (fun sh c => Function.update sh c 0) junk)

/-- `s2_attn_bwd_ring_upsample_dkv_k`, attention_cuda_bwd_ring_upsample.cu 164-238: the stores of one warp to `dkx`. An empty row stores nothing. -/
noncomputable def dkOps (p : UParams) (w : ℤ → ℝ) (P : Pattern) (k v q dy : ℕ → ℝ) (asum : ℕ → ℝ) (qmax : ℕ → Option ℝ) (inorm : ℕ → ℝ) (junk : ℕ → ℕ → ShJunk) (b wid : ℕ) :
    List (ℕ × ℝ) :=
  atCell p (fun hi wi => if P.roff (hi + 1) - P.roff hi = 0 then [] else
    (lanes p.nci).map fun l => (inAt p p.nci b hi wi + l.2, rowAcc p.nci (hits p P hi wi) (fun x c =>
      (gradAt p (shV p v (junk b wid) b hi wi) dy b x l.1 - inorm (cellAt p b x)) * alphaNorm p w qmax asum (shK p k (junk b wid) b hi wi) q b hi x l.1
        * q (outAt p p.nci b x + c)) (junk b wid l.1 2) l.1 l.2)) wid

/-- `s2_attn_bwd_ring_upsample_dkv_k`, attention_cuda_bwd_ring_upsample.cu 164-236 and 239: the stores of one warp to `dvx`. -/
noncomputable def dvOps (p : UParams) (w : ℤ → ℝ) (P : Pattern) (k q dy : ℕ → ℝ) (asum : ℕ → ℝ) (qmax : ℕ → Option ℝ) (junk : ℕ → ℕ → ShJunk) (b wid : ℕ) :
    List (ℕ × ℝ) :=
  atCell p (fun hi wi => if P.roff (hi + 1) - P.roff hi = 0 then [] else
    (lanes p.nco).map fun l => (inAt p p.nco b hi wi + l.2, rowAcc p.nco (hits p P hi wi) (fun x c =>
      alphaNorm p w qmax asum (shK p k (junk b wid) b hi wi) q b hi x l.1 * dy (outAt p p.nco b x + c)) (junk b wid l.1 3) l.1 l.2)) wid

/-- `s2_attention_bwd_ring_step_upsample_pass2_cuda`, attention_cuda_bwd_ring_upsample.cu 311-381: `dkx` and `dvx`. -/
noncomputable def upPass2 (r : URun) (p : UParams) (B : ℕ) (w : ℤ → ℝ) (P : Pattern) (k v q dy : ℕ → ℝ) (asum : ℕ → ℝ) (qmax : ℕ → Option ℝ) (inorm : ℕ → ℝ)
    (dk dv : ℕ → ℝ) : Except PyErr ((ℕ → ℝ) × (ℕ → ℝ)) :=
  let gIn := divUp (p.nlatHalo * p.nlonKx) 2
  if launchOk gIn B (4 * (2 * p.nci + 2 * p.nco) * 2) then do
    let dk ← (r.perm 0 (overGrid B gIn 2 (dkOps p w P k v q dy asum qmax inorm (r.junk 0)))).foldlM (storeTo (B * p.nlatHalo * p.nlonKx * p.nci)) dk
    let dv ← (r.perm 1 (overGrid B gIn 2 (dvOps p w P k q dy asum qmax (r.junk 0)))).foldlM (storeTo (B * p.nlatHalo * p.nlonKx * p.nco)) dv
    return (dk, dv)
  else .error .processExit

end Verif.RingGpuUp
