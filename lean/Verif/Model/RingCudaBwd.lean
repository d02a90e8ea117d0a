import Verif.Model.RingCuda
import Verif.Model.AttentionCudaBwd
import Verif.Model.DistAttentionBwd
/-!
Model of the GPU kernels behind the first pass of the backward ring step of distributed neighbourhood attention, `attention/optimized/kernels_cuda/attention_cuda_bwd_ring.cu`,
thread by thread. Conventions are those of `Model.RingCuda`. The pass keeps five accumulators per output point: the sum of the weights, the running maximum, the integral of
the output gradient against the values, and two vectors with one number per channel of the keys.
-/
namespace Verif.RingGpu
open Verif Verif.Attn Verif.Spec.Attn Verif.AttnGpu Verif.Ring

/-- `alpha_sum_buf`, `qdotk_max_buf`, `integral_buf`, `alpha_k_buf`, `alpha_kvw_buf`. -/
structure BBufs where
  alpha : ℕ → ℝ
  qmax : ℕ → Option ℝ
  integral : ℕ → ℝ
  kacc : ℕ → ℝ
  kvw : ℕ → ℝ

/-- Registers of a thread, or its part of shared memory: `alpha_sum`, `qdotk_max`, `integral`, `sh_alpha_k`/`loc_k__`, `sh_alpha_kvw`/`loc_kvw`. -/
structure BThr where
  alpha : ℝ
  qmax : Option ℝ
  integral : ℝ
  kacc : ℕ → ℕ → ℝ
  kvw : ℕ → ℕ → ℝ

/-- The product of the output gradient with the value of a neighbour as thread `t` has it after `__group_sum`, attention_cuda_bwd_ring.cu 178-182, 652-659 and 975-982. -/
noncomputable def gradDot (vec bx : ℕ) (chO : ℕ → List ℕ) (gv : ℕ → ℕ → ℕ → ℝ) (v : ℕ → ℝ) (e : Entry) (t : ℕ) : ℝ :=
  groupSum bx (fun t => dotPart vec (chO t) (gv t) v e.va) t

/-- One neighbour in the one-pass kernels, attention_cuda_bwd_ring.cu 174-200 and 961-1001. -/
noncomputable def bOnlineThr (vec bx : ℕ) (chI chO : ℕ → List ℕ) (qv gv : ℕ → ℕ → ℕ → ℝ) (k v : ℕ → ℝ) (s : ℕ → BThr) (e : Entry) : ℕ → BThr := fun t =>
  let qdotk := score vec bx chI qv k e t
  let gdotv := gradDot vec bx chO gv v e t
  let m := maxInf (s t).qmax qdotk
  let alpha := Real.exp (qdotk - m) * e.w
  let corr := expDiff (s t).qmax m
  ⟨(s t).alpha * corr + alpha, some m, (s t).integral * corr + alpha * gdotv,
    (chI t).foldl (fun y c => Function.update y c fun j => corr * y c j + alpha * vload vec k (e.ka + c) j) (s t).kacc,
    (chI t).foldl (fun y c => Function.update y c fun j => corr * y c j + alpha * gdotv * vload vec k (e.ka + c) j) (s t).kvw⟩

/-- Where the output gradient of a point starts, attention_cuda_bwd_ring.cu 124-125, 525-526 and 881-882. -/
def gradAt (p : Params) (b ho wo : ℕ) : ℕ := b * p.nlatOut * p.nlonOut * p.nco + (ho * p.nlonOut * p.nco + wo * p.nco)

/-- What a group of a one-pass kernel stores: the place of its point and the registers of its threads. -/
structure BGroupOut where
  flat : ℕ
  thr : ℕ → BThr

/-- The accumulators of a point as the threads load them, attention_cuda_bwd_ring.cu 135-142 and 900-906. -/
def bLoadThr (vec : ℕ) (chI : ℕ → List ℕ) (p : Params) (bufs : BBufs) (flat : ℕ) (junkK junkW : ℕ → ℕ → ℕ → ℝ) : ℕ → BThr := fun t =>
  ⟨bufs.alpha flat, bufs.qmax flat, bufs.integral flat,
    (chI t).foldl (fun y c => Function.update y c (vload vec bufs.kacc (flat * p.nci + c))) (junkK t),
    (chI t).foldl (fun y c => Function.update y c (vload vec bufs.kvw (flat * p.nci + c))) (junkW t)⟩

/-- The tensors a call reads besides the accumulators: weights, pattern, keys, values, queries, output gradient. -/
structure BIn where
  w : ℕ → ℝ
  P : Pattern
  k : ℕ → ℝ
  v : ℕ → ℝ
  q : ℕ → ℝ
  dy : ℕ → ℝ

/-- Memory a group finds uninitialised: the output gradient in shared memory, and the two vectors of its threads. -/
structure BJunk where
  grad : ℕ → ℕ → ℕ → ℝ
  kacc : ℕ → ℕ → ℕ → ℝ
  kvw : ℕ → ℕ → ℕ → ℝ

/-- `s2_attn_bwd_ring_pass1_generic_k`, attention_cuda_bwd_ring.cu 77-213, one group. -/
noncomputable def bGenericGroup (vec : ℕ) (p : Params) (x : BIn) (rowIdx : ℕ → ℕ) (junk : BJunk) (bufs : BBufs) (b wid : ℕ) : List BGroupOut :=
  match pointOf rowIdx 0 p.nlatOut p.nlonOut wid with
  | none => []
  | some (ho, wo) =>
    let chI := chans 32 none p.nci
    let chO := chans 32 none p.nco
    [⟨outFlat p b ho wo, ((x.P.row ho).filterMap (entry p x.w x.P b wo)).foldl
      (bOnlineThr vec 32 chI chO (fun _ c => vload vec x.q (queryAt p b ho wo + c)) (staged vec chO x.dy (gradAt p b ho wo) junk.grad) x.k x.v)
      (bLoadThr vec chI p bufs (outFlat p b ho wo) junk.kacc junk.kvw)⟩]

/-- `s2_attn_bwd_ring_pass1_special_k`, attention_cuda_bwd_ring.cu 798-1016, one group. It stores also when it has found no neighbour. The query is in registers. -/
noncomputable def bSpecialGroup (vec : ℕ) (cf : Config) (p : Params) (x : BIn) (rowIdx : ℕ → ℕ) (sh : Shared) (junk : BJunk) (bufs : BBufs) (b wid : ℕ) :
    Except PyErr (List BGroupOut) :=
  match pointOf rowIdx p.nLong (p.nlatOut - p.nLong) p.nlonOut wid with
  | none => .ok []
  | some (ho, wo) =>
    let chI := chans cf.bx cf.locI p.nci
    let chO := chans cf.bx cf.locO p.nco
    match collectAll cf.bx p.midLen (x.P.roff (ho + 1) - x.P.roff ho) (fun i => entry p x.w x.P b wo (x.P.roff ho + i)) sh.order sh.entries with
    | .error e => .error e
    | .ok (n, es) =>
      .ok [⟨outFlat p b ho wo, ((List.range n).map es).foldl
        (bOnlineThr vec cf.bx chI chO (staged vec chI x.q (queryAt p b ho wo) sh.query) (staged vec chO x.dy (gradAt p b ho wo) junk.grad) x.k x.v)
        (bLoadThr vec chI p bufs (outFlat p b ho wo) junk.kacc junk.kvw)⟩]

/-- The stores to `alpha_k_buf` of a group, attention_cuda_bwd_ring.cu 210 and 1012. -/
def kStores (vec : ℕ) (cf : Config) (p : Params) (g : BGroupOut) : List (ℕ × ℝ) :=
  (List.range cf.bx).flatMap fun t => (chans cf.bx cf.locI p.nci t).flatMap fun c => (List.range vec).map fun j =>
    (vec * (g.flat * p.nci + c) + j, (g.thr t).kacc c j)

/-- The stores to `alpha_kvw_buf` of a group, attention_cuda_bwd_ring.cu 211 and 1013. -/
def kvwStores (vec : ℕ) (cf : Config) (p : Params) (g : BGroupOut) : List (ℕ × ℝ) :=
  (List.range cf.bx).flatMap fun t => (chans cf.bx cf.locI p.nci t).flatMap fun c => (List.range vec).map fun j =>
    (vec * (g.flat * p.nci + c) + j, (g.thr t).kvw c j)

/-! ### Long rows -/

/-- `s2_attn_bwd_ring_pass1_softmax_k`, attention_cuda_bwd_ring.cu 248-395, one group: its `atomicMax`. The query is in registers. -/
noncomputable def bSoftmaxGroup (vec : ℕ) (cf : Config) (p : Params) (x : BIn) (rowIdx : ℕ → ℕ) (cpr : ℕ) (sh : Shared)
    (prev : ℕ → Option ℝ) (b split wid : ℕ) : Except PyErr (List (ℕ × Option ℝ)) :=
  match pointOf rowIdx 0 p.nLong p.nlonOut wid with
  | none => .ok []
  | some (ho, wo) =>
    let chI := chans cf.bx cf.locI p.nci
    match collectSplit cf.bx p x.w x.P cpr sh b ho wo split with
    | .error e => .error e
    | .ok (n, es) =>
      .ok [(outFlat p b ho wo, ((List.range n).map es).foldl
        (fun m e => some (maxInf m (score vec cf.bx chI (staged vec chI x.q (queryAt p b ho wo) sh.query) x.k e 0))) (prev (outFlat p b ho wo)))]

/-- The state of the kernel `rescale`: the accumulators and where every warp of every group `(b, wid)` is. -/
structure BResc where
  bufs : BBufs
  pc : ℕ × ℕ → ℕ → WarpPc

/-- The places of `alpha_k_buf` and of `alpha_kvw_buf` that warp `wp` of a group scales, attention_cuda_bwd_ring.cu 434-435 and 451-458. -/
def bWarpPlaces (vec : ℕ) (cf : Config) (p : Params) (flat wp : ℕ) : List ℕ :=
  (List.range 32).flatMap fun l => (chans cf.bx cf.locI p.nci (wp * 32 + l)).flatMap fun c => (List.range vec).map fun j => vec * (flat * p.nci + c) + j

open Classical in
/-- One step of warp `wp` of group `(b, wid)` in `s2_attn_bwd_ring_pass1_rescale_k`, attention_cuda_bwd_ring.cu 396-467. The first step loads both maxima and compares
them; the second scales the channels of the warp and, in warp 0, stores the new maximum, the scaled sum and the scaled integral. -/
noncomputable def bRescaleStep (vec : ℕ) (cf : Config) (p : Params) (sizeK sizeA : ℕ) (rowIdx : ℕ → ℕ) (curr : ℕ → Option ℝ) (s : BResc) (x : ℕ × ℕ × ℕ) :
    Except PyErr BResc :=
  let (b, wid, wp) := x
  match pointOf rowIdx 0 p.nLong p.nlonOut wid with
  | none => .ok s
  | some (ho, wo) =>
    let flat := outFlat p b ho wo
    let goto := fun pc => Function.update s.pc (b, wid) (Function.update (s.pc (b, wid)) wp pc)
    match s.pc (b, wid) wp with
    | .done => .ok s
    | .start => .ok { s with pc := goto (if s.bufs.qmax flat = curr flat then .done else .loaded (s.bufs.qmax flat)) }
    | .loaded old =>
      match curr flat with
      | none => .ok { s with pc := goto .done }
      | some new =>
        match (bWarpPlaces vec cf p flat wp).foldlM (fun y a => Disco.store sizeK y a (expDiff old new * y a)) s.bufs.kacc with
        | .error e => .error e
        | .ok kacc =>
          match (bWarpPlaces vec cf p flat wp).foldlM (fun y a => Disco.store sizeK y a (expDiff old new * y a)) s.bufs.kvw with
          | .error e => .error e
          | .ok kvw =>
            if wp = 0 then
              if flat < sizeA then
                .ok ⟨⟨Function.update s.bufs.alpha flat (expDiff old new * s.bufs.alpha flat), Function.update s.bufs.qmax flat (some new),
                  Function.update s.bufs.integral flat (expDiff old new * s.bufs.integral flat), kacc, kvw⟩, goto .done⟩
              else .error .memoryFault
            else .ok ⟨{ s.bufs with kacc := kacc, kvw := kvw }, goto .done⟩

/-- One neighbour in `s2_attn_bwd_ring_pass1_finalize_k`, attention_cuda_bwd_ring.cu 641-674; `m` is the maximum. -/
noncomputable def bAddThr (vec bx : ℕ) (chI chO : ℕ → List ℕ) (qv gv : ℕ → ℕ → ℕ → ℝ) (k v : ℕ → ℝ) (m : Option ℝ) (s : ℕ → BThr) (e : Entry) : ℕ → BThr := fun t =>
  let alpha := Real.exp (score vec bx chI qv k e t - m.getD 0) * e.w
  let gdotv := gradDot vec bx chO gv v e t
  ⟨(s t).alpha + alpha, (s t).qmax, (s t).integral + alpha * gdotv,
    (chI t).foldl (fun y c => Function.update y c fun j => y c j + alpha * vload vec k (e.ka + c) j) (s t).kacc,
    (chI t).foldl (fun y c => Function.update y c fun j => y c j + alpha * gdotv * vload vec k (e.ka + c) j) (s t).kvw⟩

/-- `s2_attn_bwd_ring_pass1_finalize_k`, attention_cuda_bwd_ring.cu 469-708, one group: what it adds. -/
noncomputable def bFinalizeGroup (vec : ℕ) (cf : Config) (p : Params) (x : BIn) (rowIdx : ℕ → ℕ) (cpr : ℕ) (sh : Shared) (junk : BJunk) (curr : ℕ → Option ℝ)
    (b split wid : ℕ) : Except PyErr (List BGroupOut) :=
  match pointOf rowIdx 0 p.nLong p.nlonOut wid with
  | none => .ok []
  | some (ho, wo) =>
    let chI := chans cf.bx cf.locI p.nci
    let chO := chans cf.bx cf.locO p.nco
    match collectSplit cf.bx p x.w x.P cpr sh b ho wo split with
    | .error e => .error e
    | .ok (n, es) =>
      .ok [⟨outFlat p b ho wo, ((List.range n).map es).foldl
        (bAddThr vec cf.bx chI chO (staged vec chI x.q (queryAt p b ho wo) sh.query) (staged vec chO x.dy (gradAt p b ho wo) junk.grad) x.k x.v
          (curr (outFlat p b ho wo)))
        (fun t => ⟨0, none, 0, (chI t).foldl (fun y c => Function.update y c fun _ => 0) (junk.kacc t),
          (chI t).foldl (fun y c => Function.update y c fun _ => 0) (junk.kvw t)⟩)⟩]

/-! ### The launches -/

/-- What a call depends on besides its arguments: as in `Run` (where `storeY`, `addY` order the operations on `alpha_k_buf` and `storeA`, `addA` those on `alpha_sum_buf`),
and the uninitialised memory of the groups and the orders of the operations on `alpha_kvw_buf` and `integral_buf`. -/
structure BRun extends Run where
  bjunk : ℕ → ℕ → ℕ → ℕ → BJunk
  storeW : List (ℕ × ℝ) → List (ℕ × ℝ)
  storeI : List (ℕ × ℝ) → List (ℕ × ℝ)
  addW : List (ℕ × ℝ) → List (ℕ × ℝ)
  addI : List (ℕ × ℝ) → List (ℕ × ℝ)

/-- The static shared memory of `__group_sum` of two values and of `__compact`, attention_cuda_utils.cuh 277-310 and 383: three numbers per warp. -/
def bStaticShared (bx : ℕ) : ℕ := if bx = 32 then 0 else 12 * (bx / 32)

/-- The stores of a one-pass kernel take effect, attention_cuda_bwd_ring.cu 203-212 and 1005-1013. -/
def bStoreGroups (r : BRun) (vec : ℕ) (cf : Config) (p : Params) (B : ℕ) (gs : List BGroupOut) (bufs : BBufs) : Except PyErr BBufs := do
  let alpha ← (r.storeA (gs.map fun g => (g.flat, (g.thr 0).alpha))).foldlM (storeTo (B * p.nlatOut * p.nlonOut)) bufs.alpha
  let qmax ← (r.storeM (gs.map fun g => (g.flat, (g.thr 0).qmax))).foldlM (fun m a => Disco.store (B * p.nlatOut * p.nlonOut) m a.1 a.2) bufs.qmax
  let integral ← (r.storeI (gs.map fun g => (g.flat, (g.thr 0).integral))).foldlM (storeTo (B * p.nlatOut * p.nlonOut)) bufs.integral
  let kacc ← (r.storeY (gs.flatMap (kStores vec cf p))).foldlM (storeTo (B * p.nlatOut * p.nlonOut * (p.nci * vec))) bufs.kacc
  let kvw ← (r.storeW (gs.flatMap (kvwStores vec cf p))).foldlM (storeTo (B * p.nlatOut * p.nlonOut * (p.nci * vec))) bufs.kvw
  return ⟨alpha, qmax, integral, kacc, kvw⟩

/-- `launch_gen_attn_ring_pass1_bwd`, attention_cuda_bwd_ring.cu 215-242. -/
noncomputable def bRunGeneric (r : BRun) (vec : ℕ) (p : Params) (B : ℕ) (x : BIn) (bufs : BBufs) : Except PyErr BBufs :=
  let gx := divUp (p.nlatOut * p.nlonOut) 2
  if fits r.limit gx B 1 (4 * vec * (2 * p.nci + p.nco) * 2) 0 then
    bStoreGroups r vec ⟨32, 2, none, none, false, 0⟩ p B
      ((grid2 B gx 2).flatMap fun g => bGenericGroup vec p x r.rowIdx (r.bjunk 0 g.1 0 g.2) bufs g.1 g.2) bufs
  else .error .processExit

/-- The launch for the short rows, attention_cuda_bwd_ring.cu 1057-1103. -/
noncomputable def bRunSpecial (r : BRun) (vec : ℕ) (cf : Config) (p : Params) (B : ℕ) (x : BIn) (bufs : BBufs) : Except PyErr BBufs :=
  if p.nlatOut - p.nLong = 0 then .ok bufs
  else
    let gx := divUp ((p.nlatOut - p.nLong) * p.nlonOut) cf.by'
    if fits r.limit gx B 1 ((4 * vec * p.nco + 8 * p.midLen * 2 + 4 * p.midLen) * cf.by') (bStaticShared cf.bx) then do
      let gs ← overM (fun g : ℕ × ℕ => bSpecialGroup vec cf p x r.rowIdx (r.shared 0 g.1 0 g.2) (r.bjunk 0 g.1 0 g.2) bufs g.1 g.2) (grid2 B gx cf.by')
      bStoreGroups r vec cf p B gs bufs
    else .error .processExit

/-- The first kernel for long rows, attention_cuda_bwd_ring.cu 734-763: the new maxima, in a copy of the old ones. -/
noncomputable def bRunSoftmax (r : BRun) (vec : ℕ) (cf : Config) (p : Params) (B : ℕ) (x : BIn) (bufs : BBufs) : Except PyErr (ℕ → Option ℝ) :=
  let cpr := ctaPerRow p.maxLen
  let gx := divUp (p.nLong * p.nlonOut) cf.by'
  if fits r.limit gx cpr B (8 * divUp p.maxLen cpr * cf.by') (staticShared cf.bx) then do
    let ops ← overM (fun g : ℕ × ℕ × ℕ => bSoftmaxGroup vec cf p x r.rowIdx cpr (r.shared 1 g.1 g.2.1 g.2.2) bufs.qmax g.1 g.2.1 g.2.2) (grid3 B cpr gx cf.by')
    (r.maxM ops).foldlM (atomicMaxOpt (B * p.nlatOut * p.nlonOut)) bufs.qmax
  else .error .processExit

/-- The second kernel for long rows, attention_cuda_bwd_ring.cu 765-768. -/
noncomputable def bRunRescale (r : BRun) (vec : ℕ) (cf : Config) (p : Params) (B : ℕ) (curr : ℕ → Option ℝ) (bufs : BBufs) : Except PyErr BBufs :=
  let gx := divUp (p.nLong * p.nlonOut) cf.by'
  if fits r.limit gx B 1 0 0 then do
    let s ← r.sched.foldlM (bRescaleStep vec cf p (B * p.nlatOut * p.nlonOut * (p.nci * vec)) (B * p.nlatOut * p.nlonOut) r.rowIdx curr) ⟨bufs, fun _ _ => .start⟩
    return s.bufs
  else .error .processExit

/-- The third kernel for long rows, attention_cuda_bwd_ring.cu 770-789. -/
noncomputable def bRunFinalize (r : BRun) (vec : ℕ) (cf : Config) (p : Params) (B : ℕ) (x : BIn) (curr : ℕ → Option ℝ) (bufs : BBufs) : Except PyErr BBufs :=
  let cpr := ctaPerRow p.maxLen
  let gx := divUp (p.nLong * p.nlonOut) cf.by'
  if fits r.limit gx cpr B ((4 * vec * (p.nci + p.nco) + 8 * divUp p.maxLen cpr * 2 + 4 * divUp p.maxLen cpr) * cf.by') (bStaticShared cf.bx) then do
    let gs ← overM (fun g : ℕ × ℕ × ℕ => bFinalizeGroup vec cf p x r.rowIdx cpr (r.shared 2 g.1 g.2.1 g.2.2) (r.bjunk 2 g.1 g.2.1 g.2.2) curr g.1 g.2.1 g.2.2)
      (grid3 B cpr gx cf.by')
    let alpha ← (r.addA (gs.map fun g => (g.flat, (g.thr 0).alpha))).foldlM (Disco.atomicAddTo (B * p.nlatOut * p.nlonOut)) bufs.alpha
    let integral ← (r.addI (gs.map fun g => (g.flat, (g.thr 0).integral))).foldlM (Disco.atomicAddTo (B * p.nlatOut * p.nlonOut)) bufs.integral
    let kacc ← (r.addY (gs.flatMap (kStores vec cf p))).foldlM (Disco.atomicAddTo (B * p.nlatOut * p.nlonOut * (p.nci * vec))) bufs.kacc
    let kvw ← (r.addW (gs.flatMap (kvwStores vec cf p))).foldlM (Disco.atomicAddTo (B * p.nlatOut * p.nlonOut * (p.nci * vec))) bufs.kvw
    return ⟨alpha, bufs.qmax, integral, kacc, kvw⟩
  else .error .processExit

/-- `spc_attn_ring_pass1_bwd_long_rows`, attention_cuda_bwd_ring.cu 710-792 and 1048-1054. -/
noncomputable def bRunLong (r : BRun) (vec : ℕ) (cf : Config) (p : Params) (B : ℕ) (x : BIn) (bufs : BBufs) : Except PyErr BBufs :=
  if p.nLong = 0 then .ok bufs
  else do
    let curr ← bRunSoftmax r vec cf p B x bufs
    let bufs ← bRunRescale r vec cf p B curr bufs
    bRunFinalize r vec cf p B x curr bufs

/-- `s2_attn_bwd_ring_step_pass1_dispatch`, attention_cuda_bwd_ring.cu 1116-1301, and the operator around it, 2014-2070: block size, element size and number of local
elements are chosen as in the kernels of a single device (`bwdLaunch`). `p` holds the numbers of channels as the caller has them. -/
noncomputable def ringBwdStep (r : BRun) (p : Params) (B : ℕ) (x : BIn) (bufs : BBufs) : Except PyErr BBufs :=
  let vec := vecOf r.vecOk p.nci p.nco
  let p' : Params := { p with nci := p.nci / vec, nco := p.nco / vec }
  match bwdLaunch r.vecOk p.nci p.nco with
  | .nothing => .ok bufs
  | .generic => bRunGeneric r vec p' B x bufs
  | .special bx by' nloc same => do
    let cf : Config := ⟨bx, by', some nloc, if same then some nloc else none, true, 0⟩
    let bufs ← bRunLong r vec cf p' B x bufs
    bRunSpecial r vec cf p' B x bufs

end Verif.RingGpu
