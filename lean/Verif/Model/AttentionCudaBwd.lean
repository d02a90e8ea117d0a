import Verif.Model.AttentionCuda
/-!
Model of the GPU kernels of neighbourhood attention, backward pass: `attention/optimized/kernels_cuda/attention_cuda_bwd.cu` and
`attention_cuda_bwd_upsample.cu`. Conventions as in `Verif.Model.AttentionCuda`.

Gather direction: one group per output point. It takes the query and the cotangent of the point into shared memory, runs over the
neighbours once for the statistics of the softmax and the gradient of the query, and once more for what the point contributes to
the gradients of keys and values, which is added with atomic operations. Devices of compute capability 9 and above add `vec` numbers at a
time from the cells a thread has staged itself; older ones add single numbers, for which a thread reads cells that another thread
has staged if `vec = 4`, behind a barrier.
-/
namespace Verif.AttnGpu
open Verif Verif.Attn Verif.Spec.Attn Finset

/-- A run of the backward pass: additionally, whether the device adds `vec` numbers at a time (`__CUDA_ARCH__ >= 900`), and the
contents of the shared arrays of the gather kernels per (batch entry and head, point, array, thread). -/
structure BwdRun extends GpuRun where
  wide : Bool
  junk3 : ℕ → ℕ → ℕ → ℕ → ℕ → ℕ → ℝ

/-- The arguments of the backward pass: quadrature weights, pattern, key, value, query, cotangent. -/
structure BwdIn where
  w : ℕ → ℝ
  P : Pattern
  k : ℕ → ℝ
  v : ℕ → ℝ
  q : ℕ → ℝ
  dy : ℕ → ℝ

/-- The three gradient arrays. -/
structure GpuGrads where
  dk : ℕ → ℝ
  dv : ℕ → ℝ
  dq : ℕ → ℝ

/-! ### Gather kernels -/

/-- A vector staged in shared memory, as thread `t` sees it, attention_cuda_bwd.cu 150-166 and 403-428. Without a barrier it knows its own
cells only; behind one, the cells of all threads of the group. -/
def stageView (vec bx : ℕ) (sync : Bool) (ch : ℕ → List ℕ) (a : ℕ → ℝ) (base : ℕ) (junk : ℕ → ℕ → ℕ → ℝ) (t : ℕ) : ℕ → ℕ → ℝ :=
  if sync then ((List.range bx).flatMap ch).foldl (fun sh c => Function.update sh c (vload vec a (base + c))) (junk 0)
  else (ch t).foldl (fun sh c => Function.update sh c (vload vec a (base + c))) (junk t)

/-- Registers and own shared memory of a thread, attention_cuda_bwd.cu 150-153, 169-173 and 396-401, 431-435. -/
structure BwdThr where
  alphaSum : ℝ
  qdotkMax : ℝ
  integral : ℝ
  ak : ℕ → ℕ → ℝ
  avw : ℕ → ℕ → ℝ
  akvw : ℕ → ℕ → ℝ

/-- One neighbour in the first loop, attention_cuda_bwd.cu 193-226 and 455-516, all threads of a group. -/
noncomputable def bwdStep (vec bx : ℕ) (chI chO : ℕ → List ℕ) (qv gv : ℕ → ℕ → ℕ → ℝ) (k v : ℕ → ℝ) (ka va : ℕ) (quad : ℝ)
    (s : ℕ → BwdThr) : ℕ → BwdThr := fun t =>
  let qdotk := groupSum bx (fun t => dotPart vec (chI t) (qv t) k ka) t
  let gdotv := groupSum bx (fun t => dotPart vec (chO t) (gv t) v va) t
  let m := max (s t).qdotkMax qdotk
  let alpha := Real.exp (qdotk - m) * quad
  let corr := Real.exp ((s t).qdotkMax - m)
  let ag := alpha * gdotv
  ⟨(s t).alphaSum * corr + alpha, m, (s t).integral * corr + alpha * gdotv,
    (chI t).foldl (fun y c => Function.update y c fun j => corr * y c j + alpha * vload vec k (ka + c) j) (s t).ak,
    (chI t).foldl (fun y c => Function.update y c fun j => corr * y c j + ag) (s t).avw,
    (chI t).foldl (fun y c => Function.update y c fun j => corr * y c j + ag * vload vec k (ka + c) j) (s t).akvw⟩

/-- Offset of an input point, attention_cuda_bwd.cu 135, 139, 193-194 and 377, 381, 455-456. -/
def inAddr (d : Dims) (nh C bh : ℕ) (p : ℕ × ℕ) : ℕ := headBase d.nlatIn d.nlonIn nh C bh + cellOff d.nlonIn nh C p.1 p.2

/-- Offset of an output point, attention_cuda_bwd.cu 136-141 and 378-383. -/
def outAddr (d : Dims) (nh C bh ho wo : ℕ) : ℕ := headBase d.nlatOut d.nlonOut nh C bh + cellOff d.nlonOut nh C ho wo

/-- Whether a barrier follows the staging, attention_cuda_bwd.cu 159-166 and 415-428. -/
def bwdSync (wide : Bool) (vec : ℕ) : Bool := !wide && vec == 4

/-- `sh_qy` in thread `t`, attention_cuda_bwd.cu 155 and 403-405. -/
def bwdQ (vec : ℕ) (cf : Config) (d : Dims) (nh : ℕ) (q : ℕ → ℝ) (wide : Bool) (junk : ℕ → ℕ → ℕ → ℕ → ℝ) (bh ho wo : ℕ) : ℕ → ℕ → ℕ → ℝ :=
  stageView vec cf.bx (bwdSync wide vec) (chans cf.bx cf.locI d.Ck) q (outAddr d nh d.Ck bh ho wo) (junk 0)

/-- `sh_dy` in thread `t`, attention_cuda_bwd.cu 157 and 407-413. -/
def bwdG (vec : ℕ) (cf : Config) (d : Dims) (nh : ℕ) (dy : ℕ → ℝ) (wide : Bool) (junk : ℕ → ℕ → ℕ → ℕ → ℝ) (bh ho wo : ℕ) : ℕ → ℕ → ℕ → ℝ :=
  stageView vec cf.bx (bwdSync wide vec) (chans cf.bx cf.locO d.Cv) dy (outAddr d nh d.Cv bh ho wo) (junk 1)

/-- The first loop over the neighbours, attention_cuda_bwd.cu 150-227 and 396-517. -/
noncomputable def bwdGroup (vec : ℕ) (cf : Config) (d : Dims) (nh : ℕ) (x : BwdIn) (wide : Bool) (fmin : ℝ) (junk : ℕ → ℕ → ℕ → ℕ → ℝ)
    (bh ho wo : ℕ) : ℕ → BwdThr :=
  let chI := chans cf.bx cf.locI d.Ck
  let chO := chans cf.bx cf.locO d.Cv
  let zero := fun (i t : ℕ) => (chI t).foldl (fun (y : ℕ → ℕ → ℝ) c => Function.update y c fun _ => 0) (junk i t)
  (x.P.row ho).foldl (fun s z =>
      let p := gatherPoint x.P d.nlonIn (d.nlonIn / d.nlonOut) wo z
      bwdStep vec cf.bx chI chO (bwdQ vec cf d nh x.q wide junk bh ho wo) (bwdG vec cf d nh x.dy wide junk bh ho wo) x.k x.v
        (inAddr d nh d.Ck bh p) (inAddr d nh d.Cv bh p) (x.w p.1) s)
    (fun t => ⟨0, fmin, 0, zero 2 t, zero 3 t, zero 4 t⟩)

/-- The point of a group: its output row and longitude, attention_cuda_bwd.cu 127-129 and 369-371. -/
def bwdPoint (r : GpuRun) (nlonOut wid : ℕ) : ℕ × ℕ :=
  let h := wid / nlonOut
  (r.rowIdx h, wid - h * nlonOut)

/-- The stores to the gradient of the query by one group, attention_cuda_bwd.cu 122, 229-239 and 353, 519-535. -/
noncomputable def bwdDqOps (vec : ℕ) (cf : Config) (d : Dims) (nh : ℕ) (x : BwdIn) (r : BwdRun) (bh wid : ℕ) : List (ℕ × ℝ) :=
  if wid ≥ d.nlatOut * d.nlonOut then []
  else
    let o := bwdPoint r.toGpuRun d.nlonOut wid
    let s := bwdGroup vec cf d nh x r.wide r.fmin (r.junk3 bh wid) bh o.1 o.2
    (List.range cf.bx).flatMap fun t => (chans cf.bx cf.locI d.Ck t).flatMap fun c => (List.range vec).map fun j =>
      (vec * (outAddr d nh d.Ck bh o.1 o.2 + c) + j, 1 / (s t).alphaSum * (1 / (s t).alphaSum)
        * ((s t).alphaSum * (s t).akvw c j - (s t).avw c j * (s t).ak c j))

/-- The atomic additions of one group to the vector at `base`: a multiple of a staged vector, attention_cuda_bwd.cu 280-306 and
598-646. -/
def addOps (vec bx : ℕ) (wide : Bool) (ch : ℕ → List ℕ) (n base : ℕ) (scale : ℕ → ℝ) (sh : ℕ → ℕ → ℕ → ℝ) : List (ℕ × ℝ) :=
  (List.range bx).flatMap fun t =>
    if wide then (ch t).flatMap fun c => (List.range vec).map fun j => (vec * (base + c) + j, scale t * sh t c j)
    else (Disco.strided bx (n * vec) t).map fun c => (vec * base + c, scale t * sh t (c / vec) (c % vec))

/-- `alpha_mul` of the second loop in thread `t`, attention_cuda_bwd.cu 253-272 and 550-590. -/
noncomputable def bwdAlpha (vec : ℕ) (cf : Config) (d : Dims) (nh : ℕ) (x : BwdIn) (qv : ℕ → ℕ → ℕ → ℝ) (s : ℕ → BwdThr) (bh : ℕ)
    (p : ℕ × ℕ) (t : ℕ) : ℝ :=
  let qdotk := groupSum cf.bx (fun t => dotPart vec (chans cf.bx cf.locI d.Ck t) (qv t) x.k (inAddr d nh d.Ck bh p)) t
  Real.exp (qdotk - (s t).qdotkMax) * x.w p.1 * (1 / (s t).alphaSum)

/-- The additions to the gradient of the keys by one group, attention_cuda_bwd.cu 242-307 and 538-647. -/
noncomputable def bwdKOps (vec : ℕ) (cf : Config) (d : Dims) (nh : ℕ) (x : BwdIn) (r : BwdRun) (bh wid : ℕ) : List (ℕ × ℝ) :=
  if wid ≥ d.nlatOut * d.nlonOut then []
  else
    let o := bwdPoint r.toGpuRun d.nlonOut wid
    let qv := bwdQ vec cf d nh x.q r.wide (r.junk3 bh wid) bh o.1 o.2
    let gv := bwdG vec cf d nh x.dy r.wide (r.junk3 bh wid) bh o.1 o.2
    let s := bwdGroup vec cf d nh x r.wide r.fmin (r.junk3 bh wid) bh o.1 o.2
    (x.P.row o.1).flatMap fun z =>
      let p := gatherPoint x.P d.nlonIn (d.nlonIn / d.nlonOut) o.2 z
      let scale := fun t => (groupSum cf.bx (fun t => dotPart vec (chans cf.bx cf.locO d.Cv t) (gv t) x.v (inAddr d nh d.Cv bh p)) t
        - (s t).integral * (1 / (s t).alphaSum)) * bwdAlpha vec cf d nh x qv s bh p t
      addOps vec cf.bx r.wide (chans cf.bx cf.locI d.Ck) d.Ck (inAddr d nh d.Ck bh p) scale qv

/-- The additions to the gradient of the values by one group, attention_cuda_bwd.cu 242-307 and 538-647. -/
noncomputable def bwdVOps (vec : ℕ) (cf : Config) (d : Dims) (nh : ℕ) (x : BwdIn) (r : BwdRun) (bh wid : ℕ) : List (ℕ × ℝ) :=
  if wid ≥ d.nlatOut * d.nlonOut then []
  else
    let o := bwdPoint r.toGpuRun d.nlonOut wid
    let qv := bwdQ vec cf d nh x.q r.wide (r.junk3 bh wid) bh o.1 o.2
    let gv := bwdG vec cf d nh x.dy r.wide (r.junk3 bh wid) bh o.1 o.2
    let s := bwdGroup vec cf d nh x r.wide r.fmin (r.junk3 bh wid) bh o.1 o.2
    (x.P.row o.1).flatMap fun z =>
      let p := gatherPoint x.P d.nlonIn (d.nlonIn / d.nlonOut) o.2 z
      addOps vec cf.bx r.wide (chans cf.bx cf.locO d.Cv) d.Cv (inAddr d nh d.Cv bh p) (bwdAlpha vec cf d nh x qv s bh p) gv

/-- `s2_attn_bwd_dispatch`, attention_cuda_bwd.cu 778-852: block size and local elements follow the query channels. -/
def bwdLaunch (vecOk : Bool) (Ck Cv : ℕ) : Launch :=
  let vec := vecOf vecOk Ck Cv
  let bdimx := bdimxOf Ck
  dispatchBdimx 512 (16 / vec) (16 / vec / 2 + 1) bdimx ((Ck / vec + (bdimx - 1)) / bdimx) (Cv / vec)

/-- The configuration of a backward launch, attention_cuda_bwd.cu 661-665 and 689-714; `__block_sum` as in `fwdConfig`. -/
def bwdConfig (vec nci nco : ℕ) : Launch → Option Config
  | .nothing => none
  | .generic => some ⟨32, 2, none, none, true, 4 * vec * (nci * 4 + nco) * 2⟩
  | .special bx by' nloc same =>
    some ⟨bx, by', some nloc, if same then some nloc else none, true,
      4 * vec * (nci + nco) * by' + if bx = 32 then 0 else 4 * (bx / 32)⟩

/-- Three arrays filled one after the other. -/
def grads (dk dv dq : Except PyErr (ℕ → ℝ)) : Except PyErr GpuGrads := do
  let dk ← dk
  let dv ← dv
  let dq ← dq
  pure ⟨dk, dv, dq⟩

/-- The gather kernels and their launch, attention_cuda_bwd.cu 652-852. The gradient arrays start as zeros (923-931). -/
noncomputable def gpuBwdGather (r : BwdRun) (d : Dims) (nh : ℕ) (x : BwdIn) : Except PyErr GpuGrads :=
  let vec := vecOf r.vecOk d.Ck d.Cv
  let d' : Dims := { d with Ck := d.Ck / vec, Cv := d.Cv / vec }
  match bwdConfig vec d'.Ck d'.Cv (bwdLaunch r.vecOk d.Ck d.Cv) with
  | none => .ok ⟨fun _ => 0, fun _ => 0, fun _ => 0⟩
  | some cf =>
    let bhs := d.B * nh
    let gx := divUp (d.nlatOut * d.nlonOut) cf.by'
    if launchOk gx bhs cf.shared then
      grads
        ((r.perm (overGrid bhs gx cf.by' (bwdKOps vec cf d' nh x r))).foldlM
          (Disco.atomicAddTo (d.B * d.nlatIn * d.nlonIn * (d.Ck * nh))) fun _ => 0)
        ((r.perm (overGrid bhs gx cf.by' (bwdVOps vec cf d' nh x r))).foldlM
          (Disco.atomicAddTo (d.B * d.nlatIn * d.nlonIn * (d.Cv * nh))) fun _ => 0)
        ((r.perm (overGrid bhs gx cf.by' (bwdDqOps vec cf d' nh x r))).foldlM
          (storeTo (d.B * d.nlatOut * d.nlonOut * (d.Ck * nh))) fun _ => 0)
    else .error .processExit

/-! ### Scatter kernels (upsampling)

The pass for the maxima (attention_cuda_bwd_upsample.cu 94-161, launched 380, 384-386) repeats that of the forward pass statement by
statement: `gpuUpMax`. So do the additions to `S` (164-229): `upDenOps`. -/

/-- The cotangent dotted with the value, in thread `t`, attention_cuda_bwd_upsample.cu 218-224 and 329-335. -/
def upG (d : Dims) (nh : ℕ) (shv : ℕ → ℕ → ℝ) (dy : ℕ → ℝ) (bh ho wo : ℕ) : ℕ → ℝ :=
  warpDot d.Cv shv dy (headBase d.nlatOut d.nlonOut nh d.Cv bh + (ho * d.nlonOut + wo) * (nh * d.Cv))

/-- `ag`, attention_cuda_bwd_upsample.cu 226-227. -/
noncomputable def upAg (d : Dims) (nh : ℕ) (x : BwdIn) (maxbuf : ℕ → ℝ) (junk : ℕ → ℕ → ShJunk) (bh wid hi wi : ℕ) (p : ℕ × ℕ) (t : ℕ) : ℝ :=
  upAlpha d nh x.w maxbuf (upKey d nh x.k (junk bh wid) bh hi wi) x.q bh hi p t
    * upG d nh (upVal d nh x.v (junk bh wid) bh hi wi) x.dy bh p.1 p.2 t

/-- The additions to `Avw` by one warp, attention_cuda_bwd_upsample.cu 187-228 and 230. -/
noncomputable def upAvwOps (d : Dims) (nh : ℕ) (x : BwdIn) (maxbuf : ℕ → ℝ) (junk : ℕ → ℕ → ShJunk) (bh wid : ℕ) : List (ℕ × ℝ) :=
  if wid ≥ d.nlatIn * d.nlonIn then []
  else
    let hi := wid / d.nlonIn
    let wi := wid - hi * d.nlonIn
    (x.P.row hi).map fun z =>
      let p := scatterPoint x.P d.nlonIn d.nlonOut wi z
      (bh * d.nlatOut * d.nlonOut + (p.1 * d.nlonOut + p.2), upAg d nh x maxbuf junk bh wid hi wi p 0)

/-- The additions to `Ak` by one warp, attention_cuda_bwd_upsample.cu 187-226 and 232-235. -/
noncomputable def upAkOps (d : Dims) (nh : ℕ) (x : BwdIn) (maxbuf : ℕ → ℝ) (junk : ℕ → ℕ → ShJunk) (bh wid : ℕ) : List (ℕ × ℝ) :=
  if wid ≥ d.nlatIn * d.nlonIn then []
  else
    let hi := wid / d.nlonIn
    let wi := wid - hi * d.nlonIn
    let shk := upKey d nh x.k (junk bh wid) bh hi wi
    (x.P.row hi).flatMap fun z =>
      let p := scatterPoint x.P d.nlonIn d.nlonOut wi z
      (List.range 32).flatMap fun t => (Disco.strided 32 d.Ck t).map fun c =>
        (bh * d.nlatOut * d.nlonOut * d.Ck + (p.1 * d.nlonOut + p.2) * d.Ck + c, upAlpha d nh x.w maxbuf shk x.q bh hi p t * shk t c)

/-- The additions to `Akvw` by one warp, attention_cuda_bwd_upsample.cu 187-227 and 233-236. -/
noncomputable def upAkvwOps (d : Dims) (nh : ℕ) (x : BwdIn) (maxbuf : ℕ → ℝ) (junk : ℕ → ℕ → ShJunk) (bh wid : ℕ) : List (ℕ × ℝ) :=
  if wid ≥ d.nlatIn * d.nlonIn then []
  else
    let hi := wid / d.nlonIn
    let wi := wid - hi * d.nlonIn
    let shk := upKey d nh x.k (junk bh wid) bh hi wi
    (x.P.row hi).flatMap fun z =>
      let p := scatterPoint x.P d.nlonIn d.nlonOut wi z
      (List.range 32).flatMap fun t => (Disco.strided 32 d.Ck t).map fun c =>
        (bh * d.nlatOut * d.nlonOut * d.Ck + (p.1 * d.nlonOut + p.2) * d.Ck + c, upAg d nh x maxbuf junk bh wid hi wi p t * shk t c)

/-- The stores to the gradient of the query by one warp, attention_cuda_bwd_upsample.cu 242-268. -/
noncomputable def upDqOps (d : Dims) (nh : ℕ) (S Avw Ak Akvw : ℕ → ℝ) (bh wid : ℕ) : List (ℕ × ℝ) :=
  if wid ≥ d.nlatOut * d.nlonOut then []
  else
    let batch := bh / nh
    let head := bh - batch * nh
    let scell := bh * d.nlatOut * d.nlonOut + wid
    let s := S scell
    let inv := 1 / s
    (List.range 32).flatMap fun t => (Disco.strided 32 d.Ck t).map fun c =>
      ((batch * d.nlatOut * d.nlonOut + wid) * (nh * d.Ck) + head * d.Ck + c,
        inv * inv * (s * Akvw (scell * d.Ck + c) - Avw scell * Ak (scell * d.Ck + c)))

/-- `sh[chan] += scale * vload(a, chan)` over the row of an input point, in thread `t`, starting from zeros,
attention_cuda_bwd_upsample.cu 309-316, 323-330 and 342-343. -/
def upAcc (n : ℕ) (junk : ℕ → ℝ) (L : List ℕ) (scale : ℕ → ℝ) (a : ℕ → ℝ) (base : ℕ → ℕ) (t : ℕ) : ℕ → ℝ :=
  L.foldl (fun sh z => (Disco.strided 32 n t).foldl (fun sh c => Function.update sh c (sh c + scale z * a (base z + c))) sh)
    ((Disco.strided 32 n t).foldl (fun sh c => Function.update sh c 0) junk)

/-- `alpha_mul`, attention_cuda_bwd_upsample.cu 337-338. -/
noncomputable def upAlphaMul (d : Dims) (nh : ℕ) (x : BwdIn) (maxbuf S : ℕ → ℝ) (junk : ℕ → ℕ → ShJunk) (bh wid hi wi : ℕ) (p : ℕ × ℕ) (t : ℕ) : ℝ :=
  upAlpha d nh x.w maxbuf (upKey d nh x.k (junk bh wid) bh hi wi) x.q bh hi p t / S (bh * d.nlatOut * d.nlonOut + (p.1 * d.nlonOut + p.2))

/-- `scale_dk`, attention_cuda_bwd_upsample.cu 339-340. -/
noncomputable def upScaleK (d : Dims) (nh : ℕ) (x : BwdIn) (maxbuf S Avw : ℕ → ℝ) (junk : ℕ → ℕ → ShJunk) (bh wid hi wi : ℕ) (p : ℕ × ℕ) (t : ℕ) : ℝ :=
  (upG d nh (upVal d nh x.v (junk bh wid) bh hi wi) x.dy bh p.1 p.2 t
    - Avw (bh * d.nlatOut * d.nlonOut + (p.1 * d.nlonOut + p.2)) / S (bh * d.nlatOut * d.nlonOut + (p.1 * d.nlonOut + p.2)))
    * upAlphaMul d nh x maxbuf S junk bh wid hi wi p t

/-- The stores to the gradient of the keys by one warp, attention_cuda_bwd_upsample.cu 271-346. -/
noncomputable def upDkOps (d : Dims) (nh : ℕ) (x : BwdIn) (maxbuf S Avw : ℕ → ℝ) (junk : ℕ → ℕ → ShJunk) (bh wid : ℕ) : List (ℕ × ℝ) :=
  if wid ≥ d.nlatIn * d.nlonIn then []
  else
    let hi := wid / d.nlonIn
    let wi := wid - hi * d.nlonIn
    let pt := scatterPoint x.P d.nlonIn d.nlonOut wi
    (List.range 32).flatMap fun t => (Disco.strided 32 d.Ck t).map fun c =>
      (headBase d.nlatIn d.nlonIn nh d.Ck bh + (hi * d.nlonIn + wi) * (nh * d.Ck) + c,
        upAcc d.Ck (junk bh wid t 2) (x.P.row hi) (fun z => upScaleK d nh x maxbuf S Avw junk bh wid hi wi (pt z) t) x.q
          (fun z => headBase d.nlatOut d.nlonOut nh d.Ck bh + ((pt z).1 * d.nlonOut + (pt z).2) * (nh * d.Ck)) t c)

/-- The stores to the gradient of the values by one warp, attention_cuda_bwd_upsample.cu 271-345 and 347. -/
noncomputable def upDvOps (d : Dims) (nh : ℕ) (x : BwdIn) (maxbuf S : ℕ → ℝ) (junk : ℕ → ℕ → ShJunk) (bh wid : ℕ) : List (ℕ × ℝ) :=
  if wid ≥ d.nlatIn * d.nlonIn then []
  else
    let hi := wid / d.nlonIn
    let wi := wid - hi * d.nlonIn
    let pt := scatterPoint x.P d.nlonIn d.nlonOut wi
    (List.range 32).flatMap fun t => (Disco.strided 32 d.Cv t).map fun c =>
      (headBase d.nlatIn d.nlonIn nh d.Cv bh + (hi * d.nlonIn + wi) * (nh * d.Cv) + c,
        upAcc d.Cv (junk bh wid t 3) (x.P.row hi) (fun z => upAlphaMul d nh x maxbuf S junk bh wid hi wi (pt z) t) x.dy
          (fun z => headBase d.nlatOut d.nlonOut nh d.Cv bh + ((pt z).1 * d.nlonOut + (pt z).2) * (nh * d.Cv)) t c)

/-- `launch_attn_bwd_upsample_scatter`, attention_cuda_bwd_upsample.cu 352-401. -/
noncomputable def gpuBwdScatter (r : BwdRun) (d : Dims) (nh : ℕ) (x : BwdIn) : Except PyErr GpuGrads := do
  let bhs := d.B * nh
  let gIn := divUp (d.nlatIn * d.nlonIn) 2
  let gOut := divUp (d.nlatOut * d.nlonOut) 2
  let cells := bhs * d.nlatOut * d.nlonOut
  let maxbuf ← gpuUpMax r.toGpuRun d nh x.P x.k x.q
  let S ← checked gIn bhs (4 * (d.Ck + d.Cv) * 2)
    ((r.perm (overGrid bhs gIn 2 (upDenOps d nh x.w x.P x.k x.q maxbuf r.junk))).foldlM (Disco.atomicAddTo cells) fun _ => 0)
  let Avw ← checked gIn bhs (4 * (d.Ck + d.Cv) * 2)
    ((r.perm (overGrid bhs gIn 2 (upAvwOps d nh x maxbuf r.junk))).foldlM (Disco.atomicAddTo cells) fun _ => 0)
  let Ak ← checked gIn bhs (4 * (d.Ck + d.Cv) * 2)
    ((r.perm (overGrid bhs gIn 2 (upAkOps d nh x maxbuf r.junk))).foldlM (Disco.atomicAddTo (cells * d.Ck)) fun _ => 0)
  let Akvw ← checked gIn bhs (4 * (d.Ck + d.Cv) * 2)
    ((r.perm (overGrid bhs gIn 2 (upAkvwOps d nh x maxbuf r.junk))).foldlM (Disco.atomicAddTo (cells * d.Ck)) fun _ => 0)
  let dq ← checked gOut bhs 0
    ((r.perm (overGrid bhs gOut 2 (upDqOps d nh S Avw Ak Akvw))).foldlM (storeTo (d.B * d.nlatOut * d.nlonOut * (d.Ck * nh))) fun _ => 0)
  let dk ← checked gIn bhs (4 * (2 * d.Ck + 2 * d.Cv) * 2)
    ((r.perm (overGrid bhs gIn 2 (upDkOps d nh x maxbuf S Avw r.junk))).foldlM (storeTo (d.B * d.nlatIn * d.nlonIn * (d.Ck * nh))) fun _ => 0)
  let dv ← checked gIn bhs (4 * (2 * d.Ck + 2 * d.Cv) * 2)
    ((r.perm (overGrid bhs gIn 2 (upDvOps d nh x maxbuf S r.junk))).foldlM (storeTo (d.B * d.nlatIn * d.nlonIn * (d.Cv * nh))) fun _ => 0)
  pure ⟨dk, dv, dq⟩

/-! ### The operator -/

/-- `s2_attention_bwd_dkvq_cuda`, attention_cuda_bwd.cu 856-956; the checks 871-883 are those of the forward pass. Returns the gradients
of key, value and query. -/
noncomputable def gpuOpBwd (r : BwdRun) (w : ℕ → ℝ) (P : Pattern) (nh nlonIn nlatOut nlonOut : ℕ) (kw vw qw dyw : Arr) :
    Except PyErr (Arr × Arr × Arr) := do
  let gather ← gpuChecks nh vw qw nlonIn nlonOut
  let d := gpuDims nh kw vw qw nlonIn nlatOut nlonOut
  let x : BwdIn := ⟨w, P, kw.data, vw.data, qw.data, dyw.data⟩
  let g ← if gather then gpuBwdGather r d nh x else gpuBwdScatter r d nh x
  pure (⟨kw.shape, g.dk⟩, ⟨vw.shape, g.dv⟩, ⟨qw.shape, g.dq⟩)

end Verif.AttnGpu
