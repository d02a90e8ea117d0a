import Verif.Model.AttentionOp
import Verif.Model.DiscoCuda
/-!
Model of the GPU kernels of neighbourhood attention, forward pass: `attention/optimized/kernels_cuda/attention_cuda_fwd.cu`,
`attention_cuda_fwd_upsample.cu`, and what they use of `attention_cuda_utils.cuh` and `attention_cuda_utils.cu`.

Tensors are the flat arrays the kernels address; what lies beyond their ends is arbitrary. A register or memory cell of the compute
type holds `vec` numbers: `vec = 4` for `float4`, `vec = 1` otherwise. A group is the set of threads that works on one point: a warp,
or a whole block. What a thread finds in shared memory where it has not written itself is arbitrary (`junk`, one per thread), so the
interleaving of the threads of a group does not matter. Groups run independently; their stores and atomic operations happen in
the order chosen by the run (`perm`), which may be any. A store outside an array is the outcome `memoryFault`. A launch that the CUDA
runtime refuses ends the process (`CHECK_ERROR`, cudamacro.h 42-50). Integer overflow and rounding are not modelled, and neither
are data types: storage and compute type are the reals.
-/
namespace Verif.AttnGpu
open Verif Verif.Attn Verif.Spec.Attn Finset

/-! ### Helpers on the device -/

/-- `vload`, attention_cuda_utils.cuh 195-206: element `i` of an array of `vec`-tuples. -/
def vload (vec : ℕ) (a : ℕ → ℝ) (i : ℕ) : ℕ → ℝ := fun j => a (vec * i + j)

/-- `__vred`, attention_cuda_utils.cuh 140 and 163. -/
def vred (vec : ℕ) (x : ℕ → ℝ) : ℝ := (List.range vec).foldl (fun s j => s + x j) 0

/-- `val += __shfl_xor_sync(FULL_MASK, val, i)`: lane `l` adds the value of lane `l xor i`. -/
def warpStep (f : ℕ → ℝ) (i : ℕ) : ℕ → ℝ := fun l => f l + f (l ^^^ i)

/-- `__warp_sum`, attention_cuda_utils.cuh 243-249. -/
def warpSum (f : ℕ → ℝ) : ℕ → ℝ := [16, 8, 4, 2, 1].foldl warpStep f

/-- `__block_sum<BDIM_X>`, attention_cuda_utils.cuh 302-337, for a block of `bx` threads: lane 0 of every warp stores the sum of its
warp, the first warp adds these up, every thread reads the result. Barriers separate the three phases. -/
def blockSum (bx : ℕ) (f : ℕ → ℝ) : ℕ → ℝ :=
  let sh := fun wid => warpSum (fun l => f (wid * 32 + l)) 0
  let v := warpSum (fun lid => if lid < bx / 32 then sh lid else 0)
  fun _ => v 0

/-- The sum over the threads of a group, attention_cuda_fwd.cu 297-302. -/
def groupSum (bx : ℕ) (f : ℕ → ℝ) : ℕ → ℝ := if bx = 32 then warpSum f else blockSum bx f

/-- The channels that thread `t` visits in an unrolled loop, `i * BDIM_X + tidx` for `i < NLOC - 1`, and the last one if it exists,
attention_cuda_fwd.cu 285-290 and 315-320. -/
def unrolled (bx nloc n t : ℕ) : List ℕ :=
  (List.range (nloc - 1)).map (fun i => i * bx + t) ++ if (nloc - 1) * bx + t < n then [(nloc - 1) * bx + t] else []

/-- Channel loop of thread `t`: unrolled, or `for (chan = tidx; chan < n; chan += BDIM_X)`. -/
def chans (bx : ℕ) (nloc : Option ℕ) (n t : ℕ) : List ℕ :=
  match nloc with
  | some m => unrolled bx m n t
  | none => Disco.strided bx n t

/-- Offset of the channels of head `bh % nh` of batch entry `bh / nh` in a packed tensor `(B, H, W, nh * C)`,
attention_cuda_fwd.cu 96-102 and 119-125. -/
def headBase (H W nh C bh : ℕ) : ℕ :=
  let batch := bh / nh
  let head := bh - batch * nh
  batch * H * W * (nh * C) + head * C

/-- Offset of a point, attention_cuda_fwd.cu 120-125 and 148-149. -/
def cellOff (W nh C h w : ℕ) : ℕ := h * W * (nh * C) + w * (nh * C)

/-! ### Launch configuration -/

/-- `next_pow2`, attention_cuda_utils.cu 388-396; `unsigned int` has 32 bits. -/
def nextPow2 (x : ℕ) : ℕ := [1, 2, 4, 8, 16].foldl (fun x i => x ||| (x >>> i)) (x - 1) + 1

/-- What a dispatcher launches: nothing, the generic kernel, or a specialised one with `bx` threads per group, `by'` groups per block
and `nloc` local elements, whose loops over the other channel count are unrolled if `same`. -/
inductive Launch where
  | nothing
  | generic
  | special (bx by' nloc : ℕ) (same : Bool)
  deriving DecidableEq

/-- `launch_spc_attn_fwd`, attention_cuda_fwd.cu 357-407, and `launch_spc_attn_bwd`, attention_cuda_bwd.cu 675-725: the
recursion over `CUR_LOC_SIZE`. `other` is the channel count that does not determine `nloc`. -/
def spcLaunch (bx by' maxLoc nloc other cur : ℕ) : Launch :=
  if cur = nloc then .special bx by' cur (decide (bx * (cur - 1) ≤ other ∧ other ≤ bx * cur))
  else if cur < maxLoc then spcLaunch bx by' maxLoc nloc other (cur + 1)
  else .nothing
termination_by maxLoc - cur

/-- `fwd_dispatch_bdimx`, attention_cuda_fwd.cu 412-455 (`maxBx = 1024`), and `bwd_dispatch_bdimx`, attention_cuda_bwd.cu 731-771
(`maxBx = 512`): blocks of 32, 64, ..., `maxBx` threads have a specialised kernel. -/
def dispatchBdimx (maxBx maxLoc minLoc bdimx nloc other : ℕ) : Launch :=
  if bdimx = 32 then spcLaunch 32 2 maxLoc nloc other 1
  else if bdimx ∈ [64, 128, 256, 512, 1024] ∧ bdimx ≤ maxBx then spcLaunch bdimx 1 maxLoc nloc other minLoc
  else .generic

/-- The block size, attention_cuda_fwd.cu 480-484 (`n` counts the value channels) and attention_cuda_bwd.cu 796-800 (`n` counts
the query channels). -/
def bdimxOf (n : ℕ) : ℕ := nextPow2 (max ((n + 15) / 16) 32)

/-- Numbers per element: four when the storage is `float`, all arrays start at multiples of 16 bytes (together `vecOk`) and both
channel counts are multiples of four, attention_cuda_fwd.cu 498-504, attention_cuda_bwd.cu 816-824. -/
def vecOf (vecOk : Bool) (Ck Cv : ℕ) : ℕ := if vecOk = true ∧ Ck % 4 = 0 ∧ Cv % 4 = 0 then 4 else 1

/-- `s2_attn_fwd_dispatch`, attention_cuda_fwd.cu 462-530: `MAX_LOC` is `16 / vec`, `MIN_LOC` is `MAX_LOC / 2 + 1`. -/
def fwdLaunch (vecOk : Bool) (Ck Cv : ℕ) : Launch :=
  let vec := vecOf vecOk Ck Cv
  let bdimx := bdimxOf Cv
  dispatchBdimx 1024 (16 / vec) (16 / vec / 2 + 1) bdimx ((Cv / vec + (bdimx - 1)) / bdimx) (Ck / vec)

/-- A kernel configuration: group size, groups per block, how the loops over query and value channels run, whether the query is staged
in shared memory, and the bytes of shared memory of a block. -/
structure Config where
  bx : ℕ
  by' : ℕ
  locI : Option ℕ
  locO : Option ℕ
  staged : Bool
  shared : ℕ

/-- The configuration of a forward launch, attention_cuda_fwd.cu 341-347 and 369-396. The specialised kernels with more than one warp
per group also hold the array of `__block_sum` (attention_cuda_utils.cuh 318). -/
def fwdConfig (vec nci nco : ℕ) : Launch → Option Config
  | .nothing => none
  | .generic => some ⟨32, 2, none, none, false, 4 * vec * nco * 2⟩
  | .special bx by' nloc same =>
    some ⟨bx, by', if same then some nloc else none, some nloc, true, 4 * vec * nci * by' + if bx = 32 then 0 else 4 * (bx / 32)⟩

/-- A launch the CUDA runtime accepts: no dimension of the grid is zero, the first is below `2 ^ 31`, the second below `2 ^ 16`, and a
block asks for at most 48 KiB of shared memory (no launcher of these files raises that limit). -/
def launchOk (gx gy shared : ℕ) : Prop := 0 < gx ∧ gx < 2 ^ 31 ∧ 0 < gy ∧ gy < 2 ^ 16 ∧ shared ≤ 49152

instance (gx gy shared : ℕ) : Decidable (launchOk gx gy shared) := by unfold launchOk; infer_instance

/-- `DIV_UP`, attention_cuda_utils.cuh 40. -/
def divUp (a b : ℕ) : ℕ := (a + (b - 1)) / b

/-! ### Gather kernels -/

/-- What a run depends on besides its arguments: whether the arrays allow four-wide access, `-FLT_MAX`, the order in which rows are
taken up (`sortRows`), the contents of shared memory per (batch entry and head, point, thread), the contents of fresh output memory,
the order of stores and atomic operations. -/
structure GpuRun where
  vecOk : Bool
  fmin : ℝ
  rowIdx : ℕ → ℕ
  junk : ℕ → ℕ → ℕ → ℕ → ℕ → ℝ
  mem : ℕ → ℝ
  perm : List (ℕ × ℝ) → List (ℕ × ℝ)

/-- Registers and own shared memory of a thread. -/
structure FwdThr where
  alphaSum : ℝ
  qdotkMax : ℝ
  y : ℕ → ℕ → ℝ

/-- The dot product of query and key, part of thread `t`, attention_cuda_fwd.cu 151-155 and 281-297. -/
def dotPart (vec : ℕ) (L : List ℕ) (qv : ℕ → ℕ → ℝ) (k : ℕ → ℝ) (ka : ℕ) : ℝ :=
  vred vec (L.foldl (fun (acc : ℕ → ℝ) c => fun j => acc j + qv c j * vload vec k (ka + c) j) (fun _ => 0))

/-- One neighbour, attention_cuda_fwd.cu 148-172 and 278-322, all threads of a group. `ka` and `va` are the offsets of its key and value. -/
noncomputable def fwdStep (vec bx : ℕ) (chI chO : ℕ → List ℕ) (qv : ℕ → ℕ → ℕ → ℝ) (k v : ℕ → ℝ) (ka va : ℕ) (quad : ℝ)
    (s : ℕ → FwdThr) : ℕ → FwdThr := fun t =>
  let qdotk := groupSum bx (fun t => dotPart vec (chI t) (qv t) k ka) t
  let m := max (s t).qdotkMax qdotk
  let alpha := Real.exp (qdotk - m) * quad
  let expSave := Real.exp ((s t).qdotkMax - m)
  ⟨alpha + (s t).alphaSum * expSave, m,
    (chO t).foldl (fun y c => Function.update y c fun j => expSave * y c j + alpha * vload vec v (va + c) j) (s t).y⟩

/-- The input point of an entry of the pattern, attention_cuda_fwd.cu 139-144 and 271-276. -/
def gatherPoint (P : Pattern) (nlonIn pscale wo z : ℕ) : ℕ × ℕ :=
  let col := P.col z
  let hi := col / nlonIn
  let wi := col - hi * nlonIn
  let wiWo := wi + pscale * wo
  (hi, wiWo - wiWo / nlonIn * nlonIn)

/-- The loop over the neighbours, attention_cuda_fwd.cu 117-173 and 248-323. -/
noncomputable def fwdGroup (vec : ℕ) (cf : Config) (d : Dims) (nh : ℕ) (w : ℕ → ℝ) (P : Pattern) (k v q : ℕ → ℝ) (fmin : ℝ)
    (junk : ℕ → ℕ → ℕ → ℝ) (bh ho wo : ℕ) : ℕ → FwdThr :=
  let chI := chans cf.bx cf.locI d.Ck
  let chO := chans cf.bx cf.locO d.Cv
  let qa := headBase d.nlatOut d.nlonOut nh d.Ck bh + cellOff d.nlonOut nh d.Ck ho wo
  let qv := fun t => if cf.staged then (chI t).foldl (fun sh c => Function.update sh c (vload vec q (qa + c))) (junk t)
    else fun c => vload vec q (qa + c)
  (P.row ho).foldl (fun s z =>
      let p := gatherPoint P d.nlonIn (d.nlonIn / d.nlonOut) wo z
      fwdStep vec cf.bx chI chO qv k v (headBase d.nlatIn d.nlonIn nh d.Ck bh + cellOff d.nlonIn nh d.Ck p.1 p.2)
        (headBase d.nlatIn d.nlonIn nh d.Cv bh + cellOff d.nlonIn nh d.Cv p.1 p.2) (w p.1) s)
    (fun t => ⟨0, fmin, (chO t).foldl (fun y c => Function.update y c fun _ => 0) (junk t)⟩)

/-- The stores of one group, attention_cuda_fwd.cu 104-112, 175-176 and 216-231, 325-329. -/
noncomputable def fwdStores (vec : ℕ) (cf : Config) (d : Dims) (nh : ℕ) (w : ℕ → ℝ) (P : Pattern) (k v q : ℕ → ℝ) (r : GpuRun)
    (bh wid : ℕ) : List (ℕ × ℝ) :=
  if wid ≥ d.nlatOut * d.nlonOut then []
  else
    let h := wid / d.nlonOut
    let wo := wid - h * d.nlonOut
    let ho := r.rowIdx h
    let s := fwdGroup vec cf d nh w P k v q r.fmin (r.junk bh wid) bh ho wo
    let ya := headBase d.nlatOut d.nlonOut nh d.Cv bh + cellOff d.nlonOut nh d.Cv ho wo
    (List.range cf.bx).flatMap fun t => (chans cf.bx cf.locO d.Cv t).flatMap fun c =>
      (List.range vec).map fun j => (vec * (ya + c) + j, 1 / (s t).alphaSum * (s t).y c j)

/-- The threads of a grid: `blockIdx.y` is the batch entry and head, `blockIdx.x * blockDim.y + threadIdx.y` the point. -/
def overGrid {α : Type} (bhs gx by' : ℕ) (f : ℕ → ℕ → List α) : List α :=
  (List.range bhs).flatMap fun bh => (List.range (gx * by')).flatMap fun wid => f bh wid

/-- A store to a global array of `size` numbers. -/
def storeTo (size : ℕ) (mem : ℕ → ℝ) (a : ℕ × ℝ) : Except PyErr (ℕ → ℝ) := Disco.store size mem a.1 a.2

/-- The gather kernels and their launch, attention_cuda_fwd.cu 334-407 and 462-530: the output array. -/
noncomputable def gpuGather (r : GpuRun) (d : Dims) (nh : ℕ) (w : ℕ → ℝ) (P : Pattern) (k v q : ℕ → ℝ) : Except PyErr (ℕ → ℝ) :=
  let vec := vecOf r.vecOk d.Ck d.Cv
  let d' : Dims := { d with Ck := d.Ck / vec, Cv := d.Cv / vec }
  match fwdConfig vec d'.Ck d'.Cv (fwdLaunch r.vecOk d.Ck d.Cv) with
  | none => .ok r.mem
  | some cf =>
    let gx := divUp (d.nlatOut * d.nlonOut) cf.by'
    if launchOk gx (d.B * nh) cf.shared then
      (r.perm (overGrid (d.B * nh) gx cf.by' (fwdStores vec cf d' nh w P k v q r))).foldlM
        (storeTo (d.B * d.nlatOut * d.nlonOut * (d.Cv * nh))) r.mem
    else .error .processExit

/-! ### Scatter kernels (upsampling) -/

/-- `scatter_wo`, attention_cuda_fwd_upsample.cu 102-107. -/
def scatterWo (woCanonical wi pscaleOut nlonOut : ℕ) : ℕ :=
  let wo := woCanonical + pscaleOut * wi
  if wo ≥ nlonOut then wo - nlonOut else wo

/-- The output point of an entry, attention_cuda_fwd_upsample.cu 149-151 and 206-208. -/
def scatterPoint (P : Pattern) (nlonIn nlonOut wi z : ℕ) : ℕ × ℕ :=
  let col := P.col z
  let ho := col / nlonOut
  (ho, scatterWo (col - ho * nlonOut) wi (nlonOut / nlonIn) nlonOut)

/-- A vector staged in shared memory by the threads of a warp, as thread `t` sees it, attention_cuda_fwd_upsample.cu 142, 197-198. -/
def staged (n : ℕ) (a : ℕ → ℝ) (base : ℕ) (junk : ℕ → ℝ) (t : ℕ) : ℕ → ℝ :=
  (Disco.strided 32 n t).foldl (fun sh c => Function.update sh c (a (base + c))) junk

/-- Dot product of a staged vector and a vector in global memory over a warp, attention_cuda_fwd_upsample.cu 154-156 and 212-214. -/
def warpDot (n : ℕ) (sh : ℕ → ℕ → ℝ) (a : ℕ → ℝ) (base : ℕ) : ℕ → ℝ :=
  warpSum fun t => (Disco.strided 32 n t).foldl (fun acc c => acc + sh t c * a (base + c)) 0

/-- What one thread sees of shared memory at the start of a pass: `junk` at key `0` (vector staged first), `1` (second), ... -/
abbrev ShJunk := ℕ → ℕ → ℕ → ℝ

/-- The key of input point `(hi, wi)` in shared memory, attention_cuda_fwd_upsample.cu 138, 142. -/
def upKey (d : Dims) (nh : ℕ) (k : ℕ → ℝ) (junk : ShJunk) (bh hi wi : ℕ) : ℕ → ℕ → ℝ := fun t =>
  staged d.Ck k (headBase d.nlatIn d.nlonIn nh d.Ck bh + (hi * d.nlonIn + wi) * (nh * d.Ck)) (junk t 0) t

/-- The value of input point `(hi, wi)` in shared memory, attention_cuda_fwd_upsample.cu 191, 198. -/
def upVal (d : Dims) (nh : ℕ) (v : ℕ → ℝ) (junk : ShJunk) (bh hi wi : ℕ) : ℕ → ℕ → ℝ := fun t =>
  staged d.Cv v (headBase d.nlatIn d.nlonIn nh d.Cv bh + (hi * d.nlonIn + wi) * (nh * d.Cv)) (junk t 1) t

/-- The score of an entry, in every thread of the warp, attention_cuda_fwd_upsample.cu 152-156 and 210-214. -/
def upScore (d : Dims) (nh : ℕ) (shk : ℕ → ℕ → ℝ) (q : ℕ → ℝ) (bh ho wo : ℕ) : ℕ → ℝ :=
  warpDot d.Ck shk q (headBase d.nlatOut d.nlonOut nh d.Ck bh + (ho * d.nlonOut + wo) * (nh * d.Ck))

/-- Pass 1, attention_cuda_fwd_upsample.cu 110-159: the `atomicMaxf` operations of one warp. -/
def upMaxOps (d : Dims) (nh : ℕ) (P : Pattern) (k q : ℕ → ℝ) (junk : ℕ → ℕ → ShJunk) (bh wid : ℕ) : List (ℕ × ℝ) :=
  if wid ≥ d.nlatIn * d.nlonIn then []
  else
    let hi := wid / d.nlonIn
    let wi := wid - hi * d.nlonIn
    let shk := upKey d nh k (junk bh wid) bh hi wi
    (P.row hi).map fun z =>
      let p := scatterPoint P d.nlonIn d.nlonOut wi z
      (bh * d.nlatOut * d.nlonOut + (p.1 * d.nlonOut + p.2), upScore d nh shk q bh p.1 p.2 0)

/-- `atomicMaxf` on an array of `size` numbers, attention_cuda_fwd_upsample.cu 89-99. -/
noncomputable def atomicMaxTo (size : ℕ) (mem : ℕ → ℝ) (a : ℕ × ℝ) : Except PyErr (ℕ → ℝ) :=
  if a.1 < size then .ok (Function.update mem a.1 (max (mem a.1) a.2)) else .error .memoryFault

/-- The weight of an entry in thread `t`, attention_cuda_fwd_upsample.cu 210-216. -/
noncomputable def upAlpha (d : Dims) (nh : ℕ) (w maxbuf : ℕ → ℝ) (shk : ℕ → ℕ → ℝ) (q : ℕ → ℝ) (bh hi : ℕ) (p : ℕ × ℕ) (t : ℕ) : ℝ :=
  Real.exp (upScore d nh shk q bh p.1 p.2 t - maxbuf (bh * d.nlatOut * d.nlonOut + (p.1 * d.nlonOut + p.2))) * w hi

/-- Pass 2, attention_cuda_fwd_upsample.cu 162-217: the additions to `denom` by one warp. -/
noncomputable def upDenOps (d : Dims) (nh : ℕ) (w : ℕ → ℝ) (P : Pattern) (k q maxbuf : ℕ → ℝ) (junk : ℕ → ℕ → ShJunk) (bh wid : ℕ) :
    List (ℕ × ℝ) :=
  if wid ≥ d.nlatIn * d.nlonIn then []
  else
    let hi := wid / d.nlonIn
    let wi := wid - hi * d.nlonIn
    let shk := upKey d nh k (junk bh wid) bh hi wi
    (P.row hi).map fun z =>
      let p := scatterPoint P d.nlonIn d.nlonOut wi z
      (bh * d.nlatOut * d.nlonOut + (p.1 * d.nlonOut + p.2), upAlpha d nh w maxbuf shk q bh hi p 0)

/-- Pass 2, attention_cuda_fwd_upsample.cu 162-216 and 218-219: the additions to `numer` by one warp. -/
noncomputable def upNumOps (d : Dims) (nh : ℕ) (w : ℕ → ℝ) (P : Pattern) (k v q maxbuf : ℕ → ℝ) (junk : ℕ → ℕ → ShJunk) (bh wid : ℕ) :
    List (ℕ × ℝ) :=
  if wid ≥ d.nlatIn * d.nlonIn then []
  else
    let hi := wid / d.nlonIn
    let wi := wid - hi * d.nlonIn
    let shk := upKey d nh k (junk bh wid) bh hi wi
    let shv := upVal d nh v (junk bh wid) bh hi wi
    (P.row hi).flatMap fun z =>
      let p := scatterPoint P d.nlonIn d.nlonOut wi z
      (List.range 32).flatMap fun t => (Disco.strided 32 d.Cv t).map fun c =>
        (bh * d.nlatOut * d.nlonOut * d.Cv + (p.1 * d.nlonOut + p.2) * d.Cv + c, upAlpha d nh w maxbuf shk q bh hi p t * shv t c)

/-- The last pass, attention_cuda_fwd_upsample.cu 224-245: the stores of one warp. -/
noncomputable def upStores (d : Dims) (nh : ℕ) (numer denom : ℕ → ℝ) (bh wid : ℕ) : List (ℕ × ℝ) :=
  if wid ≥ d.nlatOut * d.nlonOut then []
  else
    let batch := bh / nh
    let head := bh - batch * nh
    let scell := bh * d.nlatOut * d.nlonOut + wid
    let inv := 1 / denom scell
    (List.range 32).flatMap fun t => (Disco.strided 32 d.Cv t).map fun c =>
      ((batch * d.nlatOut * d.nlonOut + wid) * (nh * d.Cv) + head * d.Cv + c, numer (scell * d.Cv + c) * inv)

/-- Kernel launch followed by `CHECK_ERROR`. -/
def checked (gx gy shared : ℕ) (x : Except PyErr (ℕ → ℝ)) : Except PyErr (ℕ → ℝ) :=
  if launchOk gx gy shared then x else .error .processExit

/-- The passes of `launch_attn_fwd_upsample_scatter`, attention_cuda_fwd_upsample.cu 249-279: the buffer of maxima. -/
noncomputable def gpuUpMax (r : GpuRun) (d : Dims) (nh : ℕ) (P : Pattern) (k q : ℕ → ℝ) : Except PyErr (ℕ → ℝ) :=
  let gx := divUp (d.nlatIn * d.nlonIn) 2
  let bhs := d.B * nh
  checked gx bhs (4 * d.Ck * 2)
    ((r.perm (overGrid bhs gx 2 (upMaxOps d nh P k q r.junk))).foldlM (atomicMaxTo (bhs * d.nlatOut * d.nlonOut)) fun _ => r.fmin)

/-- `launch_attn_fwd_upsample_scatter`, attention_cuda_fwd_upsample.cu 249-289. -/
noncomputable def gpuScatter (r : GpuRun) (d : Dims) (nh : ℕ) (w : ℕ → ℝ) (P : Pattern) (k v q : ℕ → ℝ) : Except PyErr (ℕ → ℝ) := do
  let bhs := d.B * nh
  let gIn := divUp (d.nlatIn * d.nlonIn) 2
  let gOut := divUp (d.nlatOut * d.nlonOut) 2
  let maxbuf ← gpuUpMax r d nh P k q
  let denom ← checked gIn bhs (4 * (d.Ck + d.Cv) * 2)
    ((r.perm (overGrid bhs gIn 2 (upDenOps d nh w P k q maxbuf r.junk))).foldlM (Disco.atomicAddTo (bhs * d.nlatOut * d.nlonOut)) fun _ => 0)
  let numer ← checked gIn bhs (4 * (d.Ck + d.Cv) * 2)
    ((r.perm (overGrid bhs gIn 2 (upNumOps d nh w P k v q maxbuf r.junk))).foldlM
      (Disco.atomicAddTo (bhs * d.nlatOut * d.nlonOut * d.Cv)) fun _ => 0)
  checked gOut bhs 0
    ((r.perm (overGrid bhs gOut 2 (upStores d nh numer denom))).foldlM (storeTo (d.B * d.nlatOut * d.nlonOut * (d.Cv * nh))) r.mem)

/-! ### The operator -/

/-- The extents the entry points read off the packed tensors, attention_cuda_fwd.cu 572-577, attention_cuda_bwd.cu 894-899. -/
def gpuDims (nh : ℕ) (kw vw qw : Arr) (nlonIn nlatOut nlonOut : ℕ) : Dims :=
  ⟨kw.shape.getD 0 0, qw.shape.getD 3 0 / nh, vw.shape.getD 3 0 / nh, kw.shape.getD 1 0, nlonIn, nlatOut, nlonOut⟩

/-- Direction and head checks, attention_cuda_fwd.cu 550-562. The remainder of an integer division by zero is taken first (553-554) and
ends the process. `true` is the gather direction. -/
def gpuChecks (nh : ℕ) (vw qw : Arr) (nlonIn nlonOut : ℕ) : Except PyErr Bool :=
  if nlonOut = 0 ∨ nlonIn = 0 then .error .processExit
  else if ¬ (nlonIn % nlonOut = 0 ∨ nlonOut % nlonIn = 0) then .error .runtimeError
  else if nh < 1 then .error .runtimeError
  else if qw.shape.getD 3 0 % nh ≠ 0 then .error .runtimeError
  else if vw.shape.getD 3 0 % nh ≠ 0 then .error .runtimeError
  else .ok (decide (nlonIn % nlonOut = 0))

/-- `s2_attention_fwd_cuda`, attention_cuda_fwd.cu 539-633. -/
noncomputable def gpuOp (r : GpuRun) (w : ℕ → ℝ) (P : Pattern) (nh nlonIn nlatOut nlonOut : ℕ) (kw vw qw : Arr) : Except PyErr Arr := do
  let gather ← gpuChecks nh vw qw nlonIn nlonOut
  let d := gpuDims nh kw vw qw nlonIn nlatOut nlonOut
  let y ← if gather then gpuGather r d nh w P kw.data vw.data qw.data else gpuScatter r d nh w P kw.data vw.data qw.data
  pure ⟨[d.B, nlatOut, nlonOut, d.Cv * nh], y⟩

end Verif.AttnGpu
