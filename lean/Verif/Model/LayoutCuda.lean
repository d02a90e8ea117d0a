import Verif.Model.AttentionOp
import Verif.Model.AttentionCuda
/-!
Model of the GPU side of the layout conversions `to_nhwc` and `to_nchw`: `permute_to_nhwc_cuda`, `permute_to_nchw_cuda` and the tiled transposes they launch
(`attention/optimized/kernels_cuda/attention_cuda_utils.cu` 152-220, `attention_cuda_utils.cuh` 416-576).

The kernels run at the granularity of single loop iterations of single threads: a run is the list of these in the order in which they take effect. Shared memory
(one tile per block) and the freshly allocated output hold arbitrary numbers at first. An access outside an array is the outcome `memoryFault`. The contiguous
tensors are addressed by their row-major strides, as the packed accessors do. Entries are real numbers; the kernels only move them.
-/
namespace Verif.GpuLayout
open Verif Verif.Attn Finset

/-- Iteration `j` of one of the two loops of thread `(tx, ty)` of block `(bx, by', bz)`: the loop before the barrier that fills the tile (`store = false`) or the
one behind it that empties the tile (`store = true`). -/
structure Step where
  bx : ℕ
  by' : ℕ
  bz : ℕ
  tx : ℕ
  ty : ℕ
  j : ℕ
  store : Bool
  deriving DecidableEq

/-- The memory of a launch: the tile of every block and the output. -/
structure Mem where
  sh : ℕ × ℕ × ℕ → ℕ → ℝ
  out : ℕ → ℝ

/-- `a[i]` for an array of `n` numbers. -/
def rd (n : ℕ) (a : ℕ → ℝ) (i : ℕ) : Except PyErr ℝ := if i < n then .ok (a i) else .error .memoryFault

/-- `sh[r][c] = v` in the tile of block `b`; the tile is `sh[BDIM_X][BDIM_X + 1]`, attention_cuda_utils.cuh 428 and 507. -/
def wrTile (X : ℕ) (m : Mem) (b : ℕ × ℕ × ℕ) (r c : ℕ) (v : ℝ) : Except PyErr Mem :=
  if r * (X + 1) + c < X * (X + 1) then .ok { m with sh := Function.update m.sh b (Function.update (m.sh b) (r * (X + 1) + c) v) }
  else .error .memoryFault

/-- `sh[r][c]`. -/
def rdTile (X : ℕ) (m : Mem) (b : ℕ × ℕ × ℕ) (r c : ℕ) : Except PyErr ℝ := rd (X * (X + 1)) (m.sh b) (r * (X + 1) + c)

/-- `dst[...] = v` at the row-major position `i` of an output of `n` numbers. -/
def wrOut (n : ℕ) (m : Mem) (i : ℕ) (v : ℝ) : Except PyErr Mem :=
  if i < n then .ok { m with out := Function.update m.out i v } else .error .memoryFault

/-- `permute_to0231_k`, attention_cuda_utils.cuh 417-470, one iteration. `X` is `BDIM_X`; `src` has the shape `[nb, nchn, nlat, nlon]`. The differences
`nchn - coff` and `nlon - woff` are compared with a positive number, so that it does not matter that natural numbers stop at zero. -/
def step0231 (X nb nchn nlat nlon : ℕ) (src : ℕ → ℝ) (s : Step) (m : Mem) : Except PyErr Mem :=
  let n := nb * (nchn * (nlat * nlon))
  let b := (s.bx, s.by', s.bz)
  let coff := s.bx * X
  let woff := s.by' * X
  let batch := s.bz / nlat
  let h := s.bz - batch * nlat
  let rdSrc := fun c w => rd n src (flat [nb, nchn, nlat, nlon] [batch, c, h, w])
  let wrDst := fun w c v => wrOut n m (flat [nb, nlat, nlon, nchn] [batch, h, w, c]) v
  if X ≤ nchn - coff ∧ X ≤ nlon - woff then
    if s.store = false then do
      let v ← rdSrc (coff + s.j + s.ty) (woff + s.tx)
      wrTile X m b (s.j + s.ty) s.tx v
    else do
      let v ← rdTile X m b s.tx (s.j + s.ty)
      wrDst (woff + s.j + s.ty) (coff + s.tx) v
  else
    if s.store = false then
      if woff + s.tx < nlon then do
        let v ← if coff + s.j + s.ty < nchn then rdSrc (coff + s.j + s.ty) (woff + s.tx) else .ok 0
        wrTile X m b (s.j + s.ty) s.tx v
      else .ok m
    else
      if coff + s.tx < nchn then
        if woff + s.j + s.ty < nlon then do
          let v ← rdTile X m b s.tx (s.j + s.ty)
          wrDst (woff + s.j + s.ty) (coff + s.tx) v
        else .ok m
      else .ok m

/-- `permute_to0312_k`, attention_cuda_utils.cuh 496-552, one iteration. `src` has the shape `[nb, nlat, nlon, nchn]`. -/
def step0312 (X nb nchn nlat nlon : ℕ) (src : ℕ → ℝ) (s : Step) (m : Mem) : Except PyErr Mem :=
  let n := nb * (nlat * (nlon * nchn))
  let b := (s.bx, s.by', s.bz)
  let woff := s.bx * X
  let coff := s.by' * X
  let batch := s.bz / nlat
  let h := s.bz - batch * nlat
  let rdSrc := fun w c => rd n src (flat [nb, nlat, nlon, nchn] [batch, h, w, c])
  let wrDst := fun c w v => wrOut n m (flat [nb, nchn, nlat, nlon] [batch, c, h, w]) v
  if X ≤ nchn - coff ∧ X ≤ nlon - woff then
    if s.store = false then do
      let v ← rdSrc (woff + s.j + s.ty) (coff + s.tx)
      wrTile X m b (s.j + s.ty) s.tx v
    else do
      let v ← rdTile X m b s.tx (s.j + s.ty)
      wrDst (coff + s.j + s.ty) (woff + s.tx) v
  else
    if s.store = false then
      if coff + s.tx < nchn then do
        let v ← if woff + s.j + s.ty < nlon then rdSrc (woff + s.j + s.ty) (coff + s.tx) else .ok 0
        wrTile X m b (s.j + s.ty) s.tx v
      else .ok m
    else
      if woff + s.tx < nlon then
        if coff + s.j + s.ty < nchn then do
          let v ← rdTile X m b s.tx (s.j + s.ty)
          wrDst (coff + s.j + s.ty) (woff + s.tx) v
        else .ok m
      else .ok m

/-- A launch: its iterations one after the other, until one of them faults. -/
def launch (step : Step → Mem → Except PyErr Mem) : List Step → Mem → Except PyErr Mem
  | [], m => .ok m
  | s :: l, m => match step s m with
    | .error e => .error e
    | .ok m => launch step l m

/-- What a call depends on besides its arguments: the PTX version of the loaded code, the order in which the iterations of the launch take effect, and the contents
of the shared memory and of the output before it. -/
structure Run where
  ptx : ℕ
  order : List Step
  mem : Mem

/-- `TRANSP_WARPS_X_TILE_GENERIC` and `TRANSP_WARPS_X_TILE_SM100`: the threads of a block in the second direction, attention_cuda_utils.cu 52-53, 161 and 186. -/
def tileWarps (ptx : ℕ) : ℕ := if ptx < 100 then 32 else 4

/-- What a tensor given to the operators is like, besides its shape and entries: on the GPU, contiguous, of one of the types `float`, `double`, `half` and
`bfloat16`. -/
structure Kind where
  cuda : Bool
  contiguous : Bool
  floating : Bool

/-- The end of the launchers and of `permute_4D_to...`: the checks of the grid, the check of `packed_accessor32`, whose indices have 32 bits, the launch, which the
CUDA runtime refuses when a dimension of the grid is zero, and `CHECK_ERROR`, which then ends the process. The dimensions of the grid are `unsigned int`. -/
def launchChecked (gx gy gz numel : ℕ) (run : Except PyErr Mem) : Except PyErr Mem :=
  if ¬ gy % 2 ^ 32 < 65536 then .error .runtimeError
  else if ¬ gz % 2 ^ 32 < 65536 then .error .runtimeError
  else if ¬ numel ≤ 2147483647 then .error .runtimeError
  else if gx % 2 ^ 32 = 0 ∨ gy % 2 ^ 32 = 0 ∨ gz % 2 ^ 32 = 0 then .error .processExit
  else run

/-- `permute_to_nhwc_cuda`, attention_cuda_utils.cu 206-212, with `permute_4D_to0231` 152-175 and `launch_permute_to0231`, attention_cuda_utils.cuh 472-494.
`AT_DISPATCH_FLOATING_TYPES_AND2` raises `NotImplementedError` for other types. -/
def permuteToNhwcCuda (r : Run) (k : Kind) (x : Arr) : Except PyErr Arr :=
  if k.cuda = false then .error .runtimeError
  else match x.shape with
  | [nb, nchn, nlat, nlon] =>
    if k.contiguous = false then .error .runtimeError
    else if k.floating = false then .error .notImplemented
    else match launchChecked (AttnGpu.divUp nchn 32) (AttnGpu.divUp nlon 32) (nlat * nb) x.shape.prod
      (launch (step0231 32 nb nchn nlat nlon x.data) r.order r.mem) with
    | .error e => .error e
    | .ok m => .ok ⟨[nb, nlat, nlon, nchn], m.out⟩
  | _ => .error .runtimeError

/-- `permute_to_nchw_cuda`, attention_cuda_utils.cu 214-220, with `permute_4D_to0312` 177-200 and `launch_permute_to0312`, attention_cuda_utils.cuh 554-576. -/
def permuteToNchwCuda (r : Run) (k : Kind) (x : Arr) : Except PyErr Arr :=
  if k.cuda = false then .error .runtimeError
  else match x.shape with
  | [nb, nlat, nlon, nchn] =>
    if k.contiguous = false then .error .runtimeError
    else if k.floating = false then .error .notImplemented
    else match launchChecked (AttnGpu.divUp nlon 32) (AttnGpu.divUp nchn 32) (nlat * nb) x.shape.prod
      (launch (step0312 32 nb nchn nlat nlon x.data) r.order r.mem) with
    | .error e => .error e
    | .ok m => .ok ⟨[nb, nchn, nlat, nlon], m.out⟩
  | _ => .error .runtimeError

/-- `to_nhwc` of a tensor on the GPU with the compiled kernels, _layout.py 137-157: `x.contiguous()` has the same entries. -/
def toNhwcCuda (r : Run) (floating : Bool) (x : Arr) : Except PyErr Arr :=
  if x.shape.length ≠ 4 then .error .runtimeError else permuteToNhwcCuda r ⟨true, true, floating⟩ x

/-- `to_nchw`, _layout.py 162-182. -/
def toNchwCuda (r : Run) (floating : Bool) (x : Arr) : Except PyErr Arr :=
  if x.shape.length ≠ 4 then .error .runtimeError else permuteToNchwCuda r ⟨true, true, floating⟩ x

/-- `_backward_to_nhwc`, _layout.py 96-97: the gradient of `to_nhwc`. -/
def toNhwcBackward (r : Run) (floating : Bool) (g : Arr) : Except PyErr Arr := permuteToNchwCuda r ⟨true, true, floating⟩ g

/-- `_backward_to_nchw`, _layout.py 99-100. -/
def toNchwBackward (r : Run) (floating : Bool) (g : Arr) : Except PyErr Arr := permuteToNhwcCuda r ⟨true, true, floating⟩ g

end Verif.GpuLayout
