import Verif.Model.AttentionCuda
import Mathlib.Data.List.Sort
/-!
Model of what the GPU kernels of neighbourhood attention need before they can be launched, `attention/optimized/kernels_cuda/attention_cuda_utils.cu`: the order of
the rows of the sparse pattern (`sortRows` 59-114), their split into long and short ones (`split_csr_rows_op` 230-385), and the two caches that all threads of a
process share (`getPtxver` 119-150, `ensure_dyn_shmem` 398-435).
-/
namespace Verif.GpuLaunch
open Verif

/-! ### The order of the rows -/

/-- `off[r + 1] - off[r]`: the number of entries of row `r`. -/
def rlen (off : ℕ → ℕ) (r : ℕ) : ℕ := off (r + 1) - off r

/-- The two arrays that `set_rlen_rids_k` fills. -/
structure RowArrays where
  rids : ℕ → ℕ
  rlens : ℕ → ℕ

/-- `set_rlen_rids_k`, attention_cuda_utils.cu 59-72, one iteration. -/
def setRow (off : ℕ → ℕ) (m : RowArrays) (i : ℕ) : RowArrays :=
  ⟨Function.update m.rids i i, Function.update m.rlens i (rlen off i)⟩

/-- `set_rlen_rids_k` launched with `DIV_UP(n, 64)` blocks of 64 threads: thread `tid` visits `tid`, `tid + nth`, ...; `order` is the order in which the threads run,
and the arrays hold arbitrary numbers before. -/
def setRows (off : ℕ → ℕ) (n : ℕ) (order : List ℕ) (m : RowArrays) : RowArrays :=
  (order.flatMap fun tid => Disco.strided (AttnGpu.divUp n 64 * 64) n tid).foldl (setRow off) m

/-- `cub::DeviceRadixSort::SortPairsDescending` on `n` pairs: a stable sort by decreasing key (documented behaviour of CUB). -/
def sortPairsDescending (n : ℕ) (m : RowArrays) : List (ℕ × ℕ) :=
  ((List.range n).map fun i => (m.rlens i, m.rids i)).mergeSort fun a b => decide (b.1 ≤ a.1)

/-- `sortRows`, attention_cuda_utils.cu 74-113, for at least one row: the rows in the order in which the kernels take them up. -/
def sortRows (off : ℕ → ℕ) (n : ℕ) (order : List ℕ) (m : RowArrays) : List ℕ := (sortPairsDescending n (setRows off n order m)).map Prod.snd

/-! ### Long and short rows -/

/-- What the split returns: the number of long rows, the length of the longest long row and of the longest short one. -/
structure Split where
  nLong : ℕ
  maxLen : ℕ
  midLen : ℕ
  deriving DecidableEq

/-- The length from which on a row is long: at least `SPLIT_LONG_ROW_MIN_LEN` and at least the tenth part of the longest row. `tenth` is the multiplication by `0.1f` in
single precision, rounded towards zero. -/
def minLong (tenth : ℕ → ℕ) (maxLen : ℕ) : ℕ := max 1024 (tenth maxLen)

/-- The loop of the CPU path, attention_cuda_utils.cu 362-370, from row `i` on, with `fuel` rows left. -/
def cpuScan (len : ℕ → ℕ) (lim : ℕ) : ℕ → ℕ → ℕ → ℕ
  | 0, _, tot => tot
  | fuel + 1, i, tot => if lim ≤ len i then cpuScan len lim fuel (i + 1) (tot + 1) else tot

/-- The CPU path of `split_csr_rows_op`, attention_cuda_utils.cu 331-381. `idx` holds the rows by decreasing length. -/
def splitCpu (tenth : ℕ → ℕ) (idx : ℕ → ℕ) (off : ℕ → ℕ) (nlatOut : ℤ) : Split :=
  if nlatOut ≤ 0 then ⟨0, 0, 0⟩
  else
    let n := nlatOut.toNat
    let maxRlen := rlen off (idx 0)
    let tot := cpuScan (fun i => rlen off (idx i)) (minLong tenth maxRlen) n 0 0
    ⟨tot, if tot ≠ 0 then maxRlen else 0, if tot < n then rlen off (idx tot) else 0⟩

/-- `__syncthreads_count(rlen >= min_longr_len)` for the 1024 rows from `i` on; threads beyond the last row have `rlen = 0`. -/
def chunkCount (len : ℕ → ℕ) (lim n i : ℕ) : ℕ :=
  ((List.range 1024).filter fun tid => decide (lim ≤ if i + tid < n then len (i + tid) else 0)).length

/-- The loop of `get_rlen_boundary_k`, attention_cuda_utils.cu 241-255, from row `i` on: `i += blockDim.x`, left when a chunk has no long row. -/
def gpuScan (len : ℕ → ℕ) (lim n : ℕ) : ℕ → ℕ → ℕ → ℕ
  | 0, _, tot => tot
  | fuel + 1, i, tot => if i < n then (if chunkCount len lim n i = 0 then tot else gpuScan len lim n fuel (i + 1024) (tot + chunkCount len lim n i)) else tot

/-- The GPU path of `split_csr_rows_op`, attention_cuda_utils.cu 335-348, with `split_csr_rows` 286-317 and the kernel 230-271, which runs in one block of 1024 threads. -/
def splitGpu (tenth : ℕ → ℕ) (idx : ℕ → ℕ) (off : ℕ → ℕ) (nlatOut : ℤ) : Split :=
  if nlatOut ≤ 0 then ⟨0, 0, 0⟩
  else
    let n := nlatOut.toNat
    let maxRlen := rlen off (idx 0)
    let tot := gpuScan (fun i => rlen off (idx i)) (minLong tenth maxRlen) n n 0 0
    ⟨tot, if tot ≠ 0 then maxRlen else 0, if tot < n then rlen off (idx tot) else 0⟩

/-! ### Shared memory above 48 KiB -/

/-- A launch as a thread of the process makes it: on a device, of a kernel, first asking for `ask` bytes of shared memory and then launching with `use` bytes. -/
structure Req where
  dev : ℕ
  kern : ℕ
  ask : ℕ
  use : ℕ

/-- Where a thread is: about to call `ensure_dyn_shmem`, waiting for the mutex, about to compare, about to set the attribute, about to note it, about to release the
mutex, about to launch. -/
inductive Pc where
  | call | lock | compare | set | note | unlock | launch
  deriving DecidableEq

/-- The state of the process: where each thread is and what it still has to launch, who holds the mutex, the cache `granted`, the attribute the driver keeps per
device and kernel, and whether a launch has failed or the process has ended. -/
structure Proc where
  pc : ℕ → Pc
  todo : ℕ → List Req
  mutex : Option ℕ
  granted : ℕ × ℕ → ℕ
  attr : ℕ × ℕ → ℕ
  failed : Bool
  exited : Bool

/-- Thread `t` goes to `pc`. -/
def Proc.goto (s : Proc) (t : ℕ) (p : Pc) : Proc := { s with pc := Function.update s.pc t p }

/-- One step of thread `t` in `ensure_dyn_shmem`, attention_cuda_utils.cu 398-435, and in the launch behind it. `limit` is what a device can give to a block at most:
`cudaFuncSetAttribute` fails beyond, and `CHECK_CUDA` ends the process. A launch fails when it asks for more than 48 KiB and more than the attribute. -/
def step (limit : ℕ → ℕ) (t : ℕ) (s : Proc) : Proc :=
  match s.todo t with
  | [] => s
  | r :: rest =>
    match s.pc t with
    | .call => if r.ask ≤ 48 * 1024 then s.goto t .launch else s.goto t .lock
    | .lock => if s.mutex = none then { s.goto t .compare with mutex := some t } else s
    | .compare => if r.ask ≤ s.granted (r.dev, r.kern) then s.goto t .unlock else s.goto t .set
    | .set => if r.ask ≤ limit r.dev then { s.goto t .note with attr := Function.update s.attr (r.dev, r.kern) r.ask } else { s with exited := true }
    | .note => { s.goto t .unlock with granted := Function.update s.granted (r.dev, r.kern) r.ask }
    | .unlock => { s.goto t .launch with mutex := none }
    | .launch => if r.use ≤ max (48 * 1024) (s.attr (r.dev, r.kern)) then { s.goto t .call with todo := Function.update s.todo t rest } else { s with failed := true }

/-- The process runs: at every moment some thread makes its next step, until the process ends. -/
def exec (limit : ℕ → ℕ) : List ℕ → Proc → Proc
  | [], s => s
  | t :: l, s => if s.exited = true then s else exec limit l (step limit t s)

/-- The process before its first launch. -/
def Proc.start (todo : ℕ → List Req) : Proc := ⟨fun _ => .call, todo, none, fun _ => 0, fun _ => 0, false, false⟩

/-! ### The PTX version -/

/-- Where a thread is in `getPtxver`: about to read the cache, about to ask the driver, about to store, done with a result. -/
inductive PtxPc where
  | load | query | store (v : ℕ) | done (v : ℕ)

/-- The cache (the values ever stored per device, zero first) and the threads, each with the device it runs on. -/
structure PtxState where
  hist : ℕ → List ℕ
  pc : ℕ → PtxPc

/-- One step of thread `t` in `getPtxver`, attention_cuda_utils.cu 119-150. The accesses are relaxed: a load may return any value ever stored, `pick` says which.
`version d` is what the driver reports for device `d`. -/
def ptxStep (version : ℕ → ℕ) (dev : ℕ → ℕ) (t pick : ℕ) (s : PtxState) : PtxState :=
  match s.pc t with
  | .load =>
    if dev t < 64 then
      let cached := (s.hist (dev t)).getD (pick % (s.hist (dev t)).length) 0
      if cached ≠ 0 then { s with pc := Function.update s.pc t (.done cached) } else { s with pc := Function.update s.pc t .query }
    else { s with pc := Function.update s.pc t .query }
  | .query => { s with pc := Function.update s.pc t (if dev t < 64 then .store (version (dev t)) else .done (version (dev t))) }
  | .store v => { hist := Function.update s.hist (dev t) (s.hist (dev t) ++ [v]), pc := Function.update s.pc t (.done v) }
  | .done _ => s

/-- The process runs: at every moment some call makes its next step. -/
def ptxExec (version : ℕ → ℕ) (dev : ℕ → ℕ) : List (ℕ × ℕ) → PtxState → PtxState
  | [], s => s
  | (t, pick) :: l, s => ptxExec version dev l (ptxStep version dev t pick s)

/-- The process before the first call; a thread here stands for one call (a thread of the process that calls again is another one). -/
def PtxState.start : PtxState := ⟨fun _ => [0], fun _ => .load⟩

end Verif.GpuLaunch
