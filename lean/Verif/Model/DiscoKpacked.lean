import Verif.Model.DiscoCuda
/-!
Model of the half-precision DISCO kernels on tensor cores and of the code that selects them:
`disco/optimized/kernels_cuda/disco_cuda_fwd_dense_kpacked_sm90.cu` (WGMMA), `disco_cuda_fwd_dense_kpacked_sm100.cu` (tcgen05), the
descriptor builders of `disco_cuda_ptx.cuh`, `disco_optimized.py` 46-58, `convolution.py` 696-708, `distributed_convolution_kernels.py`
140 and 302, and the build flags of `setup.py` 72-103. Below, sm90.cu and sm100.cu stand for the first two files.

All (batch, channel) planes are modelled: `BC` is their number. Storage and accumulator type are the same type `R` (no rounding).
Global buffers are flat, with their number of elements, and shared memory is flat, in elements of two bytes; an access outside a
buffer is the outcome `memoryFault`. Inside a phase between two barriers the stores of all threads happen in some order, given by
`shuffle`. Reading or overwriting what a matrix instruction in flight uses is also the outcome `memoryFault`. Integer overflow
is not modelled.

What the hardware does is modelled here too and is trusted: how a matrix descriptor is decoded and addresses shared memory
(`operandAddr`), which entries of the 64 x N accumulator a thread holds (`fragM`, `fragN`), and how a barrier's parity works.
-/
namespace Verif.Disco
open Verif Verif.Dist Finset

variable {R : Type}

/-- A contiguous buffer in global memory. -/
structure Flat (R : Type) where
  size : ℕ
  val : ℕ → R

/-- A load from global memory. -/
def Flat.get (b : Flat R) (i : ℕ) : Except PyErr R := if i < b.size then .ok (b.val i) else .error .memoryFault

/-- The memory of a contiguous tensor of shape `[d0, d1, d2]`. -/
def flat3 (d0 d1 d2 : ℕ) (f : ℕ → ℕ → ℕ → R) : Flat R :=
  ⟨d0 * d1 * d2, fun i => f (i / (d1 * d2)) (i / d2 % d1) (i % d2)⟩

/-- The memory of a contiguous tensor of shape `[d0]`. -/
def flat1 (d0 : ℕ) (f : ℕ → R) : Flat R := ⟨d0, f⟩

/-- A tensor of shape `[d0, d1, d2, d3]`. -/
structure Ten4 (R : Type) where
  d0 : ℕ
  d1 : ℕ
  d2 : ℕ
  d3 : ℕ
  val : ℕ → ℕ → ℕ → ℕ → R

/-- The arguments of the kernels, sm90.cu 119-126, with the template argument `N_PAD` as `N`. -/
structure KArgs (R : Type) where
  N : ℕ
  Hi : ℕ
  Wi : ℕ
  K : ℕ
  Ho : ℕ
  Wo : ℕ
  nbrPad : ℕ
  pscale : ℕ
  BC : ℕ
  idx : Flat ℕ
  val : Flat R
  cnt : Flat ℕ
  inp : Flat R

/-- `NZ_CHUNK`, sm90.cu 385, sm100.cu 303. -/
def nzChunk : ℕ := 16

/-- `BC_TILE`, sm90.cu 383, sm100.cu 301. -/
def bcTile : ℕ := 8

/-- `WO_TILE`, sm90.cu 384, sm100.cu 302. -/
def woTile : ℕ := 8

/-- Threads per block, sm90.cu 406, sm100.cu 331. -/
def kThreads : ℕ := 128

/-- The block's position, sm90.cu 138-142, sm100.cu 98-102. -/
structure KBlock where
  ho : ℕ
  woBase : ℕ
  bcStart : ℕ

/-- `ho`, `wo_base` and `bc_start` of block `(bx, by)`, sm90.cu 138-142, sm100.cu 98-102. -/
def kBlock (a : KArgs R) (bx by_ : ℕ) : KBlock :=
  let woPerHo := a.Wo / woTile
  let ho := bx / woPerHo
  let woStrip := bx - ho * woPerHo
  ⟨ho, woStrip * woTile, by_ * bcTile⟩

section
variable [CommSemiring R]

/-- The stores of thread `tid` to the input tile at element `tile` of shared memory, for the chunk at `off`, sm90.cu 169-199,
sm100.cu 150-169. -/
def stageA (a : KArgs R) (b : KBlock) (tile off cnt tid : ℕ) : Except PyErr (List (ℕ × R)) :=
  let bcLocal := tid / nzChunk
  let nzLocal := tid - bcLocal * nzChunk
  let nz := off + nzLocal
  let bc := b.bcStart + bcLocal
  let dst := tile + bcLocal * (8 * nzChunk) + nzLocal * 8
  if nz < cnt ∧ bc < a.BC then
    match a.idx.get (b.ho * a.nbrPad * 2 + (nz * 2 + 0)) with
    | .error e => .error e
    | .ok hi =>
      match a.idx.get (b.ho * a.nbrPad * 2 + (nz * 2 + 1)) with
      | .error e => .error e
      | .ok wiBase =>
        (List.range 8).mapM fun i =>
          let wiFull := wiBase + (b.woBase + i) * a.pscale
          let wi := if wiFull ≥ a.Wi then wiFull - a.Wi else wiFull
          match a.inp.get (bc * a.Hi * a.Wi + hi * a.Wi + wi) with
          | .error e => .error e
          | .ok v => .ok (dst + i, v)
  else .ok ((List.range 8).map fun i => (dst + i, 0))

/-- The stores of thread `tid` to the filter tile at element `tile`, sm90.cu 214-228, sm100.cu 172-185. -/
def stageB (a : KArgs R) (b : KBlock) (tile off cnt tid : ℕ) : Except PyErr (List (ℕ × R)) :=
  let chunksPerRow := a.N / 8
  let totalChunks := nzChunk * chunksPerRow
  if tid < totalChunks then
    let chunk := tid / nzChunk
    let nzLocal := tid - chunk * nzChunk
    let nz := off + nzLocal
    let dst := tile + chunk * (nzChunk * 8) + nzLocal * 8
    if nz < cnt then
      (List.range 8).mapM fun i =>
        match a.val.get (b.ho * a.nbrPad * a.N + (nz * a.N + chunk * 8) + i) with
        | .error e => .error e
        | .ok v => .ok (dst + i, v)
    else .ok ((List.range 8).map fun i => (dst + i, 0))
  else .ok []

/-- All stores of thread `tid` in the staging phase. -/
def stageThread (a : KArgs R) (b : KBlock) (tileA tileB off cnt tid : ℕ) : Except PyErr (List (ℕ × R)) :=
  match stageA a b tileA off cnt tid with
  | .error e => .error e
  | .ok s =>
    match stageB a b tileB off cnt tid with
    | .error e => .error e
    | .ok t => .ok (s ++ t)

/-- A list of stores to shared memory of `size` elements, one after the other. -/
def storeAll (size : ℕ) (sh : ℕ → R) (l : List (ℕ × R)) : Except PyErr (ℕ → R) :=
  l.foldlM (fun m s => store size m s.1 s.2) sh

/-- The staging phase of all threads, sm90.cu 166-231, sm100.cu 149-188. -/
def stage (size : ℕ) (shuffle : List (ℕ × R) → List (ℕ × R)) (a : KArgs R) (b : KBlock) (tileA tileB off cnt : ℕ) (sh : ℕ → R) :
    Except PyErr (ℕ → R) :=
  match (List.range kThreads).mapM (stageThread a b tileA tileB off cnt) with
  | .error e => .error e
  | .ok ls => storeAll size sh (shuffle ls.flatten)

end

/-- `make_wgmma_desc`, disco_cuda_ptx.cuh 142-152 (`swizzle = 0`). -/
def wgmmaDesc (addr lbo sbo : ℕ) : ℕ :=
  ((addr >>> 4) &&& 0x3fff) <<< 0 ||| ((lbo >>> 4) &&& 0x3fff) <<< 16 ||| ((sbo >>> 4) &&& 0x3fff) <<< 32

/-- `make_umma_desc`, disco_cuda_ptx.cuh 431-441. -/
def ummaDesc (addr lbo sbo : ℕ) : ℕ :=
  ((addr >>> 4) &&& 0x3fff) <<< 0 ||| ((lbo >>> 4) &&& 0x3fff) <<< 16 ||| ((sbo >>> 4) &&& 0x3fff) <<< 32 ||| 1 <<< 46

/-- `make_tcgen05_f16bf16_instr_desc`, disco_cuda_ptx.cuh 443-454. -/
def instrDesc (N : ℕ) (bf16 : Bool) : ℕ :=
  let ab := if bf16 then 1 else 0
  1 <<< 4 ||| ab <<< 7 ||| ab <<< 10 ||| 1 <<< 15 ||| 1 <<< 16 ||| (N >>> 3) <<< 17 ||| 4 <<< 24

/-- Hardware: bits `lo .. lo + n - 1` of a descriptor. -/
def bitsAt (d lo n : ℕ) : ℕ := d / 2 ^ lo % 2 ^ n

/-- Hardware: the byte address in shared memory of entry `(mn, k)` of an operand without swizzling. The descriptor holds the start
address and two strides in units of 16 bytes. In the MN-major layout the eight rows of an 8 x 8 core matrix run along `k`, in the
K-major layout along `mn`. -/
def operandAddr (mnMajor : Bool) (desc mn k : ℕ) : ℕ :=
  let start := bitsAt desc 0 14 * 16
  let lbo := bitsAt desc 16 14 * 16
  let sbo := bitsAt desc 32 14 * 16
  if mnMajor then start + mn / 8 * sbo + k / 8 * lbo + k % 8 * 16 + mn % 8 * 2
  else start + mn / 8 * sbo + k / 8 * lbo + mn % 8 * 16 + k % 8 * 2

/-- Hardware: the row of the accumulator held in cell `c` of thread `tid` (m64nNk16 fragment, and the 16x256b shape of tensor memory
loads and stores), sm90.cu 83-89. -/
def fragM (tid c : ℕ) : ℕ := tid / 32 * 16 + tid % 32 / 4 + c / 2 % 2 * 8

/-- Hardware: the column of the accumulator held in cell `c` of thread `tid`, sm90.cu 83-89. -/
def fragN (tid c : ℕ) : ℕ := tid % 32 % 4 * 2 + c % 2 + c / 4 * 8

section
variable [CommSemiring R]

/-- Hardware: the product of the two tiles, an `M x N` matrix, contracted over 16. `base` is the byte address of element 0 of `sh`. -/
def tileProduct (size base : ℕ) (sh : ℕ → R) (majA majB : Bool) (descA descB M N : ℕ) : Except PyErr (ℕ → ℕ → R) :=
  if (∀ m < M, ∀ k < 16, base ≤ operandAddr majA descA m k ∧ operandAddr majA descA m k < base + 2 * size) ∧
      ∀ n < N, ∀ k < 16, base ≤ operandAddr majB descB n k ∧ operandAddr majB descB n k < base + 2 * size then
    .ok fun m n => ∑ k ∈ range 16, sh ((operandAddr majA descA m k - base) / 2) * sh ((operandAddr majB descB n k - base) / 2)
  else .error .memoryFault

/-- The stores of thread `tid` to the output, as pairs (flat index, value), sm90.cu 291-319, sm100.cu 229-258. -/
def writeback (a : KArgs R) (b : KBlock) (acc : ℕ → ℕ → R) (tid : ℕ) : List (ℕ × R) :=
  let warp := tid / 32
  let lane := tid - warp * 32
  let m01 := warp * 16 + lane / 4
  let m23 := m01 + 8
  let na := lane % 4 * 2
  let nb := na + 1
  let bc01 := b.bcStart + m01 / 8
  let wo01 := b.woBase + m01 % 8
  let bc23 := b.bcStart + m23 / 8
  let wo23 := b.woBase + m23 % 8
  let cell := fun (bc wo k : ℕ) (v : R) =>
    if k ≥ a.K then [] else if bc ≥ a.BC then []
    else [((bc * a.K + k) * a.Ho * a.Wo + b.ho * a.Wo + wo, v)]
  (List.range (a.N / 8)).flatMap fun ng =>
    cell bc01 wo01 (na + 8 * ng) (acc tid (ng * 4 + 0)) ++ cell bc01 wo01 (nb + 8 * ng) (acc tid (ng * 4 + 1)) ++
    cell bc23 wo23 (na + 8 * ng) (acc tid (ng * 4 + 2)) ++ cell bc23 wo23 (nb + 8 * ng) (acc tid (ng * 4 + 3))

/-- State of a block of the WGMMA kernel: shared memory and the registers `acc[c]` of thread `tid`. -/
structure Sm90 (R : Type) where
  sh : ℕ → R
  acc : ℕ → ℕ → R

/-- One pass of the chunk loop, sm90.cu 164-281. The A tile starts at element 0, the B tile 1024 elements later (lines 160-161). The
instruction has the transpose flags of both operands set (MN-major), disco_cuda_ptx.cuh 225-255. It completes before the next
pass begins (lines 276-280). -/
def sm90Step (size base : ℕ) (shuffle : ℕ → List (ℕ × R) → List (ℕ × R)) (a : KArgs R) (b : KBlock) (cnt : ℕ) (s : Sm90 R) (j : ℕ) :
    Except PyErr (Sm90 R) :=
  let off := j * nzChunk
  let tileA := 0
  let tileB := tileA + bcTile * 8 * nzChunk
  match stage size (shuffle j) a b tileA tileB off cnt s.sh with
  | .error e => .error e
  | .ok sh =>
    let descA := wgmmaDesc (base + 2 * tileA) (8 * 16) (16 * 16)
    let descB := wgmmaDesc (base + 2 * tileB) (8 * 16) (16 * 16)
    let scaleD := if off = 0 then 0 else 1
    match tileProduct size base sh true true descA descB 64 a.N with
    | .error e => .error e
    | .ok P => .ok ⟨sh, fun tid c =>
        if tid < kThreads ∧ c < a.N / 2 then (if scaleD = 0 then 0 else s.acc tid c) + P (fragM tid c) (fragN tid c) else s.acc tid c⟩

/-- `disco_fwd_dense_kpacked_wgmma_blk_k`, sm90.cu 119-319, for block `(bx, by)`: the stores of all its threads to the output. `cnt / 16`
rounded up is the number of passes of the loop at line 164. -/
def sm90Block (base : ℕ) (junk : ℕ → R) (shuffle : ℕ → List (ℕ × R) → List (ℕ × R)) (a : KArgs R) (bx by_ : ℕ) :
    Except PyErr (List (ℕ × R)) :=
  let b := kBlock a bx by_
  let size := (2048 + 32 * a.N) / 2
  match a.cnt.get b.ho with
  | .error e => .error e
  | .ok cnt =>
    match (List.range ((cnt + (nzChunk - 1)) / nzChunk)).foldlM (sm90Step size base shuffle a b cnt) (⟨junk, fun _ _ => 0⟩ : Sm90 R) with
    | .error e => .error e
    | .ok s => .ok ((List.range kThreads).flatMap (writeback a b s.acc))

/-- State of a block of the tcgen05 kernel: shared memory, the accumulator tile in tensor memory, the number of completed phases of
the barrier since its last initialisation, and the product in flight. -/
structure Sm100 (R : Type) where
  sh : ℕ → R
  tm : ℕ → ℕ → R
  phase : ℕ
  pending : Option (ℕ → ℕ → R)

/-- `tcgen05_zero`, disco_cuda_ptx.cuh 532-543: every thread stores zero to the entries it holds. -/
def tmemZero (N : ℕ) (tm : ℕ → ℕ → R) : ℕ → ℕ → R := fun m n =>
  if ∃ tid < kThreads, ∃ c < N / 2, fragM tid c = m ∧ fragN tid c = n then 0 else tm m n

/-- `tcgen05_mma_issue`, disco_cuda_ptx.cuh 584-620, by one thread: the instruction reads its operands and is then in flight. Its shape,
layouts and formats come from the instruction descriptor; a format other than that of the data has no result here. -/
def mmaIssue (size base : ℕ) (bf16 : Bool) (descA descB idesc scaleC : ℕ) (s : Sm100 R) : Except PyErr (Sm100 R) :=
  if s.pending.isSome then .error .memoryFault
  else if ¬ (bitsAt idesc 4 2 = 1 ∧ bitsAt idesc 7 3 = (if bf16 then 1 else 0) ∧ bitsAt idesc 10 3 = (if bf16 then 1 else 0)) then
    .error .memoryFault
  else
    match tileProduct size base s.sh (bitsAt idesc 15 1 == 1) (bitsAt idesc 16 1 == 1) descA descB
        (bitsAt idesc 24 5 * 16) (bitsAt idesc 17 6 * 8) with
    | .error e => .error e
    | .ok P => .ok ⟨s.sh, s.tm, s.phase, some (fun m n =>
        if m < (bitsAt idesc 24 5) * 16 ∧ n < (bitsAt idesc 17 6) * 8 then (if scaleC = 0 then 0 else s.tm m n) + P m n
        else s.tm m n)⟩

/-- `tcgen05_mma_wait`, disco_cuda_ptx.cuh 631-646: waits until the phase of parity 0 has completed. If the current phase already has
parity 1 the wait returns at once, and the instruction may still be in flight. -/
def mmaWait (s : Sm100 R) : Sm100 R :=
  if s.phase % 2 = 1 then s
  else match s.pending with
    | none => s
    | some tm => { s with tm := tm, phase := s.phase + 1, pending := none }

/-- One pass of the chunk loop, sm100.cu 147-213. The A tile starts 128 bytes into shared memory (lines 123-124). Staging while an
instruction is in flight is a race. -/
def sm100Step (size base : ℕ) (bf16 : Bool) (shuffle : ℕ → List (ℕ × R) → List (ℕ × R)) (a : KArgs R) (b : KBlock) (cnt : ℕ) (s : Sm100 R)
    (j : ℕ) : Except PyErr (Sm100 R) :=
  let off := j * nzChunk
  let tileA := 128 / 2
  let tileB := tileA + bcTile * 8 * nzChunk
  if s.pending.isSome then .error .memoryFault
  else
    match stage size (shuffle j) a b tileA tileB off cnt s.sh with
    | .error e => .error e
    | .ok sh =>
      let descA := ummaDesc (base + 2 * tileA) (8 * 16) (16 * 16)
      let descB := ummaDesc (base + 2 * tileB) (8 * 16) (16 * 16)
      match mmaIssue size base bf16 descA descB (instrDesc a.N bf16) 1 { s with sh := sh } with
      | .error e => .error e
      | .ok s1 =>
        let s2 := mmaWait s1
        .ok (if off + nzChunk < cnt then { s2 with phase := 0 } else s2)

/-- `disco_fwd_dense_kpacked_tcgen05_blk_k`, sm100.cu 79-258, for block `(bx, by)`: the stores of all its threads to the output. `junk` is
the initial content of shared memory and `tmJunk` that of tensor memory. The allocation (lines 126-134) always succeeds here. -/
def sm100Block (base : ℕ) (bf16 : Bool) (junk : ℕ → R) (tmJunk : ℕ → ℕ → R) (shuffle : ℕ → List (ℕ × R) → List (ℕ × R)) (a : KArgs R)
    (bx by_ : ℕ) : Except PyErr (List (ℕ × R)) :=
  let b := kBlock a bx by_
  let size := (128 + bcTile * nzChunk * 8 * 2 + nzChunk * a.N * 2) / 2
  match a.cnt.get b.ho with
  | .error e => .error e
  | .ok cnt =>
    match (List.range ((cnt + (nzChunk - 1)) / nzChunk)).foldlM (sm100Step size base bf16 shuffle a b cnt)
        (⟨junk, tmemZero a.N tmJunk, 0, none⟩ : Sm100 R) with
    | .error e => .error e
    | .ok s =>
      if s.pending.isSome then .error .memoryFault
      else .ok ((List.range kThreads).flatMap (writeback a b fun tid c => s.tm (fragM tid c) (fragN tid c)))

end

/-- Element types. -/
inductive KDtype | f16 | bf16 | f32 | f64
deriving DecidableEq

/-- A compilation target: compute capability, and whether it is the arch-conditional one (suffix `a`). -/
structure KTarget where
  major : ℕ
  minor : ℕ
  arch : Bool
deriving DecidableEq

/-- A device: its compute capability. -/
structure KDevice where
  major : ℕ
  minor : ℕ
deriving DecidableEq

/-- Hardware and driver: an arch-conditional binary runs on exactly its compute capability, another one on the same major with the same
or a higher minor (setup.py 83-84). -/
def runsOn (t : KTarget) (d : KDevice) : Bool :=
  if t.arch then t.major == d.major && t.minor == d.minor else t.major == d.major && t.minor ≤ d.minor

/-- `_torch_cuda_arch_list_has` and `get_helpers_compile_args`, setup.py 72-103, for a list of targets each spelled in one of the
ways listed there: whether the build announces the k-packed kernels for devices of this major version. -/
def announces (targets : List KTarget) (major : ℕ) : Bool :=
  if major = 9 then targets.contains ⟨9, 0, true⟩
  else if major = 10 then targets.contains ⟨10, 0, true⟩ || targets.contains ⟨10, 3, true⟩
  else false

/-- What happens when the kernel is launched on a device: `none` when no binary runs on it, otherwise whether the body of the kernel was
compiled in (the feature macros, sm90.cu 128, sm100.cu 88 and disco_cuda_ptx.cuh 405-409, exist for arch-conditional targets only;
when both kinds of binary would run the arch-conditional one is used). -/
def bodyPresent (targets : List KTarget) (d : KDevice) : Option Bool :=
  if ∃ t ∈ targets, runsOn t d = true ∧ t.arch = true then some true
  else if ∃ t ∈ targets, runsOn t d = true then some false
  else none

/-- A run of the kernel: how the machine resolves what the program leaves open. `base` is the address of dynamic shared memory,
`junk`, `tmJunk` the initial contents of shared and tensor memory in a block, `shuffle` the order of the stores of a phase, `final`
that of the stores to the output. -/
structure KRun (R : Type) where
  base : ℕ
  junk : ℕ → ℕ → ℕ → R
  tmJunk : ℕ → ℕ → ℕ → ℕ → R
  shuffle : ℕ → ℕ → ℕ → List (ℕ × R) → List (ℕ × R)
  final : List (ℕ × R) → List (ℕ × R)

section
variable [CommSemiring R]

/-- The blocks of the grid, sm90.cu 398-400, sm100.cu 323-325. -/
def kGrid (a : KArgs R) : List (ℕ × ℕ) :=
  (List.range (a.Ho * (a.Wo / woTile))).flatMap fun bx => (List.range ((a.BC + bcTile - 1) / bcTile)).map fun by_ => (bx, by_)

/-- The launch, sm90.cu 402-426, sm100.cu 327-351: a grid without blocks or beyond the limits of the device, or a device no binary
runs on, is reported as an exception by the launch check; a body that was not compiled in leaves the zeros allocated at line 390
(sm100.cu 307). -/
def kLaunch (targets : List KTarget) (d : KDevice) (bf16 : Bool) (r : KRun R) (a : KArgs R) : Except PyErr (Flat R) :=
  let gx := a.Ho * (a.Wo / woTile)
  let gy := (a.BC + bcTile - 1) / bcTile
  let out : Flat R := ⟨a.BC * a.K * a.Ho * a.Wo, fun _ => 0⟩
  if gx = 0 ∨ gy = 0 ∨ 2 ^ 31 ≤ gx ∨ 65535 < gy then .error .runtimeError
  else
    match bodyPresent targets d with
    | none => .error .runtimeError
    | some false => .ok out
    | some true =>
      match (kGrid a).mapM (fun p =>
          if d.major = 10 then sm100Block r.base bf16 (r.junk p.1 p.2) (r.tmJunk p.1 p.2) (r.shuffle p.1 p.2) a p.1 p.2
          else sm90Block r.base (r.junk p.1 p.2) (r.shuffle p.1 p.2) a p.1 p.2) with
      | .error e => .error e
      | .ok ls =>
        match storeAll out.size out.val (r.final ls.flatten) with
        | .error e => .error e
        | .ok v => .ok ⟨out.size, v⟩

/-- The arguments passed to the kernel, sm90.cu 372-375, 387, 395-398, 406-409, sm100.cu 290-293, 305, 320-323, 331-334. All tensors are
contiguous. The conversion of the filter to the input's type (line 395) is the identity here. -/
def kArgs (x : Ten R) (P : KPacked R) (nbrPad K Ho Wo : ℕ) : KArgs R :=
  ⟨P.kPad, x.d1, x.d2, K, Ho, Wo, nbrPad, x.d2 / Wo, x.d0,
    flat3 Ho nbrPad 2 (fun t off c => if c = 0 then (P.idx t off).1 else (P.idx t off).2),
    flat3 Ho nbrPad P.kPad P.val, flat1 Ho P.count, flat3 x.d0 x.d1 x.d2 x.val⟩

/-- `disco_cuda_fwd_kpacked`, sm90.cu 348-429, and `disco_cuda_fwd_kpacked_sm100`, sm100.cu 283-354. `x` is the input with batch and channel
as one dimension, `P` the packed filter of `nbrPad` entries per row. -/
def cudaForwardKpacked (targets : List KTarget) (d : KDevice) (dt : KDtype) (r : KRun R) (x : Ten R) (P : KPacked R) (nbrPad K Ho Wo : ℕ) :
    Except PyErr (Ten4 R) :=
  if ¬ (d.major = 9 ∨ d.major = 10) then .error .runtimeError
  else if ¬ (dt = .bf16 ∨ dt = .f16) then .error .runtimeError
  else if Wo = 0 then .error .zeroDivision
  else if ¬ x.d2 % Wo = 0 then .error .runtimeError
  else if ¬ Wo % 8 = 0 then .error .runtimeError
  else if ¬ (P.kPad = 8 ∨ P.kPad = 16) then .error .runtimeError
  else
    match kLaunch targets d (dt = .bf16) r (kArgs x P nbrPad K Ho Wo) with
    | .error e => .error e
    | .ok out => .ok ⟨x.d0, K, Ho, Wo, fun bc k t p => out.val (((bc * K + k) * Ho + t) * Wo + p)⟩

end

/-- `_kpacked_supported_on_device`, disco_optimized.py 46-58. -/
def kpackedSupported (targets : List KTarget) (d : KDevice) : Bool :=
  if d.major = 9 then announces targets 9
  else if d.major = 10 then announces targets 10
  else false

/-- `_kpacked_ok` of the serial layer, convolution.py 696-708. `kPad` is `None` when the filter could not be packed, `device` is `none` for
an input that is not on a GPU. The remainder by zero raises. -/
def serialKpackedOk (optimized : Bool) (kPad : Option ℕ) (dt : KDtype) (targets : List KTarget) (device : Option KDevice)
    (nlonIn nlonOut : ℕ) : Except PyErr Bool :=
  if optimized ∧ (kPad = some 8 ∨ kPad = some 16) ∧ (dt = .f16 ∨ dt = .bf16) then
    match device with
    | none => .ok false
    | some d =>
      if ¬ nlonOut % 8 = 0 then .ok false
      else if nlonOut = 0 then .error .zeroDivision
      else .ok (nlonIn % nlonOut == 0 && kpackedSupported targets d)
  else .ok false

/-- `_kpacked_ok` of the distributed layer, distributed_convolution_kernels.py 140 and 302 (on the second line `optimized_kernel` always
holds, lines 256-257). -/
def distKpackedOk (optimized : Bool) (kPad : Option ℕ) (dt : KDtype) (targets : List KTarget) (device : Option KDevice) : Bool :=
  optimized && (kPad == some 8 || kPad == some 16) && (dt = .f16 ∨ dt = .bf16) &&
    match device with
    | none => false
    | some d => kpackedSupported targets d

end Verif.Disco
