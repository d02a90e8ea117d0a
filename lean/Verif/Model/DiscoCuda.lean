import Verif.Model.DiscoCpu
/-!
Model of the row-compressed DISCO kernels for GPUs: `disco/optimized/kernels_cuda/disco_cuda_fwd.cu` and `disco_cuda_bwd.cu`,
with the constants of `disco_cuda.cuh`. One (batch, channel) plane is modelled, as in `Model/Disco`; storage and compute type are the
same type `R`.

A thread block runs in phases separated by `__syncthreads()`. Inside a phase the accesses of all its threads to shared memory
happen in some order, an argument of the model (`sched`); every order is allowed in the theorems. What shared memory holds
before it is written is the argument `junk`. An access outside an array is the outcome `memoryFault`. Thread blocks finish in
some order (`order`), atomic additions are performed in some order. Integer overflow is not modelled.
-/
namespace Verif.Disco
open Verif Verif.Dist Finset

variable {R : Type}

/-- `ELXTH_MAX`, disco_cuda.cuh 46. -/
def elxthMax : ℕ := 32

/-- The recursion of `launch_kernel` over `ELXTH`, disco_cuda_fwd.cu 183-184, 208-212 and disco_cuda_bwd.cu 180-181, 204-208:
the number of elements per thread, `none` when no kernel is launched. -/
def pickElxth (nth W E : ℕ) : Option ℕ :=
  if E ≤ elxthMax then
    if nth * E ≥ W then some E else pickElxth nth W (E + 1)
  else none
termination_by elxthMax + 1 - E

/-- The launch configuration: threads per block and the first `ELXTH` tried, disco_cuda_fwd.cu 252-306, disco_cuda_bwd.cu 251-305. -/
def pickThreads (Wo : ℕ) : Except PyErr (ℕ × ℕ) :=
  if Wo ≤ 64 * elxthMax then .ok (64, 1)
  else if Wo ≤ 128 * elxthMax then .ok (128, elxthMax / 2 + 1)
  else if Wo ≤ 256 * elxthMax then .ok (256, elxthMax / 2 + 1)
  else if Wo ≤ 512 * elxthMax then .ok (512, elxthMax / 2 + 1)
  else if Wo ≤ 1024 * elxthMax then .ok (1024, elxthMax / 2 + 1)
  else .error .processExit

/-- The indices visited by thread `tid` in `for (int i = tid; i < n; i += B)`. -/
def strided (B n tid : ℕ) : List ℕ := List.range' tid ((n - tid + (B - 1)) / B) B

/-- The indices visited by all threads of a block. -/
def allStrided (B n : ℕ) : List ℕ := (List.range B).flatMap (strided B n)

/-- The positions `pp = i * BDIM_X + tid` of all threads and all `i < ELXTH`. -/
def allPositions (B E : ℕ) : List ℕ := (List.range B).flatMap fun tid => (List.range E).map fun i => i * B + tid

/-- A store to a shared array of `size` elements. -/
def store (size : ℕ) (sh : ℕ → R) (i : ℕ) (v : R) : Except PyErr (ℕ → R) :=
  if i < size then .ok (Function.update sh i v) else .error .memoryFault

/-- One pass of the copy loop, disco_cuda_fwd.cu 77-79 and 103-105. -/
def copyCell (size Wi : ℕ) (row : ℕ → R) (sh : ℕ → R) (i : ℕ) : Except PyErr (ℕ → R) :=
  match store size sh i (row i) with
  | .error e => .error e
  | .ok sh1 => store size sh1 (Wi + i) (row i)

/-- The copy of one input row by all threads, disco_cuda_fwd.cu 76-80 and 102-106, in the order `ord`. -/
def copyRow (size Wi : ℕ) (row : ℕ → R) (sh : ℕ → R) (ord : List ℕ) : Except PyErr (ℕ → R) :=
  ord.foldlM (copyCell size Wi row) sh

/-- State of a block of the forward kernel: the variables equal in all threads, shared memory, the registers `__reg[i]` of
thread `tid`, and the number of rows copied so far (it selects the schedule of the next copy). -/
structure GFwd (R : Type) where
  colPrev : ℕ
  hPrev : ℕ
  wPrev : ℕ
  copies : ℕ
  sh : ℕ → R
  reg : ℕ → ℕ → R

section
variable [CommSemiring R]

/-- The test for a new input row and the copy, disco_cuda_fwd.cu 95-108. -/
def gfwdRefresh (size : ℕ) (sched : ℕ → List ℕ) (x : ℕ → ℕ → R) (Wi : ℕ) (s : GFwd R) (col : ℕ) : Except PyErr (GFwd R) :=
  if (col : ℤ) ≥ (s.colPrev : ℤ) - s.wPrev + Wi then
    match copyRow size Wi (x (col / Wi)) s.sh (sched s.copies) with
    | .error e => .error e
    | .ok sh => .ok ⟨col, col / Wi, col % Wi, s.copies + 1, sh, s.reg⟩
  else .ok s

/-- The accumulation of one entry by all threads, disco_cuda_fwd.cu 110-140. Shared memory is only read. -/
def gfwdAccum (size B E pscale : ℕ) (s : GFwd R) (e : Entry R) : Except PyErr (GFwd R) :=
  let w : ℤ := (s.wPrev : ℤ) + ((e.col : ℤ) - s.colPrev)
  if ∀ tid < B, ∀ i < E, 0 ≤ w + (pscale * (i * B + tid) : ℕ) ∧ w + (pscale * (i * B + tid) : ℕ) < (size : ℤ) then
    .ok ⟨s.colPrev, s.hPrev, s.wPrev, s.copies, s.sh, fun tid i =>
      if tid < B ∧ i < E then s.reg tid i + e.val * s.sh (w + (pscale * (i * B + tid) : ℕ)).toNat else s.reg tid i⟩
  else .error .memoryFault

/-- One pass of the loop over the entries of the row, disco_cuda_fwd.cu 85-141. -/
def gfwdEntry (size B E : ℕ) (sched : ℕ → List ℕ) (x : ℕ → ℕ → R) (Wi pscale : ℕ) (s : GFwd R) (e : Entry R) : Except PyErr (GFwd R) :=
  match gfwdRefresh size sched x Wi s e.col with
  | .error e => .error e
  | .ok s1 => gfwdAccum size B E pscale s1 e

/-- `disco_fwd_d`, disco_cuda_fwd.cu 41-153, for block `row` (`blockIdx.x`): its registers at the end. -/
def gfwdBlock (size B E : ℕ) (junk : ℕ → R) (sched : ℕ → List ℕ) (A : Csr R) (x : ℕ → ℕ → R) (Wi pscale row : ℕ) :
    Except PyErr (ℕ → ℕ → R) :=
  let soff := A.roff row
  let eoff := A.roff (row + 1)
  let col0 := (A.entry soff).col
  match copyRow size Wi (x (col0 / Wi)) junk (sched 0) with
  | .error e => .error e
  | .ok sh =>
    match ((List.range' soff (eoff - soff)).map A.entry).foldlM (gfwdEntry size B E sched x Wi pscale)
        (⟨col0, col0 / Wi, col0 % Wi, 1, sh, fun _ _ => 0⟩ : GFwd R) with
    | .error e => .error e
    | .ok s => .ok s.reg

/-- A block and its writes to the output, disco_cuda_fwd.cu 57-61, 143-150: element `pp = i * B + tid < Wo` of output row
`(ker, row)` is written by thread `tid` from register `i`. -/
def gfwdRow (size B E : ℕ) (junk : ℕ → R) (sched : ℕ → List ℕ) (A : Csr R) (x : ℕ → ℕ → R) (Wi Wo pscale : ℕ)
    (out : ℕ → ℕ → ℕ → R) (row : ℕ) : Except PyErr (ℕ → ℕ → ℕ → R) :=
  match gfwdBlock size B E junk sched A x Wi pscale row with
  | .error e => .error e
  | .ok reg => .ok fun k t p =>
      if k = (A.entry (A.roff row)).ker ∧ t = (A.entry (A.roff row)).row ∧ p < Wo ∧ p / B < E then reg (p % B) (p / B) else out k t p

/-- `disco_cuda_fwd` and `launch_kernel`, disco_cuda_fwd.cu 155-311. `cap` is the size of shared memory, in elements, that a launch
may ask for (48 KiB by default, nothing in this file raises it); asking for more fails the launch, reported as an exception at
line 308. -/
def cudaForward (cap : ℕ) (junk : ℕ → ℕ → R) (sched : ℕ → ℕ → List ℕ) (A : Csr R) (order : List ℕ) (x : Mat R) (K Ho Wo : ℕ) :
    Except PyErr (Ten R) :=
  if Wo = 0 then .error .zeroDivision
  else if ¬ x.d1 % Wo = 0 then .error .runtimeError
  else
    match pickThreads Wo with
    | .error e => .error e
    | .ok (nth, e0) =>
      match pickElxth nth Wo e0 with
      | none => .ok ⟨K, Ho, Wo, fun _ _ _ => 0⟩
      | some E =>
        let pscale := x.d1 / Wo
        let size := x.d1 * 2 + pscale * (nth * E - Wo)
        if cap < size then .error .runtimeError
        else
          match order.foldlM (fun out row => gfwdRow size nth E (junk row) (sched row) A x.val x.d1 Wo pscale out row)
              (fun _ _ _ => (0 : R)) with
          | .error e => .error e
          | .ok out => .ok ⟨K, Ho, Wo, out⟩

/-- State of a block of the backward kernel: shared memory `__sh[lane][idx]` and the atomic additions issued so far, as pairs
(flat output index, value). -/
structure GBwd (R : Type) where
  colPrev : ℕ
  hPrev : ℕ
  wPrev : ℕ
  steps : ℕ
  sh : ℕ → ℕ → R
  adds : List (ℕ × R)

/-- The atomic additions of one flush, disco_cuda_bwd.cu 105-115 and 141-148. -/
def gbwdAdds (B Wi Wo pscale h : ℕ) (sh : ℕ → ℕ → R) : List (ℕ × R) :=
  (List.range pscale).flatMap fun i => (allStrided B Wi).map fun j => (h * Wo + j * pscale + i, sh i j + sh i (Wi + j))

/-- The test for a new output row and the flush, disco_cuda_bwd.cu 103-121. The cells `j` and `Wi + j` of a lane are read and reset
by one thread only, so the order of the threads is immaterial; `N = BDIM_X * ELXTH`. -/
def gbwdRefresh (N B Wi Wo pscale : ℕ) (s : GBwd R) (col : ℕ) : Except PyErr (GBwd R) :=
  if (col : ℤ) ≥ (s.colPrev : ℤ) - s.wPrev + Wo then
    if ¬ 2 * Wi ≤ 2 * N then .error .memoryFault
    else .ok ⟨col, col / Wo, col % Wo, s.steps, fun i j => if i < pscale ∧ j < 2 * Wi then 0 else s.sh i j,
      s.adds ++ gbwdAdds B Wi Wo pscale s.hPrev s.sh⟩
  else .ok s

/-- The accumulation of one entry, disco_cuda_bwd.cu 123-132: thread `tid` adds `val * __reg[i]` to one cell for each `i`; the
additions happen in the order `ord` of the positions `pp`. A negative `w` gives a negative index. -/
def gbwdAccum (N pscale : ℕ) (ord : List ℕ) (reg : ℕ → R) (s : GBwd R) (e : Entry R) : Except PyErr (GBwd R) :=
  let w : ℤ := (s.wPrev : ℤ) + ((e.col : ℤ) - s.colPrev)
  if w < 0 then .error .memoryFault
  else
    let lane := w.toNat % pscale
    let base := w.toNat / pscale
    if ∀ pp < N, base + pp < 2 * N then
      .ok { s with
        steps := s.steps + 1
        sh := ord.foldl (fun sh pp => Function.update sh lane (Function.update (sh lane) (base + pp) (sh lane (base + pp) + e.val * reg pp)))
          s.sh }
    else .error .memoryFault

/-- One pass of the loop over the entries, disco_cuda_bwd.cu 93-137. -/
def gbwdEntry (N B Wi Wo pscale : ℕ) (sched : ℕ → List ℕ) (reg : ℕ → R) (s : GBwd R) (e : Entry R) : Except PyErr (GBwd R) :=
  match gbwdRefresh N B Wi Wo pscale s e.col with
  | .error e => .error e
  | .ok s1 => gbwdAccum N pscale (sched s1.steps) reg s1 e

/-- `disco_bwd_d`, disco_cuda_bwd.cu 41-150, for block `row`: the atomic additions it performs. Position `pp = i * BDIM_X + tid` of
the register row is `__reg[i]` of thread `tid`; it is zero beyond the end of the input row (lines 71-75). -/
def gbwdBlock (B E : ℕ) (junk : ℕ → ℕ → R) (sched : ℕ → List ℕ) (A : Csr R) (g : ℕ → ℕ → ℕ → R) (Wi Wo pscale row : ℕ) :
    Except PyErr (List (ℕ × R)) :=
  let soff := A.roff row
  let eoff := A.roff (row + 1)
  let col0 := (A.entry soff).col
  let N := B * E
  let reg : ℕ → R := fun pp => if pp < Wi then g (A.entry soff).ker (A.entry soff).row pp else 0
  let sh : ℕ → ℕ → R := fun i j => if i < pscale ∧ j < 2 * N then 0 else junk i j
  match ((List.range' soff (eoff - soff)).map A.entry).foldlM (gbwdEntry N B Wi Wo pscale sched reg)
      (⟨col0, col0 / Wo, col0 % Wo, 0, sh, []⟩ : GBwd R) with
  | .error e => .error e
  | .ok s => if ¬ 2 * Wi ≤ 2 * N then .error .memoryFault else .ok (s.adds ++ gbwdAdds B Wi Wo pscale s.hPrev s.sh)

/-- One `atomicAdd` to the output of `size` elements. -/
def atomicAddTo (size : ℕ) (out : ℕ → R) (a : ℕ × R) : Except PyErr (ℕ → R) :=
  if a.1 < size then .ok (Function.update out a.1 (out a.1 + a.2)) else .error .memoryFault

/-- The additions of all blocks. -/
def gbwdAll (B E : ℕ) (junk : ℕ → ℕ → ℕ → R) (sched : ℕ → ℕ → List ℕ) (A : Csr R) (g : ℕ → ℕ → ℕ → R) (Wi Wo pscale : ℕ) :
    ℕ → Except PyErr (List (ℕ × R))
  | 0 => .ok []
  | n + 1 =>
    match gbwdAll B E junk sched A g Wi Wo pscale n with
    | .error e => .error e
    | .ok l =>
      match gbwdBlock B E (junk n) (sched n) A g Wi Wo pscale n with
      | .error e => .error e
      | .ok l' => .ok (l ++ l')

/-- `disco_cuda_bwd` and `launch_kernel`, disco_cuda_bwd.cu 172-313: `g` has shape `(K, Hi, Wi)`, the result `(Ho, Wo)`. `shuffle` is
the order in which the atomic additions of all blocks take effect. The launch configuration is chosen from the output width, the
elements per thread from the input width. -/
def cudaBackward (cap : ℕ) (junk : ℕ → ℕ → ℕ → R) (sched : ℕ → ℕ → List ℕ) (shuffle : List (ℕ × R) → List (ℕ × R)) (A : Csr R)
    (g : Ten R) (Ho Wo : ℕ) : Except PyErr (Mat R) :=
  if g.d2 = 0 then .error .zeroDivision
  else if ¬ Wo % g.d2 = 0 then .error .runtimeError
  else
    match pickThreads Wo with
    | .error e => .error e
    | .ok (nth, e0) =>
      match pickElxth nth g.d2 e0 with
      | none => .ok ⟨Ho, Wo, fun _ _ => 0⟩
      | some E =>
        let pscale := Wo / g.d2
        if cap < 2 * (nth * E) * pscale then .error .runtimeError
        else
          match gbwdAll nth E junk sched A g.val g.d2 Wo pscale A.nnr with
          | .error e => .error e
          | .ok adds =>
            match (shuffle adds).foldlM (atomicAddTo (Ho * Wo)) (fun _ => (0 : R)) with
            | .error e => .error e
            | .ok out => .ok ⟨Ho, Wo, fun i j => out (i * Wo + j)⟩

end

/-- What the caller of `preprocess_psi` holds afterwards, disco_helpers.cpp 35-82: the arrays are sorted in place only if they
are in host memory; arrays on another device are copied (lines 50-53), the copies sorted, and the copies made of those
(75-79) bound to local names only. -/
def preprocessPsiOn (onHost : Bool) (junk : ℕ → Entry R) (K Ho : ℕ) (es : List (Entry R)) : Except PyErr (List (Entry R) × List ℕ) :=
  match preprocessPsi junk K Ho es with
  | .error e => .error e
  | .ok (s, roff) => .ok (if onHost then s else es, roff)

end Verif.Disco
