import Verif.Model.Disco
/-!
Model of the optimized DISCO path on the CPU: `disco/optimized/disco_helpers.{h,cpp}` (sorting, row offsets, dense packing) and
the kernels `disco/optimized/kernels_cpu/disco_cpu_fwd.h`, `disco_cpu_bwd.h`.

Arrays are functions of the index. What memory holds before it is written, or beyond its end, is a parameter `junk` of the
model: a theorem stated for every `junk` shows that the result does not depend on it. `int64` overflow is not modelled.
As in `Model/Disco`, one (batch, channel) plane is modelled.
-/
namespace Verif.Disco
open Verif Verif.Dist Finset

variable {R : Type}

/-- `Koff[ker_h[i]]++` for all entries, disco_helpers.h 42-45. -/
def koffCount (es : List (Entry R)) : ℕ → ℕ :=
  es.foldl (fun Koff e => Function.update Koff e.ker (Koff e.ker + 1)) (fun _ => 0)

/-- The exclusive prefix sum, disco_helpers.h 47-53, after the passes `i = 1 .. n`: `(Koff, prev)`. -/
def koffScan (cnt : ℕ → ℕ) : ℕ → (ℕ → ℕ) × ℕ
  | 0 => (Function.update cnt 0 0, cnt 0)
  | n + 1 =>
    let s := koffScan cnt n
    (Function.update s.1 (n + 1) (s.2 + s.1 n), s.1 (n + 1))

/-- The placement loop, disco_helpers.h 60-69: `(Koff, sorted arrays)`. -/
def place (s : (ℕ → ℕ) × (ℕ → Entry R)) (e : Entry R) : (ℕ → ℕ) × (ℕ → Entry R) :=
  let off := s.1 e.ker
  (Function.update s.1 e.ker (off + 1), Function.update s.2 off e)

/-- The sorted entries, disco_helpers.h 42-75. `junk` is the content of the freshly allocated arrays. -/
def sortEntries (junk : ℕ → Entry R) (K : ℕ) (es : List (Entry R)) : List (Entry R) :=
  let Koff := (koffScan (koffCount es) (K - 1)).1
  (List.range es.length).map (es.foldl place (Koff, junk)).2

/-- The row offset loop, disco_helpers.h 84-96, after the passes `i = 1 .. n`: `roff_h[0 .. nrows-1]`. -/
def roffLoop (limit : ℕ) (row : ℕ → ℕ) : ℕ → Except PyErr (List ℕ)
  | 0 => .ok [0]
  | n + 1 =>
    match roffLoop limit row n with
    | .error e => .error e
    | .ok l =>
      if row n = row (n + 1) then .ok l
      else if l.length + 1 > limit then .error .processExit
      else .ok (l ++ [n + 1])

/-- `preprocess_psi`, disco_helpers.h 37-100 and disco_helpers.cpp 35-82: the entry arrays are sorted in place, the row offsets
returned. -/
def preprocessPsi (junk : ℕ → Entry R) (K Ho : ℕ) (es : List (Entry R)) : Except PyErr (List (Entry R) × List ℕ) :=
  let sorted := sortEntries junk K es
  match roffLoop (Ho * K) (fun i => (sorted.getD i (junk i)).row) (es.length - 1) with
  | .error e => .error e
  | .ok l => .ok (sorted, l ++ [es.length])

/-- The arrays handed to the kernels: entries `z < nnz`, row offsets `i <= nnr`. -/
structure Csr (R : Type) where
  entry : ℕ → Entry R
  roff : ℕ → ℕ
  nnr : ℕ

/-- The kernel arguments made of the output of `preprocess_psi`. -/
def Csr.ofLists (junk : ℕ → Entry R) (es : List (Entry R)) (roff : List ℕ) : Csr R :=
  ⟨fun z => es.getD z (junk z), fun i => roff.getD i 0, roff.length - 1⟩

section
variable [CommSemiring R]

/-- Thread-local state of the forward kernel inside one row, disco_cpu_fwd.h 81-104. -/
structure FwdState (R : Type) where
  hiPrev : Option ℕ
  sh : ℕ → R
  out : ℕ → R

/-- `std::copy` of one input row, twice, into the buffer of `2*Wi` numbers, disco_cpu_fwd.h 117-119; beyond its end, other
memory. -/
def doubled (mem : ℕ → R) (Wi : ℕ) (row : ℕ → R) (q : ℕ) : R :=
  if q < Wi then row q else if q < 2 * Wi then row (q - Wi) else mem q

/-- One entry, disco_cpu_fwd.h 108-123. -/
def fwdEntry (mem : ℕ → R) (x : ℕ → ℕ → R) (Wi pscale : ℕ) (s : FwdState R) (e : Entry R) : FwdState R :=
  let wi := e.col % Wi
  let hi := e.col / Wi
  let sh := if s.hiPrev = some hi then s.sh else doubled mem Wi (x hi)
  ⟨some hi, sh, fun wo => s.out wo + e.val * sh (wi + pscale * wo)⟩

/-- One row of the compressed filter, disco_cpu_fwd.h 94-129: the entries `soff .. eoff-1` are accumulated and written to output
row `(ker, ho)`, which are those of the first entry. `sh0` is what the thread's buffer holds before. -/
def fwdRow (mem sh0 : ℕ → R) (A : Csr R) (x : ℕ → ℕ → R) (Wi Wo pscale : ℕ) (out : ℕ → ℕ → ℕ → R) (row : ℕ) : ℕ → ℕ → ℕ → R :=
  let soff := A.roff row
  let eoff := A.roff (row + 1)
  let s := ((List.range' soff (eoff - soff)).map A.entry).foldl (fwdEntry mem x Wi pscale) ⟨none, sh0, fun _ => 0⟩
  fun k t p => if k = (A.entry soff).ker ∧ t = (A.entry soff).row ∧ p < Wo then s.out p else out k t p

/-- `disco_cpu_fwd`, disco_cpu_fwd.h 46-170 and disco_cpu_fwd.cpp 36-76: the rows are processed in some order (the loop is an
OpenMP parallel loop; `order` is the order in which the rows are finished), the output starts at zero. -/
def cpuForward (mem : ℕ → R) (sh0 : ℕ → ℕ → R) (A : Csr R) (order : List ℕ) (x : Mat R) (K Ho Wo : ℕ) : Except PyErr (Ten R) :=
  if Wo = 0 then .error .zeroDivision
  else if ¬ x.d1 % Wo = 0 then .error .runtimeError
  else
    let pscale := x.d1 / Wo
    .ok ⟨K, Ho, Wo, order.foldl (fun out row => fwdRow mem (sh0 row) A x.val x.d1 Wo pscale out row) (fun _ _ _ => 0)⟩

/-- State of the backward kernel inside one plane, disco_cpu_bwd.h 94-104. -/
structure BwdState (R : Type) where
  hoPrev : Option ℕ
  sh : ℕ → R
  out : ℕ → ℕ → R

/-- Flush of the lane buffer into output row `ho_prev`, disco_cpu_bwd.h 134-141 and 160-167. The two nested loops visit every
cell once; they are written as one pointwise update of the columns `idx * pscale + lane < Wi * pscale` and of the
`pscale * 2 * Wi` buffer cells. -/
def flush (Wi pscale : ℕ) (s : BwdState R) : BwdState R :=
  match s.hoPrev with
  | none => s
  | some h =>
    { s with
      out := fun i p => if i = h ∧ p < Wi * pscale then
          s.out i p + (s.sh (p % pscale * (2 * Wi) + p / pscale) + s.sh (p % pscale * (2 * Wi) + Wi + p / pscale))
        else s.out i p
      sh := fun q => if q < pscale * (2 * Wi) then 0 else s.sh q }

/-- One entry, disco_cpu_bwd.h 118-152; `g` is the input row of the current compressed row. -/
def bwdEntry (g : ℕ → R) (Wi Wo pscale : ℕ) (s : BwdState R) (e : Entry R) : BwdState R :=
  let wo := e.col % Wo
  let ho := e.col / Wo
  let s1 := if s.hoPrev = some ho then s else { flush Wi pscale s with hoPrev := some ho }
  let base := wo % pscale * (2 * Wi) + wo / pscale
  { s1 with sh := fun q => if base ≤ q ∧ q < base + Wi then s1.sh q + e.val * g (q - base) else s1.sh q }

/-- One compressed row, disco_cpu_bwd.h 108-154. -/
def bwdRow (A : Csr R) (g : ℕ → ℕ → ℕ → R) (Wi Wo pscale : ℕ) (s : BwdState R) (row : ℕ) : BwdState R :=
  let soff := A.roff row
  let eoff := A.roff (row + 1)
  ((List.range' soff (eoff - soff)).map A.entry).foldl
    (bwdEntry (g (A.entry soff).ker (A.entry soff).row) Wi Wo pscale) s

/-- `disco_cpu_bwd`, disco_cpu_bwd.h 46-208 and disco_cpu_bwd.cpp 36-76, for one plane; the buffer `sh` is zero at the start of
the thread (line 94) and is left over from the previous plane otherwise; returned with it. -/
def cpuBackward (sh : ℕ → R) (A : Csr R) (g : Ten R) (Ho Wo : ℕ) : Except PyErr (Mat R × (ℕ → R)) :=
  if g.d2 = 0 then .error .zeroDivision
  else if ¬ Wo % g.d2 = 0 then .error .runtimeError
  else
    let pscale := Wo / g.d2
    let s := flush g.d2 pscale ((List.range A.nnr).foldl (bwdRow A g.val g.d2 Wo pscale) ⟨none, sh, fun _ _ => 0⟩)
    .ok (⟨Ho, Wo, s.out⟩, s.sh)

end

/-- The dense filter layout produced by `pack_psi_dense`: `idx[k, ho, off] = (hi, wi)`, `val[k, ho, off]`, `count[k, ho]`. -/
structure Dense (R : Type) where
  K : ℕ
  Ho : ℕ
  pad : ℕ
  idx : ℕ → ℕ → ℕ → ℕ × ℕ
  val : ℕ → ℕ → ℕ → R
  count : ℕ → ℕ → ℕ

/-- One row of `pack_psi_dense_kernel`, disco_helpers.h 114-137. The flat index `(k*Ho + ho)*nbr_pad + off` is written as the
triple it stands for. -/
def packRow [Zero R] (A : Csr R) (Wi : ℕ) (D : Dense R) (i : ℕ) : Except PyErr (Dense R) :=
  let soff := A.roff i
  let cnt := A.roff (i + 1) - soff
  let k := (A.entry soff).ker
  let ho := (A.entry soff).row
  if cnt > D.pad then .error .processExit
  else .ok { D with
    idx := fun k' h' off => if k' = k ∧ h' = ho ∧ off < cnt then
      ((A.entry (soff + off)).col / Wi, (A.entry (soff + off)).col % Wi) else D.idx k' h' off
    val := fun k' h' off => if k' = k ∧ h' = ho ∧ off < cnt then (A.entry (soff + off)).val else D.val k' h' off
    count := fun k' h' => if k' = k ∧ h' = ho then cnt else D.count k' h' }

/-- The loop over the rows `0 .. n-1`, disco_helpers.h 112-138. -/
def packRows [Zero R] (A : Csr R) (Wi : ℕ) (D : Dense R) : ℕ → Except PyErr (Dense R)
  | 0 => .ok D
  | n + 1 =>
    match packRows A Wi D n with
    | .error e => .error e
    | .ok D' => packRow A Wi D' n

/-- The longest row, disco_helpers.cpp 117-118. -/
def maxNbr (A : Csr R) : ℕ := (List.range A.nnr).foldl (fun m i => max m (A.roff (i + 1) - A.roff i)) 0

/-- `pack_psi_dense`, disco_helpers.cpp 84-144. -/
def packPsiDense [Zero R] (A : Csr R) (K Ho Wi : ℕ) (nbrPad : ℤ) : Except PyErr (Dense R) :=
  if ¬ (0 < K ∧ 0 < Ho ∧ 0 < Wi) then .error .runtimeError
  else if ¬ A.nnr ≤ K * Ho then .error .runtimeError
  else if nbrPad ≤ 0 then
    packRows A Wi ⟨K, Ho, maxNbr A, fun _ _ _ => (0, 0), fun _ _ _ => 0, fun _ _ => 0⟩ A.nnr
  else if ¬ (maxNbr A : ℤ) ≤ nbrPad then .error .runtimeError
  else packRows A Wi ⟨K, Ho, nbrPad.toNat, fun _ _ _ => (0, 0), fun _ _ _ => 0, fun _ _ => 0⟩ A.nnr

/-- The kernel-packed layout: one index list per output row shared by all kernels, values `[ho, off, k]` padded with zeros. -/
structure KPacked (R : Type) where
  kPad : ℕ
  idx : ℕ → ℕ → ℕ × ℕ
  val : ℕ → ℕ → ℕ → R
  count : ℕ → ℕ

/-- `_maybe_kpack_psi`, disco_optimized.py 61-110. `none` is Python's `None`; indexing an empty leading dimension raises.
The branch for a single kernel (lines 82-89) and the common branch compute the same. -/
def maybeKpack [Zero R] (D : Dense R) (nAlign : ℕ) : Except PyErr (Option (KPacked R)) :=
  if nAlign = 0 then .error .zeroDivision
  else
    let kPad := (D.K + nAlign - 1) / nAlign * nAlign
    let packed : KPacked R := ⟨kPad, D.idx 0, fun ho off k => if k < D.K then D.val k ho off else 0, D.count 0⟩
    if D.K = 0 then .error .indexError
    else if D.K ≤ 1 then .ok (some packed)
    else if ¬ ∀ k < D.K, ∀ ho < D.Ho, D.count k ho = D.count 0 ho then .ok none
    else if ¬ ∀ k < D.K, ∀ ho < D.Ho, ∀ off < D.pad, D.idx k ho off = D.idx 0 ho off then .ok none
    else .ok (some packed)

end Verif.Disco
