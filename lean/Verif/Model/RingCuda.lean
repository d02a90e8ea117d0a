import Verif.Model.AttentionCuda
import Verif.Model.DistAttention
/-!
Model of the GPU kernels behind one step of distributed neighbourhood attention, `attention/optimized/kernels_cuda/attention_cuda_fwd_ring.cu`, thread by thread.

Conventions are those of `Model.AttentionCuda`: flat arrays, `vec` numbers per element, groups of threads, arbitrary contents of uninitialised memory, `memoryFault` for a
store outside an array, `processExit` for a launch the runtime refuses. The running maximum starts at minus infinity, `none`. The kernels of one call run one after the
other (they are launched on one stream). Inside a kernel the stores and the atomic operations of different groups happen in any order. A group of more than one warp
passes a barrier between its loads from the accumulators and its stores to them, except in the kernel `rescale`: that kernel is modelled step by step, warps of all
groups in any order. The threads of one warp make the steps of that kernel together.
-/
namespace Verif.RingGpu
open Verif Verif.Attn Verif.Spec.Attn Verif.AttnGpu Verif.Ring

/-- `attn_params_t`, attention_cuda_utils.cuh 51-71; `nci` and `nco` count elements of `vec` numbers. -/
structure Params where
  nci : ℕ
  nco : ℕ
  nlatHalo : ℕ
  nlonKx : ℕ
  nlonIn : ℕ
  pscale : ℕ
  lonLo : ℕ
  start : ℤ
  nlatOut : ℕ
  nlonOut : ℕ
  nLong : ℕ
  maxLen : ℕ
  midLen : ℕ

/-- `y_acc`, `alpha_sum_buf`, `qdotk_max_buf`. -/
structure Bufs where
  y : ℕ → ℝ
  alpha : ℕ → ℝ
  qmax : ℕ → Option ℝ

/-! ### Collecting the neighbours -/

/-- A neighbour in shared memory: where its key and its value start (`shkx_ptr`, `shvx_ptr`) and its weight (`shweight`). -/
structure Entry where
  ka : ℕ
  va : ℕ
  w : ℝ

/-- The test of one entry of the pattern, attention_cuda_fwd_ring.cu 130-150, 307-326, 544-565 and 823-844. -/
def entry (p : Params) (w : ℕ → ℝ) (P : Pattern) (b wo z : ℕ) : Option Entry :=
  let hi := P.col z / p.nlonIn
  let wi := P.col z - hi * p.nlonIn
  let wiwo := wi + p.pscale * wo
  let wip := wiwo - wiwo / p.nlonIn * p.nlonIn
  if p.lonLo ≤ wip ∧ wip < p.lonLo + p.nlonKx then
    let hl : ℤ := (hi : ℤ) - p.start
    if 0 ≤ hl ∧ hl < p.nlatHalo then
      some ⟨b * p.nlatHalo * p.nlonKx * p.nci + (hl.toNat * p.nlonKx * p.nci + (wip - p.lonLo) * p.nci),
        b * p.nlatHalo * p.nlonKx * p.nco + (hl.toNat * p.nlonKx * p.nco + (wip - p.lonLo) * p.nco), w hi⟩
    else none
  else none

/-- `__warp_compact`, attention_cuda_utils.cuh 363-368: how many lanes before `l` have the predicate. -/
def warpIndex (pred : ℕ → Bool) (l : ℕ) : ℕ := (List.range l).countP pred

/-- `__warp_compact`, attention_cuda_utils.cuh 363-368: how many lanes have it. -/
def warpTotal (pred : ℕ → Bool) : ℕ := (List.range 32).countP pred

/-- `recv = __shfl_up_sync(FULL_MASK, val, i); if (lid >= i) val += recv`. -/
def scanStep (v : ℕ → ℕ) (i : ℕ) : ℕ → ℕ := fun lid => if i ≤ lid then v lid + v (lid - i) else v lid

/-- `__compact`, attention_cuda_utils.cuh 389-396: the first warp turns the totals of `nw` warps into offsets. -/
def warpOffsets (nw : ℕ) (sh : ℕ → ℕ) : ℕ → ℕ :=
  ([1, 2, 4, 8, 16].filter fun i => decide (i < nw)).foldl scanStep fun lid => if 0 < lid ∧ lid < nw then sh (lid - 1) else 0

/-- `__compact<BDIM_X, BDIM_Y>`, attention_cuda_utils.cuh 370-404: index of thread `t` and number of threads with the predicate. -/
def compact (bx : ℕ) (pred : ℕ → Bool) (t : ℕ) : ℕ × ℕ :=
  if bx = 32 then (warpIndex pred t, warpTotal pred)
  else
    (warpIndex (fun l => pred (t / 32 * 32 + l)) (t % 32) + warpOffsets (bx / 32) (fun wid => warpTotal fun l => pred (wid * 32 + l)) (t / 32),
      (List.range bx).countP pred)

/-- Thread `t` stores its neighbour, if it has one, into the array of `cap` elements; `n` are there already, attention_cuda_fwd_ring.cu 330, 569-573 and 848-852. -/
def putEntry {α : Type} (bx cap : ℕ) (hit : ℕ → Option α) (n : ℕ) (sh : ℕ → α) (t : ℕ) : Except PyErr (ℕ → α) :=
  match hit t with
  | none => .ok sh
  | some e => Disco.store cap sh (n + (compact bx (fun t => (hit t).isSome) t).1) e

/-- The end of one round of the collecting loop, attention_cuda_fwd_ring.cu 328-331, 567-574 and 846-853: the threads store in the order `order`; the number
of neighbours, which every thread keeps for itself, is that of thread 0. -/
def collectRound {α : Type} (bx cap : ℕ) (hit : ℕ → Option α) (order : List ℕ) (st : ℕ × (ℕ → α)) : Except PyErr (ℕ × (ℕ → α)) :=
  match order.foldlM (putEntry bx cap hit st.1) st.2 with
  | .error e => .error e
  | .ok sh => .ok (st.1 + (compact bx (fun t => (hit t).isSome) 0).2, sh)

/-- The collecting loop, attention_cuda_fwd_ring.cu 303-333, 538-576 and 817-857, over `n` entries; `pos i` is what the test says of the `i`-th. -/
def collectAll {α : Type} (bx cap n : ℕ) (pos : ℕ → Option α) (order : ℕ → List ℕ) (junk : ℕ → α) : Except PyErr (ℕ × (ℕ → α)) :=
  (List.range (divUp n bx)).foldlM
    (fun st i => collectRound bx cap (fun t => if i * bx + t < n then pos (i * bx + t) else none) (order i) st) (0, junk)

/-! ### One output point -/

/-- What a group finds in shared memory, and the orders in which its threads store. -/
structure Shared where
  entries : ℕ → Entry
  query : ℕ → ℕ → ℕ → ℝ
  order : ℕ → List ℕ

/-- Registers of a thread, or its part of shared memory. -/
structure Thr where
  alpha : ℝ
  qmax : Option ℝ
  y : ℕ → ℕ → ℝ

/-- The score of a neighbour as thread `t` has it after `__group_sum`, attention_cuda_fwd_ring.cu 152-156, 341-350, 585-590 and 866-872. -/
noncomputable def score (vec bx : ℕ) (chI : ℕ → List ℕ) (qv : ℕ → ℕ → ℕ → ℝ) (k : ℕ → ℝ) (e : Entry) (t : ℕ) : ℝ :=
  groupSum bx (fun t => dotPart vec (chI t) (qv t) k e.ka) t

/-- One neighbour in the one-pass kernels, attention_cuda_fwd_ring.cu 158-166 and 874-883. -/
noncomputable def onlineThr (vec bx : ℕ) (chI chO : ℕ → List ℕ) (qv : ℕ → ℕ → ℕ → ℝ) (k v : ℕ → ℝ) (s : ℕ → Thr) (e : Entry) : ℕ → Thr := fun t =>
  let qdotk := score vec bx chI qv k e t
  let m := maxInf (s t).qmax qdotk
  let alpha := Real.exp (qdotk - m) * e.w
  let save := expDiff (s t).qmax m
  ⟨alpha + (s t).alpha * save, some m,
    (chO t).foldl (fun y c => Function.update y c fun j => save * y c j + alpha * vload vec v (e.va + c) j) (s t).y⟩

/-- `out_flat`, attention_cuda_fwd_ring.cu 110, 284, 388, 507 and 790. -/
def outFlat (p : Params) (b ho wo : ℕ) : ℕ := b * p.nlatOut * p.nlonOut + ho * p.nlonOut + wo

/-- Where the query of a point starts, attention_cuda_fwd_ring.cu 107-108, 252-253, 504-505 and 787-788. -/
def queryAt (p : Params) (b ho wo : ℕ) : ℕ := b * p.nlatOut * p.nlonOut * p.nci + (ho * p.nlonOut * p.nci + wo * p.nci)

/-- The query in shared memory, as each thread has stored it for itself, attention_cuda_fwd_ring.cu 279, 520 and 803. -/
def staged (vec : ℕ) (chI : ℕ → List ℕ) (q : ℕ → ℝ) (qa : ℕ) (junk : ℕ → ℕ → ℕ → ℝ) : ℕ → ℕ → ℕ → ℝ := fun t =>
  (chI t).foldl (fun sh c => Function.update sh c (vload vec q (qa + c))) (junk t)

/-- What a group knows of its point: batch entry, output row and output column; none if the group has no point (attention_cuda_fwd_ring.cu 96-103, 232-249, 780-782). `shift` is
`_row_idx + n_long_rows` in the launch for the short rows. -/
def pointOf (rowIdx : ℕ → ℕ) (shift rows nlonOut wid : ℕ) : Option (ℕ × ℕ) :=
  if wid ≥ rows * nlonOut then none else some (rowIdx (shift + wid / nlonOut), wid - wid / nlonOut * nlonOut)

/-- What a group of a one-pass kernel stores: the place of its point and the registers of its threads. -/
structure GroupOut where
  flat : ℕ
  thr : ℕ → Thr

/-- The accumulators of a point as the threads load them, attention_cuda_fwd_ring.cu 116-118 and 799-802. -/
def loadThr (vec : ℕ) (chO : ℕ → List ℕ) (p : Params) (bufs : Bufs) (flat : ℕ) (junk : ℕ → ℕ → ℕ → ℝ) : ℕ → Thr := fun t =>
  ⟨bufs.alpha flat, bufs.qmax flat, (chO t).foldl (fun y c => Function.update y c (vload vec bufs.y (flat * p.nco + c))) (junk t)⟩

/-- `s2_attn_fwd_ring_generic_k`, attention_cuda_fwd_ring.cu 66-175, one group. -/
noncomputable def genericGroup (vec : ℕ) (p : Params) (w : ℕ → ℝ) (P : Pattern) (k v q : ℕ → ℝ) (rowIdx : ℕ → ℕ) (junk : ℕ → ℕ → ℕ → ℝ) (bufs : Bufs)
    (b wid : ℕ) : List GroupOut :=
  match pointOf rowIdx 0 p.nlatOut p.nlonOut wid with
  | none => []
  | some (ho, wo) =>
    let chI := chans 32 none p.nci
    let chO := chans 32 none p.nco
    [⟨outFlat p b ho wo, ((P.row ho).filterMap (entry p w P b wo)).foldl (onlineThr vec 32 chI chO (fun _ c => vload vec q (queryAt p b ho wo + c)) k v)
      (loadThr vec chO p bufs (outFlat p b ho wo) junk)⟩]

/-- `s2_attn_fwd_ring_special_k`, attention_cuda_fwd_ring.cu 714-895, one group. Without neighbours it returns before storing. -/
noncomputable def specialGroup (vec : ℕ) (cf : Config) (p : Params) (w : ℕ → ℝ) (P : Pattern) (k v q : ℕ → ℝ) (rowIdx : ℕ → ℕ) (sh : Shared)
    (junk : ℕ → ℕ → ℕ → ℝ) (bufs : Bufs) (b wid : ℕ) : Except PyErr (List GroupOut) :=
  match pointOf rowIdx p.nLong (p.nlatOut - p.nLong) p.nlonOut wid with
  | none => .ok []
  | some (ho, wo) =>
    let chI := chans cf.bx cf.locI p.nci
    let chO := chans cf.bx cf.locO p.nco
    match collectAll cf.bx p.midLen (P.roff (ho + 1) - P.roff ho) (fun i => entry p w P b wo (P.roff ho + i)) sh.order sh.entries with
    | .error e => .error e
    | .ok (n, es) =>
      if n = 0 then .ok []
      else .ok [⟨outFlat p b ho wo, ((List.range n).map es).foldl (onlineThr vec cf.bx chI chO (staged vec chI q (queryAt p b ho wo) sh.query) k v)
        (loadThr vec chO p bufs (outFlat p b ho wo) junk)⟩]

/-- The stores to `y_acc` of a group, attention_cuda_fwd_ring.cu 174 and 892. -/
def yStores (vec : ℕ) (cf : Config) (p : Params) (g : GroupOut) : List (ℕ × ℝ) :=
  (List.range cf.bx).flatMap fun t => (chans cf.bx cf.locO p.nco t).flatMap fun c => (List.range vec).map fun j =>
    (vec * (g.flat * p.nco + c) + j, (g.thr t).y c j)

/-! ### Long rows -/

/-- `cta_per_row`, attention_cuda_fwd_ring.cu 656-657. -/
def ctaPerRow (maxLen : ℕ) : ℕ := min 32 (divUp maxLen 32)

/-- The neighbours that block `split` of `cpr` finds in its part of a row, attention_cuda_fwd_ring.cu 291-333 and 526-576. -/
def collectSplit (bx : ℕ) (p : Params) (w : ℕ → ℝ) (P : Pattern) (cpr : ℕ) (sh : Shared) (b ho wo split : ℕ) : Except PyErr (ℕ × (ℕ → Entry)) :=
  let rlen := P.roff (ho + 1) - P.roff ho
  let n := rlen / cpr + if split < rlen % cpr then 1 else 0
  collectAll bx (divUp p.maxLen cpr) n (fun i => entry p w P b wo (P.roff ho + split + i * cpr)) sh.order sh.entries

/-- `s2_attn_fwd_ring_softmax_k`, attention_cuda_fwd_ring.cu 211-356, one group: its `atomicMax`. -/
noncomputable def softmaxGroup (vec : ℕ) (cf : Config) (p : Params) (w : ℕ → ℝ) (P : Pattern) (k q : ℕ → ℝ) (rowIdx : ℕ → ℕ) (cpr : ℕ) (sh : Shared)
    (prev : ℕ → Option ℝ) (b split wid : ℕ) : Except PyErr (List (ℕ × Option ℝ)) :=
  match pointOf rowIdx 0 p.nLong p.nlonOut wid with
  | none => .ok []
  | some (ho, wo) =>
    let chI := chans cf.bx none p.nci
    match collectSplit cf.bx p w P cpr sh b ho wo split with
    | .error e => .error e
    | .ok (n, es) =>
      .ok [(outFlat p b ho wo, ((List.range n).map es).foldl
        (fun m e => some (maxInf m (score vec cf.bx chI (staged vec chI q (queryAt p b ho wo) sh.query) k e 0))) (prev (outFlat p b ho wo)))]

/-- The larger of two maxima that may be minus infinity. -/
noncomputable def maxOpt (a b : Option ℝ) : Option ℝ := match b with | none => a | some q => some (maxInf a q)

/-- `atomicMax`, attention_cuda_utils.cuh 209-221, into an array of `size` numbers; the loop around `atomicCAS` makes it one step. -/
noncomputable def atomicMaxOpt (size : ℕ) (mem : ℕ → Option ℝ) (a : ℕ × Option ℝ) : Except PyErr (ℕ → Option ℝ) :=
  if a.1 < size then .ok (Function.update mem a.1 (maxOpt (mem a.1) a.2)) else .error .memoryFault

/-- Where a warp is in the kernel `rescale`: before its loads, after them (with the old maximum), at its end. -/
inductive WarpPc where
  | start
  | loaded (old : Option ℝ)
  | done

/-- The state of the kernel `rescale`: the accumulators and where every warp of every group `(b, wid)` is. -/
structure Resc where
  bufs : Bufs
  pc : ℕ × ℕ → ℕ → WarpPc

/-- The places of `y_acc` that warp `wp` of a group scales, attention_cuda_fwd_ring.cu 394 and 405-409. -/
def warpPlaces (vec : ℕ) (cf : Config) (p : Params) (flat wp : ℕ) : List ℕ :=
  (List.range 32).flatMap fun l => (chans cf.bx cf.locO p.nco (wp * 32 + l)).flatMap fun c => (List.range vec).map fun j => vec * (flat * p.nco + c) + j

open Classical in
/-- One step of warp `wp` of group `(b, wid)` in `s2_attn_fwd_ring_rescale_k`, attention_cuda_fwd_ring.cu 361-417. The first step loads both maxima and compares them; the
second scales the channels of the warp and, in warp 0, stores the new maximum and the scaled sum. -/
noncomputable def rescaleStep (vec : ℕ) (cf : Config) (p : Params) (sizeY sizeA : ℕ) (rowIdx : ℕ → ℕ) (curr : ℕ → Option ℝ) (s : Resc) (x : ℕ × ℕ × ℕ) :
    Except PyErr Resc :=
  let (b, wid, wp) := x
  match pointOf rowIdx 0 p.nLong p.nlonOut wid with
  | none => .ok s
  | some (ho, wo) =>
    let flat := outFlat p b ho wo
    let goto := fun pc => Function.update s.pc (b, wid) (Function.update (s.pc (b, wid)) wp pc)
    match s.pc (b, wid) wp with
    | .done => .ok s
    | .start => .ok { s with pc := goto (if s.bufs.qmax flat = curr flat then .done else .loaded (s.bufs.qmax flat)) }
    | .loaded old =>
      match curr flat with
      | none => .ok { s with pc := goto .done }
      | some new =>
        match (warpPlaces vec cf p flat wp).foldlM (fun y a => Disco.store sizeY y a (expDiff old new * y a)) s.bufs.y with
        | .error e => .error e
        | .ok y =>
          if wp = 0 then
            if flat < sizeA then
              .ok ⟨⟨y, Function.update s.bufs.alpha flat (expDiff old new * s.bufs.alpha flat), Function.update s.bufs.qmax flat (some new)⟩, goto .done⟩
            else .error .memoryFault
          else .ok ⟨{ s.bufs with y := y }, goto .done⟩

/-- One neighbour in `s2_attn_fwd_ring_finalize_k`, attention_cuda_fwd_ring.cu 580-598; `m` is the maximum. -/
noncomputable def addThr (vec bx : ℕ) (chI chO : ℕ → List ℕ) (qv : ℕ → ℕ → ℕ → ℝ) (k v : ℕ → ℝ) (m : Option ℝ) (s : ℕ → Thr) (e : Entry) : ℕ → Thr := fun t =>
  let alpha := Real.exp (score vec bx chI qv k e t - m.getD 0) * e.w
  ⟨(s t).alpha + alpha, (s t).qmax, (chO t).foldl (fun y c => Function.update y c fun j => y c j + alpha * vload vec v (e.va + c) j) (s t).y⟩

/-- `s2_attn_fwd_ring_finalize_k`, attention_cuda_fwd_ring.cu 423-622, one group: what it adds. -/
noncomputable def finalizeGroup (vec : ℕ) (cf : Config) (p : Params) (w : ℕ → ℝ) (P : Pattern) (k v q : ℕ → ℝ) (rowIdx : ℕ → ℕ) (cpr : ℕ) (sh : Shared)
    (junk : ℕ → ℕ → ℕ → ℝ) (curr : ℕ → Option ℝ) (b split wid : ℕ) : Except PyErr (List GroupOut) :=
  match pointOf rowIdx 0 p.nLong p.nlonOut wid with
  | none => .ok []
  | some (ho, wo) =>
    let chI := chans cf.bx cf.locI p.nci
    let chO := chans cf.bx cf.locO p.nco
    match collectSplit cf.bx p w P cpr sh b ho wo split with
    | .error e => .error e
    | .ok (n, es) =>
      .ok [⟨outFlat p b ho wo, ((List.range n).map es).foldl
        (addThr vec cf.bx chI chO (staged vec chI q (queryAt p b ho wo) sh.query) k v (curr (outFlat p b ho wo)))
        (fun t => ⟨0, none, (chO t).foldl (fun y c => Function.update y c fun _ => 0) (junk t)⟩)⟩]

/-! ### The launches -/

/-- What a call depends on besides its arguments: four-wide access, the shared memory a block of the device can have, the order of the rows, shared memory, thread
orders and local memory of every group of every kernel (numbered 0 to 2), and the orders in which stores, atomic operations and the steps of `rescale` take effect. -/
structure Run where
  vecOk : Bool
  limit : ℕ
  rowIdx : ℕ → ℕ
  shared : ℕ → ℕ → ℕ → ℕ → Shared
  junk : ℕ → ℕ → ℕ → ℕ → ℕ → ℕ → ℕ → ℝ
  storeY : List (ℕ × ℝ) → List (ℕ × ℝ)
  storeA : List (ℕ × ℝ) → List (ℕ × ℝ)
  storeM : List (ℕ × Option ℝ) → List (ℕ × Option ℝ)
  maxM : List (ℕ × Option ℝ) → List (ℕ × Option ℝ)
  sched : List (ℕ × ℕ × ℕ)
  addY : List (ℕ × ℝ) → List (ℕ × ℝ)
  addA : List (ℕ × ℝ) → List (ℕ × ℝ)

/-- A launch that `ensure_dyn_shmem` (attention_cuda_utils.cu 398-435) and the runtime accept: grid dimensions within their limits, and shared memory. Up to 48 KiB of dynamic shared memory
nothing is asked for, and the static part has to fit as well; beyond, the two together must not exceed what the device has. -/
def fits (limit gx gy gz dyn static : ℕ) : Prop :=
  0 < gx ∧ gx < 2 ^ 31 ∧ 0 < gy ∧ gy < 2 ^ 16 ∧ 0 < gz ∧ gz < 2 ^ 16 ∧ dyn + static ≤ if dyn ≤ 49152 then 49152 else limit

instance (limit gx gy gz dyn static : ℕ) : Decidable (fits limit gx gy gz dyn static) := by unfold fits; infer_instance

/-- The static shared memory of `__group_sum` and `__compact`, attention_cuda_utils.cuh 277 and 383: one number per warp each. -/
def staticShared (bx : ℕ) : ℕ := if bx = 32 then 0 else 8 * (bx / 32)

/-- The results of all groups of a grid, or the first fault. -/
def overM {α β : Type} (f : α → Except PyErr (List β)) : List α → Except PyErr (List β)
  | [] => .ok []
  | a :: L =>
    match f a with
    | .error e => .error e
    | .ok x =>
      match overM f L with
      | .error e => .error e
      | .ok y => .ok (x ++ y)

/-- The groups of a grid `(points, batch)`. -/
def grid2 (B gx by' : ℕ) : List (ℕ × ℕ) := overGrid B gx by' fun b wid => [(b, wid)]

/-- The groups of a grid `(points, splits, batch)`. -/
def grid3 (B cpr gx by' : ℕ) : List (ℕ × ℕ × ℕ) := overGrid B gx by' fun b wid => (List.range cpr).map fun split => (b, split, wid)

/-- The stores of a one-pass kernel take effect, attention_cuda_fwd_ring.cu 169-174 and 886-892. -/
def storeGroups (r : Run) (vec : ℕ) (cf : Config) (p : Params) (B : ℕ) (gs : List GroupOut) (bufs : Bufs) : Except PyErr Bufs := do
  let y ← (r.storeY (gs.flatMap (yStores vec cf p))).foldlM (storeTo (B * p.nlatOut * p.nlonOut * (p.nco * vec))) bufs.y
  let alpha ← (r.storeA (gs.map fun g => (g.flat, (g.thr 0).alpha))).foldlM (storeTo (B * p.nlatOut * p.nlonOut)) bufs.alpha
  let qmax ← (r.storeM (gs.map fun g => (g.flat, (g.thr 0).qmax))).foldlM (fun m a => Disco.store (B * p.nlatOut * p.nlonOut) m a.1 a.2) bufs.qmax
  return ⟨y, alpha, qmax⟩

/-- `launch_gen_attn_ring_fwd`, attention_cuda_fwd_ring.cu 178-202. -/
noncomputable def runGeneric (r : Run) (vec : ℕ) (p : Params) (B : ℕ) (w : ℕ → ℝ) (P : Pattern) (k v q : ℕ → ℝ) (bufs : Bufs) : Except PyErr Bufs :=
  let gx := divUp (p.nlatOut * p.nlonOut) 2
  if fits r.limit gx B 1 (4 * vec * p.nco * 2) 0 then
    storeGroups r vec ⟨32, 2, none, none, false, 0⟩ p B
      ((grid2 B gx 2).flatMap fun x => genericGroup vec p w P k v q r.rowIdx (r.junk 0 x.1 0 x.2) bufs x.1 x.2) bufs
  else .error .processExit

/-- The launch for the short rows, attention_cuda_fwd_ring.cu 934-975. Pointers have eight bytes. -/
noncomputable def runSpecial (r : Run) (vec : ℕ) (cf : Config) (p : Params) (B : ℕ) (w : ℕ → ℝ) (P : Pattern) (k v q : ℕ → ℝ) (bufs : Bufs) : Except PyErr Bufs :=
  if p.nlatOut - p.nLong = 0 then .ok bufs
  else
    let gx := divUp ((p.nlatOut - p.nLong) * p.nlonOut) cf.by'
    if fits r.limit gx B 1 ((4 * vec * p.nci + 8 * p.midLen * 2 + 4 * p.midLen) * cf.by') (staticShared cf.bx) then do
      let gs ← overM (fun x : ℕ × ℕ => specialGroup vec cf p w P k v q r.rowIdx (r.shared 0 x.1 0 x.2) (r.junk 0 x.1 0 x.2) bufs x.1 x.2) (grid2 B gx cf.by')
      storeGroups r vec cf p B gs bufs
    else .error .processExit

/-- The first kernel for long rows, attention_cuda_fwd_ring.cu 649-676: the new maxima, in a copy of the old ones. -/
noncomputable def runSoftmax (r : Run) (vec : ℕ) (cf : Config) (p : Params) (B : ℕ) (w : ℕ → ℝ) (P : Pattern) (k q : ℕ → ℝ) (bufs : Bufs) :
    Except PyErr (ℕ → Option ℝ) :=
  let cpr := ctaPerRow p.maxLen
  let gx := divUp (p.nLong * p.nlonOut) cf.by'
  if fits r.limit gx cpr B ((4 * vec * p.nci + 8 * divUp p.maxLen cpr) * cf.by') (staticShared cf.bx) then do
    let ops ← overM (fun x : ℕ × ℕ × ℕ => softmaxGroup vec cf p w P k q r.rowIdx cpr (r.shared 1 x.1 x.2.1 x.2.2) bufs.qmax x.1 x.2.1 x.2.2) (grid3 B cpr gx cf.by')
    (r.maxM ops).foldlM (atomicMaxOpt (B * p.nlatOut * p.nlonOut)) bufs.qmax
  else .error .processExit

/-- The second kernel for long rows, attention_cuda_fwd_ring.cu 678-681. -/
noncomputable def runRescale (r : Run) (vec : ℕ) (cf : Config) (p : Params) (B : ℕ) (curr : ℕ → Option ℝ) (bufs : Bufs) : Except PyErr Bufs :=
  let gx := divUp (p.nLong * p.nlonOut) cf.by'
  if fits r.limit gx B 1 0 0 then do
    let s ← r.sched.foldlM (rescaleStep vec cf p (B * p.nlatOut * p.nlonOut * (p.nco * vec)) (B * p.nlatOut * p.nlonOut) r.rowIdx curr) ⟨bufs, fun _ _ => .start⟩
    return s.bufs
  else .error .processExit

/-- The third kernel for long rows, attention_cuda_fwd_ring.cu 683-701. -/
noncomputable def runFinalize (r : Run) (vec : ℕ) (cf : Config) (p : Params) (B : ℕ) (w : ℕ → ℝ) (P : Pattern) (k v q : ℕ → ℝ) (curr : ℕ → Option ℝ)
    (bufs : Bufs) : Except PyErr Bufs :=
  let cpr := ctaPerRow p.maxLen
  let gx := divUp (p.nLong * p.nlonOut) cf.by'
  if fits r.limit gx cpr B ((4 * vec * (p.nci + p.nco) + 8 * divUp p.maxLen cpr * 2 + 4 * divUp p.maxLen cpr) * cf.by') (staticShared cf.bx) then do
    let gs ← overM (fun x : ℕ × ℕ × ℕ => finalizeGroup vec cf p w P k v q r.rowIdx cpr (r.shared 2 x.1 x.2.1 x.2.2) (r.junk 2 x.1 x.2.1 x.2.2) curr x.1 x.2.1 x.2.2)
      (grid3 B cpr gx cf.by')
    let y ← (r.addY (gs.flatMap (yStores vec cf p))).foldlM (Disco.atomicAddTo (B * p.nlatOut * p.nlonOut * (p.nco * vec))) bufs.y
    let alpha ← (r.addA (gs.map fun g => (g.flat, (g.thr 0).alpha))).foldlM (Disco.atomicAddTo (B * p.nlatOut * p.nlonOut)) bufs.alpha
    return ⟨y, alpha, bufs.qmax⟩
  else .error .processExit

/-- `spc_attn_ring_fwd_long_rows`, attention_cuda_fwd_ring.cu 625-704 and 927-932. -/
noncomputable def runLong (r : Run) (vec : ℕ) (cf : Config) (p : Params) (B : ℕ) (w : ℕ → ℝ) (P : Pattern) (k v q : ℕ → ℝ) (bufs : Bufs) : Except PyErr Bufs :=
  if p.nLong = 0 then .ok bufs
  else do
    let curr ← runSoftmax r vec cf p B w P k q bufs
    let bufs ← runRescale r vec cf p B curr bufs
    runFinalize r vec cf p B w P k v q curr bufs

/-- `s2_attn_fwd_ring_step_dispatch`, attention_cuda_fwd_ring.cu 987-1145, and the operator around it, 1147-1194: block size, element size and number of local
elements are chosen as in the kernels of a single device (`fwdLaunch`). `p` holds the numbers of channels as the caller has them. -/
noncomputable def ringStep (r : Run) (p : Params) (B : ℕ) (w : ℕ → ℝ) (P : Pattern) (k v q : ℕ → ℝ) (bufs : Bufs) : Except PyErr Bufs :=
  let vec := vecOf r.vecOk p.nci p.nco
  let p' : Params := { p with nci := p.nci / vec, nco := p.nco / vec }
  match fwdLaunch r.vecOk p.nci p.nco with
  | .nothing => .ok bufs
  | .generic => runGeneric r vec p' B w P k v q bufs
  | .special bx by' nloc same => do
    let cf : Config := ⟨bx, by', if same then some nloc else none, some nloc, true, 0⟩
    let bufs ← runLong r vec cf p' B w P k v q bufs
    runSpecial r vec cf p' B w P k v q bufs

end Verif.RingGpu
