import Verif.Model.DistGrid
import Verif.Model.Halo
import Verif.Model.AttentionLayer
/-!
Model of `distributed/distributed_attention.py` and of the ring-step kernels it calls
(`attention/optimized/kernels_cuda/attention_cuda_fwd_ring.cu`, `attention_cuda_fwd_ring_upsample.cu`).

The ring-step kernels exist for CUDA only. What a thread group does for one output point is modelled; the summation inside a group (lanes,
vector loads, shared memory) is a sum of real numbers. The order in which thread groups and atomic operations take effect is a
parameter. A local tensor `[B, C, H, W]` is an `RTen`; the kernels see the same tensor in the layout `[B, H, W, C]`. Minus infinity, the
start of the running maximum, is `none`.
-/
namespace Verif.Ring
open Verif Verif.Dist Verif.Attn Verif.Spec.Attn Finset

/-- A local tensor `[B, C, H, W]`. -/
structure RTen where
  B : ℕ
  C : ℕ
  H : ℕ
  W : ℕ
  val : T4

/-- A tensor seen along its latitude. -/
def RTen.viewLat (x : RTen) : Vec (ℕ → ℕ → ℕ → ℝ) := ⟨x.H, fun h b c w => x.val b c h w⟩

/-! ### The ring -/

/-- What a rank holds during the loop: the current key and value chunks and its accumulators. -/
structure Slot (σ : Type) where
  k : RTen
  v : RTen
  acc : σ

/-- A message `m` arriving in a buffer `[B, H, w, C]` allocated after the rank's `own` chunk, `_ring_kv` distributed_attention.py 53-76.
(NCCL compares numbers of elements; the model asks for equal extents.) -/
def recvChunk (own m : RTen) (w : ℕ) : Except PyErr RTen :=
  if m.B = own.B ∧ m.C = own.C ∧ m.H = own.H ∧ m.W = w then .ok m else .error .runtimeError

/-- `_ring_kv` and the wait, distributed_attention.py 145-148, 172-176: a rank sends its chunks to the previous rank and receives those of
the next rank (`send_to, recv_from = get_group_neighbors(..)` is `(prev, next)`). -/
def exchange {σ : Type} (Pa : ℕ) (lonIn : List ℕ) (step : ℕ) (st : ℕ → Slot σ) (a : ℕ) : Except PyErr (Slot σ) :=
  match recvChunk (st a).k (st (nextRank Pa a)).k (lonIn.getD ((a + step + 1) % Pa) 0) with
  | .error e => .error e
  | .ok k =>
    match recvChunk (st a).v (st (nextRank Pa a)).v (lonIn.getD ((a + step + 1) % Pa) 0) with
    | .error e => .error e
    | .ok v => .ok ⟨k, v, (st a).acc⟩

/-- The body of `for step in range(az_size)`, distributed_attention.py 141-176 and 525-557: `kernel p a step src` is the kernel launch on rank
`(p, a)` with the chunk of azimuth rank `src`. -/
def ringStep {σ : Type} (Pp Pa : ℕ) (lonIn : ℕ → ℕ → List ℕ) (kernel : ℕ → ℕ → ℕ → ℕ → RTen → RTen → σ → σ) (step : ℕ)
    (st : ℕ → ℕ → Slot σ) : Except PyErr (ℕ → ℕ → Slot σ) :=
  let st1 : ℕ → ℕ → Slot σ := fun p a =>
    ⟨(st p a).k, (st p a).v, kernel p a step ((a + step) % Pa) (st p a).k (st p a).v (st p a).acc⟩
  if step + 1 < Pa then collect Pp Pa fun p a => exchange Pa (lonIn p a) step (st1 p) a else .ok st1

/-- The first `n` rounds of the loop. -/
def ringLoop {σ : Type} (Pp Pa : ℕ) (lonIn : ℕ → ℕ → List ℕ) (kernel : ℕ → ℕ → ℕ → ℕ → RTen → RTen → σ → σ) (st : ℕ → ℕ → Slot σ) :
    ℕ → Except PyErr (ℕ → ℕ → Slot σ)
  | 0 => .ok st
  | n + 1 =>
    match ringLoop Pp Pa lonIn kernel st n with
    | .error e => .error e
    | .ok st' => ringStep Pp Pa lonIn kernel n st'

/-! ### One output point -/

/-- `y_acc`, `alpha_sum`, `qdotk_max` at one output point. -/
structure Acc where
  y : ℕ → ℝ
  alphaSum : ℝ
  qmax : Option ℝ

/-- The initial buffers, distributed_attention.py 128-130 and 515-517. -/
def Acc.init : Acc := ⟨fun _ => 0, 0, none⟩

/-- `max(qdotk_max, qdotk)`. -/
noncomputable def maxInf (m : Option ℝ) (q : ℝ) : ℝ := match m with | none => q | some m => max m q

/-- `expf(old - new)`; the old maximum may be minus infinity. -/
noncomputable def expDiff (m : Option ℝ) (n : ℝ) : ℝ := match m with | none => 0 | some m => Real.exp (m - n)

/-- A neighbour as the kernel sees it: score, quadrature weight, value. -/
structure Pt where
  q : ℝ
  w : ℝ
  v : ℕ → ℝ

/-- One neighbour in the one-pass kernels, attention_cuda_fwd_ring.cu 158-166 (`s2_attn_fwd_ring_generic_k`; the specialised kernel
`s2_attn_fwd_ring_special_k` 714-950 does the same after collecting the neighbours). -/
noncomputable def onePass (s : Acc) (t : Pt) : Acc :=
  let m := maxInf s.qmax t.q
  let alpha := Real.exp (t.q - m) * t.w
  let save := expDiff s.qmax m
  ⟨fun c => save * s.y c + alpha * t.v c, alpha + s.alphaSum * save, some m⟩

/-- Kernels `softmax`, attention_cuda_fwd_ring.cu 211-356: the new maximum. -/
noncomputable def phaseMax (m : Option ℝ) (L : List Pt) : Option ℝ := L.foldl (fun m t => some (maxInf m t.q)) m

open Classical in
/-- Kernel `rescale`, attention_cuda_fwd_ring.cu 361-417 and attention_cuda_fwd_ring_upsample.cu 156-181. -/
noncomputable def phaseRescale (s : Acc) (m : Option ℝ) : Acc :=
  if s.qmax = m then s
  else
    match m with
    | none => s
    | some n => ⟨fun c => expDiff s.qmax n * s.y c, expDiff s.qmax n * s.alphaSum, some n⟩

/-- One neighbour in the kernel `finalize`, attention_cuda_fwd_ring.cu 580-620. -/
noncomputable def phaseAdd (s : Acc) (t : Pt) : Acc :=
  let alpha := Real.exp (t.q - s.qmax.getD 0) * t.w
  ⟨fun c => s.y c + alpha * t.v c, s.alphaSum + alpha, s.qmax⟩

/-- The three kernels for long rows, `spc_attn_ring_fwd_long_rows` attention_cuda_fwd_ring.cu 625-704. The blocks that share a row and
their atomic additions are merged into one pass over the row. -/
noncomputable def threePhase (s : Acc) (L : List Pt) : Acc := L.foldl phaseAdd (phaseRescale s (phaseMax s.qmax L))

/-! ### The gather direction -/

/-- `_build_local_psi`, distributed_attention.py 963-1018. -/
def localPsi (P : Pattern) (latLo lonLo nlonIn pscale : ℕ) : Pattern where
  col z :=
    let c := P.col (P.roff latLo + z)
    let hi := c / nlonIn
    hi * nlonIn + (c - hi * nlonIn + pscale * lonLo) % nlonIn
  roff h := P.roff (latLo + h) - P.roff latLo

/-- `hi.min()`, `hi.max()` of a non-empty tensor. -/
def minOf (L : List ℕ) : ℕ := L.foldl min (L.headD 0)
/-- See `minOf`. -/
def maxOf (L : List ℕ) : ℕ := L.foldl max (L.headD 0)

/-- How far the input rows `his` reach outside of `[lo, hi)`: `max(0, lo - min)`, `max(0, max - (hi - 1))`, distributed_attention.py
1048-1051 and 1094-1097; zero when there are none. -/
def overhang (lo hi : ℕ) (his : List ℕ) : ℕ := if his = [] then 0 else max (lo - minOf his) (maxOf his + 1 - hi)

/-- The largest overhang over all polar ranks. -/
def maxOverhang (Pp : ℕ) (latIn : List ℕ) (his : ℕ → List ℕ) : ℕ :=
  (List.range Pp).foldl (fun r p => max r (overhang (offset latIn p) (offset latIn p + latIn.getD p 0) (his p))) 0

/-- `_compute_r_lat`, distributed_attention.py 1020-1053. -/
def rLat (Pp : ℕ) (latIn latOut : List ℕ) (P : Pattern) (nlonIn : ℕ) : ℕ :=
  if Pp = 1 then 0
  else maxOverhang Pp latIn fun p =>
    (List.range' (P.roff (offset latOut p)) (P.roff (offset latOut p + latOut.getD p 0) - P.roff (offset latOut p))).map
      fun z => P.col z / nlonIn

/-- What a rank stores: the split shapes, its part of the pattern, the halo width. -/
structure DAttn where
  latIn : List ℕ
  lonIn : List ℕ
  latOut : List ℕ
  lonOut : List ℕ
  psi : Pattern
  r : ℕ

/-- The extents of a layer. -/
structure Grids where
  nlatIn : ℕ
  nlonIn : ℕ
  nlatOut : ℕ
  nlonOut : ℕ

/-- `self.upsample`, attention.py 339. -/
def Grids.upsample (g : Grids) : Bool := g.nlonOut % g.nlonIn = 0 ∧ g.nlonIn % g.nlonOut ≠ 0

/-- The uniform-pscale check, distributed_attention.py 895-924: `big[r] = scale * small[r]` on every rank. -/
def scaleCheck (scale : ℕ) (big small : List ℕ) : Except PyErr Unit :=
  if (big.zip small).all fun t => t.1 = scale * t.2 then .ok () else .error .valueError

/-- `hi_of_nz` and the entries, distributed_attention.py 1075-1080 and 1131-1136: `(hi, z)` for every stored entry, in memory order. -/
def entriesOf (P : Pattern) (nlatIn : ℕ) : List (ℕ × ℕ) := (List.range nlatIn).flatMap fun hi => (P.row hi).map fun z => (hi, z)

/-- `_compute_r_lat_upsample`, distributed_attention.py 1059-1099. -/
def rLatUp (Pp : ℕ) (latIn latOut : List ℕ) (P : Pattern) (nlatIn nlonOut : ℕ) : ℕ :=
  if Pp = 1 then 0
  else maxOverhang Pp latIn fun p =>
    ((entriesOf P nlatIn).filter fun e =>
      P.col e.2 / nlonOut ≥ offset latOut p ∧ P.col e.2 / nlonOut < offset latOut p + latOut.getD p 0).map fun e => e.1

/-- The selected entries `(hi_local, col_local)`, distributed_attention.py 1134-1147. `% nlon_out` of a difference is Python's
non-negative remainder. -/
def selectUp (P : Pattern) (g : Grids) (latLoOut nlatOutLocal lonLoOut : ℕ) (start : ℤ) (nlatHalo : ℕ) : List (ℕ × ℕ) :=
  (entriesOf P g.nlatIn).filterMap fun e =>
    let ho := P.col e.2 / g.nlonOut
    let wo := P.col e.2 - ho * g.nlonOut
    let hiLocal : ℤ := (e.1 : ℤ) - start
    if ho ≥ latLoOut ∧ ho < latLoOut + nlatOutLocal ∧ hiLocal ≥ 0 ∧ hiLocal < nlatHalo then
      some (hiLocal.toNat, (ho - latLoOut) * g.nlonOut + (((wo : ℤ) - lonLoOut) % g.nlonOut).toNat)
    else none

/-- `_build_local_psi_upsample`, distributed_attention.py 1101-1155: `roff_local` is the cumulative sum of the row counts. -/
def localPsiUp (sel : List (ℕ × ℕ)) : Pattern where
  col z := (sel.map fun e => e.2).getD z 0
  roff h := ∑ i ∈ range h, sel.countP fun e => e.1 = i

/-- The choice of the check by direction, distributed_attention.py 895-924. -/
def pscaleCheck (g : Grids) (lonIn lonOut : List ℕ) : Except PyErr Unit :=
  if g.upsample then scaleCheck (g.nlonOut / g.nlonIn) lonOut lonIn else scaleCheck (g.nlonIn / g.nlonOut) lonIn lonOut

/-- The local pattern and the halo width, distributed_attention.py 927-959. -/
def DAttn.build (g : Grids) (P : Pattern) (Pp p a : ℕ) (latIn lonIn latOut lonOut : List ℕ) : DAttn :=
  if g.upsample then
    let r := rLatUp Pp latIn latOut P g.nlatIn g.nlonOut
    let sel := selectUp P g (offset latOut p) (latOut.getD p 0) (offset lonOut a) ((offset latIn p : ℤ) - r) (latIn.getD p 0 + 2 * r)
    ⟨latIn, lonIn, latOut, lonOut, localPsiUp sel, r⟩
  else
    let psi := localPsi P (offset latOut p) (offset lonOut a) g.nlonIn (g.nlonIn / g.nlonOut)
    ⟨latIn, lonIn, latOut, lonOut, psi, rLat Pp latIn latOut P g.nlonIn⟩

/-- `DistributedNeighborhoodAttentionS2.__init__` on rank `(p, a)`, distributed_attention.py 841-959; `P` is the pattern of the serial
constructor, which has already rejected grids that fit neither direction. -/
def DAttn.init (g : Grids) (P : Pattern) (Pp Pa p a : ℕ) : Except PyErr DAttn := do
  let latIn ← computeSplitShapes g.nlatIn Pp
  let lonIn ← computeSplitShapes g.nlonIn Pa
  let latOut ← computeSplitShapes g.nlatOut Pp
  let lonOut ← computeSplitShapes g.nlonOut Pa
  let _ ← pscaleCheck g lonIn lonOut
  return DAttn.build g P Pp p a latIn lonIn latOut lonOut

/-- The halo exchange of the forward pass, distributed_attention.py 1214-1219. -/
def haloPad (Pp : ℕ) (r : ℕ) (x : ℕ → ℕ → RTen) (p a : ℕ) : Except PyErr RTen :=
  if r > 0 ∧ Pp > 1 then
    match haloForward Pp (fun s => (x s a).viewLat) r p with
    | .error e => .error e
    | .ok v => .ok ⟨(x p a).B, (x p a).C, v.len, (x p a).W, fun b c h w => v.val h b c w⟩
  else .ok (x p a)

/-- Global latitude of the first halo row, distributed_attention.py 1222. -/
def haloStart (D : DAttn) (p : ℕ) : ℤ := (offset D.latIn p : ℤ) - D.r

/-- The test of one entry in the kernel, attention_cuda_fwd_ring.cu 130-147: `(hi_local, wip_local, hi_global)` of the neighbour if it
lies in the chunk and in the halo rows. -/
def gatherHit (psi : Pattern) (nlonIn pscale lonLo : ℕ) (start : ℤ) (k : RTen) (wo z : ℕ) : Option (ℕ × ℕ × ℕ) :=
  let hi := psi.col z / nlonIn
  let wi := psi.col z - hi * nlonIn
  let wiwo := wi + pscale * wo
  let wip := wiwo - wiwo / nlonIn * nlonIn
  if lonLo ≤ wip ∧ wip < lonLo + k.W then
    let hl : ℤ := (hi : ℤ) - start
    if 0 ≤ hl ∧ hl < k.H then some (hl.toNat, wip - lonLo, hi) else none
  else none

/-- The neighbour data the kernel loads, attention_cuda_fwd_ring.cu 149-156. -/
def loadPt (w : ℕ → ℝ) (k v q : RTen) (b ho wo : ℕ) (t : ℕ × ℕ × ℕ) : Pt :=
  ⟨∑ c ∈ range q.C, q.val b c ho wo * k.val b c t.1 t.2.1, w t.2.2, fun c => v.val b c t.1 t.2.1⟩

/-- The kernel for one output point: the one-pass loop, or the three kernels for long rows. -/
noncomputable def gatherCell (psi : Pattern) (w : ℕ → ℝ) (nlonIn pscale lonLo : ℕ) (start : ℤ) (long : Bool) (k v q : RTen)
    (b ho wo : ℕ) (s : Acc) : Acc :=
  if long then threePhase s (((psi.row ho).filterMap (gatherHit psi nlonIn pscale lonLo start k wo)).map (loadPt w k v q b ho wo))
  else (psi.row ho).foldl (fun s z =>
    match gatherHit psi nlonIn pscale lonLo start k wo z with
    | none => s
    | some t => onePass s (loadPt w k v q b ho wo t)) s

/-- What a launch depends on besides its arguments: `row_idx` (the rows sorted by length, so a permutation), the number of rows that
`split_csr_rows` calls long (zero for the generic kernel), and the order in which the thread groups finish. -/
structure Launch where
  rowIdx : ℕ → ℕ
  nLong : ℕ
  order : ℕ → List (ℕ × ℕ)

/-- `forward_ring_step`, attention_cuda_fwd_ring.cu 66-175 and 987-1196: the thread group `(h, wo)` updates the output point
`(row_idx[h], wo)`. -/
noncomputable def gatherKernel (psi : Pattern) (w : ℕ → ℝ) (nlonIn pscale lonLo : ℕ) (start : ℤ) (ln : Launch) (q k v : RTen)
    (acc : ℕ → ℕ × ℕ → Acc) : ℕ → ℕ × ℕ → Acc := fun b =>
  (ln.order b).foldl (fun s t => Function.update s (ln.rowIdx t.1, t.2)
    (gatherCell psi w nlonIn pscale lonLo start (t.1 < ln.nLong) k v q b (ln.rowIdx t.1) t.2 (s (ln.rowIdx t.1, t.2)))) (acc b)

/-! ### The upsampling direction -/

/-- `ring_up_local_wo`, attention_cuda_fwd_ring_upsample.cu 99-105; `none` is `-1`. -/
def upLocalWo (woShifted wi pscaleOut nlonOutGlobal nlonOutLocal : ℕ) : Option ℕ :=
  let w := woShifted + pscaleOut * wi
  let w := if w ≥ nlonOutGlobal then w - nlonOutGlobal else w
  if w < nlonOutLocal then some w else none

/-- A scatter operation: target `(ho, wo)` and source `(hi_local, wi_local)`. -/
structure Edge where
  cell : ℕ × ℕ
  src : ℕ × ℕ

/-- The loops of the scatter kernels, attention_cuda_fwd_ring_upsample.cu 109-151 and 186-243: every chunk cell visits its row. -/
def upEdges (psi : Pattern) (nlonOut pscaleOut lonLo nlonOutLocal H W : ℕ) : List Edge :=
  (List.range H).flatMap fun hi => (List.range W).flatMap fun wi => (psi.row hi).filterMap fun z =>
    let ho := psi.col z / nlonOut
    match upLocalWo (psi.col z - ho * nlonOut) (lonLo + wi) pscaleOut nlonOut nlonOutLocal with
    | none => none
    | some wo => some ⟨(ho, wo), (hi, wi)⟩

/-- The data of one scatter operation; the weight is read at `quad_weights[lat_halo_start + hi]`. -/
def upPt (w : ℕ → ℝ) (start : ℤ) (k v q : RTen) (b : ℕ) (e : Edge) : Pt :=
  ⟨∑ c ∈ range q.C, k.val b c e.src.1 e.src.2 * q.val b c e.cell.1 e.cell.2, w (start + e.src.1).toNat, fun c => v.val b c e.src.1 e.src.2⟩

/-- The order in which the atomic operations of the first and third kernel take effect. -/
structure UpLaunch where
  order1 : List Edge → List Edge
  order3 : List Edge → List Edge

/-- `atomicMax` into a copy of the running maximum, attention_cuda_fwd_ring_upsample.cu 109-151. -/
noncomputable def upMax (pt : Edge → Pt) (L : List Edge) (m : ℕ × ℕ → Option ℝ) : ℕ × ℕ → Option ℝ :=
  L.foldl (fun m e => Function.update m e.cell (some (maxInf (m e.cell) (pt e).q))) m

/-- `atomicAdd` into the accumulators, attention_cuda_fwd_ring_upsample.cu 186-243. -/
noncomputable def upAdd (pt : Edge → Pt) (L : List Edge) (s : ℕ × ℕ → Acc) : ℕ × ℕ → Acc :=
  L.foldl (fun s e => Function.update s e.cell (phaseAdd (s e.cell) (pt e))) s

/-- `launch_attn_fwd_ring_upsample_step`, attention_cuda_fwd_ring_upsample.cu 248-284: maximum, rescale, add. -/
noncomputable def upKernel (psi : Pattern) (w : ℕ → ℝ) (g : Grids) (lonLo nlonOutLocal : ℕ) (start : ℤ) (ln : UpLaunch) (q k v : RTen)
    (acc : ℕ → ℕ × ℕ → Acc) : ℕ → ℕ × ℕ → Acc := fun b =>
  let edges := upEdges psi g.nlonOut (g.nlonOut / g.nlonIn) lonLo nlonOutLocal k.H k.W
  let curr := upMax (upPt w start k v q b) (ln.order1 edges) fun c => (acc b c).qmax
  upAdd (upPt w start k v q b) (ln.order3 edges) fun c => phaseRescale (acc b c) (curr c)

/-! ### The forward pass -/

/-- The result tensor, distributed_attention.py 180-181 and 561-562: `y_acc / alpha_sum`. -/
noncomputable def finish (q v : RTen) (nlatOut nlonOut : ℕ) (acc : ℕ → ℕ × ℕ → Acc) : RTen :=
  ⟨q.B, v.C, nlatOut, nlonOut, fun b c ho wo => (acc b (ho, wo)).y c / (acc b (ho, wo)).alphaSum⟩

/-- The halo exchange and the ring loop of `_RingNeighborhoodAttentionFn` or `_RingNeighborhoodAttentionUpsampleFn`,
distributed_attention.py 93-176, 483-557, 1210-1280, on the process grid; the key and value tensors with their halos and the accumulators
are what the backward pass needs, 218 and 596. `gl` and `ul` hold the launches of every rank and round. -/
noncomputable def ringState (g : Grids) (w : ℕ → ℝ) (Pp Pa : ℕ) (D : ℕ → ℕ → DAttn) (gl : ℕ → ℕ → ℕ → Launch)
    (ul : ℕ → ℕ → ℕ → UpLaunch) (k v q : ℕ → ℕ → RTen) : Except PyErr (ℕ → ℕ → Slot (ℕ → ℕ × ℕ → Acc)) := do
  let kh ← collect Pp Pa fun p a => haloPad Pp (D p a).r k p a
  let vh ← collect Pp Pa fun p a => haloPad Pp (D p a).r v p a
  let kernel : ℕ → ℕ → ℕ → ℕ → RTen → RTen → (ℕ → ℕ × ℕ → Acc) → ℕ → ℕ × ℕ → Acc := fun p a step src kc vc acc =>
    if g.upsample then
      upKernel (D p a).psi w g (offset (D p a).lonIn src) ((D p a).lonOut.getD a 0) (haloStart (D p a) p) (ul p a step) (q p a) kc vc acc
    else
      gatherKernel (D p a).psi w g.nlonIn (g.nlonIn / g.nlonOut) (offset (D p a).lonIn src) (haloStart (D p a) p) (gl p a step) (q p a) kc vc acc
  let st ← ringLoop Pp Pa (fun p a => (D p a).lonIn) kernel (fun p a => ⟨kh p a, vh p a, fun _ _ => Acc.init⟩) Pa
  return fun p a => ⟨kh p a, vh p a, (st p a).acc⟩

/-- The forward pass, distributed_attention.py 93-186, 483-567, 1210-1280, on the process grid. -/
noncomputable def ringForward (g : Grids) (w : ℕ → ℝ) (Pp Pa : ℕ) (D : ℕ → ℕ → DAttn) (gl : ℕ → ℕ → ℕ → Launch)
    (ul : ℕ → ℕ → ℕ → UpLaunch) (k v q : ℕ → ℕ → RTen) : Except PyErr (ℕ → ℕ → RTen) := do
  let st ← ringState g w Pp Pa D gl ul k v q
  return fun p a => finish (q p a) (v p a) ((D p a).latOut.getD p 0) ((D p a).lonOut.getD a 0) (st p a).acc

end Verif.Ring
