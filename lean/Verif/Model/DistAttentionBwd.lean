import Verif.Model.DistAttention
/-!
Model of the backward passes in `distributed/distributed_attention.py` and of the kernels they call
(`attention/optimized/kernels_cuda/attention_cuda_bwd_ring.cu`, `attention_cuda_bwd_ring_upsample.cu`). The conventions are those of
`Verif.Model.DistAttention`. The casts of the results to the dtypes of the inputs are not modelled.
-/
namespace Verif.Ring
open Verif Verif.Dist Verif.Attn Verif.Spec.Attn Finset

/-! ### Pass 1: the sums over the neighbours -/

/-- `integral`, `alpha_k`, `alpha_kvw` at one output point. -/
structure Stats where
  integral : ℝ
  alphaK : ℕ → ℝ
  alphaKvw : ℕ → ℝ

/-- The accumulators of pass 1 in the gather direction at one output point. -/
structure BAcc where
  alphaSum : ℝ
  qmax : Option ℝ
  st : Stats

/-- The initial buffers, distributed_attention.py 293-297 and 661-663. -/
def Stats.init : Stats := ⟨0, fun _ => 0, fun _ => 0⟩
/-- See `Stats.init`. -/
def BAcc.init : BAcc := ⟨0, none, Stats.init⟩

/-- A neighbour as the kernels see it: score, quadrature weight, `dy . v`, key. -/
structure BPt where
  q : ℝ
  w : ℝ
  g : ℝ
  k : ℕ → ℝ

/-- Multiplication of all sums by a factor. -/
def Stats.scale (x : ℝ) (s : Stats) : Stats := ⟨x * s.integral, fun c => x * s.alphaK c, fun c => x * s.alphaKvw c⟩

/-- One more neighbour with the factor `alpha`. -/
def Stats.add (s : Stats) (alpha : ℝ) (t : BPt) : Stats :=
  ⟨s.integral + alpha * t.g, fun c => s.alphaK c + alpha * t.k c, fun c => s.alphaKvw c + alpha * t.g * t.k c⟩

/-- One neighbour in the one-pass kernels, attention_cuda_bwd_ring.cu 187-200 (generic) and 986-1002 (specialised). -/
noncomputable def bOnePass (s : BAcc) (t : BPt) : BAcc :=
  let m := maxInf s.qmax t.q
  let alpha := Real.exp (t.q - m) * t.w
  let corr := expDiff s.qmax m
  ⟨s.alphaSum * corr + alpha, some m, (s.st.scale corr).add alpha t⟩

/-- The kernel `softmax` for long rows, attention_cuda_bwd_ring.cu 251-395: the new maximum. -/
noncomputable def bPhaseMax (m : Option ℝ) (L : List BPt) : Option ℝ := L.foldl (fun m t => some (maxInf m t.q)) m

open Classical in
/-- The kernel `rescale` for long rows, attention_cuda_bwd_ring.cu 400-467. -/
noncomputable def bPhaseRescale (s : BAcc) (m : Option ℝ) : BAcc :=
  if s.qmax = m then s
  else
    match m with
    | none => s
    | some n => ⟨expDiff s.qmax n * s.alphaSum, some n, s.st.scale (expDiff s.qmax n)⟩

/-- One neighbour in the kernel `finalize` for long rows, attention_cuda_bwd_ring.cu 664-682. -/
noncomputable def bPhaseAdd (s : BAcc) (t : BPt) : BAcc :=
  let alpha := Real.exp (t.q - s.qmax.getD 0) * t.w
  ⟨s.alphaSum + alpha, s.qmax, s.st.add alpha t⟩

/-- The three kernels for long rows, `spc_attn_ring_pass1_bwd_long_rows` attention_cuda_bwd_ring.cu 711-792. -/
noncomputable def bThreePhase (s : BAcc) (L : List BPt) : BAcc := L.foldl bPhaseAdd (bPhaseRescale s (bPhaseMax s.qmax L))

/-- What the kernels load for a neighbour, attention_cuda_bwd_ring.cu 173-188. -/
def loadBPt (w : ℕ → ℝ) (k v q dy : RTen) (b ho wo : ℕ) (t : ℕ × ℕ × ℕ) : BPt :=
  ⟨∑ c ∈ range q.C, q.val b c ho wo * k.val b c t.1 t.2.1, w t.2.2, ∑ c ∈ range v.C, dy.val b c ho wo * v.val b c t.1 t.2.1,
    fun c => k.val b c t.1 t.2.1⟩

/-- Pass 1 for one output point; the test of an entry is the one of the forward kernel, attention_cuda_bwd_ring.cu 158-171. -/
noncomputable def bGatherCell (psi : Pattern) (w : ℕ → ℝ) (nlonIn pscale lonLo : ℕ) (start : ℤ) (long : Bool) (k v q dy : RTen)
    (b ho wo : ℕ) (s : BAcc) : BAcc :=
  if long then bThreePhase s (((psi.row ho).filterMap (gatherHit psi nlonIn pscale lonLo start k wo)).map (loadBPt w k v q dy b ho wo))
  else (psi.row ho).foldl (fun s z =>
    match gatherHit psi nlonIn pscale lonLo start k wo z with
    | none => s
    | some t => bOnePass s (loadBPt w k v q dy b ho wo t)) s

/-- `backward_ring_step_pass1`, attention_cuda_bwd_ring.cu 78-242 and 1021-1301. -/
noncomputable def bGatherKernel (psi : Pattern) (w : ℕ → ℝ) (nlonIn pscale lonLo : ℕ) (start : ℤ) (ln : Launch) (q dy k v : RTen)
    (acc : ℕ → ℕ × ℕ → BAcc) : ℕ → ℕ × ℕ → BAcc := fun b =>
  (ln.order b).foldl (fun s t => Function.update s (ln.rowIdx t.1, t.2)
    (bGatherCell psi w nlonIn pscale lonLo start (t.1 < ln.nLong) k v q dy b (ln.rowIdx t.1) t.2 (s (ln.rowIdx t.1, t.2)))) (acc b)

/-- What the scatter kernels load, attention_cuda_bwd_ring_upsample.cu 126-147 and 202-229. -/
def upBPt (w : ℕ → ℝ) (start : ℤ) (k v q dy : RTen) (b : ℕ) (e : Edge) : BPt :=
  ⟨∑ c ∈ range q.C, k.val b c e.src.1 e.src.2 * q.val b c e.cell.1 e.cell.2, w (start + e.src.1).toNat,
    ∑ c ∈ range v.C, v.val b c e.src.1 e.src.2 * dy.val b c e.cell.1 e.cell.2, fun c => k.val b c e.src.1 e.src.2⟩

/-- `backward_ring_step_upsample_pass1`, attention_cuda_bwd_ring_upsample.cu 91-159: atomic additions with the saved maximum, in the order
`order b`. -/
noncomputable def upStats (psi : Pattern) (w : ℕ → ℝ) (g : Grids) (lonLo nlonOutLocal : ℕ) (start : ℤ) (order : ℕ → List Edge → List Edge)
    (q dy k v : RTen) (fwd : ℕ → ℕ × ℕ → Acc) (acc : ℕ → ℕ × ℕ → Stats) : ℕ → ℕ × ℕ → Stats := fun b =>
  (order b (upEdges psi g.nlonOut (g.nlonOut / g.nlonIn) lonLo nlonOutLocal k.H k.W)).foldl (fun s e =>
    let t := upBPt w start k v q dy b e
    Function.update s e.cell ((s e.cell).add (Real.exp (t.q - (fwd b e.cell).qmax.getD 0) * t.w) t)) (acc b)

/-! ### Pass 2: the gradients of a chunk -/

/-- The softmax weight of a neighbour: `exp(qdotk - max) * quad_weight / alpha_sum`, attention_cuda_bwd_ring.cu 1363, 1411-1412 and
attention_cuda_bwd_ring_upsample.cu 231. -/
noncomputable def bwdAlpha (s : Acc) (t : BPt) : ℝ := Real.exp (t.q - s.qmax.getD 0) * t.w * (1 / s.alphaSum)

/-- What the test of an entry can do in the kernels of pass 2. -/
inductive Hit where
  | skip
  | use (t : ℕ × ℕ × ℕ)
  | outside

/-- The test in the generic kernel, attention_cuda_bwd_ring.cu 1380-1393. -/
def hitGeneric (psi : Pattern) (nlonIn pscale lonLo : ℕ) (start : ℤ) (k : RTen) (wo z : ℕ) : Hit :=
  match gatherHit psi nlonIn pscale lonLo start k wo z with
  | none => .skip
  | some t => .use t

/-- The test in the specialised kernel, attention_cuda_bwd_ring.cu 1598-1631. `hi_local` starts as -1 and is assigned before it is compared with
the number of halo rows; an entry is kept when it differs from -1. An entry of this chunk whose row is not in the halo is then read and
written outside of the buffers. -/
def hitSpecial (psi : Pattern) (nlonIn pscale lonLo : ℕ) (start : ℤ) (k : RTen) (wo z : ℕ) : Hit :=
  let hi := psi.col z / nlonIn
  let wi := psi.col z - hi * nlonIn
  let wiwo := wi + pscale * wo
  let wip := wiwo - wiwo / nlonIn * nlonIn
  if lonLo ≤ wip ∧ wip < lonLo + k.W then
    let hl : ℤ := (hi : ℤ) - start
    if hl = -1 then .skip
    else if 0 ≤ hl ∧ hl < k.H then .use (hl.toNat, wip - lonLo, hi)
    else .outside
  else .skip

/-- An update of pass 2: the output point it comes from and the neighbour it goes to. -/
structure Op where
  cell : ℕ × ℕ
  t : ℕ × ℕ × ℕ

/-- The updates of a list of tests; one access outside of the buffers leaves the result undefined, here an error. -/
def collectHits (cell : ℕ × ℕ) : List Hit → Except PyErr (List Op)
  | [] => .ok []
  | .skip :: L => collectHits cell L
  | .use t :: L =>
    match collectHits cell L with
    | .error e => .error e
    | .ok r => .ok (⟨cell, t⟩ :: r)
  | .outside :: _ => .error .runtimeError

/-- The updates of the output points `cells`. -/
def collectOps (hits : ℕ × ℕ → List Hit) : List (ℕ × ℕ) → Except PyErr (List Op)
  | [] => .ok []
  | c :: L =>
    match collectHits c (hits c) with
    | .error e => .error e
    | .ok r =>
      match collectOps hits L with
      | .error e => .error e
      | .ok r' => .ok (r ++ r')

/-- All updates of a launch of pass 2 in the gather direction: the thread groups `(h, wo)` visit the rows `row_idx[h]`. -/
def gatherOps (psi : Pattern) (nlonIn pscale lonLo : ℕ) (start : ℤ) (special : Bool) (rowIdx : ℕ → ℕ) (nlat nlon : ℕ) (k : RTen) :
    Except PyErr (List Op) :=
  collectOps (fun c => (psi.row c.1).map fun z =>
      if special then hitSpecial psi nlonIn pscale lonLo start k c.2 z else hitGeneric psi nlonIn pscale lonLo start k c.2 z)
    ((List.range nlat).flatMap fun h => (List.range nlon).map fun wo => (rowIdx h, wo))

/-- `(gdotv - integral_norm) * alpha_mul`, attention_cuda_bwd_ring.cu 1413 and attention_cuda_bwd_ring_upsample.cu 232. -/
noncomputable def scaleDk (fwd : Acc) (inorm : ℝ) (t : BPt) : ℝ := (t.g - inorm) * bwdAlpha fwd t

/-- Atomic additions into a zero buffer, seen at one batch element and channel. -/
noncomputable def atomicAdds (L : List Op) (x : Op → ℝ) : ℕ × ℕ → ℝ :=
  L.foldl (fun s o => Function.update s (o.t.1, o.t.2.1) (s (o.t.1, o.t.2.1) + x o)) fun _ => 0

/-- What a launch of pass 2 depends on besides its arguments: whether the specialised kernel runs, `row_idx`, and the order of the atomic
additions for every batch element and channel. -/
structure Launch2 where
  special : Bool
  rowIdx : ℕ → ℕ
  orderK : ℕ → ℕ → List Op → List Op
  orderV : ℕ → ℕ → List Op → List Op

/-- `backward_ring_step_pass2`, attention_cuda_bwd_ring.cu 1312-1475, 1477-1696, 1828-2012: `dkx` and `dvx` of the chunk. -/
noncomputable def gatherGrads (psi : Pattern) (w : ℕ → ℝ) (nlonIn pscale lonLo : ℕ) (start : ℤ) (ln : Launch2) (nlat nlon : ℕ) (q dy k v : RTen)
    (fwd : ℕ → ℕ × ℕ → Acc) (inorm : ℕ → ℕ × ℕ → ℝ) : Except PyErr (T4 × T4) :=
  match gatherOps psi nlonIn pscale lonLo start ln.special ln.rowIdx nlat nlon k with
  | .error e => .error e
  | .ok ops => .ok (
      fun b c h x => atomicAdds (ln.orderK b c ops) (fun o => scaleDk (fwd b o.cell) (inorm b o.cell)
        (loadBPt w k v q dy b o.cell.1 o.cell.2 o.t) * q.val b c o.cell.1 o.cell.2) (h, x),
      fun b c h x => atomicAdds (ln.orderV b c ops) (fun o => bwdAlpha (fwd b o.cell)
        (loadBPt w k v q dy b o.cell.1 o.cell.2 o.t) * dy.val b c o.cell.1 o.cell.2) (h, x))

/-- The sum over the row of a chunk cell in `backward_ring_step_upsample_pass2`, attention_cuda_bwd_ring_upsample.cu 164-240; a cell with
an empty row keeps its zero. -/
noncomputable def upRowSum (psi : Pattern) (g : Grids) (lonLo nlonOutLocal hl wl : ℕ) (x : ℕ × ℕ → ℝ) : ℝ :=
  (psi.row hl).foldl (fun s z =>
    let ho := psi.col z / g.nlonOut
    match upLocalWo (psi.col z - ho * g.nlonOut) (lonLo + wl) (g.nlonOut / g.nlonIn) g.nlonOut nlonOutLocal with
    | none => s
    | some wo => s + x (ho, wo)) 0

/-- `backward_ring_step_upsample_pass2`, attention_cuda_bwd_ring_upsample.cu 164-240 and 311-381. -/
noncomputable def upGrads (psi : Pattern) (w : ℕ → ℝ) (g : Grids) (lonLo nlonOutLocal : ℕ) (start : ℤ) (q dy k v : RTen)
    (fwd : ℕ → ℕ × ℕ → Acc) (inorm : ℕ → ℕ × ℕ → ℝ) : T4 × T4 :=
  (fun b c h x => upRowSum psi g lonLo nlonOutLocal h x fun o =>
      scaleDk (fwd b o) (inorm b o) (upBPt w start k v q dy b ⟨o, (h, x)⟩) * q.val b c o.1 o.2,
   fun b c h x => upRowSum psi g lonLo nlonOutLocal h x fun o =>
      bwdAlpha (fwd b o) (upBPt w start k v q dy b ⟨o, (h, x)⟩) * dy.val b c o.1 o.2)

/-- `full[:, :, lo : lo + n].add_(chunk)`, distributed_attention.py 413-416 and 767-770. -/
noncomputable def addChunk (lo n : ℕ) (chunk full : T4) : T4 := fun b c h x =>
  if lo ≤ x ∧ x < lo + n then full b c h x + chunk b c h (x - lo) else full b c h x

/-! ### The backward pass -/

/-- `ctx.needs_input_grad[0..2]`. -/
structure Need where
  k : Bool
  v : Bool
  q : Bool

/-- The launches of a rank in one round of the backward pass. -/
structure BLaunch where
  pass1 : Launch
  stats : ℕ → List Edge → List Edge
  pass2 : Launch2

/-- The gradients of a rank; `none` is Python's `None`. -/
structure Grads where
  k : Option RTen
  v : Option RTen
  q : Option RTen

/-- Pass 1, distributed_attention.py 285-340 and 652-702. -/
noncomputable def ringPass1 (g : Grids) (w : ℕ → ℝ) (Pp Pa : ℕ) (D : ℕ → ℕ → DAttn) (bl : ℕ → ℕ → ℕ → BLaunch)
    (S : ℕ → ℕ → Slot (ℕ → ℕ × ℕ → Acc)) (q dy : ℕ → ℕ → RTen) : Except PyErr (ℕ → ℕ → ℕ → ℕ × ℕ → Stats) :=
  if g.upsample then do
    let st ← ringLoop Pp Pa (fun p a => (D p a).lonIn) (fun p a step src kc vc acc =>
        upStats (D p a).psi w g (offset (D p a).lonIn src) ((D p a).lonOut.getD a 0) (haloStart (D p a) p) (bl p a step).stats (q p a) (dy p a)
          kc vc (S p a).acc acc)
      (fun p a => ⟨(S p a).k, (S p a).v, fun _ _ => Stats.init⟩) Pa
    return fun p a => (st p a).acc
  else do
    let st ← ringLoop Pp Pa (fun p a => (D p a).lonIn) (fun p a step src kc vc acc =>
        bGatherKernel (D p a).psi w g.nlonIn (g.nlonIn / g.nlonOut) (offset (D p a).lonIn src) (haloStart (D p a) p) (bl p a step).pass1
          (q p a) (dy p a) kc vc acc)
      (fun p a => ⟨(S p a).k, (S p a).v, fun _ _ => BAcc.init⟩) Pa
    return fun p a b c => ((st p a).acc b c).st

/-- `dqy`, distributed_attention.py 352-356 and 713-717. -/
noncomputable def gradQy (kh : RTen) (nlatOut nlonOut : ℕ) (fwd : ℕ → ℕ × ℕ → Acc) (st : ℕ → ℕ × ℕ → Stats) : RTen :=
  ⟨kh.B, kh.C, nlatOut, nlonOut, fun b c ho wo =>
    (1 / (fwd b (ho, wo)).alphaSum) ^ 2 * ((fwd b (ho, wo)).alphaSum * (st b (ho, wo)).alphaKvw c
      - (st b (ho, wo)).integral * (st b (ho, wo)).alphaK c)⟩

/-- The kernel of pass 2 in the direction of the layer. -/
noncomputable def chunkGrads (g : Grids) (w : ℕ → ℝ) (D : DAttn) (p a src : ℕ) (ln : Launch2) (q dy k v : RTen) (fwd : ℕ → ℕ × ℕ → Acc)
    (inorm : ℕ → ℕ × ℕ → ℝ) : Except PyErr (T4 × T4) :=
  if g.upsample then
    .ok (upGrads D.psi w g (offset D.lonIn src) (D.lonOut.getD a 0) (haloStart D p) q dy k v fwd inorm)
  else gatherGrads D.psi w g.nlonIn (g.nlonIn / g.nlonOut) (offset D.lonIn src) (haloStart D p) ln (D.latOut.getD p 0) (D.lonOut.getD a 0)
    q dy k v fwd inorm

/-- One round of pass 2, distributed_attention.py 378-416 and 735-770: the gradients of the chunk are added to the buffers of all longitudes
(of which the code only keeps those that are needed). -/
noncomputable def pass2Step (g : Grids) (w : ℕ → ℝ) (D : DAttn) (p a src : ℕ) (ln : Launch2) (q dy : RTen) (fwd : ℕ → ℕ × ℕ → Acc)
    (inorm : ℕ → ℕ × ℕ → ℝ) (k v : RTen) (acc : Except PyErr (T4 × T4)) : Except PyErr (T4 × T4) :=
  match acc with
  | .error e => .error e
  | .ok full =>
    match chunkGrads g w D p a src ln q dy k v fwd inorm with
    | .error e => .error e
    | .ok d => .ok (addChunk (offset D.lonIn src) (D.lonIn.getD src 0) d.1 full.1, addChunk (offset D.lonIn src) (D.lonIn.getD src 0) d.2 full.2)

/-- The all-reduce over the azimuth group and the slice of the own longitudes, distributed_attention.py 426-446 and 780-798. -/
noncomputable def reduceSlice (Pa a lo : ℕ) (full : ℕ → T4) : T4 := fun b c h x =>
  if Pa > 1 then ∑ a' ∈ range Pa, full a' b c h (lo + x) else full a b c h (lo + x)

/-- The backward pass of the halo exchange along the polar group, where the forward pass padded, primitives.py 1088-1139. -/
noncomputable def haloGrad (Pp r : ℕ) (H : ℕ → ℕ) (d : ℕ → ℕ → RTen) (p a : ℕ) : RTen :=
  if r > 0 ∧ Pp > 1 then
    let v := haloBackward Pp H (fun s => (d s a).viewLat) r p
    ⟨(d p a).B, (d p a).C, v.len, (d p a).W, fun b c h w => v.val h b c w⟩
  else d p a

/-- The gradients of the padded keys and values, distributed_attention.py 360-448 and 721-800; `stats` are the results of pass 1. -/
noncomputable def ringPass2 (g : Grids) (w : ℕ → ℝ) (Pp Pa : ℕ) (D : ℕ → ℕ → DAttn) (bl : ℕ → ℕ → ℕ → BLaunch)
    (S : ℕ → ℕ → Slot (ℕ → ℕ × ℕ → Acc)) (q dy : ℕ → ℕ → RTen) (stats : ℕ → ℕ → ℕ → ℕ × ℕ → Stats) :
    Except PyErr (ℕ → ℕ → T4 × T4) := do
  let st ← ringLoop Pp Pa (fun p a => (D p a).lonIn) (fun p a step src kc vc acc =>
      pass2Step g w (D p a) p a src (bl p a step).pass2 (q p a) (dy p a) (S p a).acc
        (fun b c => (stats p a b c).integral * (1 / ((S p a).acc b c).alphaSum)) kc vc acc)
    (fun p a => ⟨(S p a).k, (S p a).v, .ok (fun _ _ _ _ => 0, fun _ _ _ _ => 0)⟩) Pa
  collect Pp Pa fun p a => (st p a).acc

/-- Pass 2 runs if the keys or the values need a gradient, distributed_attention.py 370 and 727. -/
noncomputable def maybePass2 (g : Grids) (w : ℕ → ℝ) (Pp Pa : ℕ) (D : ℕ → ℕ → DAttn) (bl : ℕ → ℕ → ℕ → BLaunch)
    (S : ℕ → ℕ → Slot (ℕ → ℕ × ℕ → Acc)) (q dy : ℕ → ℕ → RTen) (stats : ℕ → ℕ → ℕ → ℕ × ℕ → Stats) (need : Need) :
    Except PyErr (ℕ → ℕ → T4 × T4) :=
  if need.k || need.v then ringPass2 g w Pp Pa D bl S q dy stats else .ok fun _ _ => (fun _ _ _ _ => 0, fun _ _ _ _ => 0)

/-- `backward` of `_RingNeighborhoodAttentionFn` and `_RingNeighborhoodAttentionUpsampleFn`, distributed_attention.py 235-458 and 611-809,
followed by the backward pass of the halo exchange; `S` is what the forward pass saved, `H p` the number of local input rows. -/
noncomputable def ringBackward (g : Grids) (w : ℕ → ℝ) (Pp Pa : ℕ) (D : ℕ → ℕ → DAttn) (bl : ℕ → ℕ → ℕ → BLaunch)
    (S : ℕ → ℕ → Slot (ℕ → ℕ × ℕ → Acc)) (q dy : ℕ → ℕ → RTen) (need : Need) : Except PyErr (ℕ → ℕ → Grads) :=
  if !(need.k || need.v || need.q) then .ok fun _ _ => ⟨none, none, none⟩
  else do
    let stats ← ringPass1 g w Pp Pa D bl S q dy
    let full ← maybePass2 g w Pp Pa D bl S q dy stats need
    let own : (T4 × T4 → T4) → (Slot (ℕ → ℕ × ℕ → Acc) → RTen) → ℕ → ℕ → RTen := fun pr sel p a =>
      ⟨(sel (S p a)).B, (sel (S p a)).C, (S p a).k.H, (D p a).lonIn.getD a 0, reduceSlice Pa a (offset (D p a).lonIn a) fun a' => pr (full p a')⟩
    let halo : (ℕ → ℕ → RTen) → ℕ → ℕ → RTen := fun d p a => haloGrad Pp (D p a).r (fun s => (D s a).latIn.getD s 0) d p a
    return fun p a => ⟨
      if need.k then some (halo (own Prod.fst Slot.k) p a) else none,
      if need.v then some (halo (own Prod.snd Slot.v) p a) else none,
      if need.q then some (gradQy (S p a).k ((D p a).latOut.getD p 0) ((D p a).lonOut.getD a 0) (S p a).acc (stats p a)) else none⟩

end Verif.Ring
