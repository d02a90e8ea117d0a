import Verif.Model.RingCudaBwd
/-!
Model of the GPU kernels behind the second backward pass of one step of distributed neighbourhood attention,
`attention/optimized/kernels_cuda/attention_cuda_bwd_ring.cu` 1303-2012 and 2069-2125, thread by thread.

Conventions are those of `Model.RingCuda` and `Model.RingCudaBwd`. A read outside the arrays of keys and values counts as a fault, like a store. The weight of a neighbour
is relative to the maximum the caller passes; where that is minus infinity the model takes zero (the program would get infinity), which no theorem uses.
-/
namespace Verif.RingGpu
open Verif Verif.Attn Verif.Spec.Attn Verif.AttnGpu Verif.Ring

/-- `alpha_sum_buf`, `qdotk_max_buf` and `integral_norm_buf`, attention_cuda_bwd_ring.cu 1316-1318 and 1483-1485. -/
structure BStats where
  alpha : ℕ → ℝ
  qmax : ℕ → Option ℝ
  inorm : ℕ → ℝ

/-- `dkx` and `dvx`, attention_cuda_bwd_ring.cu 1319-1320 and 1486-1487. -/
structure BGrads where
  dk : ℕ → ℝ
  dv : ℕ → ℝ

/-! ### The neighbours -/

/-- A neighbour in shared memory: `shhi_loc`, `shwi_loc`, `shweight`, attention_cuda_bwd_ring.cu 1539-1541. -/
structure Slot where
  hi : ℤ
  wi : ℤ
  w : ℝ

/-- The test of one entry in the specialised kernel, attention_cuda_bwd_ring.cu 1598-1633. The local row is assigned before it is compared with the number of rows, and the
entry is kept if it is not -1; longitude and weight then keep their first values, -1 and 0. -/
def slot (p : Params) (w : ℕ → ℝ) (P : Pattern) (wo z : ℕ) : Option Slot :=
  let hi := P.col z / p.nlonIn
  let wi := P.col z - hi * p.nlonIn
  let wiwo := wi + p.pscale * wo
  let wip := wiwo - wiwo / p.nlonIn * p.nlonIn
  if p.lonLo ≤ wip ∧ wip < p.lonLo + p.nlonKx then
    let hl : ℤ := (hi : ℤ) - p.start
    if hl = -1 then none
    else if 0 ≤ hl ∧ hl < p.nlatHalo then some ⟨hl, (wip : ℤ) - p.lonLo, w hi⟩
    else some ⟨hl, -1, 0⟩
  else none

/-- The cell of the arrays `kx`, `vx`, `dkx`, `dvx` that a slot names, attention_cuda_bwd_ring.cu 1640-1647. A cell outside of them cannot be read. -/
def place (p : Params) (B b : ℕ) (s : Slot) : Except PyErr (List Entry) :=
  let cell : ℤ := (b : ℤ) * p.nlatHalo * p.nlonKx + s.hi * p.nlonKx + s.wi
  if 0 ≤ cell ∧ cell < (B : ℤ) * p.nlatHalo * p.nlonKx then .ok [⟨cell.toNat * p.nci, cell.toNat * p.nco, s.w⟩] else .error .memoryFault

/-! ### One output point -/

/-- What a group adds to `dkx` and to `dvx`. -/
structure AddOut where
  k : List (ℕ × ℝ)
  v : List (ℕ × ℝ)

/-- `alpha_mul` in thread `t`, attention_cuda_bwd_ring.cu 1411-1412 and 1663-1664. -/
noncomputable def alphaMul (vec bx : ℕ) (chI : ℕ → List ℕ) (qv : ℕ → ℕ → ℕ → ℝ) (k : ℕ → ℝ) (st : BStats) (flat : ℕ) (e : Entry) (t : ℕ) : ℝ :=
  Real.exp (score vec bx chI qv k e t - (st.qmax flat).getD 0) * e.w * (1 / st.alpha flat)

/-- The loop over the neighbours, attention_cuda_bwd_ring.cu 1395-1435 and 1638-1693. `qv` is the query as the product takes it, `qs` and `gs` are query and gradient in shared
memory; with `whole` the threads add their own elements of `vec` numbers, otherwise number by number. -/
noncomputable def addLoop (vec : ℕ) (cf : Config) (whole : Bool) (p : Params) (x : BIn) (st : BStats) (qv qs gs : ℕ → ℕ → ℕ → ℝ) (flat : ℕ) (es : List Entry) : AddOut :=
  let chI := chans cf.bx cf.locI p.nci
  let chO := chans cf.bx cf.locO p.nco
  ⟨es.flatMap fun e => addOps vec cf.bx whole chI p.nci e.ka (fun t => (gradDot vec cf.bx chO gs x.v e t - st.inorm flat) * alphaMul vec cf.bx chI qv x.k st flat e t) qs,
    es.flatMap fun e => addOps vec cf.bx whole chO p.nco e.va (alphaMul vec cf.bx chI qv x.k st flat e) gs⟩

/-- Memory a group finds: its slots, the order in which its threads store, and query (registers and shared memory) and output gradient before they are loaded. -/
structure AddMem where
  slots : ℕ → Slot
  order : ℕ → List ℕ
  regs : ℕ → ℕ → ℕ → ℝ
  query : ℕ → ℕ → ℕ → ℝ
  grad : ℕ → ℕ → ℕ → ℝ

/-- `s2_attn_bwd_ring_pass2_generic_k`, attention_cuda_bwd_ring.cu 1311-1437, one group; `wide` is compute capability 9.0 or more. -/
noncomputable def aGenericGroup (wide : Bool) (vec : ℕ) (p : Params) (x : BIn) (st : BStats) (rowIdx : ℕ → ℕ) (m : AddMem) (b wid : ℕ) : List AddOut :=
  match pointOf rowIdx 0 p.nlatOut p.nlonOut wid with
  | none => []
  | some (ho, wo) =>
    let qs := stageView vec 32 (bwdSync wide vec) (chans 32 none p.nci) x.q (queryAt p b ho wo) m.query
    let gs := stageView vec 32 (bwdSync wide vec) (chans 32 none p.nco) x.dy (gradAt p b ho wo) m.grad
    [addLoop vec ⟨32, 2, none, none, false, 0⟩ wide p x st qs qs gs (outFlat p b ho wo) ((x.P.row ho).filterMap (entry p x.w x.P b wo))]

/-- `s2_attn_bwd_ring_pass2_special_k`, attention_cuda_bwd_ring.cu 1472-1696, one group: block `split` of `cpr` for its point, one of the `rows` rows from `shift` on; `cap` slots
are there. -/
noncomputable def aSpecialGroup (wide : Bool) (vec : ℕ) (cf : Config) (p : Params) (B : ℕ) (x : BIn) (st : BStats) (rowIdx : ℕ → ℕ) (shift rows cpr cap : ℕ) (m : AddMem)
    (b split wid : ℕ) : Except PyErr (List AddOut) :=
  match pointOf rowIdx shift rows p.nlonOut wid with
  | none => .ok []
  | some (ho, wo) =>
    let rlen := x.P.roff (ho + 1) - x.P.roff ho
    let n := rlen / cpr + if split < rlen % cpr then 1 else 0
    match collectAll cf.bx cap n (fun i => slot p x.w x.P wo (x.P.roff ho + split + i * cpr)) m.order m.slots with
    | .error e => .error e
    | .ok (n, sl) =>
      match overM (place p B b) ((List.range n).map sl) with
      | .error e => .error e
      | .ok es =>
        let chI := chans cf.bx cf.locI p.nci
        let qs := stageView vec cf.bx (bwdSync wide vec) chI x.q (queryAt p b ho wo) m.query
        let gs := stageView vec cf.bx (bwdSync wide vec) (chans cf.bx cf.locO p.nco) x.dy (gradAt p b ho wo) m.grad
        .ok [addLoop vec cf (!bwdSync wide vec) p x st (staged vec chI x.q (queryAt p b ho wo) m.regs) qs gs (outFlat p b ho wo) es]

/-! ### The launches -/

/-- What a call depends on besides its arguments: four-wide access, compute capability, the shared memory a block of the device can have, the order of the rows, the memory of
every group of every launch (numbered 0 and 1), and the orders of the atomic additions of every launch. -/
structure ARun where
  vecOk : Bool
  wide : Bool
  limit : ℕ
  rowIdx : ℕ → ℕ
  mem : ℕ → ℕ → ℕ → ℕ → AddMem
  addK : ℕ → List (ℕ × ℝ) → List (ℕ × ℝ)
  addV : ℕ → List (ℕ × ℝ) → List (ℕ × ℝ)

/-- The additions of a launch take effect. -/
noncomputable def addAll (r : ARun) (n vec : ℕ) (p : Params) (B : ℕ) (gs : List AddOut) (g : BGrads) : Except PyErr BGrads := do
  let dk ← (r.addK n (gs.flatMap AddOut.k)).foldlM (Disco.atomicAddTo (B * p.nlatHalo * p.nlonKx * (p.nci * vec))) g.dk
  let dv ← (r.addV n (gs.flatMap AddOut.v)).foldlM (Disco.atomicAddTo (B * p.nlatHalo * p.nlonKx * (p.nco * vec))) g.dv
  return ⟨dk, dv⟩

/-- `launch_gen_attn_ring_pass2_bwd`, attention_cuda_bwd_ring.cu 1439-1466. -/
noncomputable def aRunGeneric (r : ARun) (vec : ℕ) (p : Params) (B : ℕ) (x : BIn) (st : BStats) (g : BGrads) : Except PyErr BGrads :=
  let gx := divUp (p.nlatOut * p.nlonOut) 2
  if fits r.limit gx B 1 (4 * vec * (p.nci + p.nco) * 2) 0 then
    addAll r 0 vec p B ((grid2 B gx 2).flatMap fun a => aGenericGroup r.wide vec p x st r.rowIdx (r.mem 0 a.1 0 a.2) a.1 a.2) g
  else .error .processExit

/-- A launch for which `ensure_dyn_shmem` (attention_cuda_utils.cu 398-435) has been asked for `top` bytes, and which takes `dyn`. -/
def fitsTop (limit gx gy gz dyn top static : ℕ) : Prop :=
  0 < gx ∧ gx < 2 ^ 31 ∧ 0 < gy ∧ gy < 2 ^ 16 ∧ 0 < gz ∧ gz < 2 ^ 16 ∧ if top ≤ 49152 then dyn + static ≤ 49152 else top + static ≤ limit

instance (limit gx gy gz dyn top static : ℕ) : Decidable (fitsTop limit gx gy gz dyn top static) := by unfold fitsTop; infer_instance

/-- `shsize_lr` and `shsize`, attention_cuda_bwd_ring.cu 1764-1774, for `n` slots. -/
def addShared (wide : Bool) (vec : ℕ) (p : Params) (by' n : ℕ) : ℕ := (4 * vec * p.nco + 4 * n * 2 + 4 * n) * by' + if wide then 0 else 4 * vec * p.nci * by'

/-- `cta_per_row`, attention_cuda_bwd_ring.cu 1754-1756. -/
def addCtaPerRow (maxLen : ℕ) : ℕ := max 1 (min 32 (divUp maxLen 32))

/-- One of the two launches of the specialised kernel, attention_cuda_bwd_ring.cu 1776-1811, for `rows` rows from `shift` on with `cpr` blocks each. -/
noncomputable def aRunSpecial (r : ARun) (n vec : ℕ) (cf : Config) (p : Params) (B : ℕ) (x : BIn) (st : BStats) (shift rows cpr cap top : ℕ) (g : BGrads) :
    Except PyErr BGrads :=
  if rows = 0 then .ok g
  else
    let gx := divUp (rows * p.nlonOut) cf.by'
    if fitsTop r.limit gx cpr B (addShared r.wide vec p cf.by' cap) top (bStaticShared cf.bx) then do
      let gs ← overM (fun a : ℕ × ℕ × ℕ => aSpecialGroup r.wide vec cf p B x st r.rowIdx shift rows cpr cap (r.mem n a.1 a.2.1 a.2.2) a.1 a.2.1 a.2.2) (grid3 B cpr gx cf.by')
      addAll r n vec p B gs g
    else .error .processExit

/-- `launch_spc_attn_ring_pass2_bwd`, attention_cuda_bwd_ring.cu 1698-1821. -/
noncomputable def aRunBoth (r : ARun) (vec : ℕ) (cf : Config) (p : Params) (B : ℕ) (x : BIn) (st : BStats) (g : BGrads) : Except PyErr BGrads := do
  let cpr := addCtaPerRow p.maxLen
  let top := max (addShared r.wide vec p cf.by' (divUp p.maxLen cpr)) (addShared r.wide vec p cf.by' (divUp p.midLen 1))
  let g ← aRunSpecial r 1 vec cf p B x st 0 p.nLong cpr (divUp p.maxLen cpr) top g
  aRunSpecial r 0 vec cf p B x st p.nLong (p.nlatOut - p.nLong) 1 (divUp p.midLen 1) top g

/-- `s2_attn_bwd_ring_step_pass2_dispatch`, attention_cuda_bwd_ring.cu 1827-2012, and the operator around it, 2069-2125. -/
noncomputable def ringBwdStep2 (r : ARun) (p : Params) (B : ℕ) (x : BIn) (st : BStats) (g : BGrads) : Except PyErr BGrads :=
  let vec := vecOf r.vecOk p.nci p.nco
  let p' : Params := { p with nci := p.nci / vec, nco := p.nco / vec }
  match bwdLaunch r.vecOk p.nci p.nco with
  | .nothing => .ok g
  | .generic => aRunGeneric r vec p' B x st g
  | .special bx by' nloc same => aRunBoth r vec ⟨bx, by', some nloc, if same then some nloc else none, true, 0⟩ p' B x st g

end Verif.RingGpu
