import Mathlib.Algebra.BigOperators.Intervals
import Mathlib.Data.List.GetD
import Verif.Model.DistAttention
/-!
Messages between ranks under arbitrary schedules.

The other modules advance all ranks together. Here every rank runs on its own: it posts a batch of sends and receives (`dist.batch_isend_irecv`), computes while the messages are
under way, waits for the batch, and goes on to the next one, whatever the others do. The program is that of the forward pass of `DistributedNeighborhoodAttentionS2`: the exchange of the halos
of keys and values and then the ring (distributed_attention.py 53-76, 141-176, 525-557, 1214-1219, primitives.py 1038-1071).

Simplification: `req.wait()` is taken to block the process. A message is transferred in one piece, from the memory of the sender as it is at that moment.
-/
namespace Verif.Msg
open Verif Finset

/-- `dist.P2POp(dist.isend or dist.irecv, tensor, peer, group)`; `buf` names the tensor, `peer` is a global rank. -/
inductive Op where
  | isend (buf peer : ℕ)
  | irecv (buf peer : ℕ)

/-- The tensors sent to `peer`, in the order of the batch. -/
def sendsTo (peer : ℕ) (ops : List Op) : List ℕ :=
  ops.filterMap fun o => match o with
    | .isend b q => if q = peer then some b else none
    | .irecv _ _ => none

/-- The tensors received from `peer`, in the order of the batch. -/
def recvsFrom (peer : ℕ) (ops : List Op) : List ℕ :=
  ops.filterMap fun o => match o with
    | .isend _ _ => none
    | .irecv b q => if q = peer then some b else none

/-- The peer of an operation. -/
def Op.peer : Op → ℕ
  | .isend _ q => q
  | .irecv _ q => q

/-- What the ranks `ι` do: in round `n` rank `i` posts the batch `ops i n`, changes its memory by `work i n`, waits, and changes its memory by `after i n`, which sees the received tensors.
`read` is the content of a tensor that is sent; `fits` says that a message has the size of the buffer it is received in. -/
structure Prog (ι S M : Type) where
  glob : ι → ℕ
  rounds : ℕ
  ops : ι → ℕ → List Op
  read : ι → ℕ → S → ℕ → M
  fits : ι → ℕ → S → ℕ → M → Prop
  work : ι → ℕ → S → S
  after : ι → ℕ → S → (ℕ → Option M) → S

/-- Where a process is in its round. -/
inductive Stage where
  | ready
  | posted
  | worked
deriving DecidableEq

/-- A process: its round, its memory, and what has arrived in the buffers of the current batch. -/
structure Proc (S M : Type) where
  round : ℕ
  stage : Stage
  mem : S
  inbox : ℕ → Option M

/-- The whole system: the processes, the number of messages transferred so far between each two ranks, and whether a message met a buffer of another size (an error, or worse). -/
structure Net (ι S M : Type) where
  proc : ι → Proc S M
  cnt : ι → ι → ℕ
  fault : Bool

variable {ι S M : Type}

/-- The number of messages from `i` to `j` that `i` has posted in its first `n` batches. -/
def Prog.sent (g : Prog ι S M) (i j : ι) (n : ℕ) : ℕ := ∑ r ∈ range n, (sendsTo (g.glob j) (g.ops i r)).length

/-- The number of messages from `i` to `j` for which `j` has posted a receive in its first `n` batches. -/
def Prog.recvd (g : Prog ι S M) (i j : ι) (n : ℕ) : ℕ := ∑ r ∈ range n, (recvsFrom (g.glob i) (g.ops j r)).length

/-- All processes before their first round. -/
def Net.init (mem : ι → S) : Net ι S M := ⟨fun i => ⟨0, .ready, mem i, fun _ => none⟩, fun _ _ => 0, false⟩

variable [DecidableEq ι]

/-- One step of the system, by any process at any time. -/
inductive Step (g : Prog ι S M) : Net ι S M → Net ι S M → Prop
  /-- `dist.batch_isend_irecv(ops)`, distributed_attention.py 75, primitives.py 1067. -/
  | post (s : Net ι S M) (i : ι) (hf : s.fault = false) (hr : (s.proc i).round < g.rounds) (hs : (s.proc i).stage = .ready) :
      Step g s ⟨Function.update s.proc i ⟨(s.proc i).round, .posted, (s.proc i).mem, fun _ => none⟩, s.cnt, false⟩
  /-- What the process computes before it waits, distributed_attention.py 150-170. -/
  | work (s : Net ι S M) (i : ι) (hf : s.fault = false) (hs : (s.proc i).stage = .posted) :
      Step g s ⟨Function.update s.proc i ⟨(s.proc i).round, .worked, g.work i (s.proc i).round (s.proc i).mem, (s.proc i).inbox⟩, s.cnt, false⟩
  /-- The next message between `i` and `j` is transferred: both sides have posted it. Sends and receives between two ranks are matched in the order in which they were posted. -/
  | transfer (s : Net ι S M) (i j : ι) (c c' b b' : ℕ) (hf : s.fault = false) (hi : (s.proc i).stage ≠ .ready) (hj : (s.proc j).stage ≠ .ready)
      (hc : g.sent i j (s.proc i).round + c = s.cnt i j) (hb : (sendsTo (g.glob j) (g.ops i (s.proc i).round))[c]? = some b)
      (hc' : g.recvd i j (s.proc j).round + c' = s.cnt i j) (hb' : (recvsFrom (g.glob i) (g.ops j (s.proc j).round))[c']? = some b')
      (hfit : g.fits j (s.proc j).round (s.proc j).mem b' (g.read i (s.proc i).round (s.proc i).mem b)) :
      Step g s
        ⟨Function.update s.proc j
            ⟨(s.proc j).round, (s.proc j).stage, (s.proc j).mem, Function.update (s.proc j).inbox b' (some (g.read i (s.proc i).round (s.proc i).mem b))⟩,
          Function.update s.cnt i (Function.update (s.cnt i) j (s.cnt i j + 1)), false⟩
  /-- The same with a message of another size than the buffer. -/
  | misfit (s : Net ι S M) (i j : ι) (c c' b b' : ℕ) (hf : s.fault = false) (hi : (s.proc i).stage ≠ .ready) (hj : (s.proc j).stage ≠ .ready)
      (hc : g.sent i j (s.proc i).round + c = s.cnt i j) (hb : (sendsTo (g.glob j) (g.ops i (s.proc i).round))[c]? = some b)
      (hc' : g.recvd i j (s.proc j).round + c' = s.cnt i j) (hb' : (recvsFrom (g.glob i) (g.ops j (s.proc j).round))[c']? = some b')
      (hfit : ¬ g.fits j (s.proc j).round (s.proc j).mem b' (g.read i (s.proc i).round (s.proc i).mem b)) :
      Step g s ⟨s.proc, s.cnt, true⟩
  /-- `req.wait()` for all requests of the batch, and what follows, distributed_attention.py 172-176, primitives.py 1068-1071: every send and every receive of the batch is complete. An
  operation with a rank that is not there never completes. -/
  | wait (s : Net ι S M) (i : ι) (hf : s.fault = false) (hs : (s.proc i).stage = .worked)
      (hp : ∀ o ∈ g.ops i (s.proc i).round, ∃ j, g.glob j = o.peer)
      (hsend : ∀ j, g.sent i j ((s.proc i).round + 1) ≤ s.cnt i j) (hrecv : ∀ j, g.recvd j i ((s.proc i).round + 1) ≤ s.cnt j i) :
      Step g s ⟨Function.update s.proc i ⟨(s.proc i).round + 1, .ready, g.after i (s.proc i).round (s.proc i).mem (s.proc i).inbox, fun _ => none⟩, s.cnt, false⟩

/-- Executions of the given number of steps. -/
inductive Exec (g : Prog ι S M) (s0 : Net ι S M) : ℕ → Net ι S M → Prop
  | nil : Exec g s0 0 s0
  | cons {n : ℕ} {s s' : Net ι S M} : Exec g s0 n s → Step g s s' → Exec g s0 (n + 1) s'

/-! ### The forward pass of distributed attention -/
open Verif.Dist Verif.Ring

/-- `get_group_neighbors`, primitives.py 41-64: `ranks` are the global ranks of the group, `me` is the global rank of the caller. `list.index` raises `ValueError`. -/
def getGroupNeighbors (ranks : List ℕ) (me : ℕ) : Except PyErr (ℕ × ℕ) :=
  if me ∈ ranks then
    let k := ranks.idxOf me
    .ok (ranks.getD (((k : ℤ) - 1) % ranks.length).toNat 0, ranks.getD ((k + 1) % ranks.length) 0)
  else .error .valueError

/-- The batch of `_ring_kv`, distributed_attention.py 64-74. Tensors: 0 `kw_chunk`, 1 `recv_kw`, 2 `vw_chunk`, 3 `recv_vw`. -/
def ringOps (group : List ℕ) (me : ℕ) : List Op :=
  match getGroupNeighbors group me with
  | .error _ => []
  | .ok (sendTo, recvFrom) => [.isend 0 sendTo, .irecv 1 recvFrom, .isend 2 sendTo, .irecv 3 recvFrom]

/-- The batch of the halo exchange, primitives.py 1058-1064. Tensors: 0 `send_top`, 1 `recv_top`, 2 `send_bot`, 3 `recv_bot`. -/
def haloOps (group : List ℕ) (me : ℕ) (size rank : ℕ) : List Op :=
  match getGroupNeighbors group me with
  | .error _ => []
  | .ok (prev, next) =>
    (if rank > 0 then [.isend 0 prev, .irecv 1 prev] else []) ++ (if rank + 1 < size then [.isend 2 next, .irecv 3 next] else [])

/-- `send_top` and `send_bot`, primitives.py 1051-1052. -/
def haloRead (x : RTen) (r : ℕ) (b : ℕ) : RTen :=
  let v := if b = 0 then x.viewLat.takeFirst r else x.viewLat.takeLast r
  ⟨x.B, x.C, v.len, x.W, fun b c h w => v.val h b c w⟩

/-- The result of the halo exchange, primitives.py 1055-1056 and 1071: what has not been received is zero. -/
def haloAfter (x : RTen) (r : ℕ) (inbox : ℕ → Option RTen) : RTen :=
  let top := match inbox 1 with | some m => m.viewLat | none => Vec.zeros r
  let bot := match inbox 3 with | some m => m.viewLat | none => Vec.zeros r
  let y := Vec.cat 3 (fun k => if k = 0 then top else if k = 1 then x.viewLat else bot)
  ⟨x.B, x.C, y.len, x.W, fun b c h w => y.val h b c w⟩

/-- The forward pass as a program on the process grid, distributed_attention.py 1214-1219 and then 141-176 or 525-557. Round 0 exchanges the halos of the keys, round 1 those of the values, round
`2 + step` is step `step` of the ring. `glob p a` is the global rank of a process, `kernel` the ring step, `r` the halo width, `lonIn` the chunk sizes. As in `recvInto` and `recvChunk`, halos are
compared by their number of rows. -/
def fwdProg {σ : Type} (Pp Pa : ℕ) (glob : ℕ → ℕ → ℕ) (r : ℕ → ℕ → ℕ) (lonIn : ℕ → ℕ → List ℕ)
    (kernel : ℕ → ℕ → ℕ → ℕ → RTen → RTen → σ → σ) : Prog (Fin Pp × Fin Pa) (Slot σ) RTen where
  glob i := glob i.1 i.2
  rounds := 2 + Pa
  ops i n :=
    if n < 2 then
      if r i.1 i.2 > 0 ∧ Pp > 1 then haloOps ((List.range Pp).map fun p => glob p i.2) (glob i.1 i.2) Pp i.1 else []
    else if n - 2 + 1 < Pa then ringOps ((List.range Pa).map fun a => glob i.1 a) (glob i.1 i.2) else []
  read i n s b :=
    if n = 0 then haloRead s.k (r i.1 i.2) b
    else if n = 1 then haloRead s.v (r i.1 i.2) b
    else if b = 0 then s.k else s.v
  fits i n s b m :=
    if n < 2 then m.H = r i.1 i.2
    else
      let own := if b = 1 then s.k else s.v
      m.B = own.B ∧ m.C = own.C ∧ m.H = own.H ∧ m.W = (lonIn i.1 i.2).getD ((i.2 + (n - 2) + 1) % Pa) 0
  work i n s :=
    if n < 2 then s else ⟨s.k, s.v, kernel i.1 i.2 (n - 2) ((i.2 + (n - 2)) % Pa) s.k s.v s.acc⟩
  after i n s inbox :=
    if n = 0 then if r i.1 i.2 > 0 ∧ Pp > 1 then ⟨haloAfter s.k (r i.1 i.2) inbox, s.v, s.acc⟩ else s
    else if n = 1 then if r i.1 i.2 > 0 ∧ Pp > 1 then ⟨s.k, haloAfter s.v (r i.1 i.2) inbox, s.acc⟩ else s
    else if n - 2 + 1 < Pa then ⟨(inbox 1).getD s.k, (inbox 3).getD s.v, s.acc⟩ else s

/-- The program with the kernels of `DistributedNeighborhoodAttentionS2`, as in `ringState`, distributed_attention.py 93-176, 483-557, 1210-1280. -/
noncomputable def attnProg (g : Grids) (w : ℕ → ℝ) (Pp Pa : ℕ) (glob : ℕ → ℕ → ℕ) (D : ℕ → ℕ → DAttn) (gl : ℕ → ℕ → ℕ → Launch) (ul : ℕ → ℕ → ℕ → UpLaunch)
    (q : ℕ → ℕ → RTen) : Prog (Fin Pp × Fin Pa) (Slot (ℕ → ℕ × ℕ → Acc)) RTen :=
  fwdProg Pp Pa glob (fun p a => (D p a).r) (fun p a => (D p a).lonIn) fun p a step src kc vc acc =>
    if g.upsample then
      upKernel (D p a).psi w g (offset (D p a).lonIn src) ((D p a).lonOut.getD a 0) (haloStart (D p a) p) (ul p a step) (q p a) kc vc acc
    else
      gatherKernel (D p a).psi w g.nlonIn (g.nlonIn / g.nlonOut) (offset (D p a).lonIn src) (haloStart (D p a) p) (gl p a step) (q p a) kc vc acc

/-- What the ranks hold at the beginning: their keys and values, and empty accumulators, distributed_attention.py 128-130 and 515-517. -/
def attnMem (Pp Pa : ℕ) (k v : ℕ → ℕ → RTen) (i : Fin Pp × Fin Pa) : Slot (ℕ → ℕ × ℕ → Acc) := ⟨k i.1 i.2, v i.1 i.2, fun _ _ => Acc.init⟩

/-- What a rank returns when it has finished, distributed_attention.py 180-181 and 561-562. -/
noncomputable def attnOut {Pp Pa : ℕ} (D : ℕ → ℕ → DAttn) (q v : ℕ → ℕ → RTen) (i : Fin Pp × Fin Pa) (s : Slot (ℕ → ℕ × ℕ → Acc)) : RTen :=
  finish (q i.1 i.2) (v i.1 i.2) ((D i.1 i.2).latOut.getD i.1 0) ((D i.1 i.2).lonOut.getD i.2 0) s.acc

end Verif.Msg
