import Verif.Model.Messages
import Verif.Model.DistAttentionBwd
/-!
The messages of the backward pass of `DistributedNeighborhoodAttentionS2` as a program of `Verif.Model.Messages`: the two rings of `_RingNeighborhoodAttentionFn.backward` and
`_RingNeighborhoodAttentionUpsampleFn.backward`, the all-reduces over the azimuth group and the backward passes of the halo exchanges (distributed_attention.py 235-458, 611-809, primitives.py 1088-1139).

Simplifications: an all-reduce is taken to be a batch of messages between every two ranks of the group. A kernel that raises leaves its error in the memory of the rank, which goes on.
-/
namespace Verif.Msg
open Verif Verif.Dist Verif.Ring Verif.Attn Verif.Spec.Attn Finset

variable {ι S M : Type}

/-- One round of a program, see `Prog`. -/
structure Round (ι S M : Type) where
  ops : ι → List Op
  read : ι → S → ℕ → M
  fits : ι → S → ℕ → M → Prop
  work : ι → S → S
  after : ι → S → (ℕ → Option M) → S

/-- A computation without messages. -/
def localRound [Inhabited M] (f : ι → S → S) : Round ι S M := ⟨fun _ => [], fun _ _ _ => default, fun _ _ _ _ => True, f, fun _ s _ => s⟩

/-- The program made of the given rounds. -/
def ofRounds [Inhabited M] (glob : ι → ℕ) (L : List (Round ι S M)) : Prog ι S M where
  glob := glob
  rounds := L.length
  ops i n := (L.getD n (localRound fun _ s => s)).ops i
  read i n := (L.getD n (localRound fun _ s => s)).read i
  fits i n := (L.getD n (localRound fun _ s => s)).fits i
  work i n := (L.getD n (localRound fun _ s => s)).work i
  after i n := (L.getD n (localRound fun _ s => s)).after i

instance : Inhabited RTen := ⟨⟨0, 0, 0, 0, fun _ _ _ _ => 0⟩⟩

/-- What a rank holds during the backward pass: the current chunks of keys and values, the accumulators of pass 1, `dkw_full_cl` and `dvw_full_cl`, and the gradients it will return. -/
structure BMem (τ : Type) where
  k : RTen
  v : RTen
  st : τ
  full : Except PyErr (T4 × T4)
  dk : RTen
  dv : RTen

variable {τ : Type} (Pp Pa : ℕ) (glob : ℕ → ℕ → ℕ)

/-- A step of the ring, distributed_attention.py 304-340 and 418-424: `work` is what is computed while the chunks are under way. -/
def ringRound (lonIn : ℕ → ℕ → List ℕ) (step : ℕ) (work : Fin Pp × Fin Pa → BMem τ → BMem τ) : Round (Fin Pp × Fin Pa) (BMem τ) RTen where
  ops i := if step + 1 < Pa then ringOps ((List.range Pa).map fun a => glob i.1 a) (glob i.1 i.2) else []
  read _ s b := if b = 0 then s.k else s.v
  fits i s b m :=
    let own := if b = 1 then s.k else s.v
    m.B = own.B ∧ m.C = own.C ∧ m.H = own.H ∧ m.W = (lonIn i.1 i.2).getD ((i.2 + step + 1) % Pa) 0
  work := work
  after _ s inbox := if step + 1 < Pa then { s with k := (inbox 1).getD s.k, v := (inbox 3).getD s.v } else s

/-- The batch of an all-reduce over the azimuth group: the own tensor is 0, that of azimuth rank `a` is received in buffer `a`. -/
def reduceOps (p a : ℕ) : List Op := (List.range Pa).flatMap fun a' => if a' = a then [] else [.isend 0 (glob p a'), .irecv a' (glob p a')]

/-- `dkw_full_cl` or `dvw_full_cl`. -/
def BMem.fullOf (isK : Bool) (s : BMem τ) : T4 :=
  match s.full with
  | .ok d => if isK then d.1 else d.2
  | .error _ => fun _ _ _ _ => 0

/-- The gradients of the keys or those of the values are replaced. -/
def BMem.setGrad (isK : Bool) (s : BMem τ) (d : RTen) : BMem τ := if isK then { s with dk := d } else { s with dv := d }

/-- The gradients of the keys or those of the values. -/
def BMem.grad (isK : Bool) (s : BMem τ) : RTen := if isK then s.dk else s.dv

/-- `dist.all_reduce` over the azimuth group and the slice of the own longitudes, distributed_attention.py 426-446 and 780-798; `shape p a` is the tensor whose batch and channels the gradient has,
`rows p a` the number of its rows, halos included. -/
noncomputable def reduceRound (isK : Bool) (lonIn : ℕ → ℕ → List ℕ) (shape : ℕ → ℕ → RTen) (rows : ℕ → ℕ → ℕ) : Round (Fin Pp × Fin Pa) (BMem τ) RTen where
  ops i := if Pa > 1 then reduceOps Pa glob i.1 i.2 else []
  read i s _ := ⟨(shape i.1 i.2).B, (shape i.1 i.2).C, rows i.1 i.2, (lonIn i.1 i.2).sum, s.fullOf isK⟩
  fits i _ _ m := m.B = (shape i.1 i.2).B ∧ m.C = (shape i.1 i.2).C ∧ m.H = rows i.1 i.2 ∧ m.W = (lonIn i.1 i.2).sum
  work _ s := s
  after i s inbox :=
    let total : T4 := fun b c h x =>
      if Pa > 1 then ∑ a ∈ range Pa, if a = i.2 then s.fullOf isK b c h x else (match inbox a with | some m => m.val b c h x | none => 0) else s.fullOf isK b c h x
    s.setGrad isK ⟨(shape i.1 i.2).B, (shape i.1 i.2).C, rows i.1 i.2, (lonIn i.1 i.2).getD i.2 0, fun b c h x => total b c h (offset (lonIn i.1 i.2) i.2 + x)⟩

/-- `send_to_prev` and `send_to_next`, primitives.py 1112-1113. -/
def haloGradRead (d : RTen) (r H : ℕ) (b : ℕ) : RTen :=
  if b = 0 then ⟨d.B, d.C, min r d.H, d.W, d.val⟩ else ⟨d.B, d.C, d.H - (r + H), d.W, fun b c h w => d.val b c (r + H + h) w⟩

/-- The gradient of the local rows, primitives.py 1105 and 1132-1139. -/
noncomputable def haloGradAfter (d : RTen) (Pp p r H : ℕ) (inbox : ℕ → Option RTen) : RTen :=
  let top : T4 := match inbox 1 with | some m => m.val | none => fun _ _ _ _ => 0
  let bot : T4 := match inbox 3 with | some m => m.val | none => fun _ _ _ _ => 0
  let dx1 : T4 := fun b c h w => if p > 0 ∧ h < r then d.val b c (r + h) w + top b c h w else d.val b c (r + h) w
  ⟨d.B, d.C, H, d.W, fun b c h w => if p + 1 < Pp ∧ H - r ≤ h then dx1 b c h w + bot b c (h - (H - r)) w else dx1 b c h w⟩

/-- The backward pass of a halo exchange, primitives.py 1088-1139; `H p a` is the number of local rows. The batch is that of the forward pass (1118-1124). -/
noncomputable def haloGradRound (isK : Bool) (r H : ℕ → ℕ → ℕ) : Round (Fin Pp × Fin Pa) (BMem τ) RTen where
  ops i := if r i.1 i.2 > 0 ∧ Pp > 1 then haloOps ((List.range Pp).map fun p => glob p i.2) (glob i.1 i.2) Pp i.1 else []
  read i s b := haloGradRead (s.grad isK) (r i.1 i.2) (H i.1 i.2) b
  fits i _ _ m := m.H = r i.1 i.2
  work _ s := s
  after i s inbox := if r i.1 i.2 > 0 ∧ Pp > 1 then s.setGrad isK (haloGradAfter (s.grad isK) Pp i.1 (r i.1 i.2) (H i.1 i.2) inbox) else s

/-- Pass 1, distributed_attention.py 304-340 and 667-702; `k1 p a step src` is the kernel. -/
def pass1Rounds (lonIn : ℕ → ℕ → List ℕ) (k1 : ℕ → ℕ → ℕ → ℕ → RTen → RTen → τ → τ) (n : ℕ) : List (Round (Fin Pp × Fin Pa) (BMem τ) RTen) :=
  (List.range n).map fun step => ringRound Pp Pa glob lonIn step fun i s => { s with st := k1 i.1 i.2 step ((i.2 + step) % Pa) s.k s.v s.st }

/-- Pass 2, distributed_attention.py 373-424 and 729-778: here the kernel runs before the chunks are sent on. -/
def pass2Rounds (lonIn : ℕ → ℕ → List ℕ) (k2 : ℕ → ℕ → ℕ → ℕ → τ → RTen → RTen → Except PyErr (T4 × T4) → Except PyErr (T4 × T4)) (n : ℕ) :
    List (Round (Fin Pp × Fin Pa) (BMem τ) RTen) :=
  (List.range n).flatMap fun step =>
    [localRound fun i s => { s with full := k2 i.1 i.2 step ((i.2 + step) % Pa) s.st s.k s.v s.full }, ringRound Pp Pa glob lonIn step fun _ s => s]

/-- The backward pass, distributed_attention.py 235-458 and 611-809 and primitives.py 1088-1139. `sk` and `sv` are the padded keys and values that the forward pass saved, `kFirst` says which of the two
halo exchanges the autograd engine differentiates first (the same on all ranks). -/
noncomputable def bwdRounds (need : Need) (kFirst : Bool) (lonIn : ℕ → ℕ → List ℕ) (r H : ℕ → ℕ → ℕ) (sk sv : ℕ → ℕ → RTen)
    (k1 : ℕ → ℕ → ℕ → ℕ → RTen → RTen → τ → τ) (k2 : ℕ → ℕ → ℕ → ℕ → τ → RTen → RTen → Except PyErr (T4 × T4) → Except PyErr (T4 × T4)) :
    List (Round (Fin Pp × Fin Pa) (BMem τ) RTen) :=
  if !(need.k || need.v || need.q) then []
  else
    pass1Rounds Pp Pa glob lonIn k1 Pa ++
      if need.k || need.v then
        [localRound fun i s => { s with k := sk i.1 i.2, v := sv i.1 i.2, full := .ok (fun _ _ _ _ => 0, fun _ _ _ _ => 0) }] ++ pass2Rounds Pp Pa glob lonIn k2 Pa ++
          (if need.k then [reduceRound Pp Pa glob true lonIn sk fun p a => (sk p a).H] else []) ++
          (if need.v then [reduceRound Pp Pa glob false lonIn sv fun p a => (sk p a).H] else []) ++
          (if (if kFirst then need.k else need.v) then [haloGradRound Pp Pa glob kFirst r H] else []) ++
          (if (if kFirst then need.v else need.k) then [haloGradRound Pp Pa glob (!kFirst) r H] else [])
      else []

/-- The accumulators of pass 1 in the two directions; the layer uses one of them. -/
structure P1Acc where
  gather : ℕ → ℕ × ℕ → BAcc
  up : ℕ → ℕ × ℕ → Stats

/-- The sums over the neighbours at the end of pass 1. -/
def P1Acc.stats (g : Grids) (t : P1Acc) : ℕ → ℕ × ℕ → Stats := if g.upsample then t.up else fun b c => (t.gather b c).st

/-- The kernel of pass 1 in the direction of the layer, as in `ringPass1`, distributed_attention.py 312-335 and 675-697. -/
noncomputable def attnPass1 (g : Grids) (w : ℕ → ℝ) (D : ℕ → ℕ → DAttn) (bl : ℕ → ℕ → ℕ → BLaunch) (S : ℕ → ℕ → Slot (ℕ → ℕ × ℕ → Acc)) (q dy : ℕ → ℕ → RTen)
    (p a step src : ℕ) (kc vc : RTen) (t : P1Acc) : P1Acc :=
  if g.upsample then
    ⟨t.gather, upStats (D p a).psi w g (offset (D p a).lonIn src) ((D p a).lonOut.getD a 0) (haloStart (D p a) p) (bl p a step).stats (q p a) (dy p a) kc vc (S p a).acc t.up⟩
  else
    ⟨bGatherKernel (D p a).psi w g.nlonIn (g.nlonIn / g.nlonOut) (offset (D p a).lonIn src) (haloStart (D p a) p) (bl p a step).pass1 (q p a) (dy p a) kc vc t.gather, t.up⟩

/-- The kernel of pass 2, as in `ringPass2`, distributed_attention.py 384-416 and 741-770. -/
noncomputable def attnPass2 (g : Grids) (w : ℕ → ℝ) (D : ℕ → ℕ → DAttn) (bl : ℕ → ℕ → ℕ → BLaunch) (S : ℕ → ℕ → Slot (ℕ → ℕ × ℕ → Acc)) (q dy : ℕ → ℕ → RTen)
    (p a step src : ℕ) (t : P1Acc) (kc vc : RTen) (full : Except PyErr (T4 × T4)) : Except PyErr (T4 × T4) :=
  pass2Step g w (D p a) p a src (bl p a step).pass2 (q p a) (dy p a) (S p a).acc (fun b c => (t.stats g b c).integral * (1 / ((S p a).acc b c).alphaSum)) kc vc full

/-- The backward pass of the layer as a program. -/
noncomputable def attnBwd (g : Grids) (w : ℕ → ℝ) (D : ℕ → ℕ → DAttn) (bl : ℕ → ℕ → ℕ → BLaunch) (S : ℕ → ℕ → Slot (ℕ → ℕ × ℕ → Acc)) (q dy : ℕ → ℕ → RTen) (need : Need)
    (kFirst : Bool) : Prog (Fin Pp × Fin Pa) (BMem P1Acc) RTen :=
  ofRounds (fun i => glob i.1 i.2) (bwdRounds Pp Pa glob need kFirst (fun p a => (D p a).lonIn) (fun p a => (D p a).r) (fun p a => (D p a).latIn.getD p 0)
    (fun p a => (S p a).k) (fun p a => (S p a).v) (attnPass1 g w D bl S q dy) (attnPass2 g w D bl S q dy))

/-- What the ranks hold at the beginning, distributed_attention.py 293-301 and 661-665. -/
noncomputable def bwdMem (S : ℕ → ℕ → Slot (ℕ → ℕ × ℕ → Acc)) (i : Fin Pp × Fin Pa) : BMem P1Acc :=
  ⟨(S i.1 i.2).k, (S i.1 i.2).v, ⟨fun _ _ => BAcc.init, fun _ _ => Stats.init⟩, .ok (fun _ _ _ _ => 0, fun _ _ _ _ => 0), default, default⟩

/-- What a rank returns when it has finished, distributed_attention.py 342-358, 435-458 and 704-719, 787-809. -/
noncomputable def bwdOut {Pp Pa : ℕ} (g : Grids) (D : ℕ → ℕ → DAttn) (S : ℕ → ℕ → Slot (ℕ → ℕ × ℕ → Acc)) (need : Need) (i : Fin Pp × Fin Pa) (s : BMem P1Acc) : Ring.Grads :=
  ⟨if need.k then some s.dk else none, if need.v then some s.dv else none,
    if need.q then some (gradQy (S i.1 i.2).k ((D i.1 i.2).latOut.getD i.1 0) ((D i.1 i.2).lonOut.getD i.2 0) (S i.1 i.2).acc (s.st.stats g)) else none⟩

end Verif.Msg
