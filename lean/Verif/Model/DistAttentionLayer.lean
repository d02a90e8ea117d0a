import Verif.Model.AttentionLayer
import Verif.Model.DistAttention
/-!
Model of `distributed/distributed_attention.py`: the layer `DistributedNeighborhoodAttentionS2` around the ring attention of
`Model/DistAttention.lean`.

All ranks hold the same learnable parameters. The optimised kernels are available (857-858). `_cast_to_autocast_dtype` (1229) changes
data types only.
-/
namespace Verif.Ring
open Verif Verif.Attn Verif.Dist

/-- The state of the layer on a process grid: what the serial constructor stores, the same on every rank, and what rank `(p, a)` adds. -/
structure DNbhd where
  serial : Nbhd
  rank : ℕ → ℕ → DAttn

/-- The grid sizes among the arguments. -/
def gridsOf (A : LayerArgs) : Grids := ⟨A.nlatIn, A.nlonIn, A.nlatOut, A.nlonOut⟩

/-- `DistributedNeighborhoodAttentionS2.__init__`, distributed_attention.py 841-959, on every rank: the serial constructor, then
`DAttn.init`. -/
noncomputable def DNbhd.init (gauss : ℕ → Quad.Rule) (tol : ℝ) (maxiter : ℕ) (A : LayerArgs) (theta : Option ℝ) (p : Spec.Attn.Params)
    (Pp Pa : ℕ) : Except PyErr DNbhd :=
  match Nbhd.init gauss tol maxiter A theta p with
  | .error e => .error e
  | .ok L =>
    match collect Pp Pa fun r a => DAttn.init (gridsOf A) L.pattern Pp Pa r a with
    | .error e => .error e
    | .ok D => .ok ⟨L, D⟩

/-- The optional normalisation of one projected tensor, distributed_attention.py 1187-1197. -/
noncomputable def distNorm (nh C : ℕ) (eps : ℝ) (g : Option (ℕ → ℝ)) (x : Arr) : Except PyErr Arr :=
  match g with
  | none => .ok x
  | some g =>
    match x.shape with
    | [B, Ct, H, W] =>
      match x.reshape [some B, some nh, none, some H, some W] with
      | .error e => .error e
      | .ok y =>
        match rmsNorm C eps (fun c => 1 + g c) (y.permute [0, 1, 3, 4, 2]) with
        | .error e => .error e
        | .ok y => (y.permute [0, 1, 4, 2, 3]).reshape [some B, some Ct, some H, some W]
    | _ => .error .valueError

/-- `x.reshape(B * num_heads, -1, H, W)`, distributed_attention.py 1203-1208. -/
def foldHeads (nh : ℕ) (x : Arr) : Except PyErr RTen :=
  match x.shape with
  | [B, _, H, W] =>
    match x.reshape [some (B * nh), none, some H, some W] with
    | .error e => .error e
    | .ok y => .ok ⟨B * nh, y.shape.getD 1 0, H, W, y.fn4⟩
  | _ => .error .valueError

/-- `out.reshape(B_nh // num_heads, num_heads * C_v, H_out, W_out)`, distributed_attention.py 1283-1285. -/
def unfoldHeads (nh : ℕ) (x : RTen) : Except PyErr Arr :=
  (Arr.of4 x.B x.C x.H x.W x.val).reshape [some (x.B / nh), some (nh * x.C), some x.H, some x.W]

/-- The checks at the start of the forward pass on one rank, distributed_attention.py 1171-1179. -/
def distChecks (D : DAttn) (p a : ℕ) (query key value : Arr) : Except PyErr Unit :=
  if query.shape.length ≠ 4 ∨ key.shape.length ≠ 4 ∨ value.shape.length ≠ 4 then .error .runtimeError
  else if query.shape.getD 2 0 ≠ D.latOut.getD p 0 ∨ query.shape.getD 3 0 ≠ D.lonOut.getD a 0 then .error .runtimeError
  else if key.shape.getD 2 0 ≠ D.latIn.getD p 0 ∨ key.shape.getD 3 0 ≠ D.lonIn.getD a 0 then .error .runtimeError
  else if value.shape.getD 2 0 ≠ D.latIn.getD p 0 ∨ value.shape.getD 3 0 ≠ D.lonIn.getD a 0 then .error .runtimeError
  else .ok ()

/-- The folded keys, values and queries of one rank. -/
structure Folded where
  k : RTen
  v : RTen
  q : RTen

/-- The part of the forward pass before the first message, on one rank, distributed_attention.py 1171-1208. -/
noncomputable def distProject (L : Nbhd) (D : DAttn) (p a : ℕ) (query key value : Arr) : Except PyErr Folded := do
  let A := L.args
  let w := L.params
  let _ ← distChecks D p a query key value
  let key ← conv1x1 A.inChannels A.kC w.wk w.bk key
  let value ← conv1x1 A.inChannels A.oC w.wv w.bv value
  let query ← conv1x1 A.inChannels A.kC w.wq w.bq query
  let query ← distNorm A.numHeads (A.kC / A.numHeads) w.eps w.nq query
  let key ← distNorm A.numHeads (A.kC / A.numHeads) w.eps w.nk key
  let query := query.scale (nbhdScale A)
  let k ← foldHeads A.numHeads key
  let v ← foldHeads A.numHeads value
  let q ← foldHeads A.numHeads query
  return ⟨k, v, q⟩

/-- The part after the last message, on one rank, distributed_attention.py 1283-1290. -/
noncomputable def distFinish (L : Nbhd) (out : RTen) : Except PyErr Arr := do
  let out ← unfoldHeads L.args.numHeads out
  conv1x1 L.args.oC L.args.oC L.params.wp L.params.bp out

/-- `DistributedNeighborhoodAttentionS2.forward`, distributed_attention.py 1159-1290, on the process grid. -/
noncomputable def DNbhd.forward (L : DNbhd) (Pp Pa : ℕ) (gl : ℕ → ℕ → ℕ → Launch) (ul : ℕ → ℕ → ℕ → UpLaunch) (query : ℕ → ℕ → Arr)
    (key value : Option (ℕ → ℕ → Arr)) : Except PyErr (ℕ → ℕ → Arr) := do
  let key := key.getD query
  let value := value.getD query
  let t ← collect Pp Pa fun p a => distProject L.serial (L.rank p a) p a (query p a) (key p a) (value p a)
  let y ← ringForward (gridsOf L.serial.args) L.serial.quad Pp Pa L.rank gl ul (fun p a => (t p a).k) (fun p a => (t p a).v)
    (fun p a => (t p a).q)
  collect Pp Pa fun p a => distFinish L.serial (y p a)

end Verif.Ring
