import Verif.Model.Arr
import Verif.Model.AttentionCpu
/-!
Model of what surrounds the attention kernels: layout conversion (`attention/_layout.py`), head packing
(`attention/kernels_torch/attention_torch.py` 394-534, `attention/optimized/kernels_cpu/attention_cpu_fwd.cpp` and `attention_cpu_bwd.cpp`).

Data types are left out (all numbers are real), and so are the checks on them. The batch sizes of the three tensors are taken to be
equal, as in every documented call.
-/
namespace Verif.Attn
open Verif Verif.Spec.Attn Finset

/-! ### Layout -/

/-- `to_nhwc`, _layout.py 137-159; both branches make a fresh contiguous permuted copy (`_permuted_copy` 120-134,
`permute_to_nhwc_cpu` in attention_cpu_permute.cpp 55-64). -/
def toNhwc (x : Arr) : Except PyErr Arr :=
  if x.shape.length ≠ 4 then .error .runtimeError else .ok (x.permute [0, 2, 3, 1])

/-- `to_nchw`, _layout.py 162-184. -/
def toNchw (x : Arr) : Except PyErr Arr :=
  if x.shape.length ≠ 4 then .error .runtimeError else .ok (x.permute [0, 3, 1, 2])

/-! ### Heads -/

/-- `reshape(B, H, W, nh, -1).permute(0, 3, 4, 1, 2).reshape(B * nh, -1, H, W)`, attention_torch.py 418-423 and `_to_cf` 480-482. The
unpacking of the shape raises unless there are four axes. -/
def refFold (nh : ℕ) (x : Arr) : Except PyErr Arr :=
  match x.shape with
  | [B, H, W, _] =>
    match x.reshape [some B, some H, some W, some nh, none] with
    | .error e => .error e
    | .ok y => (y.permute [0, 3, 4, 1, 2]).reshape [some (B * nh), none, some H, some W]
  | _ => .error .valueError

/-- `reshape(B, nh, C, H, W).permute(0, 3, 4, 1, 2).reshape(B, H, W, nh * C)`, attention_torch.py 445-446 and `_to_nhwc` 484-486
(there `B` is `bh // nh`). -/
def refUnfold (B nh : ℕ) (x : Arr) : Except PyErr Arr :=
  match x.shape with
  | [_, C, H, W] =>
    match x.reshape [some B, some nh, some C, some H, some W] with
    | .error e => .error e
    | .ok y => (y.permute [0, 3, 4, 1, 2]).reshape [some B, some H, some W, some (nh * C)]
  | _ => .error .valueError

/-- `_to_nhwc`, attention_torch.py 484-486. -/
def refUnfoldBwd (nh : ℕ) (x : Arr) : Except PyErr Arr :=
  if nh = 0 then .error .zeroDivision else refUnfold (x.shape.getD 0 0 / nh) nh x

/-- `fold_heads`, attention_cpu_fwd.cpp 48-53. -/
def cpuFold (nh : ℕ) (x : Arr) : Except PyErr Arr :=
  if nh = 1 then .ok x
  else
    let B := x.shape.getD 0 0
    let H := x.shape.getD 1 0
    let W := x.shape.getD 2 0
    let C := x.shape.getD 3 0 / nh
    match x.reshape [some B, some H, some W, some nh, some C] with
    | .error e => .error e
    | .ok y => (y.permute [0, 3, 1, 2, 4]).reshape [some (B * nh), some H, some W, some C]

/-- `unfold_heads`, attention_cpu_fwd.cpp 56-62. -/
def cpuUnfold (nh : ℕ) (x : Arr) : Except PyErr Arr :=
  if nh = 1 then .ok x
  else
    let H := x.shape.getD 1 0
    let W := x.shape.getD 2 0
    let C := x.shape.getD 3 0
    let B := x.shape.getD 0 0 / nh
    match x.reshape [some B, some nh, some H, some W, some C] with
    | .error e => .error e
    | .ok y => (y.permute [0, 2, 3, 1, 4]).reshape [some B, some H, some W, some (nh * C)]

/-! ### The reference operator -/

/-- The extents the reference kernels read off folded tensors, attention_torch.py 83 and 595-597. -/
def refDims (k v q : Arr) (nlonIn nlatOut nlonOut : ℕ) : Dims :=
  ⟨q.shape.getD 0 0, q.shape.getD 1 0, v.shape.getD 1 0, k.shape.getD 2 0, nlonIn, nlatOut, nlonOut⟩

/-- Direction selection, attention_torch.py 433-442: `true` is the gather kernel. -/
def refDirection (nlonIn nlonOut : ℕ) : Except PyErr Bool :=
  if nlonOut = 0 then .error .zeroDivision
  else if nlonIn % nlonOut = 0 then .ok true
  else if nlonIn = 0 then .error .zeroDivision
  else if nlonOut % nlonIn = 0 then .ok false
  else .error .valueError

/-- The kernel that is called, attention_torch.py 437-440. -/
noncomputable def refKernel (gather : Bool) (d : Dims) (w : ℕ → ℝ) (P : Pattern) (k v q : T4) : Except PyErr T4 :=
  if gather then refForward d w P k v q else refUpForward d w P k v q

/-- `_neighborhood_s2_attention_torch`, attention_torch.py 394-448. -/
noncomputable def refOp (w : ℕ → ℝ) (P : Pattern) (nh nlonIn nlatOut nlonOut : ℕ) (kw vw qw : Arr) : Except PyErr Arr := do
  let k ← refFold nh kw
  let v ← refFold nh vw
  let q ← refFold nh qw
  let gather ← refDirection nlonIn nlonOut
  let d := refDims k v q nlonIn nlatOut nlonOut
  let y ← refKernel gather d w P k.fn4 v.fn4 q.fn4
  refUnfold (qw.shape.getD 0 0) nh (Arr.of4 d.B d.Cv d.nlatOut d.nlonOut y)

/-- The kernels of the backward pass, attention_torch.py 504-515. -/
noncomputable def refBwdKernel (gather : Bool) (d : Dims) (w : ℕ → ℝ) (P : Pattern) (k v q dy : T4) : Except PyErr (T4 × T4 × T4) := do
  let dv ← if gather then refDv d w P k v q dy else refUpDv d w P k v q dy
  let dk ← if gather then refDk d w P k v q dy else refUpDk d w P k v q dy
  let dq ← if gather then refDq d w P k v q dy else refUpDq d w P k v q dy
  pure (dk, dv, dq)

/-- `_neighborhood_s2_attention_bwd_torch`, attention_torch.py 467-534, when all three gradients are requested. -/
noncomputable def refOpBwd (w : ℕ → ℝ) (P : Pattern) (nh nlonIn nlatOut nlonOut : ℕ) (kw vw qw dyw : Arr) :
    Except PyErr (Arr × Arr × Arr) := do
  let k ← refFold nh kw
  let v ← refFold nh vw
  let q ← refFold nh qw
  let dy ← refFold nh dyw
  let gather ← refDirection nlonIn nlonOut
  let d := refDims k v q nlonIn nlatOut nlonOut
  let (dk, dv, dq) ← refBwdKernel gather d w P k.fn4 v.fn4 q.fn4 dy.fn4
  let dvw ← refUnfoldBwd nh (Arr.of4 d.B d.Cv d.nlatIn d.nlonIn dv)
  let dkw ← refUnfoldBwd nh (Arr.of4 d.B d.Ck d.nlatIn d.nlonIn dk)
  let dqw ← refUnfoldBwd nh (Arr.of4 d.B d.Ck d.nlatOut d.nlonOut dq)
  pure (dkw, dvw, dqw)

/-! ### The CPU operator -/

/-- What a run of the CPU kernels depends on besides its arguments: the start of the running maximum, what the threads left in
their scratch memory, the order in which loop iterations finish. -/
structure CpuRun where
  fmin : ℝ
  mem : ℕ × ℕ × ℕ → ℕ → ℝ
  order : List (ℕ × ℕ × ℕ)
  orderA : List (ℕ × ℕ × ℕ)
  orderB : List (ℕ × ℕ)
  orderC : List (ℕ × ℕ)

/-- The extents the CPU entry points read off folded tensors, attention_cpu_fwd.cpp 114-117. -/
def cpuDims (k v q : Arr) (nlonIn nlatOut nlonOut : ℕ) : Dims :=
  ⟨k.shape.getD 0 0, q.shape.getD 3 0, v.shape.getD 3 0, k.shape.getD 1 0, nlonIn, nlatOut, nlonOut⟩

/-- The checks on heads, attention_cpu_fwd.cpp 86-90 and attention_cpu_bwd.cpp 70-74. -/
def cpuHeadCheck (nh : ℕ) (vw qw : Arr) : Except PyErr Unit :=
  if nh = 0 then .error .runtimeError
  else if qw.shape.getD 3 0 % nh ≠ 0 then .error .runtimeError
  else if vw.shape.getD 3 0 % nh ≠ 0 then .error .runtimeError
  else .ok ()

/-- `s2_attention_fwd_cpu`, attention_cpu_fwd.cpp 67-141. -/
noncomputable def cpuOp (r : CpuRun) (w : ℕ → ℝ) (P : Pattern) (nh nlonIn nlatOut nlonOut : ℕ) (kw vw qw : Arr) : Except PyErr Arr := do
  let _ ← cpuDirection ⟨0, 0, 0, 0, nlonIn, nlatOut, nlonOut⟩
  cpuHeadCheck nh vw qw
  let k ← cpuFold nh kw
  let v ← cpuFold nh vw
  let q ← cpuFold nh qw
  let d := cpuDims k v q nlonIn nlatOut nlonOut
  let y ← cpuForward d w P k.fn4 v.fn4 q.fn4 r.fmin r.mem r.order
  cpuUnfold nh (Arr.of4 d.B d.nlatOut d.nlonOut d.Cv y)

/-- `s2_attention_bwd_cpu`, attention_cpu_bwd.cpp 40-139. -/
noncomputable def cpuOpBwd (r : CpuRun) (w : ℕ → ℝ) (P : Pattern) (nh nlonIn nlatOut nlonOut : ℕ) (kw vw qw dyw : Arr) :
    Except PyErr (Arr × Arr × Arr) := do
  let _ ← cpuDirection ⟨0, 0, 0, 0, nlonIn, nlatOut, nlonOut⟩
  cpuHeadCheck nh vw qw
  let k ← cpuFold nh kw
  let v ← cpuFold nh vw
  let q ← cpuFold nh qw
  let dy ← cpuFold nh dyw
  let d := cpuDims k v q nlonIn nlatOut nlonOut
  let g ← cpuBackward d w P k.fn4 v.fn4 q.fn4 dy.fn4 r.fmin r.mem r.orderA r.orderB r.orderC
  let dkw ← cpuUnfold nh (Arr.of4 d.B d.nlatIn d.nlonIn d.Ck g.dk)
  let dvw ← cpuUnfold nh (Arr.of4 d.B d.nlatIn d.nlonIn d.Cv g.dv)
  let dqw ← cpuUnfold nh (Arr.of4 d.B d.nlatOut d.nlonOut d.Ck g.dq)
  pure (dkw, dvw, dqw)

end Verif.Attn
