import Verif.Model.AttentionLayer
import Verif.Model.AttentionCudaBwd
import Verif.Model.DiscoPaths
/-!
Model of the number types of neighbourhood attention: what `NeighborhoodAttentionS2` (attention.py 456-571), its three operators (reference,
CPU, GPU) and their autocast rules (attention_torch.py 540-560, attention_optimized.py 292-319) do with tensors of half, single and double
precision, and what a cast of the module, `module.half()`, `.bfloat16()`, `.double()`, does to the buffer of quadrature weights
(attention.py 365-367), which every GPU kernel reads as single-precision numbers whatever its type is.

Values of activations and parameters are exact, so a cast keeps them; the type is carried along and decides which calls are refused. The
buffer of quadrature weights is modelled by its bits. Infinities and NaN are left out: a single-precision number with the largest
exponent is read as if it were finite. All parameters of a module have one type. PyTorch: `F.linear` and `conv2d` refuse operands of
different types; under autocast they first cast them to the autocast type, except those in double precision. `F.rms_norm` returns
the type of its input; whether autocast makes that single precision depends on the version of PyTorch and is left open (`normF32`).
A product with a tensor that has at least one dimension has the promoted type; a number or a zero-dimensional tensor does not change the type.
-/
namespace Verif.AttnTypes
open Verif Verif.Spec.Attn Verif.Attn Verif.AttnGpu Verif.Disco

/-- A tensor with its type. -/
structure TArr where
  dt : KDtype
  arr : Arr

/-! ### Numbers and their bits -/

/-- IEEE single precision, bits to number. -/
noncomputable def f32Val (bits : ℕ) : ℝ :=
  (if bits / 2 ^ 31 % 2 = 1 then -1 else 1) *
    (if bits / 2 ^ 23 % 256 = 0 then (bits % 2 ^ 23 : ℕ) * (2 : ℝ) ^ (-149 : ℤ)
     else (1 + (bits % 2 ^ 23 : ℕ) / 2 ^ 23) * (2 : ℝ) ^ ((bits / 2 ^ 23 % 256 : ℕ) - 127 : ℤ))

/-- IEEE half precision, bits to number. -/
noncomputable def f16Val (bits : ℕ) : ℝ :=
  (if bits / 2 ^ 15 % 2 = 1 then -1 else 1) *
    (if bits / 2 ^ 10 % 32 = 0 then (bits % 2 ^ 10 : ℕ) * (2 : ℝ) ^ (-24 : ℤ)
     else (1 + (bits % 2 ^ 10 : ℕ) / 2 ^ 10) * (2 : ℝ) ^ ((bits / 2 ^ 10 % 32 : ℕ) - 15 : ℤ))

/-- IEEE double precision, bits to number. -/
noncomputable def f64Val (bits : ℕ) : ℝ :=
  (if bits / 2 ^ 63 % 2 = 1 then -1 else 1) *
    (if bits / 2 ^ 52 % 2048 = 0 then (bits % 2 ^ 52 : ℕ) * (2 : ℝ) ^ (-1074 : ℤ)
     else (1 + (bits % 2 ^ 52 : ℕ) / 2 ^ 52) * (2 : ℝ) ^ ((bits / 2 ^ 52 % 2048 : ℕ) - 1023 : ℤ))

/-- The buffer `quad_weights`, attention.py 365-367: its type and the memory from its first byte on, in little-endian 16-bit words. Memory
behind the last element belongs to something else. -/
structure WBuf where
  dt : KDtype
  word : ℕ → ℕ

/-- Element `i` of the buffer. A `bfloat16` is the upper half of a single-precision number. -/
noncomputable def WBuf.value (b : WBuf) (i : ℕ) : ℝ :=
  match b.dt with
  | .f16 => f16Val (b.word i)
  | .bf16 => f32Val (b.word i * 65536)
  | .f32 => f32Val (b.word (2 * i) + 65536 * b.word (2 * i + 1))
  | .f64 => f64Val (b.word (4 * i) + 65536 * (b.word (4 * i + 1) + 65536 * (b.word (4 * i + 2) + 65536 * b.word (4 * i + 3))))

/-- Element `i` behind the pointer `reinterpret_cast<float *>(quad_weights.data_ptr())`, attention_cuda_fwd.cu 494, attention_cuda_bwd.cu 815,
attention_cuda_fwd_upsample.cu 309, attention_cuda_bwd_upsample.cu 427, and in all ring steps. -/
noncomputable def WBuf.asFloat (b : WBuf) (i : ℕ) : ℝ := f32Val (b.word (2 * i) + 65536 * b.word (2 * i + 1))

/-! ### The operators -/

/-- The operator of a call and what its run leaves open. -/
inductive Exec where
  | reference
  | cpu (r : CpuRun)
  | gpu (r : GpuRun)

/-- The same for the backward pass. -/
inductive BwdExec where
  | reference
  | cpu (r : CpuRun)
  | gpu (r : BwdRun)

/-- `Tensor.to(cast_dtype)` of the autocast rules, attention_torch.py 549-555 and attention_optimized.py 306-317. -/
def castT (ac : Option KDtype) (x : TArr) : TArr := ⟨ac.getD x.dt, x.arr⟩

/-- The weights an operator works with: the reference operator multiplies with the tensor; the CPU takes an accessor of type `float`, which
refuses other types (attention_cpu_fwd.cpp 126, attention_cpu_bwd.cpp 116); the GPU takes the pointer as it is. -/
noncomputable def Exec.weights (e : Exec) (b : WBuf) : Except PyErr (ℕ → ℝ) :=
  match e with
  | .reference => .ok b.value
  | .cpu _ => if b.dt = .f32 then .ok b.value else .error .runtimeError
  | .gpu _ => .ok b.asFloat

/-- `attentionHandle` of `Model/AttentionLayer.lean` with the GPU operator added. -/
noncomputable def Exec.run (e : Exec) (w : ℕ → ℝ) (P : Pattern) (nh nlonIn nlatOut nlonOut : ℕ) (k v q : Arr) : Except PyErr Arr :=
  match e with
  | .reference => refOp w P nh nlonIn nlatOut nlonOut k v q
  | .cpu r => cpuOp r w P nh nlonIn nlatOut nlonOut k v q
  | .gpu r => gpuOp r w P nh nlonIn nlatOut nlonOut k v q

/-- The optimized operators demand one type, attention_cpu_fwd.cpp 95-98 and attention_cuda_fwd.cu 567-570; the reference operator casts
each tensor to single precision (attention_torch.py 425-428). -/
def Exec.typesOk (e : Exec) (k v q : KDtype) : Bool :=
  match e with
  | .reference => true
  | _ => k = q && v = q

/-- The type of the result: that of the keys (attention_torch.py 425, 448) or of the queries (attention_cpu_fwd.cpp 104, 140; attention_cuda_fwd.cu
631). -/
def Exec.outDt (e : Exec) (k q : KDtype) : KDtype :=
  match e with
  | .reference => k
  | _ => q

/-- An operator with its autocast rule; `ac` is the autocast type of the device, `none` if autocast is off. -/
noncomputable def attnOpT (e : Exec) (ac : Option KDtype) (b : WBuf) (P : Pattern) (nh nlonIn nlatOut nlonOut : ℕ) (k v q : TArr) :
    Except PyErr TArr := do
  let k := castT ac k
  let v := castT ac v
  let q := castT ac q
  if e.typesOk k.dt v.dt q.dt then
    let w ← e.weights b
    let y ← e.run w P nh nlonIn nlatOut nlonOut k.arr v.arr q.arr
    pure ⟨e.outDt k.dt q.dt, y⟩
  else .error .runtimeError

/-- The weights in the backward pass, attention_cpu_bwd.cpp 116 and attention_cuda_bwd.cu 815. -/
noncomputable def BwdExec.weights (e : BwdExec) (b : WBuf) : Except PyErr (ℕ → ℝ) :=
  match e with
  | .reference => .ok b.value
  | .cpu _ => if b.dt = .f32 then .ok b.value else .error .runtimeError
  | .gpu _ => .ok b.asFloat

/-- The backward operators. -/
noncomputable def BwdExec.run (e : BwdExec) (w : ℕ → ℝ) (P : Pattern) (nh nlonIn nlatOut nlonOut : ℕ) (k v q dy : Arr) :
    Except PyErr (Arr × Arr × Arr) :=
  match e with
  | .reference => refOpBwd w P nh nlonIn nlatOut nlonOut k v q dy
  | .cpu r => cpuOpBwd r w P nh nlonIn nlatOut nlonOut k v q dy
  | .gpu r => gpuOpBwd r w P nh nlonIn nlatOut nlonOut k v q dy

/-- attention_cpu_bwd.cpp 79-84 and attention_cuda_bwd.cu 888-893. -/
def BwdExec.typesOk (e : BwdExec) (k v q dy : KDtype) : Bool :=
  match e with
  | .reference => true
  | _ => k = q && v = q && dy = q

/-- The types of the three gradients as the operator returns them: attention_torch.py 487-489, 519-534; attention_cpu_bwd.cpp 138 (one type for
all); attention_cuda_bwd.cu 951-953. -/
def BwdExec.outDts (e : BwdExec) (k v q : KDtype) : KDtype × KDtype × KDtype :=
  match e with
  | .cpu _ => (q, q, q)
  | _ => (k, v, q)

/-- The backward pass of an operator call with keys, values and queries `k`, `v`, `q`, result of type `yDt` and gradient `dy` of that type.
The saved tensors are the cast ones (`_setup_context_attention_backward`, attention/_attention_utils.py 93-). Autograd casts the gradients back to the types of the
arguments. The first component are the types before that. -/
noncomputable def attnOpBwdT (e : BwdExec) (ac : Option KDtype) (b : WBuf) (P : Pattern) (nh nlonIn nlatOut nlonOut : ℕ) (k v q : TArr)
    (dy : TArr) : Except PyErr ((KDtype × KDtype × KDtype) × TArr × TArr × TArr) := do
  let k' := castT ac k
  let v' := castT ac v
  let q' := castT ac q
  if e.typesOk k'.dt v'.dt q'.dt dy.dt then
    let w ← e.weights b
    let g ← e.run w P nh nlonIn nlatOut nlonOut k'.arr v'.arr q'.arr dy.arr
    pure (e.outDts k'.dt v'.dt q'.dt, ⟨k.dt, g.1⟩, ⟨v.dt, g.2.1⟩, ⟨q.dt, g.2.2⟩)
  else .error .runtimeError

/-! ### The layer -/

/-- A `NeighborhoodAttentionS2` with the types of what it holds. `layer` has the numbers of the constructor; the weights in use are those of
`quad`. `scaleDt` is the type of a `scale` given as a tensor with at least one dimension. -/
structure TypedNbhd where
  layer : Nbhd
  paramDt : KDtype
  quad : WBuf
  scaleDt : Option KDtype

/-- `F.linear` with types. -/
def linearT (ac : Option KDtype) (pDt : KDtype) (Cin Cout : ℕ) (W : ℕ → ℕ → ℝ) (bias : Option (ℕ → ℝ)) (x : TArr) : Except PyErr TArr := do
  let dt ← einsumDt ac x.dt pDt
  let y ← linear Cin Cout W bias x.arr
  pure ⟨dt, y⟩

/-- The optional normalisation with types, attention.py 538-548. -/
noncomputable def normT (ac : Option KDtype) (normF32 : Bool) (nh C : ℕ) (eps : ℝ) (g : Option (ℕ → ℝ)) (x : TArr) : Except PyErr TArr := do
  let y ← nbhdNorm nh C eps g x.arr
  pure ⟨if g.isSome && ac.isSome && normF32 && x.dt ≠ .f64 then .f32 else x.dt, y⟩

/-- The type of `query * self.scale`. -/
def scaledDt (s : Option KDtype) (d : KDtype) : KDtype :=
  match s with
  | none => d
  | some d' => promoteDt d d'

/-- `query * self.scale` with types, attention.py 551. -/
def scaleT (s : Option KDtype) (a : ℝ) (x : TArr) : TArr := ⟨scaledDt s x.dt, x.arr.scale a⟩

/-- `to_nhwc` and `to_nchw` keep the type. -/
def toNhwcT (x : TArr) : Except PyErr TArr := do
  let y ← toNhwc x.arr
  pure ⟨x.dt, y⟩

/-- See `toNhwcT`. -/
def toNchwT (x : TArr) : Except PyErr TArr := do
  let y ← toNchw x.arr
  pure ⟨x.dt, y⟩

/-- The body of the forward pass between the checks and the end, attention.py 514-571. -/
noncomputable def TypedNbhd.body (M : TypedNbhd) (e : Exec) (ac : Option KDtype) (normF32 : Bool) (query key value : TArr) : Except PyErr TArr := do
  let A := M.layer.args
  let p := M.layer.params
  let query ← toNhwcT query
  let key ← toNhwcT key
  let value ← toNhwcT value
  let query ← linearT ac M.paramDt A.inChannels A.kC p.wq p.bq query
  let key ← linearT ac M.paramDt A.inChannels A.kC p.wk p.bk key
  let value ← linearT ac M.paramDt A.inChannels A.oC p.wv p.bv value
  let query ← normT ac normF32 A.numHeads (A.kC / A.numHeads) p.eps p.nq query
  let key ← normT ac normF32 A.numHeads (A.kC / A.numHeads) p.eps p.nk key
  let out ← attnOpT e ac M.quad M.layer.pattern A.numHeads A.nlonIn A.nlatOut A.nlonOut key value (scaleT M.scaleDt (nbhdScale A) query)
  let out ← linearT ac M.paramDt A.oC A.oC p.wp p.bp out
  toNchwT out

/-- `NeighborhoodAttentionS2.forward`, attention.py 456-571, with `_check_dtypes_match` (485; attention/_attention_utils.py 62-88). -/
noncomputable def TypedNbhd.forward (M : TypedNbhd) (e : Exec) (ac : Option KDtype) (normF32 : Bool) (query : TArr) (key value : Option TArr) :
    Except PyErr TArr :=
  let A := M.layer.args
  let key := key.getD query
  let value := value.getD query
  if query.arr.shape.length ≠ 4 ∨ key.arr.shape.length ≠ 4 ∨ value.arr.shape.length ≠ 4 then .error .runtimeError
  else if key.dt ≠ query.dt ∨ value.dt ≠ query.dt then .error .runtimeError
  else if query.arr.shape.getD 2 0 ≠ A.nlatOut ∨ query.arr.shape.getD 3 0 ≠ A.nlonOut then .error .runtimeError
  else if key.arr.shape.getD 2 0 ≠ A.nlatIn ∨ key.arr.shape.getD 3 0 ≠ A.nlonIn then .error .runtimeError
  else if value.arr.shape.getD 2 0 ≠ A.nlatIn ∨ value.arr.shape.getD 3 0 ≠ A.nlonIn then .error .runtimeError
  else M.body e ac normF32 query key value

/-! ### The distributed layer -/

/-- `_cast_to_autocast_dtype`, distributed/_amp_utils.py 92-121, for a floating-point tensor; `cudaAc` is the autocast type of CUDA. -/
def castToAutocast (cudaAc : Option KDtype) (dt : KDtype) : KDtype := cudaAc.getD dt

/-- What the ring steps are given and how they read it: the types of keys, values and queries, and the one type, that of the queries, in which
the kernels read all three (attention_cuda_fwd_ring.cu 1179, attention_cuda_fwd_ring_upsample.cu 282-). No check compares them. -/
structure RingTypes where
  k : KDtype
  v : KDtype
  q : KDtype
  readAs : KDtype
  out : KDtype

/-- The types on the way through `DistributedNeighborhoodAttentionS2.forward` on the GPU, distributed_attention.py 1165-1260: projections by `conv2d`, normalisation,
scaling, the cast for autocast (before `.apply`), the ring (its result is cast to the type of the keys), the last projection. There is no
`_check_dtypes_match`. -/
def distTypes (ac : Option KDtype) (normF32 qnorm knorm : Bool) (pDt : KDtype) (scaleDt : Option KDtype) (query key value : KDtype) :
    Except PyErr RingTypes := do
  let q ← einsumDt ac query pDt
  let k ← einsumDt ac key pDt
  let v ← einsumDt ac value pDt
  let q := if qnorm && ac.isSome && normF32 && q ≠ .f64 then .f32 else q
  let k := if knorm && ac.isSome && normF32 && k ≠ .f64 then .f32 else k
  let q := scaledDt scaleDt q
  let k := castToAutocast ac k
  let v := castToAutocast ac v
  let q := castToAutocast ac q
  let out ← einsumDt ac k pDt
  pure ⟨k, v, q, q, out⟩

end Verif.AttnTypes
