import Verif.Model.Arr
import Verif.Model.DiscoPaths
/-!
Model of how the results of the operators lie in memory, and of the layouts the operators declare to the compiler: the `register_fake` functions of
attention_optimized.py 43-79 and 257-271, attention_torch.py 450-464, _layout.py 76-84 and disco_optimized.py 261-290, 341-370, 508-532 and 843-846.

A tensor is a shape, a type, an allocation, and for each entry, counted in row-major order of its index, its position in the allocation. The shape operations
are PyTorch's. Devices and values are left out; the values are those of C44, C94, C97 and C98.
-/
namespace Verif.Attn
open Verif Verif.Disco

/-- A tensor in memory. `off n` is the position of the entry that is number `n` in row-major order of the index. -/
structure Lay where
  shape : List ℕ
  dt : KDtype
  mem : ℕ
  off : ℕ → ℕ

/-- `torch.empty` or `torch.zeros`: row-major in the allocation `m`. -/
def Lay.alloc (shape : List ℕ) (dt : KDtype) (m : ℕ) : Lay := ⟨shape, dt, m, id⟩

/-- `is_contiguous()`: the entries lie in row-major order one after another. -/
def Lay.Contig (x : Lay) : Prop := ∃ o, ∀ n < x.shape.prod, x.off n = o + n

/-- `x.permute(dims)`, a view. -/
def Lay.permute (x : Lay) (dims : List ℕ) : Lay :=
  let shape := dims.map fun a => x.shape.getD a 0
  ⟨shape, x.dt, x.mem, fun k =>
    let i := unflat shape k
    x.off (flat x.shape ((List.range x.shape.length).map fun a => i.getD (dims.idxOf a) 0))⟩

/-- The sum of strides times indices. -/
def dotStrides : List ℕ → List ℕ → ℕ
  | s :: ss, i :: is => s * i + dotStrides ss is
  | _, _ => 0

/-- The positions can be described by one stride for each axis of `shape`. -/
def Strided (off : ℕ → ℕ) (shape : List ℕ) : Prop :=
  ∃ o strides, ∀ i, Inside i shape → off (flat shape i) = o + dotStrides strides i

open Classical in
/-- `x.reshape(s)`: a view where strides for it exist, otherwise a contiguous copy in the allocation `m`. -/
noncomputable def Lay.reshape (x : Lay) (s : List ℕ) (m : ℕ) : Except PyErr Lay :=
  if s.prod ≠ x.shape.prod then .error .runtimeError
  else if Strided x.off s then .ok ⟨s, x.dt, x.mem, x.off⟩
  else .ok (.alloc s x.dt m)

open Classical in
/-- `x.contiguous()`: the tensor itself if it is contiguous, otherwise a copy. -/
noncomputable def Lay.contiguous (x : Lay) (m : ℕ) : Lay := if x.Contig then x else .alloc x.shape x.dt m

open Classical in
/-- `x.to(dtype)`: the tensor itself, or a copy. A copy of a tensor that fills its allocation keeps the order of the entries (`torch.preserve_format`); of others, which
do not occur here, it is taken to be contiguous. -/
noncomputable def Lay.to (x : Lay) (d : KDtype) (m : ℕ) : Lay :=
  if x.dt = d then x
  else if (∀ n < x.shape.prod, x.off n < x.shape.prod) ∧ (∀ n < x.shape.prod, ∀ n' < x.shape.prod, x.off n = x.off n' → n = n') then ⟨x.shape, d, m, x.off⟩
  else .alloc x.shape d m

/-! ### What the operators return -/

/-- The result of `_neighborhood_s2_attention_torch` for tensors of these shapes, attention_torch.py 416-447: the kernels return a fresh tensor in single precision of shape
`(B * nh, C, nlat_out, nlon_out)` (83-84 and 603, 636) with the batch of the queries; 445-447 bring it to `(B, nlat_out, nlon_out, nh * C)` and to the type of the keys.
`m` are the allocations made on the way. -/
noncomputable def refLayout (nh nlatOut nlonOut : ℕ) (v q : List ℕ) (kdt : KDtype) (m : ℕ → ℕ) : Except PyErr Lay := do
  let B := q.getD 0 0
  let C := v.getD 3 0 / nh
  let y := Lay.alloc [B * nh, C, nlatOut, nlonOut] .f32 (m 0)
  let y ← y.reshape [B, nh, C, nlatOut, nlonOut] (m 1)
  let y ← (y.permute [0, 3, 4, 1, 2]).reshape [B, nlatOut, nlonOut, nh * C] (m 2)
  pure (y.to kdt (m 3))

/-- Which batches the loops of the reference accept, attention_torch.py 104-121 and 619-633: the products of queries, keys and values are broadcast over the batch
(times heads), and are assigned to tensors with the batch of the queries. -/
def refBatchOk (nh : ℕ) (k v q : List ℕ) : Prop :=
  (k.getD 0 0 * nh = q.getD 0 0 * nh ∨ k.getD 0 0 * nh = 1) ∧ (v.getD 0 0 * nh = q.getD 0 0 * nh ∨ v.getD 0 0 * nh = 1)

/-- The result of `s2_attention_fwd_cpu`, attention_cpu_fwd.cpp 86-90 and 104-140, with `unfold_heads`, 56-62. -/
noncomputable def cpuLayout (nh nlatOut nlonOut : ℕ) (k v : List ℕ) (qdt : KDtype) (m : ℕ → ℕ) : Except PyErr Lay := do
  if nh = 0 ∨ v.getD 3 0 % nh ≠ 0 then .error .runtimeError
  else
    let C := v.getD 3 0 / nh
    let y := Lay.alloc [k.getD 0 0 * nh, nlatOut, nlonOut, C] .f32 (m 0)
    let y ← if nh = 1 then pure y
      else do
        let z ← y.reshape [k.getD 0 0 * nh / nh, nh, nlatOut, nlonOut, C] (m 1)
        (z.permute [0, 2, 3, 1, 4]).reshape [k.getD 0 0 * nh / nh, nlatOut, nlonOut, nh * C] (m 2)
    pure ((y.contiguous (m 3)).to qdt (m 4))

/-- The result of `s2_attention_fwd_cuda`, attention_cuda_fwd.cu 558-562 and 574-632. -/
noncomputable def gpuLayout (nh nlatOut nlonOut : ℕ) (k v : List ℕ) (kdt qdt : KDtype) (m : ℕ → ℕ) : Except PyErr Lay :=
  if nh = 0 ∨ v.getD 3 0 % nh ≠ 0 then .error .runtimeError
  else .ok ((Lay.alloc [k.getD 0 0, nlatOut, nlonOut, v.getD 3 0 / nh * nh] kdt (m 0)).to qdt (m 1))

/-- The result of `disco_kernels::forward` (`bwd` false) or `disco_kernels::backward` of a given shape for an input of type `dt` and filter values of type `vdt`. The CPU computes half types
in single precision and converts, disco_cpu_fwd.cpp 55-75 and disco_cpu_bwd.cpp 55-75; the GPU forward allocates in the type of the input, disco_cuda_fwd.cu 240-242 and 310; the
GPU backward in that of the filter values and converts, disco_cuda_bwd.cu 240-242 and 310. -/
noncomputable def discoRawLayout (gpu bwd : Bool) (shape : List ℕ) (dt vdt : KDtype) (m : ℕ → ℕ) : Lay :=
  if gpu then
    if bwd then (Lay.alloc shape vdt (m 0)).to dt (m 1) else Lay.alloc shape dt (m 0)
  else (Lay.alloc shape (computeDtype dt) (m 0)).to dt (m 1)

/-- The results of `_disco_s2_contraction_optimized` and `_disco_s2_transpose_contraction_optimized`, disco_optimized.py 305-314 and 329-338. -/
noncomputable def discoLayout (gpu bwd : Bool) (shape : List ℕ) (dt : KDtype) (m : ℕ → ℕ) : Lay :=
  (discoRawLayout gpu bwd shape dt (computeDtype dt) m).to dt (m 2)

/-- The result of `_disco_s2_fused_conv_optimized`, disco_optimized.py 494-505: the expanded tensor in the type of the input, the einsum of 503 in a fresh tensor with any order of the entries
(`order`), `contiguous` and `reshape`. -/
noncomputable def fusedLayout (B groups groupsize K H W : ℕ) (w : List ℕ) (dt : KDtype) (order : ℕ → ℕ) (m : ℕ → ℕ) : Except PyErr Lay := do
  let e ← (Lay.alloc [B, groups * groupsize, K, H, W] dt (m 0)).reshape [B, groups, groupsize, K, H, W] (m 1)
  let y : Lay := ⟨[B, groups, w.getD 1 0, H, W], e.dt, m 2, order⟩
  (y.contiguous (m 3)).reshape [B, groups * w.getD 1 0, H, W] (m 4)

/-- `_permuted_copy`, _layout.py 120-134. The copy of a contiguous tensor is contiguous. -/
noncomputable def permutedCopy (x : Lay) (dims : List ℕ) (m : ℕ) : Lay :=
  let view := x.permute dims
  open Classical in if view.Contig then .alloc view.shape view.dt m else view.contiguous m

/-! ### What they declare -/

/-- The shape function of the attention operators, attention_optimized.py 56-59 and 269-271, attention_torch.py 462-464; `m` is the allocation. -/
def declaredAttention (nlatOut nlonOut : ℕ) (k v : List ℕ) (kdt : KDtype) (m : ℕ) : Lay := .alloc [k.getD 0 0, nlatOut, nlonOut, v.getD 3 0] kdt m

/-- The shape function of the fused DISCO operator, disco_optimized.py 531-532. -/
def declaredFused (B groups H W : ℕ) (w : List ℕ) (dt : KDtype) (m : ℕ) : Lay := .alloc [B, groups * w.getD 1 0, H, W] dt m

end Verif.Attn
