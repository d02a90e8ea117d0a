import Mathlib.Algebra.BigOperators.Intervals
import Verif.Model.Basic
/-!
Model of `torch_harmonics/distributed/primitives.py`.

A tensor is seen along the one dimension (`Vec`) or the two dimensions (`Mat`) that the primitive acts on; the
entry type `α` holds everything else (all other dimensions). Only entries below the stated extents are
meaningful. The state of a process group of size `P` is a family `rank ↦ local tensor`, ranks `0 .. P-1`;
a blocking collective maps families to families.
dtype conversions (`use_fp32`) and contiguity are not modelled.
-/
namespace Verif.Dist
open Verif

/-- A tensor seen along one dimension. -/
structure Vec (α : Type) where
  len : ℕ
  val : ℕ → α

/-- A tensor seen along two dimensions. -/
structure Mat (α : Type) where
  d0 : ℕ
  d1 : ℕ
  val : ℕ → ℕ → α

/-- `compute_split_shapes`, primitives.py 74-117. `divmod` by zero raises `ZeroDivisionError`. -/
def computeSplitShapes (size numChunks : ℕ) : Except PyErr (List ℕ) :=
  if ¬ numChunks ≤ size then .error .runtimeError
  else if numChunks = 0 then .error .zeroDivision
  else
    let base := size / numChunks
    let remainder := size % numChunks
    .ok (List.replicate remainder (base + 1) ++ List.replicate (numChunks - remainder) base)

/-- Start of chunk `r` in a list of chunk sizes. -/
def offset (sizes : List ℕ) (r : ℕ) : ℕ := (sizes.take r).sum

/-- Chunk number and position inside the chunk of global index `j` (meaning of `torch.cat`). -/
def locate : List ℕ → ℕ → ℕ × ℕ
  | [], j => (0, j)
  | s :: ss, j => if j < s then (0, j) else ((locate ss (j - s)).1 + 1, (locate ss (j - s)).2)

/-- `torch.split(x, sizes)[r]` along the single visible dimension. -/
def Vec.chunk {α} (x : Vec α) (sizes : List ℕ) (r : ℕ) : Vec α :=
  ⟨sizes.getD r 0, fun i => x.val (offset sizes r + i)⟩

/-- `torch.cat(pieces[0..P-1])` along the single visible dimension; the minimum only matters beyond the extent. -/
def Vec.cat {α} (P : ℕ) (piece : ℕ → Vec α) : Vec α :=
  let sizes := (List.range P).map (fun r => (piece r).len)
  ⟨sizes.sum, fun j => (piece (min (locate sizes j).1 (P - 1))).val (locate sizes j).2⟩

/-- `torch.split(x, sizes, dim=dim0)[r]` with two visible dimensions. -/
def Mat.chunk0 {α} (x : Mat α) (sizes : List ℕ) (r : ℕ) : Mat α :=
  ⟨sizes.getD r 0, x.d1, fun i j => x.val (offset sizes r + i) j⟩

/-- `torch.cat(pieces[0..P-1], dim=dim1)` with two visible dimensions; the minimum only matters beyond the extents. -/
def Mat.cat1 {α} (P : ℕ) (piece : ℕ → Mat α) : Mat α :=
  let sizes := (List.range P).map (fun r => (piece r).d1)
  ⟨(piece 0).d0, sizes.sum, fun i j => (piece (min (locate sizes j).1 (P - 1))).val i (locate sizes j).2⟩

/-- View with the two dimensions exchanged (no data movement; used to apply `chunk0`/`cat1` with the roles of
`dim0`, `dim1` swapped). -/
def Mat.swap {α} (x : Mat α) : Mat α := ⟨x.d1, x.d0, fun i j => x.val j i⟩

/-- `split_tensor_along_dim`, primitives.py 120-166 (the check on `dim` itself, line 157, always passes here).
`torch.split` raises when the sizes do not add up to the extent. -/
def splitTensorAlongDim {α} (x : Vec α) (numChunks : ℕ) : Except PyErr (ℕ → Vec α) := do
  if ¬ numChunks ≤ x.len then throw .runtimeError
  let sections ← computeSplitShapes x.len numChunks
  if sections.sum ≠ x.len then throw .runtimeError
  return fun r => x.chunk sections r

/-- What a rank holding `x` sends to rank `r` in `_transpose`, primitives.py 247-250 (a rank that raises sends nothing; then no rank gets
a result). -/
def sentChunk {α} (P : ℕ) (x : Mat α) (r : ℕ) : Mat α :=
  match computeSplitShapes x.d0 P with
  | .ok secs => x.chunk0 secs r
  | .error _ => x

/-- `_transpose` + `torch.cat(xlist, dim=dims[1])`, primitives.py 227-275 and 283-289 / 319-325, as seen on rank `r`
of a group of size `P`: the local tensor is cut along dim 0 into `P` chunks, chunk `s` goes to rank `s`
(`all_to_all`), and what arrives from rank `s` (a buffer of extents `chunk r × dim1_split_sizes[s]`, lines 254-257)
is concatenated along dim 1. `all_to_all` fails when sent and expected shapes differ or the number of
buffers is not `P`. -/
def transposeRank {α} (P : ℕ) (x : ℕ → Mat α) (dim1SplitSizes : List ℕ) (r : ℕ) : Except PyErr (Mat α) := do
  if P = 1 then return x r
  let sections ← computeSplitShapes (x r).d0 P
  if dim1SplitSizes.length ≠ P then throw .runtimeError
  let recv : ℕ → Mat α := fun s => sentChunk P (x s) r
  if ∀ s < P, (recv s).d0 = sections.getD r 0 ∧ (recv s).d1 = dim1SplitSizes.getD s 0 then
    return Mat.cat1 P recv
  else throw .runtimeError

/-- `_reduce`, primitives.py 351-369: all-reduce (sum) over the group. -/
def reduce {α} [AddCommMonoid α] (P : ℕ) (x : ℕ → Vec α) (r : ℕ) : Vec α :=
  if P = 1 then x r
  else ⟨(x r).len, fun i => ∑ s ∈ Finset.range P, (x s).val i⟩

/-- `_split`, primitives.py 372-385. -/
def splitRank {α} (P : ℕ) (x : ℕ → Vec α) (r : ℕ) : Except PyErr (Vec α) := do
  if P = 1 then return x r
  let l ← splitTensorAlongDim (x r) P
  return l r

/-- `_gather`, primitives.py 388-438, with the shapes of all ranks known (`shapes_` given or gathered at 417-424);
`all_gather` fails when a piece does not have the announced extent (checked explicitly at 404-411 in debug
mode). -/
def gatherRank {α} (P : ℕ) (x : ℕ → Vec α) (shapes : Option (List ℕ)) (r : ℕ) : Except PyErr (Vec α) := do
  if P = 1 then return x r
  match shapes with
  | some sh =>
    if sh.length ≠ P then throw .valueError
    if ∀ s < P, (x s).len = sh.getD s 0 then return Vec.cat P x
    else throw .valueError
  | none => return Vec.cat P x

/-- One zero-padded chunk, primitives.py 485-493: `torch.cat([c, zeros(max_chunk - len)])` when short. -/
def padChunk {α} [Zero α] (maxChunk : ℕ) (c : Vec α) : Vec α :=
  if c.len < maxChunk then ⟨maxChunk, fun i => if i < c.len then c.val i else 0⟩ else c

/-- `dist.reduce_scatter(output, input_list)`: rank `r` receives the sum over ranks of their `r`-th chunks; all
chunks must have the same extent (the docstring at 444-450 explains that NCCL requires this). -/
def distReduceScatter {α} [AddCommMonoid α] (P : ℕ) (chunks : ℕ → ℕ → Vec α) (r : ℕ) : Except PyErr (Vec α) :=
  if ∀ s < P, ∀ q < P, (chunks s q).len = (chunks r r).len then
    .ok ⟨(chunks r r).len, fun i => ∑ s ∈ Finset.range P, (chunks s r).val i⟩
  else .error .runtimeError

/-- What a rank holding `x` contributes for rank `q` in `_reduce_scatter`, primitives.py 461-464, 469-474 and 483-493: its chunk, padded
when the split is uneven (`split_tensor_along_dim` computes the same shapes again; a rank that raises contributes nothing, and then no
rank gets a result). -/
def scatterChunk {α} [Zero α] (P : ℕ) (x : Vec α) (q : ℕ) : Vec α :=
  match computeSplitShapes x.len P with
  | .error _ => x
  | .ok origShapes =>
    let maxChunk := origShapes.foldl max 0
    if origShapes.foldl min maxChunk = maxChunk then x.chunk origShapes q
    else padChunk maxChunk (x.chunk origShapes q)

/-- The slice after the collective, primitives.py 498-501, for a tensor of extent `n` (in the even case, 469-477, no chunk is short). -/
def trimScatter {α} (P n r : ℕ) (output : Vec α) : Vec α :=
  match computeSplitShapes n P with
  | .error _ => output
  | .ok origShapes => if origShapes.getD r 0 < origShapes.foldl max 0 then ⟨origShapes.getD r 0, output.val⟩ else output

/-- `_reduce_scatter`, primitives.py 441-503. -/
def reduceScatterRank {α} [AddCommMonoid α] (P : ℕ) (x : ℕ → Vec α) (r : ℕ) : Except PyErr (Vec α) := do
  if P = 1 then return x r
  let _ ← computeSplitShapes (x r).len P
  let output ← distReduceScatter P (fun s => scatterChunk P (x s)) r
  return trimScatter P (x r).len r output

/-- `flatten_and_pad_leading_dims`, primitives.py 169-213, after the row-major `reshape(-1, ...)` of the leading
dimensions (line 205): `x.len` is the flattened leading size; rows of zeros are appended. Returns the tensor and
`lead_size`. -/
def padLeading {α} [Zero α] (x : Vec α) (minLeading : ℕ) : Vec α × ℕ :=
  if x.len < minLeading then
    (⟨x.len + (minLeading - x.len), fun i => if i < x.len then x.val i else 0⟩, x.len)
  else (x, x.len)

/-- `tensor.narrow(0, 0, lead_size)` of `unpad_and_unflatten_leading_dims`, primitives.py 216-224; narrowing beyond
the extent is a runtime error. -/
def unpadLeading {α} (x : Vec α) (leadSize : ℕ) : Except PyErr (Vec α) :=
  if leadSize ≤ x.len then .ok ⟨leadSize, x.val⟩ else .error .runtimeError

/-- Row-major flattening of leading dimensions (`reshape`, line 205): multi-index to flat index. -/
def flatIndex : List ℕ → List ℕ → ℕ
  | _ :: ds, i :: is => i * ds.prod + flatIndex ds is
  | _, _ => 0

/-- Row-major unflattening (`reshape(*lead_shape, ...)`, line 224). -/
def unflatIndex : List ℕ → ℕ → List ℕ
  | [], _ => []
  | _ :: ds, j => j / ds.prod :: unflatIndex ds (j % ds.prod)

end Verif.Dist
