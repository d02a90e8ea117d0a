import Verif.Model.DistGrid
import Verif.Model.DiscoFused
/-!
Model of `distributed/distributed_convolution.py` and `distributed/kernels/distributed_convolution_kernels.py`.

As in `Model/Disco` one batch item is modelled; a local tensor is a `Ten3` (channel, latitude, longitude) whose entries are numbers or,
after the contraction, functions of the kernel index. The plane contraction is a parameter `kern` (polar rank, azimuth rank, channel):
the theorems instantiate it with the reference contraction and with the CPU kernel. The half-precision "kpacked" CUDA kernels are not
modelled.
-/
namespace Verif.Dist
open Verif Verif.SHT Verif.Disco Finset

variable {R : Type}

/-- `_split_distributed_convolution_tensor_s2`, distributed_convolution.py 68-122: the entries whose input latitude belongs to polar
rank `p`, with local column indices. `shapes` is `compute_split_shapes(nlat_in, comm_size_polar)`. -/
def splitPsi (shapes : List ℕ) (p nlonIn : ℕ) (es : List (Entry R)) : List (Entry R) :=
  let start := offset shapes p
  let stop := offset shapes (p + 1)
  (es.filter fun e => e.col / nlonIn < stop ∧ e.col / nlonIn ≥ start).map fun e =>
    { e with col := (e.col / nlonIn - start) * nlonIn + e.col % nlonIn }

/-- What a rank stores: the split shapes and its entries. -/
structure DDisco (R : Type) where
  latIn : List ℕ
  lonIn : List ℕ
  latOut : List ℕ
  lonOut : List ℕ
  entries : List (Entry R)

/-- `DistributedDiscreteContinuousConvS2.__init__` on polar rank `p`, distributed_convolution.py 196-347: `L` carries the arguments
and the entries of the serial routine (263-273), which the serial layer computes too. `torch.argwhere(..).squeeze()` (113) yields a
zero-dimensional index when exactly one entry is selected; the zero-dimensional entry arrays are then rejected by `preprocess_psi` and
by `torch.sparse_coo_tensor`. -/
def DDisco.init (L : Layer R) (Pp Pa p : ℕ) : Except PyErr (DDisco R) := do
  let latIn ← computeSplitShapes L.nlatIn Pp
  let lonIn ← computeSplitShapes L.nlonIn Pa
  let latOut ← computeSplitShapes L.nlatOut Pp
  let lonOut ← computeSplitShapes L.nlonOut Pa
  let es := splitPsi latIn p L.nlonIn L.entries
  if es.length = 1 then throw .runtimeError
  return ⟨latIn, lonIn, latOut, lonOut, es⟩

/-- `DistributedDiscreteContinuousConvTransposeS2.__init__`, distributed_convolution.py 488-587: the entries are split along the output
latitude. -/
def DDisco.initTranspose (L : Layer R) (Pp Pa p : ℕ) : Except PyErr (DDisco R) := do
  let latIn ← computeSplitShapes L.nlatIn Pp
  let lonIn ← computeSplitShapes L.nlonIn Pa
  let latOut ← computeSplitShapes L.nlatOut Pp
  let lonOut ← computeSplitShapes L.nlonOut Pa
  let es := splitPsi latOut p L.nlonOut L.entries
  if es.length = 1 then throw .runtimeError
  return ⟨latIn, lonIn, latOut, lonOut, es⟩

variable [CommSemiring R]

/-- The reference contraction on a rank, distributed_convolution.py 336-347 and distributed_convolution_kernels.py 169. -/
def DDisco.refKern (D : DDisco R) (L : Layer R) (p : ℕ) (x : Mat R) : Except PyErr (Ten R) :=
  contraction x (getPsi L.kernelSize D.entries (D.latIn.getD p 0) L.nlonIn L.nlatOut) L.nlonOut

/-- The transposed reference contraction on a rank, distributed_convolution.py 575-587 and 622. -/
def DDisco.refKernT (D : DDisco R) (L : Layer R) (p : ℕ) (x : Ten R) : Except PyErr (Mat R) :=
  transposeContraction x (getPsiT L.kernelSize D.entries L.nlatIn (D.latOut.getD p 0) L.nlonOut) L.nlonOut

/-- The CPU kernel on a rank: `preprocess_psi` at construction (289-296), `_disco_s2_contraction_optimized` in the forward pass. -/
def DDisco.cpuKern (D : DDisco R) (L : Layer R) (junk : ℕ → Entry R) (mem : ℕ → R) (sh0 : ℕ → ℕ → R) (order : List ℕ) (x : Mat R) :
    Except PyErr (Ten R) :=
  match preprocessPsi junk L.kernelSize L.nlatOut D.entries with
  | .error e => .error e
  | .ok P => cpuForward mem sh0 (Csr.ofLists junk P.1 P.2) order x L.kernelSize L.nlatOut L.nlonOut

/-- The transposed CPU kernel on a rank, distributed_convolution.py 565 and 618-620. -/
def DDisco.cpuKernT (D : DDisco R) (L : Layer R) (junk : ℕ → Entry R) (p : ℕ) (x : Ten R) : Except PyErr (Mat R) :=
  match preprocessPsi junk L.kernelSize L.nlatIn D.entries with
  | .error e => .error e
  | .ok P =>
    match cpuBackward (fun _ => 0) (Csr.ofLists junk P.1 P.2) x (D.latOut.getD p 0) L.nlonOut with
    | .error e => .error e
    | .ok z => .ok z.1

/-- The contraction of every channel plane of a local tensor. All planes have the same extents, so the call fails for all or none. -/
def contractPlanes (kern : ℕ → Mat R → Except PyErr (Ten R)) (x : Ten3 R) : Except PyErr (Ten3 (ℕ → R)) :=
  match kern 0 ⟨x.d1, x.d2, x.val 0⟩ with
  | .error e => .error e
  | .ok y0 => .ok ⟨x.d0, y0.d1, y0.d2, fun c i j k => tenVal (kern c ⟨x.d1, x.d2, x.val c⟩) k i j⟩

/-- A tensor seen along its latitude. -/
def viewLat {α : Type} (x : Ten3 α) : Vec (ℕ → ℕ → α) := ⟨x.d1, fun j c w => x.val c j w⟩

/-- A tensor seen along its longitude. -/
def viewLon {α : Type} (x : Ten3 α) : Vec (ℕ → ℕ → α) := ⟨x.d2, fun w c j => x.val c j w⟩

/-- `reduce_from_scatter_to_polar_region(x, -2)`, primitives.py 672-704. -/
def polarReduceScatter {α : Type} [AddCommMonoid α] (Pp : ℕ) (x : ℕ → ℕ → Ten3 α) (p a : ℕ) : Except PyErr (Ten3 α) :=
  match reduceFromScatterToForward Pp (fun s => viewLat (x s a)) p with
  | .error e => .error e
  | .ok v => .ok ⟨(x p a).d0, v.len, (x p a).d2, fun c j w => v.val j c w⟩

/-- `if comm_size_azimuth > 1: out = reduce_from_scatter_to_azimuth_region(out, -1)`, distributed_convolution_kernels.py 364-365. -/
def azimuthReduceScatter {α : Type} [AddCommMonoid α] (Pa : ℕ) (x : ℕ → ℕ → Ten3 α) (p a : ℕ) : Except PyErr (Ten3 α) :=
  if Pa > 1 then
    match reduceFromScatterToForward Pa (fun s => viewLon (x p s)) a with
    | .error e => .error e
    | .ok v => .ok ⟨(x p a).d0, (x p a).d1, v.len, fun c j w => v.val w c j⟩
  else .ok (x p a)

/-- `gather_from_copy_to_polar_region(x, -2, shapes)`, primitives.py 742-771. -/
def polarGather {α : Type} (Pp : ℕ) (x : ℕ → ℕ → Ten3 α) (shapes : List ℕ) (p a : ℕ) : Except PyErr (Ten3 α) :=
  match gatherFromCopyToForward Pp (fun s => viewLat (x s a)) (some shapes) p with
  | .error e => .error e
  | .ok v => .ok ⟨(x p a).d0, v.len, (x p a).d2, fun c j w => v.val j c w⟩

/-- The weight einsum after the reshape of the channels, distributed_convolution_kernels.py 181-192. -/
def localMix (L : Layer R) (x : Ten3 (ℕ → R)) : Except PyErr (Ten3 R) :=
  if ¬ x.d0 = L.groups * L.groupsize then .error .runtimeError
  else .ok ⟨L.groups * L.outPerGroup, x.d1, x.d2, L.mix fun c k i j => x.val c i j k⟩

/-- `out + self.bias.reshape(1, -1, 1, 1)`, distributed_convolution.py 437-438 and 629-630. -/
def biasStage (L : Layer R) (x : Ten3 R) : Ten3 R := ⟨x.d0, x.d1, x.d2, L.addBias x.val⟩

/-- `DistributedDiscreteContinuousConvS2.forward` with `fused=False`, distributed_convolution.py 376-439 with
`_distributed_disco_fwd_a2a`, distributed_convolution_kernels.py 99-192, on the process grid. -/
def dconvForward (Pp Pa : ℕ) (L : Layer R) (D : ℕ → ℕ → DDisco R) (kern : ℕ → ℕ → ℕ → Mat R → Except PyErr (Ten R))
    (x : ℕ → ℕ → Ten3 R) : Except PyErr (ℕ → ℕ → Ten3 R) := do
  let x1 ← collect Pp Pa fun p a => azimuthIn Pa x (D p a).lonIn p a
  let x2 ← collect Pp Pa fun p a => contractPlanes (kern p a) (x1 p a)
  let x3 ← collect Pp Pa fun p a => polarReduceScatter Pp x2 p a
  let x4 ← collect Pp Pa fun p a => azimuthOut Pa x3 (x p a).d0 p a
  let x5 ← collect Pp Pa fun p a => localMix L (x4 p a)
  return fun p a => biasStage L (x5 p a)

/-- The first channel of azimuth rank `a`, distributed_convolution_kernels.py 271. -/
def chanStart (L : Layer R) (Pa a : ℕ) : Except PyErr ℕ :=
  if Pa > 1 then
    match computeSplitShapes (L.groups * L.groupsize) Pa with
    | .error e => .error e
    | .ok sh => .ok (offset sh a)
  else .ok 0

/-- The local layer (weights and channel counts) of the reordered forward, distributed_convolution_kernels.py 272-298: `n` local
channels starting at channel `start`. The padding of the input is done by `padGroups`. Python slices are clipped at the end of the
dimension. (When the input has too many channels the sliced weight has fewer groups than the input; torch's `einsum` would even
broadcast a single remaining group, which the model rejects like any other mismatch.) -/
def localLayer (L : Layer R) (start n : ℕ) : Except PyErr (Layer R) :=
  if L.groups = 1 then
    if ¬ min (start + n) L.groupsize - min start L.groupsize = n then .error .runtimeError
    else .ok { L with groups := 1, groupsize := n, outPerGroup := L.groups * L.outPerGroup, weight := fun o c k => L.weight o (start + c) k }
  else if L.groupsize = 0 then .error .zeroDivision
  else
    let lo := start / L.groupsize
    let hi := (start + n + L.groupsize - 1) / L.groupsize
    if ¬ min hi L.groups - min lo L.groups = hi - lo then .error .runtimeError
    else .ok { L with groups := hi - lo, weight := fun oc c k => L.weight (lo * L.outPerGroup + oc) c k }

/-- The local channels, zero-filled to whole groups, distributed_convolution_kernels.py 274-296. -/
def padGroups (L : Layer R) (start : ℕ) (x : Ten3 R) : Ten3 R :=
  if L.groups = 1 then x
  else
    let lo := start / L.groupsize
    let hi := (start + x.d0 + L.groupsize - 1) / L.groupsize
    if (hi - lo) * L.groupsize = x.d0 then x
    else
      let off := start - lo * L.groupsize
      ⟨(hi - lo) * L.groupsize, x.d1, x.d2, fun c => if off ≤ c ∧ c < off + x.d0 then x.val (c - off) else fun _ _ => 0⟩

/-- The local output written into a tensor with all output channels, distributed_convolution_kernels.py 355-359. -/
def placeGroups (L : Layer R) (start : ℕ) (y : Ten3 R) : Ten3 R :=
  if L.groups = 1 then y
  else
    let off := start / L.groupsize * L.outPerGroup
    ⟨L.groups * L.outPerGroup, y.d1, y.d2, fun oc => if off ≤ oc ∧ oc < off + y.d0 then y.val (oc - off) else fun _ _ => 0⟩

/-- Steps 1b to 4 of the reordered forward on azimuth rank `a`, distributed_convolution_kernels.py 264-359. -/
def reorderedLocal (L : Layer R) (kern : ℕ → Mat R → Except PyErr (Ten R)) (Pa a : ℕ) (x : Ten3 R) : Except PyErr (Ten3 R) := do
  let start ← chanStart L Pa a
  let L' ← localLayer L start x.d0
  let y ← contractPlanes kern (padGroups L start x)
  let z ← localMix L' y
  return placeGroups L start z

/-- `DistributedDiscreteContinuousConvS2.forward` with `fused=True`: `_distributed_disco_fwd_a2a_reordered`,
distributed_convolution_kernels.py 200-374. The fused operator contracts and mixes the channels (`Model/DiscoFused`). -/
def dconvForwardFused (Pp Pa : ℕ) (L : Layer R) (D : ℕ → ℕ → DDisco R) (kern : ℕ → ℕ → ℕ → Mat R → Except PyErr (Ten R))
    (x : ℕ → ℕ → Ten3 R) : Except PyErr (ℕ → ℕ → Ten3 R) := do
  let x1 ← collect Pp Pa fun p a => azimuthIn Pa x (D p a).lonIn p a
  let x2 ← collect Pp Pa fun p a => reorderedLocal L (kern p a) Pa a (x1 p a)
  let x3 ← collect Pp Pa fun p a => polarReduceScatter Pp x2 p a
  let x4 ← collect Pp Pa fun p a => azimuthReduceScatter Pa x3 p a
  return fun p a => biasStage L (x4 p a)

/-- The weight einsum of the transposed layer, distributed_convolution.py 599-604. -/
def localExpand (L : Layer R) (x : Ten3 R) : Except PyErr (Ten3 (ℕ → R)) :=
  if ¬ x.d0 = L.groups * L.groupsize then .error .runtimeError
  else .ok ⟨L.groups * L.outPerGroup, x.d1, x.d2, fun oc i j k => (L.expand ⟨x.d0, x.d1, x.d2, x.val⟩ oc).val k i j⟩

/-- The transposed contraction of every channel. -/
def contractPlanesT (L : Layer R) (kern : ℕ → Ten R → Except PyErr (Mat R)) (x : Ten3 (ℕ → R)) : Except PyErr (Ten3 R) :=
  match kern 0 ⟨L.kernelSize, x.d1, x.d2, fun k i j => x.val 0 i j k⟩ with
  | .error e => .error e
  | .ok y0 => .ok ⟨x.d0, y0.d0, y0.d1, fun c => matVal (kern c ⟨L.kernelSize, x.d1, x.d2, fun k i j => x.val c i j k⟩)⟩

/-- `DistributedDiscreteContinuousConvTransposeS2.forward`, distributed_convolution.py 596-632, on the process grid. -/
def dtransForward (Pp Pa : ℕ) (L : Layer R) (D : ℕ → ℕ → DDisco R) (kern : ℕ → ℕ → ℕ → Ten R → Except PyErr (Mat R))
    (x : ℕ → ℕ → Ten3 R) : Except PyErr (ℕ → ℕ → Ten3 R) := do
  let x0 ← collect Pp Pa fun p a => localExpand L (x p a)
  let x1 ← collect Pp Pa fun p a => azimuthIn Pa x0 (D p a).lonIn p a
  let x2 ← collect Pp Pa fun p a => polarGather Pp x1 (D p a).latIn p a
  let x3 ← collect Pp Pa fun p a => contractPlanesT L (kern p a) (x2 p a)
  let x4 ← collect Pp Pa fun p a => azimuthOut Pa x3 (x0 p a).d0 p a
  return fun p a => biasStage L (x4 p a)

end Verif.Dist
