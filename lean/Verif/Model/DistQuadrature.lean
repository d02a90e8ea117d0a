import Verif.Model.DistGrid
import Verif.Model.Resample
/-!
Models of `DistributedQuadratureS2` (torch_harmonics/distributed/distributed_quadrature.py) and `DistributedResampleS2`
(torch_harmonics/distributed/distributed_resample.py) on the process grid of `Verif.Dist`.
-/
namespace Verif.Dist
open Verif Verif.SHT Verif.Quad Finset

/-- The rule chosen by `DistributedQuadratureS2.__init__`, distributed_quadrature.py 90-106. -/
noncomputable def distQuadratureRule (gauss : ℕ → Rule) (tol : ℝ) (maxiter : ℕ) (nlat : ℕ) (grid : String) : Except PyErr Rule :=
  if grid = "legendre-gauss" then legendreGaussWeights gauss nlat (-1) 1
  else if grid = "lobatto" then lobattoWeights nlat (-1) 1 tol maxiter
  else if grid = "equiangular" then clenshawCurtissWeights nlat (-1) 1
  else .error .valueError

/-- `if comm_size > 1: w = split_tensor_along_dim(w, dim=-2, num_chunks=comm_size)[rank]`, distributed_quadrature.py 120-121. -/
def splitLat {α : Type} (P r : ℕ) (w : Mat α) : Except PyErr (Mat α) :=
  if P > 1 then
    match splitTensorAlongDim (⟨w.d0, w.val⟩ : Vec (ℕ → α)) P with
    | .error e => .error e
    | .ok c => .ok ⟨(c r).len, w.d1, (c r).val⟩
  else .ok w

/-- The same along the last dimension, distributed_quadrature.py 122-123. -/
def splitLon {α : Type} (P r : ℕ) (w : Mat α) : Except PyErr (Mat α) :=
  if P > 1 then
    match splitTensorAlongDim (⟨w.d1, fun j k => w.val k j⟩ : Vec (ℕ → α)) P with
    | .error e => .error e
    | .ok c => .ok ⟨w.d0, (c r).len, fun k j => (c r).val j k⟩
  else .ok w

/-- `DistributedQuadratureS2.__init__` on rank `(p, a)`, distributed_quadrature.py 76-129: the local weights. The reshape (117) raises if the
rule has another number of nodes. The cast to float32 is not modelled. -/
noncomputable def dquadInit (gauss : ℕ → Rule) (tol : ℝ) (maxiter nlat nlon : ℕ) (grid : String) (normalize : Bool) (Pp Pa p a : ℕ) :
    Except PyErr (Mat ℝ) := do
  let r ← distQuadratureRule gauss tol maxiter nlat grid
  let _ ← computeSplitShapes nlat Pp
  let _ ← computeSplitShapes nlon Pa
  if r.n ≠ nlat then .error .runtimeError
  else
    let w1 ← splitLat Pp p (⟨nlat, nlon, fun k _ => quadWeight r nlon normalize k⟩ : Mat ℝ)
    splitLon Pa a w1

/-- `torch.sum(x * quad_weight, dim=(-2, -1))` for one leading index, distributed_quadrature.py 133. Broadcasting of extents equal to 1
is not modelled: the shapes must agree. -/
noncomputable def dquadLocal (w x : Mat ℝ) : Except PyErr ℝ :=
  if x.d0 ≠ w.d0 ∨ x.d1 ≠ w.d1 then .error .runtimeError
  else .ok (∑ k ∈ range x.d0, ∑ j ∈ range x.d1, x.val k j * w.val k j)

/-- `DistributedQuadratureS2.forward`, distributed_quadrature.py 131-139, on the process grid, for one leading index. -/
noncomputable def dquadForward (Pp Pa : ℕ) (w x : ℕ → ℕ → Mat ℝ) : Except PyErr (ℕ → ℕ → ℝ) := do
  let q ← collect Pp Pa fun p a => dquadLocal (w p a) (x p a)
  let q1 : ℕ → ℕ → ℝ := fun p a => if Pp > 1 then (reduceFromForward Pp (fun s => (⟨1, fun _ => q s a⟩ : Vec ℝ)) p).val 0 else q p a
  return fun p a => if Pa > 1 then (reduceFromForward Pa (fun s => (⟨1, fun _ => q1 p s⟩ : Vec ℝ)) a).val 0 else q1 p a

/-- State of a `DistributedResampleS2` object: that of the serial object, and the split shapes. It is the same on every rank. -/
structure DResampler where
  R : Resample.Resampler
  latIn : List ℕ
  lonIn : List ℕ

/-- `DistributedResampleS2.__init__`, distributed_resample.py 76-155. -/
noncomputable def DResampler.init (gauss : ℕ → Rule) (tol : ℝ) (maxiter : ℕ) (A : Resample.Args) (Pp Pa : ℕ) : Except PyErr DResampler :=
  if A.mode ≠ "bilinear" ∧ A.mode ≠ "bilinear-spherical" then .error .notImplemented
  else do
    let latIn ← computeSplitShapes A.nlatIn Pp
    let lonIn ← computeSplitShapes A.nlonIn Pa
    let _ ← computeSplitShapes A.nlatOut Pp
    let _ ← computeSplitShapes A.nlonOut Pa
    let R ← Resample.init gauss tol maxiter A
    return ⟨R, latIn, lonIn⟩

/-- `_expand_poles` on rank `(p, a)`, distributed_resample.py 175-196. -/
noncomputable def dExpandPoles (Pa : ℕ) (x : ℕ → ℕ → Ten3 ℝ) (p a : ℕ) : Except PyErr (Ten3 ℝ) :=
  if (x p a).d1 = 0 then .error .indexError
  else
    let north : ℕ → Vec ℝ := fun s => ⟨(x p s).d0, fun c => ∑ j ∈ range (x p s).d2, (x p s).val c 0 j⟩
    let south : ℕ → Vec ℝ := fun s => ⟨(x p s).d0, fun c => ∑ j ∈ range (x p s).d2, (x p s).val c ((x p s).d1 - 1) j⟩
    let count : ℕ → Vec ℕ := fun s => ⟨1, fun _ => (x p s).d2⟩
    let n := if Pa > 1 then reduceFromForward Pa north a else north a
    let s := if Pa > 1 then reduceFromForward Pa south a else south a
    let k := if Pa > 1 then reduceFromForward Pa count a else count a
    .ok ⟨(x p a).d0, (x p a).d1 + 2, (x p a).d2, fun c i j =>
      if i = 0 then n.val c / (k.val 0 : ℝ)
      else if i = (x p a).d1 + 1 then s.val c / (k.val 0 : ℝ)
      else (x p a).val c (i - 1) j⟩

/-- `if self.expand_poles: x = self._expand_poles(x)`, distributed_resample.py 227-228. -/
noncomputable def expandStage (Pp Pa : ℕ) (expand : Bool) (x : ℕ → ℕ → Ten3 ℝ) : Except PyErr (ℕ → ℕ → Ten3 ℝ) :=
  if expand then collect Pp Pa fun p a => dExpandPoles Pa x p a else .ok x

/-- `DistributedResampleS2.forward`, distributed_resample.py 213-249, on the process grid, for one index of the dimensions before the
channels: local tensors are seen along (channel, latitude, longitude). -/
noncomputable def DResampler.forward (Pp Pa : ℕ) (D : DResampler) (x : ℕ → ℕ → Ten3 ℝ) : Except PyErr (ℕ → ℕ → Ten3 ℝ) :=
  if D.R.skip then .ok x
  else do
    let x1 ← collect Pp Pa fun p a => polarIn Pp x D.latIn p a
    let x2 ← expandStage Pp Pa D.R.expand x1
    let x3 ← collect Pp Pa fun p a => mapChannels D.R.upLat (x2 p a)
    let x4 ← collect Pp Pa fun p a => polarOut Pp x3 (x p a).d0 p a
    let x5 ← collect Pp Pa fun p a => azimuthIn Pa x4 D.lonIn p a
    let x6 ← collect Pp Pa fun p a => mapChannels D.R.upLon (x5 p a)
    collect Pp Pa fun p a => azimuthOut Pa x6 (x p a).d0 p a

end Verif.Dist
