import Verif.Model.DistGrid
/-!
Model of `torch_harmonics/distributed/distributed_sht.py`. The component axis of the vector transforms (extent 2, checked by
`forward`) is a pair.
-/
namespace Verif.Dist
open Verif Verif.SHT Verif.FFT Verif.Quad Verif.Legendre Finset

/-- The split shapes that a distributed transform stores, distributed_sht.py 151-157 (and 320-325, 470-476, 632-637). -/
structure Shapes where
  lat : List ℕ
  lon : List ℕ
  l : List ℕ
  m : List ℕ

/-- see `Shapes`; `Pp`, `Pa` are the sizes of the polar and azimuth groups. -/
def mkShapes (Pp Pa nlat nlon lmax mmax : ℕ) : Except PyErr Shapes := do
  let lat ← computeSplitShapes nlat Pp
  let lon ← computeSplitShapes nlon Pa
  let l ← computeSplitShapes lmax Pp
  let m ← computeSplitShapes mmax Pa
  return ⟨lat, lon, l, m⟩

/-- State of a `DistributedRealSHT` object on one rank; `weights[m, l, k]` holds the orders of the rank. -/
structure DRealSHT where
  nlat : ℕ
  nlon : ℕ
  lmax : ℕ
  mmax : ℕ
  sh : Shapes
  nlatLocal : ℕ
  nlonLocal : ℕ
  mmaxLocal : ℕ
  weights : ℕ → ℕ → ℕ → ℝ

/-- `DistributedRealSHT.__init__` on rank `(p, a)`, distributed_sht.py 116-167. -/
noncomputable def DRealSHT.init (env : Env) (A : Args) (Pp Pa p a : ℕ) : Except PyErr DRealSHT := do
  let r ← gridRule env.gauss env.tol env.maxiter A.nlat A.grid
  let (L, M) ← sizes A.nlat A.nlon A.lmax A.mmax A.grid
  let sh ← mkShapes Pp Pa A.nlat A.nlon L M
  let pct ← legpolyTensor M L (colat r) A.norm false A.csphase
  let w ← splitTensorAlongDim (⟨M, fun m l k => pct m l k * r.w k⟩ : Vec (ℕ → ℕ → ℝ)) Pa
  return ⟨A.nlat, A.nlon, L, M, sh, sh.lat.getD p 0, sh.lon.getD a 0, sh.m.getD a 0, (w a).val⟩

/-- `2.0 * torch.pi * rfft(x, nmodes=mmax, dim=-1, norm="forward")` on a local tensor, distributed_sht.py 190. -/
noncomputable def localRfft (mmax : ℕ) (x : Ten3 ℝ) : Except PyErr (Ten3 ℂ) :=
  match mapChannels (mapRows fun v => rfft .forward false v (some mmax)) x with
  | .error e => .error e
  | .ok y => .ok ⟨y.d0, y.d1, y.d2, fun c k m => 2 * Real.pi * y.val c k m⟩

/-- The Legendre contraction of a local tensor, distributed_sht.py 202-212 and (with `pct[m, k, l]`, summing over degrees) 358-370. The extents agree by construction of the weights; the shape
check of `einsum` is not modelled. -/
noncomputable def localLegendre (lmax : ℕ) (w : ℕ → ℕ → ℕ → ℝ) (x : Ten3 ℂ) : Ten3 ℂ :=
  ⟨x.d0, lmax, x.d2, fun c l m =>
    ⟨∑ k ∈ range x.d1, (x.val c k m).re * w m l k, ∑ k ∈ range x.d1, (x.val c k m).im * w m l k⟩⟩

/-- The shape checks of `forward`, distributed_sht.py 174-176 (and 343-345, 500-503, 655-658); `n1`, `n2` are the expected extents. -/
def checkShape {α : Type} (x : LTen α) (n1 n2 : ℕ) : Except PyErr Unit :=
  if x.lead.length < 1 then .error .runtimeError
  else if x.d1 ≠ n1 then .error .runtimeError
  else if x.d2 ≠ n2 then .error .runtimeError
  else .ok ()

/-- `DistributedRealSHT.forward`, distributed_sht.py 172-222, on the process grid. -/
noncomputable def DRealSHT.forward (Pp Pa : ℕ) (S : ℕ → ℕ → DRealSHT) (x : ℕ → ℕ → LTen ℝ) : Except PyErr (ℕ → ℕ → LTen ℂ) := do
  let _ ← collect Pp Pa fun p a => checkShape (x p a) (S p a).nlatLocal (S p a).nlonLocal
  let x0 : ℕ → ℕ → Ten3 ℝ := fun p a => (flattenPad (x p a) (max Pp Pa)).1
  let x1 ← collect Pp Pa fun p a => azimuthIn Pa x0 (S p a).sh.lon p a
  let x2 ← collect Pp Pa fun p a => localRfft (S p a).mmax (x1 p a)
  let x3 ← collect Pp Pa fun p a => azimuthOut Pa x2 (x0 p a).d0 p a
  let x4 ← collect Pp Pa fun p a => polarIn Pp x3 (S p a).sh.lat p a
  let x5 : ℕ → ℕ → Ten3 ℂ := fun p a => localLegendre (S p a).lmax (S p a).weights (x4 p a)
  let x6 ← collect Pp Pa fun p a => polarOut Pp x5 (x0 p a).d0 p a
  collect Pp Pa fun p a => unpadUnflatten (x6 p a) (x p a).lead (flattenPad (x p a) (max Pp Pa)).2

/-- State of a `DistributedInverseRealSHT` object on one rank: `pct[m, k, l]`. -/
structure DInverseRealSHT where
  nlat : ℕ
  nlon : ℕ
  lmax : ℕ
  mmax : ℕ
  sh : Shapes
  lmaxLocal : ℕ
  mmaxLocal : ℕ
  pct : ℕ → ℕ → ℕ → ℝ

/-- `DistributedInverseRealSHT.__init__` on rank `(p, a)`, distributed_sht.py 287-336. -/
noncomputable def DInverseRealSHT.init (env : Env) (A : Args) (Pp Pa p a : ℕ) : Except PyErr DInverseRealSHT := do
  let r ← gridRule env.gauss env.tol env.maxiter A.nlat A.grid
  let (L, M) ← sizes A.nlat A.nlon A.lmax A.mmax A.grid
  let sh ← mkShapes Pp Pa A.nlat A.nlon L M
  let pct ← legpolyTensor M L (colat r) A.norm true A.csphase
  let w ← splitTensorAlongDim (⟨M, fun m k l => pct m l k⟩ : Vec (ℕ → ℕ → ℝ)) Pa
  return ⟨A.nlat, A.nlon, L, M, sh, sh.l.getD p 0, sh.m.getD a 0, (w a).val⟩

/-- `irfft(x, n=nlon, dim=-1, norm="forward")` on a local tensor, distributed_sht.py 381. -/
noncomputable def localIrfft (be : C2R) (nlon : ℕ) (x : Ten3 ℂ) : Except PyErr (Ten3 ℝ) :=
  mapChannels (mapRows fun v => irfft be .forward v (some nlon)) x

/-- `DistributedInverseRealSHT.forward`, distributed_sht.py 341-391, on the process grid. -/
noncomputable def DInverseRealSHT.forward (be : C2R) (Pp Pa : ℕ) (S : ℕ → ℕ → DInverseRealSHT) (x : ℕ → ℕ → LTen ℂ) :
    Except PyErr (ℕ → ℕ → LTen ℝ) := do
  let _ ← collect Pp Pa fun p a => checkShape (x p a) (S p a).lmaxLocal (S p a).mmaxLocal
  let x0 : ℕ → ℕ → Ten3 ℂ := fun p a => (flattenPad (x p a) (max Pp Pa)).1
  let x1 ← collect Pp Pa fun p a => polarIn Pp x0 (S p a).sh.l p a
  let x2 : ℕ → ℕ → Ten3 ℂ := fun p a => localLegendre (S p a).nlat (S p a).pct (x1 p a)
  let x3 ← collect Pp Pa fun p a => polarOut Pp x2 (x0 p a).d0 p a
  let x4 ← collect Pp Pa fun p a => azimuthIn Pa x3 (S p a).sh.m p a
  let x5 ← collect Pp Pa fun p a => localIrfft be (S p a).nlon (x4 p a)
  let x6 ← collect Pp Pa fun p a => azimuthOut Pa x5 (x0 p a).d0 p a
  collect Pp Pa fun p a => unpadUnflatten (x6 p a) (x p a).lead (flattenPad (x p a) (max Pp Pa)).2

/-- State of a `DistributedRealVectorSHT` object on one rank. -/
structure DRealVectorSHT where
  nlat : ℕ
  nlon : ℕ
  lmax : ℕ
  mmax : ℕ
  sh : Shapes
  nlatLocal : ℕ
  nlonLocal : ℕ
  w0 : ℕ → ℕ → ℕ → ℝ
  w1 : ℕ → ℕ → ℕ → ℝ

/-- `DistributedRealVectorSHT.__init__` on rank `(p, a)`, distributed_sht.py 437-493. -/
noncomputable def DRealVectorSHT.init (env : Env) (A : Args) (Pp Pa p a : ℕ) : Except PyErr DRealVectorSHT := do
  let r ← gridRule env.gauss env.tol env.maxiter A.nlat A.grid
  let (L, M) ← sizes A.nlat A.nlon A.lmax A.mmax A.grid
  let sh ← mkShapes Pp Pa A.nlat A.nlon L M
  let d ← dlegpolyTensor M L (colat r) A.norm false A.csphase
  let w ← splitTensorAlongDim (⟨M, fun m l k => (d.1 m l k * r.w k * normFactorV l, -1 * (d.2 m l k * r.w k * normFactorV l))⟩ :
    Vec (ℕ → ℕ → ℝ × ℝ)) Pa
  return ⟨A.nlat, A.nlon, L, M, sh, sh.lat.getD p 0, sh.lon.getD a 0, fun m l k => ((w a).val m l k).1, fun m l k => ((w a).val m l k).2⟩

/-- The two components of a tensor of pairs, and back (`x[..., 0, :, :]`, `torch.stack(..., dim=-3)`). -/
def fstT {α β : Type} (x : Ten3 (α × β)) : Ten3 α := ⟨x.d0, x.d1, x.d2, fun i j k => (x.val i j k).1⟩
/-- see `fstT` -/
def sndT {α β : Type} (x : Ten3 (α × β)) : Ten3 β := ⟨x.d0, x.d1, x.d2, fun i j k => (x.val i j k).2⟩
/-- see `fstT` -/
def stackT {α β : Type} (x : Ten3 α) (y : Ten3 β) : Ten3 (α × β) := ⟨x.d0, x.d1, x.d2, fun i j k => (x.val i j k, y.val i j k)⟩

/-- The FFT of both components, distributed_sht.py 518. -/
noncomputable def localRfft2 (mmax : ℕ) (x : Ten3 (ℝ × ℝ)) : Except PyErr (Ten3 (ℂ × ℂ)) := do
  let y0 ← localRfft mmax (fstT x)
  let y1 ← localRfft mmax (sndT x)
  return stackT y0 y1

/-- The two contractions, distributed_sht.py 529-545 and 672-690. -/
noncomputable def localVectorLegendre (lmax : ℕ) (w0 w1 : ℕ → ℕ → ℕ → ℝ) (x : Ten3 (ℂ × ℂ)) : Ten3 (ℂ × ℂ) :=
  let s := range x.d1
  ⟨x.d0, lmax, x.d2, fun c l m =>
    (⟨∑ k ∈ s, (x.val c k m).1.re * w0 m l k - ∑ k ∈ s, (x.val c k m).2.im * w1 m l k,
      ∑ k ∈ s, (x.val c k m).1.im * w0 m l k + ∑ k ∈ s, (x.val c k m).2.re * w1 m l k⟩,
     ⟨-∑ k ∈ s, (x.val c k m).1.im * w1 m l k - ∑ k ∈ s, (x.val c k m).2.re * w0 m l k,
      ∑ k ∈ s, (x.val c k m).1.re * w1 m l k - ∑ k ∈ s, (x.val c k m).2.im * w0 m l k⟩)⟩

/-- `DistributedRealVectorSHT.forward`, distributed_sht.py 498-555. -/
noncomputable def DRealVectorSHT.forward (Pp Pa : ℕ) (S : ℕ → ℕ → DRealVectorSHT) (x : ℕ → ℕ → LTen (ℝ × ℝ)) :
    Except PyErr (ℕ → ℕ → LTen (ℂ × ℂ)) := do
  let _ ← collect Pp Pa fun p a => checkShape (x p a) (S p a).nlatLocal (S p a).nlonLocal
  let x0 : ℕ → ℕ → Ten3 (ℝ × ℝ) := fun p a => (flattenPad (x p a) (max Pp Pa)).1
  let x1 ← collect Pp Pa fun p a => azimuthIn Pa x0 (S p a).sh.lon p a
  let x2 ← collect Pp Pa fun p a => localRfft2 (S p a).mmax (x1 p a)
  let x3 ← collect Pp Pa fun p a => azimuthOut Pa x2 (x0 p a).d0 p a
  let x4 ← collect Pp Pa fun p a => polarIn Pp x3 (S p a).sh.lat p a
  let x5 : ℕ → ℕ → Ten3 (ℂ × ℂ) := fun p a => localVectorLegendre (S p a).lmax (S p a).w0 (S p a).w1 (x4 p a)
  let x6 ← collect Pp Pa fun p a => polarOut Pp x5 (x0 p a).d0 p a
  collect Pp Pa fun p a => unpadUnflatten (x6 p a) (x p a).lead (flattenPad (x p a) (max Pp Pa)).2

/-- State of a `DistributedInverseRealVectorSHT` object on one rank. -/
structure DInverseRealVectorSHT where
  nlat : ℕ
  nlon : ℕ
  lmax : ℕ
  mmax : ℕ
  sh : Shapes
  lmaxLocal : ℕ
  mmaxLocal : ℕ
  d0 : ℕ → ℕ → ℕ → ℝ
  d1 : ℕ → ℕ → ℕ → ℝ

/-- `DistributedInverseRealVectorSHT.__init__` on rank `(p, a)`, distributed_sht.py 600-648. -/
noncomputable def DInverseRealVectorSHT.init (env : Env) (A : Args) (Pp Pa p a : ℕ) : Except PyErr DInverseRealVectorSHT := do
  let r ← gridRule env.gauss env.tol env.maxiter A.nlat A.grid
  let (L, M) ← sizes A.nlat A.nlon A.lmax A.mmax A.grid
  let sh ← mkShapes Pp Pa A.nlat A.nlon L M
  let d ← dlegpolyTensor M L (colat r) A.norm true A.csphase
  let w ← splitTensorAlongDim (⟨M, fun m k l => (d.1 m l k, d.2 m l k)⟩ : Vec (ℕ → ℕ → ℝ × ℝ)) Pa
  return ⟨A.nlat, A.nlon, L, M, sh, sh.l.getD p 0, sh.m.getD a 0, fun m k l => ((w a).val m k l).1, fun m k l => ((w a).val m k l).2⟩

/-- The inverse FFT of both components, distributed_sht.py 701. -/
noncomputable def localIrfft2 (be : C2R) (nlon : ℕ) (x : Ten3 (ℂ × ℂ)) : Except PyErr (Ten3 (ℝ × ℝ)) := do
  let y0 ← localIrfft be nlon (fstT x)
  let y1 ← localIrfft be nlon (sndT x)
  return stackT y0 y1

/-- `DistributedInverseRealVectorSHT.forward`, distributed_sht.py 653-711. -/
noncomputable def DInverseRealVectorSHT.forward (be : C2R) (Pp Pa : ℕ) (S : ℕ → ℕ → DInverseRealVectorSHT) (x : ℕ → ℕ → LTen (ℂ × ℂ)) :
    Except PyErr (ℕ → ℕ → LTen (ℝ × ℝ)) := do
  let _ ← collect Pp Pa fun p a => checkShape (x p a) (S p a).lmaxLocal (S p a).mmaxLocal
  let x0 : ℕ → ℕ → Ten3 (ℂ × ℂ) := fun p a => (flattenPad (x p a) (max Pp Pa)).1
  let x1 ← collect Pp Pa fun p a => polarIn Pp x0 (S p a).sh.l p a
  let x2 : ℕ → ℕ → Ten3 (ℂ × ℂ) := fun p a => localVectorLegendre (S p a).nlat (S p a).d0 (S p a).d1 (x1 p a)
  let x3 ← collect Pp Pa fun p a => polarOut Pp x2 (x0 p a).d0 p a
  let x4 ← collect Pp Pa fun p a => azimuthIn Pa x3 (S p a).sh.m p a
  let x5 ← collect Pp Pa fun p a => localIrfft2 be (S p a).nlon (x4 p a)
  let x6 ← collect Pp Pa fun p a => azimuthOut Pa x5 (x0 p a).d0 p a
  collect Pp Pa fun p a => unpadUnflatten (x6 p a) (x p a).lead (flattenPad (x p a) (max Pp Pa)).2

end Verif.Dist
