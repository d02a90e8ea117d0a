import Verif.Model.Legendre
import Verif.Model.Truncation
import Verif.Model.Quadrature
/-!
Model of `torch_harmonics/sht.py`: the scalar and vector spherical harmonic transforms on one device.

Leading batch dimensions are not modelled: every operation used acts on the last two (three) dimensions and independently
of the leading ones, so a field is a `Mat`, a vector field a `Ten3`. Sizes `nlat`, `nlon` are natural numbers. The dtype
conversion of the tables (`self.weights.to(x_re.dtype)`) is not modelled.
-/
namespace Verif.SHT
open Verif Verif.Dist Verif.FFT Verif.Quad Verif.Legendre Verif.Truncation Finset

/-- A tensor seen along three dimensions. -/
structure Ten3 (α : Type) where
  d0 : ℕ
  d1 : ℕ
  d2 : ℕ
  val : ℕ → ℕ → ℕ → α

/-- Apply a torch operation along the last dimension of a matrix. Whether the operation raises, and the length of its
result, depend on the shape only, so the first row decides both. -/
def mapRows {α β : Type} (f : Vec α → Except PyErr (Vec β)) (x : Mat α) : Except PyErr (Mat β) :=
  match f ⟨x.d1, x.val 0⟩ with
  | .error e => .error e
  | .ok y0 => .ok ⟨x.d0, y0.len, fun k j =>
      match f ⟨x.d1, x.val k⟩ with
      | .error _ => y0.val j
      | .ok y => y.val j⟩

/-- The choice of the latitude rule, sht.py 126-133 (and 279-286, 421-428, 579-586). -/
noncomputable def gridRule (gauss : ℕ → Rule) (tol : ℝ) (maxiter : ℕ) (nlat : ℕ) (grid : String) : Except PyErr Rule :=
  if grid = "legendre-gauss" then legendreGaussWeights gauss nlat (-1) 1
  else if grid = "lobatto" then lobattoWeights nlat (-1) 1 tol maxiter
  else if grid = "equiangular" then clenshawCurtissWeights nlat (-1) 1
  else .error .valueError

/-- `tq = flip(arccos(cost))`, sht.py 136 (and 289, 431, 589). -/
noncomputable def colat (r : Rule) (k : ℕ) : ℝ := Real.arccos (r.x (r.n - 1 - k))

/-- `self.lmax, self.mmax = truncate_sht(...)`, sht.py 139 (and 292, 434, 592), as sizes of the tables allocated next: torch
refuses to allocate a tensor with a negative extent. -/
def sizes (nlat nlon : ℕ) (lmax mmax : Option ℤ) (grid : String) : Except PyErr (ℕ × ℕ) :=
  match truncateSht nlat nlon lmax mmax grid with
  | .error e => .error e
  | .ok (L, M) => if L < 0 ∨ M < 0 then .error .runtimeError else .ok (L.toNat, M.toNat)

/-- The user-visible constructor arguments that the four transforms share. -/
structure Args where
  nlat : ℕ
  nlon : ℕ
  lmax : Option ℤ
  mmax : Option ℤ
  grid : String
  norm : String
  csphase : Bool

/-- External parameters: `leggauss`, and the tolerance and iteration limit of `lobatto_weights`. -/
structure Env where
  gauss : ℕ → Rule
  tol : ℝ
  maxiter : ℕ

/-- State of a `RealSHT` object: `weights[m, l, k]`. -/
structure RealSHT where
  nlat : ℕ
  nlon : ℕ
  lmax : ℕ
  mmax : ℕ
  weights : ℕ → ℕ → ℕ → ℝ

/-- `RealSHT.__init__`, sht.py 113-146. -/
noncomputable def RealSHT.init (env : Env) (a : Args) : Except PyErr RealSHT := do
  let r ← gridRule env.gauss env.tol env.maxiter a.nlat a.grid
  let (L, M) ← sizes a.nlat a.nlon a.lmax a.mmax a.grid
  let pct ← legpolyTensor M L (colat r) a.norm false a.csphase
  return ⟨a.nlat, a.nlon, L, M, fun m l k => pct m l k * r.w k⟩

/-- `RealSHT.forward`, sht.py 151-186. -/
noncomputable def RealSHT.forward (S : RealSHT) (x : Mat ℝ) : Except PyErr (Mat ℂ) :=
  if x.d0 ≠ S.nlat then .error .runtimeError
  else if x.d1 ≠ S.nlon then .error .runtimeError
  else do
    let y ← mapRows (fun v => rfft .forward false v (some S.mmax)) x
    -- `x = 2.0 * torch.pi * rfft(...)`
    let z : ℕ → ℕ → ℂ := fun k m => 2 * Real.pi * y.val k m
    return ⟨S.lmax, S.mmax, fun l m =>
      ⟨∑ k ∈ range S.nlat, (z k m).re * S.weights m l k, ∑ k ∈ range S.nlat, (z k m).im * S.weights m l k⟩⟩

/-- State of an `InverseRealSHT` object: `pct[m, k, l]`. -/
structure InverseRealSHT where
  nlat : ℕ
  nlon : ℕ
  lmax : ℕ
  mmax : ℕ
  pct : ℕ → ℕ → ℕ → ℝ

/-- `InverseRealSHT.__init__`, sht.py 269-301. -/
noncomputable def InverseRealSHT.init (env : Env) (a : Args) : Except PyErr InverseRealSHT := do
  let r ← gridRule env.gauss env.tol env.maxiter a.nlat a.grid
  let (L, M) ← sizes a.nlat a.nlon a.lmax a.mmax a.grid
  let pct ← legpolyTensor M L (colat r) a.norm true a.csphase
  return ⟨a.nlat, a.nlon, L, M, fun m k l => pct m l k⟩

/-- `InverseRealSHT.forward`, sht.py 306-342. -/
noncomputable def InverseRealSHT.forward (be : C2R) (I : InverseRealSHT) (c : Mat ℂ) : Except PyErr (Mat ℝ) :=
  if c.d0 ≠ I.lmax then .error .runtimeError
  else if c.d1 ≠ I.mmax then .error .runtimeError
  else
    let y : Mat ℂ := ⟨I.nlat, I.mmax, fun k m =>
      ⟨∑ l ∈ range I.lmax, (c.val l m).re * I.pct m k l, ∑ l ∈ range I.lmax, (c.val l m).im * I.pct m k l⟩⟩
    mapRows (fun v => irfft be .forward v (some I.nlon)) y

/-- `norm_factor`, sht.py 440-442: `1.0 / l / (l + 1)` with entry 0 replaced by 1. -/
noncomputable def normFactorV (l : ℕ) : ℝ := if l = 0 then 1 else 1 / l / ((l : ℝ) + 1)

/-- State of a `RealVectorSHT` object: `weights[0, m, l, k]` and `weights[1, m, l, k]`. -/
structure RealVectorSHT where
  nlat : ℕ
  nlon : ℕ
  lmax : ℕ
  mmax : ℕ
  w0 : ℕ → ℕ → ℕ → ℝ
  w1 : ℕ → ℕ → ℕ → ℝ

/-- `RealVectorSHT.__init__`, sht.py 411-449. -/
noncomputable def RealVectorSHT.init (env : Env) (a : Args) : Except PyErr RealVectorSHT := do
  let r ← gridRule env.gauss env.tol env.maxiter a.nlat a.grid
  let (L, M) ← sizes a.nlat a.nlon a.lmax a.mmax a.grid
  let d ← dlegpolyTensor M L (colat r) a.norm false a.csphase
  return ⟨a.nlat, a.nlon, L, M, fun m l k => d.1 m l k * r.w k * normFactorV l,
    fun m l k => -1 * (d.2 m l k * r.w k * normFactorV l)⟩

/-- `RealVectorSHT.forward`, sht.py 454-495. -/
noncomputable def RealVectorSHT.forward (S : RealVectorSHT) (x : Ten3 ℝ) : Except PyErr (Ten3 ℂ) :=
  if x.d0 ≠ 2 then .error .runtimeError
  else if x.d1 ≠ S.nlat then .error .runtimeError
  else if x.d2 ≠ S.nlon then .error .runtimeError
  else do
    let y0 ← mapRows (fun v => rfft .forward false v (some S.mmax)) ⟨x.d1, x.d2, x.val 0⟩
    let y1 ← mapRows (fun v => rfft .forward false v (some S.mmax)) ⟨x.d1, x.d2, x.val 1⟩
    let z0 : ℕ → ℕ → ℂ := fun k m => 2 * Real.pi * y0.val k m
    let z1 : ℕ → ℕ → ℂ := fun k m => 2 * Real.pi * y1.val k m
    let sre := fun l m => ∑ k ∈ range S.nlat, (z0 k m).re * S.w0 m l k - ∑ k ∈ range S.nlat, (z1 k m).im * S.w1 m l k
    let sim := fun l m => ∑ k ∈ range S.nlat, (z0 k m).im * S.w0 m l k + ∑ k ∈ range S.nlat, (z1 k m).re * S.w1 m l k
    let tre := fun l m => -∑ k ∈ range S.nlat, (z0 k m).im * S.w1 m l k - ∑ k ∈ range S.nlat, (z1 k m).re * S.w0 m l k
    let tim := fun l m => ∑ k ∈ range S.nlat, (z0 k m).re * S.w1 m l k - ∑ k ∈ range S.nlat, (z1 k m).im * S.w0 m l k
    return ⟨2, S.lmax, S.mmax, fun d l m => if d = 0 then ⟨sre l m, sim l m⟩ else ⟨tre l m, tim l m⟩⟩

/-- State of an `InverseRealVectorSHT` object: `dpct[0, m, k, l]` and `dpct[1, m, k, l]`. -/
structure InverseRealVectorSHT where
  nlat : ℕ
  nlon : ℕ
  lmax : ℕ
  mmax : ℕ
  d0 : ℕ → ℕ → ℕ → ℝ
  d1 : ℕ → ℕ → ℕ → ℝ

/-- `InverseRealVectorSHT.__init__`, sht.py 569-602. -/
noncomputable def InverseRealVectorSHT.init (env : Env) (a : Args) : Except PyErr InverseRealVectorSHT := do
  let r ← gridRule env.gauss env.tol env.maxiter a.nlat a.grid
  let (L, M) ← sizes a.nlat a.nlon a.lmax a.mmax a.grid
  let d ← dlegpolyTensor M L (colat r) a.norm true a.csphase
  return ⟨a.nlat, a.nlon, L, M, fun m k l => d.1 m l k, fun m k l => d.2 m l k⟩

/-- `InverseRealVectorSHT.forward`, sht.py 606-649. -/
noncomputable def InverseRealVectorSHT.forward (be : C2R) (I : InverseRealVectorSHT) (c : Ten3 ℂ) :
    Except PyErr (Ten3 ℝ) :=
  if c.d0 ≠ 2 then .error .runtimeError
  else if c.d1 ≠ I.lmax then .error .runtimeError
  else if c.d2 ≠ I.mmax then .error .runtimeError
  else do
    let srl := fun k m => ∑ l ∈ range I.lmax, (c.val 0 l m).re * I.d0 m k l - ∑ l ∈ range I.lmax, (c.val 1 l m).im * I.d1 m k l
    let sim := fun k m => ∑ l ∈ range I.lmax, (c.val 0 l m).im * I.d0 m k l + ∑ l ∈ range I.lmax, (c.val 1 l m).re * I.d1 m k l
    let trl := fun k m => -∑ l ∈ range I.lmax, (c.val 0 l m).im * I.d1 m k l - ∑ l ∈ range I.lmax, (c.val 1 l m).re * I.d0 m k l
    let tim := fun k m => ∑ l ∈ range I.lmax, (c.val 0 l m).re * I.d1 m k l - ∑ l ∈ range I.lmax, (c.val 1 l m).im * I.d0 m k l
    let u0 ← mapRows (fun v => irfft be .forward v (some I.nlon)) (⟨I.nlat, I.mmax, fun k m => ⟨srl k m, sim k m⟩⟩ : Mat ℂ)
    let u1 ← mapRows (fun v => irfft be .forward v (some I.nlon)) (⟨I.nlat, I.mmax, fun k m => ⟨trl k m, tim k m⟩⟩ : Mat ℂ)
    return ⟨2, u0.d0, u0.d1, fun d k j => if d = 0 then u0.val k j else u1.val k j⟩

end Verif.SHT
