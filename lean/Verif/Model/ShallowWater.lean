import Verif.Model.SpectralConv
/-!
Model of `torch_harmonics/examples/shallow_water_equations.py`: the constructor, the operators and the time stepping. The initial conditions
are in `ShallowWaterIc`; the plotting is not modelled. `radius = 0`, and `lmax = 1` (where `lap / lap[-1, 0]` is `0/0`, so that the hyperdiffusion table is
NaN) are outside the model: the theorems assume `radius ≠ 0` and two degrees.
-/
namespace Verif.SHT
open Verif Verif.Dist Verif.FFT Verif.Quad Verif.Truncation Finset

/-- Arguments of `ShallowWaterSolver.__init__`, shallow_water_equations.py 76 (`gravity`, `havg`, `hamp` do not enter the time stepping). -/
structure SweArgs where
  nlat : ℕ
  nlon : ℕ
  dt : ℝ
  lmax : Option ℤ
  mmax : Option ℤ
  grid : String
  radius : ℝ
  omega : ℝ

/-- State of a `ShallowWaterSolver` object. -/
structure Swe where
  nlat : ℕ
  nlon : ℕ
  dt : ℝ
  radius : ℝ
  lmax : ℕ
  mmax : ℕ
  sht : RealSHT
  isht : InverseRealSHT
  vsht : RealVectorSHT
  ivsht : InverseRealVectorSHT
  coriolis : ℕ → ℝ
  quadWeights : ℕ → ℝ

/-- The arguments of the four transforms, shallow_water_equations.py 95-98. -/
def SweArgs.transform (A : SweArgs) : Args := ⟨A.nlat, A.nlon, A.lmax, A.mmax, A.grid, "ortho", false⟩

/-- `ShallowWaterSolver.__init__`, shallow_water_equations.py 76-142; `coriolis = 2 omega sin(lats)`, `lats = -arcsin(cost)`. -/
noncomputable def Swe.init (env : Env) (A : SweArgs) : Except PyErr Swe :=
  match RealSHT.init env A.transform with
  | .error e => .error e
  | .ok S =>
    match InverseRealSHT.init env A.transform with
    | .error e => .error e
    | .ok I =>
      match RealVectorSHT.init env A.transform with
      | .error e => .error e
      | .ok V =>
        match InverseRealVectorSHT.init env A.transform with
        | .error e => .error e
        | .ok W =>
          match gridRule env.gauss env.tol env.maxiter A.nlat A.grid with
          | .error e => .error e
          | .ok r =>
            if S.lmax = 0 ∨ S.mmax = 0 then .error .indexError
            else .ok ⟨A.nlat, A.nlon, A.dt, A.radius, S.lmax, S.mmax, S, I, V, W,
              fun k => 2 * A.omega * Real.sin (-Real.arcsin (r.x k)), r.w⟩

/-- `lap`, shallow_water_equations.py 124: a function of the degree. -/
noncomputable def Swe.lap (S : Swe) (l : ℕ) : ℝ := -(l : ℝ) * (l + 1) / S.radius ^ 2

/-- `invlap`, shallow_water_equations.py 125-126. -/
noncomputable def Swe.invlap (S : Swe) (l : ℕ) : ℝ := if l = 0 then 0 else -S.radius ^ 2 / l / (l + 1)

/-- `hyperdiff`, shallow_water_equations.py 132. -/
noncomputable def Swe.hyperdiff (S : Swe) (l : ℕ) : ℝ :=
  Real.exp ((-S.dt / 2 / 3600) * (S.lap l / S.lap (S.lmax - 1)) ^ 4)

/-- `spec2grid`, shallow_water_equations.py 148-150, on a stack of fields. -/
noncomputable def Swe.spec2grid (be : C2R) (S : Swe) (u : Ten3 ℂ) : Except PyErr (Ten3 ℝ) := mapChannels (S.isht.forward be) u

/-- `vrtdivspec`, shallow_water_equations.py 152-155. -/
noncomputable def Swe.vrtdivspec (S : Swe) (ugrid : Ten3 ℝ) : Except PyErr (Ten3 ℂ) :=
  match S.vsht.forward ugrid with
  | .error e => .error e
  | .ok c => .ok ⟨c.d0, c.d1, c.d2, fun d l m => (S.lap l : ℂ) * (S.radius : ℂ) * c.val d l m⟩

/-- `getuv`, shallow_water_equations.py 157-159 (the product with `invlap` requires the table's shape, as the transform does). -/
noncomputable def Swe.getuv (be : C2R) (S : Swe) (z : Ten3 ℂ) : Except PyErr (Ten3 ℝ) :=
  S.ivsht.forward be ⟨z.d0, z.d1, z.d2, fun d l m => (S.invlap l : ℂ) * z.val d l m / (S.radius : ℂ)⟩

/-- `dudtspec`, shallow_water_equations.py 180-203, on a state of shape `(3, lmax, mmax)`. -/
noncomputable def Swe.dudtspec (be : C2R) (S : Swe) (u : ℕ → ℕ → ℕ → ℂ) : Except PyErr (ℕ → ℕ → ℕ → ℂ) :=
  match S.spec2grid be ⟨3, S.lmax, S.mmax, u⟩ with
  | .error e => .error e
  | .ok ugrid =>
    match S.getuv be ⟨2, S.lmax, S.mmax, fun d => u (d + 1)⟩ with
    | .error e => .error e
    | .ok uv =>
      match S.vrtdivspec ⟨2, S.nlat, S.nlon, fun d k j => uv.val d k j * (ugrid.val 1 k j + S.coriolis k)⟩ with
      | .error e => .error e
      | .ok tmpspec =>
        match S.vrtdivspec ⟨2, S.nlat, S.nlon, fun d k j => uv.val d k j * ugrid.val 0 k j⟩ with
        | .error e => .error e
        | .ok tmp =>
          match S.sht.forward ⟨S.nlat, S.nlon, fun k j => ugrid.val 0 k j + 0.5 * (uv.val 0 k j ^ 2 + uv.val 1 k j ^ 2)⟩ with
          | .error e => .error e
          | .ok en => .ok fun d l m =>
              if d = 0 then -1 * tmp.val 1 l m
              else if d = 1 then -1 * tmpspec.val 1 l m
              else tmpspec.val 0 l m - (S.lap l : ℂ) * en.val l m

/-- Loop state of `timestep`: solution, the three tendency buffers, the three pointers. -/
structure AB (E : Type) where
  u : E
  D : ℤ → E
  inew : ℤ
  inow : ℤ
  iold : ℤ

/-- One iteration of the loop of `timestep`, shallow_water_equations.py 299-318, for a tendency `f` and a filter `h`
(the hyperdiffusion). Python's `%` by 3 is the mathematical remainder. -/
noncomputable def abIter {E : Type} [AddCommGroup E] [Module ℝ E] (f : E → Except PyErr E) (h : E → E) (dt : ℝ) (it : ℕ) (s : AB E) :
    Except PyErr (AB E) :=
  match f s.u with
  | .error e => .error e
  | .ok t =>
    let D := Function.update s.D s.inew t
    let D := if it = 0 then Function.update (Function.update D s.inow (D s.inew)) s.iold (D s.inew)
      else if it = 1 then Function.update D s.iold (D s.inew) else D
    let u := s.u + dt • (((23 : ℝ) / 12) • D s.inew - ((16 : ℝ) / 12) • D s.inow + ((5 : ℝ) / 12) • D s.iold)
    .ok ⟨h u, D, (s.inew - 1) % 3, (s.inow - 1) % 3, (s.iold - 1) % 3⟩

/-- `for iter in range(nsteps)` from zero buffers, shallow_water_equations.py 292-320. -/
noncomputable def abRun {E : Type} [AddCommGroup E] [Module ℝ E] (f : E → Except PyErr E) (h : E → E) (dt : ℝ) (u0 : E) :
    ℕ → Except PyErr (AB E)
  | 0 => .ok ⟨u0, fun _ => 0, 0, 1, 2⟩
  | n + 1 => match abRun f h dt u0 n with
    | .error e => .error e
    | .ok s => abIter f h dt n s

/-- `uspec[1:] = self.hyperdiff * uspec[1:]`, shallow_water_equations.py 313. -/
noncomputable def Swe.diffuse (S : Swe) (u : ℕ → ℕ → ℕ → ℂ) : ℕ → ℕ → ℕ → ℂ :=
  fun d l m => if d = 0 then u d l m else (S.hyperdiff l : ℂ) * u d l m

/-- `timestep`, shallow_water_equations.py 290-320. A state of the wrong shape is refused by the transforms in the first step. -/
noncomputable def Swe.timestep (be : C2R) (S : Swe) (u : Ten3 ℂ) (nsteps : ℕ) : Except PyErr (Ten3 ℂ) :=
  if nsteps = 0 then .ok u
  else if u.d0 ≠ 3 ∨ u.d1 ≠ S.lmax ∨ u.d2 ≠ S.mmax then .error .runtimeError
  else
    match abRun (S.dudtspec be) S.diffuse S.dt u.val nsteps with
    | .error e => .error e
    | .ok s => .ok ⟨3, S.lmax, S.mmax, s.u⟩

/-- `integrate_grid` with `polar_opt = 0`, shallow_water_equations.py 322-330; `R = 1` when `dimensionless`. -/
noncomputable def Swe.integrateGrid (S : Swe) (f : ℕ → ℕ → ℝ) (dimensionless : Bool) : ℝ :=
  let R := if dimensionless then 1 else S.radius
  ∑ k ∈ range S.nlat, ∑ j ∈ range S.nlon, f k j * S.quadWeights k * (2 * Real.pi / S.nlon) * R ^ 2

end Verif.SHT
