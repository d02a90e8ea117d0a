import Verif.Model.SHT
/-!
Model of `torch_harmonics/examples/pde_sphere.py`: the constructor and the tendencies of `SphereSolver`. Plotting and the random coefficients of
`randspec` are not modelled. `radius = 0`, where the tables are NaN, is outside the model: the theorems assume `radius ≠ 0`. Leading batch
dimensions are not modelled.
-/
namespace Verif.SHT
open Verif Verif.Dist Verif.FFT Verif.Quad Verif.Truncation Finset

/-- Arguments of `SphereSolver.__init__`, pde_sphere.py 69. -/
structure PdeArgs where
  nlat : ℕ
  nlon : ℕ
  dt : ℝ
  lmax : Option ℤ
  mmax : Option ℤ
  grid : String
  radius : ℝ
  coeff : ℝ

/-- State of a `SphereSolver` object. -/
structure Pde where
  nlat : ℕ
  nlon : ℕ
  radius : ℝ
  coeff : ℝ
  lmax : ℕ
  mmax : ℕ
  sht : RealSHT
  isht : InverseRealSHT
  lats : ℕ → ℝ
  lons : ℕ → ℝ

/-- The arguments of the two transforms, pde_sphere.py 85-86. -/
def PdeArgs.transform (A : PdeArgs) : Args := ⟨A.nlat, A.nlon, A.lmax, A.mmax, A.grid, "ortho", false⟩

/-- `SphereSolver.__init__`, pde_sphere.py 69-118. The three branches for the grid points are those of the transforms, which have already rejected
other grids. `invlap[0] = 0.0` needs a row. -/
noncomputable def Pde.init (env : Env) (A : PdeArgs) : Except PyErr Pde :=
  match RealSHT.init env A.transform with
  | .error e => .error e
  | .ok S =>
    match InverseRealSHT.init env A.transform with
    | .error e => .error e
    | .ok I =>
      match gridRule env.gauss env.tol env.maxiter A.nlat A.grid with
      | .error e => .error e
      | .ok r =>
        if S.lmax = 0 then .error .indexError
        else .ok ⟨A.nlat, A.nlon, A.radius, A.coeff, S.lmax, S.mmax, S, I, fun k => -Real.arcsin (r.x k), precomputeLongitudes A.nlon⟩

/-- `lap`, pde_sphere.py 109. -/
noncomputable def Pde.lap (S : Pde) (l : ℕ) : ℝ := -(l : ℝ) * (l + 1) / S.radius ^ 2

/-- `invlap`, pde_sphere.py 110-111. -/
noncomputable def Pde.invlap (S : Pde) (l : ℕ) : ℝ := if l = 0 then 0 else -S.radius ^ 2 / l / (l + 1)

/-- `grid2spec`, pde_sphere.py 120-121. -/
noncomputable def Pde.grid2spec (S : Pde) (u : Mat ℝ) : Except PyErr (Mat ℂ) := S.sht.forward u

/-- `spec2grid`, pde_sphere.py 123-125. -/
noncomputable def Pde.spec2grid (be : C2R) (S : Pde) (u : Mat ℂ) : Except PyErr (Mat ℝ) := S.isht.forward be u

/-- The cubic term, pde_sphere.py 131-132 and 135-136. -/
noncomputable def Pde.cubic (be : C2R) (S : Pde) (u : Mat ℂ) : Except PyErr (Mat ℂ) :=
  match S.spec2grid be u with
  | .error e => .error e
  | .ok g => S.grid2spec ⟨g.d0, g.d1, fun k j => g.val k j ^ 3⟩

/-- `dudtspec`, pde_sphere.py 127-141. -/
noncomputable def Pde.dudtspec (be : C2R) (S : Pde) (u : Mat ℂ) (pde : String) : Except PyErr (Mat ℂ) :=
  if pde = "allen-cahn" then
    match S.cubic be u with
    | .error e => .error e
    | .ok c => .ok ⟨S.lmax, S.mmax, fun l m => (S.coeff : ℂ) * (S.lap l : ℂ) * u.val l m + u.val l m - c.val l m⟩
  else if pde = "ginzburg-landau" then
    match S.cubic be u with
    | .error e => .error e
    | .ok c => .ok ⟨S.lmax, S.mmax, fun l m =>
        u.val l m + (1 + 2 * Complex.I) * (S.coeff : ℂ) * (S.lap l : ℂ) * u.val l m - (1 + 2 * Complex.I) * c.val l m⟩
  else .error .notImplemented

end Verif.SHT
