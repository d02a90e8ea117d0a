import Verif.Model.ShallowWater
/-!
Model of the initial conditions and diagnostics of `torch_harmonics/examples/shallow_water_equations.py` and of
`torch_harmonics/examples/pde_dataset.py`. Random numbers are inputs of the model. Casts to float32 (`.float()`), devices and streams are not
modelled. A quotient by zero (NaN or infinite in torch) is `none`.
-/
namespace Verif.SHT
open Verif Verif.Dist Verif.FFT Verif.Quad Verif.Truncation Finset

/-- The remaining arguments of `ShallowWaterSolver.__init__`, shallow_water_equations.py 76. -/
structure SwePhys where
  gravity : ℝ
  havg : ℝ
  hamp : ℝ

/-- A `ShallowWaterSolver` with the buffers that the time stepping does not use, shallow_water_equations.py 88-92 and 113-114. -/
structure SweFull where
  core : Swe
  lats : ℕ → ℝ
  lons : ℕ → ℝ
  omega : ℝ
  gravity : ℝ
  havg : ℝ
  hamp : ℝ

/-- `ShallowWaterSolver.__init__`, shallow_water_equations.py 76-142, with these buffers. -/
noncomputable def SweFull.init (env : Env) (A : SweArgs) (P : SwePhys) : Except PyErr SweFull :=
  match Swe.init env A with
  | .error e => .error e
  | .ok S =>
    match gridRule env.gauss env.tol env.maxiter A.nlat A.grid with
    | .error e => .error e
    | .ok r => .ok ⟨S, fun k => -Real.arcsin (r.x k), precomputeLongitudes A.nlon, A.omega, P.gravity, P.havg, P.hamp⟩

/-- `gethuv`, shallow_water_equations.py 161-165: geopotential and wind. -/
noncomputable def SweFull.gethuv (be : C2R) (F : SweFull) (u : Ten3 ℂ) : Except PyErr (Ten3 ℝ) :=
  match F.core.spec2grid be ⟨min 1 u.d0, u.d1, u.d2, u.val⟩ with
  | .error e => .error e
  | .ok h =>
    match F.core.getuv be ⟨u.d0 - 1, u.d1, u.d2, fun e => u.val (e + 1)⟩ with
    | .error e => .error e
    | .ok v => .ok ⟨h.d0 + v.d0, h.d1, h.d2, fun e => if e < h.d0 then h.val e else v.val (e - h.d0)⟩

/-- `potential_vorticity`, shallow_water_equations.py 167-171. -/
noncomputable def SweFull.potentialVorticity (be : C2R) (F : SweFull) (u : Ten3 ℂ) : Except PyErr (Mat (Option ℝ)) :=
  match F.core.spec2grid be u with
  | .error e => .error e
  | .ok g => .ok ⟨g.d1, g.d2, fun k j =>
      if F.omega = 0 ∨ g.val 0 k j = 0 then none
      else some ((0.5 * F.havg * F.gravity / F.omega) * (g.val 1 k j + F.core.coriolis k) / g.val 0 k j)⟩

/-- `dimensionless`, shallow_water_equations.py 173-178, of an array with entries in `K` (real grid values or complex coefficients). The argument is
overwritten with the result. -/
noncomputable def SweFull.dimensionless {K : Type} [Field K] [Algebra ℝ K] (F : SweFull) (u : ℕ → ℕ → ℕ → K) : ℕ → ℕ → ℕ → K :=
  fun e a b => if e = 0 then (u 0 a b - algebraMap ℝ K (F.havg * F.gravity)) / algebraMap ℝ K F.hamp / algebraMap ℝ K F.gravity
    else u e a b * algebraMap ℝ K F.core.radius / algebraMap ℝ K (Real.sqrt (F.gravity * F.havg))

/-- `integrate_grid` with `polar_opt`, shallow_water_equations.py 322-330: `polar_opt` rows are left out at each end. -/
noncomputable def Swe.integrateGridPolar (S : Swe) (f : ℕ → ℕ → ℝ) (dimensionless : Bool) (polarOpt : ℤ) : ℝ :=
  if 0 < polarOpt then
    ∑ k ∈ Ico polarOpt.toNat (S.nlat - polarOpt.toNat), ∑ j ∈ range S.nlon,
      f k j * S.quadWeights k * (2 * Real.pi / S.nlon) * (if dimensionless then 1 else S.radius) ^ 2
  else S.integrateGrid f dimensionless

/-! ### Galewsky's test case -/

/-- `phi0`, shallow_water_equations.py 210. -/
noncomputable def galPhi0 : ℝ := Real.pi / 7
/-- `phi1`, shallow_water_equations.py 211. -/
noncomputable def galPhi1 : ℝ := 0.5 * Real.pi - galPhi0

/-- `ugrid`, shallow_water_equations.py 209-223: the zonal wind at latitude `lat`. -/
noncomputable def galJet (lat : ℝ) : ℝ :=
  if galPhi0 < lat ∧ lat < galPhi1 then
    80 / Real.exp (-4 / (galPhi1 - galPhi0) ^ 2) * Real.exp (1 / ((lat - galPhi0) * (lat - galPhi1)))
  else 0

/-- `hbump`, shallow_water_equations.py 225. -/
noncomputable def galBump (hamp lat lon : ℝ) : ℝ :=
  hamp * Real.cos lat * Real.exp (-((lon - Real.pi) / (1 / 3)) ^ 2) * Real.exp (-(0.25 * Real.pi - lat) ^ 2 / (1 / 15))

/-- The stacked wind, shallow_water_equations.py 223-228. -/
noncomputable def SweFull.galWind (F : SweFull) (e k : ℕ) : ℝ := if e = 0 then galJet (F.lats k) else 0

/-- `galewsky_initial_condition`, shallow_water_equations.py 205-244. -/
noncomputable def SweFull.galewsky (be : C2R) (F : SweFull) : Except PyErr (Ten3 ℂ) :=
  let S := F.core
  match S.vrtdivspec ⟨2, S.nlat, S.nlon, fun e k _ => F.galWind e k⟩ with
  | .error e => .error e
  | .ok vd =>
    match S.spec2grid be vd with
    | .error e => .error e
    | .ok vg =>
      match S.vrtdivspec ⟨2, S.nlat, S.nlon, fun e k j => F.galWind e k * (vg.val e k j + S.coriolis k)⟩ with
      | .error e => .error e
      | .ok t =>
        match S.sht.forward ⟨S.nlat, S.nlon, fun k _ => 0.5 * (F.galWind 0 k ^ 2 + F.galWind 1 k ^ 2)⟩ with
        | .error e => .error e
        | .ok ke =>
          match S.sht.forward ⟨S.nlat, S.nlon, fun k j => F.gravity * (F.havg + galBump F.hamp (F.lats k) (F.lons j))⟩ with
          | .error e => .error e
          | .ok h => .ok ⟨3, S.lmax, S.mmax, fun e l m =>
              if l < m then 0
              else if e = 0 then (S.invlap l : ℂ) * t.val 0 l m - ke.val l m + h.val l m
              else vd.val (e - 1) l m⟩

/-! ### Random initial condition -/

/-- `random_initial_condition`, shallow_water_equations.py 246-288; `xi` are the random numbers. `self.gravity * self.havg < 0`, where the square root is NaN, is
outside the model. -/
noncomputable def SweFull.randomState (F : SweFull) (mach : ℝ) (xi : ℕ → ℕ → ℕ → ℂ) : Ten3 ℂ :=
  let noise := fun e l m : ℕ => if l < 120 ∧ m < 120 then (Real.sqrt (4 * Real.pi / 120 / (120 + 1)) : ℂ) * xi e l m else 0
  ⟨3, F.core.lmax, F.core.mmax, fun e l m =>
    if l < m then 0
    else if e = 0 then (F.gravity : ℂ) * F.hamp * noise 0 l m
      + (if l = 0 ∧ m = 0 then (Real.sqrt (4 * Real.pi) : ℂ) * F.havg * F.gravity else 0)
    else (mach : ℂ) * noise e l m * (Real.sqrt (F.gravity * F.havg) : ℂ) / (F.core.radius : ℂ)⟩

/-! ### The dataset -/

/-- Arguments of `PdeDataset.__init__`, pde_dataset.py 73-85. -/
structure PdeDsArgs where
  dt : ℝ
  nsteps : ℤ
  nlat : ℕ
  nlon : ℕ
  grid : String
  pde : String
  ictype : String
  numExamples : ℕ
  normalize : Bool

/-- State of a `PdeDataset`. -/
structure PdeDs where
  solver : SweFull
  nsteps : ℤ
  ictype : String
  numExamples : ℕ
  normalize : Bool
  mean : ℕ → ℝ
  var : ℕ → ℝ

/-- The solver's arguments, pde_dataset.py 99-102, with its default physical constants, shallow_water_equations.py 76. -/
noncomputable def PdeDsArgs.solver (a : PdeDsArgs) : SweArgs :=
  ⟨a.nlat, a.nlon, a.dt / a.nsteps, some (((a.nlat + 2) / 3 : ℕ) : ℤ), some (((a.nlat + 2) / 3 : ℕ) : ℤ), a.grid, 6371220, 7292 / 100000000⟩

/-- The default physical constants, shallow_water_equations.py 76. -/
noncomputable def swePhysDefault : SwePhys := ⟨980616 / 100000, 10000, 120⟩

/-- `_get_sample`, pde_dataset.py 123-134; `xi` are the random numbers. For another `ictype` the name `inp` is not bound. -/
noncomputable def pdeSample (be : C2R) (F : SweFull) (nsteps : ℤ) (ictype : String) (xi : ℕ → ℕ → ℕ → ℂ) : Except PyErr (Ten3 ℝ × Ten3 ℝ) :=
  match (if ictype = "random" then .ok (F.randomState 0.2 xi) else if ictype = "galewsky" then F.galewsky be else .error .nameError) with
  | .error e => .error e
  | .ok inp =>
    match F.core.timestep be inp nsteps.toNat with
    | .error e => .error e
    | .ok tar =>
      match F.core.spec2grid be inp with
      | .error e => .error e
      | .ok gi =>
        match F.core.spec2grid be tar with
        | .error e => .error e
        | .ok gt => .ok (gi, gt)

/-- `torch.mean(x, dim=(-1, -2))` of channel `c`. -/
noncomputable def chanMean (x : Ten3 ℝ) (c : ℕ) : ℝ := (∑ k ∈ range x.d1, ∑ j ∈ range x.d2, x.val c k j) / (x.d1 * x.d2 : ℕ)

/-- `torch.var(x, dim=(-1, -2))` of channel `c`: divided by the number of points minus one. -/
noncomputable def chanVar (x : Ten3 ℝ) (c : ℕ) : ℝ :=
  (∑ k ∈ range x.d1, ∑ j ∈ range x.d2, (x.val c k j - chanMean x c) ^ 2) / ((x.d1 * x.d2 : ℕ) - 1)

/-- `PdeDataset.__init__`, pde_dataset.py 73-111; `xi0` are the random numbers of the sample the statistics are taken from. -/
noncomputable def PdeDs.init (env : Env) (be : C2R) (a : PdeDsArgs) (xi0 : ℕ → ℕ → ℕ → ℂ) : Except PyErr PdeDs :=
  if a.pde ≠ "shallow water equations" then .error .notImplemented
  else if a.nsteps = 0 then .error .zeroDivision
  else
    match SweFull.init env a.solver swePhysDefault with
    | .error e => .error e
    | .ok F =>
      if a.normalize then
        match pdeSample be F a.nsteps a.ictype xi0 with
        | .error e => .error e
        | .ok (inp, _) => .ok ⟨F, a.nsteps, a.ictype, a.numExamples, true, chanMean inp, chanVar inp⟩
      else .ok ⟨F, a.nsteps, a.ictype, a.numExamples, false, fun _ => 0, fun _ => 0⟩

/-- `__len__`, pde_dataset.py 113-115. -/
def PdeDs.len (D : PdeDs) : ℕ := if D.ictype = "random" then D.numExamples else 1

/-- `set_initial_condition`, pde_dataset.py 117-118. The statistics stay. -/
def PdeDs.setInitialCondition (D : PdeDs) (ictype : String) : PdeDs := { D with ictype := ictype }

/-- `set_num_examples`, pde_dataset.py 120-121. -/
def PdeDs.setNumExamples (D : PdeDs) (n : ℕ) : PdeDs := { D with numExamples := n }

/-- `(x - self.inp_mean) / torch.sqrt(self.inp_var)`, pde_dataset.py 156-158. -/
noncomputable def PdeDs.scale (D : PdeDs) (x : Ten3 ℝ) : Ten3 (Option ℝ) :=
  ⟨x.d0, x.d1, x.d2, fun c k j => if D.normalize then
      (if D.var c = 0 then none else some ((x.val c k j - D.mean c) / Real.sqrt (D.var c))) else some (x.val c k j)⟩

/-- `__getitem__`, pde_dataset.py 136-160: the index is not used; `xi` are the random numbers of this call. -/
noncomputable def PdeDs.getitem (be : C2R) (D : PdeDs) (_index : ℤ) (xi : ℕ → ℕ → ℕ → ℂ) : Except PyErr (Ten3 (Option ℝ) × Ten3 (Option ℝ)) :=
  match pdeSample be D.solver D.nsteps D.ictype xi with
  | .error e => .error e
  | .ok (inp, tar) => .ok (D.scale inp, D.scale tar)

end Verif.SHT
