import Verif.Model.Quadrature
import Verif.Model.Collectives
/-!
Model of `ResampleS2`, torch_harmonics/resample.py. The interpolation weights are real numbers (the code rounds them to float32).
`nlon_in = 1` gives the longitude weights a zero denominator (the code then stores NaN or infinity): the field `lonDiff` keeps the denominator
in view, and theorems about values assume two input longitudes.
-/
namespace Verif.Resample
open Verif Verif.Dist Verif.Quad Finset

/-- Constructor arguments, resample.py 110-119. -/
structure Args where
  nlatIn : ℕ
  nlonIn : ℕ
  nlatOut : ℕ
  nlonOut : ℕ
  gridIn : String
  gridOut : String
  mode : String

/-- State of a `ResampleS2` object. -/
structure Resampler where
  spherical : Bool
  nlatOut : ℕ
  nlonOut : ℕ
  expand : Bool
  latIdx : ℕ → ℤ
  latW : ℕ → ℝ
  lonL : ℕ → ℤ
  lonR : ℕ → ℤ
  lonDiff : ℕ → ℝ
  lonW : ℕ → ℝ
  skip : Bool

open Classical in
/-- `torch.searchsorted(a, v, side="right")` on an ascending tensor of length `n`: the number of elements `<= v`. -/
noncomputable def searchsorted (n : ℕ) (a : ℕ → ℝ) (v : ℝ) : ℕ := ((range n).filter fun i => a i ≤ v).card

/-- Python indexing: a negative index counts from the end. -/
def wrap (i : ℤ) (n : ℕ) : ℕ := if i < 0 then (i + n).toNat else i.toNat

/-- Python's bound check. -/
def inBounds (i : ℤ) (n : ℕ) : Prop := -(n : ℤ) ≤ i ∧ i < n

instance (i : ℤ) (n : ℕ) : Decidable (inBounds i n) := by unfold inBounds; infer_instance

/-- The latitudes with the two poles added, resample.py 144-147. -/
noncomputable def poleLats (n : ℕ) (lats : ℕ → ℝ) (k : ℕ) : ℝ := if k = 0 then 0 else if k = n + 1 then Real.pi else lats (k - 1)

open Classical in
/-- `expand_poles`, resample.py 143. -/
noncomputable def needsPoles (nIn : ℕ) (latsIn : ℕ → ℝ) (nOut : ℕ) (latsOut : ℕ → ℝ) : Bool :=
  decide ((∃ i < nOut, latsOut i > latsIn (nIn - 1)) ∨ ∃ i < nOut, latsOut i < latsIn 0)

open Classical in
/-- `lat_idx`, resample.py 150-152. -/
noncomputable def latIndex (n : ℕ) (lats : ℕ → ℝ) (v : ℝ) : ℤ :=
  let idx : ℤ := (searchsorted n lats v : ℤ) - 1
  if v = lats (n - 1) then idx - 1 else idx

/-- `lat_weights`, resample.py 158. -/
noncomputable def latWeight (n : ℕ) (lats : ℕ → ℝ) (v : ℝ) : ℝ :=
  let idx := latIndex n lats v
  let d := wrap idx (n - 1)
  (v - lats (wrap idx n)) / (lats (d + 1) - lats d)

/-- `lon_idx_left`, resample.py 166. -/
noncomputable def lonLeft (nIn : ℕ) (v : ℝ) : ℤ := (searchsorted nIn (precomputeLongitudes nIn) v : ℤ) - 1

open Classical in
/-- `lon_idx_right`, resample.py 167. -/
noncomputable def lonRight (nIn : ℕ) (v : ℝ) : ℤ := if v ≥ precomputeLongitudes nIn (nIn - 1) then 0 else lonLeft nIn v + 1

open Classical in
/-- `diff`, resample.py 170-171. -/
noncomputable def lonDifference (nIn : ℕ) (v : ℝ) : ℝ :=
  let diff := precomputeLongitudes nIn (wrap (lonRight nIn v) nIn) - precomputeLongitudes nIn (wrap (lonLeft nIn v) nIn)
  if diff < 0 then diff + 2 * Real.pi else diff

/-- `lon_weights`, resample.py 172. -/
noncomputable def lonWeight (nIn : ℕ) (v : ℝ) : ℝ := (v - precomputeLongitudes nIn (wrap (lonLeft nIn v) nIn)) / lonDifference nIn v

/-- The tail of the constructor, resample.py 143-179, for given input and output latitudes. The index error is the one of
`torch.diff(self.lats_in)[lat_idx]` (158) and of `self.lons_in[-1]` (167). -/
noncomputable def build (A : Args) (rin rout : Rule) : Except PyErr Resampler :=
  let expand := needsPoles rin.n rin.x rout.n rout.x
  let n := if expand then rin.n + 2 else rin.n
  let lats := if expand then poleLats rin.n rin.x else rin.x
  if ¬ ∀ i < rout.n, inBounds (latIndex n lats (rout.x i)) (n - 1) then .error .indexError
  else if A.nlonIn = 0 then .error .indexError
  else .ok ⟨A.mode == "bilinear-spherical", rout.n, A.nlonOut, expand, fun i => latIndex n lats (rout.x i), fun i => latWeight n lats (rout.x i),
    fun j => lonLeft A.nlonIn (precomputeLongitudes A.nlonOut j), fun j => lonRight A.nlonIn (precomputeLongitudes A.nlonOut j),
    fun j => lonDifference A.nlonIn (precomputeLongitudes A.nlonOut j), fun j => lonWeight A.nlonIn (precomputeLongitudes A.nlonOut j),
    decide (A.nlonIn = A.nlonOut) && decide (A.nlatIn = A.nlatOut) && (A.gridIn == A.gridOut)⟩

/-- `ResampleS2.__init__`, resample.py 110-179. -/
noncomputable def init (gauss : ℕ → Rule) (tol : ℝ) (maxiter : ℕ) (A : Args) : Except PyErr Resampler :=
  if A.mode ≠ "bilinear" ∧ A.mode ≠ "bilinear-spherical" then .error .notImplemented
  else
    match precomputeLatitudes gauss tol maxiter A.nlatIn A.gridIn with
    | .error e => .error e
    | .ok rin =>
      match precomputeLatitudes gauss tol maxiter A.nlatOut A.gridOut with
      | .error e => .error e
      | .ok rout => build A rin rout

/-- `torch.lerp`. -/
def lerp (a b w : ℝ) : ℝ := a + w * (b - a)

open Classical in
/-- The spherical branch, resample.py 190-194 and 213-217. -/
noncomputable def slerp (a b w : ℝ) : ℝ :=
  let omega := b - a
  let somega := Real.sin omega
  let start := if somega > 1e-4 then Real.sin ((1 - w) * omega) / somega else 1 - w
  let fin := if somega > 1e-4 then Real.sin (w * omega) / somega else w
  start * a + fin * b

/-- The choice of the interpolation, resample.py 187, 210. -/
noncomputable def interp (spherical : Bool) (a b w : ℝ) : ℝ := if spherical then slerp a b w else lerp a b w

/-- `_expand_poles`, resample.py 198-205. -/
noncomputable def expandPoles (x : Mat ℝ) : Mat ℝ :=
  ⟨x.d0 + 2, x.d1, fun k j =>
    if k = 0 then (∑ j' ∈ range x.d1, x.val 0 j') / x.d1
    else if k = x.d0 + 1 then (∑ j' ∈ range x.d1, x.val (x.d0 - 1) j') / x.d1
    else x.val (k - 1) j⟩

/-- `_upscale_latitudes`, resample.py 207-219. -/
noncomputable def Resampler.upLat (R : Resampler) (x : Mat ℝ) : Except PyErr (Mat ℝ) :=
  if ¬ ∀ i < R.nlatOut, inBounds (R.latIdx i) x.d0 ∧ inBounds (R.latIdx i + 1) x.d0 then .error .indexError
  else .ok ⟨R.nlatOut, x.d1, fun i j =>
    interp R.spherical (x.val (wrap (R.latIdx i) x.d0) j) (x.val (wrap (R.latIdx i + 1) x.d0) j) (R.latW i)⟩

/-- `_upscale_longitudes`, resample.py 184-196. -/
noncomputable def Resampler.upLon (R : Resampler) (x : Mat ℝ) : Except PyErr (Mat ℝ) :=
  if ¬ ∀ j < R.nlonOut, inBounds (R.lonL j) x.d1 ∧ inBounds (R.lonR j) x.d1 then .error .indexError
  else .ok ⟨x.d0, R.nlonOut, fun i j =>
    interp R.spherical (x.val i (wrap (R.lonL j) x.d1)) (x.val i (wrap (R.lonR j) x.d1)) (R.lonW j)⟩

/-- `forward`, resample.py 221-247. -/
noncomputable def Resampler.forward (R : Resampler) (x : Mat ℝ) : Except PyErr (Mat ℝ) :=
  if R.skip then .ok x
  else if R.expand ∧ x.d0 = 0 then .error .indexError
  else
    match R.upLat (if R.expand then expandPoles x else x) with
    | .error e => .error e
    | .ok y => R.upLon y

end Verif.Resample
