import Verif.Model.Basic
/-!
Model of `torch_harmonics/truncation.py`. Python integers are `Int`.
-/
namespace Verif.Truncation
open Verif

/-- `_truncate_lmax`, truncation.py lines 36-72. (The `UserWarning` of lines 65-69 is not modelled.)
Python's `//` by the positive constant 2 is floor division, which is `Int` division here. -/
def truncateLmax (nlat : Int) (grid : String) : Except PyErr Int :=
  if grid = "legendre-gauss" then .ok nlat
  else if grid = "lobatto" then .ok (nlat - 1)
  else if grid = "equiangular" ∨ grid = "equiangular-trapezoidal" then .ok ((nlat + 1) / 2)
  else .error .valueError

/-- `_truncate_mmax`, truncation.py lines 75-90. -/
def truncateMmax (nlon : Int) : Int := nlon / 2 + 1

/-- Python `x or <thunk>` for an optional integer: `None` and `0` are falsy. -/
def pyOr (x : Option Int) (dflt : Except PyErr Int) : Except PyErr Int :=
  match x with
  | none => dflt
  | some v => if v = 0 then dflt else .ok v

/-- `truncate_sht`, truncation.py lines 93-175 (code at 168-175). -/
def truncateSht (nlat nlon : Int) (lmax mmax : Option Int) (grid : String) :
    Except PyErr (Int × Int) := do
  let lmax ← pyOr lmax (truncateLmax nlat grid)
  let mmax ← pyOr mmax (.ok (truncateMmax nlon))
  let lmax := min lmax mmax
  let mmax := lmax
  return (lmax, mmax)

end Verif.Truncation
