import Mathlib.Analysis.SpecialFunctions.Sqrt
import Mathlib.Analysis.SpecialFunctions.Trigonometric.Basic
import Verif.Model.Basic
/-!
Model of `torch_harmonics/legendre.py`. A table over `(m, l)` at one abscissa is a function `ℕ → ℕ → ℝ`; the code applies the
same operations at every abscissa of the tensor `x`, so the last axis is modelled by a function argument.
-/
namespace Verif.Legendre
open Verif

/-- `norm_factor`, legendre.py 85-86: 1 for `"ortho"`, `sqrt(4 pi)` for every other string; inverted for `inverse`. -/
noncomputable def normFactor (norm : String) (inverse : Bool) : ℝ :=
  let nf : ℝ := if norm = "ortho" then 1 else Real.sqrt (4 * Real.pi)
  if inverse then 1 / nf else nf

/-- `vdm` after line 88: zeros except entry `(0,0)`. -/
noncomputable def table0 (norm : String) (inverse : Bool) : ℕ → ℕ → ℝ :=
  fun m l => if m = 0 ∧ l = 0 then normFactor norm inverse / Real.sqrt (4 * Real.pi) else 0

/-- One iteration of the diagonal loop, legendre.py 92-93: first `vdm[l-1, l]`, then `vdm[l, l]`. -/
noncomputable def diagStep (x : ℝ) (v : ℕ → ℕ → ℝ) (l : ℕ) : ℕ → ℕ → ℝ :=
  let v1 : ℕ → ℕ → ℝ := fun m l' => if m = l - 1 ∧ l' = l then Real.sqrt (2 * l + 1) * x * v (l - 1) (l - 1) else v m l'
  fun m l' => if m = l ∧ l' = l then Real.sqrt ((2 * l + 1) * (1 + x) * (1 - x) / 2 / l) * v1 (l - 1) (l - 1) else v1 m l'

/-- `a_lm`, legendre.py 99. -/
noncomputable def aCoef (l m : ℕ) : ℝ :=
  Real.sqrt ((2 * (l : ℝ) - 1) / ((l : ℝ) - m) * (2 * (l : ℝ) + 1) / ((l : ℝ) + m))

/-- `b_lm`, legendre.py 100. -/
noncomputable def bCoef (l m : ℕ) : ℝ :=
  Real.sqrt (((l : ℝ) + m - 1) / ((l : ℝ) - m) * (2 * (l : ℝ) + 1) / (2 * (l : ℝ) - 3) * ((l : ℝ) - m - 1) / ((l : ℝ) + m))

/-- One iteration of the three-term loop, legendre.py 98-101: writes `vdm[m, l]` for all `m < l-1`. -/
noncomputable def recStep (x : ℝ) (v : ℕ → ℕ → ℝ) (l : ℕ) : ℕ → ℕ → ℝ :=
  fun m l' => if l' = l ∧ m < l - 1 then aCoef l m * x * v m (l - 1) - bCoef l m * v m (l - 2) else v m l'

/-- The two loops, legendre.py 88-101, `for l in range(1, nmax)` and `for l in range(2, nmax)`. -/
noncomputable def table (nmax : ℕ) (norm : String) (inverse : Bool) (x : ℝ) : ℕ → ℕ → ℝ :=
  let v := (List.range' 1 (nmax - 1)).foldl (diagStep x) (table0 norm inverse)
  (List.range' 2 (nmax - 2)).foldl (recStep x) v

/-- The Schmidt scaling, legendre.py 103-109. -/
noncomputable def schmidt (norm : String) (inverse : Bool) (v : ℕ → ℕ → ℝ) : ℕ → ℕ → ℝ :=
  fun m l =>
    if norm = "schmidt" then
      if inverse then v m l * Real.sqrt (2 * (l : ℝ) + 1) else v m l / Real.sqrt (2 * (l : ℝ) + 1)
    else v m l

/-- `vdm[1::2] *= -1`, legendre.py 113-114. -/
def phase (csphase : Bool) (v : ℕ → ℕ → ℝ) : ℕ → ℕ → ℝ :=
  fun m l => if csphase ∧ m % 2 = 1 then v m l * -1 else v m l

/-- Entries of the result of `legpoly` at the abscissa `x`, legendre.py 82-116. The result has shape `(mmax, lmax)`: only
entries with `m < mmax`, `l < lmax` exist, and entries outside are never read. -/
noncomputable def legpolyVal (mmax lmax : ℕ) (norm : String) (inverse csphase : Bool) (x : ℝ) : ℕ → ℕ → ℝ :=
  phase csphase (schmidt norm inverse (table (max mmax lmax) norm inverse x))

/-- `legpoly`, legendre.py 46-116. With `mmax = lmax = 0` the assignment of line 88 raises `IndexError`. -/
noncomputable def legpoly (mmax lmax : ℕ) (x : ℝ) (norm : String) (inverse csphase : Bool) : Except PyErr (ℕ → ℕ → ℝ) :=
  if max mmax lmax = 0 then .error .indexError
  else .ok (legpolyVal mmax lmax norm inverse csphase x)

/-- `_precompute_legpoly`, legendre.py 121-146: the table at colatitude `t`. -/
noncomputable def precomputeLegpoly (mmax lmax : ℕ) (t : ℝ) (norm : String) (inverse csphase : Bool) :
    Except PyErr (ℕ → ℕ → ℝ) :=
  legpoly mmax lmax (Real.cos t) norm inverse csphase

/-- `mask`, legendre.py 203, as a factor. -/
noncomputable def mask (m l : ℕ) : ℝ := if 1 ≤ m ∧ m ≤ l then 1 else 0

/-- `dpct[0]` before the phase, legendre.py 206-214. `(m_idx - 1).clamp(min=0)` is natural subtraction. -/
noncomputable def dpct0 (pct : ℕ → ℕ → ℝ) (m l : ℕ) : ℝ :=
  if m = 0 then -Real.sqrt ((l : ℝ) * (l + 1)) * pct 1 l
  else mask m l * (1 / 2) * (Real.sqrt (max (((l : ℝ) + m) * ((l : ℝ) - m + 1)) 0) * pct (m - 1) l
    - Real.sqrt (max (((l : ℝ) - m) * ((l : ℝ) + m + 1)) 0) * pct (m + 1) l)

/-- `dpct[1]` before the phase, legendre.py 217-232. -/
noncomputable def dpct1 (norm : String) (inverse : Bool) (pct : ℕ → ℕ → ℝ) (m l : ℕ) : ℝ :=
  let d := mask m l * (1 / 2) * Real.sqrt ((2 * (l : ℝ) + 1) / (2 * (l : ℝ) + 3))
    * (Real.sqrt (max (((l : ℝ) - m + 1) * ((l : ℝ) - m + 2)) 0) * pct (m - 1) (l + 1)
      + Real.sqrt (((l : ℝ) + m + 1) * ((l : ℝ) + m + 2)) * pct (m + 1) (l + 1))
  if norm = "schmidt" then
    if inverse = false then d * Real.sqrt ((2 * (l : ℝ) + 3) / (2 * (l : ℝ) + 1))
    else d * Real.sqrt ((2 * (l : ℝ) + 1) / (2 * (l : ℝ) + 3))
  else d

/-- Entries of the result of `_precompute_dlegpoly` at colatitude `t`: the pair `(dpct[0], dpct[1])`, legendre.py 186-237. The
inner table is computed without phase, and the phase is applied to the results (lines 234-235). -/
noncomputable def dlegpolyVal (mmax lmax : ℕ) (norm : String) (inverse csphase : Bool) (t : ℝ) :
    (ℕ → ℕ → ℝ) × (ℕ → ℕ → ℝ) :=
  let pct := legpolyVal (mmax + 1) (lmax + 1) norm inverse false (Real.cos t)
  (phase csphase (dpct0 pct), phase csphase (dpct1 norm inverse pct))

/-- `_precompute_dlegpoly`, legendre.py 151-237. With `mmax = 0` the assignment `dpct[0, 0, :] = ...` of line 214 raises
`IndexError`. -/
noncomputable def precomputeDlegpoly (mmax lmax : ℕ) (t : ℝ) (norm : String) (inverse csphase : Bool) :
    Except PyErr ((ℕ → ℕ → ℝ) × (ℕ → ℕ → ℝ)) :=
  if mmax = 0 then .error .indexError
  else .ok (dlegpolyVal mmax lmax norm inverse csphase t)

/-- `_precompute_legpoly` on a tensor of colatitudes: entries `[m, l, k]`. -/
noncomputable def legpolyTensor (mmax lmax : ℕ) (t : ℕ → ℝ) (norm : String) (inverse csphase : Bool) :
    Except PyErr (ℕ → ℕ → ℕ → ℝ) :=
  if max mmax lmax = 0 then .error .indexError
  else .ok (fun m l k => legpolyVal mmax lmax norm inverse csphase (Real.cos (t k)) m l)

/-- `_precompute_dlegpoly` on a tensor of colatitudes: entries `[0, m, l, k]` and `[1, m, l, k]`. -/
noncomputable def dlegpolyTensor (mmax lmax : ℕ) (t : ℕ → ℝ) (norm : String) (inverse csphase : Bool) :
    Except PyErr ((ℕ → ℕ → ℕ → ℝ) × (ℕ → ℕ → ℕ → ℝ)) :=
  if mmax = 0 then .error .indexError
  else .ok (fun m l k => (dlegpolyVal mmax lmax norm inverse csphase (t k)).1 m l,
    fun m l k => (dlegpolyVal mmax lmax norm inverse csphase (t k)).2 m l)

end Verif.Legendre
