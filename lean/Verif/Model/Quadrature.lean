import Mathlib.Analysis.SpecialFunctions.Trigonometric.Inverse
import Verif.Model.FFT
/-!
Model of `torch_harmonics/quadrature.py`. Reals stand for float64. `np.polynomial.legendre.leggauss` is external
and appears as a parameter `gauss`.
-/
namespace Verif.Quad
open Verif Verif.FFT Finset

/-- A quadrature rule: nodes and weights at indices `0 .. n-1`. -/
structure Rule where
  n : ℕ
  x : ℕ → ℝ
  w : ℕ → ℝ

/-- `np.linspace(a, b, n)[i]` with `endpoint=True` / `torch.linspace`. -/
noncomputable def linspace (a b : ℝ) (n i : ℕ) : ℝ := a + (b - a) * i / ((n : ℝ) - 1)

/-- `np.linspace(a, b, n, endpoint=False)[i]`. -/
noncomputable def linspaceOpen (a b : ℝ) (n i : ℕ) : ℝ := a + (b - a) * i / n

/-- The common rescaling of nodes and weights from `[-1,1]` to `[a,b]`, quadrature.py 201-202, 264-265, 322-323. -/
noncomputable def rescale (r : Rule) (a b : ℝ) : Rule :=
  ⟨r.n, fun i => (b - a) * (1 / 2) * r.x i + (b + a) * (1 / 2), fun i => r.w i * (b - a) * (1 / 2)⟩

/-- `trapezoidal_weights`, quadrature.py 140-173. Line 167 divides by `n - 1 + periodic` (Python division by zero
raises); `wlg[0]` on an empty tensor raises. -/
noncomputable def trapezoidalWeights (n : ℕ) (a b : ℝ) (periodic : Bool) : Except PyErr Rule :=
  if periodic then
    if n = 0 then .error .zeroDivision
    else .ok ⟨n, linspaceOpen a b n, fun _ => (b - a) / ((n : ℝ) - 1 + 1) * 1⟩
  else if n = 1 then .error .zeroDivision
  else if n = 0 then .error .runtimeError
  else .ok ⟨n, linspace a b n, fun i =>
    let w := (b - a) / ((n : ℝ) - 1) * 1
    -- `wlg[0] *= 0.5; wlg[-1] *= 0.5`
    let w := if i = 0 then w * (1 / 2) else w
    if i = n - 1 then w * (1 / 2) else w⟩

/-- `legendre_gauss_weights`, quadrature.py 176-204; `leggauss(0)` raises `ValueError`. -/
noncomputable def legendreGaussWeights (gauss : ℕ → Rule) (n : ℕ) (a b : ℝ) : Except PyErr Rule :=
  if n = 0 then .error .valueError else .ok (rescale (gauss n) a b)

/-- Columns of the Vandermonde matrix at one node, quadrature.py 250-254: three-term recurrence of the Legendre
polynomials. -/
noncomputable def vdm (t : ℝ) : ℕ → ℝ
  | 0 => 1
  | 1 => t
  | k + 2 => ((2 * ((k : ℝ) + 2) - 1) * t * vdm t (k + 1) - (((k : ℝ) + 2) - 1) * vdm t k) / ((k : ℝ) + 2)

/-- One Newton update of one node, quadrature.py 256. -/
noncomputable def lobattoStep (n : ℕ) (t : ℝ) : ℝ :=
  t - (t * vdm t (n - 1) - vdm t (n - 2)) / (n * vdm t (n - 1))

/-- The loop of quadrature.py 247-259 from the nodes `t`, with `fuel` iterations left; returns the last `(tlg, tmp)`: the
final nodes and the nodes at which the last `vdm` was evaluated. -/
noncomputable def lobattoLoop (n : ℕ) (tol : ℝ) : ℕ → (ℕ → ℝ) → (ℕ → ℝ) × (ℕ → ℝ)
  | 0, t => (t, t)
  | fuel + 1, t =>
    let t' : ℕ → ℝ := fun i => lobattoStep n (t i)
    -- `max(abs(tlg - tmp)) < tol`: break
    open Classical in if ∀ i < n, |t' i - t i| < tol then (t', t)
    else match fuel with
      | 0 => (t', t)
      | _ + 1 => lobattoLoop n tol fuel t'

/-- `lobatto_weights`, quadrature.py 207-267, for `maxiter >= 1`. With `n <= 1` line 243 or 251 raises. -/
noncomputable def lobattoWeights (n : ℕ) (a b tol : ℝ) (maxiter : ℕ) : Except PyErr Rule :=
  if n = 1 then .error .zeroDivision
  else if n = 0 then .error .runtimeError
  else
    let t0 : ℕ → ℝ := fun i => -Real.cos (Real.pi * i / ((n : ℝ) - 1))
    let res := lobattoLoop n tol maxiter t0
    .ok (rescale ⟨n, res.1, fun i => 2 / ((n * ((n : ℝ) - 1)) * (vdm (res.2 i) (n - 1)) ^ 2)⟩ a b)

/-- The concatenated array `v` of quadrature.py 310, for `n1 = N`: entries `2/N_i/(N_i-2)` with `N_i = 2i+1`, then
`1/N[-1]`, then zeros. `l = len(arange(1, n1, 2)) = N / 2`. -/
noncomputable def ccA (N i : ℕ) : ℝ :=
  if i < N / 2 then 2 / (2 * (i : ℝ) + 1) / (2 * (i : ℝ) + 1 - 2)
  else if i = N / 2 then 1 / (2 * ((N / 2 : ℕ) : ℝ) - 1)
  else 0

/-- `v = 0 - v[:-1] - flip(v[1:])`, quadrature.py 312. -/
noncomputable def ccV (N k : ℕ) : ℝ := 0 - ccA N k - ccA N (N - k)

/-- `g0` after its two updates, quadrature.py 314-316 (`l = N/2`, `m = N - l`). -/
noncomputable def ccG0 (N k : ℕ) : ℝ :=
  let g0 : ℝ := -1
  let g1 := if k = N / 2 then g0 + N else g0
  if k = N - N / 2 then g1 + N else g1

/-- `g`, quadrature.py 317. -/
noncomputable def ccG (N k : ℕ) : ℝ := ccG0 N k / ((N : ℝ) ^ 2 - 1 + ((N % 2 : ℕ) : ℝ))

/-- `torch.fft.ifft(u).real[j]` for a real vector `u` of length `N`. -/
noncomputable def ifftReal (N : ℕ) (u : ℕ → ℝ) (j : ℕ) : ℝ :=
  ((1 / (N : ℂ)) * ∑ k ∈ range N, (u k : ℂ) * root N (j * k)).re

/-- The Clenshaw-Curtis weights on `[-1,1]`, quadrature.py 301-319. -/
noncomputable def ccW (n j : ℕ) : ℝ :=
  if n = 2 then 1
  else
    let N := n - 1
    let w := ifftReal N (fun k => ccV N k + ccG N k)
    -- `torch.cat((wcc, wcc[:1]))`
    if j < N then w j else w 0

/-- `clenshaw_curtiss_weights`, quadrature.py 270-325; the nodes are `cos(linspace(pi, 0, n))`. -/
noncomputable def clenshawCurtissWeights (n : ℕ) (a b : ℝ) : Except PyErr Rule :=
  if n ≤ 1 then .error .valueError
  else .ok (rescale ⟨n, fun i => Real.cos (linspace Real.pi 0 n i), ccW n⟩ a b)

/-- `_precompute_quadrature_weights`, quadrature.py 41-86, with the default `tol`, `maxiter` of `lobatto_weights` as
parameters. -/
noncomputable def precomputeQuadratureWeights (gauss : ℕ → Rule) (tol : ℝ) (maxiter : ℕ) (n : ℕ) (grid : String)
    (a b : ℝ) (periodic : Bool) : Except PyErr Rule :=
  if grid ≠ "equiangular-trapezoidal" ∧ periodic then .error .valueError
  else if grid = "equiangular-trapezoidal" then trapezoidalWeights n a b periodic
  else if grid = "legendre-gauss" then legendreGaussWeights gauss n a b
  else if grid = "lobatto" then lobattoWeights n a b tol maxiter
  else if grid = "equiangular" then clenshawCurtissWeights n a b
  else .error .valueError

/-- `precompute_longitudes`, quadrature.py 89-105. -/
noncomputable def precomputeLongitudes (nlon j : ℕ) : ℝ := linspace 0 (2 * Real.pi) (nlon + 1) j

/-- `precompute_latitudes`, quadrature.py 108-137: colatitudes `flip(arccos(x))` with flipped weights. -/
noncomputable def precomputeLatitudes (gauss : ℕ → Rule) (tol : ℝ) (maxiter : ℕ) (nlat : ℕ) (grid : String) :
    Except PyErr Rule := do
  let r ← precomputeQuadratureWeights gauss tol maxiter nlat grid (-1) 1 false
  return ⟨r.n, fun k => Real.arccos (r.x (r.n - 1 - k)), fun k => r.w (r.n - 1 - k)⟩

/-- The weights chosen by `QuadratureS2.__init__`, quadrature.py 409-430. -/
noncomputable def quadratureS2Rule (gauss : ℕ → Rule) (tol : ℝ) (maxiter : ℕ) (nlat : ℕ) (grid : String) :
    Except PyErr Rule :=
  if grid = "legendre-gauss" then legendreGaussWeights gauss nlat (-1) 1
  else if grid = "lobatto" then lobattoWeights nlat (-1) 1 tol maxiter
  else if grid = "equiangular" then clenshawCurtissWeights nlat (-1) 1
  else if grid = "equiangular-trapezoidal" then trapezoidalWeights nlat (-1) 1 false
  else .error .valueError

/-- `QuadratureS2.__init__` weights (quadrature.py 403-443): `2 pi / nlon` times the latitude weight on every longitude,
divided by `4 pi` when normalising. The cast to float32 (line 440) is not modelled. -/
noncomputable def quadWeight (r : Rule) (nlon : ℕ) (normalize : Bool) (k : ℕ) : ℝ :=
  let q := 2 * Real.pi / nlon * r.w k
  if normalize then q / (4 * Real.pi) else q

/-- `QuadratureS2.forward`, quadrature.py 445-463. -/
noncomputable def quadForward (r : Rule) (nlon : ℕ) (normalize : Bool) (f : ℕ → ℕ → ℝ) : ℝ :=
  ∑ k ∈ range r.n, ∑ j ∈ range nlon, f k j * quadWeight r nlon normalize k

end Verif.Quad
