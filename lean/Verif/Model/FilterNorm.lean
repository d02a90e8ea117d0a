import Verif.Model.FilterBasis
/-!
Model of the parts of filter_basis.py that build a filter basis from the user's arguments and normalise it: the numerical norms of
the base class, the constructors, the values of the Fourier-Bessel basis and the dispatch of `get_filter_basis`. SciPy's Bessel
functions `jn` and their zeros `jn_zeros` are parameters.
-/
namespace Verif.Filter
open Verif Finset

/-- `FilterBasis.compute_l2_norms`, filter_basis.py 112-135, of the basis function `val` (a function of `(r_cutoff, r, phi)`): midpoints
in radius, left ends in angle; the dense tensor is zero where nothing is stored. -/
noncomputable def l2Norm (val : ℝ → ℝ → ℝ → Option ℝ) (rc : ℝ) (nr nphi : ℕ) : ℝ :=
  let dphi := 2 * Real.pi / nphi
  let dr := rc / nr
  let r := fun i : ℕ => ((i : ℝ) + 0.5) * dr
  let phi := fun j : ℕ => (j : ℝ) * dphi
  Real.sqrt (∑ i ∈ range nr, ∑ j ∈ range nphi, ((val rc (r i) (phi j)).getD 0) ^ 2 * r i * dr * dphi)

/-- The argument `kernel_shape`: an integer, or a tuple or list of integers. -/
inductive ShapeArg where
  | int (n : ℕ)
  | seq (l : List ℕ)

/-- `HarmonicFilterBasis.__init__`, filter_basis.py 332-343: the stored `kernel_shape`. -/
def harmonicShape : ShapeArg → Except PyErr (ℕ × ℕ)
  | .int n => .ok (n, n)
  | .seq [a, b] => .ok (a, b)
  | .seq _ => .error .valueError

/-- `HarmonicFilterBasis.__init__`, filter_basis.py 345-346: the stored `_l2_norms`. They are computed while `_l2_norms` is still
`None`, with the defaults of `compute_l2_norms` and of `compute_support_vals`. -/
noncomputable def harmonicNorms (s1 : ℕ) (normalize : Bool) : Option (ℕ → ℝ) :=
  if normalize then some fun k => l2Norm (fun rc r phi => harmonicVal s1 none 1 rc r phi k) 1 50 200 else none

/-- `ZernikeFilterBasis.__init__`, filter_basis.py 407-417. -/
def zernikeShape : ShapeArg → Except PyErr ℕ
  | .int n => .ok n
  | .seq (n :: _) => .ok n
  | .seq [] => .error .indexError

/-- `FourierBesselFilterBasis.__init__`, filter_basis.py 509-524. -/
def fbShape : ShapeArg → Except PyErr (ℕ × ℕ)
  | .int n => .ok (n, n)
  | .seq [n] => .ok (n, n)
  | .seq [a, b] => .ok (a, b)
  | .seq _ => .error .valueError

/-- One entry of `FourierBesselFilterBasis.compute_l2_norms`, filter_basis.py 563-579. -/
noncomputable def fbNorm (jn : ℕ → ℝ → ℝ) (rc alpha : ℝ) (m : ℕ) : ℝ :=
  let radial := max (|jn (m + 1) alpha| / Real.sqrt 2) 1e-12
  let angularSqrt := if m = 0 then Real.sqrt (2 * Real.pi) else Real.sqrt Real.pi
  max (rc * radial * angularSqrt) 1e-12

/-- `FourierBesselFilterBasis.compute_support_vals`, filter_basis.py 581-645, at one point. -/
noncomputable def fbVal (jn : ℕ → ℝ → ℝ) (zero : ℕ → ℕ → ℝ) (nmax mmax : ℕ) (rc r phi : ℝ) (k : ℕ) : Option ℝ :=
  if r ≤ rc then
    match (fbIndex zero nmax mmax)[k]? with
    | none => none
    | some (alpha, m, _, cosine) =>
      let radial := jn m (alpha * (r / rc))
      let ang := if cosine then Real.cos (m * phi) else Real.sin (m * phi)
      some (radial * ang / fbNorm jn 1 alpha m)
  else none

/-- A filter basis as its users see it: the number of functions and their values at `(r_cutoff, r, phi)`. -/
structure FBasis where
  size : ℕ
  val : ℝ → ℝ → ℝ → ℕ → Option ℝ

/-- `get_filter_basis`, filter_basis.py 150-203. The cache and the deprecation warning are not modelled. -/
noncomputable def getFilterBasis (jn : ℕ → ℝ → ℝ) (zero : ℕ → ℕ → ℝ) (kernelShape : ShapeArg) (basisType : String) :
    Except PyErr FBasis :=
  if basisType = "piecewise linear" then
    match plShape (match kernelShape with | .int n => [n] | .seq l => l) with
    | .error e => .error e
    | .ok (nr, nphi) => .ok ⟨plKernelSize nr nphi, fun rc r phi k => plVal nr nphi rc r phi k⟩
  else if basisType = "harmonic" then
    match harmonicShape kernelShape with
    | .error e => .error e
    | .ok (s0, s1) => .ok ⟨harmonicKernelSize s0 s1, fun rc r phi k => harmonicVal s1 (harmonicNorms s1 true) 1 rc r phi k⟩
  else if basisType = "zernike" then
    match zernikeShape kernelShape with
    | .error e => .error e
    | .ok n => .ok ⟨zernikeKernelSize n, fun rc r phi k => zernikeVal n rc r phi k⟩
  else if basisType = "fourier-bessel" then
    match fbShape kernelShape with
    | .error e => .error e
    | .ok (nmax, mmax) => .ok ⟨(fbIndex zero nmax mmax).length, fun rc r phi k => fbVal jn zero nmax mmax rc r phi k⟩
  else if basisType = "morlet" then
    match harmonicShape kernelShape with
    | .error e => .error e
    | .ok (s0, s1) => .ok ⟨harmonicKernelSize s0 s1, fun rc r phi k => harmonicVal s1 (harmonicNorms s1 false) 1 rc r phi k⟩
  else .error .valueError

end Verif.Filter
