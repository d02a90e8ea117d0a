import Mathlib.Analysis.SpecialFunctions.Trigonometric.Basic
import Mathlib.Analysis.SpecialFunctions.Sqrt
import Mathlib.Data.Nat.Factorial.Basic
import Mathlib.Data.Int.Log
import Verif.Model.Basic
/-!
Model of the filter bases, filter_basis.py. A basis is a family of functions of the polar coordinates `(r, phi)` on a disk of
radius `rc`, indexed by the kernel index `k`; a value `none` says that the point is outside the stored support. The tensors of the
code apply this pointwise (`grid` below). The constructors, the numerical norms and the values of the Fourier-Bessel
basis are in Model/FilterNorm.
-/
namespace Verif.Filter
open Verif Finset

/-- `torch.argwhere(cond)` over `(kernel, lat, lon)` followed by the values at the hits, filter_basis.py 255-256, 286-292 and the
like: the hits come in lexicographic order. -/
def grid {α : Type} (K H W : ℕ) (val : ℕ → ℕ → ℕ → Option α) : List (ℕ × ℕ × ℕ × α) :=
  (List.range K).flatMap fun k => (List.range H).flatMap fun i =>
    (List.range W).filterMap fun j => (val k i j).map fun v => (k, i, j, v)

/-- `_circle_dist`, filter_basis.py 55-56. -/
noncomputable def circleDist (x1 x2 : ℝ) : ℝ := min |x1 - x2| (abs (2 * Real.pi - |x1 - x2|))

/-- `PiecewiseLinearFilterBasis.__init__`, filter_basis.py 209-221: the stored `kernel_shape`. An integer argument is a
one-element list. -/
def plShape : List ℕ → Except PyErr (ℕ × ℕ)
  | [nr] => .ok (nr, 1)
  | [nr, nphi] => .ok (nr, nphi)
  | _ => .error .valueError

/-- `PiecewiseLinearFilterBasis.kernel_size`, filter_basis.py 223-226. -/
def plKernelSize (nr nphi : ℕ) : ℕ := nr / 2 * nphi + nr % 2

/-- `PiecewiseLinearFilterBasis.isotropic_mask`, filter_basis.py 228-236. -/
def plMask (nr nphi : ℕ) : List Bool :=
  if nphi = 1 then List.replicate (plKernelSize nr nphi) true
  else
    let mask := List.replicate (plKernelSize nr nphi) false
    if nr % 2 = 1 then mask.set 0 true else mask

/-- `_compute_support_vals_isotropic`, filter_basis.py 238-258, at one point. -/
noncomputable def plIso (nr : ℕ) (rc r : ℝ) (k : ℕ) : Option ℝ :=
  let dr := 2 * rc / (nr + 1)
  let ir := if nr % 2 = 1 then (k : ℝ) * dr else ((k : ℝ) + 0.5) * dr
  if |r - ir| ≤ dr ∧ r ≤ rc then some (1 - |r - ir| / dr) else none

/-- `_compute_support_vals_anisotropic`, filter_basis.py 260-317, odd number of radial collocation points (273-275, 281-292). Python's `//`
and `%` round down, as the integer operations here do for a positive divisor. -/
noncomputable def plAnisoOdd (nr nphi : ℕ) (rc r phi : ℝ) (k : ℕ) : Option ℝ :=
  let dr := 2 * rc / (nr + 1)
  let dphi := 2 * Real.pi / nphi
  let ir := (((((k : ℤ) - 1) / (nphi : ℤ) + 1 : ℤ)) : ℝ) * dr
  let iphi := (((((k : ℤ) - 1) % (nphi : ℤ) : ℤ)) : ℝ) * dphi - Real.pi
  if (|r - ir| ≤ dr ∧ r ≤ rc) ∧ (k = 0 ∨ |circleDist phi iphi| ≤ dphi) then
    some ((1 - |r - ir| / dr) * (if 0 < k then 1 - circleDist phi iphi / dphi else 1))
  else none

/-- `_compute_support_vals_anisotropic`, filter_basis.py 260-317, even number of radial collocation points (276-278, 294-315). -/
noncomputable def plAnisoEven (nr nphi : ℕ) (rc r phi : ℝ) (k : ℕ) : Option ℝ :=
  let dr := 2 * rc / (nr + 1)
  let dphi := 2 * Real.pi / nphi
  let ir := (((k / nphi : ℕ) : ℝ) + 0.5) * dr
  let iphi := ((k % nphi : ℕ) : ℝ) * dphi - Real.pi
  let rn := -r
  let phin := if Real.pi ≤ phi + Real.pi then phi - Real.pi else phi + Real.pi
  let condR := |r - ir| ≤ dr ∧ r ≤ rc
  let condPhi := |circleDist phi iphi| ≤ dphi
  let condRn := |rn - ir| ≤ dr ∧ rn ≤ rc
  let condPhin := circleDist phin iphi ≤ dphi
  if (condR ∧ condPhi) ∨ (condRn ∧ condPhin) then
    some (((if condR then 1 - |r - ir| / dr else 0) * (if condPhi then 1 - circleDist phi iphi / dphi else 0))
      + ((if condRn then 1 - |rn - ir| / dr else 0) * (if condPhin then 1 - circleDist phin iphi / dphi else 0)))
  else none

/-- `PiecewiseLinearFilterBasis.compute_support_vals`, filter_basis.py 319-325, at one point. -/
noncomputable def plVal (nr nphi : ℕ) (rc r phi : ℝ) (k : ℕ) : Option ℝ :=
  if 1 < nphi then (if nr % 2 = 1 then plAnisoOdd nr nphi rc r phi k else plAnisoEven nr nphi rc r phi k)
  else plIso nr rc r k

/-- `HarmonicFilterBasis.kernel_size`, filter_basis.py 348-351. -/
def harmonicKernelSize (n m : ℕ) : ℕ := n * m

/-- `HarmonicFilterBasis.isotropic_mask`, filter_basis.py 353-357; `mask[0] = True` raises on an empty list. -/
def harmonicMask (n m : ℕ) : Except PyErr (List Bool) :=
  if harmonicKernelSize n m = 0 then .error .indexError
  else .ok ((List.replicate (harmonicKernelSize n m) false).set 0 true)

/-- `torch.ceil(n / 2)`, filter_basis.py 387-388. -/
noncomputable def harmonicFreq (n : ℕ) : ℝ := ((⌈((n : ℝ) / 2)⌉ : ℤ) : ℝ)

/-- One factor of the tensor product, filter_basis.py 390-391. -/
noncomputable def harmonicFactor (width : ℝ) (n : ℕ) (x : ℝ) : ℝ :=
  if n % 2 = 1 then Real.sin (harmonicFreq n * Real.pi * x / width) else Real.cos (harmonicFreq n * Real.pi * x / width)

/-- `HarmonicFilterBasis.hann_window`, filter_basis.py 363-365. -/
noncomputable def hann (width r : ℝ) : ℝ := Real.cos (0.5 * Real.pi * r / width) ^ 2

/-- `HarmonicFilterBasis.compute_support_vals`, filter_basis.py 367-401, at one point; `norms` are the stored `_l2_norms` (`none`
for the deprecated "morlet" alias, which is built with `normalize=False`). -/
noncomputable def harmonicVal (s1 : ℕ) (norms : Option (ℕ → ℝ)) (width rc r phi : ℝ) (k : ℕ) : Option ℝ :=
  if r ≤ rc then
    let u := r / rc
    let x := u * Real.sin phi
    let y := u * Real.cos phi
    let v := hann width u * (harmonicFactor width (k % s1) x * harmonicFactor width (k / s1) y)
    some (match norms with | none => v | some nm => v / max (nm k) 1e-12)
  else none

/-- `ZernikeFilterBasis.kernel_size`, filter_basis.py 419-422. -/
def zernikeKernelSize (N : ℕ) : ℕ := N * (N + 1) / 2

/-- `ZernikeFilterBasis.isotropic_mask`, filter_basis.py 424-431. -/
def zernikeMask (N : ℕ) : List Bool :=
  (List.range N).flatMap fun n => (List.range (n + 1)).map fun l : ℕ => decide (2 * (l : ℤ) - (n : ℤ) = 0)

/-- `nshifts`, filter_basis.py 462-463. -/
def nshifts (N : ℕ) : List ℕ := (List.range N).map fun n => (n + 1) * n / 2

/-- `torch.searchsorted(sorted, v, right=True)`: the number of elements `<= v` (the input is ascending). -/
def searchsortedRight (l : List ℕ) (v : ℕ) : ℕ := (l.filter (· ≤ v)).length

/-- The decoding of a kernel index into `(n, l)`, filter_basis.py 465-466. -/
def zernikeDecode (N k : ℕ) : ℕ × ℕ :=
  let n := searchsortedRight (nshifts N) k - 1
  (n, k - (nshifts N).getD n 0)

/-- `ZernikeFilterBasis.zernikeradial`, filter_basis.py 433-444, for one `(n, m)` with `0 <= m <= n` of equal parity. The
loop runs to the largest bound of all the kernel indices; the terms past the own bound are masked out by `where`. -/
noncomputable def zernikeRadial (u : ℝ) (n m : ℕ) : ℝ :=
  ∑ k ∈ range ((n - m) / 2 + 1), (-1) ^ k * ((n - k).factorial : ℝ) * u ^ (n - 2 * k)
    / ((k.factorial : ℝ) * (((n + m) / 2 - k).factorial : ℝ) * (((n - m) / 2 - k).factorial : ℝ))

/-- `ZernikeFilterBasis.zernikepoly`, filter_basis.py 446-449. -/
noncomputable def zernikePoly (u phi : ℝ) (n l : ℕ) : ℝ :=
  let m : ℤ := 2 * l - n
  if m < 0 then zernikeRadial u n (-m).toNat * Real.sin (m * phi) else zernikeRadial u n m.toNat * Real.cos (m * phi)

/-- `ZernikeFilterBasis.compute_support_vals`, filter_basis.py 451-484, at one point. -/
noncomputable def zernikeVal (N : ℕ) (rc r phi : ℝ) (k : ℕ) : Option ℝ :=
  if r ≤ rc then
    let (n, l) := zernikeDecode N k
    let m : ℤ := 2 * l - n
    let eps : ℝ := if m = 0 then 2 else 1
    let norm := max (Real.sqrt (Real.pi * eps / (2 * ((n : ℝ) + 1)))) 1e-12
    some (zernikePoly (r / rc) phi n l / norm)
  else none

/-- `FourierBesselFilterBasis._build_index`, filter_basis.py 530-548, over a table of Bessel zeros `zero m n` (`n` from 1; SciPy's
`jn_zeros` is a parameter): entries `(alpha, m, n, is_cosine)` sorted by `alpha` (Python's `sort` is a stable merge sort). -/
noncomputable def fbIndex (zero : ℕ → ℕ → ℝ) (nmax mmax : ℕ) : List (ℝ × ℕ × ℕ × Bool) :=
  ((List.range (mmax + 1)).flatMap fun m =>
    (((List.range nmax).map (· + 1)).takeWhile fun n => decide (¬ zero m n > zero 0 nmax)).flatMap fun n =>
      if m > 0 then [(zero m n, m, n, true), (zero m n, m, n, false)] else [(zero m n, m, n, true)]).mergeSort
    (fun a b => decide (a.1 ≤ b.1))

/-- `FourierBesselFilterBasis.isotropic_mask`, filter_basis.py 559-561. -/
noncomputable def fbMask (zero : ℕ → ℕ → ℝ) (nmax mmax : ℕ) : List Bool := (fbIndex zero nmax mmax).map fun e => decide (e.2.1 = 0)

end Verif.Filter
