import Mathlib.Analysis.SpecialFunctions.Integrals.Basic
/-!
Specification vocabulary: Bessel functions of the first kind.
-/
namespace Verif.Spec

/-- The Bessel function `J_m` of integer order, by Bessel's integral. -/
noncomputable def besselJ (m : ℤ) (x : ℝ) : ℝ := (∫ t in (0 : ℝ)..Real.pi, Real.cos (m * t - x * Real.sin t)) / Real.pi

/-- The sequence of functions from which the harmonic filters are built, in the order of the index: `1, sin(pi x), cos(pi x), sin(2 pi x), cos(2 pi x), ...`. -/
noncomputable def trigSeq : ℕ → ℝ → ℝ
  | 0, _ => 1
  | n + 1, x => if n % 2 = 0 then Real.sin ((n / 2 + 1 : ℕ) * Real.pi * x) else Real.cos ((n / 2 + 1 : ℕ) * Real.pi * x)

/-- The contract of SciPy's `jn_zeros` on the orders up to `mmax` and the first `nmax` zeros: `zero m n` is positive, a zero of `J_m`, and
strictly increasing in `n`. -/
structure BesselZeros (zero : ℕ → ℕ → ℝ) (nmax mmax : ℕ) : Prop where
  pos : ∀ m n, m ≤ mmax → 1 ≤ n → n ≤ nmax → 0 < zero m n
  root : ∀ m n : ℕ, m ≤ mmax → 1 ≤ n → n ≤ nmax → besselJ m (zero m n) = 0
  incr : ∀ m n n', m ≤ mmax → 1 ≤ n → n < n' → n' ≤ nmax → zero m n < zero m n'

/-- A Hann window in radius times a product of two functions of the sequence `trigSeq` in the Cartesian coordinates of the disk, at
relative radius `u`. -/
noncomputable def harmonicFn (a b : ℕ) (u phi : ℝ) : ℝ :=
  (1 + Real.cos (Real.pi * u)) / 2 * (trigSeq a (u * Real.sin phi) * trigSeq b (u * Real.cos phi))

end Verif.Spec
