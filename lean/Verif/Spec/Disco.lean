import Mathlib.Algebra.BigOperators.Intervals
import Mathlib.Data.Real.Basic
/-!
Independent specification of the discrete-continuous convolution: a filter is a list of taps, each relating an output
latitude to one input grid point at output longitude 0; at output longitude `p` the whole stencil is rotated.
-/
namespace Verif.Spec
open Finset

/-- A filter tap: kernel index, output latitude, input latitude, input longitude (for output longitude 0), value. -/
structure Tap (R : Type) where
  ker : ℕ
  latOut : ℕ
  latIn : ℕ
  lonIn : ℕ
  val : R

variable {R : Type} [CommSemiring R]

/-- The column of the input that a tap touches at output longitude `p`. -/
def Tap.column (a : Tap R) (nlonIn nlonOut p : ℕ) : ℕ := (a.lonIn + p * (nlonIn / nlonOut)) % nlonIn

/-- The documented sum: kernel index `k`, output latitude `t`, output longitude `p`. -/
def discoSum (taps : List (Tap R)) (nlonIn nlonOut : ℕ) (x : ℕ → ℕ → R) (k t p : ℕ) : R :=
  (taps.map fun a => if a.ker = k ∧ a.latOut = t then a.val * x a.latIn (a.column nlonIn nlonOut p) else 0).sum

/-- The transposed sum: every tap sends the value at kernel index, output latitude and output longitude `p` back to the
grid point it read from. -/
def discoAdjoint (taps : List (Tap R)) (nlonIn nlonOut : ℕ) (y : ℕ → ℕ → ℕ → R) (i j : ℕ) : R :=
  (taps.map fun a => ∑ p ∈ range nlonOut,
    if a.latIn = i ∧ a.column nlonIn nlonOut p = j then a.val * y a.ker a.latOut p else 0).sum

/-- Taps that fit `K` kernels, `nlatOut` output rows and an `nlatIn × nlonIn` input grid. -/
def Fits (taps : List (Tap R)) (K nlatOut nlatIn nlonIn : ℕ) : Prop :=
  ∀ a ∈ taps, a.ker < K ∧ a.latOut < nlatOut ∧ a.latIn < nlatIn ∧ a.lonIn < nlonIn

/-- The sum of `f` over the taps of filter `k` at output latitude `t`. -/
def rowSum (taps : List (Tap ℝ)) (k t : ℕ) (f : Tap ℝ → ℝ) : ℝ :=
  (taps.map fun a => if a.ker = k ∧ a.latOut = t then f a else 0).sum

/-- The sum of `f` over the taps of filter `k` that touch input latitude `i` (the transposed reading). -/
def colSum (taps : List (Tap ℝ)) (k i : ℕ) (f : Tap ℝ → ℝ) : ℝ :=
  (taps.map fun a => if a.ker = k ∧ a.latIn = i then f a else 0).sum

/-- `taps'` is `taps` with other values: same filters, same grid points, same order. -/
def SameStencil (taps taps' : List (Tap ℝ)) : Prop :=
  taps'.map (fun a => (a.ker, a.latOut, a.latIn, a.lonIn)) = taps.map (fun a => (a.ker, a.latOut, a.latIn, a.lonIn))

end Verif.Spec
