import Mathlib.Analysis.SpecialFunctions.Pow.Real
import Mathlib.Analysis.SpecialFunctions.Sqrt
/-!
Floating-point results that need not be numbers: division by zero in torch gives NaN or an infinity, and some functions test for
NaN. Rounding is not modelled: finite numbers are reals. Zero has no sign: `x / 0` is the infinity with the sign of `x`, which is
what IEEE gives for the positive zeros that occur here (sums of non-negative numbers).
-/
namespace Verif

/-- A floating-point number: a real, NaN or an infinity. -/
inductive Flt where
  | num (x : ℝ)
  | nan
  | inf (positive : Bool)

namespace Flt
open Classical

/-- The infinity with the sign of `x`, NaN for zero. -/
noncomputable def infOf (x : ℝ) : Flt := if x = 0 then nan else inf (decide (0 < x))

/-- IEEE addition (external: torch). -/
noncomputable def add : Flt → Flt → Flt
  | num x, num y => num (x + y)
  | nan, _ => nan
  | _, nan => nan
  | inf a, inf b => if a = b then inf a else nan
  | inf a, num _ => inf a
  | num _, inf b => inf b

/-- IEEE multiplication by a number. -/
noncomputable def scale (c : ℝ) : Flt → Flt
  | num x => num (c * x)
  | nan => nan
  | inf a => infOf (if a then c else -c)

/-- IEEE division of two numbers. -/
noncomputable def div (x y : ℝ) : Flt := if y = 0 then infOf x else num (x / y)

/-- Division by a positive integer, of a possibly infinite number; `n = 0` occurs for means over nothing, where `x = 0`. -/
noncomputable def divNat (x : Flt) (n : ℕ) : Flt :=
  match x with
  | num x => div x n
  | nan => nan
  | inf a => inf a

/-- `torch.sqrt`. -/
noncomputable def sqrt : Flt → Flt
  | num x => if x < 0 then nan else num (Real.sqrt x)
  | nan => nan
  | inf a => if a then inf true else nan

/-- `c - x`. -/
noncomputable def rsub (c : ℝ) : Flt → Flt
  | num x => num (c - x)
  | nan => nan
  | inf a => inf (!a)

/-- `torch.where(torch.isnan(x), 0.0, x)`. -/
def nanToZero : Flt → Flt
  | nan => num 0
  | x => x

/-- `torch.sum` over the entries `0 .. n-1`. -/
noncomputable def sum (n : ℕ) (f : ℕ → Flt) : Flt := (List.range n).foldl (fun a i => add a (f i)) (num 0)

/-- `torch.mean` over the entries `0 .. n-1` (NaN for none). -/
noncomputable def mean (n : ℕ) (f : ℕ → Flt) : Flt := divNat (sum n f) n

end Flt
end Verif
