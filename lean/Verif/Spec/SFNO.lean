import Verif.Model.SHT
/-!
Specification vocabulary: stacks of fields shifted in longitude.
-/
namespace Verif.Spec
open Verif.SHT

/-- `x'` is the stack of fields `x` shifted by `s` columns: same shape, and column `j` of `x'` is column `j + s` of `x`, cyclically. -/
structure Rolled (s : ℕ) (x x' : Ten3 ℝ) : Prop where
  d0 : x'.d0 = x.d0
  d1 : x'.d1 = x.d1
  d2 : x'.d2 = x.d2
  val : ∀ c < x.d0, ∀ k < x.d1, ∀ j < x.d2, x'.val c k j = x.val c k ((j + s) % x.d2)

/-- `x` has this shape. -/
def HasShape (x : Ten3 ℝ) (a b c : ℕ) : Prop := x.d0 = a ∧ x.d1 = b ∧ x.d2 = c

end Verif.Spec
