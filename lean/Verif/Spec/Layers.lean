import Verif.Model.Layers
/-!
Specification vocabulary: the inverse error function and the pixels of a patch.
-/
namespace Verif.Spec

/-- `g` inverts the error function on the open interval from -1 to 1. -/
def IsErfInv (g : ℝ → ℝ) : Prop := ∀ v, -1 < v → v < 1 → Verif.Layers.erf (g v) = v

/-- Pixel `(r, c)` lies in the patch of row `i` and column `j`, for patches of `ph` by `pw` pixels. -/
def InPatch (ph pw i j r c : ℕ) : Prop := i * ph ≤ r ∧ r < (i + 1) * ph ∧ j * pw ≤ c ∧ c < (j + 1) * pw

end Verif.Spec
