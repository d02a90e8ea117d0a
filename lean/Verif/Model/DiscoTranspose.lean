import Verif.Model.DiscoGeom
/-!
The constructor of the transposed DISCO convolution: `torch_harmonics/disco/convolution.py`, `DiscreteContinuousConvTransposeS2.__init__`.
-/
namespace Verif.Disco
open Verif Verif.Dist Verif.Quad Verif.Filter

/-- The part of `DiscreteContinuousConvTransposeS2.__init__` that fixes the cutoff and builds the entries, convolution.py 917-944
(`theta_eps` is its default `1e-3`). The shapes and grids are exchanged (933-944): the filter is centred at the points of the coarse
input grid and evaluated on the fine output grid. `theta = none` is the default argument. -/
noncomputable def transEntries (gauss : ℕ → Rule) (tol : ℝ) (maxiter : ℕ) (nlatIn nlonIn nlatOut nlonOut : ℕ) (B : Basis)
    (gridIn gridOut mode : String) (theta : Option ℝ) : Except PyErr (List (Entry ℝ)) :=
  if nlonIn = 0 then .error .zeroDivision
  else if nlonOut % nlonIn ≠ 0 then .error .valueError
  else if theta = none ∧ nlatIn = 1 then .error .zeroDivision
  else
    let cutoff : ℝ := theta.getD (Real.pi / ((nlatIn : ℝ) - 1))
    if cutoff ≤ 0 then .error .valueError
    else
      match precompute gauss tol maxiter ⟨nlatOut, nlonOut, nlatIn, nlonIn, B, gridOut, gridIn, cutoff, 1 / 10 ^ 3, true, mode, true⟩ with
      | .error e => .error e
      | .ok r => .ok r.1

end Verif.Disco
