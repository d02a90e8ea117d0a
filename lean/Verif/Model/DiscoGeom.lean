import Mathlib.Analysis.SpecialFunctions.Complex.Arg
import Verif.Model.Quadrature
import Verif.Model.DiscoNorm
import Verif.Model.FilterBasis
/-!
Model of `_precompute_convolution_tensor_s2` (disco/convolution.py 236-393) and of the part of
`DiscreteContinuousConvS2.__init__` that builds the filter entries. The `lru_cache` around the first is modelled in
`Model/Cache.lean` and left out here.
-/
namespace Verif.Disco
open Verif Verif.Dist Verif.Quad Verif.Filter Finset

/-- What the precomputation uses of a `FilterBasis` (filter_basis.py 67-110): `val rc r phi k`. -/
structure Basis where
  kernelSize : ℕ
  mask : List Bool
  val : ℝ → ℝ → ℝ → ℕ → Option ℝ

/-- Cartesian coordinates of the rotated position, convolution.py 340-347. -/
noncomputable def rotated (alpha beta gamma : ℝ) : ℝ × ℝ × ℝ :=
  (Real.cos alpha * Real.cos beta * Real.sin gamma + Real.cos gamma * Real.sin alpha,
    Real.sin beta * Real.sin gamma,
    -Real.cos beta * Real.sin alpha * Real.sin gamma + Real.cos alpha * Real.cos gamma)

/-- Normalisation and conversion to `(theta, phi)`, convolution.py 351-359; `arctan2(y, x)` is the argument of `x + iy`. -/
noncomputable def toPolar (v : ℝ × ℝ × ℝ) : ℝ × ℝ :=
  let norm := Real.sqrt (v.1 * v.1 + v.2.1 * v.2.1 + v.2.2 * v.2.2)
  let x := v.1 / norm
  let y := v.2.1 / norm
  let z := v.2.2 / norm
  let phi := Complex.arg ⟨x, y⟩
  (Real.arccos z, if phi < 0 then phi + 2 * Real.pi else phi)

/-- `(theta, phi)` of the input point `(latIn, lon)` as seen from the output latitude, convolution.py 340-359. -/
noncomputable def polarAt (latOut latIn lon : ℝ) : ℝ × ℝ := toPolar (rotated (-latOut) lon latIn)

/-- One pass of the loop over output latitudes, convolution.py 338-369: the entries appended for latitude `t`. -/
noncomputable def rawRow (B : Basis) (latsIn : ℕ → ℝ) (nlatIn nlonIn : ℕ) (rc latOut : ℝ) (t : ℕ) : List (Entry ℝ) :=
  (grid B.kernelSize nlatIn nlonIn fun k i j =>
    B.val rc (polarAt latOut (latsIn i) (precomputeLongitudes nlonIn j)).1 (polarAt latOut (latsIn i) (precomputeLongitudes nlonIn j)).2
      k).map fun h => ⟨h.1, t, h.2.1 * nlonIn + h.2.2.1, h.2.2.2⟩

/-- The concatenated entries, convolution.py 338-374. -/
noncomputable def rawEntries (B : Basis) (latsIn latsOut : ℕ → ℝ) (nlatIn nlonIn nlatOut : ℕ) (rc : ℝ) : List (Entry ℝ) :=
  (List.range nlatOut).flatMap fun t => rawRow B latsIn nlatIn nlonIn rc (latsOut t) t

/-- `out_roff`, convolution.py 336-337, 370. -/
noncomputable def rowOffsetsRaw (B : Basis) (latsIn latsOut : ℕ → ℝ) (nlatIn nlonIn : ℕ) (rc : ℝ) : ℕ → ℕ
  | 0 => 0
  | t + 1 => rowOffsetsRaw B latsIn latsOut nlatIn nlonIn rc t + (rawRow B latsIn nlatIn nlonIn rc (latsOut t) t).length

/-- Arguments of `_precompute_convolution_tensor_s2`, convolution.py 236-247, and the external Gauss nodes. -/
structure PreArgs where
  nlatIn : ℕ
  nlonIn : ℕ
  nlatOut : ℕ
  nlonOut : ℕ
  basis : Basis
  gridIn : String
  gridOut : String
  thetaCutoff : ℝ
  thetaEps : ℝ
  transpose : Bool
  mode : String
  merge : Bool

/-- The quadrature weights handed to the normalisation, convolution.py 313-318. -/
noncomputable def preQuad (P : PreArgs) (rin rout : Rule) : Vec ℝ :=
  if P.transpose then ⟨rout.n, fun i => rout.w i / P.nlonIn / 2⟩ else ⟨rin.n, fun i => rin.w i / P.nlonIn / 2⟩

/-- The arguments of the normalisation, convolution.py 376-388 (`eps` is its default `1e-9`). -/
noncomputable def preNorm (P : PreArgs) (rin rout : Rule) : NormArgs :=
  { nlatIn := P.nlatIn, nlonIn := P.nlonIn, nlatOut := P.nlatOut, nlonOut := P.nlonOut, kernelSize := P.basis.kernelSize,
    quad := preQuad P rin rout, thetaCutoff := P.thetaCutoff, transpose := P.transpose, merge := P.merge,
    isoMask := some P.basis.mask, eps := 1 / 10 ^ 9 }

/-- `_precompute_convolution_tensor_s2`, convolution.py 236-393: entries and row offsets. Shapes are pairs by type, so the length
checks (295-298) cannot fail; `torch.cat` of an empty list raises. -/
noncomputable def precompute (gauss : ℕ → Rule) (tol : ℝ) (maxiter : ℕ) (P : PreArgs) : Except PyErr (List (Entry ℝ) × (ℕ → ℕ)) :=
  match precomputeLatitudes gauss tol maxiter P.nlatIn P.gridIn with
  | .error e => .error e
  | .ok rin =>
    match precomputeLatitudes gauss tol maxiter P.nlatOut P.gridOut with
    | .error e => .error e
    | .ok rout =>
      if P.nlatOut = 0 then .error .runtimeError
      else
        let rc := (1 + P.thetaEps) * P.thetaCutoff
        let raw := rawEntries P.basis rin.x rout.x P.nlatIn P.nlonIn P.nlatOut rc
        match normalize (preNorm P rin rout) P.mode raw with
        | .error e => .error e
        | .ok es => .ok (es, rowOffsetsRaw P.basis rin.x rout.x P.nlatIn P.nlonIn rc)

/-- The part of `DiscreteContinuousConvS2.__init__` that fixes the cutoff and builds the entries, convolution.py 559-583
(`theta_eps` is its default `1e-3`). `theta = none` is the default argument. -/
noncomputable def convEntries (gauss : ℕ → Rule) (tol : ℝ) (maxiter : ℕ) (nlatIn nlonIn nlatOut nlonOut : ℕ) (B : Basis)
    (gridIn gridOut mode : String) (theta : Option ℝ) : Except PyErr (List (Entry ℝ)) :=
  if nlonOut = 0 then .error .zeroDivision
  else if nlonIn % nlonOut ≠ 0 then .error .valueError
  else if theta = none ∧ nlatOut = 1 then .error .zeroDivision
  else
    let cutoff : ℝ := theta.getD (Real.pi / ((nlatOut : ℝ) - 1))
    if cutoff ≤ 0 then .error .valueError
    else
      match precompute gauss tol maxiter ⟨nlatIn, nlonIn, nlatOut, nlonOut, B, gridIn, gridOut, cutoff, 1 / 10 ^ 3, false, mode, true⟩ with
      | .error e => .error e
      | .ok r => .ok r.1

end Verif.Disco
