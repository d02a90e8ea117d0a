import Mathlib.Analysis.SpecialFunctions.Trigonometric.Basic
import Verif.Model.Disco
/-!
Model of the filter normalisation `_normalize_convolution_tensor_s2`, disco/convolution.py 69-232, over the real numbers. The
index tensor and the value tensor are one list of entries. Deprecation warnings are not modelled.
-/
namespace Verif.Disco
open Verif Verif.Dist Finset

/-- `zeros(n).scatter_add_(0, gid, src)`, convolution.py 177-178 (also 191-192, 200-201): one update per pair `(gid, src)`. -/
def scatterAdd (z : List (ℕ × ℝ)) : ℕ → ℝ :=
  z.foldl (fun a p => Function.update a p.1 (a p.1 + p.2)) (fun _ => 0)

/-- The deprecated aliases, convolution.py 139-152. -/
def normAlias (mode : String) : String :=
  if mode = "individual" then "nodal" else if mode = "area ratio" then "geometric" else mode

/-- Arguments of `_normalize_convolution_tensor_s2` other than the tensor itself, convolution.py 69-82. -/
structure NormArgs where
  nlatIn : ℕ
  nlonIn : ℕ
  nlatOut : ℕ
  nlonOut : ℕ
  kernelSize : ℕ
  quad : Vec ℝ
  thetaCutoff : ℝ
  transpose : Bool
  merge : Bool
  isoMask : Option (List Bool)
  eps : ℝ

/-- `ilat_out` of an entry, convolution.py 155, 158-166. -/
def NormArgs.latOut (A : NormArgs) (e : Entry ℝ) : ℕ := if A.transpose then e.col / A.nlonIn else e.row

/-- `ilat_in` of an entry, convolution.py 155, 158-166. -/
def NormArgs.latIn (A : NormArgs) (e : Entry ℝ) : ℕ := if A.transpose then e.row else e.col / A.nlonIn

/-- `nlat_out` after the swap, convolution.py 162 and 167. -/
def NormArgs.nlat (A : NormArgs) : ℕ := if A.transpose then A.nlatIn else A.nlatOut

/-- `q`, convolution.py 170. -/
def NormArgs.q (A : NormArgs) (e : Entry ℝ) : ℝ := A.quad.val (A.latIn e)

/-- `gid`, convolution.py 174. -/
def NormArgs.gid (A : NormArgs) (e : Entry ℝ) : ℕ := e.ker * A.nlat + A.latOut e

/-- `support_flat`, convolution.py 177-179. -/
noncomputable def NormArgs.support (A : NormArgs) (es : List (Entry ℝ)) : ℕ → ℝ :=
  scatterAdd (es.map fun e => (A.gid e, A.q e))

/-- The mask `iso`, convolution.py 185-189, as far as it is defined. -/
def NormArgs.iso (A : NormArgs) (k : ℕ) : Bool :=
  match A.isoMask with
  | some m => m.getD k false
  | none => decide (k = 0)

/-- `aniso_per_nz`, convolution.py 190. -/
def NormArgs.aniso (A : NormArgs) (k : ℕ) : ℝ := if A.iso k then 0 else 1

/-- `bias.view(-1)`, convolution.py 183-196. -/
noncomputable def NormArgs.bias (A : NormArgs) (mode : String) (es : List (Entry ℝ)) (g : ℕ) : ℝ :=
  if mode = "modal" then
    let num := scatterAdd (es.map fun e => (A.gid e, e.val * A.q e * A.aniso e.ker))
    if A.eps < |A.support es g| then num g / max (A.support es g) A.eps else 0
  else 0

/-- `scale_flat`, convolution.py 199-202. -/
noncomputable def NormArgs.scale (A : NormArgs) (mode : String) (es : List (Entry ℝ)) : ℕ → ℝ :=
  scatterAdd (es.map fun e => (A.gid e, |e.val - A.bias mode es (A.gid e)| * A.q e))

/-- `t.view(kernel_size, nlat_out).mean(dim=1)[k]`, convolution.py 210-211. -/
noncomputable def NormArgs.meanLat (A : NormArgs) (t : ℕ → ℝ) (k : ℕ) : ℝ :=
  (∑ i ∈ range A.nlat, t (k * A.nlat + i)) / A.nlat

/-- The selection of the normalised value by mode, convolution.py 205-224; `none` = unknown mode. -/
noncomputable def NormArgs.select (A : NormArgs) (mode : String) (es : List (Entry ℝ)) (e : Entry ℝ) : Option ℝ :=
  if mode = "nodal" ∨ mode = "modal" then
    some ((e.val - A.bias mode es (A.gid e)) / max (A.scale mode es (A.gid e)) A.eps)
  else if mode = "mean" then
    some ((e.val - A.meanLat (A.bias mode es) e.ker) / max (A.meanLat (A.scale mode es) e.ker) A.eps)
  else if mode = "support" then some (e.val / max (A.support es (A.gid e)) A.eps)
  else if mode = "geometric" then some (e.val / max ((1 - Real.cos A.thetaCutoff) / 2 / 2) A.eps)
  else if mode = "none" then some e.val
  else none

/-- The known modes (the branches of convolution.py 205-224). -/
def knownMode (mode : String) : Prop :=
  mode = "nodal" ∨ mode = "modal" ∨ mode = "mean" ∨ mode = "support" ∨ mode = "geometric" ∨ mode = "none"

instance (mode : String) : Decidable (knownMode mode) := by unfold knownMode; infer_instance

/-- Multiplication by the quadrature weight and the transpose correction, convolution.py 226-230. -/
noncomputable def NormArgs.finish (A : NormArgs) (e : Entry ℝ) (v : ℝ) : ℝ :=
  let v := if A.merge then v * A.q e else v
  if A.transpose ∧ A.merge then v / ((A.nlonOut : ℝ) / (A.nlonIn : ℝ)) else v

/-- The indexing `iso[0]` (line 189) or `(~iso)[ikernel]` (line 190) succeeds. -/
def NormArgs.maskOk (A : NormArgs) (es : List (Entry ℝ)) : Bool :=
  match A.isoMask with
  | some m => decide (∀ e ∈ es, e.ker < m.length)
  | none => decide (0 < A.kernelSize)

/-- `_normalize_convolution_tensor_s2`, convolution.py 69-232. A zero longitude count is reported as a division by zero, an
index beyond the quadrature weights or the mask as an index error, a group id beyond the scatter target as a runtime error.
(`mean` over zero latitudes gives NaN in the code; there are no entries then, so nothing is returned.) -/
noncomputable def normalize (A : NormArgs) (mode : String) (es : List (Entry ℝ)) : Except PyErr (List (Entry ℝ)) :=
  let mode := normAlias mode
  if A.nlonIn = 0 then .error .zeroDivision
  else if ∃ e ∈ es, A.quad.len ≤ A.latIn e then .error .indexError
  else if ∃ e ∈ es, A.kernelSize * A.nlat ≤ A.gid e then .error .runtimeError
  else if mode = "modal" ∧ ¬ A.maskOk es then .error .indexError
  else if ¬ knownMode mode then .error .valueError
  else .ok (es.map fun e => { e with val := A.finish e ((A.select mode es e).getD 0) })

end Verif.Disco
