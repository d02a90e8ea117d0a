import Verif.Model.DiscoKpacked
/-!
Specification of the number types of neighbourhood attention: which combinations of types a layer accepts, and the type of its result.
-/
namespace Verif.Spec.AttnTypes
open Verif.Disco

/-- The type of the result of a layer whose parameters have type `p`, on inputs of type `x`; `none` if the call is refused. Without autocast
inputs and parameters must have the same type. Under autocast to `a` anything but double precision is accepted. -/
def layerType : Option KDtype → KDtype → KDtype → Option KDtype
  | none, p, x => if x = p then some p else none
  | some a, p, x => if x = .f64 ∨ p = .f64 then none else some a

end Verif.Spec.AttnTypes
