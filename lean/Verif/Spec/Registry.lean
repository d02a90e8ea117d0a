import Verif.Model.Registry
/-!
What the registry should report, read off the history alone (latest event first): the groups passed to the latest `init`, unless a
`finalize` came after it.
-/
namespace Verif.Spec.Reg
open Verif.Reg (Op)
variable {G W : Type}

/-- The `init` call that is still in force, given the history with the latest event first. -/
def inForce : List (Op G W) → Option (Option G × Option G)
  | [] => none
  | .init p a :: _ => some (p, a)
  | .finalize :: _ => none
  | .other _ :: h => inForce h

/-- The polar group that is registered. -/
def polar (h : List (Op G W)) : Option G := (inForce h).bind (·.1)
/-- The azimuth group that is registered. -/
def azimuth (h : List (Op G W)) : Option G := (inForce h).bind (·.2)

/-- The groups that a history destroys, in order (history with the latest event last): each `finalize` destroys the polar and then
the azimuth group of the `init` in force, if there is one. -/
def destroyed (past : List (Op G W)) : List (Op G W) → List G
  | [] => []
  | .finalize :: h => (polar past).toList ++ (azimuth past).toList ++ destroyed (.finalize :: past) h
  | o :: h => destroyed (o :: past) h

end Verif.Spec.Reg
