import Mathlib.Data.List.Forall2
import Verif.Model.Cache
/-!
Specification for the cache: the same client program run against the undecorated function.
-/
namespace Verif.Spec
open Verif Verif.Cache

variable {V : Type}

/-- Client-visible state without any cache: contents of the objects the client holds, newest first, each with a flag saying
whether it has been passed as an argument to the function so far. -/
abbrev Plain (V : Type) := List (V × Bool)

/-- The argument values of a call. -/
def plainArgs (p : Plain V) (args : List CArg) : Option (List (Seen V)) :=
  args.mapM fun
    | .num ty v => some (.num ty v)
    | .held i => (p[i]?).map fun e => .obj e.1

/-- Flag the objects that were passed as arguments. -/
def markUsed (p : Plain V) (args : List CArg) : Plain V :=
  p.mapIdx fun i e => (e.1, e.2 || decide (CArg.held i ∈ args))

/-- One operation against the undecorated function: a call evaluates `f` and hands over a new object. -/
def plainStep (f : List (Seen V) → Except PyErr V) (p : Plain V) : Op V → Plain V × Option (Except PyErr V)
  | .new v => ((v, false) :: p, none)
  | .mutate i v => (p.modify i (fun e => (v, e.2)), none)
  | .call args =>
    match plainArgs p args with
    | none => (p, none)
    | some vals =>
      match f vals with
      | .error e => (markUsed p args, some (.error e))
      | .ok v => ((v, false) :: markUsed p args, some (.ok v))

def plainRun (f : List (Seen V) → Except PyErr V) : Plain V → List (Op V) → List (Option (Except PyErr V))
  | _, [] => []
  | p, o :: os => (plainStep f p o).2 :: plainRun f (plainStep f p o).1 os

/-- The client never overwrites an object after passing it to the function (the results it gets back may be overwritten
freely, as long as they are not themselves used as arguments before). -/
def NoArgMutation (f : List (Seen V) → Except PyErr V) : Plain V → List (Op V) → Prop
  | _, [] => True
  | p, o :: os =>
    (match o with
      | .mutate i _ => ∀ e, p[i]? = some e → e.2 = false
      | _ => True) ∧ NoArgMutation f (plainStep f p o).1 os

/-- Numbers equal in value but of different type (`1`, `1.0`, `True`). -/
def sameUpToType : Seen V → Seen V → Prop
  | .num _ v, .num _ w => v = w
  | .obj a, .obj b => a = b
  | _, _ => False

/-- The cache tells argument types apart, or the function does not care about them. -/
def RespectsKeys (typed : Bool) (f : List (Seen V) → Except PyErr V) : Prop :=
  typed = true ∨ ∀ xs ys, List.Forall₂ sameUpToType xs ys → f xs = f ys

/-- Keys of the successful calls of a history, in order. -/
def successfulKeys (cfg : Cfg) (f : List (Seen V) → Except PyErr V) : State V → List (Op V) → List Key
  | _, [] => []
  | s, o :: os =>
    (match o, (step cfg f s o).2 with
      | .call args, some (.ok _) => ((resolve s args).map fun as => [as.map (keyOf cfg.typed)]).getD []
      | _, _ => []) ++ successfulKeys cfg f (step cfg f s o).1 os

/-- Distinct keys of a history, most recently used first. -/
def byRecency (l : List Key) : List Key := l.foldl (fun acc k => k :: acc.filter (· ≠ k)) []

def keep (maxsize : Option Nat) (l : List Key) : List Key :=
  match maxsize with
  | none => l
  | some n => l.take n

end Verif.Spec
