import Verif.Model.Basic
/-!
Model of `torch_harmonics/cache.py` (the copying LRU cache) with an explicit heap, so that aliasing and in-place mutation
are visible. `functools.lru_cache` is modelled by its documented behaviour: hash key from the arguments, hit moves the
entry to the most-recent end, a miss evaluates the function and evicts the least recent entry when the cache is full,
exceptions are not cached. Keyword-argument keys, thread locks and statistics are not modelled.
-/
namespace Verif.Cache
open Verif

/-- Numeric argument types that compare equal across types in Python (`1 == 1.0 == True`). -/
inductive NumTy | int | float | bool
  deriving DecidableEq

/-- An argument: a number (hashed by value) or an object such as a tensor (hashed by identity, i.e. by address). -/
inductive Arg
  | num (ty : NumTy) (v : Int)
  | obj (addr : Nat)
  deriving DecidableEq

/-- What the function sees of an argument: the number with its type, or the content of the object. -/
inductive Seen (V : Type)
  | num (ty : NumTy) (v : Int)
  | obj (content : V)

/-- `functools._make_key` for one argument: the type is part of the key only if `typed`. -/
def keyOf (typed : Bool) : Arg → Option NumTy × Arg
  | .num ty v => if typed then (some ty, .num .int v) else (none, .num .int v)
  | .obj a => (none, .obj a)

abbrev Key := List (Option NumTy × Arg)

/-- Heap, cache (most recent first, key and address of the stored result), objects the caller holds, and the number of
evaluations of the wrapped function. -/
structure State (V : Type) where
  heap : Nat → Option V
  next : Nat
  cache : List (Key × Nat)
  held : List Nat
  evals : Nat

def State.init (V : Type) : State V := ⟨fun _ => none, 0, [], [], 0⟩

/-- Parameters of the decorator (cache.py 38); `maxsize = none` is Python's `None`, unbounded. -/
structure Cfg where
  maxsize : Option Nat
  typed : Bool
  copy : Bool

variable {V : Type}

/-- New object with content `v`; returns its address. -/
def State.alloc (s : State V) (v : V) : State V × Nat :=
  ({ s with heap := fun a => if a = s.next then some v else s.heap a, next := s.next + 1 }, s.next)

def see (heap : Nat → Option V) : Arg → Option (Seen V)
  | .num ty v => some (.num ty v)
  | .obj a => (heap a).map .obj

/-- The values the function would be called with. -/
def seeAll (heap : Nat → Option V) (args : List Arg) : Option (List (Seen V)) := args.mapM (see heap)

def trim (maxsize : Option Nat) (c : List (Key × Nat)) : List (Key × Nat) :=
  match maxsize with
  | none => c
  | some n => c.take n

/-- `cached_func(*args)` (cache.py 67, functools.lru_cache): returns the address of the stored or new result. -/
def cachedCall (cfg : Cfg) (f : List (Seen V) → Except PyErr V) (s : State V) (args : List Arg) :
    State V × Except PyErr Nat :=
  let key := args.map (keyOf cfg.typed)
  match s.cache.find? (fun e => e.1 = key) with
  | some e =>
    -- hit: move to the most-recent end
    ({ s with cache := e :: s.cache.eraseP (fun e => e.1 = key) }, .ok e.2)
  | none =>
    match seeAll s.heap args with
    | none => (s, .error .runtimeError)
    | some vals =>
      match f vals with
      | .error e => ({ s with evals := s.evals + 1 }, .error e)
      | .ok v =>
        let (s, a) := { s with evals := s.evals + 1 }.alloc v
        ({ s with cache := trim cfg.maxsize ((key, a) :: s.cache) }, .ok a)

/-- `wrapper(*args)`, cache.py 69-74: deep copy if requested; the caller now holds the returned object. -/
def call (cfg : Cfg) (f : List (Seen V) → Except PyErr V) (s : State V) (args : List Arg) : State V × Except PyErr Nat :=
  match cachedCall cfg f s args with
  | (s, .error e) => (s, .error e)
  | (s, .ok a) =>
    if cfg.copy then
      match s.heap a with
      | none => (s, .error .runtimeError)
      | some v =>
        let (s, b) := s.alloc v
        ({ s with held := b :: s.held }, .ok b)
    else ({ s with held := a :: s.held }, .ok a)

/-- An argument as the caller names it: a number or the `i`-th object it holds. -/
inductive CArg
  | num (ty : NumTy) (v : Int)
  | held (i : Nat)
  deriving DecidableEq

/-- What a caller can do: create an object, overwrite the content of the `i`-th object it holds, call the cached function
with numbers and objects it holds. -/
inductive Op (V : Type)
  | new (v : V)
  | mutate (i : Nat) (v : V)
  | call (args : List CArg)

/-- Translate held-object indices to addresses. -/
def resolve (s : State V) (args : List CArg) : Option (List Arg) :=
  args.mapM fun
    | .num ty v => some (.num ty v)
    | .held i => (s.held[i]?).map .obj

/-- One operation. The output of a call is the content of the returned object (or the exception). Ill-formed operations
(an object that is not held) do nothing. -/
def step (cfg : Cfg) (f : List (Seen V) → Except PyErr V) (s : State V) : Op V → State V × Option (Except PyErr V)
  | .new v =>
    let (s, a) := s.alloc v
    ({ s with held := a :: s.held }, none)
  | .mutate i v =>
    match s.held[i]? with
    | none => (s, none)
    | some a => ({ s with heap := fun b => if b = a then some v else s.heap b }, none)
  | .call args =>
    match resolve s args with
    | none => (s, none)
    | some as =>
      match call cfg f s as with
      | (s, .error e) => (s, some (.error e))
      | (s, .ok a) => (s, (s.heap a).map .ok)

/-- A history: final state and the outputs, in order. -/
def run (cfg : Cfg) (f : List (Seen V) → Except PyErr V) : State V → List (Op V) → State V × List (Option (Except PyErr V))
  | s, [] => (s, [])
  | s, o :: os =>
    let (s1, out) := step cfg f s o
    let (s2, outs) := run cfg f s1 os
    (s2, out :: outs)

end Verif.Cache
