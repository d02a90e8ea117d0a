import Verif.Model.Basic
import Mathlib.Algebra.BigOperators.Group.List.Basic
import Mathlib.Data.Real.Basic
/-!
Contiguous PyTorch tensors with their row-major memory, and the shape operations of PyTorch that the attention layers use.
-/
namespace Verif.Attn
open Verif

/-- A contiguous tensor: its shape and its entries in row-major order. -/
structure Arr where
  shape : List ℕ
  data : ℕ → ℝ

/-- The row-major position of an index. -/
def flat : List ℕ → List ℕ → ℕ
  | _ :: s, i :: is => i * s.prod + flat s is
  | _, _ => 0

/-- The index at a row-major position. -/
def unflat : List ℕ → ℕ → List ℕ
  | [], _ => []
  | _ :: s, k => (k / s.prod) :: unflat s (k % s.prod)

/-- `x[i0, i1, ...]`. -/
def Arr.at (x : Arr) (i : List ℕ) : ℝ := x.data (flat x.shape i)

/-- `x.permute(dims)`, followed by a copy into contiguous memory: `permute(dims).contiguous()`. -/
def Arr.permute (x : Arr) (dims : List ℕ) : Arr :=
  let shape := dims.map fun a => x.shape.getD a 0
  ⟨shape, fun k =>
    let i := unflat shape k
    x.data (flat x.shape ((List.range x.shape.length).map fun a => i.getD (dims.idxOf a) 0))⟩

/-- The shape `x.reshape(s)` asks for; `none` is `-1` (at most one). PyTorch raises `RuntimeError` when the numbers of elements
differ or the missing size cannot be inferred. -/
def inferShape (numel : ℕ) (s : List (Option ℕ)) : Except PyErr (List ℕ) :=
  let p := (s.map fun a => a.getD 1).prod
  if none ∈ s then
    if p = 0 then .error .runtimeError
    else if numel % p ≠ 0 then .error .runtimeError
    else .ok (s.map fun a => a.getD (numel / p))
  else if p ≠ numel then .error .runtimeError
  else .ok (s.map fun a => a.getD 0)

/-- `x.reshape(s)` of a contiguous tensor: the same memory with another shape. -/
def Arr.reshape (x : Arr) (s : List (Option ℕ)) : Except PyErr Arr :=
  match inferShape x.shape.prod s with
  | .error e => .error e
  | .ok s => .ok ⟨s, x.data⟩

/-- The tensor of shape `[n0, n1, n2, n3]` with entries `f`. -/
def Arr.of4 (n0 n1 n2 n3 : ℕ) (f : ℕ → ℕ → ℕ → ℕ → ℝ) : Arr :=
  ⟨[n0, n1, n2, n3], fun k =>
    let i := unflat [n0, n1, n2, n3] k
    f (i.getD 0 0) (i.getD 1 0) (i.getD 2 0) (i.getD 3 0)⟩

/-- The entries of a four-dimensional tensor as a function. -/
def Arr.fn4 (x : Arr) : ℕ → ℕ → ℕ → ℕ → ℝ := fun a b c d => x.at [a, b, c, d]

/-- An index inside a shape. -/
def Inside (i s : List ℕ) : Prop := List.Forall₂ (fun i n => i < n) i s

end Verif.Attn
