import Verif.Model.DistGrid
import Verif.Spec.Dist
/-!
Specification of distributed tensors: what it means that a rank holds its part of a global tensor.
-/
namespace Verif.Spec
open Verif.Dist Verif.SHT

/-- How one dimension is shared: `n` elements, `P` ranks, this is rank `r`. -/
structure Cut where
  n : ℕ
  P : ℕ
  r : ℕ

/-- Number of elements that the rank owns. -/
def Cut.size (c : Cut) : ℕ := blockSize c.n c.P c.r
/-- First element that the rank owns. -/
def Cut.start (c : Cut) : ℕ := blockStart c.n c.P c.r
/-- A dimension that is not shared. -/
def whole (n : ℕ) : Cut := ⟨n, 1, 0⟩

/-- `x` is the part of the global tensor `X` that the three cuts select. -/
def IsPart {α : Type} (c0 c1 c2 : Cut) (X : ℕ → ℕ → ℕ → α) (x : Ten3 α) : Prop :=
  x.d0 = c0.size ∧ x.d1 = c1.size ∧ x.d2 = c2.size ∧
    ∀ i < c0.size, ∀ j < c1.size, ∀ k < c2.size, x.val i j k = X (c0.start + i) (c1.start + j) (c2.start + k)

/-- A multi-index into the leading dimensions. -/
def LeadIndex : List ℕ → List ℕ → Prop
  | [], [] => True
  | d :: ds, i :: is => i < d ∧ LeadIndex ds is
  | _, _ => False

/-- Rank `(p, a)` of a `Pp × Pa` grid holds the block of latitudes (or degrees) number `p` and of longitudes (or orders) number `a` of
the global tensor `X` of shape `(*lead, n1, n2)`. -/
def IsTile {α : Type} (lead : List ℕ) (n1 n2 Pp Pa : ℕ) (X : List ℕ → ℕ → ℕ → α) (p a : ℕ) (x : LTen α) : Prop :=
  x.lead = lead ∧ x.d1 = blockSize n1 Pp p ∧ x.d2 = blockSize n2 Pa a ∧
    ∀ idx, LeadIndex lead idx → ∀ j < blockSize n1 Pp p, ∀ k < blockSize n2 Pa a,
      x.val idx j k = X idx (blockStart n1 Pp p + j) (blockStart n2 Pa a + k)

end Verif.Spec
