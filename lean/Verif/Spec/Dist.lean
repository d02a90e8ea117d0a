import Verif.Model.Collectives
/-!
Independent specification of balanced distribution: closed forms for the size and start of the block that a
rank owns, and what it means for a local tensor to be "the block of rank `r`" of a global one.
-/
namespace Verif.Spec
open Verif.Dist

/-- Number of elements owned by rank `r` out of `P` when `n` elements are shared as evenly as possible,
larger blocks first. -/
def blockSize (n P r : ℕ) : ℕ := n / P + (if r < n % P then 1 else 0)

/-- First element owned by rank `r`. -/
def blockStart (n P r : ℕ) : ℕ := r * (n / P) + min r (n % P)

/-- `x` equals the global vector `X` of length `n`. -/
def IsWhole {α} (n : ℕ) (X : ℕ → α) (x : Vec α) : Prop :=
  x.len = n ∧ ∀ i < n, x.val i = X i

/-- `x` is the block of rank `r` of the global vector `X` of length `n`. -/
def IsBlock {α} (n P : ℕ) (X : ℕ → α) (r : ℕ) (x : Vec α) : Prop :=
  x.len = blockSize n P r ∧ ∀ i < blockSize n P r, x.val i = X (blockStart n P r + i)

/-- `x` is the rank-`r` block along dim 0 of the global `n0 × n1` tensor `X`. -/
def IsBlock0 {α} (n0 n1 P : ℕ) (X : ℕ → ℕ → α) (r : ℕ) (x : Mat α) : Prop :=
  x.d0 = blockSize n0 P r ∧ x.d1 = n1 ∧
    ∀ i < blockSize n0 P r, ∀ j < n1, x.val i j = X (blockStart n0 P r + i) j

/-- `x` is the rank-`r` block along dim 1 of the global `n0 × n1` tensor `X`. -/
def IsBlock1 {α} (n0 n1 P : ℕ) (X : ℕ → ℕ → α) (r : ℕ) (x : Mat α) : Prop :=
  x.d0 = n0 ∧ x.d1 = blockSize n1 P r ∧
    ∀ i < n0, ∀ j < blockSize n1 P r, x.val i j = X i (blockStart n1 P r + j)

/-- Inner product of two vectors of length `n` over a commutative ring. -/
def dot {R} [CommRing R] (n : ℕ) (x y : ℕ → R) : R := ∑ i ∈ Finset.range n, x i * y i

end Verif.Spec
