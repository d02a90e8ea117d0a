import Verif.Model.GpuLaunch
import Mathlib.Order.Interval.Finset.Nat
import Mathlib.Data.Finset.Lattice.Fold
/-!
Specification for the order and the split of the rows of a sparse pattern.
-/
namespace Verif.GpuLaunch
open Verif Finset

/-- The rows `0, ..., n - 1` by decreasing length; rows of the same length in increasing order. -/
structure ByLength (len : ℕ → ℕ) (n : ℕ) (l : List ℕ) : Prop where
  perm : l.Perm (List.range n)
  sorted : l.Pairwise fun a b => len b < len a ∨ len a = len b ∧ a < b

/-- `idx` lists the rows `0, ..., n - 1` by decreasing length; rows of the same length in any order. -/
structure Decreasing (len : ℕ → ℕ) (n : ℕ) (idx : ℕ → ℕ) : Prop where
  lt : ∀ i < n, idx i < n
  inj : ∀ i < n, ∀ j < n, idx i = idx j → i = j
  anti : ∀ i j, i ≤ j → j < n → len (idx j) ≤ len (idx i)

/-- The length of the longest of `n` rows. -/
def longest (len : ℕ → ℕ) (n : ℕ) : ℕ := (range n).sup len

/-- A row is long if it has at least 1024 entries and at least (about) a tenth of the entries of the longest row. -/
def isLong (tenth : ℕ → ℕ) (len : ℕ → ℕ) (n r : ℕ) : Prop := 1024 ≤ len r ∧ tenth (longest len n) ≤ len r

instance (tenth len : ℕ → ℕ) (n r : ℕ) : Decidable (isLong tenth len n r) := by unfold isLong; infer_instance

/-- The split of `n` rows, from their lengths alone: how many are long, the length of the longest row if there is a long one, the length of the longest row that is
not long. -/
def splitOf (tenth : ℕ → ℕ) (len : ℕ → ℕ) (n : ℕ) : Split :=
  let long := (range n).filter (isLong tenth len n)
  ⟨long.card, if long.card ≠ 0 then longest len n else 0, ((range n).filter fun r => ¬ isLong tenth len n r).sup len⟩

end Verif.GpuLaunch
