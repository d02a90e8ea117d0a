import Verif.Model.LayoutCuda
/-!
Specification for the layout conversions on the GPU: which orders of execution a launch may have.
-/
namespace Verif.GpuLayout

/-- The iteration belongs to a launch of `gx × gy × gz` blocks of `X × Y` threads, whose loops are `for (j = 0; j < X; j += Y)`. -/
def Step.Of (X Y gx gy gz : ℕ) (s : Step) : Prop :=
  s.bx < gx ∧ s.by' < gy ∧ s.bz < gz ∧ s.tx < X ∧ s.ty < Y ∧ s.j < X ∧ Y ∣ s.j

/-- The iterations take effect in an order the GPU may choose: every iteration of every thread of every block exactly once, and no iteration of a block from behind
its barrier before one of the same block from before the barrier. -/
structure Schedule (X Y gx gy gz : ℕ) (l : List Step) : Prop where
  once : l.Nodup
  all : ∀ s, s ∈ l ↔ s.Of X Y gx gy gz
  barrier : l.Pairwise fun s t => s.store = true → t.store = false → (s.bx, s.by', s.bz) ≠ (t.bx, t.by', t.bz)

end Verif.GpuLayout
