/-!
Independent specification for truncation: the table of the documentation.
-/
namespace Verif.Spec

/-- An optional bound counts as "given" when it is a non-zero integer. -/
def Given (x : Option Int) (v : Int) : Prop := x = some v ∧ v ≠ 0

/-- The four grid names known to the library. -/
def KnownGrid (grid : String) : Prop :=
  grid ∈ ["legendre-gauss", "lobatto", "equiangular", "equiangular-trapezoidal"]

/-- Documented default (non-inclusive) degree limit per grid (truncation.py docstring table, 107-122):
`GridLimit grid n L` says that the default limit of `grid` with `n` latitudes is `L`. -/
def GridLimit (grid : String) (n L : Int) : Prop :=
  (grid = "legendre-gauss" ∧ L = n) ∨
  (grid = "lobatto" ∧ L = n - 1) ∨
  ((grid = "equiangular" ∨ grid = "equiangular-trapezoidal") ∧ (2 * L = n + 1 ∨ 2 * L = n))

/-- Polynomial exactness degree of the quadrature rule behind each grid accepted by the transforms
(Gauss 2n-1, Lobatto 2n-3, Clenshaw-Curtis n-1). -/
def ExactDegree (grid : String) (n d : Int) : Prop :=
  (grid = "legendre-gauss" ∧ d = 2 * n - 1) ∨
  (grid = "lobatto" ∧ d = 2 * n - 3) ∨
  (grid = "equiangular" ∧ d = n - 1)

end Verif.Spec
