import Verif.Spec.Legendre
import Verif.Spec.Quadrature
/-!
Independent specification of the Legendre-Gauss-Lobatto rule (Abramowitz and Stegun 25.4.32).
-/
namespace Verif.Spec
open Verif.Quad Polynomial

/-- The `n`-point Gauss-Lobatto rule on `[-1,1]`: the two end points and the zeros of the derivative of the Legendre polynomial of degree `n-1` in
increasing order, with weights `2 / (n (n-1) P_{n-1}(x)^2)`. There are `n-2` interior nodes and the derivative has degree `n-2`, so this
determines the rule. -/
structure IsLobattoRule (r : Rule) (n : ℕ) : Prop where
  size : r.n = n
  first : r.x 0 = -1
  last : r.x (n - 1) = 1
  increasing : ∀ i j, i < j → j < n → r.x i < r.x j
  interior : ∀ i, 0 < i → i + 1 < n → (derivative (legendreDeriv (n - 1) 0)).eval (r.x i) = 0
  weight : ∀ i < n, r.w i = 2 / (n * ((n : ℝ) - 1) * (legendreDeriv (n - 1) 0).eval (r.x i) ^ 2)

end Verif.Spec
