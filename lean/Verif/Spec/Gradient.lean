import Mathlib.Analysis.Complex.Basic
/-!
Independent specification: the pairing of arrays with their gradients. For a linear map `T` and an output gradient `g`, the input gradient is
the array `v` with `<f, v> = <T f, g>` for every input `f`.
-/
namespace Verif.Spec
open Finset

/-- Pairing of two real arrays. -/
def pairR (n1 n2 : ℕ) (u v : ℕ → ℕ → ℝ) : ℝ := ∑ i ∈ range n1, ∑ j ∈ range n2, u i j * v i j

/-- Pairing of a complex array with a gradient: real and imaginary parts are independent real numbers. -/
def pairC (n1 n2 : ℕ) (u v : ℕ → ℕ → ℂ) : ℝ := ∑ i ∈ range n1, ∑ j ∈ range n2, ((u i j).re * (v i j).re + (u i j).im * (v i j).im)

/-- Pairing of two arrays of pairs. -/
def pairR2 (n1 n2 : ℕ) (u v : ℕ → ℕ → ℝ × ℝ) : ℝ :=
  pairR n1 n2 (fun i j => (u i j).1) (fun i j => (v i j).1) + pairR n1 n2 (fun i j => (u i j).2) (fun i j => (v i j).2)

/-- see `pairR2` -/
def pairC2 (n1 n2 : ℕ) (u v : ℕ → ℕ → ℂ × ℂ) : ℝ :=
  pairC n1 n2 (fun i j => (u i j).1) (fun i j => (v i j).1) + pairC n1 n2 (fun i j => (u i j).2) (fun i j => (v i j).2)

end Verif.Spec
