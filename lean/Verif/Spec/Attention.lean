import Mathlib.Analysis.SpecialFunctions.Exp
/-!
What neighbourhood attention on the sphere is, in words of the API: every output point has a finite list of neighbouring input
points, and the output is the average of the values there, weighted by `quadrature weight * exp(query . key)`.
-/
namespace Verif.Spec.Attn
open Finset

/-- A tensor `x[b, c, h, w]`. -/
abbrev T4 := ℕ → ℕ → ℕ → ℕ → ℝ

/-- The average of `v` over the list `L`, with weights `w i * exp (s i)`. -/
noncomputable def softAvg {ι : Type} (L : List ι) (w s v : ι → ℝ) : ℝ :=
  (L.map fun i => w i * Real.exp (s i) * v i).sum / (L.map fun i => w i * Real.exp (s i)).sum

/-- The score of the input point `p` for the output point `(ho, wo)`: query dot key. -/
def score (C : ℕ) (k q : T4) (b ho wo : ℕ) (p : ℕ × ℕ) : ℝ := ∑ c ∈ range C, q b c ho wo * k b c p.1 p.2

/-- Neighbourhood attention: `nb ho wo` lists the neighbours of the output point `(ho, wo)`, `w` holds the quadrature weight of
every input latitude. -/
noncomputable def attention (C : ℕ) (w : ℕ → ℝ) (nb : ℕ → ℕ → List (ℕ × ℕ)) (k v q : T4) (b c ho wo : ℕ) : ℝ :=
  softAvg (nb ho wo) (fun p => w p.1) (score C k q b ho wo) (fun p => v b c p.1 p.2)

/-- The stored pattern: the entries `roff h, ..., roff (h+1) - 1` belong to row `h`. -/
structure Pattern where
  col : ℕ → ℕ
  roff : ℕ → ℕ

/-- The entries of row `h`. -/
def Pattern.row (P : Pattern) (h : ℕ) : List ℕ := List.range' (P.roff h) (P.roff (h + 1) - P.roff h)

/-- The neighbours of `(ho, wo)` when the rows of the pattern are output latitudes: the stored column is
`hi * nlonIn + wi` for `wo = 0`, and the pattern turns with the output longitude. -/
def gatherNbrs (P : Pattern) (nlonIn pscale ho wo : ℕ) : List (ℕ × ℕ) :=
  (P.row ho).map fun z => (P.col z / nlonIn, (P.col z % nlonIn + pscale * wo) % nlonIn)

/-- The neighbours of `(ho, wo)` when the rows of the pattern are input latitudes (upsampling): all input points `(hi, wi)` whose
own pattern, turned by `wi`, contains `(ho, wo)`; the stored column is `ho * nlonOut + wo` for `wi = 0`. -/
def scatterNbrs (P : Pattern) (nlatIn nlonIn nlonOut pscaleOut ho wo : ℕ) : List (ℕ × ℕ) :=
  (List.range nlatIn).flatMap fun hi => (List.range nlonIn).flatMap fun wi =>
    ((P.row hi).filter fun z =>
      P.col z / nlonOut = ho ∧ (P.col z % nlonOut + pscaleOut * wi) % nlonOut = wo).map fun _ => (hi, wi)

/-- All column indices of the rows `0 .. nrows-1` are points of a grid with `n` points. -/
def Pattern.Fits (P : Pattern) (nrows n : ℕ) : Prop := ∀ h < nrows, ∀ z ∈ P.row h, P.col z < n

/-- The inner product of two tensors of shape `(B, C, H, W)`. -/
def inner4 (B C H W : ℕ) (x y : T4) : ℝ :=
  ∑ b ∈ range B, ∑ c ∈ range C, ∑ h ∈ range H, ∑ w ∈ range W, x b c h w * y b c h w

/-- The straight line through `x` in direction `δ`. -/
def line (x δ : T4) (t : ℝ) : T4 := fun b c h w => x b c h w + t * δ b c h w

/-- `torch.roll` by `n` columns along a longitude axis with `W` points: column `j` moves to column `(j + n) mod W`. -/
def rollLon (W n : ℕ) (x : T4) : T4 := fun b c h j => x b c h ((j + (W - n % W)) % W)

/-- The single-entry tensor: one at `(b, c, h, w)`, zero elsewhere. -/
def unit4 (b c h w : ℕ) : T4 := fun b' c' h' w' => if b' = b ∧ c' = c ∧ h' = h ∧ w' = w then 1 else 0

end Verif.Spec.Attn
