import Mathlib.Analysis.SpecialFunctions.Sqrt
import Verif.Spec.Attention
import Verif.Spec.Sphere
/-!
What the attention layers compute, for channels-first tensors: project queries, keys and values; split the channels into heads;
normalise queries and keys inside a head if asked; attend inside each head; put the heads next to each other; project.
-/
namespace Verif.Spec.Attn
open Finset

/-- The learnable numbers of an attention layer. `eps` is the constant of the RMS normalisation. -/
structure Params where
  wq : ℕ → ℕ → ℝ
  wk : ℕ → ℕ → ℝ
  wv : ℕ → ℕ → ℝ
  wp : ℕ → ℕ → ℝ
  bq : Option (ℕ → ℝ)
  bk : Option (ℕ → ℝ)
  bv : Option (ℕ → ℝ)
  bp : Option (ℕ → ℝ)
  nq : Option (ℕ → ℝ)
  nk : Option (ℕ → ℝ)
  eps : ℝ

/-- A linear map of the channels, the same at every point. -/
def proj (Cin : ℕ) (W : ℕ → ℕ → ℝ) (bias : Option (ℕ → ℝ)) (x : T4) : T4 := fun b o h w =>
  (∑ c ∈ range Cin, x b c h w * W o c) + bias.elim 0 (fun f => f o)

/-- The channels of head `n` when every head has `C` of them. -/
def head (C n : ℕ) (x : T4) : T4 := fun b c h w => x b (n * C + c) h w

/-- RMS normalisation of a head with `C` channels, with weight `1 + g`; nothing if `g` is absent. -/
noncomputable def headNorm (C : ℕ) (eps : ℝ) (g : Option (ℕ → ℝ)) (x : T4) : T4 := fun b c h w =>
  match g with
  | none => x b c h w
  | some g => x b c h w / Real.sqrt ((∑ c' ∈ range C, x b c' h w ^ 2) / C + eps) * (1 + g c)

/-- Attention over a finite set of input points. -/
noncomputable def setAttention (C : ℕ) (w : ℕ → ℝ) (D : Finset (ℕ × ℕ)) (k v q : T4) (b c ho wo : ℕ) : ℝ :=
  (∑ p ∈ D, w p.1 * Real.exp (score C k q b ho wo p) * v b c p.1 p.2) / ∑ p ∈ D, w p.1 * Real.exp (score C k q b ho wo p)

/-- The whole layer: `inC` input channels, heads with `Ck` query/key and `Cv` value channels, `outC` value channels in total;
`scale` multiplies the queries, `w` holds the quadrature weight of a point of every input latitude, `nb ho wo` is the set of input
points that output point `(ho, wo)` attends to. -/
noncomputable def layer (p : Params) (inC Ck Cv outC : ℕ) (scale : ℝ) (w : ℕ → ℝ) (nb : ℕ → ℕ → Finset (ℕ × ℕ)) (k v q : T4) : T4 :=
  proj outC p.wp p.bp fun b j ho wo =>
    setAttention Ck w (nb ho wo)
      (headNorm Ck p.eps p.nk (head Ck (j / Cv) (proj inC p.wk p.bk k)))
      (head Cv (j / Cv) (proj inC p.wv p.bv v))
      (fun b c h w => headNorm Ck p.eps p.nq (head Ck (j / Cv) (proj inC p.wq p.bq q)) b c h w * scale)
      b (j % Cv) ho wo

/-- All points of a grid. -/
def wholeGrid (nlat nlon : ℕ) : Finset (ℕ × ℕ) := range nlat ×ˢ range nlon

/-- The longitude of column `j` on a grid with `nlon` columns. -/
noncomputable def lonOf (nlon j : ℕ) : ℝ := 2 * Real.pi * j / nlon

open Classical in
/-- The points of the input grid whose great-circle distance from the output point is at most `rc`. -/
noncomputable def diskPoints (thIn thOut : ℕ → ℝ) (nlatIn nlonIn nlonOut : ℕ) (rc : ℝ) (ho wo : ℕ) : Finset (ℕ × ℕ) :=
  (wholeGrid nlatIn nlonIn).filter fun p =>
    geodesic (point (thIn p.1) (lonOf nlonIn p.2)) (point (thOut ho) (lonOf nlonOut wo)) ≤ rc

end Verif.Spec.Attn
