import Verif.Model.Transformer
import Verif.Spec.AttentionLayer
import Verif.Spec.SFNO
import Verif.Props.AttentionCpu
/-!
Specification of the attention layers of the spherical transformer.
-/
namespace Verif.S2T
open Verif Verif.Dist Verif.FFT Verif.Quad Verif.SHT Verif.SFNO Verif.Spec Verif.Spec.Attn Verif.Attn Verif.Props Finset

/-- A stack of fields as a batch of one element. -/
def t4 (x : Ten3 ℝ) : T4 := fun _ c k j => x.val c k j

/-- The parameters of an attention layer with or without bias: weights and, if there are any, biases of the projections of queries, keys and values and of the output,
and no normalisation of queries and keys. -/
def given (p : AttnParams) (bias : Bool) : Params :=
  ⟨p.wq, p.wk, p.wv, p.wp, if bias then some p.bq else none, if bias then some p.bk else none, if bias then some p.bv else none, if bias then some p.bp else none,
    none, none, 0⟩

/-- The layer computes attention with `heads` heads from stacks of `C` to stacks of `D` fields on a grid: output point `(t, j)` attends to the points
`nb t j` with the quadrature weights of the grid, the scores being divided by the square root of the width of a head. Whichever kernel is used, and in
whichever order it visits the blocks of points. -/
def Attends (T : Attention) (p : Params) (r : Rule) (C D heads H W : ℕ) (nb : ℕ → ℕ → Finset (ℕ × ℕ)) : Prop :=
  ∀ run : Option CpuRun, (∀ k, run = some k → CoversBlocks ⟨heads, C / heads, D / heads, H, W, H, W⟩ k.order) → ∀ x, HasShape x C H W →
    ∃ y, T.forward run x = .ok y ∧ HasShape y D H W ∧ ∀ o < D, ∀ t < H, ∀ j < W,
      y.val o t j = layer p C (C / heads) (D / heads) D (1 / Real.sqrt ((C / heads : ℕ) : ℝ)) (fun i => 2 * Real.pi * r.w i / W) nb (t4 x) (t4 x) (t4 x) 0 o t j

/-- The points that a point of the internal grid attends to. -/
noncomputable def reach (mode : String) (r : Rule) (H W : ℕ) (theta : ℝ) : ℕ → ℕ → Finset (ℕ × ℕ) :=
  if mode = "neighborhood" then diskPoints r.x r.x H W W ((1 + 1 / 10 ^ 3) * theta) else fun _ _ => wholeGrid H W

/-- The cutoff: the given one, or `(7 / sqrt π) π / (nlat - 1)`. -/
noncomputable def thetaOf (H : ℕ) (theta : Option ℝ) : ℝ := theta.getD (7 / Real.sqrt Real.pi * Real.pi / ((H : ℝ) - 1))

end Verif.S2T
