import Verif.Model.Arr
import Verif.Spec.AttentionLayer
import Verif.Spec.Dist
/-!
The tensors of the distributed attention layer, and when the latitude blocks are large enough for it.
-/
namespace Verif.Spec.Ring
open Verif.Attn Verif.Spec Verif.Spec.Attn

/-- `x : [B, C, H, W]` is the part of the global tensor `X : [B, C, n1, n2]` that rank `(p, a)` of a `Pp × Pa` process grid owns: a
block of latitudes and a block of longitudes. -/
structure ArrTile (B C n1 n2 Pp Pa : ℕ) (X : Arr) (p a : ℕ) (x : Arr) : Prop where
  shape : x.shape = [B, C, blockSize n1 Pp p, blockSize n2 Pa a]
  at_eq : ∀ b < B, ∀ c < C, ∀ h < blockSize n1 Pp p, ∀ w < blockSize n2 Pa a,
    x.at [b, c, h, w] = X.at [b, c, blockStart n1 Pp p + h, blockStart n2 Pa a + w]

/-- Every input row that the disk of radius `rc` around an output point of a rank meets lies at most `m` rows outside of the block of
input rows of that rank. -/
def ReachAtMost (thIn thOut : ℕ → ℝ) (nlatIn nlonIn nlatOut nlonOut : ℕ) (rc : ℝ) (Pp m : ℕ) : Prop :=
  ∀ p < Pp, ∀ h < blockSize nlatOut Pp p, ∀ wo < nlonOut,
    ∀ t ∈ diskPoints thIn thOut nlatIn nlonIn nlonOut rc (blockStart nlatOut Pp p + h) wo,
      blockStart nlatIn Pp p ≤ t.1 + m ∧ t.1 < blockStart nlatIn Pp p + blockSize nlatIn Pp p + m

/-- With more than one polar rank, no rank reaches further than the block of latitudes of any rank. -/
def HalosFit (thIn thOut : ℕ → ℝ) (nlatIn nlonIn nlatOut nlonOut : ℕ) (rc : ℝ) (Pp : ℕ) : Prop :=
  Pp = 1 ∨ ∀ s < Pp, ReachAtMost thIn thOut nlatIn nlonIn nlatOut nlonOut rc Pp (blockSize nlatIn Pp s)

end Verif.Spec.Ring
