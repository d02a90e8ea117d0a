import Verif.Spec.Ring
import Verif.Model.DistAttentionBwd
/-!
The launches of the backward pass of distributed attention.
-/
namespace Verif.Spec.Ring
open Verif Verif.Ring Verif.Spec.Attn

/-- The launches of one round do their work: the thread groups of pass 1 cover the output points once, the atomic additions take effect once each
in some order, and `row_idx` of pass 2 lists every local output row once. -/
structure BLaunchOK (B nlat nlon : ℕ) (ln : BLaunch) : Prop where
  pass1 : LaunchOK B nlat nlon ln.pass1
  stats : ∀ b L, (ln.stats b L).Perm L
  rows : ((List.range nlat).map ln.pass2.rowIdx).Perm (List.range nlat)
  addK : ∀ b c L, (ln.pass2.orderK b c L).Perm L
  addV : ∀ b c L, (ln.pass2.orderV b c L).Perm L

/-- What a rank must return as gradient of an input: its part of `X` if the gradient is wanted, `None` otherwise. -/
def GradTile (wanted : Bool) (B C n1 n2 Pp Pa : ℕ) (X : T4) (p a : ℕ) (x : Option RTen) : Prop :=
  if wanted then ∃ y, x = some y ∧ Tile B C n1 n2 Pp Pa X p a y else x = none

end Verif.Spec.Ring
