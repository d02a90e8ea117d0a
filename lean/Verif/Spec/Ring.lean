import Verif.Model.DistAttention
import Verif.Spec.Dist
/-!
Local tensors of distributed attention.
-/
namespace Verif.Spec.Ring
open Verif Verif.Ring Verif.Spec Verif.Spec.Attn

/-- `x` is the part of the global tensor `X : [B, C, n1, n2]` that rank `(p, a)` of a `Pp × Pa` process grid owns: a block of latitudes
and a block of longitudes. -/
structure Tile (B C n1 n2 Pp Pa : ℕ) (X : T4) (p a : ℕ) (x : RTen) : Prop where
  B_eq : x.B = B
  C_eq : x.C = C
  H_eq : x.H = blockSize n1 Pp p
  W_eq : x.W = blockSize n2 Pa a
  val_eq : ∀ b < B, ∀ c < C, ∀ h < blockSize n1 Pp p, ∀ w < blockSize n2 Pa a,
    x.val b c h w = X b c (blockStart n1 Pp p + h) (blockStart n2 Pa a + w)

/-- The part of `X` that rank `(p, a)` owns. -/
def tileOf (B C n1 n2 Pp Pa : ℕ) (X : T4) (p a : ℕ) : RTen :=
  ⟨B, C, blockSize n1 Pp p, blockSize n2 Pa a, fun b c h w => X b c (blockStart n1 Pp p + h) (blockStart n2 Pa a + w)⟩

theorem tileOf_tile (B C n1 n2 Pp Pa : ℕ) (X : T4) (p a : ℕ) : Tile B C n1 n2 Pp Pa X p a (tileOf B C n1 n2 Pp Pa X p a) :=
  ⟨rfl, rfl, rfl, rfl, fun _ _ _ _ _ _ _ _ => rfl⟩

/-- A launch does its work: `row_idx` lists every local output row once, and every output point has one thread group. -/
structure LaunchOK (B nlat nlon : ℕ) (ln : Launch) : Prop where
  rows : ((List.range nlat).map ln.rowIdx).Perm (List.range nlat)
  groups : ∀ b < B, (ln.order b).Nodup ∧ ∀ t, t ∈ ln.order b ↔ t.1 < nlat ∧ t.2 < nlon

/-- The atomic operations of a launch take effect once each, in some order. -/
structure UpLaunchOK (ln : UpLaunch) : Prop where
  max : ∀ L, (ln.order1 L).Perm L
  add : ∀ L, (ln.order3 L).Perm L

/-- The neighbours of an output point in the pattern the layer stores. -/
def neighbours (g : Grids) (P : Pattern) (ho wo : ℕ) : List (ℕ × ℕ) :=
  if g.upsample then scatterNbrs P g.nlatIn g.nlonIn g.nlonOut (g.nlonOut / g.nlonIn) ho wo
  else gatherNbrs P g.nlonIn (g.nlonIn / g.nlonOut) ho wo

/-- The stored pattern is in order: row offsets do not decrease and the columns are points of the other grid. The rows are output
latitudes, or input latitudes when upsampling. -/
def PatternOK (g : Grids) (P : Pattern) : Prop :=
  Monotone P.roff ∧ if g.upsample then P.Fits g.nlatIn (g.nlatOut * g.nlonOut) else P.Fits g.nlatOut (g.nlatIn * g.nlonIn)

end Verif.Spec.Ring
