import Verif.Model.Segformer
import Verif.Spec.UNet
import Verif.Spec.Transformer
/-!
Specification of the spherical Segformer: what its blocks and the network compute.
-/
namespace Verif.Seg
open Verif Verif.Dist Verif.Quad Verif.SHT Verif.Filter Verif.Disco Verif.Spec Verif.Props Verif.UNet Finset

/-! ### Sizes -/

/-- The number of latitudes, longitudes and channels of level `i`: the sizes are divided by the scale factor at every level, rounding down. Level 0 is the input. -/
def sH (a : NetArgs) (i : ℕ) : ℕ := a.nlat / a.scale ^ i
def sW (a : NetArgs) (i : ℕ) : ℕ := a.nlon / a.scale ^ i
def sC (a : NetArgs) : ℕ → ℕ
  | 0 => a.inChans
  | i + 1 => a.embedDims.getD i 0

/-- The name of the grid of level `i` and its latitudes: the outer grid at level 0, the internal ones below. -/
def sGrid (a : NetArgs) (i : ℕ) : String := if i = 0 then a.grid else a.gridInternal

/-- The cutoff `(k + 1) f π / (n - 1)` of the convolutions: `k` is the first entry of the shape of the filters, `f` is the square root of 2 for Zernike filters and
1/2 for the others, `n` a number of latitudes. -/
noncomputable def sCut (a : NetArgs) (n : ℕ) : ℝ :=
  (((a.shape.headD 0 : ℕ) : ℝ) + 1) * (if a.basis = "zernike" then Real.sqrt 2 else 1 / 2) * Real.pi / ((n : ℝ) - 1)

/-! ### Layers -/

/-- Layer normalisation of `C` fields at every point: subtract the mean over the channels, divide by the square root of their variance plus `1e-5`, and apply the
affine map of each channel. -/
noncomputable def layerNormAt (C : ℕ) (g b : ℕ → ℝ) (x : Ten3 ℝ) (o t j : ℕ) : ℝ :=
  let m := (∑ c ∈ range C, x.val c t j) / C
  let v := (∑ c ∈ range C, (x.val c t j - m) ^ 2) / C
  (x.val o t j - m) / Real.sqrt (v + 1 / 10 ^ 5) * g o + b o

/-- A linear map of the channels at every point, with bias. -/
noncomputable def mixAt (C : ℕ) (p : LinParams) (x : Ten3 ℝ) (o t j : ℕ) : ℝ := ∑ c ∈ range C, p.w o c * x.val c t j + p.b o

/-- The depthwise spherical convolution on a grid: every channel is filtered on its own. -/
noncomputable def depthAt (B : Basis) (r : Rule) (W : ℕ) (theta : ℝ) (w : ℕ → ℕ → ℕ → ℝ) (x : Ten3 ℝ) (o t j : ℕ) : ℝ :=
  ∑ k ∈ range B.kernelSize, filteredValue B r r W W ((1 + 1 / 10 ^ 3) * theta) (x.val o) k t j * w o 0 k

/-- Patch merging: a spherical convolution to the next level, and layer normalisation. -/
def MergeStep (B : Basis) (rin rout : Rule) (C D W H' W' : ℕ) (theta : ℝ) (p : MergeParams) (x y : Ten3 ℝ) : Prop :=
  ∃ z, Is z D H' W' (convAt B rin rout W W' C theta p.w x) ∧ Is y D H' W' (layerNormAt D p.g p.b z)

/-- Attention: `x` plus what the attention layer with `heads` heads makes of the normalised `x`. Point `(t, j)` attends to the points `nb t j`, with the quadrature
weights of the grid, the scores being divided by the square root of the width of a head. -/
def AttStep (bias : Bool) (r : Rule) (nb : ℕ → ℕ → Finset (ℕ × ℕ)) (C heads H W : ℕ) (p : WrapperParams) (x y : Ten3 ℝ) : Prop :=
  ∃ n, Is n C H W (layerNormAt C p.g p.b x) ∧ Is y C H W fun o t j => x.val o t j +
    Spec.Attn.layer (S2T.given p.attn bias) C (C / heads) (C / heads) C (1 / Real.sqrt ((C / heads : ℕ) : ℝ)) (fun i => 2 * Real.pi * r.w i / W) nb
      (S2T.t4 n) (S2T.t4 n) (S2T.t4 n) 0 o t j

/-- Feed-forward: `x` plus a linear map, after the activation, after a depthwise convolution, after a linear map of the normalised `x`. -/
def FfnStep (B : Basis) (r : Rule) (C H W : ℕ) (theta : ℝ) (act : ℝ → ℝ) (p : FfnParams) (x y : Ten3 ℝ) : Prop :=
  ∃ n u v, Is n C H W (layerNormAt C p.g p.b x) ∧ Is u C H W (mixAt C p.inn n) ∧ (Is v C H W fun o t j => act (depthAt B r W theta p.w u o t j)) ∧
    Is y C H W fun o t j => x.val o t j + mixAt C p.out v o t j

/-- The points that a point of level `i` attends to: those within `1.001` times the cutoff for "neighborhood", all points of the level otherwise. -/
noncomputable def sReach (a : NetArgs) (inner : ℕ → Rule) (i : ℕ) : ℕ → ℕ → Finset (ℕ × ℕ) :=
  S2T.reach a.mode (inner i) (sH a i) (sW a i) (S2T.thetaOf (sH a i) a.theta)

/-- What block `i` makes of `x`: patch merging from level `i` to level `i + 1`, `depths[i]` times attention and feed-forward network, and layer normalisation. -/
def BlockStep (a : NetArgs) (p : NetParams) (act : ℝ → ℝ) (B : Basis) (outer : Rule) (inner : ℕ → Rule) (i : ℕ) (x y : Ten3 ℝ) : Prop :=
  ∃ h m : ℕ → Ten3 ℝ,
    MergeStep B (uRule outer inner i) (inner (i + 1)) (sC a i) (sC a (i + 1)) (sW a i) (sH a (i + 1)) (sW a (i + 1)) (sCut a (sH a (i + 1))) (p.block i).merge x (h 0) ∧
    (∀ q < a.depths.getD i 0,
      AttStep a.bias (inner (i + 1)) (sReach a inner (i + 1)) (sC a (i + 1)) (a.heads.getD i 0) (sH a (i + 1)) (sW a (i + 1)) ((p.block i).rep q).att (h q) (m q) ∧
      FfnStep B (inner (i + 1)) (sC a (i + 1)) (sH a (i + 1)) (sW a (i + 1)) (sCut a (sH a (i + 1))) act ((p.block i).rep q).ffn (m q) (h (q + 1))) ∧
    Is y (sC a (i + 1)) (sH a (i + 1)) (sW a (i + 1)) (layerNormAt (sC a (i + 1)) (p.block i).g (p.block i).b (h (a.depths.getD i 0)))

/-- What upsampler `i` makes of the fields of level `i + 1`: a linear map, and a transposed convolution or a bilinear resampling directly to the outer grid. -/
def UpStep (env : Env) (a : NetArgs) (p : NetParams) (B : Basis) (outer : Rule) (inner : ℕ → Rule) (i : ℕ) (x y : Ten3 ℝ) : Prop :=
  ∃ m, Is m (sC a (i + 1)) (sH a (i + 1)) (sW a (i + 1)) (mixAt (sC a (i + 1)) (p.up i).lin x) ∧ HasShape y (sC a (i + 1)) a.nlat a.nlon ∧
    if a.upMethod = "conv" then
      Is y (sC a (i + 1)) a.nlat a.nlon (spreadAt B (inner (i + 1)) outer (sW a (i + 1)) a.nlon (sC a (i + 1)) (sCut a (sH a (i + 1))) (p.up i).w m)
    else Resampled env ⟨sH a (i + 1), sW a (i + 1), a.nlat, a.nlon, a.gridInternal, a.grid, "bilinear"⟩ m y

/-- The number of channels of the levels before level `i + 1`, behind which those of level `i + 1` come in the head. -/
def sOff (a : NetArgs) (i : ℕ) : ℕ := ∑ l ∈ range i, sC a (l + 1)

/-- What the network makes of `x`: `f i` are the fields of level `i`, `u i` those of level `i + 1` on the outer grid, and the output is a linear map of all the
latter, with bias. -/
def NetStep (env : Env) (a : NetArgs) (p : NetParams) (act : ℝ → ℝ) (B : Basis) (outer : Rule) (inner : ℕ → Rule) (x y : Ten3 ℝ) : Prop :=
  ∃ f u : ℕ → Ten3 ℝ, f 0 = x ∧
    (∀ i < a.embedDims.length, BlockStep a p act B outer inner i (f i) (f (i + 1)) ∧ UpStep env a p B outer inner i (f (i + 1)) (u i)) ∧
    Is y a.outChans a.nlat a.nlon fun o t j =>
      ∑ i ∈ range a.embedDims.length, ∑ c ∈ range (sC a (i + 1)), p.headW o (sOff a i + c) * (u i).val c t j + p.headB o

/-- Whatever kernel a repetition runs its attention with, it visits all blocks of points. -/
def RunsCover (a : NetArgs) (run : ℕ → ℕ → Option Attn.CpuRun) : Prop :=
  ∀ i < a.embedDims.length, ∀ q k, run i q = some k →
    CoversBlocks ⟨a.heads.getD i 0, sC a (i + 1) / a.heads.getD i 0, sC a (i + 1) / a.heads.getD i 0, sH a (i + 1), sW a (i + 1), sH a (i + 1), sW a (i + 1)⟩ k.order

end Verif.Seg
