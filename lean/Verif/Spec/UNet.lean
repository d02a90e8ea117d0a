import Verif.Model.UNet
import Verif.Spec.SFNO
import Verif.Props.DiscoTranspose
/-!
Specification vocabulary of the spherical U-Net: the recursive shape of the network, and what its blocks compute.
-/
namespace Verif.UNet
open Verif Verif.Dist Verif.Quad Verif.SHT Verif.Filter Verif.Disco Verif.Spec Verif.Props Finset

/-- The U shape, from the outermost pair of blocks inwards: downsample, treat the result with the inner pairs, and upsample what came down together with what the
inner pairs made of it. The innermost upsampling block only gets what came down. -/
noncomputable def uPass : List (Block × Block) → Ten3 ℝ → Except PyErr (Ten3 ℝ)
  | [], _ => .error .indexError
  | [(d, u)], x => do
    let f ← d.forward x
    u.forward f
  | (d, u) :: q :: rest, x => do
    let f ← d.forward x
    let v ← uPass (q :: rest) f
    let c ← cat f v
    u.forward c

/-! ### Sizes -/

/-- The number of latitudes, longitudes and channels of level `i`: the sizes are divided by the scale factor at every level, rounding down. -/
def uH (a : NetArgs) (i : ℕ) : ℕ := a.nlat / a.scale ^ i
def uW (a : NetArgs) (i : ℕ) : ℕ := a.nlon / a.scale ^ i
def uC (a : NetArgs) : ℕ → ℕ
  | 0 => a.inChans
  | i + 1 => a.embedDims.getD i 0

/-- The number of channels that the upsampling blocks return to level `i`. -/
def uO (a : NetArgs) (i : ℕ) : ℕ := if i = 0 then a.embedDims.getD 0 0 else uC a i

/-- The latitudes of level `i`: those of the outer grid at level 0, those of the internal grids `inner i` below. -/
def uRule (outer : Rule) (inner : ℕ → Rule) (i : ℕ) : Rule := if i = 0 then outer else inner i

/-! ### Layers -/

/-- The cutoff `(k + 1) f π / (n - 1)`: `k` is the first entry of the shape of the filters, `f` is the square root of 2 for Zernike filters and 1/2 for the
others, `n` a number of latitudes. -/
noncomputable def cutoffOf (a : NetArgs) (n : ℕ) : ℝ :=
  (((a.shape.headD 0 : ℕ) : ℝ) + 1) * (if a.basis = "zernike" then Real.sqrt 2 else 1 / 2) * Real.pi / ((n : ℝ) - 1)

/-- The spherical convolution of `C` fields at output channel `o` and output point `(t, j)`: a combination, with weights `w`, over the channels and the filters of the
basis, of the normalised quadratures of filter times field (`filteredValue`). The filters vanish beyond `1.001 theta`. -/
noncomputable def convAt (B : Basis) (rin rout : Rule) (nlonIn nlonOut C : ℕ) (theta : ℝ) (w : ℕ → ℕ → ℕ → ℝ) (x : Ten3 ℝ) (o t j : ℕ) : ℝ :=
  ∑ c ∈ range C, ∑ k ∈ range B.kernelSize, filteredValue B rin rout nlonIn nlonOut ((1 + 1 / 10 ^ 3) * theta) (x.val c) k t j * w o c k

/-- The transposed spherical convolution, from what the input points spread to the output points (`spreadValue`). -/
noncomputable def spreadAt (B : Basis) (rin rout : Rule) (nlonIn nlonOut C : ℕ) (theta : ℝ) (w : ℕ → ℕ → ℕ → ℝ) (x : Ten3 ℝ) (o i j : ℕ) : ℝ :=
  ∑ c ∈ range C, ∑ k ∈ range B.kernelSize, spreadValue B rin rout nlonIn nlonOut ((1 + 1 / 10 ^ 3) * theta) (x.val c) k i j * w o c k

/-- Batch normalisation with the running statistics, and activation. -/
noncomputable def normAct (act : ℝ → ℝ) (p : NormParams) (o : ℕ) (v : ℝ) : ℝ :=
  act ((v - p.mean o) / Real.sqrt (p.var o + 1 / 10 ^ 5) * p.gamma o + p.beta o)

/-- `y` has this shape and these values. -/
def Is (y : Ten3 ℝ) (D H W : ℕ) (v : ℕ → ℕ → ℕ → ℝ) : Prop := HasShape y D H W ∧ ∀ o < D, ∀ t < H, ∀ j < W, y.val o t j = v o t j

/-- The residual connection: `h` plus `x`, or plus a mixture of the channels of `x` if this is asked for or the numbers of channels differ. -/
noncomputable def residualAt (ts : Bool) (C D : ℕ) (p : BlockParams) (x h : Ten3 ℝ) (o t j : ℕ) : ℝ :=
  (if ts = true ∨ C ≠ D then ∑ c ∈ range C, p.skipW o c * x.val c t j + p.skipB o else x.val o t j) + h.val o t j

/-- `y` is `z` resampled with this mode. -/
def Resampled (env : Env) (A : Resample.Args) (z y : Ten3 ℝ) : Prop :=
  ∃ R, Resample.init env.gauss env.tol env.maxiter A = .ok R ∧ mapChannels R.forward z = .ok y

/-- What downsampling block `i` makes of `x`: `depths[i]` convolutions with normalisation and activation on the latitudes `inner i`, the residual connection,
and a convolution or a resampling to the next level. -/
def DownStep (env : Env) (a : NetArgs) (p : NetParams) (act : ℝ → ℝ) (B : Basis) (outer : Rule) (inner : ℕ → Rule) (i : ℕ) (x y : Ten3 ℝ) : Prop :=
  ∃ (h : ℕ → Ten3 ℝ) (z : Ten3 ℝ), h 0 = x ∧
    (∀ q < a.depths.getD i 0, Is (h (q + 1)) (uC a (i + 1)) (uH a i) (uW a i) fun o t j => normAct act ((p.down i).stage q).norm o
      (convAt B (inner i) (inner i) (uW a i) (uW a i) (if q = 0 then uC a i else uC a (i + 1)) (cutoffOf a (uH a i)) ((p.down i).stage q).w (h q) o t j)) ∧
    Is z (uC a (i + 1)) (uH a i) (uW a i) (residualAt a.transformSkip (uC a i) (uC a (i + 1)) (p.down i) x (h (a.depths.getD i 0))) ∧
    HasShape y (uC a (i + 1)) (uH a (i + 1)) (uW a (i + 1)) ∧
    if a.downMode = "conv" then
      Is y (uC a (i + 1)) (uH a (i + 1)) (uW a (i + 1))
        (convAt B (uRule outer inner i) (inner (i + 1)) (uW a i) (uW a (i + 1)) (uC a (i + 1)) (cutoffOf a (uH a (i + 1))) (p.down i).resizeW z)
    else Resampled env ⟨uH a i, uW a i, uH a (i + 1), uW a (i + 1), if i = 0 then a.grid else a.gridInternal, a.gridInternal, a.downMode⟩ z y

/-- What the upsampling block back to level `i` makes of a stack `x` of `C` fields: one convolution with normalisation and activation, the residual connection, and
a convolution (no change of size), a transposed convolution followed by normalisation, activation and a convolution, or a resampling. -/
def UpStep (env : Env) (a : NetArgs) (p : NetParams) (act : ℝ → ℝ) (B : Basis) (outer : Rule) (inner : ℕ → Rule) (i C : ℕ) (x y : Ten3 ℝ) : Prop :=
  ∃ h z : Ten3 ℝ,
    (Is h (uO a i) (uH a (i + 1)) (uW a (i + 1)) fun o t j => normAct act ((p.up i).stage 0).norm o
      (convAt B (inner (i + 1)) (inner (i + 1)) (uW a (i + 1)) (uW a (i + 1)) C (cutoffOf a (uH a (i + 1))) ((p.up i).stage 0).w x o t j)) ∧
    Is z (uO a i) (uH a (i + 1)) (uW a (i + 1)) (residualAt a.transformSkip C (uO a i) (p.up i) x h) ∧
    HasShape y (uO a i) (uH a i) (uW a i) ∧
    if a.scale = 1 then
      Is y (uO a i) (uH a i) (uW a i)
        (convAt B (inner (i + 1)) (uRule outer inner i) (uW a (i + 1)) (uW a i) (uO a i) (cutoffOf a (uH a (i + 1))) (p.up i).resizeW z)
    else if a.upMode = "conv" then ∃ m : Ten3 ℝ,
      (Is m (uO a i) (uH a i) (uW a i) fun o t j => normAct act (p.up i).resizeNorm o
        (spreadAt B (inner (i + 1)) (uRule outer inner i) (uW a (i + 1)) (uW a i) (uO a i) (cutoffOf a (uH a (i + 1))) (p.up i).resizeW z o t j)) ∧
      Is y (uO a i) (uH a i) (uW a i)
        (convAt B (inner i) (uRule outer inner i) (uW a i) (uW a i) (uO a i) (cutoffOf a (uH a (i + 1))) (p.up i).resizeW2 m)
    else Resampled env ⟨uH a (i + 1), uW a (i + 1), uH a i, uW a i, a.gridInternal, if i = 0 then a.grid else a.gridInternal, a.upMode⟩ z y

/-- What the network makes of `x`: `f i` are the fields of level `i` on the way down and `g i` those on the way up. Every upsampling block but the innermost gets
the channels of `f` and, after them, those of `g`. -/
def NetStep (env : Env) (a : NetArgs) (p : NetParams) (act : ℝ → ℝ) (B : Basis) (outer : Rule) (inner : ℕ → Rule) (x y : Ten3 ℝ) : Prop :=
  ∃ f g : ℕ → Ten3 ℝ, f 0 = x ∧ (∀ i < a.embedDims.length, DownStep env a p act B outer inner i (f i) (f (i + 1)) ∧
    if i + 1 = a.embedDims.length then UpStep env a p act B outer inner i (uC a (i + 1)) (f (i + 1)) (g i)
    else ∃ c, UpStep env a p act B outer inner i (uC a (i + 1) + uC a (i + 1)) c (g i) ∧
      Is c (uC a (i + 1) + uC a (i + 1)) (uH a (i + 1)) (uW a (i + 1))
        fun o t j => if o < uC a (i + 1) then (f (i + 1)).val o t j else (g (i + 1)).val (o - uC a (i + 1)) t j) ∧
    Is y a.outChans a.nlat a.nlon fun o t j => ∑ c ∈ range (uC a 1), p.headW o c * (g 0).val c t j + p.headB o

end Verif.UNet
