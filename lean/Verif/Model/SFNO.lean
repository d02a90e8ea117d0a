import Verif.Model.SpectralConv
import Verif.Model.PosEmbed
import Mathlib.MeasureTheory.Integral.Bochner.Set
import Mathlib.MeasureTheory.Measure.Lebesgue.Basic
import Mathlib.Analysis.SpecialFunctions.Pow.Real
/-!
Model of the spherical Fourier neural operator, torch_harmonics/examples/models/sfno.py, and of the layers it is built from,
torch_harmonics/examples/models/_layers.py (`MLP`, `SpectralConvS2`). The network is modelled in evaluation mode: the dropout layers and
`DropPath` are the identity there. Learnable parameters are arbitrary. Leading batch dimensions are not
modelled (all operations act on the elements of a batch independently). Casts between floating point types are not modelled.
-/
namespace Verif.SFNO
open Verif Verif.Dist Verif.FFT Verif.Quad Verif.Truncation Verif.SHT Finset

/-- Python `int(x)` of a float: truncation towards zero. -/
noncomputable def pyInt (x : ℝ) : ℤ := if 0 ≤ x then ⌊x⌋ else ⌈x⌉

/-- `nn.ReLU`, `nn.GELU` and `nn.Identity`. -/
noncomputable def relu (x : ℝ) : ℝ := max x 0
/-- `x` times the standard normal distribution function. -/
noncomputable def gelu (x : ℝ) : ℝ := x * ∫ t in Set.Iic x, Real.exp (-(t ^ 2) / 2) / Real.sqrt (2 * Real.pi)

/-- The activation function, sfno.py 279-287. -/
noncomputable def activation (name : String) : Except PyErr (ℝ → ℝ) :=
  if name = "relu" then .ok relu
  else if name = "gelu" then .ok gelu
  else if name = "identity" then .ok id
  else .error .valueError

/-- `nn.Conv2d(inC, outC, 1)`: weights `w[o, i]`, bias `b[o]`. -/
structure Conv1 where
  inC : ℕ
  outC : ℕ
  w : ℕ → ℕ → ℝ
  b : Option (ℕ → ℝ)

/-- Its forward pass. -/
noncomputable def Conv1.forward (F : Conv1) (x : Ten3 ℝ) : Except PyErr (Ten3 ℝ) :=
  if x.d0 ≠ F.inC then .error .runtimeError
  else .ok ⟨F.outC, x.d1, x.d2, fun o k j => ∑ i ∈ range F.inC, F.w o i * x.val i k j + (match F.b with | none => 0 | some b => b o)⟩

/-- A pointwise function. -/
def pointwise (f : ℝ → ℝ) (x : Ten3 ℝ) : Ten3 ℝ := ⟨x.d0, x.d1, x.d2, fun c k j => f (x.val c k j)⟩

/-! ### The multi-layer perceptron -/

/-- Parameters of an `MLP`: `fc1.weight`, `fc1.bias`, `fc2.weight`. -/
structure MlpParams where
  w1 : ℕ → ℕ → ℝ
  b1 : ℕ → ℝ
  w2 : ℕ → ℕ → ℝ

structure Mlp where
  fc1 : Conv1
  act : ℝ → ℝ
  fc2 : Conv1

/-- `MLP.__init__`, _layers.py 231-260, with `output_bias=False`, its value in sfno.py. `x or y` takes `y` also when `x` is 0; the scales of the
initialisation divide by `in_features` (240) and `hidden_features` (251). A negative number of features raises in torch. -/
def Mlp.init (inF : ℕ) (hidden out : ℤ) (act : ℝ → ℝ) (p : MlpParams) : Except PyErr Mlp :=
  let out := if out = 0 then (inF : ℤ) else out
  let hidden := if hidden = 0 then (inF : ℤ) else hidden
  if hidden < 0 then .error .runtimeError
  else if inF = 0 then .error .zeroDivision
  else if out < 0 then .error .runtimeError
  else .ok ⟨⟨inF, hidden.toNat, p.w1, some p.b1⟩, act, ⟨hidden.toNat, out.toNat, p.w2, none⟩⟩

/-- `MLP.forward`, _layers.py 267-272, in evaluation mode. -/
noncomputable def Mlp.forward (M : Mlp) (x : Ten3 ℝ) : Except PyErr (Ten3 ℝ) :=
  match M.fc1.forward x with
  | .error e => .error e
  | .ok y => M.fc2.forward (pointwise M.act y)

/-! ### The spectral convolution -/

inductive SpecOp where
  | diagonal
  | blockDiagonal
  | driscollHealy
  deriving DecidableEq

/-- State of a `SpectralConvS2` of _layers.py. The entry `(o, i, l, n, m)` of the weights of a block-diagonal operator is `weight o i l n m`, the
entry `(o, i, l, m)` of a diagonal one `weight o i l 0 m`, and the entry `(o, i, l)` of a Driscoll-Healy one `weight o i l 0 0`. -/
structure SpecLayer where
  fwd : RealSHT
  inv : InverseRealSHT
  inC : ℕ
  outC : ℕ
  op : SpecOp
  weight : ℕ → ℕ → ℕ → ℕ → ℕ → ℂ
  bias : Option (ℕ → ℝ)

/-- `self.scale_residual`, _layers.py 412: whether the sizes of the grids differ. -/
def SpecLayer.scaleResidual (S : SpecLayer) : Prop := S.fwd.nlat ≠ S.inv.nlat ∨ S.fwd.nlon ≠ S.inv.nlon

instance (S : SpecLayer) : Decidable S.scaleResidual := by unfold SpecLayer.scaleResidual; infer_instance

/-- `SpectralConvS2.__init__`, _layers.py 403-435. -/
def SpecLayer.init (fwd : RealSHT) (inv : InverseRealSHT) (inC outC : ℕ) (opType : String) (weight : ℕ → ℕ → ℕ → ℕ → ℕ → ℂ)
    (bias : Option (ℕ → ℝ)) : Except PyErr SpecLayer :=
  match (if opType = "diagonal" then some SpecOp.diagonal
    else if opType = "block-diagonal" then some SpecOp.blockDiagonal
    else if opType = "driscoll-healy" then some SpecOp.driscollHealy else none) with
  | none => .error .notImplemented
  | some op => if inC = 0 then .error .zeroDivision else .ok ⟨fwd, inv, inC, outC, op, weight, bias⟩

/-- `torch.einsum(self.contract_func, x, self.weight)`, _layers.py 417-427 and 448. Einsum broadcasts extents of one. -/
noncomputable def SpecLayer.contract (S : SpecLayer) (c : Ten3 ℂ) : Except PyErr (Ten3 ℂ) :=
  match bcast c.d0 S.inC, bcast c.d1 S.inv.lmax with
  | some ni, some nl =>
    match S.op with
    | .driscollHealy => .ok ⟨S.outC, nl, c.d2, fun o l m =>
        ∑ i ∈ range ni, c.val (bidx c.d0 i) (bidx c.d1 l) m * S.weight o (bidx S.inC i) (bidx S.inv.lmax l) 0 0⟩
    | .diagonal =>
      match bcast c.d2 S.inv.mmax with
      | none => .error .runtimeError
      | some nm => .ok ⟨S.outC, nl, nm, fun o l m =>
          ∑ i ∈ range ni, c.val (bidx c.d0 i) (bidx c.d1 l) (bidx c.d2 m) * S.weight o (bidx S.inC i) (bidx S.inv.lmax l) 0 (bidx S.inv.mmax m)⟩
    | .blockDiagonal =>
      match bcast c.d2 S.inv.mmax with
      | none => .error .runtimeError
      | some nm => .ok ⟨S.outC, nl, S.inv.mmax, fun o l n =>
          ∑ i ∈ range ni, ∑ m ∈ range nm, c.val (bidx c.d0 i) (bidx c.d1 l) (bidx c.d2 m)
            * S.weight o (bidx S.inC i) (bidx S.inv.lmax l) n (bidx S.inv.mmax m)⟩
  | _, _ => .error .runtimeError

/-- `SpectralConvS2.forward`, _layers.py 437-457: the result and the residual. -/
noncomputable def SpecLayer.forward (be : C2R) (S : SpecLayer) (x : Ten3 ℝ) : Except PyErr (Ten3 ℝ × Ten3 ℝ) :=
  match mapChannels S.fwd.forward x with
  | .error e => .error e
  | .ok c =>
    match (if S.scaleResidual then mapChannels (S.inv.forward be) c else .ok x) with
    | .error e => .error e
    | .ok residual =>
      match S.contract c with
      | .error e => .error e
      | .ok z =>
        match mapChannels (S.inv.forward be) z with
        | .error e => .error e
        | .ok y =>
          match S.bias with
          | none => .ok (y, residual)
          | some b => .ok (⟨y.d0, y.d1, y.d2, fun c k j => y.val c k j + b c⟩, residual)

/-! ### Normalisation -/

/-- The normalisation layer of a block with its affine parameters: `nn.LayerNorm((nlat, nlon))`, `nn.InstanceNorm2d(C, affine=True)`,
`nn.Identity()`. -/
inductive Norm where
  | layer (nlat nlon : ℕ) (g b : ℕ → ℕ → ℝ)
  | inst (chans : ℕ) (g b : ℕ → ℝ)
  | none

noncomputable def eps : ℝ := 1 / 10 ^ 6

/-- Mean over the image. -/
noncomputable def imgMean (H W : ℕ) (x : ℕ → ℕ → ℝ) : ℝ := (∑ k ∈ range H, ∑ j ∈ range W, x k j) / (H * W)
/-- Biased variance over the image. -/
noncomputable def imgVar (H W : ℕ) (x : ℕ → ℕ → ℝ) : ℝ := imgMean H W fun k j => (x k j - imgMean H W x) ^ 2
/-- An image with mean removed, divided by the standard deviation. -/
noncomputable def imgNorm (H W : ℕ) (x : ℕ → ℕ → ℝ) (k j : ℕ) : ℝ := (x k j - imgMean H W x) / Real.sqrt (imgVar H W x + eps)

/-- Its forward pass. `nn.InstanceNorm2d` without running statistics rejects images of one pixel, in evaluation mode too. -/
noncomputable def Norm.forward (N : Norm) (x : Ten3 ℝ) : Except PyErr (Ten3 ℝ) :=
  match N with
  | .none => .ok x
  | .layer nlat nlon g b =>
    if x.d1 ≠ nlat ∨ x.d2 ≠ nlon then .error .runtimeError
    else .ok ⟨x.d0, x.d1, x.d2, fun c k j => imgNorm x.d1 x.d2 (x.val c) k j * g k j + b k j⟩
  | .inst chans g b =>
    if x.d0 ≠ chans then .error .valueError
    else if x.d1 * x.d2 = 1 then .error .valueError
    else .ok ⟨x.d0, x.d1, x.d2, fun c k j => imgNorm x.d1 x.d2 (x.val c) k j * g c + b c⟩

/-! ### One block -/

/-- A skip connection. -/
inductive Skip where
  | linear (F : Conv1)
  | identity
  | none

/-- `x + skip(residual)`, if there is one. -/
noncomputable def Skip.add (s : Skip) (residual x : Ten3 ℝ) : Except PyErr (Ten3 ℝ) :=
  match s with
  | .none => .ok x
  | .identity => addEmbed residual x
  | .linear F =>
    match F.forward residual with
    | .error e => .error e
    | .ok r => addEmbed r x

/-- The learnable parameters of a block. -/
structure BlockParams where
  weight : ℕ → ℕ → ℕ → ℕ → ℕ → ℂ
  bias : ℕ → ℝ
  innerW : ℕ → ℕ → ℝ
  innerB : ℕ → ℝ
  outerW : ℕ → ℕ → ℝ
  outerB : ℕ → ℝ
  layerG : ℕ → ℕ → ℝ
  layerB : ℕ → ℕ → ℝ
  instG : ℕ → ℝ
  instB : ℕ → ℝ
  mlp : MlpParams

/-- State of a `SphericalFourierNeuralOperatorBlock`. -/
structure Block where
  conv : SpecLayer
  inner : Skip
  norm : Norm
  mlp : Option Mlp
  outer : Skip

/-- The skip connection `kind` from `inC` to `outC` channels; `same` says whether `identity` is allowed, sfno.py 107-117 and 142-152. -/
def skipInit (kind : String) (inC outC : ℕ) (same : Bool) (w : ℕ → ℕ → ℝ) (b : ℕ → ℝ) : Except PyErr Skip :=
  if kind = "linear" then .ok (.linear ⟨inC, outC, w, some b⟩)
  else if kind = "identity" then if same then .ok .identity else .error .valueError
  else if kind = "none" then .ok .none
  else .error .valueError

/-- The normalisation layer, sfno.py 120-127. The last branch means to raise `NotImplementedError`, but reads the attribute `self.norm_layer`, which does
not exist. -/
def normInit (kind : String) (nlat nlon outC : ℕ) (p : BlockParams) : Except PyErr Norm :=
  if kind = "layer_norm" then .ok (.layer nlat nlon p.layerG p.layerB)
  else if kind = "instance_norm" then .ok (.inst outC p.instG p.instB)
  else if kind = "none" then .ok .none
  else .error .attributeError

/-- The arguments of a block that the network passes on. -/
structure BlockArgs where
  mlpRatio : ℝ
  act : ℝ → ℝ
  norm : String
  inner : String
  outer : String
  useMlp : Bool
  bias : Bool

/-- `SphericalFourierNeuralOperatorBlock.__init__`, sfno.py 79-152. -/
noncomputable def Block.init (fwd : RealSHT) (inv : InverseRealSHT) (inC outC : ℕ) (a : BlockArgs) (p : BlockParams) : Except PyErr Block := do
  let conv ← SpecLayer.init fwd inv inC outC "driscoll-healy" p.weight (if a.bias then some p.bias else none)
  let inner ← skipInit a.inner inC outC (inC = outC) p.innerW p.innerB
  let norm ← normInit a.norm inv.nlat inv.nlon outC p
  let mlp ← if a.useMlp then (Mlp.init outC (pyInt (outC * a.mlpRatio)) inC a.act p.mlp).map some else .ok none
  let outer ← skipInit a.outer inC inC (inC = outC) p.outerW p.outerB
  return ⟨conv, inner, norm, mlp, outer⟩

/-- `SphericalFourierNeuralOperatorBlock.forward`, sfno.py 154-171, in evaluation mode. -/
noncomputable def Block.forward (be : C2R) (B : Block) (x : Ten3 ℝ) : Except PyErr (Ten3 ℝ) := do
  let (y, residual) ← B.conv.forward be x
  let y ← B.norm.forward y
  let y ← B.inner.add residual y
  let y ← match B.mlp with
    | none => .ok y
    | some M => M.forward y
  B.outer.add residual y

/-! ### The network -/

/-- The arguments of `SphericalFourierNeuralOperator.__init__` that matter in evaluation mode, sfno.py 239-260. -/
structure NetArgs where
  nlat : ℕ
  nlon : ℕ
  grid : String
  gridInternal : String
  scale : ℕ
  inChans : ℕ
  outChans : ℕ
  embedDim : ℕ
  numLayers : ℕ
  act : String
  encoderLayers : ℕ
  useMlp : Bool
  mlpRatio : ℝ
  norm : String
  fraction : ℝ
  residualPrediction : Bool
  posEmbed : String
  bias : Bool

/-- The learnable parameters of the network. -/
structure NetParams where
  posLat : ℕ → ℕ → ℕ → ℝ
  encW : ℕ → ℕ → ℝ
  encB : ℕ → ℝ
  decW : ℕ → ℕ → ℝ
  decB : ℕ → ℝ
  projW : ℕ → ℕ → ℝ
  block : ℕ → BlockParams

/-- State of a `SphericalFourierNeuralOperator`. -/
structure Net where
  posEmbed : Option (Ten3 ℝ)
  encoder : Conv1
  blocks : List Block
  decoder : Conv1
  residual : Bool
  proj : Option Conv1

/-- The size of the internal grid, sfno.py 290-291. -/
def internalSize (nlat nlon scale : ℕ) : Except PyErr (ℕ × ℕ) :=
  if scale = 0 then .error .zeroDivision else .ok ((((nlat : ℤ) - 1) / scale + 1).toNat, nlon / scale)

/-- The number of modes, sfno.py 334-338. -/
noncomputable def modes (h w : ℕ) (fraction : ℝ) : ℤ := pyInt (((min h ((w / 2 + 1) - 1) : ℕ) : ℝ) * fraction)

/-- The position embedding, sfno.py 297-308. A learnable embedding has the arbitrary values `lat`. The NaN channels of a spectral embedding (`C73_spectral` says which
they are) are not modelled here: they are given the value 0. -/
noncomputable def posInit (env : Env) (be : C2R) (kind : String) (nlat nlon chans : ℕ) (grid : String) (lat : ℕ → ℕ → ℕ → ℝ) :
    Except PyErr (Option (Ten3 ℝ)) :=
  if kind = "sequence" then .ok (some (seqEmbed nlat nlon chans))
  else if kind = "spectral" then (spectralEmbed env be nlat nlon none none grid chans).map fun e =>
    some ⟨e.d0, e.d1, e.d2, fun c k j => (e.val c k j).getD 0⟩
  else if kind = "learnable lat" then (learnableEmbed nlat nlon chans "lat").map fun e => some ⟨e.d0, e.d1, e.d2, lat⟩
  else if kind = "learnable latlon" then (learnableEmbed nlat nlon chans "latlon").map fun e => some ⟨e.d0, e.d1, e.d2, lat⟩
  else if kind = "none" then .ok none
  else .error .valueError

/-- The loop over the blocks, sfno.py 345-365: block `i` of `n`. -/
noncomputable def blocksInit (down trans : RealSHT) (up itrans : InverseRealSHT) (dim : ℕ) (a : BlockArgs) (p : ℕ → BlockParams) (n : ℕ) :
    ℕ → Except PyErr (List Block)
  | 0 => .ok []
  | rest + 1 => do
    let i := n - (rest + 1)
    let b ← Block.init (if i = 0 then down else trans) (if i = n - 1 then up else itrans) dim dim a (p i)
    let bs ← blocksInit down trans up itrans dim a p n rest
    return b :: bs

/-- `SphericalFourierNeuralOperator.__init__`, sfno.py 239-394. The argument `encoder_layers` is not used (314 rebinds the name). -/
noncomputable def Net.init (env : Env) (be : C2R) (a : NetArgs) (p : NetParams) : Except PyErr Net := do
  let act ← activation a.act
  let (h, w) ← internalSize a.nlat a.nlon a.scale
  let pos ← posInit env be a.posEmbed a.nlat a.nlon a.embedDim a.grid p.posLat
  if a.inChans = 0 then .error .zeroDivision
  else do
    let mo := modes h w a.fraction
    let down ← RealSHT.init env ⟨a.nlat, a.nlon, some mo, some mo, a.grid, "ortho", true⟩
    let up ← InverseRealSHT.init env ⟨a.nlat, a.nlon, some mo, some mo, a.grid, "ortho", true⟩
    let trans ← RealSHT.init env ⟨h, w, some mo, some mo, a.gridInternal, "ortho", true⟩
    let itrans ← InverseRealSHT.init env ⟨h, w, some mo, some mo, a.gridInternal, "ortho", true⟩
    let blocks ← blocksInit down trans up itrans a.embedDim ⟨a.mlpRatio, act, a.norm, "none", "identity", a.useMlp, a.bias⟩ p.block a.numLayers a.numLayers
    if a.embedDim = 0 then .error .zeroDivision
    else return ⟨pos, ⟨a.inChans, a.embedDim, p.encW, if a.bias then some p.encB else none⟩, blocks,
      ⟨a.embedDim, a.outChans, p.decW, if a.bias then some p.decB else none⟩, a.residualPrediction,
      if a.residualPrediction ∧ a.inChans ≠ a.outChans then some ⟨a.inChans, a.outChans, p.projW, none⟩ else none⟩

/-- `forward_features`, sfno.py 400-407. -/
noncomputable def runBlocks (be : C2R) : List Block → Ten3 ℝ → Except PyErr (Ten3 ℝ)
  | [], x => .ok x
  | b :: bs, x => do
    let y ← b.forward be x
    runBlocks be bs y

/-- `SphericalFourierNeuralOperator.forward`, sfno.py 409-426. -/
noncomputable def Net.forward (be : C2R) (N : Net) (x : Ten3 ℝ) : Except PyErr (Ten3 ℝ) := do
  let y ← N.encoder.forward x
  let y ← match N.posEmbed with
    | none => .ok y
    | some e => addEmbed e y
  let y ← runBlocks be N.blocks y
  let y ← N.decoder.forward y
  if N.residual then do
    let r ← match N.proj with
      | none => .ok x
      | some F => F.forward x
    addEmbed r y
  else return y

end Verif.SFNO
