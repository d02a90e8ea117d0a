import Verif.Model.SFNO
import Verif.Model.DiscoGeom
import Verif.Model.Resample
/-!
Model of the local spherical neural operator, torch_harmonics/examples/models/lsno.py. As for the spherical Fourier neural operator
(`Model/SFNO.lean`) the network is modelled in evaluation mode, on one element of a batch, with arbitrary parameters. The DISCO convolutions
are those of `Model/Disco.lean` (reference kernels) with the entries of `Model/DiscoGeom.lean`. The casts to and from float32 (114-117, 198-202) are
not modelled.
-/
namespace Verif.LSNO
open Verif Verif.Dist Verif.FFT Verif.Quad Verif.Truncation Verif.SHT Verif.SFNO Verif.Filter Finset

/-- `theta_cutoff_factor`, lsno.py 44. -/
noncomputable def cutoffFactor (basis : String) : Option ℝ :=
  if basis = "piecewise linear" then some (1 / 2)
  else if basis = "morlet" then some (1 / 2)
  else if basis = "zernike" then some (Real.sqrt 2)
  else none

/-- `_compute_cutoff_radius`, lsno.py 43-46, for a tuple `shape`. `kernel_shape[0]` is read before the dictionary. -/
noncomputable def cutoffRadius (nlat : ℕ) (shape : List ℕ) (basis : String) : Except PyErr ℝ :=
  match shape with
  | [] => .error .indexError
  | k :: _ =>
    match cutoffFactor basis with
    | none => .error .keyError
    | some f => if nlat = 1 then .error .zeroDivision else .ok (((k : ℝ) + 1) * f * Real.pi / ((nlat : ℝ) - 1))

/-- `get_filter_basis`, filter_basis.py 149-203, for a tuple `shape` and the names that `_compute_cutoff_radius` knows; the others do not get here.
The mask is computed when it is used (convolution.py 376-388); that of an empty "morlet" basis raises, which is reported here. -/
noncomputable def getBasis (shape : List ℕ) (basis : String) : Except PyErr Disco.Basis :=
  if basis = "piecewise linear" then (plShape shape).map fun s => ⟨plKernelSize s.1 s.2, plMask s.1 s.2, plVal s.1 s.2⟩
  else if basis = "zernike" then
    match shape with
    | [] => .error .indexError
    | n :: _ => .ok ⟨zernikeKernelSize n, zernikeMask n, zernikeVal n⟩
  else if basis = "morlet" then
    match shape with
    | [n, m] => (harmonicMask n m).map fun mask => ⟨harmonicKernelSize n m, mask, harmonicVal m none 1⟩
    | _ => .error .valueError
  else .error .valueError

/-- The arguments of a DISCO convolution that lsno.py passes. -/
structure DiscoArgs where
  inC : ℕ
  outC : ℕ
  nlatIn : ℕ
  nlonIn : ℕ
  nlatOut : ℕ
  nlonOut : ℕ
  shape : List ℕ
  basis : String
  gridIn : String
  gridOut : String
  theta : ℝ

/-- `DiscreteContinuousConvS2.__init__`, convolution.py 421-457 and 552-583, with `groups=1`, `basis_norm_mode="nodal"`: the weights `w` and the bias
are arbitrary. `math.sqrt(1.0 / self.groupsize)` (449) raises for no input channels. -/
noncomputable def discoInit (env : Env) (a : DiscoArgs) (w : ℕ → ℕ → ℕ → ℝ) (bias : Option (ℕ → ℝ)) : Except PyErr (Disco.Layer ℝ) := do
  let B ← getBasis a.shape a.basis
  let (gs, og) ← Disco.channelSplit a.inC a.outC 1
  if gs = 0 then .error .zeroDivision
  else do
    let es ← Disco.convEntries env.gauss env.tol env.maxiter a.nlatIn a.nlonIn a.nlatOut a.nlonOut B a.gridIn a.gridOut "nodal" (some a.theta)
    return ⟨1, gs, og, B.kernelSize, a.nlatIn, a.nlonIn, a.nlatOut, a.nlonOut, w, bias, es⟩

/-- Its forward pass. -/
noncomputable def discoForward (L : Disco.Layer ℝ) (x : Ten3 ℝ) : Except PyErr (Ten3 ℝ) :=
  (L.forward ⟨x.d0, x.d1, x.d2, x.val⟩).map fun y => ⟨y.d0, y.d1, y.d2, y.val⟩

/-! ### Encoder and decoder -/

/-- `DiscreteContinuousEncoder.__init__`, lsno.py 80-108, with `bias=False` (538). The arguments of the convolution are evaluated first. -/
noncomputable def encoderInit (env : Env) (inC outC nlatIn nlonIn nlatOut nlonOut : ℕ) (shape : List ℕ) (basis gridIn gridOut : String)
    (w : ℕ → ℕ → ℕ → ℝ) : Except PyErr (Disco.Layer ℝ) := do
  let theta ← cutoffRadius nlatIn shape basis
  discoInit env ⟨inC, outC, nlatIn, nlonIn, nlatOut, nlonOut, shape, basis, gridIn, gridOut, theta⟩ w none

/-- The two ways to go to the finer grid. -/
inductive Upsample where
  | sht (fwd : RealSHT) (inv : InverseRealSHT)
  | resample (R : Resample.Resampler)

/-- lsno.py 172-177. `RealSHT` and `InverseRealSHT` have their default norm; the first one has the default truncation. -/
noncomputable def Upsample.init (env : Env) (useSht : Bool) (nlatIn nlonIn nlatOut nlonOut : ℕ) (gridIn gridOut : String) : Except PyErr Upsample :=
  if useSht then do
    let fwd ← RealSHT.init env ⟨nlatIn, nlonIn, none, none, gridIn, "ortho", true⟩
    let inv ← InverseRealSHT.init env ⟨nlatOut, nlonOut, some fwd.lmax, some fwd.mmax, gridOut, "ortho", true⟩
    return .sht fwd inv
  else (Resample.init env.gauss env.tol env.maxiter ⟨nlatIn, nlonIn, nlatOut, nlonOut, gridIn, gridOut, "bilinear"⟩).map .resample

/-- `self.upsample(x)`, lsno.py 200. -/
noncomputable def Upsample.forward (be : C2R) (U : Upsample) (x : Ten3 ℝ) : Except PyErr (Ten3 ℝ) :=
  match U with
  | .sht fwd inv => do
    let c ← mapChannels fwd.forward x
    mapChannels (inv.forward be) c
  | .resample R => mapChannels R.forward x

/-- State of a `DiscreteContinuousDecoder`. -/
structure Decoder where
  up : Upsample
  conv : Disco.Layer ℝ

/-- `DiscreteContinuousDecoder.__init__`, lsno.py 155-192. The argument `bias` is not used (190). The cutoff is that of the coarse grid. -/
noncomputable def Decoder.init (env : Env) (useSht : Bool) (inC outC nlatIn nlonIn nlatOut nlonOut : ℕ) (shape : List ℕ) (basis gridIn gridOut : String)
    (w : ℕ → ℕ → ℕ → ℝ) : Except PyErr Decoder := do
  let up ← Upsample.init env useSht nlatIn nlonIn nlatOut nlonOut gridIn gridOut
  let theta ← cutoffRadius nlatIn shape basis
  let conv ← discoInit env ⟨inC, outC, nlatOut, nlonOut, nlatOut, nlonOut, shape, basis, gridOut, gridOut, theta⟩ w none
  return ⟨up, conv⟩

/-- `DiscreteContinuousDecoder.forward`, lsno.py 194-204. -/
noncomputable def Decoder.forward (be : C2R) (D : Decoder) (x : Ten3 ℝ) : Except PyErr (Ten3 ℝ) := do
  let y ← D.up.forward be x
  discoForward D.conv y

/-! ### One block -/

/-- The convolution of a block. -/
inductive Conv where
  | local (L : Disco.Layer ℝ)
  | global (S : SpecLayer)

/-- The learnable parameters of a block: those of an SFNO block and those of the DISCO convolution. -/
structure BlockParams extends SFNO.BlockParams where
  discoW : ℕ → ℕ → ℕ → ℝ
  discoB : ℕ → ℝ

/-- The arguments of a block that the network passes on: those of an SFNO block and those of the DISCO convolution. -/
structure BlockArgs extends SFNO.BlockArgs where
  shape : List ℕ
  basis : String
  grid : String

/-- State of a `SphericalNeuralOperatorBlock`. -/
structure Block where
  conv : Conv
  inner : Skip
  norm : Norm
  mlp : Option Mlp
  outer : Skip

/-- The convolution layer, lsno.py 282-299. `a.grid` is the `grid` attribute of both transforms. -/
noncomputable def Conv.init (env : Env) (fwd : RealSHT) (inv : InverseRealSHT) (inC outC : ℕ) (convType : String) (a : BlockArgs) (p : BlockParams) :
    Except PyErr Conv :=
  if convType = "local" then do
    let theta ← cutoffRadius fwd.nlat a.shape a.basis
    let L ← discoInit env ⟨inC, outC, fwd.nlat, fwd.nlon, inv.nlat, inv.nlon, a.shape, a.basis, a.grid, a.grid, 2 * theta⟩ p.discoW
      (if a.bias then some p.discoB else none)
    return .local L
  else if convType = "global" then do
    let S ← SpecLayer.init fwd inv inC outC "driscoll-healy" p.weight (if a.bias then some p.bias else none)
    return .global S
  else .error .valueError

/-- The normalisation layer, lsno.py 314-321. -/
def normInit (kind : String) (nlat nlon outC : ℕ) (p : SFNO.BlockParams) : Except PyErr Norm :=
  if kind = "layer_norm" then .ok (.layer nlat nlon p.layerG p.layerB)
  else if kind = "instance_norm" then .ok (.inst outC p.instG p.instB)
  else if kind = "none" then .ok .none
  else .error .notImplemented

/-- `SphericalNeuralOperatorBlock.__init__`, lsno.py 252-352. The skip connections are as in sfno.py. -/
noncomputable def Block.init (env : Env) (fwd : RealSHT) (inv : InverseRealSHT) (inC outC : ℕ) (convType : String) (a : BlockArgs) (p : BlockParams) :
    Except PyErr Block := do
  let conv ← Conv.init env fwd inv inC outC convType a p
  let inner ← skipInit a.inner inC outC (inC = outC) p.innerW p.innerB
  let norm ← normInit a.norm inv.nlat inv.nlon outC p.toBlockParams
  let mlp ← if a.useMlp then (Mlp.init outC (pyInt (outC * a.mlpRatio)) inC a.act p.mlp).map some else .ok none
  let outer ← skipInit a.outer inC inC (inC = outC) p.outerW p.outerB
  return ⟨conv, inner, norm, mlp, outer⟩

/-- lsno.py 358-361. -/
noncomputable def Conv.forward (be : C2R) (C : Conv) (x : Ten3 ℝ) : Except PyErr (Ten3 ℝ) :=
  match C with
  | .global S => (S.forward be x).map Prod.fst
  | .local L => discoForward L x

/-- `SphericalNeuralOperatorBlock.forward`, lsno.py 354-376, in evaluation mode. -/
noncomputable def Block.forward (be : C2R) (B : Block) (x : Ten3 ℝ) : Except PyErr (Ten3 ℝ) := do
  let residual := x
  let y ← B.conv.forward be x
  let y ← B.norm.forward y
  let y ← B.inner.add residual y
  let y ← match B.mlp with
    | none => .ok y
    | some M => M.forward y
  B.outer.add residual y

/-! ### The network -/

/-- The arguments of `LocalSphericalNeuralOperator.__init__` that matter in evaluation mode, lsno.py 453-478. -/
structure NetArgs where
  nlat : ℕ
  nlon : ℕ
  grid : String
  gridInternal : String
  scale : ℕ
  inChans : ℕ
  outChans : ℕ
  embedDim : ℕ
  numLayers : ℕ
  act : String
  kernelShape : List ℕ
  encoderShape : List ℕ
  basis : String
  useMlp : Bool
  mlpRatio : ℝ
  norm : String
  frequency : ℤ
  fraction : ℝ
  residualPrediction : Bool
  posEmbed : String
  upsampleSht : Bool
  bias : Bool

/-- The learnable parameters of the network. -/
structure NetParams where
  posLat : ℕ → ℕ → ℕ → ℝ
  encW : ℕ → ℕ → ℕ → ℝ
  decW : ℕ → ℕ → ℕ → ℝ
  block : ℕ → BlockParams

/-- State of a `LocalSphericalNeuralOperator`. -/
structure Net where
  posEmbed : Option (Ten3 ℝ)
  encoder : Disco.Layer ℝ
  blocks : List Block
  decoder : Decoder
  residual : Bool

/-- The type of block `i`, lsno.py 559. Python's `%` takes the sign of the divisor. -/
def convType (i : ℕ) (freq : ℤ) : Except PyErr String :=
  if freq = 0 then .error .zeroDivision
  else .ok (if (i : ℤ).fmod freq = freq - 1 then "global" else "local")

/-- The loop over the blocks, lsno.py 552-571: blocks `i, i + 1, ...`. -/
noncomputable def blocksInit (env : Env) (trans : RealSHT) (itrans : InverseRealSHT) (dim : ℕ) (freq : ℤ) (a : BlockArgs) (p : ℕ → BlockParams) :
    ℕ → ℕ → Except PyErr (List Block)
  | _, 0 => .ok []
  | i, rest + 1 => do
    let t ← convType i freq
    let b ← Block.init env trans itrans dim dim t a (p i)
    let bs ← blocksInit env trans itrans dim freq a p (i + 1) rest
    return b :: bs

/-- `LocalSphericalNeuralOperator.__init__`, lsno.py 453-586. The activation function, the size of the internal grid, the position embedding
(on the internal grid here) and the number of modes are computed as in sfno.py. -/
noncomputable def Net.init (env : Env) (be : C2R) (a : NetArgs) (p : NetParams) : Except PyErr Net := do
  let act ← activation a.act
  let (h, w) ← internalSize a.nlat a.nlon a.scale
  let pos ← posInit env be a.posEmbed h w a.embedDim a.gridInternal p.posLat
  let encoder ← encoderInit env a.inChans a.embedDim a.nlat a.nlon h w a.encoderShape a.basis a.grid a.gridInternal p.encW
  let mo := modes h w a.fraction
  let trans ← RealSHT.init env ⟨h, w, some mo, some mo, a.gridInternal, "ortho", true⟩
  let itrans ← InverseRealSHT.init env ⟨h, w, some mo, some mo, a.gridInternal, "ortho", true⟩
  let blocks ← blocksInit env trans itrans a.embedDim a.frequency
    ⟨⟨a.mlpRatio, act, a.norm, "none", "identity", a.useMlp, a.bias⟩, a.kernelShape, a.basis, a.gridInternal⟩ p.block 0 a.numLayers
  let decoder ← Decoder.init env a.upsampleSht a.embedDim a.outChans h w a.nlat a.nlon a.encoderShape a.basis a.gridInternal a.grid p.decW
  return ⟨pos, encoder, blocks, decoder, a.residualPrediction⟩

/-- `forward_features`, lsno.py 592-598. -/
noncomputable def runBlocks (be : C2R) : List Block → Ten3 ℝ → Except PyErr (Ten3 ℝ)
  | [], x => .ok x
  | b :: bs, x => do
    let y ← b.forward be x
    runBlocks be bs y

/-- `LocalSphericalNeuralOperator.forward`, lsno.py 600-617. -/
noncomputable def Net.forward (be : C2R) (N : Net) (x : Ten3 ℝ) : Except PyErr (Ten3 ℝ) := do
  let y ← discoForward N.encoder x
  let y ← match N.posEmbed with
    | none => .ok y
    | some e => addEmbed e y
  let y ← runBlocks be N.blocks y
  let y ← N.decoder.forward be y
  if N.residual then addEmbed x y else return y

end Verif.LSNO
