import Verif.Model.LSNO
import Verif.Model.DiscoTranspose
/-!
Model of the spherical U-Net, torch_harmonics/examples/models/s2unet.py. As for the other networks (`Model/SFNO.lean`) it is modelled in evaluation mode, on
one element of a batch, with arbitrary parameters: the dropout layers and `DropPath` are the identity, so the three drop rates (and the range check of
`nn.Dropout2d`) are left out. The DISCO convolutions are those of `Model/Disco.lean` (reference kernels) with the entries of `Model/DiscoGeom.lean` and
`Model/DiscoTranspose.lean`. `_compute_cutoff_radius` (s2unet.py 43-46) is the same function as in lsno.py, `LSNO.cutoffRadius`. Sizes and the scale
factor are natural numbers.
-/
namespace Verif.UNet
open Verif Verif.Dist Verif.FFT Verif.Quad Verif.SHT Verif.SFNO Verif.Filter Verif.LSNO Finset

/-! ### Batch normalisation and convolution stages -/

/-- `nn.BatchNorm2d`: running statistics and affine parameters per channel. -/
structure BatchNorm where
  chans : ℕ
  mean : ℕ → ℝ
  var : ℕ → ℝ
  gamma : ℕ → ℝ
  beta : ℕ → ℝ

/-- Its forward pass in evaluation mode with `eps=1e-05`. -/
noncomputable def BatchNorm.forward (N : BatchNorm) (x : Ten3 ℝ) : Except PyErr (Ten3 ℝ) :=
  if x.d0 ≠ N.chans then .error .runtimeError
  else .ok ⟨x.d0, x.d1, x.d2, fun c k j => (x.val c k j - N.mean c) / Real.sqrt (N.var c + 1 / 10 ^ 5) * N.gamma c + N.beta c⟩

/-- Parameters of a batch normalisation. -/
structure NormParams where
  mean : ℕ → ℝ
  var : ℕ → ℝ
  gamma : ℕ → ℝ
  beta : ℕ → ℝ

def NormParams.norm (p : NormParams) (chans : ℕ) : BatchNorm := ⟨chans, p.mean, p.var, p.gamma, p.beta⟩

/-- Convolution, batch normalisation, activation: one repetition in `self.fwd`, s2unet.py 119-146 and 340-367. -/
structure Stage where
  conv : Disco.Layer ℝ
  norm : BatchNorm
  act : ℝ → ℝ

structure StageParams where
  w : ℕ → ℕ → ℕ → ℝ
  norm : NormParams

/-- One repetition, s2unet.py 119-146 and 340-367: a convolution without bias on a grid of `H × W` points named `grid` on both sides. -/
noncomputable def Stage.init (env : Env) (inC outC H W : ℕ) (shape : List ℕ) (basis grid : String) (act : ℝ → ℝ) (p : StageParams) : Except PyErr Stage := do
  let theta ← cutoffRadius H shape basis
  let conv ← discoInit env ⟨inC, outC, H, W, H, W, shape, basis, grid, grid, theta⟩ p.w none
  return ⟨conv, p.norm.norm outC, act⟩

noncomputable def Stage.forward (S : Stage) (x : Ten3 ℝ) : Except PyErr (Ten3 ℝ) := do
  let y ← discoForward S.conv x
  let z ← S.norm.forward y
  return pointwise S.act z

/-- `nn.Sequential`. -/
noncomputable def runStages : List Stage → Ten3 ℝ → Except PyErr (Ten3 ℝ)
  | [], x => .ok x
  | S :: l, x => do
    let y ← S.forward x
    runStages l y

/-! ### Going to another grid -/

/-- `DiscreteContinuousConvTransposeS2.__init__`, convolution.py 421-457 and 915-944, with `groups=1`, `basis_norm_mode="nodal"`. -/
noncomputable def transInit (env : Env) (a : DiscoArgs) (w : ℕ → ℕ → ℕ → ℝ) (bias : Option (ℕ → ℝ)) : Except PyErr (Disco.Layer ℝ) := do
  let B ← getBasis a.shape a.basis
  let (gs, og) ← Disco.channelSplit a.inC a.outC 1
  if gs = 0 then .error .zeroDivision
  else do
    let es ← Disco.transEntries env.gauss env.tol env.maxiter a.nlatIn a.nlonIn a.nlatOut a.nlonOut B a.gridIn a.gridOut "nodal" (some a.theta)
    return ⟨1, gs, og, B.kernelSize, a.nlatIn, a.nlonIn, a.nlatOut, a.nlonOut, w, bias, es⟩

/-- Its forward pass. -/
noncomputable def transForward (L : Disco.Layer ℝ) (x : Ten3 ℝ) : Except PyErr (Ten3 ℝ) :=
  (L.transposeForward ⟨x.d0, x.d1, x.d2, x.val⟩).map fun y => ⟨y.d0, y.d1, y.d2, y.val⟩

/-- `self.downsample` and `self.upsample`, s2unet.py 148-171 and 282-337. -/
inductive Resize where
  | conv (L : Disco.Layer ℝ)
  | resample (R : Resample.Resampler)
  | transpose (T : Disco.Layer ℝ) (N : BatchNorm) (act : ℝ → ℝ) (L : Disco.Layer ℝ)

noncomputable def Resize.forward (R : Resize) (x : Ten3 ℝ) : Except PyErr (Ten3 ℝ) :=
  match R with
  | .conv L => discoForward L x
  | .resample R => mapChannels R.forward x
  | .transpose T N act L => do
    let y ← transForward T x
    let z ← N.forward y
    discoForward L (pointwise act z)

/-- The arguments of a `DownsamplingBlock`, s2unet.py 89-106, or of an `UpsamplingBlock`, 255-272. `mode` is `downsampling_mode` or
`upsampling_mode`. -/
structure BlockArgs where
  inH : ℕ
  inW : ℕ
  outH : ℕ
  outW : ℕ
  inC : ℕ
  outC : ℕ
  gridIn : String
  gridOut : String
  nrep : ℕ
  shape : List ℕ
  basis : String
  act : ℝ → ℝ
  transformSkip : Bool
  mode : String

/-- The learnable parameters of a block. -/
structure BlockParams where
  stage : ℕ → StageParams
  resizeW : ℕ → ℕ → ℕ → ℝ
  resizeNorm : NormParams
  resizeW2 : ℕ → ℕ → ℕ → ℝ
  skipW : ℕ → ℕ → ℝ
  skipB : ℕ → ℝ

/-- State of a block. -/
structure Block where
  stages : List Stage
  resize : Resize
  skip : Option Conv1

/-- `self.transform_skip`, s2unet.py 177-178 and 373-374. -/
def skipInit (a : BlockArgs) (p : BlockParams) : Option Conv1 :=
  if a.transformSkip = true ∨ a.inC ≠ a.outC then some ⟨a.inC, a.outC, p.skipW, some p.skipB⟩ else none

/-- `self.fwd` of a `DownsamplingBlock`, s2unet.py 118-146. The convolutions get `grid_out` on both sides, although they act on the input grid. -/
noncomputable def downStages (env : Env) (a : BlockArgs) (p : BlockParams) : Except PyErr (List Stage) :=
  (List.range a.nrep).mapM fun i =>
    Stage.init env (if i = 0 then a.inC else a.outC) a.outC a.inH a.inW a.shape a.basis a.gridOut a.act (p.stage i)

/-- `self.downsample`, s2unet.py 148-171. -/
noncomputable def downResize (env : Env) (a : BlockArgs) (p : BlockParams) : Except PyErr Resize :=
  if a.mode = "conv" then do
    let theta ← cutoffRadius a.outH a.shape a.basis
    let L ← discoInit env ⟨a.outC, a.outC, a.inH, a.inW, a.outH, a.outW, a.shape, a.basis, a.gridIn, a.gridOut, theta⟩ p.resizeW none
    return .conv L
  else (Resample.init env.gauss env.tol env.maxiter ⟨a.inH, a.inW, a.outH, a.outW, a.gridIn, a.gridOut, a.mode⟩).map .resample

/-- `DownsamplingBlock.__init__`, s2unet.py 107-186. -/
noncomputable def downInit (env : Env) (a : BlockArgs) (p : BlockParams) : Except PyErr Block := do
  let stages ← downStages env a p
  let resize ← downResize env a p
  return ⟨stages, resize, skipInit a p⟩

/-- `self.fwd` of an `UpsamplingBlock`, s2unet.py 339-367. -/
noncomputable def upStages (env : Env) (a : BlockArgs) (p : BlockParams) : Except PyErr (List Stage) :=
  (List.range a.nrep).mapM fun i =>
    Stage.init env a.inC (if i + 1 = a.nrep then a.outC else a.inC) a.inH a.inW a.shape a.basis a.gridIn a.act (p.stage i)

/-- `self.upsample`, s2unet.py 282-337. The second convolution of the "conv" mode gets `grid_in`, although it acts on the output grid (300-311), and the
cutoff of the coarse grid. For equal shapes `upsampling_mode` is not looked at (324-337). -/
noncomputable def upResize (env : Env) (a : BlockArgs) (p : BlockParams) : Except PyErr Resize :=
  if (a.inH, a.inW) ≠ (a.outH, a.outW) then
    if a.mode = "conv" then do
      let theta ← cutoffRadius a.inH a.shape a.basis
      let T ← transInit env ⟨a.outC, a.outC, a.inH, a.inW, a.outH, a.outW, a.shape, a.basis, a.gridIn, a.gridOut, theta⟩ p.resizeW none
      let L ← discoInit env ⟨a.outC, a.outC, a.outH, a.outW, a.outH, a.outW, a.shape, a.basis, a.gridIn, a.gridOut, theta⟩ p.resizeW2 none
      return .transpose T (p.resizeNorm.norm a.outC) a.act L
    else (Resample.init env.gauss env.tol env.maxiter ⟨a.inH, a.inW, a.outH, a.outW, a.gridIn, a.gridOut, a.mode⟩).map .resample
  else do
    let theta ← cutoffRadius a.inH a.shape a.basis
    let L ← discoInit env ⟨a.outC, a.outC, a.inH, a.inW, a.inH, a.inW, a.shape, a.basis, a.gridIn, a.gridOut, theta⟩ p.resizeW none
    return .conv L

/-- `UpsamplingBlock.__init__`, s2unet.py 273-381. -/
noncomputable def upInit (env : Env) (a : BlockArgs) (p : BlockParams) : Except PyErr Block := do
  let resize ← upResize env a p
  let stages ← upStages env a p
  return ⟨stages, resize, skipInit a p⟩

/-- The skip connection, s2unet.py 198-200 and 391-393. -/
noncomputable def skipForward (skip : Option Conv1) (x : Ten3 ℝ) : Except PyErr (Ten3 ℝ) :=
  match skip with
  | none => .ok x
  | some F => F.forward x

/-- `DownsamplingBlock.forward`, s2unet.py 195-211, and `UpsamplingBlock.forward`, 389-401. -/
noncomputable def Block.forward (B : Block) (x : Ten3 ℝ) : Except PyErr (Ten3 ℝ) := do
  let r ← skipForward B.skip x
  let y ← runStages B.stages x
  let z ← addEmbed y r
  B.resize.forward z

/-! ### The network -/

/-- The arguments of a `SphericalUNet`, s2unet.py 459-478, without the drop rates. -/
structure NetArgs where
  nlat : ℕ
  nlon : ℕ
  grid : String
  gridInternal : String
  inChans : ℕ
  outChans : ℕ
  embedDims : List ℕ
  depths : List ℕ
  scale : ℕ
  act : String
  shape : List ℕ
  basis : String
  transformSkip : Bool
  downMode : String
  upMode : String

/-- What the loop over the downsampling blocks computes for a block. -/
structure Level where
  inH : ℕ
  inW : ℕ
  outH : ℕ
  outW : ℕ
  inC : ℕ
  outC : ℕ
  gridIn : String
  gridOut : String
  nrep : ℕ

/-- The loop variables, s2unet.py 509-537. -/
def level (a : NetArgs) : ℕ → Level
  | 0 => ⟨a.nlat, a.nlon, a.nlat / a.scale, a.nlon / a.scale, a.inChans, a.embedDims.getD 0 0, a.grid, a.gridInternal, a.depths.getD 0 0⟩
  | i + 1 =>
    let l := level a i
    ⟨l.outH, l.outW, l.outH / a.scale, l.outW / a.scale, l.outC, a.embedDims.getD (i + 1) 0, a.gridInternal, a.gridInternal, a.depths.getD (i + 1) 0⟩

/-- The arguments of downsampling block `i`, s2unet.py 516-534. -/
def downArgs (a : NetArgs) (act : ℝ → ℝ) (i : ℕ) : BlockArgs :=
  let l := level a i
  ⟨l.inH, l.inW, l.outH, l.outW, l.inC, l.outC, l.gridIn, l.gridOut, l.nrep, a.shape, a.basis, act, a.transformSkip, a.downMode⟩

/-- The arguments of the upsampling block that undoes downsampling block `i`, s2unet.py 540-568. `nrep` is its default `1`. -/
def upArgs (a : NetArgs) (act : ℝ → ℝ) (i : ℕ) : BlockArgs :=
  let l := level a i
  ⟨l.outH, l.outW, l.inH, l.inW, if i ≠ a.embedDims.length - 1 then 2 * l.outC else l.outC, if i = 0 then a.embedDims.getD 0 0 else l.inC,
    l.gridOut, l.gridIn, 1, a.shape, a.basis, act, a.transformSkip, a.upMode⟩

/-- The learnable parameters: `up i` are those of the upsampling block that undoes downsampling block `i`. -/
structure NetParams where
  down : ℕ → BlockParams
  up : ℕ → BlockParams
  headW : ℕ → ℕ → ℝ
  headB : ℕ → ℝ

structure Net where
  downs : List Block
  ups : List Block
  head : Conv1

/-- `SphericalUNet.__init__`, s2unet.py 479-572. `self.embed_dims[0]` (570) raises for an empty list. -/
noncomputable def Net.init (env : Env) (a : NetArgs) (p : NetParams) : Except PyErr Net := do
  let n := a.embedDims.length
  if a.depths.length ≠ n then .error .valueError
  else do
    let act ← activation a.act
    if n ≠ 0 ∧ a.scale = 0 then .error .zeroDivision
    else do
      let downs ← (List.range n).mapM fun i => downInit env (downArgs a act i) (p.down i)
      let ups ← (List.range n).reverse.mapM fun i => upInit env (upArgs a act i) (p.up i)
      match a.embedDims with
      | [] => .error .indexError
      | e :: _ => .ok ⟨downs, ups, ⟨e, a.outChans, p.headW, some p.headB⟩⟩

/-- `torch.cat([f, v], dim=1)`. -/
def cat (f v : Ten3 ℝ) : Except PyErr (Ten3 ℝ) :=
  if f.d1 = v.d1 ∧ f.d2 = v.d2 then .ok ⟨f.d0 + v.d0, f.d1, f.d2, fun c k j => if c < f.d0 then f.val c k j else v.val (c - f.d0) k j⟩
  else .error .runtimeError

/-- The encoder loop, s2unet.py 587-591: the features in the order they are appended. -/
noncomputable def encodeFeatures : List Block → Ten3 ℝ → Except PyErr (List (Ten3 ℝ))
  | [], _ => .ok []
  | d :: ds, x => do
    let f ← d.forward x
    let fs ← encodeFeatures ds f
    return f :: fs

/-- The decoder loop over the zipped lists, s2unet.py 598-599. -/
noncomputable def decodeFeatures : List (Ten3 ℝ) → List Block → Ten3 ℝ → Except PyErr (Ten3 ℝ)
  | f :: fs, u :: us, v => do
    let c ← cat f v
    let v' ← u.forward c
    decodeFeatures fs us v'
  | _, _, v => .ok v

/-- The decoder on the reversed list of features, s2unet.py 597-599. -/
noncomputable def decodeAll : List Block → List (Ten3 ℝ) → Except PyErr (Ten3 ℝ)
  | u :: us, f :: fs => do
    let v ← u.forward f
    decodeFeatures fs us v
  | _, _ => .error .indexError

/-- `SphericalUNet.forward`, s2unet.py 584-604. -/
noncomputable def Net.forward (N : Net) (x : Ten3 ℝ) : Except PyErr (Ten3 ℝ) := do
  let fs ← encodeFeatures N.downs x
  let v ← decodeAll N.ups fs.reverse
  N.head.forward v

end Verif.UNet
