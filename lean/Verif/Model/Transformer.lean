import Verif.Model.LSNO
import Verif.Model.AttentionLayer
/-!
Model of the spherical transformer, torch_harmonics/examples/models/s2transformer.py. As for the other networks (`Model/SFNO.lean`, `Model/LSNO.lean`)
the network is modelled in evaluation mode, on one element of a batch, with arbitrary parameters. The classes `DiscreteContinuousEncoder` (49-119) and
`DiscreteContinuousDecoder` (122-204) and the function `_compute_cutoff_radius` (43-46) are those of lsno.py with one argument renamed; their model is
`LSNO.encoderInit`, `LSNO.Decoder` and `LSNO.cutoffRadius`. The attention layers are those of `Model/AttentionLayer.lean`. The casts to and from float32
(340-343) are not modelled.
-/
namespace Verif.S2T
open Verif Verif.Dist Verif.FFT Verif.Quad Verif.Truncation Verif.SHT Verif.SFNO Finset

/-! ### Normalisation -/

/-- The normalisation layers of a block with their affine parameters: `LayerNorm(C)` of _layers.py, `nn.InstanceNorm2d(C, affine=True)`, `nn.Identity()`. -/
inductive Norm where
  | layer (chans : ℕ) (g b : ℕ → ℝ)
  | inst (chans : ℕ) (g b : ℕ → ℝ)
  | none

/-- Mean over the channels. -/
noncomputable def chanMean (C : ℕ) (x : ℕ → ℝ) : ℝ := (∑ c ∈ range C, x c) / C
/-- Biased variance over the channels. -/
noncomputable def chanVar (C : ℕ) (x : ℕ → ℝ) : ℝ := chanMean C fun c => (x c - chanMean C x) ^ 2

/-- Their forward passes. `LayerNorm`, _layers.py 365-374, moves the channels to the end, applies `nn.LayerNorm(C, eps=1e-6)` and moves them back; the
argument `eps` of the wrapper is not used. -/
noncomputable def Norm.forward (N : Norm) (x : Ten3 ℝ) : Except PyErr (Ten3 ℝ) :=
  match N with
  | .none => .ok x
  | .layer chans g b =>
    if x.d0 ≠ chans then .error .runtimeError
    else .ok ⟨x.d0, x.d1, x.d2, fun c k j =>
      (x.val c k j - chanMean x.d0 fun i => x.val i k j) / Real.sqrt ((chanVar x.d0 fun i => x.val i k j) + eps) * g c + b c⟩
  | .inst chans g b => (SFNO.Norm.inst chans g b).forward x

/-- s2transformer.py 272-282, for one of the two layers. -/
def normInit (kind : String) (chans : ℕ) (g b : ℕ → ℝ) : Except PyErr Norm :=
  if kind = "layer_norm" then .ok (.layer chans g b)
  else if kind = "instance_norm" then .ok (.inst chans g b)
  else if kind = "none" then .ok .none
  else .error .notImplemented

/-! ### Attention -/

/-- The learnable parameters of an attention layer without normalisation of queries and keys. -/
structure AttnParams where
  wq : ℕ → ℕ → ℝ
  wk : ℕ → ℕ → ℝ
  wv : ℕ → ℕ → ℝ
  wp : ℕ → ℕ → ℝ
  bq : ℕ → ℝ
  bk : ℕ → ℝ
  bv : ℕ → ℝ
  bp : ℕ → ℝ

/-- The parameters that exist, attention.py 155-169 and 430-444, with `use_qknorm=False`. -/
noncomputable def AttnParams.toParams (p : AttnParams) (bias : Bool) : Spec.Attn.Params :=
  if bias then ⟨p.wq, p.wk, p.wv, p.wp, some p.bq, some p.bk, some p.bv, some p.bp, none, none, 0⟩
  else ⟨p.wq, p.wk, p.wv, p.wp, none, none, none, none, none, none, 0⟩

inductive Attention where
  | nbhd (L : Attn.Nbhd)
  | full (L : Attn.Global)

/-- The arguments of `SphericalAttentionBlock.__init__` that matter in evaluation mode, s2transformer.py 250-268. -/
structure BlockArgs where
  nlatIn : ℕ
  nlonIn : ℕ
  nlatOut : ℕ
  nlonOut : ℕ
  gridIn : String
  gridOut : String
  inC : ℕ
  outC : ℕ
  heads : ℕ
  mlpRatio : ℝ
  act : ℝ → ℝ
  norm : String
  useMlp : Bool
  bias : Bool
  mode : String
  theta : Option ℝ

/-- The learnable parameters of a block. -/
structure BlockParams where
  norm0G : ℕ → ℝ
  norm0B : ℕ → ℝ
  norm1G : ℕ → ℝ
  norm1B : ℕ → ℝ
  attn : AttnParams
  mlp : MlpParams

/-- What both attention layers are given, s2transformer.py 289-312. -/
def BlockArgs.layerArgs (a : BlockArgs) : Attn.LayerArgs :=
  ⟨a.inC, a.heads, a.nlatIn, a.nlonIn, a.nlatOut, a.nlonOut, a.gridIn, a.gridOut, .absent, none, some a.outC⟩

/-- `theta_cutoff` of neighbourhood attention, s2transformer.py 287-288. -/
noncomputable def cutoff (nlatIn : ℕ) (theta : Option ℝ) : Except PyErr ℝ :=
  match theta with
  | some t => .ok t
  | none => if nlatIn = 1 then .error .zeroDivision else .ok (7 / Real.sqrt Real.pi * Real.pi / ((nlatIn : ℝ) - 1))

/-- The attention layer, s2transformer.py 286-312. -/
noncomputable def Attention.init (env : Env) (a : BlockArgs) (p : AttnParams) : Except PyErr Attention :=
  if a.mode = "neighborhood" then do
    let theta ← cutoff a.nlatIn a.theta
    let L ← Attn.Nbhd.init env.gauss env.tol env.maxiter a.layerArgs (some theta) (p.toParams a.bias)
    return .nbhd L
  else do
    let L ← Attn.Global.init env.gauss env.tol env.maxiter a.layerArgs (p.toParams a.bias)
    return .full L

/-- One element of a batch as a tensor with four dimensions. -/
def toArr (x : Ten3 ℝ) : Attn.Arr := Attn.Arr.of4 1 x.d0 x.d1 x.d2 fun _ c k j => x.val c k j

/-- And back. -/
def ofArr (y : Attn.Arr) : Ten3 ℝ := ⟨y.shape.getD 1 0, y.shape.getD 2 0, y.shape.getD 3 0, fun c k j => y.at [0, c, k, j]⟩

/-- `self.self_attn(x)`, s2transformer.py 339-345. `run` says which kernel computes neighbourhood attention, and how. -/
noncomputable def Attention.forward (run : Option Attn.CpuRun) (T : Attention) (x : Ten3 ℝ) : Except PyErr (Ten3 ℝ) :=
  match T with
  | .nbhd L => (L.forward run (toArr x) none none).map ofArr
  | .full L => (L.forward (toArr x) none none).map ofArr

/-! ### One block -/

/-- State of a `SphericalAttentionBlock`. Both skip connections are `nn.Identity()`. -/
structure Block where
  norm0 : Norm
  norm1 : Norm
  attn : Attention
  mlp : Option Mlp

/-- `SphericalAttentionBlock.__init__`, s2transformer.py 250-331. -/
noncomputable def Block.init (env : Env) (a : BlockArgs) (p : BlockParams) : Except PyErr Block := do
  let norm0 ← normInit a.norm a.inC p.norm0G p.norm0B
  let norm1 ← normInit a.norm a.outC p.norm1G p.norm1B
  let attn ← Attention.init env a p.attn
  let mlp ← if a.useMlp then (Mlp.init a.outC (pyInt (a.outC * a.mlpRatio)) a.outC a.act p.mlp).map some else .ok none
  return ⟨norm0, norm1, attn, mlp⟩

/-- `SphericalAttentionBlock.forward`, s2transformer.py 333-362, in evaluation mode. -/
noncomputable def Block.forward (run : Option Attn.CpuRun) (B : Block) (x : Ten3 ℝ) : Except PyErr (Ten3 ℝ) := do
  let y ← B.norm0.forward x
  let y ← B.attn.forward run y
  let x ← addEmbed x y
  let y ← B.norm1.forward x
  let y ← match B.mlp with
    | none => .ok y
    | some M => M.forward y
  addEmbed x y

/-! ### The network -/

/-- The arguments of `SphericalTransformer.__init__` that matter in evaluation mode, s2transformer.py 434-460. `hard_thresholding_fraction` has no effect. -/
structure NetArgs where
  nlat : ℕ
  nlon : ℕ
  grid : String
  gridInternal : String
  scale : ℕ
  inChans : ℕ
  outChans : ℕ
  embedDim : ℕ
  numLayers : ℕ
  act : String
  encoderShape : List ℕ
  basis : String
  numHeads : ℕ
  useMlp : Bool
  mlpRatio : ℝ
  norm : String
  residualPrediction : Bool
  posEmbed : String
  upsampleSht : Bool
  mode : String
  bias : Bool
  theta : Option ℝ

/-- The learnable parameters of the network. -/
structure NetParams where
  posLat : ℕ → ℕ → ℕ → ℝ
  encW : ℕ → ℕ → ℕ → ℝ
  decW : ℕ → ℕ → ℕ → ℝ
  block : ℕ → BlockParams

/-- State of a `SphericalTransformer`. -/
structure Net where
  posEmbed : Option (Ten3 ℝ)
  encoder : Disco.Layer ℝ
  blocks : List Block
  decoder : LSNO.Decoder
  residual : Bool

/-- What every block is given, s2transformer.py 525-542: all blocks live on the internal grid. -/
def NetArgs.blockArgs (a : NetArgs) (h w : ℕ) (act : ℝ → ℝ) : BlockArgs :=
  ⟨h, w, h, w, a.gridInternal, a.gridInternal, a.embedDim, a.embedDim, a.numHeads, a.mlpRatio, act, a.norm, a.useMlp, a.bias, a.mode, a.theta⟩

/-- The loop over the blocks, s2transformer.py 523-544: blocks `i, i + 1, ...`. -/
noncomputable def blocksInit (env : Env) (a : BlockArgs) (p : ℕ → BlockParams) : ℕ → ℕ → Except PyErr (List Block)
  | _, 0 => .ok []
  | i, rest + 1 => do
    let b ← Block.init env a (p i)
    let bs ← blocksInit env a p (i + 1) rest
    return b :: bs

/-- `SphericalTransformer.__init__`, s2transformer.py 434-559. The activation function, the size of the internal grid and the position embedding are as in
lsno.py. -/
noncomputable def Net.init (env : Env) (be : C2R) (a : NetArgs) (p : NetParams) : Except PyErr Net := do
  let act ← activation a.act
  let (h, w) ← internalSize a.nlat a.nlon a.scale
  let pos ← posInit env be a.posEmbed h w a.embedDim a.gridInternal p.posLat
  let encoder ← LSNO.encoderInit env a.inChans a.embedDim a.nlat a.nlon h w a.encoderShape a.basis a.grid a.gridInternal p.encW
  let blocks ← blocksInit env (a.blockArgs h w act) p.block 0 a.numLayers
  let decoder ← LSNO.Decoder.init env a.upsampleSht a.embedDim a.outChans h w a.nlat a.nlon a.encoderShape a.basis a.gridInternal a.grid p.decW
  return ⟨pos, encoder, blocks, decoder, a.residualPrediction⟩

/-- `forward_features`, s2transformer.py 565-571: blocks `i, i + 1, ...`, each of them with its own run of the kernel. -/
noncomputable def runBlocks (run : ℕ → Option Attn.CpuRun) : ℕ → List Block → Ten3 ℝ → Except PyErr (Ten3 ℝ)
  | _, [], x => .ok x
  | i, b :: bs, x => do
    let y ← b.forward (run i) x
    runBlocks run (i + 1) bs y

/-- `SphericalTransformer.forward`, s2transformer.py 573-591. -/
noncomputable def Net.forward (be : C2R) (run : ℕ → Option Attn.CpuRun) (N : Net) (x : Ten3 ℝ) : Except PyErr (Ten3 ℝ) := do
  let y ← LSNO.discoForward N.encoder x
  let y ← match N.posEmbed with
    | none => .ok y
    | some e => addEmbed e y
  let y ← runBlocks run 0 N.blocks y
  let y ← N.decoder.forward be y
  if N.residual then addEmbed x y else return y

end Verif.S2T
