import Verif.Model.UNet
import Verif.Model.Transformer
/-!
Model of the spherical Segformer, torch_harmonics/examples/models/s2segformer.py. As for the other networks (`Model/SFNO.lean`) it is modelled in evaluation
mode, on one element of a batch, with arbitrary parameters: dropout and `DropPath` are the identity, so the two drop rates are left out, and with them the
list `dpr` (698), whose slices always have the length `TransformerBlock` asks for (413-414). The convolutions are those of `Model/Disco.lean` and
`Model/DiscoTranspose.lean` (reference kernels), the attention layers those of `Model/AttentionLayer.lean`; `AttentionWrapper` builds them like
`SphericalAttentionBlock` of s2transformer.py, `S2T.Attention.init`. `_compute_cutoff_radius` (s2segformer.py 43-46) is the same function as in lsno.py,
`LSNO.cutoffRadius`. The casts to and from float32 (120-124, 328-331) are not modelled. Sizes and the scale factor are natural numbers.
-/
namespace Verif.Seg
open Verif Verif.Dist Verif.FFT Verif.Quad Verif.SHT Verif.SFNO Verif.Filter Verif.LSNO Finset

/-! ### Layers -/

/-- `nn.LayerNorm((channels), eps=1e-05, elementwise_affine=True, bias=True)`, s2segformer.py 108, 185, 310 and 466. -/
structure LayerNorm where
  chans : ℕ
  g : ℕ → ℝ
  b : ℕ → ℝ

/-- Moving the channels to the end, normalising over them, and moving them back, s2segformer.py 127-129, 232-234, 323-325 and 479-481. -/
noncomputable def LayerNorm.forward (N : LayerNorm) (x : Ten3 ℝ) : Except PyErr (Ten3 ℝ) :=
  if x.d0 ≠ N.chans then .error .runtimeError
  else .ok ⟨x.d0, x.d1, x.d2, fun c k j =>
    (x.val c k j - S2T.chanMean x.d0 fun i => x.val i k j) / Real.sqrt ((S2T.chanVar x.d0 fun i => x.val i k j) + 1 / 10 ^ 5) * N.g c + N.b c⟩

/-- `DiscreteContinuousConvS2.__init__`, convolution.py 421-457 and 552-583, with `basis_norm_mode="nodal"` and any number of groups. -/
noncomputable def groupedInit (env : Env) (a : DiscoArgs) (groups : ℕ) (w : ℕ → ℕ → ℕ → ℝ) (bias : Option (ℕ → ℝ)) : Except PyErr (Disco.Layer ℝ) := do
  let B ← getBasis a.shape a.basis
  let (gs, og) ← Disco.channelSplit a.inC a.outC groups
  if gs = 0 then .error .zeroDivision
  else do
    let es ← Disco.convEntries env.gauss env.tol env.maxiter a.nlatIn a.nlonIn a.nlatOut a.nlonOut B a.gridIn a.gridOut "nodal" (some a.theta)
    return ⟨groups, gs, og, B.kernelSize, a.nlatIn, a.nlonIn, a.nlatOut, a.nlonOut, w, bias, es⟩

/-- The pointwise layers `self.mlp_in`, `self.mlp_out`, `self.mlp`, s2segformer.py 187-191, 209-212 and 544-547. -/
inductive Lin where
  | conv (F : Conv1)
  | mlp (M : Mlp)

structure LinParams where
  w : ℕ → ℕ → ℝ
  b : ℕ → ℝ
  mlp : MlpParams

/-- s2segformer.py 187-191, 209-212 and 544-547. -/
def Lin.init (useMlp : Bool) (inC : ℕ) (hidden : ℤ) (outC : ℕ) (act : ℝ → ℝ) (p : LinParams) : Except PyErr Lin :=
  if useMlp then (Mlp.init inC hidden outC act p.mlp).map .mlp
  else .ok (.conv ⟨inC, outC, p.w, some p.b⟩)

noncomputable def Lin.forward (l : Lin) (x : Ten3 ℝ) : Except PyErr (Ten3 ℝ) :=
  match l with
  | .conv F => F.forward x
  | .mlp M => M.forward x

/-! ### Patch merging -/

/-- State of an `OverlapPatchMerging`. -/
structure Merge where
  conv : Disco.Layer ℝ
  norm : LayerNorm

structure MergeParams where
  w : ℕ → ℕ → ℕ → ℝ
  g : ℕ → ℝ
  b : ℕ → ℝ

/-- `OverlapPatchMerging.__init__`, s2segformer.py 78-110, with `bias=False` (426). -/
noncomputable def Merge.init (env : Env) (inC outC inH inW outH outW : ℕ) (gridIn gridOut : String) (shape : List ℕ) (basis : String) (p : MergeParams) :
    Except PyErr Merge := do
  let theta ← cutoffRadius outH shape basis
  let conv ← discoInit env ⟨inC, outC, inH, inW, outH, outW, shape, basis, gridIn, gridOut, theta⟩ p.w none
  return ⟨conv, ⟨outC, p.g, p.b⟩⟩

/-- `OverlapPatchMerging.forward`, s2segformer.py 118-131. -/
noncomputable def Merge.forward (M : Merge) (x : Ten3 ℝ) : Except PyErr (Ten3 ℝ) := do
  let y ← discoForward M.conv x
  M.norm.forward y

/-! ### The feed-forward network -/

/-- State of a `MixFFN`. -/
structure MixFFN where
  norm : LayerNorm
  mlpIn : Lin
  conv : Disco.Layer ℝ
  mlpOut : Lin
  act : ℝ → ℝ

structure FfnParams where
  g : ℕ → ℝ
  b : ℕ → ℝ
  inn : LinParams
  w : ℕ → ℕ → ℕ → ℝ
  out : LinParams

/-- `MixFFN.__init__`, s2segformer.py 167-216, with `conv_bias=False` (455); `mlp_bias` is not used. The convolution has one group per channel. -/
noncomputable def MixFFN.init (env : Env) (C H W : ℕ) (hidden : ℤ) (grid : String) (shape : List ℕ) (basis : String) (act : ℝ → ℝ) (useMlp : Bool)
    (p : FfnParams) : Except PyErr MixFFN := do
  let mlpIn ← Lin.init useMlp C hidden C act p.inn
  let theta ← cutoffRadius H shape basis
  let conv ← groupedInit env ⟨C, C, H, W, H, W, shape, basis, grid, grid, theta⟩ C p.w none
  let mlpOut ← Lin.init useMlp C hidden C act p.out
  return ⟨⟨C, p.g, p.b⟩, mlpIn, conv, mlpOut, act⟩

/-- `MixFFN.forward`, s2segformer.py 228-248. -/
noncomputable def MixFFN.forward (M : MixFFN) (x : Ten3 ℝ) : Except PyErr (Ten3 ℝ) := do
  let n ← M.norm.forward x
  let u ← M.mlpIn.forward n
  let v ← discoForward M.conv u
  let y ← M.mlpOut.forward (pointwise M.act v)
  addEmbed y x

/-! ### Attention -/

/-- State of an `AttentionWrapper`; `norm` is `None` without `pre_norm`. -/
structure Wrapper where
  norm : Option LayerNorm
  att : S2T.Attention

structure WrapperParams where
  g : ℕ → ℝ
  b : ℕ → ℝ
  attn : S2T.AttnParams

/-- What `AttentionWrapper` passes to the attention layers, s2segformer.py 291-306. -/
def attnArgs (C H W : ℕ) (grid : String) (heads : ℕ) (mode : String) (theta : Option ℝ) (bias : Bool) : S2T.BlockArgs :=
  ⟨H, W, H, W, grid, grid, C, C, heads, 0, id, "none", false, bias, mode, theta⟩

/-- `AttentionWrapper.__init__`, s2segformer.py 282-312. -/
noncomputable def Wrapper.init (env : Env) (C H W : ℕ) (grid : String) (heads : ℕ) (preNorm : Bool) (mode : String) (theta : Option ℝ) (bias : Bool)
    (p : WrapperParams) : Except PyErr Wrapper := do
  let att ← S2T.Attention.init env (attnArgs C H W grid heads mode theta bias) p.attn
  return ⟨if preNorm then some ⟨C, p.g, p.b⟩ else none, att⟩

/-- s2segformer.py 322-325. -/
noncomputable def preNormForward (N : Option LayerNorm) (x : Ten3 ℝ) : Except PyErr (Ten3 ℝ) :=
  match N with
  | none => .ok x
  | some N => N.forward x

/-- `AttentionWrapper.forward`, s2segformer.py 319-335. -/
noncomputable def Wrapper.forward (run : Option Attn.CpuRun) (A : Wrapper) (x : Ten3 ℝ) : Except PyErr (Ten3 ℝ) := do
  let n ← preNormForward A.norm x
  let y ← A.att.forward run n
  addEmbed y x

/-! ### Transformer blocks -/

/-- One repetition in `self.fwd`: attention and feed-forward network, s2segformer.py 431-460. -/
structure Rep where
  att : Wrapper
  ffn : MixFFN

structure RepParams where
  att : WrapperParams
  ffn : FfnParams

/-- The arguments of a `TransformerBlock`, s2segformer.py 383-402. -/
structure BlockArgs where
  inH : ℕ
  inW : ℕ
  outH : ℕ
  outW : ℕ
  inC : ℕ
  outC : ℕ
  hidden : ℤ
  gridIn : String
  gridOut : String
  nrep : ℕ
  heads : ℕ
  shape : List ℕ
  basis : String
  act : ℝ → ℝ
  mode : String
  theta : Option ℝ
  bias : Bool

structure BlockParams where
  merge : MergeParams
  rep : ℕ → RepParams
  g : ℕ → ℝ
  b : ℕ → ℝ

structure Block where
  merge : Merge
  reps : List Rep
  norm : LayerNorm

/-- One pass of the loop, s2segformer.py 430-460. -/
noncomputable def Rep.init (env : Env) (a : BlockArgs) (p : RepParams) : Except PyErr Rep := do
  let att ← Wrapper.init env a.outC a.outH a.outW a.gridOut a.heads true a.mode a.theta a.bias p.att
  let ffn ← MixFFN.init env a.outC a.outH a.outW a.hidden a.gridOut a.shape a.basis a.act false p.ffn
  return ⟨att, ffn⟩

/-- `TransformerBlock.__init__`, s2segformer.py 383-468. -/
noncomputable def Block.init (env : Env) (a : BlockArgs) (p : BlockParams) : Except PyErr Block := do
  let merge ← Merge.init env a.inC a.outC a.inH a.inW a.outH a.outW a.gridIn a.gridOut a.shape a.basis p.merge
  let reps ← (List.range a.nrep).mapM fun i => Rep.init env a (p.rep i)
  return ⟨merge, reps, ⟨a.outC, p.g, p.b⟩⟩

/-- `nn.Sequential` of the repetitions; repetition `i` runs its attention as `run i` says. -/
noncomputable def runReps (run : ℕ → Option Attn.CpuRun) : ℕ → List Rep → Ten3 ℝ → Except PyErr (Ten3 ℝ)
  | _, [], x => .ok x
  | i, R :: l, x => do
    let y ← R.att.forward (run i) x
    let z ← R.ffn.forward y
    runReps run (i + 1) l z

/-- `TransformerBlock.forward`, s2segformer.py 475-483. -/
noncomputable def Block.forward (run : ℕ → Option Attn.CpuRun) (B : Block) (x : Ten3 ℝ) : Except PyErr (Ten3 ℝ) := do
  let y ← B.merge.forward x
  let z ← runReps run 0 B.reps y
  B.norm.forward z

/-! ### Upsampling -/

/-- `self.upsample`, s2segformer.py 549-566. -/
inductive Resize where
  | transpose (L : Disco.Layer ℝ)
  | resample (R : Resample.Resampler)

/-- State of an `Upsampling`. -/
structure Up where
  mlp : Lin
  resize : Resize

structure UpParams where
  lin : LinParams
  w : ℕ → ℕ → ℕ → ℝ

/-- s2segformer.py 549-566, with `conv_bias=False` (752). The resampling has its default mode "bilinear". -/
noncomputable def Resize.init (env : Env) (inH inW outH outW outC : ℕ) (gridIn gridOut : String) (shape : List ℕ) (basis method : String) (w : ℕ → ℕ → ℕ → ℝ) :
    Except PyErr Resize :=
  if method = "conv" then do
    let theta ← cutoffRadius inH shape basis
    let L ← UNet.transInit env ⟨outC, outC, inH, inW, outH, outW, shape, basis, gridIn, gridOut, theta⟩ w none
    return .transpose L
  else if method = "bilinear" then
    (Resample.init env.gauss env.tol env.maxiter ⟨inH, inW, outH, outW, gridIn, gridOut, "bilinear"⟩).map .resample
  else .error .valueError

noncomputable def Resize.forward (R : Resize) (x : Ten3 ℝ) : Except PyErr (Ten3 ℝ) :=
  match R with
  | .transpose L => UNet.transForward L x
  | .resample R => mapChannels R.forward x

/-- `Upsampling.__init__`, s2segformer.py 525-568; `mlp_bias` is not used. -/
noncomputable def Up.init (env : Env) (inH inW outH outW inC outC : ℕ) (hidden : ℤ) (gridIn gridOut : String) (shape : List ℕ) (basis : String) (act : ℝ → ℝ)
    (useMlp : Bool) (method : String) (p : UpParams) : Except PyErr Up := do
  let mlp ← Lin.init useMlp inC hidden outC act p.lin
  let resize ← Resize.init env inH inW outH outW outC gridIn gridOut shape basis method p.w
  return ⟨mlp, resize⟩

/-- `Upsampling.forward`, s2segformer.py 579-583. -/
noncomputable def Up.forward (U : Up) (x : Ten3 ℝ) : Except PyErr (Ten3 ℝ) := do
  let y ← U.mlp.forward x
  U.resize.forward y

/-! ### The network -/

/-- The arguments of a `SphericalSegformer`, s2segformer.py 646-667, without the drop rates. -/
structure NetArgs where
  nlat : ℕ
  nlon : ℕ
  grid : String
  gridInternal : String
  inChans : ℕ
  outChans : ℕ
  embedDims : List ℕ
  heads : List ℕ
  depths : List ℕ
  scale : ℕ
  act : String
  shape : List ℕ
  basis : String
  mlpRatio : ℝ
  mode : String
  theta : Option ℝ
  upMethod : String
  bias : Bool

/-- What the loop over the blocks computes for a block. -/
structure Level where
  inH : ℕ
  inW : ℕ
  outH : ℕ
  outW : ℕ
  inC : ℕ
  outC : ℕ
  gridIn : String

/-- The loop variables, s2segformer.py 701-708 and 731-733. -/
def level (a : NetArgs) : ℕ → Level
  | 0 => ⟨a.nlat, a.nlon, a.nlat / a.scale, a.nlon / a.scale, a.inChans, a.embedDims.getD 0 0, a.grid⟩
  | i + 1 =>
    let l := level a i
    ⟨l.outH, l.outW, l.outH / a.scale, l.outW / a.scale, l.outC, a.embedDims.getD (i + 1) 0, a.gridInternal⟩

/-- The arguments of block `i`, s2segformer.py 710-728. -/
noncomputable def blockArgs (a : NetArgs) (act : ℝ → ℝ) (i : ℕ) : BlockArgs :=
  let l := level a i
  ⟨l.inH, l.inW, l.outH, l.outW, l.inC, l.outC, pyInt (a.mlpRatio * l.outC), l.gridIn, a.gridInternal, a.depths.getD i 0, a.heads.getD i 0, a.shape, a.basis, act,
    a.mode, a.theta, a.bias⟩

/-- The learnable parameters. -/
structure NetParams where
  block : ℕ → BlockParams
  up : ℕ → UpParams
  headW : ℕ → ℕ → ℝ
  headB : ℕ → ℝ

structure Net where
  blocks : List Block
  ups : List Up
  head : Conv1

/-- Upsampler `i`, s2segformer.py 738-756: from the output grid of block `i` to the outer grid, with `activation=nn.GELU` and the default `use_mlp=False`. -/
noncomputable def upInit (env : Env) (a : NetArgs) (p : NetParams) (i : ℕ) : Except PyErr Up :=
  Up.init env (level a i).outH (level a i).outW a.nlat a.nlon (a.embedDims.getD i 0) (a.embedDims.getD i 0) (pyInt (a.mlpRatio * a.embedDims.getD i 0))
    a.gridInternal a.grid a.shape a.basis gelu false a.upMethod (p.up i)

/-- `SphericalSegformer.__init__`, s2segformer.py 646-761. -/
noncomputable def Net.init (env : Env) (a : NetArgs) (p : NetParams) : Except PyErr Net := do
  let n := a.embedDims.length
  if a.heads.length ≠ n then .error .valueError
  else if a.depths.length ≠ n then .error .valueError
  else do
    let act ← activation a.act
    if n ≠ 0 ∧ a.scale = 0 then .error .zeroDivision
    else do
      let blocks ← (List.range n).mapM fun i => Block.init env (blockArgs a act i) (p.block i)
      let ups ← (List.range n).mapM fun i => upInit env a p i
      return ⟨blocks, ups, ⟨a.embedDims.sum, a.outChans, p.headW, some p.headB⟩⟩

/-- The encoder loop, s2segformer.py 776-780: the features in the order they are appended. `run i q` says how repetition `q` of block `i` runs its attention. -/
noncomputable def encode (run : ℕ → ℕ → Option Attn.CpuRun) : ℕ → List Block → Ten3 ℝ → Except PyErr (List (Ten3 ℝ))
  | _, [], _ => .ok []
  | i, B :: l, x => do
    let f ← B.forward (run i) x
    let fs ← encode run (i + 1) l f
    return f :: fs

/-- `torch.cat(upfeats, dim=1)`, which raises for an empty list. -/
def catAll : List (Ten3 ℝ) → Except PyErr (Ten3 ℝ)
  | [] => .error .runtimeError
  | [x] => .ok x
  | x :: y :: l => do
    let r ← catAll (y :: l)
    UNet.cat x r

/-- `SphericalSegformer.forward`, s2segformer.py 773-793. -/
noncomputable def Net.forward (run : ℕ → ℕ → Option Attn.CpuRun) (N : Net) (x : Ten3 ℝ) : Except PyErr (Ten3 ℝ) := do
  let fs ← encode run 0 N.blocks x
  let us ← (fs.zip N.ups).mapM fun q => q.2.forward q.1
  let c ← catAll us
  N.head.forward c

end Verif.Seg
