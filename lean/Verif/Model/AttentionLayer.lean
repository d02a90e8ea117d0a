import Verif.Model.AttentionOp
import Verif.Model.DiscoGeom
import Verif.Spec.AttentionLayer
/-!
Model of `attention/attention.py`: `AttentionS2` and `NeighborhoodAttentionS2`, constructors and forward passes.

Initial values of the learnable parameters are random (lines 148-169, 420-446) and change in training; they are the argument
`p : Params`. Dropout is off (`drop_rate = 0`, the default, or evaluation mode). A `scale` given as a tensor is a tensor with one
element. Data types are left out.
-/
namespace Verif.Attn
open Verif Verif.Spec.Attn Verif.Quad Verif.Filter Verif.Disco Finset

/-- `F.linear(x, weight, bias)` with `weight : [Cout, Cin]`: acts on the last axis. -/
def linear (Cin Cout : ℕ) (W : ℕ → ℕ → ℝ) (bias : Option (ℕ → ℝ)) (x : Arr) : Except PyErr Arr :=
  if x.shape.getLastD 0 ≠ Cin then .error .runtimeError
  else .ok ⟨x.shape.dropLast ++ [Cout], fun k =>
    (∑ c ∈ range Cin, x.data (k / Cout * Cin + c) * W (k % Cout) c) + bias.elim 0 (fun f => f (k % Cout))⟩

/-- `conv2d(x, weight, bias)` with `weight : [Cout, Cin, 1, 1]` on `x : [B, Cin, H, W]`. -/
def conv1x1 (Cin Cout : ℕ) (W : ℕ → ℕ → ℝ) (bias : Option (ℕ → ℝ)) (x : Arr) : Except PyErr Arr :=
  match x.shape with
  | [B, C, H, V] =>
    if C ≠ Cin then .error .runtimeError
    else .ok (Arr.of4 B Cout H V fun b o h w => (∑ c ∈ range Cin, x.at [b, c, h, w] * W o c) + bias.elim 0 (fun f => f o))
  | _ => .error .runtimeError

/-- `F.rms_norm(x, (C,), weight)`: acts on the last axis, which must have size `C`. -/
noncomputable def rmsNorm (C : ℕ) (eps : ℝ) (weight : ℕ → ℝ) (x : Arr) : Except PyErr Arr :=
  if x.shape.getLastD 0 ≠ C then .error .runtimeError
  else .ok ⟨x.shape, fun k =>
    x.data k / Real.sqrt ((∑ c ∈ range C, x.data (k / C * C + c) ^ 2) / C + eps) * weight (k % C)⟩

/-- `x * scale`. -/
def Arr.scale (x : Arr) (a : ℝ) : Arr := ⟨x.shape, fun k => x.data k * a⟩

/-- The argument `scale`: absent, a float, or a tensor with one element. -/
inductive Scale where
  | absent
  | float (a : ℝ)
  | tensor (a : ℝ)

/-- `scale is None`. -/
def Scale.isAbsent : Scale → Bool
  | .absent => true
  | _ => false

/-- The arguments both constructors share. -/
structure LayerArgs where
  inChannels : ℕ
  numHeads : ℕ
  nlatIn : ℕ
  nlonIn : ℕ
  nlatOut : ℕ
  nlonOut : ℕ
  gridIn : String
  gridOut : String
  scale : Scale
  kChannels : Option ℕ
  outChannels : Option ℕ

/-- `k_channels`, `out_channels` after the defaults, attention.py 122-123 and 345-346. -/
def LayerArgs.kC (A : LayerArgs) : ℕ := A.kChannels.getD A.inChannels
def LayerArgs.oC (A : LayerArgs) : ℕ := A.outChannels.getD A.inChannels

/-- The checks on heads and the divisions of the initialisation, attention.py 141-147 and 413-419. -/
def headChecks (A : LayerArgs) : Except PyErr Unit :=
  if A.numHeads = 0 then .error .zeroDivision
  else if A.kC % A.numHeads ≠ 0 then .error .valueError
  else if A.oC % A.numHeads ≠ 0 then .error .valueError
  else if A.inChannels + A.kC = 0 then .error .zeroDivision
  else if A.inChannels + A.oC = 0 then .error .zeroDivision
  else if A.oC = 0 then .error .zeroDivision
  else .ok ()

/-! ### `AttentionS2` -/

/-- The state of `AttentionS2` after construction. -/
structure Global where
  args : LayerArgs
  params : Params
  logQuad : ℕ → ℝ

/-- `AttentionS2.__init__`, attention.py 97-169. The weights are tiled over the longitudes and flattened, so entry `s` belongs to
latitude `s / nlon_in`. -/
noncomputable def Global.init (gauss : ℕ → Rule) (tol : ℝ) (maxiter : ℕ) (A : LayerArgs) (p : Params) : Except PyErr Global :=
  if A.nlonOut = 0 then .error .zeroDivision
  else if A.nlonIn % A.nlonOut ≠ 0 then .error .valueError
  else
    match precomputeLatitudes gauss tol maxiter A.nlatIn A.gridIn with
    | .error e => .error e
    | .ok r =>
      match headChecks A with
      | .error e => .error e
      | .ok () => .ok ⟨A, p, fun s => Real.log (2 * Real.pi * r.w (s / A.nlonIn) / A.nlonIn)⟩

/-- `F.scaled_dot_product_attention(q, k, v, attn_mask=mask, scale=a)` for `q : [B, n, L, E]`, `k : [B, n, S, E]`, `v : [B, n, S, F]` and
an additive mask with `M` entries along `S` (`M = S`, or one entry that is broadcast). -/
noncomputable def sdpa (q k v : Arr) (M : ℕ) (mask : ℕ → ℝ) (a : ℝ) : Except PyErr Arr :=
  match q.shape, k.shape, v.shape with
  | [B, n, L, E], [_, _, S, E'], [_, _, S', F] =>
    if E ≠ E' ∨ S ≠ S' ∨ (M ≠ S ∧ M ≠ 1) then .error .runtimeError
    else .ok (Arr.of4 B n L F fun b h l f =>
      let s := fun j => (∑ e ∈ range E, q.at [b, h, l, e] * k.at [b, h, j, e]) * a + mask (if M = 1 then 0 else j)
      ∑ j ∈ range S, Real.exp (s j) / (∑ i ∈ range S, Real.exp (s i)) * v.at [b, h, j, f])
  | _, _, _ => .error .runtimeError

/-- The reshapes of one projected tensor, attention.py 212-225: `[B, n*C, H, W]` to `[B, n, H*W, C]`. -/
def splitHeads (nh : ℕ) (x : Arr) : Except PyErr Arr :=
  match x.shape with
  | [B, _, H, W] =>
    match x.reshape [some B, some nh, none, some H, some W] with
    | .error e => .error e
    | .ok y => (y.permute [0, 1, 3, 4, 2]).reshape [some B, some nh, some (H * W), some (y.shape.getD 2 0)]
  | _ => .error .valueError

/-- `if self.q_norm_weights is not None: ...`, attention.py 227-230. -/
noncomputable def optNorm (C : ℕ) (eps : ℝ) (g : Option (ℕ → ℝ)) (x : Arr) : Except PyErr Arr :=
  match g with
  | none => .ok x
  | some g => rmsNorm C eps (fun c => 1 + g c) x

/-- The two calls of attention.py 235-239; `scale=None` means `1 / sqrt(E)`. -/
noncomputable def scaledAttention (sc : Scale) (q k v : Arr) (M : ℕ) (mask : ℕ → ℝ) : Except PyErr Arr :=
  match sc with
  | .tensor a => sdpa (q.scale a) k v M mask 1
  | .float a => sdpa q k v M mask a
  | .absent => sdpa q k v M mask (1 / Real.sqrt (q.shape.getD 3 0))

/-- `AttentionS2.forward`, attention.py 174-250. -/
noncomputable def Global.forward (L : Global) (query : Arr) (key value : Option Arr) : Except PyErr Arr := do
  let A := L.args
  let p := L.params
  let key := key.getD query
  let value := value.getD query
  if query.shape.length ≠ 4 ∨ key.shape.length ≠ 4 ∨ value.shape.length ≠ 4 then .error .runtimeError else
  let q ← conv1x1 A.inChannels A.kC p.wq p.bq query
  let k ← conv1x1 A.inChannels A.kC p.wk p.bk key
  let v ← conv1x1 A.inChannels A.oC p.wv p.bv value
  let q ← splitHeads A.numHeads q
  let k ← splitHeads A.numHeads k
  let v ← splitHeads A.numHeads v
  let q ← optNorm (A.kC / A.numHeads) p.eps p.nq q
  let k ← optNorm (A.kC / A.numHeads) p.eps p.nk k
  let out ← scaledAttention A.scale q k v (A.nlatIn * A.nlonIn) L.logQuad
  let B := out.shape.getD 0 0
  let C := out.shape.getD 3 0
  let out ← (out.permute [0, 1, 3, 2]).reshape [some B, some (A.numHeads * C), some A.nlatOut, some A.nlonOut]
  conv1x1 A.oC A.oC p.wp p.bp out

/-! ### `NeighborhoodAttentionS2` -/

/-- The state of `NeighborhoodAttentionS2` after construction. -/
structure Nbhd where
  args : LayerArgs
  params : Params
  quad : ℕ → ℝ
  pattern : Pattern

/-- `self.upsample`, attention.py 339. -/
def LayerArgs.upsample (A : LayerArgs) : Bool := A.nlonOut % A.nlonIn = 0 ∧ A.nlonIn % A.nlonOut ≠ 0

/-- The dummy basis, attention.py 371. -/
noncomputable def nbhdBasis : Basis := ⟨zernikeKernelSize 1, zernikeMask 1, zernikeVal 1⟩

/-- The arguments of the two calls of the precomputation, attention.py 377-400 (`theta_eps` is its default `1e-3`). -/
noncomputable def nbhdPre (A : LayerArgs) (cutoff : ℝ) : PreArgs :=
  if A.upsample then
    ⟨A.nlatOut, A.nlonOut, A.nlatIn, A.nlonIn, nbhdBasis, A.gridOut, A.gridIn, cutoff, 1 / 10 ^ 3, true, "none", true⟩
  else ⟨A.nlatIn, A.nlonIn, A.nlatOut, A.nlonOut, nbhdBasis, A.gridIn, A.gridOut, cutoff, 1 / 10 ^ 3, false, "none", true⟩

/-- The default cutoff, attention.py 352-356: `pi / (nlat - 1)` of the coarser grid. -/
noncomputable def nbhdCutoff (A : LayerArgs) (theta : Option ℝ) : Except PyErr ℝ :=
  match theta with
  | some t => .ok t
  | none =>
    let n := if A.upsample then A.nlatIn else A.nlatOut
    if n = 1 then .error .zeroDivision else .ok (Real.pi / ((n : ℝ) - 1))

/-- `col_idx`, `roff_idx`, attention.py 403-409. -/
def patternOf (es : List (Entry ℝ)) (roff : ℕ → ℕ) : Pattern := ⟨fun z => (es.map fun e => e.col).getD z 0, roff⟩

/-- `NeighborhoodAttentionS2.__init__`, attention.py 314-451. -/
noncomputable def Nbhd.init (gauss : ℕ → Rule) (tol : ℝ) (maxiter : ℕ) (A : LayerArgs) (theta : Option ℝ) (p : Params) :
    Except PyErr Nbhd :=
  if A.nlonIn = 0 ∨ A.nlonOut = 0 then .error .zeroDivision
  else if ¬ (A.nlonIn % A.nlonOut = 0 ∨ A.upsample = true) then .error .valueError
  else
    match nbhdCutoff A theta with
    | .error e => .error e
    | .ok cutoff =>
      if cutoff ≤ 0 then .error .valueError
      else
        match precomputeLatitudes gauss tol maxiter A.nlatIn A.gridIn with
        | .error e => .error e
        | .ok r =>
          match precompute gauss tol maxiter (nbhdPre A cutoff) with
          | .error e => .error e
          | .ok (es, roff) =>
            match headChecks A with
            | .error e => .error e
            | .ok () =>
              if A.scale.isAbsent ∧ A.kC / A.numHeads = 0 then .error .zeroDivision
              else .ok ⟨A, p, fun i => 2 * Real.pi * r.w i / A.nlonIn, patternOf es roff⟩

/-- `self.scale`, attention.py 425-428. -/
noncomputable def nbhdScale (A : LayerArgs) : ℝ :=
  match A.scale with
  | .absent => 1 / Real.sqrt ((A.kC / A.numHeads : ℕ) : ℝ)
  | .float a => a
  | .tensor a => a

/-- The optional normalisation, attention.py 538-548. -/
noncomputable def nbhdNorm (nh C : ℕ) (eps : ℝ) (g : Option (ℕ → ℝ)) (x : Arr) : Except PyErr Arr :=
  match g with
  | none => .ok x
  | some g =>
    match x.shape with
    | [B, H, W, Ct] => do
      let y ← x.reshape [some B, some H, some W, some nh, none]
      let y ← rmsNorm C eps (fun c => 1 + g c) y
      y.reshape [some B, some H, some W, some Ct]
    | _ => .error .valueError

/-- `self.attention_handle`, attention.py 448-451: the reference or the CPU operator (`optimized_kernel`), the latter with the
unspecified parts of its run. -/
noncomputable def attentionHandle (run : Option CpuRun) (w : ℕ → ℝ) (P : Pattern) (nh nlonIn nlatOut nlonOut : ℕ) (k v q : Arr) :
    Except PyErr Arr :=
  match run with
  | none => refOp w P nh nlonIn nlatOut nlonOut k v q
  | some r => cpuOp r w P nh nlonIn nlatOut nlonOut k v q

/-- `NeighborhoodAttentionS2.forward`, attention.py 456-571. Sharing the converted tensor when two arguments are the same object
(514-525) does not change the values. -/
noncomputable def Nbhd.forward (L : Nbhd) (run : Option CpuRun) (query : Arr) (key value : Option Arr) : Except PyErr Arr := do
  let A := L.args
  let p := L.params
  let key := key.getD query
  let value := value.getD query
  if query.shape.length ≠ 4 ∨ key.shape.length ≠ 4 ∨ value.shape.length ≠ 4 then .error .runtimeError else
  if query.shape.getD 2 0 ≠ A.nlatOut ∨ query.shape.getD 3 0 ≠ A.nlonOut then .error .runtimeError else
  if key.shape.getD 2 0 ≠ A.nlatIn ∨ key.shape.getD 3 0 ≠ A.nlonIn then .error .runtimeError else
  if value.shape.getD 2 0 ≠ A.nlatIn ∨ value.shape.getD 3 0 ≠ A.nlonIn then .error .runtimeError else
  let query ← toNhwc query
  let key ← toNhwc key
  let value ← toNhwc value
  let query ← linear A.inChannels A.kC p.wq p.bq query
  let key ← linear A.inChannels A.kC p.wk p.bk key
  let value ← linear A.inChannels A.oC p.wv p.bv value
  let query ← nbhdNorm A.numHeads (A.kC / A.numHeads) p.eps p.nq query
  let key ← nbhdNorm A.numHeads (A.kC / A.numHeads) p.eps p.nk key
  let query := query.scale (nbhdScale A)
  let out ← attentionHandle run L.quad L.pattern A.numHeads A.nlonIn A.nlatOut A.nlonOut key value query
  let out ← linear A.oC A.oC p.wp p.bp out
  toNchw out

end Verif.Attn
