import Mathlib.Analysis.SpecialFunctions.Log.Basic
import Verif.Model.Quadrature
import Verif.Model.FFT
import Verif.Model.Flt
/-!
Model of torch_harmonics/examples/losses.py.

Tensors: a field is `ℕ → ℕ → ℝ` (latitude, longitude) with extents `H`, `W`; leading axes are flattened into one batch axis.
Targets of the segmentation losses are integers. Casts to float32 are not modelled (numbers are real). `prd` and `tar` have the
same shape.
-/
namespace Verif.Loss
open Verif Verif.Dist Verif.Quad Finset

/-- What the construction of the weights depends on outside this file: `leggauss` and the two parameters of `lobatto_weights`. -/
structure QEnv where
  gauss : ℕ → Rule
  tol : ℝ
  maxiter : ℕ

/-- `get_quadrature_weights` without the tiling, losses.py 43-50: a column of `nlat` weights. -/
noncomputable def quadratureWeights (E : QEnv) (nlat nlon : ℕ) (grid : String) (normalized : Bool) : Except PyErr (Vec ℝ) := do
  let r ← precomputeLatitudes E.gauss E.tol E.maxiter nlat grid
  let q : ℕ → ℝ := fun k => r.w k * 2 * Real.pi / nlon
  let q' : ℕ → ℝ := if normalized then fun k => q k / (∑ i ∈ range r.n, q i) / (nlon : ℝ) else q
  return ⟨r.n, q'⟩

/-- `get_quadrature_weights` with `tile=True`, losses.py 52-53: `torch.tile(q, (1, nlon))` repeats the column. -/
noncomputable def quadratureWeightsTiled (E : QEnv) (nlat nlon : ℕ) (grid : String) (normalized : Bool) :
    Except PyErr (Mat ℝ) := do
  let q ← quadratureWeights E nlat nlon grid normalized
  return ⟨q.len, nlon, fun k _ => q.val k⟩

/-- The extent of an axis after broadcasting extents `H` and `n`. -/
def bdim (H n : ℕ) : Except PyErr ℕ :=
  if H = n then .ok H else if H = 1 then .ok n else if n = 1 then .ok H else .error .runtimeError

/-- The index into an axis of extent `H` that is read at position `i` of the broadcast axis. -/
def bidx (H i : ℕ) : ℕ := if H = 1 then 0 else i

/-- `torch.sum(u * quad_weights, dim=(-2, -1))` for a field of extents `(H, W)` and a column `q`. -/
noncomputable def wsum (q : Vec ℝ) (H W : ℕ) (u : ℕ → ℕ → ℝ) : Except PyErr ℝ := do
  let n ← bdim H q.len
  return ∑ i ∈ range n, ∑ j ∈ range W, u (bidx H i) j * q.val (bidx q.len i)

/-- `SphericalLossBase._integrate_sphere`, losses.py 248-253. -/
noncomputable def integrateSphere (q : Vec ℝ) (H W : ℕ) (u : ℕ → ℕ → ℝ) (mask : Option (ℕ → ℕ → ℝ)) : Except PyErr Flt :=
  match mask with
  | none => do
    let s ← wsum q H W u
    return .num s
  | some m => do
    let s ← wsum q H W (fun i j => m i j * u i j)
    let t ← wsum q H W m
    return .div s t

/-- A prediction or target of shape `(B, H, W)`. -/
abbrev Field := ℕ → ℕ → ℕ → ℝ

/-- `SphericalLossBase.forward`, losses.py 277-300: integrate every item of the batch, apply the hook, average. The integrals of
all items succeed or fail together: a failing shape check is reported once. `mask` has one field per item. -/
noncomputable def lossForward (q : Vec ℝ) (hook : Flt → Flt) (B H W : ℕ) (term : Field) (mask : Option Field) : Except PyErr Flt := do
  let _ ← bdim H q.len
  return Flt.mean B fun b =>
    match integrateSphere q H W (term b) (mask.map fun m => m b) with
    | .ok x => hook x
    | .error _ => .nan

/-- `SquaredL2LossS2._compute_loss_term`, losses.py 303-305. -/
def squaredL2Term (prd tar : Field) : Field := fun b i j => (prd b i j - tar b i j) ^ 2
/-- `L1LossS2._compute_loss_term`, losses.py 308-310. -/
def l1Term (prd tar : Field) : Field := fun b i j => |prd b i j - tar b i j|

/-- `SquaredL2LossS2.forward` -/
noncomputable def squaredL2 (q : Vec ℝ) (B H W : ℕ) (prd tar : Field) (mask : Option Field) : Except PyErr Flt :=
  lossForward q id B H W (squaredL2Term prd tar) mask
/-- `L1LossS2.forward` -/
noncomputable def l1 (q : Vec ℝ) (B H W : ℕ) (prd tar : Field) (mask : Option Field) : Except PyErr Flt :=
  lossForward q id B H W (l1Term prd tar) mask
/-- `L2LossS2.forward`: the same with the root as post-integration hook, losses.py 313-315. -/
noncomputable def l2 (q : Vec ℝ) (B H W : ℕ) (prd tar : Field) (mask : Option Field) : Except PyErr Flt :=
  lossForward q Flt.sqrt B H W (squaredL2Term prd tar) mask

/-! ### Losses on derivatives -/

/-- `torch.fft.fftfreq(n, d)[k]` (external). -/
noncomputable def fftfreq (n : ℕ) (d : ℝ) (k : ℕ) : ℝ := (if k ≤ (n - 1) / 2 then (k : ℝ) else (k : ℝ) - n) / (n * d)

/-- `torch.fft.fft2` (external) of a complex field of extents `(H, W)`. -/
noncomputable def fft2 (H W : ℕ) (x : ℕ → ℕ → ℂ) (k l : ℕ) : ℂ :=
  ∑ i ∈ range H, ∑ j ∈ range W, x i j * FFT.root H (-(i * k)) * FFT.root W (-(j * l))

/-- `torch.fft.ifft2` (external). -/
noncomputable def ifft2 (H W : ℕ) (X : ℕ → ℕ → ℂ) (i j : ℕ) : ℂ :=
  1 / ((H : ℂ) * W) * ∑ k ∈ range H, ∑ l ∈ range W, X k l * FFT.root H (i * k) * FFT.root W (j * l)

/-- `k_phi_mesh[k, l]`, losses.py 325-328 (and 379-383). -/
noncomputable def kPhi (_nlat nlon : ℕ) (_k l : ℕ) : ℝ := fftfreq nlon (2 * Real.pi / (2 * Real.pi * nlon)) l
/-- `k_theta_mesh[k, l]`, losses.py 325-328 (and 379-383). -/
noncomputable def kTheta (nlat _nlon : ℕ) (k _l : ℕ) : ℝ := fftfreq nlat (Real.pi / (2 * Real.pi * nlat)) k

/-- `torch.fft.ifft2(1j * k_mesh * torch.fft.fft2(x)).real`, losses.py 335-339 and 390-391. -/
noncomputable def specDeriv (nlat nlon : ℕ) (mesh : ℕ → ℕ → ℝ) (x : ℕ → ℕ → ℝ) (i j : ℕ) : ℝ :=
  (ifft2 nlat nlon (fun k l => Complex.I * (mesh k l : ℂ) * fft2 nlat nlon (fun i j => (x i j : ℂ)) k l) i j).re

/-- `W11LossS2._compute_loss_term`, losses.py 331-342. -/
noncomputable def w11Term (nlat nlon : ℕ) (prd tar : Field) : Field := fun b i j =>
  |specDeriv nlat nlon (kPhi nlat nlon) (prd b) i j - specDeriv nlat nlon (kPhi nlat nlon) (tar b) i j|
    + |specDeriv nlat nlon (kTheta nlat nlon) (prd b) i j - specDeriv nlat nlon (kTheta nlat nlon) (tar b) i j|

/-- `W11LossS2.forward`. The field is multiplied by the meshes of extents `(nlat, nlon)`; other extents are refused here (torch
would broadcast extents of 1, which is not modelled). -/
noncomputable def w11 (nlat nlon : ℕ) (q : Vec ℝ) (B H W : ℕ) (prd tar : Field) (mask : Option Field) : Except PyErr Flt :=
  if H = nlat ∧ W = nlon then lossForward q id B H W (w11Term nlat nlon prd tar) mask else .error .runtimeError

/-- The three components stacked by `NormalLossS2.compute_normals`, losses.py 401-404. -/
noncomputable def rawNormal (nlat nlon : ℕ) (x : ℕ → ℕ → ℝ) (i j c : ℕ) : ℝ :=
  if c = 0 then -specDeriv nlat nlon (kPhi nlat nlon) x i j
  else if c = 1 then -specDeriv nlat nlon (kTheta nlat nlon) x i j
  else 1

/-- `F.normalize(v, p=2, dim=1)` (external) of a three-component vector: divide by `max(norm, 1e-12)`. -/
noncomputable def fNormalize (v : ℕ → ℝ) (c : ℕ) : ℝ := v c / max (Real.sqrt (∑ d ∈ range 3, v d ^ 2)) (1 / 10 ^ 12)

/-- `NormalLossS2._compute_loss_term`, losses.py 410-429: one minus the inner product of the normals. -/
noncomputable def normalTerm (nlat nlon : ℕ) (prd tar : Field) : Field := fun b i j =>
  1 - ∑ c ∈ range 3, fNormalize (rawNormal nlat nlon (prd b) i j) c * fNormalize (rawNormal nlat nlon (tar b) i j) c

/-- `NormalLossS2.forward` on tensors of shape `(B, H, W)` (a channel axis of extent one is squeezed first). Without mask: with a
mask of shape `(B, H, W)` the kept axis of `normal_loss` makes torch broadcast over pairs of batch items, not modelled. -/
noncomputable def normal (nlat nlon : ℕ) (q : Vec ℝ) (B H W : ℕ) (prd tar : Field) : Except PyErr Flt :=
  if H = nlat ∧ W = nlon then lossForward q id B H W (normalTerm nlat nlon prd tar) none else .error .runtimeError

/-! ### Segmentation losses -/

/-- Logits of shape `(B, C, H, W)`. -/
abbrev Logits := ℕ → ℕ → ℕ → ℕ → ℝ
/-- Target classes of shape `(B, H, W)`. -/
abbrev Labels := ℕ → ℕ → ℕ → ℤ

/-- `nn.functional.softmax(x, dim=1)` at one point (external). -/
noncomputable def softmax (C : ℕ) (x : ℕ → ℝ) (c : ℕ) : ℝ := Real.exp (x c) / ∑ d ∈ range C, Real.exp (x d)
/-- `nn.functional.log_softmax(x, dim=1)` at one point (external). -/
noncomputable def logSoftmax (C : ℕ) (x : ℕ → ℝ) (c : ℕ) : ℝ := x c - Real.log (∑ d ∈ range C, Real.exp (x d))

/-- `nn.functional.cross_entropy(x, t, weight, reduction="none", ignore_index, label_smoothing)` at one point (external): it applies
`log_softmax` itself. `w` is the class weight (1 without weights). Classes out of range raise. -/
noncomputable def crossEntropyPoint (C : ℕ) (w : ℕ → ℝ) (ignore : ℤ) (smooth : ℝ) (x : ℕ → ℝ) (t : ℤ) : Except PyErr ℝ :=
  if t = ignore then .ok 0
  else if t < 0 ∨ (C : ℤ) ≤ t then .error .indexError
  else .ok ((1 - smooth) * (-(w t.toNat * logSoftmax C x t.toNat))
    + smooth / C * (-∑ c ∈ range C, w c * logSoftmax C x c))

/-- Every target is the ignored value or a class. -/
def labelsOk (C : ℕ) (ignore : ℤ) (B H W : ℕ) (tar : Labels) : Prop :=
  ∀ b < B, ∀ i < H, ∀ j < W, tar b i j = ignore ∨ (0 ≤ tar b i j ∧ tar b i j < C)

/-- The value at one point when it exists. -/
def okOr0 : Except PyErr ℝ → ℝ
  | .ok x => x
  | .error _ => 0

/-- The field `ce` of `CrossEntropyLossS2.forward` and `FocalLossS2.forward`, losses.py 175-176 and 221-225: `log_softmax`, then
`cross_entropy` of the result. `label_smoothing` outside `[0, 1]` and classes out of range raise. -/
noncomputable def ceField (C : ℕ) (w : ℕ → ℝ) (ignore : ℤ) (smooth : ℝ) (B H W : ℕ) (prd : Logits) (tar : Labels) :
    Except PyErr Field :=
  open Classical in
  if smooth < 0 ∨ 1 < smooth then .error .runtimeError
  else if labelsOk C ignore B H W tar then
    .ok fun b i j => okOr0 (crossEntropyPoint C w ignore smooth (logSoftmax C fun c => prd b c i j) (tar b i j))
  else .error .indexError

/-- `CrossEntropyLossS2.forward`, losses.py 172-180. -/
noncomputable def crossEntropy (q : Vec ℝ) (C : ℕ) (w : ℕ → ℝ) (ignore : ℤ) (smooth : ℝ) (B H W : ℕ) (prd : Logits) (tar : Labels) :
    Except PyErr Flt := do
  let ce ← ceField C w ignore smooth B H W prd tar
  lossForward q id B H W ce none

/-- `FocalLossS2.forward`, losses.py 218-231. -/
noncomputable def focal (q : Vec ℝ) (C : ℕ) (w : ℕ → ℝ) (ignore : ℤ) (smooth : ℝ) (alpha gamma : ℝ) (B H W : ℕ) (prd : Logits)
    (tar : Labels) : Except PyErr Flt := do
  let ce ← ceField C w ignore smooth B H W prd tar
  let fl : Field := fun b i j => alpha * (1 - Real.exp (-ce b i j)) ^ gamma * ce b i j
  lossForward q id B H W fl none

/-- The averaging mode. Any other string than `"micro"` and `"macro"` skips both averages. -/
inductive Mode | micro | macro | other
deriving DecidableEq

/-- Constructor arguments of `DiceLossS2`, losses.py 80-95. -/
structure DiceArgs where
  weight : Option (ℕ → ℝ)
  smooth : ℝ
  ignore : Option ℤ
  mode : Mode

/-- The mask, losses.py 101-102: 0 at ignored points. -/
def diceMask (ignore : Option ℤ) (t : ℤ) : ℤ :=
  match ignore with
  | none => 1
  | some g => if t = g then 0 else 1

/-- Masked softmax, losses.py 98-103. -/
noncomputable def dicePrd (A : DiceArgs) (C : ℕ) (prd : Logits) (tar : Labels) (b c i j : ℕ) : ℝ :=
  softmax C (fun c => prd b c i j) c * (diceMask A.ignore (tar b i j) : ℝ)

/-- Masked target, losses.py 104: ignored points get class 0. -/
def diceTar (A : DiceArgs) (tar : Labels) (b i j : ℕ) : ℤ := tar b i j * diceMask A.ignore (tar b i j)

/-- One-hot target, losses.py 107. -/
def diceHot (A : DiceArgs) (tar : Labels) (b c i j : ℕ) : ℝ := if diceTar A tar b i j = c then 1 else 0

/-- `intersection[b, c]`, losses.py 110. -/
noncomputable def diceInter (A : DiceArgs) (q : Vec ℝ) (C H W : ℕ) (prd : Logits) (tar : Labels) (b c : ℕ) : Except PyErr ℝ :=
  wsum q H W fun i j => dicePrd A C prd tar b c i j * diceHot A tar b c i j
/-- `union[b, c]`, losses.py 111. -/
noncomputable def diceUnion (A : DiceArgs) (q : Vec ℝ) (C H W : ℕ) (prd : Logits) (tar : Labels) (b c : ℕ) : Except PyErr ℝ :=
  wsum q H W fun i j => dicePrd A C prd tar b c i j + diceHot A tar b c i j

/-- Average over the classes with or without weights, as in losses.py 113-119. -/
noncomputable def classAvg (w : Option (ℕ → ℝ)) (C : ℕ) (x : ℕ → ℝ) : ℝ :=
  match w with
  | some w => ∑ c ∈ range C, x c * w c
  | none => (∑ c ∈ range C, x c) / C

/-- Average of possibly non-finite numbers over the classes, losses.py 124-129. -/
noncomputable def classAvgF (w : Option (ℕ → ℝ)) (C : ℕ) (x : ℕ → Flt) : Flt :=
  match w with
  | some w => Flt.sum C fun c => (x c).scale (w c)
  | none => Flt.mean C x

/-- `dice` for one batch item, losses.py 113-132, given intersections and unions; for `Mode.other` the mean over the classes that the
final `torch.mean` takes. -/
noncomputable def diceItem (A : DiceArgs) (C : ℕ) (inter union : ℕ → ℝ) : Flt :=
  match A.mode with
  | .micro => .div (2 * classAvg A.weight C inter + A.smooth) (classAvg A.weight C union + A.smooth)
  | .macro => classAvgF A.weight C fun c => .div (2 * inter c + A.smooth) (union c + A.smooth)
  | .other => Flt.mean C fun c => .div (2 * inter c + A.smooth) (union c + A.smooth)

/-- `DiceLossS2.forward`, losses.py 97-134, with at least one class. `one_hot` rejects classes out of range. -/
noncomputable def dice (A : DiceArgs) (q : Vec ℝ) (C B H W : ℕ) (prd : Logits) (tar : Labels) : Except PyErr Flt :=
  open Classical in
  if ¬ ∀ b < B, ∀ i < H, ∀ j < W, 0 ≤ diceTar A tar b i j ∧ diceTar A tar b i j < C then .error .runtimeError
  else do
    let _ ← bdim H q.len
    return (Flt.mean B fun b => diceItem A C (fun c => okOr0 (diceInter A q C H W prd tar b c))
      (fun c => okOr0 (diceUnion A q C H W prd tar b c))).rsub 1

end Verif.Loss
