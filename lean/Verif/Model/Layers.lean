import Verif.Model.SHT
import Mathlib.MeasureTheory.Integral.IntervalIntegral.Basic
/-!
Model of `trunc_normal_`, `drop_path`, `DropPath` and `PatchEmbed`, torch_harmonics/examples/models/_layers.py 44-201. The random numbers are inputs
of the model.
-/
namespace Verif.Layers
open Verif Verif.Dist Verif.SHT Finset

/-! ### Truncated normal initialisation -/

/-- `math.erf`. -/
noncomputable def erf (x : ℝ) : ℝ := 2 / Real.sqrt Real.pi * ∫ t in (0 : ℝ)..x, Real.exp (-t ^ 2)

/-- `norm_cdf`, _layers.py 48-51. -/
noncomputable def normCdf (x : ℝ) : ℝ := (1 + erf (x / Real.sqrt 2)) / 2

/-- The end points of the uniform distribution, _layers.py 60-65. Python's division raises for `std = 0`, and `uniform_` for an empty range. The
warning of lines 53-54 is not modelled. -/
noncomputable def truncRange (mean std a b : ℝ) : Except PyErr (ℝ × ℝ) :=
  if std = 0 then .error .zeroDivision
  else if 2 * normCdf ((b - mean) / std) - 1 < 2 * normCdf ((a - mean) / std) - 1 then .error .runtimeError
  else .ok (2 * normCdf ((a - mean) / std) - 1, 2 * normCdf ((b - mean) / std) - 1)

/-- One entry after the inverse transform, before it is clamped, _layers.py 69-73: `v` is the uniform number, `erfinv` torch's function. -/
noncomputable def truncRaw (erfinv : ℝ → ℝ) (mean std v : ℝ) : ℝ := erfinv v * (std * Real.sqrt 2) + mean

/-- `tensor.clamp_(min=a, max=b)`, _layers.py 76. -/
noncomputable def truncEntry (erfinv : ℝ → ℝ) (mean std a b v : ℝ) : ℝ := min (max (truncRaw erfinv mean std v) a) b

/-! ### Stochastic depth -/

/-- `drop_path`, _layers.py 130-137, and `DropPath.forward`, 158-160: `x b` is sample `b` of the batch, with entries indexed by `ι`, and `u b` the random number of the sample. Python `None` is the
probability `none`. An entry `none` is a NaN: for `drop_prob = 1` the quotient by 0 is infinite or NaN. (The case of an infinite result does
not occur: the quotient is multiplied by `floor(u) = 0`.) -/
noncomputable def dropPath {ι : Type} (x : ℕ → ι → ℝ) (p : Option ℝ) (training : Bool) (u : ℕ → ℝ) : Except PyErr (ℕ → ι → Option ℝ) :=
  if p = some 0 ∨ training = false then .ok fun b i => some (x b i)
  else
    match p with
    | none => .error .typeError
    | some p => .ok fun b i => if 1 - p = 0 then none else some (x b i / (1 - p) * (⌊1 - p + u b⌋ : ℤ))

/-! ### Patches -/

/-- State of a `PatchEmbed`. -/
structure PatchEmbed where
  imgH : ℕ
  imgW : ℕ
  patchH : ℕ
  patchW : ℕ
  inC : ℕ
  embedDim : ℕ
  redH : ℕ
  redW : ℕ
  weight : ℕ → ℕ → ℕ → ℕ → ℝ
  bias : ℕ → ℝ

/-- `PatchEmbed.__init__`, _layers.py 182-191. -/
def PatchEmbed.init (imgH imgW patchH patchW inC embedDim : ℕ) (weight : ℕ → ℕ → ℕ → ℕ → ℝ) (bias : ℕ → ℝ) : Except PyErr PatchEmbed :=
  if patchH = 0 ∨ patchW = 0 then .error .zeroDivision
  else .ok ⟨imgH, imgW, patchH, patchW, inC, embedDim, imgH / patchH, imgW / patchW, weight, bias⟩

/-- `self.num_patches`, _layers.py 185 and 188. -/
def PatchEmbed.numPatches (P : PatchEmbed) : ℕ := P.redH * P.redW

/-- `nn.Conv2d(inC, embedDim, kernel_size=(kh, kw), stride=(kh, kw))` of torch: the extents of the result are `(H - kh) / kh + 1` and `(W - kw) / kw + 1`. -/
noncomputable def convStride (kh kw inC outC : ℕ) (w : ℕ → ℕ → ℕ → ℕ → ℝ) (b : ℕ → ℝ) (x : Ten3 ℝ) : Except PyErr (Ten3 ℝ) :=
  if x.d0 ≠ inC then .error .runtimeError
  else if x.d1 < kh ∨ x.d2 < kw then .error .runtimeError
  else .ok ⟨outC, (x.d1 - kh) / kh + 1, (x.d2 - kw) / kw + 1, fun o i j =>
    ∑ c ∈ range inC, ∑ s ∈ range kh, ∑ t ∈ range kw, w o c s t * x.val c (i * kh + s) (j * kw + t) + b o⟩

/-- `PatchEmbed.forward`, _layers.py 193-201: the channels and the patches. `flatten(2)` is row-major. -/
noncomputable def PatchEmbed.forward (P : PatchEmbed) (x : Ten3 ℝ) : Except PyErr (Mat ℝ) :=
  if x.d1 ≠ P.imgH then .error .runtimeError
  else if x.d2 ≠ P.imgW then .error .runtimeError
  else
    match convStride P.patchH P.patchW P.inC P.embedDim P.weight P.bias x with
    | .error e => .error e
    | .ok y => .ok ⟨y.d0, y.d1 * y.d2, fun o n => y.val o (n / y.d2) (n % y.d2)⟩

end Verif.Layers
