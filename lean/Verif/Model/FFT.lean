import Mathlib.Analysis.SpecialFunctions.Complex.Circle
import Verif.Model.Collectives
/-!
Model of `torch_harmonics/fft.py`.

`torch.fft.rfft` / `torch.fft.irfft` are external: `rfft` is its mathematical definition; `irfft` (the C2R transform) is a
parameter whose result is only specified for spectra with real DC and Nyquist bins (the docstring of
`irfft`, fft.py 72-75, says that backends differ on other spectra).
-/
namespace Verif.FFT
open Verif Verif.Dist Finset

/-- Normalisation argument `norm=` of torch.fft. -/
inductive FFTNorm | backward | ortho | forward
deriving DecidableEq

/-- Factor that torch applies in the forward direction. -/
noncomputable def FFTNorm.fwd (s : FFTNorm) (n : ℕ) : ℝ :=
  match s with
  | .backward => 1
  | .ortho => 1 / Real.sqrt n
  | .forward => 1 / n

/-- Factor that torch applies in the inverse direction. -/
noncomputable def FFTNorm.inv (s : FFTNorm) (n : ℕ) : ℝ :=
  match s with
  | .backward => 1 / n
  | .ortho => 1 / Real.sqrt n
  | .forward => 1

/-- `exp(2 pi i z / n)`. -/
noncomputable def root (n : ℕ) (z : ℤ) : ℂ := Complex.exp (2 * Real.pi * Complex.I * z / n)

/-- `torch.fft.rfft(x)[k]` for `k <= n//2`. -/
noncomputable def torchRfft (s : FFTNorm) (n : ℕ) (x : ℕ → ℝ) (k : ℕ) : ℂ :=
  s.fwd n * ∑ j ∈ range n, (x j : ℂ) * root n (-(j * k))

/-- Multiplicity of bin `k` in a real signal of length `n`: DC and Nyquist occur once, the others twice. -/
def mult (n k : ℕ) : ℝ := if k = 0 ∨ 2 * k = n then 1 else 2

/-- The C2R transform on a spectrum `X 0 .. X (n/2)` with real DC and Nyquist bins (unnormalised). -/
noncomputable def c2rValue (n : ℕ) (X : ℕ → ℂ) (j : ℕ) : ℝ :=
  ∑ k ∈ range (n / 2 + 1), mult n k * (X k * root n (j * k)).re

/-- A C2R backend: unspecified except on spectra with real DC and Nyquist bins. It reads bins `0 .. n/2` only. -/
structure C2R where
  run : ℕ → (ℕ → ℂ) → ℕ → ℝ
  spec : ∀ n X, (X 0).im = 0 → (n % 2 = 0 → (X (n / 2)).im = 0) → ∀ j < n, run n X j = c2rValue n X j

/-- `_pad_dim_right`, fft.py 41-49 (constant 0), with `target_size >= len`. -/
def padDimRight {α} [Zero α] (x : Vec α) (target : ℕ) : Vec α :=
  ⟨target, fun i => if i < x.len then x.val i else 0⟩

/-- `rfft`, fft.py 52-68. `nKw` is the presence of the forbidden keyword `n`. torch rejects an empty signal. -/
noncomputable def rfft (s : FFTNorm) (nKw : Bool) (x : Vec ℝ) (nmodes : Option ℕ) : Except PyErr (Vec ℂ) :=
  if nKw then .error .valueError
  else if x.len = 0 then .error .runtimeError
  else
    let y : Vec ℂ := ⟨x.len / 2 + 1, torchRfft s x.len x.val⟩
    match nmodes with
    | none => .ok y
    | some m =>
      if m > y.len then .ok (padDimRight y m)
      else if m < y.len then .ok ⟨m, y.val⟩
      else .ok y

/-- `imag_scale`, fft.py 86-89: 0 at the DC bin and, if present, at the Nyquist bin. -/
def imagScale (n len k : ℕ) : ℝ :=
  if n % 2 = 0 ∧ n / 2 < len ∧ k = n / 2 then 0 else if k = 0 then 0 else 1

/-- Input conditioning inside `torch.fft.irfft(x, n)`: the spectrum is cut or zero-padded to `n/2+1` bins. -/
def resizeSpectrum (len : ℕ) (X : ℕ → ℂ) (k : ℕ) : ℂ := if k < len then X k else 0

/-- `irfft`, fft.py 71-96. torch rejects an empty output (`n = 0`); an empty spectrum fails at `imag_scale[0]`. -/
noncomputable def irfft (be : C2R) (s : FFTNorm) (X : Vec ℂ) (n? : Option ℕ) : Except PyErr (Vec ℝ) :=
  let n := match n? with
    | some n => n
    | none => 2 * (X.len - 1)
  if X.len = 0 then .error .runtimeError
  else if n = 0 then .error .runtimeError
  else
    let Y : ℕ → ℂ := fun k => ⟨(X.val k).re, (X.val k).im * imagScale n X.len k⟩
    .ok ⟨n, fun j => s.inv n * be.run n (resizeSpectrum X.len Y) j⟩

end Verif.FFT
