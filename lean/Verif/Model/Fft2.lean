import Verif.Model.FFT
import Verif.Model.Collectives
/-!
Model of `RealFFT2` and `InverseRealFFT2`, torch_harmonics/examples/models/_layers.py 275-340: the two-dimensional Fourier transforms with the
interface of the spherical harmonic transforms. `torch.fft.rfft2` and `torch.fft.irfft2` are external: a real transform along the last
dimension and a complex one along the other. Mode counts are natural numbers. Leading dimensions are not modelled.
-/
namespace Verif.FFT
open Verif Verif.Dist Finset

/-- `torch.fft.rfft2(x, dim=(-2, -1), norm="ortho")`. torch rejects an empty image. -/
noncomputable def torchRfft2 (x : Mat ℝ) : Except PyErr (Mat ℂ) :=
  if x.d0 = 0 ∨ x.d1 = 0 then .error .runtimeError
  else .ok ⟨x.d0, x.d1 / 2 + 1, fun l m =>
    FFTNorm.ortho.fwd x.d0 * ∑ k ∈ range x.d0, torchRfft .ortho x.d1 (x.val k) m * root x.d0 (-(k * l))⟩

/-- `torch.fft.irfft2(x, dim=(-2, -1), s=(nlat, nlon), norm="ortho")`: the spectrum is cut or zero-padded at the end of both dimensions. -/
noncomputable def torchIrfft2 (be : C2R) (nlat nlon : ℕ) (x : Mat ℂ) : Except PyErr (Mat ℝ) :=
  if nlat = 0 ∨ nlon = 0 then .error .runtimeError
  else .ok ⟨nlat, nlon, fun k j =>
    FFTNorm.ortho.inv nlon * be.run nlon (fun m =>
      FFTNorm.ortho.inv nlat * ∑ l ∈ range nlat, (if l < x.d0 ∧ m < x.d1 then x.val l m else 0) * root nlat (k * l)) j⟩

/-- State of a `RealFFT2` or `InverseRealFFT2` object. -/
structure Fft2 where
  nlat : ℕ
  nlon : ℕ
  lmax : ℕ
  mmax : ℕ

/-- `a or b` of Python for an optional count. -/
def orDefault (a : Option ℕ) (b : ℕ) : ℕ :=
  match a with
  | none => b
  | some 0 => b
  | some n => n

/-- `RealFFT2.__init__` and `InverseRealFFT2.__init__`, _layers.py 294-300 and 328-334. -/
def Fft2.init (nlat nlon : ℕ) (lmax mmax : Option ℕ) : Fft2 := ⟨nlat, nlon, orDefault lmax nlat, orDefault mmax (nlon / 2 + 1)⟩

/-- `y[..., :n, :c]`. -/
def headBlock (n c : ℕ) (y : Mat ℂ) : Mat ℂ := ⟨min n y.d0, min c y.d1, y.val⟩

/-- `y[..., -n:, :c]`; `-0:` is the whole range. -/
def tailBlock (n c : ℕ) (y : Mat ℂ) : Mat ℂ :=
  if n = 0 then ⟨y.d0, min c y.d1, y.val⟩ else ⟨min n y.d0, min c y.d1, fun i => y.val (y.d0 - min n y.d0 + i)⟩

/-- `torch.cat((a, b), dim=-2)` for blocks of the same width. -/
def catRows (a b : Mat ℂ) : Mat ℂ := ⟨a.d0 + b.d0, a.d1, fun i => if i < a.d0 then a.val i else b.val (i - a.d0)⟩

/-- `RealFFT2.forward`, _layers.py 302-306: `ceil(lmax / 2)` leading and `floor(lmax / 2)` trailing rows. The sizes of the image are not
compared with `nlat` and `nlon`. -/
noncomputable def Fft2.forward (S : Fft2) (x : Mat ℝ) : Except PyErr (Mat ℂ) :=
  match torchRfft2 x with
  | .error e => .error e
  | .ok y => .ok (catRows (headBlock ((S.lmax + 1) / 2) S.mmax y) (tailBlock (S.lmax / 2) S.mmax y))

/-- `InverseRealFFT2.forward`, _layers.py 336-338: `lmax` and `mmax` are not used. -/
noncomputable def Fft2.inverse (be : C2R) (S : Fft2) (x : Mat ℂ) : Except PyErr (Mat ℝ) := torchIrfft2 be S.nlat S.nlon x

end Verif.FFT
