import Verif.Model.DistSHT
import Verif.Model.MessagesGroup
/-!
The backward passes of the transforms of `torch_harmonics/distributed/distributed_sht.py`.

`forward` is a sequence of differentiable operations, and autograd runs their backward functions in the opposite order. The transposes
carry their own backward functions (primitives.py 278-347). For the operations that PyTorch provides (`rfft`, `irfft`, `einsum`, `cat`,
`narrow`, `reshape`) the model contains the vector-Jacobian products that PyTorch documents; the gradient of a complex number is the
complex number of the derivatives along its real and imaginary parts. A gradient has the shape of the tensor it belongs to; autograd
checks this, the model does not.
-/
namespace Verif.Dist
open Verif Verif.SHT Finset

/-- Backward of `distributed_transpose_azimuth(x, (-3, -1), sizes)`, primitives.py 299-311; `n0` is `x.shape[-3]`. -/
def backTrans02 {α : Type} (P n0 : ℕ) (g : ℕ → Ten3 α) (r : ℕ) : Except PyErr (Ten3 α) :=
  match distTransposeBackward P n0 (fun s => view02 (g s)) r with
  | .error e => .error e
  | .ok y => .ok (unview02 (g r).d1 y)

/-- Backward of `distributed_transpose_azimuth(x, (-1, -3), sizes)`; `n0` is `x.shape[-1]`. -/
def backTrans20 {α : Type} (P n0 : ℕ) (g : ℕ → Ten3 α) (r : ℕ) : Except PyErr (Ten3 α) :=
  match distTransposeBackward P n0 (fun s => (view02 (g s)).swap) r with
  | .error e => .error e
  | .ok y => .ok (unview02 (g r).d1 y.swap)

/-- Backward of `distributed_transpose_polar(x, (-3, -2), sizes)`, primitives.py 335-347; `n0` is `x.shape[-3]`. -/
def backTrans01 {α : Type} (P n0 : ℕ) (g : ℕ → Ten3 α) (r : ℕ) : Except PyErr (Ten3 α) :=
  match distTransposeBackward P n0 (fun s => view01 (g s)) r with
  | .error e => .error e
  | .ok y => .ok (unview01 (g r).d2 y)

/-- Backward of `distributed_transpose_polar(x, (-2, -3), sizes)`; `n0` is `x.shape[-2]`. -/
def backTrans10 {α : Type} (P n0 : ℕ) (g : ℕ → Ten3 α) (r : ℕ) : Except PyErr (Ten3 α) :=
  match distTransposeBackward P n0 (fun s => (view01 (g s)).swap) r with
  | .error e => .error e
  | .ok y => .ok (unview01 (g r).d2 y.swap)

/-- Backward of the first transpose over azimuth, distributed_sht.py 186-187 (377-378, 514-515, 697-698), on rank `(p, a)`. -/
def azimuthInBackward {α : Type} (Pa n0 : ℕ) (g : ℕ → ℕ → Ten3 α) (p a : ℕ) : Except PyErr (Ten3 α) :=
  if Pa > 1 then backTrans02 Pa n0 (g p) a else .ok (g p a)

/-- Backward of the second transpose over azimuth, distributed_sht.py 193-195 (384-386, 521-523, 704-706). -/
def azimuthOutBackward {α : Type} (Pa n0 : ℕ) (g : ℕ → ℕ → Ten3 α) (p a : ℕ) : Except PyErr (Ten3 α) :=
  if Pa > 1 then backTrans20 Pa n0 (g p) a else .ok (g p a)

/-- Backward of the first transpose over latitude, distributed_sht.py 198-199 (355-356, 526-527, 669-670). -/
def polarInBackward {α : Type} (Pp n0 : ℕ) (g : ℕ → ℕ → Ten3 α) (p a : ℕ) : Except PyErr (Ten3 α) :=
  if Pp > 1 then backTrans01 Pp n0 (fun s => g s a) p else .ok (g p a)

/-- Backward of the second transpose over latitude, distributed_sht.py 215-217 (372-374, 548-550, 692-694). -/
def polarOutBackward {α : Type} (Pp n0 : ℕ) (g : ℕ → ℕ → Ten3 α) (p a : ℕ) : Except PyErr (Ten3 α) :=
  if Pp > 1 then backTrans10 Pp n0 (fun s => g s a) p else .ok (g p a)

/-- Backward of `unpad_and_unflatten_leading_dims`, primitives.py 216-224: the gradient is flattened and, where `narrow` cut off padding,
extended by zeros to `numChans` rows. -/
def unpadBackward {α : Type} [Zero α] (numChans leadSize : ℕ) (g : LTen α) : Ten3 α :=
  ⟨numChans, g.d1, g.d2, fun i => if i < leadSize then g.val (unflatIndex g.lead i) else 0⟩

/-- Backward of `flatten_and_pad_leading_dims`, primitives.py 169-213: `cat` cuts its gradient, dropping the rows of the padding; the result
gets the leading shape of the input. -/
def padBackward {α : Type} (y : Ten3 α) (lead : List ℕ) (leadSize : ℕ) : Except PyErr (LTen α) := unpadUnflatten y lead leadSize

/-- Backward of `2.0 * torch.pi * rfft(x, nmodes=mmax, dim=-1, norm="forward")`, distributed_sht.py 190: modes that `rfft` dropped or appended
have no part; the others give the real part of `sum_m g_m exp(2 pi i j m / nlon) / nlon`. -/
noncomputable def localRfftBackward (nlon : ℕ) (g : Ten3 ℂ) : Ten3 ℝ :=
  ⟨g.d0, g.d1, nlon, fun c k j => 2 * Real.pi * ((1 / nlon : ℝ) * ∑ m ∈ range g.d2, if m ≤ nlon / 2 then
    (g.val c k m).re * Real.cos (2 * Real.pi * j * m / nlon) - (g.val c k m).im * Real.sin (2 * Real.pi * j * m / nlon) else 0)⟩

/-- Backward of the two contractions `einsum("...mk,mlk->...lm", .., w)`, distributed_sht.py 206-212 (365-370): `einsum` over the degrees. -/
noncomputable def localLegendreBackward (n : ℕ) (w : ℕ → ℕ → ℕ → ℝ) (g : Ten3 ℂ) : Ten3 ℂ :=
  ⟨g.d0, n, g.d2, fun c k m =>
    ⟨∑ l ∈ range g.d1, (g.val c l m).re * w m l k, ∑ l ∈ range g.d1, (g.val c l m).im * w m l k⟩⟩

/-- Backward of `irfft(x, n=nlon, dim=-1, norm="forward")`, fft.py 71-96: the FFT of the gradient, doubled between the two real bins; the
imaginary parts of these are multiplied with `imag_scale`, so they get none; modes above the Nyquist mode were dropped. -/
noncomputable def localIrfftBackward (mmax : ℕ) (g : Ten3 ℝ) : Ten3 ℂ :=
  ⟨g.d0, g.d1, mmax, fun c k m =>
    if m ≤ g.d2 / 2 then
      if m = 0 ∨ 2 * m = g.d2 then ⟨∑ j ∈ range g.d2, g.val c k j * Real.cos (2 * Real.pi * j * m / g.d2), 0⟩
      else ⟨2 * ∑ j ∈ range g.d2, g.val c k j * Real.cos (2 * Real.pi * j * m / g.d2),
        -(2 * ∑ j ∈ range g.d2, g.val c k j * Real.sin (2 * Real.pi * j * m / g.d2))⟩
    else 0⟩

/-- Both components, distributed_sht.py 518. -/
noncomputable def localRfft2Backward (nlon : ℕ) (g : Ten3 (ℂ × ℂ)) : Ten3 (ℝ × ℝ) :=
  stackT (localRfftBackward nlon (fstT g)) (localRfftBackward nlon (sndT g))

/-- Both components, distributed_sht.py 701. -/
noncomputable def localIrfft2Backward (mmax : ℕ) (g : Ten3 (ℝ × ℝ)) : Ten3 (ℂ × ℂ) :=
  stackT (localIrfftBackward mmax (fstT g)) (localIrfftBackward mmax (sndT g))

/-- Backward of the eight contractions, distributed_sht.py 529-545 and 672-690. -/
noncomputable def localVectorLegendreBackward (n : ℕ) (w0 w1 : ℕ → ℕ → ℕ → ℝ) (g : Ten3 (ℂ × ℂ)) : Ten3 (ℂ × ℂ) :=
  let s := range g.d1
  ⟨g.d0, n, g.d2, fun c k m =>
    (⟨∑ l ∈ s, (g.val c l m).1.re * w0 m l k + ∑ l ∈ s, (g.val c l m).2.im * w1 m l k,
      ∑ l ∈ s, (g.val c l m).1.im * w0 m l k - ∑ l ∈ s, (g.val c l m).2.re * w1 m l k⟩,
     ⟨∑ l ∈ s, (g.val c l m).1.im * w1 m l k - ∑ l ∈ s, (g.val c l m).2.re * w0 m l k,
      -∑ l ∈ s, (g.val c l m).1.re * w1 m l k - ∑ l ∈ s, (g.val c l m).2.im * w0 m l k⟩)⟩

/-- The backward pass of the two forward transforms (lines 182-222 and 510-555 of distributed_sht.py, from the end to the start); `x` is the
input of the forward pass, of which only the shape is used; `GT` and `FT` are the backward functions of the Legendre contraction and of the
FFT. -/
def analysisBackward {α β γ : Type} [Zero α] [Zero γ] (Pp Pa : ℕ) (lmax mmax : ℕ → ℕ → ℕ) (GT : ℕ → ℕ → Ten3 γ → Ten3 β)
    (FT : ℕ → ℕ → Ten3 β → Ten3 α) (x : ℕ → ℕ → LTen α) (g : ℕ → ℕ → LTen γ) : Except PyErr (ℕ → ℕ → LTen α) := do
  let numChans : ℕ → ℕ → ℕ := fun p a => (flattenPad (x p a) (max Pp Pa)).1.d0
  let leadSize : ℕ → ℕ → ℕ := fun p a => (flattenPad (x p a) (max Pp Pa)).2
  let g0 : ℕ → ℕ → Ten3 γ := fun p a => unpadBackward (numChans p a) (leadSize p a) (g p a)
  let g1 ← collect Pp Pa fun p a => polarOutBackward Pp (lmax p a) g0 p a
  let g2 : ℕ → ℕ → Ten3 β := fun p a => GT p a (g1 p a)
  let g3 ← collect Pp Pa fun p a => polarInBackward Pp (numChans p a) g2 p a
  let g4 ← collect Pp Pa fun p a => azimuthOutBackward Pa (mmax p a) g3 p a
  let g5 : ℕ → ℕ → Ten3 α := fun p a => FT p a (g4 p a)
  let g6 ← collect Pp Pa fun p a => azimuthInBackward Pa (numChans p a) g5 p a
  collect Pp Pa fun p a => padBackward (g6 p a) (x p a).lead (leadSize p a)

/-- The backward pass of the two inverse transforms (lines 351-391 and 665-711 of distributed_sht.py, from the end to the start). -/
def synthesisBackward {α β γ : Type} [Zero α] [Zero γ] (Pp Pa : ℕ) (nlat nlon : ℕ → ℕ → ℕ) (FT : ℕ → ℕ → Ten3 γ → Ten3 β)
    (GT : ℕ → ℕ → Ten3 β → Ten3 α) (x : ℕ → ℕ → LTen α) (g : ℕ → ℕ → LTen γ) : Except PyErr (ℕ → ℕ → LTen α) := do
  let numChans : ℕ → ℕ → ℕ := fun p a => (flattenPad (x p a) (max Pp Pa)).1.d0
  let leadSize : ℕ → ℕ → ℕ := fun p a => (flattenPad (x p a) (max Pp Pa)).2
  let g0 : ℕ → ℕ → Ten3 γ := fun p a => unpadBackward (numChans p a) (leadSize p a) (g p a)
  let g1 ← collect Pp Pa fun p a => azimuthOutBackward Pa (nlon p a) g0 p a
  let g2 : ℕ → ℕ → Ten3 β := fun p a => FT p a (g1 p a)
  let g3 ← collect Pp Pa fun p a => azimuthInBackward Pa (numChans p a) g2 p a
  let g4 ← collect Pp Pa fun p a => polarOutBackward Pp (nlat p a) g3 p a
  let g5 : ℕ → ℕ → Ten3 α := fun p a => GT p a (g4 p a)
  let g6 ← collect Pp Pa fun p a => polarInBackward Pp (numChans p a) g5 p a
  collect Pp Pa fun p a => padBackward (g6 p a) (x p a).lead (leadSize p a)

/-- The backward pass of `DistributedRealSHT.forward`, distributed_sht.py 172-222. -/
noncomputable def DRealSHT.backward (Pp Pa : ℕ) (S : ℕ → ℕ → DRealSHT) (x : ℕ → ℕ → LTen ℝ) (g : ℕ → ℕ → LTen ℂ) : Except PyErr (ℕ → ℕ → LTen ℝ) :=
  analysisBackward Pp Pa (fun p a => (S p a).lmax) (fun p a => (S p a).mmax) (fun p a => localLegendreBackward (S p a).nlat (S p a).weights)
    (fun p a => localRfftBackward (S p a).nlon) x g

/-- The backward pass of `DistributedInverseRealSHT.forward`, distributed_sht.py 341-391. -/
noncomputable def DInverseRealSHT.backward (Pp Pa : ℕ) (S : ℕ → ℕ → DInverseRealSHT) (x : ℕ → ℕ → LTen ℂ) (g : ℕ → ℕ → LTen ℝ) : Except PyErr (ℕ → ℕ → LTen ℂ) :=
  synthesisBackward Pp Pa (fun p a => (S p a).nlat) (fun p a => (S p a).nlon) (fun p a => localIrfftBackward (S p a).mmax)
    (fun p a => localLegendreBackward (S p a).lmax (S p a).pct) x g

/-- The backward pass of `DistributedRealVectorSHT.forward`, distributed_sht.py 498-555. -/
noncomputable def DRealVectorSHT.backward (Pp Pa : ℕ) (S : ℕ → ℕ → DRealVectorSHT) (x : ℕ → ℕ → LTen (ℝ × ℝ)) (g : ℕ → ℕ → LTen (ℂ × ℂ)) :
    Except PyErr (ℕ → ℕ → LTen (ℝ × ℝ)) :=
  analysisBackward Pp Pa (fun p a => (S p a).lmax) (fun p a => (S p a).mmax)
    (fun p a => localVectorLegendreBackward (S p a).nlat (S p a).w0 (S p a).w1) (fun p a => localRfft2Backward (S p a).nlon) x g

/-- The backward pass of `DistributedInverseRealVectorSHT.forward`, distributed_sht.py 653-711. -/
noncomputable def DInverseRealVectorSHT.backward (Pp Pa : ℕ) (S : ℕ → ℕ → DInverseRealVectorSHT) (x : ℕ → ℕ → LTen (ℂ × ℂ)) (g : ℕ → ℕ → LTen (ℝ × ℝ)) :
    Except PyErr (ℕ → ℕ → LTen (ℂ × ℂ)) :=
  synthesisBackward Pp Pa (fun p a => (S p a).nlat) (fun p a => (S p a).nlon) (fun p a => localIrfft2Backward (S p a).mmax)
    (fun p a => localVectorLegendreBackward (S p a).lmax (S p a).d0 (S p a).d1) x g

end Verif.Dist

namespace Verif.Msg
open Verif Verif.Dist Verif.SHT

variable (Pp Pa : ℕ) (glob : ℕ → ℕ → ℕ)

/-- The backward passes as message-passing programs. The backward function of a transpose is a transpose of the same group with the two
dimensions exchanged, receiving the split sizes of the first dimension (primitives.py 299-311, 335-347); so the backward pass of a forward
transform exchanges the messages of an inverse transform. -/
noncomputable def realBackProg (D : ℕ → ℕ → DRealSHT) (g : ℕ → ℕ → LTen ℂ) : Prog (Fin Pp × Fin Pa) (DMem ℂ ℝ) (Mat (ℕ → ℂ) ⊕ Mat (ℕ → ℝ)) :=
  ofRounds (fun i => glob i.1 i.2) (synthesisRounds Pp Pa glob (numChans Pp Pa g) (fun p a => chanShapes (D p a).lmax Pp) (fun p a => chanShapes (D p a).mmax Pa)
    (fun p a => localLegendreBackward (D p a).nlat (D p a).weights) fun p a y => .ok (localRfftBackward (D p a).nlon y))

/-- see `realBackProg` -/
noncomputable def inverseBackProg (D : ℕ → ℕ → DInverseRealSHT) (g : ℕ → ℕ → LTen ℝ) : Prog (Fin Pp × Fin Pa) (DMem ℝ ℂ) (Mat (ℕ → ℝ) ⊕ Mat (ℕ → ℂ)) :=
  ofRounds (fun i => glob i.1 i.2) (analysisRounds Pp Pa glob (numChans Pp Pa g) (fun p a => chanShapes (D p a).nlon Pa) (fun p a => chanShapes (D p a).nlat Pp)
    (fun p a y => .ok (localIrfftBackward (D p a).mmax y)) fun p a => localLegendreBackward (D p a).lmax (D p a).pct)

/-- see `realBackProg` -/
noncomputable def vectorBackProg (D : ℕ → ℕ → DRealVectorSHT) (g : ℕ → ℕ → LTen (ℂ × ℂ)) :
    Prog (Fin Pp × Fin Pa) (DMem (ℂ × ℂ) (ℝ × ℝ)) (Mat (ℕ → ℂ × ℂ) ⊕ Mat (ℕ → ℝ × ℝ)) :=
  ofRounds (fun i => glob i.1 i.2) (synthesisRounds Pp Pa glob (numChans Pp Pa g) (fun p a => chanShapes (D p a).lmax Pp) (fun p a => chanShapes (D p a).mmax Pa)
    (fun p a => localVectorLegendreBackward (D p a).nlat (D p a).w0 (D p a).w1) fun p a y => .ok (localRfft2Backward (D p a).nlon y))

/-- see `realBackProg` -/
noncomputable def inverseVectorBackProg (D : ℕ → ℕ → DInverseRealVectorSHT) (g : ℕ → ℕ → LTen (ℝ × ℝ)) :
    Prog (Fin Pp × Fin Pa) (DMem (ℝ × ℝ) (ℂ × ℂ)) (Mat (ℕ → ℝ × ℝ) ⊕ Mat (ℕ → ℂ × ℂ)) :=
  ofRounds (fun i => glob i.1 i.2) (analysisRounds Pp Pa glob (numChans Pp Pa g) (fun p a => chanShapes (D p a).nlon Pa) (fun p a => chanShapes (D p a).nlat Pp)
    (fun p a y => .ok (localIrfft2Backward (D p a).mmax y)) fun p a => localVectorLegendreBackward (D p a).lmax (D p a).d0 (D p a).d1)

end Verif.Msg
