import Verif.Model.MessagesQuad
import Verif.Model.DistSpectralConv
/-!
`DistributedSpectralConvS2.forward` (torch_harmonics/distributed/distributed_spectral_convolution.py) as messages between processes: the two all-reduces of the quadrature if the layer has a bias, the
transposes of the transform, the local contraction, and the transposes of the inverse transform. Nothing makes the ranks wait for each other between these parts.

Simplifications, besides those of `Model/MessagesGroup`, `Model/MessagesQuad` and `Model/DistSpectralConv`: the message of an all-reduce holds for every batch element the integrals of all channels, and its size
is the number of batch elements; that the channel counts agree is not looked at there.
-/
namespace Verif.Msg
open Verif Verif.Dist Verif.SHT Finset

/-- What a process holds during the layer: its argument, the integrals, the real and the complex tensor of the transforms, and the coefficients after the contraction. -/
structure ScMem where
  inp : LTen ℝ
  quad : Vec (ℕ → ℝ)
  x : Ten3 ℝ
  y : Ten3 ℂ
  mid : LTen ℂ

/-- The messages of the layer. -/
abbrev ScMsg := Mat (ℕ → ℝ) ⊕ (Mat (ℕ → ℂ) ⊕ Vec (ℕ → ℝ))

noncomputable instance : Inhabited ScMsg := ⟨.inl ⟨0, 0, fun _ _ _ => 0⟩⟩

/-- The real tensor. -/
def scX : Field ScMem ScMsg ℝ := ⟨ScMem.x, fun s t => { s with x := t }, Sum.inl, fun m => match m with | .inl c => some c | .inr _ => none⟩
/-- The complex tensor. -/
def scY : Field ScMem ScMsg ℂ := ⟨ScMem.y, fun s t => { s with y := t }, fun c => .inr (.inl c), fun m => match m with | .inr (.inl c) => some c | _ => none⟩
/-- `integral` -/
def scQuad : VField ScMem ScMsg (ℕ → ℝ) := ⟨ScMem.quad, fun s v => { s with quad := v }, fun v => .inr (.inr v), fun m => match m with | .inr (.inr v) => some v | _ => none⟩

/-- `torch.sum(x * self.quad_weight, dim=(-2, -1))`, distributed_quadrature.py 133, for all batch elements and channels; see `dquadLocal`. -/
noncomputable def batchRows (w : Mat ℝ) (x : LTen ℝ) : Except PyErr (Vec (ℕ → ℝ)) :=
  if x.d1 ≠ w.d0 ∨ x.d2 ≠ w.d1 then .error .runtimeError
  else .ok ⟨x.lead.getD 0 0, fun b c => ∑ k ∈ range x.d1, ∑ j ∈ range x.d2, x.val [b, c] k j * w.val k j⟩

variable (Pp Pa : ℕ) (glob : ℕ → ℕ → ℕ)

/-- `integral = self.quadrature(x)`, distributed_spectral_convolution.py 200 and distributed_quadrature.py 131-139. `copy_to_polar_region` and `copy_to_azimuth_region` (202, 204) send nothing. -/
noncomputable def scQuadRounds (w : ℕ → ℕ → Mat ℝ) : List (Round (Fin Pp × Fin Pa) ScMem ScMsg) :=
  [localRound fun i s => match batchRows (w i.1 i.2) s.inp with | .ok q => { s with quad := q } | .error _ => s,
   sumRound Pp Pa glob false scQuad,
   sumRound Pp Pa glob true scQuad]

/-- `x = self.sht(x)`, distributed_spectral_convolution.py 208 and distributed_sht.py 182-217; `chans` is `num_chans`. -/
noncomputable def scAnalysisRounds (chans : ℕ → ℕ → ℕ) (S : ℕ → ℕ → DRealSHT) : List (Round (Fin Pp × Fin Pa) ScMem ScMsg) :=
  [localRound fun _ s => { s with x := (flattenPad s.inp (max Pp Pa)).1 },
   transRound Pp Pa glob true scX v02 fun p a => (S p a).sh.lon,
   localRound fun i s => match localRfft (S i.1 i.2).mmax s.x with | .ok y => { s with y := y } | .error _ => s,
   transRound Pp Pa glob true scY v20 fun p a => chanShapes (chans p a) Pa,
   transRound Pp Pa glob false scY v01 fun p a => (S p a).sh.lat,
   localRound fun i s => { s with y := localLegendre (S i.1 i.2).lmax (S i.1 i.2).weights s.y },
   transRound Pp Pa glob false scY v10 fun p a => chanShapes (chans p a) Pp]

/-- The end of the transform, distributed_sht.py 219-222, the bias and the contraction, distributed_spectral_convolution.py 210-220, and the padding of the inverse transform, distributed_sht.py 351-352. -/
noncomputable def scMix (S : DSpectralConv) (hasBias : Bool) (s : ScMem) : ScMem :=
  match unpadUnflatten s.y s.inp.lead (flattenPad s.inp (max Pp Pa)).2 with
  | .error _ => s
  | .ok c =>
    match S.mix hasBias s.quad.val c with
    | .error _ => s
    | .ok z => { s with y := (flattenPad z (max Pp Pa)).1, mid := z }

/-- `x = self.isht(x)`, distributed_spectral_convolution.py 223 and distributed_sht.py 354-386; `chans` is `num_chans`. -/
noncomputable def scSynthesisRounds (be : FFT.C2R) (chans : ℕ → ℕ → ℕ) (S : ℕ → ℕ → DInverseRealSHT) : List (Round (Fin Pp × Fin Pa) ScMem ScMsg) :=
  [transRound Pp Pa glob false scY v01 fun p a => (S p a).sh.l,
   localRound fun i s => { s with y := localLegendre (S i.1 i.2).nlat (S i.1 i.2).pct s.y },
   transRound Pp Pa glob false scY v10 fun p a => chanShapes (chans p a) Pp,
   transRound Pp Pa glob true scY v02 fun p a => (S p a).sh.m,
   localRound fun i s => match localIrfft be (S i.1 i.2).nlon s.y with | .ok x => { s with x := x } | .error _ => s,
   transRound Pp Pa glob true scX v20 fun p a => chanShapes (chans p a) Pa]

/-- `num_chans` of the inverse transform, distributed_sht.py 352: batch size times `out_channels`, padded. -/
def outChans (S : ℕ → ℕ → DSpectralConv) (x : ℕ → ℕ → LTen ℝ) (p a : ℕ) : ℕ := max ((x p a).lead.getD 0 0 * (S p a).outChannels) (max Pp Pa)

/-- `DistributedSpectralConvS2.forward`, distributed_spectral_convolution.py 195-228. -/
noncomputable def spectralRounds (be : FFT.C2R) (hasBias : Bool) (S : ℕ → ℕ → DSpectralConv) (x : ℕ → ℕ → LTen ℝ) : List (Round (Fin Pp × Fin Pa) ScMem ScMsg) :=
  (if hasBias then scQuadRounds Pp Pa glob fun p a => (S p a).quad else []) ++
    (scAnalysisRounds Pp Pa glob (numChans Pp Pa x) (fun p a => (S p a).sht) ++
      (localRound (fun i s => scMix Pp Pa (S i.1 i.2) hasBias s) :: scSynthesisRounds Pp Pa glob be (outChans Pp Pa S x) fun p a => (S p a).isht))

/-- The program of the layer. -/
noncomputable def spectralProg (be : FFT.C2R) (hasBias : Bool) (S : ℕ → ℕ → DSpectralConv) (x : ℕ → ℕ → LTen ℝ) : Prog (Fin Pp × Fin Pa) ScMem ScMsg :=
  ofRounds (fun i => glob i.1 i.2) (spectralRounds Pp Pa glob be hasBias S x)

/-- What a process holds at the beginning: its argument. The rest is not read before it is written. -/
noncomputable def spectralMem (x : ℕ → ℕ → LTen ℝ) (i : Fin Pp × Fin Pa) : ScMem :=
  ⟨x i.1 i.2, ⟨0, fun _ _ => 0⟩, ⟨0, 0, 0, fun _ _ _ => 0⟩, ⟨0, 0, 0, fun _ _ _ => 0⟩, ⟨[], 0, 0, fun _ _ _ => 0⟩⟩

/-- What a process returns, distributed_sht.py 388-391 and distributed_spectral_convolution.py 223-228. -/
def spectralOut {Pp Pa : ℕ} (_ : Fin Pp × Fin Pa) (s : ScMem) : Except PyErr (LTen ℝ) := unpadUnflatten s.x s.mid.lead (flattenPad s.mid (max Pp Pa)).2

end Verif.Msg
