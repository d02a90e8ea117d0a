import Verif.Model.MessagesGroup
/-!
Two distributed transforms in a row: `DistributedInverseRealSHT.forward` and then `DistributedRealSHT.forward`, and the same for the vector
transforms (torch_harmonics/distributed/distributed_sht.py), as messages between processes. There is no barrier between the two calls: a process
may be in the second transform while another is still in the first.
-/
namespace Verif.Msg
open Verif Verif.Dist Verif.SHT Finset

section
variable {α β : Type} (Pp Pa : ℕ) (glob : ℕ → ℕ → ℕ) [Inhabited α]

/-- The steps of `DistributedRealSHT.forward` and `DistributedRealVectorSHT.forward`, distributed_sht.py 185-217 and 513-550, as in `analysisRounds`, for a process
that has the field in the second of its two tensors. -/
def secondRounds (chans : ℕ → ℕ → ℕ) (shlon shlat : ℕ → ℕ → List ℕ) (F : ℕ → ℕ → Ten3 β → Except PyErr (Ten3 α)) (G : ℕ → ℕ → Ten3 α → Ten3 α) :
    List (Round (Fin Pp × Fin Pa) (DMem α β) (Mat (ℕ → α) ⊕ Mat (ℕ → β))) :=
  [transRound Pp Pa glob true yField v02 shlon,
   localRound fun i s => match F i.1 i.2 s.y with | .ok z => ⟨z, s.y⟩ | .error _ => s,
   transRound Pp Pa glob true xField v20 fun p a => chanShapes (chans p a) Pa,
   transRound Pp Pa glob false xField v01 shlat,
   localRound fun i s => ⟨G i.1 i.2 s.x, s.y⟩,
   transRound Pp Pa glob false xField v10 fun p a => chanShapes (chans p a) Pp]

variable [Zero α] [Zero β]

/-- The end of the first transform, distributed_sht.py 388-391 and 708-711, and the beginning of the second, 182-183 and 510-511: the padding is removed and
the leading dimensions are restored; then they are flattened and padded again. -/
def repad (minLeading : ℕ) (lead : List ℕ) (leadSize : ℕ) (y : Ten3 β) : Ten3 β :=
  match unpadUnflatten y lead leadSize with
  | .ok f => (flattenPad f minLeading).1
  | .error _ => y

/-- Synthesis and then analysis. The field has the leading dimensions of the coefficients `x`, so `num_chans` is the same in both transforms. -/
def roundTripRounds (x : ℕ → ℕ → LTen α) (shl shm : ℕ → ℕ → List ℕ) (G : ℕ → ℕ → Ten3 α → Ten3 α) (F : ℕ → ℕ → Ten3 α → Except PyErr (Ten3 β))
    (shlon shlat : ℕ → ℕ → List ℕ) (F' : ℕ → ℕ → Ten3 β → Except PyErr (Ten3 α)) (G' : ℕ → ℕ → Ten3 α → Ten3 α) :
    List (Round (Fin Pp × Fin Pa) (DMem α β) (Mat (ℕ → α) ⊕ Mat (ℕ → β))) :=
  synthesisRounds Pp Pa glob (numChans Pp Pa x) shl shm G F ++
    (localRound (fun i s => ⟨s.x, repad (max Pp Pa) (x i.1 i.2).lead (flattenPad (x i.1 i.2) (max Pp Pa)).2 s.y⟩) ::
      secondRounds Pp Pa glob (numChans Pp Pa x) shlon shlat F' G')

/-- What a process returns in the end, distributed_sht.py 219-222 and 552-555. -/
def roundTripOut {Pp Pa : ℕ} (x : ℕ → ℕ → LTen α) (i : Fin Pp × Fin Pa) (s : DMem α β) : Except PyErr (LTen α) :=
  unpadUnflatten s.x (x i.1 i.2).lead (flattenPad (x i.1 i.2) (max Pp Pa)).2

end

variable (Pp Pa : ℕ) (glob : ℕ → ℕ → ℕ)

/-- `DistributedRealSHT.forward(DistributedInverseRealSHT.forward(x))`, distributed_sht.py 341-391 and 172-222. -/
noncomputable def roundTripProg (be : FFT.C2R) (I : ℕ → ℕ → DInverseRealSHT) (D : ℕ → ℕ → DRealSHT) (x : ℕ → ℕ → LTen ℂ) :
    Prog (Fin Pp × Fin Pa) (DMem ℂ ℝ) (Mat (ℕ → ℂ) ⊕ Mat (ℕ → ℝ)) :=
  ofRounds (fun i => glob i.1 i.2) (roundTripRounds Pp Pa glob x (fun p a => (I p a).sh.l) (fun p a => (I p a).sh.m)
    (fun p a => localLegendre (I p a).nlat (I p a).pct) (fun p a => localIrfft be (I p a).nlon)
    (fun p a => (D p a).sh.lon) (fun p a => (D p a).sh.lat) (fun p a => localRfft (D p a).mmax) fun p a => localLegendre (D p a).lmax (D p a).weights)

/-- `DistributedRealVectorSHT.forward(DistributedInverseRealVectorSHT.forward(x))`, distributed_sht.py 653-711 and 498-555. -/
noncomputable def vectorRoundTripProg (be : FFT.C2R) (I : ℕ → ℕ → DInverseRealVectorSHT) (D : ℕ → ℕ → DRealVectorSHT) (x : ℕ → ℕ → LTen (ℂ × ℂ)) :
    Prog (Fin Pp × Fin Pa) (DMem (ℂ × ℂ) (ℝ × ℝ)) (Mat (ℕ → ℂ × ℂ) ⊕ Mat (ℕ → ℝ × ℝ)) :=
  ofRounds (fun i => glob i.1 i.2) (roundTripRounds Pp Pa glob x (fun p a => (I p a).sh.l) (fun p a => (I p a).sh.m)
    (fun p a => localVectorLegendre (I p a).nlat (I p a).d0 (I p a).d1) (fun p a => localIrfft2 be (I p a).nlon)
    (fun p a => (D p a).sh.lon) (fun p a => (D p a).sh.lat) (fun p a => localRfft2 (D p a).mmax) fun p a => localVectorLegendre (D p a).lmax (D p a).w0 (D p a).w1)

end Verif.Msg
