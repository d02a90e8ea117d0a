import Verif.Model.MessagesBwd
import Verif.Model.DistSHT
/-!
Collective operations of a process group as batches of messages, and the distributed spherical harmonic transforms as programs of `Verif.Model.Messages` (distributed_sht.py, primitives.py 227-275).

Simplifications: a collective is taken to be a batch of messages between every two ranks of the group, as `all_to_all` is implemented by NCCL. The number of buffers of an all-to-all is not compared
with the size of the group, and a local computation that raises leaves the memory as it is, and the rank goes on; both are ruled out where the program is used (the transform without schedules succeeds).
-/
namespace Verif.Msg
open Verif Verif.Dist Verif.SHT Finset

section
variable {S M : Type} (Pp Pa : ℕ) (glob : ℕ → ℕ → ℕ)

/-- The size of the azimuth group or of the polar group, `azimuth_group_size` and `polar_group_size`, distributed/utils.py. -/
def groupSize (az : Bool) : ℕ := match az with | true => Pa | false => Pp

/-- The rank of process `(p, a)` in its azimuth group or in its polar group. -/
def groupRank (az : Bool) (p a : ℕ) : ℕ := match az with | true => a | false => p

/-- The global rank of member `r` of the azimuth group or of the polar group of process `(p, a)`. -/
def groupGlob (az : Bool) (p a r : ℕ) : ℕ := match az with | true => glob p r | false => glob r a

/-- The batch of a collective over a group: tensor `r` is sent to member `r`, buffer `P + r` is received from member `r`; the own tensor stays. primitives.py 260, `dist.all_to_all(x_recv, x_send)`. -/
def groupOps (az : Bool) (p a : ℕ) : List Op :=
  (List.range (groupSize Pp Pa az)).flatMap fun r =>
    if r = groupRank az p a then [] else [.isend r (groupGlob glob az p a r), .irecv (groupSize Pp Pa az + r) (groupGlob glob az p a r)]

/-- A collective operation: `send p a s r` is what process `(p, a)` with memory `s` sends to member `r`, `fit p a s r` says that a message from member `r` has the size of its buffer, and `recv` uses what
has arrived. A group of one process does nothing. -/
def groupRound (az : Bool) (send : ℕ → ℕ → S → ℕ → M) (fit : ℕ → ℕ → S → ℕ → M → Prop) (recv : ℕ → ℕ → S → (ℕ → Option M) → S) : Round (Fin Pp × Fin Pa) S M where
  ops i := if groupSize Pp Pa az > 1 then groupOps Pp Pa glob az i.1 i.2 else []
  read i s b := send i.1 i.2 s b
  fits i s b m := fit i.1 i.2 s (b - groupSize Pp Pa az) m
  work _ s := s
  after i s inbox := if groupSize Pp Pa az > 1 then recv i.1 i.2 s fun r => inbox (groupSize Pp Pa az + r) else s

end

/-- A tensor in the memory `S` of a process, and as a message. -/
structure Field (S M α : Type) where
  get : S → Ten3 α
  set : S → Ten3 α → S
  toMsg : Mat (ℕ → α) → M
  ofMsg : M → Option (Mat (ℕ → α))

/-- The two dimensions that a transpose acts on, and the way back; see `view02` and `view01`. -/
structure TView (α : Type) where
  view : Ten3 α → Mat (ℕ → α)
  back : Ten3 α → Mat (ℕ → α) → Ten3 α

/-- dims `(-3, -1)`, see `trans02` -/
def v02 {α : Type} : TView α := ⟨view02, fun x m => unview02 x.d1 m⟩
/-- dims `(-1, -3)`, see `trans20` -/
def v20 {α : Type} : TView α := ⟨fun x => (view02 x).swap, fun x m => unview02 x.d1 m.swap⟩
/-- dims `(-3, -2)`, see `trans01` -/
def v01 {α : Type} : TView α := ⟨view01, fun x m => unview01 x.d2 m⟩
/-- dims `(-2, -3)`, see `trans10` -/
def v10 {α : Type} : TView α := ⟨fun x => (view01 x).swap, fun x m => unview01 x.d2 m.swap⟩

/-- `distributed_transpose_azimuth(x, dims, sizes)` and `distributed_transpose_polar(x, dims, sizes)`, primitives.py 227-325: chunk `r` of the local tensor goes to member `r` (250-251), the buffer for
what comes from member `r` has the extents of the own chunk, with `sizes[r]` along the second dimension (253-257), and the buffers are concatenated (289, 325). -/
def transRound {S M α : Type} (Pp Pa : ℕ) (glob : ℕ → ℕ → ℕ) (az : Bool) (fld : Field S M α) (v : TView α) (sizes : ℕ → ℕ → List ℕ) : Round (Fin Pp × Fin Pa) S M :=
  groupRound Pp Pa glob az (fun _ _ s r => fld.toMsg (sentChunk (groupSize Pp Pa az) (v.view (fld.get s)) r))
    (fun p a s r m => ∃ c, fld.ofMsg m = some c ∧ c.d0 = (sentChunk (groupSize Pp Pa az) (v.view (fld.get s)) (groupRank az p a)).d0 ∧ c.d1 = (sizes p a).getD r 0)
    (fun p a s inbox => fld.set s (v.back (fld.get s) (Mat.cat1 (groupSize Pp Pa az) fun r =>
      ((inbox r).bind fld.ofMsg).getD (sentChunk (groupSize Pp Pa az) (v.view (fld.get s)) (groupRank az p a)))))

/-- `chan_shapes = compute_split_shapes(num_chans, comm_size)`, distributed_sht.py 194, 216, 373, 385, 522, 549, 693, 705. -/
def chanShapes (numChans P : ℕ) : List ℕ :=
  match computeSplitShapes numChans P with
  | .ok sh => sh
  | .error _ => []

/-- What a process holds during a transform: the tensor before and the tensor after the transform of its type. -/
structure DMem (α β : Type) where
  x : Ten3 α
  y : Ten3 β

section
variable {α β : Type}

instance [Inhabited α] : Inhabited (Mat (ℕ → α) ⊕ Mat (ℕ → β)) := ⟨.inl ⟨0, 0, fun _ _ _ => default⟩⟩

/-- The tensor before. -/
def xField : Field (DMem α β) (Mat (ℕ → α) ⊕ Mat (ℕ → β)) α := ⟨DMem.x, fun s t => ⟨t, s.y⟩, Sum.inl, fun m => match m with | .inl c => some c | .inr _ => none⟩

/-- The tensor after. -/
def yField : Field (DMem α β) (Mat (ℕ → α) ⊕ Mat (ℕ → β)) β := ⟨DMem.y, fun s t => ⟨s.x, t⟩, Sum.inr, fun m => match m with | .inr c => some c | .inl _ => none⟩

variable (Pp Pa : ℕ) (glob : ℕ → ℕ → ℕ) [Inhabited α]

/-- The steps of `DistributedRealSHT.forward` and `DistributedRealVectorSHT.forward` between padding and unpadding, distributed_sht.py 185-217 and 513-550: transpose over azimuth, FFT along the
longitudes (`F`), transpose back, transpose over latitude, Legendre transform (`G`), transpose back. `chans` is `num_chans`. -/
def analysisRounds (chans : ℕ → ℕ → ℕ) (shlon shlat : ℕ → ℕ → List ℕ) (F : ℕ → ℕ → Ten3 α → Except PyErr (Ten3 β)) (G : ℕ → ℕ → Ten3 β → Ten3 β) :
    List (Round (Fin Pp × Fin Pa) (DMem α β) (Mat (ℕ → α) ⊕ Mat (ℕ → β))) :=
  [transRound Pp Pa glob true xField v02 shlon,
   localRound fun i s => match F i.1 i.2 s.x with | .ok y => ⟨s.x, y⟩ | .error _ => s,
   transRound Pp Pa glob true yField v20 fun p a => chanShapes (chans p a) Pa,
   transRound Pp Pa glob false yField v01 shlat,
   localRound fun i s => ⟨s.x, G i.1 i.2 s.y⟩,
   transRound Pp Pa glob false yField v10 fun p a => chanShapes (chans p a) Pp]

/-- The steps of `DistributedInverseRealSHT.forward` and `DistributedInverseRealVectorSHT.forward`, distributed_sht.py 354-386 and 668-706: transpose over latitude, Legendre synthesis (`G`), transpose
back, transpose over azimuth, inverse FFT (`F`), transpose back. -/
def synthesisRounds (chans : ℕ → ℕ → ℕ) (shl shm : ℕ → ℕ → List ℕ) (G : ℕ → ℕ → Ten3 α → Ten3 α) (F : ℕ → ℕ → Ten3 α → Except PyErr (Ten3 β)) :
    List (Round (Fin Pp × Fin Pa) (DMem α β) (Mat (ℕ → α) ⊕ Mat (ℕ → β))) :=
  [transRound Pp Pa glob false xField v01 shl,
   localRound fun i s => ⟨G i.1 i.2 s.x, s.y⟩,
   transRound Pp Pa glob false xField v10 fun p a => chanShapes (chans p a) Pp,
   transRound Pp Pa glob true xField v02 shm,
   localRound fun i s => match F i.1 i.2 s.x with | .ok y => ⟨s.x, y⟩ | .error _ => s,
   transRound Pp Pa glob true yField v20 fun p a => chanShapes (chans p a) Pa]

variable [Zero α] [Inhabited β]

/-- The flattened and padded tensor, distributed_sht.py 182-183, 351-352, 510-511, 665-666. -/
def shtMem (x : ℕ → ℕ → LTen α) (i : Fin Pp × Fin Pa) : DMem α β := ⟨(flattenPad (x i.1 i.2) (max Pp Pa)).1, ⟨0, 0, 0, fun _ _ _ => default⟩⟩

/-- What a process returns, distributed_sht.py 219-222, 388-391, 552-555, 708-711. -/
def shtOut {Pp Pa : ℕ} (x : ℕ → ℕ → LTen α) (i : Fin Pp × Fin Pa) (s : DMem α β) : Except PyErr (LTen β) :=
  unpadUnflatten s.y (x i.1 i.2).lead (flattenPad (x i.1 i.2) (max Pp Pa)).2

end

variable (Pp Pa : ℕ) (glob : ℕ → ℕ → ℕ)

/-- `num_chans`, distributed_sht.py 183, 352, 511, 666. -/
def numChans {α : Type} [Zero α] (x : ℕ → ℕ → LTen α) (p a : ℕ) : ℕ := (flattenPad (x p a) (max Pp Pa)).1.d0

/-- `DistributedRealSHT.forward`, distributed_sht.py 172-222. -/
noncomputable def realProg (D : ℕ → ℕ → DRealSHT) (x : ℕ → ℕ → LTen ℝ) : Prog (Fin Pp × Fin Pa) (DMem ℝ ℂ) (Mat (ℕ → ℝ) ⊕ Mat (ℕ → ℂ)) :=
  ofRounds (fun i => glob i.1 i.2) (analysisRounds Pp Pa glob (numChans Pp Pa x) (fun p a => (D p a).sh.lon) (fun p a => (D p a).sh.lat) (fun p a => localRfft (D p a).mmax)
    fun p a => localLegendre (D p a).lmax (D p a).weights)

/-- `DistributedInverseRealSHT.forward`, distributed_sht.py 341-391. -/
noncomputable def inverseProg (be : FFT.C2R) (D : ℕ → ℕ → DInverseRealSHT) (x : ℕ → ℕ → LTen ℂ) : Prog (Fin Pp × Fin Pa) (DMem ℂ ℝ) (Mat (ℕ → ℂ) ⊕ Mat (ℕ → ℝ)) :=
  ofRounds (fun i => glob i.1 i.2) (synthesisRounds Pp Pa glob (numChans Pp Pa x) (fun p a => (D p a).sh.l) (fun p a => (D p a).sh.m)
    (fun p a => localLegendre (D p a).nlat (D p a).pct) fun p a => localIrfft be (D p a).nlon)

/-- `DistributedRealVectorSHT.forward`, distributed_sht.py 498-555. -/
noncomputable def vectorProg (D : ℕ → ℕ → DRealVectorSHT) (x : ℕ → ℕ → LTen (ℝ × ℝ)) :
    Prog (Fin Pp × Fin Pa) (DMem (ℝ × ℝ) (ℂ × ℂ)) (Mat (ℕ → ℝ × ℝ) ⊕ Mat (ℕ → ℂ × ℂ)) :=
  ofRounds (fun i => glob i.1 i.2) (analysisRounds Pp Pa glob (numChans Pp Pa x) (fun p a => (D p a).sh.lon) (fun p a => (D p a).sh.lat) (fun p a => localRfft2 (D p a).mmax)
    fun p a => localVectorLegendre (D p a).lmax (D p a).w0 (D p a).w1)

/-- `DistributedInverseRealVectorSHT.forward`, distributed_sht.py 653-711. -/
noncomputable def inverseVectorProg (be : FFT.C2R) (D : ℕ → ℕ → DInverseRealVectorSHT) (x : ℕ → ℕ → LTen (ℂ × ℂ)) :
    Prog (Fin Pp × Fin Pa) (DMem (ℂ × ℂ) (ℝ × ℝ)) (Mat (ℕ → ℂ × ℂ) ⊕ Mat (ℕ → ℝ × ℝ)) :=
  ofRounds (fun i => glob i.1 i.2) (synthesisRounds Pp Pa glob (numChans Pp Pa x) (fun p a => (D p a).sh.l) (fun p a => (D p a).sh.m)
    (fun p a => localVectorLegendre (D p a).nlat (D p a).d0 (D p a).d1) fun p a => localIrfft2 be (D p a).nlon)

end Verif.Msg
