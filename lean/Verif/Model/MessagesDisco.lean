import Verif.Model.MessagesGroup
import Verif.Model.DistDisco
/-!
Reduce-scatter and all-gather of a process group as batches of messages (primitives.py 388-503), and the distributed convolutions as programs of `Verif.Model.Messages` (distributed_convolution.py,
kernels/distributed_convolution_kernels.py).

Simplifications, besides those of `Model/MessagesGroup`: a reduce-scatter is taken to be an exchange of chunks after which every rank adds up what it has received (numbers are exact here, so the order of a
reduction does not matter); only the extent along the dimension of the collective is compared with the buffer, as in `Model/Collectives`.
-/
namespace Verif.Msg
open Verif Verif.Dist Verif.SHT Verif.Disco Finset

/-- The dimension that a collective acts on, and the way back; see `viewLat` and `viewLon`. -/
structure RView (α : Type) where
  view : Ten3 α → Vec (ℕ → ℕ → α)
  back : Ten3 α → Vec (ℕ → ℕ → α) → Ten3 α

/-- dim `-2`, see `polarReduceScatter` -/
def rLat {α : Type} : RView α := ⟨viewLat, fun x v => ⟨x.d0, v.len, x.d2, fun c j w => v.val j c w⟩⟩
/-- dim `-1`, see `azimuthReduceScatter` -/
def rLon {α : Type} : RView α := ⟨viewLon, fun x v => ⟨x.d0, x.d1, v.len, fun c j w => v.val w c j⟩⟩

/-- A piece of a tensor with `n` channels as a message. -/
def vecMsg {α : Type} (n : ℕ) (v : Vec (ℕ → ℕ → α)) : Mat (ℕ → α) := ⟨v.len, n, v.val⟩

/-- The piece that is in a message. -/
def msgVec {α : Type} (m : Mat (ℕ → α)) : Vec (ℕ → ℕ → α) := ⟨m.d0, m.val⟩

/-- `_reduce_scatter(x, dim, group)`, primitives.py 441-503: the (padded) chunk `r` goes to member `r`, the buffers have the size of the own chunk (475, 495), what arrives is added to the own chunk, and the
padding is cut off (498-501). -/
def scatterRound {S M α : Type} [AddCommMonoid α] (Pp Pa : ℕ) (glob : ℕ → ℕ → ℕ) (az : Bool) (fld : Field S M α) (v : RView α) : Round (Fin Pp × Fin Pa) S M :=
  groupRound Pp Pa glob az (fun _ _ s r => fld.toMsg (vecMsg (fld.get s).d0 (scatterChunk (groupSize Pp Pa az) (v.view (fld.get s)) r)))
    (fun p a s _ m => ∃ c, fld.ofMsg m = some c ∧ c.d0 = (scatterChunk (groupSize Pp Pa az) (v.view (fld.get s)) (groupRank az p a)).len)
    (fun p a s inbox => fld.set s (v.back (fld.get s) (trimScatter (groupSize Pp Pa az) (v.view (fld.get s)).len (groupRank az p a)
      ⟨(scatterChunk (groupSize Pp Pa az) (v.view (fld.get s)) (groupRank az p a)).len, fun i => ∑ r ∈ range (groupSize Pp Pa az),
        ((((inbox r).bind fld.ofMsg).map msgVec).getD (scatterChunk (groupSize Pp Pa az) (v.view (fld.get s)) (groupRank az p a))).val i⟩)))

/-- `_gather(x, dim, shapes, group)`, primitives.py 388-438: the local tensor goes to every member, buffer `r` has `shapes[r]` along the dimension (427-430), and the buffers are concatenated (436). -/
def gatherRound {S M α : Type} (Pp Pa : ℕ) (glob : ℕ → ℕ → ℕ) (az : Bool) (fld : Field S M α) (v : RView α) (shapes : ℕ → ℕ → List ℕ) : Round (Fin Pp × Fin Pa) S M :=
  groupRound Pp Pa glob az (fun _ _ s _ => fld.toMsg (vecMsg (fld.get s).d0 (v.view (fld.get s))))
    (fun p a _ r m => ∃ c, fld.ofMsg m = some c ∧ c.d0 = (shapes p a).getD r 0)
    (fun _ _ s inbox => fld.set s (v.back (fld.get s) (Vec.cat (groupSize Pp Pa az) fun r => (((inbox r).bind fld.ofMsg).map msgVec).getD (v.view (fld.get s)))))

section
variable {R : Type} [CommSemiring R] [Inhabited R] (Pp Pa : ℕ) (glob : ℕ → ℕ → ℕ) (L : Layer R) (D : ℕ → ℕ → DDisco R)

/-- The messages of the convolutions: parts of an input or output, or of a tensor with a kernel dimension. -/
abbrev DiscoMsg (R : Type) := Mat (ℕ → R) ⊕ Mat (ℕ → ℕ → R)

/-- What a rank holds at the beginning. -/
def discoMem (x : ℕ → ℕ → Ten3 R) (i : Fin Pp × Fin Pa) : DMem R (ℕ → R) := ⟨x i.1 i.2, ⟨0, 0, 0, fun _ _ _ _ => 0⟩⟩

/-- `DistributedDiscreteContinuousConvS2.forward` with `fused=False`, distributed_convolution.py 376-439 with `_distributed_disco_fwd_a2a`, distributed_convolution_kernels.py 99-192; see `dconvForward`. -/
def convRounds (kern : ℕ → ℕ → ℕ → Mat R → Except PyErr (Ten R)) (chans : ℕ → ℕ → ℕ) : List (Round (Fin Pp × Fin Pa) (DMem R (ℕ → R)) (DiscoMsg R)) :=
  [transRound Pp Pa glob true xField v02 fun p a => (D p a).lonIn,
   localRound fun i s => match contractPlanes (kern i.1 i.2) s.x with | .ok y => ⟨s.x, y⟩ | .error _ => s,
   scatterRound Pp Pa glob false yField rLat,
   transRound Pp Pa glob true yField v20 fun p a => chanShapes (chans p a) Pa,
   localRound fun _ s => match localMix L s.y with | .ok x => ⟨x, s.y⟩ | .error _ => s,
   localRound fun _ s => ⟨biasStage L s.x, s.y⟩]

/-- The same with `fused=True`: `_distributed_disco_fwd_a2a_reordered`, distributed_convolution_kernels.py 200-374; see `dconvForwardFused`. -/
def convFusedRounds (kern : ℕ → ℕ → ℕ → Mat R → Except PyErr (Ten R)) : List (Round (Fin Pp × Fin Pa) (DMem R (ℕ → R)) (DiscoMsg R)) :=
  [transRound Pp Pa glob true xField v02 fun p a => (D p a).lonIn,
   localRound fun i s => match reorderedLocal L (kern i.1 i.2) Pa i.2 s.x with | .ok x => ⟨x, s.y⟩ | .error _ => s,
   scatterRound Pp Pa glob false xField rLat,
   scatterRound Pp Pa glob true xField rLon,
   localRound fun _ s => ⟨biasStage L s.x, s.y⟩]

/-- `DistributedDiscreteContinuousConvTransposeS2.forward`, distributed_convolution.py 596-632; see `dtransForward`. `num_chans` (605) is the number of channels that the einsum makes. -/
def convTransRounds (kern : ℕ → ℕ → ℕ → Ten R → Except PyErr (Mat R)) : List (Round (Fin Pp × Fin Pa) (DMem R (ℕ → R)) (DiscoMsg R)) :=
  [localRound fun _ s => match localExpand L s.x with | .ok y => ⟨s.x, y⟩ | .error _ => s,
   transRound Pp Pa glob true yField v02 fun p a => (D p a).lonIn,
   gatherRound Pp Pa glob false yField rLat fun p a => (D p a).latIn,
   localRound fun i s => match contractPlanesT L (kern i.1 i.2) s.y with | .ok x => ⟨x, s.y⟩ | .error _ => s,
   transRound Pp Pa glob true xField v20 fun _ _ => chanShapes (L.groups * L.outPerGroup) Pa,
   localRound fun _ s => ⟨biasStage L s.x, s.y⟩]

/-- The program of the convolution; `num_chans` is the number of channels of the input (distributed_convolution_kernels.py 134). -/
def convProg (kern : ℕ → ℕ → ℕ → Mat R → Except PyErr (Ten R)) (x : ℕ → ℕ → Ten3 R) : Prog (Fin Pp × Fin Pa) (DMem R (ℕ → R)) (DiscoMsg R) :=
  ofRounds (fun i => glob i.1 i.2) (convRounds Pp Pa glob L D kern fun p a => (x p a).d0)

/-- The program of the convolution with `fused=True`. -/
def convFusedProg (kern : ℕ → ℕ → ℕ → Mat R → Except PyErr (Ten R)) : Prog (Fin Pp × Fin Pa) (DMem R (ℕ → R)) (DiscoMsg R) :=
  ofRounds (fun i => glob i.1 i.2) (convFusedRounds Pp Pa glob L D kern)

/-- The program of the transposed convolution. -/
def convTransProg (kern : ℕ → ℕ → ℕ → Ten R → Except PyErr (Mat R)) : Prog (Fin Pp × Fin Pa) (DMem R (ℕ → R)) (DiscoMsg R) :=
  ofRounds (fun i => glob i.1 i.2) (convTransRounds Pp Pa glob L D kern)

end

end Verif.Msg
