import Verif.Model.MessagesGroup
import Verif.Model.DistQuadrature
/-!
All-reduce of a process group as a batch of messages (primitives.py 351-370), and `DistributedQuadratureS2.forward` and `DistributedResampleS2.forward` as programs of `Verif.Model.Messages`
(distributed_quadrature.py, distributed_resample.py).

Simplifications, besides those of `Model/MessagesGroup`: an all-reduce is taken to be an exchange of the tensors of all ranks after which every rank adds up what it has received (numbers are exact here, so
the order of a reduction does not matter); the conversion of the summands to 32 bits (362) is not modelled.
-/
namespace Verif.Msg
open Verif Verif.Dist Verif.SHT Finset

/-- A tensor that is reduced, in the memory `S` of a process, and as a message. -/
structure VField (S M α : Type) where
  get : S → Vec α
  set : S → Vec α → S
  toMsg : Vec α → M
  ofMsg : M → Option (Vec α)

/-- `_reduce(x, group=group)`, primitives.py 351-370: `dist.all_reduce` on a copy of the tensor (363, 367). -/
def sumRound {S M α : Type} [AddCommMonoid α] (Pp Pa : ℕ) (glob : ℕ → ℕ → ℕ) (az : Bool) (fld : VField S M α) : Round (Fin Pp × Fin Pa) S M :=
  groupRound Pp Pa glob az (fun _ _ s _ => fld.toMsg (fld.get s))
    (fun _ _ s _ m => ∃ c, fld.ofMsg m = some c ∧ c.len = (fld.get s).len)
    (fun _ _ s inbox => fld.set s ⟨(fld.get s).len, fun k => ∑ r ∈ range (groupSize Pp Pa az), (((inbox r).bind fld.ofMsg).getD (fld.get s)).val k⟩)

/-! ### Quadrature -/

/-- `torch.sum(x * self.quad_weight, dim=(-2, -1))`, distributed_quadrature.py 133, for all leading indices (flattened); see `dquadLocal`. -/
noncomputable def quadRows (w : Mat ℝ) (x : Ten3 ℝ) : Except PyErr (Vec ℝ) :=
  if x.d1 ≠ w.d0 ∨ x.d2 ≠ w.d1 then .error .runtimeError
  else .ok ⟨x.d0, fun c => ∑ k ∈ range x.d1, ∑ j ∈ range x.d2, x.val c k j * w.val k j⟩

/-- What a process holds during the quadrature. -/
structure QMem where
  x : Ten3 ℝ
  quad : Vec ℝ

instance : Inhabited (Vec ℝ) := ⟨⟨0, fun _ => 0⟩⟩

/-- `quad` -/
def quadField : VField QMem (Vec ℝ) ℝ := ⟨QMem.quad, fun s q => ⟨s.x, q⟩, id, some⟩

/-- What a process holds at the beginning. -/
def quadMem (Pp Pa : ℕ) (x : ℕ → ℕ → Ten3 ℝ) (i : Fin Pp × Fin Pa) : QMem := ⟨x i.1 i.2, default⟩

/-- `DistributedQuadratureS2.forward`, distributed_quadrature.py 131-139; `w` are the local weights. -/
noncomputable def quadRounds (Pp Pa : ℕ) (glob : ℕ → ℕ → ℕ) (w : ℕ → ℕ → Mat ℝ) : List (Round (Fin Pp × Fin Pa) QMem (Vec ℝ)) :=
  [localRound fun i s => match quadRows (w i.1 i.2) s.x with | .ok q => ⟨s.x, q⟩ | .error _ => s,
   sumRound Pp Pa glob false quadField,
   sumRound Pp Pa glob true quadField]

/-- The program of the quadrature. -/
noncomputable def quadProg (Pp Pa : ℕ) (glob : ℕ → ℕ → ℕ) (w : ℕ → ℕ → Mat ℝ) : Prog (Fin Pp × Fin Pa) QMem (Vec ℝ) :=
  ofRounds (fun i => glob i.1 i.2) (quadRounds Pp Pa glob w)

/-! ### Resampling -/

/-- What a process holds during resampling: the tensor, and `x_north`, `x_south` and `x_count` of `_expand_poles`. -/
structure RsMem where
  x : Ten3 ℝ
  north : Vec ℝ
  south : Vec ℝ
  count : Vec ℕ

/-- The messages of resampling. -/
abbrev RsMsg := Mat (ℕ → ℝ) ⊕ (Vec ℝ ⊕ Vec ℕ)

noncomputable instance : Inhabited RsMsg := ⟨.inr (.inl default)⟩

/-- `x` -/
def rsField : Field RsMem RsMsg ℝ := ⟨RsMem.x, fun s t => { s with x := t }, Sum.inl, fun m => match m with | .inl c => some c | .inr _ => none⟩
/-- `x_north` -/
def northField : VField RsMem RsMsg ℝ := ⟨RsMem.north, fun s v => { s with north := v }, fun v => .inr (.inl v), fun m => match m with | .inr (.inl c) => some c | _ => none⟩
/-- `x_south` -/
def southField : VField RsMem RsMsg ℝ := ⟨RsMem.south, fun s v => { s with south := v }, fun v => .inr (.inl v), fun m => match m with | .inr (.inl c) => some c | _ => none⟩
/-- `x_count` -/
def countField : VField RsMem RsMsg ℕ := ⟨RsMem.count, fun s v => { s with count := v }, fun v => .inr (.inr v), fun m => match m with | .inr (.inr c) => some c | _ => none⟩

/-- The sums over the local part of the first and of the last row, and the number of local longitudes, distributed_resample.py 177-179. -/
noncomputable def poleSums (s : RsMem) : RsMem :=
  { s with
    north := ⟨s.x.d0, fun c => ∑ j ∈ range s.x.d2, s.x.val c 0 j⟩
    south := ⟨s.x.d0, fun c => ∑ j ∈ range s.x.d2, s.x.val c (s.x.d1 - 1) j⟩
    count := ⟨1, fun _ => s.x.d2⟩ }

/-- Division by the count, padding and insertion of the two rows, distributed_resample.py 185-194. `copy_to_azimuth_region` (189-190) is the identity in a forward pass. -/
noncomputable def poleRows (s : RsMem) : RsMem :=
  { s with
    x := ⟨s.x.d0, s.x.d1 + 2, s.x.d2, fun c i j =>
      if i = 0 then s.north.val c / (s.count.val 0 : ℝ)
      else if i = s.x.d1 + 1 then s.south.val c / (s.count.val 0 : ℝ)
      else s.x.val c (i - 1) j⟩ }

/-- `_expand_poles`, distributed_resample.py 175-196, with three reductions (181-184). -/
noncomputable def expandRounds (Pp Pa : ℕ) (glob : ℕ → ℕ → ℕ) : List (Round (Fin Pp × Fin Pa) RsMem RsMsg) :=
  [localRound fun _ s => poleSums s,
   sumRound Pp Pa glob true northField,
   sumRound Pp Pa glob true southField,
   sumRound Pp Pa glob true countField,
   localRound fun _ s => poleRows s]

/-- `DistributedResampleS2.forward`, distributed_resample.py 213-249; see `DResampler.forward`. `chans` is `num_chans` (219). -/
noncomputable def resampleRounds (Pp Pa : ℕ) (glob : ℕ → ℕ → ℕ) (D : DResampler) (chans : ℕ → ℕ → ℕ) : List (Round (Fin Pp × Fin Pa) RsMem RsMsg) :=
  if D.R.skip then []
  else
    [transRound Pp Pa glob false rsField v01 fun _ _ => D.latIn] ++ ((if D.R.expand then expandRounds Pp Pa glob else []) ++
    [localRound fun _ s => match mapChannels D.R.upLat s.x with | .ok y => { s with x := y } | .error _ => s,
     transRound Pp Pa glob false rsField v10 fun p a => chanShapes (chans p a) Pp,
     transRound Pp Pa glob true rsField v02 fun _ _ => D.lonIn,
     localRound fun _ s => match mapChannels D.R.upLon s.x with | .ok y => { s with x := y } | .error _ => s,
     transRound Pp Pa glob true rsField v20 fun p a => chanShapes (chans p a) Pa])

/-- What a process holds at the beginning. -/
noncomputable def resampleMem (Pp Pa : ℕ) (x : ℕ → ℕ → Ten3 ℝ) (i : Fin Pp × Fin Pa) : RsMem := ⟨x i.1 i.2, default, default, ⟨0, fun _ => 0⟩⟩

/-- The program of resampling. -/
noncomputable def resampleProg (Pp Pa : ℕ) (glob : ℕ → ℕ → ℕ) (D : DResampler) (x : ℕ → ℕ → Ten3 ℝ) : Prog (Fin Pp × Fin Pa) RsMem RsMsg :=
  ofRounds (fun i => glob i.1 i.2) (resampleRounds Pp Pa glob D fun p a => (x p a).d0)

end Verif.Msg
