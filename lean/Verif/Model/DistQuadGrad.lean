import Verif.Model.DistQuadrature
import Verif.Model.CollectiveGrad
import Verif.Model.DistSHTGrad
import Verif.Model.MessagesQuad
/-!
The backward passes of `DistributedQuadratureS2.forward` (torch_harmonics/distributed/distributed_quadrature.py) and of
`DistributedResampleS2.forward` (torch_harmonics/distributed/distributed_resample.py), the latter for the mode "bilinear", in which the module
is linear. As in `Verif.Model.DistSHTGrad`, autograd runs the backward functions in the opposite order; for the operations of PyTorch
(`sum`, `mul`, `div`, `pad`, assignment to a row, indexing, `lerp`) the model contains the vector-Jacobian products that PyTorch documents.
The mode "bilinear-spherical" is not linear, and its backward pass is not modelled.
-/
namespace Verif.Dist
open Verif Verif.SHT Verif.Quad Verif.Resample Finset

/-- Backward of `DistributedQuadratureS2.forward`, distributed_quadrature.py 131-139, for one leading index: the two reductions (136-137,
134-135) hand the gradient back by `_ReduceFromAzimuthRegion.backward` and `_ReduceFromPolarRegion.backward` (primitives.py 638-641, 666-669); the
sum (133) multiplies it with the weights. -/
noncomputable def dquadBackward (Pp Pa : ℕ) (w : ℕ → ℕ → Mat ℝ) (g : ℕ → ℕ → ℝ) (p a : ℕ) : Mat ℝ :=
  let g1 : ℕ → ℕ → ℝ := fun p a => if Pa > 1 then (reduceFromBackward Pa (fun s => (⟨1, fun _ => g p s⟩ : Vec ℝ)) a).val 0 else g p a
  let g2 : ℕ → ℕ → ℝ := fun p a => if Pp > 1 then (reduceFromBackward Pp (fun s => (⟨1, fun _ => g1 s a⟩ : Vec ℝ)) p).val 0 else g1 p a
  ⟨(w p a).d0, (w p a).d1, fun k j => g2 p a * (w p a).val k j⟩

/-- Backward of `torch.lerp(x[..., self.lat_idx, :], x[..., self.lat_idx + 1, :], lwgt)`, distributed_resample.py 203, for an input of `n1` rows:
the gradient of every output row goes, with its weight, to the two rows it was made from; contributions to the same row are added. -/
noncomputable def upLatBackward (R : Resampler) (n1 : ℕ) (g : Ten3 ℝ) : Ten3 ℝ :=
  ⟨g.d0, n1, g.d2, fun c k j => ∑ i ∈ range g.d1,
    ((if k = wrap (R.latIdx i) n1 then (1 - R.latW i) * g.val c i j else 0) + if k = wrap (R.latIdx i + 1) n1 then R.latW i * g.val c i j else 0)⟩

/-- Backward of `torch.lerp(x[..., self.lon_idx_left], x[..., self.lon_idx_right], lwgt)`, distributed_resample.py 165, for an input of `n2`
columns. -/
noncomputable def upLonBackward (R : Resampler) (n2 : ℕ) (g : Ten3 ℝ) : Ten3 ℝ :=
  ⟨g.d0, g.d1, n2, fun c i k => ∑ j ∈ range g.d2,
    ((if k = wrap (R.lonL j) n2 then (1 - R.lonW j) * g.val c i j else 0) + if k = wrap (R.lonR j) n2 then R.lonW j * g.val c i j else 0)⟩

/-- `x_count` of the forward pass, distributed_resample.py 179-184, which the backward function of the division uses; `lons` are the numbers of
local longitudes. -/
def poleCount (Pa : ℕ) (lons : ℕ → ℕ → ℕ) (p a : ℕ) : Vec ℕ :=
  let count : ℕ → Vec ℕ := fun s => ⟨1, fun _ => lons p s⟩
  if Pa > 1 then reduceFromForward Pa count a else count a

/-- Backward of `_expand_poles` on rank `(p, a)`, distributed_resample.py 175-196, from the end to the start. The assignments (193-194) sum the
gradients of the first and of the last row; `copy_to_azimuth_region` (189-190) adds these sums over the azimuth group; the division (185-186)
divides by the number of longitudes, which the forward pass has added up (184); `reduce_from_azimuth_region` (182-183) hands the result back; the
sums (177-178) spread it over the first and the last row of the input. `pad` (192) drops the two outer rows of the gradient. -/
noncomputable def dExpandPolesBackward (Pa : ℕ) (lons : ℕ → ℕ → ℕ) (g : ℕ → ℕ → Ten3 ℝ) (p a : ℕ) : Ten3 ℝ :=
  let north : ℕ → Vec ℝ := fun s => ⟨(g p s).d0, fun c => ∑ j ∈ range (g p s).d2, (g p s).val c 0 j⟩
  let south : ℕ → Vec ℝ := fun s => ⟨(g p s).d0, fun c => ∑ j ∈ range (g p s).d2, (g p s).val c ((g p s).d1 - 1) j⟩
  let k : ℕ → Vec ℕ := poleCount Pa lons p
  let n1 : ℕ → Vec ℝ := fun a => if Pa > 1 then copyToBackward Pa north a else north a
  let s1 : ℕ → Vec ℝ := fun a => if Pa > 1 then copyToBackward Pa south a else south a
  let n2 : ℕ → Vec ℝ := fun a => ⟨(n1 a).len, fun c => (n1 a).val c / ((k a).val 0 : ℝ)⟩
  let s2 : ℕ → Vec ℝ := fun a => ⟨(s1 a).len, fun c => (s1 a).val c / ((k a).val 0 : ℝ)⟩
  let n3 : Vec ℝ := if Pa > 1 then reduceFromBackward Pa n2 a else n2 a
  let s3 : Vec ℝ := if Pa > 1 then reduceFromBackward Pa s2 a else s2 a
  ⟨(g p a).d0, (g p a).d1 - 2, (g p a).d2, fun c i j =>
    (g p a).val c (i + 1) j + (if i = 0 then n3.val c else 0) + if i + 1 = (g p a).d1 - 2 then s3.val c else 0⟩

/-- Backward of `DistributedResampleS2.forward`, distributed_resample.py 213-249, from the end to the start, in the mode "bilinear"; `x` is the
input of the forward pass, of which only the shape is used. The transposes carry their own backward functions (primitives.py 299-311 and
335-347). -/
noncomputable def DResampler.backward (Pp Pa : ℕ) (D : DResampler) (x g : ℕ → ℕ → Ten3 ℝ) : Except PyErr (ℕ → ℕ → Ten3 ℝ) :=
  if D.R.skip then .ok g
  else do
    let rows : ℕ → ℕ → ℕ := fun p a => (if Pp > 1 then D.latIn.sum else (x p a).d1) + if D.R.expand then 2 else 0
    let cols : ℕ → ℕ → ℕ := fun p a => if Pa > 1 then D.lonIn.sum else (x p a).d2
    let g1 ← collect Pp Pa fun p a => azimuthOutBackward Pa D.R.nlonOut g p a
    let g2 : ℕ → ℕ → Ten3 ℝ := fun p a => upLonBackward D.R (cols p a) (g1 p a)
    let g3 ← collect Pp Pa fun p a => azimuthInBackward Pa (x p a).d0 g2 p a
    let g4 ← collect Pp Pa fun p a => polarOutBackward Pp D.R.nlatOut g3 p a
    let g5 : ℕ → ℕ → Ten3 ℝ := fun p a => upLatBackward D.R (rows p a) (g4 p a)
    let g6 : ℕ → ℕ → Ten3 ℝ := fun p a => if D.R.expand then dExpandPolesBackward Pa (fun p a => (x p a).d2) g5 p a else g5 p a
    collect Pp Pa fun p a => polarInBackward Pp (x p a).d0 g6 p a

end Verif.Dist

namespace Verif.Msg
open Verif Verif.Dist Verif.SHT Finset

/-- Backward of the assignments of the two rows, distributed_resample.py 193-194: the sums of the gradients of the first and of the last row. -/
noncomputable def poleGradSums (s : RsMem) : RsMem :=
  { s with
    north := ⟨s.x.d0, fun c => ∑ j ∈ range s.x.d2, s.x.val c 0 j⟩
    south := ⟨s.x.d0, fun c => ∑ j ∈ range s.x.d2, s.x.val c (s.x.d1 - 1) j⟩ }

/-- Backward of the padding, of the division and of the local sums, distributed_resample.py 192, 185-186 and 177-178. The backward function of
`reduce_from_azimuth_region` (182-183) is the identity. -/
noncomputable def poleGradRows (s : RsMem) : RsMem :=
  { s with
    x := ⟨s.x.d0, s.x.d1 - 2, s.x.d2, fun c i j =>
      s.x.val c (i + 1) j + (if i = 0 then s.north.val c / (s.count.val 0 : ℝ) else 0) +
        if i + 1 = s.x.d1 - 2 then s.south.val c / (s.count.val 0 : ℝ) else 0⟩ }

/-- The backward pass of `_expand_poles`, distributed_resample.py 175-196, with two reductions (189-190, primitives.py 547-553); autograd runs the
backward function of the operation that came last first. -/
noncomputable def expandBackRounds (Pp Pa : ℕ) (glob : ℕ → ℕ → ℕ) : List (Round (Fin Pp × Fin Pa) RsMem RsMsg) :=
  [localRound fun _ s => poleGradSums s,
   sumRound Pp Pa glob true southField,
   sumRound Pp Pa glob true northField,
   localRound fun _ s => poleGradRows s]

/-- The backward pass of `DistributedResampleS2.forward`, distributed_resample.py 213-249, in the mode "bilinear", as rounds of messages; see
`DResampler.backward`. `x` is the input of the forward pass. -/
noncomputable def resampleBackRounds (Pp Pa : ℕ) (glob : ℕ → ℕ → ℕ) (D : DResampler) (x : ℕ → ℕ → Ten3 ℝ) : List (Round (Fin Pp × Fin Pa) RsMem RsMsg) :=
  if D.R.skip then []
  else
    [transRound Pp Pa glob true rsField v02 fun _ _ => chanShapes D.R.nlonOut Pa,
     localRound fun i s => { s with x := upLonBackward D.R (if Pa > 1 then D.lonIn.sum else (x i.1 i.2).d2) s.x },
     transRound Pp Pa glob true rsField v20 fun p a => chanShapes (x p a).d0 Pa,
     transRound Pp Pa glob false rsField v01 fun _ _ => chanShapes D.R.nlatOut Pp,
     localRound fun i s => { s with x := upLatBackward D.R ((if Pp > 1 then D.latIn.sum else (x i.1 i.2).d1) + if D.R.expand then 2 else 0) s.x }] ++
    ((if D.R.expand then expandBackRounds Pp Pa glob else []) ++
    [transRound Pp Pa glob false rsField v10 fun p a => chanShapes (x p a).d0 Pp])

/-- What a process holds at the beginning of the backward pass: the gradient, and the count that the forward pass has saved. -/
noncomputable def resampleBackMem (Pp Pa : ℕ) (x g : ℕ → ℕ → Ten3 ℝ) (i : Fin Pp × Fin Pa) : RsMem :=
  ⟨g i.1 i.2, default, default, poleCount Pa (fun p a => (x p a).d2) i.1 i.2⟩

/-- The program of the backward pass of resampling. -/
noncomputable def resampleBackProg (Pp Pa : ℕ) (glob : ℕ → ℕ → ℕ) (D : DResampler) (x : ℕ → ℕ → Ten3 ℝ) : Prog (Fin Pp × Fin Pa) RsMem RsMsg :=
  ofRounds (fun i => glob i.1 i.2) (resampleBackRounds Pp Pa glob D x)

end Verif.Msg
