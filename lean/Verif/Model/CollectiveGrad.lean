import Verif.Model.Collectives
/-!
Forward and backward functions of the autograd wrappers around the collectives, primitives.py 278-347 and 506-771,
for a registered group of size `P` (the unregistered case is the identity in both directions).
Each pair is `(forward, backward)`; `backward` receives the output gradients of all ranks.
-/
namespace Verif.Dist
open Verif

/-- `_CopyToPolarRegion` / `_CopyToAzimuthRegion`, primitives.py 506-553: forward returns its input. -/
def copyToForward {α} (_P : ℕ) (x : ℕ → Vec α) (r : ℕ) : Vec α := x r
/-- Backward of the copy, 521-527 and 546-552: all-reduce of the gradients. -/
def copyToBackward {α} [AddCommMonoid α] (P : ℕ) (g : ℕ → Vec α) (r : ℕ) : Vec α := reduce P g r

/-- `_ReduceFromPolarRegion` / `_ReduceFromAzimuthRegion`, 616-669: forward is the all-reduce. -/
def reduceFromForward {α} [AddCommMonoid α] (P : ℕ) (x : ℕ → Vec α) (r : ℕ) : Vec α := reduce P x r
/-- Backward of the all-reduce, 639-641 and 667-669: returns the incoming gradient. -/
def reduceFromBackward {α} (_P : ℕ) (g : ℕ → Vec α) (r : ℕ) : Vec α := g r

/-- `_ScatterToPolarRegion.forward`, 562-568. -/
def scatterToForward {α} (P : ℕ) (x : ℕ → Vec α) (r : ℕ) : Except PyErr (Vec α) := splitRank P x r
/-- `_ScatterToPolarRegion.backward`, 578-584; `n` is the saved extent of the input (`ctx.split_shapes`, 575-576). -/
def scatterToBackward {α} (P n : ℕ) (g : ℕ → Vec α) (r : ℕ) : Except PyErr (Vec α) := do
  let shapes ← computeSplitShapes n P
  gatherRank P g (some shapes) r

/-- `_GatherFromPolarRegion.forward`, 593-599, with the caller's `shapes_`. -/
def gatherFromForward {α} (P : ℕ) (x : ℕ → Vec α) (shapes : Option (List ℕ)) (r : ℕ) : Except PyErr (Vec α) :=
  gatherRank P x shapes r
/-- `_GatherFromPolarRegion.backward`, 607-613. -/
def gatherFromBackward {α} (P : ℕ) (g : ℕ → Vec α) (r : ℕ) : Except PyErr (Vec α) := splitRank P g r

/-- `_ReduceFromScatterToPolarRegion` / `...Azimuth...`, 672-739: forward is reduce-scatter. -/
def reduceFromScatterToForward {α} [AddCommMonoid α] (P : ℕ) (x : ℕ → Vec α) (r : ℕ) : Except PyErr (Vec α) :=
  reduceScatterRank P x r
/-- Backward of reduce-scatter, 698-704 and 733-739: all-gather with the saved split shapes. -/
def reduceFromScatterToBackward {α} (P n : ℕ) (g : ℕ → Vec α) (r : ℕ) : Except PyErr (Vec α) := do
  let shapes ← computeSplitShapes n P
  gatherRank P g (some shapes) r

/-- `_GatherFromCopyToPolarRegion`, 742-771: forward is all-gather. -/
def gatherFromCopyToForward {α} (P : ℕ) (x : ℕ → Vec α) (shapes : Option (List ℕ)) (r : ℕ) :
    Except PyErr (Vec α) := gatherRank P x shapes r
/-- Backward of `_GatherFromCopyToPolarRegion`, 765-771: reduce-scatter. -/
def gatherFromCopyToBackward {α} [AddCommMonoid α] (P : ℕ) (g : ℕ → Vec α) (r : ℕ) : Except PyErr (Vec α) :=
  reduceScatterRank P g r

/-- `_DistributeTransposeAzimuth/Polar.forward`, 280-289 and 316-325. -/
def distTransposeForward {α} (P : ℕ) (x : ℕ → Mat α) (dim1SplitSizes : List ℕ) (r : ℕ) : Except PyErr (Mat α) :=
  transposeRank P x dim1SplitSizes r
/-- `_DistributeTransposeAzimuth/Polar.backward`, 299-311 and 335-347: transpose with the two dimensions exchanged;
`n0` is the saved extent of `dims[0]` of the input (`ctx.dim0_split_sizes`, 296-297). -/
def distTransposeBackward {α} (P n0 : ℕ) (g : ℕ → Mat α) (r : ℕ) : Except PyErr (Mat α) := do
  let sizes ← computeSplitShapes n0 P
  let y ← transposeRank P (fun s => (g s).swap) sizes r
  return y.swap

end Verif.Dist
