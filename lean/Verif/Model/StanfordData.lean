import Verif.Model.Losses
import Verif.Model.Flt
import Mathlib.Algebra.Order.Floor.Semiring
import Mathlib.Data.String.Basic
import Mathlib.Data.List.Sort
/-!
The numbers of the 2D-3D-S data set (examples/stanford_2d3ds_dataset.py): the statistics that are computed while the data set is converted and afterwards, the class
indices, and the items of the data sets. Pictures are functions of row and column; downsampling and compositing by PIL happens before.
-/
namespace Verif.Stanford
open Finset

/-- `np.sum(u * quad_weights, axis=(-2, -1))`. -/
noncomputable def areaSum (H W : ℕ) (q u : ℕ → ℕ → ℝ) : ℝ := ∑ k ∈ range H, ∑ j ∈ range W, u k j * q k j

/-- A mean and a sum of squared deviations. -/
structure Welford where
  mean : ℝ
  m2 : ℝ

/-! ### `compute_stats_s2`, 769-841 -/

/-- The two numbers of one channel of one picture, 798-799 and 813-814. -/
noncomputable def imageStats (H W : ℕ) (q u : ℕ → ℕ → ℝ) : Welford :=
  let m := areaSum H W q u
  ⟨m, areaSum H W q fun k j => (u k j - m) ^ 2⟩

open Classical in
/-- `mask = np.where(tar == 0, 0, 1)`, 792. -/
noncomputable def validMask (t : ℕ → ℕ → ℝ) (k j : ℕ) : ℝ := if t k j = 0 then 0 else 1

open Classical in
/-- The two numbers of a target, 793, 803-804 and 823-824; `none` is NaN: if the masked area is 0, then numerators are 0 as well. -/
noncomputable def maskedStats (H W : ℕ) (q t : ℕ → ℕ → ℝ) : Option Welford :=
  let area := areaSum H W q (validMask t)
  if area = 0 then none
  else
    let m := areaSum H W q (fun k j => validMask t k j * t k j) / area
    some ⟨m, areaSum H W q (fun k j => validMask t k j * (t k j - m) ^ 2) / area⟩

/-- The update with one more picture, 816-818 and 826-828. -/
noncomputable def welfordUpdate (count : ℕ) (s new : Welford) : Welford :=
  let delta := new.mean - s.mean
  ⟨s.mean + delta / (count + 1 : ℕ), s.m2 + new.m2 + delta ^ 2 * count / (count + 1 : ℕ)⟩

/-- The same where either may be NaN. -/
noncomputable def welfordUpdateNan (count : ℕ) : Option Welford → Option Welford → Option Welford
  | some s, some new => some (welfordUpdate count s new)
  | _, _ => none

/-- An item of a data set: a picture with channels and a target, or these with an index (`return_index`). -/
inductive Token where
  | pair (inp : ℕ → ℕ → ℕ → ℝ) (tar : ℕ → ℕ → ℝ)
  | triple (inp : ℕ → ℕ → ℕ → ℝ) (tar : ℕ → ℕ → ℝ) (index : ℕ)

structure StatState where
  count : ℕ
  inp : ℕ → Welford
  tar : Option Welford

/-- The state after the first items, 777-831; `none` before the first one. The target is only used if asked for. -/
noncomputable def statLoop (H W : ℕ) (q : ℕ → ℕ → ℝ) (item : ℕ → Token) : ℕ → Except PyErr (Option StatState)
  | 0 => .ok none
  | i + 1 => do
    let s ← statLoop H W q item i
    match item i with
    | .triple _ _ _ => .error .valueError
    | .pair inp tar =>
      match s with
      | none => return some ⟨1, fun c => imageStats H W q (inp c), maskedStats H W q tar⟩
      | some s => return some ⟨s.count + 1, fun c => welfordUpdate s.count (s.inp c) (imageStats H W q (inp c)), welfordUpdateNan s.count s.tar (maskedStats H W q tar)⟩

/-- Means and standard deviations per channel, and of the target if asked for (inner `none` is NaN). -/
structure Stats where
  mean : ℕ → ℝ
  std : ℕ → ℝ
  target : Option (Option (ℝ × ℝ))

/-- `compute_stats_s2(dataset, normalize_target)`, 769-841, for a data set of `n` items of `H` rows and `W` columns. The cast of the weights and of the results to float32
is not modelled. Without items the variables of line 834 are unbound. -/
noncomputable def computeStats (E : Loss.QEnv) (n H W : ℕ) (item : ℕ → Token) (normalizeTarget : Bool) : Except PyErr Stats :=
  if n = 0 then .error .nameError
  else
    match item 0 with
    | .triple _ _ _ => .error .valueError
    | .pair _ _ => do
      let q ← Loss.quadratureWeightsTiled E H W "equiangular" true
      let s ← statLoop H W q.val item n
      match s with
      | none => .error .nameError
      | some s => return ⟨fun c => (s.inp c).mean, fun c => Real.sqrt ((s.inp c).m2 / s.count),
          if normalizeTarget then some (s.tar.map fun t => (t.mean, Real.sqrt (t.m2 / s.count))) else none⟩

/-! ### `convert_dataset`, the statistics, 368-489 -/

/-- The weights, 370-374: tiled and divided by their sum. -/
noncomputable def convertWeights (E : Loss.QEnv) (H W : ℕ) : Except PyErr (ℕ → ℕ → ℝ) := do
  let r ← Quad.precomputeLatitudes E.gauss E.tol E.maxiter H "equiangular"
  let q : ℕ → ℕ → ℝ := fun k _ => r.w k * 2 * Real.pi / W
  return fun k j => q k j / ∑ k ∈ range r.n, ∑ j ∈ range W, q k j

/-- The values of a picture. -/
def pixels (H W : ℕ) (u : ℕ → ℕ → ℝ) : List ℝ := (List.range H).flatMap fun k => (List.range W).map (u k)

/-- `np.min` (external: numpy); it raises for an empty array. -/
noncomputable def npMin : List ℝ → Except PyErr ℝ
  | [] => .error .valueError
  | x :: xs => .ok (xs.foldl min x)

/-- `np.max` (external: numpy). -/
noncomputable def npMax : List ℝ → Except PyErr ℝ
  | [] => .error .valueError
  | x :: xs => .ok (xs.foldl max x)

/-- `tmp_min` or `tmp_max` per channel. -/
noncomputable def perChannel (C : ℕ) (f : ℕ → Except PyErr ℝ) : Except PyErr (ℕ → ℝ) :=
  match C with
  | 0 => .ok fun _ => 0
  | C + 1 => do
    let g ← perChannel C f
    let x ← f C
    return fun c => if c = C then x else g c

/-- `m2_vals`: a number after the first picture, since line 408 sums over all axes, an array with one entry per channel afterwards. -/
inductive M2 where
  | scalar (x : ℝ)
  | channels (f : ℕ → ℝ)

/-- Broadcasting. -/
def M2.get : M2 → ℕ → ℝ
  | .scalar x, _ => x
  | .channels f, c => f c

structure RgbState where
  min : ℕ → ℝ
  max : ℕ → ℝ
  mean : ℕ → ℝ
  m2 : M2

/-- The loop over the pictures, 403-423, for `C` channels. Line 419 takes the minimum of the maxima. -/
noncomputable def rgbLoop (C H W : ℕ) (q : ℕ → ℕ → ℝ) (rgb : ℕ → ℕ → ℕ → ℕ → ℝ) : ℕ → Except PyErr (Option RgbState)
  | 0 => .ok none
  | count + 1 => do
    let s ← rgbLoop C H W q rgb count
    let tmpMin ← perChannel C fun c => npMin (pixels H W (rgb count c))
    let tmpMax ← perChannel C fun c => npMax (pixels H W (rgb count c))
    let tmpMean : ℕ → ℝ := fun c => areaSum H W q (rgb count c)
    let tmpM2 : ℝ := ∑ c ∈ range C, areaSum H W q fun k j => (rgb count c k j - tmpMean c) ^ 2
    match s with
    | none => return some ⟨tmpMin, tmpMax, tmpMean, .scalar tmpM2⟩
    | some s =>
      let delta : ℕ → ℝ := fun c => tmpMean c - s.mean c
      return some ⟨fun c => Min.min (s.min c) (tmpMin c), fun c => Min.min (s.max c) (tmpMax c), fun c => s.mean c + delta c / (count + 1 : ℕ),
        .channels fun c => s.m2.get c + (tmpM2 + delta c * delta c * (count / (count + 1 : ℕ)))⟩

structure DepthState where
  min : ℝ
  max : ℝ
  mean : ℝ
  m2 : ℝ

/-- The loop over the depths, 451-467, in the units of the file. Line 464 takes the minimum of the maxima. -/
noncomputable def depthLoop (H W : ℕ) (q : ℕ → ℕ → ℝ) (dep : ℕ → ℕ → ℕ → ℝ) : ℕ → Except PyErr (Option DepthState)
  | 0 => .ok none
  | count + 1 => do
    let s ← depthLoop H W q dep count
    let tmpMin ← npMin (pixels H W (dep count))
    let tmpMax ← npMax (pixels H W (dep count))
    let tmpMean : ℝ := areaSum H W q (dep count)
    let tmpM2 : ℝ := areaSum H W q fun k j => (dep count k j - tmpMean) ^ 2
    match s with
    | none => return some ⟨tmpMin, tmpMax, tmpMean, tmpM2⟩
    | some s =>
      let delta : ℝ := tmpMean - s.mean
      return some ⟨Min.min s.min tmpMin, Min.min s.max tmpMax, s.mean + delta / (count + 1 : ℕ), s.m2 + (tmpM2 + delta * delta * (count / (count + 1 : ℕ)))⟩

/-- `std_vals`, 477: division by the number of samples minus 1, which may be 0. -/
noncomputable def stdOf (m2 : ℝ) (n : ℕ) : Flt := Flt.sqrt (Flt.div m2 ((n : ℝ) - 1))

/-- What is stored of a depth, 448. -/
noncomputable def storedDepth (d : ℝ) : ℝ := d / 65536

/-- `label.split("_")[0]`, 303. -/
def className (label : String) : String := String.ofList (label.toList.takeWhile (· ≠ '_'))

/-- `sorted(list(set(...)))`, 304. -/
def sortedSet (l : List String) : List String := l.dedup.mergeSort (fun a b => decide (a ≤ b))

/-- `class_labels_indices`, 303-304. -/
def classList (labels : List String) : List String := sortedSet (labels.map className)

/-- The key of a colour, 229-232. -/
def colourKey (r g b : ℕ) : ℕ := r * 256 * 256 + g * 256 + b

/-- `_convert` in `_rgb_to_id`, 234-244. -/
def convertKey (map indices : List String) (lookup : ℕ) : Except PyErr ℕ :=
  match map[if lookup = 855309 then 3341 else lookup]? with
  | none => .error .indexError
  | some label => if label ∈ indices then .ok (indices.idxOf label) else .error .valueError

/-- `_rgb_to_id` for one pixel, 226-248, with the arguments that `convert_dataset` gives. -/
def pixelClass (labels : List String) (r g b : ℕ) : Except PyErr ℕ := convertKey (labels.map className) (classList labels) (colourKey r g b)

/-- `class_histogram` before the last step, 369 and 470-471. -/
noncomputable def histogramSum (H W : ℕ) (q : ℕ → ℕ → ℝ) (sem : ℕ → ℕ → ℕ → ℤ) (n c : ℕ) : ℝ :=
  ∑ i ∈ range n, ∑ k ∈ range H, ∑ j ∈ range W, if sem i k j = c then q k j else 0

/-- `class_histogram`, 488. -/
noncomputable def classHistogram (H W : ℕ) (q : ℕ → ℕ → ℝ) (sem : ℕ → ℕ → ℕ → ℤ) (n c : ℕ) : ℝ := histogramSum H W q sem n c / n

/-! ### The items of the data sets -/

/-- `hcut`, 638 and 758: Python's `int` rounds towards 0. Only used for positive fractions. The rounding of the product is not modelled. -/
noncomputable def polarCut (fraction : ℝ) (H : ℕ) : ℕ := ⌊fraction * H⌋₊

/-- `x[0:hcut, :] = v; x[-hcut:, :] = v` for positive `hcut`; slices stop at the ends. -/
def cutPoles {α : Type} (H hcut : ℕ) (v : α) (x : ℕ → ℕ → α) (k j : ℕ) : α := if k < hcut ∨ H - hcut ≤ k then v else x k j

open Classical in
/-- The exclusion of rows, 637-641 and 757-761. -/
noncomputable def excludePoles {α : Type} (fraction : ℝ) (H : ℕ) (v : α) (x : ℕ → ℕ → α) : ℕ → ℕ → α :=
  if 0 < fraction then
    if 0 < polarCut fraction H then cutPoles H (polarCut fraction H) v x else x
  else x

/-- `StanfordSegmentationDataset._mask_invalid`, 605-606. -/
def maskClasses (numClasses : ℕ) (t : ℕ → ℕ → ℤ) (k j : ℕ) : ℤ := if (numClasses : ℤ) ≤ t k j then -100 else t k j

/-- The target of `StanfordSegmentationDataset.__getitem__`, 626-643. -/
noncomputable def segTarget (numClasses : ℕ) (fraction : ℝ) (maskInvalid : Bool) (H : ℕ) (t : ℕ → ℕ → ℤ) : ℕ → ℕ → ℤ :=
  excludePoles fraction H (-100) (if maskInvalid then maskClasses numClasses t else t)

open Classical in
/-- `StanfordDepthDataset._mask_invalid`, 742-743; `top` is the maximum of the picture. -/
noncomputable def maskDepth (top : ℝ) (t : ℕ → ℕ → ℝ) (k j : ℕ) : ℝ := t k j * if t k j = top then 0 else 1

/-- The target of `StanfordDepthDataset.__getitem__`, 745-766. An empty picture has no maximum. -/
noncomputable def depthTarget (fraction : ℝ) (logDepth maskInvalid : Bool) (H W : ℕ) (t : ℕ → ℕ → ℝ) : Except PyErr (ℕ → ℕ → ℝ) := do
  let t ← if maskInvalid then (npMax (pixels H W t)).map fun top => maskDepth top t else .ok t
  let t := excludePoles fraction H 0 t
  return if logDepth then fun k j => Real.log (1 + t k j) else t

/-- The number of channels of an item: `0 : self.img_rgb[0]` of the channels of the file, 570-571 and 632. -/
def itemChannels (fileChannels : ℕ) (ignoreAlpha : Bool) : ℕ := min (if ignoreAlpha then 3 else fileChannels) fileChannels

/-- `input_shape[0]`, 570-571 and 586-588. -/
def inputChannels (fileChannels : ℕ) (ignoreAlpha : Bool) : ℕ := if ignoreAlpha then 3 else fileChannels

/-- What a data set returns for an index: a pair, or a pair with an index. -/
inductive DsItem (α β : Type) where
  | pair (inp : α) (tar : β)
  | triple (inp : α) (tar : β) (index : ℤ)

def DsItem.inp {α β : Type} : DsItem α β → α
  | .pair a _ => a
  | .triple a _ _ => a

def DsItem.tar {α β : Type} : DsItem α β → β
  | .pair _ b => b
  | .triple _ b _ => b

/-- `StanfordSegmentationDataset.__getitem__`, 626-643, with the flag set by `set_return_index`, 590-591, which it does not read. `read` stands for the file; h5py raises for
indices out of range, and negative ones count from the end. -/
def segGet {α β : Type} (read : ℤ → Except PyErr (α × β)) (_returnIndex : Bool) (idx : ℤ) : Except PyErr (DsItem α β) :=
  (read idx).map fun p => .pair p.1 p.2

/-- `self.indices[index]` for a Python list (external: CPython). -/
def pyIndex (l : List ℤ) (i : ℤ) : Except PyErr ℤ :=
  if 0 ≤ i then (match l[i.toNat]? with | some x => .ok x | none => .error .indexError)
  else if -i ≤ l.length then (match l[(l.length + i).toNat]? with | some x => .ok x | none => .error .indexError)
  else .error .indexError

/-- `StanfordDatasetSubset.__getitem__`, 655-663. -/
def subsetGet {α β : Type} (get : ℤ → Except PyErr (DsItem α β)) (indices : List ℤ) (returnIndex : Bool) (index : ℤ) : Except PyErr (DsItem α β) := do
  let real ← pyIndex indices index
  let data ← get real
  return if returnIndex then .triple data.inp data.tar real else .pair data.inp data.tar

/-- `torch.utils.data.Subset.__getitems__` (external: torch 2.1 and later, not overridden by `StanfordDatasetSubset`) for a parent without `__getitems__`. -/
def subsetGetItems {α β : Type} (get : ℤ → Except PyErr (DsItem α β)) (indices : List ℤ) (batch : List ℤ) : Except PyErr (List (DsItem α β)) :=
  batch.mapM fun index => do
    let real ← pyIndex indices index
    get real

/-- How `DataLoader` fetches a batch (external: torch, `_MapDatasetFetcher.fetch` with automatic batching): `__getitems__` if there is one. -/
def loaderFetch {α β : Type} (get : ℤ → Except PyErr (DsItem α β)) (indices : List ℤ) (_returnIndex : Bool) (batch : List ℤ) : Except PyErr (List (DsItem α β)) :=
  subsetGetItems get indices batch

/-- `StanfordSegmentationDataset._id_to_class`, 599-603: the attribute it reads is never set. `none` is Python's `None`. -/
def idToClass (numClasses : ℕ) (id : ℤ) : Except PyErr (Option String) := if (numClasses : ℤ) < id then .ok none else .error .attributeError

end Verif.Stanford
