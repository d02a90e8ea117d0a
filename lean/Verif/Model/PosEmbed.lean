import Verif.Model.SpectralConv
import Mathlib.Analysis.SpecialFunctions.Pow.Real
/-!
Model of the position embeddings of torch_harmonics/examples/models/_layers.py 460-595. The leading dimension of extent one is left out. The casts to
float32 are not modelled. A NaN (the quotient `0 / 0`) is `none`.
-/
namespace Verif.SHT
open Verif Verif.Dist Verif.FFT Verif.Quad Verif.Truncation Finset

/-- `SequencePositionEmbedding.__init__`, _layers.py 506-518: `pos` is the flat index of the pixel. -/
noncomputable def seqEmbed (nlat nlon chans : ℕ) : Ten3 ℝ :=
  ⟨chans, nlat, nlon, fun c k j =>
    let pos : ℝ := ((k * nlon + j : ℕ) : ℝ)
    let denom : ℝ := (10000 : ℝ) ^ ((2 * c : ℝ) / chans)
    if c % 2 = 0 then Real.sin (pos / denom) else Real.cos (pos / denom)⟩

/-- `l = floor(sqrt(i))`, `m = i - l**2 - l`, _layers.py 550-551 (the square root in floating point is taken as exact). -/
def embedIndex (i : ℕ) : ℕ × ℤ := (Nat.sqrt i, (i : ℤ) - (Nat.sqrt i : ℤ) ^ 2 - Nat.sqrt i)

/-- `pos_embed_freq`, _layers.py 547-556: one entry per channel. -/
noncomputable def embedFreq (i l m : ℕ) : ℂ :=
  if l = (embedIndex i).1 ∧ m = (embedIndex i).2.natAbs then (if (embedIndex i).2 < 0 then Complex.I else 1) else 0

/-- `torch.amax(x.abs(), dim=(-1, -2))` of one channel. -/
noncomputable def absMax (H W : ℕ) (x : ℕ → ℕ → ℝ) : ℝ := (range H ×ˢ range W).fold max 0 fun p => |x p.1 p.2|

/-- `SpectralPositionEmbedding.__init__`, _layers.py 539-565. The assignment raises when the degree or the order of a channel is outside of the
array. -/
noncomputable def spectralEmbed (env : Env) (be : C2R) (nlat nlon : ℕ) (lmax mmax : Option ℤ) (grid : String) (chans : ℕ) :
    Except PyErr (Ten3 (Option ℝ)) :=
  match InverseRealSHT.init env ⟨nlat, nlon, lmax, mmax, grid, "ortho", true⟩ with
  | .error e => .error e
  | .ok I =>
    if ∃ i ∈ range chans, ¬ ((embedIndex i).1 < I.lmax ∧ (embedIndex i).2.natAbs < I.mmax) then .error .indexError
    else
      match mapChannels (I.forward be) ⟨chans, I.lmax, I.mmax, embedFreq⟩ with
      | .error e => .error e
      | .ok p => .ok ⟨p.d0, p.d1, p.d2, fun c k j =>
          if absMax p.d1 p.d2 (p.val c) = 0 then none else some (p.val c k j / absMax p.d1 p.d2 (p.val c))⟩

/-- `LearnablePositionEmbedding.__init__`, _layers.py 587-595: the initial parameter. -/
def learnableEmbed (nlat nlon chans : ℕ) (embedType : String) : Except PyErr (Ten3 ℝ) :=
  if embedType = "latlon" then .ok ⟨chans, nlat, nlon, fun _ _ _ => 0⟩
  else if embedType = "lat" then .ok ⟨chans, nlat, 1, fun _ _ _ => 0⟩
  else .error .valueError

/-- `PositionEmbedding.forward`, _layers.py 484-486: addition with broadcasting of every dimension of extent one. -/
def addEmbed (pe x : Ten3 ℝ) : Except PyErr (Ten3 ℝ) :=
  let ok (a b : ℕ) : Bool := a = b || a = 1 || b = 1
  let ext (a b : ℕ) : ℕ := if a = 1 then b else a
  let at' (a i : ℕ) : ℕ := if a = 1 then 0 else i
  if ok x.d0 pe.d0 && ok x.d1 pe.d1 && ok x.d2 pe.d2 then
    .ok ⟨ext x.d0 pe.d0, ext x.d1 pe.d1, ext x.d2 pe.d2, fun c k j =>
      x.val (at' x.d0 c) (at' x.d1 k) (at' x.d2 j) + pe.val (at' pe.d0 c) (at' pe.d1 k) (at' pe.d2 j)⟩
  else .error .runtimeError

end Verif.SHT
