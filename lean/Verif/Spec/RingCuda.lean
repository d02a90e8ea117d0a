import Verif.Model.RingCuda
/-!
Specification of one step of distributed neighbourhood attention: the accumulators of every output point take up the neighbours that lie in a block of keys and values.
-/
namespace Verif.Spec.RingStep
open Verif.Spec.Attn Finset

/-- A block of keys and values: `H` latitudes from `start` on and `W` longitudes from `lonLo` on. -/
structure KvBlock where
  start : ℤ
  H : ℕ
  lonLo : ℕ
  W : ℕ

/-- Whether an input point lies in a block. -/
def KvBlock.Has (o : KvBlock) (x : ℕ × ℕ) : Prop := o.start ≤ x.1 ∧ (x.1 : ℤ) < o.start + o.H ∧ o.lonLo ≤ x.2 ∧ x.2 < o.lonLo + o.W

instance (o : KvBlock) (x : ℕ × ℕ) : Decidable (o.Has x) := by unfold KvBlock.Has; infer_instance

/-- The neighbours of `(ho, wo)` in a block. -/
def nbrsIn (o : KvBlock) (P : Pattern) (nlonIn pscale ho wo : ℕ) : List (ℕ × ℕ) := (gatherNbrs P nlonIn pscale ho wo).filter fun x => o.Has x

/-- Channel `c` at `(b, h, w)` of an array of shape `(_, H, W, C)`. -/
def entryOf (H W C : ℕ) (a : ℕ → ℝ) (b h w c : ℕ) : ℝ := a (((b * H + h) * W + w) * C + c)

/-- What is left of sums relative to the maximum `m` when they are taken relative to `n`. -/
noncomputable def carry (m : Option ℝ) (n : ℝ) : ℝ := match m with | none => 0 | some m => Real.exp (m - n)

/-- Softmax accumulators (`C` sums `y`, the sum `a`, the maximum `m`, which is `none` at the beginning) take up the elements of `L` with scores `s`, weights `w` and
values `v`. -/
structure TakesUp {ι : Type} (L : List ι) (s w : ι → ℝ) (v : ι → ℕ → ℝ) (C : ℕ) (y y' : ℕ → ℝ) (a a' : ℝ) (m m' : Option ℝ) : Prop where
  none : L = [] → m' = m ∧ a' = a ∧ ∀ c < C, y' c = y c
  some : L ≠ [] → ∃ n, m' = some n ∧ ((∀ o ∈ m, o ≤ n) ∧ ∀ i ∈ L, s i ≤ n) ∧ (m = some n ∨ ∃ i ∈ L, s i = n) ∧
    a' = carry m n * a + (L.map fun i => Real.exp (s i - n) * w i).sum ∧ ∀ c < C, y' c = carry m n * y c + (L.map fun i => Real.exp (s i - n) * w i * v i c).sum

end Verif.Spec.RingStep

namespace Verif.RingGpu
open Verif Verif.Attn Verif.Spec.Attn Verif.AttnGpu Verif.Ring

/-! ### What a run may be -/

/-- What the orders of a run have to be: complete. The step order of `rescale` is treated separately. -/
structure RunOk (r : Run) (bx nlatOut : ℕ) : Prop where
  rows : ((List.range nlatOut).map r.rowIdx).Perm (List.range nlatOut)
  order : ∀ n b s wid i, ((r.shared n b s wid).order i).Perm (List.range bx)
  storeY : ∀ L, (r.storeY L).Perm L
  storeA : ∀ L, (r.storeA L).Perm L
  storeM : ∀ L, (r.storeM L).Perm L
  maxM : ∀ L, (r.maxM L).Perm L
  addY : ∀ L, (r.addY L).Perm L
  addA : ∀ L, (r.addA L).Perm L

/-- A group that has a point. -/
def Active (p : Params) (B : ℕ) (g : ℕ × ℕ) : Prop := g.1 < B ∧ g.2 < p.nLong * p.nlonOut

/-- In every beginning of the schedule: once warp 0 of a group has stored, every warp of the group has loaded. -/
def LoadsFirst (bx : ℕ) (p : Params) (B : ℕ) (sched : List (ℕ × ℕ × ℕ)) : Prop :=
  ∀ l, l <+: sched → ∀ g, Active p B g → 2 ≤ l.count (g.1, g.2, 0) → ∀ wp < bx / 32, 1 ≤ l.count (g.1, g.2, wp)

/-- Every warp of every group makes its two steps, and nothing else steps. -/
structure Complete (bx : ℕ) (p : Params) (B gx by' : ℕ) (sched : List (ℕ × ℕ × ℕ)) : Prop where
  valid : ∀ x ∈ sched, x.1 < B ∧ x.2.1 < gx * by' ∧ x.2.2 < bx / 32
  twice : ∀ g, Active p B g → ∀ wp < bx / 32, 2 ≤ sched.count (g.1, g.2, wp)

/-- What the runtime accepts: a grid whose sides are at least 1 and below 2^31, 2^16 and 2^16, and dynamic with static shared memory of at most 48 KiB, or, when more
dynamic memory is asked for, of at most the device's limit. -/
def Accepts (limit gx gy gz dyn static : ℕ) : Prop :=
  0 < gx ∧ gx < 2 ^ 31 ∧ 0 < gy ∧ gy < 2 ^ 16 ∧ 0 < gz ∧ gz < 2 ^ 16 ∧ dyn + static ≤ if dyn ≤ 49152 then 49152 else limit

/-- The launches for the long rows are accepted. Shared memory holds the query, and with `n` entries per part of a row, `n` pointers (or twice as many and `n` weights). -/
structure LongFits (limit nci nco bx by' : ℕ) (p : Params) (B : ℕ) : Prop where
  soft : Accepts limit (divUp (p.nLong * p.nlonOut) by') (ctaPerRow p.maxLen) B ((4 * nci + 8 * divUp p.maxLen (ctaPerRow p.maxLen)) * by') (staticShared bx)
  resc : Accepts limit (divUp (p.nLong * p.nlonOut) by') B 1 0 0
  fin : Accepts limit (divUp (p.nLong * p.nlonOut) by') (ctaPerRow p.maxLen) B ((4 * (nci + nco) + 20 * divUp p.maxLen (ctaPerRow p.maxLen)) * by') (staticShared bx)

/-- All launches of a step are accepted; `bdimxOf` is the number of threads of a group. -/
structure Accepted (r : Run) (p : Params) (B : ℕ) : Prop where
  generic : 16384 < p.nco → Accepts r.limit (divUp (p.nlatOut * p.nlonOut) 2) B 1 (4 * p.nco * 2) 0
  short : p.nco ≤ 16384 → p.nLong < p.nlatOut → Accepts r.limit (divUp ((p.nlatOut - p.nLong) * p.nlonOut) (if p.nco ≤ 512 then 2 else 1)) B 1
    ((4 * p.nci + 20 * p.midLen) * if p.nco ≤ 512 then 2 else 1) (staticShared (bdimxOf p.nco))
  long : p.nco ≤ 16384 → 0 < p.nLong → LongFits r.limit p.nci p.nco (bdimxOf p.nco) (if p.nco ≤ 512 then 2 else 1) p B

/-- The split of the rows is right: the first `nLong` rows of the list have at most `maxLen` entries, the others at most `midLen`. -/
structure RowsOk (r : Run) (p : Params) (P : Pattern) : Prop where
  le : p.nLong ≤ p.nlatOut
  pos : 0 < p.nLong → 0 < p.maxLen
  long : ∀ h < p.nLong, P.roff (r.rowIdx h + 1) - P.roff (r.rowIdx h) ≤ p.maxLen
  short : ∀ h, p.nLong ≤ h → h < p.nlatOut → P.roff (r.rowIdx h + 1) - P.roff (r.rowIdx h) ≤ p.midLen

/-- The threads per group: one warp in the generic kernel. -/
def groupSize (nco : ℕ) : ℕ := if nco ≤ 16384 then bdimxOf nco else 32

/-- The warps of the groups of `rescale` all run. -/
def SchedOk (r : Run) (p : Params) (B : ℕ) : Prop :=
  p.nco ≤ 16384 → 0 < p.nLong →
    Complete (bdimxOf p.nco) p B (divUp (p.nLong * p.nlonOut) (if p.nco ≤ 512 then 2 else 1)) (if p.nco ≤ 512 then 2 else 1) r.sched

/-- A run of a step in which nothing goes wrong outside the program: orders are complete, rows are split rightly, launches are accepted, and, where the groups of `rescale`
have several warps, all of them load before the first one stores. -/
structure GoodRun (r : Run) (p : Params) (B : ℕ) (P : Pattern) : Prop where
  run : RunOk r (groupSize p.nco) p.nlatOut
  rows : RowsOk r p P
  accepted : Accepted r p B
  sched : SchedOk r p B
  loads : 512 < p.nco → p.nco ≤ 16384 → 0 < p.nLong → LoadsFirst (bdimxOf p.nco) p B r.sched

/-- A call of the operator, apart from the query and the accumulators. -/
structure Call where
  r : Run
  p : Params
  k : ℕ → ℝ
  v : ℕ → ℝ

/-- Calls one after the other. -/
noncomputable def ringSteps (B : ℕ) (w : ℕ → ℝ) (P : Pattern) (q : ℕ → ℝ) (calls : List Call) (bufs : Bufs) : Except PyErr Bufs :=
  calls.foldlM (fun bufs c => ringStep c.r c.p B w P c.k c.v q bufs) bufs

/-- The accumulators at the beginning. -/
def Bufs.zero : Bufs := ⟨fun _ => 0, fun _ => 0, fun _ => none⟩

end Verif.RingGpu
