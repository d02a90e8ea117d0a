import Verif.Model.RingCudaBwd
import Verif.Spec.RingCuda
/-!
Specification of the first backward pass of a ring step: the five accumulators of every output point take up the neighbours that lie in a block of keys and values.
-/
namespace Verif.Spec.RingStep

/-- The accumulators of the backward pass (the sum `a`, the maximum `m`, the integral `g` and the vectors `u` and `z` of `C` numbers) take up the elements of `L` with scores
`s`, weights `w`, products of output gradient and value `d`, and keys `k`. All sums are relative to the new maximum. -/
structure TakesUpBwd {ι : Type} (L : List ι) (s w d : ι → ℝ) (k : ι → ℕ → ℝ) (C : ℕ) (a a' : ℝ) (m m' : Option ℝ) (g g' : ℝ) (u u' z z' : ℕ → ℝ) : Prop where
  none : L = [] → m' = m ∧ a' = a ∧ g' = g ∧ ∀ c < C, u' c = u c ∧ z' c = z c
  some : L ≠ [] → ∃ n, m' = some n ∧ ((∀ o ∈ m, o ≤ n) ∧ ∀ i ∈ L, s i ≤ n) ∧ (m = some n ∨ ∃ i ∈ L, s i = n) ∧
    a' = carry m n * a + (L.map fun i => Real.exp (s i - n) * w i).sum ∧
    g' = carry m n * g + (L.map fun i => Real.exp (s i - n) * w i * d i).sum ∧
    ∀ c < C, u' c = carry m n * u c + (L.map fun i => Real.exp (s i - n) * w i * k i c).sum ∧
      z' c = carry m n * z c + (L.map fun i => Real.exp (s i - n) * w i * d i * k i c).sum

end Verif.Spec.RingStep

namespace Verif.RingGpu
open Verif Verif.Attn Verif.Spec.Attn Verif.AttnGpu Verif.Ring

/-! ### What a run may be -/

/-- What the orders of a run have to be: complete. -/
structure BRunOk (r : BRun) (bx nlatOut : ℕ) : Prop extends RunOk r.toRun bx nlatOut where
  storeW : ∀ L, (r.storeW L).Perm L
  storeI : ∀ L, (r.storeI L).Perm L
  addW : ∀ L, (r.addW L).Perm L
  addI : ∀ L, (r.addI L).Perm L

/-- The launches for the long rows are accepted. Shared memory holds pointers, in the first kernel one per entry of a part of a row; in the third query, output gradient, two
pointers and a weight per entry. -/
structure BLongFits (limit nci nco bx by' : ℕ) (p : Params) (B : ℕ) : Prop where
  soft : Accepts limit (divUp (p.nLong * p.nlonOut) by') (ctaPerRow p.maxLen) B (8 * divUp p.maxLen (ctaPerRow p.maxLen) * by') (staticShared bx)
  resc : Accepts limit (divUp (p.nLong * p.nlonOut) by') B 1 0 0
  fin : Accepts limit (divUp (p.nLong * p.nlonOut) by') (ctaPerRow p.maxLen) B ((4 * (nci + nco) + 20 * divUp p.maxLen (ctaPerRow p.maxLen)) * by') (bStaticShared bx)

/-- All launches of a pass are accepted; `bdimxOf` is the number of threads of a group. -/
structure BAccepted (r : Run) (p : Params) (B : ℕ) : Prop where
  generic : 8192 < p.nci → Accepts r.limit (divUp (p.nlatOut * p.nlonOut) 2) B 1 (4 * (2 * p.nci + p.nco) * 2) 0
  short : p.nci ≤ 8192 → p.nLong < p.nlatOut → Accepts r.limit (divUp ((p.nlatOut - p.nLong) * p.nlonOut) (if p.nci ≤ 512 then 2 else 1)) B 1
    ((4 * p.nco + 20 * p.midLen) * if p.nci ≤ 512 then 2 else 1) (bStaticShared (bdimxOf p.nci))
  long : p.nci ≤ 8192 → 0 < p.nLong → BLongFits r.limit p.nci p.nco (bdimxOf p.nci) (if p.nci ≤ 512 then 2 else 1) p B

/-- The threads per group: one warp in the generic kernel. -/
def bGroupSize (nci : ℕ) : ℕ := if nci ≤ 8192 then bdimxOf nci else 32

/-- The warps of the groups of `rescale` all run. -/
def BSchedOk (r : Run) (p : Params) (B : ℕ) : Prop :=
  p.nci ≤ 8192 → 0 < p.nLong →
    Complete (bdimxOf p.nci) p B (divUp (p.nLong * p.nlonOut) (if p.nci ≤ 512 then 2 else 1)) (if p.nci ≤ 512 then 2 else 1) r.sched

/-- A run of a pass in which nothing goes wrong outside the program, as in `GoodRun`. -/
structure BGoodRun (r : BRun) (p : Params) (B : ℕ) (P : Pattern) : Prop where
  run : BRunOk r (bGroupSize p.nci) p.nlatOut
  rows : RowsOk r.toRun p P
  accepted : BAccepted r.toRun p B
  sched : BSchedOk r.toRun p B
  loads : 512 < p.nci → p.nci ≤ 8192 → 0 < p.nLong → LoadsFirst (bdimxOf p.nci) p B r.sched

/-- A call of the operator, apart from query, output gradient and accumulators. -/
structure BCall where
  r : BRun
  p : Params
  k : ℕ → ℝ
  v : ℕ → ℝ

/-- Calls one after the other. -/
noncomputable def ringBwdSteps (B : ℕ) (w : ℕ → ℝ) (P : Pattern) (q dy : ℕ → ℝ) (calls : List BCall) (bufs : BBufs) : Except PyErr BBufs :=
  calls.foldlM (fun bufs c => ringBwdStep c.r c.p B ⟨w, P, c.k, c.v, q, dy⟩ bufs) bufs

/-- The accumulators at the beginning. -/
def BBufs.zero : BBufs := ⟨fun _ => 0, fun _ => none, fun _ => 0, fun _ => 0, fun _ => 0⟩

end Verif.RingGpu
