import Verif.Model.RingCudaBwd2
import Verif.Spec.RingCudaBwd
/-!
Specification of the second backward pass of a ring step: what a run may be, and what the cells of a block of keys and values receive.
-/
namespace Verif.RingGpu
open Verif Verif.Attn Verif.Spec.Attn Verif.AttnGpu Verif.Ring Verif.Spec.RingStep Finset

/-! ### What a run may be -/

/-- What the orders of a run have to be: complete. -/
structure ARunOk (r : ARun) (bx nlatOut : ℕ) : Prop where
  rows : ((List.range nlatOut).map r.rowIdx).Perm (List.range nlatOut)
  order : ∀ n b s wid i, ((r.mem n b s wid).order i).Perm (List.range bx)
  addK : ∀ n L, (r.addK n L).Perm L
  addV : ∀ n L, (r.addV n L).Perm L

/-- The caller splits the rows into long and short ones, and bounds their lengths. -/
structure ARowsOk (r : ARun) (p : Params) (P : Pattern) : Prop where
  le : p.nLong ≤ p.nlatOut
  long : ∀ h < p.nLong, P.roff (r.rowIdx h + 1) - P.roff (r.rowIdx h) ≤ p.maxLen
  short : ∀ h, p.nLong ≤ h → h < p.nlatOut → P.roff (r.rowIdx h + 1) - P.roff (r.rowIdx h) ≤ p.midLen

/-- The shared memory of a block of the specialised kernel: output gradient, three numbers for each of `n` neighbours, and, before compute capability 9.0, the query. -/
def addBytes (wide : Bool) (nci nco by' n : ℕ) : ℕ := (4 * nco + 12 * n + if wide then 0 else 4 * nci) * by'

/-- The bytes the device is asked for, once for both launches. -/
def askedBytes (wide : Bool) (p : Params) : ℕ :=
  max (addBytes wide p.nci p.nco (if p.nci ≤ 512 then 2 else 1) (divUp p.maxLen (addCtaPerRow p.maxLen))) (addBytes wide p.nci p.nco (if p.nci ≤ 512 then 2 else 1) p.midLen)

/-- The same for a launch that takes `dyn` bytes after `top` bytes have been asked for: with at most 48 KiB asked for, what it takes has to fit into 48 KiB; with more,
what was asked for has to fit into the device's limit. -/
def AcceptsTop (limit gx gy gz dyn top static : ℕ) : Prop :=
  0 < gx ∧ gx < 2 ^ 31 ∧ 0 < gy ∧ gy < 2 ^ 16 ∧ 0 < gz ∧ gz < 2 ^ 16 ∧ if top ≤ 49152 then dyn + static ≤ 49152 else top + static ≤ limit

/-- All launches of a pass are accepted; `bdimxOf` is the number of threads of a group. -/
structure AAccepted (r : ARun) (p : Params) (B : ℕ) : Prop where
  generic : 8192 < p.nci → Accepts r.limit (divUp (p.nlatOut * p.nlonOut) 2) B 1 (4 * (p.nci + p.nco) * 2) 0
  long : p.nci ≤ 8192 → 0 < p.nLong → AcceptsTop r.limit (divUp (p.nLong * p.nlonOut) (if p.nci ≤ 512 then 2 else 1)) (addCtaPerRow p.maxLen) B
    (addBytes r.wide p.nci p.nco (if p.nci ≤ 512 then 2 else 1) (divUp p.maxLen (addCtaPerRow p.maxLen))) (askedBytes r.wide p) (bStaticShared (bdimxOf p.nci))
  short : p.nci ≤ 8192 → p.nLong < p.nlatOut → AcceptsTop r.limit (divUp ((p.nlatOut - p.nLong) * p.nlonOut) (if p.nci ≤ 512 then 2 else 1)) 1 B
    (addBytes r.wide p.nci p.nco (if p.nci ≤ 512 then 2 else 1) p.midLen) (askedBytes r.wide p) (bStaticShared (bdimxOf p.nci))

/-- Every neighbour whose longitude is in the block has its row in the block, or is just before its first row. -/
def HaloOk (p : Params) (P : Pattern) : Prop :=
  ∀ ho < p.nlatOut, ∀ wo < p.nlonOut, ∀ u ∈ gatherNbrs P p.nlonIn p.pscale ho wo, p.lonLo ≤ u.2 → u.2 < p.lonLo + p.nlonKx →
    p.start - 1 ≤ u.1 ∧ (u.1 : ℤ) < p.start + p.nlatHalo

/-- A run of a pass in which nothing goes wrong outside the program. -/
structure AGoodRun (r : ARun) (p : Params) (B : ℕ) (P : Pattern) : Prop where
  run : ARunOk r (bGroupSize p.nci) p.nlatOut
  rows : ARowsOk r p P
  accepted : AAccepted r p B
  halo : p.nci ≤ 8192 → HaloOk p P

/-! ### What a call means -/

/-- The neighbours of an output point that are the cell `(hi, wi)` of the block; the pattern may list it more than once. -/
def nbrsCell (p : Params) (P : Pattern) (ho wo hi wi : ℕ) : List (ℕ × ℕ) :=
  (gatherNbrs P p.nlonIn p.pscale ho wo).filter fun u => (u.1 : ℤ) = p.start + hi ∧ u.2 = p.lonLo + wi

/-- Product of the query of an output point and the key of a cell. -/
noncomputable def dotQK (p : Params) (x : BIn) (b ho wo hi wi : ℕ) : ℝ :=
  ∑ c ∈ range p.nci, entryOf p.nlatOut p.nlonOut p.nci x.q b ho wo c * entryOf p.nlatHalo p.nlonKx p.nci x.k b hi wi c

/-- Product of the output gradient of a point and the value of a cell. -/
noncomputable def dotGV (p : Params) (x : BIn) (b ho wo hi wi : ℕ) : ℝ :=
  ∑ c ∈ range p.nco, entryOf p.nlatOut p.nlonOut p.nco x.dy b ho wo c * entryOf p.nlatHalo p.nlonKx p.nco x.v b hi wi c

/-- The softmax weight that an output point gives to a neighbour in the cell `(hi, wi)`, with maximum `M`, sum `alpha` and quadrature weight `w`. -/
noncomputable def softWeight (p : Params) (x : BIn) (st : BStats) (M : ℝ) (b ho wo hi wi : ℕ) (w : ℝ) : ℝ :=
  Real.exp (dotQK p x b ho wo hi wi - M) * w / st.alpha ((b * p.nlatOut + ho) * p.nlonOut + wo)

/-- What a call does: every cell of the block receives the gradients from the output points that list it, and nothing else changes. `M` are the maxima of the points. -/
def Pass2Done (p : Params) (B : ℕ) (x : BIn) (st : BStats) (M : ℕ → ℕ → ℕ → ℝ) (g g' : BGrads) : Prop :=
  (∀ b < B, ∀ hi < p.nlatHalo, ∀ wi < p.nlonKx,
    (∀ c < p.nci, entryOf p.nlatHalo p.nlonKx p.nci g'.dk b hi wi c = entryOf p.nlatHalo p.nlonKx p.nci g.dk b hi wi c +
      ∑ ho ∈ range p.nlatOut, ∑ wo ∈ range p.nlonOut, ((nbrsCell p x.P ho wo hi wi).map fun u =>
        (dotGV p x b ho wo hi wi - st.inorm ((b * p.nlatOut + ho) * p.nlonOut + wo)) * softWeight p x st (M b ho wo) b ho wo hi wi (x.w u.1) *
          entryOf p.nlatOut p.nlonOut p.nci x.q b ho wo c).sum) ∧
    ∀ c < p.nco, entryOf p.nlatHalo p.nlonKx p.nco g'.dv b hi wi c = entryOf p.nlatHalo p.nlonKx p.nco g.dv b hi wi c +
      ∑ ho ∈ range p.nlatOut, ∑ wo ∈ range p.nlonOut, ((nbrsCell p x.P ho wo hi wi).map fun u =>
        softWeight p x st (M b ho wo) b ho wo hi wi (x.w u.1) * entryOf p.nlatOut p.nlonOut p.nco x.dy b ho wo c).sum) ∧
  (∀ i, B * p.nlatHalo * p.nlonKx * p.nci ≤ i → g'.dk i = g.dk i) ∧ ∀ i, B * p.nlatHalo * p.nlonKx * p.nco ≤ i → g'.dv i = g.dv i

end Verif.RingGpu
