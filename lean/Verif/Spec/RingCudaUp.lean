import Verif.Model.RingCudaUp
import Verif.Spec.RingCuda
/-!
Specification of the steps of distributed neighbourhood attention in the upsampling direction. Here the rows of the pattern belong to the cells of the block of keys and
values, and a row lists output points.
-/
namespace Verif.Spec.RingStep
open Verif.Spec.Attn Finset

/-- The output point that entry `z` of the pattern stands for at input longitude `wi`: its longitude is shifted by `pscaleOut` for every input longitude, around the circle. -/
def rotated (P : Pattern) (nlonOutG pscaleOut wi z : ℕ) : ℕ × ℕ := (P.col z / nlonOutG, (P.col z % nlonOutG + pscaleOut * wi) % nlonOutG)

/-- The cells of a block (`H` rows, `W` longitudes from `lonLo` on) whose rows list the output point `(ho, wo)`, once for every time they do. -/
def nbrsUp (P : Pattern) (nlonOutG pscaleOut lonLo H W ho wo : ℕ) : List (ℕ × ℕ) :=
  (List.range H).flatMap fun hi => (List.range W).flatMap fun wi =>
    ((P.row hi).filter fun z => rotated P nlonOutG pscaleOut (lonLo + wi) z = (ho, wo)).map fun _ => (hi, wi)

/-- The output points that the row of cell `(hi, wi)` lists and that lie in the first `nlonOut` longitudes. -/
def targetsUp (P : Pattern) (nlonOutG pscaleOut lonLo nlonOut hi wi : ℕ) : List (ℕ × ℕ) :=
  ((P.row hi).map fun z => rotated P nlonOutG pscaleOut (lonLo + wi) z).filter fun x => x.2 < nlonOut

end Verif.Spec.RingStep

namespace Verif.RingGpuUp
open Verif Verif.Attn Verif.Spec.Attn Verif.AttnGpu Verif.Ring Verif.RingGpu Verif.Spec.RingStep Finset

/-- Everything happens, once, in some order. -/
structure URunOk (r : URun) : Prop where
  perm : ∀ n L, (r.perm n L).Perm L
  permM : ∀ n L, (r.permM n L).Perm L

/-- The columns of the rows are points of the output rows of the rank; shifts reach around the circle at most once. -/
structure UFits (p : UParams) (P : Pattern) : Prop where
  cols : P.Fits p.nlatHalo (p.nlatOut * p.nlonOutG)
  shift : p.pscaleOut * (p.lonLo + p.nlonKx) ≤ p.nlonOutG
  part : p.nlonOut ≤ p.nlonOutG

/-- The launches of a forward step are accepted. -/
structure FwdLaunch (p : UParams) (B : ℕ) : Prop where
  max : launchOk (divUp (p.nlatHalo * p.nlonKx) 2) B (4 * p.nci * 2)
  rescale : launchOk (divUp (p.nlatOut * p.nlonOut) 2) B 0
  add : launchOk (divUp (p.nlatHalo * p.nlonKx) 2) B (4 * (p.nci + p.nco) * 2)

/-- The score of cell `x` at an output point. -/
def dotQ (p : UParams) (k q : ℕ → ℝ) (b ho wo : ℕ) (x : ℕ × ℕ) : ℝ :=
  ∑ c ∈ range p.nci, entryOf p.nlatHalo p.nlonKx p.nci k b x.1 x.2 c * entryOf p.nlatOut p.nlonOut p.nci q b ho wo c

/-- The value of cell `x` times the gradient at an output point. -/
def dotV (p : UParams) (v dy : ℕ → ℝ) (b ho wo : ℕ) (x : ℕ × ℕ) : ℝ :=
  ∑ c ∈ range p.nco, entryOf p.nlatHalo p.nlonKx p.nco v b x.1 x.2 c * entryOf p.nlatOut p.nlonOut p.nco dy b ho wo c

/-- A call of the forward operator, apart from the query and the accumulators. -/
structure UCall where
  r : URun
  p : UParams
  k : ℕ → ℝ
  v : ℕ → ℝ

/-- Calls one after the other. -/
noncomputable def upSteps (B : ℕ) (w : ℤ → ℝ) (P : Pattern) (q : ℕ → ℝ) (calls : List UCall) (bufs : RingGpu.Bufs) : Except PyErr RingGpu.Bufs :=
  calls.foldlM (fun bufs c => upStep c.r c.p B w P c.k c.v q bufs) bufs

end Verif.RingGpuUp
