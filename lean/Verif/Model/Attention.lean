import Verif.Model.Basic
import Verif.Spec.Attention
/-!
Model of the neighbourhood attention kernels: the reference in `attention/kernels_torch/attention_torch.py` and the CPU kernels in
`attention/optimized/kernels_cpu/`.

Floats are real numbers (the promotions to float32 are identities). A tensor `[B, C, H, W]` is a function of four indices; the
CPU kernels use `[B, H, W, C]`. The reference performs every operation for all batches and channels at once (`x[:, :, h, w]`);
the model writes the same operation for one batch index `b` and one channel index `c`. `-numeric_limits<float>::max()` is the
parameter `fmin`; what memory holds before it is written is the parameter `mem`; the order in which OpenMP threads finish
independent iterations is the parameter `order`.
-/
namespace Verif.Attn
open Verif Verif.Spec.Attn Finset

/-- The integer arguments of the kernels and the extents of their tensors: `k : [B, Ck, nlatIn, nlonIn]`,
`v : [B, Cv, nlatIn, nlonIn]`, `q : [B, Ck, nlatOut, nlonOut]`. -/
structure Dims where
  B : ℕ
  Ck : ℕ
  Cv : ℕ
  nlatIn : ℕ
  nlonIn : ℕ
  nlatOut : ℕ
  nlonOut : ℕ

/-- The loop variables of one stored neighbour, attention_torch.py 100-104: `(hi, wip)`. -/
def nbrOf (P : Pattern) (nlonIn pscale wo z : ℕ) : ℕ × ℕ :=
  (P.col z / nlonIn, (P.col z % nlonIn + pscale * wo) % nlonIn)

/-- `torch.sum(qy[:, :, ho, wo] * kx[:, :, hi, wip], dim=1)`, attention_torch.py 107-109. -/
def dotC (C : ℕ) (x y : T4) (b h w h' w' : ℕ) : ℝ := ∑ c ∈ range C, x b c h w * y b c h' w'

/-- The running values of the one-pass softmax, attention_torch.py 94-95 and `y[:, :, ho, wo]`. -/
structure Online where
  alphaSum : ℝ
  qdotkMax : ℝ
  y : ℕ → ℝ

/-- One neighbour, attention_torch.py 111-121. -/
noncomputable def onlineStep (s : Online) (qdotk quad : ℝ) (v : ℕ → ℝ) : Online :=
  let m := max s.qdotkMax qdotk
  let alpha := Real.exp (qdotk - m) * quad
  ⟨alpha + s.alphaSum * Real.exp (s.qdotkMax - m), m,
    fun c => s.y c * Real.exp (s.qdotkMax - m) + alpha * v c⟩

/-- The loop over the neighbours of one output point, attention_torch.py 94-121; both running values start at 0. -/
noncomputable def refCell (d : Dims) (w : ℕ → ℝ) (P : Pattern) (pscale : ℕ) (k v q : T4) (b ho wo : ℕ) : Online :=
  (P.row ho).foldl (fun s z =>
    let n := nbrOf P d.nlonIn pscale wo z
    onlineStep s (dotC d.Ck q k b ho wo n.1 n.2) (w n.1) (fun c => v b c n.1 n.2)) ⟨0, 0, fun _ => 0⟩

/-- The check that opens every reference kernel of the gather direction, attention_torch.py 79-80. -/
def gatherScale (d : Dims) : Except PyErr ℕ :=
  if d.nlonOut = 0 then .error .zeroDivision
  else if ¬ d.nlonIn % d.nlonOut = 0 then .error .runtimeError
  else .ok (d.nlonIn / d.nlonOut)

/-- `_neighborhood_s2_attention_fwd_torch`, attention_torch.py 74-125. The loops over `ho`, `wo` write every cell once; the
result is given cell by cell. -/
noncomputable def refForward (d : Dims) (w : ℕ → ℝ) (P : Pattern) (k v q : T4) : Except PyErr T4 :=
  match gatherScale d with
  | .error e => .error e
  | .ok pscale => .ok fun b c ho wo =>
      let s := refCell d w P pscale k v q b ho wo
      s.y c / s.alphaSum

/-- `torch.max(x, dim=1)` over a non-empty row. -/
noncomputable def maxOver (f : ℕ → ℝ) : List ℕ → ℝ
  | [] => 0
  | z :: L => L.foldl (fun m z => max m (f z)) (f z)

/-- `torch.max` raises on an empty row (attention_torch.py 183, 265, 366). -/
def hasEmptyRow (d : Dims) (P : Pattern) : Prop := ∃ ho < d.nlatOut, P.row ho = []

/-- The numbers `alpha_nz[b, idz - zstart]`, attention_torch.py 169-194, 251-276, 350-380. -/
noncomputable def alphaNz (d : Dims) (w : ℕ → ℝ) (P : Pattern) (pscale : ℕ) (k q : T4) (b ho wo z : ℕ) : ℝ :=
  let qdotk := fun z => let n := nbrOf P d.nlonIn pscale wo z; dotC d.Ck q k b ho wo n.1 n.2
  Real.exp (qdotk z - maxOver qdotk (P.row ho)) * w (nbrOf P d.nlonIn pscale wo z).1

/-- An accumulator filled by `+=` over a row, e.g. attention_torch.py 194, 277, 283, 381-386. -/
def accum (L : List ℕ) (f : ℕ → ℝ) : ℝ := L.foldl (fun a z => a + f z) 0

/-- `x[h, w] += a` on one plane. -/
def addAt (x : ℕ × ℕ → ℝ) (p : ℕ × ℕ) (a : ℝ) : ℕ × ℕ → ℝ := fun i => if i = p then x i + a else x i

/-- The two outer loops `for ho ..: for wo ..:` around an accumulation over the neighbours, attention_torch.py 158-204. -/
def scatterLoop (H W : ℕ) (row : ℕ → List ℕ) (at_ : ℕ → ℕ → ℕ → ℕ × ℕ) (val : ℕ → ℕ → ℕ → ℝ) (x : ℕ × ℕ → ℝ) : ℕ × ℕ → ℝ :=
  (List.range H).foldl (fun x ho => (List.range W).foldl (fun x wo =>
    (row ho).foldl (fun x z => addAt x (at_ ho wo z) (val ho wo z)) x) x) x

open Classical in
/-- `_neighborhood_s2_attention_bwd_dv_torch`, attention_torch.py 130-206. -/
noncomputable def refDv (d : Dims) (w : ℕ → ℝ) (P : Pattern) (k _v q dy : T4) : Except PyErr T4 :=
  match gatherScale d with
  | .error e => .error e
  | .ok pscale =>
    if hasEmptyRow d P then .error .indexError
    else .ok fun b c hi wi =>
      scatterLoop d.nlatOut d.nlonOut P.row (fun _ wo z => nbrOf P d.nlonIn pscale wo z)
        (fun ho wo z =>
          let alpha := alphaNz d w P pscale k q b ho wo
          alpha z / accum (P.row ho) alpha * dy b c ho wo)
        (fun _ => 0) (hi, wi)

open Classical in
/-- `_neighborhood_s2_attention_bwd_dk_torch`, attention_torch.py 211-301. -/
noncomputable def refDk (d : Dims) (w : ℕ → ℝ) (P : Pattern) (k v q dy : T4) : Except PyErr T4 :=
  match gatherScale d with
  | .error e => .error e
  | .ok pscale =>
    if hasEmptyRow d P then .error .indexError
    else .ok fun b c hi wi =>
      scatterLoop d.nlatOut d.nlonOut P.row (fun _ wo z => nbrOf P d.nlonIn pscale wo z)
        (fun ho wo z =>
          let alpha := alphaNz d w P pscale k q b ho wo
          let gdotv := fun z => let n := nbrOf P d.nlonIn pscale wo z; dotC d.Cv dy v b ho wo n.1 n.2
          let alphaSum := accum (P.row ho) alpha
          let integral := accum (P.row ho) (fun z => alpha z * gdotv z) / alphaSum
          q b c ho wo * (alpha z / alphaSum) * (gdotv z - integral))
        (fun _ => 0) (hi, wi)

open Classical in
/-- `_neighborhood_s2_attention_bwd_dq_torch`, attention_torch.py 306-390. -/
noncomputable def refDq (d : Dims) (w : ℕ → ℝ) (P : Pattern) (k v q dy : T4) : Except PyErr T4 :=
  match gatherScale d with
  | .error e => .error e
  | .ok pscale =>
    if hasEmptyRow d P then .error .indexError
    else .ok fun b c ho wo =>
      let alpha := alphaNz d w P pscale k q b ho wo
      let kn := fun z => let n := nbrOf P d.nlonIn pscale wo z; k b c n.1 n.2
      let gdotv := fun z => let n := nbrOf P d.nlonIn pscale wo z; dotC d.Cv dy v b ho wo n.1 n.2
      let alphaSum := accum (P.row ho) alpha
      let alphaK := accum (P.row ho) (fun z => alpha z * kn z)
      let alphaVw := accum (P.row ho) (fun z => alpha z * gdotv z)
      let alphaKvw := accum (P.row ho) (fun z => alpha z * kn z * gdotv z)
      (alphaKvw * alphaSum - alphaVw * alphaK) / (alphaSum * alphaSum)

/-! ### Upsampling reference -/

/-- The check that opens every reference kernel of the upsampling direction, attention_torch.py 592-593. -/
def scatterScale (d : Dims) : Except PyErr ℕ :=
  if d.nlonIn = 0 then .error .zeroDivision
  else if ¬ d.nlonOut % d.nlonIn = 0 then .error .runtimeError
  else .ok (d.nlonOut / d.nlonIn)

/-- The output cell of a stored entry, attention_torch.py 611-614: `(ho, wop)`. -/
def outOf (P : Pattern) (nlonOut pscaleOut wi z : ℕ) : ℕ × ℕ :=
  (P.col z / nlonOut, (P.col z % nlonOut + pscaleOut * wi) % nlonOut)

/-- The three nested loops `for hi: for wi: for idz:`, attention_torch.py 606-610. -/
def upLoop {σ : Type} (d : Dims) (P : Pattern) (body : σ → ℕ → ℕ → ℕ → σ) (s : σ) : σ :=
  (List.range d.nlatIn).foldl (fun s hi => (List.range d.nlonIn).foldl (fun s wi =>
    (P.row hi).foldl (fun s z => body s hi wi z) s) s) s

/-- Pass 1, attention_torch.py 601-617, for one batch index; minus infinity is `⊥`. -/
noncomputable def upMax (d : Dims) (P : Pattern) (ps : ℕ) (k q : T4) (b : ℕ) : ℕ × ℕ → WithBot ℝ :=
  upLoop d P (fun mx hi wi z =>
    let o := outOf P d.nlonOut ps wi z
    Function.update mx o (max (mx o) ((dotC d.Ck q k b o.1 o.2 hi wi : ℝ) : WithBot ℝ))) (fun _ => ⊥)

/-- `alpha = exp(qdotk - qdotk_max[ho, wop]) * quad_weights[hi]`, attention_torch.py 630-631. The maximum read here was written in
pass 1 (`upMax_isSome`), so the default 0 is never used. -/
noncomputable def upAlpha (d : Dims) (w : ℕ → ℝ) (P : Pattern) (ps : ℕ) (k q : T4) (b hi wi z : ℕ) : ℝ :=
  let o := outOf P d.nlonOut ps wi z
  Real.exp (dotC d.Ck q k b o.1 o.2 hi wi - (upMax d P ps k q b o).unbotD 0) * w hi

/-- An accumulation into the output cells, `x[:, ho, wop] += f`, e.g. attention_torch.py 632-633. -/
def upAccum (d : Dims) (P : Pattern) (ps : ℕ) (f : ℕ → ℕ → ℕ → ℝ) : ℕ × ℕ → ℝ :=
  upLoop d P (fun x hi wi z => addAt x (outOf P d.nlonOut ps wi z) (f hi wi z)) (fun _ => 0)

/-- `_neighborhood_s2_attention_upsample_fwd_torch`, attention_torch.py 582-637. -/
noncomputable def refUpForward (d : Dims) (w : ℕ → ℝ) (P : Pattern) (k v q : T4) : Except PyErr T4 :=
  match scatterScale d with
  | .error e => .error e
  | .ok ps => .ok fun b c ho wo =>
      upAccum d P ps (fun hi wi z => upAlpha d w P ps k q b hi wi z * v b c hi wi) (ho, wo)
        / upAccum d P ps (upAlpha d w P ps k q b) (ho, wo)

/-- `_neighborhood_s2_attention_upsample_bwd_dv_torch`, attention_torch.py 640-705. -/
noncomputable def refUpDv (d : Dims) (w : ℕ → ℝ) (P : Pattern) (k _v q dy : T4) : Except PyErr T4 :=
  match scatterScale d with
  | .error e => .error e
  | .ok ps => .ok fun b c hi' wi' =>
      upLoop d P (fun x hi wi z =>
        let o := outOf P d.nlonOut ps wi z
        let alphaNorm := upAlpha d w P ps k q b hi wi z / upAccum d P ps (upAlpha d w P ps k q b) o
        addAt x (hi, wi) (alphaNorm * dy b c o.1 o.2)) (fun _ => 0) (hi', wi')

/-- `_neighborhood_s2_attention_upsample_bwd_dk_torch`, attention_torch.py 708-781. -/
noncomputable def refUpDk (d : Dims) (w : ℕ → ℝ) (P : Pattern) (k v q dy : T4) : Except PyErr T4 :=
  match scatterScale d with
  | .error e => .error e
  | .ok ps => .ok fun b c hi' wi' =>
      let alpha := upAlpha d w P ps k q b
      let gdotv := fun hi wi z => let o := outOf P d.nlonOut ps wi z; dotC d.Cv dy v b o.1 o.2 hi wi
      let alphaSum := upAccum d P ps alpha
      let integral := fun o => upAccum d P ps (fun hi wi z => alpha hi wi z * gdotv hi wi z) o / alphaSum o
      upLoop d P (fun x hi wi z =>
        let o := outOf P d.nlonOut ps wi z
        let alphaNorm := alpha hi wi z / alphaSum o
        addAt x (hi, wi) (q b c o.1 o.2 * (alphaNorm * (gdotv hi wi z - integral o)))) (fun _ => 0) (hi', wi')

/-- `_neighborhood_s2_attention_upsample_bwd_dq_torch`, attention_torch.py 784-849. -/
noncomputable def refUpDq (d : Dims) (w : ℕ → ℝ) (P : Pattern) (k v q dy : T4) : Except PyErr T4 :=
  match scatterScale d with
  | .error e => .error e
  | .ok ps => .ok fun b c ho wo =>
      let alpha := upAlpha d w P ps k q b
      let gdotv := fun hi wi z => let o := outOf P d.nlonOut ps wi z; dotC d.Cv dy v b o.1 o.2 hi wi
      let alphaSum := upAccum d P ps alpha (ho, wo)
      let alphaVw := upAccum d P ps (fun hi wi z => alpha hi wi z * gdotv hi wi z) (ho, wo)
      let alphaK := upAccum d P ps (fun hi wi z => alpha hi wi z * k b c hi wi) (ho, wo)
      let alphaKvw := upAccum d P ps (fun hi wi z => alpha hi wi z * gdotv hi wi z * k b c hi wi) (ho, wo)
      (alphaKvw * alphaSum - alphaVw * alphaK) / (alphaSum * alphaSum)

end Verif.Attn
