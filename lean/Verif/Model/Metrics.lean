import Verif.Model.Losses
/-!
Model of torch_harmonics/examples/metrics.py.
-/
namespace Verif.Metric
open Verif Verif.Dist Verif.Loss Finset

/-- `torch.sum(mask * quad_weights)` over the points selected by a boolean tensor: `quad_weights[sel]` lists the weights of the
selected points in row-major order, `m[sel]` the flags of the same points. -/
noncomputable def selSum (q : Mat ℝ) (m sel : ℕ → ℕ → Bool) : ℝ :=
  (((List.range q.d0).flatMap fun i => ((List.range q.d1).filter fun j => sel i j).map fun j =>
    (if m i j then (1 : ℝ) else 0) * q.val i j)).sum

/-- `torch.where(ignore, -1, x)`, metrics.py 79-82. -/
def masked (ignore : Option ℤ) (target x : Labels) : Labels := fun b i j =>
  match ignore with
  | none => x b i j
  | some g => if target b i j = g then -1 else x b i j

/-- The four counts of one class in one batch item. -/
structure Counts where
  tp : ℝ
  fp : ℝ
  fn : ℝ
  tn : ℝ

/-- The body of the loops of `_get_stats_multiclass`, metrics.py 92-111, for item `i` and class `c`. -/
noncomputable def counts (q : Mat ℝ) (output target : Labels) (b c : ℕ) : Counts :=
  let matched : ℕ → ℕ → Bool := fun i j => target b i j = output b i j
  let notMatched : ℕ → ℕ → Bool := fun i j => target b i j ≠ output b i j
  let isT : ℕ → ℕ → Bool := fun i j => target b i j = c
  let isO : ℕ → ℕ → Bool := fun i j => output b i j = c
  let tp := selSum q matched isT
  let fp := selSum q notMatched isO
  let fn := selSum q notMatched isT
  ⟨tp, fp, fn, (∑ i ∈ range q.d0, ∑ j ∈ range q.d1, q.val i j) - tp - fp - fn⟩

/-- `_get_stats_multiclass`, metrics.py 44-111: output and target of shape `(B, H, W)`. Selecting from the weights with a boolean
tensor of another shape raises an IndexError (in the loop, so only if it is entered). -/
noncomputable def getStats (B H W : ℕ) (output target : Labels) (C : ℕ) (q : Mat ℝ) (ignore : Option ℤ) :
    Except PyErr (ℕ → ℕ → Counts) :=
  if 0 < B ∧ 0 < C ∧ ¬ (H = q.d0 ∧ W = q.d1) then .error .indexError
  else .ok fun b c => counts q (masked ignore target output) (masked ignore target target) b c

/-- `torch.argmax` (external): the first index of the largest of `n >= 1` numbers. -/
noncomputable def argmax (n : ℕ) (x : ℕ → ℝ) : ℕ :=
  (List.range n).foldl (fun best i => open Classical in if x best < x i then i else best) 0

/-- `_predict_classes`, metrics.py 114-128, at one point: argmax over no classes raises. -/
noncomputable def predictClasses (C : ℕ) (logits : Logits) : Except PyErr Labels :=
  if C = 0 then .error .indexError
  else .ok fun b i j => argmax C (softmax C fun c => logits b c i j)

/-- The object built by `BaseMetricS2.__init__`, metrics.py 155-168. -/
structure Base where
  q : Mat ℝ
  weight : Option (ℕ → ℝ)
  ignore : Option ℤ
  mode : Mode

/-- `BaseMetricS2.__init__`, metrics.py 155-168. -/
noncomputable def Base.init (E : QEnv) (nlat nlon : ℕ) (grid : String) (weight : Option (ℕ → ℝ)) (ignore : Option ℤ) (mode : Mode) :
    Except PyErr Base := do
  let q ← quadratureWeightsTiled E nlat nlon grid true
  return ⟨q, weight, ignore, mode⟩

/-- The micro average of one of the four counts, metrics.py 179-191. `B`, `C` positive. -/
noncomputable def microAvg (w : Option (ℕ → ℝ)) (B C : ℕ) (x : ℕ → ℕ → ℝ) : ℝ :=
  match w with
  | some w => ∑ b ∈ range B, ∑ c ∈ range C, x b c * w c
  | none => (∑ b ∈ range B, ∑ c ∈ range C, x b c) / (B * C)

/-- The average over the batch, metrics.py 192-196. -/
noncomputable def batchAvg (B : ℕ) (x : ℕ → ℕ → ℝ) (c : ℕ) : ℝ := (∑ b ∈ range B, x b c) / B

/-- A result: one number, or one number per class (for a mode that is neither micro nor macro). -/
inductive Score where
  | scalar (x : Flt)
  | perClass (x : ℕ → Flt)

/-- `BaseMetricS2._forward` followed by a score formula and the macro averages: metrics.py 170-198 with 227-244 (IoU) or 273-290
(accuracy). For `B >= 1`. -/
noncomputable def forward (M : Base) (formula : Counts → Flt) (B C H W : ℕ) (pred : Logits) (truth : Labels) : Except PyErr Score := do
  let cls ← predictClasses C pred
  let s ← getStats B H W cls truth C M.q M.ignore
  match M.mode with
  | .micro => return .scalar (formula ⟨microAvg M.weight B C fun b c => (s b c).tp, microAvg M.weight B C fun b c => (s b c).fp,
      microAvg M.weight B C fun b c => (s b c).fn, microAvg M.weight B C fun b c => (s b c).tn⟩)
  | m =>
    let score : ℕ → Flt := fun c => formula ⟨batchAvg B (fun b c => (s b c).tp) c, batchAvg B (fun b c => (s b c).fp) c,
      batchAvg B (fun b c => (s b c).fn) c, batchAvg B (fun b c => (s b c).tn) c⟩
    if m = .macro then return .scalar (classAvgF M.weight C fun c => (score c).nanToZero) else return .perClass score

/-- metrics.py 232: `tp / (tp + fp + fn)`. -/
noncomputable def iouFormula (x : Counts) : Flt := .div x.tp (x.tp + x.fp + x.fn)
/-- metrics.py 278: `(tp + tn) / (tp + fp + fn + tn)`. -/
noncomputable def accuracyFormula (x : Counts) : Flt := .div (x.tp + x.tn) (x.tp + x.fp + x.fn + x.tn)

/-- `IntersectionOverUnionS2.forward`, metrics.py 227-244. -/
noncomputable def iou (M : Base) (B C H W : ℕ) (pred : Logits) (truth : Labels) : Except PyErr Score :=
  forward M iouFormula B C H W pred truth
/-- `AccuracyS2.forward`, metrics.py 273-290. -/
noncomputable def accuracy (M : Base) (B C H W : ℕ) (pred : Logits) (truth : Labels) : Except PyErr Score :=
  forward M accuracyFormula B C H W pred truth

end Verif.Metric
