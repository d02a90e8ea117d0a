import Verif.Model.Metrics
import Verif.Spec.Metrics
import Verif.Lemmas.Flt
import Verif.Props.Quadrature
/-!
Property theorems C57: the spherical segmentation metrics.
-/
namespace Verif.Props
open Verif Verif.Dist Verif.Loss Verif.Metric Verif.Quad Finset
open Verif.Spec.Metric (area)

theorem list_sum_filter {ι : Type} (l : List ι) (p : ι → Bool) (f : ι → ℝ) :
    ((l.filter p).map f).sum = (l.map fun i => if p i then f i else 0).sum := by
  induction l with
  | nil => rfl
  | cons i l ih =>
    by_cases h : p i <;> simp [h, ih]

theorem list_sum_range (n : ℕ) (f : ℕ → ℝ) : ((List.range n).map f).sum = ∑ i ∈ range n, f i := by
  induction n with
  | zero => rfl
  | succ n ih => rw [List.range_succ, List.map_append, List.sum_append, ih, sum_range_succ]; simp

theorem list_sum_flatMap {ι : Type} (l : List ι) (f : ι → List ℝ) : (l.flatMap f).sum = (l.map fun i => (f i).sum).sum := by
  induction l with
  | nil => rfl
  | cons i l ih => simp [ih]

theorem selSum_eq (q : Mat ℝ) (m sel : ℕ → ℕ → Bool) :
    selSum q m sel = area q (fun i j => sel i j = true ∧ m i j = true) := by
  unfold selSum area
  rw [list_sum_flatMap, list_sum_range]
  refine sum_congr rfl fun i _ => ?_
  rw [list_sum_filter, list_sum_range]
  refine sum_congr rfl fun j _ => ?_
  by_cases h1 : sel i j = true <;> by_cases h2 : m i j = true <;> simp [h1, h2]

theorem area_congr (q : Mat ℝ) {P Q : ℕ → ℕ → Prop} (h : ∀ i < q.d0, ∀ j < q.d1, (P i j ↔ Q i j)) : area q P = area q Q := by
  classical
  unfold area
  refine sum_congr rfl fun i hi => sum_congr rfl fun j hj => ?_
  have := h i (mem_range.1 hi) j (mem_range.1 hj)
  simp only [this]

theorem area_nonneg (q : Mat ℝ) (hq : ∀ i < q.d0, ∀ j < q.d1, 0 ≤ q.val i j) (P : ℕ → ℕ → Prop) : 0 ≤ area q P := by
  classical
  unfold area
  refine sum_nonneg fun i hi => sum_nonneg fun j hj => ?_
  split
  · exact hq i (mem_range.1 hi) j (mem_range.1 hj)
  · exact le_rfl

/-- The point is left out of the evaluation. -/
def Ignored (ignore : Option ℤ) (target : Labels) (b i j : ℕ) : Prop := ignore = some (target b i j)

theorem masked_eq_iff (ignore : Option ℤ) (target x : Labels) (b c i j : ℕ) :
    masked ignore target x b i j = c ↔ ¬ Ignored ignore target b i j ∧ x b i j = c := by
  unfold masked Ignored
  cases ignore with
  | none => simp
  | some g =>
    by_cases h : target b i j = g
    · simp [h]
    · simp only [h, if_false, Option.some.injEq, Ne.symm h, not_false_eq_true, true_and]

/-- C57. The four counts of class `c` are the areas of the four sets that their names say; ignored points are true negatives of every
class. No assumption on the labels. -/
theorem C57_counts (B H W C : ℕ) (output target : Labels) (q : Mat ℝ) (ignore : Option ℤ) (s : ℕ → ℕ → Counts)
    (hs : getStats B H W output target C q ignore = .ok s) (b c : ℕ) :
    (s b c).tp = area q (fun i j => ¬ Ignored ignore target b i j ∧ target b i j = c ∧ output b i j = c) ∧
    (s b c).fp = area q (fun i j => ¬ Ignored ignore target b i j ∧ target b i j ≠ c ∧ output b i j = c) ∧
    (s b c).fn = area q (fun i j => ¬ Ignored ignore target b i j ∧ target b i j = c ∧ output b i j ≠ c) ∧
    (s b c).tn = area q (fun i j => Ignored ignore target b i j ∨ (target b i j ≠ c ∧ output b i j ≠ c)) := by
  unfold getStats at hs
  split at hs
  · cases hs
  · cases hs
    have key : ∀ i j, (masked ignore target target b i j = c ↔ _) ∧ (masked ignore target output b i j = c ↔ _) := fun i j =>
      ⟨masked_eq_iff ignore target target b c i j, masked_eq_iff ignore target output b c i j⟩
    have h1 : selSum q (fun i j => decide (masked ignore target target b i j = masked ignore target output b i j))
        (fun i j => decide (masked ignore target target b i j = c)) =
        area q (fun i j => ¬ Ignored ignore target b i j ∧ target b i j = c ∧ output b i j = c) := by
      rw [selSum_eq]
      refine area_congr q fun i _ j _ => ?_
      have k1 := (key i j).1
      have k2 := (key i j).2
      simp only [decide_eq_true_eq]
      constructor
      · rintro ⟨h1, h2⟩
        have h3 := k1.1 h1
        exact ⟨h3.1, h3.2, (k2.1 (h2 ▸ h1)).2⟩
      · rintro ⟨h1, h2, h3⟩
        exact ⟨k1.2 ⟨h1, h2⟩, (k1.2 ⟨h1, h2⟩).trans (k2.2 ⟨h1, h3⟩).symm⟩
    have h2 : selSum q (fun i j => decide (masked ignore target target b i j ≠ masked ignore target output b i j))
        (fun i j => decide (masked ignore target output b i j = c)) =
        area q (fun i j => ¬ Ignored ignore target b i j ∧ target b i j ≠ c ∧ output b i j = c) := by
      rw [selSum_eq]
      refine area_congr q fun i _ j _ => ?_
      have k1 := (key i j).1
      have k2 := (key i j).2
      simp only [decide_eq_true_eq]
      constructor
      · rintro ⟨h1, h2⟩
        have h3 := k2.1 h1
        exact ⟨h3.1, fun h4 => h2 ((k1.2 ⟨h3.1, h4⟩).trans h1.symm), h3.2⟩
      · rintro ⟨h1, h2, h3⟩
        have h4 := k2.2 ⟨h1, h3⟩
        exact ⟨h4, fun h5 => h2 (k1.1 (h5.trans h4)).2⟩
    have h3 : selSum q (fun i j => decide (masked ignore target target b i j ≠ masked ignore target output b i j))
        (fun i j => decide (masked ignore target target b i j = c)) =
        area q (fun i j => ¬ Ignored ignore target b i j ∧ target b i j = c ∧ output b i j ≠ c) := by
      rw [selSum_eq]
      refine area_congr q fun i _ j _ => ?_
      have k1 := (key i j).1
      have k2 := (key i j).2
      simp only [decide_eq_true_eq]
      constructor
      · rintro ⟨h1, h2⟩
        have h3 := k1.1 h1
        exact ⟨h3.1, h3.2, fun h4 => h2 (h1.trans (k2.2 ⟨h3.1, h4⟩).symm)⟩
      · rintro ⟨h1, h2, h3⟩
        have h4 := k1.2 ⟨h1, h2⟩
        exact ⟨h4, fun h5 => h3 (k2.1 (h5.symm.trans h4)).2⟩
    refine ⟨h1, h2, h3, ?_⟩
    show (∑ i ∈ range q.d0, ∑ j ∈ range q.d1, q.val i j) - selSum q _ _ - selSum q _ _ - selSum q _ _ = _
    rw [h1, h2, h3]
    classical
    unfold area
    rw [← sum_sub_distrib, ← sum_sub_distrib, ← sum_sub_distrib]
    refine sum_congr rfl fun i _ => ?_
    rw [← sum_sub_distrib, ← sum_sub_distrib, ← sum_sub_distrib]
    refine sum_congr rfl fun j _ => ?_
    by_cases a : Ignored ignore target b i j <;> by_cases t : target b i j = c <;> by_cases o : output b i j = c <;>
      simp [a, t, o]

/-- C57. Counts are non-negative and add up to the total area. -/
theorem C57_nonneg_total (B H W C : ℕ) (output target : Labels) (q : Mat ℝ) (ignore : Option ℤ) (s : ℕ → ℕ → Counts)
    (hs : getStats B H W output target C q ignore = .ok s) (hq : ∀ i < q.d0, ∀ j < q.d1, 0 ≤ q.val i j) (b c : ℕ) :
    0 ≤ (s b c).tp ∧ 0 ≤ (s b c).fp ∧ 0 ≤ (s b c).fn ∧ 0 ≤ (s b c).tn ∧
      (s b c).tp + (s b c).fp + (s b c).fn + (s b c).tn = area q (fun _ _ => True) := by
  obtain ⟨h1, h2, h3, h4⟩ := C57_counts B H W C output target q ignore s hs b c
  refine ⟨h1 ▸ area_nonneg q hq _, h2 ▸ area_nonneg q hq _, h3 ▸ area_nonneg q hq _, h4 ▸ area_nonneg q hq _, ?_⟩
  rw [h1, h2, h3, h4]
  classical
  unfold area
  rw [← sum_add_distrib, ← sum_add_distrib, ← sum_add_distrib]
  refine sum_congr rfl fun i _ => ?_
  rw [← sum_add_distrib, ← sum_add_distrib, ← sum_add_distrib]
  refine sum_congr rfl fun j _ => ?_
  by_cases a : Ignored ignore target b i j <;> by_cases t : target b i j = c <;> by_cases o : output b i j = c <;>
    simp [a, t, o]

/-- The prediction is right at every point that is not ignored. -/
def Perfect (ignore : Option ℤ) (output target : Labels) (B H W : ℕ) : Prop :=
  ∀ b < B, ∀ i < H, ∀ j < W, ¬ Ignored ignore target b i j → output b i j = target b i j

/-- C57. A perfect prediction has no false counts. -/
theorem C57_perfect (B H W C : ℕ) (output target : Labels) (q : Mat ℝ) (ignore : Option ℤ) (s : ℕ → ℕ → Counts)
    (hs : getStats B H W output target C q ignore = .ok s) (hp : Perfect ignore output target B H W) (b c : ℕ) (hb : b < B)
    (hc : c < C) : (s b c).fp = 0 ∧ (s b c).fn = 0 := by
  obtain ⟨-, h2, h3, -⟩ := C57_counts B H W C output target q ignore s hs b c
  have hshape : H = q.d0 ∧ W = q.d1 := by
    unfold getStats at hs
    split at hs
    · cases hs
    · next h => by_contra hn; exact h ⟨by omega, by omega, hn⟩
  have hz : area q (fun _ _ => False) = 0 := by simp [area]
  rw [h2, h3, ← hz]
  constructor <;> refine area_congr q fun i hi j hj => ?_
  · have := hp b hb i (hshape.1 ▸ hi) j (hshape.2 ▸ hj)
    constructor
    · rintro ⟨h4, h5, h6⟩; exact h5 (this h4 ▸ h6)
    · exact False.elim
  · have := hp b hb i (hshape.1 ▸ hi) j (hshape.2 ▸ hj)
    constructor
    · rintro ⟨h4, h5, h6⟩; exact h6 ((this h4).trans h5)
    · exact False.elim

/-- C57. Mismatched extents raise (for a non-empty batch and at least one class). -/
theorem C57_shape_error (B H W C : ℕ) (output target : Labels) (q : Mat ℝ) (ignore : Option ℤ) (hB : 0 < B) (hC : 0 < C)
    (h : ¬ (H = q.d0 ∧ W = q.d1)) : getStats B H W output target C q ignore = .error .indexError := by
  simp [getStats, hB, hC, h]

/-! The predicted class. -/

theorem argmax_spec (n : ℕ) (hn : 0 < n) (x : ℕ → ℝ) :
    argmax n x < n ∧ (∀ i < n, x i ≤ x (argmax n x)) ∧ ∀ i < argmax n x, x i < x (argmax n x) := by
  classical
  induction n with
  | zero => omega
  | succ n ih =>
    have hstep : argmax (n + 1) x = if x (argmax n x) < x n then n else argmax n x := by
      unfold argmax
      rw [List.range_succ, List.foldl_append]
      simp only [List.foldl_cons, List.foldl_nil]
    rcases Nat.eq_zero_or_pos n with rfl | h0
    · rw [hstep]
      have h00 : argmax 0 x = 0 := rfl
      rw [h00]
      refine ⟨by simp, fun i hi => ?_, fun i hi => absurd hi (by simp)⟩
      have : i = 0 := by omega
      simp [this]
    · obtain ⟨h1, h2, h3⟩ := ih h0
      rw [hstep]
      split
      · next h =>
        refine ⟨Nat.lt_succ_self n, fun i hi => ?_, fun i hi => lt_of_le_of_lt (h2 i hi) h⟩
        rcases Nat.lt_succ_iff_lt_or_eq.1 hi with hi | rfl
        · exact (h2 i hi).trans h.le
        · exact le_rfl
      · next h =>
        refine ⟨Nat.lt_succ_of_lt h1, fun i hi => ?_, h3⟩
        rcases Nat.lt_succ_iff_lt_or_eq.1 hi with hi | rfl
        · exact h2 i hi
        · exact not_lt.1 h

/-- C57. The predicted class is a class with the largest logit, the first one if there are several; the softmax before the argmax
does not matter. -/
theorem C57_predicted_class (C : ℕ) (logits : Logits) (cls : Labels) (h : predictClasses C logits = .ok cls) (b i j : ℕ) :
    ∃ k < C, cls b i j = (k : ℤ) ∧ (∀ c < C, logits b c i j ≤ logits b k i j) ∧ ∀ c < k, logits b c i j < logits b k i j := by
  unfold predictClasses at h
  split at h
  · cases h
  · next hC =>
    cases h
    have hpos : 0 < ∑ d ∈ range C, Real.exp (logits b d i j) :=
      sum_pos (fun _ _ => Real.exp_pos _) ⟨0, mem_range.2 (Nat.pos_of_ne_zero hC)⟩
    obtain ⟨h1, h2, h3⟩ := argmax_spec C (Nat.pos_of_ne_zero hC) (softmax C fun c => logits b c i j)
    refine ⟨_, h1, rfl, fun c hc => ?_, fun c hc => ?_⟩
    · have := h2 c hc
      unfold softmax at this
      rwa [div_le_div_iff_of_pos_right hpos, Real.exp_le_exp] at this
    · have := h3 c hc
      unfold softmax at this
      rwa [div_lt_div_iff_of_pos_right hpos, Real.exp_lt_exp] at this

/-- C57. No classes, no prediction. -/
theorem C57_no_classes (logits : Logits) : predictClasses 0 logits = .error .indexError := rfl

/-! The scores. -/

/-- A number between 0 and `m`. -/
def InUnit (m : ℝ) (x : Flt) : Prop := ∃ y, x = .num y ∧ 0 ≤ y ∧ y ≤ m

/-- What the user supplies: non-negative area weights of the right extents, non-negative class weights, a non-empty batch. -/
structure MetricInputs (M : Base) (B C H W : ℕ) : Prop where
  batch : 0 < B
  classes : 0 < C
  rows : H = M.q.d0
  cols : W = M.q.d1
  area_nonneg : ∀ i < M.q.d0, ∀ j < M.q.d1, 0 ≤ M.q.val i j
  weight_nonneg : ∀ w, M.weight = some w → ∀ c < C, 0 ≤ w c

/-- The counts that the metric works with: predicted classes against truth. -/
noncomputable def metricCounts (M : Base) (C : ℕ) (pred : Logits) (truth : Labels) (b c : ℕ) : Counts :=
  counts M.q (masked M.ignore truth fun b i j => (argmax C (softmax C fun c => pred b c i j) : ℤ)) (masked M.ignore truth truth) b c

theorem stats_ok (M : Base) (B C H W : ℕ) (pred : Logits) (truth : Labels) (hI : MetricInputs M B C H W) :
    getStats B H W (fun b i j => (argmax C (softmax C fun c => pred b c i j) : ℤ)) truth C M.q M.ignore
      = .ok (metricCounts M C pred truth) := by
  unfold getStats
  rw [if_neg (by simp [hI.rows, hI.cols])]
  rfl

theorem forward_ok (M : Base) (formula : Counts → Flt) (B C H W : ℕ) (pred : Logits) (truth : Labels) (hI : MetricInputs M B C H W) :
    forward M formula B C H W pred truth =
      let s := metricCounts M C pred truth
      .ok (match M.mode with
        | .micro => .scalar (formula ⟨microAvg M.weight B C fun b c => (s b c).tp, microAvg M.weight B C fun b c => (s b c).fp,
            microAvg M.weight B C fun b c => (s b c).fn, microAvg M.weight B C fun b c => (s b c).tn⟩)
        | .macro => .scalar (classAvgF M.weight C fun c => (formula ⟨batchAvg B (fun b c => (s b c).tp) c,
            batchAvg B (fun b c => (s b c).fp) c, batchAvg B (fun b c => (s b c).fn) c, batchAvg B (fun b c => (s b c).tn) c⟩).nanToZero)
        | .other => .perClass fun c => formula ⟨batchAvg B (fun b c => (s b c).tp) c,
            batchAvg B (fun b c => (s b c).fp) c, batchAvg B (fun b c => (s b c).fn) c, batchAvg B (fun b c => (s b c).tn) c⟩) := by
  unfold forward predictClasses
  rw [if_neg (by have := hI.classes; omega)]
  show (do
    let s ← getStats B H W (fun b i j => (argmax C (softmax C fun c => pred b c i j) : ℤ)) truth C M.q M.ignore
    _) = _
  rw [stats_ok M B C H W pred truth hI]
  cases h : M.mode <;> simp [bind, Except.bind, pure, Except.pure]

theorem microAvg_nonneg (w : Option (ℕ → ℝ)) (B C : ℕ) (x : ℕ → ℕ → ℝ) (hx : ∀ b < B, ∀ c < C, 0 ≤ x b c)
    (hw : ∀ w', w = some w' → ∀ c < C, 0 ≤ w' c) : 0 ≤ microAvg w B C x := by
  cases w with
  | none =>
    refine div_nonneg (sum_nonneg fun b hb => sum_nonneg fun c hc => hx b (mem_range.1 hb) c (mem_range.1 hc)) (by positivity)
  | some w =>
    exact sum_nonneg fun b hb => sum_nonneg fun c hc =>
      mul_nonneg (hx b (mem_range.1 hb) c (mem_range.1 hc)) (hw w rfl c (mem_range.1 hc))

theorem batchAvg_nonneg (B : ℕ) (x : ℕ → ℕ → ℝ) (c : ℕ) (hx : ∀ b < B, 0 ≤ x b c) : 0 ≤ batchAvg B x c :=
  div_nonneg (sum_nonneg fun b hb => hx b (mem_range.1 hb)) (by positivity)

theorem ratio_range (x y : ℝ) (hx : 0 ≤ x) (hxy : x ≤ y) : (Flt.div x y = .nan ∧ y = 0) ∨ InUnit 1 (Flt.div x y) := by
  by_cases h : y = 0
  · left
    have : x = 0 := le_antisymm (h ▸ hxy) hx
    exact ⟨by simp [Flt.div, Flt.infOf, h, this], h⟩
  · right
    have hy : 0 < y := lt_of_le_of_ne (hx.trans hxy) (Ne.symm h)
    exact ⟨x / y, Flt.div_num x y h, div_nonneg hx hy.le, (div_le_one hy).2 hxy⟩

theorem nanToZero_range (x : Flt) (h : x = .nan ∨ InUnit 1 x) : InUnit 1 x.nanToZero := by
  rcases h with rfl | ⟨y, rfl, h⟩
  · exact ⟨0, rfl, le_rfl, zero_le_one⟩
  · exact ⟨y, rfl, h⟩

/-- The largest value of a class-average: 1, or the sum of the class weights. -/
noncomputable def avgBound (w : Option (ℕ → ℝ)) (C : ℕ) : ℝ := match w with | none => 1 | some w => ∑ c ∈ range C, w c

/-- The class-average of numbers in the unit interval. -/
theorem classAvgF_range (w : Option (ℕ → ℝ)) (C : ℕ) (hC : 0 < C) (x : ℕ → Flt) (hx : ∀ c < C, InUnit 1 (x c))
    (hw : ∀ w', w = some w' → ∀ c < C, 0 ≤ w' c) :
    InUnit (avgBound w C) (classAvgF w C x) := by
  choose! y hy using hx
  cases w with
  | none =>
    refine ⟨(∑ c ∈ range C, y c) / C, Flt.mean_num C hC x y fun c hc => (hy c hc).1, ?_, ?_⟩
    · exact div_nonneg (sum_nonneg fun c hc => (hy c (mem_range.1 hc)).2.1) (by positivity)
    · refine div_le_one_of_le₀ ?_ (by positivity)
      calc ∑ c ∈ range C, y c ≤ ∑ c ∈ range C, (1 : ℝ) := sum_le_sum fun c hc => (hy c (mem_range.1 hc)).2.2
        _ = C := by simp
  | some w =>
    refine ⟨∑ c ∈ range C, w c * y c, ?_, ?_, ?_⟩
    · show Flt.sum C _ = _
      rw [Flt.sum_congr C _ (fun c => .num (w c * y c)) fun c hc => by rw [(hy c hc).1]; rfl, Flt.sum_num]
    · exact sum_nonneg fun c hc => mul_nonneg (hw w rfl c (mem_range.1 hc)) (hy c (mem_range.1 hc)).2.1
    · exact sum_le_sum fun c hc => mul_le_of_le_one_right (hw w rfl c (mem_range.1 hc)) (hy c (mem_range.1 hc)).2.2

/-- `0 ≤ score ≤ 1`, or NaN, for one number; between 0 and the sum of the class weights for a macro average. -/
def ScoreRange (M : Base) (C : ℕ) : Score → Prop
  | .scalar x => if M.mode = .macro then InUnit (avgBound M.weight C) x else x = .nan ∨ InUnit 1 x
  | .perClass x => M.mode = .other ∧ ∀ c < C, x c = .nan ∨ InUnit 1 (x c)

theorem score_range (M : Base) (formula : Counts → Flt) (B C H W : ℕ) (pred : Logits) (truth : Labels) (hI : MetricInputs M B C H W)
    (hf : ∀ tp fp fn tn : ℝ, 0 ≤ tp → 0 ≤ fp → 0 ≤ fn → 0 ≤ tn → formula ⟨tp, fp, fn, tn⟩ = .nan ∨ InUnit 1 (formula ⟨tp, fp, fn, tn⟩)) :
    ∃ s, forward M formula B C H W pred truth = .ok s ∧ ScoreRange M C s := by
  rw [forward_ok M formula B C H W pred truth hI]
  refine ⟨_, rfl, ?_⟩
  have hn := C57_nonneg_total B H W C _ truth M.q M.ignore _ (stats_ok M B C H W pred truth hI) hI.area_nonneg
  have hbatch : ∀ c, formula ⟨batchAvg B (fun b c => (metricCounts M C pred truth b c).tp) c,
      batchAvg B (fun b c => (metricCounts M C pred truth b c).fp) c, batchAvg B (fun b c => (metricCounts M C pred truth b c).fn) c,
      batchAvg B (fun b c => (metricCounts M C pred truth b c).tn) c⟩ = .nan ∨ InUnit 1 (formula
      ⟨batchAvg B (fun b c => (metricCounts M C pred truth b c).tp) c, batchAvg B (fun b c => (metricCounts M C pred truth b c).fp) c,
      batchAvg B (fun b c => (metricCounts M C pred truth b c).fn) c, batchAvg B (fun b c => (metricCounts M C pred truth b c).tn) c⟩) :=
    fun c => hf _ _ _ _ (batchAvg_nonneg _ _ _ fun b _ => (hn b c).1) (batchAvg_nonneg _ _ _ fun b _ => (hn b c).2.1)
      (batchAvg_nonneg _ _ _ fun b _ => (hn b c).2.2.1) (batchAvg_nonneg _ _ _ fun b _ => (hn b c).2.2.2.1)
  cases hm : M.mode with
  | micro =>
    simp only [ScoreRange, hm]
    exact hf _ _ _ _ (microAvg_nonneg _ _ _ _ (fun b _ c _ => (hn b c).1) hI.weight_nonneg)
      (microAvg_nonneg _ _ _ _ (fun b _ c _ => (hn b c).2.1) hI.weight_nonneg)
      (microAvg_nonneg _ _ _ _ (fun b _ c _ => (hn b c).2.2.1) hI.weight_nonneg)
      (microAvg_nonneg _ _ _ _ (fun b _ c _ => (hn b c).2.2.2.1) hI.weight_nonneg)
  | «macro» =>
    simp only [ScoreRange, hm, if_true]
    exact classAvgF_range M.weight C hI.classes _ (fun c _ => nanToZero_range _ (hbatch c)) hI.weight_nonneg
  | other =>
    simp only [ScoreRange, hm]
    exact ⟨trivial, fun c _ => hbatch c⟩

/-- C57. The intersection over union lies in `[0, 1]` (macro average with class weights: between 0 and their sum) or is NaN, which a
macro average never is. -/
theorem C57_iou_range (M : Base) (B C H W : ℕ) (pred : Logits) (truth : Labels) (hI : MetricInputs M B C H W) :
    ∃ s, iou M B C H W pred truth = .ok s ∧ ScoreRange M C s :=
  score_range M iouFormula B C H W pred truth hI fun tp fp fn tn h1 h2 h3 _ => by
    rcases ratio_range tp (tp + fp + fn) h1 (by linarith) with h | h
    · exact Or.inl h.1
    · exact Or.inr h

/-- C57. The same for the accuracy. -/
theorem C57_accuracy_range (M : Base) (B C H W : ℕ) (pred : Logits) (truth : Labels) (hI : MetricInputs M B C H W) :
    ∃ s, accuracy M B C H W pred truth = .ok s ∧ ScoreRange M C s :=
  score_range M accuracyFormula B C H W pred truth hI fun tp fp fn tn h1 h2 h3 h4 => by
    rcases ratio_range (tp + tn) (tp + fp + fn + tn) (by linarith) (by linarith) with h | h
    · exact Or.inl h.1
    · exact Or.inr h

/-- The areas are strictly positive. -/
def PosArea (M : Base) : Prop := ∀ i < M.q.d0, ∀ j < M.q.d1, 0 < M.q.val i j

theorem area_eq_zero (q : Mat ℝ) (hq : ∀ i < q.d0, ∀ j < q.d1, 0 < q.val i j) (P : ℕ → ℕ → Prop) :
    area q P = 0 ↔ ∀ i < q.d0, ∀ j < q.d1, ¬ P i j := by
  classical
  unfold area
  have hn : ∀ i < q.d0, ∀ j < q.d1, 0 ≤ if P i j then q.val i j else 0 := fun i hi j hj => by
    split
    · exact (hq i hi j hj).le
    · exact le_rfl
  rw [sum_eq_zero_iff_of_nonneg fun i hi => sum_nonneg fun j hj => hn i (mem_range.1 hi) j (mem_range.1 hj)]
  constructor
  · intro h i hi j hj hP
    have h1 := h i (mem_range.2 hi)
    rw [sum_eq_zero_iff_of_nonneg fun j hj => hn i hi j (mem_range.1 hj)] at h1
    have h2 := h1 j (mem_range.2 hj)
    rw [if_pos hP] at h2
    exact (hq i hi j hj).ne' h2
  · intro h i hi
    refine sum_eq_zero fun j hj => ?_
    rw [if_neg (h i (mem_range.1 hi) j (mem_range.1 hj))]

/-- Every point of every item is ignored. -/
def AllIgnored (M : Base) (B H W : ℕ) (truth : Labels) : Prop :=
  ∀ b < B, ∀ i < H, ∀ j < W, Ignored M.ignore truth b i j

theorem microAvg_add (w : Option (ℕ → ℝ)) (B C : ℕ) (x y : ℕ → ℕ → ℝ) :
    microAvg w B C x + microAvg w B C y = microAvg w B C fun b c => x b c + y b c := by
  cases w with
  | none => simp only [microAvg, sum_add_distrib]; ring
  | some w => simp only [microAvg, add_mul, sum_add_distrib]

theorem microAvg_eq_zero (B C : ℕ) (hB : 0 < B) (hC : 0 < C) (x : ℕ → ℕ → ℝ) (hx : ∀ b c, 0 ≤ x b c) :
    microAvg none B C x = 0 ↔ ∀ b < B, ∀ c < C, x b c = 0 := by
  unfold microAvg
  have hBC : (B : ℝ) * C ≠ 0 := by positivity
  rw [div_eq_zero_iff, or_iff_left hBC, sum_eq_zero_iff_of_nonneg fun b _ => sum_nonneg fun c _ => hx b c]
  simp only [sum_eq_zero_iff_of_nonneg fun c _ => hx _ c, mem_range]

/-- C57. The micro-averaged intersection over union without class weights is NaN exactly when every point is ignored. -/
theorem C57_iou_micro_nan (M : Base) (B C H W : ℕ) (pred : Logits) (truth : Labels) (hI : MetricInputs M B C H W) (hq : PosArea M)
    (hm : M.mode = .micro) (hw : M.weight = none) :
    iou M B C H W pred truth = .ok (.scalar .nan) ↔ AllIgnored M B H W truth := by
  have hcnt := C57_counts B H W C _ truth M.q M.ignore _ (stats_ok M B C H W pred truth hI)
  have hn := C57_nonneg_total B H W C _ truth M.q M.ignore _ (stats_ok M B C H W pred truth hI) hI.area_nonneg
  have hform : iou M B C H W pred truth = .ok (.scalar .nan) ↔
      microAvg none B C (fun b c => (metricCounts M C pred truth b c).tp + (metricCounts M C pred truth b c).fp
        + (metricCounts M C pred truth b c).fn) = 0 := by
    unfold iou
    rw [forward_ok M iouFormula B C H W pred truth hI]
    simp only [hm, hw, iouFormula, Except.ok.injEq, Score.scalar.injEq]
    rw [microAvg_add, microAvg_add]
    have h1 : 0 ≤ microAvg none B C fun b c => (metricCounts M C pred truth b c).tp :=
      microAvg_nonneg _ _ _ _ (fun b _ c _ => (hn b c).1) (by simp)
    have h2 : 0 ≤ microAvg none B C fun b c => (metricCounts M C pred truth b c).fp :=
      microAvg_nonneg _ _ _ _ (fun b _ c _ => (hn b c).2.1) (by simp)
    have h3 : 0 ≤ microAvg none B C fun b c => (metricCounts M C pred truth b c).fn :=
      microAvg_nonneg _ _ _ _ (fun b _ c _ => (hn b c).2.2.1) (by simp)
    have h4 := microAvg_add none B C (fun b c => (metricCounts M C pred truth b c).tp + (metricCounts M C pred truth b c).fp)
      (fun b c => (metricCounts M C pred truth b c).fn)
    have h5 := microAvg_add none B C (fun b c => (metricCounts M C pred truth b c).tp) (fun b c => (metricCounts M C pred truth b c).fp)
    rcases ratio_range _ _ h1 (show _ ≤ microAvg none B C (fun b c => (metricCounts M C pred truth b c).tp
      + (metricCounts M C pred truth b c).fp + (metricCounts M C pred truth b c).fn) by rw [← h4, ← h5]; linarith) with h | ⟨y, h, -⟩
    · rw [h.1]; exact ⟨fun _ => h.2, fun _ => rfl⟩
    · rw [h]
      constructor
      · intro h; cases h
      · intro h0; rw [h0] at h; simp only [Flt.div, if_true, Flt.infOf] at h; split at h <;> cases h
  rw [hform, microAvg_eq_zero B C hI.batch hI.classes _ fun b c => by have := hn b c; linarith [this.1, this.2.1, this.2.2.1]]
  constructor
  · intro h b hb i hi j hj
    by_contra hig
    obtain ⟨hc1, -, -⟩ := argmax_spec C hI.classes (softmax C fun c => pred b c i j)
    have h0 := h b hb _ hc1
    obtain ⟨e1, e2, -, -⟩ := hcnt b (argmax C (softmax C fun c => pred b c i j))
    have hn' := hn b (argmax C (softmax C fun c => pred b c i j))
    have ht : (metricCounts M C pred truth b (argmax C (softmax C fun c => pred b c i j))).tp = 0 := by
      linarith [hn'.1, hn'.2.1, hn'.2.2.1]
    have hf : (metricCounts M C pred truth b (argmax C (softmax C fun c => pred b c i j))).fp = 0 := by
      linarith [hn'.1, hn'.2.1, hn'.2.2.1]
    rw [e1, area_eq_zero M.q hq] at ht
    rw [e2, area_eq_zero M.q hq] at hf
    by_cases ht' : truth b i j = (argmax C (softmax C fun c => pred b c i j) : ℤ)
    · exact ht i (hI.rows ▸ hi) j (hI.cols ▸ hj) ⟨hig, ht', rfl⟩
    · exact hf i (hI.rows ▸ hi) j (hI.cols ▸ hj) ⟨hig, ht', rfl⟩
  · intro h b hb c hc
    obtain ⟨e1, e2, e3, -⟩ := hcnt b c
    have hig : ∀ i < M.q.d0, ∀ j < M.q.d1, Ignored M.ignore truth b i j := fun i hi j hj =>
      h b hb i (hI.rows.symm ▸ hi) j (hI.cols.symm ▸ hj)
    rw [e1, e2, e3, (area_eq_zero M.q hq _).2 fun i hi j hj hp => hp.1 (hig i hi j hj),
      (area_eq_zero M.q hq _).2 fun i hi j hj hp => hp.1 (hig i hi j hj),
      (area_eq_zero M.q hq _).2 fun i hi j hj hp => hp.1 (hig i hi j hj)]
    simp

/-- The logits point to the true class at every point that is not ignored: it has the largest logit, strictly larger than those of the
classes before it. -/
def Right (M : Base) (B C H W : ℕ) (pred : Logits) (truth : Labels) : Prop :=
  ∀ b < B, ∀ i < H, ∀ j < W, ¬ Ignored M.ignore truth b i j →
    ∃ k < C, truth b i j = (k : ℤ) ∧ (∀ c < C, pred b c i j ≤ pred b k i j) ∧ ∀ c < k, pred b c i j < pred b k i j

theorem right_perfect (M : Base) (B C H W : ℕ) (hC : 0 < C) (pred : Logits) (truth : Labels) (h : Right M B C H W pred truth) :
    Perfect M.ignore (fun b i j => (argmax C (softmax C fun c => pred b c i j) : ℤ)) truth B H W := by
  intro b hb i hi j hj hig
  obtain ⟨k, hk, ht, h1, h2⟩ := h b hb i hi j hj hig
  have hp : predictClasses C pred = .ok fun b i j => (argmax C (softmax C fun c => pred b c i j) : ℤ) := by
    unfold predictClasses; rw [if_neg (by omega)]
  obtain ⟨k', hk', e, h1', h2'⟩ := C57_predicted_class C pred _ hp b i j
  rw [ht]
  refine e.trans ?_
  congr 1
  rcases lt_trichotomy k k' with h | h | h
  · exact absurd (h1 k' hk') (not_le.2 (h2' k h))
  · exact h.symm
  · exact absurd (h1' k hk) (not_le.2 (h2 k' h))

/-- C57. A right prediction has micro-averaged intersection over union 1, unless every point is ignored. -/
theorem C57_iou_micro_perfect (M : Base) (B C H W : ℕ) (pred : Logits) (truth : Labels) (hI : MetricInputs M B C H W) (hq : PosArea M)
    (hm : M.mode = .micro) (hw : M.weight = none) (hr : Right M B C H W pred truth) (hni : ¬ AllIgnored M B H W truth) :
    iou M B C H W pred truth = .ok (.scalar (.num 1)) := by
  have hperf := fun b hb c hc => C57_perfect B H W C _ truth M.q M.ignore _ (stats_ok M B C H W pred truth hI)
    (right_perfect M B C H W hI.classes pred truth hr) b c hb hc
  have hnan := (C57_iou_micro_nan M B C H W pred truth hI hq hm hw).not.2 hni
  unfold iou at hnan ⊢
  rw [forward_ok M iouFormula B C H W pred truth hI] at hnan ⊢
  simp only [hm, hw, iouFormula, Except.ok.injEq, Score.scalar.injEq] at hnan ⊢
  have hz : (microAvg none B C fun b c => (metricCounts M C pred truth b c).fp) = 0 := by
    unfold microAvg
    rw [sum_eq_zero fun b hb => sum_eq_zero fun c hc => (hperf b (mem_range.1 hb) c (mem_range.1 hc)).1, zero_div]
  have hz' : (microAvg none B C fun b c => (metricCounts M C pred truth b c).fn) = 0 := by
    unfold microAvg
    rw [sum_eq_zero fun b hb => sum_eq_zero fun c hc => (hperf b (mem_range.1 hb) c (mem_range.1 hc)).2, zero_div]
  rw [hz, hz', add_zero, add_zero] at hnan ⊢
  by_cases h0 : (microAvg none B C fun b c => (metricCounts M C pred truth b c).tp) = 0
  · exact absurd (by rw [h0]; simp [Flt.div, Flt.infOf]) hnan
  · rw [Flt.div_num _ _ h0, div_self h0]

/-- C57. The accuracy without class weights, micro-averaged, is always a number, and 1 for a right prediction. -/
theorem C57_accuracy_micro (M : Base) (B C H W : ℕ) (pred : Logits) (truth : Labels) (hI : MetricInputs M B C H W)
    (ha : 0 < area M.q fun _ _ => True) (hm : M.mode = .micro) (hw : M.weight = none) :
    (∃ y, accuracy M B C H W pred truth = .ok (.scalar (.num y)) ∧ 0 ≤ y ∧ y ≤ 1) ∧
      (Right M B C H W pred truth → accuracy M B C H W pred truth = .ok (.scalar (.num 1))) := by
  have hn := C57_nonneg_total B H W C _ truth M.q M.ignore _ (stats_ok M B C H W pred truth hI) hI.area_nonneg
  have htot : microAvg none B C (fun b c => (metricCounts M C pred truth b c).tp + (metricCounts M C pred truth b c).fp
      + (metricCounts M C pred truth b c).fn + (metricCounts M C pred truth b c).tn) = area M.q fun _ _ => True := by
    have : (B : ℝ) * C ≠ 0 := by
      have := hI.batch; have := hI.classes; positivity
    unfold microAvg
    rw [sum_congr rfl fun b _ => sum_congr rfl fun c _ => (hn b c).2.2.2.2]
    simp only [sum_const, card_range, nsmul_eq_mul]
    field_simp
    exact div_self this
  have hform : accuracy M B C H W pred truth = .ok (.scalar (.div (microAvg none B C fun b c => (metricCounts M C pred truth b c).tp
      + (metricCounts M C pred truth b c).tn) (area M.q fun _ _ => True))) := by
    unfold accuracy
    rw [forward_ok M accuracyFormula B C H W pred truth hI]
    simp only [hm, hw, accuracyFormula]
    rw [microAvg_add, microAvg_add, microAvg_add, microAvg_add, htot]
  rw [hform, Flt.div_num _ _ ha.ne']
  constructor
  · refine ⟨_, rfl, div_nonneg (microAvg_nonneg _ _ _ _ (fun b _ c _ => by linarith [(hn b c).1, (hn b c).2.2.2.1]) (by simp)) ha.le, ?_⟩
    rw [div_le_one ha, ← htot]
    have := microAvg_add none B C (fun b c => (metricCounts M C pred truth b c).tp + (metricCounts M C pred truth b c).tn)
      (fun b c => (metricCounts M C pred truth b c).fp + (metricCounts M C pred truth b c).fn)
    have h0 : 0 ≤ microAvg none B C (fun b c => (metricCounts M C pred truth b c).fp + (metricCounts M C pred truth b c).fn) :=
      microAvg_nonneg _ _ _ _ (fun b _ c _ => by linarith [(hn b c).2.1, (hn b c).2.2.1]) (by simp)
    have h1 : (fun b c => (metricCounts M C pred truth b c).tp + (metricCounts M C pred truth b c).fp
      + (metricCounts M C pred truth b c).fn + (metricCounts M C pred truth b c).tn) = fun b c =>
      (metricCounts M C pred truth b c).tp + (metricCounts M C pred truth b c).tn +
      ((metricCounts M C pred truth b c).fp + (metricCounts M C pred truth b c).fn) := by funext b c; ring
    rw [h1, ← this]
    linarith
  · intro hr
    have hperf := fun b hb c hc => C57_perfect B H W C _ truth M.q M.ignore _ (stats_ok M B C H W pred truth hI)
      (right_perfect M B C H W hI.classes pred truth hr) b c hb hc
    have : (microAvg none B C fun b c => (metricCounts M C pred truth b c).tp + (metricCounts M C pred truth b c).tn)
        = area M.q fun _ _ => True := by
      rw [← htot]
      simp only [microAvg]
      congr 1
      refine sum_congr rfl fun b hb => sum_congr rfl fun c hc => ?_
      obtain ⟨h1, h2⟩ := hperf b (mem_range.1 hb) c (mem_range.1 hc)
      rw [h1, h2]; ring
    rw [this, div_self ha.ne']

/-- Some point of some item that counts belongs to class `c`. -/
def Present (M : Base) (B H W : ℕ) (truth : Labels) (c : ℕ) : Prop :=
  ∃ b < B, ∃ i < H, ∃ j < W, ¬ Ignored M.ignore truth b i j ∧ truth b i j = c

/-- C57. The macro-averaged intersection over union of a right prediction is the fraction of the classes that occur: classes that
occur nowhere count as failures, so a right prediction scores 1 only if every class occurs. -/
theorem C57_iou_macro_perfect (M : Base) (B C H W : ℕ) (pred : Logits) (truth : Labels) (hI : MetricInputs M B C H W) (hq : PosArea M)
    (hm : M.mode = .macro) (hw : M.weight = none) (hr : Right M B C H W pred truth) :
    open Classical in
    iou M B C H W pred truth = .ok (.scalar (.num (((range C).filter fun c => Present M B H W truth c).card / C))) := by
  classical
  have hperf := fun b hb c hc => C57_perfect B H W C _ truth M.q M.ignore _ (stats_ok M B C H W pred truth hI)
    (right_perfect M B C H W hI.classes pred truth hr) b c hb hc
  have hcnt := C57_counts B H W C _ truth M.q M.ignore _ (stats_ok M B C H W pred truth hI)
  have hn := C57_nonneg_total B H W C _ truth M.q M.ignore _ (stats_ok M B C H W pred truth hI) hI.area_nonneg
  have hp := right_perfect M B C H W hI.classes pred truth hr
  unfold iou
  rw [forward_ok M iouFormula B C H W pred truth hI]
  simp only [hm, hw, iouFormula, classAvgF]
  rw [Flt.mean_num C hI.classes _ (fun c => if Present M B H W truth c then 1 else 0)]
  · congr 4
    rw [sum_boole]
  · intro c hc
    have hz : batchAvg B (fun b c => (metricCounts M C pred truth b c).fp) c = 0 := by
      unfold batchAvg; rw [sum_eq_zero fun b hb => (hperf b (mem_range.1 hb) c hc).1, zero_div]
    have hz' : batchAvg B (fun b c => (metricCounts M C pred truth b c).fn) c = 0 := by
      unfold batchAvg; rw [sum_eq_zero fun b hb => (hperf b (mem_range.1 hb) c hc).2, zero_div]
    rw [hz, hz', add_zero, add_zero]
    have hB : (B : ℝ) ≠ 0 := by have := hI.batch; positivity
    have key : batchAvg B (fun b c => (metricCounts M C pred truth b c).tp) c = 0 ↔ ¬ Present M B H W truth c := by
      unfold batchAvg
      rw [div_eq_zero_iff, or_iff_left hB, sum_eq_zero_iff_of_nonneg fun b _ => (hn b c).1]
      constructor
      · rintro h ⟨b, hb, i, hi, j, hj, hig, ht⟩
        have := h b (mem_range.2 hb)
        rw [(hcnt b c).1, area_eq_zero M.q hq] at this
        exact this i (hI.rows ▸ hi) j (hI.cols ▸ hj) ⟨hig, ht, (hp b hb i hi j hj hig).trans ht⟩
      · intro h b hb
        rw [(hcnt b c).1, area_eq_zero M.q hq]
        rintro i hi j hj ⟨hig, ht, -⟩
        exact h ⟨b, mem_range.1 hb, i, hI.rows.symm ▸ hi, j, hI.cols.symm ▸ hj, hig, ht⟩
    by_cases hP : Present M B H W truth c
    · have := key.not.2 (not_not.2 hP)
      rw [Flt.div_num _ _ this, div_self this, if_pos hP]; rfl
    · rw [key.2 hP, if_neg hP]; simp [Flt.div, Flt.infOf, Flt.nanToZero]

/-! Concrete cases: two points, two classes, ignored value 7; the second point is ignored in the second item. -/

/-- Two points of area one half each. -/
noncomputable def twoPoints (mode : Mode) : Base := ⟨⟨1, 2, fun _ _ => 1 / 2⟩, none, some 7, mode⟩

/-- Truth: class 0 everywhere, except one ignored point. -/
def twoTruth : Labels := fun b _ j => if b = 1 ∧ j = 1 then 7 else 0
/-- Logits that prefer class 0. -/
def twoLogits : Logits := fun _ c _ _ => if c = 0 then 1 else 0

theorem twoInputs (mode : Mode) : MetricInputs (twoPoints mode) 2 2 1 2 where
  batch := by norm_num
  classes := by norm_num
  rows := rfl
  cols := rfl
  area_nonneg := fun _ _ _ _ => by simp [twoPoints]
  weight_nonneg := fun w h => by simp [twoPoints] at h

theorem twoRight (mode : Mode) : Right (twoPoints mode) 2 2 1 2 twoLogits twoTruth := by
  intro b hb i hi j hj hig
  refine ⟨0, by norm_num, ?_, fun c hc => ?_, fun c hc => absurd hc (by omega)⟩
  · unfold twoTruth
    split
    · next h => exact absurd (by simp [Ignored, twoPoints, twoTruth, h]) hig
    · rfl
  · unfold twoLogits
    split <;> norm_num

example : PosArea (twoPoints .micro) := fun _ _ _ _ => by simp [twoPoints]
example : ¬ AllIgnored (twoPoints .micro) 2 1 2 twoTruth := fun h => by
  have := h 0 (by norm_num) 0 (by norm_num) 0 (by norm_num)
  simp [Ignored, twoPoints, twoTruth] at this

/-- A right prediction with macro average one half: class 1 does not occur. -/
theorem C57_macro_perfect_not_one :
    Right (twoPoints .macro) 2 2 1 2 twoLogits twoTruth ∧
      iou (twoPoints .macro) 2 2 1 2 twoLogits twoTruth = .ok (.scalar (.num (1 / 2))) := by
  classical
  refine ⟨twoRight _, ?_⟩
  rw [C57_iou_macro_perfect _ 2 2 1 2 _ _ (twoInputs _) (fun _ _ _ _ => by simp [twoPoints]) rfl rfl (twoRight _)]
  congr 3
  have : (range 2).filter (fun c => Present (twoPoints .macro) 2 1 2 twoTruth c) = {0} := by
    ext c
    simp only [mem_filter, mem_range, mem_singleton]
    constructor
    · rintro ⟨-, b, -, i, -, j, -, hig, ht⟩
      unfold twoTruth at ht
      split at ht
      · next h => exact absurd (by simp [Ignored, twoPoints, twoTruth, h]) hig
      · exact_mod_cast ht.symm
    · rintro rfl
      exact ⟨by norm_num, 0, by norm_num, 0, by norm_num, 0, by norm_num, by simp [Ignored, twoPoints, twoTruth],
        by simp [twoTruth]⟩
  rw [this]
  norm_num

end Verif.Props
