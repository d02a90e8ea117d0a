import Verif.Props.Losses
import Verif.Lemmas.Fourier
/-!
Property theorems C62 (segmentation losses: cross-entropy, focal, Dice) and C63 (losses on derivatives: W11, surface normals).
-/
namespace Verif.Props
open Verif Verif.Dist Verif.Loss Verif.FFT Finset

/-! ### C62: cross-entropy and focal loss -/

theorem sumExp_pos (C : ℕ) (hC : 0 < C) (x : ℕ → ℝ) : 0 < ∑ d ∈ range C, Real.exp (x d) :=
  sum_pos (fun _ _ => Real.exp_pos _) ⟨0, mem_range.2 hC⟩

/-- C62. Applying `log_softmax` twice is applying it once: the losses may pass log-probabilities to `cross_entropy`. -/
theorem C62_log_softmax_twice (C : ℕ) (hC : 0 < C) (x : ℕ → ℝ) (c : ℕ) : logSoftmax C (logSoftmax C x) c = logSoftmax C x c := by
  have h := sumExp_pos C hC x
  have : ∑ d ∈ range C, Real.exp (logSoftmax C x d) = 1 := by
    unfold logSoftmax
    simp only [Real.exp_sub, Real.exp_log h]
    rw [← sum_div, div_self h.ne']
  rw [logSoftmax, this, Real.log_one, sub_zero]

/-- The log-probability is the logarithm of the softmax, and not positive. -/
theorem logSoftmax_eq (C : ℕ) (hC : 0 < C) (x : ℕ → ℝ) (c : ℕ) : logSoftmax C x c = Real.log (softmax C x c) := by
  have h := sumExp_pos C hC x
  rw [softmax, Real.log_div (Real.exp_pos _).ne' h.ne', Real.log_exp, logSoftmax]

theorem softmax_range (C : ℕ) (x : ℕ → ℝ) (c : ℕ) (hc : c < C) : 0 < softmax C x c ∧ softmax C x c ≤ 1 := by
  have h := sumExp_pos C (by omega) x
  refine ⟨div_pos (Real.exp_pos _) h, (div_le_one h).2 ?_⟩
  exact single_le_sum (f := fun d => Real.exp (x d)) (fun _ _ => (Real.exp_pos _).le) (mem_range.2 hc)

theorem logSoftmax_nonpos (C : ℕ) (x : ℕ → ℝ) (c : ℕ) (hc : c < C) : logSoftmax C x c ≤ 0 := by
  rw [logSoftmax_eq C (by omega)]
  obtain ⟨h1, h2⟩ := softmax_range C x c hc
  exact Real.log_nonpos h1.le h2

/-- The cross-entropy of one point, as a user reads it: the smoothed average of minus the weighted log-probabilities; zero for ignored
points. -/
noncomputable def pointEntropy (C : ℕ) (w : ℕ → ℝ) (ignore : ℤ) (smooth : ℝ) (x : ℕ → ℝ) (t : ℤ) : ℝ :=
  if t = ignore then 0
  else (1 - smooth) * (w t.toNat * -Real.log (softmax C x t.toNat)) + smooth * ((∑ c ∈ range C, w c * -Real.log (softmax C x c)) / C)

theorem ceField_ok (C : ℕ) (hC : 0 < C) (w : ℕ → ℝ) (ignore : ℤ) (smooth : ℝ) (B H W : ℕ) (prd : Logits) (tar : Labels)
    (hs : 0 ≤ smooth ∧ smooth ≤ 1) (ht : labelsOk C ignore B H W tar) :
    ∃ f, ceField C w ignore smooth B H W prd tar = .ok f ∧ ∀ b < B, ∀ i < H, ∀ j < W,
      f b i j = pointEntropy C w ignore smooth (fun c => prd b c i j) (tar b i j) := by
  unfold ceField
  rw [if_neg (by push Not; exact hs), if_pos ht]
  refine ⟨_, rfl, fun b hb i hi j hj => ?_⟩
  unfold crossEntropyPoint pointEntropy
  split
  · rfl
  · next hne =>
    have hr := (ht b hb i hi j hj).resolve_left hne
    rw [if_neg (by omega)]
    show _ + _ = _
    have e : ∀ c, logSoftmax C (logSoftmax C fun c => prd b c i j) c = Real.log (softmax C (fun c => prd b c i j) c) := fun c => by
      rw [C62_log_softmax_twice C hC, logSoftmax_eq C hC]
    rw [e, sum_congr rfl fun c _ => by rw [e c], ← sum_neg_distrib]
    simp only [mul_neg]
    ring

theorem pointEntropy_nonneg (C : ℕ) (w : ℕ → ℝ) (ignore : ℤ) (smooth : ℝ) (x : ℕ → ℝ) (t : ℤ) (hs : 0 ≤ smooth ∧ smooth ≤ 1)
    (ht : t = ignore ∨ (0 ≤ t ∧ t < C)) (hw : ∀ c < C, 0 ≤ w c) : 0 ≤ pointEntropy C w ignore smooth x t := by
  unfold pointEntropy
  split
  · exact le_rfl
  · next hne =>
    have hr := ht.resolve_left hne
    have hlog : ∀ c < C, 0 ≤ w c * -Real.log (softmax C x c) := fun c hc => by
      obtain ⟨h1, h2⟩ := softmax_range C x c hc
      exact mul_nonneg (hw c hc) (neg_nonneg.2 (Real.log_nonpos h1.le h2))
    refine add_nonneg (mul_nonneg (by linarith) (hlog _ (by omega))) (mul_nonneg hs.1 (div_nonneg ?_ (by positivity)))
    exact sum_nonneg fun c hc => hlog c (mem_range.1 hc)

/-- C62. The value of the cross-entropy loss: average over the batch of the area-weighted sum of the pointwise cross-entropies, where
ignored points count zero. It is not negative. -/
theorem C62_cross_entropy (q : Vec ℝ) (nlat nlon B C : ℕ) (hq : UnitWeights q nlat nlon) (hB : 0 < B) (hC : 0 < C) (w : ℕ → ℝ)
    (ignore : ℤ) (smooth : ℝ) (prd : Logits) (tar : Labels) (hs : 0 ≤ smooth ∧ smooth ≤ 1) (ht : labelsOk C ignore B nlat nlon tar)
    (hw : ∀ c < C, 0 ≤ w c) :
    crossEntropy q C w ignore smooth B nlat nlon prd tar = .ok (.num ((∑ b ∈ range B, ∑ i ∈ range nlat, ∑ j ∈ range nlon,
      pointEntropy C w ignore smooth (fun c => prd b c i j) (tar b i j) * q.val i) / B)) ∧
    0 ≤ (∑ b ∈ range B, ∑ i ∈ range nlat, ∑ j ∈ range nlon,
      pointEntropy C w ignore smooth (fun c => prd b c i j) (tar b i j) * q.val i) / B := by
  obtain ⟨f, hf, hv⟩ := ceField_ok C hC w ignore smooth B nlat nlon prd tar hs ht
  constructor
  · unfold crossEntropy
    rw [hf]
    show lossForward q id B nlat nlon f none = _
    rw [lossForward_num q id B nlat nlon hq.size.symm hB f (fun b => avg q nlon (f b)) fun b _ => rfl]
    congr 3
    refine sum_congr rfl fun b hb => ?_
    unfold avg
    rw [hq.size]
    refine sum_congr rfl fun i hi => sum_congr rfl fun j hj => ?_
    rw [hv b (mem_range.1 hb) i (mem_range.1 hi) j (mem_range.1 hj)]
  · refine div_nonneg (sum_nonneg fun b hb => sum_nonneg fun i hi => sum_nonneg fun j hj => mul_nonneg ?_ ?_) (by positivity)
    · exact pointEntropy_nonneg C w ignore smooth _ _ hs (ht b (mem_range.1 hb) i (mem_range.1 hi) j (mem_range.1 hj)) hw
    · exact hq.nonneg i (mem_range.1 hi)

/-- C62. The focal loss lies between 0 and `alpha` times the cross-entropy, for `alpha, gamma >= 0`. -/
theorem C62_focal (q : Vec ℝ) (nlat nlon B C : ℕ) (hq : UnitWeights q nlat nlon) (hB : 0 < B) (hC : 0 < C) (w : ℕ → ℝ)
    (ignore : ℤ) (smooth alpha gamma : ℝ) (prd : Logits) (tar : Labels) (hs : 0 ≤ smooth ∧ smooth ≤ 1)
    (ht : labelsOk C ignore B nlat nlon tar) (hw : ∀ c < C, 0 ≤ w c) (ha : 0 ≤ alpha) (hg : 0 ≤ gamma) :
    ∃ x y : ℝ, focal q C w ignore smooth alpha gamma B nlat nlon prd tar = .ok (.num x) ∧
      crossEntropy q C w ignore smooth B nlat nlon prd tar = .ok (.num y) ∧ 0 ≤ x ∧ x ≤ alpha * y := by
  obtain ⟨f, hf, hv⟩ := ceField_ok C hC w ignore smooth B nlat nlon prd tar hs ht
  have hpos : ∀ b < B, ∀ i < nlat, ∀ j < nlon, 0 ≤ f b i j := fun b hb i hi j hj => by
    rw [hv b hb i hi j hj]
    exact pointEntropy_nonneg C w ignore smooth _ _ hs (ht b hb i hi j hj) hw
  have hbase : ∀ b < B, ∀ i < nlat, ∀ j < nlon, 0 ≤ (1 - Real.exp (-f b i j)) ^ gamma ∧ (1 - Real.exp (-f b i j)) ^ gamma ≤ 1 := by
    intro b hb i hi j hj
    have h0 : 0 ≤ 1 - Real.exp (-f b i j) := by
      have : Real.exp (-f b i j) ≤ 1 := Real.exp_le_one_iff.2 (by linarith [hpos b hb i hi j hj])
      linarith
    exact ⟨Real.rpow_nonneg h0 _, Real.rpow_le_one h0 (by linarith [Real.exp_pos (-f b i j)]) hg⟩
  refine ⟨(∑ b ∈ range B, avg q nlon fun i j => alpha * (1 - Real.exp (-f b i j)) ^ gamma * f b i j) / B,
    (∑ b ∈ range B, avg q nlon (f b)) / B, ?_, ?_, ?_, ?_⟩
  · unfold focal
    rw [hf]
    exact lossForward_num q id B nlat nlon hq.size.symm hB _ (fun b => avg q nlon fun i j => alpha * (1 - Real.exp (-f b i j)) ^ gamma * f b i j)
      fun b _ => rfl
  · unfold crossEntropy
    rw [hf]
    exact lossForward_num q id B nlat nlon hq.size.symm hB f (fun b => avg q nlon (f b)) fun b _ => rfl
  · refine div_nonneg (sum_nonneg fun b hb => avg_nonneg q nlon (fun k hk => hq.nonneg k (hq.size ▸ hk)) _ fun i hi j hj => ?_) (by positivity)
    rw [hq.size] at hi
    exact mul_nonneg (mul_nonneg ha (hbase b (mem_range.1 hb) i hi j hj).1) (hpos b (mem_range.1 hb) i hi j hj)
  · rw [mul_div_assoc', mul_sum]
    refine div_le_div_of_nonneg_right (sum_le_sum fun b hb => ?_) (by positivity)
    unfold avg
    rw [mul_sum, hq.size]
    refine sum_le_sum fun i hi => ?_
    rw [mul_sum]
    refine sum_le_sum fun j hj => ?_
    have h1 := hbase b (mem_range.1 hb) i (mem_range.1 hi) j (mem_range.1 hj)
    have h2 := hpos b (mem_range.1 hb) i (mem_range.1 hi) j (mem_range.1 hj)
    have h3 := hq.nonneg i (mem_range.1 hi)
    rw [← mul_assoc]
    refine mul_le_mul_of_nonneg_right ?_ h3
    refine mul_le_mul_of_nonneg_right ?_ h2
    exact mul_le_of_le_one_right ha h1.2

/-- C62. A label that is neither a class nor the ignored value, or a smoothing factor outside `[0, 1]`, is refused. -/
theorem C62_refused (q : Vec ℝ) (C : ℕ) (w : ℕ → ℝ) (ignore : ℤ) (smooth : ℝ) (B H W : ℕ) (prd : Logits) (tar : Labels)
    (h : smooth < 0 ∨ 1 < smooth ∨ ¬ labelsOk C ignore B H W tar) :
    ∃ e, crossEntropy q C w ignore smooth B H W prd tar = .error e ∧ ∀ alpha gamma,
      focal q C w ignore smooth alpha gamma B H W prd tar = .error e := by
  have : ∃ e, ceField C w ignore smooth B H W prd tar = .error e := by
    unfold ceField
    split
    · exact ⟨_, rfl⟩
    · next h' =>
      rw [if_neg (by tauto)]
      exact ⟨_, rfl⟩
  obtain ⟨e, he⟩ := this
  exact ⟨e, by simp [crossEntropy, he, bind, Except.bind], fun _ _ => by simp [focal, he, bind, Except.bind]⟩

/-! ### C62: Dice loss -/

/-- The labels after masking are classes. -/
def diceLabelsOk (A : DiceArgs) (C B H W : ℕ) (tar : Labels) : Prop :=
  ∀ b < B, ∀ i < H, ∀ j < W, A.ignore = some (tar b i j) ∨ (0 ≤ tar b i j ∧ tar b i j < C)

theorem diceTar_ok (A : DiceArgs) (C B H W : ℕ) (hC : 0 < C) (tar : Labels) (h : diceLabelsOk A C B H W tar) :
    ∀ b < B, ∀ i < H, ∀ j < W, 0 ≤ diceTar A tar b i j ∧ diceTar A tar b i j < C := by
  intro b hb i hi j hj
  have := h b hb i hi j hj
  unfold diceTar diceMask
  cases hA : A.ignore with
  | none => rw [hA] at this; simp at this; simpa using this
  | some g =>
    rw [hA] at this
    by_cases hg : tar b i j = g
    · simp [hg, hC]
    · simp only [hg, if_false, mul_one]
      exact this.resolve_left fun h => hg (by simpa using h.symm)

theorem dicePrd_range (A : DiceArgs) (C : ℕ) (prd : Logits) (tar : Labels) (b c i j : ℕ) (hc : c < C) :
    0 ≤ dicePrd A C prd tar b c i j ∧ dicePrd A C prd tar b c i j ≤ 1 := by
  obtain ⟨h1, h2⟩ := softmax_range C (fun c => prd b c i j) c hc
  unfold dicePrd diceMask
  cases A.ignore with
  | none => simp only [Int.cast_one, mul_one]; exact ⟨h1.le, h2⟩
  | some g =>
    by_cases hg : tar b i j = g
    · simp [hg]
    · simp only [hg, if_false, Int.cast_one, mul_one]; exact ⟨h1.le, h2⟩

theorem diceHot_range (A : DiceArgs) (tar : Labels) (b c i j : ℕ) : diceHot A tar b c i j = 0 ∨ diceHot A tar b c i j = 1 := by
  unfold diceHot; split <;> simp

/-- Intersection and union of class `c` in item `b`. -/
noncomputable def dInter (A : DiceArgs) (q : Vec ℝ) (C nlon : ℕ) (prd : Logits) (tar : Labels) (b c : ℕ) : ℝ :=
  avg q nlon fun i j => dicePrd A C prd tar b c i j * diceHot A tar b c i j
/-- see `dInter` -/
noncomputable def dUnion (A : DiceArgs) (q : Vec ℝ) (C nlon : ℕ) (prd : Logits) (tar : Labels) (b c : ℕ) : ℝ :=
  avg q nlon fun i j => dicePrd A C prd tar b c i j + diceHot A tar b c i j

theorem dice_bounds (A : DiceArgs) (q : Vec ℝ) (nlat nlon C : ℕ) (hq : UnitWeights q nlat nlon) (prd : Logits) (tar : Labels)
    (b c : ℕ) (hc : c < C) :
    0 ≤ dInter A q C nlon prd tar b c ∧ 2 * dInter A q C nlon prd tar b c ≤ dUnion A q C nlon prd tar b c := by
  have hn : ∀ k < q.len, 0 ≤ q.val k := fun k hk => hq.nonneg k (hq.size ▸ hk)
  constructor
  · refine avg_nonneg q nlon hn _ fun i _ j _ => mul_nonneg (dicePrd_range A C prd tar b c i j hc).1 ?_
    rcases diceHot_range A tar b c i j with h | h <;> rw [h]; exact zero_le_one
  · unfold dInter dUnion avg
    rw [mul_sum]
    refine sum_le_sum fun i hi => ?_
    rw [mul_sum]
    refine sum_le_sum fun j _ => ?_
    rw [← mul_assoc]
    refine mul_le_mul_of_nonneg_right ?_ (hn i (mem_range.1 hi))
    obtain ⟨h1, h2⟩ := dicePrd_range A C prd tar b c i j hc
    dsimp only
    rcases diceHot_range A tar b c i j with h | h <;> rw [h] <;> linarith

theorem dice_ok (A : DiceArgs) (q : Vec ℝ) (nlat nlon C B : ℕ) (hq : UnitWeights q nlat nlon) (hC : 0 < C) (prd : Logits) (tar : Labels)
    (ht : diceLabelsOk A C B nlat nlon tar) :
    dice A q C B nlat nlon prd tar = .ok ((Flt.mean B fun b => diceItem A C (dInter A q C nlon prd tar b)
      (dUnion A q C nlon prd tar b)).rsub 1) := by
  unfold dice
  rw [if_neg (not_not.2 (diceTar_ok A C B nlat nlon hC tar ht))]
  have hb : bdim nlat q.len = .ok nlat := by simp [bdim, hq.size]
  rw [hb]
  show Except.ok _ = _
  have e1 : ∀ b, (fun c => okOr0 (diceInter A q C nlat nlon prd tar b c)) = dInter A q C nlon prd tar b := fun b => by
    funext c
    unfold diceInter
    rw [wsum_ok q nlat nlon hq.size.symm]
    rfl
  have e2 : ∀ b, (fun c => okOr0 (diceUnion A q C nlat nlon prd tar b c)) = dUnion A q C nlon prd tar b := fun b => by
    funext c
    unfold diceUnion
    rw [wsum_ok q nlat nlon hq.size.symm]
    rfl
  simp only [e1, e2]

/-- One quotient of the Dice score lies in `[0, 1]`. -/
theorem dice_ratio (x u s : ℝ) (hs : 0 ≤ s) (hx : 0 ≤ x) (hxu : 2 * x ≤ u) (hpos : u + s ≠ 0) :
    ∃ y, Flt.div (2 * x + s) (u + s) = .num y ∧ 0 ≤ y ∧ y ≤ 1 := by
  have : 0 < u + s := lt_of_le_of_ne (by linarith) (Ne.symm hpos)
  exact ⟨_, Flt.div_num _ _ hpos, div_nonneg (by linarith) this.le, (div_le_one this).2 (by linarith)⟩

theorem classAvg_le (w : Option (ℕ → ℝ)) (C : ℕ) (x u : ℕ → ℝ) (h : ∀ c < C, 0 ≤ x c ∧ 2 * x c ≤ u c)
    (hw : ∀ w', w = some w' → ∀ c < C, 0 ≤ w' c) : 0 ≤ classAvg w C x ∧ 2 * classAvg w C x ≤ classAvg w C u := by
  cases w with
  | none =>
    unfold classAvg
    refine ⟨div_nonneg (sum_nonneg fun c hc => (h c (mem_range.1 hc)).1) (by positivity), ?_⟩
    dsimp only
    rw [mul_div_assoc', mul_sum]
    exact div_le_div_of_nonneg_right (sum_le_sum fun c hc => (h c (mem_range.1 hc)).2) (by positivity)
  | some w =>
    unfold classAvg
    refine ⟨sum_nonneg fun c hc => mul_nonneg (h c (mem_range.1 hc)).1 (hw w rfl c (mem_range.1 hc)), ?_⟩
    dsimp only
    rw [mul_sum]
    refine sum_le_sum fun c hc => ?_
    rw [← mul_assoc]
    exact mul_le_mul_of_nonneg_right (h c (mem_range.1 hc)).2 (hw w rfl c (mem_range.1 hc))

/-- C62. The Dice loss without class weights lies in `[0, 1]`, in every mode, for a positive smoothing constant. (With `smooth = 0`
it also does when no denominator vanishes; an item in which every point is ignored then gives NaN, `C62_dice_all_ignored`.) -/
theorem C62_dice_range (A : DiceArgs) (q : Vec ℝ) (nlat nlon C B : ℕ) (hq : UnitWeights q nlat nlon) (hC : 0 < C) (hB : 0 < B)
    (prd : Logits) (tar : Labels) (ht : diceLabelsOk A C B nlat nlon tar) (hs : 0 < A.smooth) (hw : A.weight = none) :
    ∃ y, dice A q C B nlat nlon prd tar = .ok (.num y) ∧ 0 ≤ y ∧ y ≤ 1 := by
  rw [dice_ok A q nlat nlon C B hq hC prd tar ht]
  have item : ∀ b, ∃ y, diceItem A C (dInter A q C nlon prd tar b) (dUnion A q C nlon prd tar b) = .num y ∧ 0 ≤ y ∧ y ≤ 1 := by
    intro b
    have hb := fun c hc => dice_bounds A q nlat nlon C hq prd tar b c hc
    have hr : ∀ c < C, ∃ y, Flt.div (2 * dInter A q C nlon prd tar b c + A.smooth) (dUnion A q C nlon prd tar b c + A.smooth) = .num y
        ∧ 0 ≤ y ∧ y ≤ 1 := fun c hc => dice_ratio _ _ _ hs.le (hb c hc).1 (hb c hc).2 (by linarith [(hb c hc).1, (hb c hc).2])
    have hmean : ∃ y, (Flt.mean C fun c => Flt.div (2 * dInter A q C nlon prd tar b c + A.smooth)
        (dUnion A q C nlon prd tar b c + A.smooth)) = .num y ∧ 0 ≤ y ∧ y ≤ 1 := by
      choose! y hy using hr
      refine ⟨_, Flt.mean_num C hC _ y fun c hc => (hy c hc).1, ?_, ?_⟩
      · exact div_nonneg (sum_nonneg fun c hc => (hy c (mem_range.1 hc)).2.1) (by positivity)
      · refine div_le_one_of_le₀ ?_ (by positivity)
        calc ∑ c ∈ range C, y c ≤ ∑ c ∈ range C, (1 : ℝ) := sum_le_sum fun c hc => (hy c (mem_range.1 hc)).2.2
          _ = C := by simp
    unfold diceItem
    cases A.mode with
    | micro =>
      obtain ⟨h1, h2⟩ := classAvg_le A.weight C _ _ hb (by simp [hw])
      exact dice_ratio _ _ _ hs.le h1 h2 (by linarith)
    | «macro» => simp only [classAvgF, hw]; exact hmean
    | other => exact hmean
  choose y hy using item
  rw [Flt.mean_num B hB _ y fun b _ => (hy b).1]
  have h0 : 0 ≤ (∑ b ∈ range B, y b) / B := div_nonneg (sum_nonneg fun b _ => (hy b).2.1) (by positivity)
  have h1 : (∑ b ∈ range B, y b) / B ≤ 1 := by
    refine div_le_one_of_le₀ ?_ (by positivity)
    calc ∑ b ∈ range B, y b ≤ ∑ b ∈ range B, (1 : ℝ) := sum_le_sum fun b _ => (hy b).2.2
      _ = B := by simp
  exact ⟨_, rfl, by linarith, by linarith⟩

/-- Area of the ignored points of item `b`. -/
noncomputable def ignoredArea (A : DiceArgs) (q : Vec ℝ) (nlat nlon : ℕ) (tar : Labels) (b : ℕ) : ℝ :=
  open Classical in ∑ i ∈ range nlat, ∑ j ∈ range nlon, if A.ignore = some (tar b i j) then q.val i else 0

/-- C62. Ignored points are not left out of the Dice loss: they are counted as points of class 0, so the union of class 0 grows by
their area, while that of every other class does not see them. -/
theorem C62_dice_ignored (A : DiceArgs) (q : Vec ℝ) (nlat nlon C : ℕ) (hq : UnitWeights q nlat nlon) (prd : Logits) (tar : Labels)
    (b c : ℕ) :
    open Classical in
    dUnion A q C nlon prd tar b c = (∑ i ∈ range nlat, ∑ j ∈ range nlon, (if A.ignore = some (tar b i j) then 0 else
      softmax C (fun c => prd b c i j) c + if tar b i j = c then 1 else 0) * q.val i)
      + if c = 0 then ignoredArea A q nlat nlon tar b else 0 := by
  classical
  unfold dUnion avg ignoredArea
  rw [hq.size, show (if c = 0 then ∑ i ∈ range nlat, ∑ j ∈ range nlon, (if A.ignore = some (tar b i j) then q.val i else 0) else 0)
    = ∑ i ∈ range nlat, ∑ j ∈ range nlon, (if c = 0 then (if A.ignore = some (tar b i j) then q.val i else 0) else 0) by
      split <;> simp, ← sum_add_distrib]
  refine sum_congr rfl fun i _ => ?_
  rw [← sum_add_distrib]
  refine sum_congr rfl fun j _ => ?_
  unfold dicePrd diceHot diceTar diceMask
  cases hA : A.ignore with
  | none => simp
  | some g =>
    by_cases hg : tar b i j = g
    · by_cases hc : c = 0
      · simp [hg, hc]
      · have hc' : ¬ (0 : ℤ) = c := by exact_mod_cast Ne.symm hc
        simp [hg, hc, hc']
    · have hg' : ¬ g = tar b i j := fun h => hg h.symm
      simp [hg, hg']

/-- C62. With `smooth = 0`, two or more classes and macro averaging, an item all of whose points are ignored makes the loss NaN. -/
theorem C62_dice_all_ignored (A : DiceArgs) (q : Vec ℝ) (nlat nlon C B : ℕ) (hq : UnitWeights q nlat nlon) (hC : 2 ≤ C)
    (prd : Logits) (tar : Labels) (ht : diceLabelsOk A C B nlat nlon tar) (hs : A.smooth = 0) (hw : A.weight = none)
    (hm : A.mode = .macro) (b : ℕ) (hb : b < B) (hig : ∀ i < nlat, ∀ j < nlon, A.ignore = some (tar b i j)) :
    dice A q C B nlat nlon prd tar = .ok .nan := by
  rw [dice_ok A q nlat nlon C B hq (by omega) prd tar ht]
  have h1 : ∀ i < nlat, ∀ j < nlon, dicePrd A C prd tar b 1 i j = 0 ∧ diceHot A tar b 1 i j = 0 := fun i hi j hj => by
    unfold dicePrd diceHot diceTar diceMask
    rw [hig i hi j hj]
    simp
  have hz : Flt.div (2 * dInter A q C nlon prd tar b 1 + A.smooth) (dUnion A q C nlon prd tar b 1 + A.smooth) = .nan := by
    have e1 : dInter A q C nlon prd tar b 1 = 0 := by
      unfold dInter avg
      rw [hq.size]
      exact sum_eq_zero fun i hi => sum_eq_zero fun j hj => by dsimp only; rw [(h1 i (mem_range.1 hi) j (mem_range.1 hj)).1]; simp
    have e2 : dUnion A q C nlon prd tar b 1 = 0 := by
      unfold dUnion avg
      rw [hq.size]
      refine sum_eq_zero fun i hi => sum_eq_zero fun j hj => ?_
      obtain ⟨h2, h3⟩ := h1 i (mem_range.1 hi) j (mem_range.1 hj)
      dsimp only; rw [h2, h3]; simp
    rw [e1, e2, hs]
    simp [Flt.div, Flt.infOf]
  have hitem : diceItem A C (dInter A q C nlon prd tar b) (dUnion A q C nlon prd tar b) = .nan := by
    unfold diceItem
    rw [hm]
    simp only [classAvgF, hw, Flt.mean]
    rw [Flt_sum_nan C _ 1 (by omega) hz]
    rfl
  unfold Flt.mean
  rw [Flt_sum_nan B _ b hb hitem]
  rfl

/-! ### C63: losses on derivatives -/

theorem fft2_add_const (H W : ℕ) (x : ℕ → ℕ → ℝ) (c : ℝ) (k l : ℕ) :
    fft2 H W (fun i j => ((x i j + c : ℝ) : ℂ)) k l =
      fft2 H W (fun i j => (x i j : ℂ)) k l + c * ((∑ i ∈ range H, root H (-(i * k))) * ∑ j ∈ range W, root W (-(j * l))) := by
  unfold fft2
  rw [sum_mul_sum, mul_sum, ← sum_add_distrib]
  refine sum_congr rfl fun i _ => ?_
  rw [mul_sum, ← sum_add_distrib]
  refine sum_congr rfl fun j _ => ?_
  push_cast
  ring

theorem root_sum_neg (n : ℕ) (k : ℕ) (h0 : 0 < k) (hk : k < n) : ∑ i ∈ range n, root n (-(i * k)) = 0 := by
  have h := root_sum (n := n) (by omega) (-(k : ℤ))
  rw [if_neg] at h
  · rw [← h]
    refine sum_congr rfl fun i _ => ?_
    congr 1; ring
  · rw [Int.dvd_neg]
    exact_mod_cast Nat.not_dvd_of_pos_of_lt h0 hk

theorem fftfreq_zero (n : ℕ) (d : ℝ) : fftfreq n d 0 = 0 := by simp [fftfreq]

/-- C63. The spectral derivatives do not see a constant offset. -/
theorem specDeriv_add_const (nlat nlon : ℕ) (x : ℕ → ℕ → ℝ) (c : ℝ) (i j : ℕ) :
    specDeriv nlat nlon (kPhi nlat nlon) (fun i j => x i j + c) i j = specDeriv nlat nlon (kPhi nlat nlon) x i j ∧
      specDeriv nlat nlon (kTheta nlat nlon) (fun i j => x i j + c) i j = specDeriv nlat nlon (kTheta nlat nlon) x i j := by
  have key : ∀ mesh : ℕ → ℕ → ℝ, (∀ k < nlat, ∀ l < nlon, mesh k l = 0 ∨ (0 < k ∨ 0 < l)) →
      specDeriv nlat nlon mesh (fun i j => x i j + c) i j = specDeriv nlat nlon mesh x i j := by
    intro mesh hm
    unfold specDeriv ifft2
    congr 2
    refine sum_congr rfl fun k hk => sum_congr rfl fun l hl => ?_
    rw [mem_range] at hk hl
    dsimp only
    rw [fft2_add_const]
    rcases hm k hk l hl with h | h | h
    · rw [h]; simp
    · rw [root_sum_neg nlat k h hk]; simp
    · rw [root_sum_neg nlon l h hl]; simp
  constructor
  · refine key _ fun k _ l _ => ?_
    rcases Nat.eq_zero_or_pos l with rfl | h
    · exact Or.inl (fftfreq_zero _ _)
    · exact Or.inr (Or.inr h)
  · refine key _ fun k _ l _ => ?_
    rcases Nat.eq_zero_or_pos k with rfl | h
    · exact Or.inl (fftfreq_zero _ _)
    · exact Or.inr (Or.inl h)

/-- C63. The W11 loss is a non-negative number, symmetric in its arguments, and zero when prediction and target differ by a constant
(in particular when they agree). -/
theorem C63_w11 (q : Vec ℝ) (nlat nlon B : ℕ) (hq : UnitWeights q nlat nlon) (hB : 0 < B) (prd tar : Field) :
    (∃ y, w11 nlat nlon q B nlat nlon prd tar none = .ok (.num y) ∧ 0 ≤ y) ∧
      w11 nlat nlon q B nlat nlon prd tar none = w11 nlat nlon q B nlat nlon tar prd none ∧
      ∀ c : ℕ → ℝ, w11 nlat nlon q B nlat nlon (fun b i j => tar b i j + c b) tar none = .ok (.num 0) := by
  have hn : ∀ k < q.len, 0 ≤ q.val k := fun k hk => hq.nonneg k (hq.size ▸ hk)
  have hv : ∀ p t : Field, w11 nlat nlon q B nlat nlon p t none = .ok (.num ((∑ b ∈ range B, avg q nlon (w11Term nlat nlon p t b)) / B)) :=
    fun p t => by
      unfold w11
      rw [if_pos ⟨rfl, rfl⟩]
      exact lossForward_num q id B nlat nlon hq.size.symm hB _ _ fun b _ => rfl
  refine ⟨⟨_, hv _ _, div_nonneg (sum_nonneg fun b _ => avg_nonneg q nlon hn _ fun i _ j _ => ?_) (by positivity)⟩, ?_, fun c => ?_⟩
  · exact add_nonneg (abs_nonneg _) (abs_nonneg _)
  · have : w11Term nlat nlon prd tar = w11Term nlat nlon tar prd := by
      funext b i j
      simp only [w11Term]
      rw [abs_sub_comm, abs_sub_comm (specDeriv nlat nlon (kTheta nlat nlon) (prd b) i j)]
    rw [hv, hv, this]
  · rw [hv]
    have : ∀ b, avg q nlon (w11Term nlat nlon (fun b i j => tar b i j + c b) tar b) = 0 := fun b =>
      sum_eq_zero fun i _ => sum_eq_zero fun j _ => by
        simp only [w11Term]
        rw [(specDeriv_add_const nlat nlon (tar b) (c b) i j).1, (specDeriv_add_const nlat nlon (tar b) (c b) i j).2]
        simp
    rw [sum_eq_zero fun b _ => this b]
    simp

/-- The vectors that are compared have length one. -/
theorem fNormalize_unit (nlat nlon : ℕ) (x : ℕ → ℕ → ℝ) (i j : ℕ) :
    ∑ c ∈ range 3, fNormalize (rawNormal nlat nlon x i j) c ^ 2 = 1 := by
  have h1 : 1 ≤ ∑ d ∈ range 3, rawNormal nlat nlon x i j d ^ 2 := by
    simp only [sum_range_succ, range_zero, sum_empty, rawNormal]
    norm_num
    positivity
  have hs : 1 ≤ Real.sqrt (∑ d ∈ range 3, rawNormal nlat nlon x i j d ^ 2) := by
    rw [show (1 : ℝ) = Real.sqrt 1 by simp]; exact Real.sqrt_le_sqrt h1
  have hm : max (Real.sqrt (∑ d ∈ range 3, rawNormal nlat nlon x i j d ^ 2)) (1 / 10 ^ 12)
      = Real.sqrt (∑ d ∈ range 3, rawNormal nlat nlon x i j d ^ 2) := max_eq_left (le_trans (by norm_num) hs)
  unfold fNormalize
  simp only [hm, div_pow]
  rw [← sum_div, Real.sq_sqrt (by linarith), div_self (by linarith)]

/-- C63. The normal loss is a number between 0 and 2, zero when prediction and target differ by a constant. (The documentation
announces an additional L1 term; there is none, so a constant error is not penalised.) -/
theorem C63_normal (q : Vec ℝ) (nlat nlon B : ℕ) (hq : UnitWeights q nlat nlon) (hB : 0 < B) (prd tar : Field) :
    (∃ y, normal nlat nlon q B nlat nlon prd tar = .ok (.num y) ∧ 0 ≤ y ∧ y ≤ 2) ∧
      ∀ c : ℕ → ℝ, normal nlat nlon q B nlat nlon (fun b i j => tar b i j + c b) tar = .ok (.num 0) := by
  have hn : ∀ k < q.len, 0 ≤ q.val k := fun k hk => hq.nonneg k (hq.size ▸ hk)
  have hv : ∀ p t : Field, normal nlat nlon q B nlat nlon p t = .ok (.num ((∑ b ∈ range B, avg q nlon (normalTerm nlat nlon p t b)) / B)) :=
    fun p t => by
      unfold normal
      rw [if_pos ⟨rfl, rfl⟩]
      exact lossForward_num q id B nlat nlon hq.size.symm hB _ _ fun b _ => rfl
  have hcs : ∀ b i j, |∑ c ∈ range 3, fNormalize (rawNormal nlat nlon (prd b) i j) c * fNormalize (rawNormal nlat nlon (tar b) i j) c| ≤ 1 := by
    intro b i j
    have := sum_mul_sq_le_sq_mul_sq (range 3) (fNormalize (rawNormal nlat nlon (prd b) i j)) (fNormalize (rawNormal nlat nlon (tar b) i j))
    rw [fNormalize_unit, fNormalize_unit, one_mul] at this
    exact (sq_le_one_iff_abs_le_one _).1 this
  refine ⟨⟨_, hv _ _, ?_, ?_⟩, fun c => ?_⟩
  · refine div_nonneg (sum_nonneg fun b _ => avg_nonneg q nlon hn _ fun i _ j _ => ?_) (by positivity)
    simp only [normalTerm]
    linarith [(abs_le.1 (hcs b i j)).2]
  · have hB' : (0 : ℝ) < B := by exact_mod_cast hB
    rw [div_le_iff₀ hB']
    calc ∑ b ∈ range B, avg q nlon (normalTerm nlat nlon prd tar b) ≤ ∑ b ∈ range B, (2 : ℝ) := by
          refine sum_le_sum fun b _ => ?_
          rw [← avg_const q nlat nlon hq 2]
          unfold avg
          refine sum_le_sum fun i hi => sum_le_sum fun j _ => mul_le_mul_of_nonneg_right ?_ (hn i (mem_range.1 hi))
          simp only [normalTerm]
          linarith [(abs_le.1 (hcs b i j)).1]
      _ = 2 * B := by simp [mul_comm]
  · rw [hv]
    have : ∀ b, avg q nlon (normalTerm nlat nlon (fun b i j => tar b i j + c b) tar b) = 0 := fun b =>
      sum_eq_zero fun i _ => sum_eq_zero fun j _ => by
        have hraw : rawNormal nlat nlon (fun i j => tar b i j + c b) i j = rawNormal nlat nlon (tar b) i j := by
          funext d
          simp only [rawNormal]
          rw [(specDeriv_add_const nlat nlon (tar b) (c b) i j).1, (specDeriv_add_const nlat nlon (tar b) (c b) i j).2]
        simp only [normalTerm]
        rw [hraw]
        simp only [← pow_two]
        rw [fNormalize_unit]
        simp
    rw [sum_eq_zero fun b _ => this b]
    simp

/-! Concrete cases. -/

example : labelsOk 2 (-100) 1 2 2 (fun _ i j => if i = 0 ∧ j = 0 then -100 else 1) := by
  intro b _ i _ j _
  dsimp only
  split
  · exact Or.inl rfl
  · right; norm_num
example : diceLabelsOk ⟨none, 0, some (-100), .macro⟩ 2 1 2 2 (fun _ _ _ => -100) := fun _ _ _ _ _ _ => Or.inl rfl
example : UnitWeights exWeights 2 2 := exWeights_unit

end Verif.Props
