import Mathlib.Algebra.Order.Chebyshev
import Verif.Model.Losses
import Verif.Lemmas.Flt
import Verif.Props.QuadraturePos
/-!
Property theorems C58: area weights and the L1, squared L2 and L2 losses on the sphere.
-/
namespace Verif.Props
open Verif Verif.Dist Verif.Loss Verif.Quad Verif.Spec Finset

/-- Area weights of a grid with `nlat * nlon` points: a non-negative weight per latitude, total area one. -/
structure UnitWeights (q : Vec ℝ) (nlat nlon : ℕ) : Prop where
  size : q.len = nlat
  nonneg : ∀ k < nlat, 0 ≤ q.val k
  total : ∑ k ∈ range nlat, ∑ _j ∈ range nlon, q.val k = 1

/-- C58. The normalised weights are non-negative and sum to one over the grid, on every grid (positive except possibly for an
unconverged Lobatto rule). -/
theorem C58_weights (E : QEnv) (nlat nlon : ℕ) (grid : String) (q : Vec ℝ) (hn : 0 < nlon)
    (hg : grid = "legendre-gauss" → IsGaussRule (E.gauss nlat) nlat)
    (h : quadratureWeights E nlat nlon grid true = .ok q) :
    UnitWeights q nlat nlon ∧ (grid ≠ "lobatto" → ∀ k < nlat, 0 < q.val k) := by
  unfold quadratureWeights at h
  cases hr : precomputeLatitudes E.gauss E.tol E.maxiter nlat grid with
  | error e => rw [hr] at h; cases h
  | ok r =>
    rw [hr] at h
    obtain ⟨h1, h2, h3, h4⟩ := C06_latitude_weights E.gauss E.tol E.maxiter nlat grid r hg hr
    cases h
    have hN : (0 : ℝ) < nlon := by exact_mod_cast hn
    have hc : 0 < 2 * Real.pi / nlon := div_pos Real.two_pi_pos hN
    have e : ∀ k, r.w k * 2 * Real.pi / nlon = r.w k * (2 * Real.pi / nlon) := fun k => by ring
    have hs : 0 < ∑ i ∈ range r.n, r.w i * 2 * Real.pi / nlon := by
      rw [sum_congr rfl fun k _ => e k, ← sum_mul]; exact mul_pos h3 hc
    refine ⟨⟨h1, fun k hk => ?_, ?_⟩, fun hl k hk => ?_⟩
    · simp only [if_true]
      have := h2 k (by omega)
      rw [e]
      exact div_nonneg (div_nonneg (mul_nonneg this hc.le) hs.le) hN.le
    · simp only [if_true, sum_const, card_range, nsmul_eq_mul]
      rw [← h1, ← mul_sum, ← sum_div, ← sum_div, div_self hs.ne']
      field_simp
    · simp only [if_true]
      have := h4 hl k (by omega)
      rw [e]
      exact div_pos (div_pos (mul_pos this hc) hs) hN

/-- C58. The weights that are not normalised add up to the area `4 pi` of the sphere, when the latitude weights add up to 2 (C04). -/
theorem C58_weights_area (E : QEnv) (nlat nlon : ℕ) (grid : String) (q : Vec ℝ) (r : Rule) (hn : 0 < nlon)
    (hr : precomputeLatitudes E.gauss E.tol E.maxiter nlat grid = .ok r) (h2 : ∑ k ∈ range r.n, r.w k = 2)
    (h : quadratureWeights E nlat nlon grid false = .ok q) :
    q.len = r.n ∧ ∑ k ∈ range r.n, ∑ _j ∈ range nlon, q.val k = 4 * Real.pi := by
  unfold quadratureWeights at h
  rw [hr] at h
  cases h
  have hN : (nlon : ℝ) ≠ 0 := by exact_mod_cast hn.ne'
  refine ⟨rfl, ?_⟩
  simp only [Bool.false_eq_true, if_false, sum_const, card_range, nsmul_eq_mul]
  have e : ∀ k, (nlon : ℝ) * (r.w k * 2 * Real.pi / nlon) = r.w k * (2 * Real.pi) := fun k => by field_simp
  rw [sum_congr rfl fun k _ => e k, ← sum_mul, h2]; ring

/-- C58. Tiling repeats the column: every point of a latitude has the same weight. -/
theorem C58_weights_tiled (E : QEnv) (nlat nlon : ℕ) (grid : String) (nz : Bool) (q : Mat ℝ)
    (h : quadratureWeightsTiled E nlat nlon grid nz = .ok q) :
    ∃ c, quadratureWeights E nlat nlon grid nz = .ok c ∧ q.d0 = c.len ∧ q.d1 = nlon ∧ ∀ k j, q.val k j = c.val k := by
  unfold quadratureWeightsTiled at h
  cases hc : quadratureWeights E nlat nlon grid nz with
  | error e => rw [hc] at h; cases h
  | ok c => rw [hc] at h; cases h; exact ⟨c, rfl, rfl, rfl, fun _ _ => rfl⟩

/-- C58. An unknown grid is refused. -/
theorem C58_unknown_grid (E : QEnv) (nlat nlon : ℕ) (grid : String) (nz : Bool)
    (h : grid ∉ ["equiangular-trapezoidal", "legendre-gauss", "lobatto", "equiangular"]) :
    quadratureWeights E nlat nlon grid nz = .error .valueError := by
  simp only [List.mem_cons, List.not_mem_nil, or_false, not_or] at h
  obtain ⟨h1, h2, h3, h4⟩ := h
  simp [quadratureWeights, precomputeLatitudes, precomputeQuadratureWeights, h1, h2, h3, h4, bind, Except.bind]

/-! ### Integration -/

theorem wsum_ok (q : Vec ℝ) (H W : ℕ) (hH : H = q.len) (u : ℕ → ℕ → ℝ) :
    wsum q H W u = .ok (∑ i ∈ range q.len, ∑ j ∈ range W, u i j * q.val i) := by
  unfold wsum bdim
  rw [if_pos hH]
  show Except.ok _ = _
  congr 1
  rw [hH]
  refine sum_congr rfl fun i hi => sum_congr rfl fun j _ => ?_
  rw [mem_range] at hi
  unfold bidx
  split
  · next h => rw [show i = 0 by omega]
  · rfl

/-- The weighted average over the grid. -/
noncomputable def avg (q : Vec ℝ) (W : ℕ) (u : ℕ → ℕ → ℝ) : ℝ := ∑ i ∈ range q.len, ∑ j ∈ range W, u i j * q.val i

/-- The loss of one batch item. -/
noncomputable def itemLoss (q : Vec ℝ) (W : ℕ) (u : ℕ → ℕ → ℝ) (mask : Option (ℕ → ℕ → ℝ)) : Flt :=
  match mask with
  | none => .num (avg q W u)
  | some m => .div (avg q W fun i j => m i j * u i j) (avg q W m)

theorem lossForward_ok (q : Vec ℝ) (hook : Flt → Flt) (B H W : ℕ) (hH : H = q.len) (term : Field) (mask : Option Field) :
    lossForward q hook B H W term mask = .ok (Flt.mean B fun b => hook (itemLoss q W (term b) (mask.map fun m => m b))) := by
  unfold lossForward
  have hb : bdim H q.len = .ok H := by simp [bdim, hH]
  rw [hb]
  show Except.ok _ = _
  congr 2
  funext b
  cases mask with
  | none => simp only [integrateSphere, wsum_ok q H W hH, itemLoss, avg, Option.map_none]; rfl
  | some m => simp only [integrateSphere, wsum_ok q H W hH, itemLoss, avg, Option.map_some]; rfl

theorem lossForward_num (q : Vec ℝ) (hook : Flt → Flt) (B H W : ℕ) (hH : H = q.len) (hB : 0 < B) (term : Field) (g : ℕ → ℝ)
    (hg : ∀ b < B, hook (.num (avg q W (term b))) = .num (g b)) :
    lossForward q hook B H W term none = .ok (.num ((∑ b ∈ range B, g b) / B)) := by
  rw [lossForward_ok q hook B H W hH]
  exact congrArg Except.ok (Flt.mean_num B hB _ g hg)

theorem avg_nonneg (q : Vec ℝ) (W : ℕ) (hq : ∀ k < q.len, 0 ≤ q.val k) (u : ℕ → ℕ → ℝ) (hu : ∀ i < q.len, ∀ j < W, 0 ≤ u i j) :
    0 ≤ avg q W u :=
  sum_nonneg fun i hi => sum_nonneg fun j hj =>
    mul_nonneg (hu i (mem_range.1 hi) j (mem_range.1 hj)) (hq i (mem_range.1 hi))

theorem avg_zero_iff (q : Vec ℝ) (W : ℕ) (hq : ∀ k < q.len, 0 < q.val k) (u : ℕ → ℕ → ℝ) (hu : ∀ i < q.len, ∀ j < W, 0 ≤ u i j) :
    avg q W u = 0 ↔ ∀ i < q.len, ∀ j < W, u i j = 0 := by
  unfold avg
  have h0 : ∀ i ∈ range q.len, ∀ j ∈ range W, 0 ≤ u i j * q.val i := fun i hi j hj =>
    mul_nonneg (hu i (mem_range.1 hi) j (mem_range.1 hj)) (hq i (mem_range.1 hi)).le
  rw [sum_eq_zero_iff_of_nonneg fun i hi => sum_nonneg (h0 i hi)]
  constructor
  · intro h i hi j hj
    have := (sum_eq_zero_iff_of_nonneg (h0 i (mem_range.2 hi))).1 (h i (mem_range.2 hi)) j (mem_range.2 hj)
    exact (mul_eq_zero.1 this).resolve_right (hq i hi).ne'
  · intro h i hi
    exact sum_eq_zero fun j hj => by rw [h i (mem_range.1 hi) j (mem_range.1 hj), zero_mul]

theorem avg_congr (q : Vec ℝ) (W : ℕ) (u v : ℕ → ℕ → ℝ) (h : ∀ i < q.len, ∀ j < W, u i j = v i j) : avg q W u = avg q W v :=
  sum_congr rfl fun i hi => sum_congr rfl fun j hj => by rw [h i (mem_range.1 hi) j (mem_range.1 hj)]

theorem avg_const (q : Vec ℝ) (nlat nlon : ℕ) (hq : UnitWeights q nlat nlon) (d : ℝ) : avg q nlon (fun _ _ => d) = d := by
  unfold avg
  have := hq.total
  simp only [← mul_sum, hq.size]
  rw [this, mul_one]

/-! ### The losses without mask -/

/-- C58. Values: the average over the batch of the area-weighted average of `|p - t|`, of `(p - t)^2`, of the root of the latter. -/
theorem C58_values (q : Vec ℝ) (nlat nlon B : ℕ) (hq : UnitWeights q nlat nlon) (hB : 0 < B) (prd tar : Field) :
    l1 q B nlat nlon prd tar none = .ok (.num ((∑ b ∈ range B, ∑ i ∈ range nlat, ∑ j ∈ range nlon,
      |prd b i j - tar b i j| * q.val i) / B)) ∧
    squaredL2 q B nlat nlon prd tar none = .ok (.num ((∑ b ∈ range B, ∑ i ∈ range nlat, ∑ j ∈ range nlon,
      (prd b i j - tar b i j) ^ 2 * q.val i) / B)) ∧
    l2 q B nlat nlon prd tar none = .ok (.num ((∑ b ∈ range B, Real.sqrt (∑ i ∈ range nlat, ∑ j ∈ range nlon,
      (prd b i j - tar b i j) ^ 2 * q.val i)) / B)) := by
  unfold l1 squaredL2 l2
  refine ⟨?_, ?_, ?_⟩
  · rw [lossForward_num q _ B nlat nlon hq.size.symm hB _ (fun b => avg q nlon (l1Term prd tar b)) fun b _ => rfl]
    unfold avg; rw [hq.size]; rfl
  · rw [lossForward_num q _ B nlat nlon hq.size.symm hB _ (fun b => avg q nlon (squaredL2Term prd tar b)) fun b _ => rfl]
    unfold avg; rw [hq.size]; rfl
  · rw [lossForward_num q _ B nlat nlon hq.size.symm hB _ (fun b => Real.sqrt (avg q nlon (squaredL2Term prd tar b))) fun b _ => ?_]
    · unfold avg; rw [hq.size]; rfl
    · have : 0 ≤ avg q nlon (squaredL2Term prd tar b) := avg_nonneg q nlon (fun k hk => hq.nonneg k (hq.size ▸ hk)) _
        fun i _ j _ => sq_nonneg _
      simp only [Flt.sqrt]
      rw [if_neg (not_lt.2 this)]

/-- Prediction and target agree on the grid. -/
def SameField (B nlat nlon : ℕ) (prd tar : Field) : Prop := ∀ b < B, ∀ i < nlat, ∀ j < nlon, prd b i j = tar b i j

/-- C58. Non-negative; for positive weights zero exactly when prediction and target agree at every point. -/
theorem C58_zero_iff (q : Vec ℝ) (nlat nlon B : ℕ) (hq : UnitWeights q nlat nlon) (hp : ∀ k < nlat, 0 < q.val k) (hB : 0 < B)
    (prd tar : Field) :
    ∃ y1 ys y2 : ℝ, l1 q B nlat nlon prd tar none = .ok (.num y1) ∧ squaredL2 q B nlat nlon prd tar none = .ok (.num ys) ∧
      l2 q B nlat nlon prd tar none = .ok (.num y2) ∧ 0 ≤ y1 ∧ 0 ≤ ys ∧ 0 ≤ y2 ∧
      (y1 = 0 ↔ SameField B nlat nlon prd tar) ∧ (ys = 0 ↔ SameField B nlat nlon prd tar) ∧
      (y2 = 0 ↔ SameField B nlat nlon prd tar) := by
  obtain ⟨h1, h2, h3⟩ := C58_values q nlat nlon B hq hB prd tar
  have hB' : (B : ℝ) ≠ 0 := by exact_mod_cast hB.ne'
  have a1 : ∀ b, 0 ≤ ∑ i ∈ range nlat, ∑ j ∈ range nlon, |prd b i j - tar b i j| * q.val i := fun b =>
    sum_nonneg fun i hi => sum_nonneg fun j _ => mul_nonneg (abs_nonneg _) (hq.nonneg i (mem_range.1 hi))
  have a2 : ∀ b, 0 ≤ ∑ i ∈ range nlat, ∑ j ∈ range nlon, (prd b i j - tar b i j) ^ 2 * q.val i := fun b =>
    sum_nonneg fun i hi => sum_nonneg fun j _ => mul_nonneg (sq_nonneg _) (hq.nonneg i (mem_range.1 hi))
  have z1 : ∀ b, (∑ i ∈ range nlat, ∑ j ∈ range nlon, |prd b i j - tar b i j| * q.val i) = 0 ↔
      ∀ i < nlat, ∀ j < nlon, prd b i j = tar b i j := fun b => by
    have := avg_zero_iff q nlon (fun k hk => hp k (hq.size ▸ hk)) (fun i j => |prd b i j - tar b i j|) fun _ _ _ _ => abs_nonneg _
    unfold avg at this
    rw [hq.size] at this
    rw [this]
    simp only [abs_eq_zero, sub_eq_zero]
  have z2 : ∀ b, (∑ i ∈ range nlat, ∑ j ∈ range nlon, (prd b i j - tar b i j) ^ 2 * q.val i) = 0 ↔
      ∀ i < nlat, ∀ j < nlon, prd b i j = tar b i j := fun b => by
    have := avg_zero_iff q nlon (fun k hk => hp k (hq.size ▸ hk)) (fun i j => (prd b i j - tar b i j) ^ 2) fun _ _ _ _ => sq_nonneg _
    unfold avg at this
    rw [hq.size] at this
    rw [this]
    simp only [pow_eq_zero_iff two_ne_zero, sub_eq_zero]
  refine ⟨_, _, _, h1, h2, h3, div_nonneg (sum_nonneg fun b _ => a1 b) (by positivity),
    div_nonneg (sum_nonneg fun b _ => a2 b) (by positivity),
    div_nonneg (sum_nonneg fun b _ => Real.sqrt_nonneg _) (by positivity), ?_, ?_, ?_⟩
  · rw [div_eq_zero_iff, or_iff_left hB', sum_eq_zero_iff_of_nonneg fun b _ => a1 b]
    simp only [mem_range, z1]; rfl
  · rw [div_eq_zero_iff, or_iff_left hB', sum_eq_zero_iff_of_nonneg fun b _ => a2 b]
    simp only [mem_range, z2]; rfl
  · rw [div_eq_zero_iff, or_iff_left hB', sum_eq_zero_iff_of_nonneg fun b _ => Real.sqrt_nonneg _]
    simp only [mem_range, Real.sqrt_eq_zero (a2 _), z2]; rfl

/-- C58. On equal fields the losses vanish, whatever the weights. -/
theorem C58_equal (q : Vec ℝ) (nlat nlon B : ℕ) (hq : UnitWeights q nlat nlon) (hB : 0 < B) (prd tar : Field)
    (h : SameField B nlat nlon prd tar) :
    l1 q B nlat nlon prd tar none = .ok (.num 0) ∧ squaredL2 q B nlat nlon prd tar none = .ok (.num 0) ∧
      l2 q B nlat nlon prd tar none = .ok (.num 0) := by
  obtain ⟨h1, h2, h3⟩ := C58_values q nlat nlon B hq hB prd tar
  rw [h1, h2, h3]
  have e1 : ∀ b ∈ range B, ∑ i ∈ range nlat, ∑ j ∈ range nlon, |prd b i j - tar b i j| * q.val i = 0 := fun b hb =>
    sum_eq_zero fun i hi => sum_eq_zero fun j hj => by
      rw [h b (mem_range.1 hb) i (mem_range.1 hi) j (mem_range.1 hj)]; simp
  have e2 : ∀ b ∈ range B, ∑ i ∈ range nlat, ∑ j ∈ range nlon, (prd b i j - tar b i j) ^ 2 * q.val i = 0 := fun b hb =>
    sum_eq_zero fun i hi => sum_eq_zero fun j hj => by
      rw [h b (mem_range.1 hb) i (mem_range.1 hi) j (mem_range.1 hj)]; simp
  rw [sum_eq_zero e1, sum_eq_zero e2, sum_eq_zero fun b hb => by rw [e2 b hb, Real.sqrt_zero]]
  simp

/-- C58. A constant difference `d` gives `|d|`, `d^2` and `|d|`. -/
theorem C58_constant (q : Vec ℝ) (nlat nlon B : ℕ) (hq : UnitWeights q nlat nlon) (hB : 0 < B) (prd tar : Field) (d : ℝ)
    (h : ∀ b < B, ∀ i < nlat, ∀ j < nlon, prd b i j = tar b i j + d) :
    l1 q B nlat nlon prd tar none = .ok (.num |d|) ∧ squaredL2 q B nlat nlon prd tar none = .ok (.num (d ^ 2)) ∧
      l2 q B nlat nlon prd tar none = .ok (.num |d|) := by
  obtain ⟨h1, h2, h3⟩ := C58_values q nlat nlon B hq hB prd tar
  rw [h1, h2, h3]
  have hB' : (B : ℝ) ≠ 0 := by exact_mod_cast hB.ne'
  have c : ∀ x : ℝ, ∑ i ∈ range nlat, ∑ _j ∈ range nlon, x * q.val i = x := fun x => by
    have := avg_const q nlat nlon hq x
    unfold avg at this
    rwa [hq.size] at this
  have e1 : ∀ b ∈ range B, ∑ i ∈ range nlat, ∑ j ∈ range nlon, |prd b i j - tar b i j| * q.val i = |d| := fun b hb => by
    refine (sum_congr rfl fun i hi => sum_congr rfl fun j hj => ?_).trans (c |d|)
    rw [h b (mem_range.1 hb) i (mem_range.1 hi) j (mem_range.1 hj), add_sub_cancel_left]
  have e2 : ∀ b ∈ range B, ∑ i ∈ range nlat, ∑ j ∈ range nlon, (prd b i j - tar b i j) ^ 2 * q.val i = d ^ 2 := fun b hb => by
    refine (sum_congr rfl fun i hi => sum_congr rfl fun j hj => ?_).trans (c (d ^ 2))
    rw [h b (mem_range.1 hb) i (mem_range.1 hi) j (mem_range.1 hj), add_sub_cancel_left]
  have e3 : ∀ b ∈ range B, Real.sqrt (∑ i ∈ range nlat, ∑ j ∈ range nlon, (prd b i j - tar b i j) ^ 2 * q.val i) = |d| :=
    fun b hb => by rw [e2 b hb, Real.sqrt_sq_eq_abs]
  rw [sum_congr rfl e1, sum_congr rfl e2, sum_congr rfl e3]
  simp only [sum_const, card_range, nsmul_eq_mul]
  refine ⟨?_, ?_, ?_⟩ <;> congr 2 <;> field_simp

/-- C58. Swapping prediction and target changes nothing. -/
theorem C58_symmetric (q : Vec ℝ) (B H W : ℕ) (prd tar : Field) (mask : Option Field) :
    l1 q B H W prd tar mask = l1 q B H W tar prd mask ∧ squaredL2 q B H W prd tar mask = squaredL2 q B H W tar prd mask ∧
      l2 q B H W prd tar mask = l2 q B H W tar prd mask := by
  have e1 : l1Term prd tar = l1Term tar prd := by funext b i j; exact abs_sub_comm _ _
  have e2 : squaredL2Term prd tar = squaredL2Term tar prd := by funext b i j; simp only [squaredL2Term]; ring
  simp only [l1, squaredL2, l2, e1, e2, and_self]

/-- C58. The L1 loss is at most the L2 loss (Cauchy-Schwarz for weights of total one). -/
theorem C58_l1_le_l2 (q : Vec ℝ) (nlat nlon B : ℕ) (hq : UnitWeights q nlat nlon) (hB : 0 < B) (prd tar : Field) :
    ∃ y1 y2 : ℝ, l1 q B nlat nlon prd tar none = .ok (.num y1) ∧ l2 q B nlat nlon prd tar none = .ok (.num y2) ∧ y1 ≤ y2 := by
  obtain ⟨h1, -, h3⟩ := C58_values q nlat nlon B hq hB prd tar
  refine ⟨_, _, h1, h3, div_le_div_of_nonneg_right (sum_le_sum fun b _ => ?_) (by positivity)⟩
  refine Real.le_sqrt_of_sq_le ?_
  have conv : ∀ f : ℕ → ℕ → ℝ, ∑ i ∈ range nlat, ∑ j ∈ range nlon, f i j = ∑ p ∈ range nlat ×ˢ range nlon, f p.1 p.2 := fun f =>
    (sum_product' _ _ _).symm
  rw [conv, conv]
  have hw : ∀ p ∈ range nlat ×ˢ range nlon, 0 ≤ q.val p.1 := fun p hp => hq.nonneg _ (mem_range.1 (mem_product.1 hp).1)
  have cs := sum_mul_sq_le_sq_mul_sq (range nlat ×ˢ range nlon) (fun p => |prd b p.1 p.2 - tar b p.1 p.2| * Real.sqrt (q.val p.1))
    (fun p => Real.sqrt (q.val p.1))
  have t : ∑ p ∈ range nlat ×ˢ range nlon, Real.sqrt (q.val p.1) ^ 2 = 1 := by
    rw [sum_congr rfl fun p hp => Real.sq_sqrt (hw p hp), ← conv fun i _ => q.val i, hq.total]
  rw [t, mul_one] at cs
  calc (∑ p ∈ range nlat ×ˢ range nlon, |prd b p.1 p.2 - tar b p.1 p.2| * q.val p.1) ^ 2
      = (∑ p ∈ range nlat ×ˢ range nlon, |prd b p.1 p.2 - tar b p.1 p.2| * Real.sqrt (q.val p.1) * Real.sqrt (q.val p.1)) ^ 2 := by
        congr 1
        refine sum_congr rfl fun p hp => ?_
        rw [mul_assoc, Real.mul_self_sqrt (hw p hp)]
    _ ≤ _ := cs
    _ = _ := by
        refine sum_congr rfl fun p hp => ?_
        rw [mul_pow, sq_abs, Real.sq_sqrt (hw p hp)]

/-! ### Masks -/

/-- C58. A masked loss does not depend on the fields where the mask vanishes. -/
theorem C58_mask_hides (q : Vec ℝ) (nlat nlon B : ℕ) (hq : q.len = nlat) (prd tar prd' tar' mask : Field)
    (h : ∀ b < B, ∀ i < nlat, ∀ j < nlon, mask b i j ≠ 0 → prd b i j = prd' b i j ∧ tar b i j = tar' b i j) :
    l1 q B nlat nlon prd tar (some mask) = l1 q B nlat nlon prd' tar' (some mask) ∧
      squaredL2 q B nlat nlon prd tar (some mask) = squaredL2 q B nlat nlon prd' tar' (some mask) ∧
      l2 q B nlat nlon prd tar (some mask) = l2 q B nlat nlon prd' tar' (some mask) := by
  have key : ∀ (f : ℝ → ℝ → ℝ) (hook : Flt → Flt),
      lossForward q hook B nlat nlon (fun b i j => f (prd b i j) (tar b i j)) (some mask)
        = lossForward q hook B nlat nlon (fun b i j => f (prd' b i j) (tar' b i j)) (some mask) := by
    intro f hook
    rw [lossForward_ok q hook B nlat nlon hq.symm, lossForward_ok q hook B nlat nlon hq.symm]
    congr 1
    unfold Flt.mean
    rw [Flt.sum_congr B _ _ fun b hb => ?_]
    simp only [Option.map_some, itemLoss]
    rw [avg_congr q nlon _ (fun i j => mask b i j * f (prd' b i j) (tar' b i j))]
    intro i hi j hj
    by_cases hm : mask b i j = 0
    · rw [hm, zero_mul, zero_mul]
    · obtain ⟨e1, e2⟩ := h b hb i (hq ▸ hi) j hj hm
      rw [e1, e2]
  exact ⟨key (fun p t => |p - t|) id, key (fun p t => (p - t) ^ 2) id, key (fun p t => (p - t) ^ 2) Flt.sqrt⟩

/-- The masked area of an item. -/
noncomputable def maskArea (q : Vec ℝ) (nlat nlon : ℕ) (m : ℕ → ℕ → ℝ) : ℝ := ∑ i ∈ range nlat, ∑ j ∈ range nlon, m i j * q.val i

/-- C58. A constant difference `d` on the mask gives `|d|`, `d^2` and `|d|`, if every item has some masked area. -/
theorem C58_mask_constant (q : Vec ℝ) (nlat nlon B : ℕ) (hq : q.len = nlat) (hB : 0 < B) (prd tar mask : Field) (d : ℝ)
    (hm : ∀ b < B, maskArea q nlat nlon (mask b) ≠ 0)
    (h : ∀ b < B, ∀ i < nlat, ∀ j < nlon, mask b i j ≠ 0 → prd b i j = tar b i j + d) :
    l1 q B nlat nlon prd tar (some mask) = .ok (.num |d|) ∧ squaredL2 q B nlat nlon prd tar (some mask) = .ok (.num (d ^ 2)) ∧
      l2 q B nlat nlon prd tar (some mask) = .ok (.num |d|) := by
  have hB' : (B : ℝ) ≠ 0 := by exact_mod_cast hB.ne'
  have key : ∀ (f : ℝ → ℝ → ℝ) (hook : Flt → Flt) (x y : ℝ), (∀ t, f (t + d) t = x) → hook (.num x) = .num y →
      lossForward q hook B nlat nlon (fun b i j => f (prd b i j) (tar b i j)) (some mask) = .ok (.num y) := by
    intro f hook x y hf hy
    rw [lossForward_ok q hook B nlat nlon hq.symm, Flt.mean_num B hB _ (fun _ => y)]
    · simp only [sum_const, card_range, nsmul_eq_mul]
      congr 2
      field_simp
    · intro b hb
      simp only [Option.map_some, itemLoss]
      have hm' : avg q nlon (mask b) ≠ 0 := by
        have := hm b hb
        unfold maskArea at this
        unfold avg
        rwa [hq]
      have e : avg q nlon (fun i j => mask b i j * f (prd b i j) (tar b i j)) = x * avg q nlon (mask b) := by
        unfold avg
        rw [mul_sum]
        refine sum_congr rfl fun i hi => ?_
        rw [mul_sum]
        refine sum_congr rfl fun j hj => ?_
        dsimp only
        by_cases h0 : mask b i j = 0
        · rw [h0]; ring
        · rw [h b hb i (hq ▸ mem_range.1 hi) j (mem_range.1 hj) h0, hf]; ring
      rw [e, Flt.div_num _ _ hm', mul_div_assoc, div_self hm', mul_one, hy]
  refine ⟨key (fun p t => |p - t|) id |d| |d| (fun t => by simp) rfl, key (fun p t => (p - t) ^ 2) id _ _ (fun t => by simp) rfl,
    key (fun p t => (p - t) ^ 2) Flt.sqrt (d ^ 2) |d| (fun t => by simp) ?_⟩
  simp only [Flt.sqrt]
  rw [if_neg (not_lt.2 (sq_nonneg d)), Real.sqrt_sq_eq_abs]

theorem Flt_sum_nan (n : ℕ) (f : ℕ → Flt) (i : ℕ) (hi : i < n) (h : f i = .nan) : Flt.sum n f = .nan := by
  induction n with
  | zero => omega
  | succ n ih =>
    rw [Flt.sum_succ]
    rcases Nat.lt_succ_iff_lt_or_eq.1 hi with hi | rfl
    · rw [ih hi]; cases f n <;> rfl
    · rw [h]; cases Flt.sum i f <;> rfl

/-- C58. If the mask of some item is empty, the loss of the whole batch is NaN. -/
theorem C58_mask_empty (q : Vec ℝ) (nlat nlon B : ℕ) (hq : q.len = nlat) (prd tar mask : Field) (b : ℕ) (hb : b < B)
    (hm : ∀ i < nlat, ∀ j < nlon, mask b i j = 0) :
    l1 q B nlat nlon prd tar (some mask) = .ok .nan ∧ squaredL2 q B nlat nlon prd tar (some mask) = .ok .nan ∧
      l2 q B nlat nlon prd tar (some mask) = .ok .nan := by
  have key : ∀ (term : Field) (hook : Flt → Flt), hook .nan = .nan →
      lossForward q hook B nlat nlon term (some mask) = .ok .nan := by
    intro term hook hh
    rw [lossForward_ok q hook B nlat nlon hq.symm]
    unfold Flt.mean
    rw [Flt_sum_nan B _ b hb]
    · rfl
    · have z1 : avg q nlon (mask b) = 0 := sum_eq_zero fun i hi => sum_eq_zero fun j hj => by
        rw [hm i (hq ▸ mem_range.1 hi) j (mem_range.1 hj), zero_mul]
      have z2 : avg q nlon (fun i j => mask b i j * term b i j) = 0 := sum_eq_zero fun i hi => sum_eq_zero fun j hj => by
        dsimp only
        rw [hm i (hq ▸ mem_range.1 hi) j (mem_range.1 hj), zero_mul, zero_mul]
      simp only [Option.map_some, itemLoss, z1, z2, Flt.div, Flt.infOf, if_true, hh]
  exact ⟨key _ _ rfl, key _ _ rfl, key _ _ rfl⟩

/-! ### Extents -/

/-- C58. A wrong number of latitudes raises (unless one of the two extents is 1, which torch broadcasts). -/
theorem C58_latitude_error (q : Vec ℝ) (B H W : ℕ) (prd tar : Field) (mask : Option Field) (h : H ≠ q.len) (h1 : H ≠ 1)
    (h2 : q.len ≠ 1) :
    l1 q B H W prd tar mask = .error .runtimeError ∧ squaredL2 q B H W prd tar mask = .error .runtimeError ∧
      l2 q B H W prd tar mask = .error .runtimeError := by
  have hb : bdim H q.len = .error .runtimeError := by simp [bdim, h, h1, h2]
  simp [l1, squaredL2, l2, lossForward, hb, bind, Except.bind]

/-- C58. A wrong number of longitudes is not noticed: a constant difference `d` on fields with `W` longitudes gives
`|d| * W / nlon`. -/
theorem C58_longitudes_unchecked (q : Vec ℝ) (nlat nlon B W : ℕ) (hq : UnitWeights q nlat nlon) (hB : 0 < B) (hn : 0 < nlon)
    (tar : Field) (d : ℝ) :
    l1 q B nlat W (fun b i j => tar b i j + d) tar none = .ok (.num (|d| * (W / nlon))) := by
  have hB' : (B : ℝ) ≠ 0 := by exact_mod_cast hB.ne'
  have hN : (nlon : ℝ) ≠ 0 := by exact_mod_cast hn.ne'
  unfold l1
  rw [lossForward_ok q _ B nlat W hq.size.symm, Flt.mean_num B hB _ (fun _ => |d| * (W / nlon))]
  · simp only [sum_const, card_range, nsmul_eq_mul]
    congr 2
    field_simp
  · intro b _
    simp only [Option.map_none, itemLoss, id, avg, l1Term, add_sub_cancel_left, hq.size]
    have := hq.total
    simp only [sum_const, card_range, nsmul_eq_mul] at this ⊢
    rw [← mul_sum] at this
    have e : ∑ k ∈ range nlat, q.val k = 1 / nlon := by field_simp; linarith
    rw [← mul_sum, ← mul_sum, e]
    congr 1
    ring

/-! Concrete cases. -/

/-- Two latitudes with weights 1/8 and 3/8, two longitudes. -/
noncomputable def exWeights : Vec ℝ := ⟨2, fun k => if k = 0 then 1 / 8 else 3 / 8⟩

theorem exWeights_unit : UnitWeights exWeights 2 2 where
  size := rfl
  nonneg := fun k _ => by simp only [exWeights]; split <;> norm_num
  total := by norm_num [exWeights, sum_range_succ]

example : ∀ k < 2, 0 < exWeights.val k := fun k _ => by simp only [exWeights]; split <;> norm_num
example (E : QEnv) : ∃ q, quadratureWeights E 5 8 "equiangular" true = .ok q := by
  simp [quadratureWeights, precomputeLatitudes, precomputeQuadratureWeights, clenshawCurtissWeights, bind, Except.bind, pure, Except.pure]
example : ∀ b < 2, maskArea exWeights 2 2 ((fun _ i _ => if i = 0 then 1 else 0 : Field) b) ≠ 0 := fun b _ => by
  norm_num [maskArea, exWeights, sum_range_succ]

end Verif.Props
