import Verif.Model.StanfordData
import Verif.Spec.StanfordData
import Verif.Props.Losses
/-!
C82: `compute_stats_s2`.
-/
namespace Verif.Props
open Finset Verif.Stanford Verif.Loss

/-- The state of the recurrence after `n` values with means `a` and squared deviations `b`. -/
noncomputable def welfordSeq (a b : ℕ → ℝ) : ℕ → Welford
  | 0 => ⟨0, 0⟩
  | n + 1 => if n = 0 then ⟨a 0, b 0⟩ else welfordUpdate n (welfordSeq a b n) ⟨a n, b n⟩

theorem welfordSeq_mean (a b : ℕ → ℝ) (n : ℕ) (hn : 0 < n) : (welfordSeq a b n).mean = (∑ i ∈ range n, a i) / n := by
  induction n with
  | zero => omega
  | succ n ih =>
    rw [welfordSeq]
    rcases Nat.eq_zero_or_pos n with rfl | h
    · simp
    · rw [if_neg h.ne', welfordUpdate]
      dsimp only
      rw [ih h, sum_range_succ]
      have h1 : (n : ℝ) ≠ 0 := by exact_mod_cast h.ne'
      have h2 : ((n + 1 : ℕ) : ℝ) ≠ 0 := by exact_mod_cast n.succ_ne_zero
      push_cast at h2 ⊢
      field_simp
      ring

theorem welfordSeq_m2 (a b : ℕ → ℝ) (n : ℕ) (hn : 0 < n) :
    (welfordSeq a b n).m2 = ∑ i ∈ range n, (b i + (a i - (welfordSeq a b n).mean) ^ 2) := by
  induction n with
  | zero => omega
  | succ n ih =>
    rcases Nat.eq_zero_or_pos n with rfl | h
    · simp [welfordSeq]
    · have hm := welfordSeq_mean a b n h
      have hm' := welfordSeq_mean a b (n + 1) n.succ_pos
      have h1 : (n : ℝ) ≠ 0 := by exact_mod_cast h.ne'
      have h2 : ((n : ℝ) + 1) ≠ 0 := by exact_mod_cast n.succ_ne_zero
      have hs : ∑ i ∈ range n, (a i - (welfordSeq a b n).mean) = 0 := by
        rw [sum_sub_distrib, sum_const, card_range, nsmul_eq_mul, hm]; field_simp; ring
      have e : (welfordSeq a b (n + 1)).mean = (welfordSeq a b n).mean + (a n - (welfordSeq a b n).mean) / (n + 1) := by
        conv_lhs => rw [welfordSeq]
        rw [if_neg h.ne', welfordUpdate]; push_cast; rfl
      have em : (welfordSeq a b (n + 1)).m2 = (welfordSeq a b n).m2 + b n + (a n - (welfordSeq a b n).mean) ^ 2 * n / (n + 1) := by
        conv_lhs => rw [welfordSeq]
        rw [if_neg h.ne', welfordUpdate]; push_cast; rfl
      have hq : ∑ i ∈ range n, (b i + (a i - (welfordSeq a b (n + 1)).mean) ^ 2) =
          ∑ i ∈ range n, (b i + (a i - (welfordSeq a b n).mean) ^ 2) + n * ((a n - (welfordSeq a b n).mean) / (n + 1)) ^ 2 := by
        have : ∀ i ∈ range n, b i + (a i - (welfordSeq a b (n + 1)).mean) ^ 2 = b i + (a i - (welfordSeq a b n).mean) ^ 2 +
            ((a n - (welfordSeq a b n).mean) / (n + 1)) ^ 2 - 2 * ((a n - (welfordSeq a b n).mean) / (n + 1)) * (a i - (welfordSeq a b n).mean) := by
          intro i _; rw [e]; ring
        rw [sum_congr rfl this, sum_sub_distrib, sum_add_distrib, ← mul_sum, hs, sum_const, card_range, nsmul_eq_mul]
        ring
      rw [sum_range_succ, hq, em, ih h, e]
      field_simp
      ring

/-- All items are pairs. -/
def Pairs (n : ℕ) (item : ℕ → Token) (x : ℕ → ℕ → ℕ → ℕ → ℝ) (t : ℕ → ℕ → ℕ → ℝ) : Prop := ∀ i < n, item i = .pair (x i) (t i)

/-- The numbers of a target picture where it has valid pixels. -/
theorem maskedStats_some {H W : ℕ} {q t : ℕ → ℕ → ℝ} (h : areaSum H W q (validMask t) ≠ 0) : maskedStats H W q t =
    some ⟨areaSum H W q (fun k j => validMask t k j * t k j) / areaSum H W q (validMask t),
      areaSum H W q (fun k j => validMask t k j * (t k j - areaSum H W q (fun k j => validMask t k j * t k j) / areaSum H W q (validMask t)) ^ 2) /
        areaSum H W q (validMask t)⟩ := by
  unfold maskedStats
  rw [if_neg h]

theorem maskedStats_none {H W : ℕ} {q t : ℕ → ℕ → ℝ} (h : areaSum H W q (validMask t) = 0) : maskedStats H W q t = none := by
  unfold maskedStats
  rw [if_pos h]

theorem statLoop_spec (H W : ℕ) (q : ℕ → ℕ → ℝ) (item : ℕ → Token) (x : ℕ → ℕ → ℕ → ℕ → ℝ) (t : ℕ → ℕ → ℕ → ℝ) : ∀ n, 0 < n → Pairs n item x t →
    ∃ s, statLoop H W q item n = .ok (some s) ∧ s.count = n ∧
      (∀ c, s.inp c = welfordSeq (fun i => (imageStats H W q (x i c)).mean) (fun i => (imageStats H W q (x i c)).m2) n) ∧
      ((∃ i < n, maskedStats H W q (t i) = none) → s.tar = none) ∧
      (∀ a b : ℕ → ℝ, (∀ i < n, maskedStats H W q (t i) = some ⟨a i, b i⟩) → s.tar = some (welfordSeq a b n)) := by
  intro n
  induction n with
  | zero => intro h; omega
  | succ n ih =>
    intro _ hp
    rw [statLoop]
    rcases Nat.eq_zero_or_pos n with rfl | h
    · rw [hp 0 (by omega)]
      refine ⟨⟨1, fun c => imageStats H W q (x 0 c), maskedStats H W q (t 0)⟩, rfl, rfl, fun c => ?_, ?_, ?_⟩
      · simp [welfordSeq]
      · rintro ⟨i, hi, h⟩
        obtain rfl : i = 0 := by omega
        exact h
      · intro a b hab
        simp [welfordSeq, hab 0 (by omega)]
    · obtain ⟨s, h1, h2, h3, h4, h5⟩ := ih h fun i hi => hp i (by omega)
      rw [h1, hp n (by omega)]
      refine ⟨⟨s.count + 1, fun c => welfordUpdate s.count (s.inp c) (imageStats H W q (x n c)), welfordUpdateNan s.count s.tar (maskedStats H W q (t n))⟩, rfl, by rw [h2],
        fun c => ?_, ?_, ?_⟩
      · dsimp only
        rw [h2, h3 c, welfordSeq, if_neg h.ne']
      · rintro ⟨i, hi, hh⟩
        dsimp only
        rcases Nat.lt_or_ge i n with hlt | hge
        · rw [h4 ⟨i, hlt, hh⟩]; rfl
        · obtain rfl : i = n := by omega
          rw [hh]
          cases s.tar <;> rfl
      · intro a b hab
        dsimp only
        rw [h5 a b fun i hi => hab i (by omega), hab n (by omega), h2, welfordSeq, if_neg h.ne']
        rfl

theorem areaSum_const {H W : ℕ} {q : ℕ → ℕ → ℝ} (hq : ∑ k ∈ range H, ∑ j ∈ range W, q k j = 1) (m : ℝ) : areaSum H W q (fun _ _ => m) = m := by
  unfold areaSum
  simp only [← mul_sum, hq, mul_one]

theorem areaSum_add (H W : ℕ) (q u v : ℕ → ℕ → ℝ) : areaSum H W q (fun k j => u k j + v k j) = areaSum H W q u + areaSum H W q v := by
  unfold areaSum
  simp only [add_mul, sum_add_distrib]

theorem areaSum_mul (H W : ℕ) (q u : ℕ → ℕ → ℝ) (m : ℝ) : areaSum H W q (fun k j => m * u k j) = m * areaSum H W q u := by
  unfold areaSum
  simp only [mul_sum, mul_assoc]

theorem areaSum_congr {H W : ℕ} {q u v : ℕ → ℕ → ℝ} (h : ∀ k < H, ∀ j < W, u k j = v k j) : areaSum H W q u = areaSum H W q v :=
  sum_congr rfl fun k hk => sum_congr rfl fun j hj => by rw [h k (mem_range.1 hk) j (mem_range.1 hj)]

/-- Deviations from another value than the mean. -/
theorem areaSum_shift {H W : ℕ} {q : ℕ → ℕ → ℝ} (hq : ∑ k ∈ range H, ∑ j ∈ range W, q k j = 1) (u : ℕ → ℕ → ℝ) (m : ℝ) :
    areaSum H W q (fun k j => (u k j - m) ^ 2) = areaSum H W q (fun k j => (u k j - areaSum H W q u) ^ 2) + (areaSum H W q u - m) ^ 2 := by
  obtain ⟨A, hA⟩ : ∃ A, A = areaSum H W q u := ⟨_, rfl⟩
  rw [← hA]
  have : areaSum H W q (fun k j => (u k j - m) ^ 2) = areaSum H W q (fun k j => (u k j - A) ^ 2 + (2 * (A - m) * u k j + (- (2 * (A - m) * A) + (A - m) ^ 2))) :=
    areaSum_congr fun k _ j _ => by ring
  rw [this, areaSum_add, areaSum_add, areaSum_mul, areaSum_const hq, ← hA]
  ring

theorem pooledMean_eq (n H W : ℕ) (q : ℕ → ℕ → ℝ) (x : ℕ → ℕ → ℕ → ℝ) : pooledMean n H W q x = (∑ i ∈ range n, areaSum H W q (x i)) / n := by
  unfold pooledMean areaSum
  simp only [mul_comm]

theorem pooledVar_eq (n H W : ℕ) (q : ℕ → ℕ → ℝ) (x : ℕ → ℕ → ℕ → ℝ) :
    pooledVar n H W q x = (∑ i ∈ range n, areaSum H W q (fun k j => (x i k j - pooledMean n H W q x) ^ 2)) / n := by
  unfold pooledVar areaSum
  simp only [mul_comm]

/-- The recurrence gives mean and variance. -/
theorem welford_pooled {n H W : ℕ} (hn : 0 < n) {q : ℕ → ℕ → ℝ} (hq : ∑ k ∈ range H, ∑ j ∈ range W, q k j = 1) (x : ℕ → ℕ → ℕ → ℝ) :
    let s := welfordSeq (fun i => (imageStats H W q (x i)).mean) (fun i => (imageStats H W q (x i)).m2) n
    s.mean = pooledMean n H W q x ∧ s.m2 = n * pooledVar n H W q x := by
  intro s
  have h1 : s.mean = pooledMean n H W q x := by
    rw [pooledMean_eq]
    exact welfordSeq_mean _ _ n hn
  refine ⟨h1, ?_⟩
  have h2 : s.m2 = _ := welfordSeq_m2 _ _ n hn
  have hn' : (n : ℝ) ≠ 0 := by exact_mod_cast hn.ne'
  rw [h2, pooledVar_eq, mul_div_cancel₀ _ hn']
  refine sum_congr rfl fun i _ => ?_
  rw [areaSum_shift hq, ← h1]
  rfl

/-- The weights that `compute_stats_s2` uses exist from two rows on; they are positive, the same along a row, and add up to 1. -/
theorem stat_weights (E : QEnv) (H W : ℕ) (hH : 2 ≤ H) (hW : 0 < W) : ∃ q, quadratureWeightsTiled E H W "equiangular" true = .ok q ∧
    (∑ k ∈ range H, ∑ j ∈ range W, q.val k j = 1) ∧ ∀ k < H, ∀ j, 0 < q.val k j := by
  have h : ∃ c, quadratureWeights E H W "equiangular" true = .ok c := by
    simp [quadratureWeights, Quad.precomputeLatitudes, Quad.precomputeQuadratureWeights, Quad.clenshawCurtissWeights, bind, Except.bind, pure, Except.pure, show ¬ H ≤ 1 by omega]
  obtain ⟨c, hc⟩ := h
  obtain ⟨h1, h2⟩ := C58_weights E H W "equiangular" c hW (by simp) hc
  refine ⟨⟨c.len, W, fun k _ => c.val k⟩, ?_, h1.total, fun k hk _ => h2 (by decide) k hk⟩
  unfold quadratureWeightsTiled
  rw [hc]
  rfl

/-- C82. The statistics of the inputs. For every data set of at least one pair, every channel: the mean and standard deviation returned are those over all
pictures and pixels, pixels weighted with their area (`C58_weights`). -/
theorem C82_input (E : QEnv) (n H W : ℕ) (hn : 0 < n) (hW : 0 < W) (item : ℕ → Token) (x : ℕ → ℕ → ℕ → ℕ → ℝ) (t : ℕ → ℕ → ℕ → ℝ) (hp : Pairs n item x t)
    (q : Dist.Mat ℝ) (hq : quadratureWeightsTiled E H W "equiangular" true = .ok q) (nt : Bool) :
    ∃ r, computeStats E n H W item nt = .ok r ∧ ∀ c, r.mean c = pooledMean n H W q.val (fun i => x i c) ∧ r.std c = Real.sqrt (pooledVar n H W q.val (fun i => x i c)) := by
  have hsum : ∑ k ∈ range H, ∑ j ∈ range W, q.val k j = 1 := by
    obtain ⟨c, h1, _, _, h2⟩ := C58_weights_tiled E H W "equiangular" true q hq
    simp only [h2]
    exact (C58_weights E H W "equiangular" c hW (by simp) h1).1.total
  obtain ⟨s, h1, h2, h3, -⟩ := statLoop_spec H W q.val item x t n hn hp
  unfold computeStats
  rw [if_neg hn.ne', hp 0 hn]
  dsimp only
  rw [hq]
  simp only [bind, Except.bind, h1]
  refine ⟨_, rfl, fun c => ?_⟩
  obtain ⟨e1, e2⟩ := welford_pooled hn hsum (fun i => x i c)
  have hn' : (n : ℝ) ≠ 0 := by exact_mod_cast hn.ne'
  dsimp only
  rw [h3 c, h2]
  exact ⟨e1, by rw [e2, mul_div_cancel_left₀ _ hn']⟩

/-- C82. Inputs that are normalised with these statistics have mean 0 and variance 1, unless the channel is constant. -/
theorem C82_normalised (n H W : ℕ) (hn : 0 < n) (q : ℕ → ℕ → ℝ) (hq : ∑ k ∈ range H, ∑ j ∈ range W, q k j = 1) (x : ℕ → ℕ → ℕ → ℝ)
    (hv : 0 < pooledVar n H W q x) :
    let y : ℕ → ℕ → ℕ → ℝ := fun i k j => (x i k j - pooledMean n H W q x) / Real.sqrt (pooledVar n H W q x)
    pooledMean n H W q y = 0 ∧ pooledVar n H W q y = 1 := by
  intro y
  have hn' : (n : ℝ) ≠ 0 := by exact_mod_cast hn.ne'
  have hs : Real.sqrt (pooledVar n H W q x) ≠ 0 := (Real.sqrt_pos.2 hv).ne'
  obtain ⟨M, hM⟩ : ∃ M, M = pooledMean n H W q x := ⟨_, rfl⟩
  obtain ⟨S, hS⟩ : ∃ S, S = Real.sqrt (pooledVar n H W q x) := ⟨_, rfl⟩
  have ey : ∀ i k j, y i k j = S⁻¹ * x i k j + -(S⁻¹ * M) := fun i k j => by simp only [y, ← hM, ← hS]; ring
  have h0 : pooledMean n H W q y = 0 := by
    rw [pooledMean_eq]
    have : ∀ i ∈ range n, areaSum H W q (y i) = S⁻¹ * areaSum H W q (x i) + -(S⁻¹ * M) := fun i _ => by
      rw [show y i = fun k j => S⁻¹ * x i k j + -(S⁻¹ * M) from funext fun k => funext fun j => ey i k j, areaSum_add, areaSum_mul, areaSum_const hq]
    rw [sum_congr rfl this, sum_add_distrib, ← mul_sum, sum_const, card_range, nsmul_eq_mul]
    have h : ∑ i ∈ range n, areaSum H W q (x i) = n * M := by rw [hM, pooledMean_eq, mul_div_cancel₀ _ hn']
    rw [h]
    field_simp
    ring
  refine ⟨h0, ?_⟩
  have hSS : S ^ 2 = pooledVar n H W q x := by rw [hS, Real.sq_sqrt hv.le]
  rw [pooledVar_eq, h0]
  have : ∀ i ∈ range n, areaSum H W q (fun k j => (y i k j - 0) ^ 2) = (S ^ 2)⁻¹ * areaSum H W q (fun k j => (x i k j - M) ^ 2) := fun i _ => by
    rw [← areaSum_mul]
    refine areaSum_congr fun k _ j _ => ?_
    rw [ey]
    have : S ≠ 0 := hS ▸ hs
    field_simp
    ring
  rw [sum_congr rfl this, ← mul_sum, mul_div_assoc, hM, ← pooledVar_eq, ← hSS]
  have : S ≠ 0 := hS ▸ hs
  field_simp

theorem validAverage_eq (H W : ℕ) (q t f : ℕ → ℕ → ℝ) :
    validAverage H W q t f = areaSum H W q (fun k j => validMask t k j * f k j) / areaSum H W q (validMask t) := by
  unfold validAverage areaSum validMask
  congr 1
  · refine sum_congr rfl fun k _ => sum_congr rfl fun j _ => ?_
    dsimp only
    by_cases h : t k j = 0
    · rw [if_pos h, if_pos h]; ring
    · rw [if_neg h, if_neg h]; ring
  · refine sum_congr rfl fun k _ => sum_congr rfl fun j _ => ?_
    by_cases h : t k j = 0
    · rw [if_pos h, if_pos h]; ring
    · rw [if_neg h, if_neg h]; ring

/-- With positive weights the masked area is 0 only without any valid pixel. -/
theorem validArea_eq_zero {H W : ℕ} {q : ℕ → ℕ → ℝ} (hpos : ∀ k < H, ∀ j, 0 < q k j) (t : ℕ → ℕ → ℝ) :
    areaSum H W q (validMask t) = 0 ↔ ∀ k < H, ∀ j < W, t k j = 0 := by
  have hnn : ∀ k ∈ range H, ∀ j ∈ range W, 0 ≤ validMask t k j * q k j := fun k hk j _ =>
    mul_nonneg (by unfold validMask; split <;> simp) (hpos k (mem_range.1 hk) j).le
  unfold areaSum
  rw [sum_eq_zero_iff_of_nonneg fun k hk => sum_nonneg fun j hj => hnn k hk j hj]
  constructor
  · intro h k hk j hj
    have h1 := (sum_eq_zero_iff_of_nonneg fun j hj => hnn k (mem_range.2 hk) j hj).1 (h k (mem_range.2 hk)) j (mem_range.2 hj)
    rcases mul_eq_zero.1 h1 with h2 | h2
    · unfold validMask at h2
      by_contra h3
      rw [if_neg h3] at h2
      exact one_ne_zero h2
    · exact absurd h2 (hpos k hk j).ne'
  · intro h k hk
    refine sum_eq_zero fun j hj => ?_
    unfold validMask
    rw [if_pos (h k (mem_range.1 hk) j (mem_range.1 hj)), zero_mul]

/-- Deviations from another value than the average over the valid pixels. -/
theorem validAverage_shift {H W : ℕ} {q t : ℕ → ℕ → ℝ} (hA : areaSum H W q (validMask t) ≠ 0) (u : ℕ → ℕ → ℝ) (m : ℝ) :
    validAverage H W q t (fun k j => (u k j - m) ^ 2) =
      validAverage H W q t (fun k j => (u k j - validAverage H W q t u) ^ 2) + (validAverage H W q t u - m) ^ 2 := by
  obtain ⟨A, hAv⟩ : ∃ A, A = validAverage H W q t u := ⟨_, rfl⟩
  have hu : areaSum H W q (fun k j => validMask t k j * u k j) = A * areaSum H W q (validMask t) := by
    rw [hAv, validAverage_eq, div_mul_cancel₀ _ hA]
  rw [← hAv, validAverage_eq, validAverage_eq]
  have : areaSum H W q (fun k j => validMask t k j * (u k j - m) ^ 2) = areaSum H W q (fun k j => validMask t k j * (u k j - A) ^ 2 +
      (2 * (A - m) * (validMask t k j * u k j) + (- (2 * (A - m) * A) + (A - m) ^ 2) * validMask t k j)) :=
    areaSum_congr fun k _ j _ => by ring
  rw [this, areaSum_add, areaSum_add, areaSum_mul, areaSum_mul, hu]
  field_simp
  ring

/-- C82. The statistics of the targets, if asked for. If every target has a valid pixel (one that is not 0), they are the plain average over the pictures of the average over
the valid pixels of each, and the root of the average of the squared deviations from this number. If some target has none, they are NaN. If not asked for, there are
none. -/
theorem C82_target (E : QEnv) (n H W : ℕ) (hn : 0 < n) (hH : 2 ≤ H) (hW : 0 < W) (item : ℕ → Token) (x : ℕ → ℕ → ℕ → ℕ → ℝ) (t : ℕ → ℕ → ℕ → ℝ)
    (hp : Pairs n item x t) : ∃ q, quadratureWeightsTiled E H W "equiangular" true = .ok q ∧
    ((∀ i < n, ∃ k < H, ∃ j < W, t i k j ≠ 0) →
      let M := (∑ i ∈ range n, validAverage H W q.val (t i) (t i)) / n
      (computeStats E n H W item true).map (·.target) =
        .ok (some (some (M, Real.sqrt ((∑ i ∈ range n, validAverage H W q.val (t i) fun k j => (t i k j - M) ^ 2) / n))))) ∧
    ((∃ i < n, ∀ k < H, ∀ j < W, t i k j = 0) → (computeStats E n H W item true).map (·.target) = .ok (some none)) ∧
    (computeStats E n H W item false).map (·.target) = .ok none := by
  obtain ⟨q, hq, hsum, hpos⟩ := stat_weights E H W hH hW
  refine ⟨q, hq, ?_⟩
  obtain ⟨s, h1, h2, -, h4, h5⟩ := statLoop_spec H W q.val item x t n hn hp
  have key : ∀ nt, (computeStats E n H W item nt).map (·.target) = .ok (if nt then some (s.tar.map fun t => (t.mean, Real.sqrt (t.m2 / s.count))) else none) := by
    intro nt
    unfold computeStats
    rw [if_neg hn.ne', hp 0 hn]
    dsimp only
    rw [hq]
    simp only [bind, Except.bind, h1]
    rfl
  rw [key true, key false]
  refine ⟨fun hv => ?_, fun hv => ?_, rfl⟩
  · intro M
    have hA : ∀ i < n, areaSum H W q.val (validMask (t i)) ≠ 0 := fun i hi h => by
      obtain ⟨k, hk, j, hj, hne⟩ := hv i hi
      exact hne ((validArea_eq_zero hpos (t i)).1 h k hk j hj)
    have h6 := h5 (fun i => validAverage H W q.val (t i) (t i)) (fun i => validAverage H W q.val (t i) fun k j => (t i k j - validAverage H W q.val (t i) (t i)) ^ 2)
      (fun i hi => by rw [maskedStats_some (hA i hi)]; simp only [validAverage_eq])
    have e1 := welfordSeq_mean (fun i => validAverage H W q.val (t i) (t i))
      (fun i => validAverage H W q.val (t i) fun k j => (t i k j - validAverage H W q.val (t i) (t i)) ^ 2) n hn
    have e2 := welfordSeq_m2 (fun i => validAverage H W q.val (t i) (t i))
      (fun i => validAverage H W q.val (t i) fun k j => (t i k j - validAverage H W q.val (t i) (t i)) ^ 2) n hn
    rw [h6, if_pos rfl, Option.map_some, e2, e1, h2]
    have e3 : ∀ i ∈ range n, validAverage H W q.val (t i) (fun k j => (t i k j - validAverage H W q.val (t i) (t i)) ^ 2) +
        (validAverage H W q.val (t i) (t i) - (∑ i ∈ range n, validAverage H W q.val (t i) (t i)) / n) ^ 2 =
        validAverage H W q.val (t i) fun k j => (t i k j - M) ^ 2 := fun i hi => (validAverage_shift (hA i (mem_range.1 hi)) (t i) M).symm
    rw [sum_congr rfl e3]
  · obtain ⟨i, hi, h⟩ := hv
    rw [if_pos rfl, h4 ⟨i, hi, maskedStats_none ((validArea_eq_zero hpos (t i)).2 h)⟩]
    rfl

/-- C82. Errors: an empty data set, and items with an index (`return_index`), wherever they occur. -/
theorem C82_errors (E : QEnv) (H W : ℕ) (hH : 2 ≤ H) (hW : 0 < W) (item : ℕ → Token) (nt : Bool) :
    computeStats E 0 H W item nt = .error .nameError ∧
    ∀ n i x t k, i < n → item i = .triple x t k → computeStats E n H W item nt = .error .valueError := by
  refine ⟨rfl, fun n i x t k hi h => ?_⟩
  have loop : ∀ q m, i < m → statLoop H W q item m = .error .valueError := by
    intro q m
    induction m with
    | zero => intro hm; omega
    | succ m ih =>
      intro hm
      rw [statLoop]
      rcases Nat.lt_or_ge i m with hlt | hge
      · rw [ih hlt]; rfl
      · obtain rfl : i = m := by omega
        cases hs : statLoop H W q item i with
        | ok s => rw [h]; rfl
        | error e =>
          have : ∀ l, ∀ e, statLoop H W q item l = .error e → e = .valueError := by
            intro l
            induction l with
            | zero => intro e h; cases h
            | succ l ihl =>
              intro e h
              rw [statLoop] at h
              cases hl : statLoop H W q item l with
              | error e' => rw [hl] at h; cases h; exact ihl _ hl
              | ok s =>
                rw [hl] at h
                cases hit : item l with
                | triple _ _ _ => rw [hit] at h; cases h; rfl
                | pair _ _ => rw [hit] at h; cases s <;> cases h
          rw [this i e hs]; rfl
  obtain ⟨q, hq, -⟩ := stat_weights E H W hH hW
  unfold computeStats
  rw [if_neg (by omega)]
  cases item 0 with
  | triple _ _ _ => rfl
  | pair _ _ =>
    dsimp only
    rw [hq]
    simp only [bind, Except.bind, loop q.val n hi]

/-- C82. The order of the items does not matter, for inputs. -/
theorem C82_order_spec (n H W : ℕ) (q : ℕ → ℕ → ℝ) (x : ℕ → ℕ → ℕ → ℝ) (σ : Equiv.Perm ℕ) (hσ : ∀ i, i < n ↔ σ i < n) :
    pooledMean n H W q (fun i => x (σ i)) = pooledMean n H W q x ∧ pooledVar n H W q (fun i => x (σ i)) = pooledVar n H W q x := by
  have key : ∀ f : ℕ → ℝ, ∑ i ∈ range n, f (σ i) = ∑ i ∈ range n, f i := fun f =>
    sum_equiv σ (fun i => by rw [mem_range, mem_range]; exact hσ i) fun i _ => rfl
  have h : pooledMean n H W q (fun i => x (σ i)) = pooledMean n H W q x := by
    rw [pooledMean_eq, pooledMean_eq]
    exact congrArg (· / (n : ℝ)) (key fun i => areaSum H W q (x i))
  refine ⟨h, ?_⟩
  rw [pooledVar_eq, pooledVar_eq, h]
  exact congrArg (· / (n : ℝ)) (key fun i => areaSum H W q fun k j => (x i k j - pooledMean n H W q x) ^ 2)

/-- C82. The order of the items does not matter. -/
theorem C82_order (E : QEnv) (n H W : ℕ) (hn : 0 < n) (hH : 2 ≤ H) (hW : 0 < W) (item : ℕ → Token) (x : ℕ → ℕ → ℕ → ℕ → ℝ) (t : ℕ → ℕ → ℕ → ℝ)
    (hp : Pairs n item x t) (σ : Equiv.Perm ℕ) (hσ : ∀ i, i < n ↔ σ i < n) (nt : Bool) :
    computeStats E n H W (fun i => item (σ i)) nt = computeStats E n H W item nt := by
  have hp' : Pairs n (fun i => item (σ i)) (fun i => x (σ i)) (fun i => t (σ i)) := fun i hi => hp _ ((hσ i).1 hi)
  obtain ⟨q, hq, hsum, hpos⟩ := stat_weights E H W hH hW
  obtain ⟨r, hr, hr'⟩ := C82_input E n H W hn hW item x t hp q hq nt
  obtain ⟨r2, hr2, hr2'⟩ := C82_input E n H W hn hW _ _ _ hp' q hq nt
  have key : ∀ f : ℕ → ℝ, ∑ i ∈ range n, f (σ i) = ∑ i ∈ range n, f i := fun f =>
    sum_equiv σ (fun i => by rw [mem_range, mem_range]; exact hσ i) fun i _ => rfl
  have hmean : r2.mean = r.mean := funext fun c => by
    rw [(hr' c).1, (hr2' c).1, (C82_order_spec n H W q.val (fun i => x i c) σ hσ).1]
  have hstd : r2.std = r.std := funext fun c => by
    rw [(hr' c).2, (hr2' c).2, (C82_order_spec n H W q.val (fun i => x i c) σ hσ).2]
  have htar : r2.target = r.target := by
    obtain ⟨q1, h1, h2, h3, h4⟩ := C82_target E n H W hn hH hW item x t hp
    obtain ⟨q2, g1, g2, g3, g4⟩ := C82_target E n H W hn hH hW _ _ _ hp'
    obtain rfl : q1 = q2 := by rw [h1] at g1; exact Except.ok.inj g1
    cases nt with
    | false =>
      rw [hr] at h4
      rw [hr2] at g4
      exact (Except.ok.inj g4).trans (Except.ok.inj h4).symm
    | true =>
      by_cases hv : ∃ i < n, ∀ k < H, ∀ j < W, t i k j = 0
      · have h := h3 hv
        have g := g3 (by
          obtain ⟨i, hi, hh⟩ := hv
          refine ⟨σ.symm i, (hσ _).2 (by simpa using hi), ?_⟩
          simpa using hh)
        rw [hr] at h
        rw [hr2] at g
        exact (Except.ok.inj g).trans (Except.ok.inj h).symm
      · push Not at hv
        have h := h2 hv
        have g := g2 fun i hi => hv _ ((hσ i).1 hi)
        rw [hr] at h
        rw [hr2] at g
        have h' : r.target = _ := Except.ok.inj h
        have g' : r2.target = _ := Except.ok.inj g
        rw [h', g']
        rw [key fun i => validAverage H W q1.val (t i) (t i)]
        rw [key fun i => validAverage H W q1.val (t i) fun k j => (t i k j - (∑ i ∈ range n, validAverage H W q1.val (t i) (t i)) / n) ^ 2]
  rw [hr, hr2]
  cases r; cases r2
  simp only at hmean hstd htar
  rw [hmean, hstd, htar]

/-- C82, finding. The statistics of the targets are not those over all valid pixels: a picture with few valid pixels counts as much as one with many. On every grid, for a
picture that is 1 everywhere and one that is 3 in the first row and invalid elsewhere, the mean returned is 2, while the mean over the valid area is smaller. -/
theorem C82_target_not_pooled (E : QEnv) (H W : ℕ) (hH : 2 ≤ H) (hW : 0 < W) (x : ℕ → ℕ → ℕ → ℕ → ℝ) :
    let t : ℕ → ℕ → ℕ → ℝ := fun i k _ => if i = 0 then 1 else if k = 0 then 3 else 0
    ∃ q s, quadratureWeightsTiled E H W "equiangular" true = .ok q ∧
      (computeStats E 2 H W (fun i => .pair (x i) (t i)) true).map (·.target) = .ok (some (some (2, s))) ∧
      (∑ i ∈ range 2, ∑ k ∈ range H, ∑ j ∈ range W, if t i k j = 0 then 0 else q.val k j * t i k j) /
        (∑ i ∈ range 2, ∑ k ∈ range H, ∑ j ∈ range W, if t i k j = 0 then 0 else q.val k j) < 2 := by
  intro t
  obtain ⟨q, hq, hsum, hpos⟩ := stat_weights E H W hH hW
  obtain ⟨q', hq', h, -⟩ := C82_target E 2 H W (by omega) hH hW (fun i => .pair (x i) (t i)) x t fun i _ => rfl
  obtain rfl : q = q' := by rw [hq] at hq'; exact Except.ok.inj hq'
  have h := h (fun i hi => ⟨0, by omega, 0, hW, by simp only [t]; split <;> simp⟩)
  obtain ⟨A, hA⟩ : ∃ A, A = ∑ j ∈ range W, q.val 0 j := ⟨_, rfl⟩
  have hA0 : 0 < A := by rw [hA]; exact sum_pos (fun j _ => hpos 0 (by omega) j) ⟨0, mem_range.2 hW⟩
  have hA1 : A < 1 := by
    rw [hA, ← hsum]
    refine (single_lt_sum (f := fun k => ∑ j ∈ range W, q.val k j) (i := 0) (j := 1) (by simp) (mem_range.2 (by omega)) (mem_range.2 (by omega)) ?_ ?_)
    · exact sum_pos (fun j _ => hpos 1 (by omega) j) ⟨0, mem_range.2 hW⟩
    · exact fun k hk _ => sum_nonneg fun j _ => (hpos k (mem_range.1 hk) j).le
  have row : ∀ v : ℝ, (∑ k ∈ range H, ∑ j ∈ range W, if k = 0 then q.val k j * v else 0) = A * v := fun v => by
    have : ∀ k ∈ range H, (∑ j ∈ range W, if k = 0 then q.val k j * v else 0) = if k = 0 then A * v else 0 := fun k _ => by
      split
      · rename_i hk; rw [hk, hA, sum_mul]
      · simp
    rw [sum_congr rfl this, sum_ite_eq' (range H) 0, if_pos (mem_range.2 (by omega))]
  have row1 : (∑ k ∈ range H, ∑ j ∈ range W, if k = 0 then q.val k j else 0) = A := by simpa using row 1
  have t0 : ∀ k j, t 0 k j = 1 := fun _ _ => by simp [t]
  have t1 : ∀ k j, t 1 k j = if k = 0 then 3 else 0 := fun _ _ => by simp [t]
  have c1 : ∀ k j, (if (if k = 0 then (3 : ℝ) else 0) = 0 then (0 : ℝ) else q.val k j * (if k = 0 then 3 else 0)) = if k = 0 then q.val k j * 3 else 0 := fun k j => by
    by_cases hk : k = 0 <;> simp [hk]
  have c2 : ∀ k j, (if (if k = 0 then (3 : ℝ) else 0) = 0 then (0 : ℝ) else q.val k j) = if k = 0 then q.val k j else 0 := fun k j => by
    by_cases hk : k = 0 <;> simp [hk]
  have v0 : validAverage H W q.val (t 0) (t 0) = 1 := by
    unfold validAverage
    simp only [t0, one_ne_zero, if_false, mul_one, hsum, div_one]
  have v1 : validAverage H W q.val (t 1) (t 1) = 3 := by
    unfold validAverage
    simp only [t1, c1, c2, row, row1]
    field_simp
  have hM : (∑ i ∈ range 2, validAverage H W q.val (t i) (t i)) / ((2 : ℕ) : ℝ) = 2 := by
    rw [sum_range_succ, sum_range_one, v0, v1]
    norm_num
  dsimp only at h
  rw [hM] at h
  refine ⟨q, _, hq, h, ?_⟩
  · rw [sum_range_succ, sum_range_one, sum_range_succ, sum_range_one]
    simp only [t0, t1, c1, c2, row, row1, one_ne_zero, if_false, mul_one, hsum]
    rw [div_lt_iff₀ (by linarith)]
    linarith

/-- The hypotheses: a data set of two pairs, with valid pixels. -/
example : Pairs 2 (fun i => .pair (fun _ _ _ => i) (fun _ _ => 1)) (fun i _ _ _ => i) (fun _ _ _ => 1) := fun _ _ => rfl

example : 0 < pooledVar 2 1 1 (fun _ _ => 1) (fun i _ _ => i) := by
  simp [pooledVar, pooledMean, sum_range_succ]
  norm_num

end Verif.Props
