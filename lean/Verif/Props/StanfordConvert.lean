import Verif.Props.StanfordStats
import Mathlib.Order.Bounds.Basic
/-!
C83: what `convert_dataset` records about the data set.
-/
namespace Verif.Props
open Finset Verif.Stanford Verif.Loss

/-- The weights of the conversion are those of `get_quadrature_weights`. -/
theorem convertWeights_eq (E : QEnv) (H W : ℕ) (hH : 2 ≤ H) (hW : 0 < W) : ∃ q q', convertWeights E H W = .ok q ∧ quadratureWeightsTiled E H W "equiangular" true = .ok q' ∧
    ∀ k j, q k j = q'.val k j := by
  have h : ∃ r, Quad.precomputeLatitudes E.gauss E.tol E.maxiter H "equiangular" = .ok r := by
    simp [Quad.precomputeLatitudes, Quad.precomputeQuadratureWeights, Quad.clenshawCurtissWeights, bind, Except.bind, pure, Except.pure, show ¬ H ≤ 1 by omega]
  obtain ⟨r, hr⟩ := h
  unfold convertWeights quadratureWeightsTiled quadratureWeights
  rw [hr]
  refine ⟨_, _, rfl, rfl, fun k j => ?_⟩
  have hN : (W : ℝ) ≠ 0 := by exact_mod_cast hW.ne'
  simp only [if_true, sum_const, card_range, nsmul_eq_mul, ← mul_sum]
  generalize ∑ i ∈ range r.n, r.w i * 2 * Real.pi / W = S
  rw [div_div, div_div, div_div]
  ring_nf

/-- C83. The weights of the conversion are positive and add up to 1. -/
theorem C83_weights (E : QEnv) (H W : ℕ) (hH : 2 ≤ H) (hW : 0 < W) :
    ∃ q, convertWeights E H W = .ok q ∧ (∑ k ∈ range H, ∑ j ∈ range W, q k j = 1) ∧ ∀ k < H, ∀ j, 0 < q k j := by
  obtain ⟨q, q', h1, h2, h3⟩ := convertWeights_eq E H W hH hW
  obtain ⟨q'', g1, g2, g3⟩ := stat_weights E H W hH hW
  obtain rfl : q' = q'' := by rw [h2] at g1; exact Except.ok.inj g1
  exact ⟨q, h1, by simp only [h3]; exact g2, fun k hk j => by rw [h3]; exact g3 k hk j⟩

theorem foldl_min_spec : ∀ (xs : List ℝ) (x : ℝ), IsLeast {y | y ∈ x :: xs} (xs.foldl min x)
  | [], x => ⟨by simp, by intro y hy; simp at hy; simp [hy]⟩
  | z :: zs, x => by
    obtain ⟨h1, h2⟩ := foldl_min_spec zs (min x z)
    rw [List.foldl_cons]
    constructor
    · rcases List.mem_cons.1 h1 with h | h
      · rcases min_choice x z with e | e
        · rw [h, e]; simp
        · rw [h, e]; simp
      · exact List.mem_cons_of_mem _ (List.mem_cons_of_mem _ h)
    · intro y hy
      have h3 := h2 (show min x z ∈ {y | y ∈ min x z :: zs} by simp)
      rcases List.mem_cons.1 hy with rfl | hy
      · exact h3.trans (min_le_left _ _)
      · rcases List.mem_cons.1 hy with rfl | hy
        · exact h3.trans (min_le_right _ _)
        · exact h2 (List.mem_cons_of_mem _ hy)

theorem foldl_max_spec : ∀ (xs : List ℝ) (x : ℝ), IsGreatest {y | y ∈ x :: xs} (xs.foldl max x)
  | [], x => ⟨by simp, by intro y hy; simp at hy; simp [hy]⟩
  | z :: zs, x => by
    obtain ⟨h1, h2⟩ := foldl_max_spec zs (max x z)
    rw [List.foldl_cons]
    constructor
    · rcases List.mem_cons.1 h1 with h | h
      · rcases max_choice x z with e | e
        · rw [h, e]; simp
        · rw [h, e]; simp
      · exact List.mem_cons_of_mem _ (List.mem_cons_of_mem _ h)
    · intro y hy
      have h3 := h2 (show max x z ∈ {y | y ∈ max x z :: zs} by simp)
      rcases List.mem_cons.1 hy with rfl | hy
      · exact (le_max_left _ _).trans h3
      · rcases List.mem_cons.1 hy with rfl | hy
        · exact (le_max_right _ _).trans h3
        · exact h2 (List.mem_cons_of_mem _ hy)

/-- The values of a picture. -/
def values (H W : ℕ) (u : ℕ → ℕ → ℝ) : Set ℝ := {y | ∃ k < H, ∃ j < W, u k j = y}

theorem mem_pixels (H W : ℕ) (u : ℕ → ℕ → ℝ) (y : ℝ) : y ∈ pixels H W u ↔ y ∈ values H W u := by
  simp [pixels, values]

theorem npMin_spec {H W : ℕ} (hH : 0 < H) (hW : 0 < W) (u : ℕ → ℕ → ℝ) : ∃ m, npMin (pixels H W u) = .ok m ∧ IsLeast (values H W u) m := by
  have hmem : u 0 0 ∈ pixels H W u := (mem_pixels H W u _).2 ⟨0, hH, 0, hW, rfl⟩
  cases h : pixels H W u with
  | nil => rw [h] at hmem; cases hmem
  | cons x xs =>
    refine ⟨_, rfl, ?_⟩
    have := foldl_min_spec xs x
    rw [← h] at this
    simpa only [mem_pixels, Set.ofPred_mem_eq] using this

theorem npMax_spec {H W : ℕ} (hH : 0 < H) (hW : 0 < W) (u : ℕ → ℕ → ℝ) : ∃ m, npMax (pixels H W u) = .ok m ∧ IsGreatest (values H W u) m := by
  have hmem : u 0 0 ∈ pixels H W u := (mem_pixels H W u _).2 ⟨0, hH, 0, hW, rfl⟩
  cases h : pixels H W u with
  | nil => rw [h] at hmem; cases hmem
  | cons x xs =>
    refine ⟨_, rfl, ?_⟩
    have := foldl_max_spec xs x
    rw [← h] at this
    simpa only [mem_pixels, Set.ofPred_mem_eq] using this

theorem perChannel_ok (C : ℕ) (f : ℕ → Except PyErr ℝ) (g : ℕ → ℝ) (h : ∀ c < C, f c = .ok (g c)) : ∃ r, perChannel C f = .ok r ∧ ∀ c < C, r c = g c := by
  induction C with
  | zero => exact ⟨_, rfl, fun c hc => by omega⟩
  | succ C ih =>
    obtain ⟨r, h1, h2⟩ := ih fun c hc => h c (by omega)
    rw [perChannel, h1, h C (by omega)]
    refine ⟨_, rfl, fun c hc => ?_⟩
    split
    · rename_i e; rw [e]
    · exact h2 c (by omega)

/-- The variance within the pictures: the sum over the pictures of the squared deviations from the mean of each. -/
noncomputable def withinSum (n H W : ℕ) (q : ℕ → ℕ → ℝ) (x : ℕ → ℕ → ℕ → ℝ) : ℝ :=
  ∑ i ∈ range n, ∑ k ∈ range H, ∑ j ∈ range W, q k j * (x i k j - ∑ k' ∈ range H, ∑ j' ∈ range W, q k' j' * x i k' j') ^ 2

theorem withinSum_eq (n H W : ℕ) (q : ℕ → ℕ → ℝ) (x : ℕ → ℕ → ℕ → ℝ) :
    withinSum n H W q x = ∑ i ∈ range n, areaSum H W q (fun k j => (x i k j - areaSum H W q (x i)) ^ 2) := by
  unfold withinSum areaSum
  simp only [mul_comm]

/-- The part of the variance between the pictures. -/
theorem between_eq {n H W : ℕ} (hn : 0 < n) {q : ℕ → ℕ → ℝ} (hq : ∑ k ∈ range H, ∑ j ∈ range W, q k j = 1) (x : ℕ → ℕ → ℕ → ℝ) :
    ∑ i ∈ range n, (areaSum H W q (x i) - pooledMean n H W q x) ^ 2 = n * pooledVar n H W q x - withinSum n H W q x := by
  have hn' : (n : ℝ) ≠ 0 := by exact_mod_cast hn.ne'
  rw [pooledVar_eq, mul_div_cancel₀ _ hn', withinSum_eq, ← sum_sub_distrib]
  refine sum_congr rfl fun i _ => ?_
  rw [areaSum_shift hq (x i) (pooledMean n H W q x)]
  ring

theorem isLeast_min {s t : Set ℝ} {a b : ℝ} (h1 : IsLeast s a) (h2 : IsLeast t b) : IsLeast (s ∪ t) (min a b) := h1.union h2

/-- All values of channel `c` of the first `n` pictures. -/
def allValues (n H W : ℕ) (x : ℕ → ℕ → ℕ → ℝ) : Set ℝ := {y | ∃ i < n, y ∈ values H W (x i)}

theorem allValues_succ (n H W : ℕ) (x : ℕ → ℕ → ℕ → ℝ) : allValues (n + 1) H W x = allValues n H W x ∪ values H W (x n) := by
  ext y
  simp only [allValues, Set.mem_ofPred_eq, Set.mem_union]
  constructor
  · rintro ⟨i, hi, h⟩
    rcases Nat.lt_or_ge i n with hlt | hge
    · exact .inl ⟨i, hlt, h⟩
    · obtain rfl : i = n := by omega
      exact .inr h
  · rintro (⟨i, hi, h⟩ | h)
    · exact ⟨i, by omega, h⟩
    · exact ⟨n, by omega, h⟩

/-- The set of the maxima of the first `n` pictures. -/
def maxima (n H W : ℕ) (x : ℕ → ℕ → ℕ → ℝ) : Set ℝ := {m | ∃ i < n, IsGreatest (values H W (x i)) m}

theorem maxima_succ (n H W : ℕ) (x : ℕ → ℕ → ℕ → ℝ) (m : ℝ) (hm : IsGreatest (values H W (x n)) m) : maxima (n + 1) H W x = maxima n H W x ∪ {m} := by
  ext y
  simp only [maxima, Set.mem_ofPred_eq, Set.mem_union, Set.mem_singleton_iff]
  constructor
  · rintro ⟨i, hi, h⟩
    rcases Nat.lt_or_ge i n with hlt | hge
    · exact .inl ⟨i, hlt, h⟩
    · obtain rfl : i = n := by omega
      exact .inr (h.unique hm)
  · rintro (⟨i, hi, h⟩ | rfl)
    · exact ⟨i, by omega, h⟩
    · exact ⟨n, by omega, hm⟩

theorem rgbLoop_spec (C H W : ℕ) (hH : 0 < H) (hW : 0 < W) (q : ℕ → ℕ → ℝ) (rgb : ℕ → ℕ → ℕ → ℕ → ℝ) : ∀ n, 0 < n →
    ∃ s, rgbLoop C H W q rgb n = .ok (some s) ∧ (n = 1 → s.m2 = .scalar (∑ c ∈ range C, areaSum H W q fun k j => (rgb 0 c k j - areaSum H W q (rgb 0 c)) ^ 2)) ∧ (1 < n → ∃ f, s.m2 = .channels f) ∧
      ∀ c < C, IsLeast (allValues n H W fun i => rgb i c) (s.min c) ∧ IsLeast (maxima n H W fun i => rgb i c) (s.max c) ∧
        s.mean c = (welfordSeq (fun i => areaSum H W q (rgb i c))
          (fun i => ∑ c ∈ range C, areaSum H W q fun k j => (rgb i c k j - areaSum H W q (rgb i c)) ^ 2) n).mean ∧
        s.m2.get c = (welfordSeq (fun i => areaSum H W q (rgb i c))
          (fun i => ∑ c ∈ range C, areaSum H W q fun k j => (rgb i c k j - areaSum H W q (rgb i c)) ^ 2) n).m2 := by
  intro n
  induction n with
  | zero => intro h; omega
  | succ n ih =>
    intro _
    choose mn hmn hmn' using fun c => npMin_spec hH hW (rgb n c)
    choose mx hmx hmx' using fun c => npMax_spec hH hW (rgb n c)
    obtain ⟨tmin, h1, h1'⟩ := perChannel_ok C (fun c => npMin (pixels H W (rgb n c))) mn fun c _ => hmn c
    obtain ⟨tmax, h2, h2'⟩ := perChannel_ok C (fun c => npMax (pixels H W (rgb n c))) mx fun c _ => hmx c
    rw [rgbLoop]
    rcases Nat.eq_zero_or_pos n with rfl | h
    · simp only [rgbLoop, bind, Except.bind, h1, h2]
      refine ⟨_, rfl, fun _ => rfl, fun h => by omega, fun c hc => ⟨?_, ?_, ?_, ?_⟩⟩
      · dsimp only
        rw [h1' c hc, allValues_succ]
        have : allValues 0 H W (fun i => rgb i c) = ∅ := by simp [allValues]
        rw [this, Set.empty_union]
        exact hmn' c
      · dsimp only
        rw [h2' c hc, maxima_succ 0 H W (fun i => rgb i c) (mx c) (hmx' c)]
        have : maxima 0 H W (fun i => rgb i c) = ∅ := by simp [maxima]
        rw [this, Set.empty_union]
        exact isLeast_singleton
      · simp [welfordSeq]
      · simp [welfordSeq, M2.get]
    · obtain ⟨s, e, -, -, hs⟩ := ih h
      simp only [e, bind, Except.bind, h1, h2]
      refine ⟨_, rfl, fun h' => by omega, fun _ => ⟨_, rfl⟩, fun c hc => ?_⟩
      obtain ⟨g1, g2, g3, g4⟩ := hs c hc
      refine ⟨?_, ?_, ?_, ?_⟩
      · dsimp only
        rw [h1' c hc, allValues_succ]
        exact g1.union (hmn' c)
      · dsimp only
        rw [h2' c hc, maxima_succ n H W (fun i => rgb i c) (mx c) (hmx' c)]
        exact g2.union isLeast_singleton
      · rw [welfordSeq, if_neg h.ne', welfordUpdate]
        dsimp only
        rw [g3]
      · rw [welfordSeq, if_neg h.ne', welfordUpdate]
        show s.m2.get c + _ = _
        dsimp only
        rw [g4, g3]
        ring

/-- C83. What is recorded of the colours, for every list of at least one picture and every channel: the minimum is the least value, the mean is the mean over all
pictures and pixels by area. -/
theorem C83_rgb (C H W n : ℕ) (hH : 0 < H) (hW : 0 < W) (hn : 0 < n) (q : ℕ → ℕ → ℝ) (rgb : ℕ → ℕ → ℕ → ℕ → ℝ) :
    ∃ s, rgbLoop C H W q rgb n = .ok (some s) ∧ ∀ c < C, IsLeast (allValues n H W fun i => rgb i c) (s.min c) ∧ s.mean c = pooledMean n H W q fun i => rgb i c := by
  obtain ⟨s, e, -, -, hs⟩ := rgbLoop_spec C H W hH hW q rgb n hn
  refine ⟨s, e, fun c hc => ⟨(hs c hc).1, ?_⟩⟩
  rw [(hs c hc).2.2.1, welfordSeq_mean _ _ n hn, pooledMean_eq]

/-- C83, finding. The maximum recorded is the smallest of the maxima of the pictures. It is the greatest value only if all pictures have the same maximum. -/
theorem C83_rgb_max (C H W n : ℕ) (hH : 0 < H) (hW : 0 < W) (hn : 0 < n) (q : ℕ → ℕ → ℝ) (rgb : ℕ → ℕ → ℕ → ℕ → ℝ) :
    ∃ s, rgbLoop C H W q rgb n = .ok (some s) ∧ ∀ c < C, IsLeast (maxima n H W fun i => rgb i c) (s.max c) ∧
      (IsGreatest (allValues n H W fun i => rgb i c) (s.max c) ↔ ∀ i < n, IsGreatest (values H W (rgb i c)) (s.max c)) := by
  obtain ⟨s, e, -, -, hs⟩ := rgbLoop_spec C H W hH hW q rgb n hn
  refine ⟨s, e, fun c hc => ⟨(hs c hc).2.1, ?_⟩⟩
  have hm := (hs c hc).2.1
  constructor
  · intro h i hi
    obtain ⟨m, -, hmi⟩ := npMax_spec hH hW (rgb i c)
    have h1 : s.max c ≤ m := hm.2 ⟨i, hi, hmi⟩
    have h2 : m ≤ s.max c := h.2 ⟨i, hi, hmi.1⟩
    rw [le_antisymm h1 h2]
    exact hmi
  · intro h
    refine ⟨⟨0, hn, (h 0 hn).1⟩, ?_⟩
    rintro y ⟨i, hi, hy⟩
    exact (h i hi).2 hy

/-- C83, finding. The standard deviation recorded for a channel also has the deviations of all other channels within the pictures in it: its square is
`n / (n - 1)` times the variance plus what the other channels add. For a single picture it is not finite, and one number for all channels. -/
theorem C83_rgb_std (C H W n : ℕ) (hH : 0 < H) (hW : 0 < W) (q : ℕ → ℕ → ℝ) (hq : ∑ k ∈ range H, ∑ j ∈ range W, q k j = 1) (hq0 : ∀ k < H, ∀ j, 0 ≤ q k j)
    (rgb : ℕ → ℕ → ℕ → ℕ → ℝ) :
    (1 < n → ∃ s, rgbLoop C H W q rgb n = .ok (some s) ∧ ∀ c < C, stdOf (s.m2.get c) n =
      .num (Real.sqrt ((n * pooledVar n H W q (fun i => rgb i c) + ∑ c' ∈ (range C).erase c, withinSum n H W q fun i => rgb i c') / (n - 1)))) ∧
    (n = 1 → ∃ s v, rgbLoop C H W q rgb n = .ok (some s) ∧ s.m2 = .scalar v ∧ (stdOf v n = .inf true ∨ stdOf v n = .nan)) := by
  have wpos : ∀ n (u : ℕ → ℕ → ℕ → ℝ), 0 ≤ withinSum n H W q u := fun n u =>
    sum_nonneg fun i _ => sum_nonneg fun k hk => sum_nonneg fun j _ => mul_nonneg (hq0 k (mem_range.1 hk) j) (sq_nonneg _)
  constructor
  · intro hn
    have hn0 : 0 < n := by omega
    obtain ⟨s, e, -, -, hs⟩ := rgbLoop_spec C H W hH hW q rgb n hn0
    refine ⟨s, e, fun c hc => ?_⟩
    have hn1 : (0 : ℝ) < (n : ℝ) - 1 := by have : (1 : ℝ) < n := by exact_mod_cast hn
                                           linarith
    have hv : s.m2.get c = n * pooledVar n H W q (fun i => rgb i c) + ∑ c' ∈ (range C).erase c, withinSum n H W q fun i => rgb i c' := by
      rw [(hs c hc).2.2.2, welfordSeq_m2 _ _ n hn0, sum_add_distrib, welfordSeq_mean _ _ n hn0, ← pooledMean_eq n H W q (fun i => rgb i c), between_eq hn0 hq, sum_comm]
      simp only [← withinSum_eq]
      rw [← add_sum_erase (range C) _ (mem_range.2 hc)]
      ring
    have h0 : 0 ≤ s.m2.get c := by
      rw [hv]
      refine add_nonneg (mul_nonneg (Nat.cast_nonneg n) ?_) (sum_nonneg fun c' _ => wpos n _)
      unfold pooledVar
      exact div_nonneg (sum_nonneg fun i _ => sum_nonneg fun k hk => sum_nonneg fun j _ => mul_nonneg (hq0 k (mem_range.1 hk) j) (sq_nonneg _)) (Nat.cast_nonneg n)
    unfold stdOf Flt.div
    rw [if_neg hn1.ne']
    unfold Flt.sqrt
    dsimp only
    rw [if_neg (not_lt.2 (div_nonneg h0 hn1.le)), hv]
  · rintro rfl
    obtain ⟨s, e, h1, -, hs⟩ := rgbLoop_spec C H W hH hW q rgb 1 (by omega)
    obtain ⟨v, hv⟩ : ∃ v, v = ∑ c ∈ range C, areaSum H W q fun k j => (rgb 0 c k j - areaSum H W q (rgb 0 c)) ^ 2 := ⟨_, rfl⟩
    have hv0 : 0 ≤ v := by
      rw [hv]
      exact sum_nonneg fun c _ => sum_nonneg fun k hk => sum_nonneg fun j _ => mul_nonneg (sq_nonneg _) (hq0 k (mem_range.1 hk) j)
    refine ⟨s, v, e, by rw [h1 rfl, hv], ?_⟩
    unfold stdOf Flt.div
    rw [if_pos (by norm_num)]
    unfold Flt.infOf
    split
    · exact .inr rfl
    · rename_i hne
      left
      have : 0 < v := lt_of_le_of_ne hv0 (Ne.symm hne)
      simp [Flt.sqrt, this]

theorem depthLoop_spec (H W : ℕ) (hH : 0 < H) (hW : 0 < W) (q : ℕ → ℕ → ℝ) (dep : ℕ → ℕ → ℕ → ℝ) : ∀ n, 0 < n →
    ∃ s, depthLoop H W q dep n = .ok (some s) ∧ IsLeast (allValues n H W dep) s.min ∧ IsLeast (maxima n H W dep) s.max ∧
      s.mean = (welfordSeq (fun i => (imageStats H W q (dep i)).mean) (fun i => (imageStats H W q (dep i)).m2) n).mean ∧
      s.m2 = (welfordSeq (fun i => (imageStats H W q (dep i)).mean) (fun i => (imageStats H W q (dep i)).m2) n).m2 := by
  intro n
  induction n with
  | zero => intro h; omega
  | succ n ih =>
    intro _
    obtain ⟨mn, hmn, hmn'⟩ := npMin_spec hH hW (dep n)
    obtain ⟨mx, hmx, hmx'⟩ := npMax_spec hH hW (dep n)
    rw [depthLoop]
    rcases Nat.eq_zero_or_pos n with rfl | h
    · simp only [depthLoop, bind, Except.bind, hmn, hmx]
      refine ⟨_, rfl, ?_, ?_, ?_, ?_⟩
      · rw [allValues_succ]
        have : allValues 0 H W dep = ∅ := by simp [allValues]
        rw [this, Set.empty_union]
        exact hmn'
      · rw [maxima_succ 0 H W dep mx hmx']
        have : maxima 0 H W dep = ∅ := by simp [maxima]
        rw [this, Set.empty_union]
        exact isLeast_singleton
      · simp [welfordSeq, imageStats]
      · simp [welfordSeq, imageStats]
    · obtain ⟨s, e, g1, g2, g3, g4⟩ := ih h
      simp only [e, bind, Except.bind, hmn, hmx]
      refine ⟨_, rfl, ?_, ?_, ?_, ?_⟩
      · rw [allValues_succ]
        exact g1.union hmn'
      · rw [maxima_succ n H W dep mx hmx']
        exact g2.union isLeast_singleton
      · rw [welfordSeq, if_neg h.ne', welfordUpdate]
        dsimp only
        rw [g3]
        rfl
      · rw [welfordSeq, if_neg h.ne', welfordUpdate]
        dsimp only
        rw [g4, g3]
        simp only [imageStats]
        ring

/-- C83. What is recorded of the depth for at least two pictures: the least value, the mean and the root of `n / (n - 1)` times the variance, over all pictures and
pixels by area, in the units of the source files. -/
theorem C83_depth (H W n : ℕ) (hH : 0 < H) (hW : 0 < W) (hn : 1 < n) (q : ℕ → ℕ → ℝ) (hq : ∑ k ∈ range H, ∑ j ∈ range W, q k j = 1)
    (hq0 : ∀ k < H, ∀ j, 0 ≤ q k j) (dep : ℕ → ℕ → ℕ → ℝ) :
    ∃ s, depthLoop H W q dep n = .ok (some s) ∧ IsLeast (allValues n H W dep) s.min ∧ s.mean = pooledMean n H W q dep ∧
      stdOf s.m2 n = .num (Real.sqrt (n / (n - 1) * pooledVar n H W q dep)) := by
  have hn0 : 0 < n := by omega
  obtain ⟨s, e, h1, -, h3, h4⟩ := depthLoop_spec H W hH hW q dep n hn0
  obtain ⟨e1, e2⟩ := welford_pooled hn0 hq dep
  have hn1 : (0 : ℝ) < (n : ℝ) - 1 := by
    have : (1 : ℝ) < n := by exact_mod_cast hn
    linarith
  have hv : 0 ≤ pooledVar n H W q dep := by
    unfold pooledVar
    exact div_nonneg (sum_nonneg fun i _ => sum_nonneg fun k hk => sum_nonneg fun j _ => mul_nonneg (hq0 k (mem_range.1 hk) j) (sq_nonneg _)) (Nat.cast_nonneg n)
  refine ⟨s, e, h1, h3.trans e1, ?_⟩
  unfold stdOf Flt.div
  rw [if_neg hn1.ne']
  unfold Flt.sqrt
  dsimp only
  rw [h4.trans e2, if_neg (not_lt.2 (div_nonneg (mul_nonneg (Nat.cast_nonneg n) hv) hn1.le))]
  congr 2
  ring

/-- C83, finding. The maximum recorded of the depth is the smallest of the maxima of the pictures; the statistics are in the units of the source files, while the depth that is
stored is divided by 65536: the mean that belongs to the stored depths is the recorded one divided by 65536. -/
theorem C83_depth_units (H W n : ℕ) (hH : 0 < H) (hW : 0 < W) (hn : 0 < n) (q : ℕ → ℕ → ℝ) (hq : ∑ k ∈ range H, ∑ j ∈ range W, q k j = 1) (dep : ℕ → ℕ → ℕ → ℝ) :
    ∃ s, depthLoop H W q dep n = .ok (some s) ∧ IsLeast (maxima n H W dep) s.max ∧
      (IsGreatest (allValues n H W dep) s.max ↔ ∀ i < n, IsGreatest (values H W (dep i)) s.max) ∧
      pooledMean n H W q (fun i k j => storedDepth (dep i k j)) = s.mean / 65536 := by
  obtain ⟨s, e, -, h2, h3, -⟩ := depthLoop_spec H W hH hW q dep n hn
  obtain ⟨e1, -⟩ := welford_pooled hn hq dep
  refine ⟨s, e, h2, ⟨fun h i hi => ?_, fun h => ?_⟩, ?_⟩
  · obtain ⟨m, -, hmi⟩ := npMax_spec hH hW (dep i)
    have g1 : s.max ≤ m := h2.2 ⟨i, hi, hmi⟩
    have g2 : m ≤ s.max := h.2 ⟨i, hi, hmi.1⟩
    rw [le_antisymm g1 g2]
    exact hmi
  · refine ⟨⟨0, hn, (h 0 hn).1⟩, ?_⟩
    rintro y ⟨i, hi, hy⟩
    exact (h i hi).2 hy
  · rw [h3, e1]
    unfold pooledMean storedDepth
    simp only [mul_div_assoc', ← sum_div]
    ring

/-! ### Classes -/

theorem mem_classList (labels : List String) (name : String) : name ∈ classList labels ↔ ∃ l ∈ labels, className l = name := by
  unfold classList sortedSet
  rw [List.mem_mergeSort, List.mem_dedup, List.mem_map]

theorem classList_nodup (labels : List String) : (classList labels).Nodup := by
  unfold classList sortedSet
  exact (List.mergeSort_perm _ _).nodup_iff.2 (List.nodup_dedup _)

theorem classList_sorted (labels : List String) : (classList labels).Pairwise (· ≤ ·) := by
  unfold classList sortedSet
  have := List.pairwise_mergeSort (le := fun a b : String => decide (a ≤ b)) (fun a b c h1 h2 => by
    simp only [decide_eq_true_eq] at *; exact le_trans h1 h2) (fun a b => by
    simp only [Bool.or_eq_true, decide_eq_true_eq]; exact le_total a b) ((labels.map className).dedup)
  simpa using this

/-- C83. The list of classes does not depend on order and repetition of the labels. -/
theorem C83_classes_order (labels labels' : List String) (h : ∀ l, l ∈ labels ↔ l ∈ labels') : classList labels = classList labels' := by
  refine List.Perm.eq_of_pairwise (le := (· ≤ ·)) (fun a b _ _ h1 h2 => le_antisymm h1 h2) (classList_sorted _) (classList_sorted _) ?_
  rw [List.perm_ext_iff_of_nodup (classList_nodup _) (classList_nodup _)]
  intro name
  simp only [mem_classList, h]

/-- C83. Class indices. Every pixel whose colour is the number of a label gets an index below the number of classes, and the class of that index is the first part of
the label; other colours raise `IndexError`; nothing else can happen. Colour 855309 stands for label 3341. -/
theorem C83_pixel_class (labels : List String) (r g b : ℕ) :
    let key := if r * 65536 + g * 256 + b = 855309 then 3341 else r * 65536 + g * 256 + b
    (∀ label, labels[key]? = some label → ∃ id, pixelClass labels r g b = .ok id ∧ id < (classList labels).length ∧ (classList labels)[id]? = some (className label)) ∧
    (labels.length ≤ key → pixelClass labels r g b = .error .indexError) := by
  intro key
  have hk : colourKey r g b = r * 65536 + g * 256 + b := by unfold colourKey; ring
  have hkey : (if colourKey r g b = 855309 then 3341 else colourKey r g b) = key := by rw [hk]
  constructor
  · intro label hl
    have hmem : className label ∈ classList labels := (mem_classList _ _).2 ⟨label, List.mem_of_getElem? hl, rfl⟩
    refine ⟨(classList labels).idxOf (className label), ?_, List.idxOf_lt_length_iff.2 hmem, ?_⟩
    · unfold pixelClass convertKey
      rw [hkey, List.getElem?_map, hl]
      simp [hmem]
    · exact List.getElem?_idxOf hmem
  · intro hl
    unfold pixelClass convertKey
    rw [hkey, List.getElem?_eq_none (by simpa using hl)]

/-- C83. Two pixels get the same index exactly if their labels start with the same class name. -/
theorem C83_same_class (labels : List String) (r g b r' g' b' id id' : ℕ) (label label' : String)
    (hl : labels[if r * 65536 + g * 256 + b = 855309 then 3341 else r * 65536 + g * 256 + b]? = some label)
    (hl' : labels[if r' * 65536 + g' * 256 + b' = 855309 then 3341 else r' * 65536 + g' * 256 + b']? = some label')
    (h : pixelClass labels r g b = .ok id) (h' : pixelClass labels r' g' b' = .ok id') : id = id' ↔ className label = className label' := by
  obtain ⟨i, h1, h2, h3⟩ := (C83_pixel_class labels r g b).1 label hl
  obtain ⟨i', h1', h2', h3'⟩ := (C83_pixel_class labels r' g' b').1 label' hl'
  obtain rfl : i = id := by rw [h] at h1; exact (Except.ok.inj h1).symm
  obtain rfl : i' = id' := by rw [h'] at h1'; exact (Except.ok.inj h1').symm
  constructor
  · rintro rfl
    rw [h3] at h3'
    exact Option.some.inj h3'
  · intro hc
    rw [← hc, ← h3] at h3'
    exact ((List.getElem?_inj h2' (classList_nodup labels)).1 h3').symm

/-- C83. The class histogram: every entry is the average share of the area of the class, so the entries are not negative and add up to 1, for all pictures with
indices below the number of classes (`C83_pixel_class`). -/
theorem C83_histogram (H W n N : ℕ) (hn : 0 < n) (q : ℕ → ℕ → ℝ) (hq : ∑ k ∈ range H, ∑ j ∈ range W, q k j = 1) (hq0 : ∀ k < H, ∀ j, 0 ≤ q k j)
    (sem : ℕ → ℕ → ℕ → ℤ) (hs : ∀ i < n, ∀ k < H, ∀ j < W, 0 ≤ sem i k j ∧ sem i k j < N) :
    (∀ c, classHistogram H W q sem n c = (∑ i ∈ range n, ∑ k ∈ range H, ∑ j ∈ range W, if sem i k j = c then q k j else 0) / n) ∧
    (∀ c, 0 ≤ classHistogram H W q sem n c) ∧ ∑ c ∈ range N, classHistogram H W q sem n c = 1 := by
  refine ⟨fun c => rfl, fun c => ?_, ?_⟩
  · unfold classHistogram histogramSum
    refine div_nonneg (sum_nonneg fun i _ => sum_nonneg fun k hk => sum_nonneg fun j _ => ?_) (Nat.cast_nonneg n)
    split
    · exact hq0 k (mem_range.1 hk) j
    · exact le_rfl
  · unfold classHistogram histogramSum
    rw [← sum_div, sum_comm]
    have : ∀ i ∈ range n, (∑ c ∈ range N, ∑ k ∈ range H, ∑ j ∈ range W, if sem i k j = (c : ℕ) then q k j else 0) = 1 := by
      intro i hi
      rw [sum_comm, ← hq]
      refine sum_congr rfl fun k hk => ?_
      rw [sum_comm]
      refine sum_congr rfl fun j hj => ?_
      obtain ⟨h1, h2⟩ := hs i (mem_range.1 hi) k (mem_range.1 hk) j (mem_range.1 hj)
      obtain ⟨m, hm⟩ := Int.eq_ofNat_of_zero_le h1
      rw [hm] at h2 ⊢
      have h3 : m < N := by exact_mod_cast h2
      simp only [Nat.cast_inj]
      rw [sum_ite_eq (range N) m, if_pos (mem_range.2 h3)]
    rw [sum_congr rfl this, sum_const, card_range, nsmul_eq_mul, mul_one]
    have hn' : (n : ℝ) ≠ 0 := by exact_mod_cast hn.ne'
    exact div_self hn'

/-- Two labels of the same class, another class, and a colour without a label. -/
example : let labels := ["wall_1_hall", "chair_1_hall", "wall_2_hall"]
    (∃ id, pixelClass labels 0 0 0 = .ok id ∧ pixelClass labels 0 0 2 = .ok id) ∧ pixelClass labels 0 0 1 ≠ pixelClass labels 0 0 2 ∧
    pixelClass labels 0 1 0 = .error .indexError := by
  intro labels
  obtain ⟨a, ha, -⟩ := (C83_pixel_class labels 0 0 0).1 "wall_1_hall" rfl
  obtain ⟨b, hb, -⟩ := (C83_pixel_class labels 0 0 1).1 "chair_1_hall" rfl
  obtain ⟨c, hc, -⟩ := (C83_pixel_class labels 0 0 2).1 "wall_2_hall" rfl
  refine ⟨⟨a, ha, ?_⟩, ?_, (C83_pixel_class labels 0 1 0).2 (by decide)⟩
  · rw [hc, (C83_same_class labels 0 0 0 0 0 2 a c "wall_1_hall" "wall_2_hall" rfl rfl ha hc).2 (by decide)]
  · rw [hb, hc]
    intro h
    have := (C83_same_class labels 0 0 1 0 0 2 b c "chair_1_hall" "wall_2_hall" rfl rfl hb hc).1 (Except.ok.inj h)
    exact absurd this (by decide)

/-- Pictures with different maxima: 1 is recorded, 2 occurs. -/
example : ∃ s, depthLoop 1 1 (fun _ _ => 1) (fun i _ _ => (i : ℝ) + 1) 2 = .ok (some s) ∧ s.max = 1 := by
  refine ⟨_, rfl, ?_⟩
  norm_num

end Verif.Props
