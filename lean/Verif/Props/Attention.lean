import Verif.Lemmas.AttentionRef
import Mathlib.Data.Nat.ModEq
import Mathlib.Analysis.SpecialFunctions.Log.Basic
import Mathlib.Tactic.IntervalCases
/-!
C38 (exact weighted softmax), C39 (convex combination), C40 (longitude rotation), C41 (upsampling), C42 (gradients) for the
reference kernels. The CPU kernels are in `Props/AttentionCpu`.
-/
namespace Verif.Props
open Verif Verif.Attn Verif.Spec.Attn Finset

/-! ### C38 -/

/-- C38, the one-pass loop: whatever the starting maximum `m0`, the quotient of the running values is the exact weighted softmax
average of the values. -/
theorem C38_one_pass {ι : Type} (L : List ι) (w s : ι → ℝ) (v : ι → ℕ → ℝ) (m0 : ℝ) (c : ℕ) :
    let r := L.foldl (fun st i => onlineStep st (s i) (w i) (v i)) ⟨0, m0, fun _ => 0⟩
    r.y c / r.alphaSum = softAvg L w s (fun i => v i c) := onlineFold_avg L w s v m0 c

/-- C38, the denominator is a genuine one: with positive weights and at least one neighbour it is positive, for every start. -/
theorem C38_denominator_pos {ι : Type} (L : List ι) (hL : L ≠ []) (w s : ι → ℝ) (hw : ∀ i ∈ L, 0 < w i) (v : ι → ℕ → ℝ) (m0 : ℝ) :
    0 < (L.foldl (fun st i => onlineStep st (s i) (w i) (v i)) ⟨0, m0, fun _ => 0⟩).alphaSum := by
  have h := onlineFold_alphaSum L w s v ⟨0, m0, fun _ => 0⟩
  rw [zero_mul, zero_add] at h
  have hp := weight_sum_pos hL hw s
  rw [← h] at hp
  exact pos_of_mul_pos_left hp (Real.exp_pos _).le

/-- C38, no growth: with non-negative weights the running sum never exceeds the sum of the weights, and the running output never
exceeds the weighted sum of the absolute values, whatever the scores. -/
theorem C38_no_overflow {ι : Type} (L : List ι) (w s : ι → ℝ) (hw : ∀ i ∈ L, 0 ≤ w i) (v : ι → ℕ → ℝ) (m0 : ℝ) (c : ℕ) :
    let r := L.foldl (fun st i => onlineStep st (s i) (w i) (v i)) ⟨0, m0, fun _ => 0⟩
    0 ≤ r.alphaSum ∧ r.alphaSum ≤ (L.map w).sum ∧ |r.y c| ≤ (L.map fun i => w i * |v i c|).sum := by
  suffices H : ∀ (L : List ι) (st : Online), (∀ i ∈ L, 0 ≤ w i) → 0 ≤ st.alphaSum →
      0 ≤ (L.foldl (fun st i => onlineStep st (s i) (w i) (v i)) st).alphaSum ∧
      (L.foldl (fun st i => onlineStep st (s i) (w i) (v i)) st).alphaSum ≤ st.alphaSum + (L.map w).sum ∧
      |(L.foldl (fun st i => onlineStep st (s i) (w i) (v i)) st).y c| ≤ |st.y c| + (L.map fun i => w i * |v i c|).sum by
    simpa using H L ⟨0, m0, fun _ => 0⟩ hw le_rfl
  intro L
  induction L with
  | nil => intro st _ h; simpa using h
  | cons a L ih =>
    intro st hw h
    have ha := hw a List.mem_cons_self
    have e1 : Real.exp (s a - max st.qdotkMax (s a)) ≤ 1 := Real.exp_le_one_iff.2 (by linarith [le_max_right st.qdotkMax (s a)])
    have e2 : Real.exp (st.qdotkMax - max st.qdotkMax (s a)) ≤ 1 :=
      Real.exp_le_one_iff.2 (by linarith [le_max_left st.qdotkMax (s a)])
    have p1 := (Real.exp_pos (s a - max st.qdotkMax (s a))).le
    have p2 := (Real.exp_pos (st.qdotkMax - max st.qdotkMax (s a))).le
    have b1 : Real.exp (s a - max st.qdotkMax (s a)) * w a ≤ w a := mul_le_of_le_one_left ha e1
    have b2 : st.alphaSum * Real.exp (st.qdotkMax - max st.qdotkMax (s a)) ≤ st.alphaSum := mul_le_of_le_one_right h e2
    have h0 : 0 ≤ (onlineStep st (s a) (w a) (v a)).alphaSum := add_nonneg (mul_nonneg p1 ha) (mul_nonneg h p2)
    obtain ⟨r1, r2, r3⟩ := ih (onlineStep st (s a) (w a) (v a)) (fun i hi => hw i (List.mem_cons_of_mem _ hi)) h0
    rw [List.foldl_cons, List.map_cons, List.sum_cons, List.map_cons, List.sum_cons]
    refine ⟨r1, r2.trans ?_, r3.trans ?_⟩
    · have : (onlineStep st (s a) (w a) (v a)).alphaSum ≤ w a + st.alphaSum := add_le_add b1 b2
      linarith
    · have : |(onlineStep st (s a) (w a) (v a)).y c| ≤ |st.y c| + w a * |v a c| := by
        refine (abs_add_le _ _).trans (add_le_add ?_ ?_)
        · rw [abs_mul, abs_of_nonneg p2]; exact mul_le_of_le_one_right (abs_nonneg _) e2
        · rw [abs_mul, abs_mul, abs_of_nonneg p1, abs_of_nonneg ha]
          exact mul_le_mul_of_nonneg_right b1 (abs_nonneg _)
      linarith

/-- C38, a starting maximum not above all the scores keeps the denominator at least as large as one of the weights. -/
theorem C38_denominator_lower {ι : Type} (L : List ι) (w s : ι → ℝ) (hw : ∀ i ∈ L, 0 ≤ w i) (v : ι → ℕ → ℝ) (m0 : ℝ)
    (hm : ∃ j ∈ L, m0 ≤ s j) :
    ∃ i ∈ L, w i ≤ (L.foldl (fun st i => onlineStep st (s i) (w i) (v i)) ⟨0, m0, fun _ => 0⟩).alphaSum := by
  have h := onlineFold_alphaSum L w s v ⟨0, m0, fun _ => 0⟩
  have hmax := onlineFold_max L w s v ⟨0, m0, fun _ => 0⟩
  rw [zero_mul, zero_add] at h
  have hatt : ∃ i ∈ L, L.foldl (fun m i => max m (s i)) m0 = s i := by
    rcases foldl_max_mem L s m0 with h0 | h0
    · obtain ⟨j, hj, hmj⟩ := hm
      exact ⟨j, hj, le_antisymm (h0.trans_le hmj) ((le_foldl_max L s m0).2 j hj)⟩
    · exact h0
  obtain ⟨i, hi, e⟩ := hatt
  refine ⟨i, hi, ?_⟩
  have hle : w i * Real.exp (s i) ≤ (L.map fun i => w i * Real.exp (s i)).sum := by
    refine List.single_le_sum ?_ _ (List.mem_map.2 ⟨i, hi, rfl⟩)
    intro x hx
    obtain ⟨j, hj, rfl⟩ := List.mem_map.1 hx
    exact mul_nonneg (hw j hj) (Real.exp_pos _).le
  change w i ≤ (onlineFold L w s v ⟨0, m0, fun _ => 0⟩).alphaSum
  rw [hmax] at h
  have h' : w i * Real.exp (s i) ≤ (onlineFold L w s v ⟨0, m0, fun _ => 0⟩).alphaSum * Real.exp (s i) := by
    have e' : L.foldl (fun m i => max m (s i)) (Online.qdotkMax ⟨0, m0, fun _ => 0⟩) = s i := e
    rw [e'] at h
    rw [h]; exact hle
  exact le_of_mul_le_mul_right h' (Real.exp_pos _)

/-- C38, the reference starts its maximum at zero, so its denominator can be smaller than any positive number although all
weights are one (in floating point: an underflow to 0/0). -/
theorem C38_reference_denominator_tiny (ε : ℝ) (hε : 0 < ε) :
    ∃ (d : Dims) (P : Pattern) (k v q : T4), d.nlatOut = 1 ∧ d.nlonOut = 1 ∧ d.nlonIn = 1 ∧ P.row 0 = [0] ∧
      (refCell d (fun _ => 1) P 1 k v q 0 0 0).alphaSum < ε := by
  refine ⟨⟨1, 1, 1, 1, 1, 1, 1⟩, ⟨fun _ => 0, fun h => h⟩, fun _ _ _ _ => Real.log (min (ε / 2) 1), fun _ _ _ _ => 0,
    fun _ _ _ _ => 1, rfl, rfl, rfl, rfl, ?_⟩
  have hpos : 0 < min (ε / 2) 1 := lt_min (by linarith) one_pos
  have hle : Real.log (min (ε / 2) 1) ≤ 0 := Real.log_nonpos hpos.le (min_le_right _ _)
  have : (refCell ⟨1, 1, 1, 1, 1, 1, 1⟩ (fun _ => 1) ⟨fun _ => 0, fun h => h⟩ 1 (fun _ _ _ _ => Real.log (min (ε / 2) 1))
      (fun _ _ _ _ => 0) (fun _ _ _ _ => 1) 0 0 0).alphaSum = min (ε / 2) 1 := by
    have hr : Pattern.row ⟨fun _ => 0, fun h => h⟩ 0 = [0] := rfl
    simp only [refCell, hr, List.foldl_cons, List.foldl_nil, onlineStep, dotC, Finset.sum_range_one, one_mul, zero_mul,
      add_zero, mul_one]
    rw [max_eq_left hle, sub_zero, Real.exp_log hpos]
  rw [this]
  exact (min_le_left _ _).trans_lt (by linarith)

/-- C38 for the reference: when `nlon_in` is a multiple of `nlon_out` the kernel returns, at every output point, the weighted
softmax average over the neighbours listed by the pattern. -/
theorem C38_reference (d : Dims) (h0 : 0 < d.nlonOut) (hdiv : d.nlonIn % d.nlonOut = 0) (w : ℕ → ℝ) (P : Pattern) (k v q : T4) :
    refForward d w P k v q = .ok (attention d.Ck w (gatherNbrs P d.nlonIn (d.nlonIn / d.nlonOut)) k v q) :=
  refForward_eq h0 hdiv w P k v q

/-- C38, error branches of the reference. -/
theorem C38_reference_errors (d : Dims) (w : ℕ → ℝ) (P : Pattern) (k v q : T4) :
    (d.nlonOut = 0 → refForward d w P k v q = .error .zeroDivision) ∧
    (0 < d.nlonOut → d.nlonIn % d.nlonOut ≠ 0 → refForward d w P k v q = .error .runtimeError) := by
  refine ⟨fun h => ?_, fun h h' => ?_⟩
  · simp [refForward, gatherScale, h]
  · have : d.nlonOut ≠ 0 := by omega
    simp [refForward, gatherScale, this, h']

/-- C38, the order of the stored entries does not matter: two patterns whose rows hold the same columns up to order give the same
output. -/
theorem C38_order (d : Dims) (w : ℕ → ℝ) (P P' : Pattern)
    (h : ∀ ho, ((P.row ho).map P.col).Perm ((P'.row ho).map P'.col)) (k v q : T4) :
    refForward d w P k v q = refForward d w P' k v q := by
  by_cases h0 : 0 < d.nlonOut
  · by_cases hdiv : d.nlonIn % d.nlonOut = 0
    · rw [refForward_eq h0 hdiv, refForward_eq h0 hdiv]
      congr 1
      funext b c ho wo
      refine softAvg_perm ?_ _ _ _
      have e : ∀ P : Pattern, gatherNbrs P d.nlonIn (d.nlonIn / d.nlonOut) ho wo = ((P.row ho).map P.col).map fun x =>
          (x / d.nlonIn, (x % d.nlonIn + d.nlonIn / d.nlonOut * wo) % d.nlonIn) := fun P => by
        rw [List.map_map]; rfl
      rw [e, e]
      exact (h ho).map _
    · rw [(C38_reference_errors d w P k v q).2 h0 hdiv, (C38_reference_errors d w P' k v q).2 h0 hdiv]
  · have h0' : d.nlonOut = 0 := by omega
    rw [(C38_reference_errors d w P k v q).1 h0', (C38_reference_errors d w P' k v q).1 h0']

/-- A small grid for the examples: 2 x 4 input points, 2 x 2 output points, pattern rows `{0, 5}` and `{6}`. -/
def exDims : Dims := ⟨1, 1, 1, 2, 4, 2, 2⟩
def exPattern : Pattern := ⟨fun z => if z = 0 then 0 else if z = 1 then 5 else 6, fun h => if h = 0 then 0 else if h = 1 then 2 else 3⟩

example : exPattern.row 0 = [0, 1] ∧ exPattern.row 1 = [2] := by constructor <;> rfl
example : gatherNbrs exPattern 4 2 0 1 = [(0, 2), (1, 3)] ∧ gatherNbrs exPattern 4 2 1 1 = [(1, 0)] := by decide
example : 0 < exDims.nlonOut ∧ exDims.nlonIn % exDims.nlonOut = 0 := by decide

/-! ### C39 -/

/-- A weighted softmax average with positive weights is a convex combination, with the same coefficients for all values. -/
theorem softAvg_convex {ι : Type} (L : List ι) (hL : L ≠ []) (w s : ι → ℝ) (hw : ∀ i ∈ L, 0 < w i) :
    ∃ p : ι → ℝ, (∀ i ∈ L, 0 < p i) ∧ (L.map p).sum = 1 ∧ ∀ v, softAvg L w s v = (L.map fun i => p i * v i).sum := by
  have hZ := weight_sum_pos hL hw s
  refine ⟨fun i => w i * Real.exp (s i) / (L.map fun i => w i * Real.exp (s i)).sum,
    fun i hi => div_pos (mul_pos (hw i hi) (Real.exp_pos _)) hZ, ?_, fun v => ?_⟩
  · rw [List.map_congr_left (fun i _ => div_eq_mul_inv _ _), list_sum_mul_right, mul_inv_cancel₀ hZ.ne']
  · unfold softAvg
    rw [div_eq_mul_inv, ← list_sum_mul_right]
    exact list_sum_congr fun i _ => by ring

theorem convex_bounds {ι : Type} (L : List ι) (p v : ι → ℝ) (hp : ∀ i ∈ L, 0 ≤ p i) (lo hi : ℝ) (hlo : ∀ i ∈ L, lo ≤ v i)
    (hhi : ∀ i ∈ L, v i ≤ hi) : lo * (L.map p).sum ≤ (L.map fun i => p i * v i).sum ∧
      (L.map fun i => p i * v i).sum ≤ hi * (L.map p).sum := by
  induction L with
  | nil => simp
  | cons a L ih =>
    obtain ⟨h1, h2⟩ := ih (fun i hi => hp i (List.mem_cons_of_mem _ hi)) (fun i hi => hlo i (List.mem_cons_of_mem _ hi))
      (fun i hi => hhi i (List.mem_cons_of_mem _ hi))
    have ha := hp a List.mem_cons_self
    simp only [List.map_cons, List.sum_cons]
    constructor
    · nlinarith [mul_le_mul_of_nonneg_left (hlo a List.mem_cons_self) ha]
    · nlinarith [mul_le_mul_of_nonneg_left (hhi a List.mem_cons_self) ha]

/-- C39: the output at a point with a non-empty neighbourhood is a convex combination of the values there, with coefficients
that are the same for every channel. -/
theorem C39_convex (d : Dims) (h0 : 0 < d.nlonOut) (hdiv : d.nlonIn % d.nlonOut = 0) (w : ℕ → ℝ) (P : Pattern) (k v q : T4) (y : T4)
    (hy : refForward d w P k v q = .ok y) (b ho wo : ℕ) (hrow : P.row ho ≠ [])
    (hw : ∀ n ∈ gatherNbrs P d.nlonIn (d.nlonIn / d.nlonOut) ho wo, 0 < w n.1) :
    ∃ p : ℕ × ℕ → ℝ, (∀ n ∈ gatherNbrs P d.nlonIn (d.nlonIn / d.nlonOut) ho wo, 0 < p n) ∧
      ((gatherNbrs P d.nlonIn (d.nlonIn / d.nlonOut) ho wo).map p).sum = 1 ∧
      ∀ c, y b c ho wo = ((gatherNbrs P d.nlonIn (d.nlonIn / d.nlonOut) ho wo).map fun n => p n * v b c n.1 n.2).sum := by
  rw [refForward_eq h0 hdiv] at hy
  obtain rfl := (Except.ok.inj hy)
  obtain ⟨p, h1, h2, h3⟩ := softAvg_convex (gatherNbrs P d.nlonIn (d.nlonIn / d.nlonOut) ho wo)
    (by simpa [gatherNbrs] using hrow) (fun n => w n.1) (score d.Ck k q b ho wo) hw
  exact ⟨p, h1, h2, fun c => h3 _⟩

/-- C39: each output component lies between any lower and upper bound of the values in the neighbourhood. -/
theorem C39_bounds (d : Dims) (h0 : 0 < d.nlonOut) (hdiv : d.nlonIn % d.nlonOut = 0) (w : ℕ → ℝ) (P : Pattern) (k v q : T4) (y : T4)
    (hy : refForward d w P k v q = .ok y) (b c ho wo : ℕ) (hrow : P.row ho ≠ [])
    (hw : ∀ n ∈ gatherNbrs P d.nlonIn (d.nlonIn / d.nlonOut) ho wo, 0 < w n.1) (lo hi : ℝ)
    (hlo : ∀ n ∈ gatherNbrs P d.nlonIn (d.nlonIn / d.nlonOut) ho wo, lo ≤ v b c n.1 n.2)
    (hhi : ∀ n ∈ gatherNbrs P d.nlonIn (d.nlonIn / d.nlonOut) ho wo, v b c n.1 n.2 ≤ hi) :
    lo ≤ y b c ho wo ∧ y b c ho wo ≤ hi := by
  obtain ⟨p, h1, h2, h3⟩ := C39_convex d h0 hdiv w P k v q y hy b ho wo hrow hw
  have := convex_bounds _ p (fun n => v b c n.1 n.2) (fun n hn => (h1 n hn).le) lo hi hlo hhi
  rw [h2, mul_one, mul_one, ← h3 c] at this
  exact this

/-- C39: constant values are reproduced. -/
theorem C39_constant (d : Dims) (h0 : 0 < d.nlonOut) (hdiv : d.nlonIn % d.nlonOut = 0) (w : ℕ → ℝ) (P : Pattern) (k v q : T4) (y : T4)
    (hy : refForward d w P k v q = .ok y) (b c ho wo : ℕ) (hrow : P.row ho ≠ [])
    (hw : ∀ n ∈ gatherNbrs P d.nlonIn (d.nlonIn / d.nlonOut) ho wo, 0 < w n.1) (a : ℝ)
    (hv : ∀ n ∈ gatherNbrs P d.nlonIn (d.nlonIn / d.nlonOut) ho wo, v b c n.1 n.2 = a) : y b c ho wo = a :=
  have h := C39_bounds d h0 hdiv w P k v q y hy b c ho wo hrow hw a a (fun n hn => (hv n hn).ge) (fun n hn => (hv n hn).le)
  le_antisymm h.2 h.1

theorem softAvg_score_shift {ι : Type} (L : List ι) (w s s' v : ι → ℝ) (a : ℝ) (hs : ∀ i ∈ L, s' i = s i + a) :
    softAvg L w s' v = softAvg L w s v := by
  rw [← softAvg_shifted L w s' v a]
  unfold softAvg
  congr 1
  · exact list_sum_congr fun i hi => by rw [hs i hi, add_sub_cancel_right]; ring
  · exact list_sum_congr fun i hi => by rw [hs i hi, add_sub_cancel_right]; ring

/-- C39: adding the same number to all scores of a neighbourhood changes nothing. -/
theorem C39_score_shift (d : Dims) (h0 : 0 < d.nlonOut) (hdiv : d.nlonIn % d.nlonOut = 0) (w : ℕ → ℝ) (P : Pattern) (k k' v q q' y y' : T4)
    (hy : refForward d w P k v q = .ok y) (hy' : refForward d w P k' v q' = .ok y') (b c ho wo : ℕ) (a : ℝ)
    (hs : ∀ n ∈ gatherNbrs P d.nlonIn (d.nlonIn / d.nlonOut) ho wo,
      score d.Ck k' q' b ho wo n = score d.Ck k q b ho wo n + a) : y' b c ho wo = y b c ho wo := by
  rw [refForward_eq h0 hdiv] at hy hy'
  obtain rfl := (Except.ok.inj hy)
  obtain rfl := (Except.ok.inj hy')
  exact softAvg_score_shift _ _ _ _ _ a hs

/-- C39: for an empty neighbourhood the kernel divides zero by zero; with at least one neighbour and positive weights the
denominator is positive. -/
theorem C39_empty (d : Dims) (w : ℕ → ℝ) (P : Pattern) (ps : ℕ) (k v q : T4) (b ho wo c : ℕ) :
    (P.row ho = [] → (refCell d w P ps k v q b ho wo).alphaSum = 0 ∧ (refCell d w P ps k v q b ho wo).y c = 0) ∧
    (P.row ho ≠ [] → (∀ n ∈ gatherNbrs P d.nlonIn ps ho wo, 0 < w n.1) → 0 < (refCell d w P ps k v q b ho wo).alphaSum) := by
  refine ⟨fun h => ?_, fun h hw => ?_⟩
  · simp [refCell, h]
  · rw [refCell_eq]
    refine C38_denominator_pos (P.row ho) h _ _ (fun z hz => ?_) _ 0
    exact hw _ (List.mem_map.2 ⟨z, hz, rfl⟩)

example : exPattern.row 1 ≠ [] ∧ (∀ n ∈ gatherNbrs exPattern 4 2 1 1, (0 : ℝ) < (fun _ => 1 : ℕ → ℝ) n.1) :=
  ⟨by decide, fun _ _ => one_pos⟩

/-! ### C40 -/

theorem roll_back (W n j : ℕ) (hW : 0 < W) : (j + (W - n % W)) % W + n ≡ j [MOD W] := by
  have h1 := Nat.mod_lt n hW
  have e : j + (W - n % W) + n = j + W * (n / W + 1) := by
    have := Nat.mod_add_div n W
    rw [mul_add]; omega
  calc (j + (W - n % W)) % W + n ≡ (j + (W - n % W)) + n [MOD W] := (Nat.mod_modEq _ _).add_right n
    _ ≡ j [MOD W] := by rw [e]; unfold Nat.ModEq; rw [Nat.add_mul_mod_self_left]

/-- C40: rotating keys and values by `s * nlon_in / nlon_out` columns and queries by `s` columns rotates the output by `s`
columns. -/
theorem C40_gather (d : Dims) (h0 : 0 < d.nlonOut) (hdiv : d.nlonIn % d.nlonOut = 0) (hin : 0 < d.nlonIn) (w : ℕ → ℝ) (P : Pattern)
    (k v q : T4) (s : ℕ) :
    ∃ y y', refForward d w P k v q = .ok y ∧
      refForward d w P (rollLon d.nlonIn (s * (d.nlonIn / d.nlonOut)) k) (rollLon d.nlonIn (s * (d.nlonIn / d.nlonOut)) v)
        (rollLon d.nlonOut s q) = .ok y' ∧
      ∀ b c ho, ∀ wo < d.nlonOut, y' b c ho wo = rollLon d.nlonOut s y b c ho wo := by
  refine ⟨_, _, refForward_eq h0 hdiv w P k v q, refForward_eq h0 hdiv .., fun b c ho wo _ => ?_⟩
  set ps := d.nlonIn / d.nlonOut with hps
  have hmul : d.nlonIn = ps * d.nlonOut := (Nat.div_mul_cancel (Nat.dvd_of_mod_eq_zero hdiv)).symm
  set wo' := (wo + (d.nlonOut - s % d.nlonOut)) % d.nlonOut with hwo'
  have hback : wo' + s ≡ wo [MOD d.nlonOut] := roll_back d.nlonOut s wo h0
  have hkey : ∀ x, (((x + ps * wo) % d.nlonIn) + (d.nlonIn - s * ps % d.nlonIn)) % d.nlonIn = (x + ps * wo') % d.nlonIn := by
    intro x
    have h1 : (((x + ps * wo) % d.nlonIn) + (d.nlonIn - s * ps % d.nlonIn)) % d.nlonIn + s * ps ≡ (x + ps * wo') + s * ps
        [MOD d.nlonIn] := by
      refine (roll_back d.nlonIn (s * ps) _ hin).trans ((Nat.mod_modEq _ _).trans ?_)
      have h2 : ps * (wo' + s) ≡ ps * wo [MOD d.nlonIn] := by
        rw [hmul]; exact hback.mul_left' ps
      have h3 := (h2.symm).add_left x
      have e : x + ps * (wo' + s) = x + ps * wo' + s * ps := by ring
      rw [e] at h3
      exact h3
    have h4 := Nat.ModEq.add_right_cancel' _ h1
    unfold Nat.ModEq at h4
    rwa [Nat.mod_mod] at h4
  unfold rollLon attention
  rw [← hwo', gatherNbrs, softAvg_map, gatherNbrs, softAvg_map]
  refine softAvg_congr (fun z _ => rfl) (fun z _ => ?_) (fun z _ => ?_)
  · unfold score
    refine Finset.sum_congr rfl fun c _ => ?_
    dsimp only
    rw [hkey, ← hwo']
  · dsimp only
    rw [hkey]

theorem sum_shift_mod (n t : ℕ) (hn : 0 < n) (g : ℕ → ℝ) : ∑ j ∈ range n, g ((j + t) % n) = ∑ j ∈ range n, g j := by
  refine sum_bij' (fun j _ => (j + t) % n) (fun j _ => (j + (n - t % n)) % n) ?_ ?_ ?_ ?_ ?_
  · intro j _; exact mem_range.2 (Nat.mod_lt _ hn)
  · intro j _; exact mem_range.2 (Nat.mod_lt _ hn)
  · intro j hj
    have hj := mem_range.1 hj
    have h1 := Nat.mod_lt t hn
    simp only [Nat.mod_add_mod]
    have : j + t + (n - t % n) = j + n * (t / n + 1) := by
      have := Nat.mod_add_div t n
      rw [mul_add]; omega
    rw [this, Nat.add_mul_mod_self_left, Nat.mod_eq_of_lt hj]
  · intro j hj
    have hj := mem_range.1 hj
    have h1 := Nat.mod_lt t hn
    simp only [Nat.mod_add_mod]
    have : j + (n - t % n) + t = j + n * (t / n + 1) := by
      have := Nat.mod_add_div t n
      rw [mul_add]; omega
    rw [this, Nat.add_mul_mod_self_left, Nat.mod_eq_of_lt hj]
  · intro j _; rfl

/-- C40, upsampling: rotating keys and values by `s` columns and queries by `s * nlon_out / nlon_in` columns rotates the output by
`s * nlon_out / nlon_in` columns. -/
theorem C40_upsample (d : Dims) (h0 : 0 < d.nlonIn) (hdiv : d.nlonOut % d.nlonIn = 0) (hout : 0 < d.nlonOut) (w : ℕ → ℝ) (P : Pattern)
    (k v q : T4) (s : ℕ) :
    ∃ y y', refUpForward d w P k v q = .ok y ∧
      refUpForward d w P (rollLon d.nlonIn s k) (rollLon d.nlonIn s v) (rollLon d.nlonOut (s * (d.nlonOut / d.nlonIn)) q) = .ok y' ∧
      ∀ b c ho, ∀ wo < d.nlonOut, y' b c ho wo = rollLon d.nlonOut (s * (d.nlonOut / d.nlonIn)) y b c ho wo := by
  refine ⟨_, _, refUpForward_eq h0 hdiv w P k v q, refUpForward_eq h0 hdiv .., fun b c ho wo hwo => ?_⟩
  set ps := d.nlonOut / d.nlonIn with hps
  have hmul : d.nlonOut = ps * d.nlonIn := (Nat.div_mul_cancel (Nat.dvd_of_mod_eq_zero hdiv)).symm
  set wo' := (wo + (d.nlonOut - s * ps % d.nlonOut)) % d.nlonOut with hwo'
  have hback : wo' + s * ps ≡ wo [MOD d.nlonOut] := roll_back d.nlonOut (s * ps) wo hout
  have hwo'lt : wo' < d.nlonOut := Nat.mod_lt _ hout
  set t := d.nlonIn - s % d.nlonIn with ht
  -- which pairs match
  have hmatch : ∀ x wi, (x + ps * wi) % d.nlonOut = wo ↔ (x + ps * ((wi + t) % d.nlonIn)) % d.nlonOut = wo' := by
    intro x wi
    have h1 : ps * (((wi + t) % d.nlonIn) + s) ≡ ps * wi [MOD d.nlonOut] := by
      rw [hmul]; exact (roll_back d.nlonIn s wi h0).mul_left' ps
    have h2 : x + ps * ((wi + t) % d.nlonIn) + s * ps ≡ x + ps * wi [MOD d.nlonOut] := by
      have := h1.add_left x
      have e : x + ps * ((wi + t) % d.nlonIn + s) = x + ps * ((wi + t) % d.nlonIn) + s * ps := by ring
      rwa [e] at this
    have e1 : (x + ps * wi) % d.nlonOut = wo ↔ x + ps * wi ≡ wo [MOD d.nlonOut] := by
      unfold Nat.ModEq; rw [Nat.mod_eq_of_lt hwo]
    have e2 : (x + ps * ((wi + t) % d.nlonIn)) % d.nlonOut = wo' ↔ x + ps * ((wi + t) % d.nlonIn) ≡ wo' [MOD d.nlonOut] := by
      unfold Nat.ModEq; rw [Nat.mod_eq_of_lt hwo'lt]
    rw [e1, e2]
    constructor
    · intro h
      exact Nat.ModEq.add_right_cancel' (s * ps) (h2.trans (h.trans hback.symm))
    · intro h
      exact h2.symm.trans ((h.add_right (s * ps)).trans hback)
  have hsum : ∀ g g' : ℕ × ℕ → ℝ, (∀ hi wi, g' (hi, wi) = g (hi, (wi + t) % d.nlonIn)) →
      ((scatterNbrs P d.nlatIn d.nlonIn d.nlonOut ps ho wo).map g').sum
        = ((scatterNbrs P d.nlatIn d.nlonIn d.nlonOut ps ho wo').map g).sum := by
    intro g g' hg
    rw [scatter_sum, scatter_sum]
    refine Finset.sum_congr rfl fun hi _ => ?_
    rw [← sum_shift_mod d.nlonIn t h0 (fun wi => ((P.row hi).map fun z => if outOf P d.nlonOut ps wi z = (ho, wo') then
      g (hi, wi) else 0).sum)]
    refine Finset.sum_congr rfl fun wi _ => list_sum_congr fun z _ => ?_
    have : outOf P d.nlonOut ps wi z = (ho, wo) ↔ outOf P d.nlonOut ps ((wi + t) % d.nlonIn) z = (ho, wo') := by
      unfold outOf
      rw [Prod.mk.injEq, Prod.mk.injEq, hmatch]
    by_cases h : outOf P d.nlonOut ps wi z = (ho, wo)
    · rw [if_pos h, if_pos (this.1 h), hg]
    · rw [if_neg h, if_neg (fun h' => h (this.2 h'))]
  unfold rollLon attention softAvg
  rw [← hwo']
  congr 1
  · exact hsum (fun p => w p.1 * Real.exp (score d.Ck k q b ho wo' p) * v b c p.1 p.2) _ (fun hi wi => rfl)
  · exact hsum (fun p => w p.1 * Real.exp (score d.Ck k q b ho wo' p)) _ (fun hi wi => rfl)

example : (0 < exDims.nlonOut ∧ exDims.nlonIn % exDims.nlonOut = 0 ∧ 0 < exDims.nlonIn) ∧
    (let d : Dims := ⟨1, 1, 1, 2, 2, 2, 4⟩; 0 < d.nlonIn ∧ d.nlonOut % d.nlonIn = 0 ∧ 0 < d.nlonOut) := by decide

/-! ### C41 -/

/-- C41: the two-pass scatter of the reference returns the weighted softmax average over the input points whose own (transposed)
neighbourhood contains the output point. -/
theorem C41_reference (d : Dims) (h0 : 0 < d.nlonIn) (hdiv : d.nlonOut % d.nlonIn = 0) (w : ℕ → ℝ) (P : Pattern) (k v q : T4) :
    refUpForward d w P k v q
      = .ok (attention d.Ck w (scatterNbrs P d.nlatIn d.nlonIn d.nlonOut (d.nlonOut / d.nlonIn)) k v q) :=
  refUpForward_eq h0 hdiv w P k v q

/-- C41, which points these are: `(hi, wi)` is a neighbour of `(ho, wo)` exactly when some stored entry of row `hi`, turned by
`wi` steps, is the output point. -/
theorem C41_neighbours (P : Pattern) (nlatIn nlonIn nlonOut ps ho wo hi wi : ℕ) :
    (hi, wi) ∈ scatterNbrs P nlatIn nlonIn nlonOut ps ho wo ↔
      hi < nlatIn ∧ wi < nlonIn ∧ ∃ z, P.roff hi ≤ z ∧ z < P.roff (hi + 1) ∧ P.col z / nlonOut = ho ∧
        (P.col z % nlonOut + ps * wi) % nlonOut = wo := by
  unfold scatterNbrs
  simp only [List.mem_flatMap, List.mem_range, List.mem_map, List.mem_filter, Pattern.row, List.mem_range'_1, Prod.mk.injEq,
    decide_eq_true_eq]
  constructor
  · rintro ⟨a, ha, x, hx, z, ⟨⟨h1, h2⟩, h3, h4⟩, rfl, rfl⟩
    exact ⟨ha, hx, z, h1, by omega, h3, h4⟩
  · rintro ⟨ha, hx, z, h1, h2, h3, h4⟩
    exact ⟨hi, ha, wi, hx, z, ⟨⟨h1, by omega⟩, h3, h4⟩, rfl, rfl⟩

/-- C41: the running maximum that pass 2 reads is never minus infinity. -/
theorem C41_max_written (d : Dims) (P : Pattern) (ps : ℕ) (k q : T4) (b : ℕ) {hi wi z : ℕ} (h1 : hi < d.nlatIn) (h2 : wi < d.nlonIn)
    (h3 : z ∈ P.row hi) : upMax d P ps k q b (outOf P d.nlonOut ps wi z) ≠ ⊥ := upMax_isSome d P ps k q b h1 h2 h3

/-- C41, error branches. -/
theorem C41_reference_errors (d : Dims) (w : ℕ → ℝ) (P : Pattern) (k v q : T4) :
    (d.nlonIn = 0 → refUpForward d w P k v q = .error .zeroDivision) ∧
    (0 < d.nlonIn → d.nlonOut % d.nlonIn ≠ 0 → refUpForward d w P k v q = .error .runtimeError) := by
  refine ⟨fun h => ?_, fun h h' => ?_⟩
  · simp [refUpForward, scatterScale, h]
  · have : d.nlonIn ≠ 0 := by omega
    simp [refUpForward, scatterScale, this, h']

/-- C39 for the upsampling kernel: the output at a point with at least one neighbour lies between the bounds of the values. -/
theorem C39_upsample_bounds (d : Dims) (h0 : 0 < d.nlonIn) (hdiv : d.nlonOut % d.nlonIn = 0) (w : ℕ → ℝ) (P : Pattern) (k v q y : T4)
    (hy : refUpForward d w P k v q = .ok y) (b c ho wo : ℕ)
    (hne : scatterNbrs P d.nlatIn d.nlonIn d.nlonOut (d.nlonOut / d.nlonIn) ho wo ≠ [])
    (hw : ∀ n ∈ scatterNbrs P d.nlatIn d.nlonIn d.nlonOut (d.nlonOut / d.nlonIn) ho wo, 0 < w n.1) (lo hi : ℝ)
    (hlo : ∀ n ∈ scatterNbrs P d.nlatIn d.nlonIn d.nlonOut (d.nlonOut / d.nlonIn) ho wo, lo ≤ v b c n.1 n.2)
    (hhi : ∀ n ∈ scatterNbrs P d.nlatIn d.nlonIn d.nlonOut (d.nlonOut / d.nlonIn) ho wo, v b c n.1 n.2 ≤ hi) :
    lo ≤ y b c ho wo ∧ y b c ho wo ≤ hi := by
  rw [refUpForward_eq h0 hdiv] at hy
  obtain rfl := (Except.ok.inj hy)
  obtain ⟨p, h1, h2, h3⟩ := softAvg_convex _ hne (fun n => w n.1) (score d.Ck k q b ho wo) hw
  have := convex_bounds _ p (fun n => v b c n.1 n.2) (fun n hn => (h1 n hn).le) lo hi hlo hhi
  rw [h2, mul_one, mul_one, ← h3] at this
  exact this

example : scatterNbrs ⟨fun z => if z = 0 then 0 else 5, fun h => h⟩ 2 2 4 2 1 3 = [(1, 1)] := by decide

/-! ### C42 -/

theorem inner4_unit (B C H W : ℕ) (x : T4) {b c h w : ℕ} (hb : b < B) (hc : c < C) (hh : h < H) (hw : w < W) :
    inner4 B C H W x (unit4 b c h w) = x b c h w := by
  unfold inner4 unit4
  rw [Finset.sum_eq_single b, Finset.sum_eq_single c, Finset.sum_eq_single h, Finset.sum_eq_single w]
  · simp
  · intro i _ hi; simp [hi]
  · intro h'; exact absurd (Finset.mem_range.2 hw) h'
  · intro i _ hi; exact Finset.sum_eq_zero fun _ _ => by simp [hi]
  · intro h'; exact absurd (Finset.mem_range.2 hh) h'
  · intro i _ hi; exact Finset.sum_eq_zero fun _ _ => Finset.sum_eq_zero fun _ _ => by simp [hi]
  · intro h'; exact absurd (Finset.mem_range.2 hc) h'
  · intro i _ hi
    exact Finset.sum_eq_zero fun _ _ => Finset.sum_eq_zero fun _ _ => Finset.sum_eq_zero fun _ _ => by simp [hi]
  · intro h'; exact absurd (Finset.mem_range.2 hb) h'

theorem inner4_congr {B C H W : ℕ} {x x' : T4} (h : ∀ b < B, ∀ c < C, ∀ i < H, ∀ j < W, x b c i j = x' b c i j) (y : T4) :
    inner4 B C H W x y = inner4 B C H W x' y := by
  unfold inner4
  refine Finset.sum_congr rfl fun b hb => Finset.sum_congr rfl fun c hc => Finset.sum_congr rfl fun i hi =>
    Finset.sum_congr rfl fun j hj => ?_
  rw [h b (mem_range.1 hb) c (mem_range.1 hc) i (mem_range.1 hi) j (mem_range.1 hj)]

theorem gatherNbrs_fits {d : Dims} {P : Pattern} (hfit : P.Fits d.nlatOut (d.nlatIn * d.nlonIn)) (hin : 0 < d.nlonIn) (ps : ℕ)
    {ho : ℕ} (hho : ho < d.nlatOut) (wo : ℕ) : ∀ p ∈ gatherNbrs P d.nlonIn ps ho wo, p.1 < d.nlatIn ∧ p.2 < d.nlonIn := by
  intro p hp
  obtain ⟨z, hz, rfl⟩ := List.mem_map.1 hp
  exact ⟨(Nat.div_lt_iff_lt_mul hin).2 (hfit ho hho z hz), Nat.mod_lt _ hin⟩

/-- C42: the three hand-written reference gradients are the derivatives of `<dy, output>`. `y` is the forward kernel as a function of
its inputs; along every line through `(k, v, q)` the derivative of `<dy, y>` at the base point is the sum of the inner products of
the returned gradients with the directions. -/
theorem C42_reference (d : Dims) (h0 : 0 < d.nlonOut) (hdiv : d.nlonIn % d.nlonOut = 0) (hin : 0 < d.nlonIn) (w : ℕ → ℝ)
    (hw : ∀ hi < d.nlatIn, 0 < w hi) (P : Pattern) (hfit : P.Fits d.nlatOut (d.nlatIn * d.nlonIn))
    (hrow : ∀ ho < d.nlatOut, P.row ho ≠ []) (k v q dy : T4) :
    ∃ (y : T4 → T4 → T4 → T4) (dk dv dq : T4), (∀ k v q, refForward d w P k v q = .ok (y k v q)) ∧
      refDk d w P k v q dy = .ok dk ∧ refDv d w P k v q dy = .ok dv ∧ refDq d w P k v q dy = .ok dq ∧
      ∀ δk δv δq : T4, HasDerivAt
        (fun t => inner4 d.B d.Cv d.nlatOut d.nlonOut dy (y (line k δk t) (line v δv t) (line q δq t)))
        (inner4 d.B d.Ck d.nlatIn d.nlonIn dk δk + inner4 d.B d.Cv d.nlatIn d.nlonIn dv δv
          + inner4 d.B d.Ck d.nlatOut d.nlonOut dq δq) 0 := by
  refine ⟨_, _, _, _, fun k v q => refForward_eq h0 hdiv w P k v q, refDk_eq h0 hdiv w P k v q dy hrow,
    refDv_eq h0 hdiv w P k v q dy hrow, refDq_eq h0 hdiv w P k v q dy hrow, fun δk δv δq => ?_⟩
  refine attention_hasDerivAt d.B d.Ck d.Cv d.nlatIn d.nlonIn d.nlatOut d.nlonOut w _ k v q dy δk δv δq
    (fun ho hho wo _ => gatherNbrs_fits hfit hin _ hho wo) (fun b _ ho hho wo _ => ?_)
  refine (weight_sum_pos (by simpa [gatherNbrs] using hrow ho hho) (fun p hp => ?_) _).ne'
  exact hw _ (gatherNbrs_fits hfit hin _ hho wo p hp).1

/-- C42, entry by entry: the gradient entry of a key is the partial derivative with respect to that key (and likewise for values and
queries). -/
theorem C42_reference_entry (d : Dims) (h0 : 0 < d.nlonOut) (hdiv : d.nlonIn % d.nlonOut = 0) (hin : 0 < d.nlonIn) (w : ℕ → ℝ)
    (hw : ∀ hi < d.nlatIn, 0 < w hi) (P : Pattern) (hfit : P.Fits d.nlatOut (d.nlatIn * d.nlonIn))
    (hrow : ∀ ho < d.nlatOut, P.row ho ≠ []) (k v q dy : T4) :
    ∃ (y : T4 → T4 → T4 → T4) (dk dv dq : T4), (∀ k v q, refForward d w P k v q = .ok (y k v q)) ∧
      refDk d w P k v q dy = .ok dk ∧ refDv d w P k v q dy = .ok dv ∧ refDq d w P k v q dy = .ok dq ∧
      (∀ b < d.B, ∀ c < d.Ck, ∀ h < d.nlatIn, ∀ x < d.nlonIn, HasDerivAt
        (fun t => inner4 d.B d.Cv d.nlatOut d.nlonOut dy (y (line k (unit4 b c h x) t) v q)) (dk b c h x) 0) ∧
      (∀ b < d.B, ∀ c < d.Cv, ∀ h < d.nlatIn, ∀ x < d.nlonIn, HasDerivAt
        (fun t => inner4 d.B d.Cv d.nlatOut d.nlonOut dy (y k (line v (unit4 b c h x) t) q)) (dv b c h x) 0) ∧
      (∀ b < d.B, ∀ c < d.Ck, ∀ h < d.nlatOut, ∀ x < d.nlonOut, HasDerivAt
        (fun t => inner4 d.B d.Cv d.nlatOut d.nlonOut dy (y k v (line q (unit4 b c h x) t))) (dq b c h x) 0) := by
  obtain ⟨y, dk, dv, dq, hy, h1, h2, h3, h4⟩ := C42_reference d h0 hdiv hin w hw P hfit hrow k v q dy
  have hz : ∀ x : T4, ∀ t, line x (fun _ _ _ _ => 0) t = x := fun x t => by unfold line; simp
  have hi : ∀ B C H W (x : T4), inner4 B C H W x (fun _ _ _ _ => 0) = 0 := fun B C H W x => by unfold inner4; simp
  refine ⟨y, dk, dv, dq, hy, h1, h2, h3, fun b hb c hc h hh x hx => ?_, fun b hb c hc h hh x hx => ?_, fun b hb c hc h hh x hx => ?_⟩
  · have := h4 (unit4 b c h x) (fun _ _ _ _ => 0) (fun _ _ _ _ => 0)
    simpa only [hz, hi, add_zero, inner4_unit _ _ _ _ dk hb hc hh hx] using this
  · have := h4 (fun _ _ _ _ => 0) (unit4 b c h x) (fun _ _ _ _ => 0)
    simpa only [hz, hi, add_zero, zero_add, inner4_unit _ _ _ _ dv hb hc hh hx] using this
  · have := h4 (fun _ _ _ _ => 0) (fun _ _ _ _ => 0) (unit4 b c h x)
    simpa only [hz, hi, zero_add, inner4_unit _ _ _ _ dq hb hc hh hx] using this

/-- C42, upsampling: the same for the scatter kernels. -/
theorem C42_upsample_reference (d : Dims) (h0 : 0 < d.nlonIn) (hdiv : d.nlonOut % d.nlonIn = 0) (hout : 0 < d.nlonOut) (w : ℕ → ℝ)
    (hw : ∀ hi < d.nlatIn, 0 < w hi) (P : Pattern) (hfit : P.Fits d.nlatIn (d.nlatOut * d.nlonOut))
    (hne : ∀ ho < d.nlatOut, ∀ wo < d.nlonOut, scatterNbrs P d.nlatIn d.nlonIn d.nlonOut (d.nlonOut / d.nlonIn) ho wo ≠ [])
    (k v q dy : T4) :
    ∃ (y : T4 → T4 → T4 → T4) (dk dv dq : T4), (∀ k v q, refUpForward d w P k v q = .ok (y k v q)) ∧
      refUpDk d w P k v q dy = .ok dk ∧ refUpDv d w P k v q dy = .ok dv ∧ refUpDq d w P k v q dy = .ok dq ∧
      ∀ δk δv δq : T4, HasDerivAt
        (fun t => inner4 d.B d.Cv d.nlatOut d.nlonOut dy (y (line k δk t) (line v δv t) (line q δq t)))
        (inner4 d.B d.Ck d.nlatIn d.nlonIn dk δk + inner4 d.B d.Cv d.nlatIn d.nlonIn dv δv
          + inner4 d.B d.Ck d.nlatOut d.nlonOut dq δq) 0 := by
  obtain ⟨dk, hk, ek⟩ := refUpDk_eq h0 hdiv hout w P hfit k v q dy
  obtain ⟨dv, hv, ev⟩ := refUpDv_eq h0 hdiv hout w P hfit k v q dy
  refine ⟨_, dk, dv, _, fun k v q => refUpForward_eq h0 hdiv w P k v q, hk, hv, refUpDq_eq h0 hdiv w P k v q dy,
    fun δk δv δq => ?_⟩
  rw [inner4_congr (fun b _ c _ i hi j hj => ek b c i hi j hj), inner4_congr (fun b _ c _ i hi j hj => ev b c i hi j hj)]
  refine attention_hasDerivAt d.B d.Ck d.Cv d.nlatIn d.nlonIn d.nlatOut d.nlonOut w _ k v q dy δk δv δq
    (fun ho hho wo _ p hp => mem_scatterNbrs hp) (fun b _ ho hho wo hwo => ?_)
  exact (weight_sum_pos (hne ho hho wo hwo) (fun p hp => hw _ (mem_scatterNbrs hp).1) _).ne'

/-- C42, error branch: a single empty neighbourhood makes the reference backward raise. -/
theorem C42_reference_empty_row (d : Dims) (h0 : 0 < d.nlonOut) (hdiv : d.nlonIn % d.nlonOut = 0) (w : ℕ → ℝ) (P : Pattern)
    (ho : ℕ) (hho : ho < d.nlatOut) (hrow : P.row ho = []) (k v q dy : T4) :
    refDk d w P k v q dy = .error .indexError ∧ refDv d w P k v q dy = .error .indexError ∧
      refDq d w P k v q dy = .error .indexError := by
  have h : hasEmptyRow d P := ⟨ho, hho, hrow⟩
  refine ⟨?_, ?_, ?_⟩
  · unfold refDk; rw [gatherScale_ok h0 hdiv]; exact if_pos h
  · unfold refDv; rw [gatherScale_ok h0 hdiv]; exact if_pos h
  · unfold refDq; rw [gatherScale_ok h0 hdiv]; exact if_pos h

example : exPattern.Fits exDims.nlatOut (exDims.nlatIn * exDims.nlonIn) ∧ ∀ ho < exDims.nlatOut, exPattern.row ho ≠ [] := by
  constructor
  · intro h hh z hz
    change h < 2 at hh
    interval_cases h
    · have hz' : z ≤ 1 := by simpa [Pattern.row, exPattern] using hz
      have : z = 0 ∨ z = 1 := by omega
      rcases this with rfl | rfl <;> decide
    · have : z = 2 := by simpa [Pattern.row, exPattern] using hz
      subst this; decide
  · intro h hh
    change h < 2 at hh
    interval_cases h <;> decide

end Verif.Props
