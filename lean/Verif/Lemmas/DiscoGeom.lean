import Mathlib.Tactic.Ring
import Mathlib.Tactic.Linarith
import Mathlib.Tactic.LinearCombination
import Verif.Spec.Sphere
import Verif.Model.DiscoGeom
import Verif.Lemmas.Disco
import Verif.Lemmas.DiscoRuns
import Verif.Lemmas.DiscoNorm
/-!
The geometry of the filter precomputation: polar coordinates, and the list of stored entries.
-/
namespace Verif.Disco
open Verif Verif.Dist Verif.Quad Verif.Filter Verif.Spec Finset

theorem rotated_eq (a be ga : ℝ) : rotated (-a) be ga = toPole a (point ga be) := by
  unfold rotated toPole point
  simp only [Real.cos_neg, Real.sin_neg]
  ext1
  · dsimp only; ring
  · ext1 <;> dsimp only <;> ring

theorem dot_point (th ph : ℝ) : dot3 (point th ph) (point th ph) = 1 := by
  unfold dot3 point
  dsimp only
  linear_combination (Real.sin th ^ 2) * Real.sin_sq_add_cos_sq ph + Real.sin_sq_add_cos_sq th

theorem dot_toPole (a : ℝ) (u v : ℝ × ℝ × ℝ) : dot3 (toPole a u) (toPole a v) = dot3 u v := by
  unfold dot3 toPole
  dsimp only
  linear_combination (u.1 * v.1 + u.2.2 * v.2.2) * Real.sin_sq_add_cos_sq a

theorem toPole_point (a : ℝ) : toPole a (point a 0) = (0, 0, 1) := by
  unfold toPole point
  simp only [Real.cos_zero, Real.sin_zero, mul_one, mul_zero]
  ext1
  · dsimp only; ring
  · ext1
    · rfl
    · dsimp only; linear_combination Real.sin_sq_add_cos_sq a

/-- On unit vectors the normalisation does nothing and the result are the polar coordinates. -/
theorem toPolar_spec (v : ℝ × ℝ × ℝ) (hv : dot3 v v = 1) :
    (0 ≤ (toPolar v).1 ∧ (toPolar v).1 ≤ Real.pi) ∧ (0 ≤ (toPolar v).2 ∧ (toPolar v).2 < 2 * Real.pi) ∧
      (toPolar v).1 = Real.arccos v.2.2 ∧ point (toPolar v).1 (toPolar v).2 = v := by
  obtain ⟨x, y, z⟩ := v
  have hv' : x * x + y * y + z * z = 1 := hv
  have hz1 : -1 ≤ z := by nlinarith [mul_self_nonneg x, mul_self_nonneg y, mul_self_nonneg (z - 1)]
  have hz2 : z ≤ 1 := by nlinarith [mul_self_nonneg x, mul_self_nonneg y, mul_self_nonneg (z + 1)]
  have e : toPolar (x, y, z) = (Real.arccos z, if Complex.arg ⟨x, y⟩ < 0 then Complex.arg ⟨x, y⟩ + 2 * Real.pi else Complex.arg ⟨x, y⟩) := by
    unfold toPolar
    simp only [hv', Real.sqrt_one, div_one]
  rw [e]
  dsimp only
  refine ⟨⟨Real.arccos_nonneg _, Real.arccos_le_pi _⟩, ?_, rfl, ?_⟩
  · have := Complex.neg_pi_lt_arg ⟨x, y⟩
    have := Complex.arg_le_pi ⟨x, y⟩
    have := Real.pi_pos
    split <;> constructor <;> linarith
  · have hn : ‖(⟨x, y⟩ : ℂ)‖ = Real.sin (Real.arccos z) := by
      rw [Real.sin_arccos, Complex.norm_eq_sqrt_sq_add_sq]
      congr 1
      dsimp only
      linarith
    have hc : ∀ ph : ℝ, (ph = Complex.arg ⟨x, y⟩ ∨ ph = Complex.arg ⟨x, y⟩ + 2 * Real.pi) →
        point (Real.arccos z) ph = (x, y, z) := by
      intro ph h
      have h1 : Real.cos ph = Real.cos (Complex.arg ⟨x, y⟩) := by
        rcases h with h | h <;> rw [h]
        exact Real.cos_add_two_pi _
      have h2 : Real.sin ph = Real.sin (Complex.arg ⟨x, y⟩) := by
        rcases h with h | h <;> rw [h]
        exact Real.sin_add_two_pi _
      unfold point
      rw [h1, h2, ← hn, Complex.norm_mul_cos_arg, Complex.norm_mul_sin_arg, Real.cos_arccos hz1 hz2]
    split
    · exact hc _ (Or.inr rfl)
    · exact hc _ (Or.inl rfl)

theorem polarAt_spec (a ga be : ℝ) :
    (0 ≤ (polarAt a ga be).1 ∧ (polarAt a ga be).1 ≤ Real.pi) ∧ (0 ≤ (polarAt a ga be).2 ∧ (polarAt a ga be).2 < 2 * Real.pi) ∧
      (polarAt a ga be).1 = geodesic (point ga be) (point a 0) ∧
      point (polarAt a ga be).1 (polarAt a ga be).2 = toPole a (point ga be) := by
  unfold polarAt
  rw [rotated_eq]
  obtain ⟨h1, h2, h3, h4⟩ := toPolar_spec (toPole a (point ga be)) (by rw [dot_toPole, dot_point])
  refine ⟨h1, h2, ?_, h4⟩
  rw [h3]
  unfold geodesic
  congr 1
  rw [← dot_toPole a, toPole_point]
  unfold dot3
  dsimp only
  ring

/-- Only the difference of the longitudes matters for the distance. -/
theorem geodesic_shift (ga be a d : ℝ) : geodesic (point ga (be + d)) (point a d) = geodesic (point ga be) (point a 0) := by
  unfold geodesic dot3 point
  congr 1
  have h := Real.cos_sub (be + d) d
  rw [add_sub_cancel_right] at h
  simp only [Real.cos_zero, Real.sin_zero, mul_one, mul_zero, add_zero]
  linear_combination (-(Real.sin ga * Real.sin a)) * h

theorem geodesic_lon_congr (ga be be' a d : ℝ) (n : ℤ) (h : be' = be + n * (2 * Real.pi)) :
    geodesic (point ga be') (point a d) = geodesic (point ga be) (point a d) := by
  unfold geodesic dot3 point
  rw [h, Real.cos_add_int_mul_two_pi, Real.sin_add_int_mul_two_pi]

/-! ### The list of entries -/

theorem sum_flatMap {α β : Type} (l : List α) (g : α → List β) (f : β → ℝ) :
    ((l.flatMap g).map f).sum = (l.map fun a => ((g a).map f).sum).sum := by
  induction l with
  | nil => rfl
  | cons a l ih => rw [List.flatMap_cons, List.map_append, List.sum_append, ih, List.map_cons, List.sum_cons]

theorem sum_map_range (n : ℕ) (f : ℕ → ℝ) : ((List.range n).map f).sum = ∑ i ∈ range n, f i := by
  induction n with
  | zero => rfl
  | succ n ih => rw [List.range_succ, List.map_append, List.sum_append, ih, sum_range_succ]; simp

theorem sum_filterMap {α β : Type} (l : List α) (g : α → Option β) (f : β → ℝ) :
    ((l.filterMap g).map f).sum = (l.map fun a => ((g a).map f).getD 0).sum := by
  induction l with
  | nil => rfl
  | cons a l ih =>
    rw [List.filterMap_cons, List.map_cons, List.sum_cons, ← ih]
    cases g a with
    | none => simp
    | some b => simp

theorem sum_grid {α : Type} (K H W : ℕ) (val : ℕ → ℕ → ℕ → Option α) (f : ℕ × ℕ × ℕ × α → ℝ) :
    ((grid K H W val).map f).sum
      = ∑ k ∈ range K, ∑ i ∈ range H, ∑ j ∈ range W, ((val k i j).map fun v => f (k, i, j, v)).getD 0 := by
  unfold grid
  rw [sum_flatMap, sum_map_range]
  refine sum_congr rfl fun k _ => ?_
  rw [sum_flatMap, sum_map_range]
  refine sum_congr rfl fun i _ => ?_
  rw [sum_filterMap, sum_map_range]
  refine sum_congr rfl fun j _ => ?_
  rw [Option.map_map]
  rfl

theorem mem_grid {α : Type} (K H W : ℕ) (val : ℕ → ℕ → ℕ → Option α) (k i j : ℕ) (v : α) :
    (k, i, j, v) ∈ grid K H W val ↔ k < K ∧ i < H ∧ j < W ∧ val k i j = some v := by
  unfold grid
  simp only [List.mem_flatMap, List.mem_range, List.mem_filterMap, Option.map_eq_some_iff, Prod.mk.injEq]
  constructor
  · rintro ⟨k', hk, i', hi, j', hj, v', hv, rfl, rfl, rfl, rfl⟩
    exact ⟨hk, hi, hj, hv⟩
  · rintro ⟨hk, hi, hj, hv⟩
    exact ⟨k, hk, i, hi, j, hj, v, hv, rfl, rfl, rfl, rfl⟩

theorem col_inj {i j i' j' n : ℕ} (hj : j < n) (hj' : j' < n) (h : i * n + j = i' * n + j') : i = i' ∧ j = j' := by
  have h1 : (i * n + j) / n = (i' * n + j') / n := by rw [h]
  have h2 : (i * n + j) % n = (i' * n + j') % n := by rw [h]
  have hn : 0 < n := by omega
  rw [Nat.add_comm, Nat.add_mul_div_right _ _ hn, Nat.div_eq_of_lt hj, Nat.add_comm (i' * n), Nat.add_mul_div_right _ _ hn,
    Nat.div_eq_of_lt hj'] at h1
  rw [Nat.add_comm, Nat.add_mul_mod_self_right, Nat.mod_eq_of_lt hj, Nat.add_comm (i' * n), Nat.add_mul_mod_self_right,
    Nat.mod_eq_of_lt hj'] at h2
  omega

/-- The filter value stored for the grid point `(i, j)` and output latitude `t`. -/
noncomputable def fval (B : Basis) (latsIn latsOut : ℕ → ℝ) (nlonIn : ℕ) (rc : ℝ) (k t i j : ℕ) : Option ℝ :=
  B.val rc (polarAt (latsOut t) (latsIn i) (precomputeLongitudes nlonIn j)).1
    (polarAt (latsOut t) (latsIn i) (precomputeLongitudes nlonIn j)).2 k

/-- The entries in their tap form. -/
noncomputable def rawTaps (B : Basis) (latsIn latsOut : ℕ → ℝ) (nlatIn nlonIn nlatOut : ℕ) (rc : ℝ) : List (Tap ℝ) :=
  (List.range nlatOut).flatMap fun t => (grid B.kernelSize nlatIn nlonIn fun k i j => fval B latsIn latsOut nlonIn rc k t i j).map
    fun h => ⟨h.1, t, h.2.1, h.2.2.1, h.2.2.2⟩

theorem rawEntries_eq (B : Basis) (latsIn latsOut : ℕ → ℝ) (nlatIn nlonIn nlatOut : ℕ) (rc : ℝ) :
    rawEntries B latsIn latsOut nlatIn nlonIn nlatOut rc = (rawTaps B latsIn latsOut nlatIn nlonIn nlatOut rc).map (encode nlonIn) := by
  unfold rawEntries rawTaps rawRow fval
  rw [List.map_flatMap]
  congr 1
  funext t
  rw [List.map_map]
  rfl

theorem mem_rawTaps (B : Basis) (latsIn latsOut : ℕ → ℝ) (nlatIn nlonIn nlatOut : ℕ) (rc : ℝ) (a : Tap ℝ) :
    a ∈ rawTaps B latsIn latsOut nlatIn nlonIn nlatOut rc ↔ a.ker < B.kernelSize ∧ a.latOut < nlatOut ∧ a.latIn < nlatIn ∧
      a.lonIn < nlonIn ∧ fval B latsIn latsOut nlonIn rc a.ker a.latOut a.latIn a.lonIn = some a.val := by
  unfold rawTaps
  simp only [List.mem_flatMap, List.mem_range, List.mem_map]
  constructor
  · rintro ⟨t, ht, ⟨k, i, j, v⟩, hg, rfl⟩
    rw [mem_grid] at hg
    exact ⟨hg.1, ht, hg.2.1, hg.2.2.1, hg.2.2.2⟩
  · rintro ⟨h1, h2, h3, h4, h5⟩
    exact ⟨a.latOut, h2, (a.ker, a.latIn, a.lonIn, a.val), (mem_grid ..).2 ⟨h1, h3, h4, h5⟩, rfl⟩

theorem fits_rawTaps (B : Basis) (latsIn latsOut : ℕ → ℝ) (nlatIn nlonIn nlatOut : ℕ) (rc : ℝ) :
    Fits (rawTaps B latsIn latsOut nlatIn nlonIn nlatOut rc) B.kernelSize nlatOut nlatIn nlonIn := by
  intro a ha
  obtain ⟨h1, h2, h3, h4, -⟩ := (mem_rawTaps ..).1 ha
  exact ⟨h1, h2, h3, h4⟩

/-- A sum over the taps of filter `k` at output latitude `t` is a sum over the input grid. -/
theorem sum_rawTaps (B : Basis) (latsIn latsOut : ℕ → ℝ) (nlatIn nlonIn nlatOut : ℕ) (rc : ℝ) (k t : ℕ) (hk : k < B.kernelSize)
    (ht : t < nlatOut) (f : Tap ℝ → ℝ) :
    rowSum (rawTaps B latsIn latsOut nlatIn nlonIn nlatOut rc) k t f
      = ∑ i ∈ range nlatIn, ∑ j ∈ range nlonIn, ((fval B latsIn latsOut nlonIn rc k t i j).map fun v => f ⟨k, t, i, j, v⟩).getD 0 := by
  unfold rowSum rawTaps
  rw [sum_flatMap, sum_map_range, sum_eq_single_of_mem t (mem_range.2 ht)]
  · rw [List.map_map]
    have e := sum_grid B.kernelSize nlatIn nlonIn (fun k i j => fval B latsIn latsOut nlonIn rc k t i j)
      ((fun a : Tap ℝ => if a.ker = k ∧ a.latOut = t then f a else 0) ∘ fun h => ⟨h.1, t, h.2.1, h.2.2.1, h.2.2.2⟩)
    rw [e, sum_eq_single_of_mem k (mem_range.2 hk)]
    · simp
    · intro k' _ hne
      refine sum_eq_zero fun i _ => sum_eq_zero fun j _ => ?_
      cases fval B latsIn latsOut nlonIn rc k' t i j <;> simp [hne]
  · intro t' _ hne
    rw [List.map_map]
    refine List.sum_eq_zero fun x hx => ?_
    obtain ⟨h, -, rfl⟩ := List.mem_map.1 hx
    simp [hne]

theorem pairwise_flatMap_range {β : Type} (n : ℕ) (g : ℕ → List β) (key : β → ℕ) (h : ∀ t, ∀ b ∈ g t, key b = t) :
    ((List.range n).flatMap g).Pairwise fun a b => key a ≤ key b := by
  induction n with
  | zero => simp
  | succ n ih =>
    rw [List.range_succ, List.flatMap_append, List.pairwise_append]
    refine ⟨ih, ?_, ?_⟩
    · simp only [List.flatMap_cons, List.flatMap_nil, List.append_nil]
      refine List.pairwise_of_forall_mem_list ?_
      intro a ha b hb
      rw [h n a ha, h n b hb]
    · intro a ha b hb
      simp only [List.flatMap_cons, List.flatMap_nil, List.append_nil] at hb
      obtain ⟨t, ht, ha⟩ := List.mem_flatMap.1 ha
      rw [h t a ha, h n b hb]
      exact (List.mem_range.1 ht).le

theorem rowSorted_rawEntries (B : Basis) (latsIn latsOut : ℕ → ℝ) (nlatIn nlonIn nlatOut : ℕ) (rc : ℝ) :
    RowSorted (rawEntries B latsIn latsOut nlatIn nlonIn nlatOut rc) := by
  intro k
  refine List.Pairwise.filter _ ?_
  refine pairwise_flatMap_range nlatOut _ Entry.row ?_
  intro t b hb
  unfold rawRow at hb
  obtain ⟨h, -, rfl⟩ := List.mem_map.1 hb
  rfl

theorem rowOffsetsRaw_eq (B : Basis) (latsIn latsOut : ℕ → ℝ) (nlatIn nlonIn : ℕ) (rc : ℝ) (t : ℕ) :
    rowOffsetsRaw B latsIn latsOut nlatIn nlonIn rc t = (rawEntries B latsIn latsOut nlatIn nlonIn t rc).length := by
  induction t with
  | zero => rfl
  | succ t ih =>
    unfold rowOffsetsRaw
    rw [ih]
    unfold rawEntries
    rw [List.range_succ, List.flatMap_append, List.length_append]
    simp

end Verif.Disco
