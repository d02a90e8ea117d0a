import Verif.Model.Collectives
import Mathlib.Tactic.Ring
import Mathlib.Tactic.Linarith
import Mathlib.Data.List.GetD
import Mathlib.Algebra.BigOperators.Ring.Finset
/-!
Helper lemmas on chunk offsets, `locate`, and finite sums over chunked index ranges.
-/
namespace Verif.Dist
open Verif Finset

theorem offset_zero (s : List ℕ) : offset s 0 = 0 := by simp [offset]

theorem offset_cons_succ (a : ℕ) (s : List ℕ) (r : ℕ) : offset (a :: s) (r + 1) = a + offset s r := by
  simp [offset]

theorem offset_succ (s : List ℕ) (r : ℕ) : offset s (r + 1) = offset s r + s.getD r 0 := by
  induction s generalizing r with
  | nil => simp [offset]
  | cons a s ih =>
    cases r with
    | zero => simp [offset]
    | succ r => rw [offset_cons_succ, ih, offset_cons_succ]; simp; omega

theorem offset_length (s : List ℕ) : offset s s.length = s.sum := by simp [offset]

theorem offset_mono {s : List ℕ} {a b : ℕ} (h : a ≤ b) : offset s a ≤ offset s b := by
  induction b, h using Nat.le_induction with
  | base => exact le_rfl
  | succ b _ ih => rw [offset_succ]; omega

theorem offset_le_sum (s : List ℕ) (r : ℕ) : offset s r ≤ s.sum := by
  by_cases h : r ≤ s.length
  · rw [← offset_length]; exact offset_mono h
  · simp [offset, List.take_of_length_le (by omega : s.length ≤ r)]

theorem offset_add_lt {s : List ℕ} {r i : ℕ} (hi : i < s.getD r 0) : offset s r + i < s.sum := by
  have := offset_succ s r
  have := offset_le_sum s (r + 1)
  omega

theorem locate_offset (s : List ℕ) (r i : ℕ) (hi : i < s.getD r 0) :
    locate s (offset s r + i) = (r, i) := by
  induction s generalizing r with
  | nil => simp at hi
  | cons a s ih =>
    cases r with
    | zero => simp at hi; simp [locate, offset, hi]
    | succ r =>
      simp only [List.getD_cons_succ] at hi
      rw [offset_cons_succ, locate, if_neg (by omega)]
      have : a + offset s r + i - a = offset s r + i := by omega
      rw [this, ih r hi]

theorem locate_spec (s : List ℕ) (j : ℕ) (hj : j < s.sum) :
    (locate s j).1 < s.length ∧ (locate s j).2 < s.getD (locate s j).1 0 ∧
      offset s (locate s j).1 + (locate s j).2 = j := by
  induction s generalizing j with
  | nil => simp at hj
  | cons a s ih =>
    unfold locate
    split
    · next h => exact ⟨by simp, by simpa using h, by simp [offset]⟩
    · next h =>
      have h2 : j - a < s.sum := by simp at hj; omega
      obtain ⟨h3, h4, h5⟩ := ih (j - a) h2
      refine ⟨by simpa using h3, by simpa using h4, ?_⟩
      simp only [offset_cons_succ]; omega

theorem sum_range_list {α} [AddCommMonoid α] (s : List ℕ) (f : ℕ → α) :
    ∑ j ∈ range s.sum, f j = ∑ r ∈ range s.length, ∑ i ∈ range (s.getD r 0), f (offset s r + i) := by
  have key : ∀ n, n ≤ s.length →
      ∑ j ∈ range (offset s n), f j = ∑ r ∈ range n, ∑ i ∈ range (s.getD r 0), f (offset s r + i) := by
    intro n
    induction n with
    | zero => simp [offset]
    | succ n ih =>
      intro hn
      rw [offset_succ, sum_range_add, ih (by omega), sum_range_succ]
  rw [← offset_length, key _ le_rfl]

/-! ### compute_split_shapes -/

theorem css_ok_iff (size n : ℕ) (l : List ℕ) : computeSplitShapes size n = .ok l ↔
    (n ≤ size ∧ 0 < n ∧
      l = List.replicate (size % n) (size / n + 1) ++ List.replicate (n - size % n) (size / n)) := by
  unfold computeSplitShapes
  split
  · next h => simp; omega
  · next h =>
    split
    · next h0 => simp; omega
    · next h0 =>
      simp only [Except.ok.injEq]
      constructor
      · intro h1; exact ⟨by omega, by omega, h1.symm⟩
      · rintro ⟨-, -, h1⟩; exact h1.symm

theorem css_exists {size n : ℕ} (h : n ≤ size) (h0 : 0 < n) : ∃ l, computeSplitShapes size n = .ok l :=
  ⟨_, (css_ok_iff _ _ _).2 ⟨h, h0, rfl⟩⟩

theorem css_length {size n : ℕ} {l : List ℕ} (h : computeSplitShapes size n = .ok l) : l.length = n := by
  obtain ⟨h1, h2, rfl⟩ := (css_ok_iff _ _ _).1 h
  have := Nat.mod_lt size h2
  simp; omega

theorem css_sum {size n : ℕ} {l : List ℕ} (h : computeSplitShapes size n = .ok l) : l.sum = size := by
  obtain ⟨h1, h2, rfl⟩ := (css_ok_iff _ _ _).1 h
  have hm := Nat.mod_lt size h2
  simp only [List.sum_append, List.sum_replicate_nat]
  have hd := Nat.div_add_mod size n
  have : n = size % n + (n - size % n) := by omega
  calc size % n * (size / n + 1) + (n - size % n) * (size / n)
      = (size % n + (n - size % n)) * (size / n) + size % n := by ring
    _ = n * (size / n) + size % n := by rw [← this]
    _ = size := hd

theorem css_getD {size n : ℕ} {l : List ℕ} (h : computeSplitShapes size n = .ok l) (r : ℕ) (hr : r < n) :
    l.getD r 0 = size / n + (if r < size % n then 1 else 0) := by
  obtain ⟨h1, h2, rfl⟩ := (css_ok_iff _ _ _).1 h
  have hm := Nat.mod_lt size h2
  by_cases hlt : r < size % n
  · rw [List.getD_append _ _ _ _ (by simpa using hlt)]
    rw [List.getD_eq_getElem _ _ (by simpa using hlt)]; simp [hlt]
  · rw [List.getD_append_right _ _ _ _ (by simp; omega)]
    rw [List.getD_eq_getElem _ _ (by simp; omega)]; simp [hlt]

theorem css_pos {size n : ℕ} {l : List ℕ} (h : computeSplitShapes size n = .ok l) (r : ℕ) (hr : r < n) :
    0 < l.getD r 0 := by
  rw [css_getD h r hr]
  obtain ⟨h1, h2, -⟩ := (css_ok_iff _ _ _).1 h
  have : 0 < size / n := Nat.div_pos h1 h2
  omega

/-- Reading a concatenation whose piece sizes are the list `s`. -/
theorem map_range_getD (s : List ℕ) (P : ℕ) (h : s.length = P) (f : ℕ → ℕ)
    (hf : ∀ r < P, f r = s.getD r 0) : (List.range P).map f = s := by
  apply List.ext_getElem
  · simp [h]
  · intro i h1 h2
    simp only [List.getElem_map, List.getElem_range]
    rw [hf i (by simpa using h1), List.getD_eq_getElem _ _ h2]

end Verif.Dist
