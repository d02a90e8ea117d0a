import Verif.Lemmas.Collectives
import Verif.Spec.Dist
/-!
Relating `compute_split_shapes` to the closed forms of the specification.
-/
namespace Verif.Dist
open Verif Verif.Spec Finset

theorem css_getD_block {n P : ℕ} {l : List ℕ} (h : computeSplitShapes n P = .ok l) (r : ℕ) (hr : r < P) :
    l.getD r 0 = blockSize n P r := css_getD h r hr

theorem blockStart_succ (n P r : ℕ) : blockStart n P (r + 1) = blockStart n P r + blockSize n P r := by
  unfold blockStart blockSize
  split <;> rw [Nat.add_mul] <;> omega

theorem css_offset_block {n P : ℕ} {l : List ℕ} (h : computeSplitShapes n P = .ok l) (r : ℕ) (hr : r ≤ P) :
    offset l r = blockStart n P r := by
  induction r with
  | zero => simp [offset, blockStart]
  | succ r ih => rw [offset_succ, ih (by omega), css_getD_block h r (by omega), blockStart_succ]

theorem blockStart_last {n P : ℕ} (h0 : 0 < P) : blockStart n P P = n := by
  have := Nat.div_add_mod n P
  have := Nat.mod_lt n h0
  unfold blockStart; rw [min_eq_right (by omega)]; omega

theorem blockSize_pos {n P r : ℕ} (h : P ≤ n) (h0 : 0 < P) : 0 < blockSize n P r := by
  have : 0 < n / P := Nat.div_pos h h0
  unfold blockSize; omega

theorem block_lt {n P r i : ℕ} (h0 : 0 < P) (hr : r < P) (hi : i < blockSize n P r) :
    blockStart n P r + i < n := by
  have h1 := blockStart_succ n P r
  have h2 : blockStart n P (r + 1) ≤ blockStart n P P := by
    have hm : Monotone (blockStart n P) :=
      monotone_nat_of_le_succ (fun a => by rw [blockStart_succ]; omega)
    exact hm hr
  rw [blockStart_last h0] at h2
  omega

theorem sum_blocks {α} [AddCommMonoid α] {n P : ℕ} (h0 : 0 < P) (f : ℕ → α) :
    ∑ j ∈ range n, f j = ∑ r ∈ range P, ∑ i ∈ range (blockSize n P r), f (blockStart n P r + i) := by
  have key : ∀ k, ∑ j ∈ range (blockStart n P k), f j
      = ∑ r ∈ range k, ∑ i ∈ range (blockSize n P r), f (blockStart n P r + i) := by
    intro k
    induction k with
    | zero => simp [blockStart]
    | succ k ih => rw [blockStart_succ, sum_range_add, ih, sum_range_succ]
  rw [← key P, blockStart_last h0]

/-- Every global index lies in exactly one block. -/
theorem exists_block {n P j : ℕ} (h0 : 0 < P) (hj : j < n) :
    ∃ r < P, ∃ i < blockSize n P r, j = blockStart n P r + i := by
  have key : ∀ k, j < blockStart n P k → ∃ r < k, ∃ i < blockSize n P r, j = blockStart n P r + i := by
    intro k
    induction k with
    | zero => simp [blockStart]
    | succ k ih =>
      intro h
      by_cases h' : j < blockStart n P k
      · obtain ⟨r, hr, i, hi, e⟩ := ih h'
        exact ⟨r, by omega, i, hi, e⟩
      · rw [blockStart_succ] at h
        exact ⟨k, by omega, j - blockStart n P k, by omega, by omega⟩
  exact key P (by rw [blockStart_last h0]; exact hj)

theorem block_unique {n P r i r' i' : ℕ} (hi : i < blockSize n P r) (hi' : i' < blockSize n P r')
    (h : blockStart n P r + i = blockStart n P r' + i') : r = r' ∧ i = i' := by
  have hm : Monotone (blockStart n P) :=
    monotone_nat_of_le_succ (fun a => by rw [blockStart_succ]; omega)
  have : r = r' := by
    rcases Nat.lt_trichotomy r r' with hlt | heq | hlt
    · have := hm (Nat.succ_le_of_lt hlt); rw [Nat.succ_eq_add_one, blockStart_succ] at this; omega
    · exact heq
    · have := hm (Nat.succ_le_of_lt hlt); rw [Nat.succ_eq_add_one, blockStart_succ] at this; omega
  subst this; exact ⟨rfl, by omega⟩

theorem splitTensor_ok {α} {x : Vec α} {P : ℕ} (h : P ≤ x.len) (h0 : 0 < P) :
    ∃ l, computeSplitShapes x.len P = .ok l ∧ splitTensorAlongDim x P = .ok (fun r => x.chunk l r) := by
  obtain ⟨l, hl⟩ := css_exists h h0
  refine ⟨l, hl, ?_⟩
  simp [splitTensorAlongDim, hl, h, css_sum hl, bind, Except.bind, pure, Except.pure]

/-- Concatenating the blocks of a global vector gives the global vector. -/
theorem cat_blocks {α} {n P : ℕ} (h : P ≤ n) (h0 : 0 < P) (X : ℕ → α) (x : ℕ → Vec α)
    (hx : ∀ r < P, IsBlock n P X r (x r)) : IsWhole n X (Vec.cat P x) := by
  obtain ⟨l, hl⟩ := css_exists h h0
  have hs : (List.range P).map (fun r => (x r).len) = l :=
    map_range_getD l P (css_length hl) _ (fun r hr => by rw [(hx r hr).1, css_getD_block hl r hr])
  refine ⟨?_, ?_⟩
  · simp only [Vec.cat, hs]; exact css_sum hl
  · intro j hj
    simp only [Vec.cat, hs]
    obtain ⟨h1, h2, h3⟩ := locate_spec l j (by rw [css_sum hl]; exact hj)
    rw [css_length hl] at h1
    rw [css_getD_block hl _ h1] at h2
    rw [Nat.min_eq_left (by omega), (hx _ h1).2 _ h2, ← css_offset_block hl _ (by omega), h3]

theorem cat1_blocks {α} {n0 n1 P : ℕ} (h : P ≤ n1) (h0 : 0 < P) (X : ℕ → ℕ → α) (x : ℕ → Mat α)
    (hx : ∀ r < P, IsBlock1 n0 n1 P X r (x r)) :
    (Mat.cat1 P x).d0 = n0 ∧ (Mat.cat1 P x).d1 = n1 ∧
      ∀ i < n0, ∀ j < n1, (Mat.cat1 P x).val i j = X i j := by
  obtain ⟨l, hl⟩ := css_exists h h0
  have hs : (List.range P).map (fun r => (x r).d1) = l :=
    map_range_getD l P (css_length hl) _ (fun r hr => by rw [(hx r hr).2.1, css_getD_block hl r hr])
  refine ⟨?_, ?_, ?_⟩
  · simp only [Mat.cat1]; exact (hx 0 h0).1
  · simp only [Mat.cat1, hs]; exact css_sum hl
  · intro i hi j hj
    simp only [Mat.cat1, hs]
    obtain ⟨h1, h2, h3⟩ := locate_spec l j (by rw [css_sum hl]; exact hj)
    rw [css_length hl] at h1
    rw [css_getD_block hl _ h1] at h2
    rw [Nat.min_eq_left (by omega), (hx _ h1).2.2 i hi _ h2, ← css_offset_block hl _ (by omega), h3]

/-- Only the pieces of the group are read. -/
theorem cat1_congr {α} {P : ℕ} (h0 : 0 < P) {x y : ℕ → Mat α} (h : ∀ r < P, x r = y r) : Mat.cat1 P x = Mat.cat1 P y := by
  have hs : (List.range P).map (fun r => (x r).d1) = (List.range P).map (fun r => (y r).d1) :=
    List.map_congr_left fun r hr => by rw [h r (List.mem_range.1 hr)]
  unfold Mat.cat1
  simp only [hs, h 0 h0]
  congr 1
  funext i j
  rw [h _ (by omega)]

theorem cat_congr {α} {P : ℕ} (h0 : 0 < P) {x y : ℕ → Vec α} (h : ∀ r < P, x r = y r) : Vec.cat P x = Vec.cat P y := by
  have hs : (List.range P).map (fun r => (x r).len) = (List.range P).map (fun r => (y r).len) :=
    List.map_congr_left fun r hr => by rw [h r (List.mem_range.1 hr)]
  unfold Vec.cat
  simp only [hs]
  congr 1
  funext j
  rw [h _ (by omega)]

end Verif.Dist
