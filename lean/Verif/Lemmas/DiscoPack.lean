import Verif.Lemmas.DiscoRuns
/-!
Sums over the sorted entries, and the dense layouts.
-/
namespace Verif.Disco
open Verif Verif.Dist Verif.Spec Finset

variable {R : Type}

/-- The compressed filter that `preprocess_psi` builds from `es`. -/
def csrOf (junk : ℕ → Entry R) (K : ℕ) (es : List (Entry R)) : Csr R :=
  Csr.ofLists junk (byKernel K es) (rowOffsets (fun i => ((byKernel K es).getD i (junk i)).row) es.length)

section
variable [CommSemiring R]

theorem range_getD_sum (l : List (Entry R)) (junk : ℕ → Entry R) (f : Entry R → R) :
    ∑ z ∈ range l.length, f (l.getD z (junk z)) = (l.map f).sum := by
  have h : ∀ n ≤ l.length, ∑ z ∈ range n, f (l.getD z (junk z)) = ((l.take n).map f).sum := by
    intro n hn
    induction n with
    | zero => simp
    | succ n ih =>
      rw [sum_range_succ, ih (by omega), List.take_add_one, List.map_append, List.sum_append,
        List.getD_eq_getElem _ _ (by omega), List.getElem?_eq_getElem (by omega)]
      simp
  rw [h _ le_rfl, List.take_length]

/-- A sum over the sorted entries is a sum over the entries. -/
theorem csr_sum (junk : ℕ → Entry R) (K : ℕ) (es : List (Entry R)) (hK : ∀ e ∈ es, e.ker < K) (f : Entry R → R) :
    ∑ z ∈ range es.length, f ((csrOf junk K es).entry z) = (es.map f).sum := by
  have hp := byKernel_perm K es hK
  rw [← hp.length_eq]
  show ∑ z ∈ range (byKernel K es).length, f ((byKernel K es).getD z (junk z)) = _
  rw [range_getD_sum]
  exact (hp.map f).sum_eq

/-- The contraction that a dense layout stands for: output `(k, t, p)` from the first `n` slots of the row. -/
def denseSum (D : Dense R) (Wi Wo : ℕ) (x : ℕ → ℕ → R) (n k t p : ℕ) : R :=
  ∑ off ∈ range n, D.val k t off * x (D.idx k t off).1 (((D.idx k t off).2 + p * (Wi / Wo)) % Wi)

end

theorem maxNbr_ge (A : Csr R) {i : ℕ} (hi : i < A.nnr) : A.roff (i + 1) - A.roff i ≤ maxNbr A := by
  unfold maxNbr
  have h : ∀ (l : List ℕ) (m : ℕ), m ≤ l.foldl (fun m i => max m (A.roff (i + 1) - A.roff i)) m ∧
      ∀ i ∈ l, A.roff (i + 1) - A.roff i ≤ l.foldl (fun m i => max m (A.roff (i + 1) - A.roff i)) m := by
    intro l
    induction l with
    | nil => intro m; exact ⟨le_rfl, by simp⟩
    | cons a l ih =>
      intro m
      rw [List.foldl_cons]
      obtain ⟨h1, h2⟩ := ih (max m (A.roff (a + 1) - A.roff a))
      refine ⟨(le_max_left _ _).trans h1, fun i hi => ?_⟩
      rcases List.mem_cons.1 hi with rfl | hi
      · exact (le_max_right _ _).trans h1
      · exact h2 i hi
  exact (h _ 0).2 i (List.mem_range.2 hi)

theorem maxNbr_le (A : Csr R) (b : ℕ) : maxNbr A ≤ b ↔ ∀ i < A.nnr, A.roff (i + 1) - A.roff i ≤ b := by
  constructor
  · intro h i hi
    exact (maxNbr_ge A hi).trans h
  · intro h
    unfold maxNbr
    have h' : ∀ (l : List ℕ) (m : ℕ), m ≤ b → (∀ i ∈ l, A.roff (i + 1) - A.roff i ≤ b) →
        l.foldl (fun m i => max m (A.roff (i + 1) - A.roff i)) m ≤ b := by
      intro l
      induction l with
      | nil => intro m hm _; exact hm
      | cons a l ih =>
        intro m hm hl
        rw [List.foldl_cons]
        exact ih _ (max_le hm (hl a (List.mem_cons_self ..))) fun i hi => hl i (List.mem_cons_of_mem _ hi)
    exact h' _ 0 (Nat.zero_le _) fun i hi => h i (List.mem_range.1 hi)

/-- What is known after packing the rows `0 .. n-1`. -/
structure Packed [Zero R] (A : Csr R) (Wi n pad : ℕ) (D : Dense R) : Prop where
  hpad : D.pad = pad
  row : ∀ i < n, D.count (A.entry (A.roff i)).ker (A.entry (A.roff i)).row = A.roff (i + 1) - A.roff i ∧
    ∀ off, (off < A.roff (i + 1) - A.roff i →
        D.idx (A.entry (A.roff i)).ker (A.entry (A.roff i)).row off
          = ((A.entry (A.roff i + off)).col / Wi, (A.entry (A.roff i + off)).col % Wi) ∧
        D.val (A.entry (A.roff i)).ker (A.entry (A.roff i)).row off = (A.entry (A.roff i + off)).val) ∧
      (¬ off < A.roff (i + 1) - A.roff i →
        D.idx (A.entry (A.roff i)).ker (A.entry (A.roff i)).row off = (0, 0) ∧
        D.val (A.entry (A.roff i)).ker (A.entry (A.roff i)).row off = 0)
  other : ∀ k t, (∀ i < n, ¬ ((A.entry (A.roff i)).ker = k ∧ (A.entry (A.roff i)).row = t)) →
    D.count k t = 0 ∧ ∀ off, D.idx k t off = (0, 0) ∧ D.val k t off = 0

theorem packRows_ok [Zero R] (A : Csr R) (Wi K Ho pad : ℕ)
    (hdist : ∀ i < A.nnr, ∀ j < A.nnr, (A.entry (A.roff i)).ker = (A.entry (A.roff j)).ker →
      (A.entry (A.roff i)).row = (A.entry (A.roff j)).row → i = j)
    (hpad : ∀ i < A.nnr, A.roff (i + 1) - A.roff i ≤ pad) (n : ℕ) (hn : n ≤ A.nnr) :
    ∃ D, packRows A Wi ⟨K, Ho, pad, fun _ _ _ => (0, 0), fun _ _ _ => 0, fun _ _ => 0⟩ n = .ok D ∧ Packed A Wi n pad D ∧
      D.K = K ∧ D.Ho = Ho := by
  induction n with
  | zero =>
    refine ⟨_, rfl, ⟨rfl, fun i hi => absurd hi (by omega), fun k t _ => ⟨rfl, fun _ => ⟨rfl, rfl⟩⟩⟩, rfl, rfl⟩
  | succ n ih =>
    obtain ⟨D, h1, h2, h3, h4⟩ := ih (by omega)
    have hle := hpad n (by omega)
    simp only [packRows, h1, packRow]
    rw [if_neg (by rw [h2.hpad]; omega)]
    refine ⟨_, rfl, ⟨h2.hpad, ?_, ?_⟩, h3, h4⟩
    · intro i hi
      by_cases hin : i = n
      · subst hin
        have ho := h2.other (A.entry (A.roff i)).ker (A.entry (A.roff i)).row (fun j hj hh => by
          have := hdist j (by omega) i (by omega) hh.1 hh.2; omega)
        refine ⟨by simp, fun off => ⟨fun hoff => by simp [hoff], fun hoff => ?_⟩⟩
        simp only [hoff, and_false, if_false]
        exact ho.2 off
      · have hne : ¬ ((A.entry (A.roff i)).ker = (A.entry (A.roff n)).ker ∧ (A.entry (A.roff i)).row = (A.entry (A.roff n)).row) :=
          fun hh => hin (hdist i (by omega) n (by omega) hh.1 hh.2)
        have hne' : ∀ off, ¬ ((A.entry (A.roff i)).ker = (A.entry (A.roff n)).ker ∧ (A.entry (A.roff i)).row = (A.entry (A.roff n)).row
            ∧ off < A.roff (n + 1) - A.roff n) := fun off hh => hne ⟨hh.1, hh.2.1⟩
        simp only [if_neg hne, if_neg (hne' _)]
        exact h2.row i (by omega)
    · intro k t hkt
      have hn' := hkt n (by omega)
      have hne : ¬ (k = (A.entry (A.roff n)).ker ∧ t = (A.entry (A.roff n)).row) := fun hh => hn' ⟨hh.1.symm, hh.2.symm⟩
      have hne' : ∀ off, ¬ (k = (A.entry (A.roff n)).ker ∧ t = (A.entry (A.roff n)).row ∧ off < A.roff (n + 1) - A.roff n) :=
        fun off hh => hne ⟨hh.1, hh.2.1⟩
      simp only [if_neg hne, if_neg (hne' _)]
      exact h2.other k t fun i hi => hkt i (by omega)

variable [CommSemiring R]

/-- A packed row contracts to the sum over all entries with its key. -/
theorem packed_sum (A : Csr R) (nnz : ℕ) (hA : Runs A nnz) (Wi Wo pad : ℕ) (D : Dense R)
    (hdist : ∀ i < A.nnr, ∀ j < A.nnr, (A.entry (A.roff i)).ker = (A.entry (A.roff j)).ker →
      (A.entry (A.roff i)).row = (A.entry (A.roff j)).row → i = j)
    (hD : Packed A Wi A.nnr pad D) (x : ℕ → ℕ → R) (k t p n : ℕ) (hn : D.count k t ≤ n) :
    denseSum D Wi Wo x n k t p = ∑ z ∈ range nnz, if (A.entry z).ker = k ∧ (A.entry z).row = t then
          (A.entry z).val * x ((A.entry z).col / Wi) (((A.entry z).col % Wi + p * (Wi / Wo)) % Wi) else 0 := by
  set F : ℕ → R := fun z => (A.entry z).val * x ((A.entry z).col / Wi) (((A.entry z).col % Wi + p * (Wi / Wo)) % Wi) with hF
  have hsum : ∑ z ∈ range nnz, (if (A.entry z).ker = k ∧ (A.entry z).row = t then F z else 0)
      = ∑ i ∈ range A.nnr, if (A.entry (A.roff i)).ker = k ∧ (A.entry (A.roff i)).row = t then
          ∑ z ∈ Ico (A.roff i) (A.roff (i + 1)), F z else 0 := by
    rw [← hA.last, ← hA.sum _ A.nnr le_rfl]
    apply sum_congr rfl
    intro i hi
    have hi := mem_range.1 hi
    have hz : ∀ z ∈ Ico (A.roff i) (A.roff (i + 1)), (if (A.entry z).ker = k ∧ (A.entry z).row = t then F z else 0)
        = if (A.entry (A.roff i)).ker = k ∧ (A.entry (A.roff i)).row = t then F z else 0 := by
      intro z hz
      rw [mem_Ico] at hz
      obtain ⟨h1, h2⟩ := hA.key i hi z hz.1 hz.2
      rw [h1, h2]
    rw [sum_congr rfl hz]
    split
    · rfl
    · simp
  show _ = ∑ z ∈ range nnz, (if (A.entry z).ker = k ∧ (A.entry z).row = t then F z else 0)
  rw [hsum]
  by_cases hex : ∃ i < A.nnr, (A.entry (A.roff i)).ker = k ∧ (A.entry (A.roff i)).row = t
  · obtain ⟨i, hi, rfl, rfl⟩ := hex
    obtain ⟨h1, h2⟩ := hD.row i hi
    have hm := hA.mono i hi
    rw [sum_eq_single_of_mem i (mem_range.2 hi), if_pos ⟨rfl, rfl⟩, sum_Ico_eq_sum_range]
    · unfold denseSum
      rw [h1] at hn
      rw [← sum_subset (range_subset_range.2 hn)]
      · apply sum_congr rfl
        intro off hoff
        obtain ⟨e1, e2⟩ := (h2 off).1 (mem_range.1 hoff)
        rw [e1, e2]
      · intro off _ hoff
        rw [((h2 off).2 (fun h => hoff (mem_range.2 h))).2, zero_mul]
    · intro j hj hne
      rw [if_neg]
      intro hh
      exact hne (hdist j (mem_range.1 hj) i hi hh.1 hh.2)
  · have hno : ∀ i < A.nnr, ¬ ((A.entry (A.roff i)).ker = k ∧ (A.entry (A.roff i)).row = t) := fun i hi hh => hex ⟨i, hi, hh⟩
    rw [sum_eq_zero (fun i hi => if_neg (hno i (mem_range.1 hi)))]
    unfold denseSum
    apply sum_eq_zero
    intro off _
    rw [((hD.other k t hno).2 off).2, zero_mul]

/-- The encoded entry sum is the documented sum. -/
theorem encode_discoSum (taps : List (Tap R)) (K nlatOut nlatIn Wi Wo : ℕ) (hf : Fits taps K nlatOut nlatIn Wi) (x : ℕ → ℕ → R) (k t p : ℕ) :
    ((taps.map (encode Wi)).map fun e => if e.ker = k ∧ e.row = t then
      e.val * x (e.col / Wi) ((e.col % Wi + p * (Wi / Wo)) % Wi) else 0).sum = discoSum taps Wi Wo x k t p := by
  unfold discoSum
  rw [List.map_map]
  congr 1
  apply List.map_congr_left
  intro a ha
  obtain ⟨-, -, -, h4⟩ := hf a ha
  simp only [Function.comp, encode, col_div h4, col_mod h4, Tap.column]

theorem encode_discoAdjoint (taps : List (Tap R)) (K nlatOut nlatIn Wo Wi : ℕ) (hf : Fits taps K nlatOut nlatIn Wo) (g : ℕ → ℕ → ℕ → R) (h p : ℕ) :
    ((taps.map (encode Wo)).map fun e => bwdTerm (g e.ker e.row) Wi Wo (Wo / Wi) e h p).sum = discoAdjoint taps Wo Wi g h p := by
  unfold discoAdjoint
  rw [List.map_map]
  congr 1
  apply List.map_congr_left
  intro a ha
  obtain ⟨-, -, -, h4⟩ := hf a ha
  simp only [Function.comp, encode, bwdTerm, col_div h4, col_mod h4, Tap.column]
  by_cases hh : a.latIn = h
  · simp [hh]
  · simp [hh]

omit [CommSemiring R] in
theorem fits_ker {taps : List (Tap R)} {K nlatOut nlatIn W : ℕ} (hf : ∀ a ∈ taps, a.ker < K ∧ a.latOut < nlatOut ∧ a.latIn < nlatIn ∧ a.lonIn < W) :
    (∀ e ∈ taps.map (encode W), e.ker < K) ∧ ∀ e ∈ taps.map (encode W), e.row < nlatOut := by
  constructor <;> intro e he <;> obtain ⟨a, ha, rfl⟩ := List.mem_map.1 he
  · exact (hf a ha).1
  · exact (hf a ha).2.1

end Verif.Disco
