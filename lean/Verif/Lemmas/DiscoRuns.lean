import Mathlib.Data.Finset.Card
import Mathlib.Data.Finset.Prod
import Mathlib.Data.List.Flatten
import Mathlib.Data.List.Chain
import Mathlib.Data.List.GetD
import Verif.Lemmas.DiscoCpu
/-!
From the output of `preprocess_psi` to runs of constant (kernel, row).
-/
namespace Verif.Disco
open Verif Verif.Dist Verif.Spec Finset

variable {R : Type}

/-- Entries grouped by kernel, in their original order inside each kernel. -/
def byKernel (K : ℕ) (es : List (Entry R)) : List (Entry R) := (List.range K).flatMap (fun k => es.filter (fun e => e.ker = k))

/-- Inside each kernel the entries are listed by non-decreasing output row. -/
def RowSorted (es : List (Entry R)) : Prop := ∀ k, (es.filter (fun e => e.ker = k)).Pairwise (fun a b => a.row ≤ b.row)

/-- No kernel starts with the row the preceding kernel ended with. -/
def NoCollision (K : ℕ) (es : List (Entry R)) : Prop :=
  (byKernel K es).IsChain (fun a b => a.ker ≠ b.ker → a.row ≠ b.row)

theorem sortEntries_byKernel (junk : ℕ → Entry R) (K : ℕ) (es : List (Entry R)) (hK : ∀ e ∈ es, e.ker < K) :
    sortEntries junk K es = byKernel K es := sortEntries_eq junk K es hK

theorem byKernel_perm (K : ℕ) (es : List (Entry R)) (hK : ∀ e ∈ es, e.ker < K) : (byKernel K es).Perm es := by
  unfold byKernel
  induction es with
  | nil => simp
  | cons e es ih =>
    have ih := ih fun e' he' => hK e' (List.mem_cons_of_mem _ he')
    have he := hK e (List.mem_cons_self ..)
    have h1 : ∀ k, (e :: es).filter (fun e => e.ker = k)
        = (if e.ker = k then [e] else []) ++ es.filter (fun e => e.ker = k) := by
      intro k
      by_cases h : e.ker = k <;> simp [h]
    simp only [h1]
    refine (List.flatMap_append_perm _ _ _).symm.trans ?_
    have h2 : ∀ n, (List.range n).flatMap (fun k => if e.ker = k then [e] else []) = if e.ker < n then [e] else [] := by
      intro n
      induction n with
      | zero => simp
      | succ n ihn =>
        rw [List.range_succ, List.flatMap_append, ihn]
        by_cases h : e.ker < n
        · simp [h, show e.ker ≠ n by omega, show e.ker < n + 1 by omega]
        · by_cases h' : e.ker = n
          · simp [h']
          · simp [h, h', show ¬ e.ker < n + 1 by omega]
    rw [h2, if_pos he]
    exact List.Perm.cons _ ih

theorem byKernel_sorted (K : ℕ) (es : List (Entry R)) : (byKernel K es).Pairwise (fun a b => a.ker ≤ b.ker) := by
  unfold byKernel
  rw [List.pairwise_flatMap]
  refine ⟨fun k _ => ?_, ?_⟩
  · rw [List.pairwise_iff_forall_sublist]
    intro a b h
    have ha := List.of_mem_filter (h.subset (List.mem_cons_self ..))
    have hb := List.of_mem_filter (h.subset (List.mem_cons_of_mem _ (List.mem_cons_self ..)))
    simp only [decide_eq_true_eq] at ha hb
    omega
  · refine List.pairwise_lt_range.imp ?_
    intro k k' hlt a ha b hb
    have ha := List.of_mem_filter ha
    have hb := List.of_mem_filter hb
    simp only [decide_eq_true_eq] at ha hb
    omega

theorem byKernel_lex (K : ℕ) (es : List (Entry R)) (h : RowSorted es) :
    (byKernel K es).Pairwise (fun a b => a.ker = b.ker → a.row ≤ b.row) := by
  unfold byKernel
  rw [List.pairwise_flatMap]
  refine ⟨fun k _ => List.Pairwise.imp (S := fun a b : Entry R => a.ker = b.ker → a.row ≤ b.row) (fun hh _ => hh) (h k), ?_⟩
  refine List.pairwise_lt_range.imp ?_
  intro k k' hlt a ha b hb hab
  have ha := List.of_mem_filter ha
  have hb := List.of_mem_filter hb
  simp only [decide_eq_true_eq] at ha hb
  omega

theorem byKernel_filter (K : ℕ) (es : List (Entry R)) (hK : ∀ e ∈ es, e.ker < K) (k : ℕ) :
    (byKernel K es).filter (fun e => e.ker = k) = es.filter (fun e => e.ker = k) := by
  by_cases hk : k < K
  · unfold byKernel
    have : ∀ n, ((List.range n).flatMap (fun k => es.filter (fun e => e.ker = k))).filter (fun e => e.ker = k)
        = if k < n then es.filter (fun e => e.ker = k) else [] := by
      intro n
      induction n with
      | zero => simp
      | succ n ih =>
        rw [List.range_succ, List.flatMap_append, List.filter_append, ih]
        simp only [List.flatMap_cons, List.flatMap_nil, List.append_nil, List.filter_filter]
        by_cases h : k < n
        · rw [if_pos h, if_pos (by omega)]
          have : es.filter (fun e => decide (e.ker = k) && decide (e.ker = n)) = [] := by
            rw [List.filter_eq_nil_iff]; intro e _ hh; simp at hh; omega
          rw [this, List.append_nil]
        · by_cases h' : k = n
          · subst h'
            rw [if_neg h, if_pos (by omega), List.nil_append]
            congr 1
            funext e; simp
          · rw [if_neg h, if_neg (by omega), List.nil_append, List.filter_eq_nil_iff]
            intro e _ hh; simp at hh; omega
    rw [this, if_pos hk]
  · have h1 : es.filter (fun e => e.ker = k) = [] := by
      rw [List.filter_eq_nil_iff]; intro e he hh; have := hK e he; simp at hh; omega
    have h2 : (byKernel K es).filter (fun e => e.ker = k) = [] := by
      rw [List.filter_eq_nil_iff]; intro e he hh
      have := hK e ((byKernel_perm K es hK).mem_iff.1 he); simp at hh; omega
    rw [h1, h2]

/-- The row offsets in closed form. -/
def rowOffsets (row : ℕ → ℕ) (N : ℕ) : List ℕ :=
  0 :: ((List.range (N - 1)).filter (fun i => row i ≠ row (i + 1))).map (· + 1) ++ [N]

theorem preprocess_ok (junk : ℕ → Entry R) (K Ho : ℕ) (es s : List (Entry R)) (roff : List ℕ) (hK : ∀ e ∈ es, e.ker < K)
    (h : preprocessPsi junk K Ho es = .ok (s, roff)) :
    s = byKernel K es ∧ roff = rowOffsets (fun i => ((byKernel K es).getD i (junk i)).row) es.length := by
  unfold preprocessPsi at h
  simp only [sortEntries_byKernel junk K es hK] at h
  split at h
  · cases h
  · rename_i l hl
    cases h
    exact ⟨rfl, by rw [roffLoop_ok _ _ _ _ hl]; rfl⟩

theorem rowOffsets_pairwise (row : ℕ → ℕ) (N : ℕ) (hN : 0 < N) : (rowOffsets row N).Pairwise (· < ·) := by
  unfold rowOffsets
  rw [List.cons_append, List.pairwise_cons, List.pairwise_append]
  refine ⟨?_, ?_, by simp, ?_⟩
  · intro a ha
    rw [List.mem_append, List.mem_map, List.mem_singleton] at ha
    rcases ha with ⟨b, _, rfl⟩ | rfl <;> omega
  · rw [List.pairwise_map]
    exact ((List.pairwise_lt_range).filter _).imp fun h => by omega
  · intro a ha b hb
    obtain ⟨c, hc, rfl⟩ := List.mem_map.1 ha
    have := List.mem_range.1 (List.mem_of_mem_filter hc)
    rw [List.mem_singleton] at hb
    omega

theorem mem_rowOffsets (row : ℕ → ℕ) (N i : ℕ) (hi : i + 1 < N) : i + 1 ∈ rowOffsets row N ↔ row i ≠ row (i + 1) := by
  unfold rowOffsets
  simp only [List.cons_append, List.mem_cons, List.mem_append, List.mem_map, List.mem_filter, List.mem_range, List.not_mem_nil,
    or_false, decide_eq_true_eq]
  constructor
  · rintro (h | ⟨a, ⟨_, h2⟩, h3⟩ | h)
    · omega
    · obtain rfl : a = i := by omega
      exact h2
    · omega
  · intro h
    exact Or.inr (Or.inl ⟨i, ⟨by omega, h⟩, rfl⟩)

theorem rowOffsets_length (row : ℕ → ℕ) (N : ℕ) : 2 ≤ (rowOffsets row N).length := by
  unfold rowOffsets; simp

theorem getD_lt {L : List ℕ} (hp : L.Pairwise (· < ·)) {i j : ℕ} (hij : i < j) (hj : j < L.length) : L.getD i 0 < L.getD j 0 := by
  rw [List.getD_eq_getElem _ _ (by omega), List.getD_eq_getElem _ _ hj]
  exact List.pairwise_iff_getElem.1 hp i j (by omega) hj hij

theorem between_not_mem {L : List ℕ} (hp : L.Pairwise (· < ·)) {i z : ℕ} (hi : i + 1 < L.length) (h1 : L.getD i 0 < z)
    (h2 : z < L.getD (i + 1) 0) : z ∉ L := by
  intro hz
  obtain ⟨j, hj, rfl⟩ := List.getElem_of_mem hz
  rw [← List.getD_eq_getElem L 0 hj] at h1 h2
  rcases Nat.lt_trichotomy j i with h | h | h
  · have := getD_lt hp h (by omega); omega
  · subst h; omega
  · rcases Nat.lt_or_ge j (i + 1) with h' | h'
    · omega
    · rcases Nat.eq_or_lt_of_le h' with h'' | h''
      · subst h''; omega
      · have := getD_lt hp h'' hj; omega

theorem rowOffsets_getD_zero (row : ℕ → ℕ) (N : ℕ) : (rowOffsets row N).getD 0 0 = 0 := by
  unfold rowOffsets; simp

theorem rowOffsets_getD_last (row : ℕ → ℕ) (N : ℕ) : (rowOffsets row N).getD ((rowOffsets row N).length - 1) 0 = N := by
  unfold rowOffsets
  rw [List.getD_eq_getElem _ _ (by simp)]
  simp

theorem rowOffsets_le (row : ℕ → ℕ) (N : ℕ) (hN : 0 < N) (i : ℕ) (hi : i < (rowOffsets row N).length) :
    (rowOffsets row N).getD i 0 ≤ N := by
  by_cases h : i = (rowOffsets row N).length - 1
  · rw [h, rowOffsets_getD_last]
  · have := getD_lt (rowOffsets_pairwise row N hN) (show i < (rowOffsets row N).length - 1 by omega) (by omega)
    rw [rowOffsets_getD_last] at this
    omega

/-- Inside a run, neighbouring entries have the same row. -/
theorem rowOffsets_inside (row : ℕ → ℕ) (N : ℕ) (hN : 0 < N) (i z : ℕ) (hi : i + 1 < (rowOffsets row N).length)
    (h1 : (rowOffsets row N).getD i 0 ≤ z) (h2 : z + 1 < (rowOffsets row N).getD (i + 1) 0) : row z = row (z + 1) := by
  by_contra hne
  have hle := rowOffsets_le row N hN (i + 1) hi
  exact between_not_mem (rowOffsets_pairwise row N hN) hi (by omega) h2 ((mem_rowOffsets row N z (by omega)).2 hne)

theorem runs_of (junk : ℕ → Entry R) (K : ℕ) (es : List (Entry R)) (hK : ∀ e ∈ es, e.ker < K) (hne : es ≠ [])
    (hnc : NoCollision K es) :
    Runs (Csr.ofLists junk (byKernel K es) (rowOffsets (fun i => ((byKernel K es).getD i (junk i)).row) es.length)) es.length := by
  have hN : 0 < es.length := List.length_pos_of_ne_nil hne
  set row := fun i => ((byKernel K es).getD i (junk i)).row with hrow
  have hlen := rowOffsets_length row es.length
  have hbl : (byKernel K es).length = es.length := (byKernel_perm K es hK).length_eq
  refine ⟨rowOffsets_getD_zero row es.length, rowOffsets_getD_last row es.length, ?_, ?_⟩
  · intro i hi
    simp only [Csr.ofLists] at hi ⊢
    exact getD_lt (rowOffsets_pairwise row _ hN) (Nat.lt_succ_self i) (by omega)
  · intro i hi z h1 h2
    simp only [Csr.ofLists] at hi h1 h2 ⊢
    obtain ⟨d, rfl⟩ := Nat.exists_eq_add_of_le h1
    induction d with
    | zero => exact ⟨rfl, rfl⟩
    | succ d ih =>
      obtain ⟨i1, i2⟩ := ih (by omega) (by omega)
      have hle := rowOffsets_le row _ hN (i + 1) (by omega)
      have hr := rowOffsets_inside row _ hN i ((rowOffsets row es.length).getD i 0 + d) (by omega) (by omega) (by omega)
      have hc := List.isChain_iff_getElem.1 hnc ((rowOffsets row es.length).getD i 0 + d) (by omega)
      simp only [hrow] at hr
      rw [← Nat.add_assoc]
      rw [List.getD_eq_getElem (byKernel K es) (junk _) (show (rowOffsets row es.length).getD i 0 + d < _ by omega)] at hr i1 i2
      rw [List.getD_eq_getElem (byKernel K es) (junk _) (show (rowOffsets row es.length).getD i 0 + d + 1 < _ by omega)] at hr ⊢
      have hker : ((byKernel K es)[(rowOffsets row es.length).getD i 0 + d]'(by omega)).ker
          = ((byKernel K es)[(rowOffsets row es.length).getD i 0 + d + 1]'(by omega)).ker := by
        by_contra hcc
        exact hc hcc hr
      exact ⟨hker.symm.trans i1, hr.symm.trans i2⟩

/-- With rows listed in order inside each kernel, different runs have different (kernel, row). -/
theorem runs_distinct (junk : ℕ → Entry R) (K : ℕ) (es : List (Entry R)) (hK : ∀ e ∈ es, e.ker < K) (hne : es ≠ [])
    (hrs : RowSorted es) (A : Csr R)
    (hA : A = Csr.ofLists junk (byKernel K es) (rowOffsets (fun i => ((byKernel K es).getD i (junk i)).row) es.length)) :
    ∀ i < A.nnr, ∀ j < A.nnr, (A.entry (A.roff i)).ker = (A.entry (A.roff j)).ker →
      (A.entry (A.roff i)).row = (A.entry (A.roff j)).row → i = j := by
  have hN : 0 < es.length := List.length_pos_of_ne_nil hne
  have hbl : (byKernel K es).length = es.length := (byKernel_perm K es hK).length_eq
  subst hA
  set row := fun i => ((byKernel K es).getD i (junk i)).row with hrow
  have hlen := rowOffsets_length row es.length
  have key : ∀ i j, i < j → j < (rowOffsets row es.length).length - 1 →
      ((byKernel K es).getD ((rowOffsets row es.length).getD i 0) (junk ((rowOffsets row es.length).getD i 0))).ker
        = ((byKernel K es).getD ((rowOffsets row es.length).getD j 0) (junk ((rowOffsets row es.length).getD j 0))).ker →
      ((byKernel K es).getD ((rowOffsets row es.length).getD i 0) (junk ((rowOffsets row es.length).getD i 0))).row
        = ((byKernel K es).getD ((rowOffsets row es.length).getD j 0) (junk ((rowOffsets row es.length).getD j 0))).row →
      False := by
    intro i j hij hj hk hr
    have h1 := getD_lt (rowOffsets_pairwise row _ hN) hij (by omega)
    have h2 := getD_lt (rowOffsets_pairwise row _ hN) (show j < (rowOffsets row es.length).length - 1 by omega) (by omega)
    rw [rowOffsets_getD_last] at h2
    have hmem : (rowOffsets row es.length).getD j 0 ∈ rowOffsets row es.length := by
      rw [List.getD_eq_getElem _ _ (by omega)]; exact List.getElem_mem _
    generalize (rowOffsets row es.length).getD i 0 = a at *
    obtain ⟨b, hb⟩ : ∃ b, (rowOffsets row es.length).getD j 0 = b + 1 := ⟨(rowOffsets row es.length).getD j 0 - 1, by omega⟩
    rw [hb] at h1 h2 hmem hk hr
    have hdiff := (mem_rowOffsets row _ b h2).1 hmem
    simp only [hrow] at hdiff
    rw [List.getD_eq_getElem (byKernel K es) (junk a) (by omega), List.getD_eq_getElem (byKernel K es) (junk (b + 1)) (by omega)] at hk hr
    rw [List.getD_eq_getElem (byKernel K es) (junk b) (by omega), List.getD_eq_getElem (byKernel K es) (junk (b + 1)) (by omega)] at hdiff
    have hs := List.pairwise_iff_getElem.1 (byKernel_sorted K es)
    have hl := List.pairwise_iff_getElem.1 (byKernel_lex K es hrs)
    have k2 := hs b (b + 1) (by omega) (by omega) (by omega)
    have r2 := hl b (b + 1) (by omega) (by omega) (by omega)
    rcases Nat.eq_or_lt_of_le (show a ≤ b by omega) with hab | hab
    · subst hab; exact hdiff hr
    · have k1 := hs a b (by omega) (by omega) hab
      have r1 := hl a b (by omega) (by omega) hab
      have e1 := r1 (by omega)
      have e2 := r2 (by omega)
      exact hdiff (by omega)
  intro i hi j hj hk hr
  simp only [Csr.ofLists] at hi hj hk hr
  rcases Nat.lt_trichotomy i j with h | h | h
  · exact (key i j h hj hk hr).elim
  · exact h
  · exact (key j i h hi hk.symm hr.symm).elim

/-- Under these conditions `preprocess_psi` does not abort. -/
theorem preprocess_total (junk : ℕ → Entry R) (K Ho : ℕ) (es : List (Entry R)) (hK : ∀ e ∈ es, e.ker < K)
    (hH : ∀ e ∈ es, e.row < Ho) (hne : es ≠ []) (hrs : RowSorted es) :
    preprocessPsi junk K Ho es = .ok (byKernel K es, rowOffsets (fun i => ((byKernel K es).getD i (junk i)).row) es.length) := by
  have hN : 0 < es.length := List.length_pos_of_ne_nil hne
  have hbl : (byKernel K es).length = es.length := (byKernel_perm K es hK).length_eq
  have hok : ∃ l, roffLoop (Ho * K) (fun i => ((byKernel K es).getD i (junk i)).row) (es.length - 1) = .ok l := by
    rw [roffLoop_isOk]
    right
    set row := fun i => ((byKernel K es).getD i (junk i)).row with hrow
    have hcount : ((List.range (es.length - 1)).filter (fun i => row i ≠ row (i + 1))).length + 1
        = (rowOffsets row es.length).length - 1 := by
      unfold rowOffsets; simp
    rw [hcount]
    set A : Csr R := Csr.ofLists junk (byKernel K es) (rowOffsets row es.length) with hA
    have hd := runs_distinct junk K es hK hne hrs A hA
    have hbound : ∀ i < A.nnr, A.roff i < es.length := by
      intro i hi
      simp only [hA, Csr.ofLists] at hi ⊢
      have := getD_lt (rowOffsets_pairwise row _ hN) (show i < (rowOffsets row es.length).length - 1 by omega) (by omega)
      rwa [rowOffsets_getD_last] at this
    have hmem : ∀ i < A.nnr, A.entry (A.roff i) ∈ es := by
      intro i hi
      have := hbound i hi
      rw [← (byKernel_perm K es hK).mem_iff]
      show (byKernel K es).getD (A.roff i) (junk _) ∈ _
      rw [List.getD_eq_getElem _ _ (by omega)]
      exact List.getElem_mem _
    have : (range A.nnr).card ≤ (range Ho ×ˢ range K).card := by
      apply card_le_card_of_injOn (fun i => ((A.entry (A.roff i)).row, (A.entry (A.roff i)).ker))
      · intro i hi
        have hi := mem_range.1 (mem_coe.1 hi)
        simp only [coe_product, Set.mem_prod, mem_coe, mem_range]
        exact ⟨hH _ (hmem i hi), hK _ (hmem i hi)⟩
      · intro i hi j hj hij
        have hi := mem_range.1 (mem_coe.1 hi)
        have hj := mem_range.1 (mem_coe.1 hj)
        simp only [Prod.mk.injEq] at hij
        exact hd i hi j hj hij.2 hij.1
    rw [card_range, card_product, card_range, card_range] at this
    exact this
  obtain ⟨l, hl⟩ := hok
  have : preprocessPsi junk K Ho es = .ok (byKernel K es, l ++ [es.length]) := by
    unfold preprocessPsi
    simp only [sortEntries_byKernel junk K es hK, hl]
  rw [this, (preprocess_ok junk K Ho es _ _ hK this).2]

end Verif.Disco
