import Mathlib.Tactic.Ring
import Mathlib.Tactic.Linarith
import Mathlib.Algebra.BigOperators.Intervals
import Mathlib.Algebra.Order.BigOperators.Group.Finset
import Verif.Model.DiscoCpu
/-!
The counting sort of `preprocess_psi` and its row offsets.
-/
namespace Verif.Disco
open Verif Verif.Dist Finset

variable {R : Type}

/-- Entries of kernel `k`, in order. -/
def ofKer (es : List (Entry R)) (k : ℕ) : List (Entry R) := es.filter (fun e => e.ker = k)

theorem ofKer_append (a b : List (Entry R)) (k : ℕ) : ofKer (a ++ b) k = ofKer a k ++ ofKer b k := by
  simp [ofKer]

theorem koffCount_aux (es : List (Entry R)) (f : ℕ → ℕ) (k : ℕ) :
    es.foldl (fun Koff e => Function.update Koff e.ker (Koff e.ker + 1)) f k = f k + (ofKer es k).length := by
  induction es generalizing f with
  | nil => simp [ofKer]
  | cons e es ih =>
    rw [List.foldl_cons, ih]
    by_cases h : e.ker = k
    · subst h
      simp [ofKer, Nat.add_assoc, Nat.add_comm]
    · rw [Function.update_of_ne (Ne.symm h)]
      simp [ofKer, h]

theorem koffCount_eq (es : List (Entry R)) (k : ℕ) : koffCount es k = (ofKer es k).length := by
  unfold koffCount; rw [koffCount_aux]; simp

theorem koffScan_inv (cnt : ℕ → ℕ) (n : ℕ) :
    (∀ k ≤ n, (koffScan cnt n).1 k = ∑ i ∈ range k, cnt i) ∧ (∀ k, n < k → (koffScan cnt n).1 k = cnt k) ∧
      (koffScan cnt n).2 = cnt n := by
  induction n with
  | zero =>
    refine ⟨fun k hk => ?_, fun k hk => ?_, rfl⟩
    · obtain rfl : k = 0 := by omega
      simp [koffScan]
    · simp only [koffScan]
      rw [Function.update_of_ne (by omega)]
  | succ n ih =>
    obtain ⟨h1, h2, h3⟩ := ih
    refine ⟨fun k hk => ?_, fun k hk => ?_, ?_⟩
    · simp only [koffScan]
      by_cases h : k = n + 1
      · subst h
        rw [Function.update_self, h3, h1 n le_rfl, sum_range_succ, Nat.add_comm]
      · rw [Function.update_of_ne h, h1 k (by omega)]
    · simp only [koffScan]
      rw [Function.update_of_ne (by omega), h2 k (by omega)]
    · simp only [koffScan]
      exact h2 _ (by omega)

/-- Start of the block of kernel `k` in the sorted arrays. -/
def base (es : List (Entry R)) (k : ℕ) : ℕ := ∑ i ∈ range k, (ofKer es i).length

theorem base_le (es : List (Entry R)) {k k' : ℕ} (h : k < k') : base es k + (ofKer es k).length ≤ base es k' := by
  unfold base
  rw [← sum_range_succ (fun i => (ofKer es i).length)]
  exact sum_le_sum_of_subset (range_mono (by omega))

theorem base_inj (es : List (Entry R)) {k k' j j' : ℕ} (hj : j < (ofKer es k).length) (hj' : j' < (ofKer es k').length)
    (h : base es k + j = base es k' + j') : k = k' := by
  rcases Nat.lt_trichotomy k k' with hlt | heq | hgt
  · have := base_le es hlt; omega
  · exact heq
  · have := base_le es hgt; omega

theorem place_inv (junk : ℕ → Entry R) (es : List (Entry R)) (Koff : ℕ → ℕ) (K : ℕ) (hK : ∀ e ∈ es, e.ker < K)
    (hB : ∀ k < K, Koff k = base es k) (pre : List (Entry R)) (hp : ∃ suf, es = pre ++ suf) :
    (∀ k < K, (pre.foldl place (Koff, junk)).1 k = base es k + (ofKer pre k).length) ∧
    (∀ k < K, ∀ j, ∀ h : j < (ofKer pre k).length, (pre.foldl place (Koff, junk)).2 (base es k + j) = (ofKer pre k)[j]) := by
  induction pre using List.reverseRecOn with
  | nil => exact ⟨fun k hk => by simp [ofKer, hB k hk], fun k hk j h => by simp [ofKer] at h⟩
  | append_singleton pre e ih =>
    obtain ⟨suf, hs⟩ := hp
    obtain ⟨h1, h2⟩ := ih ⟨e :: suf, by rw [hs]; simp⟩
    have he : e.ker < K := hK e (by rw [hs]; simp)
    rw [List.foldl_append, List.foldl_cons, List.foldl_nil]
    generalize pre.foldl place (Koff, junk) = s at h1 h2
    have hlen : ∀ k, (ofKer (pre ++ [e]) k).length = (ofKer pre k).length + if e.ker = k then 1 else 0 := by
      intro k
      rw [ofKer_append, List.length_append]
      by_cases h : e.ker = k <;> simp [ofKer, h]
    have htot : ∀ k, (ofKer (pre ++ [e]) k).length ≤ (ofKer es k).length := by
      intro k
      rw [hs, ofKer_append (pre ++ [e]) suf, List.length_append]
      omega
    refine ⟨fun k hk => ?_, fun k hk j hj => ?_⟩
    · simp only [place]
      rw [hlen]
      by_cases h : e.ker = k
      · subst h
        rw [Function.update_self, h1 _ hk, if_pos rfl, Nat.add_assoc]
      · rw [Function.update_of_ne (Ne.symm h), h1 k hk, if_neg h, Nat.add_zero]
    · simp only [place]
      rw [h1 _ he]
      have hek : (ofKer pre e.ker).length < (ofKer es e.ker).length := by
        have := htot e.ker
        rw [hlen, if_pos rfl] at this
        omega
      have hjk : j < (ofKer es k).length := lt_of_lt_of_le hj (htot k)
      by_cases heq : base es k + j = base es e.ker + (ofKer pre e.ker).length
      · have hk' := base_inj es hjk hek heq
        subst hk'
        have hj' : j = (ofKer pre e.ker).length := by omega
        subst hj'
        rw [Function.update_self]
        simp [ofKer]
      · rw [Function.update_of_ne heq]
        have hj0 : j < (ofKer pre k).length := by
          rw [hlen] at hj
          split at hj
          · rename_i hh; subst hh
            by_contra hc
            exact heq (by rw [show j = (ofKer pre e.ker).length by omega])
          · simpa using hj
        rw [h2 k hk j hj0]
        simp only [ofKer_append]
        rw [List.getElem_append_left]

theorem base_total (es : List (Entry R)) (K : ℕ) (hK : ∀ e ∈ es, e.ker < K) : base es K = es.length := by
  unfold base
  induction es with
  | nil => simp [ofKer]
  | cons e es ih =>
    have ih := ih fun e' he' => hK e' (List.mem_cons_of_mem _ he')
    have he := hK e (List.mem_cons_self ..)
    have : ∀ i, (ofKer (e :: es) i).length = (if e.ker = i then 1 else 0) + (ofKer es i).length := by
      intro i
      by_cases h : e.ker = i <;> simp [ofKer, h, Nat.add_comm]
    simp only [this, sum_add_distrib, ih, sum_ite_eq, mem_range, he, if_true, List.length_cons]
    omega

/-- The sorted entries: kernel by kernel, each kernel's entries in their original order. -/
theorem sortEntries_eq (junk : ℕ → Entry R) (K : ℕ) (es : List (Entry R)) (hK : ∀ e ∈ es, e.ker < K) :
    sortEntries junk K es = (List.range K).flatMap (ofKer es) := by
  unfold sortEntries
  simp only
  have hB : ∀ k < K, (koffScan (koffCount es) (K - 1)).1 k = base es k := by
    intro k hk
    rw [(koffScan_inv _ _).1 k (by omega)]
    unfold base
    exact sum_congr rfl fun i _ => koffCount_eq es i
  generalize (koffScan (koffCount es) (K - 1)).1 = Koff at hB
  obtain ⟨-, h2⟩ := place_inv junk es Koff K hK hB es ⟨[], by simp⟩
  generalize (es.foldl place (Koff, junk)).2 = S at h2
  rw [← base_total es K hK]
  have : ∀ k ≤ K, (List.range (base es k)).map S = (List.range k).flatMap (ofKer es) := by
    intro k hk
    induction k with
    | zero => simp [base]
    | succ k ih =>
      have hb : base es (k + 1) = base es k + (ofKer es k).length := by
        unfold base; rw [sum_range_succ]
      rw [hb, List.range_add, List.map_append, ih (by omega), List.range_succ, List.flatMap_append]
      congr 1
      rw [List.map_map, List.flatMap_cons, List.flatMap_nil, List.append_nil]
      apply List.ext_getElem
      · simp
      · intro j hj hj'
        simp only [List.getElem_map, List.getElem_range, Function.comp]
        exact h2 k (by omega) j hj'
  exact this K le_rfl

/-- The row offsets, in closed form. -/
theorem roffLoop_ok (limit : ℕ) (row : ℕ → ℕ) (n : ℕ) (l : List ℕ) (h : roffLoop limit row n = .ok l) :
    l = 0 :: ((List.range n).filter (fun i => row i ≠ row (i + 1))).map (· + 1) := by
  induction n generalizing l with
  | zero =>
    simp only [roffLoop, Except.ok.injEq] at h
    subst h; rfl
  | succ n ih =>
    rw [roffLoop] at h
    split at h
    · cases h
    rename_i l' hl'
    have := ih l' hl'
    split at h
    · cases h
      rw [this, List.range_succ, List.filter_append]
      simp [*]
    split at h
    · cases h
    · cases h
      rw [this, List.range_succ, List.filter_append]
      simp [*]

/-- The offset loop stops the process exactly when there are more rows than `limit` (and at least two rows). -/
theorem roffLoop_isOk (limit : ℕ) (row : ℕ → ℕ) (n : ℕ) :
    (∃ l, roffLoop limit row n = .ok l) ↔
      ((List.range n).filter (fun i => row i ≠ row (i + 1))).length = 0 ∨
      ((List.range n).filter (fun i => row i ≠ row (i + 1))).length + 1 ≤ limit := by
  induction n with
  | zero => simp [roffLoop]
  | succ n ih =>
    rw [roffLoop, List.range_succ, List.filter_append, List.length_append]
    cases hr : roffLoop limit row n with
    | error e =>
      rw [hr] at ih
      simp only [reduceCtorEq, exists_false, false_iff] at ih ⊢
      omega
    | ok l =>
      have hl := roffLoop_ok _ _ _ _ hr
      have hlen : l.length = ((List.range n).filter (fun i => row i ≠ row (i + 1))).length + 1 := by
        rw [hl]; simp
      rw [hr] at ih
      have ih := ih.1 ⟨l, rfl⟩
      simp only
      by_cases hrow : row n = row (n + 1)
      · simp only [hrow, if_true, Except.ok.injEq, exists_eq', true_iff]
        simp [hrow]
        simpa using ih
      · simp only [hrow, if_false]
        by_cases hlim : l.length + 1 > limit
        · simp only [if_pos hlim, reduceCtorEq, exists_false, false_iff]
          simp [hrow]
          simp at hlen
          omega
        · simp only [if_neg hlim, Except.ok.injEq, exists_eq', true_iff]
          right
          simp [hrow]
          simp at hlen
          omega

end Verif.Disco
