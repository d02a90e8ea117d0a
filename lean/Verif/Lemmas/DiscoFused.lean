import Verif.Model.DiscoFused
import Verif.Lemmas.DiscoPack
/-!
The kernel-split filter and the two gradient orders.
-/
namespace Verif.Disco
open Verif Verif.Dist Verif.Spec Finset

variable {R : Type}

theorem getD_append_lt {α : Type} (l r : List α) (d : α) {i : ℕ} (h : i < l.length) : (l ++ r).getD i d = l.getD i d := by
  rw [List.getD_append _ _ _ _ h]

theorem getD_append_ge {α : Type} (l r : List α) (d : α) (i : ℕ) : (l ++ r).getD (l.length + i) d = r.getD i d := by
  rw [List.getD_append_right _ _ _ _ (by omega)]
  congr 1
  omega

/-- Adding one run of constant key at the end. -/
theorem runs_append (junk : ℕ → Entry R) (ro : List ℕ) (en ys : List (Entry R)) (hro : 0 < ro.length)
    (h : Runs (Csr.ofLists junk en ro) en.length) (hys : 0 < ys.length)
    (hkey : ∀ i j, (hi : i < ys.length) → (hj : j < ys.length) → ys[i].ker = ys[j].ker ∧ ys[i].row = ys[j].row) :
    Runs (Csr.ofLists junk (en ++ ys) (ro ++ [en.length + ys.length])) (en ++ ys).length := by
  have hlast : ro.getD (ro.length - 1) 0 = en.length := h.last
  have hnew : (ro ++ [en.length + ys.length]).getD ro.length 0 = en.length + ys.length := by
    simp
  have hlen : (ro ++ [en.length + ys.length]).length - 1 = ro.length := by simp
  have hle : ∀ i, i < ro.length → ro.getD i 0 ≤ en.length := by
    intro i hi
    have := h.mono_le (show i ≤ ro.length - 1 by omega) le_rfl
    rw [show (Csr.ofLists junk en ro).roff (ro.length - 1) = ro.getD (ro.length - 1) 0 from rfl, hlast] at this
    exact this
  refine ⟨?_, ?_, ?_, ?_⟩
  · show (ro ++ [_]).getD 0 0 = 0
    rw [getD_append_lt _ _ _ hro]
    exact h.zero
  · show (ro ++ [_]).getD ((ro ++ [_]).length - 1) 0 = _
    rw [hlen, hnew, List.length_append]
  · intro i hi
    have hi : i < (ro ++ [en.length + ys.length]).length - 1 := hi
    rw [hlen] at hi
    show (ro ++ [_]).getD i 0 < (ro ++ [_]).getD (i + 1) 0
    rw [getD_append_lt _ _ _ hi]
    by_cases hi' : i + 1 = ro.length
    · rw [hi', hnew, show i = ro.length - 1 by omega, hlast]
      omega
    · rw [getD_append_lt _ _ _ (by omega)]
      exact h.mono i (show i < ro.length - 1 by omega)
  · intro i hi z h1 h2
    have hi : i < (ro ++ [en.length + ys.length]).length - 1 := hi
    rw [hlen] at hi
    change (ro ++ [_]).getD i 0 ≤ z at h1
    change z < (ro ++ [_]).getD (i + 1) 0 at h2
    show ((en ++ ys).getD z (junk z)).ker = ((en ++ ys).getD ((ro ++ [_]).getD i 0) (junk ((ro ++ [_]).getD i 0))).ker ∧
      ((en ++ ys).getD z (junk z)).row = ((en ++ ys).getD ((ro ++ [_]).getD i 0) (junk ((ro ++ [_]).getD i 0))).row
    rw [getD_append_lt _ _ _ hi] at h1 ⊢
    by_cases hi' : i + 1 = ro.length
    · rw [hi', hnew] at h2
      rw [show i = ro.length - 1 by omega, hlast] at h1 ⊢
      obtain ⟨d, rfl⟩ := Nat.exists_eq_add_of_le h1
      have e1 := getD_append_ge en ys (junk (en.length + d)) d
      have e2 := getD_append_ge en ys (junk en.length) 0
      rw [Nat.add_zero] at e2
      rw [e1, e2, List.getD_eq_getElem _ _ (show d < ys.length by omega), List.getD_eq_getElem _ _ hys]
      exact hkey d 0 _ _
    · rw [getD_append_lt _ _ _ (show i + 1 < ro.length by omega)] at h2
      have hz : z < en.length := lt_of_lt_of_le h2 (hle (i + 1) (by omega))
      rw [getD_append_lt _ _ _ hz, getD_append_lt _ _ _ (show ro.getD i 0 < en.length by omega)]
      exact h.key i (show i < ro.length - 1 by omega) z h1 h2

theorem list_range'_map_sum [AddCommMonoid R] {α : Type} (e : ℕ → α) (f : α → R) (a n : ℕ) :
    (((List.range' a n).map e).map f).sum = ∑ z ∈ Ico a (a + n), f (e z) := by
  induction n with
  | zero => simp
  | succ n ih =>
    rw [List.range'_concat, List.map_append, List.map_append, List.sum_append, ih, ← Nat.add_assoc, sum_Ico_succ_top (by omega)]
    simp

/-- What the split of kernel `k` contains. -/
theorem splitKernel_spec [CommSemiring R] (junk : ℕ → Entry R) (A : Csr R) (nnz : ℕ) (hA : Runs A nnz) (k : ℕ) :
    Runs (Csr.ofLists junk (splitKernel A k).2.1 (splitKernel A k).1) (splitKernel A k).2.1.length ∧
      (splitKernel A k).2.2 = (splitKernel A k).2.1.length ∧ 0 < (splitKernel A k).1.length ∧
      ∀ f : Entry R → R, ((splitKernel A k).2.1.map f).sum
        = ∑ z ∈ range nnz, if (A.entry z).ker = k then f { A.entry z with ker := 0 } else 0 := by
  have h : ∀ n ≤ A.nnr, ∀ s, s = (List.range n).foldl (splitRow A k) ([0], [], 0) →
      Runs (Csr.ofLists junk s.2.1 s.1) s.2.1.length ∧ s.2.2 = s.2.1.length ∧ 0 < s.1.length ∧
      ∀ f : Entry R → R, (s.2.1.map f).sum
        = ∑ z ∈ range (A.roff n), if (A.entry z).ker = k then f { A.entry z with ker := 0 } else 0 := by
    intro n
    induction n with
    | zero =>
      rintro - s rfl
      refine ⟨⟨rfl, rfl, ?_, ?_⟩, rfl, by simp, ?_⟩
      · intro i hi; exact absurd hi (by simp [Csr.ofLists])
      · intro i hi; exact absurd hi (by simp [Csr.ofLists])
      · intro f; simp [hA.zero]
    | succ n ih =>
      rintro hn s hs
      rw [List.range_succ, List.foldl_append, List.foldl_cons, List.foldl_nil] at hs
      obtain ⟨i1, i2, i3, i4⟩ := ih (by omega) _ rfl
      set s0 := (List.range n).foldl (splitRow A k) ([0], [], 0) with hs0
      have hm := hA.mono n (by omega)
      have hkey := hA.key n (by omega)
      have hsplit : ∀ f : Entry R → R, (∑ z ∈ range (A.roff (n + 1)), if (A.entry z).ker = k then f { A.entry z with ker := 0 } else 0)
          = (∑ z ∈ range (A.roff n), if (A.entry z).ker = k then f { A.entry z with ker := 0 } else 0)
            + ∑ z ∈ Ico (A.roff n) (A.roff (n + 1)), if (A.entry (A.roff n)).ker = k then f { A.entry z with ker := 0 } else 0 := by
        intro f
        rw [range_eq_Ico, ← sum_Ico_consecutive _ (Nat.zero_le (A.roff n)) hm.le, ← range_eq_Ico]
        congr 1
        apply sum_congr rfl
        intro z hz
        rw [mem_Ico] at hz
        rw [(hkey z hz.1 hz.2).1]
      unfold splitRow at hs
      rw [if_neg (by omega)] at hs
      by_cases hk : (A.entry (A.roff n)).ker = k
      · rw [if_neg (by rw [not_not]; exact hk)] at hs
        subst hs
        dsimp only
        have hys : ((List.range' (A.roff n) (A.roff (n + 1) - A.roff n)).map (fun z => ({ A.entry z with ker := 0 } : Entry R))).length
            = A.roff (n + 1) - A.roff n := by simp
        refine ⟨?_, ?_, by simp, ?_⟩
        · have := runs_append junk s0.1 s0.2.1
            ((List.range' (A.roff n) (A.roff (n + 1) - A.roff n)).map (fun z => ({ A.entry z with ker := 0 } : Entry R))) i3 i1
            (by rw [hys]; omega) (by
              intro i j hi hj
              rw [hys] at hi hj
              simp only [List.getElem_map, List.getElem_range', Nat.one_mul, true_and]
              rw [(hkey _ (by omega) (show A.roff n + i < _ by omega)).2, (hkey _ (by omega) (show A.roff n + j < _ by omega)).2])
          rw [hys] at this
          rw [i2]
          exact this
        · rw [List.length_append, hys, i2]
        · intro f
          rw [List.map_append, List.sum_append, i4 f, list_range'_map_sum, Nat.add_sub_cancel' hm.le, hsplit]
          simp only [hk, if_true]
      · rw [if_pos hk] at hs
        subst hs
        refine ⟨i1, i2, i3, fun f => ?_⟩
        rw [i4 f, hsplit]
        simp only [hk, if_false, sum_const_zero, add_zero]
  have := h A.nnr le_rfl _ rfl
  rw [hA.last] at this
  exact this

theorem slice_append {α : Type} (l r : List α) (a b : ℕ) (h : b ≤ l.length) :
    ((l ++ r).drop a).take (b - a) = (l.drop a).take (b - a) := by
  by_cases ha : a ≤ l.length
  · rw [List.drop_append_of_le_length ha, List.take_append_of_le_length]
    rw [List.length_drop]; omega
  · rw [show b - a = 0 by omega]; simp

/-- Slicing the concatenation gives the parts back. -/
theorem buildSplit_part [CommSemiring R] (junk : ℕ → Entry R) (A : Csr R) (nnz : ℕ) (hA : Runs A nnz) (n : ℕ) :
    (buildSplit A n).rowOff.length = n + 1 ∧ (buildSplit A n).nnzOff.length = n + 1 ∧
    (buildSplit A n).rowOff.getD n 0 = (buildSplit A n).roff.length ∧
    (buildSplit A n).nnzOff.getD n 0 = (buildSplit A n).entries.length ∧
    (∀ k ≤ n, (buildSplit A n).rowOff.getD k 0 ≤ (buildSplit A n).roff.length ∧
      (buildSplit A n).nnzOff.getD k 0 ≤ (buildSplit A n).entries.length) ∧
    ∀ k < n, (buildSplit A n).part k = ((splitKernel A k).1, (splitKernel A k).2.1) := by
  induction n with
  | zero =>
    refine ⟨rfl, rfl, rfl, rfl, fun k hk => ?_, fun k hk => absurd hk (by omega)⟩
    obtain rfl : k = 0 := by omega
    exact ⟨le_rfl, le_rfl⟩
  | succ n ih =>
    obtain ⟨h1, h2, h3, h4, h5, h6⟩ := ih
    obtain ⟨-, p2, -, -⟩ := splitKernel_spec junk A nnz hA n
    have hlast : ∀ l : List ℕ, l.length = n + 1 → l.getLast?.getD 0 = l.getD n 0 := by
      intro l hl
      rw [List.getLast?_eq_getElem?, hl, Nat.add_sub_cancel, List.getD_eq_getElem?_getD]
    have e1 : (buildSplit A (n + 1)).rowOff = (buildSplit A n).rowOff ++ [(buildSplit A n).roff.length + (splitKernel A n).1.length] := by
      show _ ++ [_] = _
      rw [hlast _ h1, h3]
    have e2 : (buildSplit A (n + 1)).nnzOff = (buildSplit A n).nnzOff ++ [(buildSplit A n).entries.length + (splitKernel A n).2.1.length] := by
      show _ ++ [_] = _
      rw [hlast _ h2, h4, p2]
    have e3 : (buildSplit A (n + 1)).roff = (buildSplit A n).roff ++ (splitKernel A n).1 := rfl
    have e4 : (buildSplit A (n + 1)).entries = (buildSplit A n).entries ++ (splitKernel A n).2.1 := rfl
    have g1 : (buildSplit A (n + 1)).rowOff.getD (n + 1) 0 = (buildSplit A (n + 1)).roff.length := by
      rw [e1, e3, List.length_append]
      have := getD_append_ge (buildSplit A n).rowOff [(buildSplit A n).roff.length + (splitKernel A n).1.length] 0 0
      rw [h1] at this
      simpa using this
    have g2 : (buildSplit A (n + 1)).nnzOff.getD (n + 1) 0 = (buildSplit A (n + 1)).entries.length := by
      rw [e2, e4, List.length_append]
      have := getD_append_ge (buildSplit A n).nnzOff [(buildSplit A n).entries.length + (splitKernel A n).2.1.length] 0 0
      rw [h2] at this
      simpa using this
    have o1 : ∀ k ≤ n, (buildSplit A (n + 1)).rowOff.getD k 0 = (buildSplit A n).rowOff.getD k 0 := by
      intro k hk; rw [e1, getD_append_lt _ _ _ (by omega)]
    have o2 : ∀ k ≤ n, (buildSplit A (n + 1)).nnzOff.getD k 0 = (buildSplit A n).nnzOff.getD k 0 := by
      intro k hk; rw [e2, getD_append_lt _ _ _ (by omega)]
    refine ⟨by rw [e1]; simp [h1], by rw [e2]; simp [h2], g1, g2, ?_, ?_⟩
    · intro k hk
      by_cases hk' : k = n + 1
      · subst hk'; exact ⟨g1.le, g2.le⟩
      · rw [o1 k (by omega), o2 k (by omega), e3, e4, List.length_append, List.length_append]
        have := h5 k (by omega)
        omega
    · intro k hk
      by_cases hk' : k = n
      · subst hk'
        unfold Split.part
        dsimp only
        rw [g1, g2, o1 k le_rfl, o2 k le_rfl, h3, h4, e3, e4, List.drop_left, List.drop_left, List.length_append,
          List.length_append, Nat.add_sub_cancel_left, Nat.add_sub_cancel_left, List.take_length, List.take_length]
      · rw [← h6 k (by omega)]
        unfold Split.part
        dsimp only
        rw [o1 k (by omega), o2 k (by omega), o1 (k + 1) (by omega), o2 (k + 1) (by omega), e3, e4]
        rw [slice_append _ _ _ _ (h5 (k + 1) (by omega)).1, slice_append _ _ _ _ (h5 (k + 1) (by omega)).2]

variable [CommSemiring R]

/-- One spatial part: the transpose of kernel `k` alone. -/
theorem spatialPart_value (junk : ℕ → Entry R) (sh : ℕ → R) (A : Csr R) (nnz : ℕ) (hA : Runs A nnz) (K k : ℕ) (hk : k < K)
    (g : ℕ → ℕ → R) (H W nlatIn nlonIn : ℕ) (hsh : ∀ q < 2 * nlonIn, sh q = 0) (hW : 0 < W) (hd : W ∣ nlonIn) (hI : 0 < nlonIn) :
    ∃ z, spatialPart junk sh (buildSplit A K) g H W nlatIn nlonIn k = .ok z ∧ ∀ i, ∀ j < nlonIn, z.val i j
      = ∑ z ∈ range nnz, if (A.entry z).ker = k then bwdTerm (g (A.entry z).row) W nlonIn (nlonIn / W) (A.entry z) i j else 0 := by
  obtain ⟨r1, r2, r3, r4⟩ := splitKernel_spec junk A nnz hA k
  have hp := (buildSplit_part junk A nnz hA K).2.2.2.2.2 k hk
  have hf : ∀ i j, ((splitKernel A k).2.1.map fun e => bwdTerm (g e.row) W nlonIn (nlonIn / W) e i j).sum
      = ∑ z ∈ range nnz, if (A.entry z).ker = k then bwdTerm (g (A.entry z).row) W nlonIn (nlonIn / W) (A.entry z) i j else 0 := by
    intro i j
    rw [r4]
    rfl
  unfold spatialPart
  rw [hp]
  dsimp only
  by_cases h1 : (splitKernel A k).1.length ≤ 1
  · rw [if_pos h1]
    refine ⟨_, rfl, fun i j _ => ?_⟩
    rw [← hf]
    have hlast := r1.last
    have : (splitKernel A k).2.1.length = 0 := by
      rw [← hlast]
      show (splitKernel A k).1.getD ((splitKernel A k).1.length - 1) 0 = 0
      rw [show (splitKernel A k).1.length - 1 = 0 by omega]
      exact r1.zero
    rw [List.length_eq_zero_iff] at this
    rw [this]; rfl
  · rw [if_neg h1]
    obtain ⟨z, sh', b1, -, -, -, b5⟩ := cpuBackward_value sh _ _ r1 ⟨1, H, W, fun _ => g⟩ nlatIn nlonIn hsh hW hd hI
    rw [b1]
    refine ⟨z, rfl, fun i j hj => ?_⟩
    rw [b5 i j hj, ← hf]
    exact range_getD_sum (splitKernel A k).2.1 junk (fun e => bwdTerm (g e.row) W nlonIn (nlonIn / W) e i j)

theorem bwdTerm_linear (ι : Type) (s : Finset ι) (g : ι → ℕ → R) (c : ι → R) (Wi Wo ps : ℕ) (e : Entry R) (h p : ℕ) :
    bwdTerm (fun w => ∑ o ∈ s, g o w * c o) Wi Wo ps e h p = ∑ o ∈ s, bwdTerm (g o) Wi Wo ps e h p * c o := by
  unfold bwdTerm
  split
  · simp only [sum_mul]
    rw [sum_comm]
    apply sum_congr rfl
    intro w _
    split
    · rw [mul_sum]
      exact sum_congr rfl fun o _ => by ring
    · simp
  · simp

end Verif.Disco
