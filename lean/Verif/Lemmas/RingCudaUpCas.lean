import Verif.Spec.RingCudaUp
import Mathlib.Tactic.Push
/-!
The compare-and-swap loop of the atomic maximum.
-/
namespace Verif.RingGpuUp
open Verif Verif.Ring Verif.RingGpu Finset

/-- `x` is not exceeded. -/
def ub (m : Option ℝ) (x : ℝ) : Prop := ∀ o ∈ m, o ≤ x

/-- What holds after any beginning `L` of a schedule. -/
structure CasInv (v : ℕ → ℝ) (m0 : Option ℝ) (L : List ℕ) (s : CasState) : Prop where
  ge : ∀ x, ub s.mem x → ub m0 x
  from' : s.mem = m0 ∨ ∃ t ∈ L, s.mem = some (v t)
  loop : ∀ t old, s.pc t = .loop old → ∀ x, ub s.mem x → ub old x
  done : ∀ t, s.pc t = .done → ∀ x, ub s.mem x → v t ≤ x

theorem not_exceeds {v : ℝ} {old : Option ℝ} (h : ¬ exceeds v old) {x : ℝ} (hx : ub old x) : v ≤ x := by
  unfold exceeds at h
  push Not at h
  obtain ⟨o, ho, hv⟩ := h
  exact hv.trans (hx o ho)

theorem casInv_run (v : ℕ → ℝ) (m0 : Option ℝ) (L : List ℕ) : CasInv v m0 L (L.foldl (casStep v) ⟨m0, fun _ => .start⟩) := by
  induction L using List.reverseRecOn with
  | nil => exact ⟨fun _ h => h, Or.inl rfl, fun t old h => by simp at h, fun t h => by simp at h⟩
  | append_singleton L t ih =>
    rw [List.foldl_append, List.foldl_cons, List.foldl_nil]
    generalize L.foldl (casStep v) ⟨m0, fun _ => .start⟩ = s at ih ⊢
    obtain ⟨i1, i2, i3, i4⟩ := ih
    have hfrom : s.mem = m0 ∨ ∃ t' ∈ L ++ [t], s.mem = some (v t') := by
      rcases i2 with h | ⟨t', h1, h2⟩
      · exact Or.inl h
      · exact Or.inr ⟨t', List.mem_append_left _ h1, h2⟩
    have upd : ∀ (c : CasPc) (t' : ℕ) (d : CasPc), Function.update s.pc t c t' = d → (t' = t ∧ c = d) ∨ (t' ≠ t ∧ s.pc t' = d) := by
      intro c t' d h
      by_cases ht : t' = t
      · subst ht
        rw [Function.update_self] at h
        exact Or.inl ⟨rfl, h⟩
      · rw [Function.update_of_ne ht] at h
        exact Or.inr ⟨ht, h⟩
    unfold casStep
    cases hpc : s.pc t with
    | start =>
      refine ⟨i1, hfrom, fun t' old h => ?_, fun t' h => ?_⟩
      · rcases upd _ _ _ h with ⟨-, h⟩ | ⟨-, h⟩
        · cases h
          exact fun x h => h
        · exact i3 t' old h
      · rcases upd _ _ _ h with ⟨-, h⟩ | ⟨-, h⟩
        · cases h
        · exact i4 t' h
    | loop old =>
      dsimp only
      by_cases he : exceeds (v t) old
      · rw [if_pos he]
        by_cases hm : s.mem = old
        · rw [if_pos hm]
          have mono : ∀ x, ub (some (v t)) x → ub s.mem x := by
            intro x hx o ho
            rw [hm] at ho
            exact (he o ho).le.trans (hx _ rfl)
          refine ⟨fun x hx => i1 x (mono x hx), Or.inr ⟨t, by simp, rfl⟩, fun t' old' h x hx => ?_, fun t' h x hx => ?_⟩
          · rcases upd _ _ _ h with ⟨-, h⟩ | ⟨-, h⟩
            · cases h
            · exact i3 t' old' h x (mono x hx)
          · rcases upd _ _ _ h with ⟨rfl, -⟩ | ⟨-, h⟩
            · exact hx _ rfl
            · exact i4 t' h x (mono x hx)
        · rw [if_neg hm]
          refine ⟨i1, hfrom, fun t' old' h => ?_, fun t' h => ?_⟩
          · rcases upd _ _ _ h with ⟨-, h⟩ | ⟨-, h⟩
            · cases h
              exact fun x h => h
            · exact i3 t' old' h
          · rcases upd _ _ _ h with ⟨-, h⟩ | ⟨-, h⟩
            · cases h
            · exact i4 t' h
      · rw [if_neg he]
        refine ⟨i1, hfrom, fun t' old' h => ?_, fun t' h x hx => ?_⟩
        · rcases upd _ _ _ h with ⟨-, h⟩ | ⟨-, h⟩
          · cases h
          · exact i3 t' old' h
        · rcases upd _ _ _ h with ⟨rfl, -⟩ | ⟨-, h⟩
          · exact not_exceeds he (i3 t' old hpc x hx)
          · exact i4 t' h x hx
    | done => exact ⟨i1, hfrom, i3, i4⟩

open Classical in
/-- How many of the first `n` threads are done. -/
noncomputable def doneCount (n : ℕ) (s : CasState) : ℕ := ((range n).filter fun t => s.pc t = .done).card

theorem doneCount_lt {n t : ℕ} (ht : t < n) {s : CasState} (h : s.pc t ≠ .done) : doneCount n s < n := by
  classical
  unfold doneCount
  calc _ ≤ ((range n).erase t).card := card_le_card fun u hu => by
        obtain ⟨h1, h2⟩ := mem_filter.1 hu
        exact mem_erase.2 ⟨fun e => h (e ▸ h2), h1⟩
    _ < (range n).card := card_lt_card (erase_ssubset (mem_range.2 ht))
    _ = n := card_range n

theorem doneCount_update_done {n t : ℕ} (ht : t < n) {s : CasState} (h : s.pc t ≠ .done) (m : Option ℝ) : doneCount n ⟨m, Function.update s.pc t .done⟩ = doneCount n s + 1 := by
  classical
  unfold doneCount
  rw [show ((range n).filter fun u => Function.update s.pc t .done u = .done) = insert t ((range n).filter fun u => s.pc u = .done) from ?_, card_insert_of_notMem (show t ∉ (range n).filter fun u => s.pc u = .done from fun h' => h (mem_filter.1 h').2)]
  ext u
  rw [mem_filter, mem_insert, mem_filter, mem_range]
  by_cases hu : u = t
  · subst hu
    simp [ht]
  · rw [Function.update_of_ne hu]
    simp [hu]

theorem doneCount_update_loop {n t : ℕ} {s : CasState} (h : s.pc t ≠ .done) (m old : Option ℝ) : doneCount n ⟨m, Function.update s.pc t (.loop old)⟩ = doneCount n s := by
  classical
  unfold doneCount
  congr 1
  ext u
  rw [mem_filter, mem_filter]
  refine and_congr_right fun _ => ?_
  dsimp only
  by_cases hu : u = t
  · subst hu
    rw [Function.update_self]
    simp [h]
  · rw [Function.update_of_ne hu]

/-- Every failed attempt of a thread comes after another thread has ended. -/
structure CasProg (n : ℕ) (L : List ℕ) (s : CasState) : Prop where
  start : ∀ t, s.pc t = .start → L.count t = 0
  loop : ∀ t old, s.pc t = .loop old → (s.mem = old → L.count t ≤ doneCount n s + 1) ∧ (s.mem ≠ old → L.count t ≤ doneCount n s)

theorem casProg_run (v : ℕ → ℝ) (m0 : Option ℝ) (n : ℕ) (L : List ℕ) (hL : ∀ t ∈ L, t < n) : CasProg n L (L.foldl (casStep v) ⟨m0, fun _ => .start⟩) := by
  induction L using List.reverseRecOn with
  | nil => exact ⟨fun t _ => rfl, fun t old h => by simp at h⟩
  | append_singleton L t ih =>
    have ht : t < n := hL t (by simp)
    have hih := ih fun u hu => hL u (List.mem_append_left _ hu)
    rw [List.foldl_append, List.foldl_cons, List.foldl_nil]
    generalize L.foldl (casStep v) ⟨m0, fun _ => .start⟩ = s at hih ⊢
    obtain ⟨i1, i2⟩ := hih
    have ct : (L ++ [t]).count t = L.count t + 1 := by simp
    have cu : ∀ u, u ≠ t → (L ++ [t]).count u = L.count u := by
      intro u hu
      rw [List.count_append, List.count_singleton]
      simp [Ne.symm hu]
    unfold casStep
    cases hpc : s.pc t with
    | start =>
      have hnd : s.pc t ≠ .done := by rw [hpc]; simp
      refine ⟨fun u hu => ?_, fun u old hu => ?_⟩
      · by_cases h : u = t
        · subst h
          simp at hu
        · rw [cu u h]
          dsimp only at hu
          rw [Function.update_of_ne h] at hu
          exact i1 u hu
      · dsimp only at hu ⊢
        rw [doneCount_update_loop hnd]
        by_cases h : u = t
        · subst h
          rw [Function.update_self] at hu
          cases hu
          rw [ct, i1 u hpc]
          exact ⟨fun _ => by omega, fun h => absurd rfl h⟩
        · rw [Function.update_of_ne h] at hu
          rw [cu u h]
          exact i2 u old hu
    | loop old =>
      have hnd : s.pc t ≠ .done := by rw [hpc]; simp
      have hstart : ∀ (c : CasPc), c ≠ .start → ∀ m u, (CasState.mk m (Function.update s.pc t c)).pc u = .start → (L ++ [t]).count u = 0 := by
        intro c hc m u hu
        dsimp only at hu
        by_cases h : u = t
        · subst h
          rw [Function.update_self] at hu
          exact absurd hu hc
        · rw [Function.update_of_ne h] at hu
          rw [cu u h]
          exact i1 u hu
      dsimp only
      by_cases he : exceeds (v t) old
      · rw [if_pos he]
        by_cases hm : s.mem = old
        · rw [if_pos hm]
          refine ⟨hstart .done (by simp) _, fun u old' hu => ?_⟩
          dsimp only at hu ⊢
          rw [doneCount_update_done ht hnd]
          by_cases h : u = t
          · subst h
            rw [Function.update_self] at hu
            cases hu
          · rw [Function.update_of_ne h] at hu
            rw [cu u h]
            have hle : L.count u ≤ doneCount n s + 1 := by
              by_cases e : s.mem = old'
              · exact (i2 u old' hu).1 e
              · exact ((i2 u old' hu).2 e).trans (by omega)
            exact ⟨fun _ => by omega, fun _ => hle⟩
        · rw [if_neg hm]
          refine ⟨hstart (.loop s.mem) (by simp) _, fun u old' hu => ?_⟩
          dsimp only at hu ⊢
          rw [doneCount_update_loop hnd]
          by_cases h : u = t
          · subst h
            rw [Function.update_self] at hu
            cases hu
            have := (i2 u old hpc).2 hm
            exact ⟨fun _ => by omega, fun h => absurd rfl h⟩
          · rw [Function.update_of_ne h] at hu
            rw [cu u h]
            exact i2 u old' hu
      · rw [if_neg he]
        refine ⟨hstart .done (by simp) _, fun u old' hu => ?_⟩
        dsimp only at hu ⊢
        rw [doneCount_update_done ht hnd]
        by_cases h : u = t
        · subst h
          rw [Function.update_self] at hu
          cases hu
        · rw [Function.update_of_ne h] at hu
          rw [cu u h]
          obtain ⟨h1, h2⟩ := i2 u old' hu
          exact ⟨fun e => (h1 e).trans (by omega), fun e => (h2 e).trans (by omega)⟩
    | done =>
      refine ⟨fun u hu => ?_, fun u old hu => ?_⟩
      · rw [cu u fun e => by subst e; rw [hpc] at hu; cases hu]
        exact i1 u hu
      · rw [cu u fun e => by subst e; rw [hpc] at hu; cases hu]
        exact i2 u old hu

/-- A thread that has made `n + 1` steps is done. -/
theorem cas_done (v : ℕ → ℝ) (m0 : Option ℝ) (n : ℕ) (L : List ℕ) (hL : ∀ t ∈ L, t < n) {t : ℕ} (ht : t < n) (hc : n + 1 ≤ L.count t) :
    (L.foldl (casStep v) ⟨m0, fun _ => .start⟩).pc t = .done := by
  have hp := casProg_run v m0 n L hL
  generalize L.foldl (casStep v) ⟨m0, fun _ => .start⟩ = s at hp ⊢
  by_contra h
  have hd := doneCount_lt ht h
  cases hpc : s.pc t with
  | start => have := hp.start t hpc; omega
  | loop old =>
    obtain ⟨h1, h2⟩ := hp.loop t old hpc
    by_cases e : s.mem = old
    · have := h1 e; omega
    · have := h2 e; omega
  | done => exact h hpc

end Verif.RingGpuUp
