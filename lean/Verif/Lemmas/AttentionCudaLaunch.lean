import Verif.Lemmas.AttentionCuda
/-!
Which kernels the GPU dispatchers launch.
-/
namespace Verif.AttnGpu
open Verif Verif.Attn Verif.Spec.Attn Finset

theorem or_shift_le (x i : ℕ) : x ≤ x ||| (x >>> i) := Nat.left_le_or

theorem le_nextPow2 (x : ℕ) : x ≤ nextPow2 x := by
  have h : ∀ (L : List ℕ) (y : ℕ), y ≤ L.foldl (fun x i => x ||| (x >>> i)) y := by
    intro L
    induction L with
    | nil => intro y; exact le_refl _
    | cons i L ih => intro y; exact le_trans (or_shift_le y i) (ih _)
  have := h [1, 2, 4, 8, 16] (x - 1)
  unfold nextPow2
  omega

/-- The block sizes below the largest one. -/
theorem nextPow2_table : ∀ x < 1025, 32 ≤ x → nextPow2 x = if x ≤ 32 then 32 else if x ≤ 64 then 64 else if x ≤ 128 then 128 else
    if x ≤ 256 then 256 else if x ≤ 512 then 512 else 1024 := by
  set_option maxRecDepth 20000 in
  decide

/-- The block size for `n` channels. -/
theorem bdimxOf_eq (n : ℕ) : n ≤ 16384 → bdimxOf n = if n ≤ 512 then 32 else if n ≤ 1024 then 64 else if n ≤ 2048 then 128 else
    if n ≤ 4096 then 256 else if n ≤ 8192 then 512 else 1024 := by
  intro hn
  unfold bdimxOf
  rw [nextPow2_table _ (by omega) (by omega)]
  split_ifs <;> omega

theorem bdimxOf_big {n : ℕ} (hn : 16384 < n) : 1024 < bdimxOf n := by
  unfold bdimxOf
  have := le_nextPow2 (max ((n + 15) / 16) 32)
  omega

theorem spcLaunch_hit {bx by' maxLoc nloc other cur : ℕ} (h1 : cur ≤ nloc) (h2 : nloc ≤ maxLoc) :
    spcLaunch bx by' maxLoc nloc other cur = .special bx by' nloc (decide (bx * (nloc - 1) ≤ other ∧ other ≤ bx * nloc)) := by
  induction hm : nloc - cur generalizing cur with
  | zero =>
    have : cur = nloc := by omega
    subst this
    rw [spcLaunch, if_pos rfl]
  | succ m ih =>
    rw [spcLaunch, if_neg (by omega), if_pos (by omega)]
    exact ih (by omega) (by omega)

theorem spcLaunch_miss {bx by' maxLoc nloc other cur : ℕ} (h1 : nloc < cur) : spcLaunch bx by' maxLoc nloc other cur = .nothing := by
  induction hm : maxLoc - cur generalizing cur with
  | zero => rw [spcLaunch, if_neg (by omega), if_neg (by omega)]
  | succ m ih =>
    rw [spcLaunch, if_neg (by omega), if_pos (by omega)]
    exact ih (by omega) (by omega)

theorem vecOf_cases (vecOk : Bool) (Ck Cv : ℕ) :
    (vecOf vecOk Ck Cv = 1) ∨ (vecOf vecOk Ck Cv = 4 ∧ Ck % 4 = 0 ∧ Cv % 4 = 0) := by
  unfold vecOf
  split_ifs with h
  · exact Or.inr ⟨rfl, h.2⟩
  · exact Or.inl rfl

theorem vecOf_mul (vecOk : Bool) (Ck Cv : ℕ) :
    0 < vecOf vecOk Ck Cv ∧ Ck / vecOf vecOk Ck Cv * vecOf vecOk Ck Cv = Ck ∧ Cv / vecOf vecOk Ck Cv * vecOf vecOk Ck Cv = Cv := by
  rcases vecOf_cases vecOk Ck Cv with h | ⟨h, h1, h2⟩ <;> rw [h] <;> omega

/-- The dispatcher for the channel count `n` that determines the local arrays: nothing for no channels, a specialised kernel up to
`16 * maxBx` channels, the generic one beyond. -/
theorem dispatch_eq {maxBx : ℕ} (hmax : maxBx = 512 ∨ maxBx = 1024) {vec n : ℕ} (hv : vec = 1 ∨ vec = 4 ∧ n % 4 = 0) (other : ℕ) :
    let bx := bdimxOf n
    let nloc := (n / vec + (bx - 1)) / bx
    dispatchBdimx maxBx (16 / vec) (16 / vec / 2 + 1) bx nloc other =
      if n = 0 then .nothing
      else if n ≤ 16 * maxBx then .special bx (if n ≤ 512 then 2 else 1) nloc (decide (bx * (nloc - 1) ≤ other ∧ other ≤ bx * nloc))
      else .generic := by
  dsimp only
  by_cases h0 : n = 0
  · subst h0
    have hb : bdimxOf 0 = 32 := bdimxOf_eq 0 (by omega)
    rw [if_pos rfl, hb]
    unfold dispatchBdimx
    rw [if_pos rfl, spcLaunch_miss]
    simp
  rw [if_neg h0]
  by_cases hbig : 16384 < n
  · have hb := bdimxOf_big hbig
    rw [if_neg (by omega)]
    unfold dispatchBdimx
    rw [if_neg (by omega), if_neg]
    rintro ⟨h1, h2⟩
    simp only [List.mem_cons, List.mem_nil_iff, or_false] at h1
    omega
  have hb := bdimxOf_eq n (by omega)
  by_cases hlim : n ≤ 16 * maxBx
  · rw [if_pos hlim]
    unfold dispatchBdimx
    by_cases h512 : n ≤ 512
    · rw [if_pos h512] at hb
      rw [hb, if_pos rfl, if_pos h512, spcLaunch_hit]
      · rcases hv with rfl | ⟨rfl, _⟩ <;> omega
      · rcases hv with rfl | ⟨rfl, _⟩ <;> omega
    · rw [if_neg h512] at hb ⊢
      have hne : ¬ bdimxOf n = 32 := by rw [hb]; split_ifs <;> omega
      have hmem : bdimxOf n ∈ [64, 128, 256, 512, 1024] ∧ bdimxOf n ≤ maxBx := by
        rw [hb]
        refine ⟨by split_ifs <;> simp, by split_ifs <;> omega⟩
      rw [if_neg hne, if_pos hmem, spcLaunch_hit]
      · rw [hb]
        rcases hv with rfl | ⟨rfl, _⟩ <;> split_ifs <;> omega
      · rw [hb]
        rcases hv with rfl | ⟨rfl, _⟩ <;> split_ifs <;> omega
  · rw [if_neg hlim]
    have h512 : maxBx = 512 := by omega
    unfold dispatchBdimx
    have : bdimxOf n = 1024 := by rw [hb]; split_ifs <;> omega
    rw [this, if_neg (by omega), if_neg (by omega)]

theorem bdimxOf_group {n : ℕ} (h : n ≤ 16384) : GroupOk (bdimxOf n) := by
  rw [bdimxOf_eq n h]
  unfold GroupOk
  split_ifs <;> omega

/-- The smallest number of local elements fits. -/
theorem locOk_ceil {bx n : ℕ} (hb : 0 < bx) (hn : 0 < n) : LocOk bx (some ((n + (bx - 1)) / bx)) n := by
  intro m hm
  rw [Option.mem_some_iff] at hm
  subst hm
  have e := Nat.div_add_mod (n + (bx - 1)) bx
  have l := Nat.mod_lt (n + (bx - 1)) hb
  set m := (n + (bx - 1)) / bx
  have h1 : 1 ≤ m := by
    rcases Nat.eq_zero_or_pos m with h | h
    · rw [h] at e; omega
    · exact h
  refine ⟨h1, ?_, by omega⟩
  obtain ⟨m', hm'⟩ : ∃ m', m = m' + 1 := ⟨m - 1, by omega⟩
  rw [hm'] at e ⊢
  rw [Nat.mul_succ] at e
  rw [Nat.add_sub_cancel]
  omega

theorem fwdLaunch_eq (vecOk : Bool) (Ck Cv : ℕ) :
    let vec := vecOf vecOk Ck Cv
    let bx := bdimxOf Cv
    let nloc := (Cv / vec + (bx - 1)) / bx
    fwdLaunch vecOk Ck Cv = if Cv = 0 then .nothing
      else if Cv ≤ 16384 then .special bx (if Cv ≤ 512 then 2 else 1) nloc (decide (bx * (nloc - 1) ≤ Ck / vec ∧ Ck / vec ≤ bx * nloc))
      else .generic := by
  have hv : vecOf vecOk Ck Cv = 1 ∨ vecOf vecOk Ck Cv = 4 ∧ Cv % 4 = 0 := by
    rcases vecOf_cases vecOk Ck Cv with h | ⟨h, -, h2⟩
    · exact Or.inl h
    · exact Or.inr ⟨h, h2⟩
  exact dispatch_eq (Or.inr rfl) hv (Ck / vecOf vecOk Ck Cv)

/-- Whatever is launched, its channel loops fit. -/
theorem fwdConfig_ok (vecOk : Bool) (Ck Cv : ℕ) {cf : Config}
    (h : fwdConfig (vecOf vecOk Ck Cv) (Ck / vecOf vecOk Ck Cv) (Cv / vecOf vecOk Ck Cv) (fwdLaunch vecOk Ck Cv) = some cf) :
    CfgOk cf (Ck / vecOf vecOk Ck Cv) (Cv / vecOf vecOk Ck Cv) := by
  have hv := vecOf_mul vecOk Ck Cv
  have hl := fwdLaunch_eq vecOk Ck Cv
  dsimp only at hl
  rw [hl] at h
  generalize vecOf vecOk Ck Cv = vec at *
  have none_ok : ∀ bx n, LocOk bx none n := fun bx n m hm => by simp at hm
  by_cases h0 : Cv = 0
  · rw [if_pos h0] at h
    simp [fwdConfig] at h
  rw [if_neg h0] at h
  by_cases hlim : Cv ≤ 16384
  · rw [if_pos hlim] at h
    simp only [fwdConfig, Option.some.injEq] at h
    subst h
    have hg := bdimxOf_group hlim
    have hpos : 0 < Cv / vec := by
      rcases Nat.eq_zero_or_pos (Cv / vec) with h | h
      · rw [h] at hv; omega
      · exact h
    refine ⟨hg, by dsimp only; split_ifs <;> omega, ?_, locOk_ceil hg.1 hpos⟩
    dsimp only
    split_ifs with hs
    · rw [decide_eq_true_eq] at hs
      intro m hm
      rw [Option.mem_some_iff] at hm
      subst hm
      exact ⟨(locOk_ceil hg.1 hpos _ rfl).1, hs⟩
    · exact none_ok _ _
  · rw [if_neg hlim] at h
    simp only [fwdConfig, Option.some.injEq] at h
    subst h
    exact ⟨⟨Nat.succ_pos 31, show 32 % 32 = 0 by omega, show 32 ≤ 1024 by omega⟩, Nat.succ_pos 1, none_ok _ _, none_ok _ _⟩

end Verif.AttnGpu
