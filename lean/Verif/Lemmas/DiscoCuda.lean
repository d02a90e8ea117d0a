import Verif.Model.DiscoCuda
import Verif.Lemmas.DiscoPack
/-!
The GPU kernels on a row-compressed filter: schedules, shared memory, and the agreement with the CPU kernels.
-/
namespace Verif.Disco
open Verif Verif.Dist Verif.Spec Finset

variable {R : Type}

theorem mem_strided {B n tid i : ℕ} (hB : 0 < B) (ht : tid < B) : i ∈ strided B n tid ↔ i < n ∧ i % B = tid := by
  unfold strided
  rw [List.mem_range']
  constructor
  · rintro ⟨k, hk, rfl⟩
    refine ⟨?_, by rw [Nat.add_mul_mod_self_left, Nat.mod_eq_of_lt ht]⟩
    rw [Nat.lt_div_iff_mul_lt hB] at hk
    rw [Nat.mul_comm] at hk
    omega
  · rintro ⟨hi, hm⟩
    refine ⟨i / B, ?_, ?_⟩
    · rw [Nat.lt_div_iff_mul_lt hB]
      have := Nat.div_add_mod i B
      rw [Nat.mul_comm] at this
      omega
    · have := Nat.div_add_mod i B
      omega

/-- The loop of a block visits every index once. -/
theorem allStrided_perm {B : ℕ} (hB : 0 < B) (n : ℕ) : (allStrided B n).Perm (List.range n) := by
  rw [List.perm_ext_iff_of_nodup]
  · intro i
    unfold allStrided
    rw [List.mem_flatMap, List.mem_range]
    constructor
    · rintro ⟨t, ht, hi⟩
      exact ((mem_strided hB (List.mem_range.1 ht)).1 hi).1
    · intro hi
      exact ⟨i % B, List.mem_range.2 (Nat.mod_lt _ hB), (mem_strided hB (Nat.mod_lt _ hB)).2 ⟨hi, rfl⟩⟩
  · unfold allStrided
    rw [List.nodup_flatMap]
    refine ⟨fun t _ => List.nodup_range' B (h := hB), ?_⟩
    refine List.Pairwise.imp_of_mem ?_ List.pairwise_lt_range
    intro a b ha hb hab i h1 h2
    have e1 := ((mem_strided hB (List.mem_range.1 ha)).1 h1).2
    have e2 := ((mem_strided hB (List.mem_range.1 hb)).1 h2).2
    omega
  · exact List.nodup_range

theorem allPositions_perm {B : ℕ} (hB : 0 < B) (E : ℕ) : (allPositions B E).Perm (List.range (B * E)) := by
  have hmod : ∀ {t i : ℕ}, t < B → (i * B + t) % B = t := by
    intro t i ht
    rw [Nat.mul_comm, Nat.mul_add_mod, Nat.mod_eq_of_lt ht]
  rw [List.perm_ext_iff_of_nodup]
  · intro p
    unfold allPositions
    rw [List.mem_flatMap, List.mem_range]
    constructor
    · rintro ⟨t, ht, hp⟩
      obtain ⟨i, hi, rfl⟩ := List.mem_map.1 hp
      have ht := List.mem_range.1 ht
      have hi := List.mem_range.1 hi
      have := Nat.mul_le_mul_right B (show i + 1 ≤ E by omega)
      rw [Nat.add_mul, Nat.one_mul, Nat.mul_comm E B] at this
      omega
    · intro hp
      refine ⟨p % B, List.mem_range.2 (Nat.mod_lt _ hB), List.mem_map.2 ⟨p / B, List.mem_range.2 (Nat.div_lt_of_lt_mul hp), ?_⟩⟩
      exact Nat.div_add_mod' p B
  · unfold allPositions
    rw [List.nodup_flatMap]
    refine ⟨fun t _ => ?_, ?_⟩
    · refine List.Nodup.map ?_ List.nodup_range
      intro i j hij
      have : i * B = j * B := by simpa using hij
      exact Nat.eq_of_mul_eq_mul_right hB this
    · refine List.Pairwise.imp_of_mem ?_ List.pairwise_lt_range
      intro a b ha hb hab p h1 h2
      obtain ⟨i, -, rfl⟩ := List.mem_map.1 h1
      obtain ⟨j, -, h⟩ := List.mem_map.1 h2
      have e1 := hmod (i := i) (List.mem_range.1 ha)
      have e2 := hmod (i := j) (List.mem_range.1 hb)
      rw [h, e1] at e2
      omega
  · exact List.nodup_range

/-- Copying in any order leaves the row twice in the buffer. -/
theorem copyRow_aux (size Wi : ℕ) (hs : 2 * Wi ≤ size) (row : ℕ → R) (l : List ℕ) (hl : ∀ i ∈ l, i < Wi) (sh : ℕ → R) :
    ∃ sh', copyRow size Wi row sh l = .ok sh' ∧
      ∀ q < 2 * Wi, sh' q = if q % Wi ∈ l then row (q % Wi) else sh q := by
  induction l generalizing sh with
  | nil => exact ⟨sh, rfl, fun q _ => by simp⟩
  | cons i l ih =>
    have hi := hl i (List.mem_cons_self ..)
    have hc : copyCell size Wi row sh i = .ok (Function.update (Function.update sh i (row i)) (Wi + i) (row i)) := by
      unfold copyCell store
      rw [if_pos (by omega)]
      dsimp only
      rw [if_pos (by omega)]
    obtain ⟨sh', h1, h2⟩ := ih (fun j hj => hl j (List.mem_cons_of_mem _ hj)) (Function.update (Function.update sh i (row i)) (Wi + i) (row i))
    refine ⟨sh', ?_, fun q hq => ?_⟩
    · unfold copyRow
      rw [List.foldlM_cons, hc]
      exact h1
    · rw [h2 q hq]
      by_cases hm : q % Wi ∈ l
      · rw [if_pos hm, if_pos (List.mem_cons_of_mem _ hm)]
      · rw [if_neg hm]
        have hq' : q % Wi = if q < Wi then q else q - Wi := by
          split
          · exact Nat.mod_eq_of_lt ‹_›
          · rw [Nat.mod_eq_sub_mod (by omega), Nat.mod_eq_of_lt (by omega)]
        by_cases he : q % Wi = i
        · rw [if_pos (by rw [he]; exact List.mem_cons_self ..), he]
          by_cases hlt : q < Wi
          · rw [if_pos hlt] at hq'
            obtain rfl : q = i := by omega
            rw [Function.update_of_ne (by omega), Function.update_self]
          · rw [if_neg hlt] at hq'
            obtain rfl : q = Wi + i := by omega
            rw [Function.update_self]
        · rw [if_neg (by rw [List.mem_cons]; exact fun h => h.elim he hm), Function.update_of_ne, Function.update_of_ne]
          · rintro rfl
            exact he (Nat.mod_eq_of_lt hi)
          · rintro rfl
            apply he
            rw [Nat.add_mod_left, Nat.mod_eq_of_lt hi]

theorem copyRow_ok (size Wi : ℕ) (hs : 2 * Wi ≤ size) (hW : 0 < Wi) (row : ℕ → R) (l : List ℕ) (hl : l.Perm (List.range Wi)) (sh : ℕ → R) :
    ∃ sh', copyRow size Wi row sh l = .ok sh' ∧ ∀ q < 2 * Wi, sh' q = row (q % Wi) := by
  obtain ⟨sh', h1, h2⟩ := copyRow_aux size Wi hs row l (fun i hi => List.mem_range.1 (hl.mem_iff.1 hi)) sh
  refine ⟨sh', h1, fun q hq => ?_⟩
  rw [h2 q hq, if_pos (hl.mem_iff.2 (List.mem_range.2 (Nat.mod_lt _ hW)))]

section
variable [CommSemiring R]

/-- The variables of a block agree with the row in the buffer. -/
structure GFwdInv (x : ℕ → ℕ → R) (Wi : ℕ) (s : GFwd R) : Prop where
  h : s.hPrev = s.colPrev / Wi
  w : s.wPrev = s.colPrev % Wi
  sh : ∀ q < 2 * Wi, s.sh q = x s.hPrev (q % Wi)

omit [CommSemiring R] in
theorem gfwdRefresh_ok (size : ℕ) (sched : ℕ → List ℕ) (x : ℕ → ℕ → R) (Wi : ℕ) (hW : 0 < Wi) (hs : 2 * Wi ≤ size)
    (hsched : ∀ c, (sched c).Perm (List.range Wi)) (s : GFwd R) (hi : GFwdInv x Wi s) (col : ℕ) (hcol : s.hPrev ≤ col / Wi) :
    ∃ s', gfwdRefresh size sched x Wi s col = .ok s' ∧ GFwdInv x Wi s' ∧ s'.hPrev = col / Wi ∧ s'.reg = s.reg := by
  unfold gfwdRefresh
  have hm := Nat.div_add_mod s.colPrev Wi
  have hm' := Nat.div_add_mod col Wi
  have hlt := Nat.mod_lt col hW
  rw [← hi.h, ← hi.w] at hm
  split
  · obtain ⟨sh', h1, h2⟩ := copyRow_ok size Wi hs hW (x (col / Wi)) (sched s.copies) (hsched _) s.sh
    rw [h1]
    exact ⟨_, rfl, ⟨rfl, rfl, h2⟩, rfl, rfl⟩
  · rename_i hc
    refine ⟨s, rfl, hi, ?_, rfl⟩
    have h1 : Wi * (col / Wi) < Wi * (s.hPrev + 1) := by
      rw [Nat.mul_add, Nat.mul_one]
      have : (col : ℤ) < (s.colPrev : ℤ) - s.wPrev + Wi := by omega
      omega
    have := Nat.lt_of_mul_lt_mul_left h1
    omega

theorem gfwdAccum_ok (size B E ps Wi Wo : ℕ) (x : ℕ → ℕ → R) (hB : 0 < B) (hWi : Wi = ps * Wo) (hps : 0 < ps) (hE : Wo ≤ B * E)
    (hs : size = Wi * 2 + ps * (B * E - Wo)) (s : GFwd R) (hi : GFwdInv x Wi s) (e : Entry R) (he : s.hPrev = e.col / Wi)
    (hW : 0 < Wi) :
    ∃ s', gfwdAccum size B E ps s e = .ok s' ∧ GFwdInv x Wi s' ∧ s'.hPrev = s.hPrev ∧
      ∀ p < Wo, s'.reg (p % B) (p / B) = s.reg (p % B) (p / B) + e.val * x (e.col / Wi) ((e.col % Wi + p * ps) % Wi) := by
  have hm := Nat.div_add_mod s.colPrev Wi
  have hm' := Nat.div_add_mod e.col Wi
  have hlt := Nat.mod_lt e.col hW
  rw [← hi.h, ← hi.w, he] at hm
  have hw : (s.wPrev : ℤ) + ((e.col : ℤ) - s.colPrev) = ((e.col % Wi : ℕ) : ℤ) := by omega
  have hsize : size = Wi + ps * (B * E) := by
    rw [hs, Nat.mul_sub]
    have := Nat.mul_le_mul_left ps hE
    omega
  unfold gfwdAccum
  simp only [hw]
  rw [if_pos]
  · refine ⟨_, rfl, ⟨hi.h, hi.w, hi.sh⟩, rfl, fun p hp => ?_⟩
    dsimp only
    have hpE : p / B < E := Nat.div_lt_of_lt_mul (by omega)
    rw [if_pos ⟨Nat.mod_lt _ hB, hpE⟩, Nat.div_add_mod']
    congr 2
    have hlt2 : ps * p < Wi := by rw [hWi]; exact Nat.mul_lt_mul_of_pos_left hp hps
    rw [show ((e.col % Wi : ℕ) : ℤ) + (ps * p : ℕ) = ((e.col % Wi + ps * p : ℕ) : ℤ) by push_cast; ring, Int.toNat_natCast,
      hi.sh _ (by omega), he, Nat.mul_comm ps p]
  · intro tid ht i hiE
    refine ⟨by positivity, ?_⟩
    have h1 : i * B + tid < B * E := by
      have := Nat.mul_le_mul_right B (show i + 1 ≤ E by omega)
      rw [Nat.add_mul, Nat.one_mul, Nat.mul_comm E B] at this
      omega
    have h2 := Nat.mul_le_mul_left ps h1.le
    have h3 : e.col % Wi + ps * (i * B + tid) < size := by omega
    exact_mod_cast h3

theorem gfwd_fold (size B E ps Wi Wo : ℕ) (sched : ℕ → List ℕ) (x : ℕ → ℕ → R) (hB : 0 < B) (hWi : Wi = ps * Wo) (hps : 0 < ps)
    (hE : Wo ≤ B * E) (hs : size = Wi * 2 + ps * (B * E - Wo)) (hW : 0 < Wi) (hsched : ∀ c, (sched c).Perm (List.range Wi))
    (l : List (Entry R)) (hl : l.Pairwise (fun a b => a.col / Wi ≤ b.col / Wi)) (s : GFwd R) (hi : GFwdInv x Wi s)
    (hle : ∀ e ∈ l, s.hPrev ≤ e.col / Wi) :
    ∃ s', l.foldlM (gfwdEntry size B E sched x Wi ps) s = .ok s' ∧
      ∀ p < Wo, s'.reg (p % B) (p / B)
        = s.reg (p % B) (p / B) + (l.map fun e => e.val * x (e.col / Wi) ((e.col % Wi + p * ps) % Wi)).sum := by
  induction l generalizing s with
  | nil => exact ⟨s, rfl, fun p _ => by simp⟩
  | cons e l ih =>
    rw [List.pairwise_cons] at hl
    obtain ⟨s1, a1, a2, a3, a4⟩ := gfwdRefresh_ok size sched x Wi hW (by omega) hsched s hi e.col (hle e (List.mem_cons_self ..))
    obtain ⟨s2, b1, b2, b3, b4⟩ := gfwdAccum_ok size B E ps Wi Wo x hB hWi hps hE hs s1 a2 e a3 hW
    have hstep : gfwdEntry size B E sched x Wi ps s e = .ok s2 := by
      unfold gfwdEntry
      rw [a1]
      exact b1
    obtain ⟨s', c1, c2⟩ := ih hl.2 s2 b2 (fun e' he' => by rw [b3, a3]; exact hl.1 e' he')
    refine ⟨s', ?_, fun p hp => ?_⟩
    · rw [List.foldlM_cons, hstep]
      exact c1
    · rw [c2 p hp, b4 p hp, a4, List.map_cons, List.sum_cons, add_assoc]

/-- The input latitudes of a compressed row do not decrease. -/
def LatRuns (A : Csr R) (W : ℕ) : Prop :=
  ∀ i < A.nnr, ∀ z z', A.roff i ≤ z → z < z' → z' < A.roff (i + 1) → (A.entry z).col / W ≤ (A.entry z').col / W

omit [CommSemiring R] in
theorem latRuns_pairwise {A : Csr R} {W : ℕ} (h : LatRuns A W) {i : ℕ} (hi : i < A.nnr) :
    ((List.range' (A.roff i) (A.roff (i + 1) - A.roff i)).map A.entry).Pairwise (fun a b => a.col / W ≤ b.col / W) := by
  rw [List.pairwise_map]
  refine List.Pairwise.imp_of_mem ?_ (List.pairwise_lt_range' (s := A.roff i) (n := A.roff (i + 1) - A.roff i) (step := 1))
  intro a b ha hb hab
  rw [List.mem_range'_1] at ha hb
  exact h i hi a b ha.1 hab (by omega)

omit [CommSemiring R] in
theorem run_cons {A : Csr R} {i : ℕ} (h : A.roff i < A.roff (i + 1)) :
    (List.range' (A.roff i) (A.roff (i + 1) - A.roff i)).map A.entry
      = A.entry (A.roff i) :: (List.range' (A.roff i + 1) (A.roff (i + 1) - A.roff i - 1)).map A.entry := by
  obtain ⟨d, hd⟩ := Nat.exists_eq_add_of_lt h
  rw [show A.roff (i + 1) - A.roff i = d + 1 by omega, List.range'_succ]
  rfl

/-- One block of the forward kernel writes what the CPU kernel writes for the row. -/
theorem gfwdRow_eq (size B E ps Wi Wo : ℕ) (junk : ℕ → R) (sched : ℕ → List ℕ) (A : Csr R) (x : ℕ → ℕ → R) (hB : 0 < B)
    (hWi : Wi = ps * Wo) (hps : 0 < ps) (hE : Wo ≤ B * E) (hs : size = Wi * 2 + ps * (B * E - Wo)) (hW : 0 < Wi)
    (hsched : ∀ c, (sched c).Perm (List.range Wi)) (hlat : LatRuns A Wi) (row : ℕ) (hr : row < A.nnr)
    (hne : A.roff row < A.roff (row + 1)) (out : ℕ → ℕ → ℕ → R) (mem sh0 : ℕ → R) :
    gfwdRow size B E junk sched A x Wi Wo ps out row = .ok (fwdRow mem sh0 A x Wi Wo ps out row) := by
  obtain ⟨sh, h1, h2⟩ := copyRow_ok size Wi (by omega) hW (x ((A.entry (A.roff row)).col / Wi)) (sched 0) (hsched 0) junk
  have hpw := latRuns_pairwise hlat hr
  have hall : ∀ e ∈ (List.range' (A.roff row) (A.roff (row + 1) - A.roff row)).map A.entry,
      (A.entry (A.roff row)).col / Wi ≤ e.col / Wi := by
    intro e he
    rw [run_cons hne] at hpw he
    rcases List.mem_cons.1 he with rfl | he
    · exact le_rfl
    · exact (List.pairwise_cons.1 hpw).1 e he
  obtain ⟨s', c1, c2⟩ := gfwd_fold size B E ps Wi Wo sched x hB hWi hps hE hs hW hsched _ hpw
    (⟨(A.entry (A.roff row)).col, (A.entry (A.roff row)).col / Wi, (A.entry (A.roff row)).col % Wi, 1, sh, fun _ _ => 0⟩ : GFwd R)
    ⟨rfl, rfl, h2⟩ hall
  have hblk : gfwdBlock size B E junk sched A x Wi ps row = .ok s'.reg := by
    unfold gfwdBlock
    dsimp only
    rw [h1]
    dsimp only
    rw [c1]
  unfold gfwdRow
  rw [hblk]
  dsimp only
  congr 1
  funext k t p
  by_cases hp : p < Wo
  · have hpE : p / B < E := Nat.div_lt_of_lt_mul (by omega)
    unfold fwdRow
    by_cases hk : k = (A.entry (A.roff row)).ker ∧ t = (A.entry (A.roff row)).row
    · rw [if_pos ⟨hk.1, hk.2, hp, hpE⟩, if_pos ⟨hk.1, hk.2, hp⟩, c2 p hp,
        fwd_fold mem x Wi Wo ps hWi _ _ (by intro h hh; cases hh) p hp hps]
    · rw [if_neg (fun h => hk ⟨h.1, h.2.1⟩), if_neg (fun h => hk ⟨h.1, h.2.1⟩)]
  · unfold fwdRow
    rw [if_neg (fun h => hp h.2.2.1), if_neg (fun h => hp h.2.2)]

theorem gfwd_rows (size B E ps Wi Wo : ℕ) (junk : ℕ → ℕ → R) (sched : ℕ → ℕ → List ℕ) (A : Csr R) (x : ℕ → ℕ → R) (hB : 0 < B)
    (hWi : Wi = ps * Wo) (hps : 0 < ps) (hE : Wo ≤ B * E) (hs : size = Wi * 2 + ps * (B * E - Wo)) (hW : 0 < Wi)
    (hsched : ∀ b c, (sched b c).Perm (List.range Wi)) (hlat : LatRuns A Wi) (hne : ∀ i < A.nnr, A.roff i < A.roff (i + 1))
    (mem : ℕ → R) (sh0 : ℕ → ℕ → R) (order : List ℕ) (ho : ∀ i ∈ order, i < A.nnr) (out : ℕ → ℕ → ℕ → R) :
    order.foldlM (fun out row => gfwdRow size B E (junk row) (sched row) A x Wi Wo ps out row) out
      = .ok (order.foldl (fun out row => fwdRow mem (sh0 row) A x Wi Wo ps out row) out) := by
  induction order generalizing out with
  | nil => rfl
  | cons i l ih =>
    have hi := ho i (List.mem_cons_self ..)
    rw [List.foldlM_cons, gfwdRow_eq size B E ps Wi Wo (junk i) (sched i) A x hB hWi hps hE hs hW (hsched i) hlat i hi (hne i hi) out mem (sh0 i)]
    exact ih (fun j hj => ho j (List.mem_cons_of_mem _ hj)) _

end

/-! ### Launch configuration -/

theorem pickElxth_some (nth W E E' : ℕ) (h : pickElxth nth W E = some E') :
    E ≤ E' ∧ E' ≤ elxthMax ∧ W ≤ nth * E' ∧ (E < E' → nth * (E' - 1) < W) := by
  induction hn : elxthMax + 1 - E generalizing E with
  | zero =>
    rw [pickElxth, if_neg (by omega)] at h
    cases h
  | succ n ih =>
    rw [pickElxth, if_pos (by omega)] at h
    split at h
    · cases h
      exact ⟨le_rfl, by omega, ‹_›, fun h => absurd h (lt_irrefl _)⟩
    · rename_i hlt
      obtain ⟨a, b, c, d⟩ := ih (E + 1) h (by omega)
      refine ⟨by omega, b, c, fun _ => ?_⟩
      rcases Nat.eq_or_lt_of_le a with e | e
      · rw [← e, Nat.add_sub_cancel]; omega
      · exact d e

theorem pickElxth_isSome (nth W E : ℕ) (hE : E ≤ elxthMax) (hW : W ≤ nth * elxthMax) : ∃ E', pickElxth nth W E = some E' := by
  induction hn : elxthMax - E generalizing E with
  | zero =>
    obtain rfl : E = elxthMax := by omega
    exact ⟨elxthMax, by rw [pickElxth, if_pos le_rfl, if_pos hW]⟩
  | succ n ih =>
    rw [pickElxth, if_pos hE]
    split
    · exact ⟨E, rfl⟩
    · exact ih (E + 1) (by omega) (by omega)

/-- For every supported width a configuration is chosen, with enough elements, fewer than one element per thread too many. -/
theorem pickThreads_ok (W : ℕ) (h : W ≤ 1024 * elxthMax) :
    ∃ nth e0, pickThreads W = .ok (nth, e0) ∧ 0 < nth ∧ e0 ≤ elxthMax ∧ W ≤ nth * elxthMax ∧ 64 ∣ nth ∧ nth ≤ 1024 := by
  unfold pickThreads
  have hE : elxthMax = 32 := rfl
  by_cases h1 : W ≤ 64 * elxthMax
  · rw [if_pos h1]
    exact ⟨_, _, rfl, by norm_num, by omega, by omega, by norm_num, by norm_num⟩
  rw [if_neg h1]
  by_cases h2 : W ≤ 128 * elxthMax
  · rw [if_pos h2]
    exact ⟨_, _, rfl, by norm_num, by omega, by omega, by norm_num, by norm_num⟩
  rw [if_neg h2]
  by_cases h3 : W ≤ 256 * elxthMax
  · rw [if_pos h3]
    exact ⟨_, _, rfl, by norm_num, by omega, by omega, by norm_num, by norm_num⟩
  rw [if_neg h3]
  by_cases h4 : W ≤ 512 * elxthMax
  · rw [if_pos h4]
    exact ⟨_, _, rfl, by norm_num, by omega, by omega, by norm_num, by norm_num⟩
  rw [if_neg h4, if_pos h]
  exact ⟨_, _, rfl, by norm_num, by omega, by omega, by norm_num, by norm_num⟩

theorem pickThreads_error (W : ℕ) (h : 1024 * elxthMax < W) : pickThreads W = .error .processExit := by
  unfold pickThreads
  have hE : elxthMax = 32 := rfl
  rw [if_neg (by omega), if_neg (by omega), if_neg (by omega), if_neg (by omega), if_neg (by omega)]

/-! ### Entries listed by input latitude -/

/-- Inside each kernel and output row, the entries are listed by increasing input latitude (`W` longitudes per latitude). -/
def LatSorted (W : ℕ) (es : List (Entry R)) : Prop :=
  ∀ k, (es.filter (fun e => e.ker = k)).Pairwise (fun a b => a.row = b.row → a.col / W ≤ b.col / W)

theorem byKernel_lat (K W : ℕ) (es : List (Entry R)) (h : LatSorted W es) :
    (byKernel K es).Pairwise (fun a b => a.ker = b.ker → a.row = b.row → a.col / W ≤ b.col / W) := by
  unfold byKernel
  rw [List.pairwise_flatMap]
  refine ⟨fun k _ => List.Pairwise.imp (S := fun a b : Entry R => a.ker = b.ker → a.row = b.row → a.col / W ≤ b.col / W)
    (fun hh _ => hh) (h k), ?_⟩
  refine List.pairwise_lt_range.imp ?_
  intro k k' hlt a ha b hb hab
  have ha := List.of_mem_filter ha
  have hb := List.of_mem_filter hb
  simp only [decide_eq_true_eq] at ha hb
  omega

theorem latRuns_of (junk : ℕ → Entry R) (K W : ℕ) (es : List (Entry R)) (hK : ∀ e ∈ es, e.ker < K) (hA : Runs (csrOf junk K es) es.length)
    (h : LatSorted W es) : LatRuns (csrOf junk K es) W := by
  intro i hi z z' h1 h2 h3
  have hb : (csrOf junk K es).roff (i + 1) ≤ es.length := by
    have := hA.mono_le (i := i + 1) (j := (csrOf junk K es).nnr) (by omega) le_rfl
    rwa [hA.last] at this
  have hbl : (byKernel K es).length = es.length := (byKernel_perm K es hK).length_eq
  obtain ⟨k1, r1⟩ := hA.key i hi z h1 (by omega)
  obtain ⟨k2, r2⟩ := hA.key i hi z' (by omega) h3
  have hl := List.pairwise_iff_getElem.1 (byKernel_lat K W es h) z z' (by omega) (by omega) h2
  have e1 : (csrOf junk K es).entry z = (byKernel K es)[z]'(by omega) := List.getD_eq_getElem _ _ _
  have e2 : (csrOf junk K es).entry z' = (byKernel K es)[z']'(by omega) := List.getD_eq_getElem _ _ _
  rw [← e1, ← e2] at hl
  exact hl (k1.trans k2.symm) (r1.trans r2.symm)

end Verif.Disco
