import Mathlib.Algebra.BigOperators.Group.List.Lemmas
import Mathlib.Data.List.Nodup
import Verif.Lemmas.DiscoSort
import Verif.Lemmas.Disco
/-!
The CPU kernels on a row-compressed filter.
-/
namespace Verif.Disco
open Verif Verif.Dist Verif.Spec Finset

variable {R : Type}

/-- A row-compressed filter: consecutive non-empty runs of constant (kernel, row) covering all `nnz` entries. -/
structure Runs (A : Csr R) (nnz : ℕ) : Prop where
  zero : A.roff 0 = 0
  last : A.roff A.nnr = nnz
  mono : ∀ i < A.nnr, A.roff i < A.roff (i + 1)
  key : ∀ i < A.nnr, ∀ z, A.roff i ≤ z → z < A.roff (i + 1) →
    (A.entry z).ker = (A.entry (A.roff i)).ker ∧ (A.entry z).row = (A.entry (A.roff i)).row

theorem Runs.mono_le {A : Csr R} {nnz : ℕ} (h : Runs A nnz) {i j : ℕ} (hij : i ≤ j) (hj : j ≤ A.nnr) : A.roff i ≤ A.roff j := by
  induction j with
  | zero => obtain rfl : i = 0 := by omega
            exact le_rfl
  | succ j ih =>
    by_cases h' : i = j + 1
    · rw [h']
    · exact (ih (by omega) (by omega)).trans (h.mono j (by omega)).le

section
variable [CommSemiring R]

/-- Sum over all entries, run by run. -/
theorem Runs.sum {A : Csr R} {nnz : ℕ} (h : Runs A nnz) (f : ℕ → R) (n : ℕ) (hn : n ≤ A.nnr) :
    ∑ i ∈ range n, ∑ z ∈ Ico (A.roff i) (A.roff (i + 1)), f z = ∑ z ∈ range (A.roff n), f z := by
  induction n with
  | zero => simp [h.zero]
  | succ n ih =>
    rw [sum_range_succ, ih (by omega), ← Nat.Ico_zero_eq_range, ← Nat.Ico_zero_eq_range,
      sum_Ico_consecutive _ (by omega) (h.mono n (by omega)).le]

theorem list_range'_sum (f : ℕ → R) (a n : ℕ) : ((List.range' a n).map f).sum = ∑ z ∈ Ico a (a + n), f z := by
  induction n with
  | zero => simp
  | succ n ih =>
    rw [List.range'_concat, List.map_append, List.sum_append, ih, ← Nat.add_assoc, sum_Ico_succ_top (by omega)]
    simp

omit [CommSemiring R] in
theorem doubled_mod (mem : ℕ → R) (Wi : ℕ) (r : ℕ → R) (q : ℕ) (h : q < 2 * Wi) : doubled mem Wi r q = r (q % Wi) := by
  unfold doubled
  split
  · rw [Nat.mod_eq_of_lt ‹_›]
  · rw [Nat.mod_eq_sub_mod (by omega), Nat.mod_eq_of_lt (by omega)]

/-- The inner loop of the forward kernel. -/
theorem fwd_fold (mem : ℕ → R) (x : ℕ → ℕ → R) (Wi Wo ps : ℕ) (hWi : Wi = ps * Wo) (l : List (Entry R)) (s : FwdState R)
    (hs : ∀ h, s.hiPrev = some h → s.sh = doubled mem Wi (x h)) (p : ℕ) (hp : p < Wo) (hps : 0 < ps) :
    (l.foldl (fwdEntry mem x Wi ps) s).out p
      = s.out p + (l.map fun e => e.val * x (e.col / Wi) ((e.col % Wi + p * ps) % Wi)).sum := by
  induction l generalizing s with
  | nil => simp
  | cons e l ih =>
    rw [List.foldl_cons, ih]
    · have hsh : (if s.hiPrev = some (e.col / Wi) then s.sh else doubled mem Wi (x (e.col / Wi)))
          = doubled mem Wi (x (e.col / Wi)) := by
        split
        · exact hs _ ‹_›
        · rfl
      have hpos : 0 < Wi := by rw [hWi]; exact Nat.mul_pos hps (by omega)
      have hlt : ps * p < Wi := by rw [hWi]; exact Nat.mul_lt_mul_of_pos_left hp hps
      have hm := Nat.mod_lt e.col hpos
      simp only [fwdEntry, hsh]
      rw [doubled_mod _ _ _ _ (by omega), List.map_cons, List.sum_cons, add_assoc, Nat.mul_comm ps p]
    · intro h hh
      simp only [fwdEntry, Option.some.injEq] at hh ⊢
      subst hh
      split
      · exact hs _ ‹_›
      · rfl

theorem fwdRow_val (mem sh0 : ℕ → R) (A : Csr R) (x : ℕ → ℕ → R) (Wi Wo ps : ℕ) (hWi : Wi = ps * Wo) (hps : 0 < ps)
    (out : ℕ → ℕ → ℕ → R) (row : ℕ) (h : A.roff row ≤ A.roff (row + 1)) (k t p : ℕ) (hp : p < Wo) :
    fwdRow mem sh0 A x Wi Wo ps out row k t p =
      if k = (A.entry (A.roff row)).ker ∧ t = (A.entry (A.roff row)).row then
        ∑ z ∈ Ico (A.roff row) (A.roff (row + 1)),
          (A.entry z).val * x ((A.entry z).col / Wi) (((A.entry z).col % Wi + p * ps) % Wi)
      else out k t p := by
  unfold fwdRow
  by_cases hk : k = (A.entry (A.roff row)).ker ∧ t = (A.entry (A.roff row)).row
  · rw [if_pos hk, if_pos ⟨hk.1, hk.2, hp⟩, fwd_fold mem x Wi Wo ps hWi _ _ (by intro h hh; cases hh) p hp hps]
    simp only [zero_add, List.map_map]
    rw [list_range'_sum, show A.roff row + (A.roff (row + 1) - A.roff row) = A.roff (row + 1) by omega]
    rfl
  · rw [if_neg hk, if_neg (fun hh => hk ⟨hh.1, hh.2.1⟩)]

/-- The forward kernel, for any order of the rows: with distinct keys every output row receives the sum of its entries. -/
theorem fwd_rows (mem : ℕ → R) (sh0 : ℕ → ℕ → R) (A : Csr R) (nnz : ℕ) (hA : Runs A nnz)
    (hdist : ∀ i < A.nnr, ∀ j < A.nnr, (A.entry (A.roff i)).ker = (A.entry (A.roff j)).ker →
      (A.entry (A.roff i)).row = (A.entry (A.roff j)).row → i = j)
    (x : ℕ → ℕ → R) (Wi Wo ps : ℕ) (hWi : Wi = ps * Wo) (hps : 0 < ps) (order : List ℕ) (ho : order.Perm (List.range A.nnr))
    (k t p : ℕ) (hp : p < Wo) :
    order.foldl (fun out row => fwdRow mem (sh0 row) A x Wi Wo ps out row) (fun _ _ _ => 0) k t p
      = ∑ z ∈ range nnz, if (A.entry z).ker = k ∧ (A.entry z).row = t then
          (A.entry z).val * x ((A.entry z).col / Wi) (((A.entry z).col % Wi + p * ps) % Wi) else 0 := by
  set F : ℕ → R := fun z => (A.entry z).val * x ((A.entry z).col / Wi) (((A.entry z).col % Wi + p * ps) % Wi) with hF
  set V : ℕ → R := fun i => if (A.entry (A.roff i)).ker = k ∧ (A.entry (A.roff i)).row = t then
      ∑ z ∈ Ico (A.roff i) (A.roff (i + 1)), F z else 0 with hV
  -- the right-hand side is the sum of V over the runs
  have hR : (∑ z ∈ range nnz, if (A.entry z).ker = k ∧ (A.entry z).row = t then F z else 0) = ∑ i ∈ range A.nnr, V i := by
    rw [← hA.last, ← hA.sum _ A.nnr le_rfl]
    refine sum_congr rfl fun i hi => ?_
    have hi := mem_range.1 hi
    simp only [hV]
    by_cases hk : (A.entry (A.roff i)).ker = k ∧ (A.entry (A.roff i)).row = t
    · rw [if_pos hk]
      refine sum_congr rfl fun z hz => ?_
      obtain ⟨h1, h2⟩ := mem_Ico.1 hz
      obtain ⟨e1, e2⟩ := hA.key i hi z h1 h2
      rw [if_pos ⟨e1.trans hk.1, e2.trans hk.2⟩]
    · rw [if_neg hk]
      refine sum_eq_zero fun z hz => ?_
      obtain ⟨h1, h2⟩ := mem_Ico.1 hz
      obtain ⟨e1, e2⟩ := hA.key i hi z h1 h2
      rw [if_neg]
      rintro ⟨g1, g2⟩
      exact hk ⟨e1.symm.trans g1, e2.symm.trans g2⟩
  rw [hR]
  -- the fold
  have hmem : ∀ i ∈ order, i < A.nnr := fun i hi => List.mem_range.1 (ho.mem_iff.1 hi)
  have hnd : order.Nodup := ho.nodup_iff.2 List.nodup_range
  have key : ∀ (l : List ℕ), l.Nodup → (∀ i ∈ l, i < A.nnr) →
      ∀ out : ℕ → ℕ → ℕ → R,
      l.foldl (fun out row => fwdRow mem (sh0 row) A x Wi Wo ps out row) out k t p
        = if ∃ i ∈ l, (A.entry (A.roff i)).ker = k ∧ (A.entry (A.roff i)).row = t then (l.map V).sum else out k t p := by
    intro l
    induction l with
    | nil => intro _ _ out; simp
    | cons i l ih =>
      intro hnd hm out
      rw [List.foldl_cons, ih (List.nodup_cons.1 hnd).2 (fun j hj => hm j (List.mem_cons_of_mem _ hj)) _]
      have hi := hm i (List.mem_cons_self ..)
      rw [fwdRow_val mem (sh0 i) A x Wi Wo ps hWi hps out i (hA.mono i hi).le k t p hp]
      by_cases hk : (A.entry (A.roff i)).ker = k ∧ (A.entry (A.roff i)).row = t
      · have hno : ¬ ∃ j ∈ l, (A.entry (A.roff j)).ker = k ∧ (A.entry (A.roff j)).row = t := by
          rintro ⟨j, hj, h1, h2⟩
          have := hdist i hi j (hm j (List.mem_cons_of_mem _ hj)) (hk.1.trans h1.symm) (hk.2.trans h2.symm)
          subst this
          exact (List.nodup_cons.1 hnd).1 hj
        have hz : (l.map V).sum = 0 := by
          apply List.sum_eq_zero
          intro v hv
          obtain ⟨j, hj, rfl⟩ := List.mem_map.1 hv
          simp only [hV]
          rw [if_neg]
          intro hh
          exact hno ⟨j, hj, hh⟩
        rw [if_neg hno, if_pos ⟨hk.1.symm, hk.2.symm⟩, if_pos ⟨i, List.mem_cons_self .., hk⟩, List.map_cons, List.sum_cons, hz, add_zero]
        simp only [hV]
        rw [if_pos hk]
      · have hvi : V i = 0 := by simp only [hV]; rw [if_neg hk]
        rw [if_neg (fun hh : k = _ ∧ t = _ => hk ⟨hh.1.symm, hh.2.symm⟩), List.map_cons, List.sum_cons, hvi, zero_add]
        have : (∃ j ∈ i :: l, (A.entry (A.roff j)).ker = k ∧ (A.entry (A.roff j)).row = t) ↔
            ∃ j ∈ l, (A.entry (A.roff j)).ker = k ∧ (A.entry (A.roff j)).row = t := by
          constructor
          · rintro ⟨j, hj, hh⟩
            rcases List.mem_cons.1 hj with rfl | hj
            · exact absurd hh hk
            · exact ⟨j, hj, hh⟩
          · rintro ⟨j, hj, hh⟩; exact ⟨j, List.mem_cons_of_mem _ hj, hh⟩
        simp only [this]
  rw [key order hnd hmem _]
  have hs : (order.map V).sum = ∑ i ∈ range A.nnr, V i := by
    rw [(ho.map V).sum_eq, ← List.sum_toFinset _ List.nodup_range, List.toFinset_range]
  split
  · exact hs
  · rename_i hno
    symm
    apply sum_eq_zero
    intro i hi
    simp only [hV]
    rw [if_neg]
    intro hh
    exact hno ⟨i, ho.mem_iff.2 (List.mem_range.2 (mem_range.1 hi)), hh⟩

/-- What the lane buffer still owes to column `p` of the current output row. -/
def pend (Wi ps : ℕ) (s : BwdState R) (p : ℕ) : R :=
  s.sh (p % ps * (2 * Wi) + p / ps) + s.sh (p % ps * (2 * Wi) + Wi + p / ps)

/-- Output including what is still in the buffer. -/
def owed (Wi ps : ℕ) (s : BwdState R) (h p : ℕ) : R :=
  s.out h p + if s.hoPrev = some h then pend Wi ps s p else 0

/-- The buffer is clean when no row is open. -/
def Clean (Wi ps : ℕ) (s : BwdState R) : Prop := s.hoPrev = none → ∀ q < ps * (2 * Wi), s.sh q = 0

theorem cell_lt {Wi ps p : ℕ} (hps : 0 < ps) (hp : p < Wi * ps) :
    p % ps * (2 * Wi) + p / ps < ps * (2 * Wi) ∧ p % ps * (2 * Wi) + Wi + p / ps < ps * (2 * Wi) := by
  have h1 := Nat.mod_lt p hps
  have h2 : p / ps < Wi := by
    apply Nat.div_lt_of_lt_mul; rw [Nat.mul_comm]; exact hp
  have h3 : (p % ps + 1) * (2 * Wi) ≤ ps * (2 * Wi) := Nat.mul_le_mul_right _ h1
  rw [Nat.add_mul, Nat.one_mul] at h3
  omega

theorem flush_owed (Wi ps : ℕ) (hps : 0 < ps) (s : BwdState R) (hc : Clean Wi ps s) (h p : ℕ) (hp : p < Wi * ps) :
    (flush Wi ps s).out h p = owed Wi ps s h p ∧ ∀ q < ps * (2 * Wi), (flush Wi ps s).sh q = 0 := by
  obtain ⟨c1, c2⟩ := cell_lt hps hp
  unfold flush owed
  cases hh : s.hoPrev with
  | none => simpa using hc hh
  | some h0 =>
    refine ⟨?_, ?_⟩
    · simp only [Option.some.injEq]
      by_cases he : h = h0
      · subst he
        simp [hp, pend]
      · rw [if_neg (fun hh => he hh.1), if_neg (Ne.symm he), add_zero]
    · intro q hq
      simp only [if_pos hq]

theorem mod_lane {ps Wi b a wi d c : ℕ} (ha : a < ps) (hc : c < ps) :
    (b * ps + a + wi * ps) % (Wi * ps) = d * ps + c ↔ a = c ∧ (b + wi) % Wi = d := by
  have e1 : (b * ps + a + wi * ps) % ps = a := by
    rw [show b * ps + a + wi * ps = a + (b + wi) * ps by ring, Nat.add_mul_mod_self_right, Nat.mod_eq_of_lt ha]
  have e2 : (b * ps + a + wi * ps) / ps = b + wi := by
    rw [show b * ps + a + wi * ps = a + (b + wi) * ps by ring, Nat.add_mul_div_right _ _ (by omega), Nat.div_eq_of_lt ha,
      Nat.zero_add]
  rw [Nat.mul_comm Wi ps, Nat.mod_mul, e1, e2]
  constructor
  · intro h
    have h1 := congrArg (· % ps) h
    have h2 := congrArg (· / ps) h
    rw [Nat.add_mul_mod_self_left, Nat.mod_eq_of_lt ha, show d * ps + c = c + d * ps by ring, Nat.add_mul_mod_self_right,
      Nat.mod_eq_of_lt hc] at h1
    rw [Nat.add_mul_div_left _ _ (by omega), Nat.div_eq_of_lt ha, show d * ps + c = c + d * ps by ring,
      Nat.add_mul_div_right _ _ (by omega), Nat.div_eq_of_lt hc] at h2
    exact ⟨h1, by omega⟩
  · rintro ⟨rfl, rfl⟩
    ring

theorem lane_aux (Wi a b c d : ℕ) (hb : b < Wi) (hd : d < Wi) (v : R) (g : ℕ → R) :
    (if a * (2 * Wi) + b ≤ c * (2 * Wi) + d ∧ c * (2 * Wi) + d < a * (2 * Wi) + b + Wi then
        v * g (c * (2 * Wi) + d - (a * (2 * Wi) + b)) else 0)
      + (if a * (2 * Wi) + b ≤ c * (2 * Wi) + Wi + d ∧ c * (2 * Wi) + Wi + d < a * (2 * Wi) + b + Wi then
        v * g (c * (2 * Wi) + Wi + d - (a * (2 * Wi) + b)) else 0)
      = ∑ wi ∈ range Wi, if a = c ∧ (b + wi) % Wi = d then v * g wi else 0 := by
  by_cases hac : a = c
  · subst hac
    simp only [true_and]
    generalize a * (2 * Wi) = X
    have hmod : ∀ wi < Wi, ((b + wi) % Wi = d ↔ b + wi = d ∨ b + wi = d + Wi) := by
      intro wi hwi
      by_cases hlt : b + wi < Wi
      · rw [Nat.mod_eq_of_lt hlt]; omega
      · rw [Nat.mod_eq_sub_mod (by omega), Nat.mod_eq_of_lt (by omega)]; omega
    by_cases hbd : b ≤ d
    · rw [if_pos (by omega), if_neg (by omega), add_zero, sum_eq_single (d - b)]
      · rw [if_pos ((hmod _ (by omega)).2 (by omega)), show X + d - (X + b) = d - b by omega]
      · intro wi hwi hne
        have hwi := mem_range.1 hwi
        rw [if_neg]
        intro hh
        have := (hmod wi hwi).1 hh
        omega
      · intro hh; exact absurd (mem_range.2 (by omega)) hh
    · rw [if_neg (by omega), if_pos (by omega), zero_add, sum_eq_single (d + Wi - b)]
      · rw [if_pos ((hmod _ (by omega)).2 (by omega)), show X + Wi + d - (X + b) = d + Wi - b by omega]
      · intro wi hwi hne
        have hwi := mem_range.1 hwi
        rw [if_neg]
        intro hh
        have := (hmod wi hwi).1 hh
        omega
      · intro hh; exact absurd (mem_range.2 (by omega)) hh
  · simp only [hac, false_and, if_false, sum_const_zero]
    have hsep : a * (2 * Wi) + 2 * Wi ≤ c * (2 * Wi) ∨ c * (2 * Wi) + 2 * Wi ≤ a * (2 * Wi) := by
      rcases Nat.lt_or_gt_of_ne hac with h | h
      · left
        have := Nat.mul_le_mul_right (2 * Wi) (show a + 1 ≤ c by omega)
        rwa [Nat.add_mul, Nat.one_mul] at this
      · right
        have := Nat.mul_le_mul_right (2 * Wi) (show c + 1 ≤ a by omega)
        rwa [Nat.add_mul, Nat.one_mul] at this
    rw [if_neg (by omega), if_neg (by omega), add_zero]

/-- The lane write contributes to column `p` the input columns `wi` that the entry moves to `p`. -/
theorem lane_sum (Wi ps wo p : ℕ) (hps : 0 < ps) (hwo : wo < Wi * ps) (hp : p < Wi * ps) (v : R) (g : ℕ → R) :
    (if wo % ps * (2 * Wi) + wo / ps ≤ p % ps * (2 * Wi) + p / ps ∧
        p % ps * (2 * Wi) + p / ps < wo % ps * (2 * Wi) + wo / ps + Wi then
        v * g (p % ps * (2 * Wi) + p / ps - (wo % ps * (2 * Wi) + wo / ps)) else 0)
      + (if wo % ps * (2 * Wi) + wo / ps ≤ p % ps * (2 * Wi) + Wi + p / ps ∧
        p % ps * (2 * Wi) + Wi + p / ps < wo % ps * (2 * Wi) + wo / ps + Wi then
        v * g (p % ps * (2 * Wi) + Wi + p / ps - (wo % ps * (2 * Wi) + wo / ps)) else 0)
      = ∑ wi ∈ range Wi, if (wo + wi * ps) % (Wi * ps) = p then v * g wi else 0 := by
  have ha := Nat.mod_lt wo hps
  have hc := Nat.mod_lt p hps
  have hb : wo / ps < Wi := by apply Nat.div_lt_of_lt_mul; rw [Nat.mul_comm]; exact hwo
  have hd : p / ps < Wi := by apply Nat.div_lt_of_lt_mul; rw [Nat.mul_comm]; exact hp
  have hcond : ∀ wi, (wo + wi * ps) % (Wi * ps) = p ↔ wo % ps = p % ps ∧ (wo / ps + wi) % Wi = p / ps := by
    intro wi
    have e := mod_lane (ps := ps) (Wi := Wi) (b := wo / ps) (wi := wi) (d := p / ps) ha hc
    rwa [Nat.div_add_mod', Nat.div_add_mod'] at e
  simp only [hcond]
  exact lane_aux Wi (wo % ps) (wo / ps) (p % ps) (p / ps) hb hd v g

/-- Contribution of one entry to output cell `(h, p)`. -/
def bwdTerm (g : ℕ → R) (Wi Wo ps : ℕ) (e : Entry R) (h p : ℕ) : R :=
  if e.col / Wo = h then ∑ wi ∈ range Wi, if (e.col % Wo + wi * ps) % Wo = p then e.val * g wi else 0 else 0

theorem bwdEntry_owed (g : ℕ → R) (Wi Wo ps : ℕ) (hWo : Wo = Wi * ps) (hps : 0 < ps) (hWi : 0 < Wi) (s : BwdState R)
    (hc : Clean Wi ps s) (e : Entry R) (h p : ℕ) (hp : p < Wo) :
    owed Wi ps (bwdEntry g Wi Wo ps s e) h p = owed Wi ps s h p + bwdTerm g Wi Wo ps e h p ∧
      Clean Wi ps (bwdEntry g Wi Wo ps s e) := by
  have hpos : 0 < Wo := by rw [hWo]; exact Nat.mul_pos hWi hps
  have hwo := Nat.mod_lt e.col hpos
  have hp' : p < Wi * ps := by rwa [← hWo]
  -- the state with the right row open
  set s1 := if s.hoPrev = some (e.col / Wo) then s else { flush Wi ps s with hoPrev := some (e.col / Wo) } with hs1
  have h1 : s1.hoPrev = some (e.col / Wo) := by
    rw [hs1]; split
    · assumption
    · rfl
  have h2 : owed Wi ps s1 h p = owed Wi ps s h p := by
    rw [hs1]; split
    · rfl
    · obtain ⟨f1, f2⟩ := flush_owed Wi ps hps s hc h p hp'
      obtain ⟨c1, c2⟩ := cell_lt hps hp'
      unfold owed
      simp only
      rw [f1]
      have : pend Wi ps { flush Wi ps s with hoPrev := some (e.col / Wo) } p = 0 := by
        unfold pend
        simp only [f2 _ c1, f2 _ c2, add_zero]
      rw [this]
      simp [owed]
  have hst : bwdEntry g Wi Wo ps s e = ⟨s1.hoPrev, (fun q =>
      if e.col % Wo % ps * (2 * Wi) + e.col % Wo / ps ≤ q ∧ q < e.col % Wo % ps * (2 * Wi) + e.col % Wo / ps + Wi
      then s1.sh q + e.val * g (q - (e.col % Wo % ps * (2 * Wi) + e.col % Wo / ps)) else s1.sh q), s1.out⟩ := by
    rw [hs1]; rfl
  refine ⟨?_, ?_⟩
  · rw [← h2, hst]
    unfold owed bwdTerm
    simp only [h1, Option.some.injEq]
    by_cases hh : e.col / Wo = h
    · simp only [if_pos hh]
      have hl := lane_sum Wi ps (e.col % Wo) p hps (by rwa [← hWo]) hp' e.val g
      rw [← hWo] at hl
      rw [← hl]
      unfold pend
      simp only
      split <;> split <;> ring
    · simp only [if_neg hh, add_zero]
  · intro hn
    rw [hst] at hn
    simp only [h1] at hn
    cases hn

theorem bwd_fold (g : ℕ → R) (Wi Wo ps : ℕ) (hWo : Wo = Wi * ps) (hps : 0 < ps) (hWi : 0 < Wi) (l : List (Entry R))
    (s : BwdState R) (hc : Clean Wi ps s) :
    Clean Wi ps (l.foldl (bwdEntry g Wi Wo ps) s) ∧ ∀ h, ∀ p < Wo,
      owed Wi ps (l.foldl (bwdEntry g Wi Wo ps) s) h p = owed Wi ps s h p + (l.map fun e => bwdTerm g Wi Wo ps e h p).sum := by
  induction l generalizing s with
  | nil => exact ⟨hc, fun h p _ => by simp⟩
  | cons e l ih =>
    have hc' := (bwdEntry_owed g Wi Wo ps hWo hps hWi s hc e 0 0 (by rw [hWo]; exact Nat.mul_pos hWi hps)).2
    obtain ⟨i1, i2⟩ := ih _ hc'
    refine ⟨i1, fun h p hp => ?_⟩
    rw [List.foldl_cons, i2 h p hp, (bwdEntry_owed g Wi Wo ps hWo hps hWi s hc e h p hp).1, List.map_cons, List.sum_cons, add_assoc]

/-- The backward kernel on one plane, started with a clean buffer: the transposed sum, and a clean buffer again. -/
theorem cpuBackward_value (sh : ℕ → R) (A : Csr R) (nnz : ℕ) (hA : Runs A nnz) (g : Ten R) (Ho Wo : ℕ)
    (hsh : ∀ q < 2 * Wo, sh q = 0) (hWi : 0 < g.d2) (hd : g.d2 ∣ Wo) (hWo : 0 < Wo) :
    ∃ z sh', cpuBackward sh A g Ho Wo = .ok (z, sh') ∧ z.d0 = Ho ∧ z.d1 = Wo ∧ (∀ q < 2 * Wo, sh' q = 0) ∧
      ∀ h, ∀ p < Wo, z.val h p = ∑ i ∈ range nnz, bwdTerm (g.val (A.entry i).ker (A.entry i).row) g.d2 Wo (Wo / g.d2) (A.entry i) h p := by
  set ps := Wo / g.d2 with hps'
  have hps : 0 < ps := Nat.div_pos (Nat.le_of_dvd hWo hd) hWi
  have hWe : Wo = g.d2 * ps := (Nat.mul_div_cancel' hd).symm
  have h2 : ps * (2 * g.d2) = 2 * Wo := by rw [hWe]; ring
  have hrow : ∀ n ≤ A.nnr, Clean g.d2 ps ((List.range n).foldl (bwdRow A g.val g.d2 Wo ps) ⟨none, sh, fun _ _ => 0⟩) ∧
      ∀ h, ∀ p < Wo, owed g.d2 ps ((List.range n).foldl (bwdRow A g.val g.d2 Wo ps) ⟨none, sh, fun _ _ => 0⟩) h p
        = ∑ i ∈ range n, ∑ z ∈ Ico (A.roff i) (A.roff (i + 1)),
            bwdTerm (g.val (A.entry z).ker (A.entry z).row) g.d2 Wo ps (A.entry z) h p := by
    intro n hn
    induction n with
    | zero =>
      refine ⟨fun _ q hq => hsh q (by omega), fun h p hp => ?_⟩
      simp [owed]
    | succ n ih =>
      obtain ⟨i1, i2⟩ := ih (by omega)
      rw [List.range_succ, List.foldl_append, List.foldl_cons, List.foldl_nil]
      generalize (List.range n).foldl (bwdRow A g.val g.d2 Wo ps) ⟨none, sh, fun _ _ => 0⟩ = s at i1 i2
      obtain ⟨j1, j2⟩ := bwd_fold (g.val (A.entry (A.roff n)).ker (A.entry (A.roff n)).row) g.d2 Wo ps hWe hps hWi
        ((List.range' (A.roff n) (A.roff (n + 1) - A.roff n)).map A.entry) s i1
      refine ⟨j1, fun h p hp => ?_⟩
      rw [sum_range_succ, ← i2 h p hp]
      unfold bwdRow
      rw [j2 h p hp, List.map_map]
      congr 1
      have hm := (hA.mono n (by omega)).le
      rw [list_range'_sum, show A.roff n + (A.roff (n + 1) - A.roff n) = A.roff (n + 1) by omega]
      refine sum_congr rfl fun z hz => ?_
      obtain ⟨z1, z2⟩ := mem_Ico.1 hz
      obtain ⟨k1, k2⟩ := hA.key n (by omega) z z1 z2
      simp only [Function.comp, k1, k2]
  obtain ⟨c, v⟩ := hrow A.nnr le_rfl
  unfold cpuBackward
  rw [if_neg (by omega), if_neg (by simp [Nat.mod_eq_zero_of_dvd hd])]
  refine ⟨_, _, rfl, rfl, rfl, ?_, ?_⟩
  · intro q hq
    exact (flush_owed g.d2 ps hps _ c 0 0 (by omega)).2 q (by omega)
  · intro h p hp
    simp only
    rw [(flush_owed g.d2 ps hps _ c h p (by omega)).1, v h p hp, ← hA.last]
    exact hA.sum _ A.nnr le_rfl

end
end Verif.Disco
