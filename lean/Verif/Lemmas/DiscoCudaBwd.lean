import Verif.Lemmas.DiscoCuda
/-!
The backward GPU kernel: what the atomic additions of a block add up to.
-/
namespace Verif.Disco
open Verif Verif.Dist Verif.Spec Finset

variable {R : Type} [CommSemiring R]

/-- What a list of additions contributes to cell `q`. -/
def addsAt (l : List (ℕ × R)) (q : ℕ) : R := (l.map fun a => if a.1 = q then a.2 else 0).sum

theorem addsAt_append (l l' : List (ℕ × R)) (q : ℕ) : addsAt (l ++ l') q = addsAt l q + addsAt l' q := by
  unfold addsAt
  rw [List.map_append, List.sum_append]

theorem addsAt_perm {l l' : List (ℕ × R)} (h : l.Perm l') (q : ℕ) : addsAt l q = addsAt l' q := (h.map _).sum_eq

/-- Additions inside the array take effect in any order. -/
theorem atomicAddTo_fold (size : ℕ) (l : List (ℕ × R)) (hl : ∀ a ∈ l, a.1 < size) (out : ℕ → R) :
    ∃ out', l.foldlM (atomicAddTo size) out = .ok out' ∧ ∀ q, out' q = out q + addsAt l q := by
  induction l generalizing out with
  | nil => exact ⟨out, rfl, fun q => by simp [addsAt]⟩
  | cons a l ih =>
    obtain ⟨out', h1, h2⟩ := ih (fun b hb => hl b (List.mem_cons_of_mem _ hb)) (Function.update out a.1 (out a.1 + a.2))
    refine ⟨out', ?_, fun q => ?_⟩
    · rw [List.foldlM_cons]
      unfold atomicAddTo
      rw [if_pos (hl a (List.mem_cons_self ..))]
      exact h1
    · rw [h2 q]
      unfold addsAt
      rw [List.map_cons, List.sum_cons, ← add_assoc]
      congr 1
      by_cases hq : a.1 = q
      · subst hq
        rw [Function.update_self, if_pos rfl]
      · rw [Function.update_of_ne (Ne.symm hq), if_neg hq, add_zero]

/-- A flush adds the two cells of the lane to each column of the row. -/
theorem addsAt_flush (B Wi Wo ps h h' p : ℕ) (sh : ℕ → ℕ → R) (hB : 0 < B) (hWo : Wo = Wi * ps) (hps : 0 < ps) (hp : p < Wo) :
    addsAt (gbwdAdds B Wi Wo ps h sh) (h' * Wo + p) = if h = h' then sh (p % ps) (p / ps) + sh (p % ps) (Wi + p / ps) else 0 := by
  have hinner : ∀ i < ps, addsAt ((allStrided B Wi).map fun j => (h * Wo + j * ps + i, sh i j + sh i (Wi + j))) (h' * Wo + p)
      = ∑ j ∈ range Wi, if h * Wo + j * ps + i = h' * Wo + p then sh i j + sh i (Wi + j) else 0 := by
    intro i _
    rw [addsAt_perm ((allStrided_perm hB Wi).map _)]
    unfold addsAt
    rw [List.map_map, ← List.sum_toFinset _ List.nodup_range, List.toFinset_range]
    rfl
  have hall : addsAt (gbwdAdds B Wi Wo ps h sh) (h' * Wo + p)
      = ∑ i ∈ range ps, ∑ j ∈ range Wi, if h * Wo + j * ps + i = h' * Wo + p then sh i j + sh i (Wi + j) else 0 := by
    have : ∀ n ≤ ps, addsAt ((List.range n).flatMap fun i => (allStrided B Wi).map fun j => (h * Wo + j * ps + i, sh i j + sh i (Wi + j)))
        (h' * Wo + p)
        = ∑ i ∈ range n, ∑ j ∈ range Wi, if h * Wo + j * ps + i = h' * Wo + p then sh i j + sh i (Wi + j) else 0 := by
      intro n hn
      induction n with
      | zero => simp [addsAt]
      | succ n ih =>
        rw [List.range_succ, List.flatMap_append, addsAt_append, ih (by omega), sum_range_succ, List.flatMap_cons, List.flatMap_nil,
          List.append_nil, hinner n (by omega)]
    exact this ps le_rfl
  rw [hall]
  have hcell : ∀ i < ps, ∀ j < Wi, (h * Wo + j * ps + i = h' * Wo + p ↔ h = h' ∧ i = p % ps ∧ j = p / ps) := by
    intro i hi j hj
    have hlt : j * ps + i < Wo := by
      have := Nat.mul_le_mul_right ps (show j + 1 ≤ Wi by omega)
      rw [Nat.add_mul, Nat.one_mul, ← hWo] at this
      omega
    constructor
    · intro he
      have hh : h = h' := by
        have e1 : (h * Wo + (j * ps + i)) / Wo = h := by
          rw [Nat.mul_comm, Nat.mul_add_div (by omega), Nat.div_eq_of_lt hlt, Nat.add_zero]
        have e2 : (h' * Wo + p) / Wo = h' := by
          rw [Nat.mul_comm, Nat.mul_add_div (by omega), Nat.div_eq_of_lt hp, Nat.add_zero]
        rw [← e1, ← e2, ← he, Nat.add_assoc]
      subst hh
      have e : p = j * ps + i := by omega
      refine ⟨rfl, ?_, ?_⟩
      · rw [e, Nat.mul_comm, Nat.mul_add_mod, Nat.mod_eq_of_lt hi]
      · rw [e, Nat.mul_comm, Nat.mul_add_div hps, Nat.div_eq_of_lt hi, Nat.add_zero]
    · rintro ⟨rfl, rfl, rfl⟩
      have := Nat.div_add_mod' p ps
      omega
  have hd : p / ps < Wi := Nat.div_lt_of_lt_mul (by rw [Nat.mul_comm, ← hWo]; exact hp)
  by_cases hh : h = h'
  · rw [if_pos hh, sum_eq_single (p % ps), sum_eq_single (p / ps)]
    · rw [if_pos ((hcell _ (Nat.mod_lt _ hps) _ hd).2 ⟨hh, rfl, rfl⟩)]
    · intro j hj hne
      rw [if_neg]
      intro he
      exact hne ((hcell _ (Nat.mod_lt _ hps) _ (mem_range.1 hj)).1 he).2.2
    · intro hn; exact absurd (mem_range.2 hd) hn
    · intro i hi hne
      apply sum_eq_zero
      intro j hj
      rw [if_neg]
      intro he
      exact hne ((hcell _ (mem_range.1 hi) _ (mem_range.1 hj)).1 he).2.1
    · intro hn; exact absurd (mem_range.2 (Nat.mod_lt _ hps)) hn
  · rw [if_neg hh]
    apply sum_eq_zero
    intro i hi
    apply sum_eq_zero
    intro j hj
    rw [if_neg]
    intro he
    exact hh ((hcell _ (mem_range.1 hi) _ (mem_range.1 hj)).1 he).1

theorem gbwdAdds_bound (B Wi Wo ps h Ho : ℕ) (sh : ℕ → ℕ → R) (hB : 0 < B) (hWo : Wo = Wi * ps) (hh : h < Ho) :
    ∀ a ∈ gbwdAdds B Wi Wo ps h sh, a.1 < Ho * Wo := by
  intro a ha
  obtain ⟨i, hi, ha⟩ := List.mem_flatMap.1 ha
  obtain ⟨j, hj, rfl⟩ := List.mem_map.1 ha
  have hi := List.mem_range.1 hi
  have hj := List.mem_range.1 ((allStrided_perm hB Wi).mem_iff.1 hj)
  dsimp only
  have h1 := Nat.mul_le_mul_right ps (show j + 1 ≤ Wi by omega)
  rw [Nat.add_mul, Nat.one_mul, ← hWo] at h1
  have h2 := Nat.mul_le_mul_right Wo (show h + 1 ≤ Ho by omega)
  rw [Nat.add_mul, Nat.one_mul] at h2
  omega

/-- The cells after all threads have added their products, in any order. -/
theorem accum_fold (lane base : ℕ) (v : R) (reg : ℕ → R) (ord : List ℕ) (hnd : ord.Nodup) (sh : ℕ → ℕ → R) (l j : ℕ) :
    ord.foldl (fun (sh : ℕ → ℕ → R) pp => Function.update sh lane (Function.update (sh lane) (base + pp) (sh lane (base + pp) + v * reg pp))) sh l j
      = sh l j + if l = lane ∧ base ≤ j ∧ j - base ∈ ord then v * reg (j - base) else 0 := by
  induction ord generalizing sh with
  | nil => simp
  | cons pp ord ih =>
    rw [List.nodup_cons] at hnd
    rw [List.foldl_cons, ih hnd.2]
    by_cases hl : l = lane
    · subst hl
      rw [Function.update_self]
      simp only [true_and]
      by_cases hj : base ≤ j ∧ j - base = pp
      · obtain rfl : j = base + pp := by omega
        rw [Function.update_self, if_neg, if_pos, add_zero, Nat.add_sub_cancel_left]
        · exact ⟨by omega, by rw [Nat.add_sub_cancel_left]; exact List.mem_cons_self ..⟩
        · rw [Nat.add_sub_cancel_left]
          exact fun hh => hnd.1 hh.2
      · rw [Function.update_of_ne (by omega)]
        congr 1
        have : (base ≤ j ∧ j - base ∈ ord) ↔ (base ≤ j ∧ j - base ∈ pp :: ord) := by
          rw [List.mem_cons]
          constructor
          · exact fun h => ⟨h.1, .inr h.2⟩
          · rintro ⟨h1, h2 | h2⟩
            · exact absurd ⟨h1, h2⟩ hj
            · exact ⟨h1, h2⟩
        simp only [this]
    · rw [Function.update_of_ne hl, if_neg (fun h => hl h.1), if_neg (fun h => hl h.1)]

/-- The two cells of a lane after the additions of one entry. -/
theorem lane_cell (N Wi b d : ℕ) (hb : b < Wi) (hd : d < Wi) (hN : Wi ≤ N) (v : R) (g : ℕ → R) :
    (if b ≤ d ∧ d - b < N then v * (if d - b < Wi then g (d - b) else 0) else 0)
      + (if b ≤ Wi + d ∧ Wi + d - b < N then v * (if Wi + d - b < Wi then g (Wi + d - b) else 0) else 0)
      = ∑ wi ∈ range Wi, if (b + wi) % Wi = d then v * g wi else 0 := by
  have hx := lane_aux Wi 0 b 0 d hb hd v g
  simp only [Nat.zero_mul, Nat.zero_add, true_and] at hx
  rw [← hx]
  congr 1
  · by_cases h1 : b ≤ d
    · rw [if_pos ⟨h1, by omega⟩, if_pos (by omega), if_pos ⟨h1, by omega⟩]
    · rw [if_neg (fun h => h1 h.1), if_neg (fun h => h1 h.1)]
  · by_cases h1 : Wi + d - b < Wi
    · rw [if_pos ⟨by omega, by omega⟩, if_pos h1, if_pos ⟨by omega, by omega⟩]
    · rw [if_neg h1, mul_zero, ite_self, if_neg (by omega)]

/-- What the block has added to, or still holds for, output cell `(h, p)`. -/
def gowed (Wi Wo ps : ℕ) (s : GBwd R) (h p : ℕ) : R :=
  addsAt s.adds (h * Wo + p) + if s.hPrev = h then s.sh (p % ps) (p / ps) + s.sh (p % ps) (Wi + p / ps) else 0

structure GBwdInv (Ho Wo : ℕ) (s : GBwd R) : Prop where
  h : s.hPrev = s.colPrev / Wo
  w : s.wPrev = s.colPrev % Wo
  lt : s.hPrev < Ho
  adds : ∀ a ∈ s.adds, a.1 < Ho * Wo

theorem gbwdRefresh_ok (N B Wi Wo ps Ho : ℕ) (hB : 0 < B) (hWo : Wo = Wi * ps) (hps : 0 < ps) (hWi : 0 < Wi) (hN : Wi ≤ N) (s : GBwd R)
    (hi : GBwdInv Ho Wo s) (col : ℕ) (hcol : s.hPrev ≤ col / Wo) (hlt : col / Wo < Ho) :
    ∃ s', gbwdRefresh N B Wi Wo ps s col = .ok s' ∧ GBwdInv Ho Wo s' ∧ s'.hPrev = col / Wo ∧
      ∀ h, ∀ p < Wo, gowed Wi Wo ps s' h p = gowed Wi Wo ps s h p := by
  have hpos : 0 < Wo := by rw [hWo]; exact Nat.mul_pos hWi hps
  unfold gbwdRefresh
  have hm := Nat.div_add_mod s.colPrev Wo
  have hm' := Nat.div_add_mod col Wo
  have hl := Nat.mod_lt col hpos
  rw [← hi.h, ← hi.w] at hm
  split
  · rw [if_neg (by omega)]
    refine ⟨_, rfl, ⟨rfl, rfl, hlt, ?_⟩, rfl, fun h p hp => ?_⟩
    · intro a ha
      rcases List.mem_append.1 ha with ha | ha
      · exact hi.adds a ha
      · exact gbwdAdds_bound B Wi Wo ps s.hPrev Ho s.sh hB hWo hi.lt a ha
    · have hd : p / ps < Wi := Nat.div_lt_of_lt_mul (by rw [Nat.mul_comm, ← hWo]; exact hp)
      have hc := Nat.mod_lt p hps
      unfold gowed
      dsimp only
      rw [addsAt_append, addsAt_flush B Wi Wo ps s.hPrev h p s.sh hB hWo hps hp]
      simp only [hc, show p / ps < 2 * Wi by omega, show Wi + p / ps < 2 * Wi by omega, and_self, if_true, add_zero, ite_self]
  · rename_i hc
    refine ⟨s, rfl, hi, ?_, fun _ _ _ => rfl⟩
    have h1 : Wo * (col / Wo) < Wo * (s.hPrev + 1) := by
      rw [Nat.mul_add, Nat.mul_one]
      have : (col : ℤ) < (s.colPrev : ℤ) - s.wPrev + Wo := by omega
      omega
    have := Nat.lt_of_mul_lt_mul_left h1
    omega

theorem gbwdAccum_ok (N Wi Wo ps Ho : ℕ) (ord : List ℕ) (g : ℕ → R) (hWo : Wo = Wi * ps) (hps : 0 < ps) (hWi : 0 < Wi)
    (hN : Wi ≤ N) (ho : ord.Perm (List.range N)) (s : GBwd R) (hi : GBwdInv Ho Wo s) (e : Entry R) (he : s.hPrev = e.col / Wo) :
    ∃ s', gbwdAccum N ps ord (fun pp => if pp < Wi then g pp else 0) s e = .ok s' ∧ GBwdInv Ho Wo s' ∧ s'.hPrev = s.hPrev ∧
      ∀ h, ∀ p < Wo, gowed Wi Wo ps s' h p = gowed Wi Wo ps s h p + bwdTerm g Wi Wo ps e h p := by
  have hpos : 0 < Wo := by rw [hWo]; exact Nat.mul_pos hWi hps
  have hm := Nat.div_add_mod s.colPrev Wo
  have hm' := Nat.div_add_mod e.col Wo
  have hlt := Nat.mod_lt e.col hpos
  rw [← hi.h, ← hi.w, he] at hm
  have hw : (s.wPrev : ℤ) + ((e.col : ℤ) - s.colPrev) = ((e.col % Wo : ℕ) : ℤ) := by omega
  have hb : e.col % Wo / ps < Wi := Nat.div_lt_of_lt_mul (by rw [Nat.mul_comm, ← hWo]; exact hlt)
  unfold gbwdAccum
  simp only [hw, Int.toNat_natCast]
  rw [if_neg (by omega), if_pos (fun pp hpp => by omega)]
  refine ⟨_, rfl, ⟨hi.h, hi.w, hi.lt, hi.adds⟩, rfl, fun h p hp => ?_⟩
  have hd : p / ps < Wi := Nat.div_lt_of_lt_mul (by rw [Nat.mul_comm, ← hWo]; exact hp)
  have hc := Nat.mod_lt p hps
  have ha := Nat.mod_lt (e.col % Wo) hps
  unfold gowed bwdTerm
  dsimp only
  rw [he]
  by_cases hh : e.col / Wo = h
  · rw [if_pos hh, if_pos hh, if_pos hh]
    have hnd : ord.Nodup := ho.nodup_iff.2 List.nodup_range
    rw [accum_fold _ _ _ _ ord hnd, accum_fold _ _ _ _ ord hnd]
    have hcond : ∀ wi, (e.col % Wo + wi * ps) % Wo = p ↔ e.col % Wo % ps = p % ps ∧ (e.col % Wo / ps + wi) % Wi = p / ps := by
      intro wi
      have h1 := mod_lane (ps := ps) (Wi := Wi) (b := e.col % Wo / ps) (wi := wi) (d := p / ps) ha hc
      rwa [Nat.div_add_mod', Nat.div_add_mod', ← hWo] at h1
    simp only [hcond, ho.mem_iff, List.mem_range]
    by_cases hl : e.col % Wo % ps = p % ps
    · simp only [hl, true_and]
      rw [← lane_cell N Wi _ _ hb hd hN e.val g]
      ring
    · have hl' : ¬ p % ps = e.col % Wo % ps := fun h => hl h.symm
      simp only [hl, hl', false_and, if_false, sum_const_zero, add_zero]
  · rw [if_neg hh, if_neg hh, if_neg hh, add_zero, add_zero]

theorem gbwd_fold (N B Wi Wo ps Ho : ℕ) (sched : ℕ → List ℕ) (g : ℕ → R) (hB : 0 < B) (hWo : Wo = Wi * ps) (hps : 0 < ps) (hWi : 0 < Wi)
    (hN : Wi ≤ N) (hsched : ∀ c, (sched c).Perm (List.range N)) (l : List (Entry R))
    (hl : l.Pairwise (fun a b => a.col / Wo ≤ b.col / Wo)) (s : GBwd R) (hi : GBwdInv Ho Wo s) (hle : ∀ e ∈ l, s.hPrev ≤ e.col / Wo)
    (hlt : ∀ e ∈ l, e.col / Wo < Ho) :
    ∃ s', l.foldlM (gbwdEntry N B Wi Wo ps sched (fun pp => if pp < Wi then g pp else 0)) s = .ok s' ∧ GBwdInv Ho Wo s' ∧
      ∀ h, ∀ p < Wo, gowed Wi Wo ps s' h p = gowed Wi Wo ps s h p + (l.map fun e => bwdTerm g Wi Wo ps e h p).sum := by
  induction l generalizing s with
  | nil => exact ⟨s, rfl, hi, fun h p _ => by simp⟩
  | cons e l ih =>
    rw [List.pairwise_cons] at hl
    obtain ⟨s1, a1, a2, a3, a4⟩ := gbwdRefresh_ok N B Wi Wo ps Ho hB hWo hps hWi hN s hi e.col (hle e (List.mem_cons_self ..))
      (hlt e (List.mem_cons_self ..))
    obtain ⟨s2, b1, b2, b3, b4⟩ := gbwdAccum_ok N Wi Wo ps Ho (sched s1.steps) g hWo hps hWi hN (hsched _) s1 a2 e a3
    have hstep : gbwdEntry N B Wi Wo ps sched (fun pp => if pp < Wi then g pp else 0) s e = .ok s2 := by
      unfold gbwdEntry
      rw [a1]
      exact b1
    obtain ⟨s', c1, c2, c3⟩ := ih hl.2 s2 b2 (fun e' he' => by rw [b3, a3]; exact hl.1 e' he')
      (fun e' he' => hlt e' (List.mem_cons_of_mem _ he'))
    refine ⟨s', ?_, c2, fun h p hp => ?_⟩
    · rw [List.foldlM_cons, hstep]
      exact c1
    · rw [c3 h p hp, b4 h p hp, a4 h p hp, List.map_cons, List.sum_cons, add_assoc]

/-- One block: its additions sum to the contributions of its row, all inside the output. -/
theorem gbwdBlock_ok (B E Wi Wo ps Ho : ℕ) (junk : ℕ → ℕ → R) (sched : ℕ → List ℕ) (A : Csr R) (g : ℕ → ℕ → ℕ → R) (hB : 0 < B)
    (hWo : Wo = Wi * ps) (hps : 0 < ps) (hWi : 0 < Wi) (hN : Wi ≤ B * E) (hsched : ∀ c, (sched c).Perm (List.range (B * E)))
    (hlat : LatRuns A Wo) (row : ℕ) (hr : row < A.nnr) (hne : A.roff row < A.roff (row + 1))
    (hlt : ∀ z, A.roff row ≤ z → z < A.roff (row + 1) → (A.entry z).col / Wo < Ho)
    (hkey : ∀ z, A.roff row ≤ z → z < A.roff (row + 1) →
      (A.entry z).ker = (A.entry (A.roff row)).ker ∧ (A.entry z).row = (A.entry (A.roff row)).row) :
    ∃ l, gbwdBlock B E junk sched A g Wi Wo ps row = .ok l ∧ (∀ a ∈ l, a.1 < Ho * Wo) ∧
      ∀ h, ∀ p < Wo, addsAt l (h * Wo + p) = ∑ z ∈ Ico (A.roff row) (A.roff (row + 1)),
        bwdTerm (g (A.entry z).ker (A.entry z).row) Wi Wo ps (A.entry z) h p := by
  have hpw := latRuns_pairwise hlat hr
  have hall : ∀ e ∈ (List.range' (A.roff row) (A.roff (row + 1) - A.roff row)).map A.entry,
      (A.entry (A.roff row)).col / Wo ≤ e.col / Wo := by
    intro e he
    rw [run_cons hne] at hpw he
    rcases List.mem_cons.1 he with rfl | he
    · exact le_rfl
    · exact (List.pairwise_cons.1 hpw).1 e he
  have hall2 : ∀ e ∈ (List.range' (A.roff row) (A.roff (row + 1) - A.roff row)).map A.entry, e.col / Wo < Ho := by
    intro e he
    obtain ⟨z, hz, rfl⟩ := List.mem_map.1 he
    rw [List.mem_range'_1] at hz
    exact hlt z hz.1 (by omega)
  obtain ⟨s', c1, c2, c3⟩ := gbwd_fold (B * E) B Wi Wo ps Ho sched (g (A.entry (A.roff row)).ker (A.entry (A.roff row)).row) hB hWo hps hWi hN
    hsched _ hpw
    (⟨(A.entry (A.roff row)).col, (A.entry (A.roff row)).col / Wo, (A.entry (A.roff row)).col % Wo, 0,
      fun i j => if i < ps ∧ j < 2 * (B * E) then 0 else junk i j, []⟩ : GBwd R)
    ⟨rfl, rfl, hlt _ le_rfl hne, by intro a ha; cases ha⟩ hall hall2
  refine ⟨s'.adds ++ gbwdAdds B Wi Wo ps s'.hPrev s'.sh, ?_, ?_, ?_⟩
  · unfold gbwdBlock
    dsimp only
    rw [c1]
    dsimp only
    rw [if_neg (by omega)]
  · intro a ha
    rcases List.mem_append.1 ha with ha | ha
    · exact c2.adds a ha
    · exact gbwdAdds_bound B Wi Wo ps s'.hPrev Ho s'.sh hB hWo c2.lt a ha
  · intro h p hp
    have hd : p / ps < Wi := Nat.div_lt_of_lt_mul (by rw [Nat.mul_comm, ← hWo]; exact hp)
    have hc := Nat.mod_lt p hps
    rw [addsAt_append, addsAt_flush B Wi Wo ps s'.hPrev h p s'.sh hB hWo hps hp]
    have := c3 h p hp
    unfold gowed at this
    rw [this]
    dsimp only
    simp only [hc, show p / ps < 2 * (B * E) by omega, show Wi + p / ps < 2 * (B * E) by omega, and_self, if_true, add_zero, ite_self]
    rw [List.map_map, list_range'_sum]
    rw [show addsAt ([] : List (ℕ × R)) (h * Wo + p) = 0 from rfl, zero_add, Nat.add_sub_cancel' hne.le]
    refine sum_congr rfl fun z hz => ?_
    rw [mem_Ico] at hz
    obtain ⟨k1, k2⟩ := hkey z hz.1 hz.2
    rw [Function.comp_apply, k1, k2]

theorem gbwdAll_ok (B E Wi Wo ps Ho : ℕ) (junk : ℕ → ℕ → ℕ → R) (sched : ℕ → ℕ → List ℕ) (A : Csr R) (nnz : ℕ) (hA : Runs A nnz)
    (g : ℕ → ℕ → ℕ → R) (hB : 0 < B) (hWo : Wo = Wi * ps) (hps : 0 < ps) (hWi : 0 < Wi) (hN : Wi ≤ B * E)
    (hsched : ∀ b c, (sched b c).Perm (List.range (B * E))) (hlat : LatRuns A Wo)
    (hlt : ∀ z < nnz, (A.entry z).col / Wo < Ho) :
    ∃ l, gbwdAll B E junk sched A g Wi Wo ps A.nnr = .ok l ∧ (∀ a ∈ l, a.1 < Ho * Wo) ∧
      ∀ h, ∀ p < Wo, addsAt l (h * Wo + p) = ∑ z ∈ range nnz, bwdTerm (g (A.entry z).ker (A.entry z).row) Wi Wo ps (A.entry z) h p := by
  have key : ∀ n ≤ A.nnr, ∃ l, gbwdAll B E junk sched A g Wi Wo ps n = .ok l ∧ (∀ a ∈ l, a.1 < Ho * Wo) ∧
      ∀ h, ∀ p < Wo, addsAt l (h * Wo + p) = ∑ i ∈ range n, ∑ z ∈ Ico (A.roff i) (A.roff (i + 1)),
        bwdTerm (g (A.entry z).ker (A.entry z).row) Wi Wo ps (A.entry z) h p := by
    intro n hn
    induction n with
    | zero => exact ⟨[], rfl, by simp, fun h p _ => by simp [addsAt]⟩
    | succ n ih =>
      obtain ⟨l, l1, l2, l3⟩ := ih (by omega)
      have hb : A.roff (n + 1) ≤ nnz := by rw [← hA.last]; exact hA.mono_le (by omega) le_rfl
      obtain ⟨l', m1, m2, m3⟩ := gbwdBlock_ok B E Wi Wo ps Ho (junk n) (sched n) A g hB hWo hps hWi hN (hsched n) hlat n (by omega)
        (hA.mono n (by omega)) (fun z _ hz => hlt z (by omega)) (hA.key n (by omega))
      refine ⟨l ++ l', ?_, ?_, ?_⟩
      · simp only [gbwdAll, l1, m1]
      · intro a ha
        exact (List.mem_append.1 ha).elim (l2 a) (m2 a)
      · intro h p hp
        rw [addsAt_append, l3 h p hp, m3 h p hp, sum_range_succ]
  obtain ⟨l, l1, l2, l3⟩ := key A.nnr le_rfl
  refine ⟨l, l1, l2, fun h p hp => ?_⟩
  rw [l3 h p hp, hA.sum _ A.nnr le_rfl, hA.last]

end Verif.Disco
