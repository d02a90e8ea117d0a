import Verif.Lemmas.Messages
import Verif.Lemmas.DistGrid
/-!
The forward pass of distributed attention has matched batches, and in lockstep it is `haloPad` and `ringLoop`.
-/
namespace Verif.Msg
open Verif Verif.Spec.Msg Verif.Dist Verif.Ring Finset

theorem neighbors_map (P : ℕ) (f : ℕ → ℕ) (hf : ∀ x < P, ∀ y < P, f x = f y → x = y) (k : ℕ) (hk : k < P) :
    getGroupNeighbors ((List.range P).map f) (f k) = .ok (f (prevRank P k), f (nextRank P k)) := by
  have hlen : ((List.range P).map f).length = P := by simp
  have hnd : ((List.range P).map f).Nodup :=
    List.Nodup.map_on (fun x hx y hy => hf x (List.mem_range.1 hx) y (List.mem_range.1 hy)) List.nodup_range
  have hidx : ((List.range P).map f).idxOf (f k) = k := by
    have := hnd.idxOf_getElem k (by rw [hlen]; exact hk)
    simpa using this
  have hget : ∀ x < P, ((List.range P).map f).getD x 0 = f x := by
    intro x hx
    rw [List.getD_eq_getElem _ _ (by rw [hlen]; exact hx)]
    simp
  unfold getGroupNeighbors
  rw [if_pos (List.mem_map.2 ⟨k, List.mem_range.2 hk, rfl⟩)]
  dsimp only
  rw [hidx, hlen]
  have hP : 0 < P := by omega
  have hz : (((k : ℤ) - 1) % (P : ℤ)).toNat = prevRank P k := by
    unfold prevRank
    have : ((k : ℤ) - 1) % (P : ℤ) = ((k + P - 1 : ℕ) : ℤ) % (P : ℤ) := by
      rw [Nat.cast_sub (by omega)]
      push_cast
      rw [show (k : ℤ) + P - 1 = ((k : ℤ) - 1) + P by ring, Int.add_emod_right]
    rw [this, ← Int.natCast_mod, Int.toNat_natCast]
  rw [hz, hget (prevRank P k) (Nat.mod_lt _ hP), hget ((k + 1) % P) (Nat.mod_lt _ hP)]
  rfl

/-- Neighbour in a group of `P` ranks. -/
def nextF {P : ℕ} (a : Fin P) : Fin P := ⟨nextRank P a, Nat.mod_lt _ a.pos⟩
/-- See `nextF`. -/
def prevF {P : ℕ} (a : Fin P) : Fin P := ⟨prevRank P a, Nat.mod_lt _ a.pos⟩

theorem prev_next {P a : ℕ} (h : a < P) : prevRank P (nextRank P a) = a := by
  unfold prevRank nextRank
  rcases Nat.lt_or_ge (a + 1) P with h1 | h1
  · rw [Nat.mod_eq_of_lt h1, show a + 1 + P - 1 = a + P by omega, Nat.add_mod_right, Nat.mod_eq_of_lt h]
  · have : a + 1 = P := by omega
    rw [this, Nat.mod_self, Nat.zero_add, Nat.mod_eq_of_lt (by omega)]; omega

theorem next_prev {P a : ℕ} (h : a < P) : nextRank P (prevRank P a) = a := by
  unfold prevRank nextRank
  rcases Nat.eq_zero_or_pos a with rfl | h1
  · rw [Nat.zero_add, Nat.mod_eq_of_lt (show P - 1 < P by omega), show P - 1 + 1 = P by omega, Nat.mod_self]
  · rw [show a + P - 1 = a - 1 + P by omega, Nat.add_mod_right, Nat.mod_eq_of_lt (show a - 1 < P by omega), show a - 1 + 1 = a by omega, Nat.mod_eq_of_lt h]

section
variable {σ : Type} {Pp Pa : ℕ} {glob : ℕ → ℕ → ℕ} {r : ℕ → ℕ → ℕ} {lonIn : ℕ → ℕ → List ℕ} {kernel : ℕ → ℕ → ℕ → ℕ → RTen → RTen → σ → σ}

theorem ring_ops (hg : GlobInj Pp Pa glob) (i : Fin Pp × Fin Pa) (n : ℕ) (hn : 2 ≤ n) :
    (fwdProg Pp Pa glob r lonIn kernel).ops i n = if n - 2 + 1 < Pa then
      [.isend 0 (glob i.1 (prevF i.2)), .irecv 1 (glob i.1 (nextF i.2)), .isend 2 (glob i.1 (prevF i.2)), .irecv 3 (glob i.1 (nextF i.2))] else [] := by
  simp only [fwdProg]
  rw [if_neg (by omega)]
  split
  · unfold ringOps
    rw [neighbors_map Pa (fun a => glob i.1 a) (fun x hx y hy h => (hg _ i.1.2 _ hx _ i.1.2 _ hy h).2) i.2 i.2.2]
    rfl
  · rfl

theorem halo_ops (hg : GlobInj Pp Pa glob) (i : Fin Pp × Fin Pa) (n : ℕ) (hn : n < 2) :
    (fwdProg Pp Pa glob r lonIn kernel).ops i n = if r i.1 i.2 > 0 ∧ Pp > 1 then
      (if (i.1 : ℕ) > 0 then [.isend 0 (glob (prevF i.1) i.2), .irecv 1 (glob (prevF i.1) i.2)] else []) ++
        (if (i.1 : ℕ) + 1 < Pp then [.isend 2 (glob (nextF i.1) i.2), .irecv 3 (glob (nextF i.1) i.2)] else []) else [] := by
  simp only [fwdProg]
  rw [if_pos hn]
  split
  · unfold haloOps
    rw [neighbors_map Pp (fun p => glob p i.2) (fun x hx y hy h => (hg _ hx _ i.2.2 _ hy _ i.2.2 h).1) i.1 i.1.2]
    rfl
  · rfl

theorem glob_iff (hg : GlobInj Pp Pa glob) (p p' : Fin Pp) (a a' : Fin Pa) : glob p a = glob p' a' ↔ p = p' ∧ a = a' := by
  constructor
  · intro h
    obtain ⟨h1, h2⟩ := hg _ p.2 _ a.2 _ p'.2 _ a'.2 h
    exact ⟨Fin.ext h1, Fin.ext h2⟩
  · rintro ⟨rfl, rfl⟩; rfl

theorem ring_sends (hg : GlobInj Pp Pa glob) (i j : Fin Pp × Fin Pa) (n : ℕ) (hn : 2 ≤ n) :
    sendsTo (glob j.1 j.2) ((fwdProg Pp Pa glob r lonIn kernel).ops i n) = if n - 2 + 1 < Pa ∧ j = (i.1, prevF i.2) then [0, 2] else [] := by
  rw [ring_ops hg i n hn]
  by_cases h : n - 2 + 1 < Pa
  · by_cases hj : j = (i.1, prevF i.2)
    · subst hj; simp [sendsTo, h]
    · have : ¬ glob i.1 (prevF i.2) = glob j.1 j.2 := by
        rw [glob_iff hg]
        rintro ⟨h1, h2⟩
        exact hj (Prod.ext h1.symm h2.symm)
      simp [sendsTo, h, hj, this]
  · simp [sendsTo, h]

theorem ring_recvs (hg : GlobInj Pp Pa glob) (i j : Fin Pp × Fin Pa) (n : ℕ) (hn : 2 ≤ n) :
    recvsFrom (glob j.1 j.2) ((fwdProg Pp Pa glob r lonIn kernel).ops i n) = if n - 2 + 1 < Pa ∧ j = (i.1, nextF i.2) then [1, 3] else [] := by
  rw [ring_ops hg i n hn]
  by_cases h : n - 2 + 1 < Pa
  · by_cases hj : j = (i.1, nextF i.2)
    · subst hj; simp [recvsFrom, h]
    · have : ¬ glob i.1 (nextF i.2) = glob j.1 j.2 := by
        rw [glob_iff hg]
        rintro ⟨h1, h2⟩
        exact hj (Prod.ext h1.symm h2.symm)
      simp [recvsFrom, h, hj, this]
  · simp [recvsFrom, h]

theorem halo_prev {p : Fin Pp} (h : (p : ℕ) > 0) : (prevF p : ℕ) = p - 1 := by
  have := p.2
  simp only [prevF, prevRank]
  rw [show (p : ℕ) + Pp - 1 = p - 1 + Pp by omega, Nat.add_mod_right, Nat.mod_eq_of_lt (by omega)]

theorem halo_next {p : Fin Pp} (h : (p : ℕ) + 1 < Pp) : (nextF p : ℕ) = p + 1 := by
  simp only [nextF, nextRank]
  rw [Nat.mod_eq_of_lt h]

theorem prev_cond (hg : GlobInj Pp Pa glob) (i j : Fin Pp × Fin Pa) :
    ((i.1 : ℕ) > 0 ∧ glob (prevF i.1) i.2 = glob j.1 j.2) ↔ j.2 = i.2 ∧ (j.1 : ℕ) + 1 = i.1 := by
  rw [glob_iff hg, Fin.ext_iff]
  constructor
  · rintro ⟨h0, h1, h2⟩; rw [halo_prev h0] at h1; exact ⟨h2.symm, by omega⟩
  · rintro ⟨h1, h2⟩; have h0 : (i.1 : ℕ) > 0 := by omega
    exact ⟨h0, by rw [halo_prev h0]; omega, h1.symm⟩

theorem next_cond (hg : GlobInj Pp Pa glob) (i j : Fin Pp × Fin Pa) :
    ((i.1 : ℕ) + 1 < Pp ∧ glob (nextF i.1) i.2 = glob j.1 j.2) ↔ j.2 = i.2 ∧ (j.1 : ℕ) = i.1 + 1 := by
  rw [glob_iff hg, Fin.ext_iff]
  constructor
  · rintro ⟨h0, h1, h2⟩; rw [halo_next h0] at h1; exact ⟨h2.symm, by omega⟩
  · rintro ⟨h1, h2⟩; have h0 : (i.1 : ℕ) + 1 < Pp := by have := j.1.2; omega
    exact ⟨h0, by rw [halo_next h0]; omega, h1.symm⟩

theorem halo_sends_list (c1 c2 : Prop) [Decidable c1] [Decidable c2] (x y q : ℕ) :
    sendsTo q ((if c1 then [Op.isend 0 x, Op.irecv 1 x] else []) ++ (if c2 then [Op.isend 2 y, Op.irecv 3 y] else [])) =
      (if c1 ∧ x = q then [0] else []) ++ (if c2 ∧ y = q then [2] else []) := by
  unfold sendsTo
  rw [List.filterMap_append]
  congr 1
  · by_cases h : c1 <;> by_cases h' : x = q <;> simp [h, h']
  · by_cases h : c2 <;> by_cases h' : y = q <;> simp [h, h']

theorem halo_sends (hg : GlobInj Pp Pa glob) (i j : Fin Pp × Fin Pa) (n : ℕ) (hn : n < 2) :
    sendsTo (glob j.1 j.2) ((fwdProg Pp Pa glob r lonIn kernel).ops i n) =
      if r i.1 i.2 > 0 ∧ Pp > 1 ∧ j.2 = i.2 then (if (j.1 : ℕ) + 1 = i.1 then [0] else if (j.1 : ℕ) = i.1 + 1 then [2] else []) else [] := by
  rw [halo_ops hg i n hn]
  by_cases h : r i.1 i.2 > 0 ∧ Pp > 1
  · rw [if_pos h, halo_sends_list]
    have e1 := prev_cond hg i j
    have e2 := next_cond hg i j
    simp only [e1, e2, h.1, h.2, true_and]
    by_cases hja : j.2 = i.2
    · by_cases h1 : (j.1 : ℕ) + 1 = i.1
      · have h3 : ¬ (j.1 : ℕ) = i.1 + 1 := by omega
        simp [hja, h1, h3]
      · by_cases h3 : (j.1 : ℕ) = i.1 + 1
        · have h4 : ¬ (i.1 : ℕ) + 1 + 1 = i.1 := by omega
          simp [hja, h3, h4]
        · simp [hja, h1, h3]
    · simp [hja]
  · rw [if_neg h, if_neg (fun e => h ⟨e.1, e.2.1⟩)]; rfl

theorem halo_recvs_list (c1 c2 : Prop) [Decidable c1] [Decidable c2] (x y q : ℕ) :
    recvsFrom q ((if c1 then [Op.isend 0 x, Op.irecv 1 x] else []) ++ (if c2 then [Op.isend 2 y, Op.irecv 3 y] else [])) =
      (if c1 ∧ x = q then [1] else []) ++ (if c2 ∧ y = q then [3] else []) := by
  unfold recvsFrom
  rw [List.filterMap_append]
  congr 1
  · by_cases h : c1 <;> by_cases h' : x = q <;> simp [h, h']
  · by_cases h : c2 <;> by_cases h' : y = q <;> simp [h, h']

theorem halo_recvs (hg : GlobInj Pp Pa glob) (i j : Fin Pp × Fin Pa) (n : ℕ) (hn : n < 2) :
    recvsFrom (glob j.1 j.2) ((fwdProg Pp Pa glob r lonIn kernel).ops i n) =
      if r i.1 i.2 > 0 ∧ Pp > 1 ∧ j.2 = i.2 then (if (j.1 : ℕ) + 1 = i.1 then [1] else if (j.1 : ℕ) = i.1 + 1 then [3] else []) else [] := by
  rw [halo_ops hg i n hn]
  by_cases h : r i.1 i.2 > 0 ∧ Pp > 1
  · rw [if_pos h, halo_recvs_list]
    have e1 := prev_cond hg i j
    have e2 := next_cond hg i j
    simp only [e1, e2, h.1, h.2, true_and]
    by_cases hja : j.2 = i.2
    · by_cases h1 : (j.1 : ℕ) + 1 = i.1
      · have h3 : ¬ (j.1 : ℕ) = i.1 + 1 := by omega
        simp [hja, h1, h3]
      · by_cases h3 : (j.1 : ℕ) = i.1 + 1
        · have h4 : ¬ (i.1 : ℕ) + 1 + 1 = i.1 := by omega
          simp [hja, h3, h4]
        · simp [hja, h1, h3]
    · simp [hja]
  · rw [if_neg h, if_neg (fun e => h ⟨e.1, e.2.1⟩)]; rfl

theorem next_eq_iff {P : ℕ} (a b : Fin P) : b = nextF a ↔ a = prevF b := by
  constructor
  · rintro rfl; exact Fin.ext (prev_next a.2).symm
  · rintro rfl; exact Fin.ext (next_prev b.2).symm

theorem getElem?_pair {x y b c : ℕ} : ([x, y] : List ℕ)[c]? = some b ↔ (c = 0 ∧ b = x) ∨ (c = 1 ∧ b = y) := by
  rcases c with _ | _ | c <;> simp [eq_comm]

theorem getElem?_one {x b c : ℕ} : ([x] : List ℕ)[c]? = some b ↔ c = 0 ∧ b = x := by
  rcases c with _ | c <;> simp [eq_comm]

theorem matched_fwd (hg : GlobInj Pp Pa glob) (hr : ∀ p < Pp, ∀ p' < Pp, ∀ a < Pa, r p a = r p' a) : Matched (fwdProg Pp Pa glob r lonIn kernel) where
  inj i j h := Prod.ext ((glob_iff hg _ _ _ _).1 h).1 ((glob_iff hg _ _ _ _).1 h).2
  peers i n _ o ho := by
    rcases Nat.lt_or_ge n 2 with hn | hn
    · rw [halo_ops hg i n hn] at ho
      split at ho
      · rw [List.mem_append] at ho
        rcases ho with ho | ho
        · split at ho
          · simp only [List.mem_cons, List.not_mem_nil, or_false] at ho
            rcases ho with rfl | rfl <;> exact ⟨(prevF i.1, i.2), rfl⟩
          · cases ho
        · split at ho
          · simp only [List.mem_cons, List.not_mem_nil, or_false] at ho
            rcases ho with rfl | rfl <;> exact ⟨(nextF i.1, i.2), rfl⟩
          · cases ho
      · cases ho
    · rw [ring_ops hg i n hn] at ho
      split at ho
      · simp only [List.mem_cons, List.not_mem_nil, or_false] at ho
        rcases ho with rfl | rfl | rfl | rfl
        · exact ⟨(i.1, prevF i.2), rfl⟩
        · exact ⟨(i.1, nextF i.2), rfl⟩
        · exact ⟨(i.1, prevF i.2), rfl⟩
        · exact ⟨(i.1, nextF i.2), rfl⟩
      · cases ho
  pair n _ i j := by
    change (sendsTo (glob j.1 j.2) _).length = (recvsFrom (glob i.1 i.2) _).length
    rcases Nat.lt_or_ge n 2 with hn | hn
    · rw [halo_sends hg i j n hn, halo_recvs hg j i n hn]
      by_cases hja : j.2 = i.2
      · have hrr : r j.1 j.2 = r i.1 i.2 := by rw [hja]; exact hr j.1 j.1.2 i.1 i.1.2 i.2 i.2.2
        by_cases h : r i.1 i.2 > 0 ∧ Pp > 1
        · rw [if_pos (show r i.1 i.2 > 0 ∧ Pp > 1 ∧ j.2 = i.2 from ⟨h.1, h.2, hja⟩),
            if_pos (show r j.1 j.2 > 0 ∧ Pp > 1 ∧ i.2 = j.2 from ⟨by rw [hrr]; exact h.1, h.2, hja.symm⟩)]
          split_ifs <;> first | rfl | omega
        · rw [if_neg (show ¬ (r i.1 i.2 > 0 ∧ Pp > 1 ∧ j.2 = i.2) from fun e => h ⟨e.1, e.2.1⟩),
            if_neg (show ¬ (r j.1 j.2 > 0 ∧ Pp > 1 ∧ i.2 = j.2) from fun e => h ⟨by rw [← hrr]; exact e.1, e.2.1⟩)]
      · rw [if_neg (show ¬ (r i.1 i.2 > 0 ∧ Pp > 1 ∧ j.2 = i.2) from fun e => hja e.2.2),
          if_neg (show ¬ (r j.1 j.2 > 0 ∧ Pp > 1 ∧ i.2 = j.2) from fun e => hja e.2.2.symm)]
    · rw [ring_sends hg i j n hn, ring_recvs hg j i n hn]
      have : j = (i.1, prevF i.2) ↔ i = (j.1, nextF j.2) := by
        constructor
        · rintro rfl; exact Prod.ext rfl ((next_eq_iff _ _).2 rfl)
        · intro h; exact Prod.ext (congrArg Prod.fst h).symm ((next_eq_iff _ _).1 (congrArg Prod.snd h))
      simp only [this]
      split_ifs <;> rfl
  distinct i n _ j j' c c' b h h' := by
    change (recvsFrom (glob j.1 j.2) _)[c]? = _ at h
    change (recvsFrom (glob j'.1 j'.2) _)[c']? = _ at h'
    rcases Nat.lt_or_ge n 2 with hn | hn
    · rw [halo_recvs hg i j n hn] at h
      rw [halo_recvs hg i j' n hn] at h'
      split_ifs at h h' <;> simp only [getElem?_one, List.getElem?_nil, reduceCtorEq] at h h' <;>
        first
        | omega
        | exact ⟨Prod.ext (Fin.ext (by omega)) (by rw [‹_ ∧ _ ∧ j.2 = i.2›.2.2, ‹_ ∧ _ ∧ j'.2 = i.2›.2.2]), by omega⟩
    · rw [ring_recvs hg i j n hn] at h
      rw [ring_recvs hg i j' n hn] at h'
      split_ifs at h h' with h1 h2
      · rw [getElem?_pair] at h h'
        exact ⟨h1.2.trans h2.2.symm, by omega⟩
      · cases h'
      · cases h
      · cases h
  read_work i n s b := by
    simp only [fwdProg]
    rcases Nat.lt_or_ge n 2 with hn | hn
    · rw [if_pos hn]
    · rw [if_neg (show ¬ n < 2 by omega), if_neg (show ¬ n = 0 by omega), if_neg (show ¬ n = 1 by omega)]
  fits_work i n s b m := by
    simp only [fwdProg]
    rcases Nat.lt_or_ge n 2 with hn | hn
    · simp only [if_pos hn]
    · simp only [if_neg (show ¬ n < 2 by omega)]

/-- What arrives in a step of the ring. -/
theorem arrives_ring (hg : GlobInj Pp Pa glob) (n : ℕ) (mem : Fin Pp × Fin Pa → Slot σ) (i : Fin Pp × Fin Pa) (b : ℕ) (m : RTen) :
    Arrives (fwdProg Pp Pa glob r lonIn kernel) (2 + n) mem i b m ↔
      n + 1 < Pa ∧ ((b = 1 ∧ m = (mem (i.1, nextF i.2)).k) ∨ (b = 3 ∧ m = (mem (i.1, nextF i.2)).v)) := by
  have e : ∀ j : Fin Pp × Fin Pa, j = (i.1, nextF i.2) → i = (j.1, prevF j.2) := by
    rintro j rfl
    exact Prod.ext rfl ((next_eq_iff _ _).1 rfl)
  have hread : ∀ (j : Fin Pp × Fin Pa) (s : Slot σ) (b : ℕ), (fwdProg Pp Pa glob r lonIn kernel).read j (2 + n) s b = if b = 0 then s.k else s.v := by
    intro j s b
    simp only [fwdProg]
    rw [if_neg (show ¬ 2 + n = 0 by omega), if_neg (show ¬ 2 + n = 1 by omega)]
  constructor
  · rintro ⟨j, c, b', h1, h2, rfl⟩
    change (recvsFrom (glob j.1 j.2) _)[c]? = _ at h1
    change (sendsTo (glob i.1 i.2) _)[c]? = _ at h2
    rw [ring_recvs hg i j (2 + n) (by omega)] at h1
    rw [ring_sends hg j i (2 + n) (by omega)] at h2
    split_ifs at h1 with hj
    · rw [if_pos ⟨hj.1, e j hj.2⟩] at h2
      rw [getElem?_pair] at h1 h2
      rw [hread, hj.2]
      refine ⟨by omega, ?_⟩
      rcases h1 with ⟨rfl, rfl⟩ | ⟨rfl, rfl⟩
      · left
        rcases h2 with ⟨-, rfl⟩ | ⟨h, -⟩
        · exact ⟨rfl, rfl⟩
        · omega
      · right
        rcases h2 with ⟨h, -⟩ | ⟨-, rfl⟩
        · omega
        · exact ⟨rfl, rfl⟩
    · cases h1
  · rintro ⟨hn, h⟩
    have hR : recvsFrom (glob (i.1, nextF i.2).1 (i.1, nextF i.2).2) ((fwdProg Pp Pa glob r lonIn kernel).ops i (2 + n)) = [1, 3] := by
      rw [ring_recvs hg i (i.1, nextF i.2) (2 + n) (by omega), if_pos ⟨by omega, rfl⟩]
    have hS : sendsTo (glob i.1 i.2) ((fwdProg Pp Pa glob r lonIn kernel).ops (i.1, nextF i.2) (2 + n)) = [0, 2] := by
      rw [ring_sends hg (i.1, nextF i.2) i (2 + n) (by omega), if_pos ⟨by omega, e _ rfl⟩]
    rcases h with ⟨rfl, rfl⟩ | ⟨rfl, rfl⟩
    · refine ⟨(i.1, nextF i.2), 0, 0, ?_, ?_, ?_⟩
      · exact congrArg (·[0]?) hR
      · exact congrArg (·[0]?) hS
      · rw [hread]; rfl
    · refine ⟨(i.1, nextF i.2), 1, 2, ?_, ?_, ?_⟩
      · exact congrArg (·[1]?) hR
      · exact congrArg (·[1]?) hS
      · rw [hread]; rfl

/-- What arrives in the exchange of halos; `x` is the tensor whose rows are exchanged. -/
theorem arrives_halo (hg : GlobInj Pp Pa glob) (hr : ∀ p < Pp, ∀ p' < Pp, ∀ a < Pa, r p a = r p' a) (n : ℕ) (hn : n < 2) (mem : Fin Pp × Fin Pa → Slot σ)
    (x : ℕ → ℕ → RTen) (hx : ∀ j : Fin Pp × Fin Pa, x j.1 j.2 = if n = 0 then (mem j).k else (mem j).v) (i : Fin Pp × Fin Pa) (b : ℕ) (m : RTen) :
    Arrives (fwdProg Pp Pa glob r lonIn kernel) n mem i b m ↔
      (r i.1 i.2 > 0 ∧ Pp > 1) ∧ ((b = 1 ∧ (i.1 : ℕ) > 0 ∧ m = haloRead (x (prevRank Pp i.1) i.2) (r i.1 i.2) 2) ∨
        (b = 3 ∧ (i.1 : ℕ) + 1 < Pp ∧ m = haloRead (x (nextRank Pp i.1) i.2) (r i.1 i.2) 0)) := by
  have hread : ∀ (j : Fin Pp × Fin Pa) (b : ℕ), (fwdProg Pp Pa glob r lonIn kernel).read j n (mem j) b = haloRead (x j.1 j.2) (r j.1 j.2) b := by
    intro j b
    rw [hx j]
    simp only [fwdProg]
    rcases (show n = 0 ∨ n = 1 by omega) with rfl | rfl <;> rfl
  constructor
  · rintro ⟨j, c, b', h1, h2, rfl⟩
    change (recvsFrom (glob j.1 j.2) _)[c]? = _ at h1
    change (sendsTo (glob i.1 i.2) _)[c]? = _ at h2
    rw [halo_recvs hg i j n hn] at h1
    rw [halo_sends hg j i n hn] at h2
    rw [hread]
    split_ifs at h1 with h3 h4 h5
    · rw [if_pos ⟨by rw [hr j.1 j.1.2 i.1 i.1.2 j.2 j.2.2, h3.2.2]; exact h3.1, h3.2.1, h3.2.2.symm⟩, if_neg (by omega), if_pos h4.symm] at h2
      rw [getElem?_one] at h1 h2
      refine ⟨⟨h3.1, h3.2.1⟩, Or.inl ⟨h1.2, by omega, ?_⟩⟩
      have hp : (i.1 : ℕ) > 0 := by omega
      have e1 : (j.1 : ℕ) = prevRank Pp i.1 := by have := halo_prev hp; simp only [prevF] at this; omega
      rw [h2.2, h3.2.2, hr j.1 j.1.2 i.1 i.1.2 i.2 i.2.2, e1]
    · rw [if_pos ⟨by rw [hr j.1 j.1.2 i.1 i.1.2 j.2 j.2.2, h3.2.2]; exact h3.1, h3.2.1, h3.2.2.symm⟩, if_pos h5.symm] at h2
      rw [getElem?_one] at h1 h2
      have hp : (i.1 : ℕ) + 1 < Pp := by have := j.1.2; omega
      refine ⟨⟨h3.1, h3.2.1⟩, Or.inr ⟨h1.2, hp, ?_⟩⟩
      have e1 : (j.1 : ℕ) = nextRank Pp i.1 := by have := halo_next hp; simp only [nextF] at this; omega
      rw [h2.2, h3.2.2, hr j.1 j.1.2 i.1 i.1.2 i.2 i.2.2, e1]
    · cases h1
    · cases h1
  · rintro ⟨hrp, ⟨rfl, hp, rfl⟩ | ⟨rfl, hp, rfl⟩⟩
    · refine ⟨(prevF i.1, i.2), 0, 2, ?_, ?_, ?_⟩
      · change (recvsFrom (glob (prevF i.1, i.2).1 (prevF i.1, i.2).2) _)[0]? = _
        rw [halo_recvs hg i _ n hn, if_pos ⟨hrp.1, hrp.2, rfl⟩, if_pos (by rw [halo_prev hp]; omega)]
        rfl
      · change (sendsTo (glob i.1 i.2) _)[0]? = _
        rw [halo_sends hg _ i n hn, if_pos ⟨by dsimp only; rw [hr _ (prevF i.1).2 i.1 i.1.2 i.2 i.2.2]; exact hrp.1, hrp.2, rfl⟩, if_neg (by rw [halo_prev hp]; omega),
          if_pos (by rw [halo_prev hp]; omega)]
        rfl
      · rw [hread]
        dsimp only
        rw [hr _ (prevF i.1).2 i.1 i.1.2 i.2 i.2.2]
        rfl
    · refine ⟨(nextF i.1, i.2), 0, 0, ?_, ?_, ?_⟩
      · change (recvsFrom (glob (nextF i.1, i.2).1 (nextF i.1, i.2).2) _)[0]? = _
        rw [halo_recvs hg i _ n hn, if_pos ⟨hrp.1, hrp.2, rfl⟩, if_neg (by rw [halo_next hp]; omega), if_pos (by rw [halo_next hp])]
        rfl
      · change (sendsTo (glob i.1 i.2) _)[0]? = _
        rw [halo_sends hg _ i n hn, if_pos ⟨by dsimp only; rw [hr _ (nextF i.1).2 i.1 i.1.2 i.2 i.2.2]; exact hrp.1, hrp.2, rfl⟩, if_pos (by rw [halo_next hp])]
        rfl
      · rw [hread]
        dsimp only
        rw [hr _ (nextF i.1).2 i.1 i.1.2 i.2 i.2.2]
        rfl

theorem haloPad_iff (p a R : ℕ) (x : ℕ → ℕ → RTen) (y : RTen) :
    haloPad Pp R x p a = .ok y ↔
      (R > 0 ∧ Pp > 1 → (p > 0 → (haloRead (x (prevRank Pp p) a) R 2).H = R) ∧ (p + 1 < Pp → (haloRead (x (nextRank Pp p) a) R 0).H = R)) ∧
      y = if R > 0 ∧ Pp > 1 then haloAfter (x p a) R (fun b => if b = 1 ∧ p > 0 then some (haloRead (x (prevRank Pp p) a) R 2)
        else if b = 3 ∧ p + 1 < Pp then some (haloRead (x (nextRank Pp p) a) R 0) else none) else x p a := by
  unfold haloPad
  by_cases h : R > 0 ∧ Pp > 1
  · rw [if_pos h, if_pos h]
    simp only [h]
    unfold haloForward haloRecvTop haloRecvBot recvInto haloAfter
    have e1 : (haloRead (x (prevRank Pp p) a) R 2).H = ((x (prevRank Pp p) a).viewLat.takeLast R).len := rfl
    have e2 : (haloRead (x (nextRank Pp p) a) R 0).H = ((x (nextRank Pp p) a).viewLat.takeFirst R).len := rfl
    rw [e1, e2]
    by_cases hp : p > 0 <;> by_cases hq : p + 1 < Pp <;>
      by_cases h1 : ((x (prevRank Pp p) a).viewLat.takeLast R).len = R <;> by_cases h2 : ((x (nextRank Pp p) a).viewLat.takeFirst R).len = R <;>
      simp [hp, hq, h1, h2, bind, Except.bind, pure, Except.pure, eq_comm] <;> rfl
  · rw [if_neg h, if_neg h]
    simp only [h, false_implies, true_and, Except.ok.injEq]
    exact eq_comm

theorem collect_all {β : Type} {f : ℕ → ℕ → Except PyErr β} {y : ℕ → ℕ → β} (h : collect Pp Pa f = .ok y) : ∀ p < Pp, ∀ a < Pa, f p a = .ok (y p a) := by
  intro p hp a ha
  have hall : ∀ p < Pp, ∀ a < Pa, ∃ z, f p a = .ok z ∧ True := by
    intro p hp a ha
    cases hfp : f p a with
    | error e => obtain ⟨e', he⟩ := collect_error hp ha hfp; rw [h] at he; cases he
    | ok z => exact ⟨z, rfl, trivial⟩
  obtain ⟨g', hg', hq⟩ := collect_ok (by omega) (by omega) hall
  rw [h] at hg'
  cases hg'
  exact (hq p hp a ha).1

theorem collect_exists_error {β : Type} (hp : 0 < Pp) (ha : 0 < Pa) {f : ℕ → ℕ → Except PyErr β} {e : PyErr} (h : collect Pp Pa f = .error e) :
    ∃ p < Pp, ∃ a < Pa, ∀ y, f p a ≠ .ok y := by
  by_contra hc
  push Not at hc
  obtain ⟨y, hy, -⟩ := collect_ok (Q := fun _ _ _ => True) hp ha fun p hp a ha => (hc p hp a ha).imp fun z hz => ⟨hz, trivial⟩
  rw [h] at hy
  cases hy

section
variable (hg : GlobInj Pp Pa glob) (hr : ∀ p < Pp, ∀ p' < Pp, ∀ a < Pa, r p a = r p' a)
include hg hr

theorem delivered_halo (n : ℕ) (hn : n < 2) (mem : Fin Pp × Fin Pa → Slot σ)
    (x : ℕ → ℕ → RTen) (hx : ∀ j : Fin Pp × Fin Pa, x j.1 j.2 = if n = 0 then (mem j).k else (mem j).v) (i : Fin Pp × Fin Pa) (h : r i.1 i.2 > 0 ∧ Pp > 1) :
    delivered (fwdProg Pp Pa glob r lonIn kernel) n mem i = fun b =>
      if b = 1 ∧ (i.1 : ℕ) > 0 then some (haloRead (x (prevRank Pp i.1) i.2) (r i.1 i.2) 2)
        else if b = 3 ∧ (i.1 : ℕ) + 1 < Pp then some (haloRead (x (nextRank Pp i.1) i.2) (r i.1 i.2) 0) else none := by
  funext b
  refine Option.ext fun m => ?_
  rw [delivered_iff (matched_fwd hg hr) (show n < 2 + Pa by omega), arrives_halo hg hr n hn mem x hx]
  constructor
  · rintro ⟨-, ⟨rfl, hp, rfl⟩ | ⟨rfl, hp, rfl⟩⟩
    · rw [if_pos ⟨rfl, hp⟩]
    · rw [if_neg (by omega), if_pos ⟨rfl, hp⟩]
  · intro e
    refine ⟨h, ?_⟩
    split_ifs at e with h1 h2
    · exact Or.inl ⟨h1.1, h1.2, (Option.some.inj e).symm⟩
    · exact Or.inr ⟨h2.1, h2.2, (Option.some.inj e).symm⟩

/-- A halo fits where `haloPad` gives a result. -/
theorem halo_fits (n : ℕ) (hn : n < 2) (mem : Fin Pp × Fin Pa → Slot σ)
    (x : ℕ → ℕ → RTen) (hx : ∀ j : Fin Pp × Fin Pa, x j.1 j.2 = if n = 0 then (mem j).k else (mem j).v) (i : Fin Pp × Fin Pa) :
    (∀ b m, Arrives (fwdProg Pp Pa glob r lonIn kernel) n mem i b m → (fwdProg Pp Pa glob r lonIn kernel).fits i n (mem i) b m) ↔
      ∃ y, haloPad Pp (r i.1 i.2) x i.1 i.2 = .ok y := by
  have hf : ∀ b m, (fwdProg Pp Pa glob r lonIn kernel).fits i n (mem i) b m ↔ m.H = r i.1 i.2 := by
    intro b m
    simp only [fwdProg, if_pos hn]
  simp only [hf, haloPad_iff]
  rw [exists_and_left]
  simp only [exists_eq, and_true]
  constructor
  · intro h hrp
    exact ⟨fun hp => h 1 _ ((arrives_halo hg hr n hn mem x hx i _ _).2 ⟨hrp, Or.inl ⟨rfl, hp, rfl⟩⟩),
      fun hp => h 3 _ ((arrives_halo hg hr n hn mem x hx i _ _).2 ⟨hrp, Or.inr ⟨rfl, hp, rfl⟩⟩)⟩
  · intro h b m hA
    rw [arrives_halo hg hr n hn mem x hx] at hA
    obtain ⟨hrp, ⟨-, hp, rfl⟩ | ⟨-, hp, rfl⟩⟩ := hA
    · exact (h hrp).1 hp
    · exact (h hrp).2 hp

/-- The rounds of the halos give what `haloPad` gives. -/
theorem halo_result (n : ℕ) (hn : n < 2) (mem : Fin Pp × Fin Pa → Slot σ)
    (x : ℕ → ℕ → RTen) (hx : ∀ j : Fin Pp × Fin Pa, x j.1 j.2 = if n = 0 then (mem j).k else (mem j).v) (i : Fin Pp × Fin Pa) {y : RTen}
    (hy : haloPad Pp (r i.1 i.2) x i.1 i.2 = .ok y) :
    (if r i.1 i.2 > 0 ∧ Pp > 1 then haloAfter (x i.1 i.2) (r i.1 i.2) (delivered (fwdProg Pp Pa glob r lonIn kernel) n mem i) else x i.1 i.2) = y := by
  rw [haloPad_iff] at hy
  rw [hy.2]
  by_cases h : r i.1 i.2 > 0 ∧ Pp > 1
  · rw [if_pos h, if_pos h, delivered_halo hg hr n hn mem x hx i h]
  · rw [if_neg h, if_neg h]

theorem lockstep_one (mem : Fin Pp × Fin Pa → Slot σ) (k : ℕ → ℕ → RTen) (hk : ∀ j : Fin Pp × Fin Pa, k j.1 j.2 = (mem j).k) (i : Fin Pp × Fin Pa) {y : RTen}
    (hy : haloPad Pp (r i.1 i.2) k i.1 i.2 = .ok y) : lockstep (fwdProg Pp Pa glob r lonIn kernel) mem 1 i = ⟨y, (mem i).v, (mem i).acc⟩ := by
  have h1 := halo_result (lonIn := lonIn) (kernel := kernel) hg hr 0 (by omega) mem k (fun j => by rw [if_pos rfl]; exact hk j) i hy
  change (fwdProg Pp Pa glob r lonIn kernel).after i 0 ((fwdProg Pp Pa glob r lonIn kernel).work i 0 (mem i)) (delivered _ 0 mem i) = _
  have ha : ∀ s d, (fwdProg Pp Pa glob r lonIn kernel).after i 0 ((fwdProg Pp Pa glob r lonIn kernel).work i 0 s) d =
      if r i.1 i.2 > 0 ∧ Pp > 1 then ⟨haloAfter s.k (r i.1 i.2) d, s.v, s.acc⟩ else s := fun s d => rfl
  rw [ha, ← hk i]
  by_cases h : r i.1 i.2 > 0 ∧ Pp > 1
  · rw [if_pos h] at h1 ⊢; rw [h1]
  · rw [if_neg h] at h1 ⊢; rw [← h1, hk i]

theorem lockstep_two (mem : Fin Pp × Fin Pa → Slot σ) (k v kh vh : ℕ → ℕ → RTen) (hk : ∀ j : Fin Pp × Fin Pa, k j.1 j.2 = (mem j).k)
    (hv : ∀ j : Fin Pp × Fin Pa, v j.1 j.2 = (mem j).v)
    (hkh : ∀ i : Fin Pp × Fin Pa, haloPad Pp (r i.1 i.2) k i.1 i.2 = .ok (kh i.1 i.2)) (hvh : ∀ i : Fin Pp × Fin Pa, haloPad Pp (r i.1 i.2) v i.1 i.2 = .ok (vh i.1 i.2))
    (i : Fin Pp × Fin Pa) : lockstep (fwdProg Pp Pa glob r lonIn kernel) mem 2 i = ⟨kh i.1 i.2, vh i.1 i.2, (mem i).acc⟩ := by
  have hL : ∀ j, lockstep (fwdProg Pp Pa glob r lonIn kernel) mem 1 j = ⟨kh j.1 j.2, (mem j).v, (mem j).acc⟩ := fun j => lockstep_one hg hr mem k hk j (hkh j)
  have h1 := halo_result (lonIn := lonIn) (kernel := kernel) hg hr 1 (by omega) (lockstep (fwdProg Pp Pa glob r lonIn kernel) mem 1) v
    (fun j => by rw [if_neg (by omega), hL j]; exact hv j) i (hvh i)
  change (fwdProg Pp Pa glob r lonIn kernel).after i 1 ((fwdProg Pp Pa glob r lonIn kernel).work i 1 (lockstep _ mem 1 i)) (delivered _ 1 (lockstep _ mem 1) i) = _
  have ha : ∀ s d, (fwdProg Pp Pa glob r lonIn kernel).after i 1 ((fwdProg Pp Pa glob r lonIn kernel).work i 1 s) d =
      if r i.1 i.2 > 0 ∧ Pp > 1 then ⟨s.k, haloAfter s.v (r i.1 i.2) d, s.acc⟩ else s := fun s d => rfl
  rw [ha]
  have e : (lockstep (fwdProg Pp Pa glob r lonIn kernel) mem 1 i).v = v i.1 i.2 := by rw [hL i]; exact (hv i).symm
  rw [e]
  by_cases h : r i.1 i.2 > 0 ∧ Pp > 1
  · rw [if_pos h] at h1 ⊢; rw [h1, hL i]
  · rw [if_neg h] at h1 ⊢; rw [← h1, hL i, hv i]

theorem delivered_ring (n : ℕ) (hn : n + 1 < Pa) (mem : Fin Pp × Fin Pa → Slot σ) (i : Fin Pp × Fin Pa) :
    delivered (fwdProg Pp Pa glob r lonIn kernel) (2 + n) mem i 1 = some (mem (i.1, nextF i.2)).k ∧
      delivered (fwdProg Pp Pa glob r lonIn kernel) (2 + n) mem i 3 = some (mem (i.1, nextF i.2)).v :=
  ⟨(delivered_iff (matched_fwd hg hr) (show 2 + n < 2 + Pa by omega) mem i _ _).2 ((arrives_ring hg n mem i _ _).2 ⟨hn, Or.inl ⟨rfl, rfl⟩⟩),
    (delivered_iff (matched_fwd hg hr) (show 2 + n < 2 + Pa by omega) mem i _ _).2 ((arrives_ring hg n mem i _ _).2 ⟨hn, Or.inr ⟨rfl, rfl⟩⟩)⟩

omit hg hr in
theorem exchange_iff (st : ℕ → Slot σ) (lon : List ℕ) (n a : ℕ) (y : Slot σ) :
    exchange Pa lon n st a = .ok y ↔
      (((st (nextRank Pa a)).k.B = (st a).k.B ∧ (st (nextRank Pa a)).k.C = (st a).k.C ∧ (st (nextRank Pa a)).k.H = (st a).k.H ∧
          (st (nextRank Pa a)).k.W = lon.getD ((a + n + 1) % Pa) 0) ∧
        ((st (nextRank Pa a)).v.B = (st a).v.B ∧ (st (nextRank Pa a)).v.C = (st a).v.C ∧ (st (nextRank Pa a)).v.H = (st a).v.H ∧
          (st (nextRank Pa a)).v.W = lon.getD ((a + n + 1) % Pa) 0)) ∧ y = ⟨(st (nextRank Pa a)).k, (st (nextRank Pa a)).v, (st a).acc⟩ := by
  unfold exchange recvChunk
  split_ifs with h1 h2
  · simp only [h1, h2, and_self, true_and, Except.ok.injEq]; exact eq_comm
  · simp only [false_iff]; exact fun e => h2 e.1.2
  · simp only [false_iff]; exact fun e => h1 e.1.1

/-- One step of the ring in lockstep. -/
theorem lockstep_ring (mem : Fin Pp × Fin Pa → Slot σ) (n : ℕ) (st : ℕ → ℕ → Slot σ)
    (h0 : ∀ i, lockstep (fwdProg Pp Pa glob r lonIn kernel) mem (2 + n) i = st i.1 i.2) :
    (∀ st', ringStep Pp Pa lonIn kernel n st = .ok st' →
      (∀ i, lockstep (fwdProg Pp Pa glob r lonIn kernel) mem (2 + (n + 1)) i = st' i.1 i.2) ∧ FitsAt (fwdProg Pp Pa glob r lonIn kernel) mem (2 + n)) ∧
    (∀ e, 0 < Pp → ringStep Pp Pa lonIn kernel n st = .error e → ¬ FitsAt (fwdProg Pp Pa glob r lonIn kernel) mem (2 + n)) := by
  have hwork : ∀ i s, (fwdProg Pp Pa glob r lonIn kernel).work i (2 + n) s = ⟨s.k, s.v, kernel i.1 i.2 n ((i.2 + n) % Pa) s.k s.v s.acc⟩ := by
    intro i s
    simp only [fwdProg]
    rw [if_neg (by omega), Nat.add_sub_cancel_left]
  have hafter : ∀ i s d, (fwdProg Pp Pa glob r lonIn kernel).after i (2 + n) s d = if n + 1 < Pa then ⟨(d 1).getD s.k, (d 3).getD s.v, s.acc⟩ else s := by
    intro i s d
    simp only [fwdProg]
    rw [if_neg (by omega), if_neg (by omega), Nat.add_sub_cancel_left]
  have hfits : ∀ i s b m, (fwdProg Pp Pa glob r lonIn kernel).fits i (2 + n) s b m ↔
      (m.B = (if b = 1 then s.k else s.v).B ∧ m.C = (if b = 1 then s.k else s.v).C ∧ m.H = (if b = 1 then s.k else s.v).H ∧
        m.W = (lonIn i.1 i.2).getD ((i.2 + n + 1) % Pa) 0) := by
    intro i s b m
    simp only [fwdProg]
    rw [if_neg (by omega), Nat.add_sub_cancel_left]
  have hstep : ∀ i, lockstep (fwdProg Pp Pa glob r lonIn kernel) mem (2 + (n + 1)) i =
      (fwdProg Pp Pa glob r lonIn kernel).after i (2 + n) ((fwdProg Pp Pa glob r lonIn kernel).work i (2 + n) (lockstep (fwdProg Pp Pa glob r lonIn kernel) mem (2 + n) i))
        (delivered (fwdProg Pp Pa glob r lonIn kernel) (2 + n) (lockstep (fwdProg Pp Pa glob r lonIn kernel) mem (2 + n)) i) := fun i => rfl
  have hnx : ∀ i : Fin Pp × Fin Pa, lockstep (fwdProg Pp Pa glob r lonIn kernel) mem (2 + n) (i.1, nextF i.2) = st i.1 (nextRank Pa i.2) := fun i => h0 (i.1, nextF i.2)
  unfold ringStep
  dsimp only
  by_cases hlt : n + 1 < Pa
  · rw [if_pos hlt]
    constructor
    · intro st' hst
      have hall := collect_all hst
      constructor
      · intro i
        obtain ⟨-, hy⟩ := (exchange_iff _ _ _ _ _).1 (hall i.1 i.1.2 i.2 i.2.2)
        obtain ⟨d1, d2⟩ := delivered_ring (lonIn := lonIn) (kernel := kernel) hg hr n hlt (lockstep (fwdProg Pp Pa glob r lonIn kernel) mem (2 + n)) i
        rw [hstep, hafter, if_pos hlt, d1, d2, hwork, hnx, h0, hy]
        rfl
      · intro i b m hA
        obtain ⟨⟨hk, hv⟩, -⟩ := (exchange_iff _ _ _ _ _).1 (hall i.1 i.1.2 i.2 i.2.2)
        rw [arrives_ring hg, hnx] at hA
        rw [hfits, h0]
        obtain ⟨-, ⟨rfl, rfl⟩ | ⟨rfl, rfl⟩⟩ := hA
        · exact hk
        · exact hv
    · intro e hPp hst hF
      obtain ⟨p, hp, a, ha, hne⟩ := collect_exists_error hPp (by omega) hst
      refine hne _ ((exchange_iff _ _ _ _ _).2 ⟨⟨?_, ?_⟩, rfl⟩)
      · have := hF (⟨p, hp⟩, ⟨a, ha⟩) 1 _ ((arrives_ring hg n _ _ _ _).2 ⟨hlt, Or.inl ⟨rfl, rfl⟩⟩)
        rw [hfits, hnx, h0] at this
        exact this
      · have := hF (⟨p, hp⟩, ⟨a, ha⟩) 3 _ ((arrives_ring hg n _ _ _ _).2 ⟨hlt, Or.inr ⟨rfl, rfl⟩⟩)
        rw [hfits, hnx, h0] at this
        exact this
  · rw [if_neg hlt]
    constructor
    · intro st' hst
      cases hst
      constructor
      · intro i
        rw [hstep, hafter, if_neg hlt, hwork, h0]
      · intro i b m hA
        rw [arrives_ring hg] at hA
        exact absurd hA.1 hlt
    · intro e _ he
      cases he

theorem lockstep_loop (mem : Fin Pp × Fin Pa → Slot σ) (st : ℕ → ℕ → Slot σ)
    (h0 : ∀ i, lockstep (fwdProg Pp Pa glob r lonIn kernel) mem 2 i = st i.1 i.2) (n : ℕ) (hn : n ≤ Pa) :
    (∀ st', ringLoop Pp Pa lonIn kernel st n = .ok st' →
      (∀ i, lockstep (fwdProg Pp Pa glob r lonIn kernel) mem (2 + n) i = st' i.1 i.2) ∧ ∀ m < n, FitsAt (fwdProg Pp Pa glob r lonIn kernel) mem (2 + m)) ∧
    (∀ e, 0 < Pp → ringLoop Pp Pa lonIn kernel st n = .error e → ∃ m < n, ¬ FitsAt (fwdProg Pp Pa glob r lonIn kernel) mem (2 + m)) := by
  induction n with
  | zero =>
    refine ⟨fun st' h => ?_, fun e _ h => ?_⟩
    · cases h; exact ⟨h0, fun m hm => absurd hm (Nat.not_lt_zero _)⟩
    · cases h
  | succ n ih =>
    obtain ⟨ih1, ih2⟩ := ih (by omega)
    unfold ringLoop
    cases hst : ringLoop Pp Pa lonIn kernel st n with
    | error e =>
      refine ⟨fun st' h => (by cases h), fun e' hp _ => ?_⟩
      obtain ⟨m, hm, hm'⟩ := ih2 e hp hst
      exact ⟨m, by omega, hm'⟩
    | ok st1 =>
      obtain ⟨h1, h2⟩ := ih1 st1 hst
      obtain ⟨k1, k2⟩ := lockstep_ring hg hr mem n st1 h1
      dsimp only
      refine ⟨fun st' h => ?_, fun e hp h => ⟨n, by omega, k2 e hp h⟩⟩
      obtain ⟨l1, l2⟩ := k1 st' h
      refine ⟨l1, fun m hm => ?_⟩
      rcases Nat.lt_succ_iff_lt_or_eq.1 hm with hlt | rfl
      · exact h2 m hlt
      · exact l2

end

end
end Verif.Msg
