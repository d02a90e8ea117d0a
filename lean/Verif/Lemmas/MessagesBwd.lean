import Verif.Lemmas.MessagesRounds
/-!
The rounds of the backward pass of distributed attention.
-/
namespace Verif.Msg
open Verif Verif.Spec.Msg Verif.Dist Verif.Ring Verif.Attn Verif.Spec.Attn Finset

section
variable {Pp Pa : ℕ} {glob : ℕ → ℕ → ℕ}

theorem grid_inj (hg : GlobInj Pp Pa glob) : Function.Injective fun i : Fin Pp × Fin Pa => glob i.1 i.2 := fun _ _ h =>
  Prod.ext ((glob_iff hg _ _ _ _).1 h).1 ((glob_iff hg _ _ _ _).1 h).2

theorem ringOps_eq (hg : GlobInj Pp Pa glob) (i : Fin Pp × Fin Pa) :
    ringOps ((List.range Pa).map fun a => glob i.1 a) (glob i.1 i.2) =
      [.isend 0 (glob i.1 (prevF i.2)), .irecv 1 (glob i.1 (nextF i.2)), .isend 2 (glob i.1 (prevF i.2)), .irecv 3 (glob i.1 (nextF i.2))] := by
  unfold ringOps
  rw [neighbors_map Pa (fun a => glob i.1 a) (fun x hx y hy h => (hg _ i.1.2 _ hx _ i.1.2 _ hy h).2) i.2 i.2.2]
  rfl

theorem ringOps_sends (hg : GlobInj Pp Pa glob) (c : Prop) [Decidable c] (i j : Fin Pp × Fin Pa) :
    sendsTo (glob j.1 j.2) (if c then ringOps ((List.range Pa).map fun a => glob i.1 a) (glob i.1 i.2) else []) = if c ∧ j = (i.1, prevF i.2) then [0, 2] else [] := by
  by_cases h : c
  · rw [if_pos h, ringOps_eq hg i]
    by_cases hj : j = (i.1, prevF i.2)
    · subst hj; simp [sendsTo, h]
    · have : ¬ glob i.1 (prevF i.2) = glob j.1 j.2 := by
        rw [glob_iff hg]
        rintro ⟨h1, h2⟩
        exact hj (Prod.ext h1.symm h2.symm)
      simp [sendsTo, hj, this]
  · simp [sendsTo, h]

theorem ringOps_recvs (hg : GlobInj Pp Pa glob) (c : Prop) [Decidable c] (i j : Fin Pp × Fin Pa) :
    recvsFrom (glob j.1 j.2) (if c then ringOps ((List.range Pa).map fun a => glob i.1 a) (glob i.1 i.2) else []) = if c ∧ j = (i.1, nextF i.2) then [1, 3] else [] := by
  by_cases h : c
  · rw [if_pos h, ringOps_eq hg i]
    by_cases hj : j = (i.1, nextF i.2)
    · subst hj; simp [recvsFrom, h]
    · have : ¬ glob i.1 (nextF i.2) = glob j.1 j.2 := by
        rw [glob_iff hg]
        rintro ⟨h1, h2⟩
        exact hj (Prod.ext h1.symm h2.symm)
      simp [recvsFrom, hj, this]
  · simp [recvsFrom, h]

theorem prev_next_iff (i j : Fin Pp × Fin Pa) : j = (i.1, prevF i.2) ↔ i = (j.1, nextF j.2) := by
  constructor
  · rintro rfl; exact Prod.ext rfl ((next_eq_iff _ _).2 rfl)
  · intro h; exact Prod.ext (congrArg Prod.fst h).symm ((next_eq_iff _ _).1 (congrArg Prod.snd h))

/-! ### The ring -/

variable {τ : Type} {lonIn : ℕ → ℕ → List ℕ}

theorem matched_ring (hg : GlobInj Pp Pa glob) (step : ℕ) (work : Fin Pp × Fin Pa → BMem τ → BMem τ) (hk : ∀ i s, (work i s).k = s.k) (hv : ∀ i s, (work i s).v = s.v) :
    Matched (ofRounds (fun i => glob i.1 i.2) [ringRound Pp Pa glob lonIn step work]) := by
  refine matched_one _ _ (grid_inj hg) ?_ ?_ ?_ ?_ ?_
  · intro i o ho
    simp only [ringRound] at ho
    split at ho
    · rw [ringOps_eq hg] at ho
      simp only [List.mem_cons, List.not_mem_nil, or_false] at ho
      rcases ho with rfl | rfl | rfl | rfl
      · exact ⟨(i.1, prevF i.2), rfl⟩
      · exact ⟨(i.1, nextF i.2), rfl⟩
      · exact ⟨(i.1, prevF i.2), rfl⟩
      · exact ⟨(i.1, nextF i.2), rfl⟩
    · cases ho
  · intro i j
    simp only [ringRound]
    rw [ringOps_sends hg, ringOps_recvs hg]
    simp only [prev_next_iff i j]
    split_ifs <;> rfl
  · intro i j j' c c' b h h'
    simp only [ringRound] at h h'
    rw [ringOps_recvs hg] at h h'
    split_ifs at h h' with h1 h2
    · rw [getElem?_pair] at h h'
      exact ⟨h1.2.trans h2.2.symm, by omega⟩
    · cases h'
    · cases h
    · cases h
  · intro i s b
    simp only [ringRound, hk, hv]
  · intro i s b m
    simp only [ringRound, hk, hv]

theorem arrives_ringRound (hg : GlobInj Pp Pa glob) (step : ℕ) (work : Fin Pp × Fin Pa → BMem τ → BMem τ) (mem : Fin Pp × Fin Pa → BMem τ) (i : Fin Pp × Fin Pa) (b : ℕ) (m : RTen) :
    Arrives (ofRounds (fun i => glob i.1 i.2) [ringRound Pp Pa glob lonIn step work]) 0 mem i b m ↔
      step + 1 < Pa ∧ ((b = 1 ∧ m = (mem (i.1, nextF i.2)).k) ∨ (b = 3 ∧ m = (mem (i.1, nextF i.2)).v)) := by
  have e : ∀ j : Fin Pp × Fin Pa, j = (i.1, nextF i.2) ↔ i = (j.1, prevF j.2) := fun j => (prev_next_iff j i).symm
  have key : Arrives (ofRounds (fun i => glob i.1 i.2) [ringRound Pp Pa glob lonIn step work]) 0 mem i b m ↔
      ∃ (j : Fin Pp × Fin Pa) (c b' : ℕ), (if step + 1 < Pa ∧ j = (i.1, nextF i.2) then [1, 3] else [])[c]? = some b ∧
        (if step + 1 < Pa ∧ i = (j.1, prevF j.2) then [0, 2] else [])[c]? = some b' ∧ m = if b' = 0 then (mem j).k else (mem j).v := by
    simp only [← ringOps_recvs hg, ← ringOps_sends hg]
    exact Iff.rfl
  rw [key]
  simp only [← e]
  constructor
  · rintro ⟨j, c, b', h1, h2, rfl⟩
    split_ifs at h1 h2 with hj
    · rw [getElem?_pair] at h1 h2
      refine ⟨hj.1, ?_⟩
      rw [hj.2]
      rcases h1 with ⟨rfl, rfl⟩ | ⟨rfl, rfl⟩
      · left
        rcases h2 with ⟨-, rfl⟩ | ⟨h, -⟩
        · exact ⟨rfl, rfl⟩
        · omega
      · right
        rcases h2 with ⟨h, -⟩ | ⟨-, rfl⟩
        · omega
        · exact ⟨rfl, rfl⟩
    · cases h1
  · rintro ⟨hn, ⟨rfl, rfl⟩ | ⟨rfl, rfl⟩⟩
    · refine ⟨(i.1, nextF i.2), 0, 0, ?_, ?_, ?_⟩
      · rw [if_pos ⟨hn, rfl⟩]; rfl
      · rw [if_pos ⟨hn, rfl⟩]; rfl
      · rw [if_pos rfl]
    · refine ⟨(i.1, nextF i.2), 1, 2, ?_, ?_, ?_⟩
      · rw [if_pos ⟨hn, rfl⟩]; rfl
      · rw [if_pos ⟨hn, rfl⟩]; rfl
      · rw [if_neg (by omega)]

/-- A rank's memory as the ring sees it. -/
def slotOf {σ : Type} (acc : BMem τ → σ) (s : BMem τ) : Slot σ := ⟨s.k, s.v, acc s⟩

/-- What a step of the ring does to the memories. -/
theorem run_ring (hg : GlobInj Pp Pa glob) (step : ℕ) (work : Fin Pp × Fin Pa → BMem τ → BMem τ) (hk : ∀ i s, (work i s).k = s.k) (hv : ∀ i s, (work i s).v = s.v)
    (mem : Fin Pp × Fin Pa → BMem τ) (i : Fin Pp × Fin Pa) :
    (ringRound Pp Pa glob lonIn step work).run (fun i => glob i.1 i.2) mem i =
      if step + 1 < Pa then { work i (mem i) with k := (mem (i.1, nextF i.2)).k, v := (mem (i.1, nextF i.2)).v } else work i (mem i) := by
  have hM := matched_ring (lonIn := lonIn) hg step work hk hv
  change (ringRound Pp Pa glob lonIn step work).after i (work i (mem i)) (delivered (ofRounds (fun i => glob i.1 i.2) [ringRound Pp Pa glob lonIn step work]) 0 mem i) = _
  have ha : ∀ (s : BMem τ) d, (ringRound Pp Pa glob lonIn step work).after i s d = if step + 1 < Pa then { s with k := (d 1).getD s.k, v := (d 3).getD s.v } else s :=
    fun _ _ => rfl
  rw [ha]
  by_cases h : step + 1 < Pa
  · rw [if_pos h, if_pos h, (delivered_iff hM Nat.zero_lt_one mem i 1 _).2 ((arrives_ringRound hg step work mem i _ _).2 ⟨h, Or.inl ⟨rfl, rfl⟩⟩),
      (delivered_iff hM Nat.zero_lt_one mem i 3 _).2 ((arrives_ringRound hg step work mem i _ _).2 ⟨h, Or.inr ⟨rfl, rfl⟩⟩)]
    rfl
  · rw [if_neg h, if_neg h]

/-- A step of the ring in lockstep is `ringStep`. -/
theorem ring_step {σ : Type} (hg : GlobInj Pp Pa glob) (step : ℕ) (work : Fin Pp × Fin Pa → BMem τ → BMem τ) (hk : ∀ i s, (work i s).k = s.k) (hv : ∀ i s, (work i s).v = s.v)
    (acc : BMem τ → σ) (hacc : ∀ s k v, acc { s with k := k, v := v } = acc s) (kernel : ℕ → ℕ → ℕ → ℕ → RTen → RTen → σ → σ)
    (mem : Fin Pp × Fin Pa → BMem τ) (hw : ∀ i, acc (work i (mem i)) = kernel i.1 i.2 step ((i.2 + step) % Pa) (mem i).k (mem i).v (acc (mem i)))
    (st st' : ℕ → ℕ → Slot σ) (h0 : ∀ i, slotOf acc (mem i) = st i.1 i.2) (hst : ringStep Pp Pa lonIn kernel step st = .ok st') :
    (∀ i, slotOf acc ((ringRound Pp Pa glob lonIn step work).run (fun i => glob i.1 i.2) mem i) = st' i.1 i.2) ∧
      (ringRound Pp Pa glob lonIn step work).Fits (fun i => glob i.1 i.2) mem := by
  have hk0 : ∀ i : Fin Pp × Fin Pa, (mem i).k = (st i.1 i.2).k := fun i => congrArg Slot.k (h0 i)
  have hv0 : ∀ i : Fin Pp × Fin Pa, (mem i).v = (st i.1 i.2).v := fun i => congrArg Slot.v (h0 i)
  have ha0 : ∀ i : Fin Pp × Fin Pa, acc (mem i) = (st i.1 i.2).acc := fun i => congrArg Slot.acc (h0 i)
  have hkn : ∀ i : Fin Pp × Fin Pa, (mem (i.1, nextF i.2)).k = (st i.1 (nextRank Pa i.2)).k := fun i => hk0 (i.1, nextF i.2)
  have hvn : ∀ i : Fin Pp × Fin Pa, (mem (i.1, nextF i.2)).v = (st i.1 (nextRank Pa i.2)).v := fun i => hv0 (i.1, nextF i.2)
  unfold ringStep at hst
  dsimp only at hst
  by_cases hlt : step + 1 < Pa
  · rw [if_pos hlt] at hst
    have hall := collect_all hst
    constructor
    · intro i
      obtain ⟨-, hy⟩ := (exchange_iff _ _ _ _ _).1 (hall i.1 i.1.2 i.2 i.2.2)
      rw [run_ring hg step work hk hv, if_pos hlt, hy]
      unfold slotOf
      rw [hacc, hw i, hkn i, hvn i, hk0 i, hv0 i, ha0 i]
    · intro i b m hA
      obtain ⟨⟨h1, h2⟩, -⟩ := (exchange_iff _ _ _ _ _).1 (hall i.1 i.1.2 i.2 i.2.2)
      rw [arrives_ringRound hg] at hA
      change m.B = (if b = 1 then (mem i).k else (mem i).v).B ∧ m.C = (if b = 1 then (mem i).k else (mem i).v).C ∧ m.H = (if b = 1 then (mem i).k else (mem i).v).H ∧
        m.W = (lonIn i.1 i.2).getD ((i.2 + step + 1) % Pa) 0
      obtain ⟨-, ⟨rfl, rfl⟩ | ⟨rfl, rfl⟩⟩ := hA
      · change (mem (i.1, nextF i.2)).k.B = _ ∧ _
        rw [if_pos rfl, hk0 i]
        have := hkn i
        simp only [lockstep] at *
        rw [this]
        exact h1
      · change (mem (i.1, nextF i.2)).v.B = _ ∧ _
        rw [if_neg (by omega), hv0 i]
        have := hvn i
        simp only [lockstep] at *
        rw [this]
        exact h2
  · rw [if_neg hlt] at hst
    cases hst
    constructor
    · intro i
      rw [run_ring hg step work hk hv, if_neg hlt]
      unfold slotOf
      rw [hk, hv, hw i, hk0 i, hv0 i, ha0 i]
    · intro i b m hA
      rw [arrives_ringRound hg] at hA
      exact absurd hA.1 hlt

/-- Pass 1 in lockstep is the loop of `ringPass1`. -/
theorem pass1_runs {σ : Type} (hg : GlobInj Pp Pa glob) (k1 : ℕ → ℕ → ℕ → ℕ → RTen → RTen → τ → τ) (π : τ → σ) (kernel : ℕ → ℕ → ℕ → ℕ → RTen → RTen → σ → σ)
    (hπ : ∀ p a step src k v t, π (k1 p a step src k v t) = kernel p a step src k v (π t)) (mem : Fin Pp × Fin Pa → BMem τ) (st : ℕ → ℕ → Slot σ)
    (h0 : ∀ i, slotOf (fun s => π s.st) (mem i) = st i.1 i.2) (n : ℕ) (st' : ℕ → ℕ → Slot σ) (hst : ringLoop Pp Pa lonIn kernel st n = .ok st') :
    (∀ i, slotOf (fun s => π s.st) (runs (fun i => glob i.1 i.2) (pass1Rounds Pp Pa glob lonIn k1 n) mem i) = st' i.1 i.2) ∧
      FitsAll (fun i => glob i.1 i.2) (pass1Rounds Pp Pa glob lonIn k1 n) mem := by
  induction n generalizing st' with
  | zero => cases hst; exact ⟨h0, trivial⟩
  | succ n ih =>
    unfold ringLoop at hst
    cases h1 : ringLoop Pp Pa lonIn kernel st n with
    | error e => rw [h1] at hst; cases hst
    | ok st1 =>
      rw [h1] at hst
      obtain ⟨i1, i2⟩ := ih st1 h1
      have hL : pass1Rounds Pp Pa glob lonIn k1 (n + 1) = pass1Rounds Pp Pa glob lonIn k1 n ++
          [ringRound Pp Pa glob lonIn n fun i s => { s with st := k1 i.1 i.2 n ((i.2 + n) % Pa) s.k s.v s.st }] := by
        unfold pass1Rounds
        rw [List.range_succ, List.map_append]
        rfl
      obtain ⟨j1, j2⟩ := ring_step (lonIn := lonIn) hg n (fun (i : Fin Pp × Fin Pa) (s : BMem τ) => { s with st := k1 i.1 i.2 n ((i.2 + n) % Pa) s.k s.v s.st }) (fun _ _ => rfl) (fun _ _ => rfl)
        (fun s => π s.st) (fun _ _ _ => rfl) kernel _ (fun i => hπ _ _ _ _ _ _ _) st1 st' i1 hst
      rw [hL, runs_append, fitsAll_append]
      exact ⟨j1, i2, j2, trivial⟩

/-- Pass 2 in lockstep is the loop of `ringPass2`. -/
theorem pass2_runs (hg : GlobInj Pp Pa glob) (k2 : ℕ → ℕ → ℕ → ℕ → τ → RTen → RTen → Except PyErr (T4 × T4) → Except PyErr (T4 × T4))
    (kernel : ℕ → ℕ → ℕ → ℕ → RTen → RTen → Except PyErr (T4 × T4) → Except PyErr (T4 × T4)) (mem : Fin Pp × Fin Pa → BMem τ)
    (hk : ∀ (i : Fin Pp × Fin Pa) step src k v f, kernel i.1 i.2 step src k v f = k2 i.1 i.2 step src (mem i).st k v f) (st : ℕ → ℕ → Slot (Except PyErr (T4 × T4)))
    (h0 : ∀ i, slotOf BMem.full (mem i) = st i.1 i.2) (n : ℕ) (st' : ℕ → ℕ → Slot (Except PyErr (T4 × T4))) (hst : ringLoop Pp Pa lonIn kernel st n = .ok st') :
    (∀ i, slotOf BMem.full (runs (fun i => glob i.1 i.2) (pass2Rounds Pp Pa glob lonIn k2 n) mem i) = st' i.1 i.2) ∧
      (∀ i, (runs (fun i => glob i.1 i.2) (pass2Rounds Pp Pa glob lonIn k2 n) mem i).st = (mem i).st) ∧
      FitsAll (fun i => glob i.1 i.2) (pass2Rounds Pp Pa glob lonIn k2 n) mem := by
  induction n generalizing st' with
  | zero => cases hst; exact ⟨h0, fun _ => rfl, trivial⟩
  | succ n ih =>
    unfold ringLoop at hst
    cases h1 : ringLoop Pp Pa lonIn kernel st n with
    | error e => rw [h1] at hst; cases hst
    | ok st1 =>
      rw [h1] at hst
      obtain ⟨i1, i2, i3⟩ := ih st1 h1
      have hL : pass2Rounds Pp Pa glob lonIn k2 (n + 1) = pass2Rounds Pp Pa glob lonIn k2 n ++
          [localRound fun i s => { s with full := k2 i.1 i.2 n ((i.2 + n) % Pa) s.st s.k s.v s.full }, ringRound Pp Pa glob lonIn n fun _ s => s] := by
        unfold pass2Rounds
        rw [List.range_succ, List.flatMap_append]
        rfl
      rw [hL, runs_append, fitsAll_append]
      set m1 := runs (fun i => glob i.1 i.2) (pass2Rounds Pp Pa glob lonIn k2 n) mem with hm1
      set m2 : Fin Pp × Fin Pa → BMem τ := fun i => { m1 i with full := k2 i.1 i.2 n ((i.2 + n) % Pa) (m1 i).st (m1 i).k (m1 i).v (m1 i).full } with hm2
      have e : ∀ i, slotOf BMem.full ((ringRound Pp Pa glob lonIn n fun _ s => s).run (fun i => glob i.1 i.2) m2 i) =
          slotOf BMem.full ((ringRound Pp Pa glob lonIn n fun (i : Fin Pp × Fin Pa) (s : BMem τ) =>
            { s with full := k2 i.1 i.2 n ((i.2 + n) % Pa) s.st s.k s.v s.full }).run (fun i => glob i.1 i.2) m1 i) := by
        intro i
        rw [run_ring hg n (fun _ s => s) (fun _ _ => rfl) (fun _ _ => rfl), run_ring hg n
          (fun (i : Fin Pp × Fin Pa) (s : BMem τ) => { s with full := k2 i.1 i.2 n ((i.2 + n) % Pa) s.st s.k s.v s.full }) (fun _ _ => rfl) (fun _ _ => rfl)]
      obtain ⟨j1, j2⟩ := ring_step (lonIn := lonIn) hg n (fun (i : Fin Pp × Fin Pa) (s : BMem τ) => { s with full := k2 i.1 i.2 n ((i.2 + n) % Pa) s.st s.k s.v s.full }) (fun _ _ => rfl)
        (fun _ _ => rfl) BMem.full (fun _ _ _ => rfl) kernel m1 (fun i => by rw [hk, i2 i]) st1 st' i1 hst
      refine ⟨fun i => (e i).trans (j1 i), fun i => ?_, i3, fits_local _ _ _, ?_, trivial⟩
      · change ((ringRound Pp Pa glob lonIn n fun _ s => s).run (fun i => glob i.1 i.2) m2 i).st = _
        rw [run_ring hg n _ (fun _ _ => rfl) (fun _ _ => rfl)]
        rw [← i2 i]
        split_ifs <;> rfl
      · intro i b m hA
        exact j2 i b m ((arrives_ringRound hg n _ m1 i b m).2 ((arrives_ringRound hg n _ m2 i b m).1 hA))

/-! ### The all-reduce -/

theorem flatMap_pick {α : Type} (t n : ℕ) (c : Prop) [Decidable c] (f : ℕ → α) :
    ((List.range n).flatMap fun a => if a = t ∧ c then [f a] else []) = if t < n ∧ c then [f t] else [] := by
  induction n with
  | zero => simp
  | succ n ih =>
    rw [List.range_succ, List.flatMap_append, ih, List.flatMap_singleton]
    by_cases hc : c
    · simp only [hc, and_true]
      rcases Nat.lt_trichotomy t n with h | h | h
      · rw [if_pos h, if_neg (by omega), if_pos (by omega)]; rfl
      · subst h; rw [if_neg (by omega), if_pos rfl, if_pos (by omega)]; rfl
      · rw [if_neg (by omega), if_neg (by omega), if_neg (by omega)]; rfl
    · simp [hc]

theorem reduce_sends (hg : GlobInj Pp Pa glob) (i j : Fin Pp × Fin Pa) :
    sendsTo (glob j.1 j.2) (reduceOps Pa glob i.1 i.2) = if j.1 = i.1 ∧ j.2 ≠ i.2 then [0] else [] := by
  have h : sendsTo (glob j.1 j.2) (reduceOps Pa glob i.1 i.2) = (List.range Pa).flatMap fun a => if a = (j.2 : ℕ) ∧ (j.1 = i.1 ∧ j.2 ≠ i.2) then [(fun _ => 0) a] else [] := by
    unfold sendsTo reduceOps
    rw [List.filterMap_flatMap]
    refine List.flatMap_congr fun a ha => ?_
    have ha := List.mem_range.1 ha
    by_cases h1 : a = i.2
    · subst h1
      rw [if_pos rfl, if_neg (fun e => e.2.2 (Fin.ext e.1.symm))]
      rfl
    · rw [if_neg h1]
      have e := glob_iff hg i.1 j.1 ⟨a, ha⟩ j.2
      change (glob i.1 a = glob j.1 j.2 ↔ _) at e
      by_cases h2 : glob i.1 a = glob j.1 j.2
      · obtain ⟨e1, e2⟩ := e.1 h2
        have e3 : a = j.2 := congrArg Fin.val e2
        rw [if_pos ⟨e3, e1.symm, fun h => h1 (e3.trans (congrArg Fin.val h))⟩]
        simp [h2]
      · rw [if_neg (fun h => h2 (e.2 ⟨h.2.1.symm, Fin.ext h.1⟩))]
        simp [h2]
  rw [h, flatMap_pick]
  simp only [j.2.2, true_and]

theorem reduce_recvs (hg : GlobInj Pp Pa glob) (i j : Fin Pp × Fin Pa) :
    recvsFrom (glob j.1 j.2) (reduceOps Pa glob i.1 i.2) = if j.1 = i.1 ∧ j.2 ≠ i.2 then [(j.2 : ℕ)] else [] := by
  have h : recvsFrom (glob j.1 j.2) (reduceOps Pa glob i.1 i.2) = (List.range Pa).flatMap fun a => if a = (j.2 : ℕ) ∧ (j.1 = i.1 ∧ j.2 ≠ i.2) then [(fun a => a) a] else [] := by
    unfold recvsFrom reduceOps
    rw [List.filterMap_flatMap]
    refine List.flatMap_congr fun a ha => ?_
    have ha := List.mem_range.1 ha
    by_cases h1 : a = i.2
    · subst h1
      rw [if_pos rfl, if_neg (fun e => e.2.2 (Fin.ext e.1.symm))]
      rfl
    · rw [if_neg h1]
      have e := glob_iff hg i.1 j.1 ⟨a, ha⟩ j.2
      change (glob i.1 a = glob j.1 j.2 ↔ _) at e
      by_cases h2 : glob i.1 a = glob j.1 j.2
      · obtain ⟨e1, e2⟩ := e.1 h2
        have e3 : a = j.2 := congrArg Fin.val e2
        rw [if_pos ⟨e3, e1.symm, fun h => h1 (e3.trans (congrArg Fin.val h))⟩]
        simp [h2]
      · rw [if_neg (fun h => h2 (e.2 ⟨h.2.1.symm, Fin.ext h.1⟩))]
        simp [h2]
  rw [h, flatMap_pick]
  simp only [j.2.2, true_and]

section
variable {isK : Bool} {shape : ℕ → ℕ → RTen} {rows : ℕ → ℕ → ℕ}

theorem matched_reduce (hg : GlobInj Pp Pa glob) : Matched (ofRounds (fun i => glob i.1 i.2) [reduceRound (τ := τ) Pp Pa glob isK lonIn shape rows]) := by
  refine matched_one _ _ (grid_inj hg) ?_ ?_ ?_ (fun _ _ _ => rfl) (fun _ _ _ _ => Iff.rfl)
  · intro i o ho
    simp only [reduceRound] at ho
    split at ho
    · unfold reduceOps at ho
      rw [List.mem_flatMap] at ho
      obtain ⟨a, ha, ho⟩ := ho
      have ha := List.mem_range.1 ha
      split at ho
      · cases ho
      · simp only [List.mem_cons, List.not_mem_nil, or_false] at ho
        rcases ho with rfl | rfl <;> exact ⟨(i.1, ⟨a, ha⟩), rfl⟩
    · cases ho
  · intro i j
    simp only [reduceRound]
    split
    · rw [reduce_sends hg, reduce_recvs hg]
      by_cases h : j.1 = i.1 ∧ j.2 ≠ i.2
      · rw [if_pos h, if_pos ⟨h.1.symm, h.2.symm⟩]; rfl
      · rw [if_neg h, if_neg (fun e => h ⟨e.1.symm, e.2.symm⟩)]
    · rfl
  · intro i j j' c c' b h h'
    simp only [reduceRound] at h h'
    by_cases hP : Pa > 1
    · rw [if_pos hP, reduce_recvs hg] at h h'
      split_ifs at h h' with h1 h2
      · rw [getElem?_one] at h h'
        exact ⟨Prod.ext (h1.1.trans h2.1.symm) (Fin.ext (by omega)), by omega⟩
      · cases h'
      · cases h
      · cases h
    · rw [if_neg hP] at h
      cases h

theorem arrives_reduce (hg : GlobInj Pp Pa glob) (mem : Fin Pp × Fin Pa → BMem τ) (i : Fin Pp × Fin Pa) (b : ℕ) (m : RTen) :
    Arrives (ofRounds (fun i => glob i.1 i.2) [reduceRound Pp Pa glob isK lonIn shape rows]) 0 mem i b m ↔
      ∃ a : Fin Pa, a ≠ i.2 ∧ b = a ∧ m = ⟨(shape i.1 a).B, (shape i.1 a).C, rows i.1 a, (lonIn i.1 a).sum, (mem (i.1, a)).fullOf isK⟩ := by
  have hP : ∀ a : Fin Pa, a ≠ i.2 → Pa > 1 := by
    intro a ha
    have h1 := a.2
    have h2 := i.2.2
    by_contra hc
    exact ha (Fin.ext (by omega))
  constructor
  · rintro ⟨j, c, b', h1, h2, rfl⟩
    change (recvsFrom (glob j.1 j.2) (if Pa > 1 then reduceOps Pa glob i.1 i.2 else []))[c]? = _ at h1
    split at h1
    · rw [reduce_recvs hg] at h1
      split_ifs at h1 with h3
      · rw [getElem?_one] at h1
        refine ⟨j.2, h3.2, h1.2, ?_⟩
        have : j = (i.1, j.2) := Prod.ext h3.1 rfl
        rw [this]
        rfl
      · cases h1
    · cases h1
  · rintro ⟨a, ha, rfl, rfl⟩
    refine ⟨(i.1, a), 0, 0, ?_, ?_, rfl⟩
    · change (recvsFrom (glob (i.1, a).1 (i.1, a).2) (if Pa > 1 then reduceOps Pa glob i.1 i.2 else []))[0]? = _
      rw [if_pos (hP a ha), reduce_recvs hg, if_pos ⟨rfl, ha⟩]
      rfl
    · change (sendsTo (glob i.1 i.2) (if Pa > 1 then reduceOps Pa glob (i.1, a).1 (i.1, a).2 else []))[0]? = _
      rw [if_pos (hP a ha), reduce_sends hg (i.1, a) i, if_pos ⟨rfl, ha.symm⟩]
      rfl

/-- The all-reduce and the slice give `reduceSlice`. -/
theorem run_reduce (hg : GlobInj Pp Pa glob) (mem : Fin Pp × Fin Pa → BMem τ) (full : ℕ → ℕ → T4) (hfull : ∀ i, (mem i).fullOf isK = full i.1 i.2) (i : Fin Pp × Fin Pa) :
    (reduceRound Pp Pa glob isK lonIn shape rows).run (fun i => glob i.1 i.2) mem i =
      (mem i).setGrad isK ⟨(shape i.1 i.2).B, (shape i.1 i.2).C, rows i.1 i.2, (lonIn i.1 i.2).getD i.2 0, reduceSlice Pa i.2 (offset (lonIn i.1 i.2) i.2) (full i.1)⟩ := by
  have hM := matched_reduce (τ := τ) (isK := isK) (lonIn := lonIn) (shape := shape) (rows := rows) hg
  change (reduceRound Pp Pa glob isK lonIn shape rows).after i (mem i) (delivered (ofRounds (fun i => glob i.1 i.2) [reduceRound Pp Pa glob isK lonIn shape rows]) 0 mem i) = _
  have hd : ∀ a : Fin Pa, a ≠ i.2 → delivered (ofRounds (fun i => glob i.1 i.2) [reduceRound Pp Pa glob isK lonIn shape rows]) 0 mem i a =
      some ⟨(shape i.1 a).B, (shape i.1 a).C, rows i.1 a, (lonIn i.1 a).sum, (mem (i.1, a)).fullOf isK⟩ := fun a ha =>
    (delivered_iff hM Nat.zero_lt_one mem i a _).2 ((arrives_reduce hg mem i a _).2 ⟨a, ha, rfl, rfl⟩)
  generalize delivered (ofRounds (fun i => glob i.1 i.2) [reduceRound Pp Pa glob isK lonIn shape rows]) 0 mem i = d at hd
  simp only [reduceRound]
  congr 2
  funext b c h x
  unfold reduceSlice
  split
  · refine sum_congr rfl fun a ha => ?_
    have ha := mem_range.1 ha
    by_cases hai : a = i.2
    · rw [if_pos hai, hfull, hai]
    · rw [if_neg hai]
      have := hd ⟨a, ha⟩ (fun e => hai (congrArg Fin.val e))
      dsimp only at this
      rw [this]
      exact congrFun (congrFun (congrFun (congrFun (hfull (i.1, ⟨a, ha⟩)) b) c) h) _
  · rw [hfull]

theorem fits_reduce (hg : GlobInj Pp Pa glob) (mem : Fin Pp × Fin Pa → BMem τ)
    (hs : ∀ p < Pp, ∀ a < Pa, ∀ a' < Pa, (shape p a).B = (shape p a').B ∧ (shape p a).C = (shape p a').C ∧ rows p a = rows p a' ∧ (lonIn p a).sum = (lonIn p a').sum) :
    (reduceRound Pp Pa glob isK lonIn shape rows).Fits (fun i => glob i.1 i.2) mem := by
  intro i b m hA
  obtain ⟨a, -, -, rfl⟩ := (arrives_reduce hg mem i b m).1 hA
  exact hs i.1 i.1.2 a a.2 i.2 i.2.2

end

/-! ### The halos -/

section
variable {r H : ℕ → ℕ → ℕ} {isK : Bool}

theorem haloOps_sends (hg : GlobInj Pp Pa glob) (i j : Fin Pp × Fin Pa) :
    sendsTo (glob j.1 j.2) (if r i.1 i.2 > 0 ∧ Pp > 1 then haloOps ((List.range Pp).map fun p => glob p i.2) (glob i.1 i.2) Pp i.1 else []) =
      if r i.1 i.2 > 0 ∧ Pp > 1 ∧ j.2 = i.2 then (if (j.1 : ℕ) + 1 = i.1 then [0] else if (j.1 : ℕ) = i.1 + 1 then [2] else []) else [] :=
  halo_sends (σ := Unit) (r := r) (lonIn := fun _ _ => []) (kernel := fun _ _ _ _ _ _ s => s) hg i j 0 (by omega)

theorem haloOps_recvs (hg : GlobInj Pp Pa glob) (i j : Fin Pp × Fin Pa) :
    recvsFrom (glob j.1 j.2) (if r i.1 i.2 > 0 ∧ Pp > 1 then haloOps ((List.range Pp).map fun p => glob p i.2) (glob i.1 i.2) Pp i.1 else []) =
      if r i.1 i.2 > 0 ∧ Pp > 1 ∧ j.2 = i.2 then (if (j.1 : ℕ) + 1 = i.1 then [1] else if (j.1 : ℕ) = i.1 + 1 then [3] else []) else [] :=
  halo_recvs (σ := Unit) (r := r) (lonIn := fun _ _ => []) (kernel := fun _ _ _ _ _ _ s => s) hg i j 0 (by omega)

theorem matched_haloGrad (hg : GlobInj Pp Pa glob) (hr : ∀ p < Pp, ∀ p' < Pp, ∀ a < Pa, r p a = r p' a) :
    Matched (ofRounds (fun i => glob i.1 i.2) [haloGradRound (τ := τ) Pp Pa glob isK r H]) := by
  have hM := matched_fwd (σ := Unit) (lonIn := fun _ _ => []) (kernel := fun _ _ _ _ _ _ s => s) hg hr
  exact matched_one _ _ (grid_inj hg) (fun i o ho => hM.peers i 0 (show 0 < 2 + Pa by omega) o ho) (fun i j => hM.pair 0 (show 0 < 2 + Pa by omega) i j)
    (fun i j j' c c' b h h' => hM.distinct i 0 (show 0 < 2 + Pa by omega) j j' c c' b h h') (fun _ _ _ => rfl) (fun _ _ _ _ => Iff.rfl)

theorem arrives_haloGrad (hg : GlobInj Pp Pa glob) (hr : ∀ p < Pp, ∀ p' < Pp, ∀ a < Pa, r p a = r p' a) (mem : Fin Pp × Fin Pa → BMem τ) (d : ℕ → ℕ → RTen)
    (hd : ∀ i, (mem i).grad isK = d i.1 i.2) (i : Fin Pp × Fin Pa) (b : ℕ) (m : RTen) :
    Arrives (ofRounds (fun i => glob i.1 i.2) [haloGradRound Pp Pa glob isK r H]) 0 mem i b m ↔
      (r i.1 i.2 > 0 ∧ Pp > 1) ∧ ((b = 1 ∧ (i.1 : ℕ) > 0 ∧ m = haloGradRead (d (prevRank Pp i.1) i.2) (r i.1 i.2) (H (prevRank Pp i.1) i.2) 2) ∨
        (b = 3 ∧ (i.1 : ℕ) + 1 < Pp ∧ m = haloGradRead (d (nextRank Pp i.1) i.2) (r i.1 i.2) (H (nextRank Pp i.1) i.2) 0)) := by
  have key : Arrives (ofRounds (fun i => glob i.1 i.2) [haloGradRound Pp Pa glob isK r H]) 0 mem i b m ↔
      ∃ (j : Fin Pp × Fin Pa) (c b' : ℕ),
        (if r i.1 i.2 > 0 ∧ Pp > 1 ∧ j.2 = i.2 then (if (j.1 : ℕ) + 1 = i.1 then [1] else if (j.1 : ℕ) = i.1 + 1 then [3] else []) else [])[c]? = some b ∧
        (if r j.1 j.2 > 0 ∧ Pp > 1 ∧ i.2 = j.2 then (if (i.1 : ℕ) + 1 = j.1 then [0] else if (i.1 : ℕ) = j.1 + 1 then [2] else []) else [])[c]? = some b' ∧
        m = haloGradRead (d j.1 j.2) (r j.1 j.2) (H j.1 j.2) b' := by
    simp only [← haloOps_recvs hg, ← haloOps_sends hg, ← hd]
    exact Iff.rfl
  rw [key]
  constructor
  · rintro ⟨j, c, b', h1, h2, rfl⟩
    split_ifs at h1 with h3 h4 h5
    · rw [if_pos ⟨by rw [hr j.1 j.1.2 i.1 i.1.2 j.2 j.2.2, h3.2.2]; exact h3.1, h3.2.1, h3.2.2.symm⟩, if_neg (by omega), if_pos h4.symm] at h2
      rw [getElem?_one] at h1 h2
      refine ⟨⟨h3.1, h3.2.1⟩, Or.inl ⟨h1.2, by omega, ?_⟩⟩
      have hp : (i.1 : ℕ) > 0 := by omega
      have e1 : (j.1 : ℕ) = prevRank Pp i.1 := by have := halo_prev hp; simp only [prevF] at this; omega
      rw [h2.2, h3.2.2, hr j.1 j.1.2 i.1 i.1.2 i.2 i.2.2, e1]
    · rw [if_pos ⟨by rw [hr j.1 j.1.2 i.1 i.1.2 j.2 j.2.2, h3.2.2]; exact h3.1, h3.2.1, h3.2.2.symm⟩, if_pos h5.symm] at h2
      rw [getElem?_one] at h1 h2
      have hp : (i.1 : ℕ) + 1 < Pp := by have := j.1.2; omega
      refine ⟨⟨h3.1, h3.2.1⟩, Or.inr ⟨h1.2, hp, ?_⟩⟩
      have e1 : (j.1 : ℕ) = nextRank Pp i.1 := by have := halo_next hp; simp only [nextF] at this; omega
      rw [h2.2, h3.2.2, hr j.1 j.1.2 i.1 i.1.2 i.2 i.2.2, e1]
    · cases h1
    · cases h1
  · rintro ⟨hrp, ⟨rfl, hp, rfl⟩ | ⟨rfl, hp, rfl⟩⟩
    · refine ⟨(prevF i.1, i.2), 0, 2, ?_, ?_, ?_⟩
      · rw [if_pos ⟨hrp.1, hrp.2, rfl⟩, if_pos (by rw [halo_prev hp]; omega)]
        rfl
      · rw [if_pos ⟨by dsimp only; rw [hr _ (prevF i.1).2 i.1 i.1.2 i.2 i.2.2]; exact hrp.1, hrp.2, rfl⟩, if_neg (by rw [halo_prev hp]; omega), if_pos (by rw [halo_prev hp]; omega)]
        rfl
      · dsimp only
        rw [hr _ (prevF i.1).2 i.1 i.1.2 i.2 i.2.2]
        rfl
    · refine ⟨(nextF i.1, i.2), 0, 0, ?_, ?_, ?_⟩
      · rw [if_pos ⟨hrp.1, hrp.2, rfl⟩, if_neg (by rw [halo_next hp]; omega), if_pos (by rw [halo_next hp])]
        rfl
      · rw [if_pos ⟨by dsimp only; rw [hr _ (nextF i.1).2 i.1 i.1.2 i.2 i.2.2]; exact hrp.1, hrp.2, rfl⟩, if_pos (by rw [halo_next hp])]
        rfl
      · dsimp only
        rw [hr _ (nextF i.1).2 i.1 i.1.2 i.2 i.2.2]
        rfl

theorem setGrad_grad (s : BMem τ) : s.setGrad isK (s.grad isK) = s := by
  unfold BMem.setGrad BMem.grad
  cases isK <;> rfl

/-- The backward pass of the halo exchange gives `haloGrad`. -/
theorem run_haloGrad (hg : GlobInj Pp Pa glob) (hr : ∀ p < Pp, ∀ p' < Pp, ∀ a < Pa, r p a = r p' a) (mem : Fin Pp × Fin Pa → BMem τ) (d : ℕ → ℕ → RTen)
    (hd : ∀ i, (mem i).grad isK = d i.1 i.2) (i : Fin Pp × Fin Pa) :
    (haloGradRound Pp Pa glob isK r H).run (fun i => glob i.1 i.2) mem i = (mem i).setGrad isK (haloGrad Pp (r i.1 i.2) (fun s => H s i.2) d i.1 i.2) := by
  have hM := matched_haloGrad (τ := τ) (isK := isK) (H := H) hg hr
  change (haloGradRound Pp Pa glob isK r H).after i (mem i) (delivered (ofRounds (fun i => glob i.1 i.2) [haloGradRound Pp Pa glob isK r H]) 0 mem i) = _
  have ha : ∀ (s : BMem τ) x, (haloGradRound Pp Pa glob isK r H).after i s x =
      if r i.1 i.2 > 0 ∧ Pp > 1 then s.setGrad isK (haloGradAfter (s.grad isK) Pp i.1 (r i.1 i.2) (H i.1 i.2) x) else s := fun _ _ => rfl
  rw [ha]
  unfold haloGrad
  by_cases h : r i.1 i.2 > 0 ∧ Pp > 1
  · rw [if_pos h, if_pos h, hd]
    congr 1
    have h1 : (i.1 : ℕ) > 0 → delivered (ofRounds (fun i => glob i.1 i.2) [haloGradRound Pp Pa glob isK r H]) 0 mem i 1 =
        some (haloGradRead (d (prevRank Pp i.1) i.2) (r i.1 i.2) (H (prevRank Pp i.1) i.2) 2) := fun hp =>
      (delivered_iff hM Nat.zero_lt_one mem i 1 _).2 ((arrives_haloGrad hg hr mem d hd i 1 _).2 ⟨h, Or.inl ⟨rfl, hp, rfl⟩⟩)
    have h3 : (i.1 : ℕ) + 1 < Pp → delivered (ofRounds (fun i => glob i.1 i.2) [haloGradRound Pp Pa glob isK r H]) 0 mem i 3 =
        some (haloGradRead (d (nextRank Pp i.1) i.2) (r i.1 i.2) (H (nextRank Pp i.1) i.2) 0) := fun hp =>
      (delivered_iff hM Nat.zero_lt_one mem i 3 _).2 ((arrives_haloGrad hg hr mem d hd i 3 _).2 ⟨h, Or.inr ⟨rfl, hp, rfl⟩⟩)
    generalize delivered (ofRounds (fun i => glob i.1 i.2) [haloGradRound Pp Pa glob isK r H]) 0 mem i = x at h1 h3
    unfold haloGradAfter haloBackward
    dsimp only
    congr 1
    funext b c y w
    by_cases hp : (i.1 : ℕ) > 0 <;> by_cases hn : (i.1 : ℕ) + 1 < Pp
    · rw [h1 hp, h3 hn]
      simp only [hp, hn, true_and, if_true]
      split_ifs <;> rfl
    · rw [h1 hp]
      simp only [hp, hn, true_and, false_and, if_true, if_false]
      split_ifs <;> rfl
    · rw [h3 hn]
      simp only [hp, hn, true_and, false_and, if_true, if_false]
      split_ifs <;> rfl
    · simp only [hp, hn, false_and, if_false]
      rfl
  · rw [if_neg h, if_neg h, ← hd, setGrad_grad]

theorem fits_haloGrad (hg : GlobInj Pp Pa glob) (hr : ∀ p < Pp, ∀ p' < Pp, ∀ a < Pa, r p a = r p' a) (mem : Fin Pp × Fin Pa → BMem τ) (d : ℕ → ℕ → RTen)
    (hd : ∀ i, (mem i).grad isK = d i.1 i.2) (hH : ∀ p < Pp, ∀ a < Pa, r p a > 0 → Pp > 1 → (d p a).H = H p a + 2 * r p a) :
    (haloGradRound Pp Pa glob isK r H).Fits (fun i => glob i.1 i.2) mem := by
  intro i b m hA
  change m.H = r i.1 i.2
  obtain ⟨h, ⟨-, hp, rfl⟩ | ⟨-, hp, rfl⟩⟩ := (arrives_haloGrad hg hr mem d hd i b m).1 hA
  · have hb : prevRank Pp i.1 < Pp := Nat.mod_lt _ i.1.pos
    have e := hr (prevRank Pp i.1) hb i.1 i.1.2 i.2 i.2.2
    have := hH (prevRank Pp i.1) hb i.2 i.2.2 (by omega) h.2
    change (d (prevRank Pp i.1) i.2).H - (r i.1 i.2 + H (prevRank Pp i.1) i.2) = _
    omega
  · have hb : nextRank Pp i.1 < Pp := Nat.mod_lt _ i.1.pos
    have e := hr (nextRank Pp i.1) hb i.1 i.1.2 i.2 i.2.2
    have := hH (nextRank Pp i.1) hb i.2 i.2.2 (by omega) h.2
    change min (r i.1 i.2) (d (nextRank Pp i.1) i.2).H = _
    omega

end

end
end Verif.Msg
