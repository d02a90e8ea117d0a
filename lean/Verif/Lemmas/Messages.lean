import Verif.Spec.Messages
import Mathlib.Tactic.Linarith
/-!
The invariant of programs with matched batches.
-/
namespace Verif.Msg
open Verif Verif.Spec.Msg Finset

variable {ι S M : Type}

theorem sent_succ (g : Prog ι S M) (i j : ι) (n : ℕ) : g.sent i j (n + 1) = g.sent i j n + (sendsTo (g.glob j) (g.ops i n)).length := by
  unfold Prog.sent; rw [sum_range_succ]

theorem recvd_succ (g : Prog ι S M) (i j : ι) (n : ℕ) : g.recvd i j (n + 1) = g.recvd i j n + (recvsFrom (g.glob i) (g.ops j n)).length := by
  unfold Prog.recvd; rw [sum_range_succ]

theorem sent_mono (g : Prog ι S M) (i j : ι) {n m : ℕ} (h : n ≤ m) : g.sent i j n ≤ g.sent i j m := by
  unfold Prog.sent
  exact sum_le_sum_of_subset (range_mono h)

theorem sent_eq_recvd {g : Prog ι S M} (hg : Matched g) (i j : ι) {n : ℕ} (hn : n ≤ g.rounds) : g.sent i j n = g.recvd i j n := by
  unfold Prog.sent Prog.recvd
  exact sum_congr rfl fun r hr => hg.pair r ((mem_range.1 hr).trans_le hn) i j

theorem arrives_unique {g : Prog ι S M} (hg : Matched g) {n : ℕ} (hn : n < g.rounds) {mem : ι → S} {i : ι} {b : ℕ} {m m' : M}
    (h : Arrives g n mem i b m) (h' : Arrives g n mem i b m') : m = m' := by
  obtain ⟨j, c, b1, h1, h2, rfl⟩ := h
  obtain ⟨j', c', b1', h1', h2', rfl⟩ := h'
  obtain ⟨rfl, rfl⟩ := hg.distinct i n hn j j' c c' b h1 h1'
  rw [h2] at h2'
  cases h2'
  rfl

theorem delivered_iff {g : Prog ι S M} (hg : Matched g) {n : ℕ} (hn : n < g.rounds) (mem : ι → S) (i : ι) (b : ℕ) (m : M) :
    delivered g n mem i b = some m ↔ Arrives g n mem i b m := by
  unfold delivered
  constructor
  · intro h
    split at h
    · next hx => cases h; exact hx.choose_spec
    · cases h
  · intro h
    rw [dif_pos ⟨m, h⟩]
    congr 1
    exact arrives_unique hg hn (Exists.choose_spec ⟨m, h⟩) h

/-- The number of batches a process has posted. -/
def posted (p : Proc S M) : ℕ := p.round + if p.stage = .ready then 0 else 1

/-- The memory a process has in lockstep. -/
noncomputable def memAt (g : Prog ι S M) (mem : ι → S) (i : ι) (p : Proc S M) : S :=
  if p.stage = .worked then g.work i p.round (lockstep g mem p.round i) else lockstep g mem p.round i

/-- What holds in every state that is reached without a fault. -/
structure Inv (g : Prog ι S M) (mem : ι → S) (s : Net ι S M) : Prop where
  le : ∀ i, (s.proc i).round ≤ g.rounds
  lt : ∀ i, (s.proc i).stage ≠ .ready → (s.proc i).round < g.rounds
  loS : ∀ i j, g.sent i j (s.proc i).round ≤ s.cnt i j
  hiS : ∀ i j, s.cnt i j ≤ g.sent i j (posted (s.proc i))
  loR : ∀ i j, g.sent i j (s.proc j).round ≤ s.cnt i j
  hiR : ∀ i j, s.cnt i j ≤ g.sent i j (posted (s.proc j))
  same : ∀ i, (s.proc i).mem = memAt g mem i (s.proc i)
  inbox : ∀ i, (s.proc i).stage ≠ .ready → ∀ b m, (s.proc i).inbox b = some m ↔
    ∃ (j : ι) (c b' : ℕ), g.sent j i (s.proc i).round + c < s.cnt j i ∧ (recvsFrom (g.glob j) (g.ops i (s.proc i).round))[c]? = some b ∧
      (sendsTo (g.glob i) (g.ops j (s.proc i).round))[c]? = some b' ∧ m = g.read j (s.proc i).round (lockstep g mem (s.proc i).round j) b'
  fitCur : ∀ i, (s.proc i).stage ≠ .ready → ∀ b m, (s.proc i).inbox b = some m → g.fits i (s.proc i).round (lockstep g mem (s.proc i).round i) b m
  fit : ∀ i, ∀ n < (s.proc i).round, ∀ b m, Arrives g n (lockstep g mem n) i b m → g.fits i n (lockstep g mem n i) b m

theorem inv_init (g : Prog ι S M) (mem : ι → S) : Inv g mem (Net.init mem) where
  le i := Nat.zero_le _
  lt i h := absurd rfl h
  loS i j := le_of_eq (by simp [Prog.sent, Net.init])
  hiS i j := Nat.zero_le _
  loR i j := le_of_eq (by simp [Prog.sent, Net.init])
  hiR i j := Nat.zero_le _
  same i := rfl
  inbox i h := absurd rfl h
  fitCur i h := absurd rfl h
  fit i n h := absurd h (Nat.not_lt_zero _)

theorem read_mem {g : Prog ι S M} (hg : Matched g) {mem : ι → S} {s : Net ι S M} (h : Inv g mem s) (i : ι) (b : ℕ) :
    g.read i (s.proc i).round (s.proc i).mem b = g.read i (s.proc i).round (lockstep g mem (s.proc i).round i) b := by
  rw [h.same i, memAt]
  split
  · exact hg.read_work _ _ _ _
  · rfl

theorem fits_mem {g : Prog ι S M} (hg : Matched g) {mem : ι → S} {s : Net ι S M} (h : Inv g mem s) (i : ι) (b : ℕ) (m : M) :
    g.fits i (s.proc i).round (s.proc i).mem b m ↔ g.fits i (s.proc i).round (lockstep g mem (s.proc i).round i) b m := by
  rw [h.same i, memAt]
  split
  · exact hg.fits_work _ _ _ _ _
  · rfl

/-- Two ranks that transfer a message are in the same round, and it is the message with the same number on both sides. -/
theorem same_round {g : Prog ι S M} (hg : Matched g) {mem : ι → S} {s : Net ι S M} (h : Inv g mem s) {i j : ι} {c c' b b' : ℕ}
    (hi : (s.proc i).stage ≠ .ready) (hj : (s.proc j).stage ≠ .ready)
    (hc : g.sent i j (s.proc i).round + c = s.cnt i j) (hb : (sendsTo (g.glob j) (g.ops i (s.proc i).round))[c]? = some b)
    (hc' : g.recvd i j (s.proc j).round + c' = s.cnt i j) (hb' : (recvsFrom (g.glob i) (g.ops j (s.proc j).round))[c']? = some b') :
    (s.proc i).round = (s.proc j).round ∧ c = c' ∧ s.cnt i j < g.sent i j ((s.proc j).round + 1) := by
  have li := h.lt i hi
  have lj := h.lt j hj
  have hcl := (List.getElem?_eq_some_iff.1 hb).1
  have hcl' := (List.getElem?_eq_some_iff.1 hb').1
  have e1 : s.cnt i j < g.sent i j ((s.proc i).round + 1) := by rw [sent_succ]; omega
  have e2 : s.cnt i j < g.sent i j ((s.proc j).round + 1) := by rw [sent_eq_recvd hg i j (by omega), recvd_succ]; omega
  rw [← sent_eq_recvd hg i j lj.le] at hc'
  have hr : (s.proc i).round = (s.proc j).round := by
    rcases lt_trichotomy (s.proc i).round (s.proc j).round with hlt | he | hlt
    · have := sent_mono g i j (Nat.succ_le_of_lt hlt)
      simp only [Nat.succ_eq_add_one] at this
      omega
    · exact he
    · have := sent_mono g i j (Nat.succ_le_of_lt hlt)
      simp only [Nat.succ_eq_add_one] at this
      omega
  refine ⟨hr, ?_, e2⟩
  rw [hr] at hc
  omega

variable [DecidableEq ι]

theorem inv_post {g : Prog ι S M} {mem : ι → S} {s : Net ι S M} (h : Inv g mem s) (i : ι) (hr : (s.proc i).round < g.rounds)
    (hs : (s.proc i).stage = .ready) :
    Inv g mem ⟨Function.update s.proc i ⟨(s.proc i).round, .posted, (s.proc i).mem, fun _ => none⟩, s.cnt, false⟩ := by
  have hp : posted (s.proc i) = (s.proc i).round := by simp [posted, hs]
  have hround : ∀ k, (Function.update s.proc i ⟨(s.proc i).round, .posted, (s.proc i).mem, fun _ => none⟩ k).round = (s.proc k).round := by
    intro k
    by_cases hk : k = i
    · subst hk; simp
    · simp [hk]
  have hpost : ∀ k, posted (s.proc k) ≤ posted (Function.update s.proc i ⟨(s.proc i).round, .posted, (s.proc i).mem, fun _ => none⟩ k) := by
    intro k
    by_cases hk : k = i
    · subst hk; simp [posted, hs]
    · simp [hk]
  refine ⟨?_, ?_, ?_, ?_, ?_, ?_, ?_, ?_, ?_, ?_⟩
  · intro k; dsimp only; rw [hround]; exact h.le k
  · intro k hk
    dsimp only at hk ⊢
    rw [hround]
    by_cases hki : k = i
    · subst hki; exact hr
    · rw [Function.update_of_ne hki] at hk; exact h.lt k hk
  · intro k l; dsimp only; rw [hround]; exact h.loS k l
  · intro k l; exact (h.hiS k l).trans (sent_mono g k l (hpost k))
  · intro k l; dsimp only; rw [hround]; exact h.loR k l
  · intro k l; exact (h.hiR k l).trans (sent_mono g k l (hpost l))
  · intro k
    dsimp only
    by_cases hki : k = i
    · subst hki
      have := h.same k
      rw [Function.update_self]
      simpa [memAt, hs] using this
    · rw [Function.update_of_ne hki]; exact h.same k
  · intro k hk b m
    dsimp only at hk ⊢
    by_cases hki : k = i
    · subst hki
      rw [Function.update_self]
      dsimp only
      constructor
      · intro hx; cases hx
      · rintro ⟨j, c, b', h1, -⟩
        exfalso
        have := h.hiR j k
        rw [hp] at this
        omega
    · rw [Function.update_of_ne hki] at hk ⊢; exact h.inbox k hk b m
  · intro k hk b m
    dsimp only at hk ⊢
    by_cases hki : k = i
    · subst hki
      rw [Function.update_self]
      intro hx
      cases hx
    · rw [Function.update_of_ne hki] at hk ⊢; exact h.fitCur k hk b m
  · intro k n hn
    dsimp only at hn
    rw [hround] at hn
    exact h.fit k n hn

theorem inv_work {g : Prog ι S M} {mem : ι → S} {s : Net ι S M} (h : Inv g mem s) (i : ι) (hs : (s.proc i).stage = .posted) :
    Inv g mem ⟨Function.update s.proc i ⟨(s.proc i).round, .worked, g.work i (s.proc i).round (s.proc i).mem, (s.proc i).inbox⟩, s.cnt, false⟩ := by
  set q : Proc S M := ⟨(s.proc i).round, .worked, g.work i (s.proc i).round (s.proc i).mem, (s.proc i).inbox⟩ with hq
  have hsne : (s.proc i).stage ≠ .ready := by rw [hs]; simp
  have hround : ∀ k, (Function.update s.proc i q k).round = (s.proc k).round := by
    intro k
    by_cases hk : k = i
    · subst hk; simp [hq]
    · simp [hk]
  have hinbox : ∀ k, (Function.update s.proc i q k).inbox = (s.proc k).inbox := by
    intro k
    by_cases hk : k = i
    · subst hk; simp [hq]
    · simp [hk]
  have hst : ∀ k, (Function.update s.proc i q k).stage ≠ .ready → (s.proc k).stage ≠ .ready := by
    intro k hk
    by_cases hki : k = i
    · subst hki; exact hsne
    · rwa [Function.update_of_ne hki] at hk
  have hpost : ∀ k, posted (Function.update s.proc i q k) = posted (s.proc k) := by
    intro k
    by_cases hk : k = i
    · subst hk; simp [posted, hs, hq]
    · simp [hk]
  refine ⟨?_, ?_, ?_, ?_, ?_, ?_, ?_, ?_, ?_, ?_⟩
  · intro k; dsimp only; rw [hround]; exact h.le k
  · intro k hk; dsimp only; rw [hround]; exact h.lt k (hst k hk)
  · intro k l; dsimp only; rw [hround]; exact h.loS k l
  · intro k l; dsimp only; rw [hpost]; exact h.hiS k l
  · intro k l; dsimp only; rw [hround]; exact h.loR k l
  · intro k l; dsimp only; rw [hpost]; exact h.hiR k l
  · intro k
    dsimp only
    by_cases hki : k = i
    · subst hki
      rw [Function.update_self]
      have := h.same k
      simp [memAt, hs] at this
      simp [hq, memAt, this]
    · rw [Function.update_of_ne hki]; exact h.same k
  · intro k hk b m; dsimp only; rw [hround, hinbox]; exact h.inbox k (hst k hk) b m
  · intro k hk b m; dsimp only; rw [hround, hinbox]; exact h.fitCur k (hst k hk) b m
  · intro k n hn
    dsimp only at hn
    rw [hround] at hn
    exact h.fit k n hn

theorem inv_transfer {g : Prog ι S M} {mem : ι → S} {s : Net ι S M} (hg : Matched g) (h : Inv g mem s) (i j : ι) {c c' b b' : ℕ}
    (hi : (s.proc i).stage ≠ .ready) (hj : (s.proc j).stage ≠ .ready)
    (hc : g.sent i j (s.proc i).round + c = s.cnt i j) (hb : (sendsTo (g.glob j) (g.ops i (s.proc i).round))[c]? = some b)
    (hc' : g.recvd i j (s.proc j).round + c' = s.cnt i j) (hb' : (recvsFrom (g.glob i) (g.ops j (s.proc j).round))[c']? = some b')
    (hfit : g.fits j (s.proc j).round (s.proc j).mem b' (g.read i (s.proc i).round (s.proc i).mem b)) :
    Inv g mem ⟨Function.update s.proc j
        ⟨(s.proc j).round, (s.proc j).stage, (s.proc j).mem, Function.update (s.proc j).inbox b' (some (g.read i (s.proc i).round (s.proc i).mem b))⟩,
      Function.update s.cnt i (Function.update (s.cnt i) j (s.cnt i j + 1)), false⟩ := by
  obtain ⟨hrr, rfl, hlt⟩ := same_round hg h hi hj hc hb hc' hb'
  rw [read_mem hg h, hrr] at hfit ⊢
  rw [fits_mem hg h] at hfit
  rw [hrr] at hb hc
  have hcl := (List.getElem?_eq_some_iff.1 hb).1
  set msg := g.read i (s.proc j).round (lockstep g mem (s.proc j).round i) b with hmsg
  set q : Proc S M := ⟨(s.proc j).round, (s.proc j).stage, (s.proc j).mem, Function.update (s.proc j).inbox b' (some msg)⟩ with hq
  have hround : ∀ k, (Function.update s.proc j q k).round = (s.proc k).round := by
    intro k
    by_cases hk : k = j
    · subst hk; simp [hq]
    · simp [hk]
  have hstage : ∀ k, (Function.update s.proc j q k).stage = (s.proc k).stage := by
    intro k
    by_cases hk : k = j
    · subst hk; simp [hq]
    · simp [hk]
  have hmem : ∀ k, (Function.update s.proc j q k).mem = (s.proc k).mem := by
    intro k
    by_cases hk : k = j
    · subst hk; simp [hq]
    · simp [hk]
  have hpost : ∀ k, posted (Function.update s.proc j q k) = posted (s.proc k) := by intro k; unfold posted; rw [hround, hstage]
  have hcnt : ∀ k l, Function.update s.cnt i (Function.update (s.cnt i) j (s.cnt i j + 1)) k l = if k = i ∧ l = j then s.cnt i j + 1 else s.cnt k l := by
    intro k l
    by_cases hk : k = i
    · subst hk
      rw [Function.update_self]
      by_cases hl : l = j
      · subst hl; simp
      · simp [hl]
    · rw [Function.update_of_ne hk]; simp [hk]
  have hcle : ∀ k l, s.cnt k l ≤ Function.update s.cnt i (Function.update (s.cnt i) j (s.cnt i j + 1)) k l := by
    intro k l
    rw [hcnt]
    split
    · next e => rw [e.1, e.2]; omega
    · exact le_rfl
  have hpi : posted (s.proc i) = (s.proc j).round + 1 := by simp [posted, hi, hrr]
  have hpj : posted (s.proc j) = (s.proc j).round + 1 := by simp [posted, hj]
  refine ⟨?_, ?_, ?_, ?_, ?_, ?_, ?_, ?_, ?_, ?_⟩
  · intro k; dsimp only; rw [hround]; exact h.le k
  · intro k hk; dsimp only at hk ⊢; rw [hround]; rw [hstage] at hk; exact h.lt k hk
  · intro k l; dsimp only; rw [hround]; exact (h.loS k l).trans (hcle k l)
  · intro k l
    dsimp only
    rw [hpost, hcnt]
    split
    · next e => rw [e.1, e.2, hpi]; omega
    · exact h.hiS k l
  · intro k l; dsimp only; rw [hround]; exact (h.loR k l).trans (hcle k l)
  · intro k l
    dsimp only
    rw [hpost, hcnt]
    split
    · next e => rw [e.1, e.2, hpj]; omega
    · exact h.hiR k l
  · intro k; dsimp only; rw [hmem, h.same k]; unfold memAt; rw [hround]; simp only [hstage]
  · intro k hk b1 m
    dsimp only at hk ⊢
    rw [hstage] at hk
    rw [hround]
    by_cases hkj : k = j
    · subst hkj
      rw [Function.update_self]
      simp only [hq]
      by_cases hbb : b1 = b'
      · subst hbb
        rw [Function.update_self]
        constructor
        · intro e
          obtain rfl := Option.some.inj e
          exact ⟨i, c, b, by rw [hcnt, if_pos ⟨rfl, rfl⟩]; omega, hb', hb, rfl⟩
        · rintro ⟨l, d, b2, -, h2, h3, rfl⟩
          obtain ⟨rfl, rfl⟩ := hg.distinct k _ (h.lt k hk) i l c d b1 hb' h2
          rw [hb] at h3
          cases h3
          rfl
      · rw [Function.update_of_ne hbb, h.inbox k hk b1 m]
        constructor
        · rintro ⟨l, d, b2, h1, h2⟩
          exact ⟨l, d, b2, h1.trans_le (hcle l k), h2⟩
        · rintro ⟨l, d, b2, h1, h2, h3⟩
          refine ⟨l, d, b2, ?_, h2, h3⟩
          rw [hcnt] at h1
          by_cases hl : l = i
          · subst hl
            rw [if_pos ⟨rfl, rfl⟩] at h1
            rcases Nat.lt_or_ge d c with hd | hd
            · omega
            · exfalso
              have : d = c := by omega
              subst this
              rw [hb'] at h2
              cases h2
              exact hbb rfl
          · rw [if_neg (fun e => hl e.1)] at h1
            exact h1
    · rw [Function.update_of_ne hkj, h.inbox k hk b1 m]
      constructor
      · rintro ⟨l, d, b2, h1, h2⟩
        exact ⟨l, d, b2, h1.trans_le (hcle l k), h2⟩
      · rintro ⟨l, d, b2, h1, h2⟩
        refine ⟨l, d, b2, ?_, h2⟩
        rw [hcnt, if_neg (fun e => hkj e.2)] at h1
        exact h1
  · intro k hk b1 m
    dsimp only at hk ⊢
    rw [hstage] at hk
    rw [hround]
    by_cases hkj : k = j
    · subst hkj
      rw [Function.update_self]
      simp only [hq]
      by_cases hbb : b1 = b'
      · subst hbb
        rw [Function.update_self]
        intro e
        rw [← Option.some.inj e]
        exact hfit
      · rw [Function.update_of_ne hbb]; exact h.fitCur k hk b1 m
    · rw [Function.update_of_ne hkj]; exact h.fitCur k hk b1 m
  · intro k n hn
    dsimp only at hn
    rw [hround] at hn
    exact h.fit k n hn

omit [DecidableEq ι] in
/-- At the end of a batch the inbox holds what arrives in lockstep. -/
theorem inbox_complete {g : Prog ι S M} {mem : ι → S} {s : Net ι S M} (hg : Matched g) (h : Inv g mem s) (i : ι) (hs : (s.proc i).stage ≠ .ready)
    (hrecv : ∀ j, g.recvd j i ((s.proc i).round + 1) ≤ s.cnt j i) (b : ℕ) (m : M) :
    (s.proc i).inbox b = some m ↔ Arrives g (s.proc i).round (lockstep g mem (s.proc i).round) i b m := by
  rw [h.inbox i hs b m]
  constructor
  · rintro ⟨j, c, b', -, h2⟩; exact ⟨j, c, b', h2⟩
  · rintro ⟨j, c, b', h1, h2⟩
    refine ⟨j, c, b', ?_, h1, h2⟩
    have := (List.getElem?_eq_some_iff.1 h1).1
    have hl := h.lt i hs
    have h3 := hrecv j
    rw [recvd_succ, ← sent_eq_recvd hg j i hl.le] at h3
    omega

theorem inv_wait {g : Prog ι S M} {mem : ι → S} {s : Net ι S M} (hg : Matched g) (h : Inv g mem s) (i : ι) (hs : (s.proc i).stage = .worked)
    (hsend : ∀ j, g.sent i j ((s.proc i).round + 1) ≤ s.cnt i j) (hrecv : ∀ j, g.recvd j i ((s.proc i).round + 1) ≤ s.cnt j i) :
    Inv g mem ⟨Function.update s.proc i ⟨(s.proc i).round + 1, .ready, g.after i (s.proc i).round (s.proc i).mem (s.proc i).inbox, fun _ => none⟩, s.cnt, false⟩ := by
  have hsne : (s.proc i).stage ≠ .ready := by rw [hs]; simp
  have hl := h.lt i hsne
  set q : Proc S M := ⟨(s.proc i).round + 1, .ready, g.after i (s.proc i).round (s.proc i).mem (s.proc i).inbox, fun _ => none⟩ with hq
  have hpost : ∀ k, posted (Function.update s.proc i q k) = posted (s.proc k) := by
    intro k
    by_cases hk : k = i
    · subst hk; simp [posted, hs, hq]
    · simp [hk]
  refine ⟨?_, ?_, ?_, ?_, ?_, ?_, ?_, ?_, ?_, ?_⟩
  · intro k
    dsimp only
    by_cases hki : k = i
    · subst hki; rw [Function.update_self]; exact hl
    · rw [Function.update_of_ne hki]; exact h.le k
  · intro k hk
    dsimp only at hk ⊢
    by_cases hki : k = i
    · subst hki; rw [Function.update_self] at hk; exact absurd rfl hk
    · rw [Function.update_of_ne hki] at hk ⊢; exact h.lt k hk
  · intro k l
    dsimp only
    by_cases hki : k = i
    · subst hki; rw [Function.update_self]; exact hsend l
    · rw [Function.update_of_ne hki]; exact h.loS k l
  · intro k l; dsimp only; rw [hpost]; exact h.hiS k l
  · intro k l
    dsimp only
    by_cases hli : l = i
    · subst hli; rw [Function.update_self]; simp only [hq]; rw [sent_eq_recvd hg k l hl]; exact hrecv k
    · rw [Function.update_of_ne hli]; exact h.loR k l
  · intro k l; dsimp only; rw [hpost]; exact h.hiR k l
  · intro k
    dsimp only
    by_cases hki : k = i
    · subst hki
      rw [Function.update_self]
      simp only [hq]
      have e0 := h.same k
      rw [memAt, if_pos hs] at e0
      rw [e0]
      change _ = g.after k (s.proc k).round _ _
      congr 1
      funext b
      refine Option.ext fun m => ?_
      rw [inbox_complete hg h k hsne hrecv b m, delivered_iff hg hl]
    · rw [Function.update_of_ne hki]; exact h.same k
  · intro k hk b m
    dsimp only at hk ⊢
    by_cases hki : k = i
    · subst hki; rw [Function.update_self] at hk; exact absurd rfl hk
    · rw [Function.update_of_ne hki] at hk ⊢; exact h.inbox k hk b m
  · intro k hk b m
    dsimp only at hk ⊢
    by_cases hki : k = i
    · subst hki; rw [Function.update_self] at hk; exact absurd rfl hk
    · rw [Function.update_of_ne hki] at hk ⊢; exact h.fitCur k hk b m
  · intro k n hn b m hA
    dsimp only at hn
    by_cases hki : k = i
    · subst hki
      rw [Function.update_self] at hn
      simp only [hq] at hn
      rcases Nat.lt_succ_iff_lt_or_eq.1 hn with h1 | rfl
      · exact h.fit k n h1 b m hA
      · exact h.fitCur k hsne b m ((inbox_complete hg h k hsne hrecv b m).2 hA)
    · rw [Function.update_of_ne hki] at hn; exact h.fit k n hn b m hA

theorem inv_step {g : Prog ι S M} {mem : ι → S} (hg : Matched g) {s s' : Net ι S M} (h : Inv g mem s) (hst : Step g s s') (hf : s'.fault = false) :
    Inv g mem s' := by
  cases hst with
  | post i _ hr hs => exact inv_post h i hr hs
  | work i _ hs => exact inv_work h i hs
  | transfer i j c c' b b' _ hi hj hc hb hc' hb' hfit => exact inv_transfer hg h i j hi hj hc hb hc' hb' hfit
  | misfit i j c c' b b' _ hi hj hc hb hc' hb' hfit => cases hf
  | wait i _ hs _ hsend hrecv => exact inv_wait hg h i hs hsend hrecv

theorem step_fault {g : Prog ι S M} {s s' : Net ι S M} (hst : Step g s s') : s.fault = false := by cases hst <;> assumption

theorem inv_exec {g : Prog ι S M} {mem : ι → S} (hg : Matched g) {n : ℕ} {s : Net ι S M} (h : Exec g (Net.init mem) n s) (hf : s.fault = false) :
    Inv g mem s := by
  induction h with
  | nil => exact inv_init g mem
  | cons _ hst ih => exact inv_step hg (ih (step_fault hst)) hst hf

/-- A message of the wrong size shows in lockstep. -/
theorem misfit_lockstep {g : Prog ι S M} {mem : ι → S} (hg : Matched g) {s s' : Net ι S M} (h : Inv g mem s) (hst : Step g s s') (hf : s'.fault = true) :
    ∃ n < g.rounds, ¬ FitsAt g mem n := by
  cases hst with
  | post i _ hr hs => cases hf
  | work i _ hs => cases hf
  | transfer i j c c' b b' _ hi hj hc hb hc' hb' hfit => cases hf
  | misfit i j c c' b b' _ hi hj hc hb hc' hb' hfit =>
    obtain ⟨hrr, rfl, -⟩ := same_round hg h hi hj hc hb hc' hb'
    rw [read_mem hg h, hrr, fits_mem hg h] at hfit
    rw [hrr] at hb
    exact ⟨_, h.lt j hj, fun hF => hfit (hF j b' _ ⟨i, c, b, hb', hb, rfl⟩)⟩
  | wait i _ hs _ hsend hrecv => cases hf

/-- The number of steps a process has taken in its own program. -/
def ownSteps (p : Proc S M) : ℕ := 3 * p.round + match p.stage with | .ready => 0 | .posted => 1 | .worked => 2

/-- The number of steps taken. -/
def taken [Fintype ι] (s : Net ι S M) : ℕ := ∑ i, ownSteps (s.proc i) + ∑ i, ∑ j, s.cnt i j

theorem sum_update [Fintype ι] (f : ι → Proc S M) (i : ι) (p : Proc S M) (h : ownSteps p = ownSteps (f i) + 1) :
    ∑ k, ownSteps (Function.update f i p k) = ∑ k, ownSteps (f k) + 1 := by
  rw [← Finset.add_sum_erase _ _ (Finset.mem_univ i), ← Finset.add_sum_erase _ (fun k => ownSteps (f k)) (Finset.mem_univ i), Function.update_self, h]
  have : ∑ k ∈ univ.erase i, ownSteps (Function.update f i p k) = ∑ k ∈ univ.erase i, ownSteps (f k) :=
    sum_congr rfl fun k hk => by rw [Function.update_of_ne (ne_of_mem_erase hk)]
  rw [this]
  omega

theorem taken_step [Fintype ι] {g : Prog ι S M} {s s' : Net ι S M} (hst : Step g s s') (hf : s'.fault = false) : taken s' = taken s + 1 := by
  unfold taken
  cases hst with
  | post i _ hr hs =>
    dsimp only
    rw [sum_update s.proc i _ (by simp [ownSteps, hs])]
    omega
  | work i _ hs =>
    dsimp only
    rw [sum_update s.proc i _ (by simp [ownSteps, hs])]
    omega
  | transfer i j c c' b b' _ hi hj hc hb hc' hb' hfit =>
    dsimp only
    have e1 : ∀ q : Proc S M, ownSteps q = ownSteps (s.proc j) → ∑ k, ownSteps (Function.update s.proc j q k) = ∑ k, ownSteps (s.proc k) := by
      intro q hq
      refine sum_congr rfl fun k _ => ?_
      by_cases hk : k = j
      · subst hk; rw [Function.update_self, hq]
      · rw [Function.update_of_ne hk]
    rw [e1 ⟨(s.proc j).round, (s.proc j).stage, (s.proc j).mem, Function.update (s.proc j).inbox b' (some (g.read i (s.proc i).round (s.proc i).mem b))⟩ rfl]
    have e2 : ∑ k, ∑ l, Function.update s.cnt i (Function.update (s.cnt i) j (s.cnt i j + 1)) k l = ∑ k, ∑ l, s.cnt k l + 1 := by
      rw [← Finset.add_sum_erase _ _ (Finset.mem_univ i), ← Finset.add_sum_erase _ (fun k => ∑ l, s.cnt k l) (Finset.mem_univ i), Function.update_self]
      have t1 : ∑ k ∈ univ.erase i, ∑ l, Function.update s.cnt i (Function.update (s.cnt i) j (s.cnt i j + 1)) k l = ∑ k ∈ univ.erase i, ∑ l, s.cnt k l :=
        sum_congr rfl fun k hk => by rw [Function.update_of_ne (ne_of_mem_erase hk)]
      have t2 : ∑ l, Function.update (s.cnt i) j (s.cnt i j + 1) l = ∑ l, s.cnt i l + 1 := by
        rw [← Finset.add_sum_erase _ _ (Finset.mem_univ j), ← Finset.add_sum_erase _ (fun l => s.cnt i l) (Finset.mem_univ j), Function.update_self]
        have : ∑ l ∈ univ.erase j, Function.update (s.cnt i) j (s.cnt i j + 1) l = ∑ l ∈ univ.erase j, s.cnt i l :=
          sum_congr rfl fun l hl => by rw [Function.update_of_ne (ne_of_mem_erase hl)]
        omega
      omega
    omega
  | misfit i j c c' b b' _ hi hj hc hb hc' hb' hfit => cases hf
  | wait i _ hs _ hsend hrecv =>
    dsimp only
    rw [sum_update s.proc i _ (by simp only [ownSteps, hs]; omega)]
    omega

theorem taken_exec [Fintype ι] {g : Prog ι S M} {mem : ι → S} {n : ℕ} {s : Net ι S M} (h : Exec g (Net.init mem) n s) (hf : s.fault = false) : taken s = n := by
  induction h with
  | nil => simp [taken, Net.init, ownSteps]
  | cons _ hst ih => rw [taken_step hst hf, ih (step_fault hst)]

omit [DecidableEq ι] in
theorem posted_le {g : Prog ι S M} {mem : ι → S} {s : Net ι S M} (h : Inv g mem s) (i : ι) : posted (s.proc i) ≤ g.rounds := by
  unfold posted
  split
  · exact h.le i
  · next hs => exact h.lt i hs

omit [DecidableEq ι] in
theorem ownSteps_le {g : Prog ι S M} {mem : ι → S} {s : Net ι S M} (h : Inv g mem s) (i : ι) :
    ownSteps (s.proc i) ≤ 3 * g.rounds ∧ (ownSteps (s.proc i) = 3 * g.rounds ↔ (s.proc i).round = g.rounds) := by
  have h1 := h.le i
  have h2 := h.lt i
  unfold ownSteps
  cases hst : (s.proc i).stage with
  | ready => dsimp only; omega
  | posted => rw [hst] at h2; have := h2 (by simp); dsimp only; omega
  | worked => rw [hst] at h2; have := h2 (by simp); dsimp only; omega

omit [DecidableEq ι] in
theorem taken_le [Fintype ι] {g : Prog ι S M} {mem : ι → S} {s : Net ι S M} (h : Inv g mem s) :
    taken s ≤ 3 * g.rounds * Fintype.card ι + ∑ i, ∑ j, g.sent i j g.rounds ∧
      (taken s = 3 * g.rounds * Fintype.card ι + ∑ i, ∑ j, g.sent i j g.rounds ↔ ∀ i, (s.proc i).round = g.rounds) := by
  have e : ∑ _i : ι, 3 * g.rounds = 3 * g.rounds * Fintype.card ι := by rw [sum_const, card_univ, smul_eq_mul, mul_comm]
  have h1 : ∑ i, ownSteps (s.proc i) ≤ ∑ _i : ι, 3 * g.rounds := sum_le_sum fun i _ => (ownSteps_le h i).1
  have h2 : ∑ i, ∑ j, s.cnt i j ≤ ∑ i, ∑ j, g.sent i j g.rounds :=
    sum_le_sum fun i _ => sum_le_sum fun j _ => (h.hiS i j).trans (sent_mono g i j (posted_le h i))
  unfold taken
  rw [← e]
  refine ⟨by omega, fun ht i => ?_, fun ht => ?_⟩
  · have h3 : ∑ i, ownSteps (s.proc i) = ∑ _i : ι, 3 * g.rounds := by omega
    exact (ownSteps_le h i).2.1 ((sum_eq_sum_iff_of_le fun i _ => (ownSteps_le h i).1).1 h3 i (mem_univ i))
  · have h3 : ∑ i, ownSteps (s.proc i) = ∑ _i : ι, 3 * g.rounds := sum_congr rfl fun i _ => (ownSteps_le h i).2.2 (ht i)
    have h4 : ∑ i, ∑ j, g.sent i j g.rounds ≤ ∑ i, ∑ j, s.cnt i j := sum_le_sum fun i _ => sum_le_sum fun j _ => by
      have := h.loS i j
      rwa [ht i] at this
    omega

/-- A message that is not yet transferred, between ranks in the same round: there is a step. -/
theorem step_pending {g : Prog ι S M} {mem : ι → S} {s : Net ι S M} (hg : Matched g) (h : Inv g mem s) (hf : s.fault = false) {n : ℕ} (hn : n < g.rounds) {i j : ι}
    (hi : (s.proc i).round = n) (hj : n ≤ (s.proc j).round)
    (hlt : s.cnt i j < g.sent i j (n + 1)) : ∃ s', Step g s s' := by
  have hjr : (s.proc j).round = n := by
    by_contra hne
    have h1 := h.loR i j
    have h2 := sent_mono g i j (show n + 1 ≤ (s.proc j).round by omega)
    omega
  by_cases hsi : (s.proc i).stage = .ready
  · exact ⟨_, .post s i hf (by omega) hsi⟩
  by_cases hsj : (s.proc j).stage = .ready
  · exact ⟨_, .post s j hf (by omega) hsj⟩
  have h1 := h.loS i j
  rw [hi] at h1
  rw [sent_succ] at hlt
  have hl : s.cnt i j - g.sent i j n < (sendsTo (g.glob j) (g.ops i n)).length := by omega
  have hl' : s.cnt i j - g.sent i j n < (recvsFrom (g.glob i) (g.ops j n)).length := by rw [← hg.pair n hn i j]; exact hl
  have hb := List.getElem?_eq_getElem hl
  have hb' := List.getElem?_eq_getElem hl'
  have hrec := sent_eq_recvd hg i j hn.le
  by_cases hfit : g.fits j (s.proc j).round (s.proc j).mem (recvsFrom (g.glob i) (g.ops j n))[s.cnt i j - g.sent i j n]
      (g.read i (s.proc i).round (s.proc i).mem (sendsTo (g.glob j) (g.ops i n))[s.cnt i j - g.sent i j n])
  · exact ⟨_, .transfer s i j (s.cnt i j - g.sent i j n) (s.cnt i j - g.sent i j n) _ _ hf hsi hsj (by rw [hi]; omega) (by rw [hi]; exact hb) (by rw [hjr, ← hrec]; omega) (by rw [hjr]; exact hb') hfit⟩
  · exact ⟨_, .misfit s i j (s.cnt i j - g.sent i j n) (s.cnt i j - g.sent i j n) _ _ hf hsi hsj (by rw [hi]; omega) (by rw [hi]; exact hb) (by rw [hjr, ← hrec]; omega) (by rw [hjr]; exact hb') hfit⟩

theorem progress [Finite ι] {g : Prog ι S M} {mem : ι → S} {s : Net ι S M} (hg : Matched g) (h : Inv g mem s) (hf : s.fault = false) {i0 : ι}
    (h0 : (s.proc i0).round < g.rounds) : ∃ s', Step g s s' := by
  have : Nonempty ι := ⟨i0⟩
  obtain ⟨i, hi⟩ := Finite.exists_min fun i => (s.proc i).round
  have hin : (s.proc i).round < g.rounds := (hi i0).trans_lt h0
  cases hst : (s.proc i).stage with
  | ready => exact ⟨_, .post s i hf hin hst⟩
  | posted => exact ⟨_, .work s i hf hst⟩
  | worked =>
    by_cases h1 : ∀ j, g.sent i j ((s.proc i).round + 1) ≤ s.cnt i j
    · by_cases h2 : ∀ j, g.recvd j i ((s.proc i).round + 1) ≤ s.cnt j i
      · exact ⟨_, .wait s i hf hst (hg.peers i _ hin) h1 h2⟩
      · push Not at h2
        obtain ⟨j, hj⟩ := h2
        rw [← sent_eq_recvd hg j i (show (s.proc i).round + 1 ≤ g.rounds from hin)] at hj
        have hjr : (s.proc j).round = (s.proc i).round := by
          by_contra hne
          have h3 := h.loS j i
          have h4 := sent_mono g j i (show (s.proc i).round + 1 ≤ (s.proc j).round from by have := hi j; omega)
          omega
        exact step_pending hg h hf hin hjr le_rfl hj
    · push Not at h1
      obtain ⟨j, hj⟩ := h1
      exact step_pending hg h hf hin rfl (hi j) hj

end Verif.Msg
