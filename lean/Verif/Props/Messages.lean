import Verif.Lemmas.MessagesRing
import Verif.Props.DistAttention
/-!
C100: the messages of distributed attention under every schedule.

An execution is any interleaving of the steps of the ranks and of the transfers of messages (`Step`, `Exec`). `lockstep` is what the ranks compute when all finish a round before any begins the next.
-/
namespace Verif.Props
open Verif Verif.Msg Verif.Spec.Msg Verif.Dist Verif.Ring Verif.Spec Verif.Spec.Attn Verif.Spec.Ring Finset

section
variable {ι S M : Type} [DecidableEq ι]

/-- C100: whatever the schedule, a rank that has done its rounds holds what it holds in lockstep. In particular two executions give the same. -/
theorem C100_deliver (g : Prog ι S M) (hg : Matched g) (mem : ι → S) (n : ℕ) (s : Net ι S M) (h : Exec g (Net.init mem) n s) (hf : s.fault = false) (i : ι)
    (hi : (s.proc i).round = g.rounds) : (s.proc i).mem = lockstep g mem g.rounds i := by
  have hI := inv_exec hg h hf
  have hst : (s.proc i).stage = .ready := by
    by_contra hne
    have := hI.lt i hne
    omega
  rw [hI.same i, memAt, if_neg (by rw [hst]; simp), hi]

/-- C100: no schedule leads to a deadlock: as long as some rank has not finished, some rank or message can move. -/
theorem C100_progress [Finite ι] (g : Prog ι S M) (hg : Matched g) (mem : ι → S) (n : ℕ) (s : Net ι S M) (h : Exec g (Net.init mem) n s) (hf : s.fault = false)
    (hi : ∃ i, (s.proc i).round ≠ g.rounds) : ∃ s', Step g s s' := by
  have hI := inv_exec hg h hf
  obtain ⟨i, hi⟩ := hi
  exact progress hg hI hf (lt_of_le_of_ne (hI.le i) hi)

/-- C100: every execution ends: it has at most three steps per rank and round and one per message, and it has that many exactly when all ranks have finished. -/
theorem C100_steps [Fintype ι] (g : Prog ι S M) (hg : Matched g) (mem : ι → S) (n : ℕ) (s : Net ι S M) (h : Exec g (Net.init mem) n s) (hf : s.fault = false) :
    n ≤ 3 * g.rounds * Fintype.card ι + ∑ i, ∑ j, g.sent i j g.rounds ∧
      (n = 3 * g.rounds * Fintype.card ι + ∑ i, ∑ j, g.sent i j g.rounds ↔ ∀ i, (s.proc i).round = g.rounds) := by
  have := taken_le (inv_exec hg h hf)
  rwa [taken_exec h hf] at this

/-- C100: if in lockstep every message has the size of its buffer, then no execution meets a message of another size. -/
theorem C100_sizes (g : Prog ι S M) (hg : Matched g) (mem : ι → S) (hF : ∀ n < g.rounds, FitsAt g mem n) (n : ℕ) (s : Net ι S M)
    (h : Exec g (Net.init mem) n s) : s.fault = false := by
  cases h with
  | nil => rfl
  | cons h hst =>
    by_contra hf
    obtain ⟨m, hm, hne⟩ := misfit_lockstep hg (inv_exec hg h (step_fault hst)) hst (by simpa using hf)
    exact hne (hF m hm)

/-- C100: and then all ranks can finish. -/
theorem C100_completes [Fintype ι] (g : Prog ι S M) (hg : Matched g) (mem : ι → S) (hF : ∀ n < g.rounds, FitsAt g mem n) :
    ∃ s, Exec g (Net.init mem) (3 * g.rounds * Fintype.card ι + ∑ i, ∑ j, g.sent i j g.rounds) s ∧ ∀ i, (s.proc i).round = g.rounds := by
  have key : ∀ n ≤ 3 * g.rounds * Fintype.card ι + ∑ i, ∑ j, g.sent i j g.rounds, ∃ s, Exec g (Net.init mem) n s := by
    intro n hn
    induction n with
    | zero => exact ⟨_, .nil⟩
    | succ n ih =>
      obtain ⟨s, hs⟩ := ih (by omega)
      have hf := C100_sizes g hg mem hF n s hs
      have hne : ¬ ∀ i, (s.proc i).round = g.rounds := fun hall => by
        have := (C100_steps g hg mem n s hs hf).2.2 hall
        omega
      push Not at hne
      obtain ⟨s', hs'⟩ := C100_progress g hg mem n s hs hf hne
      exact ⟨s', .cons hs hs'⟩
  obtain ⟨s, hs⟩ := key _ le_rfl
  exact ⟨s, hs, (C100_steps g hg mem _ s hs (C100_sizes g hg mem hF _ s hs)).2.1 rfl⟩

/-- C100: if in lockstep some message has not the size of its buffer, then no execution ends with all ranks finished and no error. -/
theorem C100_sizes_fail (g : Prog ι S M) (hg : Matched g) (mem : ι → S) (m : ℕ) (hm : m < g.rounds) (hF : ¬ FitsAt g mem m) (n : ℕ) (s : Net ι S M)
    (h : Exec g (Net.init mem) n s) : ¬ (s.fault = false ∧ ∀ i, (s.proc i).round = g.rounds) := by
  rintro ⟨hf, hall⟩
  exact hF fun i b msg hA => (inv_exec hg h hf).fit i m (by rw [hall i]; exact hm) b msg hA

end

/-- C100: the matching is needed. In any program, a rank that posts more receives from `j` than `j` ever posts sends never gets past that round. -/
theorem C100_starved {ι S M : Type} [DecidableEq ι] (g : Prog ι S M) (mem : ι → S) (i j : ι) (n : ℕ) (hlt : g.sent j i g.rounds < g.recvd j i (n + 1)) (m : ℕ) (s : Net ι S M)
    (h : Exec g (Net.init mem) m s) : (s.proc i).round ≤ n := by
  have key : ((s.proc j).stage ≠ .ready → (s.proc j).round < g.rounds) ∧ s.cnt j i ≤ g.sent j i g.rounds ∧ (s.proc i).round ≤ n := by
    induction h with
    | nil => exact ⟨fun h => absurd rfl h, Nat.zero_le _, Nat.zero_le _⟩
    | cons hx hst ih =>
      obtain ⟨h1, h2, h3⟩ := ih
      cases hst with
      | post k _ hr hs =>
        refine ⟨fun hne => ?_, h2, ?_⟩
        · by_cases hk : j = k
          · subst hk; simpa using hr
          · simp only [Function.update_of_ne hk] at hne ⊢; exact h1 hne
        · by_cases hk : i = k
          · subst hk; simpa using h3
          · simp only [Function.update_of_ne hk]; exact h3
      | work k _ hs =>
        refine ⟨fun hne => ?_, h2, ?_⟩
        · by_cases hk : j = k
          · subst hk; simpa using h1 (by rw [hs]; simp)
          · simp only [Function.update_of_ne hk] at hne ⊢; exact h1 hne
        · by_cases hk : i = k
          · subst hk; simpa using h3
          · simp only [Function.update_of_ne hk]; exact h3
      | transfer k l c c' b b' _ hi hj hc hb hc' hb' hfit =>
        refine ⟨fun hne => ?_, ?_, ?_⟩
        · by_cases hk : j = l
          · subst hk; simpa using h1 hj
          · simp only [Function.update_of_ne hk] at hne ⊢; exact h1 hne
        · dsimp only
          by_cases hk : j = k
          · subst hk
            rw [Function.update_self]
            by_cases hl : i = l
            · subst hl
              rw [Function.update_self]
              have hlen := (List.getElem?_eq_some_iff.1 hb).1
              have hm := sent_mono g j i (show _ + 1 ≤ _ from h1 hi)
              rw [sent_succ] at hm
              omega
            · rw [Function.update_of_ne hl]; exact h2
          · rw [Function.update_of_ne hk]; exact h2
        · by_cases hk : i = l
          · subst hk; simpa using h3
          · simp only [Function.update_of_ne hk]; exact h3
      | misfit k l c c' b b' _ hi hj hc hb hc' hb' hfit => exact ⟨h1, h2, h3⟩
      | wait k _ hs _ hsend hrecv =>
        refine ⟨fun hne => ?_, h2, ?_⟩
        · by_cases hk : j = k
          · subst hk; simp at hne
          · simp only [Function.update_of_ne hk] at hne ⊢; exact h1 hne
        · by_cases hk : i = k
          · subst hk
            simp only [Function.update_self]
            by_contra hgt
            have hr := hrecv j
            rw [show _ + 1 = n + 1 by omega] at hr
            omega
          · simp only [Function.update_of_ne hk]; exact h3
  exact key.2.2

/-- C100: the neighbours in a group are the previous and the next member of the list of its global ranks, cyclically; a rank outside of the group gets `ValueError`. -/
theorem C100_neighbours (ranks : List ℕ) (hnd : ranks.Nodup) (me : ℕ) :
    (∀ k, ranks[k]? = some me →
      getGroupNeighbors ranks me = .ok (ranks.getD (if k = 0 then ranks.length - 1 else k - 1) 0, ranks.getD (if k + 1 = ranks.length then 0 else k + 1) 0)) ∧
    (me ∉ ranks → getGroupNeighbors ranks me = .error .valueError) := by
  constructor
  · intro k hk
    obtain ⟨hl, rfl⟩ := List.getElem?_eq_some_iff.1 hk
    have hm := neighbors_map ranks.length (fun x => ranks.getD x 0)
      (fun x hx y hy h => by
        rw [List.getD_eq_getElem _ _ hx, List.getD_eq_getElem _ _ hy] at h
        exact (hnd.getElem_inj_iff).1 h) k hl
    have he : (List.range ranks.length).map (fun x => ranks.getD x 0) = ranks := by
      refine List.ext_getElem (by simp) fun x h1 h2 => ?_
      rw [List.getElem_map, List.getElem_range, List.getD_eq_getElem _ _ h2]
    rw [he] at hm
    rw [List.getD_eq_getElem _ _ hl] at hm
    rw [hm]
    have e1 : prevRank ranks.length k = if k = 0 then ranks.length - 1 else k - 1 := by
      unfold prevRank
      split
      · next h => rw [h, Nat.zero_add, Nat.mod_eq_of_lt (by omega)]
      · rw [show k + ranks.length - 1 = k - 1 + ranks.length by omega, Nat.add_mod_right, Nat.mod_eq_of_lt (by omega)]
    have e2 : nextRank ranks.length k = if k + 1 = ranks.length then 0 else k + 1 := by
      unfold nextRank
      split
      · next h => rw [h, Nat.mod_self]
      · rw [Nat.mod_eq_of_lt (by omega)]
    rw [e1, e2]
  · intro h
    unfold getGroupNeighbors
    rw [if_neg h]

/-- C100: the batches of the forward pass match: with distinct global ranks and halos of equal width along the polar direction, every send has its receive, and the ring step leaves the tensors under way
alone. -/
theorem C100_matched (g : Grids) (w : ℕ → ℝ) (Pp Pa : ℕ) (glob : ℕ → ℕ → ℕ) (hglob : GlobInj Pp Pa glob) (D : ℕ → ℕ → DAttn)
    (hr : ∀ p < Pp, ∀ p' < Pp, ∀ a < Pa, (D p a).r = (D p' a).r) (gl : ℕ → ℕ → ℕ → Launch) (ul : ℕ → ℕ → ℕ → UpLaunch) (q : ℕ → ℕ → RTen) :
    Matched (attnProg g w Pp Pa glob D gl ul q) := matched_fwd hglob hr

/-- The forward pass of the other modules is the lockstep of the program, with the same successes. -/
theorem lockstep_attn {g : Grids} {w : ℕ → ℝ} {Pp Pa : ℕ} (hPp : 0 < Pp) (hPa : 0 < Pa) {glob : ℕ → ℕ → ℕ} (hglob : GlobInj Pp Pa glob) {D : ℕ → ℕ → DAttn}
    (hr : ∀ p < Pp, ∀ p' < Pp, ∀ a < Pa, (D p a).r = (D p' a).r) (gl : ℕ → ℕ → ℕ → Launch) (ul : ℕ → ℕ → ℕ → UpLaunch) (k v q : ℕ → ℕ → RTen) :
    (∀ st, ringState g w Pp Pa D gl ul k v q = .ok st →
      (∀ n < 2 + Pa, FitsAt (attnProg g w Pp Pa glob D gl ul q) (attnMem Pp Pa k v) n) ∧
      ∀ i, (lockstep (attnProg g w Pp Pa glob D gl ul q) (attnMem Pp Pa k v) (2 + Pa) i).acc = (st i.1 i.2).acc) ∧
    (∀ e, ringState g w Pp Pa D gl ul k v q = .error e → ∃ n < 2 + Pa, ¬ FitsAt (attnProg g w Pp Pa glob D gl ul q) (attnMem Pp Pa k v) n) := by
  unfold ringState
  simp only [bind, Except.bind, pure, Except.pure]
  have hk0 : ∀ j : Fin Pp × Fin Pa, k j.1 j.2 = if (0 : ℕ) = 0 then (attnMem Pp Pa k v j).k else (attnMem Pp Pa k v j).v := fun j => rfl
  cases hkc : collect Pp Pa fun p a => haloPad Pp (D p a).r k p a with
  | error e =>
    refine ⟨fun st h => (by cases h), fun e' _ => ⟨0, by omega, fun hF => ?_⟩⟩
    obtain ⟨p, hp, a, ha, hne⟩ := collect_exists_error hPp hPa hkc
    obtain ⟨y, hy⟩ := (halo_fits hglob hr 0 (by omega) (attnMem Pp Pa k v) k hk0 (⟨p, hp⟩, ⟨a, ha⟩)).1 fun b m hA => hF _ b m hA
    exact hne y hy
  | ok kh =>
    have hkh : ∀ i : Fin Pp × Fin Pa, haloPad Pp (D i.1 i.2).r k i.1 i.2 = .ok (kh i.1 i.2) := fun i => collect_all hkc i.1 i.1.2 i.2 i.2.2
    have hL1 : ∀ j, lockstep (attnProg g w Pp Pa glob D gl ul q) (attnMem Pp Pa k v) 1 j = ⟨kh j.1 j.2, v j.1 j.2, fun _ _ => Acc.init⟩ := fun j =>
      lockstep_one hglob hr (attnMem Pp Pa k v) k (fun _ => rfl) j (hkh j)
    have hv0 : ∀ j : Fin Pp × Fin Pa, v j.1 j.2 = if (1 : ℕ) = 0 then (lockstep (attnProg g w Pp Pa glob D gl ul q) (attnMem Pp Pa k v) 1 j).k
        else (lockstep (attnProg g w Pp Pa glob D gl ul q) (attnMem Pp Pa k v) 1 j).v := fun j => by rw [if_neg (by omega), hL1 j]
    have hF0 : FitsAt (attnProg g w Pp Pa glob D gl ul q) (attnMem Pp Pa k v) 0 := fun i =>
      (halo_fits hglob hr 0 (by omega) (attnMem Pp Pa k v) k hk0 i).2 ⟨_, hkh i⟩
    dsimp only
    cases hvc : collect Pp Pa fun p a => haloPad Pp (D p a).r v p a with
    | error e =>
      refine ⟨fun st h => (by cases h), fun e' _ => ⟨1, by omega, fun hF => ?_⟩⟩
      obtain ⟨p, hp, a, ha, hne⟩ := collect_exists_error hPp hPa hvc
      obtain ⟨y, hy⟩ := (halo_fits hglob hr 1 (by omega) _ v hv0 (⟨p, hp⟩, ⟨a, ha⟩)).1 fun b m hA => hF _ b m hA
      exact hne y hy
    | ok vh =>
      have hvh : ∀ i : Fin Pp × Fin Pa, haloPad Pp (D i.1 i.2).r v i.1 i.2 = .ok (vh i.1 i.2) := fun i => collect_all hvc i.1 i.1.2 i.2 i.2.2
      have hF1 : FitsAt (attnProg g w Pp Pa glob D gl ul q) (attnMem Pp Pa k v) 1 := fun i => (halo_fits hglob hr 1 (by omega) _ v hv0 i).2 ⟨_, hvh i⟩
      have hL2 : ∀ i, lockstep (attnProg g w Pp Pa glob D gl ul q) (attnMem Pp Pa k v) 2 i = ⟨kh i.1 i.2, vh i.1 i.2, fun _ _ => Acc.init⟩ := fun i =>
        lockstep_two hglob hr (attnMem Pp Pa k v) k v kh vh (fun _ => rfl) (fun _ => rfl) hkh hvh i
      obtain ⟨l1, l2⟩ := lockstep_loop hglob hr (attnMem Pp Pa k v) (fun p a => ⟨kh p a, vh p a, fun _ _ => Acc.init⟩) hL2 Pa le_rfl
      dsimp only
      cases hst : ringLoop Pp Pa (fun p a => (D p a).lonIn) (fun p a step src kc vc acc =>
          if g.upsample then
            upKernel (D p a).psi w g (offset (D p a).lonIn src) ((D p a).lonOut.getD a 0) (haloStart (D p a) p) (ul p a step) (q p a) kc vc acc
          else
            gatherKernel (D p a).psi w g.nlonIn (g.nlonIn / g.nlonOut) (offset (D p a).lonIn src) (haloStart (D p a) p) (gl p a step) (q p a) kc vc acc)
          (fun p a => ⟨kh p a, vh p a, fun _ _ => Acc.init⟩) Pa with
      | error e =>
        refine ⟨fun st h => (by cases h), fun e' _ => ?_⟩
        obtain ⟨m, hm, hne⟩ := l2 e hPp hst
        exact ⟨2 + m, by omega, hne⟩
      | ok st' =>
        refine ⟨fun st h => ?_, fun e' h => (by cases h)⟩
        cases h
        obtain ⟨h1, h2⟩ := l1 st' hst
        refine ⟨fun n hn => ?_, fun i => ?_⟩
        · rcases (show n = 0 ∨ n = 1 ∨ ∃ m, m < Pa ∧ n = 2 + m from by
            rcases n with _ | _ | n
            · exact Or.inl rfl
            · exact Or.inr (Or.inl rfl)
            · exact Or.inr (Or.inr ⟨n, by omega, by omega⟩)) with rfl | rfl | ⟨m, hm, rfl⟩
          · exact hF0
          · exact hF1
          · exact h2 m hm
        · have := congrArg Slot.acc (h1 i)
          exact this

/-- C100: if the forward pass gives a result when the ranks advance together, then under every schedule no message has a wrong size, no deadlock occurs, the execution ends, and every rank that has
finished holds the same accumulators. -/
theorem C100_schedules (g : Grids) (w : ℕ → ℝ) (Pp Pa : ℕ) (hPp : 0 < Pp) (hPa : 0 < Pa) (glob : ℕ → ℕ → ℕ) (hglob : GlobInj Pp Pa glob) (D : ℕ → ℕ → DAttn)
    (hr : ∀ p < Pp, ∀ p' < Pp, ∀ a < Pa, (D p a).r = (D p' a).r) (gl : ℕ → ℕ → ℕ → Launch) (ul : ℕ → ℕ → ℕ → UpLaunch) (k v q : ℕ → ℕ → RTen)
    (st : ℕ → ℕ → Slot (ℕ → ℕ × ℕ → Acc)) (hst : ringState g w Pp Pa D gl ul k v q = .ok st) (n : ℕ) (s : Net (Fin Pp × Fin Pa) (Slot (ℕ → ℕ × ℕ → Acc)) RTen)
    (h : Exec (attnProg g w Pp Pa glob D gl ul q) (Net.init (attnMem Pp Pa k v)) n s) :
    s.fault = false ∧ (∀ i, (s.proc i).round = 2 + Pa → (s.proc i).mem.acc = (st i.1 i.2).acc) ∧
      ((∃ i, (s.proc i).round ≠ 2 + Pa) → ∃ s', Step (attnProg g w Pp Pa glob D gl ul q) s s') := by
  have hM := C100_matched g w Pp Pa glob hglob D hr gl ul q
  obtain ⟨hF, hL⟩ := (lockstep_attn hPp hPa hglob hr gl ul k v q).1 st hst
  have hf := C100_sizes _ hM _ hF n s h
  refine ⟨hf, fun i hi => ?_, fun hi => C100_progress _ hM _ n s h hf hi⟩
  rw [C100_deliver _ hM _ n s h hf i hi]
  exact hL i

/-- C100: if the forward pass raises when the ranks advance together, then under no schedule do all ranks finish without an error. -/
theorem C100_schedules_error (g : Grids) (w : ℕ → ℝ) (Pp Pa : ℕ) (hPp : 0 < Pp) (hPa : 0 < Pa) (glob : ℕ → ℕ → ℕ) (hglob : GlobInj Pp Pa glob) (D : ℕ → ℕ → DAttn)
    (hr : ∀ p < Pp, ∀ p' < Pp, ∀ a < Pa, (D p a).r = (D p' a).r) (gl : ℕ → ℕ → ℕ → Launch) (ul : ℕ → ℕ → ℕ → UpLaunch) (k v q : ℕ → ℕ → RTen)
    (e : PyErr) (hst : ringState g w Pp Pa D gl ul k v q = .error e) (n : ℕ) (s : Net (Fin Pp × Fin Pa) (Slot (ℕ → ℕ × ℕ → Acc)) RTen)
    (h : Exec (attnProg g w Pp Pa glob D gl ul q) (Net.init (attnMem Pp Pa k v)) n s) :
    ¬ (s.fault = false ∧ ∀ i, (s.proc i).round = 2 + Pa) := by
  obtain ⟨m, hm, hne⟩ := (lockstep_attn hPp hPa hglob hr gl ul k v q).2 e hst
  exact C100_sizes_fail _ (C100_matched g w Pp Pa glob hglob D hr gl ul q) _ m hm hne n s h

/-- C100: on any process grid on which the layer can be built, with halos no wider than the latitude blocks, under every schedule of ranks and messages and whatever the order of thread groups and
atomic operations: there is no error and no deadlock, the execution ends, and every rank that has finished returns its tile of the attention of the global tensors. -/
theorem C100_attention (g : Grids) (P : Pattern) (hP : PatternOK g P) (w : ℕ → ℝ) (Pp Pa B Ck Cv : ℕ) (hPp : 0 < Pp) (hPa : 0 < Pa)
    (hi : 0 < g.nlonIn) (ho : 0 < g.nlonOut) (glob : ℕ → ℕ → ℕ) (hglob : GlobInj Pp Pa glob) (D : ℕ → ℕ → DAttn)
    (hD : ∀ p < Pp, ∀ a < Pa, DAttn.init g P Pp Pa p a = .ok (D p a))
    (hr : ∀ p < Pp, ∀ a < Pa, ∀ s < Pp, (D p a).r ≤ blockSize g.nlatIn Pp s)
    (K V Q : T4) (k v q : ℕ → ℕ → RTen)
    (hk : ∀ p < Pp, ∀ a < Pa, Tile B Ck g.nlatIn g.nlonIn Pp Pa K p a (k p a))
    (hv : ∀ p < Pp, ∀ a < Pa, Tile B Cv g.nlatIn g.nlonIn Pp Pa V p a (v p a))
    (hq : ∀ p < Pp, ∀ a < Pa, Tile B Ck g.nlatOut g.nlonOut Pp Pa Q p a (q p a))
    (gl : ℕ → ℕ → ℕ → Launch) (hgl : ∀ p < Pp, ∀ a < Pa, ∀ step, LaunchOK B (blockSize g.nlatOut Pp p) (blockSize g.nlonOut Pa a) (gl p a step))
    (ul : ℕ → ℕ → ℕ → UpLaunch) (hul : ∀ p < Pp, ∀ a < Pa, ∀ step, UpLaunchOK (ul p a step))
    (n : ℕ) (s : Net (Fin Pp × Fin Pa) (Slot (ℕ → ℕ × ℕ → Acc)) RTen)
    (h : Exec (attnProg g w Pp Pa glob D gl ul q) (Net.init (attnMem Pp Pa k v)) n s) :
    s.fault = false ∧
      n ≤ 3 * (2 + Pa) * (Pp * Pa) + ∑ i, ∑ j, (attnProg g w Pp Pa glob D gl ul q).sent i j (2 + Pa) ∧
      ((∃ i, (s.proc i).round ≠ 2 + Pa) → ∃ s', Step (attnProg g w Pp Pa glob D gl ul q) s s') ∧
      ∀ i, (s.proc i).round = 2 + Pa →
        Tile B Cv g.nlatOut g.nlonOut Pp Pa (attention Ck w (neighbours g P) K V Q) i.1 i.2 (attnOut D q v i (s.proc i).mem) := by
  have hF := rank_facts hP hPp hPa hi ho hD
  have hrr : ∀ p < Pp, ∀ p' < Pp, ∀ a < Pa, (D p a).r = (D p' a).r := fun p hp p' hp' a ha => (hF.r_eq p hp a ha).trans (hF.r_eq p' hp' a ha).symm
  obtain ⟨y, hy, hT⟩ := C53_forward g P hP w Pp Pa B Ck Cv hPp hPa hi ho D hD hr K V Q k v q hk hv hq gl hgl ul hul
  unfold ringForward at hy
  simp only [bind, Except.bind, pure, Except.pure] at hy
  cases hst : ringState g w Pp Pa D gl ul k v q with
  | error e => rw [hst] at hy; cases hy
  | ok st =>
    rw [hst] at hy
    cases hy
    obtain ⟨hf, hacc, hstep⟩ := C100_schedules g w Pp Pa hPp hPa glob hglob D hrr gl ul k v q st hst n s h
    refine ⟨hf, ?_, hstep, fun i hround => ?_⟩
    · have := (C100_steps _ (C100_matched g w Pp Pa glob hglob D hrr gl ul q) _ n s h hf).1
      rw [Fintype.card_prod, Fintype.card_fin, Fintype.card_fin] at this
      exact this
    · have := hT i.1 i.1.2 i.2 i.2.2
      dsimp only at this
      rw [← hacc i hround] at this
      exact this

/-- C100: if a rank expects halos and the next one along the polar direction has none to send, that rank hangs in the exchange of the keys. -/
theorem C100_halo_mismatch (g : Grids) (w : ℕ → ℝ) (Pp Pa : ℕ) (glob : ℕ → ℕ → ℕ) (hglob : GlobInj Pp Pa glob) (D : ℕ → ℕ → DAttn) (gl : ℕ → ℕ → ℕ → Launch)
    (ul : ℕ → ℕ → ℕ → UpLaunch) (k v q : ℕ → ℕ → RTen) (i j : Fin Pp × Fin Pa) (ha : j.2 = i.2) (hp : (j.1 : ℕ) = i.1 + 1) (hi : 0 < (D i.1 i.2).r) (hj : (D j.1 j.2).r = 0)
    (n : ℕ) (s : Net (Fin Pp × Fin Pa) (Slot (ℕ → ℕ × ℕ → Acc)) RTen) (h : Exec (attnProg g w Pp Pa glob D gl ul q) (Net.init (attnMem Pp Pa k v)) n s) :
    (s.proc i).round = 0 := by
  refine Nat.le_zero.1 (C100_starved _ _ i j 0 ?_ n s h)
  have h1 : (attnProg g w Pp Pa glob D gl ul q).recvd j i 1 = 1 := by
    unfold Prog.recvd
    rw [sum_range_one]
    change (recvsFrom (glob j.1 j.2) ((fwdProg Pp Pa glob _ _ _).ops i 0)).length = 1
    rw [halo_recvs hglob i j 0 (by omega), if_pos ⟨hi, by have := j.1.2; omega, ha⟩, if_neg (by omega), if_pos hp]
    rfl
  have h2 : (attnProg g w Pp Pa glob D gl ul q).sent j i (2 + Pa) = 0 := by
    unfold Prog.sent
    refine sum_eq_zero fun m _ => ?_
    change (sendsTo (glob i.1 i.2) ((fwdProg Pp Pa glob _ _ _).ops j m)).length = 0
    rcases Nat.lt_or_ge m 2 with hm | hm
    · rw [halo_sends hglob j i m hm, if_neg (by rw [hj]; omega)]; rfl
    · rw [ring_sends hglob j i m hm, if_neg]
      · rfl
      · rintro ⟨-, he⟩
        have := congrArg (fun t : Fin Pp × Fin Pa => (t.1 : ℕ)) he
        dsimp only at this
        omega
  change (attnProg g w Pp Pa glob D gl ul q).sent j i (2 + Pa) < _
  rw [h1, h2]
  exact Nat.zero_lt_one

/-! ### The hypotheses can be met -/

/-- Ranks numbered row by row are distinct. -/
theorem globInj_rowMajor (Pp Pa : ℕ) : GlobInj Pp Pa fun p a => p * Pa + a := by
  intro p _ a ha p' _ a' ha' h
  dsimp only at h
  have h1 : (p * Pa + a) / Pa = (p' * Pa + a') / Pa := by rw [h]
  have hPa : 0 < Pa := by omega
  rw [Nat.mul_comm p, Nat.mul_comm p', Nat.mul_add_div hPa, Nat.mul_add_div hPa, Nat.div_eq_of_lt ha, Nat.div_eq_of_lt ha'] at h1
  have : p = p' := by omega
  subst this
  exact ⟨rfl, by omega⟩

/-- On two by two ranks, with halos of one row: there is an execution in which all ranks finish, and each has its tile. -/
example (w : ℕ → ℝ) (K V Q : T4) : ∃ (D : ℕ → ℕ → DAttn) (n : ℕ) (s : Net (Fin 2 × Fin 2) (Slot (ℕ → ℕ × ℕ → Acc)) RTen),
    (∀ p < 2, ∀ a < 2, DAttn.init ⟨4, 4, 4, 2⟩ ringPattern 2 2 p a = .ok (D p a) ∧ (D p a).r = 1) ∧
    Exec (attnProg ⟨4, 4, 4, 2⟩ w 2 2 (fun p a => p * 2 + a) D (fun p a _ => revLaunch (blockSize 4 2 p) (blockSize 2 2 a)) (fun _ _ _ => ⟨List.reverse, id⟩) (tileOf 1 3 4 2 2 2 Q))
      (Net.init (attnMem 2 2 (tileOf 1 3 4 4 2 2 K) (tileOf 1 5 4 4 2 2 V))) n s ∧
    ∀ i, (s.proc i).round = 4 ∧
      Tile 1 5 4 2 2 2 (attention 3 w (neighbours ⟨4, 4, 4, 2⟩ ringPattern) K V Q) i.1 i.2 (attnOut D (tileOf 1 3 4 2 2 2 Q) (tileOf 1 5 4 4 2 2 V) i (s.proc i).mem) := by
  have htile : ∀ (B C n1 n2 : ℕ) (X : T4) (p a : ℕ), Tile B C n1 n2 2 2 X p a (tileOf B C n1 n2 2 2 X p a) := fun B C n1 n2 X p a =>
    ⟨rfl, rfl, rfl, rfl, fun _ _ _ _ _ _ _ _ => rfl⟩
  set D : ℕ → ℕ → DAttn := fun p a => DAttn.build ⟨4, 4, 4, 2⟩ ringPattern 2 p a [2, 2] [2, 2] [2, 2] [1, 1] with hDdef
  have hD : ∀ p < 2, ∀ a < 2, DAttn.init ⟨4, 4, 4, 2⟩ ringPattern 2 2 p a = .ok (D p a) := fun p _ a _ => rfl
  have hr1 : ∀ p a, (D p a).r = 1 := fun p a => by
    show rLat 2 [2, 2] [2, 2] ringPattern 4 = 1
    decide
  have hle : ∀ p < 2, ∀ a < 2, ∀ s < 2, (D p a).r ≤ blockSize 4 2 s := fun p _ a _ s hs => by
    rw [hr1]
    exact Nat.le_trans (by decide : 1 ≤ 2) (by unfold blockSize; omega)
  have hgl : ∀ p < 2, ∀ a < 2, ∀ step : ℕ, LaunchOK 1 (blockSize 4 2 p) (blockSize 2 2 a) ((fun p a _ => revLaunch (blockSize 4 2 p) (blockSize 2 2 a)) p a step) :=
    fun p _ a _ _ => revLaunch_ok 1 _ _
  have hul : ∀ p < 2, ∀ a < 2, ∀ step : ℕ, UpLaunchOK ((fun _ _ _ => ⟨List.reverse, id⟩ : ℕ → ℕ → ℕ → UpLaunch) p a step) :=
    fun _ _ _ _ _ => ⟨fun L => List.reverse_perm L, fun L => List.Perm.refl L⟩
  have hrr : ∀ p < 2, ∀ p' < 2, ∀ a < 2, (D p a).r = (D p' a).r := fun p _ p' _ a _ => by rw [hr1, hr1]
  have hF := rank_facts ringPattern_ok (by decide) (by decide) (by decide) (by decide) hD
  obtain ⟨st, hst, -⟩ := ringState_ok w (B := 1) (Ck := 3) (Cv := 5) (by decide) (by decide) hF (fun s hs => hle 0 (by decide) 0 (by decide) s hs) (tileOf 1 3 4 2 2 2 Q)
    (fun p _ a _ => htile 1 3 4 4 K p a) (fun p _ a _ => htile 1 5 4 4 V p a) hgl hul
  have hM := C100_matched ⟨4, 4, 4, 2⟩ w 2 2 (fun p a => p * 2 + a) (globInj_rowMajor 2 2) D hrr (fun p a _ => revLaunch (blockSize 4 2 p) (blockSize 2 2 a))
    (fun _ _ _ => ⟨List.reverse, id⟩) (tileOf 1 3 4 2 2 2 Q)
  obtain ⟨s, hs, hall⟩ := C100_completes _ hM (attnMem 2 2 (tileOf 1 3 4 4 2 2 K) (tileOf 1 5 4 4 2 2 V))
    ((lockstep_attn (by decide) (by decide) (globInj_rowMajor 2 2) hrr _ _ _ _ _).1 st hst).1
  obtain ⟨-, -, -, hT⟩ := C100_attention ⟨4, 4, 4, 2⟩ ringPattern ringPattern_ok w 2 2 1 3 5 (by decide) (by decide) (by decide) (by decide) (fun p a => p * 2 + a)
    (globInj_rowMajor 2 2) D hD hle K V Q _ _ _ (fun p _ a _ => htile 1 3 4 4 K p a) (fun p _ a _ => htile 1 5 4 4 V p a) (fun p _ a _ => htile 1 3 4 2 Q p a) _ hgl _ hul _ s hs
  exact ⟨D, _, s, fun p hp a ha => ⟨hD p hp a ha, hr1 p a⟩, hs, fun i => ⟨hall i, hT i (hall i)⟩⟩

example : getGroupNeighbors [4, 5, 6] 4 = .ok (6, 5) := rfl

end Verif.Props
