import Verif.Model.MessagesBwd
import Verif.Lemmas.MessagesRing
/-!
Programs made of rounds: what holds of every round holds of the program, and the lockstep of the program runs one round after the other.
-/
namespace Verif.Msg
open Verif Verif.Spec.Msg Verif.Dist Verif.Ring Verif.Attn Verif.Spec.Attn Finset

section
variable {ι S M : Type} [Inhabited M] (gl : ι → ℕ)

/-- The memories after one round in lockstep. -/
noncomputable def Round.run (R : Round ι S M) (mem : ι → S) : ι → S := lockstep (ofRounds gl [R]) mem 1

/-- In lockstep every message of the round has the size of its buffer. -/
def Round.Fits (R : Round ι S M) (mem : ι → S) : Prop := FitsAt (ofRounds gl [R]) mem 0

/-- The rounds one after the other. -/
noncomputable def runs : List (Round ι S M) → (ι → S) → ι → S
  | [], mem => mem
  | R :: L, mem => runs L (R.run gl mem)

/-- All messages have the sizes of their buffers. -/
def FitsAll : List (Round ι S M) → (ι → S) → Prop
  | [], _ => True
  | R :: L, mem => R.Fits gl mem ∧ FitsAll L (R.run gl mem)

theorem runs_append (L L' : List (Round ι S M)) (mem : ι → S) : runs gl (L ++ L') mem = runs gl L' (runs gl L mem) := by
  induction L generalizing mem with
  | nil => rfl
  | cons R L ih => exact ih _

theorem fitsAll_append (L L' : List (Round ι S M)) (mem : ι → S) : FitsAll gl (L ++ L') mem ↔ FitsAll gl L mem ∧ FitsAll gl L' (runs gl L mem) := by
  induction L generalizing mem with
  | nil => simp [FitsAll, runs]
  | cons R L ih => simp only [List.cons_append, FitsAll, runs, ih, and_assoc]

theorem arrives_round (L : List (Round ι S M)) (n : ℕ) (mem : ι → S) (i : ι) (b : ℕ) (m : M) :
    Arrives (ofRounds gl L) n mem i b m ↔ Arrives (ofRounds gl [L.getD n (localRound fun _ s => s)]) 0 mem i b m := Iff.rfl

theorem lockstep_round (L : List (Round ι S M)) (mem : ι → S) (n : ℕ) :
    lockstep (ofRounds gl L) mem (n + 1) = (L.getD n (localRound fun _ s => s)).run gl (lockstep (ofRounds gl L) mem n) := rfl

theorem fitsAt_round (L : List (Round ι S M)) (mem : ι → S) (n : ℕ) :
    FitsAt (ofRounds gl L) mem n ↔ (L.getD n (localRound fun _ s => s)).Fits gl (lockstep (ofRounds gl L) mem n) := Iff.rfl

theorem lockstep_take (L : List (Round ι S M)) (mem : ι → S) (n : ℕ) (hn : n ≤ L.length) : lockstep (ofRounds gl L) mem n = runs gl (L.take n) mem := by
  induction n with
  | zero => rfl
  | succ n ih =>
    rw [lockstep_round, ih (by omega), List.take_succ_eq_append_getElem (by omega), runs_append, List.getD_eq_getElem _ _ (by omega)]
    rfl

theorem lockstep_all (L : List (Round ι S M)) (mem : ι → S) : lockstep (ofRounds gl L) mem L.length = runs gl L mem := by
  rw [lockstep_take gl L mem _ le_rfl, List.take_length]

theorem fitsAll_at (L : List (Round ι S M)) (mem : ι → S) (h : FitsAll gl L mem) (n : ℕ) (hn : n < L.length) : FitsAt (ofRounds gl L) mem n := by
  rw [fitsAt_round, lockstep_take gl L mem n hn.le, List.getD_eq_getElem _ _ hn]
  have e : L.take n ++ (L[n] :: L.drop (n + 1)) = L := by
    rw [← List.drop_eq_getElem_cons hn, List.take_append_drop]
  rw [← e, fitsAll_append] at h
  exact h.2.1

theorem matched_rounds (L : List (Round ι S M)) (hinj : Function.Injective gl) (h : ∀ R ∈ L, Matched (ofRounds gl [R])) : Matched (ofRounds gl L) := by
  have hl : Matched (ofRounds gl [(localRound fun _ s => s : Round ι S M)]) :=
    { inj := hinj
      peers := fun i n hn o ho => by
        have : n = 0 := by change n < 1 at hn; omega
        subst this; cases ho
      pair := fun n hn i j => by
        have : n = 0 := by change n < 1 at hn; omega
        subst this; rfl
      distinct := fun i n hn j j' c c' b h => by
        have : n = 0 := by change n < 1 at hn; omega
        subst this; cases h
      read_work := fun i n s b => by rcases n with _ | n <;> rfl
      fits_work := fun i n s b m => by rcases n with _ | n <;> rfl }
  have hR : ∀ n, Matched (ofRounds gl [L.getD n (localRound fun _ s => s)]) := by
    intro n
    rcases Nat.lt_or_ge n L.length with hn | hn
    · rw [List.getD_eq_getElem _ _ hn]; exact h _ (List.getElem_mem hn)
    · rw [List.getD_eq_default _ _ hn]; exact hl
  exact
    { inj := hinj
      peers := fun i n _ o ho => (hR n).peers i 0 Nat.zero_lt_one o ho
      pair := fun n _ i j => (hR n).pair 0 Nat.zero_lt_one i j
      distinct := fun i n _ j j' c c' b h h' => (hR n).distinct i 0 Nat.zero_lt_one j j' c c' b h h'
      read_work := fun i n s b => (hR n).read_work i 0 s b
      fits_work := fun i n s b m => (hR n).fits_work i 0 s b m }

/-- A round matches if its batches do. -/
theorem matched_one (R : Round ι S M) (hinj : Function.Injective gl) (hpeers : ∀ i, ∀ o ∈ R.ops i, ∃ j, gl j = o.peer)
    (hpair : ∀ i j, (sendsTo (gl j) (R.ops i)).length = (recvsFrom (gl i) (R.ops j)).length)
    (hdist : ∀ i (j j' : ι) (c c' b : ℕ), (recvsFrom (gl j) (R.ops i))[c]? = some b → (recvsFrom (gl j') (R.ops i))[c']? = some b → j = j' ∧ c = c')
    (hread : ∀ i s b, R.read i (R.work i s) b = R.read i s b) (hfits : ∀ i s b m, R.fits i (R.work i s) b m ↔ R.fits i s b m) : Matched (ofRounds gl [R]) where
  inj := hinj
  peers i n hn o ho := by
    have : n = 0 := by change n < 1 at hn; omega
    subst this; exact hpeers i o ho
  pair n hn i j := by
    have : n = 0 := by change n < 1 at hn; omega
    subst this; exact hpair i j
  distinct i n hn j j' c c' b h h' := by
    have : n = 0 := by change n < 1 at hn; omega
    subst this; exact hdist i j j' c c' b h h'
  read_work i n s b := by
    rcases n with _ | n
    · exact hread i s b
    · rfl
  fits_work i n s b m := by
    rcases n with _ | n
    · exact hfits i s b m
    · rfl

theorem matched_local (f : ι → S → S) (hinj : Function.Injective gl) : Matched (ofRounds gl [(localRound f : Round ι S M)]) :=
  matched_one gl _ hinj (fun _ _ h => by cases h) (fun _ _ => rfl) (fun _ _ _ _ _ _ h => by cases h) (fun _ _ _ => rfl) (fun _ _ _ _ => Iff.rfl)

theorem run_local (f : ι → S → S) (mem : ι → S) : (localRound f : Round ι S M).run gl mem = fun i => f i (mem i) := rfl

theorem fits_local (f : ι → S → S) (mem : ι → S) : (localRound f : Round ι S M).Fits gl mem := fun _ _ _ _ => trivial

end
end Verif.Msg
