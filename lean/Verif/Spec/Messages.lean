import Verif.Model.Messages
/-!
What the ranks compute together, without schedules: all ranks finish round `n` before any begins round `n + 1`.
-/
namespace Verif.Spec.Msg
open Verif Verif.Msg

variable {ι S M : Type}

/-- In round `n`, with the memories `mem` at its beginning, message `m` arrives on rank `i` in buffer `b`: the `c`-th receive from a rank gets the `c`-th send of that rank. -/
def Arrives (g : Prog ι S M) (n : ℕ) (mem : ι → S) (i : ι) (b : ℕ) (m : M) : Prop :=
  ∃ (j : ι) (c b' : ℕ), (recvsFrom (g.glob j) (g.ops i n))[c]? = some b ∧ (sendsTo (g.glob i) (g.ops j n))[c]? = some b' ∧ m = g.read j n (mem j) b'

open Classical in
/-- The buffers at the end of a round. -/
noncomputable def delivered (g : Prog ι S M) (n : ℕ) (mem : ι → S) (i : ι) (b : ℕ) : Option M :=
  if h : ∃ m, Arrives g n mem i b m then some h.choose else none

/-- The memories after `n` rounds in lockstep. -/
noncomputable def lockstep (g : Prog ι S M) (mem : ι → S) : ℕ → ι → S
  | 0 => mem
  | n + 1 => fun i => g.after i n (g.work i n (lockstep g mem n i)) (delivered g n (lockstep g mem n) i)

/-- A program whose batches match: distinct ranks, every operation has a partner, buffers of a batch are distinct, and what is computed while a batch is under way does not touch its tensors. -/
structure Matched (g : Prog ι S M) : Prop where
  inj : Function.Injective g.glob
  peers : ∀ i, ∀ n < g.rounds, ∀ o ∈ g.ops i n, ∃ j, g.glob j = o.peer
  pair : ∀ n < g.rounds, ∀ i j, (sendsTo (g.glob j) (g.ops i n)).length = (recvsFrom (g.glob i) (g.ops j n)).length
  distinct : ∀ i, ∀ n < g.rounds, ∀ (j j' : ι) (c c' b : ℕ), (recvsFrom (g.glob j) (g.ops i n))[c]? = some b → (recvsFrom (g.glob j') (g.ops i n))[c']? = some b → j = j' ∧ c = c'
  read_work : ∀ i n s b, g.read i n (g.work i n s) b = g.read i n s b
  fits_work : ∀ i n s b m, g.fits i n (g.work i n s) b m ↔ g.fits i n s b m

/-- In lockstep every message of round `n` has the size of its buffer. -/
def FitsAt (g : Prog ι S M) (mem : ι → S) (n : ℕ) : Prop :=
  ∀ i b m, Arrives g n (lockstep g mem n) i b m → g.fits i n (lockstep g mem n i) b m

/-- The global ranks of a process grid are distinct. -/
def GlobInj (Pp Pa : ℕ) (glob : ℕ → ℕ → ℕ) : Prop := ∀ p < Pp, ∀ a < Pa, ∀ p' < Pp, ∀ a' < Pa, glob p a = glob p' a' → p = p' ∧ a = a'

end Verif.Spec.Msg
