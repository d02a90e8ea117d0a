import Verif.Model.MessagesQuad
import Verif.Lemmas.MessagesDisco
/-!
All-reduce as a round of messages.
-/
namespace Verif.Msg
open Verif Verif.Spec.Msg Verif.Dist Verif.SHT Finset

variable {Pp Pa : ℕ} {glob : ℕ → ℕ → ℕ} {S M α : Type} [Inhabited M] [AddCommMonoid α] {az : Bool} {fld : VField S M α}

/-- Reading what was written, and a message that was sent. -/
structure VField.Ok (fld : VField S M α) : Prop where
  set_get : ∀ s, fld.set s (fld.get s) = s
  msg : ∀ m, fld.ofMsg (fld.toMsg m) = some m

omit [Inhabited M] [AddCommMonoid α] in
theorem sumMsg (X : ℕ → ℕ → S) (x : ℕ → ℕ → Vec α) (hx : ∀ p a, fld.get (X p a) = x p a) (p a r : ℕ) :
    groupMsg az (fun _ _ s _ => fld.toMsg (fld.get s)) X p a r = fld.toMsg (memberOf az x p a r) := by
  cases az
  · change fld.toMsg (fld.get (X r a)) = _
    rw [hx]; rfl
  · change fld.toMsg (fld.get (X p r)) = _
    rw [hx]; rfl

theorem allreduce_len (P r : ℕ) (x : ℕ → Vec α) : (reduceFromForward P x r).len = (x r).len := by
  unfold reduceFromForward reduce
  split <;> rfl

theorem allreduce_val {P r : ℕ} (hr : r < P) (x : ℕ → Vec α) (k : ℕ) : (reduceFromForward P x r).val k = ∑ s ∈ range P, (x s).val k := by
  unfold reduceFromForward reduce
  by_cases h : P = 1
  · subst h
    have h0 : r = 0 := by omega
    subst h0
    simp
  · rw [if_neg h]

/-- If the tensors of a group are equally long, then the messages fit and every process gets the sum. -/
theorem sum_step (hg : GlobInj Pp Pa glob) (hfld : fld.Ok) (X : ℕ → ℕ → S) (x : ℕ → ℕ → Vec α) (hx : ∀ p a, fld.get (X p a) = x p a)
    (mem : Fin Pp × Fin Pa → S) (hX : ∀ i, mem i = X i.1 i.2)
    (hlen : ∀ i : Fin Pp × Fin Pa, ∀ r < groupSize Pp Pa az, (memberOf az x i.1 i.2 r).len = (x i.1 i.2).len) :
    (sumRound Pp Pa glob az fld).Fits (fun i => glob i.1 i.2) mem ∧
      ∀ i, (sumRound Pp Pa glob az fld).run (fun i => glob i.1 i.2) mem i =
        (fun p a => fld.set (X p a) (reduceFromForward (groupSize Pp Pa az) (memberOf az x p a) (groupRank az p a))) i.1 i.2 := by
  have hget : ∀ i, fld.get (mem i) = x i.1 i.2 := fun i => by rw [hX, hx]
  refine ⟨fits_group hg X mem hX fun hP i r hr hne => ?_, fun i => ?_⟩
  · rw [sumMsg X x hx, hget]
    exact ⟨_, hfld.msg _, hlen i r hr⟩
  · unfold sumRound
    rw [run_group hg X mem hX i, hX i]
    unfold reduceFromForward reduce
    by_cases hP : groupSize Pp Pa az > 1
    · rw [if_pos hP]
      dsimp only
      rw [if_neg (by omega)]
      congr 1
      rw [hx, memberOf_self]
      congr 1
      funext k
      refine sum_congr rfl fun r hr => ?_
      by_cases hne : r = groupRank az i.1 i.2
      · rw [if_neg (fun h => h.2 hne)]
        subst hne
        rw [memberOf_self]
        rfl
      · rw [if_pos ⟨mem_range.1 hr, hne⟩, sumMsg X x hx, Option.bind_some, hfld.msg]
        rfl
    · have h1 : groupSize Pp Pa az = 1 := by have := groupSize_pos az i; omega
      rw [if_neg hP]
      dsimp only
      rw [if_pos h1, memberOf_self, ← hx, hfld.set_get]

/-- When the messages of an all-reduce fit, the tensors of the group are equally long. -/
theorem sum_lengths (hg : GlobInj Pp Pa glob) (hfld : fld.Ok) (mem : Fin Pp × Fin Pa → S) (hP : groupSize Pp Pa az > 1)
    (h : (sumRound Pp Pa glob az fld).Fits (fun i => glob i.1 i.2) mem) (i j : Fin Pp × Fin Pa) (hij : SameGroup az i j) :
    (fld.get (mem i)).len = (fld.get (mem j)).len := by
  by_cases hr : groupRank az j.1 j.2 = groupRank az i.1 i.2
  · rw [sameGroup_ext hij (show SameGroup az i i by cases az <;> rfl) hr]
  · obtain ⟨c, hc, h0⟩ := h i _ _ ((arrives_group hg mem i _ _).2 ⟨hP, j, hij, hr, rfl, rfl⟩)
    rw [hfld.msg, Option.some_inj] at hc
    rw [hc]
    exact h0.symm

theorem matched_sum (hg : GlobInj Pp Pa glob) : Matched (ofRounds (fun i => glob i.1 i.2) [sumRound Pp Pa glob az fld]) := matched_group hg

theorem quadField_ok : quadField.Ok := ⟨fun _ => rfl, fun _ => rfl⟩
theorem rsField_ok : rsField.Ok := ⟨fun _ _ => rfl, fun _ => rfl⟩
theorem northField_ok : northField.Ok := ⟨fun _ => rfl, fun _ => rfl⟩
theorem southField_ok : southField.Ok := ⟨fun _ => rfl, fun _ => rfl⟩
theorem countField_ok : countField.Ok := ⟨fun _ => rfl, fun _ => rfl⟩

end Verif.Msg
