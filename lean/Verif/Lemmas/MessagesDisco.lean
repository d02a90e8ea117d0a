import Verif.Model.MessagesDisco
import Verif.Lemmas.MessagesGroup
/-!
Reduce-scatter and all-gather as rounds of messages.
-/
namespace Verif.Msg
open Verif Verif.Spec.Msg Verif.Dist Verif.SHT Finset

variable {Pp Pa : ℕ} {glob : ℕ → ℕ → ℕ} {S M α : Type} [Inhabited M] {az : Bool} {fld : Field S M α} {v : RView α}

theorem groupSize_pos (az : Bool) (i : Fin Pp × Fin Pa) : 0 < groupSize Pp Pa az := lt_of_le_of_lt (Nat.zero_le _) (groupRank_lt az i)

omit [Inhabited M] in
theorem memberOf_self (az : Bool) (X : ℕ → ℕ → S) (p a : ℕ) : memberOf az X p a (groupRank az p a) = X p a := by
  cases az <;> rfl

/-- Seeing a tensor along a dimension loses nothing. -/
def RView.Ok (v : RView α) : Prop := ∀ x, v.back x (v.view x) = x

theorem rLat_ok : (rLat : RView α).Ok := fun _ => rfl
theorem rLon_ok : (rLon : RView α).Ok := fun _ => rfl

/-- The reduce-scatter of a group, as seen by process `(p, a)`. -/
def scatterOf [AddCommMonoid α] (Pp Pa : ℕ) (az : Bool) (v : RView α) (x : ℕ → ℕ → Ten3 α) (p a : ℕ) : Except PyErr (Ten3 α) :=
  match reduceScatterRank (groupSize Pp Pa az) (fun r => v.view (memberOf az x p a r)) (groupRank az p a) with
  | .error e => .error e
  | .ok w => .ok (v.back (x p a) w)

/-- The all-gather of a group, as seen by process `(p, a)`. -/
def gatherOf (Pp Pa : ℕ) (az : Bool) (v : RView α) (x : ℕ → ℕ → Ten3 α) (shapes : ℕ → ℕ → List ℕ) (p a : ℕ) : Except PyErr (Ten3 α) :=
  match gatherRank (groupSize Pp Pa az) (fun r => v.view (memberOf az x p a r)) (some (shapes p a)) (groupRank az p a) with
  | .error e => .error e
  | .ok w => .ok (v.back (x p a) w)

/-- If the reduce-scatter succeeds on all processes, then the messages fit and every process gets its result. -/
theorem scatter_step [AddCommMonoid α] (hg : GlobInj Pp Pa glob) (hfld : fld.Ok) (hv : v.Ok) (X : ℕ → ℕ → S) (x : ℕ → ℕ → Ten3 α) (hx : ∀ p a, fld.get (X p a) = x p a)
    (hset : ∀ s, fld.set s (fld.get s) = s) (mem : Fin Pp × Fin Pa → S) (hX : ∀ i, mem i = X i.1 i.2) (y : ℕ → ℕ → Ten3 α)
    (hall : ∀ i : Fin Pp × Fin Pa, scatterOf Pp Pa az v x i.1 i.2 = .ok (y i.1 i.2)) :
    (scatterRound Pp Pa glob az fld v).Fits (fun i => glob i.1 i.2) mem ∧
      ∀ i, (scatterRound Pp Pa glob az fld v).run (fun i => glob i.1 i.2) mem i = (fun p a => fld.set (X p a) (y p a)) i.1 i.2 := by
  have hmsg : ∀ (i : Fin Pp × Fin Pa) (r : ℕ),
      groupMsg az (fun _ _ s r => fld.toMsg (vecMsg (fld.get s).d0 (scatterChunk (groupSize Pp Pa az) (v.view (fld.get s)) r))) X i.1 i.2 r =
        fld.toMsg (vecMsg (memberOf az x i.1 i.2 r).d0 (scatterChunk (groupSize Pp Pa az) (v.view (memberOf az x i.1 i.2 r)) (groupRank az i.1 i.2))) := by
    intro i r
    cases az
    · change fld.toMsg (vecMsg (fld.get (X r i.2)).d0 (scatterChunk _ (v.view (fld.get (X r i.2))) _)) = _
      rw [hx]; rfl
    · change fld.toMsg (vecMsg (fld.get (X i.1 r)).d0 (scatterChunk _ (v.view (fld.get (X i.1 r))) _)) = _
      rw [hx]; rfl
  have hget : ∀ i, fld.get (mem i) = x i.1 i.2 := fun i => by rw [hX, hx]
  have key : groupSize Pp Pa az > 1 → ∀ i : Fin Pp × Fin Pa,
      (∀ r < groupSize Pp Pa az, (scatterChunk (groupSize Pp Pa az) (v.view (memberOf az x i.1 i.2 r)) (groupRank az i.1 i.2)).len =
        (scatterChunk (groupSize Pp Pa az) (v.view (x i.1 i.2)) (groupRank az i.1 i.2)).len) ∧
      y i.1 i.2 = v.back (x i.1 i.2) (trimScatter (groupSize Pp Pa az) (v.view (x i.1 i.2)).len (groupRank az i.1 i.2)
        ⟨(scatterChunk (groupSize Pp Pa az) (v.view (x i.1 i.2)) (groupRank az i.1 i.2)).len, fun k => ∑ r ∈ range (groupSize Pp Pa az),
          (scatterChunk (groupSize Pp Pa az) (v.view (memberOf az x i.1 i.2 r)) (groupRank az i.1 i.2)).val k⟩) := by
    intro hP i
    have h := hall i
    unfold scatterOf reduceScatterRank distReduceScatter at h
    rw [if_neg (by omega)] at h
    simp only [memberOf_self, bind, Except.bind, pure, Except.pure] at h
    cases hs : computeSplitShapes (v.view (x i.1 i.2)).len (groupSize Pp Pa az) with
    | error e => rw [hs] at h; cases h
    | ok secs =>
      rw [hs] at h
      dsimp only at h
      by_cases hc : ∀ s < groupSize Pp Pa az, ∀ q < groupSize Pp Pa az,
          (scatterChunk (groupSize Pp Pa az) (v.view (memberOf az x i.1 i.2 s)) q).len = (scatterChunk (groupSize Pp Pa az) (v.view (x i.1 i.2)) (groupRank az i.1 i.2)).len
      · rw [if_pos hc] at h
        dsimp only at h
        rw [Except.ok.injEq] at h
        exact ⟨fun r hr => hc r hr _ (groupRank_lt az i), h.symm⟩
      · rw [if_neg hc] at h
        cases h
  refine ⟨fits_group hg X mem hX fun hP i r hr hne => ?_, fun i => ?_⟩
  · rw [hmsg]
    refine ⟨_, hfld.msg _, ?_⟩
    rw [hget]
    exact (key hP i).1 r hr
  · unfold scatterRound
    rw [run_group hg X mem hX i, hX i]
    by_cases hP : groupSize Pp Pa az > 1
    · rw [if_pos hP]
      dsimp only
      congr 1
      rw [(key hP i).2, hx]
      congr 3
      funext k
      refine sum_congr rfl fun r hr => ?_
      by_cases hne : r = groupRank az i.1 i.2
      · rw [if_neg (fun h => h.2 hne)]
        subst hne
        rw [memberOf_self]
        rfl
      · rw [if_pos ⟨mem_range.1 hr, hne⟩, hmsg, Option.bind_some, hfld.msg]
        rfl
    · rw [if_neg hP]
      have h1 : groupSize Pp Pa az = 1 := by have := groupSize_pos az i; omega
      have h := hall i
      unfold scatterOf reduceScatterRank at h
      rw [if_pos h1] at h
      simp only [memberOf_self, pure, Except.pure] at h
      rw [Except.ok.injEq, hv] at h
      dsimp only
      rw [← h, ← hx, hset]

/-- If the all-gather succeeds on all processes, then the messages fit and every process gets its result. -/
theorem gather_step {shapes : ℕ → ℕ → List ℕ} (hg : GlobInj Pp Pa glob) (hfld : fld.Ok) (hv : v.Ok) (X : ℕ → ℕ → S) (x : ℕ → ℕ → Ten3 α) (hx : ∀ p a, fld.get (X p a) = x p a)
    (hset : ∀ s, fld.set s (fld.get s) = s) (mem : Fin Pp × Fin Pa → S) (hX : ∀ i, mem i = X i.1 i.2) (y : ℕ → ℕ → Ten3 α)
    (hall : ∀ i : Fin Pp × Fin Pa, gatherOf Pp Pa az v x shapes i.1 i.2 = .ok (y i.1 i.2)) :
    (gatherRound Pp Pa glob az fld v shapes).Fits (fun i => glob i.1 i.2) mem ∧
      ∀ i, (gatherRound Pp Pa glob az fld v shapes).run (fun i => glob i.1 i.2) mem i = (fun p a => fld.set (X p a) (y p a)) i.1 i.2 := by
  have hmsg : ∀ (i : Fin Pp × Fin Pa) (r : ℕ),
      groupMsg az (fun _ _ s _ => fld.toMsg (vecMsg (fld.get s).d0 (v.view (fld.get s)))) X i.1 i.2 r =
        fld.toMsg (vecMsg (memberOf az x i.1 i.2 r).d0 (v.view (memberOf az x i.1 i.2 r))) := by
    intro i r
    cases az
    · change fld.toMsg (vecMsg (fld.get (X r i.2)).d0 (v.view (fld.get (X r i.2)))) = _
      rw [hx]; rfl
    · change fld.toMsg (vecMsg (fld.get (X i.1 r)).d0 (v.view (fld.get (X i.1 r)))) = _
      rw [hx]; rfl
  have key : groupSize Pp Pa az > 1 → ∀ i : Fin Pp × Fin Pa,
      (∀ r < groupSize Pp Pa az, (v.view (memberOf az x i.1 i.2 r)).len = (shapes i.1 i.2).getD r 0) ∧
      y i.1 i.2 = v.back (x i.1 i.2) (Vec.cat (groupSize Pp Pa az) fun r => v.view (memberOf az x i.1 i.2 r)) := by
    intro hP i
    have h := hall i
    unfold gatherOf gatherRank at h
    rw [if_neg (by omega)] at h
    simp only [bind, Except.bind, pure, Except.pure, throw, throwThe, MonadExceptOf.throw] at h
    split_ifs at h with h1 h2
    rw [Except.ok.injEq] at h
    exact ⟨h2, h.symm⟩
  refine ⟨fits_group hg X mem hX fun hP i r hr hne => ?_, fun i => ?_⟩
  · rw [hmsg]
    exact ⟨_, hfld.msg _, (key hP i).1 r hr⟩
  · unfold gatherRound
    rw [run_group hg X mem hX i, hX i]
    by_cases hP : groupSize Pp Pa az > 1
    · rw [if_pos hP]
      dsimp only
      congr 1
      rw [(key hP i).2, hx]
      congr 1
      refine cat_congr (by omega) fun r hr => ?_
      by_cases hne : r = groupRank az i.1 i.2
      · rw [if_neg (fun h => h.2 hne)]
        subst hne
        rw [memberOf_self]
        rfl
      · rw [if_pos ⟨hr, hne⟩, hmsg, Option.bind_some, hfld.msg]
        rfl
    · rw [if_neg hP]
      have h1 : groupSize Pp Pa az = 1 := by have := groupSize_pos az i; omega
      have h := hall i
      unfold gatherOf gatherRank at h
      rw [if_pos h1] at h
      simp only [memberOf_self, pure, Except.pure] at h
      rw [Except.ok.injEq, hv] at h
      dsimp only
      rw [← h, ← hx, hset]

theorem matched_scatter [AddCommMonoid α] (hg : GlobInj Pp Pa glob) : Matched (ofRounds (fun i => glob i.1 i.2) [scatterRound Pp Pa glob az fld v]) := matched_group hg

theorem matched_gather {shapes : ℕ → ℕ → List ℕ} (hg : GlobInj Pp Pa glob) : Matched (ofRounds (fun i => glob i.1 i.2) [gatherRound Pp Pa glob az fld v shapes]) := matched_group hg

theorem polarReduceScatter_of [AddCommMonoid α] (x : ℕ → ℕ → Ten3 α) (p a : ℕ) : polarReduceScatter Pp x p a = scatterOf Pp Pa false rLat x p a := rfl

theorem azimuthReduceScatter_of [AddCommMonoid α] {x : ℕ → ℕ → Ten3 α} {p a : ℕ} {y : Ten3 α} (hP : 0 < Pa) (h : azimuthReduceScatter Pa x p a = .ok y) :
    scatterOf Pp Pa true rLon x p a = .ok y := by
  unfold azimuthReduceScatter at h
  by_cases h1 : Pa > 1
  · rw [if_pos h1] at h
    exact h
  · rw [if_neg h1] at h
    unfold scatterOf reduceScatterRank
    rw [if_pos (show groupSize Pp Pa true = 1 by change Pa = 1; omega)]
    simp only [memberOf_self, pure, Except.pure]
    rw [rLon_ok]
    exact h

theorem polarGather_of (x : ℕ → ℕ → Ten3 α) (shapes : ℕ → ℕ → List ℕ) (p a : ℕ) : polarGather Pp x (shapes p a) p a = gatherOf Pp Pa false rLat x shapes p a := rfl

end Verif.Msg
