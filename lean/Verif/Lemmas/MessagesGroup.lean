import Verif.Model.MessagesGroup
import Verif.Lemmas.MessagesBwd
import Verif.Lemmas.DistGrid
/-!
Collective operations of a process group as rounds of messages.
-/
namespace Verif.Msg
open Verif Verif.Spec.Msg Verif.Dist Verif.SHT Finset

section
variable {Pp Pa : ℕ} {glob : ℕ → ℕ → ℕ} {S M : Type}

/-- Two processes belong to the same group. -/
def SameGroup (az : Bool) (i j : Fin Pp × Fin Pa) : Prop := match az with | true => i.1 = j.1 | false => i.2 = j.2

instance (az : Bool) (i j : Fin Pp × Fin Pa) : Decidable (SameGroup az i j) := by
  cases az <;> unfold SameGroup <;> infer_instance

theorem sameGroup_comm (az : Bool) (i j : Fin Pp × Fin Pa) : SameGroup az i j ↔ SameGroup az j i := by
  cases az <;> exact eq_comm

theorem sameGroup_ext {az : Bool} {i j j' : Fin Pp × Fin Pa} (h : SameGroup az i j) (h' : SameGroup az i j') (e : groupRank az j.1 j.2 = groupRank az j'.1 j'.2) : j = j' := by
  cases az
  · exact Prod.ext (Fin.ext e) (h.symm.trans h')
  · exact Prod.ext (h.symm.trans h') (Fin.ext e)

theorem groupRank_lt (az : Bool) (i : Fin Pp × Fin Pa) : groupRank az i.1 i.2 < groupSize Pp Pa az := by
  cases az
  · exact i.1.2
  · exact i.2.2

/-- The member of a group with a given rank. -/
theorem exists_member (az : Bool) (i : Fin Pp × Fin Pa) {r : ℕ} (hr : r < groupSize Pp Pa az) :
    ∃ j : Fin Pp × Fin Pa, SameGroup az i j ∧ groupRank az j.1 j.2 = r ∧ glob j.1 j.2 = groupGlob glob az i.1 i.2 r := by
  cases az
  · exact ⟨(⟨r, hr⟩, i.2), rfl, rfl, rfl⟩
  · exact ⟨(i.1, ⟨r, hr⟩), rfl, rfl, rfl⟩

theorem groupGlob_iff (hg : GlobInj Pp Pa glob) (az : Bool) (i j : Fin Pp × Fin Pa) {r : ℕ} (hr : r < groupSize Pp Pa az) :
    groupGlob glob az i.1 i.2 r = glob j.1 j.2 ↔ SameGroup az i j ∧ r = groupRank az j.1 j.2 := by
  cases az
  · have := glob_iff hg ⟨r, hr⟩ j.1 i.2 j.2
    change (groupGlob glob false i.1 i.2 r = glob j.1 j.2 ↔ _) at this
    rw [this]
    exact ⟨fun h => ⟨h.2, congrArg Fin.val h.1⟩, fun h => ⟨Fin.ext h.2, h.1⟩⟩
  · have := glob_iff hg i.1 j.1 ⟨r, hr⟩ j.2
    change (groupGlob glob true i.1 i.2 r = glob j.1 j.2 ↔ _) at this
    rw [this]
    exact ⟨fun h => ⟨h.1, congrArg Fin.val h.2⟩, fun h => ⟨h.1, Fin.ext h.2⟩⟩

theorem group_sends (hg : GlobInj Pp Pa glob) (az : Bool) (i j : Fin Pp × Fin Pa) :
    sendsTo (glob j.1 j.2) (groupOps Pp Pa glob az i.1 i.2) =
      if SameGroup az i j ∧ groupRank az j.1 j.2 ≠ groupRank az i.1 i.2 then [groupRank az j.1 j.2] else [] := by
  have h : sendsTo (glob j.1 j.2) (groupOps Pp Pa glob az i.1 i.2) = (List.range (groupSize Pp Pa az)).flatMap fun r =>
      if r = groupRank az j.1 j.2 ∧ (SameGroup az i j ∧ groupRank az j.1 j.2 ≠ groupRank az i.1 i.2) then [(fun r => r) r] else [] := by
    unfold sendsTo groupOps
    rw [List.filterMap_flatMap]
    refine List.flatMap_congr fun r hr => ?_
    have hr := List.mem_range.1 hr
    by_cases h1 : r = groupRank az i.1 i.2
    · rw [if_pos h1, if_neg (fun e => e.2.2 (e.1.symm.trans h1))]
      rfl
    · rw [if_neg h1]
      have e := groupGlob_iff hg az i j hr
      by_cases h2 : groupGlob glob az i.1 i.2 r = glob j.1 j.2
      · obtain ⟨e1, e2⟩ := e.1 h2
        rw [if_pos ⟨e2, e1, fun h => h1 (e2.trans h)⟩]
        simp [h2]
      · rw [if_neg (fun h => h2 (e.2 ⟨h.2.1, h.1⟩))]
        simp [h2]
  rw [h, flatMap_pick]
  simp only [groupRank_lt az j, true_and]

theorem group_recvs (hg : GlobInj Pp Pa glob) (az : Bool) (i j : Fin Pp × Fin Pa) :
    recvsFrom (glob j.1 j.2) (groupOps Pp Pa glob az i.1 i.2) =
      if SameGroup az i j ∧ groupRank az j.1 j.2 ≠ groupRank az i.1 i.2 then [groupSize Pp Pa az + groupRank az j.1 j.2] else [] := by
  have h : recvsFrom (glob j.1 j.2) (groupOps Pp Pa glob az i.1 i.2) = (List.range (groupSize Pp Pa az)).flatMap fun r =>
      if r = groupRank az j.1 j.2 ∧ (SameGroup az i j ∧ groupRank az j.1 j.2 ≠ groupRank az i.1 i.2) then [(fun r => groupSize Pp Pa az + r) r] else [] := by
    unfold recvsFrom groupOps
    rw [List.filterMap_flatMap]
    refine List.flatMap_congr fun r hr => ?_
    have hr := List.mem_range.1 hr
    by_cases h1 : r = groupRank az i.1 i.2
    · rw [if_pos h1, if_neg (fun e => e.2.2 (e.1.symm.trans h1))]
      rfl
    · rw [if_neg h1]
      have e := groupGlob_iff hg az i j hr
      by_cases h2 : groupGlob glob az i.1 i.2 r = glob j.1 j.2
      · obtain ⟨e1, e2⟩ := e.1 h2
        rw [if_pos ⟨e2, e1, fun h => h1 (e2.trans h)⟩]
        simp [h2]
      · rw [if_neg (fun h => h2 (e.2 ⟨h.2.1, h.1⟩))]
        simp [h2]
  rw [h, flatMap_pick]
  simp only [groupRank_lt az j, true_and]

variable [Inhabited M] {az : Bool} {send : ℕ → ℕ → S → ℕ → M} {fit : ℕ → ℕ → S → ℕ → M → Prop} {recv : ℕ → ℕ → S → (ℕ → Option M) → S}

theorem matched_group (hg : GlobInj Pp Pa glob) : Matched (ofRounds (fun i => glob i.1 i.2) [groupRound Pp Pa glob az send fit recv]) := by
  refine matched_one _ _ (grid_inj hg) ?_ ?_ ?_ (fun _ _ _ => rfl) (fun _ _ _ _ => Iff.rfl)
  · intro i o ho
    simp only [groupRound] at ho
    split at ho
    · unfold groupOps at ho
      rw [List.mem_flatMap] at ho
      obtain ⟨r, hr, ho⟩ := ho
      obtain ⟨j, -, -, hj⟩ := exists_member (glob := glob) az i (List.mem_range.1 hr)
      split at ho
      · cases ho
      · simp only [List.mem_cons, List.not_mem_nil, or_false] at ho
        rcases ho with rfl | rfl <;> exact ⟨j, hj⟩
    · cases ho
  · intro i j
    simp only [groupRound]
    split
    · rw [group_sends hg, group_recvs hg]
      by_cases h : SameGroup az i j ∧ groupRank az j.1 j.2 ≠ groupRank az i.1 i.2
      · rw [if_pos h, if_pos ⟨(sameGroup_comm az i j).1 h.1, h.2.symm⟩]; rfl
      · rw [if_neg h, if_neg (fun e => h ⟨(sameGroup_comm az i j).2 e.1, e.2.symm⟩)]
    · rfl
  · intro i j j' c c' b h h'
    simp only [groupRound] at h h'
    by_cases hP : groupSize Pp Pa az > 1
    · rw [if_pos hP, group_recvs hg] at h h'
      split_ifs at h h' with h1 h2
      · rw [List.getElem?_singleton] at h h'
        split_ifs at h h' with h3 h4
        rw [Option.some_inj] at h h'
        exact ⟨sameGroup_ext h1.1 h2.1 (by omega), h3.trans h4.symm⟩
      · cases h'
      · cases h
      · cases h
    · rw [if_neg hP] at h
      cases h

/-- What a process receives. -/
theorem arrives_group (hg : GlobInj Pp Pa glob) (mem : Fin Pp × Fin Pa → S) (i : Fin Pp × Fin Pa) (b : ℕ) (m : M) :
    Arrives (ofRounds (fun i => glob i.1 i.2) [groupRound Pp Pa glob az send fit recv]) 0 mem i b m ↔
      groupSize Pp Pa az > 1 ∧ ∃ j : Fin Pp × Fin Pa, SameGroup az i j ∧ groupRank az j.1 j.2 ≠ groupRank az i.1 i.2 ∧
        b = groupSize Pp Pa az + groupRank az j.1 j.2 ∧ m = send j.1 j.2 (mem j) (groupRank az i.1 i.2) := by
  have key : Arrives (ofRounds (fun i => glob i.1 i.2) [groupRound Pp Pa glob az send fit recv]) 0 mem i b m ↔
      ∃ (j : Fin Pp × Fin Pa) (c b' : ℕ), (recvsFrom (glob j.1 j.2) (if groupSize Pp Pa az > 1 then groupOps Pp Pa glob az i.1 i.2 else []))[c]? = some b ∧
        (sendsTo (glob i.1 i.2) (if groupSize Pp Pa az > 1 then groupOps Pp Pa glob az j.1 j.2 else []))[c]? = some b' ∧ m = send j.1 j.2 (mem j) b' := Iff.rfl
  rw [key]
  by_cases hP : groupSize Pp Pa az > 1
  · simp only [if_pos hP]
    constructor
    · rintro ⟨j, c, b', h1, h2, rfl⟩
      rw [group_recvs hg] at h1
      rw [group_sends hg] at h2
      split_ifs at h1 h2 with h3 h4
      · rw [List.getElem?_singleton] at h1 h2
        split_ifs at h1 h2 with h5
        rw [Option.some_inj] at h1 h2
        exact ⟨hP, j, h3.1, h3.2, h1.symm, by rw [h2]⟩
      · cases h2
      · cases h1
      · cases h1
    · rintro ⟨-, j, h1, h2, rfl, rfl⟩
      refine ⟨j, 0, _, ?_, ?_, rfl⟩
      · rw [group_recvs hg, if_pos ⟨h1, h2⟩]; rfl
      · rw [group_sends hg, if_pos ⟨(sameGroup_comm az i j).1 h1, h2.symm⟩]; rfl
  · simp only [if_neg hP]
    constructor
    · rintro ⟨j, c, b', h1, -, -⟩
      cases h1
    · rintro ⟨h, -⟩
      exact absurd h hP

/-- The memory of member `r` of the group of process `(p, a)`, when `X p a` are the memories. -/
def memberOf (az : Bool) (X : ℕ → ℕ → S) (p a r : ℕ) : S := match az with | true => X p r | false => X r a

/-- The message of member `r` to process `(p, a)`. -/
def groupMsg (az : Bool) (send : ℕ → ℕ → S → ℕ → M) (X : ℕ → ℕ → S) (p a r : ℕ) : M :=
  match az with | true => send p r (X p r) a | false => send r a (X r a) p

omit [Inhabited M] in
theorem groupMsg_member {X : ℕ → ℕ → S} {i j : Fin Pp × Fin Pa} (h : SameGroup az i j) :
    groupMsg az send X i.1 i.2 (groupRank az j.1 j.2) = send j.1 j.2 (X j.1 j.2) (groupRank az i.1 i.2) := by
  cases az
  · change i.2 = j.2 at h; rw [h]; rfl
  · change i.1 = j.1 at h; rw [h]; rfl

/-- A collective operation in lockstep. -/
theorem run_group (hg : GlobInj Pp Pa glob) (X : ℕ → ℕ → S) (mem : Fin Pp × Fin Pa → S) (hX : ∀ i, mem i = X i.1 i.2) (i : Fin Pp × Fin Pa) :
    (groupRound Pp Pa glob az send fit recv).run (fun i => glob i.1 i.2) mem i =
      if groupSize Pp Pa az > 1 then recv i.1 i.2 (mem i) fun r => if r < groupSize Pp Pa az ∧ r ≠ groupRank az i.1 i.2 then some (groupMsg az send X i.1 i.2 r) else none
      else mem i := by
  change (if groupSize Pp Pa az > 1 then recv i.1 i.2 (mem i) (fun r => delivered (ofRounds (fun i => glob i.1 i.2) [groupRound Pp Pa glob az send fit recv]) 0 mem i (groupSize Pp Pa az + r))
    else mem i) = _
  by_cases hP : groupSize Pp Pa az > 1
  · rw [if_pos hP, if_pos hP]
    congr 1
    funext r
    have hM := matched_group (az := az) (send := send) (fit := fit) (recv := recv) hg
    refine Option.ext fun m => ?_
    refine (delivered_iff hM Nat.zero_lt_one mem i _ m).trans ((arrives_group hg mem i _ m).trans ?_)
    constructor
    · rintro ⟨-, j, h1, h2, h3, rfl⟩
      have h4 : r = groupRank az j.1 j.2 := by omega
      subst h4
      rw [if_pos ⟨groupRank_lt az j, h2⟩, groupMsg_member h1, hX]
    · intro h
      split_ifs at h with h1
      obtain ⟨j, j1, rfl, -⟩ := exists_member (glob := glob) az i h1.1
      rw [groupMsg_member j1, Option.some_inj, ← hX] at h
      exact ⟨hP, j, j1, h1.2, rfl, h.symm⟩
  · rw [if_neg hP, if_neg hP]

theorem fits_group (hg : GlobInj Pp Pa glob) (X : ℕ → ℕ → S) (mem : Fin Pp × Fin Pa → S) (hX : ∀ i, mem i = X i.1 i.2)
    (h : groupSize Pp Pa az > 1 → ∀ i : Fin Pp × Fin Pa, ∀ r < groupSize Pp Pa az, r ≠ groupRank az i.1 i.2 → fit i.1 i.2 (mem i) r (groupMsg az send X i.1 i.2 r)) :
    (groupRound Pp Pa glob az send fit recv).Fits (fun i => glob i.1 i.2) mem := by
  intro i b m hA
  obtain ⟨hP, j, h1, h2, rfl, rfl⟩ := (arrives_group hg mem i b m).1 hA
  change fit i.1 i.2 (mem i) (groupSize Pp Pa az + groupRank az j.1 j.2 - groupSize Pp Pa az) _
  rw [Nat.add_sub_cancel_left, hX j, ← groupMsg_member (send := send) (X := X) h1]
  exact h hP i _ (groupRank_lt az j) h2

end

/-- A computation without messages. -/
theorem local_step {Pp Pa : ℕ} {S M : Type} [Inhabited M] (gl : Fin Pp × Fin Pa → ℕ) (f : Fin Pp × Fin Pa → S → S) (X X' : ℕ → ℕ → S) (mem : Fin Pp × Fin Pa → S) (hX : ∀ i, mem i = X i.1 i.2)
    (h : ∀ i, f i (X i.1 i.2) = X' i.1 i.2) (i : Fin Pp × Fin Pa) : (localRound f : Round _ S M).run gl mem i = X' i.1 i.2 := by
  change f i (mem i) = _
  rw [hX i, h i]

/-! ### Transposes -/

section
variable {Pp Pa : ℕ} {glob : ℕ → ℕ → ℕ} {S M α : Type} [Inhabited M] {az : Bool} {fld : Field S M α} {v : TView α} {sizes : ℕ → ℕ → List ℕ}

/-- Reading what was written, and a message that was sent. -/
structure Field.Ok (fld : Field S M α) : Prop where
  get_set : ∀ s x, fld.get (fld.set s x) = x
  msg : ∀ m, fld.ofMsg (fld.toMsg m) = some m

/-- The transpose of a group, as seen by process `(p, a)`. -/
def transOf (Pp Pa : ℕ) (az : Bool) (v : TView α) (x : ℕ → ℕ → Ten3 α) (sizes : ℕ → ℕ → List ℕ) (p a : ℕ) : Except PyErr (Ten3 α) :=
  if groupSize Pp Pa az > 1 then
    match distTransposeForward (groupSize Pp Pa az) (fun r => v.view (memberOf az x p a r)) (sizes p a) (groupRank az p a) with
    | .error e => .error e
    | .ok y => .ok (v.back (x p a) y)
  else .ok (x p a)

/-- If the transpose succeeds on all processes, then the messages fit and every process gets its result. -/
theorem trans_round (hg : GlobInj Pp Pa glob) (hfld : fld.Ok) (X : ℕ → ℕ → S) (mem : Fin Pp × Fin Pa → S) (hX : ∀ i, mem i = X i.1 i.2) (y : ℕ → ℕ → Ten3 α)
    (hy : ∀ i : Fin Pp × Fin Pa, transOf Pp Pa az v (fun p a => fld.get (X p a)) sizes i.1 i.2 = .ok (y i.1 i.2)) :
    (transRound Pp Pa glob az fld v sizes).Fits (fun i => glob i.1 i.2) mem ∧
      ∀ i, (transRound Pp Pa glob az fld v sizes).run (fun i => glob i.1 i.2) mem i = if groupSize Pp Pa az > 1 then fld.set (mem i) (y i.1 i.2) else mem i := by
  have key : groupSize Pp Pa az > 1 → ∀ i : Fin Pp × Fin Pa,
      (∀ r < groupSize Pp Pa az,
        (sentChunk (groupSize Pp Pa az) (v.view (memberOf az (fun p a => fld.get (X p a)) i.1 i.2 r)) (groupRank az i.1 i.2)).d0 =
          (sentChunk (groupSize Pp Pa az) (v.view (fld.get (mem i))) (groupRank az i.1 i.2)).d0 ∧
        (sentChunk (groupSize Pp Pa az) (v.view (memberOf az (fun p a => fld.get (X p a)) i.1 i.2 r)) (groupRank az i.1 i.2)).d1 = (sizes i.1 i.2).getD r 0) ∧
      y i.1 i.2 = v.back (fld.get (mem i)) (Mat.cat1 (groupSize Pp Pa az) fun r =>
        sentChunk (groupSize Pp Pa az) (v.view (memberOf az (fun p a => fld.get (X p a)) i.1 i.2 r)) (groupRank az i.1 i.2)) := by
    intro hP i
    have h := hy i
    unfold transOf at h
    rw [if_pos hP] at h
    have hme : memberOf az (fun p a => fld.get (X p a)) i.1 i.2 (groupRank az i.1 i.2) = fld.get (mem i) := by
      rw [hX]; cases az <;> rfl
    unfold distTransposeForward transposeRank at h
    rw [if_neg (by omega)] at h
    simp only [bind, Except.bind, pure, Except.pure, throw, throwThe, MonadExceptOf.throw] at h
    rw [hme] at h
    have hchunk : ∀ secs, computeSplitShapes (v.view (fld.get (mem i))).d0 (groupSize Pp Pa az) = .ok secs →
        (sentChunk (groupSize Pp Pa az) (v.view (fld.get (mem i))) (groupRank az i.1 i.2)).d0 = secs.getD (groupRank az i.1 i.2) 0 := fun secs hs => by
      unfold sentChunk
      rw [hs]
      rfl
    cases hs : computeSplitShapes (v.view (fld.get (mem i))).d0 (groupSize Pp Pa az) with
    | error e => rw [hs] at h; cases h
    | ok secs =>
      rw [hs] at h
      dsimp only at h
      split_ifs at h with h1 h2
      rw [Except.ok.injEq] at h
      refine ⟨fun r hr => ?_, ?_⟩
      · rw [hchunk secs hs]; exact h2 r hr
      · rw [hX i]; exact h.symm
  refine ⟨fits_group hg X mem hX fun hP i r hr hne => ?_, fun i => ?_⟩
  · obtain ⟨h1, -⟩ := key hP i
    refine ⟨_, ?_, h1 r hr⟩
    have : groupMsg az (fun _ _ s r => fld.toMsg (sentChunk (groupSize Pp Pa az) (v.view (fld.get s)) r)) X i.1 i.2 r =
        fld.toMsg (sentChunk (groupSize Pp Pa az) (v.view (memberOf az (fun p a => fld.get (X p a)) i.1 i.2 r)) (groupRank az i.1 i.2)) := by
      cases az <;> rfl
    rw [this, hfld.msg]
  · unfold transRound
    rw [run_group hg X mem hX i]
    by_cases hP : groupSize Pp Pa az > 1
    · rw [if_pos hP, if_pos hP]
      congr 1
      rw [(key hP i).2]
      congr 1
      refine cat1_congr (by omega) fun r hr => ?_
      dsimp only
      by_cases hne : r = groupRank az i.1 i.2
      · rw [if_neg (fun h => h.2 hne)]
        subst hne
        rw [show memberOf az (fun p a => fld.get (X p a)) i.1 i.2 (groupRank az i.1 i.2) = fld.get (mem i) by rw [hX]; cases az <;> rfl]
        rfl
      · rw [if_pos ⟨hr, hne⟩]
        have : groupMsg az (fun _ _ s r => fld.toMsg (sentChunk (groupSize Pp Pa az) (v.view (fld.get s)) r)) X i.1 i.2 r =
            fld.toMsg (sentChunk (groupSize Pp Pa az) (v.view (memberOf az (fun p a => fld.get (X p a)) i.1 i.2 r)) (groupRank az i.1 i.2)) := by
          cases az <;> rfl
        rw [this, Option.bind_some, hfld.msg]
        rfl
    · rw [if_neg hP, if_neg hP]

/-- The same with the tensors and the memories given separately: the next memories. -/
theorem trans_step (hg : GlobInj Pp Pa glob) (hfld : fld.Ok) (X : ℕ → ℕ → S) (x : ℕ → ℕ → Ten3 α) (hx : ∀ p a, fld.get (X p a) = x p a) (hset : ∀ s, fld.set s (fld.get s) = s)
    (mem : Fin Pp × Fin Pa → S) (hX : ∀ i, mem i = X i.1 i.2) (y : ℕ → ℕ → Ten3 α)
    (hall : ∀ i : Fin Pp × Fin Pa, transOf Pp Pa az v x sizes i.1 i.2 = .ok (y i.1 i.2)) :
    (transRound Pp Pa glob az fld v sizes).Fits (fun i => glob i.1 i.2) mem ∧
      ∀ i, (transRound Pp Pa glob az fld v sizes).run (fun i => glob i.1 i.2) mem i = (fun p a => fld.set (X p a) (y p a)) i.1 i.2 := by
  have hx' : (fun p a => fld.get (X p a)) = x := funext fun p => funext fun a => hx p a
  obtain ⟨h1, h2⟩ := trans_round (fld := fld) (v := v) (sizes := sizes) (az := az) hg hfld X mem hX y (by rw [hx']; exact hall)
  refine ⟨h1, fun i => ?_⟩
  rw [h2 i, hX i]
  by_cases hP : groupSize Pp Pa az > 1
  · rw [if_pos hP]
  · rw [if_neg hP]
    have := hall i
    unfold transOf at this
    rw [if_neg hP, Except.ok.injEq] at this
    dsimp only
    rw [← this, ← hx, hset]

theorem sentChunk_d0 {P n : ℕ} {l : List ℕ} (x : Mat (ℕ → α)) (hn : x.d0 = n) (hl : computeSplitShapes n P = .ok l) (r : ℕ) : (sentChunk P x r).d0 = l.getD r 0 := by
  subst hn
  unfold sentChunk
  rw [hl]
  rfl

/-- When the messages of a transpose fit, the members of a group have equally many channels. -/
theorem trans_channels (hg : GlobInj Pp Pa glob) (hfld : fld.Ok) (mem : Fin Pp × Fin Pa → S) (hP : groupSize Pp Pa az > 1)
    (hn : ∀ i, groupSize Pp Pa az ≤ (v.view (fld.get (mem i))).d0) (h : (transRound Pp Pa glob az fld v sizes).Fits (fun i => glob i.1 i.2) mem) (i j : Fin Pp × Fin Pa)
    (hij : SameGroup az i j) : (v.view (fld.get (mem i))).d0 = (v.view (fld.get (mem j))).d0 := by
  have key : ∀ i k : Fin Pp × Fin Pa, SameGroup az k i →
      (sentChunk (groupSize Pp Pa az) (v.view (fld.get (mem i))) (groupRank az k.1 k.2)).d0 = (sentChunk (groupSize Pp Pa az) (v.view (fld.get (mem k))) (groupRank az k.1 k.2)).d0 := by
    intro i k hik
    by_cases hr : groupRank az i.1 i.2 = groupRank az k.1 k.2
    · rw [sameGroup_ext hik (show SameGroup az k k by cases az <;> rfl) hr]
    · obtain ⟨c, hc, h0, -⟩ := h k _ _ ((arrives_group hg mem k _ _).2 ⟨hP, i, hik, hr, rfl, rfl⟩)
      rw [hfld.msg, Option.some_inj] at hc
      rw [hc]
      exact h0
  obtain ⟨li, hli⟩ := css_exists (hn i) (by omega)
  obtain ⟨lj, hlj⟩ := css_exists (hn j) (by omega)
  have hl : li = lj := by
    have e : ∀ r < groupSize Pp Pa az, lj.getD r 0 = li.getD r 0 := fun r hr => by
      obtain ⟨k, k1, rfl, -⟩ := exists_member (glob := glob) az i hr
      have h1 := key i k ((sameGroup_comm az i k).1 k1)
      have h2 := key j k (by
        cases az
        · exact Eq.trans (Eq.symm k1) hij
        · exact Eq.trans (Eq.symm k1) hij)
      rw [sentChunk_d0 _ rfl hli] at h1
      rw [sentChunk_d0 _ rfl hlj] at h2
      exact h2.trans h1.symm
    rw [← map_range_getD li _ (css_length hli) (fun r => li.getD r 0) (fun _ _ => rfl), ← map_range_getD lj _ (css_length hlj) (fun r => li.getD r 0) (fun r hr => (e r hr).symm)]
  rw [← css_sum hli, ← css_sum hlj, hl]

theorem matched_trans (hg : GlobInj Pp Pa glob) : Matched (ofRounds (fun i => glob i.1 i.2) [transRound Pp Pa glob az fld v sizes]) := matched_group hg

theorem azimuthIn_trans (x : ℕ → ℕ → Ten3 α) (p a : ℕ) : azimuthIn Pa x (sizes p a) p a = transOf Pp Pa true v02 x sizes p a := rfl

theorem polarIn_trans (x : ℕ → ℕ → Ten3 α) (p a : ℕ) : polarIn Pp x (sizes p a) p a = transOf Pp Pa false v01 x sizes p a := rfl

theorem azimuthOut_trans {x : ℕ → ℕ → Ten3 α} {n : ℕ → ℕ → ℕ} {p a : ℕ} {y : Ten3 α} (h : azimuthOut Pa x (n p a) p a = .ok y) :
    transOf Pp Pa true v20 x (fun p a => chanShapes (n p a) Pa) p a = .ok y := by
  unfold azimuthOut at h
  unfold transOf
  change (if Pa > 1 then _ else _) = _
  by_cases hP : Pa > 1
  · rw [if_pos hP] at h ⊢
    cases hs : computeSplitShapes (n p a) Pa with
    | error e => rw [hs] at h; cases h
    | ok sh =>
      rw [hs] at h
      have hc : chanShapes (n p a) Pa = sh := by unfold chanShapes; rw [hs]
      simp only [hc]
      exact h
  · rw [if_neg hP] at h ⊢; exact h

theorem polarOut_trans {x : ℕ → ℕ → Ten3 α} {n : ℕ → ℕ → ℕ} {p a : ℕ} {y : Ten3 α} (h : polarOut Pp x (n p a) p a = .ok y) :
    transOf Pp Pa false v10 x (fun p a => chanShapes (n p a) Pp) p a = .ok y := by
  unfold polarOut at h
  unfold transOf
  change (if Pp > 1 then _ else _) = _
  by_cases hP : Pp > 1
  · rw [if_pos hP] at h ⊢
    cases hs : computeSplitShapes (n p a) Pp with
    | error e => rw [hs] at h; cases h
    | ok sh =>
      rw [hs] at h
      have hc : chanShapes (n p a) Pp = sh := by unfold chanShapes; rw [hs]
      simp only [hc]
      exact h
  · rw [if_neg hP] at h ⊢; exact h

end

section
variable {α β : Type}

theorem xField_ok : (xField : Field (DMem α β) _ α).Ok := ⟨fun _ _ => rfl, fun _ => rfl⟩

theorem yField_ok : (yField : Field (DMem α β) _ β).Ok := ⟨fun _ _ => rfl, fun _ => rfl⟩

end

end Verif.Msg
