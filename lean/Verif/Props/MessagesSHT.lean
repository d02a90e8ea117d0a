import Verif.Lemmas.MessagesGroup
import Verif.Props.DistSHT
import Verif.Props.Messages
/-!
C102: the distributed spherical harmonic transforms under every schedule of ranks and messages.
-/
namespace Verif.Props
open Verif Verif.Msg Verif.Spec.Msg Verif.Dist Verif.SHT Verif.FFT Verif.Spec Finset

section
variable {α β : Type} [Inhabited α] {Pp Pa : ℕ} {glob : ℕ → ℕ → ℕ}

theorem matched_analysis (hg : GlobInj Pp Pa glob) (chans : ℕ → ℕ → ℕ) (shlon shlat : ℕ → ℕ → List ℕ) (F : ℕ → ℕ → Ten3 α → Except PyErr (Ten3 β)) (G : ℕ → ℕ → Ten3 β → Ten3 β) :
    Matched (ofRounds (fun i => glob i.1 i.2) (analysisRounds Pp Pa glob chans shlon shlat F G)) := by
  refine matched_rounds _ _ (grid_inj hg) fun R hR => ?_
  simp only [analysisRounds, List.mem_cons, List.not_mem_nil, or_false] at hR
  rcases hR with rfl | rfl | rfl | rfl | rfl | rfl
  · exact matched_trans hg
  · exact matched_local _ _ (grid_inj hg)
  · exact matched_trans hg
  · exact matched_trans hg
  · exact matched_local _ _ (grid_inj hg)
  · exact matched_trans hg

theorem matched_synthesis (hg : GlobInj Pp Pa glob) (chans : ℕ → ℕ → ℕ) (shl shm : ℕ → ℕ → List ℕ) (G : ℕ → ℕ → Ten3 α → Ten3 α) (F : ℕ → ℕ → Ten3 α → Except PyErr (Ten3 β)) :
    Matched (ofRounds (fun i => glob i.1 i.2) (synthesisRounds Pp Pa glob chans shl shm G F)) := by
  refine matched_rounds _ _ (grid_inj hg) fun R hR => ?_
  simp only [synthesisRounds, List.mem_cons, List.not_mem_nil, or_false] at hR
  rcases hR with rfl | rfl | rfl | rfl | rfl | rfl
  · exact matched_trans hg
  · exact matched_local _ _ (grid_inj hg)
  · exact matched_trans hg
  · exact matched_trans hg
  · exact matched_local _ _ (grid_inj hg)
  · exact matched_trans hg

variable [Zero α] [Inhabited β]

/-- Where the transform without schedules succeeds, the rounds fit and give the same. -/
theorem analysis_run (hg : GlobInj Pp Pa glob) (n1 n2 : ℕ → ℕ → ℕ) (shlon shlat : ℕ → ℕ → List ℕ) (F : ℕ → ℕ → Ten3 α → Except PyErr (Ten3 β)) (G : ℕ → ℕ → Ten3 β → Ten3 β)
    (x : ℕ → ℕ → LTen α) (y : ℕ → ℕ → LTen β) (h : analysisPipe Pp Pa n1 n2 shlon shlat F G x = .ok y) :
    FitsAll (fun i : Fin Pp × Fin Pa => glob i.1 i.2) (analysisRounds Pp Pa glob (numChans Pp Pa x) shlon shlat F G) (shtMem Pp Pa x) ∧
      ∀ i, shtOut x i (runs (fun i : Fin Pp × Fin Pa => glob i.1 i.2) (analysisRounds Pp Pa glob (numChans Pp Pa x) shlon shlat F G) (shtMem Pp Pa x) i) = .ok (y i.1 i.2) := by
  unfold analysisPipe at h
  simp only [bind, Except.bind] at h
  split at h
  · cases h
  split at h
  · cases h
  next x1 hx1 =>
  split at h
  · cases h
  next x2 hx2 =>
  split at h
  · cases h
  next x3 hx3 =>
  split at h
  · cases h
  next x4 hx4 =>
  split at h
  · cases h
  next x6 hx6 =>
  set d : Ten3 β := ⟨0, 0, 0, fun _ _ _ => default⟩ with hd
  obtain ⟨f1, r1⟩ := trans_step (glob := glob) (az := true) (v := v02) (sizes := shlon) hg xField_ok (fun p a => (⟨(flattenPad (x p a) (max Pp Pa)).1, d⟩ : DMem α β)) _ (fun _ _ => rfl) (fun _ => rfl)
    (shtMem Pp Pa x) (fun _ => rfl) x1 (fun i => collect_all hx1 i.1 i.1.2 i.2 i.2.2)
  have r2 := local_step (M := Mat (ℕ → α) ⊕ Mat (ℕ → β)) (fun i => glob i.1 i.2) (fun (i : Fin Pp × Fin Pa) (s : DMem α β) => match F i.1 i.2 s.x with | .ok y => (⟨s.x, y⟩ : DMem α β) | .error _ => s) (fun p a => ⟨x1 p a, d⟩) (fun p a => ⟨x1 p a, x2 p a⟩) _ r1
    fun i => by
      change (match F i.1 i.2 (x1 i.1 i.2) with | .ok y => (⟨x1 i.1 i.2, y⟩ : DMem α β) | .error _ => ⟨x1 i.1 i.2, d⟩) = _
      rw [collect_all hx2 i.1 i.1.2 i.2 i.2.2]
  obtain ⟨f3, r3⟩ := trans_step (glob := glob) (az := true) (v := v20) (sizes := fun p a => chanShapes (numChans Pp Pa x p a) Pa) hg yField_ok (fun p a => (⟨x1 p a, x2 p a⟩ : DMem α β)) x2 (fun _ _ => rfl) (fun _ => rfl)
    _ r2 x3 (fun i => azimuthOut_trans (collect_all hx3 i.1 i.1.2 i.2 i.2.2))
  obtain ⟨f4, r4⟩ := trans_step (glob := glob) (az := false) (v := v01) (sizes := shlat) hg yField_ok (fun p a => (⟨x1 p a, x3 p a⟩ : DMem α β)) x3 (fun _ _ => rfl) (fun _ => rfl)
    _ r3 x4 (fun i => collect_all hx4 i.1 i.1.2 i.2 i.2.2)
  have r5 := local_step (M := Mat (ℕ → α) ⊕ Mat (ℕ → β)) (fun i => glob i.1 i.2) (fun (i : Fin Pp × Fin Pa) (s : DMem α β) => (⟨s.x, G i.1 i.2 s.y⟩ : DMem α β)) (fun p a => ⟨x1 p a, x4 p a⟩) (fun p a => ⟨x1 p a, G p a (x4 p a)⟩) _ r4 fun _ => rfl
  obtain ⟨f6, r6⟩ := trans_step (glob := glob) (az := false) (v := v10) (sizes := fun p a => chanShapes (numChans Pp Pa x p a) Pp) hg yField_ok (fun p a => (⟨x1 p a, G p a (x4 p a)⟩ : DMem α β)) (fun p a => G p a (x4 p a)) (fun _ _ => rfl) (fun _ => rfl)
    _ r5 x6 (fun i => polarOut_trans (collect_all hx6 i.1 i.1.2 i.2 i.2.2))
  refine ⟨⟨f1, fits_local _ _ _, f3, f4, fits_local _ _ _, f6, trivial⟩, fun i => ?_⟩
  refine Eq.trans (congrArg (shtOut x i) (r6 i)) ?_
  exact collect_all h i.1 i.1.2 i.2 i.2.2

/-- The same for the inverse transforms. -/
theorem synthesis_run (hg : GlobInj Pp Pa glob) (n1 n2 : ℕ → ℕ → ℕ) (shl shm : ℕ → ℕ → List ℕ) (G : ℕ → ℕ → Ten3 α → Ten3 α) (F : ℕ → ℕ → Ten3 α → Except PyErr (Ten3 β))
    (x : ℕ → ℕ → LTen α) (y : ℕ → ℕ → LTen β) (h : synthesisPipe Pp Pa n1 n2 shl shm G F x = .ok y) :
    FitsAll (fun i : Fin Pp × Fin Pa => glob i.1 i.2) (synthesisRounds Pp Pa glob (numChans Pp Pa x) shl shm G F) (shtMem Pp Pa x) ∧
      ∀ i, shtOut x i (runs (fun i : Fin Pp × Fin Pa => glob i.1 i.2) (synthesisRounds Pp Pa glob (numChans Pp Pa x) shl shm G F) (shtMem Pp Pa x) i) = .ok (y i.1 i.2) := by
  unfold synthesisPipe at h
  simp only [bind, Except.bind] at h
  split at h
  · cases h
  split at h
  · cases h
  next x1 hx1 =>
  split at h
  · cases h
  next x3 hx3 =>
  split at h
  · cases h
  next x4 hx4 =>
  split at h
  · cases h
  next x5 hx5 =>
  split at h
  · cases h
  next x6 hx6 =>
  set d : Ten3 β := ⟨0, 0, 0, fun _ _ _ => default⟩ with hd
  obtain ⟨f1, r1⟩ := trans_step (glob := glob) (az := false) (v := v01) (sizes := shl) hg xField_ok (fun p a => (⟨(flattenPad (x p a) (max Pp Pa)).1, d⟩ : DMem α β)) _ (fun _ _ => rfl) (fun _ => rfl)
    (shtMem Pp Pa x) (fun _ => rfl) x1 (fun i => collect_all hx1 i.1 i.1.2 i.2 i.2.2)
  have r2 := local_step (M := Mat (ℕ → α) ⊕ Mat (ℕ → β)) (fun i => glob i.1 i.2) (fun (i : Fin Pp × Fin Pa) (s : DMem α β) => (⟨G i.1 i.2 s.x, s.y⟩ : DMem α β)) (fun p a => ⟨x1 p a, d⟩) (fun p a => ⟨G p a (x1 p a), d⟩) _ r1 fun _ => rfl
  obtain ⟨f3, r3⟩ := trans_step (glob := glob) (az := false) (v := v10) (sizes := fun p a => chanShapes (numChans Pp Pa x p a) Pp) hg xField_ok (fun p a => (⟨G p a (x1 p a), d⟩ : DMem α β)) (fun p a => G p a (x1 p a)) (fun _ _ => rfl) (fun _ => rfl)
    _ r2 x3 (fun i => polarOut_trans (collect_all hx3 i.1 i.1.2 i.2 i.2.2))
  obtain ⟨f4, r4⟩ := trans_step (glob := glob) (az := true) (v := v02) (sizes := shm) hg xField_ok (fun p a => (⟨x3 p a, d⟩ : DMem α β)) x3 (fun _ _ => rfl) (fun _ => rfl)
    _ r3 x4 (fun i => collect_all hx4 i.1 i.1.2 i.2 i.2.2)
  have r5 := local_step (M := Mat (ℕ → α) ⊕ Mat (ℕ → β)) (fun i => glob i.1 i.2) (fun (i : Fin Pp × Fin Pa) (s : DMem α β) => match F i.1 i.2 s.x with | .ok y => (⟨s.x, y⟩ : DMem α β) | .error _ => s) (fun p a => ⟨x4 p a, d⟩) (fun p a => ⟨x4 p a, x5 p a⟩) _ r4
    fun i => by
      change (match F i.1 i.2 (x4 i.1 i.2) with | .ok y => (⟨x4 i.1 i.2, y⟩ : DMem α β) | .error _ => ⟨x4 i.1 i.2, d⟩) = _
      rw [collect_all hx5 i.1 i.1.2 i.2 i.2.2]
  obtain ⟨f6, r6⟩ := trans_step (glob := glob) (az := true) (v := v20) (sizes := fun p a => chanShapes (numChans Pp Pa x p a) Pa) hg yField_ok (fun p a => (⟨x4 p a, x5 p a⟩ : DMem α β)) x5 (fun _ _ => rfl) (fun _ => rfl)
    _ r5 x6 (fun i => azimuthOut_trans (collect_all hx6 i.1 i.1.2 i.2 i.2.2))
  refine ⟨⟨f1, fits_local _ _ _, f3, f4, fits_local _ _ _, f6, trivial⟩, fun i => ?_⟩
  refine Eq.trans (congrArg (shtOut x i) (r6 i)) ?_
  exact collect_all h i.1 i.1.2 i.2 i.2.2

omit [Inhabited α] in
theorem flattenPad_d0 (x : LTen α) (M : ℕ) : (flattenPad x M).1.d0 = max x.lead.prod M :=
  (C55_pad_leading (⟨x.lead.prod, fun i => x.val (unflatIndex x.lead i)⟩ : Vec (ℕ → ℕ → α)) M).2.1

theorem analysis_channels (hg : GlobInj Pp Pa glob) (shlon shlat : ℕ → ℕ → List ℕ) (F : ℕ → ℕ → Ten3 α → Except PyErr (Ten3 β)) (G : ℕ → ℕ → Ten3 β → Ten3 β) (x : ℕ → ℕ → LTen α)
    (p : Fin Pp) (a a' : Fin Pa) (hne : max (x p a).lead.prod (max Pp Pa) ≠ max (x p a').lead.prod (max Pp Pa)) :
    ¬ FitsAt (ofRounds (fun i : Fin Pp × Fin Pa => glob i.1 i.2) (analysisRounds Pp Pa glob (numChans Pp Pa x) shlon shlat F G)) (shtMem Pp Pa x) 0 := by
  intro hF
  have hP : Pa > 1 := by
    by_contra hP
    exact hne (by rw [show a = a' from Fin.ext (by have := a.2; have := a'.2; omega)])
  refine hne ?_
  rw [← flattenPad_d0, ← flattenPad_d0]
  exact trans_channels (az := true) (v := v02) (sizes := shlon) hg (xField_ok (β := β)) (shtMem Pp Pa x) hP
    (fun i => le_trans (le_max_right _ _) (le_trans (le_max_right _ _) (flattenPad_d0 (x i.1 i.2) (max Pp Pa)).ge)) hF (p, a) (p, a') rfl

theorem synthesis_channels (hg : GlobInj Pp Pa glob) (shl shm : ℕ → ℕ → List ℕ) (G : ℕ → ℕ → Ten3 α → Ten3 α) (F : ℕ → ℕ → Ten3 α → Except PyErr (Ten3 β)) (x : ℕ → ℕ → LTen α)
    (p p' : Fin Pp) (a : Fin Pa) (hne : max (x p a).lead.prod (max Pp Pa) ≠ max (x p' a).lead.prod (max Pp Pa)) :
    ¬ FitsAt (ofRounds (fun i : Fin Pp × Fin Pa => glob i.1 i.2) (synthesisRounds Pp Pa glob (numChans Pp Pa x) shl shm G F)) (shtMem Pp Pa x) 0 := by
  intro hF
  have hP : Pp > 1 := by
    by_contra hP
    exact hne (by rw [show p = p' from Fin.ext (by have := p.2; have := p'.2; omega)])
  refine hne ?_
  rw [← flattenPad_d0, ← flattenPad_d0]
  exact trans_channels (az := false) (v := v01) (sizes := shl) hg (xField_ok (β := β)) (shtMem Pp Pa x) hP
    (fun i => le_trans (le_max_left _ _) (le_trans (le_max_right _ _) (flattenPad_d0 (x i.1 i.2) (max Pp Pa)).ge)) hF (p, a) (p', a) rfl

/-- What C102 says of a program with initial memories `mem` in which rank `i` returns `out i` of its memory: under every schedule there is no error and no deadlock, an execution has at most the given
number of steps, a rank that has finished returns `y`, and there is an execution in which all ranks finish. -/
def EverySchedule {S M γ : Type} (g : Prog (Fin Pp × Fin Pa) S M) (mem : Fin Pp × Fin Pa → S) (out : Fin Pp × Fin Pa → S → γ) (y : Fin Pp × Fin Pa → γ) : Prop :=
  (∀ (n : ℕ) (s : Net (Fin Pp × Fin Pa) S M), Exec g (Net.init mem) n s →
    s.fault = false ∧ n ≤ 3 * g.rounds * (Pp * Pa) + ∑ i, ∑ j, g.sent i j g.rounds ∧
    ((∃ i, (s.proc i).round ≠ g.rounds) → ∃ s', Step g s s') ∧ ∀ i, (s.proc i).round = g.rounds → out i (s.proc i).mem = y i) ∧
  ∃ n s, Exec g (Net.init mem) n s ∧ ∀ i, (s.proc i).round = g.rounds

omit [Inhabited α] [Zero α] [Inhabited β] in
theorem everySchedule {S M γ : Type} [Inhabited M] (L : List (Round (Fin Pp × Fin Pa) S M)) (hM : Matched (ofRounds (fun i => glob i.1 i.2) L)) (mem : Fin Pp × Fin Pa → S)
    (hF : FitsAll (fun i => glob i.1 i.2) L mem) (out : Fin Pp × Fin Pa → S → γ) (y : Fin Pp × Fin Pa → γ) (hy : ∀ i, out i (runs (fun i => glob i.1 i.2) L mem i) = y i) :
    EverySchedule (ofRounds (fun i => glob i.1 i.2) L) mem out y := by
  have hF' : ∀ n < (ofRounds (fun i : Fin Pp × Fin Pa => glob i.1 i.2) L).rounds, FitsAt (ofRounds (fun i => glob i.1 i.2) L) mem n := fun n hn => fitsAll_at _ L mem hF n hn
  refine ⟨fun n s h => ?_, ?_⟩
  · have hf := C100_sizes _ hM mem hF' n s h
    refine ⟨hf, ?_, C100_progress _ hM mem n s h hf, fun i hi => ?_⟩
    · have := (C100_steps _ hM mem n s h hf).1
      rwa [Fintype.card_prod, Fintype.card_fin, Fintype.card_fin] at this
    · rw [C100_deliver _ hM mem n s h hf i hi, ← hy i]
      exact congrArg (fun m => out i (m i)) (lockstep_all _ L mem)
  · obtain ⟨s, hs, hall⟩ := C100_completes _ hM mem hF'
    exact ⟨_, s, hs, hall⟩

end

/-- C102: the batches of the four transforms match, whatever the shapes: every send has its receive. So two executions of one program never differ in what a rank holds after the same round
(`C100_deliver`), and without a message of a wrong size there is no deadlock (`C100_progress`). -/
theorem C102_matched (Pp Pa : ℕ) (glob : ℕ → ℕ → ℕ) (hglob : GlobInj Pp Pa glob) (be : C2R) (D : ℕ → ℕ → DRealSHT) (D' : ℕ → ℕ → DInverseRealSHT) (V : ℕ → ℕ → DRealVectorSHT)
    (V' : ℕ → ℕ → DInverseRealVectorSHT) (x : ℕ → ℕ → LTen ℝ) (c : ℕ → ℕ → LTen ℂ) (u : ℕ → ℕ → LTen (ℝ × ℝ)) (z : ℕ → ℕ → LTen (ℂ × ℂ)) :
    Matched (realProg Pp Pa glob D x) ∧ Matched (inverseProg Pp Pa glob be D' c) ∧ Matched (vectorProg Pp Pa glob V u) ∧ Matched (inverseVectorProg Pp Pa glob be V' z) :=
  ⟨matched_analysis hglob _ _ _ _ _, matched_synthesis hglob _ _ _ _ _, matched_analysis hglob _ _ _ _ _, matched_synthesis hglob _ _ _ _ _⟩

/-- C102: where the transform succeeds when all ranks advance together, it succeeds under every schedule, with the same result. -/
theorem C102_schedules (Pp Pa : ℕ) (glob : ℕ → ℕ → ℕ) (hglob : GlobInj Pp Pa glob) :
    (∀ (D : ℕ → ℕ → DRealSHT) (x : ℕ → ℕ → LTen ℝ) y, DRealSHT.forward Pp Pa D x = .ok y →
      EverySchedule (realProg Pp Pa glob D x) (shtMem Pp Pa x) (shtOut x) fun i => .ok (y i.1 i.2)) ∧
    (∀ (be : C2R) (D : ℕ → ℕ → DInverseRealSHT) (x : ℕ → ℕ → LTen ℂ) y, DInverseRealSHT.forward be Pp Pa D x = .ok y →
      EverySchedule (inverseProg Pp Pa glob be D x) (shtMem Pp Pa x) (shtOut x) fun i => .ok (y i.1 i.2)) ∧
    (∀ (D : ℕ → ℕ → DRealVectorSHT) (x : ℕ → ℕ → LTen (ℝ × ℝ)) y, DRealVectorSHT.forward Pp Pa D x = .ok y →
      EverySchedule (vectorProg Pp Pa glob D x) (shtMem Pp Pa x) (shtOut x) fun i => .ok (y i.1 i.2)) ∧
    ∀ (be : C2R) (D : ℕ → ℕ → DInverseRealVectorSHT) (x : ℕ → ℕ → LTen (ℂ × ℂ)) y, DInverseRealVectorSHT.forward be Pp Pa D x = .ok y →
      EverySchedule (inverseVectorProg Pp Pa glob be D x) (shtMem Pp Pa x) (shtOut x) fun i => .ok (y i.1 i.2) := by
  refine ⟨fun D x y h => ?_, fun be D x y h => ?_, fun D x y h => ?_, fun be D x y h => ?_⟩
  · obtain ⟨h1, h2⟩ := analysis_run hglob _ _ _ _ _ _ x y h
    exact everySchedule _ (matched_analysis hglob _ _ _ _ _) _ h1 _ _ h2
  · obtain ⟨h1, h2⟩ := synthesis_run hglob _ _ _ _ _ _ x y h
    exact everySchedule _ (matched_synthesis hglob _ _ _ _ _) _ h1 _ _ h2
  · obtain ⟨h1, h2⟩ := analysis_run hglob _ _ _ _ _ _ x y h
    exact everySchedule _ (matched_analysis hglob _ _ _ _ _) _ h1 _ _ h2
  · obtain ⟨h1, h2⟩ := synthesis_run hglob _ _ _ _ _ _ x y h
    exact everySchedule _ (matched_synthesis hglob _ _ _ _ _) _ h1 _ _ h2

/-- C102: ranks with different numbers of channels never get a result. If two ranks of the azimuth group (for the inverse transforms: of the polar group) call the transform with tensors that have a different
number of channels after padding, then no execution ends with all ranks finished and no error. -/
theorem C102_channels (Pp Pa : ℕ) (glob : ℕ → ℕ → ℕ) (hglob : GlobInj Pp Pa glob) :
    (∀ (D : ℕ → ℕ → DRealSHT) (x : ℕ → ℕ → LTen ℝ) (p : Fin Pp) (a a' : Fin Pa), max (x p a).lead.prod (max Pp Pa) ≠ max (x p a').lead.prod (max Pp Pa) →
      ∀ n s, Exec (realProg Pp Pa glob D x) (Net.init (shtMem Pp Pa x)) n s → ¬ (s.fault = false ∧ ∀ i, (s.proc i).round = 6)) ∧
    (∀ (be : C2R) (D : ℕ → ℕ → DInverseRealSHT) (x : ℕ → ℕ → LTen ℂ) (p p' : Fin Pp) (a : Fin Pa), max (x p a).lead.prod (max Pp Pa) ≠ max (x p' a).lead.prod (max Pp Pa) →
      ∀ n s, Exec (inverseProg Pp Pa glob be D x) (Net.init (shtMem Pp Pa x)) n s → ¬ (s.fault = false ∧ ∀ i, (s.proc i).round = 6)) ∧
    (∀ (D : ℕ → ℕ → DRealVectorSHT) (x : ℕ → ℕ → LTen (ℝ × ℝ)) (p : Fin Pp) (a a' : Fin Pa), max (x p a).lead.prod (max Pp Pa) ≠ max (x p a').lead.prod (max Pp Pa) →
      ∀ n s, Exec (vectorProg Pp Pa glob D x) (Net.init (shtMem Pp Pa x)) n s → ¬ (s.fault = false ∧ ∀ i, (s.proc i).round = 6)) ∧
    ∀ (be : C2R) (D : ℕ → ℕ → DInverseRealVectorSHT) (x : ℕ → ℕ → LTen (ℂ × ℂ)) (p p' : Fin Pp) (a : Fin Pa), max (x p a).lead.prod (max Pp Pa) ≠ max (x p' a).lead.prod (max Pp Pa) →
      ∀ n s, Exec (inverseVectorProg Pp Pa glob be D x) (Net.init (shtMem Pp Pa x)) n s → ¬ (s.fault = false ∧ ∀ i, (s.proc i).round = 6) := by
  refine ⟨fun D x p a a' hne n s h => ?_, fun be D x p p' a hne n s h => ?_, fun D x p a a' hne n s h => ?_, fun be D x p p' a hne n s h => ?_⟩
  · exact C100_sizes_fail _ (matched_analysis hglob _ _ _ _ _) _ 0 (show 0 < 6 by omega) (analysis_channels hglob _ _ _ _ x p a a' hne) n s h
  · exact C100_sizes_fail _ (matched_synthesis hglob _ _ _ _ _) _ 0 (show 0 < 6 by omega) (synthesis_channels hglob _ _ _ _ x p p' a hne) n s h
  · exact C100_sizes_fail _ (matched_analysis hglob _ _ _ _ _) _ 0 (show 0 < 6 by omega) (analysis_channels hglob _ _ _ _ x p a a' hne) n s h
  · exact C100_sizes_fail _ (matched_synthesis hglob _ _ _ _ _) _ 0 (show 0 < 6 by omega) (synthesis_channels hglob _ _ _ _ x p p' a hne) n s h

/-- The tile that C102 promises to rank `i`: what it returns is a tile of the global tensor `Y`. -/
def ReturnsTile {γ : Type} (lead : List ℕ) (n1 n2 Pp Pa : ℕ) (Y : List ℕ → ℕ → ℕ → γ) (p a : ℕ) (r : Except PyErr (LTen γ)) : Prop :=
  ∃ y, r = .ok y ∧ IsTile lead n1 n2 Pp Pa Y p a y

/-- The executions of a program end without error on every rank with its tile of `Y`. -/
def TilesEverySchedule {Pp Pa : ℕ} {S M γ : Type} (g : Prog (Fin Pp × Fin Pa) S M) (mem : Fin Pp × Fin Pa → S) (out : Fin Pp × Fin Pa → S → Except PyErr (LTen γ)) (lead : List ℕ) (n1 n2 : ℕ)
    (Y : List ℕ → ℕ → ℕ → γ) : Prop :=
  (∀ (n : ℕ) (s : Net (Fin Pp × Fin Pa) S M), Exec g (Net.init mem) n s →
    s.fault = false ∧ n ≤ 3 * g.rounds * (Pp * Pa) + ∑ i, ∑ j, g.sent i j g.rounds ∧
    ((∃ i, (s.proc i).round ≠ g.rounds) → ∃ s', Step g s s') ∧
    ∀ i, (s.proc i).round = g.rounds → ReturnsTile lead n1 n2 Pp Pa Y i.1 i.2 (out i (s.proc i).mem)) ∧
  ∃ n s, Exec g (Net.init mem) n s ∧ ∀ i, (s.proc i).round = g.rounds

theorem tilesEverySchedule {Pp Pa : ℕ} {S M γ : Type} {g : Prog (Fin Pp × Fin Pa) S M} {mem : Fin Pp × Fin Pa → S} {out : Fin Pp × Fin Pa → S → Except PyErr (LTen γ)} {lead : List ℕ} {n1 n2 : ℕ}
    {Y : List ℕ → ℕ → ℕ → γ} {y : ℕ → ℕ → LTen γ} (h : EverySchedule g mem out fun i => .ok (y i.1 i.2)) (hy : ∀ p < Pp, ∀ a < Pa, IsTile lead n1 n2 Pp Pa Y p a (y p a)) :
    TilesEverySchedule g mem out lead n1 n2 Y :=
  ⟨fun n s hs => ⟨(h.1 n s hs).1, (h.1 n s hs).2.1, (h.1 n s hs).2.2.1, fun i hi => ⟨_, (h.1 n s hs).2.2.2 i hi, hy _ i.1.2 _ i.2.2⟩⟩, h.2⟩

/-- C102: let the ranks hold the tiles of a global field. Under every schedule of ranks and messages `DistributedRealSHT` meets no error and no deadlock, and every rank that has finished returns its tile of
the coefficients that the serial transform computes. -/
theorem C102_real_sht (env : Env) (A : Args) (S : RealSHT) (hS : RealSHT.init env A = .ok S) (Pp Pa : ℕ)
    (hf : Fits Pp Pa A.nlat A.nlon S.lmax S.mmax) (glob : ℕ → ℕ → ℕ) (hglob : GlobInj Pp Pa glob) (D : ℕ → ℕ → DRealSHT)
    (hD : ∀ p < Pp, ∀ a < Pa, DRealSHT.init env A Pp Pa p a = .ok (D p a))
    (lead : List ℕ) (hl : lead ≠ []) (X : List ℕ → ℕ → ℕ → ℝ) (x : ℕ → ℕ → LTen ℝ)
    (hx : ∀ p < Pp, ∀ a < Pa, IsTile lead A.nlat A.nlon Pp Pa X p a (x p a))
    (Y : List ℕ → Mat ℂ) (hY : ∀ idx, LeadIndex lead idx → S.forward ⟨A.nlat, A.nlon, X idx⟩ = .ok (Y idx)) :
    TilesEverySchedule (realProg Pp Pa glob D x) (shtMem Pp Pa x) (shtOut x) lead S.lmax S.mmax fun idx => (Y idx).val := by
  obtain ⟨y, hy, hT⟩ := C51_real_sht env A S hS Pp Pa hf D hD lead hl X x hx Y hY
  exact tilesEverySchedule ((C102_schedules Pp Pa glob hglob).1 D x y hy) hT

/-- C102: the same for `DistributedInverseRealSHT`: the tiles of the field that the serial inverse transform computes. -/
theorem C102_inverse_sht (env : Env) (be : C2R) (A : Args) (S : InverseRealSHT) (hS : InverseRealSHT.init env A = .ok S) (Pp Pa : ℕ)
    (hf : Fits Pp Pa A.nlat A.nlon S.lmax S.mmax) (glob : ℕ → ℕ → ℕ) (hglob : GlobInj Pp Pa glob) (D : ℕ → ℕ → DInverseRealSHT)
    (hD : ∀ p < Pp, ∀ a < Pa, DInverseRealSHT.init env A Pp Pa p a = .ok (D p a))
    (lead : List ℕ) (hl : lead ≠ []) (X : List ℕ → ℕ → ℕ → ℂ) (x : ℕ → ℕ → LTen ℂ)
    (hx : ∀ p < Pp, ∀ a < Pa, IsTile lead S.lmax S.mmax Pp Pa X p a (x p a))
    (Y : List ℕ → Mat ℝ) (hY : ∀ idx, LeadIndex lead idx → S.forward be ⟨S.lmax, S.mmax, X idx⟩ = .ok (Y idx)) :
    TilesEverySchedule (inverseProg Pp Pa glob be D x) (shtMem Pp Pa x) (shtOut x) lead A.nlat A.nlon fun idx => (Y idx).val := by
  obtain ⟨y, hy, hT⟩ := C51_inverse_sht env be A S hS Pp Pa hf D hD lead hl X x hx Y hY
  exact tilesEverySchedule ((C102_schedules Pp Pa glob hglob).2.1 be D x y hy) hT

/-- C102: the same for `DistributedRealVectorSHT`. -/
theorem C102_vector_sht (env : Env) (A : Args) (S : RealVectorSHT) (hS : RealVectorSHT.init env A = .ok S) (Pp Pa : ℕ)
    (hf : Fits Pp Pa A.nlat A.nlon S.lmax S.mmax) (glob : ℕ → ℕ → ℕ) (hglob : GlobInj Pp Pa glob) (D : ℕ → ℕ → DRealVectorSHT)
    (hD : ∀ p < Pp, ∀ a < Pa, DRealVectorSHT.init env A Pp Pa p a = .ok (D p a))
    (lead : List ℕ) (hl : lead ≠ []) (X : List ℕ → ℕ → ℕ → ℝ × ℝ) (x : ℕ → ℕ → LTen (ℝ × ℝ))
    (hx : ∀ p < Pp, ∀ a < Pa, IsTile lead A.nlat A.nlon Pp Pa X p a (x p a))
    (Y : List ℕ → Ten3 ℂ) (hY : ∀ idx, LeadIndex lead idx → S.forward (stacked A.nlat A.nlon (X idx)) = .ok (Y idx)) :
    TilesEverySchedule (vectorProg Pp Pa glob D x) (shtMem Pp Pa x) (shtOut x) lead S.lmax S.mmax fun idx l m => ((Y idx).val 0 l m, (Y idx).val 1 l m) := by
  obtain ⟨y, hy, hT⟩ := C51_vector_sht env A S hS Pp Pa hf D hD lead hl X x hx Y hY
  exact tilesEverySchedule ((C102_schedules Pp Pa glob hglob).2.2.1 D x y hy) hT

/-- C102: the same for `DistributedInverseRealVectorSHT`. -/
theorem C102_inverse_vector_sht (env : Env) (be : C2R) (A : Args) (S : InverseRealVectorSHT) (hS : InverseRealVectorSHT.init env A = .ok S) (Pp Pa : ℕ)
    (hf : Fits Pp Pa A.nlat A.nlon S.lmax S.mmax) (glob : ℕ → ℕ → ℕ) (hglob : GlobInj Pp Pa glob) (D : ℕ → ℕ → DInverseRealVectorSHT)
    (hD : ∀ p < Pp, ∀ a < Pa, DInverseRealVectorSHT.init env A Pp Pa p a = .ok (D p a))
    (lead : List ℕ) (hl : lead ≠ []) (X : List ℕ → ℕ → ℕ → ℂ × ℂ) (x : ℕ → ℕ → LTen (ℂ × ℂ))
    (hx : ∀ p < Pp, ∀ a < Pa, IsTile lead S.lmax S.mmax Pp Pa X p a (x p a))
    (Y : List ℕ → Ten3 ℝ) (hY : ∀ idx, LeadIndex lead idx → S.forward be (stacked S.lmax S.mmax (X idx)) = .ok (Y idx)) :
    TilesEverySchedule (inverseVectorProg Pp Pa glob be D x) (shtMem Pp Pa x) (shtOut x) lead A.nlat A.nlon fun idx k j => ((Y idx).val 0 k j, (Y idx).val 1 k j) := by
  obtain ⟨y, hy, hT⟩ := C51_inverse_vector_sht env be A S hS Pp Pa hf D hD lead hl X x hx Y hY
  exact tilesEverySchedule ((C102_schedules Pp Pa glob hglob).2.2.2 be D x y hy) hT

/-! ### The hypotheses can be met -/

/-- An 8 by 16 equiangular grid on a 3 by 2 process grid, with a leading shape `(1,)` of fewer elements than ranks: for every field and under every schedule the ranks end up with the tiles of the serial
result, and there is an execution in which they all finish. -/
example (env : Env) (X : List ℕ → ℕ → ℕ → ℝ) :
    ∃ (S : RealSHT) (D : ℕ → ℕ → DRealSHT) (Y : List ℕ → Mat ℂ),
      RealSHT.init env ⟨8, 16, none, none, "equiangular", "ortho", true⟩ = .ok S ∧ S.lmax = 4 ∧ S.mmax = 4 ∧
      (∀ p < 3, ∀ a < 2, DRealSHT.init env ⟨8, 16, none, none, "equiangular", "ortho", true⟩ 3 2 p a = .ok (D p a)) ∧
      (∀ idx, S.forward ⟨8, 16, X idx⟩ = .ok (Y idx)) ∧
      TilesEverySchedule (realProg 3 2 (fun p a => p * 2 + a) D (tileOf [1] 8 16 3 2 X)) (shtMem 3 2 (tileOf [1] 8 16 3 2 X)) (shtOut (tileOf [1] 8 16 3 2 X)) [1] 4 4 fun idx => (Y idx).val := by
  obtain ⟨r, d, L, hr, _, hL, h0, _⟩ := default_grid env ⟨8, 16, none, none, "equiangular", "ortho", true⟩ (Or.inl rfl) (by norm_num)
    (by norm_num) rfl rfl
  have h4 : L = 4 := by
    have : sizes 8 16 none none "equiangular" = .ok (4, 4) := by decide
    rw [show sizes 8 16 none none "equiangular" = .ok (L, L) from hL] at this
    cases this; rfl
  subst h4
  have hS := realSHT_init env ⟨8, 16, none, none, "equiangular", "ortho", true⟩ r 4 hr hL h0
  have hf : Fits 3 2 8 16 4 4 := ⟨by norm_num, by norm_num, by norm_num, by norm_num, by norm_num, by norm_num⟩
  have hD : ∀ p a, ∃ D : DRealSHT, p < 3 → a < 2 → DRealSHT.init env ⟨8, 16, none, none, "equiangular", "ortho", true⟩ 3 2 p a = .ok D :=
    fun p a => by
      by_cases hp : p < 3
      · by_cases ha : a < 2
        · obtain ⟨D, h, _⟩ := C51_real_init env _ _ hS 3 2 hf p a hp ha
          exact ⟨D, fun _ _ => h⟩
        · exact ⟨⟨0, 0, 0, 0, ⟨[], [], [], []⟩, 0, 0, 0, fun _ _ _ => 0⟩, fun _ h => absurd h ha⟩
      · exact ⟨⟨0, 0, 0, 0, ⟨[], [], [], []⟩, 0, 0, 0, fun _ _ _ => 0⟩, fun h => absurd h hp⟩
  choose D hD using hD
  have hY := fun idx => realSHT_value
    ⟨8, 16, 4, 4, fun m l k => Legendre.legpolyVal 4 4 "ortho" false true (Real.cos (colat r k)) m l * r.w k⟩ (show 0 < (16 : ℕ) by norm_num) (X idx)
  choose Y hY _ using hY
  exact ⟨_, D, Y, hS, rfl, rfl, fun p hp a ha => hD p a hp ha, hY,
    C102_real_sht env _ _ hS 3 2 hf (fun p a => p * 2 + a) (globInj_rowMajor 3 2) D (fun p hp a ha => hD p a hp ha) [1] (by simp) X (tileOf [1] 8 16 3 2 X)
      (fun p _ a _ => tileOf_isTile _ _ _ _ _ _ _ _) Y (fun idx _ => hY idx)⟩

/-- Two ranks with three and with four channels: no execution of the transform ends well. -/
example (D : ℕ → ℕ → DRealSHT) (n : ℕ) (s : Net (Fin 1 × Fin 2) (DMem ℝ ℂ) (Mat (ℕ → ℝ) ⊕ Mat (ℕ → ℂ)))
    (h : Exec (realProg 1 2 (fun p a => p * 2 + a) D fun _ a => ⟨[3 + a], 4, 4, fun _ _ _ => 1⟩) (Net.init (shtMem 1 2 fun _ a => ⟨[3 + a], 4, 4, fun _ _ _ => 1⟩)) n s) :
    ¬ (s.fault = false ∧ ∀ i, (s.proc i).round = 6) :=
  (C102_channels 1 2 (fun p a => p * 2 + a) (globInj_rowMajor 1 2)).1 D _ 0 0 1 (by simp) n s h

/-- Three ranks along a parallel: in the first round rank 0 sends chunk 1 and chunk 2 and receives two buffers. -/
example : groupOps 1 3 (fun p a => p * 3 + a) true 0 0 = [.isend 1 1, .irecv 4 1, .isend 2 2, .irecv 5 2] := rfl

end Verif.Props
