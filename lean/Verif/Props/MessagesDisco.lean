import Verif.Lemmas.MessagesDisco
import Verif.Props.DistDisco
import Verif.Props.MessagesSHT
/-!
C103: the distributed convolutions under every schedule of ranks and messages.
-/
namespace Verif.Props
open Verif Verif.Msg Verif.Spec.Msg Verif.Dist Verif.SHT Verif.Disco Verif.Spec Finset

variable {R : Type} [CommSemiring R] [Inhabited R] {Pp Pa : ℕ} {glob : ℕ → ℕ → ℕ}

theorem matched_conv (hg : GlobInj Pp Pa glob) (L : Layer R) (D : ℕ → ℕ → DDisco R) (kern : ℕ → ℕ → ℕ → Mat R → Except PyErr (Ten R)) (chans : ℕ → ℕ → ℕ) :
    Matched (ofRounds (fun i => glob i.1 i.2) (convRounds Pp Pa glob L D kern chans)) := by
  refine matched_rounds _ _ (grid_inj hg) fun Q hQ => ?_
  simp only [convRounds, List.mem_cons, List.not_mem_nil, or_false] at hQ
  rcases hQ with rfl | rfl | rfl | rfl | rfl | rfl
  · exact matched_trans hg
  · exact matched_local _ _ (grid_inj hg)
  · exact matched_scatter hg
  · exact matched_trans hg
  · exact matched_local _ _ (grid_inj hg)
  · exact matched_local _ _ (grid_inj hg)

theorem matched_convFused (hg : GlobInj Pp Pa glob) (L : Layer R) (D : ℕ → ℕ → DDisco R) (kern : ℕ → ℕ → ℕ → Mat R → Except PyErr (Ten R)) :
    Matched (ofRounds (fun i => glob i.1 i.2) (convFusedRounds Pp Pa glob L D kern)) := by
  refine matched_rounds _ _ (grid_inj hg) fun Q hQ => ?_
  simp only [convFusedRounds, List.mem_cons, List.not_mem_nil, or_false] at hQ
  rcases hQ with rfl | rfl | rfl | rfl | rfl
  · exact matched_trans hg
  · exact matched_local _ _ (grid_inj hg)
  · exact matched_scatter hg
  · exact matched_scatter hg
  · exact matched_local _ _ (grid_inj hg)

theorem matched_convTrans (hg : GlobInj Pp Pa glob) (L : Layer R) (D : ℕ → ℕ → DDisco R) (kern : ℕ → ℕ → ℕ → Ten R → Except PyErr (Mat R)) :
    Matched (ofRounds (fun i => glob i.1 i.2) (convTransRounds Pp Pa glob L D kern)) := by
  refine matched_rounds _ _ (grid_inj hg) fun Q hQ => ?_
  simp only [convTransRounds, List.mem_cons, List.not_mem_nil, or_false] at hQ
  rcases hQ with rfl | rfl | rfl | rfl | rfl | rfl
  · exact matched_local _ _ (grid_inj hg)
  · exact matched_trans hg
  · exact matched_gather hg
  · exact matched_local _ _ (grid_inj hg)
  · exact matched_trans hg
  · exact matched_local _ _ (grid_inj hg)

/-- The tensor with a kernel dimension before it has been computed. -/
def noTen (R : Type) [Zero R] : Ten3 (ℕ → R) := ⟨0, 0, 0, fun _ _ _ _ => 0⟩

/-- Where the convolution without schedules succeeds, the rounds fit and give the same. -/
theorem conv_run (hg : GlobInj Pp Pa glob) (L : Layer R) (D : ℕ → ℕ → DDisco R) (kern : ℕ → ℕ → ℕ → Mat R → Except PyErr (Ten R)) (x y : ℕ → ℕ → Ten3 R)
    (h : dconvForward Pp Pa L D kern x = .ok y) :
    FitsAll (fun i : Fin Pp × Fin Pa => glob i.1 i.2) (convRounds Pp Pa glob L D kern fun p a => (x p a).d0) (discoMem Pp Pa x) ∧
      ∀ i, (runs (fun i : Fin Pp × Fin Pa => glob i.1 i.2) (convRounds Pp Pa glob L D kern fun p a => (x p a).d0) (discoMem Pp Pa x) i).x = y i.1 i.2 := by
  unfold dconvForward at h
  simp only [bind, Except.bind, pure, Except.pure] at h
  split at h
  · cases h
  next x1 hx1 =>
  split at h
  · cases h
  next x2 hx2 =>
  split at h
  · cases h
  next x3 hx3 =>
  split at h
  · cases h
  next x4 hx4 =>
  split at h
  · cases h
  next x5 hx5 =>
  rw [Except.ok.injEq] at h
  subst h
  obtain ⟨f1, r1⟩ := trans_step (glob := glob) (az := true) (v := v02) (sizes := fun p a => (D p a).lonIn) hg xField_ok (fun p a => (⟨x p a, noTen R⟩ : DMem R (ℕ → R))) x (fun _ _ => rfl) (fun _ => rfl)
    (discoMem Pp Pa x) (fun _ => rfl) x1 (fun i => collect_all hx1 i.1 i.1.2 i.2 i.2.2)
  have r2 := local_step (M := DiscoMsg R) (fun i => glob i.1 i.2)
    (fun (i : Fin Pp × Fin Pa) (s : DMem R (ℕ → R)) => match contractPlanes (kern i.1 i.2) s.x with | .ok y => (⟨s.x, y⟩ : DMem R (ℕ → R)) | .error _ => s)
    (fun p a => ⟨x1 p a, noTen R⟩) (fun p a => ⟨x1 p a, x2 p a⟩) _ r1 fun i => by
      change (match contractPlanes (kern i.1 i.2) (x1 i.1 i.2) with | .ok y => (⟨x1 i.1 i.2, y⟩ : DMem R (ℕ → R)) | .error _ => ⟨x1 i.1 i.2, noTen R⟩) = _
      rw [collect_all hx2 i.1 i.1.2 i.2 i.2.2]
  obtain ⟨f3, r3⟩ := scatter_step (glob := glob) (az := false) (v := rLat) hg yField_ok rLat_ok (fun p a => (⟨x1 p a, x2 p a⟩ : DMem R (ℕ → R))) x2 (fun _ _ => rfl) (fun _ => rfl)
    _ r2 x3 (fun i => collect_all hx3 i.1 i.1.2 i.2 i.2.2)
  obtain ⟨f4, r4⟩ := trans_step (glob := glob) (az := true) (v := v20) (sizes := fun p a => chanShapes (x p a).d0 Pa) hg yField_ok (fun p a => (⟨x1 p a, x3 p a⟩ : DMem R (ℕ → R))) x3 (fun _ _ => rfl) (fun _ => rfl)
    _ r3 x4 (fun i => azimuthOut_trans (n := fun p a => (x p a).d0) (collect_all hx4 i.1 i.1.2 i.2 i.2.2))
  have r5 := local_step (M := DiscoMsg R) (fun i => glob i.1 i.2)
    (fun (_ : Fin Pp × Fin Pa) (s : DMem R (ℕ → R)) => match localMix L s.y with | .ok x => (⟨x, s.y⟩ : DMem R (ℕ → R)) | .error _ => s)
    (fun p a => ⟨x1 p a, x4 p a⟩) (fun p a => ⟨x5 p a, x4 p a⟩) _ r4 fun i => by
      change (match localMix L (x4 i.1 i.2) with | .ok x => (⟨x, x4 i.1 i.2⟩ : DMem R (ℕ → R)) | .error _ => ⟨x1 i.1 i.2, x4 i.1 i.2⟩) = _
      rw [collect_all hx5 i.1 i.1.2 i.2 i.2.2]
  have r6 := local_step (M := DiscoMsg R) (fun i => glob i.1 i.2) (fun (_ : Fin Pp × Fin Pa) (s : DMem R (ℕ → R)) => (⟨biasStage L s.x, s.y⟩ : DMem R (ℕ → R)))
    (fun p a => ⟨x5 p a, x4 p a⟩) (fun p a => ⟨biasStage L (x5 p a), x4 p a⟩) _ r5 fun _ => rfl
  exact ⟨⟨f1, fits_local _ _ _, f3, f4, fits_local _ _ _, fits_local _ _ _, trivial⟩, fun i => congrArg DMem.x (r6 i)⟩

/-- The same with `fused=True`. -/
theorem convFused_run (hg : GlobInj Pp Pa glob) (L : Layer R) (D : ℕ → ℕ → DDisco R) (kern : ℕ → ℕ → ℕ → Mat R → Except PyErr (Ten R)) (x y : ℕ → ℕ → Ten3 R)
    (h : dconvForwardFused Pp Pa L D kern x = .ok y) :
    FitsAll (fun i : Fin Pp × Fin Pa => glob i.1 i.2) (convFusedRounds Pp Pa glob L D kern) (discoMem Pp Pa x) ∧
      ∀ i, (runs (fun i : Fin Pp × Fin Pa => glob i.1 i.2) (convFusedRounds Pp Pa glob L D kern) (discoMem Pp Pa x) i).x = y i.1 i.2 := by
  unfold dconvForwardFused at h
  simp only [bind, Except.bind, pure, Except.pure] at h
  split at h
  · cases h
  next x1 hx1 =>
  split at h
  · cases h
  next x2 hx2 =>
  split at h
  · cases h
  next x3 hx3 =>
  split at h
  · cases h
  next x4 hx4 =>
  rw [Except.ok.injEq] at h
  subst h
  obtain ⟨f1, r1⟩ := trans_step (glob := glob) (az := true) (v := v02) (sizes := fun p a => (D p a).lonIn) hg xField_ok (fun p a => (⟨x p a, noTen R⟩ : DMem R (ℕ → R))) x (fun _ _ => rfl) (fun _ => rfl)
    (discoMem Pp Pa x) (fun _ => rfl) x1 (fun i => collect_all hx1 i.1 i.1.2 i.2 i.2.2)
  have r2 := local_step (M := DiscoMsg R) (fun i => glob i.1 i.2)
    (fun (i : Fin Pp × Fin Pa) (s : DMem R (ℕ → R)) => match reorderedLocal L (kern i.1 i.2) Pa i.2 s.x with | .ok x => (⟨x, s.y⟩ : DMem R (ℕ → R)) | .error _ => s)
    (fun p a => ⟨x1 p a, noTen R⟩) (fun p a => ⟨x2 p a, noTen R⟩) _ r1 fun i => by
      change (match reorderedLocal L (kern i.1 i.2) Pa i.2 (x1 i.1 i.2) with | .ok x => (⟨x, noTen R⟩ : DMem R (ℕ → R)) | .error _ => ⟨x1 i.1 i.2, noTen R⟩) = _
      rw [collect_all hx2 i.1 i.1.2 i.2 i.2.2]
  obtain ⟨f3, r3⟩ := scatter_step (glob := glob) (az := false) (v := rLat) hg xField_ok rLat_ok (fun p a => (⟨x2 p a, noTen R⟩ : DMem R (ℕ → R))) x2 (fun _ _ => rfl) (fun _ => rfl)
    _ r2 x3 (fun i => collect_all hx3 i.1 i.1.2 i.2 i.2.2)
  obtain ⟨f4, r4⟩ := scatter_step (glob := glob) (az := true) (v := rLon) hg xField_ok rLon_ok (fun p a => (⟨x3 p a, noTen R⟩ : DMem R (ℕ → R))) x3 (fun _ _ => rfl) (fun _ => rfl)
    _ r3 x4 (fun i => azimuthReduceScatter_of (lt_of_le_of_lt (Nat.zero_le _) i.2.2) (collect_all hx4 i.1 i.1.2 i.2 i.2.2))
  have r5 := local_step (M := DiscoMsg R) (fun i => glob i.1 i.2) (fun (_ : Fin Pp × Fin Pa) (s : DMem R (ℕ → R)) => (⟨biasStage L s.x, s.y⟩ : DMem R (ℕ → R)))
    (fun p a => ⟨x4 p a, noTen R⟩) (fun p a => ⟨biasStage L (x4 p a), noTen R⟩) _ r4 fun _ => rfl
  exact ⟨⟨f1, fits_local _ _ _, f3, f4, fits_local _ _ _, trivial⟩, fun i => congrArg DMem.x (r5 i)⟩

/-- The same for the transposed convolution. -/
theorem convTrans_run (hg : GlobInj Pp Pa glob) (L : Layer R) (D : ℕ → ℕ → DDisco R) (kern : ℕ → ℕ → ℕ → Ten R → Except PyErr (Mat R)) (x y : ℕ → ℕ → Ten3 R)
    (h : dtransForward Pp Pa L D kern x = .ok y) :
    FitsAll (fun i : Fin Pp × Fin Pa => glob i.1 i.2) (convTransRounds Pp Pa glob L D kern) (discoMem Pp Pa x) ∧
      ∀ i, (runs (fun i : Fin Pp × Fin Pa => glob i.1 i.2) (convTransRounds Pp Pa glob L D kern) (discoMem Pp Pa x) i).x = y i.1 i.2 := by
  unfold dtransForward at h
  simp only [bind, Except.bind, pure, Except.pure] at h
  split at h
  · cases h
  next x0 hx0 =>
  split at h
  · cases h
  next x1 hx1 =>
  split at h
  · cases h
  next x2 hx2 =>
  split at h
  · cases h
  next x3 hx3 =>
  split at h
  · cases h
  next x4 hx4 =>
  rw [Except.ok.injEq] at h
  subst h
  have hn : ∀ i : Fin Pp × Fin Pa, (x0 i.1 i.2).d0 = L.groups * L.outPerGroup := fun i => by
    have := collect_all hx0 i.1 i.1.2 i.2 i.2.2
    unfold localExpand at this
    split at this
    · cases this
    · rw [Except.ok.injEq] at this
      rw [← this]
  have r0 := local_step (M := DiscoMsg R) (fun i => glob i.1 i.2)
    (fun (_ : Fin Pp × Fin Pa) (s : DMem R (ℕ → R)) => match localExpand L s.x with | .ok y => (⟨s.x, y⟩ : DMem R (ℕ → R)) | .error _ => s)
    (fun p a => ⟨x p a, noTen R⟩) (fun p a => ⟨x p a, x0 p a⟩) (discoMem Pp Pa x) (fun _ => rfl) fun i => by
      change (match localExpand L (x i.1 i.2) with | .ok y => (⟨x i.1 i.2, y⟩ : DMem R (ℕ → R)) | .error _ => ⟨x i.1 i.2, noTen R⟩) = _
      rw [collect_all hx0 i.1 i.1.2 i.2 i.2.2]
  obtain ⟨f1, r1⟩ := trans_step (glob := glob) (az := true) (v := v02) (sizes := fun p a => (D p a).lonIn) hg yField_ok (fun p a => (⟨x p a, x0 p a⟩ : DMem R (ℕ → R))) x0 (fun _ _ => rfl) (fun _ => rfl)
    _ r0 x1 (fun i => collect_all hx1 i.1 i.1.2 i.2 i.2.2)
  obtain ⟨f2, r2⟩ := gather_step (glob := glob) (az := false) (v := rLat) (shapes := fun p a => (D p a).latIn) hg yField_ok rLat_ok (fun p a => (⟨x p a, x1 p a⟩ : DMem R (ℕ → R))) x1 (fun _ _ => rfl)
    (fun _ => rfl) _ r1 x2 (fun i => collect_all hx2 i.1 i.1.2 i.2 i.2.2)
  have r3 := local_step (M := DiscoMsg R) (fun i => glob i.1 i.2)
    (fun (i : Fin Pp × Fin Pa) (s : DMem R (ℕ → R)) => match contractPlanesT L (kern i.1 i.2) s.y with | .ok x => (⟨x, s.y⟩ : DMem R (ℕ → R)) | .error _ => s)
    (fun p a => ⟨x p a, x2 p a⟩) (fun p a => ⟨x3 p a, x2 p a⟩) _ r2 fun i => by
      change (match contractPlanesT L (kern i.1 i.2) (x2 i.1 i.2) with | .ok x => (⟨x, x2 i.1 i.2⟩ : DMem R (ℕ → R)) | .error _ => ⟨x i.1 i.2, x2 i.1 i.2⟩) = _
      rw [collect_all hx3 i.1 i.1.2 i.2 i.2.2]
  obtain ⟨f4, r4⟩ := trans_step (glob := glob) (az := true) (v := v20) (sizes := fun _ _ => chanShapes (L.groups * L.outPerGroup) Pa) hg xField_ok (fun p a => (⟨x3 p a, x2 p a⟩ : DMem R (ℕ → R))) x3
    (fun _ _ => rfl) (fun _ => rfl) _ r3 x4 (fun i => azimuthOut_trans (n := fun _ _ => L.groups * L.outPerGroup) (by
      have := collect_all hx4 i.1 i.1.2 i.2 i.2.2
      rw [hn i] at this
      exact this))
  have r5 := local_step (M := DiscoMsg R) (fun i => glob i.1 i.2) (fun (_ : Fin Pp × Fin Pa) (s : DMem R (ℕ → R)) => (⟨biasStage L s.x, s.y⟩ : DMem R (ℕ → R)))
    (fun p a => ⟨x4 p a, x2 p a⟩) (fun p a => ⟨biasStage L (x4 p a), x2 p a⟩) _ r4 fun _ => rfl
  exact ⟨⟨fits_local _ _ _, f1, f2, fits_local _ _ _, f4, fits_local _ _ _, trivial⟩, fun i => congrArg DMem.x (r5 i)⟩

/-- C103: the batches of the three layers match, whatever the shapes: every send has its receive. -/
theorem C103_matched (Pp Pa : ℕ) (glob : ℕ → ℕ → ℕ) (hglob : GlobInj Pp Pa glob) (L : Layer R) (D : ℕ → ℕ → DDisco R) (kern : ℕ → ℕ → ℕ → Mat R → Except PyErr (Ten R))
    (kernT : ℕ → ℕ → ℕ → Ten R → Except PyErr (Mat R)) (x : ℕ → ℕ → Ten3 R) :
    Matched (convProg Pp Pa glob L D kern x) ∧ Matched (convFusedProg Pp Pa glob L D kern) ∧ Matched (convTransProg Pp Pa glob L D kernT) :=
  ⟨matched_conv hglob _ _ _ _, matched_convFused hglob _ _ _, matched_convTrans hglob _ _ _⟩

/-- C103: where the layer succeeds when all ranks advance together, it succeeds under every schedule, with the same result. -/
theorem C103_schedules (Pp Pa : ℕ) (glob : ℕ → ℕ → ℕ) (hglob : GlobInj Pp Pa glob) (L : Layer R) (D : ℕ → ℕ → DDisco R) (x y : ℕ → ℕ → Ten3 R) :
    (∀ kern, dconvForward Pp Pa L D kern x = .ok y → EverySchedule (convProg Pp Pa glob L D kern x) (discoMem Pp Pa x) (fun _ s => s.x) fun i => y i.1 i.2) ∧
    (∀ kern, dconvForwardFused Pp Pa L D kern x = .ok y → EverySchedule (convFusedProg Pp Pa glob L D kern) (discoMem Pp Pa x) (fun _ s => s.x) fun i => y i.1 i.2) ∧
    ∀ kern, dtransForward Pp Pa L D kern x = .ok y → EverySchedule (convTransProg Pp Pa glob L D kern) (discoMem Pp Pa x) (fun _ s => s.x) fun i => y i.1 i.2 := by
  refine ⟨fun kern h => ?_, fun kern h => ?_, fun kern h => ?_⟩
  · obtain ⟨h1, h2⟩ := conv_run hglob L D kern x y h
    exact everySchedule _ (matched_conv hglob _ _ _ _) _ h1 _ _ h2
  · obtain ⟨h1, h2⟩ := convFused_run hglob L D kern x y h
    exact everySchedule _ (matched_convFused hglob _ _ _) _ h1 _ _ h2
  · obtain ⟨h1, h2⟩ := convTrans_run hglob L D kern x y h
    exact everySchedule _ (matched_convTrans hglob _ _ _) _ h1 _ _ h2

/-- C103: two ranks of an azimuth group that call the convolution with different numbers of channels never get a result: no execution ends with all ranks finished and no error. -/
theorem C103_channels (Pp Pa : ℕ) (glob : ℕ → ℕ → ℕ) (hglob : GlobInj Pp Pa glob) (L : Layer R) (D : ℕ → ℕ → DDisco R) (kern : ℕ → ℕ → ℕ → Mat R → Except PyErr (Ten R)) (x : ℕ → ℕ → Ten3 R)
    (hn : ∀ (p : Fin Pp) (a : Fin Pa), Pa ≤ (x p a).d0) (p : Fin Pp) (a a' : Fin Pa) (hne : (x p a).d0 ≠ (x p a').d0) :
    (∀ n s, Exec (convProg Pp Pa glob L D kern x) (Net.init (discoMem Pp Pa x)) n s → ¬ (s.fault = false ∧ ∀ i, (s.proc i).round = 6)) ∧
    ∀ n s, Exec (convFusedProg Pp Pa glob L D kern) (Net.init (discoMem Pp Pa x)) n s → ¬ (s.fault = false ∧ ∀ i, (s.proc i).round = 5) := by
  have hP : Pa > 1 := by
    by_contra hP
    exact hne (by rw [show a = a' from Fin.ext (by have := a.2; have := a'.2; omega)])
  have key : ¬ (transRound Pp Pa glob true (xField (β := ℕ → R)) v02 fun p a => (D p a).lonIn).Fits (fun i => glob i.1 i.2) (discoMem Pp Pa x) := fun hF =>
    hne (trans_channels (az := true) (v := v02) hglob (xField_ok (β := ℕ → R)) (discoMem Pp Pa x) hP (fun i => hn i.1 i.2) hF (p, a) (p, a') rfl)
  exact ⟨fun n s h => C100_sizes_fail _ (matched_conv hglob _ _ _ _) _ 0 (show 0 < 6 by omega) key n s h,
    fun n s h => C100_sizes_fail _ (matched_convFused hglob _ _ _) _ 0 (show 0 < 5 by omega) key n s h⟩

/-- The executions of a program end without error, and every rank that has finished holds its part of the global tensor `Y`. -/
def PartsEverySchedule (g : Prog (Fin Pp × Fin Pa) (DMem R (ℕ → R)) (DiscoMsg R)) (mem : Fin Pp × Fin Pa → DMem R (ℕ → R)) (chans nlat nlon : ℕ) (Y : ℕ → ℕ → ℕ → R) : Prop :=
  (∀ (n : ℕ) (s : Net (Fin Pp × Fin Pa) (DMem R (ℕ → R)) (DiscoMsg R)), Exec g (Net.init mem) n s →
    s.fault = false ∧ n ≤ 3 * g.rounds * (Pp * Pa) + ∑ i, ∑ j, g.sent i j g.rounds ∧
    ((∃ i, (s.proc i).round ≠ g.rounds) → ∃ s', Step g s s') ∧
    ∀ i, (s.proc i).round = g.rounds → IsPart (whole chans) ⟨nlat, Pp, i.1⟩ ⟨nlon, Pa, i.2⟩ Y (s.proc i).mem.x) ∧
  ∃ n s, Exec g (Net.init mem) n s ∧ ∀ i, (s.proc i).round = g.rounds

omit [CommSemiring R] [Inhabited R] in
theorem partsEverySchedule {g : Prog (Fin Pp × Fin Pa) (DMem R (ℕ → R)) (DiscoMsg R)} {mem : Fin Pp × Fin Pa → DMem R (ℕ → R)} {chans nlat nlon : ℕ} {Y : ℕ → ℕ → ℕ → R} {y : ℕ → ℕ → Ten3 R}
    (h : EverySchedule g mem (fun _ s => s.x) fun i => y i.1 i.2) (hy : ∀ p < Pp, ∀ a < Pa, IsPart (whole chans) ⟨nlat, Pp, p⟩ ⟨nlon, Pa, a⟩ Y (y p a)) :
    PartsEverySchedule g mem chans nlat nlon Y :=
  ⟨fun n s hs => ⟨(h.1 n s hs).1, (h.1 n s hs).2.1, (h.1 n s hs).2.2.1, fun i hi => by
    have e : (s.proc i).mem.x = y i.1 i.2 := (h.1 n s hs).2.2.2 i hi
    rw [e]
    exact hy _ i.1.2 _ i.2.2⟩, h.2⟩

/-- C103: let the ranks hold the parts of a global input. Under every schedule of ranks and messages `DistributedDiscreteContinuousConvS2` meets no error and no deadlock, and every rank that has finished
holds its part of the output of the serial layer. -/
theorem C103_conv (L : Layer R) (taps : List (Tap R)) (hL : LayerOf L taps) (Pp Pa : ℕ) (hf : GridFits L Pp Pa (L.groups * L.groupsize)) (glob : ℕ → ℕ → ℕ) (hglob : GlobInj Pp Pa glob)
    (D : ℕ → ℕ → DDisco R) (hD : ∀ p < Pp, ∀ a < Pa, DDisco.init L Pp Pa p = .ok (D p a)) (X : Ten R)
    (hX : X.d0 = L.groups * L.groupsize ∧ X.d1 = L.nlatIn ∧ X.d2 = L.nlonIn) (x : ℕ → ℕ → Ten3 R)
    (hx : ∀ p < Pp, ∀ a < Pa, IsPart (whole (L.groups * L.groupsize)) ⟨L.nlatIn, Pp, p⟩ ⟨L.nlonIn, Pa, a⟩ X.val (x p a)) :
    ∃ y, L.forward X = .ok y ∧
      PartsEverySchedule (convProg Pp Pa glob L D (fun p a _ => (D p a).refKern L p) x) (discoMem Pp Pa x) (L.groups * L.outPerGroup) L.nlatOut L.nlonOut y.val := by
  obtain ⟨y, z, hy, hz, hp⟩ := C52_conv L taps hL Pp Pa hf D hD X hX x hx
  exact ⟨y, hy, partsEverySchedule ((C103_schedules Pp Pa glob hglob L D x z).1 _ hz) hp⟩

/-- C103 for the CPU kernel, with either communication pattern (`fused=False` and `fused=True`): also for every content of the work arrays and every order in which the threads of a rank finish. -/
theorem C103_conv_cpu (L : Layer R) (taps : List (Tap R)) (hL : LayerOf L taps) (Pp Pa : ℕ) (hf : GridFits L Pp Pa (L.groups * L.groupsize)) (glob : ℕ → ℕ → ℕ) (hglob : GlobInj Pp Pa glob)
    (D : ℕ → ℕ → DDisco R) (hD : ∀ p < Pp, ∀ a < Pa, DDisco.init L Pp Pa p = .ok (D p a))
    (hne : ∀ p < Pp, ∀ a < Pa, (D p a).entries ≠ [] ∧ RowSorted (D p a).entries ∧ NoCollision L.kernelSize (D p a).entries)
    (junk : ℕ → ℕ → ℕ → Entry R) (mem : ℕ → ℕ → ℕ → ℕ → R) (sh0 : ℕ → ℕ → ℕ → ℕ → ℕ → R) (order : ℕ → ℕ → ℕ → List ℕ)
    (ho : ∀ p < Pp, ∀ a < Pa, ∀ c s roff, preprocessPsi (junk p a) L.kernelSize L.nlatOut (D p a).entries = .ok (s, roff) →
      (order p a c).Perm (List.range (roff.length - 1)))
    (X : Ten R) (hX : X.d0 = L.groups * L.groupsize ∧ X.d1 = L.nlatIn ∧ X.d2 = L.nlonIn) (x : ℕ → ℕ → Ten3 R)
    (hx : ∀ p < Pp, ∀ a < Pa, IsPart (whole (L.groups * L.groupsize)) ⟨L.nlatIn, Pp, p⟩ ⟨L.nlonIn, Pa, a⟩ X.val (x p a)) :
    ∃ y, L.forward X = .ok y ∧
      PartsEverySchedule (convProg Pp Pa glob L D (fun p a c => (D p a).cpuKern L (junk p a) (mem p a c) (sh0 p a c) (order p a c)) x) (discoMem Pp Pa x)
        (L.groups * L.outPerGroup) L.nlatOut L.nlonOut y.val ∧
      PartsEverySchedule (convFusedProg Pp Pa glob L D fun p a c => (D p a).cpuKern L (junk p a) (mem p a c) (sh0 p a c) (order p a c)) (discoMem Pp Pa x)
        (L.groups * L.outPerGroup) L.nlatOut L.nlonOut y.val := by
  obtain ⟨y, z, hy, hz, hp⟩ := C52_conv_cpu L taps hL Pp Pa hf D hD hne junk mem sh0 order ho X hX x hx
  obtain ⟨y', z', hy', hz', hp'⟩ := C52_conv_fused L taps hL Pp Pa hf D hD hne junk mem sh0 order ho X hX x hx
  rw [hy, Except.ok.injEq] at hy'
  subst hy'
  exact ⟨y, hy, partsEverySchedule ((C103_schedules Pp Pa glob hglob L D x z).1 _ hz) hp, partsEverySchedule ((C103_schedules Pp Pa glob hglob L D x z').2.1 _ hz') hp'⟩

/-- C103 for the transposed convolution with the reference kernels. -/
theorem C103_transpose (L : Layer R) (taps : List (Tap R)) (hL : TLayerOf L taps) (Pp Pa : ℕ) (hf : GridFits L Pp Pa (L.groups * L.outPerGroup)) (glob : ℕ → ℕ → ℕ) (hglob : GlobInj Pp Pa glob)
    (D : ℕ → ℕ → DDisco R) (hD : ∀ p < Pp, ∀ a < Pa, DDisco.initTranspose L Pp Pa p = .ok (D p a)) (X : Ten R)
    (hX : X.d0 = L.groups * L.groupsize ∧ X.d1 = L.nlatIn ∧ X.d2 = L.nlonIn) (x : ℕ → ℕ → Ten3 R)
    (hx : ∀ p < Pp, ∀ a < Pa, IsPart (whole (L.groups * L.groupsize)) ⟨L.nlatIn, Pp, p⟩ ⟨L.nlonIn, Pa, a⟩ X.val (x p a)) :
    ∃ y, L.transposeForward X = .ok y ∧
      PartsEverySchedule (convTransProg Pp Pa glob L D fun p a _ => (D p a).refKernT L p) (discoMem Pp Pa x) (L.groups * L.outPerGroup) L.nlatOut L.nlonOut y.val := by
  obtain ⟨y, z, hy, hz, hp⟩ := C52_transpose L taps hL Pp Pa hf D hD X hX x hx
  exact ⟨y, hy, partsEverySchedule ((C103_schedules Pp Pa glob hglob L D x z).2.2 _ hz) hp⟩

/-- C103 for the transposed convolution with the CPU kernel. -/
theorem C103_transpose_cpu (L : Layer R) (taps : List (Tap R)) (hL : TLayerOf L taps) (Pp Pa : ℕ) (hf : GridFits L Pp Pa (L.groups * L.outPerGroup)) (glob : ℕ → ℕ → ℕ) (hglob : GlobInj Pp Pa glob)
    (D : ℕ → ℕ → DDisco R) (hD : ∀ p < Pp, ∀ a < Pa, DDisco.initTranspose L Pp Pa p = .ok (D p a))
    (hne : ∀ p < Pp, ∀ a < Pa, (D p a).entries ≠ [] ∧ RowSorted (D p a).entries ∧ NoCollision L.kernelSize (D p a).entries)
    (junk : ℕ → ℕ → ℕ → Entry R) (X : Ten R)
    (hX : X.d0 = L.groups * L.groupsize ∧ X.d1 = L.nlatIn ∧ X.d2 = L.nlonIn) (x : ℕ → ℕ → Ten3 R)
    (hx : ∀ p < Pp, ∀ a < Pa, IsPart (whole (L.groups * L.groupsize)) ⟨L.nlatIn, Pp, p⟩ ⟨L.nlonIn, Pa, a⟩ X.val (x p a)) :
    ∃ y, L.transposeForward X = .ok y ∧
      PartsEverySchedule (convTransProg Pp Pa glob L D fun p a _ => (D p a).cpuKernT L (junk p a) p) (discoMem Pp Pa x) (L.groups * L.outPerGroup) L.nlatOut L.nlonOut y.val := by
  obtain ⟨y, z, hy, hz, hp⟩ := C52_transpose_cpu L taps hL Pp Pa hf D hD hne junk X hX x hx
  exact ⟨y, hy, partsEverySchedule ((C103_schedules Pp Pa glob hglob L D x z).2.2 _ hz) hp⟩

/-! ### The hypotheses can be met -/

omit [CommSemiring R] [Inhabited R] in
/-- A convolution with two channels on a 2 by 2 process grid, with either communication pattern, from the 2 by 4 grid to the 2 by 2 grid: under every schedule all ranks end up with their parts of the output
of the serial layer, and there is an execution in which they all finish. -/
example : ∃ (D : ℕ → ℕ → DDisco ℚ) (order : ℕ → ℕ → ℕ → List ℕ) (y : Ten ℚ), okLayer.forward exGlobal = .ok y ∧
    PartsEverySchedule (convProg 2 2 (fun p a => p * 2 + a) okLayer D (fun p a _ => (D p a).refKern okLayer p) fun p a => piece exGlobal.val (whole 2) ⟨2, 2, p⟩ ⟨4, 2, a⟩)
      (discoMem 2 2 fun p a => piece exGlobal.val (whole 2) ⟨2, 2, p⟩ ⟨4, 2, a⟩) (okLayer.groups * okLayer.outPerGroup) okLayer.nlatOut okLayer.nlonOut y.val ∧
    PartsEverySchedule (convFusedProg 2 2 (fun p a => p * 2 + a) okLayer D fun p a c => (D p a).cpuKern okLayer (fun _ => ⟨0, 0, 0, 0⟩) (fun _ => 7) (fun _ _ => 9) (order p a c))
      (discoMem 2 2 fun p a => piece exGlobal.val (whole 2) ⟨2, 2, p⟩ ⟨4, 2, a⟩) (okLayer.groups * okLayer.outPerGroup) okLayer.nlatOut okLayer.nlonOut y.val := by
  have h : ∀ p : ℕ, ∃ D, p < 2 → DDisco.init okLayer 2 2 p = .ok D := by
    intro p
    by_cases hp : p < 2
    · obtain ⟨D, hD⟩ := (C52_init okLayer 2 2 p hp okTaps rfl okLayer_of.fits).2 ⟨by decide, by decide, by decide, by decide, by decide, by
        interval_cases p <;> decide⟩
      exact ⟨D, fun _ => hD⟩
    · exact ⟨⟨[], [], [], [], []⟩, fun h => absurd h hp⟩
  choose D hD using h
  have hf : GridFits okLayer 2 2 (okLayer.groups * okLayer.groupsize) := ⟨by decide, by decide, by decide, by decide, by decide, by decide, by decide⟩
  have hx : ∀ p < 2, ∀ a < 2, IsPart (whole (okLayer.groups * okLayer.groupsize)) ⟨okLayer.nlatIn, 2, p⟩ ⟨okLayer.nlonIn, 2, a⟩ exGlobal.val (piece exGlobal.val (whole 2) ⟨2, 2, p⟩ ⟨4, 2, a⟩) :=
    fun p _ a _ => piece_isPart _ _ _ _
  have hne : ∀ p < 2, ∀ a < 2, (D p).entries ≠ [] ∧ RowSorted (D p).entries ∧ NoCollision okLayer.kernelSize (D p).entries := by
    intro p hp a _
    obtain ⟨h1, -, h3⟩ := init_ok _ _ _ _ _ (hD p hp)
    have e : (D p).entries = (localTaps 2 2 p okTaps).map (encode 4) := by
      rw [h3]
      exact splitPsi_encode 2 2 p 4 hp _ h1 okTaps (fun a ha => (okLayer_of.fits a ha).2.2.2)
    rw [e]
    interval_cases p
    · exact ⟨by decide, rowSorted_of 2 (by decide) (by decide), by show List.IsChain _ _; decide⟩
    · exact ⟨by decide, rowSorted_of 2 (by decide) (by decide), by show List.IsChain _ _; decide⟩
  obtain ⟨y, hy, h1⟩ := C103_conv okLayer okTaps okLayer_of 2 2 hf (fun p a => p * 2 + a) (globInj_rowMajor 2 2) (fun p _ => D p) (fun p hp a _ => hD p hp) exGlobal ⟨rfl, rfl, rfl⟩ _ hx
  obtain ⟨y', hy', -, h2⟩ := C103_conv_cpu okLayer okTaps okLayer_of 2 2 hf (fun p a => p * 2 + a) (globInj_rowMajor 2 2) (fun p _ => D p) (fun p hp a _ => hD p hp) hne
    (fun _ _ _ => ⟨0, 0, 0, 0⟩) (fun _ _ _ _ => 7) (fun _ _ _ _ _ => 9)
    (fun p _ _ => match preprocessPsi (fun _ => ⟨0, 0, 0, 0⟩) okLayer.kernelSize okLayer.nlatOut (D p).entries with | .ok z => List.range (z.2.length - 1) | .error _ => [])
    (fun p hp a ha c s roff h => by rw [h]) exGlobal ⟨rfl, rfl, rfl⟩ _ hx
  rw [hy, Except.ok.injEq] at hy'
  subst hy'
  exact ⟨fun p _ => D p, _, y, hy, h1, h2⟩

omit [CommSemiring R] [Inhabited R] in
/-- A transposed convolution on a 2 by 2 process grid. -/
example (X : Ten ℚ) (hX : X.d0 = exTLayer.groups * exTLayer.groupsize ∧ X.d1 = exTLayer.nlatIn ∧ X.d2 = exTLayer.nlonIn) : ∃ (D : ℕ → ℕ → DDisco ℚ) (y : Ten ℚ), exTLayer.transposeForward X = .ok y ∧
    PartsEverySchedule (convTransProg 2 2 (fun p a => p * 2 + a) exTLayer D fun p a _ => (D p a).refKernT exTLayer p)
      (discoMem 2 2 fun p a => piece X.val (whole (exTLayer.groups * exTLayer.groupsize)) ⟨exTLayer.nlatIn, 2, p⟩ ⟨exTLayer.nlonIn, 2, a⟩)
      (exTLayer.groups * exTLayer.outPerGroup) exTLayer.nlatOut exTLayer.nlonOut y.val :=
  ⟨fun p _ => ⟨[1, 1], [1, 1], [1, 1], [2, 2], splitPsi [1, 1] p 4 exTLayer.entries⟩,
    C103_transpose exTLayer exTaps ⟨rfl, exLayer_of.fits, by decide, by decide, by decide⟩ 2 2 ⟨by decide, by decide, by decide, by decide, by decide, by decide, by decide⟩
      (fun p a => p * 2 + a) (globInj_rowMajor 2 2) _ (fun p hp a _ => by interval_cases p <;> rfl) X hX _ (fun p _ a _ => piece_isPart _ _ _ _)⟩

omit [CommSemiring R] [Inhabited R] in
/-- Two ranks with two and with three channels: no execution of the convolution ends well. -/
example (D : ℕ → ℕ → DDisco ℚ) (kern : ℕ → ℕ → ℕ → Mat ℚ → Except PyErr (Ten ℚ)) (n : ℕ) (s : Net (Fin 1 × Fin 2) (DMem ℚ (ℕ → ℚ)) (DiscoMsg ℚ))
    (h : Exec (convProg 1 2 (fun p a => p * 2 + a) exLayer D kern fun _ a => ⟨2 + a, 2, 2, fun _ _ _ => 1⟩) (Net.init (discoMem 1 2 fun _ a => ⟨2 + a, 2, 2, fun _ _ _ => 1⟩)) n s) :
    ¬ (s.fault = false ∧ ∀ i, (s.proc i).round = 6) :=
  (C103_channels 1 2 (fun p a => p * 2 + a) (globInj_rowMajor 1 2) exLayer D kern (fun _ a => ⟨2 + a, 2, 2, fun _ _ _ => 1⟩) (fun _ _ => Nat.le_add_right _ _) 0 0 1 (by simp)).1 n s h

end Verif.Props
