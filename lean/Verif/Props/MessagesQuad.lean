import Verif.Lemmas.MessagesQuad
import Verif.Props.DistDisco
import Verif.Props.DistQuadrature
import Verif.Props.MessagesSHT
/-!
C105: distributed quadrature and resampling under every schedule of ranks and messages.
-/
namespace Verif.Props
open Verif Verif.Msg Verif.Spec.Msg Verif.Dist Verif.SHT Verif.Quad Verif.Resample Verif.Spec Finset

variable {Pp Pa : ℕ} {glob : ℕ → ℕ → ℕ}

theorem matched_quad (hg : GlobInj Pp Pa glob) (w : ℕ → ℕ → Mat ℝ) : Matched (ofRounds (fun i => glob i.1 i.2) (quadRounds Pp Pa glob w)) := by
  refine matched_rounds _ _ (grid_inj hg) fun Q hQ => ?_
  simp only [quadRounds, List.mem_cons, List.not_mem_nil, or_false] at hQ
  rcases hQ with rfl | rfl | rfl
  · exact matched_local _ _ (grid_inj hg)
  · exact matched_sum hg
  · exact matched_sum hg

theorem matched_resample (hg : GlobInj Pp Pa glob) (D : DResampler) (chans : ℕ → ℕ → ℕ) :
    Matched (ofRounds (fun i => glob i.1 i.2) (resampleRounds Pp Pa glob D chans)) := by
  refine matched_rounds _ _ (grid_inj hg) fun Q hQ => ?_
  unfold resampleRounds at hQ
  split at hQ
  · cases hQ
  · rw [List.mem_append, List.mem_append] at hQ
    rcases hQ with hQ | hQ | hQ
    · simp only [List.mem_cons, List.not_mem_nil, or_false] at hQ
      rw [hQ]
      exact matched_trans hg
    · split at hQ
      · simp only [expandRounds, List.mem_cons, List.not_mem_nil, or_false] at hQ
        rcases hQ with rfl | rfl | rfl | rfl | rfl
        · exact matched_local _ _ (grid_inj hg)
        · exact matched_sum hg
        · exact matched_sum hg
        · exact matched_sum hg
        · exact matched_local _ _ (grid_inj hg)
      · cases hQ
    · simp only [List.mem_cons, List.not_mem_nil, or_false] at hQ
      rcases hQ with rfl | rfl | rfl | rfl | rfl
      · exact matched_local _ _ (grid_inj hg)
      · exact matched_trans hg
      · exact matched_trans hg
      · exact matched_local _ _ (grid_inj hg)
      · exact matched_trans hg

/-- The local sums. -/
noncomputable def quadLocalVec (w : ℕ → ℕ → Mat ℝ) (x : ℕ → ℕ → Ten3 ℝ) (p a : ℕ) : Vec ℝ :=
  ⟨(x p a).d0, fun c => ∑ k ∈ range (x p a).d1, ∑ j ∈ range (x p a).d2, (x p a).val c k j * (w p a).val k j⟩

/-- If the local shapes agree with the weights and all ranks have equally many leading indices, then the rounds fit, and every rank gets the sums over all ranks. -/
theorem quad_run (hg : GlobInj Pp Pa glob) (w : ℕ → ℕ → Mat ℝ) (x : ℕ → ℕ → Ten3 ℝ) (C : ℕ)
    (hx : ∀ p < Pp, ∀ a < Pa, (x p a).d0 = C ∧ (x p a).d1 = (w p a).d0 ∧ (x p a).d2 = (w p a).d1) :
    FitsAll (fun i : Fin Pp × Fin Pa => glob i.1 i.2) (quadRounds Pp Pa glob w) (quadMem Pp Pa x) ∧
      ∀ i, (runs (fun i : Fin Pp × Fin Pa => glob i.1 i.2) (quadRounds Pp Pa glob w) (quadMem Pp Pa x) i).quad.len = C ∧
        ∀ c, (runs (fun i : Fin Pp × Fin Pa => glob i.1 i.2) (quadRounds Pp Pa glob w) (quadMem Pp Pa x) i).quad.val c =
          ∑ s ∈ range Pa, ∑ t ∈ range Pp, (quadLocalVec w x t s).val c := by
  have r1 := local_step (M := Vec ℝ) (fun i => glob i.1 i.2)
    (fun (i : Fin Pp × Fin Pa) (s : QMem) => match quadRows (w i.1 i.2) s.x with | .ok q => (⟨s.x, q⟩ : QMem) | .error _ => s)
    (fun p a => ⟨x p a, default⟩) (fun p a => ⟨x p a, quadLocalVec w x p a⟩) (quadMem Pp Pa x) (fun _ => rfl) fun i => by
      obtain ⟨-, h1, h2⟩ := hx _ i.1.2 _ i.2.2
      change (match quadRows (w i.1 i.2) (x i.1 i.2) with | .ok q => (⟨x i.1 i.2, q⟩ : QMem) | .error _ => ⟨x i.1 i.2, default⟩) = _
      unfold quadRows
      rw [if_neg (by rw [h1, h2]; simp)]
      rfl
  obtain ⟨f2, r2⟩ := sum_step (glob := glob) (az := false) hg quadField_ok (fun p a => (⟨x p a, quadLocalVec w x p a⟩ : QMem)) (quadLocalVec w x) (fun _ _ => rfl) _ r1
    (fun i r hr => by
      change (x r i.2).d0 = (x i.1 i.2).d0
      rw [(hx r hr _ i.2.2).1, (hx _ i.1.2 _ i.2.2).1])
  have hl : ∀ p < Pp, ∀ a < Pa, (reduceFromForward Pp (memberOf false (quadLocalVec w x) p a) p).len = C := fun p hp a ha => by
    rw [allreduce_len]
    exact (hx p hp a ha).1
  obtain ⟨f3, r3⟩ := sum_step (glob := glob) (az := true) hg quadField_ok
    (fun p a => (⟨x p a, reduceFromForward Pp (memberOf false (quadLocalVec w x) p a) p⟩ : QMem)) (fun p a => reduceFromForward Pp (memberOf false (quadLocalVec w x) p a) p) (fun _ _ => rfl) _ r2
    (fun i r hr => by
      change (reduceFromForward Pp (memberOf false (quadLocalVec w x) i.1 r) i.1).len = _
      rw [hl _ i.1.2 r hr, hl _ i.1.2 _ i.2.2])
  refine ⟨⟨fits_local _ _ _, f2, f3, trivial⟩, fun i => ?_⟩
  have e := congrArg QMem.quad (r3 i)
  change (runs (fun i : Fin Pp × Fin Pa => glob i.1 i.2) (quadRounds Pp Pa glob w) (quadMem Pp Pa x) i).quad =
    reduceFromForward Pa (fun s => reduceFromForward Pp (memberOf false (quadLocalVec w x) i.1 s) i.1) i.2 at e
  rw [e]
  refine ⟨by rw [allreduce_len]; exact hl _ i.1.2 _ i.2.2, fun c => ?_⟩
  rw [allreduce_val i.2.2]
  exact sum_congr rfl fun s _ => allreduce_val i.1.2 _ c

/-- The number of local channels after the first transpose. -/
theorem polarIn_d0 {x : ℕ → ℕ → Ten3 ℝ} {sz : List ℕ} {p a : ℕ} {y : Ten3 ℝ} (h : polarIn Pp x sz p a = .ok y) :
    y.d0 = if Pp > 1 then (chanShapes (x p a).d0 Pp).getD p 0 else (x p a).d0 := by
  unfold polarIn at h
  by_cases hP : Pp > 1
  · rw [if_pos hP] at h ⊢
    unfold trans01 distTransposeForward transposeRank chanShapes at *
    rw [if_neg (by omega)] at h
    simp only [bind, Except.bind, pure, Except.pure, throw, throwThe, MonadExceptOf.throw] at h
    have e : computeSplitShapes (view01 (x p a)).d0 Pp = computeSplitShapes (x p a).d0 Pp := rfl
    rw [e] at h
    cases hs : computeSplitShapes (x p a).d0 Pp with
    | error e => rw [hs] at h; cases h
    | ok l =>
      rw [hs] at h
      dsimp only at h
      split_ifs at h with h1 h2
      rw [Except.ok.injEq] at h
      rw [← h]
      exact (h2 0 (by omega)).1
  · rw [if_neg hP, Except.ok.injEq] at h
    rw [if_neg hP, h]

theorem allreduce_if {α : Type} [AddCommMonoid α] {P r : ℕ} (hr : r < P) (x : ℕ → Vec α) : (if P > 1 then reduceFromForward P x r else x r) = reduceFromForward P x r := by
  by_cases h : P > 1
  · rw [if_pos h]
  · rw [if_neg h]
    unfold reduceFromForward reduce
    rw [if_pos (by omega)]

/-- Where the expansion to the poles succeeds and the ranks of an azimuth group have equally many channels, its rounds fit and give the same. -/
theorem expand_run (hg : GlobInj Pp Pa glob) (x y : ℕ → ℕ → Ten3 ℝ) (h : collect Pp Pa (fun p a => dExpandPoles Pa x p a) = .ok y)
    (hd : ∀ p < Pp, ∀ a < Pa, ∀ a' < Pa, (x p a).d0 = (x p a').d0) (X : ℕ → ℕ → RsMem) (hX : ∀ p a, (X p a).x = x p a) (mem : Fin Pp × Fin Pa → RsMem) (hm : ∀ i, mem i = X i.1 i.2) :
    FitsAll (fun i : Fin Pp × Fin Pa => glob i.1 i.2) (expandRounds Pp Pa glob) mem ∧
      ∃ Y : ℕ → ℕ → RsMem, (∀ p a, (Y p a).x = y p a) ∧ ∀ i, runs (fun i : Fin Pp × Fin Pa => glob i.1 i.2) (expandRounds Pp Pa glob) mem i = Y i.1 i.2 := by
  have r1 := local_step (M := RsMsg) (fun i => glob i.1 i.2) (fun (_ : Fin Pp × Fin Pa) (s : RsMem) => poleSums s) X (fun p a => poleSums (X p a)) mem hm fun _ => rfl
  have hd' : ∀ i : Fin Pp × Fin Pa, ∀ r < Pa, (X i.1 r).x.d0 = (X i.1 i.2).x.d0 := fun i r hr => by
    rw [hX, hX]; exact hd _ i.1.2 r hr _ i.2.2
  set N : ℕ → ℕ → Vec ℝ := fun p a => (poleSums (X p a)).north with hN
  set S : ℕ → ℕ → Vec ℝ := fun p a => (poleSums (X p a)).south with hS
  set K : ℕ → ℕ → Vec ℕ := fun p a => (poleSums (X p a)).count with hK
  obtain ⟨f2, r2⟩ := sum_step (glob := glob) (az := true) hg northField_ok (fun p a => poleSums (X p a)) N (fun _ _ => rfl) _ r1 hd'
  obtain ⟨f3, r3⟩ := sum_step (glob := glob) (az := true) hg southField_ok
    (fun p a => (⟨(X p a).x, reduceFromForward Pa (memberOf true N p a) a, S p a, K p a⟩ : RsMem)) S (fun _ _ => rfl) _ r2 hd'
  obtain ⟨f4, r4⟩ := sum_step (glob := glob) (az := true) hg countField_ok
    (fun p a => (⟨(X p a).x, reduceFromForward Pa (memberOf true N p a) a, reduceFromForward Pa (memberOf true S p a) a, K p a⟩ : RsMem)) K (fun _ _ => rfl) _ r3 fun _ _ _ => rfl
  have r5 := local_step (M := RsMsg) (fun i => glob i.1 i.2) (fun (_ : Fin Pp × Fin Pa) (s : RsMem) => poleRows s)
    (fun p a => ⟨(X p a).x, reduceFromForward Pa (memberOf true N p a) a, reduceFromForward Pa (memberOf true S p a) a, reduceFromForward Pa (memberOf true K p a) a⟩)
    (fun p a => ⟨y p a, reduceFromForward Pa (memberOf true N p a) a, reduceFromForward Pa (memberOf true S p a) a, reduceFromForward Pa (memberOf true K p a) a⟩) _ r4 fun i => by
      have hy := collect_all h i.1 i.1.2 i.2 i.2.2
      unfold dExpandPoles at hy
      by_cases h0 : (x i.1 i.2).d1 = 0
      · rw [if_pos h0] at hy; cases hy
      rw [if_neg h0] at hy
      dsimp only at hy
      rw [Except.ok.injEq] at hy
      rw [← hy, allreduce_if i.2.2, allreduce_if i.2.2, allreduce_if i.2.2]
      have eN : memberOf true N i.1 i.2 = fun s => ⟨(x i.1 s).d0, fun c => ∑ j ∈ range (x i.1 s).d2, (x i.1 s).val c 0 j⟩ := by
        funext s
        change (⟨(X i.1 s).x.d0, _⟩ : Vec ℝ) = _
        rw [hX]
      have eS : memberOf true S i.1 i.2 = fun s => ⟨(x i.1 s).d0, fun c => ∑ j ∈ range (x i.1 s).d2, (x i.1 s).val c ((x i.1 s).d1 - 1) j⟩ := by
        funext s
        change (⟨(X i.1 s).x.d0, _⟩ : Vec ℝ) = _
        rw [hX]
      have eK : memberOf true K i.1 i.2 = fun s => ⟨1, fun _ => (x i.1 s).d2⟩ := by
        funext s
        change (⟨1, fun _ => (X i.1 s).x.d2⟩ : Vec ℕ) = _
        rw [hX]
      rw [eN, eS, eK]
      unfold poleRows
      simp only [hX]
  exact ⟨⟨fits_local _ _ _, f2, f3, f4, fits_local _ _ _, trivial⟩,
    fun p a => ⟨y p a, reduceFromForward Pa (memberOf true N p a) a, reduceFromForward Pa (memberOf true S p a) a, reduceFromForward Pa (memberOf true K p a) a⟩, fun _ _ => rfl, r5⟩

/-- Where resampling without schedules succeeds, the rounds fit and give the same. -/
theorem resample_run (hg : GlobInj Pp Pa glob) (D : DResampler) (x y : ℕ → ℕ → Ten3 ℝ) (h : D.forward Pp Pa x = .ok y)
    (hd : ∀ p < Pp, ∀ a < Pa, ∀ a' < Pa, (x p a).d0 = (x p a').d0) :
    FitsAll (fun i : Fin Pp × Fin Pa => glob i.1 i.2) (resampleRounds Pp Pa glob D fun p a => (x p a).d0) (resampleMem Pp Pa x) ∧
      ∀ i, (runs (fun i : Fin Pp × Fin Pa => glob i.1 i.2) (resampleRounds Pp Pa glob D fun p a => (x p a).d0) (resampleMem Pp Pa x) i).x = y i.1 i.2 := by
  unfold DResampler.forward at h
  unfold resampleRounds
  by_cases hskip : D.R.skip = true
  · rw [if_pos hskip, Except.ok.injEq] at h
    rw [if_pos hskip, ← h]
    exact ⟨trivial, fun _ => rfl⟩
  rw [if_neg hskip] at h
  rw [if_neg hskip]
  simp only [bind, Except.bind] at h
  split at h
  · cases h
  next x1 hx1 =>
  split at h
  · cases h
  next x2 hx2 =>
  split at h
  · cases h
  next x3 hx3 =>
  split at h
  · cases h
  next x4 hx4 =>
  split at h
  · cases h
  next x5 hx5 =>
  split at h
  · cases h
  next x6 hx6 =>
  obtain ⟨f1, r1⟩ := trans_step (glob := glob) (az := false) (v := v01) (sizes := fun _ _ => D.latIn) hg rsField_ok (fun p a => (⟨x p a, default, default, ⟨0, fun _ => 0⟩⟩ : RsMem)) x (fun _ _ => rfl) (fun _ => rfl)
    (resampleMem Pp Pa x) (fun _ => rfl) x1 (fun i => collect_all hx1 i.1 i.1.2 i.2 i.2.2)
  have hB : FitsAll (fun i : Fin Pp × Fin Pa => glob i.1 i.2) (if D.R.expand then expandRounds Pp Pa glob else [])
        (runs (fun i : Fin Pp × Fin Pa => glob i.1 i.2) [transRound Pp Pa glob false rsField v01 fun _ _ => D.latIn] (resampleMem Pp Pa x)) ∧
      ∃ Y : ℕ → ℕ → RsMem, (∀ p a, (Y p a).x = x2 p a) ∧ ∀ i, runs (fun i : Fin Pp × Fin Pa => glob i.1 i.2) (if D.R.expand then expandRounds Pp Pa glob else [])
        (runs (fun i : Fin Pp × Fin Pa => glob i.1 i.2) [transRound Pp Pa glob false rsField v01 fun _ _ => D.latIn] (resampleMem Pp Pa x)) i = Y i.1 i.2 := by
    unfold expandStage at hx2
    split_ifs at hx2 ⊢ with he
    · refine expand_run hg x1 x2 hx2 (fun p hp a ha a' ha' => ?_) (fun p a => ⟨x1 p a, default, default, ⟨0, fun _ => 0⟩⟩) (fun _ _ => rfl) _ r1
      rw [polarIn_d0 (collect_all hx1 p hp a ha), polarIn_d0 (collect_all hx1 p hp a' ha'), hd p hp a ha a' ha']
    · rw [Except.ok.injEq] at hx2
      exact ⟨trivial, fun p a => ⟨x1 p a, default, default, ⟨0, fun _ => 0⟩⟩, fun p a => by rw [← hx2], r1⟩
  obtain ⟨fB, Y, hY, rB⟩ := hB
  have r3 := local_step (M := RsMsg) (fun i => glob i.1 i.2)
    (fun (_ : Fin Pp × Fin Pa) (s : RsMem) => match mapChannels D.R.upLat s.x with | .ok y => { s with x := y } | .error _ => s)
    Y (fun p a => { Y p a with x := x3 p a }) _ rB fun i => by
      have e := collect_all hx3 i.1 i.1.2 i.2 i.2.2
      rw [← hY] at e
      rw [e]
  obtain ⟨f4, r4⟩ := trans_step (glob := glob) (az := false) (v := v10) (sizes := fun p a => chanShapes (x p a).d0 Pp) hg rsField_ok (fun p a => { Y p a with x := x3 p a }) x3 (fun _ _ => rfl) (fun _ => rfl)
    _ r3 x4 (fun i => polarOut_trans (n := fun p a => (x p a).d0) (collect_all hx4 i.1 i.1.2 i.2 i.2.2))
  obtain ⟨f5, r5⟩ := trans_step (glob := glob) (az := true) (v := v02) (sizes := fun _ _ => D.lonIn) hg rsField_ok (fun p a => { Y p a with x := x4 p a }) x4 (fun _ _ => rfl) (fun _ => rfl)
    _ r4 x5 (fun i => collect_all hx5 i.1 i.1.2 i.2 i.2.2)
  have r6 := local_step (M := RsMsg) (fun i => glob i.1 i.2)
    (fun (_ : Fin Pp × Fin Pa) (s : RsMem) => match mapChannels D.R.upLon s.x with | .ok y => { s with x := y } | .error _ => s)
    (fun p a => { Y p a with x := x5 p a }) (fun p a => { Y p a with x := x6 p a }) _ r5 fun i => by
      have e := collect_all hx6 i.1 i.1.2 i.2 i.2.2
      dsimp only
      rw [e]
  obtain ⟨f7, r7⟩ := trans_step (glob := glob) (az := true) (v := v20) (sizes := fun p a => chanShapes (x p a).d0 Pa) hg rsField_ok (fun p a => { Y p a with x := x6 p a }) x6 (fun _ _ => rfl) (fun _ => rfl)
    _ r6 y (fun i => azimuthOut_trans (n := fun p a => (x p a).d0) (collect_all h i.1 i.1.2 i.2 i.2.2))
  rw [fitsAll_append, fitsAll_append, runs_append, runs_append]
  exact ⟨⟨⟨f1, trivial⟩, fB, fits_local _ _ _, f4, f5, fits_local _ _ _, f7, trivial⟩, fun i => congrArg RsMem.x (r7 i)⟩

/-- C105: the batches of both programs match, whatever the input. -/
theorem C105_matched (Pp Pa : ℕ) (glob : ℕ → ℕ → ℕ) (hglob : GlobInj Pp Pa glob) (w : ℕ → ℕ → Mat ℝ) (D : DResampler) (x : ℕ → ℕ → Ten3 ℝ) :
    Matched (quadProg Pp Pa glob w) ∧ Matched (resampleProg Pp Pa glob D x) :=
  ⟨matched_quad hglob w, matched_resample hglob D _⟩

/-- C105: let the ranks hold the parts of a global tensor `X` with `C` leading indices. Under every schedule of ranks and messages `DistributedQuadratureS2` meets no error and no deadlock, and every rank that
has finished holds the `C` integrals (or averages) that the serial module computes. -/
theorem C105_quadrature (gauss : ℕ → Rule) (hg : ∀ n, (gauss n).n = n) (tol : ℝ) (maxiter nlat nlon : ℕ) (grid : String) (nz : Bool)
    (hgrid : grid ≠ "equiangular-trapezoidal") (r : Rule) (hr : quadratureS2Rule gauss tol maxiter nlat grid = .ok r) (Pp Pa C : ℕ)
    (hp : 0 < Pp) (ha : 0 < Pa) (hlat : Pp ≤ nlat) (hlon : Pa ≤ nlon) (glob : ℕ → ℕ → ℕ) (hglob : GlobInj Pp Pa glob) (w : ℕ → ℕ → Mat ℝ)
    (hw : ∀ p < Pp, ∀ a < Pa, dquadInit gauss tol maxiter nlat nlon grid nz Pp Pa p a = .ok (w p a))
    (X : ℕ → ℕ → ℕ → ℝ) (x : ℕ → ℕ → Ten3 ℝ) (hx : ∀ p < Pp, ∀ a < Pa, IsPart (whole C) ⟨nlat, Pp, p⟩ ⟨nlon, Pa, a⟩ X (x p a)) :
    EverySchedule (quadProg Pp Pa glob w) (quadMem Pp Pa x) (fun _ s => (List.range s.quad.len).map s.quad.val)
      fun _ => (List.range C).map fun c => quadForward r nlon nz (X c) := by
  have hw' : ∀ p < Pp, ∀ a < Pa, IsFieldTile nlat nlon Pp Pa (fun k _ => quadWeight r nlon nz k) p a (w p a) := fun p hp' a ha' => by
    obtain ⟨w', h1, h2⟩ := C54_quadrature_init gauss hg tol maxiter nlat nlon grid nz hgrid r hr Pp Pa hp ha hlat hlon p a hp' ha'
    rw [hw p hp' a ha'] at h1
    cases h1
    exact h2
  obtain ⟨h1, h2⟩ := quad_run hglob w x C fun p hp' a ha' => by
    obtain ⟨a0, a1, a2, -⟩ := hx p hp' a ha'
    obtain ⟨b0, b1, -⟩ := hw' p hp' a ha'
    exact ⟨by rw [a0, whole_size], by rw [a1, b0]; rfl, by rw [a2, b1]; rfl⟩
  refine everySchedule _ (matched_quad hglob w) _ h1 _ _ fun i => ?_
  obtain ⟨e1, e2⟩ := h2 i
  rw [e1]
  refine List.map_congr_left fun c hc => ?_
  have hc := List.mem_range.1 hc
  rw [e2]
  obtain ⟨y, hy, hv⟩ := C54_quadrature gauss hg tol maxiter nlat nlon grid nz hgrid r hr Pp Pa hp ha hlat hlon w hw (X c) (fun p a => ⟨(x p a).d1, (x p a).d2, (x p a).val c⟩)
    fun p hp' a ha' => by
      obtain ⟨-, a1, a2, a3⟩ := hx p hp' a ha'
      refine ⟨a1, a2, fun k hk j hj => ?_⟩
      have := a3 c (by rw [whole_size]; exact hc) k hk j hj
      rwa [whole_start, zero_add] at this
  rw [← hv _ i.1.2 _ i.2.2]
  unfold dquadForward at hy
  simp only [bind, Except.bind, pure, Except.pure] at hy
  split at hy
  · cases hy
  next q hq =>
  rw [Except.ok.injEq] at hy
  rw [← hy]
  dsimp only
  rw [reduce_all Pa i.2 i.2.2 (fun s => if Pp > 1 then (reduceFromForward Pp (fun s' => (⟨1, fun _ => q s' s⟩ : Vec ℝ)) i.1).val 0 else q i.1 s)]
  refine sum_congr rfl fun s hs => ?_
  rw [reduce_all Pp i.1 i.1.2 fun t => q t s]
  refine sum_congr rfl fun t ht => ?_
  have := collect_all hq t (mem_range.1 ht) s (mem_range.1 hs)
  unfold dquadLocal at this
  split_ifs at this
  rw [Except.ok.injEq] at this
  exact this

/-- C105: the leading indices of an all-reduce must agree: two ranks of a polar group that call the quadrature with different numbers of leading indices never get a result, even though the local sums succeed:
no execution ends with all ranks finished and no error. -/
theorem C105_leading (Pp Pa : ℕ) (glob : ℕ → ℕ → ℕ) (hglob : GlobInj Pp Pa glob) (w : ℕ → ℕ → Mat ℝ) (x : ℕ → ℕ → Ten3 ℝ)
    (hx : ∀ p < Pp, ∀ a < Pa, (x p a).d1 = (w p a).d0 ∧ (x p a).d2 = (w p a).d1) (p p' : Fin Pp) (a : Fin Pa) (hne : (x p a).d0 ≠ (x p' a).d0)
    (n : ℕ) (s : Net (Fin Pp × Fin Pa) QMem (Vec ℝ)) (h : Exec (quadProg Pp Pa glob w) (Net.init (quadMem Pp Pa x)) n s) :
    ¬ (s.fault = false ∧ ∀ i, (s.proc i).round = 3) := by
  have hP : Pp > 1 := by
    by_contra hP
    exact hne (by rw [show p = p' from Fin.ext (by have := p.2; have := p'.2; omega)])
  refine C100_sizes_fail _ (matched_quad hglob w) _ 1 (show 1 < 3 by omega) (fun hF => hne ?_) n s h
  have e : ∀ i : Fin Pp × Fin Pa, ((quadField.get (lockstep (ofRounds (fun i => glob i.1 i.2) (quadRounds Pp Pa glob w)) (quadMem Pp Pa x) 1 i))).len = (x i.1 i.2).d0 := by
    intro i
    change (match quadRows (w i.1 i.2) (x i.1 i.2) with | .ok q => (⟨x i.1 i.2, q⟩ : QMem) | .error _ => ⟨x i.1 i.2, default⟩).quad.len = _
    unfold quadRows
    obtain ⟨h1, h2⟩ := hx _ i.1.2 _ i.2.2
    rw [if_neg (by rw [h1, h2]; simp)]
  have := sum_lengths (az := false) hglob quadField_ok _ hP hF (p, a) (p', a) rfl
  exact (e (p, a)).symm.trans (this.trans (e (p', a)))

/-- C105: where resampling succeeds when all ranks advance together, and the ranks of an azimuth group have equally many channels, it succeeds under every schedule, with the same result. -/
theorem C105_schedules (Pp Pa : ℕ) (glob : ℕ → ℕ → ℕ) (hglob : GlobInj Pp Pa glob) (D : DResampler) (x y : ℕ → ℕ → Ten3 ℝ) (h : D.forward Pp Pa x = .ok y)
    (hd : ∀ p < Pp, ∀ a < Pa, ∀ a' < Pa, (x p a).d0 = (x p a').d0) :
    EverySchedule (resampleProg Pp Pa glob D x) (resampleMem Pp Pa x) (fun _ s => s.x) fun i => y i.1 i.2 := by
  obtain ⟨h1, h2⟩ := resample_run hglob D x y h hd
  exact everySchedule _ (matched_resample hglob D _) _ h1 _ _ h2

/-- C105: let the ranks hold the parts of a global tensor `X` of shape `(channels, nlat_in, nlon_in)`. Under every schedule of ranks and messages `DistributedResampleS2` meets no error and no deadlock, and
every rank that has finished holds its part of what the serial module computes, for all the named grids. -/
theorem C105_resample (gauss : ℕ → Rule) (tol : ℝ) (maxiter : ℕ) (A : Resample.Args) (rin rout : Rule)
    (H : ResampleBuilt gauss tol maxiter A rin rout) (hsame : ¬ (A.nlonIn = A.nlonOut ∧ A.nlatIn = A.nlatOut ∧ A.gridIn = A.gridOut))
    (Pp Pa C : ℕ) (hp : 0 < Pp) (ha : 0 < Pa) (h1 : Pp ≤ A.nlatIn) (h2 : Pa ≤ A.nlonIn) (h3 : Pp ≤ A.nlatOut) (h4 : Pa ≤ A.nlonOut)
    (h5 : Pp ≤ C) (h6 : Pa ≤ C) (glob : ℕ → ℕ → ℕ) (hglob : GlobInj Pp Pa glob) (X : ℕ → ℕ → ℕ → ℝ) (x : ℕ → ℕ → Ten3 ℝ)
    (hx : ∀ p < Pp, ∀ a < Pa, IsPart (whole C) ⟨A.nlatIn, Pp, p⟩ ⟨A.nlonIn, Pa, a⟩ X (x p a)) :
    ∃ (R : Resampler) (D : DResampler) (Y : ℕ → Mat ℝ) (y : ℕ → ℕ → Ten3 ℝ), Resample.init gauss tol maxiter A = .ok R ∧ DResampler.init gauss tol maxiter A Pp Pa = .ok D ∧
      (∀ c, R.forward ⟨A.nlatIn, A.nlonIn, X c⟩ = .ok (Y c)) ∧
      EverySchedule (resampleProg Pp Pa glob D x) (resampleMem Pp Pa x) (fun _ s => s.x) (fun i => y i.1 i.2) ∧
      ∀ p < Pp, ∀ a < Pa, IsPart (whole C) ⟨A.nlatOut, Pp, p⟩ ⟨A.nlonOut, Pa, a⟩ (fun c => (Y c).val) (y p a) := by
  obtain ⟨R, D, Y, y, e1, e2, e3, e4, e5⟩ := C54_resample_grids gauss tol maxiter A rin rout H hsame Pp Pa C hp ha h1 h2 h3 h4 h5 h6 X x hx
  refine ⟨R, D, Y, y, e1, e2, e3, C105_schedules Pp Pa glob hglob D x y e4 fun p hp' a ha' a' ha'' => ?_, e5⟩
  rw [(hx p hp' a ha').1, (hx p hp' a' ha'').1]

/-- C105: two ranks of a polar group that call the resampling with different numbers of channels never get a result. -/
theorem C105_channels (Pp Pa : ℕ) (glob : ℕ → ℕ → ℕ) (hglob : GlobInj Pp Pa glob) (D : DResampler) (hs : D.R.skip = false) (x : ℕ → ℕ → Ten3 ℝ)
    (hn : ∀ (p : Fin Pp) (a : Fin Pa), Pp ≤ (x p a).d0) (p p' : Fin Pp) (a : Fin Pa) (hne : (x p a).d0 ≠ (x p' a).d0)
    (n : ℕ) (s : Net (Fin Pp × Fin Pa) RsMem RsMsg) (h : Exec (resampleProg Pp Pa glob D x) (Net.init (resampleMem Pp Pa x)) n s) :
    ¬ (s.fault = false ∧ ∀ i, (s.proc i).round = (resampleProg Pp Pa glob D x).rounds) := by
  have hP : Pp > 1 := by
    by_contra hP
    exact hne (by rw [show p = p' from Fin.ext (by have := p.2; have := p'.2; omega)])
  have key : ¬ (transRound Pp Pa glob false rsField v01 fun _ _ => D.latIn).Fits (fun i => glob i.1 i.2) (resampleMem Pp Pa x) := fun hF =>
    hne (trans_channels (az := false) (v := v01) hglob rsField_ok (resampleMem Pp Pa x) hP (fun i => hn i.1 i.2) hF (p, a) (p', a) rfl)
  obtain ⟨L, e⟩ : ∃ L, resampleRounds Pp Pa glob D (fun p a => (x p a).d0) = (transRound Pp Pa glob false rsField v01 fun _ _ => D.latIn) :: L := by
    unfold resampleRounds
    rw [if_neg (by rw [hs]; simp)]
    exact ⟨_, rfl⟩
  unfold resampleProg at h ⊢
  rw [e] at h ⊢
  refine C100_sizes_fail (ofRounds (fun i : Fin Pp × Fin Pa => glob i.1 i.2) ((transRound Pp Pa glob false rsField v01 fun _ _ => D.latIn) :: L)) ?_ (resampleMem Pp Pa x) 0 ?_ key n s h
  · rw [← e]
    exact matched_resample hglob D _
  · exact Nat.succ_pos _

/-! ### The hypotheses can be met -/

/-- A 3 by 4 equiangular grid on a 2 by 3 process grid, with five leading indices. -/
example (tol : ℝ) (X : ℕ → ℕ → ℕ → ℝ) : ∃ (r : Rule) (w : ℕ → ℕ → Mat ℝ),
    quadratureS2Rule (fun n => ⟨n, fun _ => 0, fun _ => 0⟩) tol 100 3 "equiangular" = .ok r ∧
      EverySchedule (quadProg 2 3 (fun p a => p * 3 + a) w) (quadMem 2 3 fun p a => piece X (whole 5) ⟨3, 2, p⟩ ⟨4, 3, a⟩) (fun _ s => (List.range s.quad.len).map s.quad.val)
        fun _ => (List.range 5).map fun c => quadForward r 4 false (X c) := by
  have hr : ∃ r, quadratureS2Rule (fun n => ⟨n, fun _ => 0, fun _ => 0⟩) tol 100 3 "equiangular" = .ok r := by
    unfold quadratureS2Rule clenshawCurtissWeights
    rw [if_neg (by decide), if_neg (by decide), if_pos rfl, if_neg (by norm_num)]
    exact ⟨_, rfl⟩
  obtain ⟨r, hr⟩ := hr
  have hw : ∀ p a, ∃ w : Mat ℝ, p < 2 → a < 3 → dquadInit (fun n => ⟨n, fun _ => 0, fun _ => 0⟩) tol 100 3 4 "equiangular" false 2 3 p a = .ok w :=
    fun p a => by
      by_cases h : p < 2 ∧ a < 3
      · obtain ⟨w, h', _⟩ := C54_quadrature_init _ (fun _ => rfl) tol 100 3 4 "equiangular" false (by decide) r hr 2 3 (by norm_num) (by norm_num)
          (by norm_num) (by norm_num) p a h.1 h.2
        exact ⟨w, fun _ _ => h'⟩
      · exact ⟨⟨0, 0, fun _ _ => 0⟩, fun h1 h2 => absurd ⟨h1, h2⟩ h⟩
  choose w hw using hw
  exact ⟨r, w, hr, C105_quadrature _ (fun _ => rfl) tol 100 3 4 "equiangular" false (by decide) r hr 2 3 5 (by norm_num) (by norm_num)
    (by norm_num) (by norm_num) _ (globInj_rowMajor 2 3) w (fun p hp a ha => hw p a hp ha) X _ (fun p _ a _ => piece_isPart _ _ _ _)⟩

/-- From a 2 by 4 Gauss grid to a 3 by 6 equiangular grid (which needs the pole rows), on a 2 by 3 process grid with three channels. -/
example (gauss : ℕ → Rule) (hg : IsGaussRule (gauss 2) 2) (X : ℕ → ℕ → ℕ → ℝ) :
    ∃ (D : DResampler) (y : ℕ → ℕ → Ten3 ℝ) (Y : ℕ → ℕ → ℕ → ℝ), DResampler.init gauss 1e-16 100 ⟨2, 4, 3, 6, "legendre-gauss", "equiangular", "bilinear"⟩ 2 3 = .ok D ∧
      EverySchedule (resampleProg 2 3 (fun p a => p * 3 + a) D fun p a => piece X (whole 3) ⟨2, 2, p⟩ ⟨4, 3, a⟩) (resampleMem 2 3 fun p a => piece X (whole 3) ⟨2, 2, p⟩ ⟨4, 3, a⟩)
        (fun _ s => s.x) (fun i => y i.1 i.2) ∧ ∀ p < 2, ∀ a < 3, IsPart (whole 3) ⟨3, 2, p⟩ ⟨6, 3, a⟩ Y (y p a) := by
  obtain ⟨rin, rout, H⟩ := C26_built gauss 1e-16 100 ⟨2, 4, 3, 6, "legendre-gauss", "equiangular", "bilinear"⟩ (Or.inl rfl) (by norm_num)
    (by norm_num) (Or.inr (Or.inr ⟨rfl, hg⟩)) (Or.inl ⟨by norm_num, Or.inl rfl⟩)
  obtain ⟨_, D, Y, y, _, hD, _, hy, hq⟩ := C105_resample gauss 1e-16 100 _ rin rout H (by norm_num) 2 3 3 (by norm_num) (by norm_num)
    (by norm_num) (by norm_num) (by norm_num) (by norm_num) (by norm_num) (by norm_num) _ (globInj_rowMajor 2 3) X
    (fun p a => piece X (whole 3) ⟨2, 2, p⟩ ⟨4, 3, a⟩) (fun p _ a _ => piece_isPart _ _ _ _)
  exact ⟨D, y, _, hD, hy, hq⟩

/-- Two ranks with two and with three leading indices: no execution of the quadrature ends well. -/
example (n : ℕ) (s : Net (Fin 2 × Fin 1) QMem (Vec ℝ))
    (h : Exec (quadProg 2 1 (fun p a => p * 1 + a) fun _ _ => ⟨2, 2, fun _ _ => 1⟩) (Net.init (quadMem 2 1 fun p _ => ⟨2 + p, 2, 2, fun _ _ _ => 1⟩)) n s) :
    ¬ (s.fault = false ∧ ∀ i, (s.proc i).round = 3) :=
  C105_leading 2 1 (fun p a => p * 1 + a) (globInj_rowMajor 2 1) _ (fun p _ => ⟨2 + p, 2, 2, fun _ _ _ => 1⟩) (fun _ _ _ _ => ⟨rfl, rfl⟩) 0 1 0 (by simp) n s h

end Verif.Props
