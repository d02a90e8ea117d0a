import Verif.Model.MessagesSpectral
import Verif.Props.MessagesQuad
import Verif.Props.MessagesRoundTrip
import Verif.Props.DistSpectralConv
/-!
C108: the distributed spectral convolution under every schedule of ranks and messages.
-/
namespace Verif.Props
open Verif Verif.Msg Verif.Spec.Msg Verif.Dist Verif.SHT Verif.FFT Verif.Quad Verif.Spec Finset

variable {Pp Pa : ℕ} {glob : ℕ → ℕ → ℕ}

theorem scX_ok : scX.Ok := ⟨fun _ _ => rfl, fun _ => rfl⟩
theorem scY_ok : scY.Ok := ⟨fun _ _ => rfl, fun _ => rfl⟩
theorem scQuad_ok : scQuad.Ok := ⟨fun _ => rfl, fun _ => rfl⟩

theorem matched_spectral (hg : GlobInj Pp Pa glob) (be : C2R) (hasBias : Bool) (S : ℕ → ℕ → DSpectralConv) (x : ℕ → ℕ → LTen ℝ) :
    Matched (ofRounds (fun i => glob i.1 i.2) (spectralRounds Pp Pa glob be hasBias S x)) := by
  refine matched_rounds _ _ (grid_inj hg) fun R hR => ?_
  rcases List.mem_append.1 hR with hR | hR
  · by_cases hb : hasBias = true
    · rw [if_pos hb] at hR
      simp only [scQuadRounds, List.mem_cons, List.not_mem_nil, or_false] at hR
      rcases hR with rfl | rfl | rfl
      · exact matched_local _ _ (grid_inj hg)
      · exact matched_sum hg
      · exact matched_sum hg
    · rw [if_neg hb] at hR
      cases hR
  rcases List.mem_append.1 hR with hR | hR
  · simp only [scAnalysisRounds, List.mem_cons, List.not_mem_nil, or_false] at hR
    rcases hR with rfl | rfl | rfl | rfl | rfl | rfl | rfl
    · exact matched_local _ _ (grid_inj hg)
    · exact matched_trans hg
    · exact matched_local _ _ (grid_inj hg)
    · exact matched_trans hg
    · exact matched_trans hg
    · exact matched_local _ _ (grid_inj hg)
    · exact matched_trans hg
  · rcases List.mem_cons.1 hR with rfl | hR
    · exact matched_local _ _ (grid_inj hg)
    simp only [scSynthesisRounds, List.mem_cons, List.not_mem_nil, or_false] at hR
    rcases hR with rfl | rfl | rfl | rfl | rfl | rfl
    · exact matched_trans hg
    · exact matched_local _ _ (grid_inj hg)
    · exact matched_trans hg
    · exact matched_trans hg
    · exact matched_local _ _ (grid_inj hg)
    · exact matched_trans hg

/-- The quadrature succeeds only if the shapes agree with the weights. -/
theorem integrals_shapes {w : ℕ → ℕ → Mat ℝ} {x : ℕ → ℕ → LTen ℝ} {I : ℕ → ℕ → ℕ → ℕ → ℝ} (h : integrals Pp Pa w x = .ok I) :
    ∀ p < Pp, ∀ a < Pa, (x p a).d1 = (w p a).d0 ∧ (x p a).d2 = (w p a).d1 := by
  intro p hp a ha
  unfold integrals at h
  dsimp only at h
  split at h
  · cases h
  next y0 h0 =>
  unfold dquadForward at h0
  simp only [bind, Except.bind] at h0
  split at h0
  · cases h0
  next q hq =>
  have := collect_all hq p hp a ha
  unfold dquadLocal at this
  split at this
  · cases this
  next hn =>
  dsimp only at hn
  omega

/-- The quadrature of one field is the sum of the local sums of all ranks. -/
theorem dquad_sum (hp : 0 < Pp) (ha : 0 < Pa) (w x : ℕ → ℕ → Mat ℝ) (h : ∀ p < Pp, ∀ a < Pa, (x p a).d0 = (w p a).d0 ∧ (x p a).d1 = (w p a).d1) :
    ∃ y, dquadForward Pp Pa w x = .ok y ∧ ∀ p < Pp, ∀ a < Pa,
      y p a = ∑ s ∈ range Pa, ∑ t ∈ range Pp, ∑ k ∈ range (x t s).d0, ∑ j ∈ range (x t s).d1, (x t s).val k j * (w t s).val k j := by
  obtain ⟨q, hq, hv⟩ := collect_ok hp ha (f := fun p a => dquadLocal (w p a) (x p a))
    (Q := fun p a z => z = ∑ k ∈ range (x p a).d0, ∑ j ∈ range (x p a).d1, (x p a).val k j * (w p a).val k j) (fun p hp' a ha' => ⟨_, by
      unfold dquadLocal
      obtain ⟨e1, e2⟩ := h p hp' a ha'
      rw [if_neg (by simp [e1, e2])], rfl⟩)
  unfold dquadForward
  rw [hq]
  refine ⟨_, rfl, fun p hp' a ha' => ?_⟩
  have e1 : ∀ p < Pp, ∀ a, (if Pp > 1 then (reduceFromForward Pp (fun s => (⟨1, fun _ => q s a⟩ : Vec ℝ)) p).val 0 else q p a) = ∑ t ∈ range Pp, q t a := by
    intro p hp' a
    by_cases hP : Pp > 1
    · rw [if_pos hP, allreduce_val hp']
    · rw [if_neg hP]
      obtain rfl : Pp = 1 := by omega
      obtain rfl : p = 0 := by omega
      simp
  dsimp only
  have e2 : (if Pa > 1 then (reduceFromForward Pa (fun s => (⟨1, fun _ => if Pp > 1 then (reduceFromForward Pp (fun s' => (⟨1, fun _ => q s' s⟩ : Vec ℝ)) p).val 0 else q p s⟩ : Vec ℝ)) a).val 0
      else if Pp > 1 then (reduceFromForward Pp (fun s => (⟨1, fun _ => q s a⟩ : Vec ℝ)) p).val 0 else q p a) = ∑ s ∈ range Pa, ∑ t ∈ range Pp, q t s := by
    by_cases hP : Pa > 1
    · rw [if_pos hP, allreduce_val ha']
      exact sum_congr rfl fun s _ => e1 p hp' s
    · rw [if_neg hP, e1 p hp' a]
      obtain rfl : Pa = 1 := by omega
      obtain rfl : a = 0 := by omega
      simp
  rw [e2]
  exact sum_congr rfl fun s hs => sum_congr rfl fun t ht => (hv t (mem_range.1 ht) s (mem_range.1 hs)).2

/-- The integrals are the sums of the local sums of all ranks. -/
theorem integrals_sum {w : ℕ → ℕ → Mat ℝ} {x : ℕ → ℕ → LTen ℝ} {I : ℕ → ℕ → ℕ → ℕ → ℝ} (h : integrals Pp Pa w x = .ok I) {p a : ℕ} (hp : p < Pp) (ha : a < Pa) (b c : ℕ) :
    I p a b c = ∑ s ∈ range Pa, ∑ t ∈ range Pp, ∑ k ∈ range (x t s).d1, ∑ j ∈ range (x t s).d2, (x t s).val [b, c] k j * (w t s).val k j := by
  have hs := integrals_shapes h
  have hp0 : 0 < Pp := by omega
  have ha0 : 0 < Pa := by omega
  obtain ⟨I', hI', hv⟩ := integrals_ok hp0 ha0 w x hs
  rw [h] at hI'
  cases hI'
  obtain ⟨y, hy, hval⟩ := dquad_sum hp0 ha0 w (fun p a => ⟨(x p a).d1, (x p a).d2, (x p a).val [b, c]⟩) hs
  rw [hv b c y hy p a, hval p hp a ha]

/-- The local sums. -/
noncomputable def batchLocal (w : ℕ → ℕ → Mat ℝ) (x : ℕ → ℕ → LTen ℝ) (p a : ℕ) : Vec (ℕ → ℝ) :=
  ⟨(x p a).lead.getD 0 0, fun b c => ∑ k ∈ range (x p a).d1, ∑ j ∈ range (x p a).d2, (x p a).val [b, c] k j * (w p a).val k j⟩

/-- The rounds of the quadrature fit and give the integrals on every rank. -/
theorem sc_quad_run (hg : GlobInj Pp Pa glob) (w : ℕ → ℕ → Mat ℝ) (x : ℕ → ℕ → LTen ℝ) (I : ℕ → ℕ → ℕ → ℕ → ℝ) (h : integrals Pp Pa w x = .ok I) (B : ℕ)
    (hB : ∀ p < Pp, ∀ a < Pa, (x p a).lead.getD 0 0 = B) :
    FitsAll (fun i : Fin Pp × Fin Pa => glob i.1 i.2) (scQuadRounds Pp Pa glob w) (spectralMem Pp Pa x) ∧
      ∀ i, runs (fun i : Fin Pp × Fin Pa => glob i.1 i.2) (scQuadRounds Pp Pa glob w) (spectralMem Pp Pa x) i =
        (⟨x i.1 i.2, ⟨B, I i.1 i.2⟩, ⟨0, 0, 0, fun _ _ _ => 0⟩, ⟨0, 0, 0, fun _ _ _ => 0⟩, ⟨[], 0, 0, fun _ _ _ => 0⟩⟩ : ScMem) := by
  have hs := integrals_shapes h
  set M : ℕ → ℕ → Vec (ℕ → ℝ) → ScMem := fun p a q => ⟨x p a, q, ⟨0, 0, 0, fun _ _ _ => 0⟩, ⟨0, 0, 0, fun _ _ _ => 0⟩, ⟨[], 0, 0, fun _ _ _ => 0⟩⟩ with hM
  have r1 := local_step (M := ScMsg) (fun i => glob i.1 i.2)
    (fun (i : Fin Pp × Fin Pa) (s : ScMem) => match batchRows (w i.1 i.2) s.inp with | .ok q => { s with quad := q } | .error _ => s)
    (fun p a => M p a ⟨0, fun _ _ => 0⟩) (fun p a => M p a (batchLocal w x p a)) (spectralMem Pp Pa x) (fun _ => rfl) fun i => by
      obtain ⟨h1, h2⟩ := hs _ i.1.2 _ i.2.2
      have e : batchRows (w i.1 i.2) (M i.1 i.2 ⟨0, fun _ _ => 0⟩).inp = .ok (batchLocal w x i.1 i.2) := by
        change batchRows (w i.1 i.2) (x i.1 i.2) = _
        unfold batchRows
        rw [if_neg (by rw [h1, h2]; simp)]
        rfl
      rw [e]
  obtain ⟨f2, r2⟩ := sum_step (glob := glob) (az := false) hg scQuad_ok (fun p a => M p a (batchLocal w x p a)) (batchLocal w x) (fun _ _ => rfl) _ r1
    (fun i r hr => by
      change (x r i.2).lead.getD 0 0 = (x i.1 i.2).lead.getD 0 0
      rw [hB r hr _ i.2.2, hB _ i.1.2 _ i.2.2])
  have hl : ∀ p < Pp, ∀ a < Pa, (reduceFromForward Pp (memberOf false (batchLocal w x) p a) p).len = B := fun p hp a ha => by
    rw [allreduce_len]
    exact hB p hp a ha
  obtain ⟨f3, r3⟩ := sum_step (glob := glob) (az := true) hg scQuad_ok
    (fun p a => M p a (reduceFromForward Pp (memberOf false (batchLocal w x) p a) p)) (fun p a => reduceFromForward Pp (memberOf false (batchLocal w x) p a) p) (fun _ _ => rfl) _ r2
    (fun i r hr => by
      change (reduceFromForward Pp (memberOf false (batchLocal w x) i.1 r) i.1).len = _
      rw [hl _ i.1.2 r hr, hl _ i.1.2 _ i.2.2])
  refine ⟨⟨fits_local _ _ _, f2, f3, trivial⟩, fun i => ?_⟩
  refine (r3 i).trans ?_
  change M i.1 i.2 (reduceFromForward Pa (fun s => reduceFromForward Pp (memberOf false (batchLocal w x) i.1 s) i.1) i.2) = M i.1 i.2 ⟨B, I i.1 i.2⟩
  congr 1
  have e1 : (reduceFromForward Pa (fun s => reduceFromForward Pp (memberOf false (batchLocal w x) i.1 s) i.1) i.2).len = B := by
    rw [allreduce_len]; exact hl _ i.1.2 _ i.2.2
  have e2 : (reduceFromForward Pa (fun s => reduceFromForward Pp (memberOf false (batchLocal w x) i.1 s) i.1) i.2).val = I i.1 i.2 := by
    funext b c
    rw [allreduce_val i.2.2, Finset.sum_apply, integrals_sum h i.1.2 i.2.2]
    refine sum_congr rfl fun s _ => ?_
    rw [allreduce_val i.1.2, Finset.sum_apply]
    rfl
  generalize reduceFromForward Pa (fun s => reduceFromForward Pp (memberOf false (batchLocal w x) i.1 s) i.1) i.2 = q at e1 e2
  cases q
  cases e1
  cases e2
  rfl

/-- The rounds of the transform. -/
theorem sc_analysis_run (hg : GlobInj Pp Pa glob) (S : ℕ → ℕ → DRealSHT) (x : ℕ → ℕ → LTen ℝ) (c : ℕ → ℕ → LTen ℂ) (h : DRealSHT.forward Pp Pa S x = .ok c)
    (q : ℕ → ℕ → Vec (ℕ → ℝ)) (x0 : Ten3 ℝ) (y0 : Ten3 ℂ) (m0 : LTen ℂ) (mem : Fin Pp × Fin Pa → ScMem) (hmem : ∀ i, mem i = ⟨x i.1 i.2, q i.1 i.2, x0, y0, m0⟩) :
    FitsAll (fun i : Fin Pp × Fin Pa => glob i.1 i.2) (scAnalysisRounds Pp Pa glob (numChans Pp Pa x) S) mem ∧
      ∃ (u : ℕ → ℕ → Ten3 ℝ) (v : ℕ → ℕ → Ten3 ℂ), (∀ i, runs (fun i : Fin Pp × Fin Pa => glob i.1 i.2) (scAnalysisRounds Pp Pa glob (numChans Pp Pa x) S) mem i =
          ⟨x i.1 i.2, q i.1 i.2, u i.1 i.2, v i.1 i.2, m0⟩) ∧
        ∀ p < Pp, ∀ a < Pa, unpadUnflatten (v p a) (x p a).lead (flattenPad (x p a) (max Pp Pa)).2 = .ok (c p a) := by
  unfold DRealSHT.forward at h
  simp only [bind, Except.bind] at h
  split at h
  · cases h
  split at h
  · cases h
  next x1 hx1 =>
  split at h
  · cases h
  next x2 hx2 =>
  split at h
  · cases h
  next x3 hx3 =>
  split at h
  · cases h
  next x4 hx4 =>
  split at h
  · cases h
  next x6 hx6 =>
  set M : ℕ → ℕ → Ten3 ℝ → Ten3 ℂ → ScMem := fun p a u v => ⟨x p a, q p a, u, v, m0⟩ with hM
  have r0 := local_step (M := ScMsg) (fun i => glob i.1 i.2) (fun (_ : Fin Pp × Fin Pa) (s : ScMem) => { s with x := (flattenPad s.inp (max Pp Pa)).1 })
    (fun p a => M p a x0 y0) (fun p a => M p a (flattenPad (x p a) (max Pp Pa)).1 y0) mem hmem fun _ => rfl
  obtain ⟨f1, r1⟩ := trans_step (glob := glob) (az := true) (v := v02) (sizes := fun p a => (S p a).sh.lon) hg scX_ok (fun p a => M p a (flattenPad (x p a) (max Pp Pa)).1 y0) _ (fun _ _ => rfl) (fun _ => rfl)
    _ r0 x1 (fun i => collect_all hx1 i.1 i.1.2 i.2 i.2.2)
  have r2 := local_step (M := ScMsg) (fun i => glob i.1 i.2) (fun (i : Fin Pp × Fin Pa) (s : ScMem) => match localRfft (S i.1 i.2).mmax s.x with | .ok y => { s with y := y } | .error _ => s)
    (fun p a => M p a (x1 p a) y0) (fun p a => M p a (x1 p a) (x2 p a)) _ r1 fun i => by
      have e : localRfft (S i.1 i.2).mmax (M i.1 i.2 (x1 i.1 i.2) y0).x = .ok (x2 i.1 i.2) := collect_all hx2 i.1 i.1.2 i.2 i.2.2
      rw [e]
  obtain ⟨f3, r3⟩ := trans_step (glob := glob) (az := true) (v := v20) (sizes := fun p a => chanShapes (numChans Pp Pa x p a) Pa) hg scY_ok (fun p a => M p a (x1 p a) (x2 p a)) x2 (fun _ _ => rfl) (fun _ => rfl)
    _ r2 x3 (fun i => azimuthOut_trans (collect_all hx3 i.1 i.1.2 i.2 i.2.2))
  obtain ⟨f4, r4⟩ := trans_step (glob := glob) (az := false) (v := v01) (sizes := fun p a => (S p a).sh.lat) hg scY_ok (fun p a => M p a (x1 p a) (x3 p a)) x3 (fun _ _ => rfl) (fun _ => rfl)
    _ r3 x4 (fun i => collect_all hx4 i.1 i.1.2 i.2 i.2.2)
  have r5 := local_step (M := ScMsg) (fun i => glob i.1 i.2) (fun (i : Fin Pp × Fin Pa) (s : ScMem) => { s with y := localLegendre (S i.1 i.2).lmax (S i.1 i.2).weights s.y })
    (fun p a => M p a (x1 p a) (x4 p a)) (fun p a => M p a (x1 p a) (localLegendre (S p a).lmax (S p a).weights (x4 p a))) _ r4 fun _ => rfl
  obtain ⟨f6, r6⟩ := trans_step (glob := glob) (az := false) (v := v10) (sizes := fun p a => chanShapes (numChans Pp Pa x p a) Pp) hg scY_ok
    (fun p a => M p a (x1 p a) (localLegendre (S p a).lmax (S p a).weights (x4 p a))) (fun p a => localLegendre (S p a).lmax (S p a).weights (x4 p a)) (fun _ _ => rfl) (fun _ => rfl)
    _ r5 x6 (fun i => polarOut_trans (collect_all hx6 i.1 i.1.2 i.2 i.2.2))
  exact ⟨⟨fits_local _ _ _, f1, fits_local _ _ _, f3, f4, fits_local _ _ _, f6, trivial⟩, x1, x6, r6, fun p hp a ha => collect_all h p hp a ha⟩

/-- The rounds of the inverse transform. -/
theorem sc_synthesis_run (hg : GlobInj Pp Pa glob) (be : C2R) (S : ℕ → ℕ → DInverseRealSHT) (z : ℕ → ℕ → LTen ℂ) (y : ℕ → ℕ → LTen ℝ) (h : DInverseRealSHT.forward be Pp Pa S z = .ok y)
    (chans : ℕ → ℕ → ℕ) (hc : ∀ p < Pp, ∀ a < Pa, (flattenPad (z p a) (max Pp Pa)).1.d0 = chans p a)
    (x : ℕ → ℕ → LTen ℝ) (q : ℕ → ℕ → Vec (ℕ → ℝ)) (u : ℕ → ℕ → Ten3 ℝ) (mem : Fin Pp × Fin Pa → ScMem)
    (hmem : ∀ i, mem i = ⟨x i.1 i.2, q i.1 i.2, u i.1 i.2, (flattenPad (z i.1 i.2) (max Pp Pa)).1, z i.1 i.2⟩) :
    FitsAll (fun i : Fin Pp × Fin Pa => glob i.1 i.2) (scSynthesisRounds Pp Pa glob be chans S) mem ∧
      ∀ i, spectralOut i (runs (fun i : Fin Pp × Fin Pa => glob i.1 i.2) (scSynthesisRounds Pp Pa glob be chans S) mem i) = .ok (y i.1 i.2) := by
  unfold DInverseRealSHT.forward at h
  simp only [bind, Except.bind] at h
  split at h
  · cases h
  split at h
  · cases h
  next x1 hx1 =>
  split at h
  · cases h
  next x3 hx3 =>
  split at h
  · cases h
  next x4 hx4 =>
  split at h
  · cases h
  next x5 hx5 =>
  split at h
  · cases h
  next x6 hx6 =>
  set M : ℕ → ℕ → Ten3 ℝ → Ten3 ℂ → ScMem := fun p a u v => ⟨x p a, q p a, u, v, z p a⟩ with hM
  obtain ⟨f1, r1⟩ := trans_step (glob := glob) (az := false) (v := v01) (sizes := fun p a => (S p a).sh.l) hg scY_ok (fun p a => M p a (u p a) (flattenPad (z p a) (max Pp Pa)).1) _ (fun _ _ => rfl) (fun _ => rfl)
    mem hmem x1 (fun i => collect_all hx1 i.1 i.1.2 i.2 i.2.2)
  have r2 := local_step (M := ScMsg) (fun i => glob i.1 i.2) (fun (i : Fin Pp × Fin Pa) (s : ScMem) => { s with y := localLegendre (S i.1 i.2).nlat (S i.1 i.2).pct s.y })
    (fun p a => M p a (u p a) (x1 p a)) (fun p a => M p a (u p a) (localLegendre (S p a).nlat (S p a).pct (x1 p a))) _ r1 fun _ => rfl
  obtain ⟨f3, r3⟩ := trans_step (glob := glob) (az := false) (v := v10) (sizes := fun p a => chanShapes (chans p a) Pp) hg scY_ok
    (fun p a => M p a (u p a) (localLegendre (S p a).nlat (S p a).pct (x1 p a))) (fun p a => localLegendre (S p a).nlat (S p a).pct (x1 p a)) (fun _ _ => rfl) (fun _ => rfl)
    _ r2 x3 (fun i => polarOut_trans (by rw [← hc i.1 i.1.2 i.2 i.2.2]; exact collect_all hx3 i.1 i.1.2 i.2 i.2.2))
  obtain ⟨f4, r4⟩ := trans_step (glob := glob) (az := true) (v := v02) (sizes := fun p a => (S p a).sh.m) hg scY_ok (fun p a => M p a (u p a) (x3 p a)) x3 (fun _ _ => rfl) (fun _ => rfl)
    _ r3 x4 (fun i => collect_all hx4 i.1 i.1.2 i.2 i.2.2)
  have r5 := local_step (M := ScMsg) (fun i => glob i.1 i.2) (fun (i : Fin Pp × Fin Pa) (s : ScMem) => match localIrfft be (S i.1 i.2).nlon s.y with | .ok x => { s with x := x } | .error _ => s)
    (fun p a => M p a (u p a) (x4 p a)) (fun p a => M p a (x5 p a) (x4 p a)) _ r4 fun i => by
      have e : localIrfft be (S i.1 i.2).nlon (M i.1 i.2 (u i.1 i.2) (x4 i.1 i.2)).y = .ok (x5 i.1 i.2) := collect_all hx5 i.1 i.1.2 i.2 i.2.2
      rw [e]
  obtain ⟨f6, r6⟩ := trans_step (glob := glob) (az := true) (v := v20) (sizes := fun p a => chanShapes (chans p a) Pa) hg scX_ok (fun p a => M p a (x5 p a) (x4 p a)) x5 (fun _ _ => rfl) (fun _ => rfl)
    _ r5 x6 (fun i => azimuthOut_trans (by rw [← hc i.1 i.1.2 i.2 i.2.2]; exact collect_all hx6 i.1 i.1.2 i.2 i.2.2))
  refine ⟨⟨f1, fits_local _ _ _, f3, f4, fits_local _ _ _, f6, trivial⟩, fun i => ?_⟩
  refine Eq.trans (congrArg (spectralOut i) (r6 i)) ?_
  exact collect_all h i.1 i.1.2 i.2 i.2.2

/-- The contraction keeps the batch and has `out_channels` channels. -/
theorem mix_lead {S : DSpectralConv} {hasBias : Bool} {I : ℕ → ℕ → ℝ} {c z : LTen ℂ} (h : S.mix hasBias I c = .ok z) : z.lead = [c.lead.getD 0 0, S.outChannels] := by
  unfold DSpectralConv.mix mapBatch at h
  split at h
  · next B C hl =>
    split at h
    · cases h
    · next y0 h0 =>
      cases h
      rw [hl]
      simp only [bind, Except.bind] at h0
      split at h0
      · cases h0
      unfold DSpectralConv.contract at h0
      dsimp only at h0
      split at h0
      · cases h0
      split at h0
      · cases h0
      cases h0
      rfl
  · cases h

/-- C108: the batches of the layer match, whatever the shapes: every send has its receive. -/
theorem C108_matched (Pp Pa : ℕ) (glob : ℕ → ℕ → ℕ) (hglob : GlobInj Pp Pa glob) (be : C2R) (hasBias : Bool) (S : ℕ → ℕ → DSpectralConv) (x : ℕ → ℕ → LTen ℝ) :
    Matched (spectralProg Pp Pa glob be hasBias S x) := matched_spectral hglob be hasBias S x

/-- C108: where the layer succeeds when all ranks advance together, it succeeds under every schedule, with the same result. With a bias, the ranks must have the same batch size. -/
theorem C108_schedules (Pp Pa : ℕ) (glob : ℕ → ℕ → ℕ) (hglob : GlobInj Pp Pa glob) (be : C2R) (hasBias : Bool) (S : ℕ → ℕ → DSpectralConv) (x y : ℕ → ℕ → LTen ℝ) (B : ℕ)
    (hB : hasBias = true → ∀ p < Pp, ∀ a < Pa, (x p a).lead.getD 0 0 = B) (h : DSpectralConv.forward be Pp Pa hasBias S x = .ok y) :
    EverySchedule (spectralProg Pp Pa glob be hasBias S x) (spectralMem Pp Pa x) spectralOut fun i => .ok (y i.1 i.2) := by
  unfold DSpectralConv.forward at h
  simp only [bind, Except.bind] at h
  split at h
  · cases h
  next I hI =>
  split at h
  · cases h
  next c hc =>
  split at h
  · cases h
  next z hz =>
  have hq : ∃ q : ℕ → ℕ → Vec (ℕ → ℝ), (∀ p a, (q p a).val = I p a) ∧
      FitsAll (fun i : Fin Pp × Fin Pa => glob i.1 i.2) (if hasBias then scQuadRounds Pp Pa glob fun p a => (S p a).quad else []) (spectralMem Pp Pa x) ∧
      ∀ i, runs (fun i : Fin Pp × Fin Pa => glob i.1 i.2) (if hasBias then scQuadRounds Pp Pa glob fun p a => (S p a).quad else []) (spectralMem Pp Pa x) i =
        ⟨x i.1 i.2, q i.1 i.2, ⟨0, 0, 0, fun _ _ _ => 0⟩, ⟨0, 0, 0, fun _ _ _ => 0⟩, ⟨[], 0, 0, fun _ _ _ => 0⟩⟩ := by
    unfold maybeIntegrals at hI
    cases hasBias with
    | true =>
      obtain ⟨h1, h2⟩ := sc_quad_run hglob (fun p a => (S p a).quad) x I hI B (hB rfl)
      exact ⟨fun p a => ⟨B, I p a⟩, fun _ _ => rfl, h1, h2⟩
    | false =>
      cases hI
      exact ⟨fun _ _ => ⟨0, fun _ _ => 0⟩, fun _ _ => rfl, trivial, fun _ => rfl⟩
  obtain ⟨q, hqI, fq, rq⟩ := hq
  obtain ⟨fa, u, v, ra, hv⟩ := sc_analysis_run hglob (fun p a => (S p a).sht) x c hc q _ _ _ _ rq
  have rm := local_step (M := ScMsg) (fun i => glob i.1 i.2) (fun (i : Fin Pp × Fin Pa) (s : ScMem) => scMix Pp Pa (S i.1 i.2) hasBias s)
    (fun p a => ⟨x p a, q p a, u p a, v p a, ⟨[], 0, 0, fun _ _ _ => 0⟩⟩) (fun p a => ⟨x p a, q p a, u p a, (flattenPad (z p a) (max Pp Pa)).1, z p a⟩) _ ra fun i => by
      unfold scMix
      dsimp only
      rw [hv i.1 i.1.2 i.2 i.2.2]
      dsimp only
      rw [hqI, collect_all hz i.1 i.1.2 i.2 i.2.2]
  have hlead : ∀ p < Pp, ∀ a < Pa, (flattenPad (z p a) (max Pp Pa)).1.d0 = outChans Pp Pa S x p a := fun p hp a ha => by
    rw [flattenPad_d0, mix_lead (collect_all hz p hp a ha), unpadUnflatten_lead (hv p hp a ha)]
    simp [outChans]
  obtain ⟨fs, rs⟩ := sc_synthesis_run hglob be (fun p a => (S p a).isht) z y h (outChans Pp Pa S x) hlead x q u _ rm
  refine everySchedule _ (matched_spectral hglob be hasBias S x) _ ?_ _ _ fun i => ?_
  · rw [spectralRounds, fitsAll_append, fitsAll_append]
    exact ⟨fq, fa, fits_local _ _ _, fs⟩
  · rw [spectralRounds, runs_append, runs_append]
    exact rs i

/-- C108. Let the ranks hold their shares of the weights and the bias of a serial layer, and the tiles of a global tensor `X` of shape `(batch, in_channels, nlat_in, nlon_in)`. Under every schedule of ranks
and messages the distributed layer meets no error and no deadlock, and every rank that has finished returns its tile of the result of the serial layer. -/
theorem C108_forward (env : Env) (hg : ∀ n, (env.gauss n).n = n) (be : C2R) (A : ConvArgs) (w : ℕ → ℕ → ℕ → ℕ → ℂ)
    (b : Option (ℕ → ℕ → ℕ → ℂ)) (S : SpectralConv) (hS : SpectralConv.init env A w b = .ok S) (Pp Pa : ℕ) (hf : ConvFits Pp Pa A S.lmax)
    (glob : ℕ → ℕ → ℕ) (hglob : GlobInj Pp Pa glob) (w' : ℕ → ℕ → ℕ → ℕ → ℕ → ℕ → ℂ) (b' : ℕ → ℕ → ℕ → ℕ → ℕ → ℂ)
    (hsh : ∀ p < Pp, ∀ a < Pa, HoldsShare A S.lmax Pp Pa w b p a (w' p a) (b' p a)) (D : ℕ → ℕ → DSpectralConv)
    (hD : ∀ p < Pp, ∀ a < Pa, DSpectralConv.init env A b.isSome Pp Pa p a (w' p a) (b' p a) = .ok (D p a))
    (B : ℕ) (X : List ℕ → ℕ → ℕ → ℝ) (x : ℕ → ℕ → LTen ℝ)
    (hx : ∀ p < Pp, ∀ a < Pa, IsTile [B, A.inChannels] A.nlatIn A.nlonIn Pp Pa X p a (x p a))
    (Y : ℕ → Ten3 ℝ) (hY : ∀ n < B, S.forward be ⟨A.inChannels, A.nlatIn, A.nlonIn, fun c => X [n, c]⟩ = .ok (Y n)) :
    TilesEverySchedule (spectralProg Pp Pa glob be b.isSome D x) (spectralMem Pp Pa x) spectralOut [B, A.outChannels] A.nlatOut A.nlonOut fun idx => (Y (idx.getD 0 0)).val (idx.getD 1 0) := by
  obtain ⟨y, hy, hq⟩ := C64_forward env hg be A w b S hS Pp Pa hf w' b' hsh D hD B X x hx Y hY
  exact tilesEverySchedule (C108_schedules Pp Pa glob hglob be b.isSome D x y B (fun _ p hp a ha => by rw [(hx p hp a ha).1]; rfl) hy) hq

/-- C108: the local sums of all batch elements and channels are those of the quadrature module, for every input and all weights; a tensor that does not have the local
extents is refused in both with the same error. -/
theorem C108_integral_step (w : Mat ℝ) (x : LTen ℝ) (b c : ℕ) :
    (batchRows w x).map (fun q => q.val b c) = dquadLocal w ⟨x.d1, x.d2, x.val [b, c]⟩ := by
  unfold batchRows dquadLocal
  dsimp only
  split_ifs <;> rfl

/-- C108: with a bias, ranks with different batch sizes never get a result. If two ranks of a polar group call the layer with tensors that have a different number of batch elements (and otherwise the local
shapes of the layer), then no execution ends with all ranks finished and no error. -/
theorem C108_batches (Pp Pa : ℕ) (glob : ℕ → ℕ → ℕ) (hglob : GlobInj Pp Pa glob) (be : C2R) (S : ℕ → ℕ → DSpectralConv) (x : ℕ → ℕ → LTen ℝ)
    (hx : ∀ p < Pp, ∀ a < Pa, (x p a).d1 = (S p a).quad.d0 ∧ (x p a).d2 = (S p a).quad.d1) (p p' : Fin Pp) (a : Fin Pa) (hne : (x p a).lead.getD 0 0 ≠ (x p' a).lead.getD 0 0)
    (n : ℕ) (s : Net (Fin Pp × Fin Pa) ScMem ScMsg) (h : Exec (spectralProg Pp Pa glob be true S x) (Net.init (spectralMem Pp Pa x)) n s) :
    ¬ (s.fault = false ∧ ∀ i, (s.proc i).round = (spectralProg Pp Pa glob be true S x).rounds) := by
  have hP : Pp > 1 := by
    by_contra hP
    exact hne (by rw [show p = p' from Fin.ext (by have := p.2; have := p'.2; omega)])
  refine C100_sizes_fail _ (matched_spectral hglob be true S x) _ 1 (show 1 < 17 by omega) (fun hF => hne ?_) n s h
  have e : ∀ i : Fin Pp × Fin Pa, (scQuad.get (lockstep (ofRounds (fun i => glob i.1 i.2) (spectralRounds Pp Pa glob be true S x)) (spectralMem Pp Pa x) 1 i)).len = (x i.1 i.2).lead.getD 0 0 := by
    intro i
    change (match batchRows (S i.1 i.2).quad (x i.1 i.2) with | .ok q => { spectralMem Pp Pa x i with quad := q } | .error _ => spectralMem Pp Pa x i).quad.len = _
    unfold batchRows
    obtain ⟨h1, h2⟩ := hx _ i.1.2 _ i.2.2
    rw [if_neg (by rw [h1, h2]; simp)]
  have := sum_lengths (az := false) hglob scQuad_ok _ hP hF (p, a) (p', a) rfl
  exact (e (p, a)).symm.trans (this.trans (e (p', a)))

theorem sum_inp (az : Bool) (mem : Fin Pp × Fin Pa → ScMem) (i : Fin Pp × Fin Pa) : ((sumRound Pp Pa glob az scQuad).run (fun i => glob i.1 i.2) mem i).inp = (mem i).inp := by
  unfold sumRound groupRound Round.run
  dsimp only
  split <;> rfl

/-- What the first exchange of the transform finds, under every schedule: the flattened and padded argument. -/
theorem sc_first (be : C2R) (hasBias : Bool) (S : ℕ → ℕ → DSpectralConv) (x : ℕ → ℕ → LTen ℝ) (i : Fin Pp × Fin Pa) :
    (lockstep (spectralProg Pp Pa glob be hasBias S x) (spectralMem Pp Pa x) (if hasBias then 4 else 1) i).x = (flattenPad (x i.1 i.2) (max Pp Pa)).1 := by
  cases hasBias with
  | false => rfl
  | true =>
    have hl : ∀ (w : Mat ℝ) (s : ScMem), (match batchRows w s.inp with | .ok q => { s with quad := q } | .error _ => s : ScMem).inp = s.inp := by
      intro w s
      split <;> rfl
    have e1 : (lockstep (spectralProg Pp Pa glob be true S x) (spectralMem Pp Pa x) 1 i).inp = x i.1 i.2 := hl _ (spectralMem Pp Pa x i)
    have e2 : (lockstep (spectralProg Pp Pa glob be true S x) (spectralMem Pp Pa x) 2 i).inp = x i.1 i.2 := by
      rw [← e1]
      exact sum_inp (glob := glob) false (lockstep (spectralProg Pp Pa glob be true S x) (spectralMem Pp Pa x) 1) i
    have e3 : (lockstep (spectralProg Pp Pa glob be true S x) (spectralMem Pp Pa x) 3 i).inp = x i.1 i.2 := by
      rw [← e2]
      exact sum_inp (glob := glob) true (lockstep (spectralProg Pp Pa glob be true S x) (spectralMem Pp Pa x) 2) i
    change (flattenPad (lockstep (spectralProg Pp Pa glob be true S x) (spectralMem Pp Pa x) 3 i).inp (max Pp Pa)).1 = _
    rw [e3]

/-- C108: ranks with different numbers of channels never get a result. If two ranks of an azimuth group call the layer with tensors for which batch size times channels differ after padding, then no execution
ends with all ranks finished and no error. -/
theorem C108_channels (Pp Pa : ℕ) (glob : ℕ → ℕ → ℕ) (hglob : GlobInj Pp Pa glob) (be : C2R) (hasBias : Bool) (S : ℕ → ℕ → DSpectralConv) (x : ℕ → ℕ → LTen ℝ) (p : Fin Pp) (a a' : Fin Pa)
    (hne : max (x p a).lead.prod (max Pp Pa) ≠ max (x p a').lead.prod (max Pp Pa)) (n : ℕ) (s : Net (Fin Pp × Fin Pa) ScMem ScMsg)
    (h : Exec (spectralProg Pp Pa glob be hasBias S x) (Net.init (spectralMem Pp Pa x)) n s) :
    ¬ (s.fault = false ∧ ∀ i, (s.proc i).round = (spectralProg Pp Pa glob be hasBias S x).rounds) := by
  have hP : Pa > 1 := by
    by_contra hP
    exact hne (by rw [show a = a' from Fin.ext (by have := a.2; have := a'.2; omega)])
  refine C100_sizes_fail _ (matched_spectral hglob be hasBias S x) _ (if hasBias then 4 else 1) (by cases hasBias; exacts [show 1 < 14 by omega, show 4 < 17 by omega]) (fun hF => hne ?_) n s h
  have hF' : (transRound Pp Pa glob true scX v02 fun p a => (S p a).sht.sh.lon).Fits (fun i : Fin Pp × Fin Pa => glob i.1 i.2)
      (lockstep (spectralProg Pp Pa glob be hasBias S x) (spectralMem Pp Pa x) (if hasBias then 4 else 1)) := by
    cases hasBias <;> exact hF
  rw [← flattenPad_d0, ← flattenPad_d0]
  have := trans_channels (az := true) (v := v02) (sizes := fun p a => (S p a).sht.sh.lon) hglob scX_ok
    (lockstep (spectralProg Pp Pa glob be hasBias S x) (spectralMem Pp Pa x) (if hasBias then 4 else 1)) hP
    (fun i => by
      change Pa ≤ (lockstep (spectralProg Pp Pa glob be hasBias S x) (spectralMem Pp Pa x) (if hasBias then 4 else 1) i).x.d0
      rw [sc_first, flattenPad_d0]
      exact le_trans (le_max_right _ _) (le_max_right _ _)) hF' (p, a) (p, a') rfl
  change (lockstep (spectralProg Pp Pa glob be hasBias S x) (spectralMem Pp Pa x) (if hasBias then 4 else 1) (p, a)).x.d0 =
    (lockstep (spectralProg Pp Pa glob be hasBias S x) (spectralMem Pp Pa x) (if hasBias then 4 else 1) (p, a')).x.d0 at this
  rw [sc_first, sc_first] at this
  exact this

/-- From an 8 by 16 to a 5 by 12 equiangular grid (truncation 3), 6 to 4 channels in two groups, a batch of two, on a 3 by 2 process grid; with and without bias, for all parameters and fields: the serial layer
runs, the ranks hold shares, and every execution ends with the tiles. -/
example (env : Env) (hg : ∀ n, (env.gauss n).n = n) (be : C2R) (w : ℕ → ℕ → ℕ → ℕ → ℂ) (b : Option (ℕ → ℕ → ℕ → ℂ)) (X : List ℕ → ℕ → ℕ → ℝ) :
    ∃ (S : SpectralConv) (D : ℕ → ℕ → DSpectralConv) (Y : ℕ → Ten3 ℝ),
      SpectralConv.init env ⟨8, 16, 5, 12, 6, 4, 2, "equiangular", "equiangular"⟩ w b = .ok S ∧
      (∀ n, S.forward be ⟨6, 8, 16, fun c => X [n, c]⟩ = .ok (Y n)) ∧
      TilesEverySchedule (spectralProg 3 2 (fun p a => p * 2 + a) be b.isSome D (tileOf [2, 6] 8 16 3 2 X)) (spectralMem 3 2 (tileOf [2, 6] 8 16 3 2 X)) spectralOut [2, 4] 5 12
        fun idx => (Y (idx.getD 0 0)).val (idx.getD 1 0) := by
  set A : ConvArgs := ⟨8, 16, 5, 12, 6, 4, 2, "equiangular", "equiangular"⟩ with hA
  obtain ⟨rin, rout, din, dout, L, H⟩ := C20_default env A (by norm_num [A]) (by norm_num [A]) (by norm_num [A]) (by norm_num [A]) (Or.inl rfl) (Or.inl rfl)
    (by norm_num [A]) (by norm_num [A]) (by norm_num [A]) (by norm_num [A])
  have hL : L = 3 := by
    have h := H.trunc
    rw [show convLmax A = .ok 3 by decide] at h
    have := Except.ok.inj h
    omega
  subst hL
  obtain ⟨S, hS, -, -, -, hlm, -⟩ := conv_init H w b
  have hY := fun n => C20_value env be A rin rout din dout 3 H w b ⟨6, 8, 16, fun c => X [n, c]⟩ rfl rfl rfl
  choose S' T c Y hS' _ _ hY _ _ _ _ using hY
  have hSS : ∀ n, S' n = S := fun n => by
    have := hS' n
    rw [hS] at this
    exact (Except.ok.inj this).symm
  have hf : ConvFits 3 2 A S.lmax := by
    rw [hlm]
    exact ⟨by norm_num, by norm_num, by norm_num [A], by norm_num [A], by norm_num [A], by norm_num [A], by norm_num, by norm_num⟩
  have hd : ∀ p a, ∃ D, p < 3 → a < 2 → DSpectralConv.init env A b.isSome 3 2 p a (fun g i o l => w g i o (blockStart 3 3 p + l))
      (fun ch l m => (b.getD fun _ _ _ => 0) ch (blockStart 3 3 p + l) (blockStart 3 2 a + m)) = .ok D := by
    intro p a
    by_cases h : p < 3 ∧ a < 2
    · obtain ⟨D, hD, -⟩ := C64_init env hg A w b S hS 3 2 hf p a h.1 h.2 (fun g i o l => w g i o (blockStart 3 3 p + l))
        (fun ch l m => (b.getD fun _ _ _ => 0) ch (blockStart 3 3 p + l) (blockStart 3 2 a + m))
      exact ⟨D, fun _ _ => hD⟩
    · obtain ⟨D0, -⟩ := C64_init env hg A w b S hS 3 2 hf 0 0 (by norm_num) (by norm_num) w (fun _ _ _ => 0)
      exact ⟨D0, fun h1 h2 => absurd ⟨h1, h2⟩ h⟩
  choose D hD using hd
  have hY' : ∀ n, S.forward be ⟨6, 8, 16, fun c => X [n, c]⟩ = .ok (Y n) := fun n => by have := hY n; rw [hSS n] at this; exact this
  exact ⟨S, D, Y, hS, hY', C108_forward env hg be A w b S hS 3 2 hf _ (by intro p _ a _ p' _ a' _ h; dsimp only at h; omega) _ _
    (fun p _ a _ => ⟨fun g _ i _ o _ l _ => by rw [hlm], fun B hB ch _ l _ m _ => by rw [hlm, hB]; rfl⟩) D (fun p hp a ha => hD p a hp ha) 2 X
    (tileOf [2, 6] 8 16 3 2 X) (fun p _ a _ => tileOf_isTile _ _ _ _ _ _ _ _) Y fun n _ => hY' n⟩

/-- Two ranks of a polar group, with batches of one and of two: no execution ends well. -/
example (be : C2R) (S : ℕ → ℕ → DSpectralConv) (hS : ∀ p a, (S p a).quad = ⟨2, 4, fun _ _ => 1⟩) (n : ℕ) (s : Net (Fin 2 × Fin 1) ScMem ScMsg)
    (h : Exec (spectralProg 2 1 (fun p _ => p) be true S fun p _ => ⟨[p + 1, 3], 2, 4, fun _ _ _ => 0⟩) (Net.init (spectralMem 2 1 fun p _ => ⟨[p + 1, 3], 2, 4, fun _ _ _ => 0⟩)) n s) :
    ¬ (s.fault = false ∧ ∀ i, (s.proc i).round = (spectralProg 2 1 (fun p _ => p) be true S fun p _ => ⟨[p + 1, 3], 2, 4, fun _ _ _ => 0⟩).rounds) :=
  C108_batches 2 1 (fun p _ => p) (by intro p _ a _ p' _ a' _ h; exact ⟨h, by omega⟩) be S (fun p _ => ⟨[p + 1, 3], 2, 4, fun _ _ _ => 0⟩) (fun p _ a _ => by rw [hS]; exact ⟨rfl, rfl⟩) 0 1 0
    (by simp) n s h

/-- Two ranks of an azimuth group, with three and with four channels, with and without a bias: no execution ends well. -/
example (be : C2R) (hasBias : Bool) (S : ℕ → ℕ → DSpectralConv) (n : ℕ) (s : Net (Fin 1 × Fin 2) ScMem ScMsg)
    (h : Exec (spectralProg 1 2 (fun _ a => a) be hasBias S fun _ a => ⟨[1, a + 3], 2, 4, fun _ _ _ => 0⟩) (Net.init (spectralMem 1 2 fun _ a => ⟨[1, a + 3], 2, 4, fun _ _ _ => 0⟩)) n s) :
    ¬ (s.fault = false ∧ ∀ i, (s.proc i).round = (spectralProg 1 2 (fun _ a => a) be hasBias S fun _ a => ⟨[1, a + 3], 2, 4, fun _ _ _ => 0⟩).rounds) :=
  C108_channels 1 2 (fun _ a => a) (by intro p _ a _ p' _ a' _ h; exact ⟨by omega, h⟩) be hasBias S (fun _ a => ⟨[1, a + 3], 2, 4, fun _ _ _ => 0⟩) 0 0 1 (by decide) n s h

/-- Three rows of 4 longitudes are refused by the weights of a rank with 3 rows of 5 longitudes. -/
example (f : List ℕ → ℕ → ℕ → ℝ) (w : ℕ → ℕ → ℝ) : batchRows ⟨3, 5, w⟩ ⟨[2, 6], 3, 4, f⟩ = .error .runtimeError := by
  unfold batchRows
  rw [if_pos (by simp)]

end Verif.Props
