import Verif.Model.MessagesRoundTrip
import Verif.Props.MessagesSHT
import Verif.Props.VectorSHT
/-!
C107: distributed synthesis followed by distributed analysis, under every schedule of ranks and messages.
-/
namespace Verif.Props
open Verif Verif.Msg Verif.Spec.Msg Verif.Dist Verif.SHT Verif.FFT Verif.Quad Verif.Spec Finset

section
variable {α β : Type} [Inhabited α] {Pp Pa : ℕ} {glob : ℕ → ℕ → ℕ}

theorem matched_second (hg : GlobInj Pp Pa glob) (chans : ℕ → ℕ → ℕ) (shlon shlat : ℕ → ℕ → List ℕ) (F : ℕ → ℕ → Ten3 β → Except PyErr (Ten3 α)) (G : ℕ → ℕ → Ten3 α → Ten3 α) :
    ∀ R ∈ secondRounds Pp Pa glob chans shlon shlat F G, Matched (ofRounds (fun i => glob i.1 i.2) [R]) := by
  intro R hR
  simp only [secondRounds, List.mem_cons, List.not_mem_nil, or_false] at hR
  rcases hR with rfl | rfl | rfl | rfl | rfl | rfl
  · exact matched_trans hg
  · exact matched_local _ _ (grid_inj hg)
  · exact matched_trans hg
  · exact matched_trans hg
  · exact matched_local _ _ (grid_inj hg)
  · exact matched_trans hg

variable [Zero α] [Zero β] [Inhabited β]

omit [Inhabited β] in
theorem matched_roundTrip (hg : GlobInj Pp Pa glob) (x : ℕ → ℕ → LTen α) (shl shm : ℕ → ℕ → List ℕ) (G : ℕ → ℕ → Ten3 α → Ten3 α) (F : ℕ → ℕ → Ten3 α → Except PyErr (Ten3 β))
    (shlon shlat : ℕ → ℕ → List ℕ) (F' : ℕ → ℕ → Ten3 β → Except PyErr (Ten3 α)) (G' : ℕ → ℕ → Ten3 α → Ten3 α) :
    Matched (ofRounds (fun i => glob i.1 i.2) (roundTripRounds Pp Pa glob x shl shm G F shlon shlat F' G')) := by
  refine matched_rounds _ _ (grid_inj hg) fun R hR => ?_
  rcases List.mem_append.1 hR with hR | hR
  · simp only [synthesisRounds, List.mem_cons, List.not_mem_nil, or_false] at hR
    rcases hR with rfl | rfl | rfl | rfl | rfl | rfl
    · exact matched_trans hg
    · exact matched_local _ _ (grid_inj hg)
    · exact matched_trans hg
    · exact matched_trans hg
    · exact matched_local _ _ (grid_inj hg)
    · exact matched_trans hg
  · rcases List.mem_cons.1 hR with rfl | hR
    · exact matched_local _ _ (grid_inj hg)
    · exact matched_second hg _ _ _ _ _ R hR

omit [Zero α] [Inhabited β] in
/-- The second transform, from whatever the first has left in the memory. -/
theorem second_run (hg : GlobInj Pp Pa glob) (n1 n2 : ℕ → ℕ → ℕ) (chans : ℕ → ℕ → ℕ) (shlon shlat : ℕ → ℕ → List ℕ) (F : ℕ → ℕ → Ten3 β → Except PyErr (Ten3 α)) (G : ℕ → ℕ → Ten3 α → Ten3 α)
    (x : ℕ → ℕ → LTen β) (y : ℕ → ℕ → LTen α) (hc : ∀ p < Pp, ∀ a < Pa, (flattenPad (x p a) (max Pp Pa)).1.d0 = chans p a) (h : analysisPipe Pp Pa n1 n2 shlon shlat F G x = .ok y)
    (d : ℕ → ℕ → Ten3 α) (mem : Fin Pp × Fin Pa → DMem α β) (hmem : ∀ i, mem i = ⟨d i.1 i.2, (flattenPad (x i.1 i.2) (max Pp Pa)).1⟩) :
    FitsAll (fun i : Fin Pp × Fin Pa => glob i.1 i.2) (secondRounds Pp Pa glob chans shlon shlat F G) mem ∧
      ∀ i, unpadUnflatten (runs (fun i : Fin Pp × Fin Pa => glob i.1 i.2) (secondRounds Pp Pa glob chans shlon shlat F G) mem i).x (x i.1 i.2).lead
        (flattenPad (x i.1 i.2) (max Pp Pa)).2 = .ok (y i.1 i.2) := by
  unfold analysisPipe at h
  simp only [bind, Except.bind] at h
  split at h
  · cases h
  split at h
  · cases h
  next x1 hx1 =>
  split at h
  · cases h
  next x2 hx2 =>
  split at h
  · cases h
  next x3 hx3 =>
  split at h
  · cases h
  next x4 hx4 =>
  split at h
  · cases h
  next x6 hx6 =>
  obtain ⟨f1, r1⟩ := trans_step (glob := glob) (az := true) (v := v02) (sizes := shlon) hg yField_ok (fun p a => (⟨d p a, (flattenPad (x p a) (max Pp Pa)).1⟩ : DMem α β)) _ (fun _ _ => rfl) (fun _ => rfl)
    mem hmem x1 (fun i => collect_all hx1 i.1 i.1.2 i.2 i.2.2)
  have r2 := local_step (M := Mat (ℕ → α) ⊕ Mat (ℕ → β)) (fun i => glob i.1 i.2) (fun (i : Fin Pp × Fin Pa) (s : DMem α β) => match F i.1 i.2 s.y with | .ok z => (⟨z, s.y⟩ : DMem α β) | .error _ => s) (fun p a => ⟨d p a, x1 p a⟩) (fun p a => ⟨x2 p a, x1 p a⟩) _ r1
    fun i => by
      change (match F i.1 i.2 (x1 i.1 i.2) with | .ok z => (⟨z, x1 i.1 i.2⟩ : DMem α β) | .error _ => ⟨d i.1 i.2, x1 i.1 i.2⟩) = _
      rw [collect_all hx2 i.1 i.1.2 i.2 i.2.2]
  obtain ⟨f3, r3⟩ := trans_step (glob := glob) (az := true) (v := v20) (sizes := fun p a => chanShapes (chans p a) Pa) hg xField_ok (fun p a => (⟨x2 p a, x1 p a⟩ : DMem α β)) x2 (fun _ _ => rfl) (fun _ => rfl)
    _ r2 x3 (fun i => azimuthOut_trans (by rw [← hc i.1 i.1.2 i.2 i.2.2]; exact collect_all hx3 i.1 i.1.2 i.2 i.2.2))
  obtain ⟨f4, r4⟩ := trans_step (glob := glob) (az := false) (v := v01) (sizes := shlat) hg xField_ok (fun p a => (⟨x3 p a, x1 p a⟩ : DMem α β)) x3 (fun _ _ => rfl) (fun _ => rfl)
    _ r3 x4 (fun i => collect_all hx4 i.1 i.1.2 i.2 i.2.2)
  have r5 := local_step (M := Mat (ℕ → α) ⊕ Mat (ℕ → β)) (fun i => glob i.1 i.2) (fun (i : Fin Pp × Fin Pa) (s : DMem α β) => (⟨G i.1 i.2 s.x, s.y⟩ : DMem α β)) (fun p a => ⟨x4 p a, x1 p a⟩) (fun p a => ⟨G p a (x4 p a), x1 p a⟩) _ r4 fun _ => rfl
  obtain ⟨f6, r6⟩ := trans_step (glob := glob) (az := false) (v := v10) (sizes := fun p a => chanShapes (chans p a) Pp) hg xField_ok (fun p a => (⟨G p a (x4 p a), x1 p a⟩ : DMem α β)) (fun p a => G p a (x4 p a)) (fun _ _ => rfl) (fun _ => rfl)
    _ r5 x6 (fun i => polarOut_trans (by rw [← hc i.1 i.1.2 i.2 i.2.2]; exact collect_all hx6 i.1 i.1.2 i.2 i.2.2))
  refine ⟨⟨f1, fits_local _ _ _, f3, f4, fits_local _ _ _, f6, trivial⟩, fun i => ?_⟩
  refine Eq.trans (congrArg (fun s : DMem α β => unpadUnflatten s.x (x i.1 i.2).lead (flattenPad (x i.1 i.2) (max Pp Pa)).2) (r6 i)) ?_
  exact collect_all h i.1 i.1.2 i.2 i.2.2

omit [Inhabited α] [Zero α] [Zero β] [Inhabited β] in
theorem unpadUnflatten_lead {y : Ten3 β} {lead : List ℕ} {k : ℕ} {f : LTen β} (h : unpadUnflatten y lead k = .ok f) : f.lead = lead := by
  unfold unpadUnflatten at h
  split at h
  · cases h
  · cases h; rfl

omit [Inhabited α] [Inhabited β] in
theorem flattenPad_same {x : LTen α} {f : LTen β} (h : f.lead = x.lead) (M : ℕ) :
    (flattenPad f M).1.d0 = (flattenPad x M).1.d0 ∧ (flattenPad f M).2 = (flattenPad x M).2 := by
  refine ⟨by rw [flattenPad_d0, flattenPad_d0, h], ?_⟩
  have h1 := (C55_pad_leading (⟨f.lead.prod, fun i => f.val (unflatIndex f.lead i)⟩ : Vec (ℕ → ℕ → β)) M).1
  have h2 := (C55_pad_leading (⟨x.lead.prod, fun i => x.val (unflatIndex x.lead i)⟩ : Vec (ℕ → ℕ → α)) M).1
  exact h1.trans (Eq.trans (congrArg List.prod h) h2.symm)

theorem roundTrip_schedules (hg : GlobInj Pp Pa glob) (n1 n2 n1' n2' : ℕ → ℕ → ℕ) (shl shm : ℕ → ℕ → List ℕ) (G : ℕ → ℕ → Ten3 α → Ten3 α) (F : ℕ → ℕ → Ten3 α → Except PyErr (Ten3 β))
    (shlon shlat : ℕ → ℕ → List ℕ) (F' : ℕ → ℕ → Ten3 β → Except PyErr (Ten3 α)) (G' : ℕ → ℕ → Ten3 α → Ten3 α) (x : ℕ → ℕ → LTen α) (f : ℕ → ℕ → LTen β) (y : ℕ → ℕ → LTen α)
    (h1 : synthesisPipe Pp Pa n1 n2 shl shm G F x = .ok f) (h2 : analysisPipe Pp Pa n1' n2' shlon shlat F' G' f = .ok y) :
    EverySchedule (ofRounds (fun i => glob i.1 i.2) (roundTripRounds Pp Pa glob x shl shm G F shlon shlat F' G')) (shtMem Pp Pa x) (roundTripOut x) fun i => .ok (y i.1 i.2) := by
  obtain ⟨hF1, hR1⟩ := synthesis_run hg n1 n2 shl shm G F x f h1
  have hlead : ∀ i : Fin Pp × Fin Pa, (f i.1 i.2).lead = (x i.1 i.2).lead := fun i => unpadUnflatten_lead (hR1 i)
  generalize hs : runs (fun i : Fin Pp × Fin Pa => glob i.1 i.2) (synthesisRounds Pp Pa glob (numChans Pp Pa x) shl shm G F) (shtMem Pp Pa x) = s at hR1
  obtain ⟨d, hd⟩ : ∃ d : ℕ → ℕ → Ten3 α, ∀ i : Fin Pp × Fin Pa, (s i).x = d i.1 i.2 :=
    ⟨fun p a => if h : p < Pp ∧ a < Pa then (s (⟨p, h.1⟩, ⟨a, h.2⟩)).x else ⟨0, 0, 0, fun _ _ _ => default⟩, fun i => by
      dsimp only
      rw [dif_pos ⟨i.1.2, i.2.2⟩]⟩
  have hmid : ∀ i, (localRound (fun (i : Fin Pp × Fin Pa) (s : DMem α β) => (⟨s.x, repad (max Pp Pa) (x i.1 i.2).lead (flattenPad (x i.1 i.2) (max Pp Pa)).2 s.y⟩ : DMem α β)) :
      Round (Fin Pp × Fin Pa) (DMem α β) (Mat (ℕ → α) ⊕ Mat (ℕ → β))).run (fun i => glob i.1 i.2) s i = ⟨d i.1 i.2, (flattenPad (f i.1 i.2) (max Pp Pa)).1⟩ := by
    intro i
    change (⟨(s i).x, repad (max Pp Pa) (x i.1 i.2).lead (flattenPad (x i.1 i.2) (max Pp Pa)).2 (s i).y⟩ : DMem α β) = _
    unfold repad
    rw [show unpadUnflatten (s i).y (x i.1 i.2).lead (flattenPad (x i.1 i.2) (max Pp Pa)).2 = .ok (f i.1 i.2) from hR1 i, hd i]
  obtain ⟨hF2, hR2⟩ := second_run hg n1' n2' (numChans Pp Pa x) shlon shlat F' G' f y
    (fun p hp a ha => (flattenPad_same (hlead (⟨p, hp⟩, ⟨a, ha⟩)) (max Pp Pa)).1) h2 d _ hmid
  refine everySchedule _ (matched_roundTrip hg _ _ _ _ _ _ _ _ _) _ ?_ _ _ fun i => ?_
  · rw [roundTripRounds, fitsAll_append, hs]
    exact ⟨hF1, fits_local _ _ _, hF2⟩
  · rw [roundTripRounds, runs_append, hs]
    have := hR2 i
    rw [hlead i, (flattenPad_same (hlead i) (max Pp Pa)).2] at this
    exact this

end

theorem isTile_congr {γ : Type} {lead : List ℕ} {n1 n2 Pp Pa : ℕ} {Y Y' : List ℕ → ℕ → ℕ → γ} {p a : ℕ} (hp : p < Pp) (ha : a < Pa) {y : LTen γ}
    (h : ∀ idx, LeadIndex lead idx → ∀ j < n1, ∀ k < n2, Y idx j k = Y' idx j k) (hy : IsTile lead n1 n2 Pp Pa Y p a y) : IsTile lead n1 n2 Pp Pa Y' p a y :=
  ⟨hy.1, hy.2.1, hy.2.2.1, fun idx hi j hj k hk =>
    (hy.2.2.2 idx hi j hj k hk).trans (h idx hi _ (block_lt (by omega) hp hj) _ (block_lt (by omega) ha hk))⟩

theorem mat_eta {γ : Type} {x : Mat γ} {n1 n2 : ℕ} (h1 : x.d0 = n1) (h2 : x.d1 = n2) : x = ⟨n1, n2, x.val⟩ := by
  subst h1 h2
  rfl

theorem vector_stacked (S : RealVectorSHT) (x : Ten3 ℝ) {n1 n2 : ℕ} (h0 : x.d0 = 2) (h1 : x.d1 = n1) (h2 : x.d2 = n2) :
    S.forward (stacked n1 n2 fun k j => (x.val 0 k j, x.val 1 k j)) = S.forward x := by
  subst h1 h2
  unfold RealVectorSHT.forward
  rw [h0]
  rfl

/-- C107: where synthesis and then analysis succeed when all ranks advance together, they succeed under every schedule, with the same result, although no rank waits for the others between the two. -/
theorem C107_schedules (Pp Pa : ℕ) (glob : ℕ → ℕ → ℕ) (hglob : GlobInj Pp Pa glob) (be : C2R) :
    (∀ (I : ℕ → ℕ → DInverseRealSHT) (D : ℕ → ℕ → DRealSHT) (x : ℕ → ℕ → LTen ℂ) f y, DInverseRealSHT.forward be Pp Pa I x = .ok f → DRealSHT.forward Pp Pa D f = .ok y →
      EverySchedule (roundTripProg Pp Pa glob be I D x) (shtMem Pp Pa x) (roundTripOut x) fun i => .ok (y i.1 i.2)) ∧
    ∀ (I : ℕ → ℕ → DInverseRealVectorSHT) (D : ℕ → ℕ → DRealVectorSHT) (x : ℕ → ℕ → LTen (ℂ × ℂ)) f y, DInverseRealVectorSHT.forward be Pp Pa I x = .ok f →
      DRealVectorSHT.forward Pp Pa D f = .ok y →
      EverySchedule (vectorRoundTripProg Pp Pa glob be I D x) (shtMem Pp Pa x) (roundTripOut x) fun i => .ok (y i.1 i.2) :=
  ⟨fun _ _ x f y h1 h2 => roundTrip_schedules hglob _ _ _ _ _ _ _ _ _ _ _ _ x f y h1 h2, fun _ _ x f y h1 h2 => roundTrip_schedules hglob _ _ _ _ _ _ _ _ _ _ _ _ x f y h1 h2⟩

/-- C107: on every grid whose rule is exact to degree `2 (L - 1)`, distributed analysis after distributed synthesis gives back the coefficients. Let the ranks hold the tiles of a global coefficient array `C` of
shape `(*lead, L, L)`. Under every schedule of ranks and messages there is no error and no deadlock, and every rank that has finished holds its tile of the part of `C` that a real field determines. -/
theorem C107_scalar (env : Env) (be : C2R) (A : Args) (r : Rule) (d L : ℕ)
    (hr : gridRule env.gauss env.tol env.maxiter A.nlat A.grid = .ok r) (hx : SymmetricExactRule r A.nlat d)
    (hL : sizes A.nlat A.nlon A.lmax A.mmax A.grid = .ok (L, L)) (hd : 2 * (L - 1) ≤ d) (hm : 2 * (L - 1) ≤ A.nlon)
    (Pp Pa : ℕ) (hf : Fits Pp Pa A.nlat A.nlon L L) (glob : ℕ → ℕ → ℕ) (hglob : GlobInj Pp Pa glob) (I : ℕ → ℕ → DInverseRealSHT) (D : ℕ → ℕ → DRealSHT)
    (hI : ∀ p < Pp, ∀ a < Pa, DInverseRealSHT.init env A Pp Pa p a = .ok (I p a)) (hD : ∀ p < Pp, ∀ a < Pa, DRealSHT.init env A Pp Pa p a = .ok (D p a))
    (lead : List ℕ) (hl : lead ≠ []) (C : List ℕ → ℕ → ℕ → ℂ) (x : ℕ → ℕ → LTen ℂ) (hC : ∀ p < Pp, ∀ a < Pa, IsTile lead L L Pp Pa C p a (x p a)) :
    TilesEverySchedule (roundTripProg Pp Pa glob be I D x) (shtMem Pp Pa x) (roundTripOut x) lead L L fun idx => admissible A.nlon (C idx) := by
  have h0 : 0 < L := lt_of_lt_of_le hf.polar hf.degrees
  have hn : 0 < A.nlon := lt_of_lt_of_le hf.azimuth hf.lon
  have hS := realSHT_init env A r L hr hL h0
  have hS' := inverseRealSHT_init env A r L hr hL h0
  have key := fun idx => C14_analysis_of_synthesis env be A r d L hn hr hx hL h0 hd hm ⟨L, L, C idx⟩ rfl rfl
  simp only [hS, hS', Except.ok.injEq] at key
  choose S' I' f c' e1 e2 k1 k2 k3 k4 k5 using key
  obtain ⟨g, hg, qg⟩ := C51_inverse_sht env be A _ hS' Pp Pa hf I hI lead hl C x hC f fun idx _ => by
    have := k1 idx; rw [← e2 idx] at this; exact this
  have hshape : ∀ idx, f idx = ⟨A.nlat, A.nlon, (f idx).val⟩ := fun idx => by
    obtain ⟨f', hf', h1, h2, _⟩ := inverseRealSHT_forward be (⟨A.nlat, A.nlon, L, L, _⟩ : InverseRealSHT) (⟨L, L, C idx⟩ : Mat ℂ) rfl rfl h0 hn
    have := k1 idx
    rw [← e2 idx, hf'] at this
    cases this
    exact mat_eta h1 h2
  obtain ⟨y, hy, qy⟩ := C51_real_sht env A _ hS Pp Pa hf D hD lead hl (fun idx => (f idx).val) g qg c' fun idx _ => by
    have := k2 idx; rw [← e1 idx, hshape idx] at this; exact this
  exact tilesEverySchedule ((C107_schedules Pp Pa glob hglob be).1 I D x g y hg hy) fun p hp a ha => isTile_congr hp ha (fun idx _ l hl m hm => k5 idx l hl m hm) (qy p hp a ha)

/-- C107: coefficients of a real field come back unchanged: if `C` has no content at orders above the degree, and its columns of order 0 and of the Nyquist order are real, every rank ends up with its own tile
of `C`. -/
theorem C107_recovers (env : Env) (be : C2R) (A : Args) (r : Rule) (d L : ℕ)
    (hr : gridRule env.gauss env.tol env.maxiter A.nlat A.grid = .ok r) (hx : SymmetricExactRule r A.nlat d)
    (hL : sizes A.nlat A.nlon A.lmax A.mmax A.grid = .ok (L, L)) (hd : 2 * (L - 1) ≤ d) (hm : 2 * (L - 1) ≤ A.nlon)
    (Pp Pa : ℕ) (hf : Fits Pp Pa A.nlat A.nlon L L) (glob : ℕ → ℕ → ℕ) (hglob : GlobInj Pp Pa glob) (I : ℕ → ℕ → DInverseRealSHT) (D : ℕ → ℕ → DRealSHT)
    (hI : ∀ p < Pp, ∀ a < Pa, DInverseRealSHT.init env A Pp Pa p a = .ok (I p a)) (hD : ∀ p < Pp, ∀ a < Pa, DRealSHT.init env A Pp Pa p a = .ok (D p a))
    (lead : List ℕ) (hl : lead ≠ []) (C : List ℕ → ℕ → ℕ → ℂ) (x : ℕ → ℕ → LTen ℂ) (hC : ∀ p < Pp, ∀ a < Pa, IsTile lead L L Pp Pa C p a (x p a))
    (htri : ∀ idx l m, l < m → C idx l m = 0) (hdc : ∀ idx l, (C idx l 0).im = 0) (hny : ∀ idx l m, 2 * m = A.nlon → (C idx l m).im = 0) :
    TilesEverySchedule (roundTripProg Pp Pa glob be I D x) (shtMem Pp Pa x) (roundTripOut x) lead L L C := by
  have h := C107_scalar env be A r d L hr hx hL hd hm Pp Pa hf glob hglob I D hI hD lead hl C x hC
  have e : (fun idx => admissible A.nlon (C idx)) = C := by
    funext idx l m
    unfold admissible
    by_cases h1 : l < m
    · rw [if_pos h1, htri idx l m h1]
    · rw [if_neg h1]
      by_cases h2 : m = 0 ∨ 2 * m = A.nlon
      · rw [if_pos h2]
        refine Complex.ext (Complex.ofReal_re _) ?_
        rcases h2 with rfl | h2
        · rw [Complex.ofReal_im, hdc idx l]
        · rw [Complex.ofReal_im, hny idx l m h2]
      · rw [if_neg h2]
  rwa [e] at h

/-- C107: the same for the vector transforms, for pairs of coefficient arrays without content at the Nyquist order (`C18_nyquist_not_recovered` shows that this is needed). -/
theorem C107_vector (env : Env) (be : C2R) (A : Args) (r : Rule) (d L : ℕ)
    (hr : gridRule env.gauss env.tol env.maxiter A.nlat A.grid = .ok r) (hx : SymmetricExactRule r A.nlat d)
    (hL : sizes A.nlat A.nlon A.lmax A.mmax A.grid = .ok (L, L)) (hd : 2 * (L - 1) ≤ d) (hm : 2 * (L - 1) ≤ A.nlon)
    (Pp Pa : ℕ) (hf : Fits Pp Pa A.nlat A.nlon L L) (glob : ℕ → ℕ → ℕ) (hglob : GlobInj Pp Pa glob) (I : ℕ → ℕ → DInverseRealVectorSHT) (D : ℕ → ℕ → DRealVectorSHT)
    (hI : ∀ p < Pp, ∀ a < Pa, DInverseRealVectorSHT.init env A Pp Pa p a = .ok (I p a)) (hD : ∀ p < Pp, ∀ a < Pa, DRealVectorSHT.init env A Pp Pa p a = .ok (D p a))
    (lead : List ℕ) (hl : lead ≠ []) (C : List ℕ → ℕ → ℕ → ℂ × ℂ) (x : ℕ → ℕ → LTen (ℂ × ℂ)) (hC : ∀ p < Pp, ∀ a < Pa, IsTile lead L L Pp Pa C p a (x p a))
    (hny : ∀ idx l m, 2 * m = A.nlon → C idx l m = 0) :
    TilesEverySchedule (vectorRoundTripProg Pp Pa glob be I D x) (shtMem Pp Pa x) (roundTripOut x) lead L L
      fun idx l m => (vecAdmissible (fun l m => (C idx l m).1) l m, vecAdmissible (fun l m => (C idx l m).2) l m) := by
  have h0 : 0 < L := lt_of_lt_of_le hf.polar hf.degrees
  have hn : 0 < A.nlon := lt_of_lt_of_le hf.azimuth hf.lon
  have hS := realVectorSHT_init env A r L hr hL h0
  have hS' := inverseRealVectorSHT_init env A r L hr hL h0
  have key := fun idx => C18_analysis_of_synthesis env be A r d L hn hr hx hL h0 hd hm (stacked L L (C idx)) rfl rfl rfl fun e _ l _ m _ h => by
    change (if e = 0 then (C idx l m).1 else (C idx l m).2) = 0
    rw [hny idx l m h]
    simp
  simp only [hS, hS', Except.ok.injEq] at key
  choose S' I' f c' e1 e2 k1 k2 k3 k4 k5 k6 using key
  obtain ⟨g, hg, qg⟩ := C51_inverse_vector_sht env be A _ hS' Pp Pa hf I hI lead hl C x hC f fun idx _ => by
    have := k1 idx; rw [← e2 idx] at this; exact this
  obtain ⟨y, hy, qy⟩ := C51_vector_sht env A _ hS Pp Pa hf D hD lead hl (fun idx k j => ((f idx).val 0 k j, (f idx).val 1 k j)) g qg c' fun idx _ => by
    obtain ⟨f', hf', h1, h2, h3, _⟩ := inverseRealVectorSHT_forward be (⟨A.nlat, A.nlon, L, L, _, _⟩ : InverseRealVectorSHT) (stacked L L (C idx)) rfl rfl rfl h0 hn
    have h4 := k1 idx
    rw [← e2 idx, hf'] at h4
    have h5 := k2 idx
    rw [← e1 idx] at h5
    cases h4
    exact (vector_stacked _ (f idx) h1 h2 h3).trans h5
  exact tilesEverySchedule ((C107_schedules Pp Pa glob hglob be).2 I D x g y hg hy) fun p hp a ha =>
    isTile_congr hp ha (fun idx _ l hl m hm => Prod.ext (k6 idx 0 (by omega) l hl m hm) (k6 idx 1 (by omega) l hl m hm)) (qy p hp a ha)

/-- C107 for transforms with the default truncation on an equiangular or a Gauss grid: the transforms can be built on every process grid that fits, and analysis after synthesis gives back the coefficients. -/
theorem C107_default (env : Env) (be : C2R) (A : Args) (hgrid : A.grid = "equiangular" ∨ (A.grid = "legendre-gauss" ∧ IsGaussRule (env.gauss A.nlat) A.nlat))
    (hlat : 2 ≤ A.nlat) (hlon : 1 ≤ A.nlon) (hlm : A.lmax = none) (hmm : A.mmax = none) :
    ∃ L, sizes A.nlat A.nlon A.lmax A.mmax A.grid = .ok (L, L) ∧ ∀ Pp Pa, Fits Pp Pa A.nlat A.nlon L L →
      ∃ (I : ℕ → ℕ → DInverseRealSHT) (D : ℕ → ℕ → DRealSHT), (∀ p < Pp, ∀ a < Pa, DInverseRealSHT.init env A Pp Pa p a = .ok (I p a)) ∧
        (∀ p < Pp, ∀ a < Pa, DRealSHT.init env A Pp Pa p a = .ok (D p a)) ∧
        ∀ glob, GlobInj Pp Pa glob → ∀ (lead : List ℕ), lead ≠ [] → ∀ (C : List ℕ → ℕ → ℕ → ℂ) (x : ℕ → ℕ → LTen ℂ), (∀ p < Pp, ∀ a < Pa, IsTile lead L L Pp Pa C p a (x p a)) →
          TilesEverySchedule (roundTripProg Pp Pa glob be I D x) (shtMem Pp Pa x) (roundTripOut x) lead L L fun idx => admissible A.nlon (C idx) := by
  obtain ⟨r, d, L, hr, hx, hL, h0, hd, hm⟩ := default_grid env A hgrid hlat hlon hlm hmm
  refine ⟨L, hL, fun Pp Pa hf => ?_⟩
  have hS := realSHT_init env A r L hr hL h0
  have hS' := inverseRealSHT_init env A r L hr hL h0
  have hD : ∀ p a, ∃ D : DRealSHT, p < Pp → a < Pa → DRealSHT.init env A Pp Pa p a = .ok D := fun p a => by
    by_cases h : p < Pp ∧ a < Pa
    · obtain ⟨D, hD, _⟩ := C51_real_init env _ _ hS Pp Pa hf p a h.1 h.2
      exact ⟨D, fun _ _ => hD⟩
    · exact ⟨⟨0, 0, 0, 0, ⟨[], [], [], []⟩, 0, 0, 0, fun _ _ _ => 0⟩, fun h1 h2 => absurd ⟨h1, h2⟩ h⟩
  have hI : ∀ p a, ∃ D : DInverseRealSHT, p < Pp → a < Pa → DInverseRealSHT.init env A Pp Pa p a = .ok D := fun p a => by
    by_cases h : p < Pp ∧ a < Pa
    · obtain ⟨D, hD, _⟩ := C51_inverse_init env _ _ hS' Pp Pa hf p a h.1 h.2
      exact ⟨D, fun _ _ => hD⟩
    · exact ⟨⟨0, 0, 0, 0, ⟨[], [], [], []⟩, 0, 0, fun _ _ _ => 0⟩, fun h1 h2 => absurd ⟨h1, h2⟩ h⟩
  choose D hD using hD
  choose I hI using hI
  exact ⟨I, D, fun p hp a ha => hI p a hp ha, fun p hp a ha => hD p a hp ha, fun glob hglob lead hl C x hC =>
    C107_scalar env be A r d L hr hx hL hd hm Pp Pa hf glob hglob I D (fun p hp a ha => hI p a hp ha) (fun p hp a ha => hD p a hp ha) lead hl C x hC⟩

/-! ### The hypotheses can be met -/

/-- An 8 by 16 equiangular grid on a 3 by 2 process grid, with a leading shape `(1,)` of fewer elements than ranks: for every array of coefficients the ranks get back the part of their tiles that a real field
determines, and there is an execution in which they all finish. -/
example (env : Env) (be : C2R) (C : List ℕ → ℕ → ℕ → ℂ) :
    ∃ (I : ℕ → ℕ → DInverseRealSHT) (D : ℕ → ℕ → DRealSHT),
      (∀ p < 3, ∀ a < 2, DRealSHT.init env ⟨8, 16, none, none, "equiangular", "ortho", true⟩ 3 2 p a = .ok (D p a)) ∧
      TilesEverySchedule (roundTripProg 3 2 (fun p a => p * 2 + a) be I D (tileOf [1] 4 4 3 2 C)) (shtMem 3 2 (tileOf [1] 4 4 3 2 C)) (roundTripOut (tileOf [1] 4 4 3 2 C)) [1] 4 4
        fun idx => admissible 16 (C idx) := by
  obtain ⟨L, hL, h⟩ := C107_default env be ⟨8, 16, none, none, "equiangular", "ortho", true⟩ (Or.inl rfl) (by norm_num) (by norm_num) rfl rfl
  have h4 : sizes 8 16 none none "equiangular" = .ok (4, 4) := by decide
  rw [show sizes 8 16 none none "equiangular" = .ok (L, L) from hL] at h4
  cases h4
  obtain ⟨I, D, _, hD, h'⟩ := h 3 2 ⟨by norm_num, by norm_num, by norm_num, by norm_num, by norm_num, by norm_num⟩
  exact ⟨I, D, hD, h' _ (globInj_rowMajor 3 2) [1] (by simp) C _ fun p _ a _ => tileOf_isTile _ _ _ _ _ _ _ _⟩

/-- Coefficients that meet the hypotheses of `C107_recovers`: a triangular array that is not real. -/
example : ∃ C : List ℕ → ℕ → ℕ → ℂ, (∀ idx l m, l < m → C idx l m = 0) ∧ (∀ idx l, (C idx l 0).im = 0) ∧ (∀ idx l m, 2 * m = 16 → (C idx l m).im = 0) ∧ C [0] 3 2 = Complex.I :=
  ⟨fun _ l m => if l < m then 0 else if m = 0 ∨ 2 * m = 16 then 1 else Complex.I, fun _ _ _ h => if_pos h, fun _ _ => by simp, fun _ l m h => by
    by_cases h1 : l < m
    · simp [h1]
    · simp [h1, h], by norm_num⟩

end Verif.Props
