import Verif.Lemmas.MessagesBwdAll
import Verif.Props.Messages
import Verif.Props.DistAttentionBwd
/-!
C101: the messages of the backward pass of distributed attention under every schedule: two rings, two all-reduces, two halo exchanges. See `Verif.Props.Messages` for executions.
-/
namespace Verif.Props
open Verif Verif.Msg Verif.Spec.Msg Verif.Dist Verif.Ring Verif.Spec Verif.Spec.Attn Verif.Spec.Ring Finset

/-- C101: the batches of the backward pass match, whatever gradients are needed and whichever halo exchange is differentiated first. -/
theorem C101_matched (g : Grids) (w : ℕ → ℝ) (Pp Pa : ℕ) (glob : ℕ → ℕ → ℕ) (hglob : GlobInj Pp Pa glob) (D : ℕ → ℕ → DAttn)
    (hr : ∀ p < Pp, ∀ p' < Pp, ∀ a < Pa, (D p a).r = (D p' a).r) (bl : ℕ → ℕ → ℕ → BLaunch) (S : ℕ → ℕ → Slot (ℕ → ℕ × ℕ → Acc)) (q dy : ℕ → ℕ → RTen) (need : Need) (kFirst : Bool) :
    Matched (attnBwd Pp Pa glob g w D bl S q dy need kFirst) := matched_bwd hglob hr need kFirst _ _

/-- What the theorems need to know about the saved tensors: equal sizes along the azimuth direction, and the rows of the halos. -/
structure SavedOK (Pp Pa : ℕ) (D : ℕ → ℕ → DAttn) (S : ℕ → ℕ → Slot (ℕ → ℕ × ℕ → Acc)) : Prop where
  r_eq : ∀ p < Pp, ∀ p' < Pp, ∀ a < Pa, (D p a).r = (D p' a).r
  lon : ∀ p < Pp, ∀ a < Pa, ∀ a' < Pa, (D p a).lonIn.sum = (D p a').lonIn.sum
  k : ∀ p < Pp, ∀ a < Pa, ∀ a' < Pa, (S p a).k.B = (S p a').k.B ∧ (S p a).k.C = (S p a').k.C ∧ (S p a).k.H = (S p a').k.H
  v : ∀ p < Pp, ∀ a < Pa, ∀ a' < Pa, (S p a).v.B = (S p a').v.B ∧ (S p a).v.C = (S p a').v.C
  rows : ∀ p < Pp, ∀ a < Pa, (D p a).r > 0 → Pp > 1 → (S p a).k.H = (D p a).latIn.getD p 0 + 2 * (D p a).r

/-- In lockstep the program computes what `ringBackward` computes, and every message has the size of its buffer. -/
theorem lockstep_bwd {g : Grids} {w : ℕ → ℝ} {Pp Pa : ℕ} {glob : ℕ → ℕ → ℕ} (hglob : GlobInj Pp Pa glob) {D : ℕ → ℕ → DAttn} {bl : ℕ → ℕ → ℕ → BLaunch}
    {S : ℕ → ℕ → Slot (ℕ → ℕ × ℕ → Acc)} (hS : SavedOK Pp Pa D S) {q dy : ℕ → ℕ → RTen} {need : Need} (kFirst : Bool) {G : ℕ → ℕ → Ring.Grads}
    (hG : ringBackward g w Pp Pa D bl S q dy need = .ok G) :
    (∀ n < (attnBwd Pp Pa glob g w D bl S q dy need kFirst).rounds, FitsAt (attnBwd Pp Pa glob g w D bl S q dy need kFirst) (bwdMem Pp Pa S) n) ∧
      ∀ i, bwdOut g D S need i (lockstep (attnBwd Pp Pa glob g w D bl S q dy need kFirst) (bwdMem Pp Pa S) (attnBwd Pp Pa glob g w D bl S q dy need kFirst).rounds i) =
        G i.1 i.2 := by
  obtain ⟨h1, h2⟩ := bwd_runs hglob hS.r_eq hS.lon hS.k hS.v hS.rows need kFirst hG
  refine ⟨fun n hn => fitsAll_at _ _ _ h2 n hn, fun i => ?_⟩
  rw [← h1 i]
  congr 1
  exact congrFun (lockstep_all (fun i : Fin Pp × Fin Pa => glob i.1 i.2) _ (bwdMem Pp Pa S)) i

/-- C101: if the backward pass gives gradients when the ranks advance together, then under every schedule no message has a wrong size, no deadlock occurs, and every rank that has finished returns
these gradients. -/
theorem C101_schedules (g : Grids) (w : ℕ → ℝ) (Pp Pa : ℕ) (glob : ℕ → ℕ → ℕ) (hglob : GlobInj Pp Pa glob) (D : ℕ → ℕ → DAttn) (bl : ℕ → ℕ → ℕ → BLaunch)
    (S : ℕ → ℕ → Slot (ℕ → ℕ × ℕ → Acc)) (hS : SavedOK Pp Pa D S) (q dy : ℕ → ℕ → RTen) (need : Need) (kFirst : Bool) (G : ℕ → ℕ → Ring.Grads)
    (hG : ringBackward g w Pp Pa D bl S q dy need = .ok G) (n : ℕ) (s : Net (Fin Pp × Fin Pa) (BMem P1Acc) RTen)
    (h : Exec (attnBwd Pp Pa glob g w D bl S q dy need kFirst) (Net.init (bwdMem Pp Pa S)) n s) :
    s.fault = false ∧ (∀ i, (s.proc i).round = (attnBwd Pp Pa glob g w D bl S q dy need kFirst).rounds → bwdOut g D S need i (s.proc i).mem = G i.1 i.2) ∧
      ((∃ i, (s.proc i).round ≠ (attnBwd Pp Pa glob g w D bl S q dy need kFirst).rounds) → ∃ s', Step (attnBwd Pp Pa glob g w D bl S q dy need kFirst) s s') := by
  have hM := C101_matched g w Pp Pa glob hglob D hS.r_eq bl S q dy need kFirst
  obtain ⟨hF, hL⟩ := lockstep_bwd hglob hS kFirst hG
  have hf := C100_sizes _ hM _ hF n s h
  refine ⟨hf, fun i hi => ?_, fun hi => C100_progress _ hM _ n s h hf hi⟩
  rw [C100_deliver _ hM _ n s h hf i hi]
  exact hL i

/-- What the forward pass saves meets the conditions of `C101_schedules`. -/
theorem savedOK {g : Grids} {P : Pattern} (hP : PatternOK g P) {w : ℕ → ℝ} {Pp Pa B Ck Cv : ℕ} (hPp : 0 < Pp) (hPa : 0 < Pa) (hi : 0 < g.nlonIn) (ho : 0 < g.nlonOut) {D : ℕ → ℕ → DAttn}
    (hD : ∀ p < Pp, ∀ a < Pa, DAttn.init g P Pp Pa p a = .ok (D p a)) (hr : ∀ p < Pp, ∀ a < Pa, ∀ s < Pp, (D p a).r ≤ blockSize g.nlatIn Pp s)
    {K V : T4} {k v q : ℕ → ℕ → RTen} (hk : ∀ p < Pp, ∀ a < Pa, Tile B Ck g.nlatIn g.nlonIn Pp Pa K p a (k p a))
    (hv : ∀ p < Pp, ∀ a < Pa, Tile B Cv g.nlatIn g.nlonIn Pp Pa V p a (v p a))
    {gl : ℕ → ℕ → ℕ → Launch} (hgl : ∀ p < Pp, ∀ a < Pa, ∀ step, LaunchOK B (blockSize g.nlatOut Pp p) (blockSize g.nlonOut Pa a) (gl p a step))
    {ul : ℕ → ℕ → ℕ → UpLaunch} (hul : ∀ p < Pp, ∀ a < Pa, ∀ step, UpLaunchOK (ul p a step)) {S : ℕ → ℕ → Slot (ℕ → ℕ × ℕ → Acc)}
    (hS : ringState g w Pp Pa D gl ul k v q = .ok S) : SavedOK Pp Pa D S := by
  have hF := rank_facts hP hPp hPa hi ho hD
  obtain ⟨S', hS', hK, hV, -⟩ := ringState_ok w hPp hPa hF (fun s hs => hr 0 hPp 0 hPa s hs) q hk hv hgl hul
  rw [hS] at hS'
  cases hS'
  refine ⟨fun p hp p' hp' a ha => (hF.r_eq p hp a ha).trans (hF.r_eq p' hp' a ha).symm, fun p hp a ha a' ha' => ?_,
    fun p hp a ha a' ha' => ⟨(hK p hp a ha).B_eq.trans (hK p hp a' ha').B_eq.symm, (hK p hp a ha).C_eq.trans (hK p hp a' ha').C_eq.symm, (hK p hp a ha).H_eq.trans (hK p hp a' ha').H_eq.symm⟩,
    fun p hp a ha a' ha' => ⟨(hV p hp a ha).B_eq.trans (hV p hp a' ha').B_eq.symm, (hV p hp a ha).C_eq.trans (hV p hp a' ha').C_eq.symm⟩, fun p hp a ha _ _ => ?_⟩
  · have h1 := (init_fields (hD p hp a ha)).2.1
    have h2 := (init_fields (hD p hp a' ha')).2.1
    rw [h1, Except.ok.injEq] at h2
    rw [h2]
  · rw [(hK p hp a ha).H_eq, hF.latLen p hp a ha p hp, hF.r_eq p hp a ha]

/-- C101: on any process grid on which the layer can be built, with halos no wider than the latitude blocks, under every schedule of ranks and messages, whatever the order of thread groups and atomic
operations and whichever halo exchange is differentiated first: the backward pass meets no error and no deadlock, it ends, and every rank that has finished returns its tile of the gradients of
`<dy, attention(k, v, q)>` for the global tensors, for those inputs that need one. -/
theorem C101_gradients (g : Grids) (P : Pattern) (hP : PatternOK g P) (w : ℕ → ℝ) (Pp Pa B Ck Cv : ℕ) (hPp : 0 < Pp) (hPa : 0 < Pa)
    (hi : 0 < g.nlonIn) (ho : 0 < g.nlonOut) (glob : ℕ → ℕ → ℕ) (hglob : GlobInj Pp Pa glob) (D : ℕ → ℕ → DAttn)
    (hD : ∀ p < Pp, ∀ a < Pa, DAttn.init g P Pp Pa p a = .ok (D p a))
    (hr : ∀ p < Pp, ∀ a < Pa, ∀ s < Pp, (D p a).r ≤ blockSize g.nlatIn Pp s)
    (K V Q DY : T4) (k v q dy : ℕ → ℕ → RTen)
    (hk : ∀ p < Pp, ∀ a < Pa, Tile B Ck g.nlatIn g.nlonIn Pp Pa K p a (k p a))
    (hv : ∀ p < Pp, ∀ a < Pa, Tile B Cv g.nlatIn g.nlonIn Pp Pa V p a (v p a))
    (hq : ∀ p < Pp, ∀ a < Pa, Tile B Ck g.nlatOut g.nlonOut Pp Pa Q p a (q p a))
    (hdy : ∀ p < Pp, ∀ a < Pa, Tile B Cv g.nlatOut g.nlonOut Pp Pa DY p a (dy p a))
    (hZ : ∀ b < B, ∀ ho < g.nlatOut, ∀ wo < g.nlonOut, ((neighbours g P ho wo).map fun t => w t.1 * Real.exp (score Ck K Q b ho wo t)).sum ≠ 0)
    (gl : ℕ → ℕ → ℕ → Launch) (hgl : ∀ p < Pp, ∀ a < Pa, ∀ step, LaunchOK B (blockSize g.nlatOut Pp p) (blockSize g.nlonOut Pa a) (gl p a step))
    (ul : ℕ → ℕ → ℕ → UpLaunch) (hul : ∀ p < Pp, ∀ a < Pa, ∀ step, UpLaunchOK (ul p a step))
    (bl : ℕ → ℕ → ℕ → BLaunch)
    (hbl : ∀ p < Pp, ∀ a < Pa, ∀ step, BLaunchOK B (blockSize g.nlatOut Pp p) (blockSize g.nlonOut Pa a) (bl p a step)) (need : Need) (kFirst : Bool) :
    ∃ S, ringState g w Pp Pa D gl ul k v q = .ok S ∧ ∃ DK DV DQ : T4,
      (∀ δK δV δQ : T4, HasDerivAt
        (fun t => inner4 B Cv g.nlatOut g.nlonOut DY (attention Ck w (neighbours g P) (line K δK t) (line V δV t) (line Q δQ t)))
        (inner4 B Ck g.nlatIn g.nlonIn DK δK + inner4 B Cv g.nlatIn g.nlonIn DV δV + inner4 B Ck g.nlatOut g.nlonOut DQ δQ) 0) ∧
      ∀ (R n : ℕ) (s : Net (Fin Pp × Fin Pa) (BMem P1Acc) RTen), R = (attnBwd Pp Pa glob g w D bl S q dy need kFirst).rounds →
        Exec (attnBwd Pp Pa glob g w D bl S q dy need kFirst) (Net.init (bwdMem Pp Pa S)) n s →
        s.fault = false ∧
        n ≤ 3 * R * (Pp * Pa) + ∑ i, ∑ j, (attnBwd Pp Pa glob g w D bl S q dy need kFirst).sent i j R ∧
        ((∃ i, (s.proc i).round ≠ R) → ∃ s', Step (attnBwd Pp Pa glob g w D bl S q dy need kFirst) s s') ∧
        ∀ i, (s.proc i).round = R →
          GradTile need.k B Ck g.nlatIn g.nlonIn Pp Pa DK i.1 i.2 (bwdOut g D S need i (s.proc i).mem).k ∧
          GradTile need.v B Cv g.nlatIn g.nlonIn Pp Pa DV i.1 i.2 (bwdOut g D S need i (s.proc i).mem).v ∧
          GradTile need.q B Ck g.nlatOut g.nlonOut Pp Pa DQ i.1 i.2 (bwdOut g D S need i (s.proc i).mem).q := by
  obtain ⟨S, G, hS, hG, DK, DV, DQ, hT, hder⟩ := C53_backward g P hP w Pp Pa B Ck Cv hPp hPa hi ho D hD hr K V Q DY k v q dy hk hv hq hdy hZ gl hgl ul hul bl hbl need
  have hOK := savedOK hP hPp hPa hi ho hD hr hk hv hgl hul hS
  refine ⟨S, hS, DK, DV, DQ, hder, fun R n s hR h => ?_⟩
  subst hR
  obtain ⟨hf, hout, hstep⟩ := C101_schedules g w Pp Pa glob hglob D bl S hOK q dy need kFirst G hG n s h
  refine ⟨hf, ?_, hstep, fun i hround => ?_⟩
  · have := (C100_steps _ (C101_matched g w Pp Pa glob hglob D hOK.r_eq bl S q dy need kFirst) _ n s h hf).1
    rw [Fintype.card_prod, Fintype.card_fin, Fintype.card_fin] at this
    exact this
  · rw [hout i hround]
    exact hT i.1 i.1.2 i.2 i.2.2

/-- C101: and there is an execution in which all ranks finish. -/
theorem C101_completes (g : Grids) (w : ℕ → ℝ) (Pp Pa : ℕ) (glob : ℕ → ℕ → ℕ) (hglob : GlobInj Pp Pa glob) (D : ℕ → ℕ → DAttn) (bl : ℕ → ℕ → ℕ → BLaunch)
    (S : ℕ → ℕ → Slot (ℕ → ℕ × ℕ → Acc)) (hS : SavedOK Pp Pa D S) (q dy : ℕ → ℕ → RTen) (need : Need) (kFirst : Bool) (G : ℕ → ℕ → Ring.Grads)
    (hG : ringBackward g w Pp Pa D bl S q dy need = .ok G) :
    ∃ n s, Exec (attnBwd Pp Pa glob g w D bl S q dy need kFirst) (Net.init (bwdMem Pp Pa S)) n s ∧
      ∀ i, (s.proc i).round = (attnBwd Pp Pa glob g w D bl S q dy need kFirst).rounds ∧ bwdOut g D S need i (s.proc i).mem = G i.1 i.2 := by
  obtain ⟨s, hs, hall⟩ := C100_completes _ (C101_matched g w Pp Pa glob hglob D hS.r_eq bl S q dy need kFirst) (bwdMem Pp Pa S) (lockstep_bwd hglob hS kFirst hG).1
  exact ⟨_, s, hs, fun i => ⟨hall i, (C101_schedules g w Pp Pa glob hglob D bl S hS q dy need kFirst G hG _ s hs).2.1 i (hall i)⟩⟩

/-- C101: the sum of the azimuth group is the same whatever the schedule, although every rank adds up what it has received: with the ranks of a group holding `full p a`, each gets the sum of all of
them at its own longitudes. -/
theorem C101_allReduce (Pp Pa : ℕ) (glob : ℕ → ℕ → ℕ) (hglob : GlobInj Pp Pa glob) (isK : Bool) (lonIn : ℕ → ℕ → List ℕ) (shape : ℕ → ℕ → RTen) (rows : ℕ → ℕ → ℕ)
    (hs : ∀ p < Pp, ∀ a < Pa, ∀ a' < Pa, (shape p a).B = (shape p a').B ∧ (shape p a).C = (shape p a').C ∧ rows p a = rows p a' ∧ (lonIn p a).sum = (lonIn p a').sum)
    (mem : Fin Pp × Fin Pa → BMem Unit) (full : ℕ → ℕ → T4) (hfull : ∀ i, (mem i).fullOf isK = full i.1 i.2) (n : ℕ) (s : Net (Fin Pp × Fin Pa) (BMem Unit) RTen)
    (h : Exec (ofRounds (fun i => glob i.1 i.2) [reduceRound Pp Pa glob isK lonIn shape rows]) (Net.init mem) n s) :
    s.fault = false ∧ ∀ i, (s.proc i).round = 1 → ∀ b c y x,
      ((s.proc i).mem.grad isK).val b c y x = ∑ a ∈ range Pa, full i.1 a b c y (offset (lonIn i.1 i.2) i.2 + x) := by
  have hM := matched_reduce (τ := Unit) (isK := isK) (lonIn := lonIn) (shape := shape) (rows := rows) hglob
  have hF : ∀ m < 1, FitsAt (ofRounds (fun i : Fin Pp × Fin Pa => glob i.1 i.2) [reduceRound Pp Pa glob isK lonIn shape rows]) mem m := fun m hm => by
    rw [Nat.lt_one_iff.1 hm]
    exact fits_reduce hglob mem hs
  have hf := C100_sizes _ hM mem hF n s h
  refine ⟨hf, fun i hround b c y x => ?_⟩
  rw [C100_deliver _ hM mem n s h hf i hround]
  have := run_reduce (lonIn := lonIn) (shape := shape) (rows := rows) hglob mem full hfull i
  change (((reduceRound Pp Pa glob isK lonIn shape rows).run (fun i : Fin Pp × Fin Pa => glob i.1 i.2) mem i).grad isK).val b c y x = _
  rw [this, setGrad_same]
  exact reduceSlice_eq i.2.2 _ _ b c y x

/-! ### The hypotheses can be met -/

/-- On two by two ranks, with halos of one row: there is an execution in which all ranks finish, and each has its tile of the gradient of the keys. -/
example (K V Q DY : T4) : ∃ (D : ℕ → ℕ → DAttn) (S : ℕ → ℕ → Slot (ℕ → ℕ × ℕ → Acc)) (n : ℕ) (s : Net (Fin 2 × Fin 2) (BMem P1Acc) RTen) (DK : T4),
    (∀ p < 2, ∀ a < 2, DAttn.init ⟨4, 4, 4, 2⟩ ringPattern 2 2 p a = .ok (D p a) ∧ (D p a).r = 1) ∧
    Exec (attnBwd 2 2 (fun p a => p * 2 + a) ⟨4, 4, 4, 2⟩ (fun _ => 1) D (fun p a _ => revBLaunch (blockSize 4 2 p) (blockSize 2 2 a)) S (tileOf 1 3 4 2 2 2 Q) (tileOf 1 5 4 2 2 2 DY)
      ⟨true, true, false⟩ false) (Net.init (bwdMem 2 2 S)) n s ∧
    ∀ i, GradTile true 1 3 4 4 2 2 DK i.1 i.2 (bwdOut ⟨4, 4, 4, 2⟩ D S ⟨true, true, false⟩ i (s.proc i).mem).k := by
  have htile : ∀ (B C n1 n2 : ℕ) (X : T4) (p a : ℕ), Tile B C n1 n2 2 2 X p a (tileOf B C n1 n2 2 2 X p a) := fun B C n1 n2 X p a =>
    ⟨rfl, rfl, rfl, rfl, fun _ _ _ _ _ _ _ _ => rfl⟩
  set D : ℕ → ℕ → DAttn := fun p a => DAttn.build ⟨4, 4, 4, 2⟩ ringPattern 2 p a [2, 2] [2, 2] [2, 2] [1, 1] with hDdef
  have hD : ∀ p < 2, ∀ a < 2, DAttn.init ⟨4, 4, 4, 2⟩ ringPattern 2 2 p a = .ok (D p a) := fun p _ a _ => rfl
  have hr1 : ∀ p a, (D p a).r = 1 := fun p a => by
    show rLat 2 [2, 2] [2, 2] ringPattern 4 = 1
    decide
  have hle : ∀ p < 2, ∀ a < 2, ∀ s < 2, (D p a).r ≤ blockSize 4 2 s := fun p _ a _ s hs => by
    rw [hr1]
    exact Nat.le_trans (by decide : 1 ≤ 2) (by unfold blockSize; omega)
  have hgl : ∀ p < 2, ∀ a < 2, ∀ step : ℕ, LaunchOK 1 (blockSize 4 2 p) (blockSize 2 2 a) ((fun p a _ => revLaunch (blockSize 4 2 p) (blockSize 2 2 a)) p a step) :=
    fun p _ a _ _ => revLaunch_ok 1 _ _
  have hul : ∀ p < 2, ∀ a < 2, ∀ step : ℕ, UpLaunchOK ((fun _ _ _ => ⟨List.reverse, id⟩ : ℕ → ℕ → ℕ → UpLaunch) p a step) :=
    fun _ _ _ _ _ => ⟨fun L => List.reverse_perm L, fun L => List.Perm.refl L⟩
  have hbl : ∀ p < 2, ∀ a < 2, ∀ step : ℕ, BLaunchOK 1 (blockSize 4 2 p) (blockSize 2 2 a) ((fun p a _ => revBLaunch (blockSize 4 2 p) (blockSize 2 2 a)) p a step) :=
    fun p _ a _ _ => revBLaunch_ok 1 _ _
  have hZ : ∀ b < 1, ∀ ho < 4, ∀ wo < 2, ((neighbours ⟨4, 4, 4, 2⟩ ringPattern ho wo).map fun t => (1 : ℝ) * Real.exp (score 3 K Q b ho wo t)).sum ≠ 0 := by
    intro b _ ho _ wo _
    refine (Attn.weight_sum_pos (w := fun _ => 1) ?_ (fun _ _ => one_pos) _).ne'
    have hu : ¬ (⟨4, 4, 4, 2⟩ : Grids).upsample = true := by decide
    unfold neighbours gatherNbrs Pattern.row ringPattern
    rw [if_neg hu]
    simp only [ne_eq, List.map_eq_nil_iff, List.range'_eq_nil_iff]
    omega
  obtain ⟨S, G, hS, hG, DK, DV, DQ, hT, -⟩ := C53_backward ⟨4, 4, 4, 2⟩ ringPattern ringPattern_ok (fun _ => 1) 2 2 1 3 5 (by decide) (by decide) (by decide) (by decide) D hD hle K V Q DY _ _ _ _
    (fun p _ a _ => htile 1 3 4 4 K p a) (fun p _ a _ => htile 1 5 4 4 V p a) (fun p _ a _ => htile 1 3 4 2 Q p a) (fun p _ a _ => htile 1 5 4 2 DY p a) hZ _ hgl _ hul _ hbl ⟨true, true, false⟩
  have hOK := savedOK ringPattern_ok (by decide) (by decide) (by decide) (by decide) hD hle (fun p _ a _ => htile 1 3 4 4 K p a) (fun p _ a _ => htile 1 5 4 4 V p a) hgl hul hS
  obtain ⟨n, s, hs, hall⟩ := C101_completes ⟨4, 4, 4, 2⟩ (fun _ => 1) 2 2 (fun p a => p * 2 + a) (globInj_rowMajor 2 2) D _ S hOK _ _ ⟨true, true, false⟩ false G hG
  refine ⟨D, S, n, s, DK, fun p hp a ha => ⟨hD p hp a ha, hr1 p a⟩, hs, fun i => ?_⟩
  rw [(hall i).2]
  exact (hT i.1 i.1.2 i.2 i.2.2).1

/-- With two by two ranks and both gradients needed there are eleven rounds: two steps of pass 1, the reset, twice kernel and messages of pass 2, two sums, two halo exchanges. -/
example (g : Grids) (w : ℕ → ℝ) (glob : ℕ → ℕ → ℕ) (D : ℕ → ℕ → DAttn) (bl : ℕ → ℕ → ℕ → BLaunch) (S : ℕ → ℕ → Slot (ℕ → ℕ × ℕ → Acc)) (q dy : ℕ → ℕ → RTen) :
    (attnBwd 2 2 glob g w D bl S q dy ⟨true, true, true⟩ true).rounds = 11 := rfl

/-- The all-reduce of two ranks that hold 1 and 2. -/
example (n : ℕ) (s : Net (Fin 1 × Fin 2) (BMem Unit) RTen)
    (h : Exec (ofRounds (fun i => (i.2 : ℕ)) [reduceRound 1 2 (fun _ a => a) true (fun _ _ => [1, 1]) (fun _ _ => default) fun _ _ => 1])
      (Net.init fun i => ⟨default, default, (), .ok (fun _ _ _ _ => (i.2 : ℕ) + 1, fun _ _ _ _ => 0), default, default⟩) n s) (i : Fin 1 × Fin 2) (hi : (s.proc i).round = 1) :
    (s.proc i).mem.dk.val 0 0 0 0 = 3 := by
  have hglob : GlobInj 1 2 fun _ a => a := fun p hp a _ p' hp' a' _ e => ⟨by omega, e⟩
  have := (C101_allReduce 1 2 (fun _ a => a) hglob true (fun _ _ => [1, 1]) (fun _ _ => default) (fun _ _ => 1) (fun _ _ _ _ _ _ => ⟨rfl, rfl, rfl, rfl⟩) _
    (fun _ a _ _ _ _ => (a : ℝ) + 1) (fun _ => rfl) n s h).2 i hi 0 0 0 0
  rw [Finset.sum_range_succ, Finset.sum_range_one] at this
  refine (show (s.proc i).mem.dk.val 0 0 0 0 = _ from this).trans ?_
  norm_num

end Verif.Props
