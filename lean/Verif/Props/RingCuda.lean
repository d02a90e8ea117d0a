import Verif.Lemmas.RingCudaStep
import Verif.Lemmas.DistAttentionGather
import Verif.Props.GpuLaunch
import Mathlib.Tactic.IntervalCases
/-!
C92: one step of distributed neighbourhood attention on the GPU, thread by thread.
-/
namespace Verif.Props
open Verif Verif.Attn Verif.Spec.Attn Verif.AttnGpu Verif.Ring Verif.Spec.Ring Verif.RingGpu Verif.Spec.RingStep Finset

/-- What a call does to every output point: the neighbours that lie in its block of keys and values are taken up; nothing else changes. -/
def StepDone (p : RingGpu.Params) (B : ℕ) (w : ℕ → ℝ) (P : Pattern) (k v q : ℕ → ℝ) (bufs bufs' : RingGpu.Bufs) : Prop :=
  (∀ b < B, ∀ ho < p.nlatOut, ∀ wo < p.nlonOut,
    TakesUp (nbrsIn ⟨p.start, p.nlatHalo, p.lonLo, p.nlonKx⟩ P p.nlonIn p.pscale ho wo)
      (fun x => ∑ c ∈ range p.nci, entryOf p.nlatOut p.nlonOut p.nci q b ho wo c * entryOf p.nlatHalo p.nlonKx p.nci k b ((x.1 : ℤ) - p.start).toNat (x.2 - p.lonLo) c)
      (fun x => w x.1) (fun x c => entryOf p.nlatHalo p.nlonKx p.nco v b ((x.1 : ℤ) - p.start).toNat (x.2 - p.lonLo) c) p.nco
      (entryOf p.nlatOut p.nlonOut p.nco bufs.y b ho wo) (entryOf p.nlatOut p.nlonOut p.nco bufs'.y b ho wo)
      (bufs.alpha ((b * p.nlatOut + ho) * p.nlonOut + wo)) (bufs'.alpha ((b * p.nlatOut + ho) * p.nlonOut + wo))
      (bufs.qmax ((b * p.nlatOut + ho) * p.nlonOut + wo)) (bufs'.qmax ((b * p.nlatOut + ho) * p.nlonOut + wo))) ∧
  ∀ i, B * p.nlatOut * p.nlonOut ≤ i → bufs'.alpha i = bufs.alpha i ∧ bufs'.qmax i = bufs.qmax i ∧ ∀ c < p.nco, bufs'.y (i * p.nco + c) = bufs.y (i * p.nco + c)

theorem stepDone_of_effect {p : RingGpu.Params} {B : ℕ} {w : ℕ → ℝ} {P : Pattern} {k v q : ℕ → ℝ} {bufs bufs' : RingGpu.Bufs}
    (h : Effect1 p w P k v q (fun i => i < B * p.nlatOut * p.nlonOut) bufs bufs') : StepDone p B w P k v q bufs bufs' := by
  classical
  refine ⟨fun b hb ho hho wo hwo => ?_, fun i hi => ?_⟩
  · have := h (outFlat p b ho wo)
    rw [if_pos (outFlat_lt hb hho hwo), chunkAt_outFlat 1 w P k v q hho hwo, chunk_nbrs] at this
    have := takesUp_closed _ _ _ _ _ this
    rw [outFlat_eq] at this
    exact this
  · have := h i
    rw [if_neg (by omega)] at this
    exact ⟨this.1, this.2.1, this.2.2⟩

/-- C92: whatever the order in which threads, warps and atomic operations run, whatever uninitialised memory holds, whether numbers are loaded one by one or four at a time, and
whichever kernels the dispatcher takes, every output point takes up the neighbours in the block, once each, and no memory outside the arrays is touched. -/
theorem C92_step (r : Run) (p : RingGpu.Params) (B : ℕ) (P : Pattern) (hr : GoodRun r p B P) (h0 : 0 < p.nco) (w k v q : ℕ → ℝ) (bufs : RingGpu.Bufs) :
    ∃ bufs', ringStep r p B w P k v q bufs = .ok bufs' ∧ StepDone p B w P k v q bufs bufs' := by
  obtain ⟨bufs', e1, e2⟩ := ringStep_ok h0 hr.run hr.rows hr.accepted hr.sched hr.loads w k v q bufs
  exact ⟨bufs', e1, stepDone_of_effect e2⟩

/-- C92: two runs leave the same accumulators. -/
theorem C92_deterministic (r r' : Run) (p : RingGpu.Params) (B : ℕ) (P : Pattern) (hr : GoodRun r p B P) (hr' : GoodRun r' p B P) (h0 : 0 < p.nco) (w k v q : ℕ → ℝ)
    (bufs : RingGpu.Bufs) : ∃ b1 b2, ringStep r p B w P k v q bufs = .ok b1 ∧ ringStep r' p B w P k v q bufs = .ok b2 ∧ b1.alpha = b2.alpha ∧ b1.qmax = b2.qmax ∧ b1.y = b2.y := by
  obtain ⟨b1, e1, e2⟩ := ringStep_ok h0 hr.run hr.rows hr.accepted hr.sched hr.loads w k v q bufs
  obtain ⟨b2, f1, f2⟩ := ringStep_ok h0 hr'.run hr'.rows hr'.accepted hr'.sched hr'.loads w k v q bufs
  have hall : ∀ i, AccEq p.nco (accAt p.nco b1 i) (accAt p.nco b2 i) := by
    intro i
    obtain ⟨a1, a2, a3⟩ := e2 i
    obtain ⟨c1, c2, c3⟩ := f2 i
    exact ⟨a1.trans c1.symm, a2.trans c2.symm, fun c hc => (a3 c hc).trans (c3 c hc).symm⟩
  refine ⟨b1, b2, e1, f1, funext fun i => (hall i).1, funext fun i => (hall i).2.1, funext fun a => ?_⟩
  have := (hall (a / p.nco)).2.2 (a % p.nco) (Nat.mod_lt _ h0)
  change b1.y (a / p.nco * p.nco + a % p.nco) = b2.y (a / p.nco * p.nco + a % p.nco) at this
  rwa [Nat.div_add_mod'] at this

/-- C92: the kernels do what the model of the ring in C53 says of them, so that C53 holds of the threads. -/
theorem C92_refines (r : Run) (p : RingGpu.Params) (B : ℕ) (P : Pattern) (hr : GoodRun r p B P) (h0 : 0 < p.nco) (w k v q : ℕ → ℝ) (bufs : RingGpu.Bufs) (ln : Ring.Launch)
    (hln : LaunchOK B p.nlatOut p.nlonOut ln) :
    ∃ bufs', ringStep r p B w P k v q bufs = .ok bufs' ∧ ∀ b < B, ∀ ho < p.nlatOut, ∀ wo < p.nlonOut,
      let acc := gatherKernel P w p.nlonIn p.pscale p.lonLo p.start ln ⟨B, p.nci, p.nlatOut, p.nlonOut, fun b c h w => entryOf p.nlatOut p.nlonOut p.nci q b h w c⟩
        ⟨B, p.nci, p.nlatHalo, p.nlonKx, fun b c h w => entryOf p.nlatHalo p.nlonKx p.nci k b h w c⟩
        ⟨B, p.nco, p.nlatHalo, p.nlonKx, fun b c h w => entryOf p.nlatHalo p.nlonKx p.nco v b h w c⟩
        (fun b t => ⟨entryOf p.nlatOut p.nlonOut p.nco bufs.y b t.1 t.2, bufs.alpha ((b * p.nlatOut + t.1) * p.nlonOut + t.2), bufs.qmax ((b * p.nlatOut + t.1) * p.nlonOut + t.2)⟩) b (ho, wo)
      (∀ c < p.nco, entryOf p.nlatOut p.nlonOut p.nco bufs'.y b ho wo c = acc.y c) ∧ bufs'.alpha ((b * p.nlatOut + ho) * p.nlonOut + wo) = acc.alphaSum ∧
        bufs'.qmax ((b * p.nlatOut + ho) * p.nlonOut + wo) = acc.qmax := by
  classical
  obtain ⟨bufs', e1, e2⟩ := ringStep_ok h0 hr.run hr.rows hr.accepted hr.sched hr.loads w k v q bufs
  refine ⟨bufs', e1, fun b hb ho hho wo hwo => ?_⟩
  intro acc
  obtain ⟨long, hl⟩ := gatherKernel_cell hln P w p.nlonIn p.pscale p.lonLo p.start ⟨B, p.nci, p.nlatOut, p.nlonOut, fun b c h w => entryOf p.nlatOut p.nlonOut p.nci q b h w c⟩
    ⟨B, p.nci, p.nlatHalo, p.nlonKx, fun b c h w => entryOf p.nlatHalo p.nlonKx p.nci k b h w c⟩
    ⟨B, p.nco, p.nlatHalo, p.nlonKx, fun b c h w => entryOf p.nlatHalo p.nlonKx p.nco v b h w c⟩
    (fun b t => ⟨entryOf p.nlatOut p.nlonOut p.nco bufs.y b t.1 t.2, bufs.alpha ((b * p.nlatOut + t.1) * p.nlonOut + t.2), bufs.qmax ((b * p.nlatOut + t.1) * p.nlonOut + t.2)⟩) hb hho hwo
  have hacc : acc = closed (accAt p.nco bufs (outFlat p b ho wo)) (chunk 1 p w P k v q b ho wo) := by
    rw [show acc = _ from hl, gatherCell_closed]
    unfold accAt chunk keyTen valTen queryTen
    rw [outFlat_eq, Nat.mul_one, Nat.mul_one]
    rfl
  have := e2 (outFlat p b ho wo)
  rw [if_pos (outFlat_lt hb hho hwo), chunkAt_outFlat 1 w P k v q hho hwo, ← hacc] at this
  rw [outFlat_eq] at this
  exact ⟨this.2.2, this.1, this.2.1⟩

/-- The accumulators after calls for several blocks; `pt` are the neighbours, as points of the global tensors. -/
theorem fwdRing_inv (B : ℕ) (w : ℕ → ℝ) (P : Pattern) (q : ℕ → ℝ) (nci nco nlatOut nlonOut nlonIn pscale : ℕ) (h0 : 0 < nco) (calls : List Call)
    (hp : ∀ c ∈ calls, c.p.nci = nci ∧ c.p.nco = nco ∧ c.p.nlatOut = nlatOut ∧ c.p.nlonOut = nlonOut ∧ c.p.nlonIn = nlonIn ∧ c.p.pscale = pscale)
    (hr : ∀ c ∈ calls, GoodRun c.r c.p B P) (K V : T4)
    (hK : ∀ c ∈ calls, ∀ b < B, ∀ x, (KvBlock.mk c.p.start c.p.nlatHalo c.p.lonLo c.p.nlonKx).Has x →
      (∀ e < nci, entryOf c.p.nlatHalo c.p.nlonKx nci c.k b ((x.1 : ℤ) - c.p.start).toNat (x.2 - c.p.lonLo) e = K b e x.1 x.2) ∧
      ∀ e < nco, entryOf c.p.nlatHalo c.p.nlonKx nco c.v b ((x.1 : ℤ) - c.p.start).toNat (x.2 - c.p.lonLo) e = V b e x.1 x.2)
    {pt : ℕ → ℕ → ℕ → ℕ × ℕ → Pt} (hpt : pt = fun b ho wo x =>
      ⟨score nci K (fun b e h w => entryOf nlatOut nlonOut nci q b h w e) b ho wo x, w x.1, fun e => V b e x.1 x.2⟩) :
    ∃ bufs, ringSteps B w P q calls RingGpu.Bufs.zero = .ok bufs ∧ ∀ b < B, ∀ ho < nlatOut, ∀ wo < nlonOut,
      ∃ s, AccEq nco (accAt nco bufs ((b * nlatOut + ho) * nlonOut + wo)) s ∧
        Inv ((calls.flatMap fun c => nbrsIn ⟨c.p.start, c.p.nlatHalo, c.p.lonLo, c.p.nlonKx⟩ P nlonIn pscale ho wo).map (pt b ho wo)) s ∧
        s.qmax = phaseMax none ((calls.flatMap fun c => nbrsIn ⟨c.p.start, c.p.nlatHalo, c.p.lonLo, c.p.nlonKx⟩ P nlonIn pscale ho wo).map (pt b ho wo)) := by
  classical
  have key : ∀ L : List Call, L <+: calls → ∃ bufs, ringSteps B w P q L RingGpu.Bufs.zero = .ok bufs ∧ ∀ b < B, ∀ ho < nlatOut, ∀ wo < nlonOut,
      ∃ s, AccEq nco (accAt nco bufs ((b * nlatOut + ho) * nlonOut + wo)) s ∧
        Inv ((L.flatMap fun c => nbrsIn ⟨c.p.start, c.p.nlatHalo, c.p.lonLo, c.p.nlonKx⟩ P nlonIn pscale ho wo).map (pt b ho wo)) s ∧
        s.qmax = phaseMax none ((L.flatMap fun c => nbrsIn ⟨c.p.start, c.p.nlatHalo, c.p.lonLo, c.p.nlonKx⟩ P nlonIn pscale ho wo).map (pt b ho wo)) := by
    intro L
    induction L using List.reverseRecOn with
    | nil => exact fun _ => ⟨_, rfl, fun b _ ho _ wo _ => ⟨Acc.init, ⟨rfl, rfl, fun c _ => rfl⟩, Inv.init, rfl⟩⟩
    | append_singleton L c ih =>
      intro hL
      have hc : c ∈ calls := hL.subset (by simp)
      obtain ⟨b0, i1, i2⟩ := ih ((List.prefix_append _ _).trans hL)
      obtain ⟨p1, p2, p3, p4, p5, p6⟩ := hp c hc
      have hg := hr c hc
      obtain ⟨b1, e1, e2⟩ := ringStep_ok (p2 ▸ h0) hg.run hg.rows hg.accepted hg.sched hg.loads w c.k c.v q b0
      refine ⟨b1, ?_, fun b hb ho hho wo hwo => ?_⟩
      · unfold ringSteps at i1 ⊢
        rw [List.foldlM_append, i1]
        change List.foldlM (m := Except PyErr) (fun bufs (c : Call) => ringStep c.r c.p B w P c.k c.v q bufs) b0 [c] = _
        rw [List.foldlM_cons, e1]
        rfl
      · obtain ⟨s, s1, s2, s5⟩ := i2 b hb ho hho wo hwo
        have := e2 (outFlat c.p b ho wo)
        rw [if_pos (outFlat_lt hb (p3 ▸ hho) (p4 ▸ hwo)), chunkAt_outFlat 1 w P c.k c.v q (p3 ▸ hho) (p4 ▸ hwo), chunk_nbrs, outFlat_eq, p2, p3, p4, p5, p6] at this
        obtain ⟨N, hN⟩ : ∃ N, N = nbrsIn (blockOf c.p) P nlonIn pscale ho wo := ⟨_, rfl⟩
        rw [← hN] at this
        have hmap : AccEq nco (closed (accAt nco b0 ((b * nlatOut + ho) * nlonOut + wo)) (N.map (ptAt c.p w c.k c.v q b ho wo)))
            (closed (accAt nco b0 ((b * nlatOut + ho) * nlonOut + wo)) (N.map (pt b ho wo))) := by
          refine closed_congr nco _ N _ _ fun x hx => ?_
          have hx' : (blockOf c.p).Has x := by
            rw [hN] at hx
            simpa using (List.mem_filter.1 hx).2
          obtain ⟨k1, k2⟩ := hK c hc b hb x hx'
          rw [hpt]
          unfold ptAt
          refine ⟨?_, rfl, fun e he => ?_⟩
          · dsimp only
            rw [p1, p3, p4]
            exact sum_congr rfl fun e he => by rw [k1 e (mem_range.1 he)]
          · dsimp only
            rw [p2]
            exact k2 e he
        refine ⟨closed s (N.map (pt b ho wo)), (this.trans hmap).trans (s1.closed _), ?_, by
          rw [closed_qmax, s5, List.flatMap_append, List.flatMap_singleton, List.map_append, hN]
          exact List.foldl_append.symm⟩
        rw [List.flatMap_append, List.flatMap_singleton, List.map_append, ← threePhase_closed]
        have := s2.threePhase (N.map (pt b ho wo))
        rw [hN] at this ⊢
        exact this
  exact key calls List.prefix_rfl

/-- C92: calls for several blocks, one after the other from empty accumulators: if every neighbour of every output point lies in exactly one block, then the quotient of the
accumulators is the attention. -/
theorem C92_ring (B : ℕ) (w : ℕ → ℝ) (P : Pattern) (q : ℕ → ℝ) (nci nco nlatOut nlonOut nlonIn pscale : ℕ) (h0 : 0 < nco) (calls : List Call)
    (hp : ∀ c ∈ calls, c.p.nci = nci ∧ c.p.nco = nco ∧ c.p.nlatOut = nlatOut ∧ c.p.nlonOut = nlonOut ∧ c.p.nlonIn = nlonIn ∧ c.p.pscale = pscale)
    (hr : ∀ c ∈ calls, GoodRun c.r c.p B P) (K V : T4)
    (hK : ∀ c ∈ calls, ∀ b < B, ∀ x, (KvBlock.mk c.p.start c.p.nlatHalo c.p.lonLo c.p.nlonKx).Has x →
      (∀ e < nci, entryOf c.p.nlatHalo c.p.nlonKx nci c.k b ((x.1 : ℤ) - c.p.start).toNat (x.2 - c.p.lonLo) e = K b e x.1 x.2) ∧
      ∀ e < nco, entryOf c.p.nlatHalo c.p.nlonKx nco c.v b ((x.1 : ℤ) - c.p.start).toNat (x.2 - c.p.lonLo) e = V b e x.1 x.2)
    (hcover : ∀ ho < nlatOut, ∀ wo < nlonOut,
      (calls.flatMap fun c => nbrsIn ⟨c.p.start, c.p.nlatHalo, c.p.lonLo, c.p.nlonKx⟩ P nlonIn pscale ho wo).Perm (gatherNbrs P nlonIn pscale ho wo)) :
    ∃ bufs, ringSteps B w P q calls RingGpu.Bufs.zero = .ok bufs ∧ ∀ b < B, ∀ ho < nlatOut, ∀ wo < nlonOut, ∀ e < nco,
      entryOf nlatOut nlonOut nco bufs.y b ho wo e / bufs.alpha ((b * nlatOut + ho) * nlonOut + wo) =
        attention nci w (gatherNbrs P nlonIn pscale) K V (fun b e h w => entryOf nlatOut nlonOut nci q b h w e) b e ho wo := by
  classical
  -- the neighbours, as points of the global tensors
  obtain ⟨pt, hpt⟩ : ∃ pt : ℕ → ℕ → ℕ → ℕ × ℕ → Pt, pt = fun b ho wo x =>
    ⟨score nci K (fun b e h w => entryOf nlatOut nlonOut nci q b h w e) b ho wo x, w x.1, fun e => V b e x.1 x.2⟩ := ⟨_, rfl⟩
  obtain ⟨bufs, e1, e2⟩ := fwdRing_inv B w P q nci nco nlatOut nlonOut nlonIn pscale h0 calls hp hr K V hK hpt
  refine ⟨bufs, e1, fun b hb ho hho wo hwo e he => ?_⟩
  obtain ⟨s, ⟨s1, -, s3⟩, s4, -⟩ := e2 b hb ho hho wo hwo
  have := s4.avg e
  rw [← s3 e he, ← s1] at this
  change bufs.y (((b * nlatOut + ho) * nlonOut + wo) * nco + e) / bufs.alpha ((b * nlatOut + ho) * nlonOut + wo) = _ at this
  unfold entryOf
  rw [this]
  unfold attention softAvg
  rw [List.map_map, List.map_map, (((hcover ho hho wo hwo).map _).sum_eq), (((hcover ho hho wo hwo).map _).sum_eq)]
  rw [hpt]
  rfl

/-- Sum and maximum of a point, from the sum relative to the maximum. -/
theorem sums_of_inv {L : List (ℕ × ℕ)} {f : ℕ × ℕ → Pt} {L' : List (ℕ × ℕ)} (hL : L'.Perm L) (hne : L ≠ []) {s : Acc} (h : Inv (L'.map f) s) (hq : s.qmax = phaseMax none (L'.map f)) :
    ∃ M, s.qmax = some M ∧ ((∀ u ∈ L, (f u).q ≤ M) ∧ ∃ u ∈ L, (f u).q = M) ∧ s.alphaSum = (L.map fun u => Real.exp ((f u).q - M) * (f u).w).sum := by
  rcases h with ⟨h1, -⟩ | ⟨m, h1, h2, -⟩
  · rw [List.map_eq_nil_iff] at h1
    rw [h1] at hL
    exact absurd hL.symm.eq_nil hne
  · rw [h1] at hq
    refine ⟨m, h1, ⟨fun u hu => ?_, ?_⟩, ?_⟩
    · exact ((leO_phaseMax none (L'.map f) (some m)).1 (by rw [← hq]; exact leO_refl _)).2 (f u) (List.mem_map_of_mem (hL.mem_iff.2 hu))
    · rcases phaseMax_attained none _ hq.symm with h | ⟨t, ht, e⟩
      · cases h
      · obtain ⟨u, hu, rfl⟩ := List.mem_map.1 ht
        exact ⟨u, hL.mem_iff.1 hu, e⟩
    · rw [List.map_map, (hL.map _).sum_eq] at h2
      refine mul_right_cancel₀ (Real.exp_ne_zero m) ?_
      rw [h2, ← list_sum_mul_right]
      refine congrArg List.sum (List.map_congr_left fun u _ => ?_)
      change (f u).w * Real.exp (f u).q = _
      rw [Real.exp_sub]
      field_simp

/-- C92: after these calls the maxima are the greatest scores, and the sums belong to them. -/
theorem C92_sums (B : ℕ) (w : ℕ → ℝ) (P : Pattern) (q : ℕ → ℝ) (nci nco nlatOut nlonOut nlonIn pscale : ℕ) (h0 : 0 < nco) (calls : List Call)
    (hp : ∀ c ∈ calls, c.p.nci = nci ∧ c.p.nco = nco ∧ c.p.nlatOut = nlatOut ∧ c.p.nlonOut = nlonOut ∧ c.p.nlonIn = nlonIn ∧ c.p.pscale = pscale)
    (hr : ∀ c ∈ calls, GoodRun c.r c.p B P) (K V : T4)
    (hK : ∀ c ∈ calls, ∀ b < B, ∀ x, (KvBlock.mk c.p.start c.p.nlatHalo c.p.lonLo c.p.nlonKx).Has x →
      (∀ e < nci, entryOf c.p.nlatHalo c.p.nlonKx nci c.k b ((x.1 : ℤ) - c.p.start).toNat (x.2 - c.p.lonLo) e = K b e x.1 x.2) ∧
      ∀ e < nco, entryOf c.p.nlatHalo c.p.nlonKx nco c.v b ((x.1 : ℤ) - c.p.start).toNat (x.2 - c.p.lonLo) e = V b e x.1 x.2)
    (hcover : ∀ ho < nlatOut, ∀ wo < nlonOut,
      (calls.flatMap fun c => nbrsIn ⟨c.p.start, c.p.nlatHalo, c.p.lonLo, c.p.nlonKx⟩ P nlonIn pscale ho wo).Perm (gatherNbrs P nlonIn pscale ho wo)) :
    ∃ bufs, ringSteps B w P q calls RingGpu.Bufs.zero = .ok bufs ∧ ∀ b < B, ∀ ho < nlatOut, ∀ wo < nlonOut, gatherNbrs P nlonIn pscale ho wo ≠ [] →
      let S : ℕ × ℕ → ℝ := score nci K (fun b e h w => entryOf nlatOut nlonOut nci q b h w e) b ho wo
      let i := (b * nlatOut + ho) * nlonOut + wo
      ∃ M, bufs.qmax i = some M ∧ ((∀ u ∈ gatherNbrs P nlonIn pscale ho wo, S u ≤ M) ∧ ∃ u ∈ gatherNbrs P nlonIn pscale ho wo, S u = M) ∧
        bufs.alpha i = ((gatherNbrs P nlonIn pscale ho wo).map fun u => Real.exp (S u - M) * w u.1).sum := by
  -- the neighbours, as points of the global tensors
  obtain ⟨pt, hpt⟩ : ∃ pt : ℕ → ℕ → ℕ → ℕ × ℕ → Pt, pt = fun b ho wo x =>
    ⟨score nci K (fun b e h w => entryOf nlatOut nlonOut nci q b h w e) b ho wo x, w x.1, fun e => V b e x.1 x.2⟩ := ⟨_, rfl⟩
  obtain ⟨bufs, e1, e2⟩ := fwdRing_inv B w P q nci nco nlatOut nlonOut nlonIn pscale h0 calls hp hr K V hK hpt
  refine ⟨bufs, e1, fun b hb ho hho wo hwo hne => ?_⟩
  obtain ⟨s, ⟨s1, s2, -⟩, s4, s5⟩ := e2 b hb ho hho wo hwo
  intro S i
  obtain ⟨M, m1, ⟨m2, m3⟩, m4⟩ := sums_of_inv (hcover ho hho wo hwo) hne s4 s5
  rw [hpt] at m2 m3 m4
  exact ⟨M, s2.trans m1, ⟨m2, m3⟩, s1.trans m4⟩

/-- C92: a block without channels of values leaves everything as it is; the sums of the weights and the maxima are not kept up. -/
theorem C92_no_channels (r : Run) (p : RingGpu.Params) (h0 : p.nco = 0) (B : ℕ) (w : ℕ → ℝ) (P : Pattern) (k v q : ℕ → ℝ) (bufs : RingGpu.Bufs) :
    ringStep r p B w P k v q bufs = .ok bufs := ringStep_nothing r h0 B w P k v q bufs

/-- C92: a launch that the device does not accept ends the process. -/
theorem C92_refused (r : Run) (p : RingGpu.Params) (B : ℕ) (P : Pattern) (h0 : 0 < p.nco) (hr : RunOk r (groupSize p.nco) p.nlatOut) (hrows : RowsOk r p P) (hs : SchedOk r p B)
    (hl : 512 < p.nco → p.nco ≤ 16384 → 0 < p.nLong → LoadsFirst (bdimxOf p.nco) p B r.sched) (hacc : ¬ Accepted r p B) (w k v q : ℕ → ℝ) (bufs : RingGpu.Bufs) :
    ringStep r p B w P k v q bufs = .error .processExit := ringStep_refused h0 hr hrows hs hl hacc w k v q bufs

/-- An empty batch is one such case. -/
theorem C92_empty_batch (r : Run) (p : RingGpu.Params) (P : Pattern) (h0 : 0 < p.nco) (hlat : 0 < p.nlatOut) (hr : RunOk r (groupSize p.nco) p.nlatOut) (hrows : RowsOk r p P)
    (hs : SchedOk r p 0) (w k v q : ℕ → ℝ) (bufs : RingGpu.Bufs) : ringStep r p 0 w P k v q bufs = .error .processExit := by
  refine C92_refused r p 0 P h0 hr hrows hs (fun _ _ _ l _ g hg => absurd hg.1 (by omega)) (fun h => ?_) w k v q bufs
  rcases Nat.lt_or_ge 16384 p.nco with h1 | h1
  · exact absurd (h.generic h1).2.2.1 (by omega)
  · rcases Nat.eq_zero_or_pos p.nLong with h2 | h2
    · exact absurd (h.short h1 (by omega)).2.2.1 (by omega)
    · exact absurd (h.long h1 h2).resc.2.2.1 (by omega)

/-- A row so long that its entries do not fit into shared memory, in 32 parts, is another one: with at most 512 channels and 227 KiB, rows of more than 185952 entries. The
generic kernel keeps no rows in shared memory. -/
theorem C92_row_too_long (r : Run) (p : RingGpu.Params) (B : ℕ) (P : Pattern) (h0 : 0 < p.nco) (hr : RunOk r (groupSize p.nco) p.nlatOut) (hrows : RowsOk r p P) (hs : SchedOk r p B)
    (hn : p.nco ≤ 512) (hlim : r.limit = 227 * 1024) (hlong : 0 < p.nLong) (hlen : 185952 < p.maxLen) (w k v q : ℕ → ℝ) (bufs : RingGpu.Bufs) :
    ringStep r p B w P k v q bufs = .error .processExit := by
  refine C92_refused r p B P h0 hr hrows hs (fun h => absurd hn (by omega)) (fun h => ?_) w k v q bufs
  have := (h.long (by omega) hlong).fin.2.2.2.2.2.2
  have hc : ctaPerRow p.maxLen = 32 := by
    unfold ctaPerRow divUp
    omega
  rw [hc, if_pos hn, hlim] at this
  unfold divUp at this
  split_ifs at this <;> omega

/-- C92: the split that `split_csr_rows` makes of sorted rows (C90) is the one the kernels need. -/
theorem C92_rows (tenth : ℕ → ℕ) (r : Run) (p : RingGpu.Params) (P : Pattern) (hd : GpuLaunch.Decreasing (GpuLaunch.rlen P.roff) p.nlatOut r.rowIdx)
    (hs : GpuLaunch.splitGpu tenth r.rowIdx P.roff p.nlatOut = ⟨p.nLong, p.maxLen, p.midLen⟩) :
    RowsOk r p P ∧ ((List.range p.nlatOut).map r.rowIdx).Perm (List.range p.nlatOut) := by
  have e := (C90_split tenth P.roff r.rowIdx p.nlatOut hd).2
  rw [hs] at e
  obtain ⟨f1, f2⟩ := C90_prefix tenth P.roff r.rowIdx p.nlatOut hd
  have fb := fun i hi => C90_bounds tenth (GpuLaunch.rlen P.roff) p.nlatOut i hi
  rw [← e] at f1 f2 fb
  dsimp only at f1 f2 fb
  refine ⟨⟨f2, fun h => ?_, fun h hh => ?_, fun h h1 h2 => ?_⟩, ?_⟩
  · have hl := (f1 0 (by omega)).1 h
    have h1 := (fb _ (hd.lt 0 (by omega))).1 hl
    have := hl.1
    omega
  · exact (fb _ (hd.lt h (by omega))).1 ((f1 h (by omega)).1 hh)
  · exact (fb _ (hd.lt h h2)).2 fun hl => absurd ((f1 h h2).2 hl) (by omega)
  · refine (List.perm_ext_iff_of_nodup ?_ List.nodup_range).2 ?_
    · exact List.Nodup.map_on (fun i hi j hj e => hd.inj i (List.mem_range.1 hi) j (List.mem_range.1 hj) e) List.nodup_range
    · have hinj : Set.InjOn r.rowIdx (range p.nlatOut) := fun i hi j hj e => hd.inj i (mem_range.1 hi) j (mem_range.1 hj) e
      have himg : (range p.nlatOut).image r.rowIdx = range p.nlatOut := by
        refine eq_of_subset_of_card_le (fun x hx => ?_) (by rw [card_image_of_injOn hinj])
        obtain ⟨i, hi, rfl⟩ := mem_image.1 hx
        exact mem_range.2 (hd.lt i (mem_range.1 hi))
      intro x
      rw [List.mem_map, List.mem_range]
      constructor
      · rintro ⟨i, hi, rfl⟩
        exact hd.lt i (List.mem_range.1 hi)
      · intro hx
        have : x ∈ (range p.nlatOut).image r.rowIdx := by rw [himg]; exact mem_range.2 hx
        obtain ⟨i, hi, hix⟩ := mem_image.1 this
        exact ⟨i, List.mem_range.2 (mem_range.1 hi), hix⟩

/-- C92, negative: with more than 512 channels, long rows and warps that run one after the other, an order nothing in the kernel forbids, the old sums of channel 160 are not
brought to the new maximum: the result is wrong at every point that has a maximum which the block exceeds and a sum that is not zero. -/
theorem C92_race (r : Run) (p : RingGpu.Params) (B : ℕ) (P : Pattern) (h0 : 512 < p.nco) (h1 : p.nco ≤ 16384) (hr : RunOk r (groupSize p.nco) p.nlatOut) (hrows : RowsOk r p P)
    (hacc : Accepted r p B) (hlong : 0 < p.nLong) (hsched : r.sched = warpAfterWarp B (p.nLong * p.nlonOut) 1 (bdimxOf p.nco / 32)) (w k v q : ℕ → ℝ) (bufs : RingGpu.Bufs) :
    SchedOk r p B ∧ ∃ bufs', ringStep r p B w P k v q bufs = .ok bufs' ∧ ∀ b < B, ∀ h < p.nLong, ∀ wo < p.nlonOut, ∀ o,
      bufs.qmax ((b * p.nlatOut + r.rowIdx h) * p.nlonOut + wo) = some o →
      (∃ x ∈ nbrsIn ⟨p.start, p.nlatHalo, p.lonLo, p.nlonKx⟩ P p.nlonIn p.pscale (r.rowIdx h) wo, o < ∑ c ∈ range p.nci,
        entryOf p.nlatOut p.nlonOut p.nci q b (r.rowIdx h) wo c * entryOf p.nlatHalo p.nlonKx p.nci k b ((x.1 : ℤ) - p.start).toNat (x.2 - p.lonLo) c) →
      entryOf p.nlatOut p.nlonOut p.nco bufs.y b (r.rowIdx h) wo 160 ≠ 0 → ¬ StepDone p B w P k v q bufs bufs' := by
  have hd : divUp (p.nLong * p.nlonOut) 1 = p.nLong * p.nlonOut := by unfold divUp; omega
  have hby : (if p.nco ≤ 512 then 2 else 1) = 1 := if_neg (by omega)
  refine ⟨fun _ _ => ?_, ?_⟩
  · rw [hby, hsched]
    have := warpAfterWarp_complete (by' := 1) (bdimxOf p.nco) p B (by omega)
    rw [hd] at this ⊢
    exact this
  · obtain ⟨bufs', e1, e2⟩ := ringStep_race (by omega) h1 hr hrows hacc hlong (by rw [hby, hd]; exact hsched) w k v q bufs
    refine ⟨bufs', e1, ?_⟩
    intro b hb h hh wo hwo o ho hx hy hdone
    have hrow : r.rowIdx h < p.nlatOut := by
      have : r.rowIdx h ∈ (List.range p.nlatOut).map r.rowIdx := List.mem_map_of_mem (List.mem_range.2 (lt_of_lt_of_le hh hrows.le))
      exact List.mem_range.1 (hr.rows.mem_iff.1 this)
    obtain ⟨x, hx1, hx2⟩ := hx
    have T := hdone.1 b hb (r.rowIdx h) hrow wo hwo
    obtain ⟨n, n1, ⟨-, n3⟩, n4, -, n6⟩ := T.some (List.ne_nil_of_mem hx1)
    have hlt : o < n := lt_of_lt_of_le hx2 (n3 x hx1)
    have e3 := e2 (outFlat p b (r.rowIdx h) wo) ⟨b, hb, h, Nat.zero_le _, hh, wo, hwo, rfl⟩
    rw [chunkAt_outFlat 1 w P k v q hrow hwo, chunk_nbrs, outFlat_eq, ho] at e3
    cases hm : phaseMax (some o) ((nbrsIn (blockOf p) P p.nlonIn p.pscale (r.rowIdx h) wo).map (ptAt p w k v q b (r.rowIdx h) wo)) with
    | none => exact absurd (phaseMax_none hm).1 (by simp)
    | some n' =>
      obtain ⟨⟨e4, -⟩, e5⟩ := e3 n' hm
      rw [n1] at e4
      obtain rfl : n = n' := Option.some.inj e4
      have e6 := e5 160 (by omega) (by
        unfold warpOf
        have hb := bdimxOf_eq p.nco h1
        rw [if_neg (by omega)] at hb
        have hv : vecOf r.vecOk p.nci p.nco = 1 ∨ vecOf r.vecOk p.nci p.nco = 4 := by
          unfold vecOf
          split_ifs <;> simp
        rcases hv with hv | hv <;> rw [hv, hb] <;> split_ifs <;> omega)
      have e7 := n6 160 (by omega)
      unfold entryOf at e7 hy
      rw [e6, ho, List.map_map] at e7
      have e8 : bufs.y (((b * p.nlatOut + r.rowIdx h) * p.nlonOut + wo) * p.nco + 160) =
          carry (some o) n * bufs.y (((b * p.nlatOut + r.rowIdx h) * p.nlonOut + wo) * p.nco + 160) := add_right_cancel e7
      have e9 : carry (some o) n = 1 := by
        have := mul_right_cancel₀ hy ((one_mul _).trans e8)
        exact this.symm
      have : Real.exp (o - n) = 1 := e9
      rw [Real.exp_eq_one_iff] at this
      linarith

/-! ### Cases that meet the hypotheses -/

/-- A run in which everything happens in the order of the program. -/
noncomputable def plainRun (bx : ℕ) (sched : List (ℕ × ℕ × ℕ)) : Run where
  vecOk := true
  limit := 232448
  rowIdx := id
  shared := fun _ _ _ _ => ⟨fun _ => ⟨7, 8, 9⟩, fun _ _ _ => 5, fun _ => List.range bx⟩
  junk := fun _ _ _ _ _ _ _ => 3
  storeY := id
  storeA := id
  storeM := id
  maxM := id
  sched := sched
  addY := id
  addA := id

theorem plainRun_ok (bx nlatOut : ℕ) (sched : List (ℕ × ℕ × ℕ)) : RunOk (plainRun bx sched) bx nlatOut where
  rows := by rw [show (plainRun bx sched).rowIdx = id from rfl, List.map_id]
  order := fun _ _ _ _ _ => List.Perm.refl _
  storeY := fun _ => List.Perm.refl _
  storeA := fun _ => List.Perm.refl _
  storeM := fun _ => List.Perm.refl _
  maxM := fun _ => List.Perm.refl _
  addY := fun _ => List.Perm.refl _
  addA := fun _ => List.Perm.refl _

/-- A long row of 1024 entries and a short one, 576 channels: groups of two warps. -/
def exLong : RingGpu.Params := ⟨4, 576, 1, 1024, 1024, 1024, 0, 0, 2, 1, 1, 1024, 1⟩

def exPat : Pattern := ⟨fun z => z % 1024, fun h => if h = 0 then 0 else if h = 1 then 1024 else 1025⟩

theorem exLong_bx : bdimxOf 576 = 64 := by rw [bdimxOf_eq _ (by norm_num)]; norm_num

theorem exLong_rows (sched : List (ℕ × ℕ × ℕ)) : RowsOk (plainRun 64 sched) exLong exPat where
  le := by decide
  pos := by decide
  long := by
    intro h hh
    obtain rfl : h = 0 := Nat.lt_one_iff.1 hh
    show exPat.roff (0 + 1) - exPat.roff 0 ≤ 1024
    decide
  short := by
    intro h h1 h2
    have h3 : h < 2 := h2
    have h4 : 1 ≤ h := h1
    obtain rfl : h = 1 := by omega
    show exPat.roff (1 + 1) - exPat.roff 1 ≤ 1
    decide

theorem exLong_accepted (sched : List (ℕ × ℕ × ℕ)) : Accepted (plainRun 64 sched) exLong 3 where
  generic := by intro h; exact absurd h (by decide)
  short := by
    intro _ _
    show fits _ _ _ _ _ (staticShared (bdimxOf 576))
    rw [exLong_bx]
    show fits 232448 _ _ _ _ _
    decide
  long := by
    intro _ _
    show LongFits _ _ _ (bdimxOf 576) _ _ _
    rw [exLong_bx]
    exact ⟨by show fits 232448 _ _ _ _ _; decide, by show fits 232448 _ _ _ _ _; decide, by show fits 232448 _ _ _ _ _; decide⟩

/-- The warps of each sample load, then they store. -/
def exSched : List (ℕ × ℕ × ℕ) := (List.range 3).flatMap fun b => [(b, 0, 0), (b, 0, 1), (b, 0, 0), (b, 0, 1)]

theorem exLong_good : GoodRun (plainRun 64 exSched) exLong 3 exPat where
  run := by
    show RunOk _ (groupSize 576) _
    unfold groupSize
    rw [if_pos (by norm_num), exLong_bx]
    exact plainRun_ok _ _ _
  rows := exLong_rows _
  accepted := exLong_accepted _
  sched := by
    intro _ _
    show Complete (bdimxOf 576) _ _ _ _ _
    rw [exLong_bx]
    refine ⟨by decide, ?_⟩
    rintro ⟨b, wid⟩ ⟨g1, g2⟩ wp hw
    have h1 : b < 3 := g1
    have h2 : wid < 1 := g2
    have h3 : wp < 2 := hw
    interval_cases b <;> interval_cases wid <;> interval_cases wp <;> decide
  loads := by
    intro _ _ _
    show LoadsFirst (bdimxOf 576) _ _ _
    rw [exLong_bx]
    rintro l hl ⟨b, wid⟩ ⟨g1, g2⟩ hc wp hw
    have h1 : b < 3 := g1
    have h2 : wid < 1 := g2
    have h3 : wp < 2 := hw
    have hlen : l.length ≤ 12 := hl.length_le
    rw [List.prefix_iff_eq_take.1 hl] at hc ⊢
    change l.length ≤ 12 at hlen
    generalize l.length = m at *
    interval_cases b <;> interval_cases wid <;> interval_cases wp <;> interval_cases m <;> revert hc <;> decide

example (w k v q : ℕ → ℝ) (bufs : RingGpu.Bufs) :
    ∃ bufs', ringStep (plainRun 64 exSched) exLong 3 w exPat k v q bufs = .ok bufs' ∧ StepDone exLong 3 w exPat k v q bufs bufs' :=
  C92_step _ _ _ _ exLong_good (by decide) w k v q bufs

/-- Points as `C92_race` has them exist: the score 1 exceeds the old maximum 0. -/
example : ∃ (w k v q : ℕ → ℝ) (bufs bufs' : RingGpu.Bufs), ringStep (plainRun 64 (warpAfterWarp 3 1 1 2)) exLong 3 w exPat k v q bufs = .ok bufs' ∧
    ¬ StepDone exLong 3 w exPat k v q bufs bufs' := by
  refine ⟨fun _ => 1, fun _ => 1, fun _ => 1, fun _ => 1 / 4, ⟨fun _ => 1, fun _ => 1, fun _ => some 0⟩, ?_⟩
  obtain ⟨-, bufs', e1, e2⟩ := C92_race (plainRun 64 (warpAfterWarp 3 1 1 2)) exLong 3 exPat (by decide) (by decide) (by
    show RunOk _ (groupSize 576) _
    unfold groupSize
    rw [if_pos (by norm_num), exLong_bx]
    exact plainRun_ok _ _ _) (exLong_rows _) (exLong_accepted _) (by decide) (by
      show _ = warpAfterWarp 3 (1 * 1) 1 (bdimxOf 576 / 32)
      rw [exLong_bx]
      rfl) (fun _ => 1) (fun _ => 1) (fun _ => 1) (fun _ => 1 / 4) ⟨fun _ => 1, fun _ => 1, fun _ => some 0⟩
  refine ⟨bufs', e1, e2 0 (by norm_num) 0 (by decide) 0 (by decide) 0 rfl ⟨(0, 0), ?_, ?_⟩ ?_⟩
  · unfold nbrsIn
    rw [List.mem_filter]
    refine ⟨?_, by decide⟩
    unfold gatherNbrs
    exact List.mem_map.2 ⟨0, by unfold Pattern.row; rw [List.mem_range'_1]; decide, rfl⟩
  · unfold entryOf
    show (0 : ℝ) < ∑ c ∈ range 4, _
    norm_num
  · unfold entryOf
    norm_num

/-- Two blocks of one longitude each make up the input of two longitudes. -/
def exHalf (lo : ℕ) : RingGpu.Params := ⟨1, 1, 1, 1, 2, 2, lo, 0, 1, 1, 0, 0, 2⟩

def exPair : Pattern := ⟨fun z => z, fun h => 2 * h⟩

theorem exHalf_good (lo : ℕ) : GoodRun (plainRun 32 []) (exHalf lo) 1 exPair where
  run := by
    show RunOk _ (groupSize 1) _
    unfold groupSize
    rw [if_pos (by norm_num), bdimxOf_eq _ (by norm_num)]
    exact plainRun_ok _ _ _
  rows := ⟨by show 0 ≤ 1; norm_num, by intro h; exact absurd h (Nat.lt_irrefl 0), by intro h hh; exact absurd hh (Nat.not_lt_zero _), by
    intro h _ h2
    show 2 * (h + 1) - 2 * h ≤ 2
    omega⟩
  accepted := by
    refine ⟨fun h => absurd h (by show ¬ 16384 < 1; norm_num), fun _ _ => ?_, fun _ h => absurd h (Nat.lt_irrefl 0)⟩
    show fits _ _ _ _ _ (staticShared (bdimxOf 1))
    rw [bdimxOf_eq _ (by norm_num)]
    have : fits 232448 (divUp ((1 - 0) * 1) 2) 1 1 ((4 * 1 + 20 * 2) * 2) (staticShared 32) := by decide
    exact this
  sched := fun _ h => absurd h (Nat.lt_irrefl 0)
  loads := fun h => absurd h (by show ¬ 512 < 1; norm_num)

example (w q : ℕ → ℝ) (K V : T4) :
    ∃ bufs, ringSteps 1 w exPair q [⟨plainRun 32 [], exHalf 0, fun _ => K 0 0 0 0, fun _ => V 0 0 0 0⟩, ⟨plainRun 32 [], exHalf 1, fun _ => K 0 0 0 1, fun _ => V 0 0 0 1⟩]
        RingGpu.Bufs.zero = .ok bufs ∧ ∀ b < 1, ∀ ho < 1, ∀ wo < 1, ∀ e < 1,
      entryOf 1 1 1 bufs.y b ho wo e / bufs.alpha ((b * 1 + ho) * 1 + wo) =
        attention 1 w (gatherNbrs exPair 2 2) K V (fun b e h w => entryOf 1 1 1 q b h w e) b e ho wo := by
  refine C92_ring 1 w exPair q 1 1 1 1 2 2 (by norm_num) _ ?_ ?_ K V ?_ ?_
  · intro c hc
    rw [List.mem_cons, List.mem_singleton] at hc
    rcases hc with rfl | rfl <;> exact ⟨rfl, rfl, rfl, rfl, rfl, rfl⟩
  · intro c hc
    rw [List.mem_cons, List.mem_singleton] at hc
    rcases hc with rfl | rfl <;> exact exHalf_good _
  · intro c hc b hb x hx
    rw [List.mem_cons, List.mem_singleton] at hc
    obtain rfl : b = 0 := by omega
    obtain ⟨x1, x2⟩ := x
    rcases hc with rfl | rfl
    · obtain ⟨a1, a2, a3, a4⟩ := hx
      dsimp only [exHalf] at a1 a2 a3 a4
      obtain rfl : x1 = 0 := by omega
      obtain rfl : x2 = 0 := by omega
      exact ⟨fun e he => by rw [Nat.lt_one_iff.1 he]; rfl, fun e he => by rw [Nat.lt_one_iff.1 he]; rfl⟩
    · obtain ⟨a1, a2, a3, a4⟩ := hx
      dsimp only [exHalf] at a1 a2 a3 a4
      obtain rfl : x1 = 0 := by omega
      obtain rfl : x2 = 1 := by omega
      exact ⟨fun e he => by rw [Nat.lt_one_iff.1 he]; rfl, fun e he => by rw [Nat.lt_one_iff.1 he]; rfl⟩
  · intro ho hho wo hwo
    obtain rfl : ho = 0 := by omega
    obtain rfl : wo = 0 := by omega
    show (nbrsIn ⟨0, 1, 0, 1⟩ exPair 2 2 0 0 ++ (nbrsIn ⟨0, 1, 1, 1⟩ exPair 2 2 0 0 ++ [])).Perm (gatherNbrs exPair 2 2 0 0)
    decide

/-- Less than 48 KiB of dynamic shared memory, but more with the static part, for which nothing is asked: 576 channels and 12288 of the query. -/
example (sched : List (ℕ × ℕ × ℕ)) : ¬ Accepted (plainRun 64 sched) ⟨12288, 576, 1, 1, 1, 1, 0, 0, 1, 1, 0, 0, 0⟩ 1 := by
  intro h
  have := h.short (by decide) (by decide)
  change fits _ _ _ _ _ (staticShared (bdimxOf 576)) at this
  rw [exLong_bx] at this
  have := this.2.2.2.2.2.2
  change (4 * 12288 + 20 * 0) * (if 576 ≤ 512 then 2 else 1) + staticShared 64 ≤ if (4 * 12288 + 20 * 0) * (if 576 ≤ 512 then 2 else 1) ≤ 49152 then 49152 else 232448 at this
  revert this
  decide

end Verif.Props
