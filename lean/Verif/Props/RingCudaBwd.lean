import Verif.Lemmas.RingCudaBwdSpec
import Verif.Props.RingCuda
/-!
C95: the first backward pass of one step of distributed neighbourhood attention on the GPU, thread by thread.
-/
namespace Verif.Props
open Verif Verif.Attn Verif.Spec.Attn Verif.AttnGpu Verif.Ring Verif.Spec.Ring Verif.RingGpu Verif.Spec.RingStep Finset

/-- What a call does to every output point: the neighbours that lie in its block of keys and values are taken up in all five accumulators; nothing else changes. -/
def BStepDone (p : RingGpu.Params) (B : ℕ) (x : BIn) (bufs bufs' : BBufs) : Prop :=
  (∀ b < B, ∀ ho < p.nlatOut, ∀ wo < p.nlonOut,
    TakesUpBwd (nbrsIn ⟨p.start, p.nlatHalo, p.lonLo, p.nlonKx⟩ x.P p.nlonIn p.pscale ho wo)
      (fun y => ∑ c ∈ range p.nci, entryOf p.nlatOut p.nlonOut p.nci x.q b ho wo c * entryOf p.nlatHalo p.nlonKx p.nci x.k b ((y.1 : ℤ) - p.start).toNat (y.2 - p.lonLo) c)
      (fun y => x.w y.1)
      (fun y => ∑ c ∈ range p.nco, entryOf p.nlatOut p.nlonOut p.nco x.dy b ho wo c * entryOf p.nlatHalo p.nlonKx p.nco x.v b ((y.1 : ℤ) - p.start).toNat (y.2 - p.lonLo) c)
      (fun y c => entryOf p.nlatHalo p.nlonKx p.nci x.k b ((y.1 : ℤ) - p.start).toNat (y.2 - p.lonLo) c) p.nci
      (bufs.alpha ((b * p.nlatOut + ho) * p.nlonOut + wo)) (bufs'.alpha ((b * p.nlatOut + ho) * p.nlonOut + wo))
      (bufs.qmax ((b * p.nlatOut + ho) * p.nlonOut + wo)) (bufs'.qmax ((b * p.nlatOut + ho) * p.nlonOut + wo))
      (bufs.integral ((b * p.nlatOut + ho) * p.nlonOut + wo)) (bufs'.integral ((b * p.nlatOut + ho) * p.nlonOut + wo))
      (entryOf p.nlatOut p.nlonOut p.nci bufs.kacc b ho wo) (entryOf p.nlatOut p.nlonOut p.nci bufs'.kacc b ho wo)
      (entryOf p.nlatOut p.nlonOut p.nci bufs.kvw b ho wo) (entryOf p.nlatOut p.nlonOut p.nci bufs'.kvw b ho wo)) ∧
  ∀ i, B * p.nlatOut * p.nlonOut ≤ i → bufs'.alpha i = bufs.alpha i ∧ bufs'.qmax i = bufs.qmax i ∧ bufs'.integral i = bufs.integral i ∧
    ∀ c < p.nci, bufs'.kacc (i * p.nci + c) = bufs.kacc (i * p.nci + c) ∧ bufs'.kvw (i * p.nci + c) = bufs.kvw (i * p.nci + c)

theorem bStepDone_of_effect {p : RingGpu.Params} {B : ℕ} {x : BIn} {bufs bufs' : BBufs}
    (h : ∀ two, BEffect1 two p x (fun i => i < B * p.nlatOut * p.nlonOut) bufs bufs') : BStepDone p B x bufs bufs' := by
  classical
  refine ⟨fun b hb ho hho wo hwo => takesUpBwd_of_pack (pack_step h hb hho hwo), fun i hi => ?_⟩
  have hf := h false i
  have ht := h true i
  rw [if_neg (by omega)] at hf ht
  exact ⟨hf.1, hf.2.1, ht.1, fun c hc => ⟨hf.2.2 c hc, ht.2.2 c hc⟩⟩

/-- C95: whatever the order in which threads, warps and atomic operations run, whatever uninitialised memory holds, whether numbers are loaded one by one or four at a time, and
whichever kernels the dispatcher takes, every output point takes up the neighbours in the block, once each, in all five accumulators, and no memory outside the arrays is touched. -/
theorem C95_step (r : BRun) (p : RingGpu.Params) (B : ℕ) (x : BIn) (hr : BGoodRun r p B x.P) (h0 : 0 < p.nci) (bufs : BBufs) :
    ∃ bufs', ringBwdStep r p B x bufs = .ok bufs' ∧ BStepDone p B x bufs bufs' := by
  obtain ⟨bufs', e1, e2⟩ := ringBwdStep_ok h0 hr.run hr.rows hr.accepted hr.sched hr.loads bufs
  exact ⟨bufs', e1, bStepDone_of_effect e2⟩

/-- C95: two runs leave the same accumulators. -/
theorem C95_deterministic (r r' : BRun) (p : RingGpu.Params) (B : ℕ) (x : BIn) (hr : BGoodRun r p B x.P) (hr' : BGoodRun r' p B x.P) (h0 : 0 < p.nci) (bufs : BBufs) :
    ∃ bufs', ringBwdStep r p B x bufs = .ok bufs' ∧ ringBwdStep r' p B x bufs = .ok bufs' := by
  obtain ⟨b1, e1, e2⟩ := ringBwdStep_ok h0 hr.run hr.rows hr.accepted hr.sched hr.loads bufs
  obtain ⟨b2, f1, f2⟩ := ringBwdStep_ok h0 hr'.run hr'.rows hr'.accepted hr'.sched hr'.loads bufs
  have hall : ∀ two i, AccEq p.nci (accAt p.nci (b1.half two) i) (accAt p.nci (b2.half two) i) := by
    intro two i
    obtain ⟨a1, a2, a3⟩ := e2 two i
    obtain ⟨c1, c2, c3⟩ := f2 two i
    exact ⟨a1.trans c1.symm, a2.trans c2.symm, fun c hc => (a3 c hc).trans (c3 c hc).symm⟩
  have hy : ∀ two a, (b1.half two).y a = (b2.half two).y a := by
    intro two a
    have := (hall two (a / p.nci)).2.2 (a % p.nci) (Nat.mod_lt _ h0)
    change (b1.half two).y (a / p.nci * p.nci + a % p.nci) = (b2.half two).y (a / p.nci * p.nci + a % p.nci) at this
    rwa [Nat.div_add_mod'] at this
  refine ⟨b1, e1, ?_⟩
  rw [f1]
  congr 1
  obtain ⟨A1, A2, A3, A4, A5⟩ := b1
  obtain ⟨D1, D2, D3, D4, D5⟩ := b2
  obtain rfl : A1 = D1 := funext fun i => (hall false i).1
  obtain rfl : A2 = D2 := funext fun i => (hall false i).2.1
  obtain rfl : A3 = D3 := funext fun i => (hall true i).1
  obtain rfl : A4 = D4 := funext fun i => hy false i
  obtain rfl : A5 = D5 := funext fun i => hy true i
  rfl

/-- C95: the kernels do what the model of the ring in C53 says of them, so that C53 holds of the threads. -/
theorem C95_refines (r : BRun) (p : RingGpu.Params) (B : ℕ) (x : BIn) (hr : BGoodRun r p B x.P) (h0 : 0 < p.nci) (bufs : BBufs) (ln : Ring.Launch)
    (hln : LaunchOK B p.nlatOut p.nlonOut ln) :
    ∃ bufs', ringBwdStep r p B x bufs = .ok bufs' ∧ ∀ b < B, ∀ ho < p.nlatOut, ∀ wo < p.nlonOut,
      let acc := bGatherKernel x.P x.w p.nlonIn p.pscale p.lonLo p.start ln ⟨B, p.nci, p.nlatOut, p.nlonOut, fun b c h w => entryOf p.nlatOut p.nlonOut p.nci x.q b h w c⟩
        ⟨B, p.nco, p.nlatOut, p.nlonOut, fun b c h w => entryOf p.nlatOut p.nlonOut p.nco x.dy b h w c⟩
        ⟨B, p.nci, p.nlatHalo, p.nlonKx, fun b c h w => entryOf p.nlatHalo p.nlonKx p.nci x.k b h w c⟩
        ⟨B, p.nco, p.nlatHalo, p.nlonKx, fun b c h w => entryOf p.nlatHalo p.nlonKx p.nco x.v b h w c⟩
        (fun b t => ⟨bufs.alpha ((b * p.nlatOut + t.1) * p.nlonOut + t.2), bufs.qmax ((b * p.nlatOut + t.1) * p.nlonOut + t.2),
          ⟨bufs.integral ((b * p.nlatOut + t.1) * p.nlonOut + t.2), entryOf p.nlatOut p.nlonOut p.nci bufs.kacc b t.1 t.2, entryOf p.nlatOut p.nlonOut p.nci bufs.kvw b t.1 t.2⟩⟩) b (ho, wo)
      bufs'.alpha ((b * p.nlatOut + ho) * p.nlonOut + wo) = acc.alphaSum ∧ bufs'.qmax ((b * p.nlatOut + ho) * p.nlonOut + wo) = acc.qmax ∧
        bufs'.integral ((b * p.nlatOut + ho) * p.nlonOut + wo) = acc.st.integral ∧
        ∀ c < p.nci, entryOf p.nlatOut p.nlonOut p.nci bufs'.kacc b ho wo c = acc.st.alphaK c ∧ entryOf p.nlatOut p.nlonOut p.nci bufs'.kvw b ho wo c = acc.st.alphaKvw c := by
  obtain ⟨bufs', e1, e2⟩ := ringBwdStep_ok h0 hr.run hr.rows hr.accepted hr.sched hr.loads bufs
  refine ⟨bufs', e1, fun b hb ho hho wo hwo => ?_⟩
  intro acc
  obtain ⟨long, hl⟩ := bGatherKernel_cell hln x.P x.w p.nlonIn p.pscale p.lonLo p.start ⟨B, p.nci, p.nlatOut, p.nlonOut, fun b c h w => entryOf p.nlatOut p.nlonOut p.nci x.q b h w c⟩
    ⟨B, p.nco, p.nlatOut, p.nlonOut, fun b c h w => entryOf p.nlatOut p.nlonOut p.nco x.dy b h w c⟩
    ⟨B, p.nci, p.nlatHalo, p.nlonKx, fun b c h w => entryOf p.nlatHalo p.nlonKx p.nci x.k b h w c⟩
    ⟨B, p.nco, p.nlatHalo, p.nlonKx, fun b c h w => entryOf p.nlatHalo p.nlonKx p.nco x.v b h w c⟩
    (fun b t => ⟨bufs.alpha ((b * p.nlatOut + t.1) * p.nlonOut + t.2), bufs.qmax ((b * p.nlatOut + t.1) * p.nlonOut + t.2),
      ⟨bufs.integral ((b * p.nlatOut + t.1) * p.nlonOut + t.2), entryOf p.nlatOut p.nlonOut p.nci bufs.kacc b t.1 t.2, entryOf p.nlatOut p.nlonOut p.nci bufs.kvw b t.1 t.2⟩⟩) hb hho hwo
  have hacc : pack acc = closed (pack (bAt p.nci bufs ((b * p.nlatOut + ho) * p.nlonOut + wo)))
      ((nbrsIn (blockOf p) x.P p.nlonIn p.pscale ho wo).map fun y => packPt (bptAt p x b ho wo y)) := by
    rw [show acc = _ from hl, pack_gatherCell, gatherCell_closed]
    unfold chunkPts
    rw [hits_nbrs p x.P _ rfl rfl, List.map_map]
    rfl
  have := pack_step e2 hb hho hwo
  rw [← hacc] at this
  obtain ⟨a1, a2, a3⟩ := this
  refine ⟨a1, a2, a3 0 (by omega), fun c hc => ⟨?_, ?_⟩⟩
  · have := a3 (2 * c + 1) (by omega)
    rw [pack_odd, pack_odd] at this
    exact this
  · have := a3 (2 * c + 2) (by omega)
    rw [pack_even, pack_even] at this
    exact this

/-- The accumulators after calls for several blocks; `pt` are the neighbours, as points of the global tensors. -/
theorem bwdRing_inv (B : ℕ) (w : ℕ → ℝ) (P : Pattern) (q dy : ℕ → ℝ) (nci nco nlatOut nlonOut nlonIn pscale : ℕ) (h0 : 0 < nci) (calls : List BCall)
    (hp : ∀ c ∈ calls, c.p.nci = nci ∧ c.p.nco = nco ∧ c.p.nlatOut = nlatOut ∧ c.p.nlonOut = nlonOut ∧ c.p.nlonIn = nlonIn ∧ c.p.pscale = pscale)
    (hr : ∀ c ∈ calls, BGoodRun c.r c.p B P) (K V : T4)
    (hK : ∀ c ∈ calls, ∀ b < B, ∀ x, (KvBlock.mk c.p.start c.p.nlatHalo c.p.lonLo c.p.nlonKx).Has x →
      (∀ e < nci, entryOf c.p.nlatHalo c.p.nlonKx nci c.k b ((x.1 : ℤ) - c.p.start).toNat (x.2 - c.p.lonLo) e = K b e x.1 x.2) ∧
      ∀ e < nco, entryOf c.p.nlatHalo c.p.nlonKx nco c.v b ((x.1 : ℤ) - c.p.start).toNat (x.2 - c.p.lonLo) e = V b e x.1 x.2)
    {pt : ℕ → ℕ → ℕ → ℕ × ℕ → BPt} (hpt : pt = fun b ho wo x =>
      ⟨score nci K (fun b e h w => entryOf nlatOut nlonOut nci q b h w e) b ho wo x, w x.1,
        ∑ c ∈ range nco, entryOf nlatOut nlonOut nco dy b ho wo c * V b c x.1 x.2, fun e => K b e x.1 x.2⟩) :
    ∃ bufs, ringBwdSteps B w P q dy calls BBufs.zero = .ok bufs ∧ ∀ b < B, ∀ ho < nlatOut, ∀ wo < nlonOut,
      ∃ s, AccEq (2 * nci + 1) (pack (bAt nci bufs ((b * nlatOut + ho) * nlonOut + wo))) s ∧
        Inv ((calls.flatMap fun c => nbrsIn ⟨c.p.start, c.p.nlatHalo, c.p.lonLo, c.p.nlonKx⟩ P nlonIn pscale ho wo).map fun y => packPt (pt b ho wo y)) s ∧
        s.qmax = phaseMax none ((calls.flatMap fun c => nbrsIn ⟨c.p.start, c.p.nlatHalo, c.p.lonLo, c.p.nlonKx⟩ P nlonIn pscale ho wo).map fun y => packPt (pt b ho wo y)) := by
  have key : ∀ L : List BCall, L <+: calls → ∃ bufs, ringBwdSteps B w P q dy L BBufs.zero = .ok bufs ∧ ∀ b < B, ∀ ho < nlatOut, ∀ wo < nlonOut,
      ∃ s, AccEq (2 * nci + 1) (pack (bAt nci bufs ((b * nlatOut + ho) * nlonOut + wo))) s ∧
        Inv ((L.flatMap fun c => nbrsIn ⟨c.p.start, c.p.nlatHalo, c.p.lonLo, c.p.nlonKx⟩ P nlonIn pscale ho wo).map fun y => packPt (pt b ho wo y)) s ∧
        s.qmax = phaseMax none ((L.flatMap fun c => nbrsIn ⟨c.p.start, c.p.nlatHalo, c.p.lonLo, c.p.nlonKx⟩ P nlonIn pscale ho wo).map fun y => packPt (pt b ho wo y)) := by
    intro L
    induction L using List.reverseRecOn with
    | nil =>
      refine fun _ => ⟨_, rfl, fun b _ ho _ wo _ => ⟨Acc.init, ⟨rfl, rfl, fun c _ => ?_⟩, Inv.init, rfl⟩⟩
      show packStats ⟨0, fun _ => 0, fun _ => 0⟩ c = 0
      unfold packStats
      split_ifs <;> rfl
    | append_singleton L c ih =>
      intro hL
      have hc : c ∈ calls := hL.subset (by simp)
      obtain ⟨b0, i1, i2⟩ := ih ((List.prefix_append _ _).trans hL)
      obtain ⟨p1, p2, p3, p4, p5, p6⟩ := hp c hc
      have hg := hr c hc
      obtain ⟨b1, e1, e2⟩ := ringBwdStep_ok (x := ⟨w, P, c.k, c.v, q, dy⟩) (p1 ▸ h0) hg.run hg.rows hg.accepted hg.sched hg.loads b0
      refine ⟨b1, ?_, fun b hb ho hho wo hwo => ?_⟩
      · unfold ringBwdSteps at i1 ⊢
        rw [List.foldlM_append, i1]
        change List.foldlM (m := Except PyErr) (fun bufs (c : BCall) => ringBwdStep c.r c.p B ⟨w, P, c.k, c.v, q, dy⟩ bufs) b0 [c] = _
        rw [List.foldlM_cons, e1]
        rfl
      · obtain ⟨s, s1, s2, s5⟩ := i2 b hb ho hho wo hwo
        have := pack_step e2 hb (show ho < c.p.nlatOut from p3 ▸ hho) (show wo < c.p.nlonOut from p4 ▸ hwo)
        rw [p1, p3, p4, p5, p6] at this
        dsimp only at this
        obtain ⟨N, hN⟩ : ∃ N, N = nbrsIn (blockOf c.p) P nlonIn pscale ho wo := ⟨_, rfl⟩
        rw [← hN] at this
        have hmap : AccEq (2 * nci + 1) (closed (pack (bAt nci b0 ((b * nlatOut + ho) * nlonOut + wo))) (N.map fun y => packPt (bptAt c.p ⟨w, P, c.k, c.v, q, dy⟩ b ho wo y)))
            (closed (pack (bAt nci b0 ((b * nlatOut + ho) * nlonOut + wo))) (N.map fun y => packPt (pt b ho wo y))) := by
          refine closed_congr (2 * nci + 1) _ N _ _ fun x hx => ?_
          have hx' : (blockOf c.p).Has x := by
            rw [hN] at hx
            simpa using (List.mem_filter.1 hx).2
          obtain ⟨k1, k2⟩ := hK c hc b hb x hx'
          have hgr : (bptAt c.p ⟨w, P, c.k, c.v, q, dy⟩ b ho wo x).g = (pt b ho wo x).g := by
            rw [hpt]
            unfold bptAt
            dsimp only
            rw [p2, p3, p4]
            exact sum_congr rfl fun e he => by rw [k2 e (mem_range.1 he)]
          have hks : ∀ e < nci, (bptAt c.p ⟨w, P, c.k, c.v, q, dy⟩ b ho wo x).k e = (pt b ho wo x).k e := by
            intro e he
            rw [hpt]
            unfold bptAt
            dsimp only
            rw [p1]
            exact k1 e he
          refine ⟨?_, by rw [hpt]; rfl, fun n hn => ?_⟩
          · rw [hpt]
            unfold bptAt packPt
            dsimp only
            rw [p1, p3, p4]
            exact sum_congr rfl fun e he => by rw [k1 e (mem_range.1 he)]
          · rcases Nat.eq_zero_or_pos n with rfl | hpos
            · exact hgr
            · rcases Nat.even_or_odd' n with ⟨c, rfl | rfl⟩
              · obtain ⟨d, rfl⟩ : ∃ d, c = d + 1 := ⟨c - 1, by omega⟩
                have e : 2 * (d + 1) = 2 * d + 2 := by ring
                rw [e, packPt_even, packPt_even, hgr, hks d (by omega)]
              · rw [packPt_odd, packPt_odd, hks _ (by omega)]
        refine ⟨closed s (N.map fun y => packPt (pt b ho wo y)), (this.trans hmap).trans (s1.closed _), ?_, by
          rw [closed_qmax, s5, List.flatMap_append, List.flatMap_singleton, List.map_append, hN]
          exact List.foldl_append.symm⟩
        rw [List.flatMap_append, List.flatMap_singleton, List.map_append, ← threePhase_closed]
        have := s2.threePhase (N.map fun y => packPt (pt b ho wo y))
        rw [hN] at this ⊢
        exact this
  exact key calls List.prefix_rfl

/-- C95: calls for several blocks, one after the other from empty accumulators: if every neighbour of every output point lies in exactly one block, then the quotients of the
accumulators are the attention averages of `dy . v`, of the keys, and of their products. -/
theorem C95_ring (B : ℕ) (w : ℕ → ℝ) (P : Pattern) (q dy : ℕ → ℝ) (nci nco nlatOut nlonOut nlonIn pscale : ℕ) (h0 : 0 < nci) (calls : List BCall)
    (hp : ∀ c ∈ calls, c.p.nci = nci ∧ c.p.nco = nco ∧ c.p.nlatOut = nlatOut ∧ c.p.nlonOut = nlonOut ∧ c.p.nlonIn = nlonIn ∧ c.p.pscale = pscale)
    (hr : ∀ c ∈ calls, BGoodRun c.r c.p B P) (K V : T4)
    (hK : ∀ c ∈ calls, ∀ b < B, ∀ x, (KvBlock.mk c.p.start c.p.nlatHalo c.p.lonLo c.p.nlonKx).Has x →
      (∀ e < nci, entryOf c.p.nlatHalo c.p.nlonKx nci c.k b ((x.1 : ℤ) - c.p.start).toNat (x.2 - c.p.lonLo) e = K b e x.1 x.2) ∧
      ∀ e < nco, entryOf c.p.nlatHalo c.p.nlonKx nco c.v b ((x.1 : ℤ) - c.p.start).toNat (x.2 - c.p.lonLo) e = V b e x.1 x.2)
    (hcover : ∀ ho < nlatOut, ∀ wo < nlonOut,
      (calls.flatMap fun c => nbrsIn ⟨c.p.start, c.p.nlatHalo, c.p.lonLo, c.p.nlonKx⟩ P nlonIn pscale ho wo).Perm (gatherNbrs P nlonIn pscale ho wo)) :
    ∃ bufs, ringBwdSteps B w P q dy calls BBufs.zero = .ok bufs ∧ ∀ b < B, ∀ ho < nlatOut, ∀ wo < nlonOut,
      let Q : T4 := fun b e h w => entryOf nlatOut nlonOut nci q b h w e
      let G : T4 := fun b _ h x => ∑ c ∈ range nco, entryOf nlatOut nlonOut nco dy b ho wo c * V b c h x
      let i := (b * nlatOut + ho) * nlonOut + wo
      bufs.integral i / bufs.alpha i = attention nci w (gatherNbrs P nlonIn pscale) K G Q b 0 ho wo ∧
      ∀ e < nci, entryOf nlatOut nlonOut nci bufs.kacc b ho wo e / bufs.alpha i = attention nci w (gatherNbrs P nlonIn pscale) K K Q b e ho wo ∧
        entryOf nlatOut nlonOut nci bufs.kvw b ho wo e / bufs.alpha i = attention nci w (gatherNbrs P nlonIn pscale) K (fun b c h x => G b c h x * K b c h x) Q b e ho wo := by
  -- the neighbours, as points of the global tensors
  obtain ⟨pt, hpt⟩ : ∃ pt : ℕ → ℕ → ℕ → ℕ × ℕ → BPt, pt = fun b ho wo x =>
    ⟨score nci K (fun b e h w => entryOf nlatOut nlonOut nci q b h w e) b ho wo x, w x.1,
      ∑ c ∈ range nco, entryOf nlatOut nlonOut nco dy b ho wo c * V b c x.1 x.2, fun e => K b e x.1 x.2⟩ := ⟨_, rfl⟩
  obtain ⟨bufs, e1, e2⟩ := bwdRing_inv B w P q dy nci nco nlatOut nlonOut nlonIn pscale h0 calls hp hr K V hK hpt
  refine ⟨bufs, e1, fun b hb ho hho wo hwo => ?_⟩
  obtain ⟨s, ⟨s1, -, s3⟩, s4, -⟩ := e2 b hb ho hho wo hwo
  intro Q G i
  have havg : ∀ (X : T4) (n c : ℕ), n < 2 * nci + 1 → (∀ y, (packPt (pt b ho wo y)).v n = X b c y.1 y.2) →
      (pack (bAt nci bufs i)).y n / bufs.alpha i = attention nci w (gatherNbrs P nlonIn pscale) K X Q b c ho wo := by
    intro X n c hn hX
    have := s4.avg n
    rw [← s3 n hn, ← s1] at this
    change (pack (bAt nci bufs i)).y n / bufs.alpha i = _ at this
    rw [this]
    unfold attention softAvg
    rw [List.map_map, List.map_map, (((hcover ho hho wo hwo).map _).sum_eq), (((hcover ho hho wo hwo).map _).sum_eq)]
    congr 2
    · refine List.map_congr_left fun y _ => ?_
      dsimp only [Function.comp]
      rw [hX y, hpt]
      rfl
    · rw [hpt]
      rfl
  refine ⟨?_, fun e he => ⟨?_, ?_⟩⟩
  · exact havg G 0 0 (by omega) fun y => by rw [hpt]; rfl
  · have := havg K (2 * e + 1) e (by omega) fun y => by rw [packPt_odd, hpt]
    rw [pack_odd] at this
    exact this
  · have := havg (fun b c h x => G b c h x * K b c h x) (2 * e + 2) e (by omega) fun y => by rw [packPt_even, hpt]
    rw [pack_even] at this
    exact this

/-- C95: after these calls the maxima are the greatest scores, and the sums belong to them. -/
theorem C95_sums (B : ℕ) (w : ℕ → ℝ) (P : Pattern) (q dy : ℕ → ℝ) (nci nco nlatOut nlonOut nlonIn pscale : ℕ) (h0 : 0 < nci) (calls : List BCall)
    (hp : ∀ c ∈ calls, c.p.nci = nci ∧ c.p.nco = nco ∧ c.p.nlatOut = nlatOut ∧ c.p.nlonOut = nlonOut ∧ c.p.nlonIn = nlonIn ∧ c.p.pscale = pscale)
    (hr : ∀ c ∈ calls, BGoodRun c.r c.p B P) (K V : T4)
    (hK : ∀ c ∈ calls, ∀ b < B, ∀ x, (KvBlock.mk c.p.start c.p.nlatHalo c.p.lonLo c.p.nlonKx).Has x →
      (∀ e < nci, entryOf c.p.nlatHalo c.p.nlonKx nci c.k b ((x.1 : ℤ) - c.p.start).toNat (x.2 - c.p.lonLo) e = K b e x.1 x.2) ∧
      ∀ e < nco, entryOf c.p.nlatHalo c.p.nlonKx nco c.v b ((x.1 : ℤ) - c.p.start).toNat (x.2 - c.p.lonLo) e = V b e x.1 x.2)
    (hcover : ∀ ho < nlatOut, ∀ wo < nlonOut,
      (calls.flatMap fun c => nbrsIn ⟨c.p.start, c.p.nlatHalo, c.p.lonLo, c.p.nlonKx⟩ P nlonIn pscale ho wo).Perm (gatherNbrs P nlonIn pscale ho wo)) :
    ∃ bufs, ringBwdSteps B w P q dy calls BBufs.zero = .ok bufs ∧ ∀ b < B, ∀ ho < nlatOut, ∀ wo < nlonOut, gatherNbrs P nlonIn pscale ho wo ≠ [] →
      let S : ℕ × ℕ → ℝ := score nci K (fun b e h w => entryOf nlatOut nlonOut nci q b h w e) b ho wo
      let i := (b * nlatOut + ho) * nlonOut + wo
      ∃ M, bufs.qmax i = some M ∧ ((∀ u ∈ gatherNbrs P nlonIn pscale ho wo, S u ≤ M) ∧ ∃ u ∈ gatherNbrs P nlonIn pscale ho wo, S u = M) ∧
        bufs.alpha i = ((gatherNbrs P nlonIn pscale ho wo).map fun u => Real.exp (S u - M) * w u.1).sum := by
  -- the neighbours, as points of the global tensors
  obtain ⟨pt, hpt⟩ : ∃ pt : ℕ → ℕ → ℕ → ℕ × ℕ → BPt, pt = fun b ho wo x =>
    ⟨score nci K (fun b e h w => entryOf nlatOut nlonOut nci q b h w e) b ho wo x, w x.1,
      ∑ c ∈ range nco, entryOf nlatOut nlonOut nco dy b ho wo c * V b c x.1 x.2, fun e => K b e x.1 x.2⟩ := ⟨_, rfl⟩
  obtain ⟨bufs, e1, e2⟩ := bwdRing_inv B w P q dy nci nco nlatOut nlonOut nlonIn pscale h0 calls hp hr K V hK hpt
  refine ⟨bufs, e1, fun b hb ho hho wo hwo hne => ?_⟩
  obtain ⟨s, ⟨s1, s2, -⟩, s4, s5⟩ := e2 b hb ho hho wo hwo
  intro S i
  obtain ⟨M, m1, ⟨m2, m3⟩, m4⟩ := sums_of_inv (hcover ho hho wo hwo) hne s4 s5
  rw [hpt] at m2 m3 m4
  exact ⟨M, s2.trans m1, ⟨m2, m3⟩, s1.trans m4⟩

/-- C95: without channels of keys and queries nothing is launched: the sums of the weights, the maxima and the integrals are not kept up. -/
theorem C95_no_channels (r : BRun) (p : RingGpu.Params) (h0 : p.nci = 0) (B : ℕ) (x : BIn) (bufs : BBufs) : ringBwdStep r p B x bufs = .ok bufs := ringBwdStep_nothing r h0 B x bufs

/-- C95: a launch that the device does not accept ends the process. -/
theorem C95_refused (r : BRun) (p : RingGpu.Params) (B : ℕ) (x : BIn) (h0 : 0 < p.nci) (hr : BRunOk r (bGroupSize p.nci) p.nlatOut) (hrows : RowsOk r.toRun p x.P)
    (hs : BSchedOk r.toRun p B) (hl : 512 < p.nci → p.nci ≤ 8192 → 0 < p.nLong → LoadsFirst (bdimxOf p.nci) p B r.sched) (hacc : ¬ BAccepted r.toRun p B) (bufs : BBufs) :
    ringBwdStep r p B x bufs = .error .processExit := ringBwdStep_refused h0 hr hrows hs hl hacc bufs

/-- An empty batch is one such case. -/
theorem C95_empty_batch (r : BRun) (p : RingGpu.Params) (x : BIn) (h0 : 0 < p.nci) (hlat : 0 < p.nlatOut) (hr : BRunOk r (bGroupSize p.nci) p.nlatOut) (hrows : RowsOk r.toRun p x.P)
    (hs : BSchedOk r.toRun p 0) (bufs : BBufs) : ringBwdStep r p 0 x bufs = .error .processExit := by
  refine C95_refused r p 0 x h0 hr hrows hs (fun _ _ _ l _ g hg => absurd hg.1 (by omega)) (fun h => ?_) bufs
  rcases Nat.lt_or_ge 8192 p.nci with h1 | h1
  · exact absurd (h.generic h1).2.2.1 (by omega)
  · rcases Nat.eq_zero_or_pos p.nLong with h2 | h2
    · exact absurd (h.short h1 (by omega)).2.2.1 (by omega)
    · exact absurd (h.long h1 h2).resc.2.2.1 (by omega)

/-- So are, with 227 KiB of shared memory, more than 8192 channels of keys if twice their number and that of the values exceed 29056. -/
theorem C95_too_many_channels (r : BRun) (p : RingGpu.Params) (B : ℕ) (x : BIn) (hr : BRunOk r (bGroupSize p.nci) p.nlatOut) (hrows : RowsOk r.toRun p x.P) (hlim : r.limit = 227 * 1024)
    (hc : 29056 < 2 * p.nci + p.nco) (h1 : 8192 < p.nci) (bufs : BBufs) : ringBwdStep r p B x bufs = .error .processExit := by
  refine C95_refused r p B x (by omega) hr hrows (fun h => absurd h (by omega)) (fun _ h => absurd h (by omega)) (fun h => ?_) bufs
  have := (h.generic h1).2.2.2.2.2.2
  rw [hlim] at this
  split_ifs at this <;> omega

/-- C95, negative: with more than 512 channels of keys, long rows and warps that run one after the other, an order nothing in the kernel forbids, the old sums of channel 160 are not
brought to the new maximum: the result is wrong at every point that has a maximum which the block exceeds and a sum that is not zero. -/
theorem C95_race (r : BRun) (p : RingGpu.Params) (B : ℕ) (x : BIn) (h0 : 512 < p.nci) (h1 : p.nci ≤ 8192) (hr : BRunOk r (bGroupSize p.nci) p.nlatOut) (hrows : RowsOk r.toRun p x.P)
    (hacc : BAccepted r.toRun p B) (hlong : 0 < p.nLong) (hsched : r.sched = warpAfterWarp B (p.nLong * p.nlonOut) 1 (bdimxOf p.nci / 32)) (bufs : BBufs) :
    BSchedOk r.toRun p B ∧ ∃ bufs', ringBwdStep r p B x bufs = .ok bufs' ∧ ∀ b < B, ∀ h < p.nLong, ∀ wo < p.nlonOut, ∀ o,
      bufs.qmax ((b * p.nlatOut + r.rowIdx h) * p.nlonOut + wo) = some o →
      (∃ y ∈ nbrsIn ⟨p.start, p.nlatHalo, p.lonLo, p.nlonKx⟩ x.P p.nlonIn p.pscale (r.rowIdx h) wo, o < ∑ c ∈ range p.nci,
        entryOf p.nlatOut p.nlonOut p.nci x.q b (r.rowIdx h) wo c * entryOf p.nlatHalo p.nlonKx p.nci x.k b ((y.1 : ℤ) - p.start).toNat (y.2 - p.lonLo) c) →
      (entryOf p.nlatOut p.nlonOut p.nci bufs.kacc b (r.rowIdx h) wo 160 ≠ 0 ∨ entryOf p.nlatOut p.nlonOut p.nci bufs.kvw b (r.rowIdx h) wo 160 ≠ 0) →
      ¬ BStepDone p B x bufs bufs' := by
  have hd : divUp (p.nLong * p.nlonOut) 1 = p.nLong * p.nlonOut := by unfold divUp; omega
  have hby : (if p.nci ≤ 512 then 2 else 1) = 1 := if_neg (by omega)
  refine ⟨fun _ _ => ?_, ?_⟩
  · rw [hby, hsched]
    have := warpAfterWarp_complete (by' := 1) (bdimxOf p.nci) p B (by omega)
    rw [hd] at this ⊢
    exact this
  · obtain ⟨bufs', e1, e2⟩ := ringBwdStep_race (by omega) h1 hr hrows hacc hlong (by rw [hby, hd]; exact hsched) bufs
    refine ⟨bufs', e1, ?_⟩
    intro b hb h hh wo hwo o ho hx hy hdone
    have hrow : r.rowIdx h < p.nlatOut := by
      have : r.rowIdx h ∈ (List.range p.nlatOut).map r.rowIdx := List.mem_map_of_mem (List.mem_range.2 (lt_of_lt_of_le hh hrows.le))
      exact List.mem_range.1 (hr.rows.mem_iff.1 this)
    obtain ⟨y, hx1, hx2⟩ := hx
    have T := hdone.1 b hb (r.rowIdx h) hrow wo hwo
    obtain ⟨n, n1, ⟨-, n3⟩, n4, -, -, n6⟩ := T.some (List.ne_nil_of_mem hx1)
    have hlt : o < n := lt_of_lt_of_le hx2 (n3 y hx1)
    have hw : warpOf (vecOf r.vecOk p.nci p.nco) (bdimxOf p.nci) 160 ≠ 0 := by
      unfold warpOf
      have hb := bdimxOf_eq p.nci (by omega)
      rw [if_neg (by omega)] at hb
      have hv : vecOf r.vecOk p.nci p.nco = 1 ∨ vecOf r.vecOk p.nci p.nco = 4 := by
        unfold vecOf
        split_ifs <;> simp
      rcases hv with hv | hv <;> rw [hv, hb] <;> split_ifs <;> omega
    obtain ⟨d1, d2, d3⟩ := outFlat_decode (b := b) hrow hwo
    have hnot : carry (some o) n ≠ 1 := by
      intro h
      have : Real.exp (o - n) = 1 := h
      rw [Real.exp_eq_one_iff] at this
      linarith
    have key : ∀ two, (bufs'.half two).y (((b * p.nlatOut + r.rowIdx h) * p.nlonOut + wo) * p.nci + 160)
        = (bufs.half two).y (((b * p.nlatOut + r.rowIdx h) * p.nlonOut + wo) * p.nci + 160)
          + ((nbrsIn (blockOf p) x.P p.nlonIn p.pscale (r.rowIdx h) wo).map fun z => Real.exp ((bPtAt two p x b (r.rowIdx h) wo z).q - n)
            * (bPtAt two p x b (r.rowIdx h) wo z).w * (bPtAt two p x b (r.rowIdx h) wo z).v 160).sum := by
      intro two
      have e3 := e2 two (outFlat p b (r.rowIdx h) wo) ⟨b, hb, h, Nat.zero_le _, hh, wo, hwo, rfl⟩
      unfold bNbrsAt at e3
      rw [d1, d2, d3, outFlat_eq, ho] at e3
      cases hm : phaseMax (some o) ((nbrsIn (blockOf p) x.P p.nlonIn p.pscale (r.rowIdx h) wo).map (bPtAt two p x b (r.rowIdx h) wo)) with
      | none => exact absurd (phaseMax_none hm).1 (by simp)
      | some n' =>
        obtain ⟨⟨e4, -⟩, e5⟩ := e3 n' hm
        change bufs'.qmax _ = _ at e4
        rw [n1] at e4
        obtain rfl : n = n' := Option.some.inj e4
        have e6 := e5 160 (by omega) hw
        rw [List.map_map] at e6
        exact e6
    obtain ⟨e7, e8⟩ := n6 160 (by omega)
    unfold entryOf at e7 e8 hy
    rcases hy with hy | hy
    · have e9 := key false
      change bufs'.kacc _ = bufs.kacc _ + _ at e9
      rw [e9, ho] at e7
      have e10 := add_right_cancel e7
      exact hnot (mul_right_cancel₀ hy ((one_mul _).trans e10)).symm
    · have e9 := key true
      change bufs'.kvw _ = bufs.kvw _ + _ at e9
      rw [e9, ho] at e8
      have e11 : ((nbrsIn (blockOf p) x.P p.nlonIn p.pscale (r.rowIdx h) wo).map fun z => Real.exp ((bPtAt true p x b (r.rowIdx h) wo z).q - n)
            * (bPtAt true p x b (r.rowIdx h) wo z).w * (bPtAt true p x b (r.rowIdx h) wo z).v 160).sum
          = ((nbrsIn (blockOf p) x.P p.nlonIn p.pscale (r.rowIdx h) wo).map fun z => Real.exp ((bptAt p x b (r.rowIdx h) wo z).q - n)
            * (bptAt p x b (r.rowIdx h) wo z).w * (bptAt p x b (r.rowIdx h) wo z).g * (bptAt p x b (r.rowIdx h) wo z).k 160).sum := by
        refine congrArg List.sum (List.map_congr_left fun z _ => ?_)
        rw [halfPt_at]
        change _ * ((bptAt p x b (r.rowIdx h) wo z).w * (bptAt p x b (r.rowIdx h) wo z).g) * (bptAt p x b (r.rowIdx h) wo z).k 160 = _
        rw [← mul_assoc]
        rfl
      rw [e11] at e8
      have e10 := add_right_cancel e8
      exact hnot (mul_right_cancel₀ hy ((one_mul _).trans e10)).symm

/-! ### Cases that meet the hypotheses -/

/-- A run in which everything happens in the order of the program. -/
noncomputable def plainBRun (bx : ℕ) (sched : List (ℕ × ℕ × ℕ)) : BRun :=
  { plainRun bx sched with
    bjunk := fun _ _ _ _ => ⟨fun _ _ _ => 3, fun _ _ _ => 4, fun _ _ _ => 6⟩
    storeW := id
    storeI := id
    addW := id
    addI := id }

theorem plainBRun_ok (bx nlatOut : ℕ) (sched : List (ℕ × ℕ × ℕ)) : BRunOk (plainBRun bx sched) bx nlatOut where
  toRunOk := plainRun_ok bx nlatOut sched
  storeW := fun _ => List.Perm.refl _
  storeI := fun _ => List.Perm.refl _
  addW := fun _ => List.Perm.refl _
  addI := fun _ => List.Perm.refl _

/-- A long row of 1024 entries and a short one, 576 channels of keys: groups of two warps. -/
def exLongB : RingGpu.Params := ⟨576, 4, 1, 1024, 1024, 1024, 0, 0, 2, 1, 1, 1024, 1⟩

theorem exLongB_rows (sched : List (ℕ × ℕ × ℕ)) : RowsOk (plainBRun 64 sched).toRun exLongB exPat :=
  ⟨(exLong_rows sched).le, (exLong_rows sched).pos, (exLong_rows sched).long, (exLong_rows sched).short⟩

theorem exLongB_accepted (sched : List (ℕ × ℕ × ℕ)) : BAccepted (plainBRun 64 sched).toRun exLongB 3 where
  generic := by intro h; exact absurd h (by decide)
  short := by
    intro _ _
    show fits _ _ _ _ _ (bStaticShared (bdimxOf 576))
    rw [exLong_bx]
    show fits 232448 _ _ _ _ _
    decide
  long := by
    intro _ _
    show BLongFits _ _ _ (bdimxOf 576) _ _ _
    rw [exLong_bx]
    exact ⟨by show fits 232448 _ _ _ _ _; decide, by show fits 232448 _ _ _ _ _; decide, by show fits 232448 _ _ _ _ _; decide⟩

theorem exLongB_good : BGoodRun (plainBRun 64 exSched) exLongB 3 exPat where
  run := by
    show BRunOk _ (bGroupSize 576) _
    unfold bGroupSize
    rw [if_pos (by norm_num), exLong_bx]
    exact plainBRun_ok _ _ _
  rows := exLongB_rows _
  accepted := exLongB_accepted _
  sched := fun _ h => ⟨(exLong_good.sched (by decide) (by decide)).valid, (exLong_good.sched (by decide) (by decide)).twice⟩
  loads := fun _ _ _ => exLong_good.loads (by decide) (by decide) (by decide)

example (w k v q dy : ℕ → ℝ) (bufs : BBufs) :
    ∃ bufs', ringBwdStep (plainBRun 64 exSched) exLongB 3 ⟨w, exPat, k, v, q, dy⟩ bufs = .ok bufs' ∧ BStepDone exLongB 3 ⟨w, exPat, k, v, q, dy⟩ bufs bufs' :=
  C95_step _ _ _ ⟨w, exPat, k, v, q, dy⟩ exLongB_good (by decide) bufs

/-- Points as `C95_race` has them exist: the score 144 exceeds the old maximum 0. -/
example : ∃ (x : BIn) (bufs bufs' : BBufs), ringBwdStep (plainBRun 64 (warpAfterWarp 3 1 1 2)) exLongB 3 x bufs = .ok bufs' ∧ ¬ BStepDone exLongB 3 x bufs bufs' := by
  refine ⟨⟨fun _ => 1, exPat, fun _ => 1, fun _ => 1, fun _ => 1 / 4, fun _ => 1⟩, ⟨fun _ => 1, fun _ => some 0, fun _ => 1, fun _ => 1, fun _ => 1⟩, ?_⟩
  obtain ⟨-, bufs', e1, e2⟩ := C95_race (plainBRun 64 (warpAfterWarp 3 1 1 2)) exLongB 3 ⟨fun _ => 1, exPat, fun _ => 1, fun _ => 1, fun _ => 1 / 4, fun _ => 1⟩ (by decide) (by decide) (by
    show BRunOk _ (bGroupSize 576) _
    unfold bGroupSize
    rw [if_pos (by norm_num), exLong_bx]
    exact plainBRun_ok _ _ _) (exLongB_rows _) (exLongB_accepted _) (by decide) (by
      show _ = warpAfterWarp 3 (1 * 1) 1 (bdimxOf 576 / 32)
      rw [exLong_bx]
      rfl) ⟨fun _ => 1, fun _ => some 0, fun _ => 1, fun _ => 1, fun _ => 1⟩
  refine ⟨bufs', e1, e2 0 (by norm_num) 0 (by decide) 0 (by decide) 0 rfl ⟨(0, 0), ?_, ?_⟩ (Or.inl ?_)⟩
  · unfold nbrsIn
    rw [List.mem_filter]
    refine ⟨?_, by decide⟩
    unfold gatherNbrs
    exact List.mem_map.2 ⟨0, by unfold Pattern.row; rw [List.mem_range'_1]; decide, rfl⟩
  · unfold entryOf
    show (0 : ℝ) < ∑ c ∈ range 576, _
    norm_num
  · unfold entryOf
    norm_num

theorem exHalfB_good (lo : ℕ) : BGoodRun (plainBRun 32 []) (exHalf lo) 1 exPair where
  run := by
    show BRunOk _ (bGroupSize 1) _
    unfold bGroupSize
    rw [if_pos (by norm_num), bdimxOf_eq _ (by norm_num)]
    exact plainBRun_ok _ _ _
  rows := ⟨(exHalf_good lo).rows.le, (exHalf_good lo).rows.pos, (exHalf_good lo).rows.long, (exHalf_good lo).rows.short⟩
  accepted := by
    refine ⟨fun h => absurd h (by show ¬ 8192 < 1; norm_num), fun _ _ => ?_, fun _ h => absurd h (Nat.lt_irrefl 0)⟩
    show fits _ _ _ _ _ (bStaticShared (bdimxOf 1))
    rw [bdimxOf_eq _ (by norm_num)]
    have : fits 232448 (divUp ((1 - 0) * 1) 2) 1 1 ((4 * 1 + 20 * 2) * 2) (bStaticShared 32) := by decide
    exact this
  sched := fun _ h => absurd h (Nat.lt_irrefl 0)
  loads := fun h => absurd h (by show ¬ 512 < 1; norm_num)

/-- Two blocks of one longitude each make up the input of two longitudes. -/
example (w q dy : ℕ → ℝ) (K V : T4) :
    ∃ bufs, ringBwdSteps 1 w exPair q dy [⟨plainBRun 32 [], exHalf 0, fun _ => K 0 0 0 0, fun _ => V 0 0 0 0⟩, ⟨plainBRun 32 [], exHalf 1, fun _ => K 0 0 0 1, fun _ => V 0 0 0 1⟩]
        BBufs.zero = .ok bufs ∧ bufs.kacc 0 / bufs.alpha 0 = attention 1 w (gatherNbrs exPair 2 2) K K (fun b e h w => entryOf 1 1 1 q b h w e) 0 0 0 0 := by
  obtain ⟨bufs, e1, e2⟩ := C95_ring 1 w exPair q dy 1 1 1 1 2 2 (by norm_num)
    [⟨plainBRun 32 [], exHalf 0, fun _ => K 0 0 0 0, fun _ => V 0 0 0 0⟩, ⟨plainBRun 32 [], exHalf 1, fun _ => K 0 0 0 1, fun _ => V 0 0 0 1⟩] (by
      intro c hc
      rw [List.mem_cons, List.mem_singleton] at hc
      rcases hc with rfl | rfl <;> exact ⟨rfl, rfl, rfl, rfl, rfl, rfl⟩) (by
      intro c hc
      rw [List.mem_cons, List.mem_singleton] at hc
      rcases hc with rfl | rfl <;> exact exHalfB_good _) K V (by
      intro c hc b hb x hx
      rw [List.mem_cons, List.mem_singleton] at hc
      obtain rfl : b = 0 := by omega
      obtain ⟨x1, x2⟩ := x
      rcases hc with rfl | rfl
      · obtain ⟨a1, a2, a3, a4⟩ := hx
        dsimp only [exHalf] at a1 a2 a3 a4
        obtain rfl : x1 = 0 := by omega
        obtain rfl : x2 = 0 := by omega
        exact ⟨fun e he => by rw [Nat.lt_one_iff.1 he]; rfl, fun e he => by rw [Nat.lt_one_iff.1 he]; rfl⟩
      · obtain ⟨a1, a2, a3, a4⟩ := hx
        dsimp only [exHalf] at a1 a2 a3 a4
        obtain rfl : x1 = 0 := by omega
        obtain rfl : x2 = 1 := by omega
        exact ⟨fun e he => by rw [Nat.lt_one_iff.1 he]; rfl, fun e he => by rw [Nat.lt_one_iff.1 he]; rfl⟩) (by
      intro ho hho wo hwo
      obtain rfl : ho = 0 := by omega
      obtain rfl : wo = 0 := by omega
      show (nbrsIn ⟨0, 1, 0, 1⟩ exPair 2 2 0 0 ++ (nbrsIn ⟨0, 1, 1, 1⟩ exPair 2 2 0 0 ++ [])).Perm (gatherNbrs exPair 2 2 0 0)
      decide)
  exact ⟨bufs, e1, ((e2 0 (by norm_num) 0 (by norm_num) 0 (by norm_num)).2 0 (by norm_num)).1⟩

end Verif.Props
