import Verif.Lemmas.RingCudaUpBwd
import Verif.Lemmas.RingCudaUpCas
import Verif.Lemmas.DistAttentionBwd
import Mathlib.Tactic.IntervalCases
/-!
C93: the steps of distributed neighbourhood attention in the upsampling direction on the GPU, forward and backward, thread by thread.
-/
namespace Verif.Props
open Verif Verif.Attn Verif.Spec.Attn Verif.AttnGpu Verif.Ring Verif.Spec.Ring Verif.RingGpu Verif.Spec.RingStep Verif.RingGpuUp Finset

/-! ### Forward -/

/-- What a call does to every output point: the cells of its block of keys and values whose rows list the point are taken up; nothing else changes. -/
def UpStepDone (p : UParams) (B : ℕ) (w : ℤ → ℝ) (P : Pattern) (k v q : ℕ → ℝ) (bufs bufs' : RingGpu.Bufs) : Prop :=
  (∀ b < B, ∀ ho < p.nlatOut, ∀ wo < p.nlonOut,
    TakesUp (nbrsUp P p.nlonOutG p.pscaleOut p.lonLo p.nlatHalo p.nlonKx ho wo)
      (fun x => ∑ c ∈ range p.nci, entryOf p.nlatHalo p.nlonKx p.nci k b x.1 x.2 c * entryOf p.nlatOut p.nlonOut p.nci q b ho wo c)
      (fun x => w (p.start + x.1)) (fun x c => entryOf p.nlatHalo p.nlonKx p.nco v b x.1 x.2 c) p.nco
      (entryOf p.nlatOut p.nlonOut p.nco bufs.y b ho wo) (entryOf p.nlatOut p.nlonOut p.nco bufs'.y b ho wo)
      (bufs.alpha ((b * p.nlatOut + ho) * p.nlonOut + wo)) (bufs'.alpha ((b * p.nlatOut + ho) * p.nlonOut + wo))
      (bufs.qmax ((b * p.nlatOut + ho) * p.nlonOut + wo)) (bufs'.qmax ((b * p.nlatOut + ho) * p.nlonOut + wo))) ∧
  ∀ i, B * p.nlatOut * p.nlonOut ≤ i → bufs'.alpha i = bufs.alpha i ∧ bufs'.qmax i = bufs.qmax i ∧ ∀ c < p.nco, bufs'.y (i * p.nco + c) = bufs.y (i * p.nco + c)

/-- C93: whatever the order in which the warps and the atomic operations run, and whatever shared memory holds, every output point takes up the cells of the block that list
it, once each, and no memory outside the arrays is touched. -/
theorem C93_step (r : URun) (p : UParams) (B : ℕ) (P : Pattern) (hr : URunOk r) (hf : UFits p P) (hl : FwdLaunch p B) (w : ℤ → ℝ) (k v q : ℕ → ℝ) (bufs : RingGpu.Bufs) :
    ∃ bufs', upStep r p B w P k v q bufs = .ok bufs' ∧ UpStepDone p B w P k v q bufs bufs' := by
  obtain ⟨bufs', e1, e2, e3⟩ := upStep_ok hf hr hl w k v q bufs
  refine ⟨bufs', e1, fun b hb ho hho wo hwo => ?_, fun i hi => ?_⟩
  · have := takesUp_closed _ _ _ _ _ (e2 b hb ho hho wo hwo)
    rw [cellAt_eq] at this
    exact this
  · obtain ⟨h1, h2, h3⟩ := e3 i hi
    exact ⟨h1, h2, h3⟩

/-- C93: two runs leave the same accumulators. -/
theorem C93_deterministic (r r' : URun) (p : UParams) (B : ℕ) (P : Pattern) (hr : URunOk r) (hr' : URunOk r') (hf : UFits p P) (hl : FwdLaunch p B) (h0 : 0 < p.nco) (w : ℤ → ℝ)
    (k v q : ℕ → ℝ) (bufs : RingGpu.Bufs) :
    ∃ b1 b2, upStep r p B w P k v q bufs = .ok b1 ∧ upStep r' p B w P k v q bufs = .ok b2 ∧ b1.alpha = b2.alpha ∧ b1.qmax = b2.qmax ∧ b1.y = b2.y := by
  obtain ⟨b1, e1, e2, e3⟩ := upStep_ok hf hr hl w k v q bufs
  obtain ⟨b2, f1, f2, f3⟩ := upStep_ok hf hr' hl w k v q bufs
  have hall : ∀ i, AccEq p.nco (accAt p.nco b1 i) (accAt p.nco b2 i) := by
    intro i
    have join : ∀ s, AccEq p.nco (accAt p.nco b1 i) s → AccEq p.nco (accAt p.nco b2 i) s → AccEq p.nco (accAt p.nco b1 i) (accAt p.nco b2 i) := by
      rintro s ⟨a1, a2, a3⟩ ⟨c1, c2, c3⟩
      exact ⟨a1.trans c1.symm, a2.trans c2.symm, fun c hc => (a3 c hc).trans (c3 c hc).symm⟩
    rcases Nat.lt_or_ge i (B * p.nlatOut * p.nlonOut) with h | h
    · obtain ⟨b, hb, ho, hho, wo, hwo, rfl⟩ := cell_split h
      exact join _ (e2 b hb ho hho wo hwo) (f2 b hb ho hho wo hwo)
    · exact join _ (e3 i h) (f3 i h)
  refine ⟨b1, b2, e1, f1, funext fun i => (hall i).1, funext fun i => (hall i).2.1, funext fun a => ?_⟩
  have := (hall (a / p.nco)).2.2 (a % p.nco) (Nat.mod_lt _ h0)
  change b1.y (a / p.nco * p.nco + a % p.nco) = b2.y (a / p.nco * p.nco + a % p.nco) at this
  rwa [Nat.div_add_mod'] at this

/-- A flat array as a tensor. -/
def asTen (B C H W : ℕ) (a : ℕ → ℝ) : RTen := ⟨B, C, H, W, fun b c h w => entryOf H W C a b h w c⟩

/-- C93: the kernels do what the model of the ring in C53 says of them, so that C53 holds of the threads. -/
theorem C93_refines (r : URun) (p : UParams) (B : ℕ) (P : Pattern) (hr : URunOk r) (hf : UFits p P) (hl : FwdLaunch p B) (w : ℤ → ℝ) (k v q : ℕ → ℝ) (bufs : RingGpu.Bufs)
    (g : Grids) (hg : g.nlonOut = p.nlonOutG) (hs : g.nlonOut / g.nlonIn = p.pscaleOut) (w' : ℕ → ℝ)
    (hw : ∀ hi < p.nlatHalo, P.row hi ≠ [] → w (p.start + hi) = w' (p.start + hi).toNat) (ln : UpLaunch) (hln : UpLaunchOK ln) :
    ∃ bufs', upStep r p B w P k v q bufs = .ok bufs' ∧ ∀ b < B, ∀ ho < p.nlatOut, ∀ wo < p.nlonOut,
      let acc := upKernel P w' g p.lonLo p.nlonOut p.start ln (asTen B p.nci p.nlatOut p.nlonOut q) (asTen B p.nci p.nlatHalo p.nlonKx k) (asTen B p.nco p.nlatHalo p.nlonKx v)
        (fun b t => ⟨entryOf p.nlatOut p.nlonOut p.nco bufs.y b t.1 t.2, bufs.alpha ((b * p.nlatOut + t.1) * p.nlonOut + t.2), bufs.qmax ((b * p.nlatOut + t.1) * p.nlonOut + t.2)⟩) b (ho, wo)
      (∀ c < p.nco, entryOf p.nlatOut p.nlonOut p.nco bufs'.y b ho wo c = acc.y c) ∧ bufs'.alpha ((b * p.nlatOut + ho) * p.nlonOut + wo) = acc.alphaSum ∧
        bufs'.qmax ((b * p.nlatOut + ho) * p.nlonOut + wo) = acc.qmax := by
  obtain ⟨bufs', e1, e2, -⟩ := upStep_ok hf hr hl w k v q bufs
  refine ⟨bufs', e1, fun b hb ho hho wo hwo => ?_⟩
  intro acc
  have hpts : AccEq p.nco (closed (accAt p.nco bufs (cellAt p b (ho, wo))) (ptsUp p w P k v q b ho wo)) acc := by
    rw [show acc = _ from upKernel_closed hln _ _ _ _ _ _ _ _ _ _ _ _]
    unfold upPts ptsUp
    dsimp only [asTen]
    rw [hs, hg, edges_cell hf hwo, List.map_map]
    have hstart : accAt p.nco bufs (cellAt p b (ho, wo)) = ⟨entryOf p.nlatOut p.nlonOut p.nco bufs.y b ho wo, bufs.alpha ((b * p.nlatOut + ho) * p.nlonOut + wo),
        bufs.qmax ((b * p.nlatOut + ho) * p.nlonOut + wo)⟩ := by
      rw [cellAt_eq]
      rfl
    rw [hstart]
    refine closed_congr p.nco _ _ _ _ fun x hx => ?_
    obtain ⟨h1, h2, z, hz, -⟩ := mem_nbrsUp.1 hx
    exact ⟨rfl, hw x.1 h1 (List.ne_nil_of_mem hz), fun c _ => rfl⟩
  obtain ⟨a1, a2, a3⟩ := (e2 b hb ho hho wo hwo).trans hpts
  rw [cellAt_eq] at a1 a2 a3
  exact ⟨a3, a1, a2⟩

/-- C93: calls for several blocks, one after the other from empty accumulators: if the blocks together list every neighbour of every output point once, then the quotient of
the accumulators is the attention. -/
theorem C93_ring (B : ℕ) (w : ℤ → ℝ) (P : Pattern) (q : ℕ → ℝ) (nci nco nlatOut nlonOut : ℕ) (calls : List UCall)
    (hp : ∀ c ∈ calls, c.p.nci = nci ∧ c.p.nco = nco ∧ c.p.nlatOut = nlatOut ∧ c.p.nlonOut = nlonOut)
    (hr : ∀ c ∈ calls, URunOk c.r ∧ UFits c.p P ∧ FwdLaunch c.p B) (W : ℕ → ℝ) (N : ℕ → ℕ → List (ℕ × ℕ)) (K V : T4)
    (hK : ∀ c ∈ calls, ∀ b < B, ∀ hi < c.p.nlatHalo, ∀ wi < c.p.nlonKx, P.row hi ≠ [] → w (c.p.start + hi) = W (c.p.start + hi).toNat ∧
      (∀ e < nci, entryOf c.p.nlatHalo c.p.nlonKx nci c.k b hi wi e = K b e (c.p.start + hi).toNat (c.p.lonLo + wi)) ∧
      ∀ e < nco, entryOf c.p.nlatHalo c.p.nlonKx nco c.v b hi wi e = V b e (c.p.start + hi).toNat (c.p.lonLo + wi))
    (hcover : ∀ ho < nlatOut, ∀ wo < nlonOut, (calls.flatMap fun c => (nbrsUp P c.p.nlonOutG c.p.pscaleOut c.p.lonLo c.p.nlatHalo c.p.nlonKx ho wo).map
      fun x => ((c.p.start + x.1).toNat, c.p.lonLo + x.2)).Perm (N ho wo)) :
    ∃ bufs, upSteps B w P q calls RingGpu.Bufs.zero = .ok bufs ∧ ∀ b < B, ∀ ho < nlatOut, ∀ wo < nlonOut, ∀ e < nco,
      entryOf nlatOut nlonOut nco bufs.y b ho wo e / bufs.alpha ((b * nlatOut + ho) * nlonOut + wo) =
        attention nci W N K V (fun b e h w => entryOf nlatOut nlonOut nci q b h w e) b e ho wo := by
  classical
  obtain ⟨pt, hpt⟩ : ∃ pt : ℕ → ℕ → ℕ → ℕ × ℕ → Pt, pt = fun b ho wo x =>
    ⟨score nci K (fun b e h w => entryOf nlatOut nlonOut nci q b h w e) b ho wo x, W x.1, fun e => V b e x.1 x.2⟩ := ⟨_, rfl⟩
  have key : ∀ L : List UCall, L <+: calls → ∃ bufs, upSteps B w P q L RingGpu.Bufs.zero = .ok bufs ∧ ∀ b < B, ∀ ho < nlatOut, ∀ wo < nlonOut,
      ∃ s, AccEq nco (accAt nco bufs ((b * nlatOut + ho) * nlonOut + wo)) s ∧
        Inv ((L.flatMap fun c => (nbrsUp P c.p.nlonOutG c.p.pscaleOut c.p.lonLo c.p.nlatHalo c.p.nlonKx ho wo).map
          fun x => ((c.p.start + x.1).toNat, c.p.lonLo + x.2)).map (pt b ho wo)) s := by
    intro L
    induction L using List.reverseRecOn with
    | nil => exact fun _ => ⟨_, rfl, fun b _ ho _ wo _ => ⟨Acc.init, ⟨rfl, rfl, fun c _ => rfl⟩, Inv.init⟩⟩
    | append_singleton L c ih =>
      intro hL
      have hc : c ∈ calls := hL.subset (by simp)
      obtain ⟨b0, i1, i2⟩ := ih ((List.prefix_append _ _).trans hL)
      obtain ⟨p1, p2, p3, p4⟩ := hp c hc
      obtain ⟨g1, g2, g3⟩ := hr c hc
      obtain ⟨b1, e1, e2, -⟩ := upStep_ok g2 g1 g3 w c.k c.v q b0
      refine ⟨b1, ?_, fun b hb ho hho wo hwo => ?_⟩
      · unfold upSteps at i1 ⊢
        rw [List.foldlM_append, i1]
        change List.foldlM (m := Except PyErr) (fun bufs (c : UCall) => upStep c.r c.p B w P c.k c.v q bufs) b0 [c] = _
        rw [List.foldlM_cons, e1]
        rfl
      · obtain ⟨s, s1, s2⟩ := i2 b hb ho hho wo hwo
        have := e2 b hb ho (p3 ▸ hho) wo (p4 ▸ hwo)
        rw [cellAt_eq, p2, p3, p4] at this
        unfold ptsUp at this
        obtain ⟨N', hN⟩ : ∃ N', N' = nbrsUp P c.p.nlonOutG c.p.pscaleOut c.p.lonLo c.p.nlatHalo c.p.nlonKx ho wo := ⟨_, rfl⟩
        rw [← hN] at this
        have hmap : AccEq nco (closed (accAt nco b0 ((b * nlatOut + ho) * nlonOut + wo)) (N'.map (ptUp c.p w c.k c.v q b ho wo)))
            (closed (accAt nco b0 ((b * nlatOut + ho) * nlonOut + wo)) ((N'.map fun x => ((c.p.start + x.1).toNat, c.p.lonLo + x.2)).map (pt b ho wo))) := by
          rw [List.map_map]
          refine closed_congr nco _ N' _ _ fun x hx => ?_
          rw [hN] at hx
          obtain ⟨h1, h2, z, hz, -⟩ := mem_nbrsUp.1 hx
          obtain ⟨k1, k2, k3⟩ := hK c hc b hb x.1 h1 x.2 h2 (List.ne_nil_of_mem hz)
          rw [hpt]
          unfold ptUp
          refine ⟨?_, k1, fun e he => ?_⟩
          · dsimp only
            unfold dotQ
            rw [p1, p3, p4]
            change _ = ∑ e ∈ range nci, _
            exact sum_congr rfl fun e he => by rw [k2 e (mem_range.1 he), mul_comm]
          · dsimp only
            rw [p2]
            exact k3 e he
        refine ⟨closed s ((N'.map fun x => ((c.p.start + x.1).toNat, c.p.lonLo + x.2)).map (pt b ho wo)), (this.trans hmap).trans (s1.closed _), ?_⟩
        rw [List.flatMap_append, List.flatMap_singleton, List.map_append, ← threePhase_closed, hN]
        exact s2.threePhase _
  obtain ⟨bufs, e1, e2⟩ := key calls List.prefix_rfl
  refine ⟨bufs, e1, fun b hb ho hho wo hwo e he => ?_⟩
  obtain ⟨s, ⟨s1, -, s3⟩, s4⟩ := e2 b hb ho hho wo hwo
  have := s4.avg e
  rw [← s3 e he, ← s1] at this
  change bufs.y (((b * nlatOut + ho) * nlonOut + wo) * nco + e) / bufs.alpha ((b * nlatOut + ho) * nlonOut + wo) = _ at this
  unfold entryOf
  rw [this]
  unfold attention softAvg
  rw [List.map_map, List.map_map, (((hcover ho hho wo hwo).map _).sum_eq), (((hcover ho hho wo hwo).map _).sum_eq)]
  rw [hpt]
  rfl

/-! ### Backward -/

/-- C93: the first backward pass adds, for every output point with saved maximum `m`, the sums over the cells of the block that list it: of the softmax weights times the
products of gradient and value, of the weights times the keys, and of the weights times both. Points that no cell lists keep their sums. -/
theorem C93_pass1 (r : URun) (p : UParams) (B : ℕ) (P : Pattern) (hr : URunOk r) (hf : UFits p P) (hl : launchOk (divUp (p.nlatHalo * p.nlonKx) 2) B (4 * (p.nci + p.nco) * 2))
    (w : ℤ → ℝ) (k v q dy : ℕ → ℝ) (qmax : ℕ → Option ℝ) (s : StatBufs) :
    ∃ s', upPass1 r p B w P k v q dy qmax s = .ok s' ∧
      (∀ b < B, ∀ ho < p.nlatOut, ∀ wo < p.nlonOut, ∀ N, N = nbrsUp P p.nlonOutG p.pscaleOut p.lonLo p.nlatHalo p.nlonKx ho wo →
        ∀ m, qmax ((b * p.nlatOut + ho) * p.nlonOut + wo) = some m ∨ N = [] →
        s'.integral ((b * p.nlatOut + ho) * p.nlonOut + wo) = s.integral ((b * p.nlatOut + ho) * p.nlonOut + wo)
          + (N.map fun x => Real.exp (dotQ p k q b ho wo x - m) * w (p.start + x.1) * dotV p v dy b ho wo x).sum ∧
        ∀ c < p.nci,
          entryOf p.nlatOut p.nlonOut p.nci s'.alphaK b ho wo c = entryOf p.nlatOut p.nlonOut p.nci s.alphaK b ho wo c
            + (N.map fun x => Real.exp (dotQ p k q b ho wo x - m) * w (p.start + x.1) * entryOf p.nlatHalo p.nlonKx p.nci k b x.1 x.2 c).sum ∧
          entryOf p.nlatOut p.nlonOut p.nci s'.alphaKvw b ho wo c = entryOf p.nlatOut p.nlonOut p.nci s.alphaKvw b ho wo c
            + (N.map fun x => Real.exp (dotQ p k q b ho wo x - m) * w (p.start + x.1) * dotV p v dy b ho wo x * entryOf p.nlatHalo p.nlonKx p.nci k b x.1 x.2 c).sum) ∧
      (∀ i, B * p.nlatOut * p.nlonOut ≤ i → s'.integral i = s.integral i) ∧
      ∀ i, B * p.nlatOut * p.nlonOut * p.nci ≤ i → s'.alphaK i = s.alphaK i ∧ s'.alphaKvw i = s.alphaKvw i := by
  obtain ⟨s', e1, e2, e3, e4⟩ := upPass1_ok hf hr hl w k v q dy qmax s
  refine ⟨s', e1, fun b hb ho hho wo hwo N hN m hm => ?_, e3, e4⟩
  obtain ⟨a1, a2⟩ := e2 b hb ho hho wo hwo
  rw [← hN, cellAt_eq] at a1
  rcases hm with hm | hm
  · have hwt : ∀ x, wt p w k q qmax b ho wo x = Real.exp (dotQ p k q b ho wo x - m) * w (p.start + x.1) := by
      intro x
      unfold wt
      rw [cellAt_eq, hm]
      rfl
    simp only [hwt] at a1 a2
    refine ⟨a1, fun c hc => ?_⟩
    have := a2 c hc
    rw [← hN, cellAt_eq] at this
    exact this
  · rw [hm] at a1 hN
    refine ⟨by rw [hm]; exact a1, fun c hc => ?_⟩
    have := a2 c hc
    rw [← hN, cellAt_eq] at this
    rw [hm]
    exact this

/-- C93: the first backward pass does what the model of the ring in C53 says of it. -/
theorem C93_pass1_refines (r : URun) (p : UParams) (B : ℕ) (P : Pattern) (hr : URunOk r) (hf : UFits p P) (hl : launchOk (divUp (p.nlatHalo * p.nlonKx) 2) B (4 * (p.nci + p.nco) * 2))
    (w : ℤ → ℝ) (k v q dy : ℕ → ℝ) (fwd : ℕ → ℕ × ℕ → Acc) (s : StatBufs) (g : Grids) (hg : g.nlonOut = p.nlonOutG) (hs : g.nlonOut / g.nlonIn = p.pscaleOut) (w' : ℕ → ℝ)
    (hw : ∀ hi < p.nlatHalo, P.row hi ≠ [] → w (p.start + hi) = w' (p.start + hi).toNat) (order : ℕ → List Edge → List Edge) (hok : ∀ b L, (order b L).Perm L)
    (qmax : ℕ → Option ℝ) (hq : ∀ b < B, ∀ ho < p.nlatOut, ∀ wo < p.nlonOut, qmax ((b * p.nlatOut + ho) * p.nlonOut + wo) = (fwd b (ho, wo)).qmax) :
    ∃ s', upPass1 r p B w P k v q dy qmax s = .ok s' ∧ ∀ b < B, ∀ ho < p.nlatOut, ∀ wo < p.nlonOut,
      let st := upStats P w' g p.lonLo p.nlonOut p.start order (asTen B p.nci p.nlatOut p.nlonOut q) (asTen B p.nco p.nlatOut p.nlonOut dy) (asTen B p.nci p.nlatHalo p.nlonKx k)
        (asTen B p.nco p.nlatHalo p.nlonKx v) fwd (fun b t => ⟨s.integral ((b * p.nlatOut + t.1) * p.nlonOut + t.2), entryOf p.nlatOut p.nlonOut p.nci s.alphaK b t.1 t.2,
          entryOf p.nlatOut p.nlonOut p.nci s.alphaKvw b t.1 t.2⟩) b (ho, wo)
      s'.integral ((b * p.nlatOut + ho) * p.nlonOut + wo) = st.integral ∧ ∀ c < p.nci, entryOf p.nlatOut p.nlonOut p.nci s'.alphaK b ho wo c = st.alphaK c ∧
        entryOf p.nlatOut p.nlonOut p.nci s'.alphaKvw b ho wo c = st.alphaKvw c := by
  obtain ⟨s', e1, e2, -⟩ := upPass1_ok hf hr hl w k v q dy qmax s
  refine ⟨s', e1, fun b hb ho hho wo hwo => ?_⟩
  intro st
  have hst := fun n => packStats_upStats hok P w' g p.lonLo p.nlonOut p.start (asTen B p.nci p.nlatOut p.nlonOut q) (asTen B p.nco p.nlatOut p.nlonOut dy)
    (asTen B p.nci p.nlatHalo p.nlonKx k) (asTen B p.nco p.nlatHalo p.nlonKx v) fwd (fun b t => ⟨s.integral ((b * p.nlatOut + t.1) * p.nlonOut + t.2),
      entryOf p.nlatOut p.nlonOut p.nci s.alphaK b t.1 t.2, entryOf p.nlatOut p.nlonOut p.nci s.alphaKvw b t.1 t.2⟩) b ho wo n
  have hsum : ∀ n, ((upPts P w' g p.lonLo p.nlonOut p.start (asTen B p.nci p.nlatOut p.nlonOut q) (asTen B p.nci p.nlatHalo p.nlonKx k)
      (packTen (asTen B p.nci p.nlatHalo p.nlonKx k) (asTen B p.nco p.nlatHalo p.nlonKx v) (asTen B p.nco p.nlatOut p.nlonOut dy) ho wo) b (ho, wo)).map
        fun t => Real.exp (t.q - (fwd b (ho, wo)).qmax.getD 0) * t.w * t.v n).sum
      = ((nbrsUp P p.nlonOutG p.pscaleOut p.lonLo p.nlatHalo p.nlonKx ho wo).map fun x => wt p w k q qmax b ho wo x *
        packStats ⟨dotV p v dy b ho wo x, fun c => entryOf p.nlatHalo p.nlonKx p.nci k b x.1 x.2 c, fun c => dotV p v dy b ho wo x * entryOf p.nlatHalo p.nlonKx p.nci k b x.1 x.2 c⟩ n).sum := by
    intro n
    unfold upPts
    dsimp only [asTen]
    rw [hs, hg, edges_cell hf hwo, List.map_map, List.map_map]
    congr 1
    refine List.map_congr_left fun x hx => ?_
    obtain ⟨h1, h2, z, hz, -⟩ := mem_nbrsUp.1 hx
    have hdot : (∑ c ∈ range p.nco, entryOf p.nlatOut p.nlonOut p.nco dy b ho wo c * entryOf p.nlatHalo p.nlonKx p.nco v b x.1 x.2 c) = dotV p v dy b ho wo x :=
      sum_congr rfl fun c _ => mul_comm _ _
    unfold wt
    rw [cellAt_eq, hq b hb ho hho wo hwo, hw x.1 h1 (List.ne_nil_of_mem hz), ← hdot]
    rfl
  obtain ⟨a1, a2⟩ := e2 b hb ho hho wo hwo
  rw [cellAt_eq] at a1
  refine ⟨?_, fun c hc => ?_⟩
  · have h := hst 0
    rw [hsum, packStats_zero, packStats_zero] at h
    rw [a1]
    exact h.symm
  · obtain ⟨b1, b2⟩ := a2 c hc
    rw [cellAt_eq] at b1 b2
    have h1 := hst (2 * c + 1)
    have h2 := hst (2 * c + 2)
    rw [hsum, packStats_odd, packStats_odd] at h1
    rw [hsum, packStats_even, packStats_even] at h2
    simp only [packStats_odd] at h1
    simp only [packStats_even] at h2
    unfold entryOf
    rw [b1, b2]
    refine ⟨h1.symm, ?_⟩
    rw [show st.alphaKvw c = _ from h2]
    unfold entryOf
    simp only [mul_assoc]

/-- C93: the second backward pass stores, for every cell of the block, the sums over the output points its row lists and the rank has: for the keys, of gradient times value
less the normalised integral, times the softmax weight, times the query; for the values, of the softmax weight times the gradient. Cells with empty rows are left alone. -/
theorem C93_pass2 (r : URun) (p : UParams) (B : ℕ) (P : Pattern) (hr : URunOk r) (hf : UFits p P) (hl : launchOk (divUp (p.nlatHalo * p.nlonKx) 2) B (4 * (2 * p.nci + 2 * p.nco) * 2))
    (w : ℤ → ℝ) (k v q dy asum : ℕ → ℝ) (qmax : ℕ → Option ℝ) (inorm dk dv : ℕ → ℝ) (M : ℕ → ℝ)
    (hM : ∀ b < B, ∀ hi < p.nlatHalo, ∀ wi < p.nlonKx, ∀ x ∈ targetsUp P p.nlonOutG p.pscaleOut p.lonLo p.nlonOut hi wi,
      qmax ((b * p.nlatOut + x.1) * p.nlonOut + x.2) = some (M ((b * p.nlatOut + x.1) * p.nlonOut + x.2))) :
    ∃ dk' dv', upPass2 r p B w P k v q dy asum qmax inorm dk dv = .ok (dk', dv') ∧
      (∀ b < B, ∀ hi < p.nlatHalo, ∀ wi < p.nlonKx, ∀ T, T = targetsUp P p.nlonOutG p.pscaleOut p.lonLo p.nlonOut hi wi →
        ∀ at' : ℕ × ℕ → ℕ, (∀ x, at' x = (b * p.nlatOut + x.1) * p.nlonOut + x.2) →
        (∀ c < p.nci, entryOf p.nlatHalo p.nlonKx p.nci dk' b hi wi c = if P.row hi = [] then entryOf p.nlatHalo p.nlonKx p.nci dk b hi wi c else
          (T.map fun x => (dotV p v dy b x.1 x.2 (hi, wi) - inorm (at' x)) * (Real.exp (dotQ p k q b x.1 x.2 (hi, wi) - M (at' x)) * w (p.start + hi) / asum (at' x))
            * entryOf p.nlatOut p.nlonOut p.nci q b x.1 x.2 c).sum) ∧
        ∀ c < p.nco, entryOf p.nlatHalo p.nlonKx p.nco dv' b hi wi c = if P.row hi = [] then entryOf p.nlatHalo p.nlonKx p.nco dv b hi wi c else
          (T.map fun x => Real.exp (dotQ p k q b x.1 x.2 (hi, wi) - M (at' x)) * w (p.start + hi) / asum (at' x) * entryOf p.nlatOut p.nlonOut p.nco dy b x.1 x.2 c).sum) ∧
      (∀ i, B * p.nlatHalo * p.nlonKx * p.nci ≤ i → dk' i = dk i) ∧ ∀ i, B * p.nlatHalo * p.nlonKx * p.nco ≤ i → dv' i = dv i := by
  obtain ⟨dk', dv', e1, e2, e3, e4⟩ := upPass2_ok hf hr hl w k v q dy asum qmax inorm dk dv
  refine ⟨dk', dv', e1, fun b hb hi hhi wi hwi T hT at' hat => ?_, e3, e4⟩
  obtain ⟨a1, a2⟩ := e2 b hb hi hhi wi hwi
  have hx : ∀ x ∈ T, cellAt p b x = at' x ∧ wt p w k q qmax b x.1 x.2 (hi, wi) = Real.exp (dotQ p k q b x.1 x.2 (hi, wi) - M (at' x)) * w (p.start + hi) := by
    intro x hx
    rw [hT] at hx
    refine ⟨by rw [cellAt_eq, hat], ?_⟩
    unfold wt
    rw [cellAt_eq, hM b hb hi hhi wi hwi x hx, hat]
    rfl
  rw [← hT] at a1 a2
  refine ⟨fun c hc => ?_, fun c hc => ?_⟩
  · rw [a1 c hc]
    congr 2
    refine List.map_congr_left fun x hxT => ?_
    rw [(hx x hxT).1, (hx x hxT).2]
  · rw [a2 c hc]
    congr 2
    refine List.map_congr_left fun x hxT => ?_
    rw [(hx x hxT).1, (hx x hxT).2]

/-- C93: with gradient buffers of zeros, the second backward pass does what the model of the ring in C53 says of it. -/
theorem C93_pass2_refines (r : URun) (p : UParams) (B : ℕ) (P : Pattern) (hr : URunOk r) (hf : UFits p P)
    (hl : launchOk (divUp (p.nlatHalo * p.nlonKx) 2) B (4 * (2 * p.nci + 2 * p.nco) * 2)) (w : ℤ → ℝ) (k v q dy asum : ℕ → ℝ) (qmax : ℕ → Option ℝ) (inorm : ℕ → ℝ)
    (g : Grids) (hg : g.nlonOut = p.nlonOutG) (hs : g.nlonOut / g.nlonIn = p.pscaleOut) (w' : ℕ → ℝ)
    (hw : ∀ hi < p.nlatHalo, P.row hi ≠ [] → w (p.start + hi) = w' (p.start + hi).toNat) (y : ℕ → ℕ × ℕ → ℕ → ℝ) :
    ∃ dk' dv', upPass2 r p B w P k v q dy asum qmax inorm (fun _ => 0) (fun _ => 0) = .ok (dk', dv') ∧
      ∀ G, G = upGrads P w' g p.lonLo p.nlonOut p.start (asTen B p.nci p.nlatOut p.nlonOut q) (asTen B p.nco p.nlatOut p.nlonOut dy) (asTen B p.nci p.nlatHalo p.nlonKx k)
        (asTen B p.nco p.nlatHalo p.nlonKx v) (fun b t => ⟨y b t, asum ((b * p.nlatOut + t.1) * p.nlonOut + t.2), qmax ((b * p.nlatOut + t.1) * p.nlonOut + t.2)⟩)
        (fun b t => inorm ((b * p.nlatOut + t.1) * p.nlonOut + t.2)) →
      ∀ b < B, ∀ hi < p.nlatHalo, ∀ wi < p.nlonKx,
        (∀ c < p.nci, entryOf p.nlatHalo p.nlonKx p.nci dk' b hi wi c = G.1 b c hi wi) ∧ ∀ c < p.nco, entryOf p.nlatHalo p.nlonKx p.nco dv' b hi wi c = G.2 b c hi wi := by
  obtain ⟨dk', dv', e1, e2, -⟩ := upPass2_ok hf hr hl w k v q dy asum qmax inorm (fun _ => 0) (fun _ => 0)
  refine ⟨dk', dv', e1, fun G hG b hb hi hhi wi hwi => ?_⟩
  obtain ⟨a1, a2⟩ := e2 b hb hi hhi wi hwi
  have hT0 : P.row hi = [] → targetsUp P p.nlonOutG p.pscaleOut p.lonLo p.nlonOut hi wi = [] := by
    intro h
    unfold targetsUp
    rw [h]
    rfl
  have ha : P.row hi ≠ [] → ∀ x : ℕ × ℕ, bwdAlpha ⟨y b x, asum ((b * p.nlatOut + x.1) * p.nlonOut + x.2), qmax ((b * p.nlatOut + x.1) * p.nlonOut + x.2)⟩
      (upBPt w' p.start (asTen B p.nci p.nlatHalo p.nlonKx k) (asTen B p.nco p.nlatHalo p.nlonKx v) (asTen B p.nci p.nlatOut p.nlonOut q) (asTen B p.nco p.nlatOut p.nlonOut dy) b
        ⟨x, (hi, wi)⟩) = wt p w k q qmax b x.1 x.2 (hi, wi) / asum (cellAt p b x) := by
    intro h x
    unfold bwdAlpha wt
    rw [cellAt_eq, mul_one_div, hw hi hhi h]
    rfl
  rw [hG]
  refine ⟨fun c hc => ?_, fun c hc => ?_⟩
  · unfold upGrads
    dsimp only
    rw [upRowSum_hits p P g hg hs, hits_eq hf hhi hwi, a1 c hc]
    by_cases h : P.row hi = []
    · rw [if_pos h, hT0 h]
      rfl
    · rw [if_neg h]
      congr 1
      refine List.map_congr_left fun x _ => ?_
      unfold scaleDk
      rw [ha h x, cellAt_eq]
      rfl
  · unfold upGrads
    dsimp only
    rw [upRowSum_hits p P g hg hs, hits_eq hf hhi hwi, a2 c hc]
    by_cases h : P.row hi = []
    · rw [if_pos h, hT0 h]
      rfl
    · rw [if_neg h]
      congr 1
      refine List.map_congr_left fun x _ => ?_
      rw [ha h x]
      rfl

/-! ### Launches -/

/-- C93: a launch that the device does not accept ends the process. -/
theorem C93_refused (r : URun) (p : UParams) (B : ℕ) (P : Pattern) (hr : URunOk r) (hf : UFits p P) (w : ℤ → ℝ) (k v q dy asum : ℕ → ℝ) (bufs : RingGpu.Bufs) (qmax : ℕ → Option ℝ)
    (s : StatBufs) (inorm dk dv : ℕ → ℝ) :
    (¬ FwdLaunch p B → upStep r p B w P k v q bufs = .error .processExit) ∧
    (¬ launchOk (divUp (p.nlatHalo * p.nlonKx) 2) B (4 * (p.nci + p.nco) * 2) → upPass1 r p B w P k v q dy qmax s = .error .processExit) ∧
    (¬ launchOk (divUp (p.nlatHalo * p.nlonKx) 2) B (4 * (2 * p.nci + 2 * p.nco) * 2) → upPass2 r p B w P k v q dy asum qmax inorm dk dv = .error .processExit) := by
  refine ⟨fun h => upStep_refused hf hr h w k v q bufs, fun h => ?_, fun h => ?_⟩
  · unfold upPass1
    dsimp only
    rw [if_neg h]
  · unfold upPass2
    dsimp only
    rw [if_neg h]

/-- An empty batch, or a block without cells, is one such case. -/
theorem C93_empty (r : URun) (p : UParams) (B : ℕ) (P : Pattern) (hr : URunOk r) (hf : UFits p P) (h0 : B = 0 ∨ p.nlatHalo = 0 ∨ p.nlonKx = 0) (w : ℤ → ℝ) (k v q : ℕ → ℝ)
    (bufs : RingGpu.Bufs) : upStep r p B w P k v q bufs = .error .processExit := by
  refine upStep_refused hf hr (fun h => ?_) w k v q bufs
  obtain ⟨h1, -, h2, -⟩ := h.max
  rcases h0 with h0 | h0 | h0
  · omega
  · rw [h0, Nat.zero_mul] at h1
    exact absurd h1 (by decide)
  · rw [h0, Nat.mul_zero] at h1
    exact absurd h1 (by decide)

/-- C93, negative: with 3073 to 6144 channels of keys and values together, the forward step and the first backward pass run, and the second backward pass ends the process: no
launcher asks for more than 48 KiB of shared memory. -/
theorem C93_channels (r : URun) (p : UParams) (B : ℕ) (P : Pattern) (hr : URunOk r) (hf : UFits p P) (h1 : 3072 < p.nci + p.nco) (h2 : p.nci + p.nco ≤ 6144)
    (hin : 0 < p.nlatHalo * p.nlonKx ∧ p.nlatHalo * p.nlonKx < 2 ^ 32 - 1) (hout : 0 < p.nlatOut * p.nlonOut ∧ p.nlatOut * p.nlonOut < 2 ^ 32 - 1) (hB : 0 < B ∧ B < 2 ^ 16)
    (w : ℤ → ℝ) (k v q dy asum : ℕ → ℝ) (bufs : RingGpu.Bufs) (qmax : ℕ → Option ℝ) (s : StatBufs) (inorm dk dv : ℕ → ℝ) :
    (∃ bufs', upStep r p B w P k v q bufs = .ok bufs' ∧ UpStepDone p B w P k v q bufs bufs') ∧ (∃ s', upPass1 r p B w P k v q dy qmax s = .ok s') ∧
      upPass2 r p B w P k v q dy asum qmax inorm dk dv = .error .processExit := by
  have g1 : 0 < divUp (p.nlatHalo * p.nlonKx) 2 ∧ divUp (p.nlatHalo * p.nlonKx) 2 < 2 ^ 31 := by
    unfold divUp
    omega
  have g2 : 0 < divUp (p.nlatOut * p.nlonOut) 2 ∧ divUp (p.nlatOut * p.nlonOut) 2 < 2 ^ 31 := by
    unfold divUp
    omega
  have hl : launchOk (divUp (p.nlatHalo * p.nlonKx) 2) B (4 * (p.nci + p.nco) * 2) := ⟨g1.1, g1.2, hB.1, hB.2, by omega⟩
  refine ⟨C93_step r p B P hr hf ⟨⟨g1.1, g1.2, hB.1, hB.2, by omega⟩, ⟨g2.1, g2.2, hB.1, hB.2, by omega⟩, hl⟩ w k v q bufs, ?_, ?_⟩
  · obtain ⟨s', e, -⟩ := upPass1_ok hf hr hl w k v q dy qmax s
    exact ⟨s', e⟩
  · exact (C93_refused r p B P hr hf w k v q dy asum bufs qmax s inorm dk dv).2.2 fun h => by
      have := h.2.2.2.2
      omega

/-! ### The atomic maximum -/

/-- C93: the compare-and-swap loop is an atomic maximum. In every interleaving of the loads and attempts of `n` threads, once all are done, the memory holds the maximum of its
first content and the values of the threads. -/
theorem C93_cas_max (v : ℕ → ℝ) (m0 : Option ℝ) (n : ℕ) (L : List ℕ) (hL : ∀ t ∈ L, t < n) (hd : ∀ t < n, (L.foldl (casStep v) ⟨m0, fun _ => .start⟩).pc t = .done) :
    let m := (L.foldl (casStep v) ⟨m0, fun _ => .start⟩).mem
    (m = m0 ∨ ∃ t < n, m = some (v t)) ∧ (∀ o ∈ m0, ∃ x ∈ m, o ≤ x) ∧ ∀ t < n, ∃ x ∈ m, v t ≤ x := by
  intro m
  have h := casInv_run v m0 L
  refine ⟨?_, ?_, ?_⟩
  · rcases h.from' with e | ⟨t, ht, e⟩
    · exact Or.inl e
    · exact Or.inr ⟨t, hL t ht, e⟩
  · intro o ho
    cases hm : m with
    | none => exact absurd (h.ge (o - 1) (by change ub m _; rw [hm]; simp [ub]) o ho) (by linarith)
    | some x => exact ⟨x, rfl, h.ge x (by change ub m _; rw [hm]; simp [ub]) o ho⟩
  · intro t ht
    cases hm : m with
    | none => exact absurd (h.done t (hd t ht) (v t - 1) (by change ub m _; rw [hm]; simp [ub])) (by linarith)
    | some x => exact ⟨x, rfl, h.done t (hd t ht) x (by change ub m _; rw [hm]; simp [ub])⟩

/-- C93: the loop ends. With `n` threads, a thread is done after `n + 1` of its own steps, however the others run in between. -/
theorem C93_cas_ends (v : ℕ → ℝ) (m0 : Option ℝ) (n : ℕ) (L : List ℕ) (hL : ∀ t ∈ L, t < n) (t : ℕ) (ht : t < n) (hc : n + 1 ≤ L.count t) :
    (L.foldl (casStep v) ⟨m0, fun _ => .start⟩).pc t = .done := cas_done v m0 n L hL ht hc

/-! ### Cases that meet the hypotheses -/

/-- A run in which everything happens in the order of the program. -/
def plainUp : URun := ⟨fun _ _ _ _ _ _ => 7, fun _ L => L, fun _ L => L⟩

theorem plainUp_ok : URunOk plainUp := ⟨fun _ _ => List.Perm.refl _, fun _ _ => List.Perm.refl _⟩

/-- Two input longitudes, four output longitudes; the first halo row is padding beyond the pole. -/
def exUp : UParams := ⟨3, 2, 2, 2, 4, 2, 0, -1, 2, 4⟩

/-- The padding row is empty; the other row lists the points 0, 1 and 3 of the first output row and point 1 of the second. -/
def exUpPat : Pattern := ⟨fun z => if z = 0 then 0 else if z = 1 then 1 else if z = 2 then 3 else 5, fun h => if h ≤ 1 then 0 else 4⟩

theorem exUp_fits : UFits exUp exUpPat where
  cols := by
    intro h hh z hz
    show exUpPat.col z < 8
    unfold exUpPat
    dsimp only
    split_ifs <;> omega
  shift := by decide
  part := by decide

example : FwdLaunch exUp 2 := ⟨by decide, by decide, by decide⟩

example : nbrsUp exUpPat 4 2 0 2 2 0 1 = [(1, 0), (1, 1)] ∧ nbrsUp exUpPat 4 2 0 2 2 1 3 = [(1, 1)] ∧ nbrsUp exUpPat 4 2 0 2 2 1 0 = [] := by decide

example : targetsUp exUpPat 4 2 0 4 1 1 = [(0, 2), (0, 3), (0, 1), (1, 3)] ∧ targetsUp exUpPat 4 2 0 2 1 1 = [(0, 1)] ∧ targetsUp exUpPat 4 2 0 4 0 1 = [] := by decide

/-- Two calls, one for each input longitude. -/
noncomputable def exUpCalls : List UCall := [⟨plainUp, { exUp with nlonKx := 1 }, fun i => i, fun i => i⟩, ⟨plainUp, { exUp with nlonKx := 1, lonLo := 1 }, fun i => 2 * i, fun i => i⟩]

theorem exUpCalls_cover : ∀ ho < 2, ∀ wo < 4, (exUpCalls.flatMap fun c => (nbrsUp exUpPat c.p.nlonOutG c.p.pscaleOut c.p.lonLo c.p.nlatHalo c.p.nlonKx ho wo).map
      fun x => ((c.p.start + x.1).toNat, c.p.lonLo + x.2)).Perm ((nbrsUp exUpPat 4 2 0 2 2 ho wo).map fun x => (x.1 - 1, x.2)) := by
  intro ho hho wo hwo
  unfold exUpCalls
  dsimp only [List.flatMap_cons, List.flatMap_nil]
  interval_cases ho <;> interval_cases wo <;> decide

/-- The interleaving in which thread 1 changes the number between the load of thread 0 and its first attempt. -/
example : (([0, 1, 1, 0, 0].foldl (casStep fun t => if t = 0 then 5 else 3) ⟨none, fun _ => .start⟩).mem) = some 5 := by
  have e1 : exceeds 3 none := by simp [exceeds]
  have e2 : exceeds 5 none := by simp [exceeds]
  have e3 : exceeds 5 (some 3) := by intro o ho; cases ho; norm_num
  simp [casStep, e1, e2, e3]

end Verif.Props
