import Verif.Lemmas.RingCudaUpHits
/-!
The forward step of the upsampling ring kernels.
-/
namespace Verif.RingGpuUp
open Verif Verif.Attn Verif.Spec.Attn Verif.AttnGpu Verif.Ring Verif.RingGpu Verif.Spec.RingStep Finset

/-- The cell `x` of the block as a neighbour. -/
def ptUp (p : UParams) (w : ℤ → ℝ) (k v q : ℕ → ℝ) (b ho wo : ℕ) (x : ℕ × ℕ) : Pt :=
  ⟨dotQ p k q b ho wo x, w (p.start + x.1), fun c => entryOf p.nlatHalo p.nlonKx p.nco v b x.1 x.2 c⟩

/-- The neighbours of an output point in the block. -/
def ptsUp (p : UParams) (w : ℤ → ℝ) (P : Pattern) (k v q : ℕ → ℝ) (b ho wo : ℕ) : List Pt :=
  (nbrsUp P p.nlonOutG p.pscaleOut p.lonLo p.nlatHalo p.nlonKx ho wo).map (ptUp p w k v q b ho wo)

/-- What a step does. -/
def UEffect (p : UParams) (B : ℕ) (w : ℤ → ℝ) (P : Pattern) (k v q : ℕ → ℝ) (bufs bufs' : RingGpu.Bufs) : Prop :=
  (∀ b < B, ∀ ho < p.nlatOut, ∀ wo < p.nlonOut,
    AccEq p.nco (accAt p.nco bufs' (cellAt p b (ho, wo))) (closed (accAt p.nco bufs (cellAt p b (ho, wo))) (ptsUp p w P k v q b ho wo))) ∧
  ∀ i, B * p.nlatOut * p.nlonOut ≤ i → AccEq p.nco (accAt p.nco bufs' i) (accAt p.nco bufs i)

variable {p : UParams} {P : Pattern}

theorem cellAt_inj {b b' ho ho' wo wo' : ℕ} (h1 : ho < p.nlatOut) (h2 : wo < p.nlonOut) (h1' : ho' < p.nlatOut) (h2' : wo' < p.nlonOut)
    (e : cellAt p b (ho, wo) = cellAt p b' (ho', wo')) : b = b' ∧ ho = ho' ∧ wo = wo' := cell_inj h1 h1' h2 h2' e

theorem cell_split {B i : ℕ} (hi : i < B * p.nlatOut * p.nlonOut) : ∃ b < B, ∃ ho < p.nlatOut, ∃ wo < p.nlonOut, i = cellAt p b (ho, wo) := by
  obtain ⟨s1, s2, s3⟩ := packed_split hi
  obtain ⟨t1, t2, t3⟩ := packed_split s1
  refine ⟨_, t1, _, t2, _, s2, ?_⟩
  rw [cellAt_eq, t3, s3]

/-- The kernel `max`: the new maxima. -/
theorem max_ok (hf : UFits p P) {r : URun} (hr : URunOk r) (B : ℕ) (w : ℤ → ℝ) (k v q : ℕ → ℝ) (qmax : ℕ → Option ℝ) :
    ∃ curr, (r.permM 0 (overGrid B (divUp (p.nlatHalo * p.nlonKx) 2) 2 (maxOps p P k q (r.junk 0)))).foldlM (atomicMaxOpt (B * p.nlatOut * p.nlonOut)) qmax = .ok curr ∧
      (∀ b < B, ∀ ho < p.nlatOut, ∀ wo < p.nlonOut, curr (cellAt p b (ho, wo)) = phaseMax (qmax (cellAt p b (ho, wo))) (ptsUp p w P k v q b ho wo)) ∧
      ∀ i, B * p.nlatOut * p.nlonOut ≤ i → curr i = qmax i := by
  have hmem : ∀ a, a ∈ overGrid B (divUp (p.nlatHalo * p.nlonKx) 2) 2 (maxOps p P k q (r.junk 0)) ↔
      ∃ b < B, ∃ hi < p.nlatHalo, ∃ wi < p.nlonKx, ∃ x ∈ hits p P hi wi, a = (cellAt p b x, some (dotQ p k q b x.1 x.2 (hi, wi))) := by
    intro a
    refine (mem_grid_cells p B fun b wid hi wi => (hits p P hi wi).map fun x => (cellAt p b x, some (scoreAt p (shK p k (r.junk 0 b wid) b hi wi) q b x 0))).trans ?_
    constructor
    · rintro ⟨b, hb, hi, hhi, wi, hwi, h⟩
      obtain ⟨x, hx, rfl⟩ := List.mem_map.1 h
      exact ⟨b, hb, hi, hhi, wi, hwi, x, hx, by rw [scoreAt_eq _ _ _ _ _ _ _ (by omega)]⟩
    · rintro ⟨b, hb, hi, hhi, wi, hwi, x, hx, rfl⟩
      exact ⟨b, hb, hi, hhi, wi, hwi, List.mem_map.2 ⟨x, hx, by rw [scoreAt_eq _ _ _ _ _ _ _ (by omega)]⟩⟩
  obtain ⟨curr, c1, c2⟩ := atomicMax_fold (B * p.nlatOut * p.nlonOut) (r.permM 0 (overGrid B (divUp (p.nlatHalo * p.nlonKx) 2) 2 (maxOps p P k q (r.junk 0)))) (by
    intro a ha
    obtain ⟨b, hb, hi, hhi, wi, hwi, x, hx, rfl⟩ := (hmem a).1 ((hr.permM 0 _).mem_iff.1 ha)
    exact cellAt_lt hb (hits_lt hf hhi hwi hx)) qmax
  refine ⟨curr, c1, fun b hb ho hho wo hwo => eq_of_leO fun y => ?_, fun i hi => eq_of_leO fun y => ?_⟩
  · rw [c2, leO_phaseMax]
    refine and_congr_right fun _ => ?_
    constructor
    · intro h t ht
      obtain ⟨⟨hi, wi⟩, hx, rfl⟩ := List.mem_map.1 ht
      obtain ⟨h1, h2, -⟩ := mem_nbrsUp.1 hx
      exact h _ ((hr.permM 0 _).mem_iff.2 ((hmem _).2 ⟨b, hb, hi, h1, wi, h2, (ho, wo), (mem_hits_iff hf h1 h2 hwo).2 hx, rfl⟩)) rfl
    · intro h a ha hai
      obtain ⟨b', hb', hi, hhi, wi, hwi, ⟨x1, x2⟩, hx, rfl⟩ := (hmem a).1 ((hr.permM 0 _).mem_iff.1 ha)
      obtain ⟨l1, l2⟩ := hits_lt hf hhi hwi hx
      obtain ⟨rfl, rfl, rfl⟩ := cellAt_inj l1 l2 hho hwo hai
      exact h _ (List.mem_map.2 ⟨(hi, wi), (mem_hits_iff hf hhi hwi hwo).1 hx, rfl⟩)
  · rw [c2]
    refine and_iff_left fun a ha hai => ?_
    obtain ⟨b', hb', hi', hhi, wi, hwi, x, hx, rfl⟩ := (hmem a).1 ((hr.permM 0 _).mem_iff.1 ha)
    have := cellAt_lt (B := B) hb' (hits_lt hf hhi hwi hx)
    dsimp only at hai
    omega

/-- The kernel `rescale`. -/
theorem rescale_ok {r : URun} (hr : URunOk r) (B : ℕ) (curr : ℕ → Option ℝ) (bufs : RingGpu.Bufs) (hle : ∀ i, curr i = none → bufs.qmax i = none)
    (hout : ∀ i, B * p.nlatOut * p.nlonOut ≤ i → curr i = bufs.qmax i) :
    ∃ y alpha qmax,
      (r.perm 0 ((overGrid B (divUp (p.nlatOut * p.nlonOut) 2) 2 (rescaleOps p curr bufs)).flatMap fun o => o.1)).foldlM (storeTo (B * p.nlatOut * p.nlonOut * p.nco)) bufs.y = .ok y ∧
      (r.perm 1 ((overGrid B (divUp (p.nlatOut * p.nlonOut) 2) 2 (rescaleOps p curr bufs)).map fun o => o.2.1)).foldlM (storeTo (B * p.nlatOut * p.nlonOut)) bufs.alpha = .ok alpha ∧
      (r.permM 1 ((overGrid B (divUp (p.nlatOut * p.nlonOut) 2) 2 (rescaleOps p curr bufs)).map fun o => o.2.2)).foldlM
        (fun m a => Disco.store (B * p.nlatOut * p.nlonOut) m a.1 a.2) bufs.qmax = .ok qmax ∧
      qmax = curr ∧ ∀ i, AccEq p.nco (accAt p.nco ⟨y, alpha, qmax⟩ i) (phaseRescale (accAt p.nco bufs i) (curr i)) := by
  classical
  obtain ⟨n, hn⟩ : ∃ n, n = B * p.nlatOut * p.nlonOut := ⟨_, rfl⟩
  rw [← hn] at hout ⊢
  have hmem : ∀ o, o ∈ overGrid B (divUp (p.nlatOut * p.nlonOut) 2) 2 (rescaleOps p curr bufs) ↔ ∃ i < n, ∃ x m, factor (bufs.qmax i) (curr i) = some (x, m) ∧
      o = ((lanes p.nco).map fun l => (i * p.nco + l.2, bufs.y (i * p.nco + l.2) * x), (i, bufs.alpha i * x), (i, some m)) := by
    intro o
    rw [mem_overGrid]
    constructor
    · rintro ⟨b, hb, wid, -, ho⟩
      unfold rescaleOps at ho
      split_ifs at ho with hw
      · simp at ho
      · dsimp only at ho
        cases hfac : factor (bufs.qmax (b * p.nlatOut * p.nlonOut + wid)) (curr (b * p.nlatOut * p.nlonOut + wid)) with
        | none => rw [hfac] at ho; simp at ho
        | some t =>
          obtain ⟨x, m⟩ := t
          rw [hfac] at ho
          refine ⟨b * p.nlatOut * p.nlonOut + wid, ?_, x, m, hfac, List.mem_singleton.1 ho⟩
          rw [hn, Nat.mul_assoc, Nat.mul_assoc]
          exact packed_lt hb (by omega)
    · rintro ⟨i, hi, x, m, hfac, rfl⟩
      rw [hn, Nat.mul_assoc] at hi
      obtain ⟨s1, s2, s3⟩ := packed_split hi
      refine ⟨_, s1, _, lt_of_lt_of_le s2 (le_divUp_mul (by omega)), ?_⟩
      unfold rescaleOps
      rw [if_neg (by omega)]
      dsimp only
      rw [Nat.mul_assoc _ p.nlatOut, s3, hfac]
      exact List.mem_singleton.2 rfl
  generalize overGrid B (divUp (p.nlatOut * p.nlonOut) 2) 2 (rescaleOps p curr bufs) = ops at *
  obtain ⟨fac, hfac⟩ : ∃ fac : ℕ → ℝ, fac = fun i => ((factor (bufs.qmax i) (curr i)).getD (1, 0)).1 := ⟨_, rfl⟩
  have hfx : ∀ i x m, factor (bufs.qmax i) (curr i) = some (x, m) → fac i = x := fun i x m h => by rw [hfac]; dsimp only; rw [h]; rfl
  have hfm : ∀ i x m, factor (bufs.qmax i) (curr i) = some (x, m) → curr i = some m := by
    intro i x m h
    unfold factor at h
    split_ifs at h
    cases hc : curr i with
    | none => rw [hc] at h; simp at h
    | some c =>
      rw [hc] at h
      dsimp only at h
      rw [Option.some.injEq, Prod.mk.injEq] at h
      rw [h.2]
  obtain ⟨y, y1, y2, y3⟩ := stores_ok (n * p.nco) (r.perm 0 (ops.flatMap fun o => o.1)) (fun a => bufs.y a * fac (a / p.nco)) (by
    intro a ha
    obtain ⟨o, ho, ha⟩ := List.mem_flatMap.1 ((hr.perm 0 _).mem_iff.1 ha)
    obtain ⟨i, hi, x, m, e, rfl⟩ := (hmem o).1 ho
    obtain ⟨l, hl, rfl⟩ := List.mem_map.1 ha
    refine ⟨packed_lt hi (lane_lt hl), ?_⟩
    dsimp only
    rw [(div_mul_add (lane_lt hl)).1, hfx i x m e]) bufs.y
  obtain ⟨alpha, a1, a2, a3⟩ := stores_ok n (r.perm 1 (ops.map fun o => o.2.1)) (fun i => bufs.alpha i * fac i) (by
    intro a ha
    obtain ⟨o, ho, rfl⟩ := List.mem_map.1 ((hr.perm 1 _).mem_iff.1 ha)
    obtain ⟨i, hi, x, m, e, rfl⟩ := (hmem o).1 ho
    exact ⟨hi, by dsimp only; rw [hfx i x m e]⟩) bufs.alpha
  obtain ⟨qmax, q1, q2, q3⟩ := stores_gen n (r.permM 1 (ops.map fun o => o.2.2)) curr (by
    intro a ha
    obtain ⟨o, ho, rfl⟩ := List.mem_map.1 ((hr.permM 1 _).mem_iff.1 ha)
    obtain ⟨i, hi, x, m, e, rfl⟩ := (hmem o).1 ho
    exact ⟨hi, (hfm i x m e).symm⟩) bufs.qmax
  have hnone : ∀ i, factor (bufs.qmax i) (curr i) = none → bufs.qmax i = curr i := by
    intro i h
    unfold factor at h
    split_ifs at h with he
    · exact he
    · cases hc : curr i with
      | none => exact hle i hc
      | some c => rw [hc] at h; simp at h
  have hlt : ∀ i x m, factor (bufs.qmax i) (curr i) = some (x, m) → i < n := by
    intro i x m h
    by_contra hi
    unfold factor at h
    rw [if_pos (hout i (by omega)).symm] at h
    cases h
  refine ⟨y, alpha, qmax, y1, a1, q1, funext fun i => ?_, fun i => ?_⟩
  · cases h : factor (bufs.qmax i) (curr i) with
    | none =>
      rw [q3 i fun a ha hai => ?_, hnone i h]
      obtain ⟨o, ho, rfl⟩ := List.mem_map.1 ((hr.permM 1 _).mem_iff.1 ha)
      obtain ⟨j, hj, x, m, e, rfl⟩ := (hmem o).1 ho
      dsimp only at hai
      rw [hai, h] at e
      cases e
    | some t => exact q2 (i, some t.2) ((hr.permM 1 _).mem_iff.2 (List.mem_map.2 ⟨_, (hmem _).2 ⟨i, hlt i t.1 t.2 h, t.1, t.2, h, rfl⟩, rfl⟩))
  · have hq : qmax i = curr i := by
      cases h : factor (bufs.qmax i) (curr i) with
      | none =>
        rw [q3 i fun a ha hai => ?_, hnone i h]
        obtain ⟨o, ho, rfl⟩ := List.mem_map.1 ((hr.permM 1 _).mem_iff.1 ha)
        obtain ⟨j, hj, x, m, e, rfl⟩ := (hmem o).1 ho
        dsimp only at hai
        rw [hai, h] at e
        cases e
      | some t => exact q2 (i, some t.2) ((hr.permM 1 _).mem_iff.2 (List.mem_map.2 ⟨_, (hmem _).2 ⟨i, hlt i t.1 t.2 h, t.1, t.2, h, rfl⟩, rfl⟩))
    cases h : factor (bufs.qmax i) (curr i) with
    | none =>
      have e0 : (accAt p.nco bufs i).qmax = curr i := hnone i h
      unfold phaseRescale
      rw [if_pos e0]
      refine ⟨a3 i fun a ha hai => ?_, hq.trans e0.symm, fun c hc => y3 _ fun a ha hai => ?_⟩
      · obtain ⟨o, ho, rfl⟩ := List.mem_map.1 ((hr.perm 1 _).mem_iff.1 ha)
        obtain ⟨j, hj, x, m, e, rfl⟩ := (hmem o).1 ho
        dsimp only at hai
        rw [hai, h] at e
        cases e
      · obtain ⟨o, ho, ha⟩ := List.mem_flatMap.1 ((hr.perm 0 _).mem_iff.1 ha)
        obtain ⟨j, hj, x, m, e, rfl⟩ := (hmem o).1 ho
        obtain ⟨l, hl, rfl⟩ := List.mem_map.1 ha
        dsimp only at hai
        obtain ⟨rfl, -⟩ := mulAdd_inj hai (lane_lt hl) hc
        rw [h] at e
        cases e
    | some t =>
      obtain ⟨x, m⟩ := t
      have hm := hfm i x m h
      have hne : (accAt p.nco bufs i).qmax ≠ curr i := by
        intro e0
        unfold factor at h
        rw [if_pos (show bufs.qmax i = curr i from e0)] at h
        cases h
      have hx : x = expDiff (bufs.qmax i) m := by
        unfold factor at h
        rw [if_neg (show ¬ bufs.qmax i = curr i from hne), hm] at h
        dsimp only at h
        rw [Option.some.injEq, Prod.mk.injEq] at h
        exact h.1.symm
      unfold phaseRescale
      rw [if_neg hne, hm]
      have ho := (hmem _).2 ⟨i, hlt i x m h, x, m, h, rfl⟩
      refine ⟨?_, hq.trans hm, fun c hc => ?_⟩
      · have := a2 (i, bufs.alpha i * x) ((hr.perm 1 _).mem_iff.2 (List.mem_map.2 ⟨_, ho, rfl⟩))
        dsimp only at this
        change alpha i = expDiff (bufs.qmax i) m * bufs.alpha i
        rw [this, hfx i x m h, hx, mul_comm]
      · obtain ⟨t, ht⟩ := exists_lane hc
        have := y2 (i * p.nco + c, bufs.y (i * p.nco + c) * x) ((hr.perm 0 _).mem_iff.2 (List.mem_flatMap.2 ⟨_, ho, List.mem_map.2 ⟨(t, c), ht, rfl⟩⟩))
        dsimp only at this
        change y (i * p.nco + c) = expDiff (bufs.qmax i) m * bufs.y (i * p.nco + c)
        rw [this, (div_mul_add hc).1, hfx i x m h, hx, mul_comm]

theorem alphaAt_eq (w : ℤ → ℝ) (qmax : ℕ → Option ℝ) (k q : ℕ → ℝ) (junk : ShJunk) (b hi wi : ℕ) (x : ℕ × ℕ) {t : ℕ} (ht : t < 32) :
    alphaAt p w qmax (shK p k junk b hi wi) q b hi x t = Real.exp (dotQ p k q b x.1 x.2 (hi, wi) - (qmax (cellAt p b x)).getD 0) * w (p.start + hi) := by
  unfold alphaAt
  rw [scoreAt_eq _ _ _ _ _ _ _ ht]

/-- The forward step. -/
theorem upStep_ok (hf : UFits p P) {r : URun} (hr : URunOk r) {B : ℕ} (hl : FwdLaunch p B) (w : ℤ → ℝ) (k v q : ℕ → ℝ) (bufs : RingGpu.Bufs) :
    ∃ bufs', upStep r p B w P k v q bufs = .ok bufs' ∧ UEffect p B w P k v q bufs bufs' := by
  obtain ⟨curr, c1, c2, c3⟩ := max_ok hf hr B w k v q bufs.qmax
  have hle : ∀ i, curr i = none → bufs.qmax i = none := by
    intro i hi
    rcases Nat.lt_or_ge i (B * p.nlatOut * p.nlonOut) with h | h
    · obtain ⟨b, hb, ho, hho, wo, hwo, rfl⟩ := cell_split h
      rw [c2 b hb ho hho wo hwo] at hi
      exact (phaseMax_none hi).1
    · rw [← c3 i h, hi]
  obtain ⟨y, alpha, qmax, s1, s2, s3, rfl, s5⟩ := rescale_ok (p := p) hr B curr bufs hle c3
  obtain ⟨alpha', a1, a2, a3⟩ := points_fold hf hr 2 B (fun b wid hi wi x => alphaAt p w qmax (shK p k (r.junk 1 b wid) b hi wi) q b hi x 0) alpha
    (fun b ho wo x => Real.exp (dotQ p k q b ho wo x - (qmax (cellAt p b (ho, wo))).getD 0) * w (p.start + x.1))
    (fun b wid hi wi x _ => alphaAt_eq w qmax k q _ b hi wi x (by omega))
  obtain ⟨y', y1, y2, y3⟩ := chans_fold hf hr 3 B p.nco
    (fun b wid hi wi x l => alphaAt p w qmax (shK p k (r.junk 1 b wid) b hi wi) q b hi x l.1 * shV p v (r.junk 1 b wid) b hi wi l.1 l.2) y
    (fun b ho wo c x => Real.exp (dotQ p k q b ho wo x - (qmax (cellAt p b (ho, wo))).getD 0) * w (p.start + x.1) * entryOf p.nlatHalo p.nlonKx p.nco v b x.1 x.2 c)
    (fun b wid hi wi x _ t ht c hc => by rw [alphaAt_eq w qmax k q _ b hi wi x ht, shV_at _ _ _ _ _ hc])
  refine ⟨⟨y', alpha', qmax⟩, ?_, fun b hb ho hho wo hwo => ?_, fun i hi => ?_⟩
  · unfold upStep
    dsimp only
    rw [if_pos hl.max, c1, bind_ok, if_pos hl.rescale, s1, bind_ok, s2, bind_ok, s3, bind_ok, if_pos hl.add]
    have a1' : List.foldlM (Disco.atomicAddTo (B * p.nlatOut * p.nlonOut)) alpha
        (r.perm 2 (overGrid B (divUp (p.nlatHalo * p.nlonKx) 2) 2 (addAOps p w P k q qmax (r.junk 1)))) = .ok alpha' := a1
    have y1' : List.foldlM (Disco.atomicAddTo (B * p.nlatOut * p.nlonOut * p.nco)) y
        (r.perm 3 (overGrid B (divUp (p.nlatHalo * p.nlonKx) 2) 2 (addYOps p w P k v q qmax (r.junk 1)))) = .ok y' := y1
    rw [a1', bind_ok, y1']
    rfl
  · rw [← threePhase_closed]
    unfold threePhase
    rw [foldl_phaseAdd_eq]
    have e := s5 (cellAt p b (ho, wo))
    have hc := c2 b hb ho hho wo hwo
    change qmax (cellAt p b (ho, wo)) = phaseMax (accAt p.nco bufs (cellAt p b (ho, wo))).qmax (ptsUp p w P k v q b ho wo) at hc
    rw [← hc]
    obtain ⟨e1, e2, e3⟩ := e
    refine ⟨?_, e2, fun c hcc => ?_⟩
    · change alpha' (cellAt p b (ho, wo)) = _
      dsimp only
      rw [a2 b hb ho hho wo hwo, ← e1, ← e2]
      unfold ptsUp
      rw [List.map_map]
      rfl
    · change y' (cellAt p b (ho, wo) * p.nco + c) = _
      dsimp only
      rw [y2 b hb ho hho wo hwo c hcc, ← e3 c hcc, ← e2]
      unfold ptsUp
      rw [List.map_map]
      rfl
  · have e := s5 i
    have e0 : (accAt p.nco bufs i).qmax = qmax i := (c3 i hi).symm
    unfold phaseRescale at e
    rw [if_pos e0] at e
    refine ⟨(a3 i hi).trans e.1, e.2.1, fun c hc => (y3 _ ?_).trans (e.2.2 c hc)⟩
    calc B * p.nlatOut * p.nlonOut * p.nco ≤ i * p.nco := Nat.mul_le_mul_right _ hi
      _ ≤ i * p.nco + c := Nat.le_add_right _ _

/-- A launch that is not accepted. -/
theorem upStep_refused (hf : UFits p P) {r : URun} (hr : URunOk r) {B : ℕ} (hl : ¬ FwdLaunch p B) (w : ℤ → ℝ) (k v q : ℕ → ℝ) (bufs : RingGpu.Bufs) :
    upStep r p B w P k v q bufs = .error .processExit := by
  unfold upStep
  dsimp only
  by_cases h1 : launchOk (divUp (p.nlatHalo * p.nlonKx) 2) B (4 * p.nci * 2)
  · obtain ⟨curr, c1, c2, c3⟩ := max_ok hf hr B w k v q bufs.qmax
    have hle : ∀ i, curr i = none → bufs.qmax i = none := by
      intro i hi
      rcases Nat.lt_or_ge i (B * p.nlatOut * p.nlonOut) with h | h
      · obtain ⟨b, hb, ho, hho, wo, hwo, rfl⟩ := cell_split h
        rw [c2 b hb ho hho wo hwo] at hi
        exact (phaseMax_none hi).1
      · rw [← c3 i h, hi]
    rw [if_pos h1, c1, bind_ok]
    by_cases h2 : launchOk (divUp (p.nlatOut * p.nlonOut) 2) B 0
    · obtain ⟨y, alpha, qmax, s1, s2, s3, -, -⟩ := rescale_ok (p := p) hr B curr bufs hle c3
      rw [if_pos h2, s1, bind_ok, s2, bind_ok, s3, bind_ok, if_neg fun h3 => hl ⟨h1, h2, h3⟩]
    · rw [if_neg h2]
  · rw [if_neg h1]

end Verif.RingGpuUp
