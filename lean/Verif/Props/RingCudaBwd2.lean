import Verif.Lemmas.RingCudaBwd2Fault
import Verif.Lemmas.DistAttentionBwd
import Verif.Lemmas.DistAttentionGrad
import Verif.Props.RingCudaBwd
/-!
C96: the second backward pass of one step of distributed neighbourhood attention on the GPU, thread by thread.
-/
namespace Verif.Props
open Verif Verif.Attn Verif.Spec.Attn Verif.AttnGpu Verif.Ring Verif.Spec.Ring Verif.RingGpu Verif.Spec.RingStep Finset

/-- C96: whatever the order in which threads and atomic additions run, whatever uninitialised memory holds, whether numbers are loaded one by one or four at a time, and whichever
kernels the dispatcher takes, every cell of the block receives what the output points that list it contribute, once each, and no memory outside the arrays is touched. -/
theorem C96_step (r : ARun) (p : RingGpu.Params) (B : ℕ) (x : BIn) (hr : AGoodRun r p B x.P) (h0 : 0 < p.nci) (st : BStats) (M : ℕ → ℕ → ℕ → ℝ)
    (hM : ∀ b < B, ∀ ho < p.nlatOut, ∀ wo < p.nlonOut, nbrsIn ⟨p.start, p.nlatHalo, p.lonLo, p.nlonKx⟩ x.P p.nlonIn p.pscale ho wo ≠ [] →
      st.qmax ((b * p.nlatOut + ho) * p.nlonOut + wo) = some (M b ho wo)) (g : BGrads) :
    ∃ g', ringBwdStep2 r p B x st g = .ok g' ∧ Pass2Done p B x st M g g' := by
  obtain ⟨v0, v1, v2⟩ := vecOf_mul r.vecOk p.nci p.nco
  obtain ⟨g', e1, e2⟩ := ringBwdStep2_adds h0 hr st g
  exact ⟨g', e1, addsAll_done v1 v2 e2 fun b hb ho hho wo hwo hne => by rw [hM b hb ho hho wo hwo hne]; rfl⟩

theorem grads_ext {p : RingGpu.Params} {B : ℕ} {x : BIn} {st : BStats} {M : ℕ → ℕ → ℕ → ℝ} {g g1 g2 : BGrads} (h1 : Pass2Done p B x st M g g1) (h2 : Pass2Done p B x st M g g2) :
    g1 = g2 := by
  obtain ⟨a1, a2, a3⟩ := h1
  obtain ⟨b1, b2, b3⟩ := h2
  have key : ∀ (C : ℕ) (f1 f2 : ℕ → ℝ), (∀ b < B, ∀ hi < p.nlatHalo, ∀ wi < p.nlonKx, ∀ c < C, entryOf p.nlatHalo p.nlonKx C f1 b hi wi c = entryOf p.nlatHalo p.nlonKx C f2 b hi wi c) →
      ∀ i < B * p.nlatHalo * p.nlonKx * C, f1 i = f2 i := by
    intro C f1 f2 h i hi
    have hC : 0 < C := Nat.pos_of_ne_zero fun h => by rw [h] at hi; simp at hi
    have hi1 : i / C < B * p.nlatHalo * p.nlonKx := Nat.div_lt_of_lt_mul (by rw [Nat.mul_comm]; exact hi)
    have hW : 0 < p.nlonKx := Nat.pos_of_ne_zero fun h => by rw [h] at hi1; simp at hi1
    have hi2 : i / C / p.nlonKx < B * p.nlatHalo := Nat.div_lt_of_lt_mul (by rw [Nat.mul_comm]; exact hi1)
    have hH : 0 < p.nlatHalo := Nat.pos_of_ne_zero fun h => by rw [h] at hi2; simp at hi2
    have hi3 : i / C / p.nlonKx / p.nlatHalo < B := Nat.div_lt_of_lt_mul (by rw [Nat.mul_comm]; exact hi2)
    have := h _ hi3 _ (Nat.mod_lt (i / C / p.nlonKx) hH) _ (Nat.mod_lt (i / C) hW) _ (Nat.mod_lt i hC)
    unfold entryOf at this
    rwa [Nat.div_add_mod', Nat.div_add_mod', Nat.div_add_mod'] at this
  obtain ⟨k1, v1⟩ := g1
  obtain ⟨k2, v2⟩ := g2
  obtain rfl : k1 = k2 := by
    funext i
    rcases Nat.lt_or_ge i (B * p.nlatHalo * p.nlonKx * p.nci) with hi | hi
    · exact key p.nci k1 k2 (fun b hb hi hhi wi hwi c hc => ((a1 b hb hi hhi wi hwi).1 c hc).trans ((b1 b hb hi hhi wi hwi).1 c hc).symm) i hi
    · exact (a2 i hi).trans (b2 i hi).symm
  obtain rfl : v1 = v2 := by
    funext i
    rcases Nat.lt_or_ge i (B * p.nlatHalo * p.nlonKx * p.nco) with hi | hi
    · exact key p.nco v1 v2 (fun b hb hi hhi wi hwi c hc => ((a1 b hb hi hhi wi hwi).2 c hc).trans ((b1 b hb hi hhi wi hwi).2 c hc).symm) i hi
    · exact (a3 i hi).trans (b3 i hi).symm
  rfl

/-- C96: two runs leave the same gradients. -/
theorem C96_deterministic (r r' : ARun) (p : RingGpu.Params) (B : ℕ) (x : BIn) (hr : AGoodRun r p B x.P) (hr' : AGoodRun r' p B x.P) (h0 : 0 < p.nci) (st : BStats) (g : BGrads) :
    ∃ g', ringBwdStep2 r p B x st g = .ok g' ∧ ringBwdStep2 r' p B x st g = .ok g' := by
  obtain ⟨-, v1, v2⟩ := vecOf_mul r.vecOk p.nci p.nco
  obtain ⟨-, u1, u2⟩ := vecOf_mul r'.vecOk p.nci p.nco
  obtain ⟨g1, e1, e2⟩ := ringBwdStep2_adds h0 hr st g
  obtain ⟨g2, f1, f2⟩ := ringBwdStep2_adds h0 hr' st g
  have h1 := addsAll_done v1 v2 e2 (M := fun b ho wo => (st.qmax ((b * p.nlatOut + ho) * p.nlonOut + wo)).getD 0) fun _ _ _ _ _ _ _ => rfl
  have h2 := addsAll_done u1 u2 f2 (M := fun b ho wo => (st.qmax ((b * p.nlatOut + ho) * p.nlonOut + wo)).getD 0) fun _ _ _ _ _ _ _ => rfl
  exact ⟨g1, e1, by rw [f1, grads_ext h1 h2]⟩

/-! ### The ring of C53 -/

theorem gatherOps_near {p : RingGpu.Params} {P : Pattern} {special : Bool} (hh : special = true → HaloOk p P) {rowIdx : ℕ → ℕ}
    (hrow : ((List.range p.nlatOut).map rowIdx).Perm (List.range p.nlatOut)) (K : RTen) (hH : K.H = p.nlatHalo) (hW : K.W = p.nlonKx) :
    gatherOps P p.nlonIn p.pscale p.lonLo p.start special rowIdx p.nlatOut p.nlonOut K
      = .ok (((List.range p.nlatOut).flatMap fun h => (List.range p.nlonOut).map fun wo => (rowIdx h, wo)).flatMap fun c =>
          ((nbrsIn (blockOf p) P p.nlonIn p.pscale c.1 c.2).map fun y => (((y.1 : ℤ) - p.start).toNat, y.2 - p.lonLo, y.1)).map (Op.mk c)) := by
  unfold gatherOps
  refine collectOps_ok _ fun c hc => ?_
  obtain ⟨h', hh', hc'⟩ := List.mem_flatMap.1 hc
  obtain ⟨wo, hwo, rfl⟩ := List.mem_map.1 hc'
  have hlt : rowIdx h' < p.nlatOut := List.mem_range.1 (hrow.mem_iff.1 (List.mem_map.2 ⟨h', hh', rfl⟩))
  rw [← hits_nbrs p P K hH hW, ← collectHits_generic]
  congr 1
  refine List.map_congr_left fun z hz => ?_
  cases special with
  | false => rfl
  | true =>
    rw [if_pos rfl]
    have := hh rfl _ hlt wo (List.mem_range.1 hwo) _ (List.mem_map.2 ⟨z, hz, rfl⟩)
    unfold hitSpecial hitGeneric gatherHit
    dsimp only at this ⊢
    rw [RingGpu.sub_div_mul, RingGpu.sub_div_mul, hH, hW]
    generalize P.col z / p.nlonIn = hi at *
    generalize (P.col z % p.nlonIn + p.pscale * wo) % p.nlonIn = wi at *
    by_cases h1 : p.lonLo ≤ wi ∧ wi < p.lonLo + p.nlonKx
    · obtain ⟨n1, n2⟩ := this h1.1 h1.2
      rw [if_pos h1, if_pos h1]
      by_cases h2 : (hi : ℤ) - p.start = -1
      · rw [if_pos h2, if_neg (by omega)]
      · rw [if_neg h2, if_pos ⟨by omega, by omega⟩, if_pos ⟨by omega, by omega⟩]
    · rw [if_neg h1, if_neg h1]

/-- The additions of a launch in the ring of C53, at one cell. -/
theorem ops_cell {p : RingGpu.Params} {P : Pattern} {rowIdx : ℕ → ℕ} (hrow : ((List.range p.nlatOut).map rowIdx).Perm (List.range p.nlatOut)) {hi wi : ℕ} (hhi : hi < p.nlatHalo)
    (hwi : wi < p.nlonKx) {L : List Op}
    (hL : L.Perm (((List.range p.nlatOut).flatMap fun h => (List.range p.nlonOut).map fun wo => (rowIdx h, wo)).flatMap fun c =>
          ((nbrsIn (blockOf p) P p.nlonIn p.pscale c.1 c.2).map fun y => (((y.1 : ℤ) - p.start).toNat, y.2 - p.lonLo, y.1)).map (Op.mk c))) (X : Op → ℝ) :
    atomicAdds L X (hi, wi) = ∑ ho ∈ range p.nlatOut, ∑ wo ∈ range p.nlonOut, ((nbrsCell p P ho wo hi wi).map fun u => X ⟨(ho, wo), (hi, wi, u.1)⟩).sum := by
  rw [atomicAdds_perm hL, atomicAdds_eq, list_sum_flatMap, list_sum_flatMap]
  have hc : ∀ h wo, ((((nbrsIn (blockOf p) P p.nlonIn p.pscale h wo).map fun y => (((y.1 : ℤ) - p.start).toNat, y.2 - p.lonLo, y.1)).map (Op.mk (h, wo))).map
      fun o => if (o.t.1, o.t.2.1) = (hi, wi) then X o else 0).sum = ((nbrsCell p P h wo hi wi).map fun u => X ⟨(h, wo), (hi, wi, u.1)⟩).sum := by
    intro h wo
    rw [nbrsCell_sum hhi hwi, List.map_map, List.map_map]
    refine list_sum_congr fun u hu => ?_
    have hu' : (blockOf p).Has u := by simpa using (List.mem_filter.1 hu).2
    obtain ⟨a1, a2, a3, a4⟩ := hu'
    dsimp only [blockOf] at a1 a2 a3 a4
    simp only [Function.comp]
    by_cases e : (u.1 : ℤ) = p.start + hi ∧ u.2 = p.lonLo + wi
    · have e1 : ((u.1 : ℤ) - p.start).toNat = hi := by omega
      have e2 : u.2 - p.lonLo = wi := by omega
      rw [if_pos e, e1, e2, if_pos rfl]
    · rw [if_neg e, if_neg]
      intro h
      rw [Prod.mk.injEq] at h
      exact e ⟨by omega, by omega⟩
  have hr : ∀ h, (((List.range p.nlonOut).map fun wo => (rowIdx h, wo)).map fun c : ℕ × ℕ =>
      ((((nbrsIn (blockOf p) P p.nlonIn p.pscale c.1 c.2).map fun y => (((y.1 : ℤ) - p.start).toNat, y.2 - p.lonLo, y.1)).map (Op.mk c)).map
        fun o => if (o.t.1, o.t.2.1) = (hi, wi) then X o else 0).sum).sum
      = ∑ wo ∈ range p.nlonOut, ((nbrsCell p P (rowIdx h) wo hi wi).map fun u => X ⟨(rowIdx h, wo), (hi, wi, u.1)⟩).sum := by
    intro h
    rw [List.map_map, list_sum_range]
    exact sum_congr rfl fun wo _ => hc (rowIdx h) wo
  rw [list_sum_congr fun h _ => hr h]
  have := (hrow.map fun h => ∑ wo ∈ range p.nlonOut, ((nbrsCell p P h wo hi wi).map fun u => X ⟨(h, wo), (hi, wi, u.1)⟩).sum).sum_eq
  rw [List.map_map] at this
  exact this.trans (list_sum_range _ _)

/-- C96: the kernels add what the model of the ring in C53 says of them, so that C53 holds of the threads. -/
theorem C96_refines (r : ARun) (p : RingGpu.Params) (B : ℕ) (x : BIn) (hr : AGoodRun r p B x.P) (h0 : 0 < p.nci) (st : BStats) (g : BGrads) (ln : Launch2)
    (hsp : ln.special = true → p.nci ≤ 8192) (hrow : ((List.range p.nlatOut).map ln.rowIdx).Perm (List.range p.nlatOut)) (hk : ∀ b c L, (ln.orderK b c L).Perm L)
    (hv : ∀ b c L, (ln.orderV b c L).Perm L) :
    ∃ g' d, ringBwdStep2 r p B x st g = .ok g' ∧
      gatherGrads x.P x.w p.nlonIn p.pscale p.lonLo p.start ln p.nlatOut p.nlonOut
        ⟨B, p.nci, p.nlatOut, p.nlonOut, fun b c h w => entryOf p.nlatOut p.nlonOut p.nci x.q b h w c⟩
        ⟨B, p.nco, p.nlatOut, p.nlonOut, fun b c h w => entryOf p.nlatOut p.nlonOut p.nco x.dy b h w c⟩
        ⟨B, p.nci, p.nlatHalo, p.nlonKx, fun b c h w => entryOf p.nlatHalo p.nlonKx p.nci x.k b h w c⟩
        ⟨B, p.nco, p.nlatHalo, p.nlonKx, fun b c h w => entryOf p.nlatHalo p.nlonKx p.nco x.v b h w c⟩
        (fun b t => ⟨fun _ => 0, st.alpha ((b * p.nlatOut + t.1) * p.nlonOut + t.2), st.qmax ((b * p.nlatOut + t.1) * p.nlonOut + t.2)⟩)
        (fun b t => st.inorm ((b * p.nlatOut + t.1) * p.nlonOut + t.2)) = .ok d ∧
      ∀ b < B, ∀ hi < p.nlatHalo, ∀ wi < p.nlonKx,
        (∀ c < p.nci, entryOf p.nlatHalo p.nlonKx p.nci g'.dk b hi wi c = entryOf p.nlatHalo p.nlonKx p.nci g.dk b hi wi c + d.1 b c hi wi) ∧
        ∀ c < p.nco, entryOf p.nlatHalo p.nlonKx p.nco g'.dv b hi wi c = entryOf p.nlatHalo p.nlonKx p.nco g.dv b hi wi c + d.2 b c hi wi := by
  obtain ⟨-, v1, v2⟩ := vecOf_mul r.vecOk p.nci p.nco
  obtain ⟨g', e1, e2⟩ := ringBwdStep2_adds h0 hr st g
  have hd := addsAll_done v1 v2 e2 (M := fun b ho wo => (st.qmax ((b * p.nlatOut + ho) * p.nlonOut + wo)).getD 0) fun _ _ _ _ _ _ _ => rfl
  unfold gatherGrads
  rw [gatherOps_near (p := p) (special := ln.special) (fun h => hr.halo (hsp h)) hrow _ rfl rfl]
  dsimp only
  refine ⟨g', _, e1, rfl, fun b hb hi hhi wi hwi => ?_⟩
  obtain ⟨a1, a2⟩ := hd.1 b hb hi hhi wi hwi
  refine ⟨fun c hc => ?_, fun c hc => ?_⟩
  · rw [a1 c hc]
    dsimp only
    rw [ops_cell hrow hhi hwi (hk b c _)]
    congr 1
    refine sum_congr rfl fun ho _ => sum_congr rfl fun wo _ => list_sum_congr fun u _ => ?_
    congr 1
    unfold scaleDk Ring.bwdAlpha softWeight
    rw [div_eq_mul_one_div]
    rfl
  · rw [a2 c hc]
    dsimp only
    rw [ops_cell hrow hhi hwi (hv b c _)]
    congr 1
    refine sum_congr rfl fun ho _ => sum_congr rfl fun wo _ => list_sum_congr fun u _ => ?_
    congr 1
    unfold Ring.bwdAlpha softWeight
    rw [div_eq_mul_one_div]
    rfl

/-! ### The gradients -/

/-- C96: if the statistics of every output point with neighbours are those of its softmax, then every cell of the block that lies on the sphere receives the gradients of the
attention of the rank's output points with respect to key and value there, and every other cell of the block receives nothing. -/
theorem C96_gradient (r : ARun) (p : RingGpu.Params) (B : ℕ) (x : BIn) (hr : AGoodRun r p B x.P) (h0 : 0 < p.nci) (K V : T4)
    (hK : ∀ b < B, ∀ u, (KvBlock.mk p.start p.nlatHalo p.lonLo p.nlonKx).Has u →
      (∀ e < p.nci, entryOf p.nlatHalo p.nlonKx p.nci x.k b ((u.1 : ℤ) - p.start).toNat (u.2 - p.lonLo) e = K b e u.1 u.2) ∧
      ∀ e < p.nco, entryOf p.nlatHalo p.nlonKx p.nco x.v b ((u.1 : ℤ) - p.start).toNat (u.2 - p.lonLo) e = V b e u.1 u.2) (st : BStats)
    (hst : ∀ b < B, ∀ ho < p.nlatOut, ∀ wo < p.nlonOut, gatherNbrs x.P p.nlonIn p.pscale ho wo ≠ [] →
      let Q : T4 := fun b e h w => entryOf p.nlatOut p.nlonOut p.nci x.q b h w e
      let DY : T4 := fun b e h w => entryOf p.nlatOut p.nlonOut p.nco x.dy b h w e
      let i := (b * p.nlatOut + ho) * p.nlonOut + wo
      (∃ M, st.qmax i = some M ∧ st.alpha i = ((gatherNbrs x.P p.nlonIn p.pscale ho wo).map fun u => Real.exp (score p.nci K Q b ho wo u - M) * x.w u.1).sum) ∧
        st.inorm i = gbar p.nci p.nco x.w (gatherNbrs x.P p.nlonIn p.pscale) K V Q DY b ho wo) (g : BGrads) :
    ∃ g', ringBwdStep2 r p B x st g = .ok g' ∧ ∀ b < B, ∀ hi < p.nlatHalo, ∀ wi < p.nlonKx,
      let Q : T4 := fun b e h w => entryOf p.nlatOut p.nlonOut p.nci x.q b h w e
      let DY : T4 := fun b e h w => entryOf p.nlatOut p.nlonOut p.nco x.dy b h w e
      (∀ row : ℕ, (row : ℤ) = p.start + hi →
        (∀ c < p.nci, entryOf p.nlatHalo p.nlonKx p.nci g'.dk b hi wi c = entryOf p.nlatHalo p.nlonKx p.nci g.dk b hi wi c +
          gradK p.nci p.nco x.w (gatherNbrs x.P p.nlonIn p.pscale) p.nlatOut p.nlonOut K V Q DY b c row (p.lonLo + wi)) ∧
        ∀ c < p.nco, entryOf p.nlatHalo p.nlonKx p.nco g'.dv b hi wi c = entryOf p.nlatHalo p.nlonKx p.nco g.dv b hi wi c +
          gradV p.nci x.w (gatherNbrs x.P p.nlonIn p.pscale) p.nlatOut p.nlonOut K Q DY b c row (p.lonLo + wi)) ∧
      (p.start + hi < 0 → (∀ c < p.nci, entryOf p.nlatHalo p.nlonKx p.nci g'.dk b hi wi c = entryOf p.nlatHalo p.nlonKx p.nci g.dk b hi wi c) ∧
        ∀ c < p.nco, entryOf p.nlatHalo p.nlonKx p.nco g'.dv b hi wi c = entryOf p.nlatHalo p.nlonKx p.nco g.dv b hi wi c) := by
  obtain ⟨-, v1, v2⟩ := vecOf_mul r.vecOk p.nci p.nco
  obtain ⟨g', e1, e2⟩ := ringBwdStep2_adds h0 hr st g
  have hd := addsAll_done v1 v2 e2 (M := fun b ho wo => (st.qmax ((b * p.nlatOut + ho) * p.nlonOut + wo)).getD 0) fun _ _ _ _ _ _ _ => rfl
  refine ⟨g', e1, fun b hb hi hhi wi hwi => ?_⟩
  intro Q DY
  obtain ⟨a1, a2⟩ := hd.1 b hb hi hhi wi hwi
  refine ⟨fun row hrow => ?_, fun hneg => ?_⟩
  · -- the neighbours in the cell are those equal to `(row, lonLo + wi)`
    have hcell : ∀ ho wo (F : ℕ × ℕ → ℝ), ((nbrsCell p x.P ho wo hi wi).map F).sum
        = ((gatherNbrs x.P p.nlonIn p.pscale ho wo).map fun u => if u = (row, p.lonLo + wi) then F u else 0).sum := by
      intro ho wo F
      unfold nbrsCell
      generalize gatherNbrs x.P p.nlonIn p.pscale ho wo = L
      induction L with
      | nil => rfl
      | cons u L ih =>
        rw [List.filter_cons, List.map_cons, List.sum_cons]
        by_cases h : u = (row, p.lonLo + wi)
        · rw [if_pos (by rw [h]; simpa using hrow), List.map_cons, List.sum_cons, ih, if_pos h]
        · rw [if_neg, ih, if_neg h, zero_add]
          intro h'
          have h'' : (u.1 : ℤ) = p.start + hi ∧ u.2 = p.lonLo + wi := by simpa using h'
          exact h (Prod.ext (by show u.1 = row; omega) h''.2)
    have hhas : (KvBlock.mk p.start p.nlatHalo p.lonLo p.nlonKx).Has (row, p.lonLo + wi) :=
      ⟨by show p.start ≤ (row : ℤ); omega, by show (row : ℤ) < p.start + p.nlatHalo; omega, by show p.lonLo ≤ p.lonLo + wi; omega, by show p.lonLo + wi < p.lonLo + p.nlonKx; omega⟩
    obtain ⟨k1, k2⟩ := hK b hb _ hhas
    dsimp only at k1 k2
    rw [show ((row : ℤ) - p.start).toNat = hi by omega, show p.lonLo + wi - p.lonLo = wi by omega] at k1 k2
    have hdot : ∀ ho wo, dotGV p x b ho wo hi wi = gdot p.nco V DY b ho wo (row, p.lonLo + wi) := by
      intro ho wo
      exact sum_congr rfl fun c hc => by rw [k2 c (mem_range.1 hc)]
    have hsc : ∀ ho wo, dotQK p x b ho wo hi wi = score p.nci K Q b ho wo (row, p.lonLo + wi) := by
      intro ho wo
      exact sum_congr rfl fun c hc => by rw [k1 c (mem_range.1 hc)]
    have hprob : ∀ ho < p.nlatOut, ∀ wo < p.nlonOut, gatherNbrs x.P p.nlonIn p.pscale ho wo ≠ [] →
        softWeight p x st ((st.qmax ((b * p.nlatOut + ho) * p.nlonOut + wo)).getD 0) b ho wo hi wi (x.w row)
          = prob p.nci x.w (gatherNbrs x.P p.nlonIn p.pscale) K Q b ho wo (row, p.lonLo + wi) := by
      intro ho hho wo hwo hne
      obtain ⟨⟨M, m1, m2⟩, -⟩ := hst b hb ho hho wo hwo hne
      unfold softWeight prob
      rw [m1, m2, hsc]
      have hx : ((gatherNbrs x.P p.nlonIn p.pscale ho wo).map fun u => x.w u.1 * Real.exp (score p.nci K Q b ho wo u)).sum
          = Real.exp M * ((gatherNbrs x.P p.nlonIn p.pscale ho wo).map fun u => Real.exp (score p.nci K Q b ho wo u - M) * x.w u.1).sum := by
        rw [← list_sum_mul_left]
        refine list_sum_congr fun u _ => ?_
        rw [Real.exp_sub]
        field_simp
      rw [hx, Option.getD_some, Real.exp_sub]
      ring
    refine ⟨fun c hc => ?_, fun c hc => ?_⟩
    · rw [a1 c hc]
      congr 1
      unfold gradK
      refine sum_congr rfl fun ho hho => sum_congr rfl fun wo hwo => ?_
      rw [hcell]
      refine list_sum_congr fun u hu => ?_
      by_cases h : u = (row, p.lonLo + wi)
      · have hne := List.ne_nil_of_mem hu
        rw [if_pos h, if_pos h, h]
        dsimp only
        rw [hprob ho (mem_range.1 hho) wo (mem_range.1 hwo) hne, hdot, (hst b hb ho (mem_range.1 hho) wo (mem_range.1 hwo) hne).2]
        ring
      · rw [if_neg h, if_neg h]
    · rw [a2 c hc]
      congr 1
      unfold gradV
      refine sum_congr rfl fun ho hho => sum_congr rfl fun wo hwo => ?_
      rw [hcell]
      refine list_sum_congr fun u hu => ?_
      by_cases h : u = (row, p.lonLo + wi)
      · rw [if_pos h, if_pos h, h]
        dsimp only
        rw [hprob ho (mem_range.1 hho) wo (mem_range.1 hwo) (List.ne_nil_of_mem hu)]
      · rw [if_neg h, if_neg h]
  · have hnil : ∀ ho wo, nbrsCell p x.P ho wo hi wi = [] := by
      intro ho wo
      unfold nbrsCell
      rw [List.filter_eq_nil_iff]
      intro u _ h
      have h' : (u.1 : ℤ) = p.start + hi ∧ u.2 = p.lonLo + wi := by simpa using h
      omega
    refine ⟨fun c hc => ?_, fun c hc => ?_⟩
    · rw [a1 c hc]
      simp only [hnil, List.map_nil, List.sum_nil, sum_const_zero, add_zero]
    · rw [a2 c hc]
      simp only [hnil, List.map_nil, List.sum_nil, sum_const_zero, add_zero]

/-- C96: the whole backward pass of a rank. The forward calls leave maxima and sums, the calls of the first backward pass the other accumulators; `dqy` as the code puts it together is
the gradient with respect to the query, and a call of the second pass for any block adds the gradients with respect to key and value of the rank's output points. -/
theorem C96_backward (B : ℕ) (w : ℕ → ℝ) (P : Pattern) (q dy : ℕ → ℝ) (nci nco nlatOut nlonOut nlonIn pscale : ℕ) (h0 : 0 < nci) (h1 : 0 < nco) (K V : T4)
    (fcalls : List Call)
    (hpf : ∀ c ∈ fcalls, c.p.nci = nci ∧ c.p.nco = nco ∧ c.p.nlatOut = nlatOut ∧ c.p.nlonOut = nlonOut ∧ c.p.nlonIn = nlonIn ∧ c.p.pscale = pscale)
    (hrf : ∀ c ∈ fcalls, GoodRun c.r c.p B P)
    (hKf : ∀ c ∈ fcalls, ∀ b < B, ∀ x, (KvBlock.mk c.p.start c.p.nlatHalo c.p.lonLo c.p.nlonKx).Has x →
      (∀ e < nci, entryOf c.p.nlatHalo c.p.nlonKx nci c.k b ((x.1 : ℤ) - c.p.start).toNat (x.2 - c.p.lonLo) e = K b e x.1 x.2) ∧
      ∀ e < nco, entryOf c.p.nlatHalo c.p.nlonKx nco c.v b ((x.1 : ℤ) - c.p.start).toNat (x.2 - c.p.lonLo) e = V b e x.1 x.2)
    (hcf : ∀ ho < nlatOut, ∀ wo < nlonOut,
      (fcalls.flatMap fun c => nbrsIn ⟨c.p.start, c.p.nlatHalo, c.p.lonLo, c.p.nlonKx⟩ P nlonIn pscale ho wo).Perm (gatherNbrs P nlonIn pscale ho wo))
    (bcalls : List BCall)
    (hpb : ∀ c ∈ bcalls, c.p.nci = nci ∧ c.p.nco = nco ∧ c.p.nlatOut = nlatOut ∧ c.p.nlonOut = nlonOut ∧ c.p.nlonIn = nlonIn ∧ c.p.pscale = pscale)
    (hrb : ∀ c ∈ bcalls, BGoodRun c.r c.p B P)
    (hKb : ∀ c ∈ bcalls, ∀ b < B, ∀ x, (KvBlock.mk c.p.start c.p.nlatHalo c.p.lonLo c.p.nlonKx).Has x →
      (∀ e < nci, entryOf c.p.nlatHalo c.p.nlonKx nci c.k b ((x.1 : ℤ) - c.p.start).toNat (x.2 - c.p.lonLo) e = K b e x.1 x.2) ∧
      ∀ e < nco, entryOf c.p.nlatHalo c.p.nlonKx nco c.v b ((x.1 : ℤ) - c.p.start).toNat (x.2 - c.p.lonLo) e = V b e x.1 x.2)
    (hcb : ∀ ho < nlatOut, ∀ wo < nlonOut,
      (bcalls.flatMap fun c => nbrsIn ⟨c.p.start, c.p.nlatHalo, c.p.lonLo, c.p.nlonKx⟩ P nlonIn pscale ho wo).Perm (gatherNbrs P nlonIn pscale ho wo)) :
    let Q : T4 := fun b e h w => entryOf nlatOut nlonOut nci q b h w e
    let DY : T4 := fun b e h w => entryOf nlatOut nlonOut nco dy b h w e
    ∃ fwd bwd, ringSteps B w P q fcalls RingGpu.Bufs.zero = .ok fwd ∧ ringBwdSteps B w P q dy bcalls BBufs.zero = .ok bwd ∧
      (∀ b < B, ∀ ho < nlatOut, ∀ wo < nlonOut, gatherNbrs P nlonIn pscale ho wo ≠ [] → ∀ c < nci,
        let i := (b * nlatOut + ho) * nlonOut + wo
        (1 / fwd.alpha i) ^ 2 * (fwd.alpha i * entryOf nlatOut nlonOut nci bwd.kvw b ho wo c - bwd.integral i * entryOf nlatOut nlonOut nci bwd.kacc b ho wo c)
          = gradQ nci nco w (gatherNbrs P nlonIn pscale) K V Q DY b c ho wo) ∧
      ∀ (r : ARun) (p : RingGpu.Params) (k v : ℕ → ℝ), p.nci = nci → p.nco = nco → p.nlatOut = nlatOut → p.nlonOut = nlonOut → p.nlonIn = nlonIn → p.pscale = pscale →
        AGoodRun r p B P →
        (∀ b < B, ∀ x, (KvBlock.mk p.start p.nlatHalo p.lonLo p.nlonKx).Has x →
          (∀ e < nci, entryOf p.nlatHalo p.nlonKx nci k b ((x.1 : ℤ) - p.start).toNat (x.2 - p.lonLo) e = K b e x.1 x.2) ∧
          ∀ e < nco, entryOf p.nlatHalo p.nlonKx nco v b ((x.1 : ℤ) - p.start).toNat (x.2 - p.lonLo) e = V b e x.1 x.2) →
        ∀ g, ∃ g', ringBwdStep2 r p B ⟨w, P, k, v, q, dy⟩ ⟨fwd.alpha, fwd.qmax, fun i => bwd.integral i * (1 / fwd.alpha i)⟩ g = .ok g' ∧
          ∀ b < B, ∀ hi < p.nlatHalo, ∀ wi < p.nlonKx, ∀ row : ℕ, (row : ℤ) = p.start + hi →
            (∀ c < nci, entryOf p.nlatHalo p.nlonKx nci g'.dk b hi wi c = entryOf p.nlatHalo p.nlonKx nci g.dk b hi wi c +
              gradK nci nco w (gatherNbrs P nlonIn pscale) nlatOut nlonOut K V Q DY b c row (p.lonLo + wi)) ∧
            ∀ c < nco, entryOf p.nlatHalo p.nlonKx nco g'.dv b hi wi c = entryOf p.nlatHalo p.nlonKx nco g.dv b hi wi c +
              gradV nci w (gatherNbrs P nlonIn pscale) nlatOut nlonOut K Q DY b c row (p.lonLo + wi) := by
  intro Q DY
  obtain ⟨fwd, f1, f2⟩ := C92_sums B w P q nci nco nlatOut nlonOut nlonIn pscale h1 fcalls hpf hrf K V hKf hcf
  obtain ⟨bwd, b1, b2⟩ := C95_sums B w P q dy nci nco nlatOut nlonOut nlonIn pscale h0 bcalls hpb hrb K V hKb hcb
  obtain ⟨bwd', c1, c2⟩ := C95_ring B w P q dy nci nco nlatOut nlonOut nlonIn pscale h0 bcalls hpb hrb K V hKb hcb
  obtain rfl : bwd = bwd' := Except.ok.inj (b1.symm.trans c1)
  -- both passes have the same sums
  have hsame : ∀ b < B, ∀ ho < nlatOut, ∀ wo < nlonOut, gatherNbrs P nlonIn pscale ho wo ≠ [] →
      bwd.alpha ((b * nlatOut + ho) * nlonOut + wo) = fwd.alpha ((b * nlatOut + ho) * nlonOut + wo) := by
    intro b hb ho hho wo hwo hne
    obtain ⟨M, -, ⟨m2, u, hu, m3⟩, m4⟩ := f2 b hb ho hho wo hwo hne
    obtain ⟨M', -, ⟨n2, u', hu', n3⟩, n4⟩ := b2 b hb ho hho wo hwo hne
    have hM : M' = M := le_antisymm (n3 ▸ m2 u' hu') (m3 ▸ n2 u hu)
    rw [m4, n4, hM]
  have hbar : ∀ b < B, ∀ ho < nlatOut, ∀ wo < nlonOut, gatherNbrs P nlonIn pscale ho wo ≠ [] →
      bwd.integral ((b * nlatOut + ho) * nlonOut + wo) / fwd.alpha ((b * nlatOut + ho) * nlonOut + wo) = gbar nci nco w (gatherNbrs P nlonIn pscale) K V Q DY b ho wo := by
    intro b hb ho hho wo hwo hne
    have := (c2 b hb ho hho wo hwo).1
    rw [hsame b hb ho hho wo hwo hne] at this
    rw [this]
    unfold attention
    rw [softAvg_prob]
    rfl
  refine ⟨fwd, bwd, f1, b1, fun b hb ho hho wo hwo hne c hc => ?_, fun r p k v p1 p2 p3 p4 p5 p6 hr hK g => ?_⟩
  · intro i
    obtain ⟨d1, d2⟩ := (c2 b hb ho hho wo hwo).2 c hc
    rw [hsame b hb ho hho wo hwo hne] at d1 d2
    refine gradQ_eq nci nco w (gatherNbrs P nlonIn pscale) K V Q DY b c ho wo (hbar b hb ho hho wo hwo hne) ?_ ?_
    · rw [d1]
      unfold attention
      rw [softAvg_prob]
    · rw [d2]
      unfold attention
      rw [softAvg_prob]
      rfl
  · subst p1 p2 p3 p4 p5 p6
    obtain ⟨g', e1, e2⟩ := C96_gradient r p B ⟨w, P, k, v, q, dy⟩ hr h0 K V hK ⟨fwd.alpha, fwd.qmax, fun i => bwd.integral i * (1 / fwd.alpha i)⟩ (by
      intro b hb ho hho wo hwo hne
      obtain ⟨M, m1, -, m4⟩ := f2 b hb ho hho wo hwo hne
      refine ⟨⟨M, m1, m4⟩, ?_⟩
      rw [← hbar b hb ho hho wo hwo hne, div_eq_mul_one_div]) g
    exact ⟨g', e1, fun b hb hi hhi wi hwi row hrow => (e2 b hb hi hhi wi hwi).1 row hrow⟩

/-! ### Where nothing is added -/

/-- C96: together they are the derivative of the attention of the rank's output points. `Hi` and `Wi` are the extents of the whole input. -/
theorem C96_derivative (B : ℕ) (w : ℕ → ℝ) (P : Pattern) (q dy : ℕ → ℝ) (nci nco nlatOut nlonOut nlonIn pscale : ℕ) (h0 : 0 < nci) (h1 : 0 < nco) (K V : T4)
    (Hi Wi : ℕ) (hin : ∀ ho < nlatOut, ∀ wo < nlonOut, ∀ u ∈ gatherNbrs P nlonIn pscale ho wo, u.1 < Hi ∧ u.2 < Wi)
    (hZ : ∀ b < B, ∀ ho < nlatOut, ∀ wo < nlonOut, ((gatherNbrs P nlonIn pscale ho wo).map fun u =>
      w u.1 * Real.exp (score nci K (fun b e h w => entryOf nlatOut nlonOut nci q b h w e) b ho wo u)).sum ≠ 0)
    (fcalls : List Call)
    (hpf : ∀ c ∈ fcalls, c.p.nci = nci ∧ c.p.nco = nco ∧ c.p.nlatOut = nlatOut ∧ c.p.nlonOut = nlonOut ∧ c.p.nlonIn = nlonIn ∧ c.p.pscale = pscale)
    (hrf : ∀ c ∈ fcalls, GoodRun c.r c.p B P)
    (hKf : ∀ c ∈ fcalls, ∀ b < B, ∀ x, (KvBlock.mk c.p.start c.p.nlatHalo c.p.lonLo c.p.nlonKx).Has x →
      (∀ e < nci, entryOf c.p.nlatHalo c.p.nlonKx nci c.k b ((x.1 : ℤ) - c.p.start).toNat (x.2 - c.p.lonLo) e = K b e x.1 x.2) ∧
      ∀ e < nco, entryOf c.p.nlatHalo c.p.nlonKx nco c.v b ((x.1 : ℤ) - c.p.start).toNat (x.2 - c.p.lonLo) e = V b e x.1 x.2)
    (hcf : ∀ ho < nlatOut, ∀ wo < nlonOut,
      (fcalls.flatMap fun c => nbrsIn ⟨c.p.start, c.p.nlatHalo, c.p.lonLo, c.p.nlonKx⟩ P nlonIn pscale ho wo).Perm (gatherNbrs P nlonIn pscale ho wo))
    (bcalls : List BCall)
    (hpb : ∀ c ∈ bcalls, c.p.nci = nci ∧ c.p.nco = nco ∧ c.p.nlatOut = nlatOut ∧ c.p.nlonOut = nlonOut ∧ c.p.nlonIn = nlonIn ∧ c.p.pscale = pscale)
    (hrb : ∀ c ∈ bcalls, BGoodRun c.r c.p B P)
    (hKb : ∀ c ∈ bcalls, ∀ b < B, ∀ x, (KvBlock.mk c.p.start c.p.nlatHalo c.p.lonLo c.p.nlonKx).Has x →
      (∀ e < nci, entryOf c.p.nlatHalo c.p.nlonKx nci c.k b ((x.1 : ℤ) - c.p.start).toNat (x.2 - c.p.lonLo) e = K b e x.1 x.2) ∧
      ∀ e < nco, entryOf c.p.nlatHalo c.p.nlonKx nco c.v b ((x.1 : ℤ) - c.p.start).toNat (x.2 - c.p.lonLo) e = V b e x.1 x.2)
    (hcb : ∀ ho < nlatOut, ∀ wo < nlonOut,
      (bcalls.flatMap fun c => nbrsIn ⟨c.p.start, c.p.nlatHalo, c.p.lonLo, c.p.nlonKx⟩ P nlonIn pscale ho wo).Perm (gatherNbrs P nlonIn pscale ho wo)) :
    ∃ fwd bwd, ringSteps B w P q fcalls RingGpu.Bufs.zero = .ok fwd ∧ ringBwdSteps B w P q dy bcalls BBufs.zero = .ok bwd ∧ ∃ DK DV DQ : T4,
      (∀ δK δV δQ : T4, HasDerivAt (fun t : ℝ => inner4 B nco nlatOut nlonOut (fun b e h w => entryOf nlatOut nlonOut nco dy b h w e)
          (attention nci w (gatherNbrs P nlonIn pscale) (fun b c h x => K b c h x + t * δK b c h x) (fun b c h x => V b c h x + t * δV b c h x)
            (fun b c h x => entryOf nlatOut nlonOut nci q b h x c + t * δQ b c h x)))
        (inner4 B nci Hi Wi DK δK + inner4 B nco Hi Wi DV δV + inner4 B nci nlatOut nlonOut DQ δQ) 0) ∧
      (∀ b < B, ∀ ho < nlatOut, ∀ wo < nlonOut, ∀ c < nci,
        let i := (b * nlatOut + ho) * nlonOut + wo
        (1 / fwd.alpha i) ^ 2 * (fwd.alpha i * entryOf nlatOut nlonOut nci bwd.kvw b ho wo c - bwd.integral i * entryOf nlatOut nlonOut nci bwd.kacc b ho wo c) = DQ b c ho wo) ∧
      ∀ (r : ARun) (p : RingGpu.Params) (k v : ℕ → ℝ), p.nci = nci → p.nco = nco → p.nlatOut = nlatOut → p.nlonOut = nlonOut → p.nlonIn = nlonIn → p.pscale = pscale →
        AGoodRun r p B P →
        (∀ b < B, ∀ x, (KvBlock.mk p.start p.nlatHalo p.lonLo p.nlonKx).Has x →
          (∀ e < nci, entryOf p.nlatHalo p.nlonKx nci k b ((x.1 : ℤ) - p.start).toNat (x.2 - p.lonLo) e = K b e x.1 x.2) ∧
          ∀ e < nco, entryOf p.nlatHalo p.nlonKx nco v b ((x.1 : ℤ) - p.start).toNat (x.2 - p.lonLo) e = V b e x.1 x.2) →
        ∀ g, ∃ g', ringBwdStep2 r p B ⟨w, P, k, v, q, dy⟩ ⟨fwd.alpha, fwd.qmax, fun i => bwd.integral i * (1 / fwd.alpha i)⟩ g = .ok g' ∧
          ∀ b < B, ∀ hi < p.nlatHalo, ∀ wi < p.nlonKx, ∀ row : ℕ, (row : ℤ) = p.start + hi →
            (∀ c < nci, entryOf p.nlatHalo p.nlonKx nci g'.dk b hi wi c = entryOf p.nlatHalo p.nlonKx nci g.dk b hi wi c + DK b c row (p.lonLo + wi)) ∧
            ∀ c < nco, entryOf p.nlatHalo p.nlonKx nco g'.dv b hi wi c = entryOf p.nlatHalo p.nlonKx nco g.dv b hi wi c + DV b c row (p.lonLo + wi) := by
  obtain ⟨fwd, bwd, e1, e2, e3, e4⟩ := C96_backward B w P q dy nci nco nlatOut nlonOut nlonIn pscale h0 h1 K V fcalls hpf hrf hKf hcf bcalls hpb hrb hKb hcb
  refine ⟨fwd, bwd, e1, e2, _, _, _, fun δK δV δQ => attention_hasDerivAt B nci nco Hi Wi nlatOut nlonOut w (gatherNbrs P nlonIn pscale) K V _ _ δK δV δQ hin hZ,
    fun b hb ho hho wo hwo c hc => e3 b hb ho hho wo hwo (fun h => hZ b hb ho hho wo hwo ?_) c hc, e4⟩
  rw [h]
  rfl

/-- C96: without channels of keys and queries nothing is launched: the gradients of the values are not kept up. -/
theorem C96_no_channels (r : ARun) (p : RingGpu.Params) (h0 : p.nci = 0) (B : ℕ) (x : BIn) (st : BStats) (g : BGrads) : ringBwdStep2 r p B x st g = .ok g :=
  ringBwdStep2_nothing r h0 B x st g

/-- C96: a launch that the device does not accept ends the process. -/
theorem C96_refused (r : ARun) (p : RingGpu.Params) (B : ℕ) (x : BIn) (h0 : 0 < p.nci) (hr : ARunOk r (bGroupSize p.nci) p.nlatOut) (hrows : ARowsOk r p x.P)
    (hh : p.nci ≤ 8192 → HaloOk p x.P) (hacc : ¬ AAccepted r p B) (st : BStats) (g : BGrads) : ringBwdStep2 r p B x st g = .error .processExit :=
  ringBwdStep2_refused h0 hr hrows hh hacc st g

/-- An empty batch is one such case. -/
theorem C96_empty_batch (r : ARun) (p : RingGpu.Params) (x : BIn) (h0 : 0 < p.nci) (hlat : 0 < p.nlatOut) (hr : ARunOk r (bGroupSize p.nci) p.nlatOut) (hrows : ARowsOk r p x.P)
    (hh : p.nci ≤ 8192 → HaloOk p x.P) (st : BStats) (g : BGrads) : ringBwdStep2 r p 0 x st g = .error .processExit := by
  refine C96_refused r p 0 x h0 hr hrows hh (fun h => ?_) st g
  rcases Nat.lt_or_ge 8192 p.nci with h1 | h1
  · exact absurd (h.generic h1).2.2.1 (by omega)
  · rcases Nat.eq_zero_or_pos p.nLong with h2 | h2
    · exact absurd (h.short h1 (by omega)).2.2.2.2.1 (by omega)
    · exact absurd (h.long h1 h2).2.2.2.2.1 (by omega)

/-- So are, with 227 KiB of shared memory, more than 8192 channels of keys if they and those of the values exceed 29056. -/
theorem C96_too_many_channels (r : ARun) (p : RingGpu.Params) (B : ℕ) (x : BIn) (hr : ARunOk r (bGroupSize p.nci) p.nlatOut) (hrows : ARowsOk r p x.P) (hlim : r.limit = 227 * 1024)
    (hc : 29056 < p.nci + p.nco) (h1 : 8192 < p.nci) (st : BStats) (g : BGrads) : ringBwdStep2 r p B x st g = .error .processExit := by
  refine C96_refused r p B x (by omega) hr hrows (fun h => absurd h (by omega)) (fun h => ?_) st g
  have := (h.generic h1).2.2.2.2.2.2
  rw [hlim] at this
  split_ifs at this <;> omega

/-- C96, negative: the specialised kernel does not check the rows of the neighbours. A neighbour whose longitude is in the block, but whose row is two or more before its first row or
after its last one, is read outside of the arrays. -/
theorem C96_outside (r : ARun) (p : RingGpu.Params) (B : ℕ) (x : BIn) (h0 : 0 < p.nci) (h1 : p.nci ≤ 8192) (hB : 0 < B) (hr : ARunOk r (bGroupSize p.nci) p.nlatOut)
    (hrows : ARowsOk r p x.P) (hacc : AAccepted r p B) {ho wo : ℕ} (hho : ho < p.nlatOut) (hwo : wo < p.nlonOut) {u : ℕ × ℕ} (hu : u ∈ gatherNbrs x.P p.nlonIn p.pscale ho wo)
    (hlon : p.lonLo ≤ u.2 ∧ u.2 < p.lonLo + p.nlonKx) (hlat : (u.1 : ℤ) ≤ p.start - 2 ∨ p.start + p.nlatHalo + 1 ≤ u.1) (st : BStats) (g : BGrads) :
    ringBwdStep2 r p B x st g = .error .memoryFault := by
  obtain ⟨z, hz, rfl⟩ := List.mem_map.1 hu
  dsimp only at hlon hlat
  rcases hlat with h | h
  · exact ringBwdStep2_stray h0 h1 hr hrows hacc st g ⟨0, hB, ho, hho, wo, hwo, z, hz, hlon, Or.inr ⟨rfl, by omega⟩⟩
  · exact ringBwdStep2_stray h0 h1 hr hrows hacc st g ⟨B - 1, by omega, ho, hho, wo, hwo, z, hz, hlon, Or.inl ⟨by omega, by omega⟩⟩

/-! ### Cases that meet the hypotheses -/

/-- A run in which everything happens in the order of the program. -/
noncomputable def plainARun (bx : ℕ) : ARun :=
  ⟨true, false, 232448, id, fun _ _ _ _ => ⟨fun _ => ⟨7, 8, 9⟩, fun _ => List.range bx, fun _ _ _ => 5, fun _ _ _ => 3, fun _ _ _ => 4⟩, fun _ => id, fun _ => id⟩

theorem plainARun_ok (bx nlatOut : ℕ) : ARunOk (plainARun bx) bx nlatOut where
  rows := by rw [show (plainARun bx).rowIdx = id from rfl, List.map_id]
  order := fun _ _ _ _ _ => List.Perm.refl _
  addK := fun _ _ => List.Perm.refl _
  addV := fun _ _ => List.Perm.refl _

theorem exLongA_good : AGoodRun (plainARun 64) exLongB 3 exPat where
  run := by
    show ARunOk _ (bGroupSize 576) _
    unfold bGroupSize
    rw [if_pos (by norm_num), exLong_bx]
    exact plainARun_ok _ _
  rows := ⟨(exLong_rows exSched).le, (exLong_rows exSched).long, (exLong_rows exSched).short⟩
  accepted := by
    refine ⟨fun h => absurd h (by decide), fun _ _ => ?_, fun _ _ => ?_⟩
    · show fitsTop _ _ _ _ _ _ (bStaticShared (bdimxOf 576))
      rw [exLong_bx]
      show fitsTop 232448 _ _ _ (addBytes false _ _ _ _) (askedBytes false _) _
      decide
    · show fitsTop _ _ _ _ _ _ (bStaticShared (bdimxOf 576))
      rw [exLong_bx]
      show fitsTop 232448 _ _ _ (addBytes false _ _ _ _) (askedBytes false _) _
      decide
  halo := by
    intro _ ho _ wo _ u hu _ _
    obtain ⟨z, -, rfl⟩ := List.mem_map.1 hu
    have : z % 1024 / 1024 = 0 := Nat.div_eq_of_lt (Nat.mod_lt _ (by norm_num))
    show (0 : ℤ) - 1 ≤ ((z % 1024 / 1024 : ℕ) : ℤ) ∧ ((z % 1024 / 1024 : ℕ) : ℤ) < 0 + (1 : ℕ)
    rw [this]
    decide

/-- A row of 1024 neighbours in 32 parts, and one of one neighbour. -/
example (w k v q dy : ℕ → ℝ) (g : BGrads) :
    ∃ g', ringBwdStep2 (plainARun 64) exLongB 3 ⟨w, exPat, k, v, q, dy⟩ ⟨fun _ => 2, fun _ => some 1, fun _ => 3⟩ g = .ok g' ∧
      Pass2Done exLongB 3 ⟨w, exPat, k, v, q, dy⟩ ⟨fun _ => 2, fun _ => some 1, fun _ => 3⟩ (fun _ _ _ => 1) g g' :=
  C96_step _ _ _ ⟨w, exPat, k, v, q, dy⟩ exLongA_good (by decide) _ _ (fun _ _ _ _ _ _ _ => rfl) g

theorem exHalfA_good (lo : ℕ) : AGoodRun (plainARun 32) (exHalf lo) 1 exPair where
  run := by
    show ARunOk _ (bGroupSize 1) _
    unfold bGroupSize
    rw [if_pos (by norm_num), bdimxOf_eq _ (by norm_num)]
    exact plainARun_ok _ _
  rows := ⟨(exHalf_good lo).rows.le, (exHalf_good lo).rows.long, (exHalf_good lo).rows.short⟩
  accepted := by
    refine ⟨fun h => absurd h (by show ¬ 8192 < 1; norm_num), fun _ h => absurd h (Nat.lt_irrefl 0), fun _ _ => ?_⟩
    show fitsTop _ _ _ _ _ _ (bStaticShared (bdimxOf 1))
    rw [bdimxOf_eq _ (by norm_num)]
    have : fitsTop 232448 (divUp ((1 - 0) * 1) 2) 1 1 (addBytes false 1 1 2 2) (askedBytes false (exHalf 0)) (bStaticShared 32) := by decide
    exact this
  halo := by
    intro _ ho hho wo hwo u hu _ _
    have h1 : ho < 1 := hho
    have h2 : wo < 1 := hwo
    obtain rfl : ho = 0 := by omega
    obtain rfl : wo = 0 := by omega
    have h3 : u ∈ gatherNbrs exPair 2 2 0 0 := hu
    have h4 : ∀ u ∈ gatherNbrs exPair 2 2 0 0, (0 : ℤ) - 1 ≤ ((u.1 : ℕ) : ℤ) ∧ ((u.1 : ℕ) : ℤ) < 0 + (1 : ℕ) := by decide
    exact h4 u h3

/-- The entries of the two blocks of one longitude. -/
theorem exHalf_has (K V : T4) {lo : ℕ} {b : ℕ} (hb : b < 1) {x : ℕ × ℕ} (hx : (KvBlock.mk (exHalf lo).start (exHalf lo).nlatHalo (exHalf lo).lonLo (exHalf lo).nlonKx).Has x) :
    (∀ e < 1, entryOf (exHalf lo).nlatHalo (exHalf lo).nlonKx 1 (fun _ => K 0 0 0 lo) b ((x.1 : ℤ) - (exHalf lo).start).toNat (x.2 - (exHalf lo).lonLo) e = K b e x.1 x.2) ∧
      ∀ e < 1, entryOf (exHalf lo).nlatHalo (exHalf lo).nlonKx 1 (fun _ => V 0 0 0 lo) b ((x.1 : ℤ) - (exHalf lo).start).toNat (x.2 - (exHalf lo).lonLo) e = V b e x.1 x.2 := by
  obtain rfl : b = 0 := by omega
  obtain ⟨x1, x2⟩ := x
  obtain ⟨a1, a2, a3, a4⟩ := hx
  dsimp only [exHalf] at a1 a2 a3 a4
  obtain rfl : x1 = 0 := by omega
  obtain rfl : x2 = lo := by omega
  exact ⟨fun e he => by rw [Nat.lt_one_iff.1 he]; rfl, fun e he => by rw [Nat.lt_one_iff.1 he]; rfl⟩

/-- Two blocks of one longitude each make up the input of two longitudes; the second pass visits the second one. -/
example (w q dy : ℕ → ℝ) (K V : T4) :
    ∃ fwd bwd, ringSteps 1 w exPair q [⟨plainRun 32 [], exHalf 0, fun _ => K 0 0 0 0, fun _ => V 0 0 0 0⟩, ⟨plainRun 32 [], exHalf 1, fun _ => K 0 0 0 1, fun _ => V 0 0 0 1⟩]
        RingGpu.Bufs.zero = .ok fwd ∧
      ringBwdSteps 1 w exPair q dy [⟨plainBRun 32 [], exHalf 0, fun _ => K 0 0 0 0, fun _ => V 0 0 0 0⟩, ⟨plainBRun 32 [], exHalf 1, fun _ => K 0 0 0 1, fun _ => V 0 0 0 1⟩]
        BBufs.zero = .ok bwd ∧
      ∃ g', ringBwdStep2 (plainARun 32) (exHalf 1) 1 ⟨w, exPair, fun _ => K 0 0 0 1, fun _ => V 0 0 0 1, q, dy⟩ ⟨fwd.alpha, fwd.qmax, fun i => bwd.integral i * (1 / fwd.alpha i)⟩
          ⟨fun _ => 0, fun _ => 0⟩ = .ok g' ∧
        g'.dv 0 = gradV 1 w (gatherNbrs exPair 2 2) 1 1 K (fun b e h w => entryOf 1 1 1 q b h w e) (fun b e h w => entryOf 1 1 1 dy b h w e) 0 0 0 1 := by
  obtain ⟨fwd, bwd, e1, e2, -, e3⟩ := C96_backward 1 w exPair q dy 1 1 1 1 2 2 (by norm_num) (by norm_num) K V
    [⟨plainRun 32 [], exHalf 0, fun _ => K 0 0 0 0, fun _ => V 0 0 0 0⟩, ⟨plainRun 32 [], exHalf 1, fun _ => K 0 0 0 1, fun _ => V 0 0 0 1⟩] (by
      intro c hc
      rw [List.mem_cons, List.mem_singleton] at hc
      rcases hc with rfl | rfl <;> exact ⟨rfl, rfl, rfl, rfl, rfl, rfl⟩) (by
      intro c hc
      rw [List.mem_cons, List.mem_singleton] at hc
      rcases hc with rfl | rfl <;> exact exHalf_good _) (by
      intro c hc b hb x hx
      rw [List.mem_cons, List.mem_singleton] at hc
      rcases hc with rfl | rfl <;> exact exHalf_has K V hb hx) (by
      intro ho hho wo hwo
      obtain rfl : ho = 0 := by omega
      obtain rfl : wo = 0 := by omega
      show (nbrsIn ⟨0, 1, 0, 1⟩ exPair 2 2 0 0 ++ (nbrsIn ⟨0, 1, 1, 1⟩ exPair 2 2 0 0 ++ [])).Perm (gatherNbrs exPair 2 2 0 0)
      decide)
    [⟨plainBRun 32 [], exHalf 0, fun _ => K 0 0 0 0, fun _ => V 0 0 0 0⟩, ⟨plainBRun 32 [], exHalf 1, fun _ => K 0 0 0 1, fun _ => V 0 0 0 1⟩] (by
      intro c hc
      rw [List.mem_cons, List.mem_singleton] at hc
      rcases hc with rfl | rfl <;> exact ⟨rfl, rfl, rfl, rfl, rfl, rfl⟩) (by
      intro c hc
      rw [List.mem_cons, List.mem_singleton] at hc
      rcases hc with rfl | rfl <;> exact exHalfB_good _) (by
      intro c hc b hb x hx
      rw [List.mem_cons, List.mem_singleton] at hc
      rcases hc with rfl | rfl <;> exact exHalf_has K V hb hx) (by
      intro ho hho wo hwo
      obtain rfl : ho = 0 := by omega
      obtain rfl : wo = 0 := by omega
      show (nbrsIn ⟨0, 1, 0, 1⟩ exPair 2 2 0 0 ++ (nbrsIn ⟨0, 1, 1, 1⟩ exPair 2 2 0 0 ++ [])).Perm (gatherNbrs exPair 2 2 0 0)
      decide)
  obtain ⟨g', f1, f2⟩ := e3 (plainARun 32) (exHalf 1) (fun _ => K 0 0 0 1) (fun _ => V 0 0 0 1) rfl rfl rfl rfl rfl rfl (exHalfA_good 1) (fun b hb x hx => exHalf_has K V hb hx)
    ⟨fun _ => 0, fun _ => 0⟩
  refine ⟨fwd, bwd, e1, e2, g', f1, ?_⟩
  have := (f2 0 (by norm_num) 0 (by decide) 0 (by decide) 0 rfl).2 0 (by norm_num)
  exact this.trans (zero_add _)

/-- An output point whose only neighbour is in row 2, and a block of row 0. -/
def exStray : RingGpu.Params := ⟨1, 1, 1, 1, 1, 1, 0, 0, 1, 1, 0, 0, 1⟩

example (w k v q dy : ℕ → ℝ) (st : BStats) (g : BGrads) :
    ringBwdStep2 (plainARun 32) exStray 1 ⟨w, ⟨fun _ => 2, fun h => h⟩, k, v, q, dy⟩ st g = .error .memoryFault := by
  refine C96_outside (plainARun 32) exStray 1 ⟨w, ⟨fun _ => 2, fun h => h⟩, k, v, q, dy⟩ (by decide) (by decide) (by norm_num) ?_ ?_ ?_ (ho := 0) (wo := 0) (by decide) (by decide)
    (u := (2, 0)) ?_ (by decide) (Or.inr (by decide)) st g
  · show ARunOk _ (bGroupSize 1) _
    unfold bGroupSize
    rw [if_pos (by norm_num), bdimxOf_eq _ (by norm_num)]
    exact plainARun_ok _ _
  · refine ⟨by decide, fun h hh => absurd hh (Nat.not_lt_zero h), fun h _ _ => ?_⟩
    show h + 1 - h ≤ 1
    omega
  · refine ⟨fun h => absurd h (by decide), fun _ h => absurd h (Nat.lt_irrefl 0), fun _ _ => ?_⟩
    show fitsTop _ _ _ _ _ _ (bStaticShared (bdimxOf 1))
    rw [bdimxOf_eq _ (by norm_num)]
    have : fitsTop 232448 (divUp ((1 - 0) * 1) 2) 1 1 (addBytes false 1 1 2 1) (askedBytes false exStray) (bStaticShared 32) := by decide
    exact this
  · have : (2, 0) ∈ gatherNbrs ⟨fun _ => 2, fun h => h⟩ 1 1 0 0 := by decide
    exact this

end Verif.Props
