import Verif.Lemmas.RingCudaBwdGroup
import Verif.Lemmas.RingCudaRace
/-!
The launches of the first backward pass, one half at a time.
-/
namespace Verif.RingGpu
open Verif Verif.Attn Verif.Spec.Attn Verif.AttnGpu Verif.Ring Finset

/-- One half of what a group has. -/
def BGroupOut.half (two : Bool) (g : BGroupOut) : GroupOut := ⟨g.flat, fun t => (g.thr t).half two⟩

theorem bind_three {A C : Except PyErr (ℕ → ℝ)} {D : Except PyErr (ℕ → Option ℝ)} {b : Bufs} (h : (do let y ← A; let a ← C; let m ← D; return (⟨y, a, m⟩ : Bufs)) = .ok b) :
    A = .ok b.y ∧ C = .ok b.alpha ∧ D = .ok b.qmax := by
  cases A with
  | error e => cases h
  | ok y => cases C with
    | error e => cases h
    | ok a => cases D with
      | error e => cases h
      | ok m =>
        cases h
        exact ⟨rfl, rfl, rfl⟩

theorem half_kStores (two : Bool) (vec : ℕ) (cf : Config) (p : Params) (gs : List BGroupOut) :
    (gs.map (BGroupOut.half two)).flatMap (yStores vec (keyedCfg cf) (keyed p)) = cond two (gs.flatMap (kvwStores vec cf p)) (gs.flatMap (kStores vec cf p)) := by
  rw [List.flatMap_map]
  cases two <;> rfl

theorem half_alphas (two : Bool) (gs : List BGroupOut) :
    (gs.map (BGroupOut.half two)).map (fun g => (g.flat, (g.thr 0).alpha))
      = cond two (gs.map fun g => (g.flat, (g.thr 0).integral)) (gs.map fun g => (g.flat, (g.thr 0).alpha)) := by
  rw [List.map_map]
  cases two <;> rfl

theorem half_maxima (two : Bool) (gs : List BGroupOut) :
    (gs.map (BGroupOut.half two)).map (fun g => (g.flat, (g.thr 0).qmax)) = gs.map fun g => (g.flat, (g.thr 0).qmax) := by
  rw [List.map_map]
  rfl

theorem bStoreGroups_half {r : BRun} {vec : ℕ} {cf : Config} {p : Params} {B : ℕ} {gs : List BGroupOut} {bufs : BBufs} {bs : Bool → Bufs}
    (h : ∀ two, storeGroups (r.half two) vec (keyedCfg cf) (keyed p) B (gs.map (BGroupOut.half two)) (bufs.half two) = .ok (bs two)) :
    ∃ bufs', bStoreGroups r vec cf p B gs bufs = .ok bufs' ∧ ∀ two, bufs'.half two = bs two := by
  have h0 := h false
  have h1 := h true
  unfold storeGroups at h0 h1
  obtain ⟨y0, a0, m0⟩ := bind_three h0
  obtain ⟨y1, a1, m1⟩ := bind_three h1
  rw [half_kStores] at y0 y1
  rw [half_alphas] at a0 a1
  rw [half_maxima] at m0 m1
  have hm : (bs false).qmax = (bs true).qmax := Except.ok.inj (m0.symm.trans m1)
  refine ⟨⟨(bs false).alpha, (bs false).qmax, (bs true).alpha, (bs false).y, (bs true).y⟩, ?_, ?_⟩
  · unfold bStoreGroups
    have a0' : (r.storeA (gs.map fun g => (g.flat, (g.thr 0).alpha))).foldlM (storeTo (B * p.nlatOut * p.nlonOut)) bufs.alpha = .ok (bs false).alpha := a0
    have m0' : (r.storeM (gs.map fun g => (g.flat, (g.thr 0).qmax))).foldlM (fun m a => Disco.store (B * p.nlatOut * p.nlonOut) m a.1 a.2) bufs.qmax = .ok (bs false).qmax := m0
    have a1' : (r.storeI (gs.map fun g => (g.flat, (g.thr 0).integral))).foldlM (storeTo (B * p.nlatOut * p.nlonOut)) bufs.integral = .ok (bs true).alpha := a1
    have y0' : (r.storeY (gs.flatMap (kStores vec cf p))).foldlM (storeTo (B * p.nlatOut * p.nlonOut * (p.nci * vec))) bufs.kacc = .ok (bs false).y := y0
    have y1' : (r.storeW (gs.flatMap (kvwStores vec cf p))).foldlM (storeTo (B * p.nlatOut * p.nlonOut * (p.nci * vec))) bufs.kvw = .ok (bs true).y := y1
    rw [a0', m0', a1', y0', y1']
    rfl
  · intro two
    cases two
    · rfl
    · change (⟨_, _, (bs false).qmax⟩ : Bufs) = _
      rw [hm]
      rfl

open Classical in
/-- What a kernel is to do to one half. -/
def BEffect (two : Bool) (vec : ℕ) (p : Params) (x : BIn) (S : ℕ → Prop) (bufs bufs' : BBufs) : Prop :=
  ∀ i, AccEq (p.nci * vec) (accAt (p.nci * vec) (bufs'.half two) i)
    (if S i then closed (accAt (p.nci * vec) (bufs.half two) i) (bChunkAt two vec p x i) else accAt (p.nci * vec) (bufs.half two) i)

theorem bOnePass_ok {r : BRun} {vec : ℕ} {cf : Config} {p : Params} {n : ℕ} (hr : BRunOk r n p.nlatOut) (hb : 0 < cf.bx) (hl : LocOk cf.bx cf.locI p.nci) {B : ℕ} (x : BIn) (bufs : BBufs)
    (S : ℕ → Prop) (gs : List BGroupOut)
    (hmem : ∀ g ∈ gs, g.flat < B * p.nlatOut * p.nlonOut ∧ S g.flat ∧ ∀ two, Agree vec cf.bx (chans cf.bx cf.locI p.nci) (fun t => (g.thr t).half two)
      (closed (accAt (p.nci * vec) (bufs.half two) g.flat) (bChunkAt two vec p x g.flat)))
    (hcov : ∀ i, S i → ∃ g ∈ gs, g.flat = i) :
    ∃ bufs', bStoreGroups r vec cf p B gs bufs = .ok bufs' ∧ ∀ two, BEffect two vec p x S bufs bufs' := by
  classical
  have hst := fun two => storeGroups_ok (r := r.half two) (hr.half two).storeY (hr.half two).storeA (hr.half two).storeM (vec := vec) (cf := keyedCfg cf) (p := keyed p) hb hl B
    (gs.map (BGroupOut.half two)) (bufs.half two) (fun i => closed (accAt (p.nci * vec) (bufs.half two) i) (bChunkAt two vec p x i)) (by
      intro g hg
      obtain ⟨g, hg', rfl⟩ := List.mem_map.1 hg
      exact ⟨(hmem g hg').1, (hmem g hg').2.2 two⟩)
  choose bs s1 s2 s3 using hst
  obtain ⟨bufs', e1, e2⟩ := bStoreGroups_half s1
  refine ⟨bufs', e1, fun two i => ?_⟩
  rw [e2]
  by_cases hi : S i
  · rw [if_pos hi]
    obtain ⟨g, hg, rfl⟩ := hcov i hi
    exact s2 two (g.half two) (List.mem_map_of_mem hg)
  · rw [if_neg hi]
    refine s3 two i fun g hg he => ?_
    obtain ⟨g, hg', rfl⟩ := List.mem_map.1 hg
    exact hi (he ▸ (hmem g hg').2.1)

theorem bRunGeneric_ok {r : BRun} {p : Params} (hr : BRunOk r 32 p.nlatOut) (vec : ℕ) {B : ℕ} (x : BIn) (bufs : BBufs)
    (hf : fits r.limit (divUp (p.nlatOut * p.nlonOut) 2) B 1 (4 * vec * (2 * p.nci + p.nco) * 2) 0) :
    ∃ bufs', bRunGeneric r vec p B x bufs = .ok bufs' ∧ ∀ two, BEffect two vec p x (fun i => i < B * p.nlatOut * p.nlonOut) bufs bufs' := by
  unfold bRunGeneric
  dsimp only
  rw [if_pos hf]
  have hcell : ∀ {wid : ℕ}, wid < p.nlatOut * p.nlonOut → wid / p.nlonOut < p.nlatOut ∧ wid % p.nlonOut < p.nlonOut := fun hw =>
    ⟨(packed_split hw).1, (packed_split hw).2.1⟩
  refine bOnePass_ok hr (cf := ⟨32, 2, none, none, false, 0⟩) (by dsimp only; omega) (fun m hm => by simp at hm) x bufs _ _ ?_ ?_
  · intro g hg
    obtain ⟨y, hy, hg⟩ := List.mem_flatMap.1 hg
    obtain ⟨b, hb, wid, -, hy⟩ := mem_overGrid.1 hy
    obtain rfl := List.mem_singleton.1 hy
    by_cases hw : wid < p.nlatOut * p.nlonOut
    · obtain ⟨thr, e, hag⟩ := bGenericGroup_ok vec p x r.rowIdx (r.bjunk 0 b 0 wid) bufs (b := b) hw
      dsimp only at hg
      rw [e] at hg
      obtain rfl := List.mem_singleton.1 hg
      have h1 := hr.toRunOk.row_lt (hcell hw).1
      refine ⟨outFlat_lt hb h1 (hcell hw).2, outFlat_lt hb h1 (hcell hw).2, fun two => ?_⟩
      dsimp only
      rw [bChunkAt_outFlat two vec x h1 (hcell hw).2]
      exact hag two
    · dsimp only at hg
      unfold bGenericGroup at hg
      rw [pointOf_none hw] at hg
      simp at hg
  · intro i hi
    obtain ⟨b, hb, h, -, hh, wo, hw, rfl⟩ : InRows r.toRun p B 0 p.nlatOut i := (inRows_all hr.toRunOk p.nlatOut hi).elim id fun ⟨b, _, h, h1, h2, _⟩ => by omega
    have hwid : h * p.nlonOut + wo < p.nlatOut * p.nlonOut := packed_lt hh hw
    obtain ⟨q1, q2⟩ := div_mul_add (a := h) hw
    obtain ⟨thr, e, -⟩ := bGenericGroup_ok vec p x r.rowIdx (r.bjunk 0 b 0 (h * p.nlonOut + wo)) bufs (b := b) hwid
    rw [q1, q2] at e
    exact ⟨⟨outFlat p b (r.rowIdx h) wo, thr⟩, List.mem_flatMap.2 ⟨(b, h * p.nlonOut + wo),
      mem_overGrid.2 ⟨b, hb, _, lt_of_lt_of_le hwid (le_divUp_mul (by omega)), List.mem_singleton.2 rfl⟩, by dsimp only; rw [e]; exact List.mem_singleton.2 rfl⟩, rfl⟩

theorem bRunSpecial_ok {r : BRun} {vec : ℕ} {cf : Config} {p : Params} (hc : CfgOk cf p.nci p.nco) (hr : BRunOk r cf.bx p.nlatOut) {B : ℕ} (x : BIn) (bufs : BBufs)
    (hmid : ∀ h, p.nLong ≤ h → h < p.nlatOut → x.P.roff (r.rowIdx h + 1) - x.P.roff (r.rowIdx h) ≤ p.midLen)
    (hf : p.nLong < p.nlatOut → fits r.limit (divUp ((p.nlatOut - p.nLong) * p.nlonOut) cf.by') B 1 ((4 * vec * p.nco + 8 * p.midLen * 2 + 4 * p.midLen) * cf.by')
      (bStaticShared cf.bx)) :
    ∃ bufs', bRunSpecial r vec cf p B x bufs = .ok bufs' ∧ ∀ two, BEffect two vec p x (InRows r.toRun p B p.nLong p.nlatOut) bufs bufs' := by
  classical
  unfold bRunSpecial
  by_cases h0 : p.nlatOut - p.nLong = 0
  · rw [if_pos h0]
    refine ⟨bufs, rfl, fun two i => ?_⟩
    rw [if_neg]
    · exact AccEq.refl _ _
    · rintro ⟨b, hb, h, h1, h2, -⟩
      omega
  rw [if_neg h0]
  dsimp only
  rw [if_pos (hf (by omega))]
  have hcell : ∀ {wid : ℕ}, wid < (p.nlatOut - p.nLong) * p.nlonOut → wid / p.nlonOut < p.nlatOut - p.nLong ∧ wid % p.nlonOut < p.nlonOut := fun hw =>
    ⟨(packed_split hw).1, (packed_split hw).2.1⟩
  have hgrp : ∀ y : ℕ × ℕ, ∃ gs, bSpecialGroup vec cf p x r.rowIdx (r.shared 0 y.1 0 y.2) (r.bjunk 0 y.1 0 y.2) bufs y.1 y.2 = .ok gs ∧
      (¬ y.2 < (p.nlatOut - p.nLong) * p.nlonOut → gs = []) ∧ (y.2 < (p.nlatOut - p.nLong) * p.nlonOut →
      ∃ thr, gs = [⟨outFlat p y.1 (r.rowIdx (p.nLong + y.2 / p.nlonOut)) (y.2 % p.nlonOut), thr⟩] ∧
      ∀ two, Agree vec cf.bx (chans cf.bx cf.locI p.nci) (fun t => BThr.half two (thr t))
        (closed (accAt (p.nci * vec) (bufs.half two) (outFlat p y.1 (r.rowIdx (p.nLong + y.2 / p.nlonOut)) (y.2 % p.nlonOut)))
          (bChunk two vec p x y.1 (r.rowIdx (p.nLong + y.2 / p.nlonOut)) (y.2 % p.nlonOut)))) := by
    rintro ⟨b, wid⟩
    by_cases hw : wid < (p.nlatOut - p.nLong) * p.nlonOut
    · obtain ⟨thr, e1, e2⟩ := bSpecialGroup_ok (vec := vec) hc x r.rowIdx (r.shared 0 b 0 wid) (hr.order 0 b 0 wid) (r.bjunk 0 b 0 wid) bufs (b := b) hw
        (hmid _ (Nat.le_add_right _ _) (by have := (hcell hw).1; omega))
      exact ⟨_, e1, fun h => absurd hw h, fun _ => ⟨thr, rfl, e2⟩⟩
    · refine ⟨[], ?_, fun _ => rfl, fun h => absurd h hw⟩
      unfold bSpecialGroup
      rw [pointOf_none hw]
  choose G g1 g2 g3 using hgrp
  rw [overM_ok (g := G) _ fun y _ => g1 y]
  refine bOnePass_ok hr hc.grp.1 hc.inC x bufs _ _ ?_ ?_
  · intro g hg
    obtain ⟨y, hy, hg⟩ := List.mem_flatMap.1 hg
    obtain ⟨b, hb, wid, -, hy⟩ := mem_overGrid.1 hy
    obtain rfl := List.mem_singleton.1 hy
    by_cases hw : wid < (p.nlatOut - p.nLong) * p.nlonOut
    · obtain ⟨thr, e, hag⟩ := g3 (b, wid) hw
      rw [e] at hg
      obtain rfl := List.mem_singleton.1 hg
      have h1 := (hcell hw).1
      have h2 := hr.toRunOk.row_lt (show p.nLong + wid / p.nlonOut < p.nlatOut by omega)
      refine ⟨outFlat_lt hb h2 (hcell hw).2, ⟨b, hb, p.nLong + wid / p.nlonOut, Nat.le_add_right _ _, by omega, _, (hcell hw).2, rfl⟩, fun two => ?_⟩
      dsimp only
      rw [bChunkAt_outFlat two vec x h2 (hcell hw).2]
      exact hag two
    · rw [g2 (b, wid) hw] at hg
      simp at hg
  · rintro i ⟨b, hb, h, hh1, hh2, wo, hw, rfl⟩
    have hwid : (h - p.nLong) * p.nlonOut + wo < (p.nlatOut - p.nLong) * p.nlonOut := packed_lt (by omega) hw
    obtain ⟨q1, q2⟩ := div_mul_add (a := h - p.nLong) hw
    obtain ⟨thr, e, -⟩ := g3 (b, (h - p.nLong) * p.nlonOut + wo) hwid
    dsimp only at e
    rw [q1, q2, show p.nLong + (h - p.nLong) = h by omega] at e
    exact ⟨⟨outFlat p b (r.rowIdx h) wo, thr⟩, List.mem_flatMap.2 ⟨(b, (h - p.nLong) * p.nlonOut + wo),
      mem_overGrid.2 ⟨b, hb, _, lt_of_lt_of_le hwid (le_divUp_mul hc.rows), List.mem_singleton.2 rfl⟩, by rw [e]; exact List.mem_singleton.2 rfl⟩, rfl⟩

/-! ### The long rows -/

open Classical in
theorem bRunSoftmax_ok {r : BRun} {vec : ℕ} {cf : Config} {p : Params} (hc : CfgOk cf p.nci p.nco) (hr : BRunOk r cf.bx p.nlatOut) {B : ℕ} (x : BIn) (bufs : BBufs)
    (hn : p.nLong ≤ p.nlatOut) (hlen : ∀ h < p.nLong, x.P.roff (r.rowIdx h + 1) - x.P.roff (r.rowIdx h) ≤ p.maxLen) (hpos : 0 < p.maxLen)
    (hf : fits r.limit (divUp (p.nLong * p.nlonOut) cf.by') (ctaPerRow p.maxLen) B (8 * divUp p.maxLen (ctaPerRow p.maxLen) * cf.by') (staticShared cf.bx)) :
    ∃ curr, bRunSoftmax r vec cf p B x bufs = .ok curr ∧
      ∀ two i, curr i = if InRows r.toRun p B 0 p.nLong i then phaseMax (bufs.qmax i) (bChunkAt two vec p x i) else bufs.qmax i := by
  unfold bRunSoftmax
  dsimp only
  rw [if_pos hf]
  have hcp := ctaPerRow_pos hpos
  generalize ctaPerRow p.maxLen = cpr at *
  have hcell : ∀ {wid : ℕ}, wid < p.nLong * p.nlonOut → wid / p.nlonOut < p.nLong ∧ wid % p.nlonOut < p.nlonOut := fun hw =>
    ⟨(packed_split hw).1, (packed_split hw).2.1⟩
  have hgrp : ∀ y : ℕ × ℕ × ℕ, bSoftmaxGroup vec cf p x r.rowIdx cpr (r.shared 1 y.1 y.2.1 y.2.2) bufs.qmax y.1 y.2.1 y.2.2
      = .ok (if y.2.2 < p.nLong * p.nlonOut then [(outFlat p y.1 (r.rowIdx (y.2.2 / p.nlonOut)) (y.2.2 % p.nlonOut),
          phaseMax (bufs.qmax (outFlat p y.1 (r.rowIdx (y.2.2 / p.nlonOut)) (y.2.2 % p.nlonOut)))
            (bChunkSplit false vec p x cpr y.1 (r.rowIdx (y.2.2 / p.nlonOut)) (y.2.2 % p.nlonOut) y.2.1))] else []) := by
    rintro ⟨b, s, wid⟩
    dsimp only
    by_cases hw : wid < p.nLong * p.nlonOut
    · rw [if_pos hw]
      exact bSoftmaxGroup_ok hc x r.rowIdx hcp _ (hr.order 1 b s wid) bufs.qmax hw (hlen _ (hcell hw).1)
    · rw [if_neg hw]
      unfold bSoftmaxGroup
      rw [pointOf_none hw]
  rw [overM_ok _ fun y _ => hgrp y]
  obtain ⟨curr, c1, c2⟩ := maxima_ok (B := B) hr.toRunOk (le_divUp_mul hc.rows) hn bufs.qmax (bChunkSplit false vec p x cpr) (bChunkAt false vec p x) fun b ho wo h1 h2 => by
    rw [bChunkAt_outFlat false vec x h1 h2]
    exact bChunkSplit_perm false vec p x hcp b ho wo
  refine ⟨curr, c1, fun two i => ?_⟩
  rw [c2]
  have : phaseMax (bufs.qmax i) (bChunkAt two vec p x i) = phaseMax (bufs.qmax i) (bChunkAt false vec p x i) := phaseMax_half ..
  rw [this]

/-- One step of a warp does to each half what a step of the forward kernel does. -/
theorem bRescaleStep_half {vec : ℕ} {cf : Config} {p : Params} {sK sA : ℕ} {rowIdx : ℕ → ℕ} {curr : ℕ → Option ℝ} {s : BResc} {y : ℕ × ℕ × ℕ} {ss : Bool → Resc}
    (h : ∀ two, rescaleStep vec (keyedCfg cf) (keyed p) sK sA rowIdx curr ⟨s.bufs.half two, s.pc⟩ y = .ok (ss two)) :
    ∃ s', bRescaleStep vec cf p sK sA rowIdx curr s y = .ok s' ∧ ∀ two, ss two = ⟨s'.bufs.half two, s'.pc⟩ := by
  obtain ⟨b, wid, wp⟩ := y
  unfold rescaleStep at h
  unfold bRescaleStep
  dsimp only [keyed] at h
  dsimp only
  cases hp : pointOf rowIdx 0 p.nLong p.nlonOut wid with
  | none =>
    rw [hp] at h
    exact ⟨s, rfl, fun two => (Except.ok.inj (h two)).symm⟩
  | some hw =>
    obtain ⟨ho, wo⟩ := hw
    rw [hp] at h
    dsimp only at h ⊢
    cases hpc : s.pc (b, wid) wp with
    | done =>
      rw [hpc] at h
      exact ⟨s, rfl, fun two => (Except.ok.inj (h two)).symm⟩
    | start =>
      rw [hpc] at h
      exact ⟨_, rfl, fun two => (Except.ok.inj (h two)).symm⟩
    | loaded old =>
      rw [hpc] at h
      have ef : ∀ ho wo, outFlat { p with nco := p.nci } b ho wo = outFlat p b ho wo := fun _ _ => rfl
      simp only [ef] at h
      dsimp only at h ⊢
      cases hcu : curr (outFlat p b ho wo) with
      | none =>
        rw [hcu] at h
        exact ⟨_, rfl, fun two => (Except.ok.inj (h two)).symm⟩
      | some new =>
        rw [hcu] at h
        dsimp only at h ⊢
        have hpl : warpPlaces vec (keyedCfg cf) { p with nco := p.nci } (outFlat p b ho wo) wp = bWarpPlaces vec cf p (outFlat p b ho wo) wp := rfl
        rw [hpl] at h
        have h0 := h false
        have h1 := h true
        have e0 : (s.bufs.half false).y = s.bufs.kacc := rfl
        have e1 : (s.bufs.half true).y = s.bufs.kvw := rfl
        rw [e0] at h0
        rw [e1] at h1
        cases hk : (bWarpPlaces vec cf p (outFlat p b ho wo) wp).foldlM (fun y a => Disco.store sK y a (expDiff old new * y a)) s.bufs.kacc with
        | error e => rw [hk] at h0; cases h0
        | ok kacc =>
          rw [hk] at h0
          cases hv : (bWarpPlaces vec cf p (outFlat p b ho wo) wp).foldlM (fun y a => Disco.store sK y a (expDiff old new * y a)) s.bufs.kvw with
          | error e => rw [hv] at h1; cases h1
          | ok kvw =>
            rw [hv] at h1
            dsimp only at h0 h1 ⊢
            by_cases hz : wp = 0
            · rw [if_pos hz] at h0 h1 ⊢
              by_cases hlt : outFlat p b ho wo < sA
              · rw [if_pos hlt] at h0 h1 ⊢
                refine ⟨_, rfl, fun two => ?_⟩
                cases two
                · exact (Except.ok.inj h0).symm
                · exact (Except.ok.inj h1).symm
              · rw [if_neg hlt] at h0
                cases h0
            · rw [if_neg hz] at h0 h1 ⊢
              refine ⟨_, rfl, fun two => ?_⟩
              cases two
              · exact (Except.ok.inj h0).symm
              · exact (Except.ok.inj h1).symm

theorem bRescale_fold {vec : ℕ} {cf : Config} {p : Params} {sK sA : ℕ} {rowIdx : ℕ → ℕ} {curr : ℕ → Option ℝ} (sched : List (ℕ × ℕ × ℕ)) {s : BResc} {ss : Bool → Resc}
    (h : ∀ two, sched.foldlM (rescaleStep vec (keyedCfg cf) (keyed p) sK sA rowIdx curr) ⟨s.bufs.half two, s.pc⟩ = .ok (ss two)) :
    ∃ s', sched.foldlM (bRescaleStep vec cf p sK sA rowIdx curr) s = .ok s' ∧ ∀ two, ss two = ⟨s'.bufs.half two, s'.pc⟩ := by
  induction sched generalizing s with
  | nil => exact ⟨s, rfl, fun two => (Except.ok.inj (h two)).symm⟩
  | cons y sched ih =>
    have hex : ∀ two, ∃ t, rescaleStep vec (keyedCfg cf) (keyed p) sK sA rowIdx curr ⟨s.bufs.half two, s.pc⟩ y = .ok t := by
      intro two
      have := h two
      rw [List.foldlM_cons] at this
      cases ht : rescaleStep vec (keyedCfg cf) (keyed p) sK sA rowIdx curr ⟨s.bufs.half two, s.pc⟩ y with
      | error e => rw [ht] at this; cases this
      | ok t => exact ⟨t, rfl⟩
    choose ts ht using hex
    obtain ⟨s1, e1, e2⟩ := bRescaleStep_half ht
    obtain ⟨s', e3, e4⟩ := ih (s := s1) (by
      intro two
      have := h two
      rw [List.foldlM_cons, ht two] at this
      change List.foldlM (m := Except PyErr) (rescaleStep vec (keyedCfg cf) (keyed p) sK sA rowIdx curr) (ts two) sched = _ at this
      rw [e2] at this
      exact this)
    refine ⟨s', ?_, e4⟩
    rw [List.foldlM_cons, e1]
    exact e3

open Classical in
theorem bRunRescale_ok {r : BRun} {vec : ℕ} {cf : Config} {p : Params} (hc : CfgOk cf p.nci p.nco) (hr : BRunOk r cf.bx p.nlatOut) (hn : p.nLong ≤ p.nlatOut) {B : ℕ} {bufs : BBufs}
    {curr : ℕ → Option ℝ} (hcurr : ∀ i, curr i = none → bufs.qmax i = none) (hcom : Complete cf.bx p B (divUp (p.nLong * p.nlonOut) cf.by') cf.by' r.sched)
    (hlf : LoadsFirst cf.bx p B r.sched) (hf : fits r.limit (divUp (p.nLong * p.nlonOut) cf.by') B 1 0 0) :
    ∃ bufs', bRunRescale r vec cf p B curr bufs = .ok bufs' ∧ ∀ two i, AccEq (p.nci * vec) (accAt (p.nci * vec) (bufs'.half two) i)
      (if InRows r.toRun p B 0 p.nLong i then ⟨fun c => factor (bufs.qmax i) (curr i) * (bufs.half two).y (i * (p.nci * vec) + c),
        factor (bufs.qmax i) (curr i) * (bufs.half two).alpha i, curr i⟩ else accAt (p.nci * vec) (bufs.half two) i) := by
  have hst := fun two => runRescale_ok (r := r.half two) (vec := vec) (cf := keyedCfg cf) (p := keyed p) (keyedCfg_ok hc) (hr.half two) hn (B := B) (bufs := bufs.half two) hcurr
    ⟨hcom.valid, hcom.twice⟩ hlf hf
  choose bs s1 s2 using hst
  have hex : ∀ two, ∃ s, r.sched.foldlM (rescaleStep vec (keyedCfg cf) (keyed p) (B * p.nlatOut * p.nlonOut * (p.nci * vec)) (B * p.nlatOut * p.nlonOut) r.rowIdx curr)
      ⟨bufs.half two, fun _ _ => .start⟩ = .ok s ∧ s.bufs = bs two := by
    intro two
    have := s1 two
    unfold runRescale at this
    dsimp only at this
    rw [if_pos (by exact hf)] at this
    change (do
      let s ← r.sched.foldlM (rescaleStep vec (keyedCfg cf) (keyed p) (B * p.nlatOut * p.nlonOut * (p.nci * vec)) (B * p.nlatOut * p.nlonOut) r.rowIdx curr)
        ⟨bufs.half two, fun _ _ => .start⟩
      return s.bufs) = _ at this
    cases hs : r.sched.foldlM (rescaleStep vec (keyedCfg cf) (keyed p) (B * p.nlatOut * p.nlonOut * (p.nci * vec)) (B * p.nlatOut * p.nlonOut) r.rowIdx curr)
        ⟨bufs.half two, fun _ _ => .start⟩ with
    | error e => rw [hs] at this; cases this
    | ok s =>
      rw [hs] at this
      exact ⟨s, rfl, Except.ok.inj this⟩
  choose ss e1 e2 using hex
  obtain ⟨s', e3, e4⟩ := bRescale_fold (s := ⟨bufs, fun _ _ => .start⟩) r.sched e1
  unfold bRunRescale
  dsimp only
  rw [if_pos hf, e3]
  refine ⟨s'.bufs, rfl, fun two i => ?_⟩
  have := s2 two i
  rw [← e2, e4] at this
  exact this

open Classical in
theorem bRunFinalize_ok {r : BRun} {vec : ℕ} {cf : Config} {p : Params} (hc : CfgOk cf p.nci p.nco) (hr : BRunOk r cf.bx p.nlatOut) {B : ℕ} (x : BIn) (curr : ℕ → Option ℝ) (bufs : BBufs)
    (hn : p.nLong ≤ p.nlatOut) (hlen : ∀ h < p.nLong, x.P.roff (r.rowIdx h + 1) - x.P.roff (r.rowIdx h) ≤ p.maxLen) (hpos : 0 < p.maxLen)
    (hf : fits r.limit (divUp (p.nLong * p.nlonOut) cf.by') (ctaPerRow p.maxLen) B ((4 * vec * (p.nci + p.nco) + 8 * divUp p.maxLen (ctaPerRow p.maxLen) * 2
      + 4 * divUp p.maxLen (ctaPerRow p.maxLen)) * cf.by') (bStaticShared cf.bx)) :
    ∃ bufs', bRunFinalize r vec cf p B x curr bufs = .ok bufs' ∧
      ∀ two i, AccEq (p.nci * vec) (accAt (p.nci * vec) (bufs'.half two) i) (if InRows r.toRun p B 0 p.nLong i
        then ⟨fun c => (bufs.half two).y (i * (p.nci * vec) + c) + ((bChunkAt two vec p x i).map fun x => Real.exp (x.q - (curr i).getD 0) * x.w * x.v c).sum,
          (bufs.half two).alpha i + ((bChunkAt two vec p x i).map fun x => Real.exp (x.q - (curr i).getD 0) * x.w).sum, bufs.qmax i⟩
        else accAt (p.nci * vec) (bufs.half two) i) := by
  unfold bRunFinalize
  dsimp only
  rw [if_pos hf]
  have hcp := ctaPerRow_pos hpos
  generalize ctaPerRow p.maxLen = cpr at *
  have hcell : ∀ {wid : ℕ}, wid < p.nLong * p.nlonOut → wid / p.nlonOut < p.nLong ∧ wid % p.nlonOut < p.nlonOut := fun hw =>
    ⟨(packed_split hw).1, (packed_split hw).2.1⟩
  have hgrp : ∀ y : ℕ × ℕ × ℕ, ∃ thr, bFinalizeGroup vec cf p x r.rowIdx cpr (r.shared 2 y.1 y.2.1 y.2.2) (r.bjunk 2 y.1 y.2.1 y.2.2) curr y.1 y.2.1 y.2.2
      = .ok (if y.2.2 < p.nLong * p.nlonOut then [⟨outFlat p y.1 (r.rowIdx (y.2.2 / p.nlonOut)) (y.2.2 % p.nlonOut), thr⟩] else []) ∧
      ∀ two, (y.2.2 < p.nLong * p.nlonOut → (BThr.half two (thr 0)).alpha = ((bChunkSplit two vec p x cpr y.1 (r.rowIdx (y.2.2 / p.nlonOut)) (y.2.2 % p.nlonOut) y.2.1).map fun t =>
        Real.exp (t.q - (curr (outFlat p y.1 (r.rowIdx (y.2.2 / p.nlonOut)) (y.2.2 % p.nlonOut))).getD 0) * t.w).sum ∧
      ∀ e < p.nci * vec, (BThr.half two (thr (e / vec % cf.bx))).y (e / vec) (e % vec) =
        ((bChunkSplit two vec p x cpr y.1 (r.rowIdx (y.2.2 / p.nlonOut)) (y.2.2 % p.nlonOut) y.2.1).map fun t =>
        Real.exp (t.q - (curr (outFlat p y.1 (r.rowIdx (y.2.2 / p.nlonOut)) (y.2.2 % p.nlonOut))).getD 0) * t.w * t.v e).sum) := by
    rintro ⟨b, s, wid⟩
    dsimp only
    by_cases hw : wid < p.nLong * p.nlonOut
    · obtain ⟨thr, e1, e2⟩ := bFinalizeGroup_ok hc x r.rowIdx hcp (r.shared 2 b s wid) (hr.order 2 b s wid) (r.bjunk 2 b s wid) curr (b := b) (split := s) hw (hlen _ (hcell hw).1)
      refine ⟨thr, ?_, fun two _ => e2 two⟩
      rw [if_pos hw]
      exact e1
    · refine ⟨fun _ => ⟨0, none, 0, fun _ _ => 0, fun _ _ => 0⟩, ?_, fun _ h => absurd h hw⟩
      rw [if_neg hw]
      unfold bFinalizeGroup
      rw [pointOf_none hw]
  choose T t1 t2 using hgrp
  rw [overM_ok _ fun y _ => t1 y]
  obtain ⟨gs, hgs⟩ : ∃ gs, gs = (grid3 B cpr (divUp (p.nLong * p.nlonOut) cf.by') cf.by').flatMap fun y =>
      if y.2.2 < p.nLong * p.nlonOut then [(⟨outFlat p y.1 (r.rowIdx (y.2.2 / p.nlonOut)) (y.2.2 % p.nlonOut), T y⟩ : BGroupOut)] else [] := ⟨_, rfl⟩
  rw [← hgs]
  have hadd := fun two => additions_ok (r := r.half two) (vec := vec) (cf := keyedCfg cf) (p := keyed p) hc.grp.1 hc.inC (hr.half two) (B := B) (le_divUp_mul hc.rows) hn curr (bufs.half two)
    (fun y t => (T y t).half two) (bChunkSplit two vec p x cpr) (bChunkAt two vec p x)
    (fun b ho wo h1 h2 => by
      have : bChunkAt two vec p x (outFlat (keyed p) b ho wo) = _ := bChunkAt_outFlat (p := p) two vec x h1 h2
      rw [this]
      exact bChunkSplit_perm two vec p x hcp b ho wo) (fun y hy => t2 y two hy) (gs.map (BGroupOut.half two)) (by
        rw [hgs, List.map_flatMap]
        congr 1
        funext y
        by_cases hy : y.2.2 < p.nLong * p.nlonOut
        · have hy' : y.2.2 < (keyed p).nLong * (keyed p).nlonOut := hy
          rw [if_pos hy, if_pos hy']
          rfl
        · have hy' : ¬ y.2.2 < (keyed p).nLong * (keyed p).nlonOut := hy
          rw [if_neg hy, if_neg hy']
          rfl)
  choose ys as y1 a1 ha using hadd
  refine ⟨⟨as false, bufs.qmax, as true, ys false, ys true⟩, ?_, fun two i => ?_⟩
  · have y1f := y1 false
    have y1t := y1 true
    have a1f := a1 false
    have a1t := a1 true
    rw [half_kStores] at y1f y1t
    rw [half_alphas] at a1f a1t
    have a0' : (r.addA (gs.map fun g => (g.flat, (g.thr 0).alpha))).foldlM (Disco.atomicAddTo (B * p.nlatOut * p.nlonOut)) bufs.alpha = .ok (as false) := a1f
    have a1' : (r.addI (gs.map fun g => (g.flat, (g.thr 0).integral))).foldlM (Disco.atomicAddTo (B * p.nlatOut * p.nlonOut)) bufs.integral = .ok (as true) := a1t
    have y0' : (r.addY (gs.flatMap (kStores vec cf p))).foldlM (Disco.atomicAddTo (B * p.nlatOut * p.nlonOut * (p.nci * vec))) bufs.kacc = .ok (ys false) := y1f
    have y1' : (r.addW (gs.flatMap (kvwStores vec cf p))).foldlM (Disco.atomicAddTo (B * p.nlatOut * p.nlonOut * (p.nci * vec))) bufs.kvw = .ok (ys true) := y1t
    change (do
      let alpha ← (r.addA (gs.map fun g => (g.flat, (g.thr 0).alpha))).foldlM (Disco.atomicAddTo (B * p.nlatOut * p.nlonOut)) bufs.alpha
      let integral ← (r.addI (gs.map fun g => (g.flat, (g.thr 0).integral))).foldlM (Disco.atomicAddTo (B * p.nlatOut * p.nlonOut)) bufs.integral
      let kacc ← (r.addY (gs.flatMap (kStores vec cf p))).foldlM (Disco.atomicAddTo (B * p.nlatOut * p.nlonOut * (p.nci * vec))) bufs.kacc
      let kvw ← (r.addW (gs.flatMap (kvwStores vec cf p))).foldlM (Disco.atomicAddTo (B * p.nlatOut * p.nlonOut * (p.nci * vec))) bufs.kvw
      return (⟨alpha, bufs.qmax, integral, kacc, kvw⟩ : BBufs) : Except PyErr BBufs) = _
    rw [a0', a1', y0', y1']
    rfl
  · have := ha two i
    cases two <;> exact this

theorem bRunLong_ok {r : BRun} {vec : ℕ} {cf : Config} {p : Params} (hc : CfgOk cf p.nci p.nco) (hr : BRunOk r cf.bx p.nlatOut) {B : ℕ} (x : BIn) (bufs : BBufs)
    (hn : p.nLong ≤ p.nlatOut) (hlen : ∀ h < p.nLong, x.P.roff (r.rowIdx h + 1) - x.P.roff (r.rowIdx h) ≤ p.maxLen)
    (hlong : 0 < p.nLong → 0 < p.maxLen ∧ BLongFits r.limit (vec * p.nci) (vec * p.nco) cf.bx cf.by' p B ∧ Complete cf.bx p B (divUp (p.nLong * p.nlonOut) cf.by') cf.by' r.sched ∧
      LoadsFirst cf.bx p B r.sched) :
    ∃ bufs', bRunLong r vec cf p B x bufs = .ok bufs' ∧ ∀ two, BEffect two vec p x (InRows r.toRun p B 0 p.nLong) bufs bufs' := by
  classical
  unfold bRunLong
  by_cases h0 : p.nLong = 0
  · rw [if_pos h0]
    refine ⟨bufs, rfl, fun two i => ?_⟩
    rw [if_neg]
    · exact AccEq.refl _ _
    · rintro ⟨b, hb, h, -, hh, -⟩
      omega
  rw [if_neg h0]
  obtain ⟨hpos, hfits, hcom, hlf⟩ := hlong (by omega)
  obtain ⟨curr, c1, c2⟩ := bRunSoftmax_ok (vec := vec) hc hr x bufs hn hlen hpos hfits.soft
  have hcurr : ∀ i, curr i = none → bufs.qmax i = none := by
    intro i h
    rw [c2 false] at h
    split_ifs at h with hi
    · exact (phaseMax_none h).1
    · exact h
  obtain ⟨b1, r1, r2⟩ := bRunRescale_ok (vec := vec) hc hr hn hcurr hcom hlf hfits.resc
  obtain ⟨b2, f1, f2⟩ := bRunFinalize_ok hc hr x curr b1 hn hlen hpos (vec := vec) (B := B) (by
    have := hfits.fin
    rwa [show 4 * (vec * p.nci + vec * p.nco) + 20 * divUp p.maxLen (ctaPerRow p.maxLen) = 4 * vec * (p.nci + p.nco) + 8 * divUp p.maxLen (ctaPerRow p.maxLen) * 2
      + 4 * divUp p.maxLen (ctaPerRow p.maxLen) by ring] at this)
  refine ⟨b2, ?_, fun two i => ?_⟩
  · rw [c1]
    change (do
      let bufs ← bRunRescale r vec cf p B curr bufs
      bRunFinalize r vec cf p B x curr bufs) = _
    rw [r1]
    exact f1
  · exact long_closed (c2 two) (r2 two) (f2 two) i

end Verif.RingGpu
