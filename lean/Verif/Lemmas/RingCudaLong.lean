import Verif.Lemmas.RingCudaRescale
import Verif.Lemmas.AttentionCudaUp
/-!
Long rows of the ring step: the additions of the last kernel, the three kernels together, and the whole step.
-/
namespace Verif.RingGpu
open Verif Verif.Attn Verif.Spec.Attn Verif.AttnGpu Verif.Ring Finset

/-! ### Additions -/

theorem addsAt_unique {L : List (ℕ × ℝ)} (hn : (L.map Prod.fst).Nodup) {a : ℕ × ℝ} (ha : a ∈ L) : Disco.addsAt L a.1 = a.2 := by
  induction L with
  | nil => simp at ha
  | cons b L ih =>
    rw [List.map_cons, List.nodup_cons] at hn
    unfold Disco.addsAt at ih ⊢
    rw [List.map_cons, List.sum_cons]
    rcases List.mem_cons.1 ha with rfl | ha
    · rw [if_pos rfl]
      have : ∀ x ∈ L, (if x.1 = a.1 then x.2 else 0) = (0 : ℝ) := by
        intro x hx
        rw [if_neg]
        intro e
        exact hn.1 (e ▸ List.mem_map_of_mem hx)
      rw [List.map_congr_left this]
      simp
    · rw [if_neg, zero_add]
      · exact ih hn.2 ha
      · intro e
        exact hn.1 (e ▸ List.mem_map_of_mem ha)

theorem addsAt_absent {L : List (ℕ × ℝ)} {x : ℕ} (h : ∀ a ∈ L, a.1 ≠ x) : Disco.addsAt L x = 0 := by
  unfold Disco.addsAt
  rw [List.map_congr_left (g := fun _ => (0 : ℝ)) fun a ha => if_neg (h a ha)]
  simp

theorem yStores_keys (vec : ℕ) (cf : Config) (p : Params) (g : GroupOut) :
    (yStores vec cf p g).map Prod.fst = places vec cf.bx cf.locO p.nco g.flat (List.range cf.bx) := by
  unfold yStores places
  simp only [List.map_flatMap, List.map_map]
  rfl

theorem addsAt_yStores {vec : ℕ} {cf : Config} {p : Params} (hb : 0 < cf.bx) (hl : LocOk cf.bx cf.locO p.nco) (g : GroupOut) {i e : ℕ} (he : e < p.nco * vec) :
    Disco.addsAt (yStores vec cf p g) (i * (p.nco * vec) + e) = if g.flat = i then (g.thr (e / vec % cf.bx)).y (e / vec) (e % vec) else 0 := by
  by_cases hi : g.flat = i
  · rw [if_pos hi]
    obtain ⟨c1, c2, c3, c4⟩ := chan_mem (loc := cf.locO) hb hl he
    have hn : ((yStores vec cf p g).map Prod.fst).Nodup := by
      rw [yStores_keys]
      exact places_nodup hb hl List.nodup_range fun t ht => List.mem_range.1 ht
    have := addsAt_unique hn (mem_yStores.2 ⟨_, c1, _, c2, _, c3, rfl⟩)
    dsimp only at this
    rw [c4, hi] at this
    exact this
  · rw [if_neg hi]
    refine addsAt_absent fun a ha heq => ?_
    obtain ⟨t, ht, c, hc, j, hj, rfl⟩ := mem_yStores.1 ha
    exact hi (y_addr_inj (chan_lt hb hl ht hc hj) he heq).1

theorem grid3_sum (B cpr gx by' : ℕ) (f : ℕ × ℕ × ℕ → ℝ) :
    ((grid3 B cpr gx by').map f).sum = ∑ b ∈ range B, ∑ wid ∈ range (gx * by'), ∑ s ∈ range cpr, f (b, s, wid) := by
  unfold grid3 overGrid
  rw [list_sum_flatMap, list_sum_range]
  refine sum_congr rfl fun b _ => ?_
  rw [list_sum_flatMap, list_sum_range]
  refine sum_congr rfl fun wid _ => ?_
  rw [List.map_map, list_sum_range]
  rfl

theorem finalizeGroup_ok {vec : ℕ} {cf : Config} {p : Params} (hc : CfgOk cf p.nci p.nco) (w : ℕ → ℝ) (P : Pattern) (k v q : ℕ → ℝ) (rowIdx : ℕ → ℕ) {cpr : ℕ}
    (hcp : 0 < cpr) (sh : Shared) (ho : ∀ i, (sh.order i).Perm (List.range cf.bx)) (junk : ℕ → ℕ → ℕ → ℝ) (curr : ℕ → Option ℝ) {b split wid : ℕ} (hw : wid < p.nLong * p.nlonOut)
    (hrow : P.roff (rowIdx (wid / p.nlonOut) + 1) - P.roff (rowIdx (wid / p.nlonOut)) ≤ p.maxLen) :
    ∃ thr, finalizeGroup vec cf p w P k v q rowIdx cpr sh junk curr b split wid
      = .ok [⟨outFlat p b (rowIdx (wid / p.nlonOut)) (wid % p.nlonOut), thr⟩] ∧
      (thr 0).alpha = ((chunkSplit vec p w P k v q cpr b (rowIdx (wid / p.nlonOut)) (wid % p.nlonOut) split).map fun x =>
        Real.exp (x.q - (curr (outFlat p b (rowIdx (wid / p.nlonOut)) (wid % p.nlonOut))).getD 0) * x.w).sum ∧
      ∀ e < p.nco * vec, (thr (e / vec % cf.bx)).y (e / vec) (e % vec) =
        ((chunkSplit vec p w P k v q cpr b (rowIdx (wid / p.nlonOut)) (wid % p.nlonOut) split).map fun x =>
        Real.exp (x.q - (curr (outFlat p b (rowIdx (wid / p.nlonOut)) (wid % p.nlonOut))).getD 0) * x.w * x.v e).sum := by
  unfold finalizeGroup
  rw [pointOf_some hw, Nat.zero_add]
  generalize rowIdx (wid / p.nlonOut) = h at *
  generalize wid % p.nlonOut = wo
  dsimp only
  obtain ⟨n, es, e1, e2⟩ := collectSplit_ok hc.grp p w P hcp sh ho b h wo split hrow
  rw [e1]
  dsimp only
  rw [e2]
  have key := fun t (ht : t < cf.bx) => addThr_eq (vec := vec) (loc' := cf.locO) (nco := p.nco) hc.grp hc.inC
    (staged vec (chans cf.bx cf.locI p.nci) q (queryAt p b h wo) sh.query) k v (fun c => q (vec * queryAt p b h wo + c))
    (fun t _ c hcc j _ => staged_eq hc.grp q _ _ hcc) (curr (outFlat p b h wo))
    ((splitIdx (P.roff (h + 1) - P.roff h) cpr split).filterMap fun i => entry p w P b wo (P.roff h + i)) junk ht
  refine ⟨_, rfl, (key 0 hc.grp.1).1, fun e he => ?_⟩
  obtain ⟨c1, c2, c3, c4⟩ := chan_mem (loc := cf.locO) hc.grp.1 hc.outC he
  have := (key _ c1).2 _ c2 _ c3
  rw [c4] at this
  exact this

open Classical in
/-- The additions of the last kernel, from what every group has: `S` are the neighbours of the parts of a row, `C` those of a point. -/
theorem additions_ok {r : Run} {vec : ℕ} {cf : Config} {p : Params} (hb : 0 < cf.bx) (hl : LocOk cf.bx cf.locO p.nco) (hr : RunOk r cf.bx p.nlatOut) {B cpr gx by' : ℕ}
    (hgx : p.nLong * p.nlonOut ≤ gx * by') (hn : p.nLong ≤ p.nlatOut) (curr : ℕ → Option ℝ) (bufs : Bufs) (T : ℕ × ℕ × ℕ → ℕ → Thr)
    (S : ℕ → ℕ → ℕ → ℕ → List Pt) (C : ℕ → List Pt)
    (hS : ∀ b ho wo, ho < p.nlatOut → wo < p.nlonOut → ((List.range cpr).flatMap (S b ho wo)).Perm (C (outFlat p b ho wo)))
    (t2 : ∀ x : ℕ × ℕ × ℕ, x.2.2 < p.nLong * p.nlonOut → (T x 0).alpha = ((S x.1 (r.rowIdx (x.2.2 / p.nlonOut)) (x.2.2 % p.nlonOut) x.2.1).map fun t =>
        Real.exp (t.q - (curr (outFlat p x.1 (r.rowIdx (x.2.2 / p.nlonOut)) (x.2.2 % p.nlonOut))).getD 0) * t.w).sum ∧
      ∀ e < p.nco * vec, (T x (e / vec % cf.bx)).y (e / vec) (e % vec) =
        ((S x.1 (r.rowIdx (x.2.2 / p.nlonOut)) (x.2.2 % p.nlonOut) x.2.1).map fun t =>
        Real.exp (t.q - (curr (outFlat p x.1 (r.rowIdx (x.2.2 / p.nlonOut)) (x.2.2 % p.nlonOut))).getD 0) * t.w * t.v e).sum)
    (gs : List GroupOut) (hgs : gs = (grid3 B cpr gx by').flatMap fun x =>
      if x.2.2 < p.nLong * p.nlonOut then [(⟨outFlat p x.1 (r.rowIdx (x.2.2 / p.nlonOut)) (x.2.2 % p.nlonOut), T x⟩ : GroupOut)] else []) :
    ∃ y' a', (r.addY (gs.flatMap (yStores vec cf p))).foldlM (Disco.atomicAddTo (B * p.nlatOut * p.nlonOut * (p.nco * vec))) bufs.y = .ok y' ∧
      (r.addA (gs.map fun g => (g.flat, (g.thr 0).alpha))).foldlM (Disco.atomicAddTo (B * p.nlatOut * p.nlonOut)) bufs.alpha = .ok a' ∧
      ∀ i, AccEq (p.nco * vec) (accAt (p.nco * vec) ⟨y', a', bufs.qmax⟩ i) (if InRows r p B 0 p.nLong i
        then ⟨fun c => bufs.y (i * (p.nco * vec) + c) + ((C i).map fun x => Real.exp (x.q - (curr i).getD 0) * x.w * x.v c).sum,
          bufs.alpha i + ((C i).map fun x => Real.exp (x.q - (curr i).getD 0) * x.w).sum, bufs.qmax i⟩
        else accAt (p.nco * vec) bufs i) := by
  have hcell : ∀ {wid : ℕ}, wid < p.nLong * p.nlonOut → wid / p.nlonOut < p.nLong ∧ wid % p.nlonOut < p.nlonOut := fun hw =>
    ⟨(packed_split hw).1, (packed_split hw).2.1⟩
  have hmem : ∀ g ∈ gs, InRows r p B 0 p.nLong g.flat := by
    intro g hg
    rw [hgs, List.mem_flatMap] at hg
    obtain ⟨x, hx, hg⟩ := hg
    obtain ⟨h1, h2, -⟩ := mem_grid3.1 hx
    split_ifs at hg with hw
    · obtain rfl := List.mem_singleton.1 hg
      exact ⟨_, h1, _, Nat.zero_le _, (hcell hw).1, _, (hcell hw).2, rfl⟩
    · simp at hg
  have hlt : ∀ g ∈ gs, g.flat < B * p.nlatOut * p.nlonOut := fun g hg => inRows_lt hr hn (hmem g hg)
  obtain ⟨y', y1, y2⟩ := Disco.atomicAddTo_fold (B * p.nlatOut * p.nlonOut * (p.nco * vec)) (r.addY (gs.flatMap (yStores vec cf p))) (by
    intro a ha
    obtain ⟨g, hg, ha⟩ := List.mem_flatMap.1 ((hr.addY _).subset ha)
    obtain ⟨t, ht, c, hcc, j, hj, rfl⟩ := mem_yStores.1 ha
    exact packed_lt (hlt g hg) (chan_lt hb hl ht hcc hj)) bufs.y
  obtain ⟨a', a1, a2⟩ := Disco.atomicAddTo_fold (B * p.nlatOut * p.nlonOut) (r.addA (gs.map fun g => (g.flat, (g.thr 0).alpha))) (by
    intro a ha
    obtain ⟨g, hg, rfl⟩ := List.mem_map.1 ((hr.addA _).subset ha)
    exact hlt g hg) bufs.alpha
  -- what the groups of one point add
  have total : ∀ (val : (ℕ → Thr) → ℝ) (F : List Pt → ℝ) (hF : ∀ L L' : List Pt, L.Perm L' → F L = F L') (hF0 : F [] = 0) (hF2 : ∀ L L', F (L ++ L') = F L + F L') b, b < B → ∀ h, h < p.nLong → ∀ wo, wo < p.nlonOut →
      (∀ s < cpr, val (T (b, s, h * p.nlonOut + wo)) = F (S b (r.rowIdx h) wo s)) →
      (gs.map fun g => if g.flat = outFlat p b (r.rowIdx h) wo then val g.thr else 0).sum = F (C (outFlat p b (r.rowIdx h) wo)) := by
    intro val F hF hF0 hF2 b hb h hh wo hwo hval
    have hwid : h * p.nlonOut + wo < p.nLong * p.nlonOut := packed_lt hh hwo
    obtain ⟨q1, q2⟩ := div_mul_add (a := h) hwo
    have hrl := hr.row_lt (show h < p.nlatOut by omega)
    rw [hgs, list_sum_flatMap, grid3_sum, sum_eq_single b, sum_eq_single (h * p.nlonOut + wo)]
    · have : ∀ s ∈ range cpr, ((if (b, s, h * p.nlonOut + wo).2.2 < p.nLong * p.nlonOut
          then [(⟨outFlat p (b, s, h * p.nlonOut + wo).1 (r.rowIdx ((b, s, h * p.nlonOut + wo).2.2 / p.nlonOut)) ((b, s, h * p.nlonOut + wo).2.2 % p.nlonOut), T (b, s, h * p.nlonOut + wo)⟩ : GroupOut)]
          else []).map fun g => if g.flat = outFlat p b (r.rowIdx h) wo then val g.thr else 0).sum = F (S b (r.rowIdx h) wo s) := by
        intro s hs
        dsimp only
        rw [if_pos hwid, q1, q2]
        simp only [List.map_cons, List.map_nil, List.sum_cons, List.sum_nil, add_zero, if_true]
        exact hval s (mem_range.1 hs)
      rw [sum_congr rfl this, ← hF _ _ (hS b (r.rowIdx h) wo hrl hwo), ← list_sum_range]
      generalize List.range cpr = R
      induction R with
      | nil => simp [hF0]
      | cons s R ih => rw [List.map_cons, List.sum_cons, ih, List.flatMap_cons, hF2]
    · intro wid _ hne
      refine sum_eq_zero fun s _ => ?_
      dsimp only
      split_ifs with hw
      · simp only [List.map_cons, List.map_nil, List.sum_cons, List.sum_nil, add_zero]
        rw [if_neg]
        intro e
        have hw' : Active p B (b, wid) := ⟨hb, hw⟩
        have := flatOf_inj hr hn hw' (show Active p B (b, h * p.nlonOut + wo) from ⟨hb, hwid⟩) (by unfold flatOf; dsimp only; rw [q1, q2]; exact e)
        exact hne (Prod.mk.inj this).2
      · rfl
    · intro hne
      exact absurd (mem_range.2 (lt_of_lt_of_le hwid (hgx))) hne
    · intro b' hb' hne
      refine sum_eq_zero fun wid _ => sum_eq_zero fun s _ => ?_
      dsimp only
      split_ifs with hw
      · simp only [List.map_cons, List.map_nil, List.sum_cons, List.sum_nil, add_zero]
        rw [if_neg]
        intro e
        have := flatOf_inj hr hn (show Active p B (b', wid) from ⟨mem_range.1 hb', hw⟩) (show Active p B (b, h * p.nlonOut + wo) from ⟨hb, hwid⟩)
          (by unfold flatOf; dsimp only; rw [q1, q2]; exact e)
        exact hne (Prod.mk.inj this).1
      · rfl
    · intro hne
      exact absurd (mem_range.2 hb) hne
  have hyv : ∀ i e, e < p.nco * vec → y' (i * (p.nco * vec) + e) = bufs.y (i * (p.nco * vec) + e)
      + (gs.map fun g => if g.flat = i then (g.thr (e / vec % cf.bx)).y (e / vec) (e % vec) else 0).sum := by
    intro i e he
    rw [y2, Disco.addsAt_perm (hr.addY _), addsAt_flatMap]
    congr 1
    exact list_sum_congr fun g _ => addsAt_yStores hb hl g he
  have hav : ∀ i, a' i = bufs.alpha i + (gs.map fun g => if g.flat = i then (g.thr 0).alpha else 0).sum := by
    intro i
    rw [a2, Disco.addsAt_perm (hr.addA _)]
    unfold Disco.addsAt
    rw [List.map_map]
    rfl
  refine ⟨y', a', y1, a1, fun i => ?_⟩
  by_cases hi : InRows r p B 0 p.nLong i
  · rw [if_pos hi]
    obtain ⟨b, hb, h, -, hh, wo, hwo, rfl⟩ := hi
    have hwid : h * p.nlonOut + wo < p.nLong * p.nlonOut := packed_lt hh hwo
    obtain ⟨q1, q2⟩ := div_mul_add (a := h) hwo
    have hrl := hr.row_lt (show h < p.nlatOut by omega)
    refine ⟨?_, rfl, fun e he => ?_⟩
    · change a' _ = _
      rw [hav]
      congr 1
      refine total (fun thr => (thr 0).alpha) (fun L => (L.map fun x => Real.exp (x.q - (curr (outFlat p b (r.rowIdx h) wo)).getD 0) * x.w).sum) (fun L L' hp => (hp.map _).sum_eq) rfl
        (fun L L' => by rw [List.map_append, List.sum_append]) b hb h hh wo hwo fun s _ => ?_
      have := (t2 (b, s, h * p.nlonOut + wo) hwid).1
      dsimp only at this
      rw [q1, q2] at this
      exact this
    · change y' _ = _
      rw [hyv _ _ he]
      congr 1
      refine total (fun thr => (thr (e / vec % cf.bx)).y (e / vec) (e % vec)) (fun L => (L.map fun x => Real.exp (x.q - (curr (outFlat p b (r.rowIdx h) wo)).getD 0) * x.w * x.v e).sum)
        (fun L L' hp => (hp.map _).sum_eq) rfl (fun L L' => by rw [List.map_append, List.sum_append]) b hb h hh wo hwo fun s _ => ?_
      have := (t2 (b, s, h * p.nlonOut + wo) hwid).2 e he
      dsimp only at this
      rw [q1, q2] at this
      exact this
  · rw [if_neg hi]
    have hz : ∀ val : GroupOut → ℝ, (gs.map fun g => if g.flat = i then val g else 0).sum = 0 := by
      intro val
      have : ∀ g ∈ gs, (if g.flat = i then val g else 0) = (0 : ℝ) := fun g hg => if_neg fun e => hi (by rw [← e]; exact hmem g hg)
      rw [List.map_congr_left this]
      simp
    refine ⟨?_, rfl, fun e he => ?_⟩
    · change a' i = _
      rw [hav, hz fun g => (g.thr 0).alpha, add_zero]
      rfl
    · change y' _ = _
      rw [hyv _ _ he, hz fun g => (g.thr (e / vec % cf.bx)).y (e / vec) (e % vec), add_zero]
      rfl

open Classical in
/-- The additions of the last kernel. -/
theorem runFinalize_ok {r : Run} {vec : ℕ} {cf : Config} {p : Params} (hc : CfgOk cf p.nci p.nco) (hr : RunOk r cf.bx p.nlatOut) {B : ℕ} (w : ℕ → ℝ) (P : Pattern)
    (k v q : ℕ → ℝ) (curr : ℕ → Option ℝ) (bufs : Bufs) (hn : p.nLong ≤ p.nlatOut) (hlen : ∀ h < p.nLong, P.roff (r.rowIdx h + 1) - P.roff (r.rowIdx h) ≤ p.maxLen) (hpos : 0 < p.maxLen)
    (hf : fits r.limit (divUp (p.nLong * p.nlonOut) cf.by') (ctaPerRow p.maxLen) B ((4 * vec * (p.nci + p.nco) + 8 * divUp p.maxLen (ctaPerRow p.maxLen) * 2
      + 4 * divUp p.maxLen (ctaPerRow p.maxLen)) * cf.by') (staticShared cf.bx)) :
    ∃ bufs', runFinalize r vec cf p B w P k v q curr bufs = .ok bufs' ∧
      ∀ i, AccEq (p.nco * vec) (accAt (p.nco * vec) bufs' i) (if InRows r p B 0 p.nLong i
        then ⟨fun c => bufs.y (i * (p.nco * vec) + c) + ((chunkAt vec p w P k v q i).map fun x => Real.exp (x.q - (curr i).getD 0) * x.w * x.v c).sum,
          bufs.alpha i + ((chunkAt vec p w P k v q i).map fun x => Real.exp (x.q - (curr i).getD 0) * x.w).sum, bufs.qmax i⟩
        else accAt (p.nco * vec) bufs i) := by
  unfold runFinalize
  dsimp only
  rw [if_pos hf]
  have hcp := ctaPerRow_pos hpos
  generalize ctaPerRow p.maxLen = cpr at *
  have hcell : ∀ {wid : ℕ}, wid < p.nLong * p.nlonOut → wid / p.nlonOut < p.nLong ∧ wid % p.nlonOut < p.nlonOut := fun hw =>
    ⟨(packed_split hw).1, (packed_split hw).2.1⟩
  have hgrp : ∀ x : ℕ × ℕ × ℕ, ∃ thr, finalizeGroup vec cf p w P k v q r.rowIdx cpr (r.shared 2 x.1 x.2.1 x.2.2) (r.junk 2 x.1 x.2.1 x.2.2) curr x.1 x.2.1 x.2.2
      = .ok (if x.2.2 < p.nLong * p.nlonOut then [⟨outFlat p x.1 (r.rowIdx (x.2.2 / p.nlonOut)) (x.2.2 % p.nlonOut), thr⟩] else []) ∧
      (x.2.2 < p.nLong * p.nlonOut → (thr 0).alpha = ((chunkSplit vec p w P k v q cpr x.1 (r.rowIdx (x.2.2 / p.nlonOut)) (x.2.2 % p.nlonOut) x.2.1).map fun t =>
        Real.exp (t.q - (curr (outFlat p x.1 (r.rowIdx (x.2.2 / p.nlonOut)) (x.2.2 % p.nlonOut))).getD 0) * t.w).sum ∧
      ∀ e < p.nco * vec, (thr (e / vec % cf.bx)).y (e / vec) (e % vec) =
        ((chunkSplit vec p w P k v q cpr x.1 (r.rowIdx (x.2.2 / p.nlonOut)) (x.2.2 % p.nlonOut) x.2.1).map fun t =>
        Real.exp (t.q - (curr (outFlat p x.1 (r.rowIdx (x.2.2 / p.nlonOut)) (x.2.2 % p.nlonOut))).getD 0) * t.w * t.v e).sum) := by
    rintro ⟨b, s, wid⟩
    dsimp only
    by_cases hw : wid < p.nLong * p.nlonOut
    · obtain ⟨thr, e1, e2, e3⟩ := finalizeGroup_ok hc w P k v q r.rowIdx hcp (r.shared 2 b s wid) (hr.order 2 b s wid) (r.junk 2 b s wid) curr (b := b) (split := s) hw (hlen _ (hcell hw).1)
      refine ⟨thr, ?_, fun _ => ⟨e2, e3⟩⟩
      rw [if_pos hw]
      exact e1
    · refine ⟨fun _ => ⟨0, none, fun _ _ => 0⟩, ?_, fun h => absurd h hw⟩
      rw [if_neg hw]
      unfold finalizeGroup
      rw [pointOf_none hw]
  choose T t1 t2 using hgrp
  rw [overM_ok _ fun x _ => t1 x]
  obtain ⟨gs, hgs⟩ : ∃ gs, gs = (grid3 B cpr (divUp (p.nLong * p.nlonOut) cf.by') cf.by').flatMap fun x =>
      if x.2.2 < p.nLong * p.nlonOut then [(⟨outFlat p x.1 (r.rowIdx (x.2.2 / p.nlonOut)) (x.2.2 % p.nlonOut), T x⟩ : GroupOut)] else [] := ⟨_, rfl⟩
  rw [← hgs]
  obtain ⟨y', a', y1, a1, ha⟩ := additions_ok (vec := vec) hc.grp.1 hc.outC hr (le_divUp_mul hc.rows) hn curr bufs T (chunkSplit vec p w P k v q cpr) (chunkAt vec p w P k v q)
    (fun b ho wo h1 h2 => by
      rw [chunkAt_outFlat vec w P k v q h1 h2]
      exact chunkSplit_perm vec p w P k v q hcp b ho wo) t2 gs hgs
  refine ⟨⟨y', a', bufs.qmax⟩, ?_, ha⟩
  change (do
      let y ← (r.addY (gs.flatMap (yStores vec cf p))).foldlM (Disco.atomicAddTo (B * p.nlatOut * p.nlonOut * (p.nco * vec))) bufs.y
      let alpha ← (r.addA (gs.map fun g => (g.flat, (g.thr 0).alpha))).foldlM (Disco.atomicAddTo (B * p.nlatOut * p.nlonOut)) bufs.alpha
      return (⟨y, alpha, bufs.qmax⟩ : Bufs) : Except PyErr Bufs) = _
  rw [y1, a1]
  rfl

/-! ### The three kernels, and the step -/

open Classical in
/-- New maxima, scaled accumulators and additions together. -/
theorem long_closed {N : ℕ} {R : ℕ → Prop} {C : ℕ → List Pt} {curr : ℕ → Option ℝ} {bufs b1 b2 : Bufs}
    (c2 : ∀ i, curr i = if R i then phaseMax (bufs.qmax i) (C i) else bufs.qmax i)
    (r2 : ∀ i, AccEq N (accAt N b1 i) (if R i then ⟨fun c => factor (bufs.qmax i) (curr i) * bufs.y (i * N + c), factor (bufs.qmax i) (curr i) * bufs.alpha i, curr i⟩
      else accAt N bufs i))
    (f2 : ∀ i, AccEq N (accAt N b2 i) (if R i then ⟨fun c => b1.y (i * N + c) + ((C i).map fun x => Real.exp (x.q - (curr i).getD 0) * x.w * x.v c).sum,
      b1.alpha i + ((C i).map fun x => Real.exp (x.q - (curr i).getD 0) * x.w).sum, b1.qmax i⟩ else accAt N b1 i)) (i : ℕ) :
    AccEq N (accAt N b2 i) (if R i then closed (accAt N bufs i) (C i) else accAt N bufs i) := by
  have e1 := r2 i
  have e2 := f2 i
  by_cases hi : R i
  · have hci := c2 i
    rw [if_pos hi] at e1 e2 hci ⊢
    refine e2.trans ?_
    obtain ⟨a1, a2, a3⟩ := e1
    have a1' : b1.alpha i = factor (bufs.qmax i) (curr i) * bufs.alpha i := a1
    have a2' : b1.qmax i = curr i := a2
    have a3' : ∀ c < N, b1.y (i * (N) + c) = factor (bufs.qmax i) (curr i) * bufs.y (i * (N) + c) := a3
    unfold closed
    rw [show (accAt (N) bufs i).qmax = bufs.qmax i from rfl, ← hci]
    cases hcu : curr i with
    | none =>
      rw [hcu] at hci a1' a2' a3'
      obtain ⟨z1, z2⟩ := phaseMax_none hci.symm
      rw [z2]
      refine ⟨?_, ?_, fun c hcc => ?_⟩
      · change b1.alpha i + _ = bufs.alpha i
        rw [a1']
        simp [factor]
      · change b1.qmax i = bufs.qmax i
        rw [a2', z1]
      · change b1.y _ + _ = bufs.y _
        rw [a3' c hcc]
        simp [factor]
    | some n =>
      rw [hcu] at a1' a2' a3'
      refine ⟨?_, ?_, fun c hcc => ?_⟩
      · change b1.alpha i + _ = _
        rw [a1']
        rfl
      · exact a2'
      · change b1.y _ + _ = _
        rw [a3' c hcc]
        rfl
  · rw [if_neg hi] at e1 e2 ⊢
    exact e2.trans e1

theorem runLong_ok {r : Run} {vec : ℕ} {cf : Config} {p : Params} (hc : CfgOk cf p.nci p.nco) (hr : RunOk r cf.bx p.nlatOut) {B : ℕ} (w : ℕ → ℝ) (P : Pattern)
    (k v q : ℕ → ℝ) (bufs : Bufs) (hn : p.nLong ≤ p.nlatOut) (hlen : ∀ h < p.nLong, P.roff (r.rowIdx h + 1) - P.roff (r.rowIdx h) ≤ p.maxLen)
    (hlong : 0 < p.nLong → 0 < p.maxLen ∧ LongFits r.limit (vec * p.nci) (vec * p.nco) cf.bx cf.by' p B ∧ Complete cf.bx p B (divUp (p.nLong * p.nlonOut) cf.by') cf.by' r.sched ∧ LoadsFirst cf.bx p B r.sched) :
    ∃ bufs', runLong r vec cf p B w P k v q bufs = .ok bufs' ∧ Effect vec p w P k v q (InRows r p B 0 p.nLong) bufs bufs' := by
  classical
  unfold runLong
  by_cases h0 : p.nLong = 0
  · rw [if_pos h0]
    refine ⟨bufs, rfl, fun i => ?_⟩
    rw [if_neg]
    · exact AccEq.refl _ _
    · rintro ⟨b, hb, h, -, hh, -⟩
      omega
  rw [if_neg h0]
  obtain ⟨hpos, hfits, hcom, hlf⟩ := hlong (by omega)
  obtain ⟨curr, c1, c2⟩ := runSoftmax_ok hc hr w P k v q bufs hn hlen hpos (by have := hfits.soft; rwa [← Nat.mul_assoc] at this)
  have hcurr : ∀ i, curr i = none → bufs.qmax i = none := by
    intro i h
    rw [c2] at h
    split_ifs at h with hi
    · exact (phaseMax_none h).1
    · exact h
  obtain ⟨b1, r1, r2⟩ := runRescale_ok (vec := vec) hc hr hn hcurr hcom hlf hfits.resc
  obtain ⟨b2, f1, f2⟩ := runFinalize_ok hc hr w P k v q curr b1 hn hlen hpos (by
    have := hfits.fin
    rwa [show 4 * (vec * p.nci + vec * p.nco) + 20 * divUp p.maxLen (ctaPerRow p.maxLen) = 4 * vec * (p.nci + p.nco) + 8 * divUp p.maxLen (ctaPerRow p.maxLen) * 2
      + 4 * divUp p.maxLen (ctaPerRow p.maxLen) by ring] at this)
  refine ⟨b2, ?_, fun i => ?_⟩
  · rw [c1]
    change (do
      let bufs ← runRescale r vec cf p B curr bufs
      runFinalize r vec cf p B w P k v q curr bufs) = _
    rw [r1]
    exact f1
  · exact long_closed c2 r2 f2 i

end Verif.RingGpu
