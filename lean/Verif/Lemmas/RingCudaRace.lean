import Verif.Lemmas.RingCudaLong
/-!
Long rows of the ring step: the schedule in which the first warp of a group is through before the others begin.
-/
namespace Verif.RingGpu
open Verif Verif.Attn Verif.Spec.Attn Verif.AttnGpu Verif.Ring Finset

/-- Group after group, warp after warp, both steps of a warp at once. -/
def warpAfterWarp (B gx by' nw : ℕ) : List (ℕ × ℕ × ℕ) :=
  (grid2 B gx by').flatMap fun g => (List.range nw).flatMap fun wp => [(g.1, g.2, wp), (g.1, g.2, wp)]

theorem mem_grid2 {B gx by' : ℕ} {g : ℕ × ℕ} : g ∈ grid2 B gx by' ↔ g.1 < B ∧ g.2 < gx * by' := by
  unfold grid2
  constructor
  · intro h
    obtain ⟨b, hb, wid, hw, h⟩ := mem_overGrid.1 h
    obtain rfl := List.mem_singleton.1 h
    exact ⟨hb, hw⟩
  · intro h
    exact mem_overGrid.2 ⟨g.1, h.1, g.2, h.2, List.mem_singleton.2 rfl⟩

theorem grid2_nodup (B gx by' : ℕ) : (grid2 B gx by').Nodup := by
  unfold grid2 overGrid
  rw [List.nodup_flatMap]
  refine ⟨fun b _ => ?_, ?_⟩
  · rw [List.nodup_flatMap]
    refine ⟨fun w _ => List.nodup_singleton _, List.Nodup.pairwise_of_forall_ne List.nodup_range fun w _ w' _ hne => ?_⟩
    intro a h1 h2
    obtain rfl := List.mem_singleton.1 h1
    exact hne (Prod.mk.inj (List.mem_singleton.1 h2)).2
  · refine List.Nodup.pairwise_of_forall_ne List.nodup_range fun b _ b' _ hne => ?_
    intro a h1 h2
    obtain ⟨w, _, h1⟩ := List.mem_flatMap.1 h1
    obtain ⟨w', _, h2⟩ := List.mem_flatMap.1 h2
    obtain rfl := List.mem_singleton.1 h1
    exact hne (Prod.mk.inj (List.mem_singleton.1 h2)).1

theorem warpAfterWarp_complete (bx : ℕ) (p : Params) (B : ℕ) {by' : ℕ} (hb : 0 < by') :
    Complete bx p B (divUp (p.nLong * p.nlonOut) by') by' (warpAfterWarp B (divUp (p.nLong * p.nlonOut) by') by' (bx / 32)) := by
  refine ⟨fun x hx => ?_, fun g hg wp hwp => ?_⟩
  · obtain ⟨g, hg, hx⟩ := List.mem_flatMap.1 hx
    obtain ⟨wp, hwp, hx⟩ := List.mem_flatMap.1 hx
    have : x = (g.1, g.2, wp) := by simpa using hx
    subst this
    exact ⟨(mem_grid2.1 hg).1, (mem_grid2.1 hg).2, List.mem_range.1 hwp⟩
  · have h1 : g ∈ grid2 B (divUp (p.nLong * p.nlonOut) by') by' := mem_grid2.2 ⟨hg.1, lt_of_lt_of_le hg.2 (le_divUp_mul hb)⟩
    unfold warpAfterWarp
    rw [List.count_flatMap]
    have h2 : 2 ≤ (List.count (g.1, g.2, wp) ∘ fun g : ℕ × ℕ => (List.range (bx / 32)).flatMap fun wp => [(g.1, g.2, wp), (g.1, g.2, wp)]) g := by
      dsimp only [Function.comp]
      rw [List.count_flatMap]
      have h3 : 2 ≤ (List.count (g.1, g.2, wp) ∘ fun wp : ℕ => [(g.1, g.2, wp), (g.1, g.2, wp)]) wp := by
        simp
      exact h3.trans (List.single_le_sum (by simp) _ (List.mem_map_of_mem (List.mem_range.2 hwp)))
    exact h2.trans (List.single_le_sum (by simp) _ (List.mem_map_of_mem h1))

section
variable {r : Run} {vec : ℕ} {cf : Config} {p : Params} {sizeY sizeA : ℕ} {curr : ℕ → Option ℝ}

/-- A warp that starts when the maximum is already the new one does nothing. -/
theorem late_warps {b wid : ℕ} (hw : wid < p.nLong * p.nlonOut) (W : List ℕ) (hn : W.Nodup) (s : Resc)
    (hq : s.bufs.qmax (flatOf r p (b, wid)) = curr (flatOf r p (b, wid))) (hs : ∀ wp ∈ W, s.pc (b, wid) wp = .start) :
    ∃ s', (W.flatMap fun wp => [(b, wid, wp), (b, wid, wp)]).foldlM (rescaleStep vec cf p sizeY sizeA r.rowIdx curr) s = .ok s' ∧ s'.bufs = s.bufs ∧
      ∀ g, g ≠ (b, wid) → s'.pc g = s.pc g := by
  classical
  induction W generalizing s with
  | nil => exact ⟨s, rfl, rfl, fun _ _ => rfl⟩
  | cons wp W ih =>
    rw [List.flatMap_cons, List.foldlM_append, List.foldlM_cons]
    have e1 : rescaleStep vec cf p sizeY sizeA r.rowIdx curr s (b, wid, wp) = .ok { s with pc := Function.update s.pc (b, wid) (Function.update (s.pc (b, wid)) wp .done) } := by
      unfold rescaleStep
      dsimp only
      rw [pointOf_some hw, Nat.zero_add]
      dsimp only
      rw [hs wp List.mem_cons_self]
      dsimp only
      rw [if_pos (by unfold flatOf at hq; exact hq)]
    have e2 : rescaleStep vec cf p sizeY sizeA r.rowIdx curr { s with pc := Function.update s.pc (b, wid) (Function.update (s.pc (b, wid)) wp .done) } (b, wid, wp)
        = .ok { s with pc := Function.update s.pc (b, wid) (Function.update (s.pc (b, wid)) wp .done) } := by
      unfold rescaleStep
      dsimp only
      rw [pointOf_some hw, Nat.zero_add]
      dsimp only
      rw [Function.update_self, Function.update_self]
    rw [e1]
    obtain ⟨s', h1, h2, h3⟩ := ih (List.nodup_cons.1 hn).2 { s with pc := Function.update s.pc (b, wid) (Function.update (s.pc (b, wid)) wp .done) } hq (by
      intro wp' hwp'
      dsimp only
      rw [Function.update_self, Function.update_of_ne]
      · exact hs wp' (List.mem_cons_of_mem _ hwp')
      · rintro rfl
        exact (List.nodup_cons.1 hn).1 hwp')
    refine ⟨s', ?_, h2, fun g hg => ?_⟩
    · change (do
        let s ← List.foldlM (m := Except PyErr) (rescaleStep vec cf p sizeY sizeA r.rowIdx curr)
          { s with pc := Function.update s.pc (b, wid) (Function.update (s.pc (b, wid)) wp .done) } [(b, wid, wp)]
        List.foldlM (m := Except PyErr) (rescaleStep vec cf p sizeY sizeA r.rowIdx curr) s (W.flatMap fun wp => [(b, wid, wp), (b, wid, wp)])) = _
      rw [List.foldlM_cons, e2]
      exact h1
    · rw [h3 g hg]
      dsimp only
      rw [Function.update_of_ne hg]

/-- What holds after the groups `G`. -/
structure RaceInv (r : Run) (vec bx : ℕ) (p : Params) (B : ℕ) (bufs : Bufs) (curr : ℕ → Option ℝ) (G : List (ℕ × ℕ)) (s : Resc) : Prop where
  pc : ∀ g, g ∉ G → ∀ wp, s.pc g wp = .start
  inside : ∀ g, Active p B g → g ∈ G → s.bufs.qmax (flatOf r p g) = curr (flatOf r p g) ∧
    s.bufs.alpha (flatOf r p g) = factor (bufs.qmax (flatOf r p g)) (curr (flatOf r p g)) * bufs.alpha (flatOf r p g)
  outside : ∀ g, Active p B g → g ∉ G → s.bufs.qmax (flatOf r p g) = bufs.qmax (flatOf r p g) ∧ s.bufs.alpha (flatOf r p g) = bufs.alpha (flatOf r p g)
  y : ∀ i, ∀ e < p.nco * vec, warpOf vec bx e ≠ 0 → s.bufs.y (i * (p.nco * vec) + e) = bufs.y (i * (p.nco * vec) + e)

theorem race_group (hc : CfgOk cf p.nci p.nco) (hr : RunOk r cf.bx p.nlatOut) (hn : p.nLong ≤ p.nlatOut) {B : ℕ} {bufs : Bufs}
    (hcurr : ∀ i, curr i = none → bufs.qmax i = none) {G : List (ℕ × ℕ)} {g : ℕ × ℕ} (hg : g ∉ G) (hB : g.1 < B) {s : Resc} (h : RaceInv r vec cf.bx p B bufs curr G s) :
    ∃ s', ((List.range (cf.bx / 32)).flatMap fun wp => [(g.1, g.2, wp), (g.1, g.2, wp)]).foldlM
      (rescaleStep vec cf p (B * p.nlatOut * p.nlonOut * (p.nco * vec)) (B * p.nlatOut * p.nlonOut) r.rowIdx curr) s = .ok s' ∧ RaceInv r vec cf.bx p B bufs curr (G ++ [g]) s' := by
  classical
  obtain ⟨b, wid⟩ := g
  dsimp only at hB ⊢
  have hz : 0 < cf.bx / 32 := by have := hc.grp.1; have := hc.grp.2.1; omega
  have hmem : ∀ g, g ∉ G ++ [(b, wid)] ↔ g ∉ G ∧ g ≠ (b, wid) := by
    intro g
    rw [List.mem_append, List.mem_singleton, not_or]
  by_cases hw : wid < p.nLong * p.nlonOut
  swap
  · have skip : ∀ L : List ℕ, (L.flatMap fun wp => [(b, wid, wp), (b, wid, wp)]).foldlM
        (rescaleStep vec cf p (B * p.nlatOut * p.nlonOut * (p.nco * vec)) (B * p.nlatOut * p.nlonOut) r.rowIdx curr) s = .ok s := by
      intro L
      have e : ∀ wp, rescaleStep vec cf p (B * p.nlatOut * p.nlonOut * (p.nco * vec)) (B * p.nlatOut * p.nlonOut) r.rowIdx curr s (b, wid, wp) = .ok s := by
        intro wp
        unfold rescaleStep
        dsimp only
        rw [pointOf_none hw]
      induction L with
      | nil => rfl
      | cons wp L ih =>
        rw [List.flatMap_cons, List.cons_append, List.cons_append, List.nil_append, List.foldlM_cons, e]
        change List.foldlM (m := Except PyErr) (rescaleStep vec cf p (B * p.nlatOut * p.nlonOut * (p.nco * vec)) (B * p.nlatOut * p.nlonOut) r.rowIdx curr) s (_ :: _) = _
        rw [List.foldlM_cons, e]
        exact ih
    refine ⟨s, skip _, fun g hg => h.pc g ((hmem g).1 hg).1, fun g hg hgm => ?_, fun g hg hgm => h.outside g hg ((hmem g).1 hgm).1, h.y⟩
    rcases List.mem_append.1 hgm with hgm | hgm
    · exact h.inside g hg hgm
    · obtain rfl := List.mem_singleton.1 hgm
      exact absurd hg.2 hw
  have hact : Active p B (b, wid) := ⟨hB, hw⟩
  obtain ⟨f, hf⟩ : ∃ f, f = flatOf r p (b, wid) := ⟨_, rfl⟩
  have hflat : outFlat p b (r.rowIdx (wid / p.nlonOut)) (wid % p.nlonOut) = f := hf.symm
  have hlt : f < B * p.nlatOut * p.nlonOut := hf ▸ flatOf_lt hr hn hact
  obtain ⟨o1, o2⟩ := h.outside (b, wid) hact hg
  rw [← hf] at o1 o2
  have hsucc : cf.bx / 32 = (cf.bx / 32 - 1) + 1 := by omega
  rw [hsucc, List.range_succ_eq_map, List.flatMap_cons, List.foldlM_append]
  -- the first warp
  have first : ∃ s1, [(b, wid, 0), (b, wid, 0)].foldlM
      (rescaleStep vec cf p (B * p.nlatOut * p.nlonOut * (p.nco * vec)) (B * p.nlatOut * p.nlonOut) r.rowIdx curr) s = .ok s1 ∧
      (∀ g, g ≠ (b, wid) → s1.pc g = s.pc g) ∧ (∀ wp, wp ≠ 0 → s1.pc (b, wid) wp = .start) ∧ s1.bufs.qmax f = curr f ∧
      s1.bufs.alpha f = factor (bufs.qmax f) (curr f) * bufs.alpha f ∧ (∀ i, i ≠ f → s1.bufs.qmax i = s.bufs.qmax i ∧ s1.bufs.alpha i = s.bufs.alpha i) ∧
      ∀ i, ∀ e < p.nco * vec, warpOf vec cf.bx e ≠ 0 → s1.bufs.y (i * (p.nco * vec) + e) = s.bufs.y (i * (p.nco * vec) + e) := by
    by_cases hq : bufs.qmax f = curr f
    · refine ⟨{ s with pc := Function.update s.pc (b, wid) (Function.update (s.pc (b, wid)) 0 .done) }, ?_, fun g hg => Function.update_of_ne hg _ _, fun wp hwp => ?_, ?_, ?_,
        fun i _ => ⟨rfl, rfl⟩, fun i e _ _ => rfl⟩
      · rw [List.foldlM_cons]
        have e1 : rescaleStep vec cf p (B * p.nlatOut * p.nlonOut * (p.nco * vec)) (B * p.nlatOut * p.nlonOut) r.rowIdx curr s (b, wid, 0)
            = .ok { s with pc := Function.update s.pc (b, wid) (Function.update (s.pc (b, wid)) 0 .done) } := by
          unfold rescaleStep
          dsimp only
          rw [pointOf_some hw, Nat.zero_add]
          dsimp only
          rw [h.pc _ hg 0]
          dsimp only
          rw [hflat, o1, if_pos hq]
        rw [e1]
        change List.foldlM (m := Except PyErr) (rescaleStep vec cf p (B * p.nlatOut * p.nlonOut * (p.nco * vec)) (B * p.nlatOut * p.nlonOut) r.rowIdx curr) _ [_] = _
        rw [List.foldlM_cons]
        have e2 : rescaleStep vec cf p (B * p.nlatOut * p.nlonOut * (p.nco * vec)) (B * p.nlatOut * p.nlonOut) r.rowIdx curr
            { s with pc := Function.update s.pc (b, wid) (Function.update (s.pc (b, wid)) 0 .done) } (b, wid, 0)
            = .ok { s with pc := Function.update s.pc (b, wid) (Function.update (s.pc (b, wid)) 0 .done) } := by
          unfold rescaleStep
          dsimp only
          rw [pointOf_some hw, Nat.zero_add]
          dsimp only
          rw [Function.update_self, Function.update_self]
        rw [e2]
        rfl
      · dsimp only
        rw [Function.update_self, Function.update_of_ne hwp]
        exact h.pc _ hg wp
      · exact o1.trans hq
      · change s.bufs.alpha f = _
        rw [o2, hq, factor_self, one_mul]
    · obtain ⟨n, hcn⟩ : ∃ n, curr f = some n := by
        cases hc : curr f with
        | none => exact absurd ((hcurr f hc).trans hc.symm) hq
        | some n => exact ⟨n, rfl⟩
      have hq' : ¬ bufs.qmax f = some n := fun e => hq (e.trans hcn.symm)
      obtain ⟨Y, hY⟩ : ∃ Y : ℕ → ℝ, Y = fun a => if a ∈ warpPlaces vec cf p f 0 then expDiff (bufs.qmax f) n * s.bufs.y a else s.bufs.y a := ⟨_, rfl⟩
      refine ⟨⟨⟨Y, Function.update s.bufs.alpha f (expDiff (bufs.qmax f) n * s.bufs.alpha f), Function.update s.bufs.qmax f (some n)⟩,
        Function.update (Function.update s.pc (b, wid) (Function.update (s.pc (b, wid)) 0 (.loaded (bufs.qmax f)))) (b, wid)
          (Function.update (Function.update s.pc (b, wid) (Function.update (s.pc (b, wid)) 0 (.loaded (bufs.qmax f))) (b, wid)) 0 .done)⟩, ?_, fun g hg => ?_, fun wp hwp => ?_, ?_, ?_,
        fun i hi => ⟨Function.update_of_ne hi _ _, Function.update_of_ne hi _ _⟩, fun i e he hwe => ?_⟩
      · rw [List.foldlM_cons]
        have e1 : rescaleStep vec cf p (B * p.nlatOut * p.nlonOut * (p.nco * vec)) (B * p.nlatOut * p.nlonOut) r.rowIdx curr s (b, wid, 0)
            = .ok { s with pc := Function.update s.pc (b, wid) (Function.update (s.pc (b, wid)) 0 (.loaded (bufs.qmax f))) } := by
          unfold rescaleStep
          dsimp only
          rw [pointOf_some hw, Nat.zero_add]
          dsimp only
          rw [h.pc _ hg 0]
          dsimp only
          rw [hflat, o1, if_neg hq]
        rw [e1]
        change List.foldlM (m := Except PyErr) (rescaleStep vec cf p (B * p.nlatOut * p.nlonOut * (p.nco * vec)) (B * p.nlatOut * p.nlonOut) r.rowIdx curr) _ [_] = _
        rw [List.foldlM_cons]
        have e2 : rescaleStep vec cf p (B * p.nlatOut * p.nlonOut * (p.nco * vec)) (B * p.nlatOut * p.nlonOut) r.rowIdx curr
            { s with pc := Function.update s.pc (b, wid) (Function.update (s.pc (b, wid)) 0 (.loaded (bufs.qmax f))) } (b, wid, 0)
            = .ok ⟨⟨Y, Function.update s.bufs.alpha f (expDiff (bufs.qmax f) n * s.bufs.alpha f), Function.update s.bufs.qmax f (some n)⟩,
        Function.update (Function.update s.pc (b, wid) (Function.update (s.pc (b, wid)) 0 (.loaded (bufs.qmax f)))) (b, wid)
          (Function.update (Function.update s.pc (b, wid) (Function.update (s.pc (b, wid)) 0 (.loaded (bufs.qmax f))) (b, wid)) 0 .done)⟩ := by
          unfold rescaleStep
          dsimp only
          rw [pointOf_some hw, Nat.zero_add]
          dsimp only
          rw [show Function.update s.pc (b, wid) (Function.update (s.pc (b, wid)) 0 (.loaded (bufs.qmax f))) (b, wid) 0 = .loaded (bufs.qmax f) by
            rw [Function.update_self, Function.update_self]]
          dsimp only
          rw [hflat, hcn]
          dsimp only
          rw [scale_fold _ _ _ (warpPlaces_nodup hc.grp hc.outC f hz) (by
            intro a ha
            rw [warpPlaces_eq, mem_places] at ha
            obtain ⟨t, ht, c, hcc, j, hj, rfl⟩ := ha
            obtain ⟨l, hl, rfl⟩ := List.mem_map.1 ht
            have := List.mem_range.1 hl
            exact packed_lt hlt (chan_lt hc.grp.1 hc.outC (by have := hc.grp.2.1; omega) hcc hj))]
          dsimp only
          rw [if_pos rfl, if_pos hlt, ← hY]
        rw [e2]
        rfl
      · dsimp only
        rw [Function.update_of_ne hg, Function.update_of_ne hg]
      · dsimp only
        rw [Function.update_self, Function.update_of_ne hwp, Function.update_self, Function.update_of_ne hwp]
        exact h.pc _ hg wp
      · rw [hcn]; exact Function.update_self _ _ _
      · dsimp only
        rw [Function.update_self, hcn, o2]
        rfl
      · dsimp only
        rw [hY]
        dsimp only
        rw [if_neg]
        intro hm
        exact hwe ((mem_warpPlaces hc.grp hc.outC hz he).1 hm).2
  obtain ⟨s1, f1, f2, f3, f4, f5, f6, f7⟩ := first
  rw [f1]
  obtain ⟨s2, l1, l2, l3⟩ := late_warps (r := r) (vec := vec) (cf := cf) (sizeY := B * p.nlatOut * p.nlonOut * (p.nco * vec)) (sizeA := B * p.nlatOut * p.nlonOut)
    (curr := curr) (b := b) hw ((List.range (cf.bx / 32 - 1)).map Nat.succ) (List.nodup_range.map fun a b h => by simpa using h) s1 (by rw [← hf]; exact f4) (by
      intro wp hwp
      obtain ⟨x, _, rfl⟩ := List.mem_map.1 hwp
      exact f3 _ (Nat.succ_ne_zero x))
  refine ⟨s2, l1, fun g hgm wp => ?_, fun g hga hgm => ?_, fun g hga hgm => ?_, fun i e he hwe => ?_⟩
  · obtain ⟨h1, h2⟩ := (hmem g).1 hgm
    rw [l3 g h2, f2 g h2]
    exact h.pc g h1 wp
  · rw [l2]
    by_cases hgne : g = (b, wid)
    · subst hgne
      rw [← hf]
      exact ⟨f4, f5⟩
    · have hfg : flatOf r p g ≠ f := fun e => hgne (flatOf_inj hr hn hga hact (e.trans hf))
      rw [(f6 _ hfg).1, (f6 _ hfg).2]
      rcases List.mem_append.1 hgm with hgm | hgm
      · exact h.inside g hga hgm
      · exact absurd (List.mem_singleton.1 hgm) hgne
  · obtain ⟨h1, h2⟩ := (hmem g).1 hgm
    have hfg : flatOf r p g ≠ f := fun e => h2 (flatOf_inj hr hn hga hact (e.trans hf))
    rw [l2, (f6 _ hfg).1, (f6 _ hfg).2]
    exact h.outside g hga h1
  · rw [l2, f7 i e he hwe]
    exact h.y i e he hwe

/-- The kernel in this schedule: only the first warp scales. -/
theorem race_run (hc : CfgOk cf p.nci p.nco) (hr : RunOk r cf.bx p.nlatOut) (hn : p.nLong ≤ p.nlatOut) {B : ℕ} {bufs : Bufs}
    (hcurr : ∀ i, curr i = none → bufs.qmax i = none) (gx by' : ℕ) :
    ∃ s, (warpAfterWarp B gx by' (cf.bx / 32)).foldlM (rescaleStep vec cf p (B * p.nlatOut * p.nlonOut * (p.nco * vec)) (B * p.nlatOut * p.nlonOut) r.rowIdx curr)
      ⟨bufs, fun _ _ => .start⟩ = .ok s ∧ RaceInv r vec cf.bx p B bufs curr (grid2 B gx by') s := by
  have hnd := grid2_nodup B gx by'
  have hin : ∀ g ∈ grid2 B gx by', g.1 < B := fun g hg => (mem_grid2.1 hg).1
  unfold warpAfterWarp
  generalize grid2 B gx by' = G at *
  induction G using List.reverseRecOn with
  | nil => exact ⟨_, rfl, fun _ _ _ => rfl, fun g _ h => absurd h List.not_mem_nil, fun _ _ _ => ⟨rfl, rfl⟩, fun _ _ _ _ => rfl⟩
  | append_singleton G g ih =>
    obtain ⟨s, h1, h2⟩ := ih (hnd.sublist (List.sublist_append_left _ _)) fun g hg => hin g (List.mem_append_left _ hg)
    have hg : g ∉ G := fun hm => (List.nodup_append.1 hnd).2.2 g hm g List.mem_cons_self rfl
    obtain ⟨s', h3, h4⟩ := race_group hc hr hn hcurr hg (hin g (List.mem_append_right _ List.mem_cons_self)) h2
    refine ⟨s', ?_, h4⟩
    rw [List.flatMap_append, List.foldlM_append, h1]
    change List.foldlM (m := Except PyErr) (rescaleStep vec cf p (B * p.nlatOut * p.nlonOut * (p.nco * vec)) (B * p.nlatOut * p.nlonOut) r.rowIdx curr) s
      (([g] : List (ℕ × ℕ)).flatMap fun g => (List.range (cf.bx / 32)).flatMap fun wp => [(g.1, g.2, wp), (g.1, g.2, wp)]) = _
    rw [List.flatMap_singleton]
    exact h3

end

end Verif.RingGpu
