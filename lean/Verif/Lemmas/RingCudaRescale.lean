import Verif.Lemmas.RingCudaMax
/-!
Long rows of the ring step: the kernel that scales the accumulators, warp by warp.
-/
namespace Verif.RingGpu
open Verif Verif.Attn Verif.Spec.Attn Verif.AttnGpu Verif.Ring Finset

/-! ### The places of a warp -/

/-- The places of the threads `T` of a group. -/
def places (vec bx : ℕ) (loc : Option ℕ) (nco i : ℕ) (T : List ℕ) : List ℕ :=
  T.flatMap fun t => (chans bx loc nco t).flatMap fun c => (List.range vec).map fun j => vec * (i * nco + c) + j

theorem mem_places {vec bx nco i a : ℕ} {loc : Option ℕ} {T : List ℕ} :
    a ∈ places vec bx loc nco i T ↔ ∃ t ∈ T, ∃ c ∈ chans bx loc nco t, ∃ j < vec, a = i * (nco * vec) + (c * vec + j) := by
  unfold places
  simp only [List.mem_flatMap, List.mem_map, List.mem_range, y_addr]
  constructor
  · rintro ⟨t, ht, c, hc, j, hj, rfl⟩
    exact ⟨t, ht, c, hc, j, hj, rfl⟩
  · rintro ⟨t, ht, c, hc, j, hj, rfl⟩
    exact ⟨t, ht, c, hc, j, hj, rfl⟩

theorem packed_inj {vec c j c' j' : ℕ} (hj : j < vec) (hj' : j' < vec) (h : c * vec + j = c' * vec + j') : c = c' ∧ j = j' := y_addr_inj hj hj' h

theorem places_nodup {vec bx nco i : ℕ} {loc : Option ℕ} (hb : 0 < bx) (hl : LocOk bx loc nco) {T : List ℕ} (hT : T.Nodup) (hlt : ∀ t ∈ T, t < bx) :
    (places vec bx loc nco i T).Nodup := by
  unfold places
  rw [List.nodup_flatMap]
  refine ⟨fun t ht => ?_, ?_⟩
  · rw [List.nodup_flatMap]
    refine ⟨fun c _ => List.Nodup.map (fun j j' h => by omega) List.nodup_range, List.Nodup.pairwise_of_forall_ne (chans_nodup hb) fun c hc c' hc' hne => ?_⟩
    intro a h1 h2
    obtain ⟨j, hj, rfl⟩ := List.mem_map.1 h1
    obtain ⟨j', hj', e⟩ := List.mem_map.1 h2
    rw [y_addr, y_addr] at e
    exact hne (packed_inj (List.mem_range.1 hj) (List.mem_range.1 hj') (by omega)).1
  · refine List.Nodup.pairwise_of_forall_ne hT fun t ht t' ht' hne => ?_
    intro a h1 h2
    obtain ⟨c, hc, h1⟩ := List.mem_flatMap.1 h1
    obtain ⟨c', hc', h2⟩ := List.mem_flatMap.1 h2
    obtain ⟨j, hj, rfl⟩ := List.mem_map.1 h1
    obtain ⟨j', hj', e⟩ := List.mem_map.1 h2
    rw [y_addr, y_addr] at e
    have hcc := (packed_inj (List.mem_range.1 hj) (List.mem_range.1 hj') (by omega : c * vec + j = c' * vec + j')).1
    have m1 := ((mem_chans hb hl (hlt t ht)).1 hc).2
    have m2 := ((mem_chans hb hl (hlt t' ht')).1 hc').2
    rw [hcc] at m1
    exact hne (m1.symm.trans m2)

theorem warpPlaces_eq (vec : ℕ) (cf : Config) (p : Params) (i wp : ℕ) :
    warpPlaces vec cf p i wp = places vec cf.bx cf.locO p.nco i ((List.range 32).map fun l => wp * 32 + l) := by
  unfold warpPlaces places
  rw [List.flatMap_map]

theorem warpPlaces_nodup {vec : ℕ} {cf : Config} {p : Params} (hg : GroupOk cf.bx) (hl : LocOk cf.bx cf.locO p.nco) (i : ℕ) {wp : ℕ} (hw : wp < cf.bx / 32) :
    (warpPlaces vec cf p i wp).Nodup := by
  rw [warpPlaces_eq]
  refine places_nodup hg.1 hl (List.Nodup.map (fun a b h => by simpa using h) List.nodup_range) fun t ht => ?_
  obtain ⟨l, h, rfl⟩ := List.mem_map.1 ht
  have := List.mem_range.1 h
  have := hg.2.1
  omega

/-- The warp that scales channel `e`. -/
def warpOf (vec bx e : ℕ) : ℕ := e / vec % bx / 32

theorem warpOf_lt {vec bx : ℕ} (hg : GroupOk bx) (e : ℕ) : warpOf vec bx e < bx / 32 := by
  unfold warpOf
  have := Nat.mod_lt (e / vec) hg.1
  have := hg.2.1
  omega

theorem mem_warpPlaces {vec : ℕ} {cf : Config} {p : Params} (hg : GroupOk cf.bx) (hl : LocOk cf.bx cf.locO p.nco) {i i' wp e : ℕ} (hw : wp < cf.bx / 32)
    (he : e < p.nco * vec) : i' * (p.nco * vec) + e ∈ warpPlaces vec cf p i wp ↔ i = i' ∧ warpOf vec cf.bx e = wp := by
  rw [warpPlaces_eq, mem_places]
  have hmod := hg.2.1
  constructor
  · rintro ⟨t, ht, c, hc, j, hj, heq⟩
    obtain ⟨l, h, rfl⟩ := List.mem_map.1 ht
    have hll := List.mem_range.1 h
    have htb : wp * 32 + l < cf.bx := by omega
    have hlt := chan_lt hg.1 hl htb hc hj
    obtain ⟨rfl, rfl⟩ := y_addr_inj he hlt heq
    refine ⟨rfl, ?_⟩
    unfold warpOf
    rw [(div_mul_add (a := c) hj).1, ((mem_chans hg.1 hl htb).1 hc).2]
    omega
  · rintro ⟨rfl, rfl⟩
    obtain ⟨c1, c2, c3, c4⟩ := chan_mem (loc := cf.locO) hg.1 hl he
    refine ⟨_, List.mem_map.2 ⟨e / vec % cf.bx % 32, List.mem_range.2 (Nat.mod_lt _ (by omega)), rfl⟩, e / vec, ?_, e % vec, c3, by rw [c4]⟩
    unfold warpOf
    rw [Nat.div_add_mod']
    exact c2

/-- Scaling different places, one after the other. -/
theorem scale_fold (size : ℕ) (f : ℝ) (L : List ℕ) (hn : L.Nodup) (hL : ∀ a ∈ L, a < size) (y : ℕ → ℝ) :
    L.foldlM (fun y a => Disco.store size y a (f * y a)) y = .ok (fun a => if a ∈ L then f * y a else y a) := by
  induction L generalizing y with
  | nil => simp; rfl
  | cons a L ih =>
    rw [List.foldlM_cons]
    unfold Disco.store at ih ⊢
    rw [if_pos (hL a List.mem_cons_self)]
    change List.foldlM (m := Except PyErr) (fun y a => if a < size then Except.ok (Function.update y a (f * y a)) else Except.error PyErr.memoryFault)
      (Function.update y a (f * y a)) L = _
    rw [ih (List.nodup_cons.1 hn).2 fun b hb => hL b (List.mem_cons_of_mem _ hb)]
    congr 1
    funext b
    have ha := (List.nodup_cons.1 hn).1
    by_cases hb : b = a
    · subst hb
      rw [if_neg ha, Function.update_self, if_pos List.mem_cons_self]
    · rw [Function.update_of_ne hb]
      simp only [List.mem_cons, hb, false_or]

/-! ### The steps of the kernel -/

/-- The point of a group. -/
def flatOf (r : Run) (p : Params) (g : ℕ × ℕ) : ℕ := outFlat p g.1 (r.rowIdx (g.2 / p.nlonOut)) (g.2 % p.nlonOut)

theorem active_cell {p : Params} {B : ℕ} {g : ℕ × ℕ} (h : Active p B g) : g.2 / p.nlonOut < p.nLong ∧ g.2 % p.nlonOut < p.nlonOut :=
  ⟨(packed_split h.2).1, (packed_split h.2).2.1⟩

theorem flatOf_inj {r : Run} {bx : ℕ} {p : Params} (hr : RunOk r bx p.nlatOut) (hn : p.nLong ≤ p.nlatOut) {B : ℕ} {g g' : ℕ × ℕ} (h : Active p B g) (h' : Active p B g')
    (he : flatOf r p g = flatOf r p g') : g = g' := by
  obtain ⟨c1, c2⟩ := active_cell h
  obtain ⟨c3, c4⟩ := active_cell h'
  have d1 := outFlat_decode (p := p) (b := g.1) (hr.row_lt (show g.2 / p.nlonOut < p.nlatOut by omega)) c2
  have d2 := outFlat_decode (p := p) (b := g'.1) (hr.row_lt (show g'.2 / p.nlonOut < p.nlatOut by omega)) c4
  unfold flatOf at he
  rw [← he] at d2
  have e1 := d1.1.symm.trans d2.1
  have e2 := hr.row_inj (by omega) (by omega) (d1.2.1.symm.trans d2.2.1)
  have e3 := d1.2.2.symm.trans d2.2.2
  have f1 := Nat.div_add_mod g.2 p.nlonOut
  have f2 := Nat.div_add_mod g'.2 p.nlonOut
  rw [e2, e3, f2] at f1
  exact Prod.ext e1 f1.symm

theorem flatOf_lt {r : Run} {bx : ℕ} {p : Params} (hr : RunOk r bx p.nlatOut) (hn : p.nLong ≤ p.nlatOut) {B : ℕ} {g : ℕ × ℕ} (h : Active p B g) :
    flatOf r p g < B * p.nlatOut * p.nlonOut :=
  outFlat_lt h.1 (hr.row_lt (by have := (active_cell h).1; omega)) (active_cell h).2

/-- The factor that the kernel applies. -/
noncomputable def factor (old new : Option ℝ) : ℝ := match new with | none => 1 | some n => expDiff old n

open Classical in
/-- What holds after the steps `l`. -/
structure RescInv (r : Run) (vec : ℕ) (cf : Config) (p : Params) (B : ℕ) (bufs : Bufs) (curr : ℕ → Option ℝ) (l : List (ℕ × ℕ × ℕ)) (s : Resc) : Prop where
  pc : ∀ g, Active p B g → ∀ wp < cf.bx / 32, s.pc g wp = if l.count (g.1, g.2, wp) = 0 then .start
    else if bufs.qmax (flatOf r p g) = curr (flatOf r p g) then .done
    else if l.count (g.1, g.2, wp) = 1 then .loaded (bufs.qmax (flatOf r p g)) else .done
  qmax : ∀ g, Active p B g → s.bufs.qmax (flatOf r p g) = if 2 ≤ l.count (g.1, g.2, 0) then curr (flatOf r p g) else bufs.qmax (flatOf r p g)
  alpha : ∀ g, Active p B g → s.bufs.alpha (flatOf r p g) =
    if 2 ≤ l.count (g.1, g.2, 0) then factor (bufs.qmax (flatOf r p g)) (curr (flatOf r p g)) * bufs.alpha (flatOf r p g) else bufs.alpha (flatOf r p g)
  y : ∀ g, Active p B g → ∀ e < p.nco * vec, s.bufs.y (flatOf r p g * (p.nco * vec) + e) =
    if 2 ≤ l.count (g.1, g.2, warpOf vec cf.bx e) then factor (bufs.qmax (flatOf r p g)) (curr (flatOf r p g)) * bufs.y (flatOf r p g * (p.nco * vec) + e)
    else bufs.y (flatOf r p g * (p.nco * vec) + e)
  rest : ∀ i, (∀ g, Active p B g → flatOf r p g ≠ i) → AccEq (p.nco * vec) (accAt (p.nco * vec) s.bufs i) (accAt (p.nco * vec) bufs i)

theorem factor_self (m : Option ℝ) : factor m m = 1 := by
  cases m with
  | none => rfl
  | some n => exact expDiff_self n

theorem count_append_one (l : List (ℕ × ℕ × ℕ)) (x y : ℕ × ℕ × ℕ) : (l ++ [x]).count y = l.count y + if x = y then 1 else 0 := by
  rw [List.count_append, List.count_singleton]
  simp only [beq_iff_eq]

set_option linter.unusedVariables false in
theorem rescaleStep_inv {r : Run} {vec : ℕ} {cf : Config} {p : Params} (hc : CfgOk cf p.nci p.nco) (hr : RunOk r cf.bx p.nlatOut) (hn : p.nLong ≤ p.nlatOut) {B : ℕ} {bufs : Bufs}
    {curr : ℕ → Option ℝ} (hcurr : ∀ i, curr i = none → bufs.qmax i = none) {l : List (ℕ × ℕ × ℕ)} {s : Resc} (hs : RescInv r vec cf p B bufs curr l s) {x : ℕ × ℕ × ℕ}
    (hx : x.1 < B ∧ x.2.2 < cf.bx / 32)
    (hlf : ∀ g, Active p B g → 2 ≤ l.count (g.1, g.2, 0) → ∀ wp < cf.bx / 32, 1 ≤ l.count (g.1, g.2, wp)) :
    ∃ s', rescaleStep vec cf p (B * p.nlatOut * p.nlonOut * (p.nco * vec)) (B * p.nlatOut * p.nlonOut) r.rowIdx curr s x = .ok s' ∧ RescInv r vec cf p B bufs curr (l ++ [x]) s' := by
  classical
  obtain ⟨b, wid, wp⟩ := x
  obtain ⟨hb, hwp⟩ := hx
  dsimp only at hb hwp
  by_cases hw : wid < p.nLong * p.nlonOut
  swap
  · refine ⟨s, by unfold rescaleStep; dsimp only; rw [pointOf_none hw], ?_⟩
    have hcount : ∀ g, Active p B g → ∀ wp', (l ++ [(b, wid, wp)]).count (g.1, g.2, wp') = l.count (g.1, g.2, wp') := by
      intro g hg wp'
      rw [count_append_one, if_neg, Nat.add_zero]
      intro e
      simp only [Prod.mk.injEq] at e
      exact hw (e.2.1 ▸ hg.2)
    exact ⟨fun g hg wp' h => by rw [hcount g hg]; exact hs.pc g hg wp' h, fun g hg => by rw [hcount g hg]; exact hs.qmax g hg,
      fun g hg => by rw [hcount g hg]; exact hs.alpha g hg, fun g hg e he => by rw [hcount g hg]; exact hs.y g hg e he, hs.rest⟩
  have hact : Active p B (b, wid) := ⟨hb, hw⟩
  obtain ⟨f, hf⟩ : ∃ f, f = flatOf r p (b, wid) := ⟨_, rfl⟩
  have hflat : outFlat p b (r.rowIdx (wid / p.nlonOut)) (wid % p.nlonOut) = f := hf.symm
  have hpc := hs.pc (b, wid) hact wp hwp
  rw [← hf] at hpc
  dsimp only at hpc
  have hne : ∀ g, Active p B g → g ≠ (b, wid) → ∀ wp', (l ++ [(b, wid, wp)]).count (g.1, g.2, wp') = l.count (g.1, g.2, wp') := by
    intro g hg hgne wp'
    rw [count_append_one, if_neg, Nat.add_zero]
    intro e
    simp only [Prod.mk.injEq] at e
    exact hgne (Prod.ext e.1.symm e.2.1.symm)
  have hneq : ∀ g, Active p B g → g ≠ (b, wid) → flatOf r p g ≠ f := by
    intro g hg hgne he
    exact hgne (flatOf_inj hr hn hg hact (he.trans hf))
  have hself : ∀ wp', (l ++ [(b, wid, wp)]).count (b, wid, wp') = l.count (b, wid, wp') + if wp = wp' then 1 else 0 := by
    intro wp'
    rw [count_append_one]
    simp only [Prod.mk.injEq, true_and]
  have hstep : rescaleStep vec cf p (B * p.nlatOut * p.nlonOut * (p.nco * vec)) (B * p.nlatOut * p.nlonOut) r.rowIdx curr s (b, wid, wp) =
      match s.pc (b, wid) wp with
      | .done => .ok s
      | .start => .ok { s with pc := Function.update s.pc (b, wid) (Function.update (s.pc (b, wid)) wp (if s.bufs.qmax f = curr f then .done else .loaded (s.bufs.qmax f))) }
      | .loaded old =>
        match curr f with
        | none => .ok { s with pc := Function.update s.pc (b, wid) (Function.update (s.pc (b, wid)) wp .done) }
        | some new =>
          match (warpPlaces vec cf p f wp).foldlM (fun y a => Disco.store (B * p.nlatOut * p.nlonOut * (p.nco * vec)) y a (expDiff old new * y a)) s.bufs.y with
          | .error e => .error e
          | .ok y =>
            if wp = 0 then
              if f < B * p.nlatOut * p.nlonOut then
                .ok ⟨⟨y, Function.update s.bufs.alpha f (expDiff old new * s.bufs.alpha f), Function.update s.bufs.qmax f (some new)⟩,
                  Function.update s.pc (b, wid) (Function.update (s.pc (b, wid)) wp .done)⟩
              else .error .memoryFault
            else .ok ⟨{ s.bufs with y := y }, Function.update s.pc (b, wid) (Function.update (s.pc (b, wid)) wp .done)⟩ := by
    unfold rescaleStep
    dsimp only
    rw [pointOf_some hw, Nat.zero_add]
    dsimp only
    rw [hflat]
    rfl
  rw [hstep, hpc]
  have hother : ∀ (X : WarpPc) g, Active p B g → g ≠ (b, wid) → ∀ wp' < cf.bx / 32,
      Function.update s.pc (b, wid) (Function.update (s.pc (b, wid)) wp X) g wp' = if (l ++ [(b, wid, wp)]).count (g.1, g.2, wp') = 0 then .start
        else if bufs.qmax (flatOf r p g) = curr (flatOf r p g) then .done
        else if (l ++ [(b, wid, wp)]).count (g.1, g.2, wp') = 1 then .loaded (bufs.qmax (flatOf r p g)) else .done := by
    intro X g hg hgne wp' h
    rw [Function.update_of_ne hgne, hne g hg hgne]
    exact hs.pc g hg wp' h
  have hpcs : ∀ X : WarpPc, (X = if bufs.qmax f = curr f then .done else if l.count (b, wid, wp) + 1 = 1 then .loaded (bufs.qmax f) else .done) →
      ∀ g, Active p B g → ∀ wp' < cf.bx / 32,
      Function.update s.pc (b, wid) (Function.update (s.pc (b, wid)) wp X) g wp' = if (l ++ [(b, wid, wp)]).count (g.1, g.2, wp') = 0 then .start
        else if bufs.qmax (flatOf r p g) = curr (flatOf r p g) then .done
        else if (l ++ [(b, wid, wp)]).count (g.1, g.2, wp') = 1 then .loaded (bufs.qmax (flatOf r p g)) else .done := by
    intro X hX g hg wp' h
    by_cases hgne : g = (b, wid)
    · subst hgne
      rw [Function.update_self, ← hf]
      dsimp only
      rw [hself]
      by_cases hwp' : wp = wp'
      · subst hwp'
        rw [Function.update_self, if_pos rfl, if_neg (by omega)]
        exact hX
      · rw [Function.update_of_ne (Ne.symm hwp'), if_neg hwp', Nat.add_zero]
        have := hs.pc (b, wid) hact wp' h
        rw [← hf] at this
        exact this
    · exact hother X g hg hgne wp' h
  -- accumulators that do not change although a step is counted
  have keepQ : (l.count (b, wid, 0) + (if wp = 0 then 1 else 0) ≥ 2 → ¬ 2 ≤ l.count (b, wid, 0) → bufs.qmax f = curr f) → ∀ g, Active p B g →
      s.bufs.qmax (flatOf r p g) = if 2 ≤ (l ++ [(b, wid, wp)]).count (g.1, g.2, 0) then curr (flatOf r p g) else bufs.qmax (flatOf r p g) := by
    intro hk g hg
    rw [hs.qmax g hg]
    by_cases hgne : g = (b, wid)
    · subst hgne
      rw [← hf]
      dsimp only
      rw [hself]
      by_cases h2 : 2 ≤ l.count (b, wid, 0)
      · rw [if_pos h2, if_pos (by omega)]
      · rw [if_neg h2]
        by_cases h3 : 2 ≤ l.count (b, wid, 0) + if wp = 0 then 1 else 0
        · rw [if_pos h3]
          exact hk h3 h2
        · rw [if_neg h3]
    · rw [hne g hg hgne]
  have keepA : (l.count (b, wid, 0) + (if wp = 0 then 1 else 0) ≥ 2 → ¬ 2 ≤ l.count (b, wid, 0) → bufs.qmax f = curr f) → ∀ g, Active p B g →
      s.bufs.alpha (flatOf r p g) = if 2 ≤ (l ++ [(b, wid, wp)]).count (g.1, g.2, 0) then factor (bufs.qmax (flatOf r p g)) (curr (flatOf r p g)) * bufs.alpha (flatOf r p g)
        else bufs.alpha (flatOf r p g) := by
    intro hk g hg
    rw [hs.alpha g hg]
    by_cases hgne : g = (b, wid)
    · subst hgne
      rw [← hf]
      dsimp only
      rw [hself]
      by_cases h2 : 2 ≤ l.count (b, wid, 0)
      · rw [if_pos h2, if_pos (by omega)]
      · rw [if_neg h2]
        by_cases h3 : 2 ≤ l.count (b, wid, 0) + if wp = 0 then 1 else 0
        · rw [if_pos h3, hk h3 h2, factor_self, one_mul]
        · rw [if_neg h3]
    · rw [hne g hg hgne]
  have keepY : (l.count (b, wid, wp) + 1 ≥ 2 → ¬ 2 ≤ l.count (b, wid, wp) → bufs.qmax f = curr f) → ∀ g, Active p B g → ∀ e < p.nco * vec,
      s.bufs.y (flatOf r p g * (p.nco * vec) + e) = if 2 ≤ (l ++ [(b, wid, wp)]).count (g.1, g.2, warpOf vec cf.bx e)
        then factor (bufs.qmax (flatOf r p g)) (curr (flatOf r p g)) * bufs.y (flatOf r p g * (p.nco * vec) + e) else bufs.y (flatOf r p g * (p.nco * vec) + e) := by
    intro hk g hg e he
    rw [hs.y g hg e he]
    by_cases hgne : g = (b, wid)
    · subst hgne
      rw [← hf]
      dsimp only
      rw [hself]
      by_cases hwe : wp = warpOf vec cf.bx e
      · subst hwe
        rw [if_pos rfl]
        by_cases h2 : 2 ≤ l.count (b, wid, warpOf vec cf.bx e)
        · rw [if_pos h2, if_pos (by omega)]
        · rw [if_neg h2]
          split_ifs with h3
          · rw [hk h3 h2, factor_self, one_mul]
          · rfl
      · rw [if_neg hwe, Nat.add_zero]
    · rw [hne g hg hgne]
  by_cases h0 : l.count (b, wid, wp) = 0
  · -- the loads
    rw [if_pos h0]
    dsimp only
    have hq : s.bufs.qmax f = bufs.qmax f := by
      have := hs.qmax (b, wid) hact
      rw [← hf] at this
      rw [this]
      by_cases h2 : 2 ≤ l.count (b, wid, 0)
      · have := hlf (b, wid) hact h2 wp hwp
        dsimp only at this
        omega
      · exact if_neg h2
    rw [hq]
    have hk : l.count (b, wid, 0) + (if wp = 0 then 1 else 0) ≥ 2 → ¬ 2 ≤ l.count (b, wid, 0) → bufs.qmax f = curr f := by
      intro h1 h2
      by_cases hwz : wp = 0
      · rw [hwz] at h0
        rw [if_pos hwz] at h1
        omega
      · rw [if_neg hwz] at h1
        omega
    refine ⟨_, rfl, hpcs _ ?_, keepQ hk, keepA hk, keepY (fun h1 _ => by omega), hs.rest⟩
    rw [if_pos (show l.count (b, wid, wp) + 1 = 1 by omega)]
  rw [if_neg h0]
  by_cases heq : bufs.qmax f = curr f
  · -- nothing to do
    rw [if_pos heq]
    refine ⟨s, rfl, ?_, keepQ fun _ _ => heq, keepA fun _ _ => heq, keepY fun _ _ => heq, hs.rest⟩
    have hid : Function.update s.pc (b, wid) (Function.update (s.pc (b, wid)) wp WarpPc.done) = s.pc := by
      rw [if_neg h0, if_pos heq] at hpc
      rw [← hpc, Function.update_eq_self, Function.update_eq_self]
    have := hpcs .done (by rw [if_pos heq])
    rw [hid] at this
    exact this
  rw [if_neg heq]
  by_cases h1 : l.count (b, wid, wp) = 1
  swap
  · -- the warp has finished
    rw [if_neg h1]
    have hk : l.count (b, wid, 0) + (if wp = 0 then 1 else 0) ≥ 2 → ¬ 2 ≤ l.count (b, wid, 0) → bufs.qmax f = curr f := by
      intro g1 g2
      by_cases hwz : wp = 0
      · rw [hwz] at h0 h1
        omega
      · rw [if_neg hwz] at g1
        omega
    refine ⟨s, rfl, ?_, keepQ hk, keepA hk, keepY (fun g1 g2 => by omega), hs.rest⟩
    have hid : Function.update s.pc (b, wid) (Function.update (s.pc (b, wid)) wp WarpPc.done) = s.pc := by
      rw [if_neg h0, if_neg heq, if_neg h1] at hpc
      rw [← hpc, Function.update_eq_self, Function.update_eq_self]
    have := hpcs .done (by rw [if_neg heq, if_neg (by omega)])
    rw [hid] at this
    exact this
  -- the stores
  rw [if_pos h1]
  dsimp only
  cases hnew : curr f with
  | none => exact absurd ((hcurr f hnew).trans hnew.symm) heq
  | some n =>
    have hfl : f < B * p.nlatOut * p.nlonOut := hf ▸ flatOf_lt hr hn hact
    have hfac : factor (bufs.qmax f) (curr f) = expDiff (bufs.qmax f) n := by rw [hnew]; rfl
    dsimp only
    rw [scale_fold _ _ _ (warpPlaces_nodup hc.grp hc.outC f hwp) (by
      intro a ha
      rw [warpPlaces_eq, mem_places] at ha
      obtain ⟨t, ht, c, hcc, j, hj, rfl⟩ := ha
      obtain ⟨ll, hll, rfl⟩ := List.mem_map.1 ht
      have h1 := List.mem_range.1 hll
      have h2 := hc.grp.2.1
      exact packed_lt hfl (chan_lt hc.grp.1 hc.outC (by omega) hcc hj))]
    dsimp only
    have hY : ∀ g, Active p B g → ∀ e < p.nco * vec,
        (if flatOf r p g * (p.nco * vec) + e ∈ warpPlaces vec cf p f wp then expDiff (bufs.qmax f) n * s.bufs.y (flatOf r p g * (p.nco * vec) + e)
          else s.bufs.y (flatOf r p g * (p.nco * vec) + e)) = if 2 ≤ (l ++ [(b, wid, wp)]).count (g.1, g.2, warpOf vec cf.bx e)
        then factor (bufs.qmax (flatOf r p g)) (curr (flatOf r p g)) * bufs.y (flatOf r p g * (p.nco * vec) + e) else bufs.y (flatOf r p g * (p.nco * vec) + e) := by
      intro g hg e he
      have hy := hs.y g hg e he
      by_cases hgne : g = (b, wid)
      · subst hgne
        rw [← hf] at hy ⊢
        dsimp only at hy ⊢
        rw [hself]
        by_cases hwe : wp = warpOf vec cf.bx e
        · rw [if_pos ((mem_warpPlaces hc.grp hc.outC hwp he).2 ⟨rfl, hwe.symm⟩), hy, ← hwe, if_neg (by omega), if_pos rfl, if_pos (by omega), hfac]
        · rw [if_neg (fun h => hwe ((mem_warpPlaces hc.grp hc.outC hwp he).1 h).2.symm), hy, if_neg hwe, Nat.add_zero]
      · rw [if_neg (fun h => hneq g hg hgne ((mem_warpPlaces hc.grp hc.outC hwp he).1 h).1.symm), hy, hne g hg hgne]
    have hP := hpcs .done (by rw [if_neg heq, if_neg (by omega)])
    by_cases hwz : wp = 0
    · rw [if_pos hwz, if_pos hfl]
      have hl1 : l.count (b, wid, 0) = 1 := hwz ▸ h1
      refine ⟨_, rfl, hP, ?_, ?_, hY, ?_⟩
      · intro g hg
        by_cases hgne : g = (b, wid)
        · subst hgne
          rw [← hf]
          dsimp only
          rw [Function.update_self, hself, if_pos (by rw [if_pos hwz]; omega), hnew]
        · dsimp only
          rw [Function.update_of_ne (hneq g hg hgne), hne g hg hgne]
          exact hs.qmax g hg
      · intro g hg
        by_cases hgne : g = (b, wid)
        · subst hgne
          have ha := hs.alpha (b, wid) hact
          rw [← hf] at ha ⊢
          dsimp only at ha ⊢
          rw [Function.update_self, hself, if_pos (by rw [if_pos hwz]; omega), hfac, ha, if_neg (by omega)]
        · dsimp only
          rw [Function.update_of_ne (hneq g hg hgne), hne g hg hgne]
          exact hs.alpha g hg
      · intro i hi
        obtain ⟨r1, r2, r3⟩ := hs.rest i hi
        have hif : i ≠ f := fun e => hi (b, wid) hact (hf.symm.trans e.symm)
        refine ⟨?_, ?_, fun c hcc => ?_⟩
        · change Function.update s.bufs.alpha f _ i = _
          rw [Function.update_of_ne hif]
          exact r1
        · change Function.update s.bufs.qmax f _ i = _
          rw [Function.update_of_ne hif]
          exact r2
        · change (if i * (p.nco * vec) + c ∈ warpPlaces vec cf p f wp then _ else _) = _
          rw [if_neg (fun h => hif ((mem_warpPlaces hc.grp hc.outC hwp hcc).1 h).1.symm)]
          exact r3 c hcc
    · rw [if_neg hwz]
      have hk : l.count (b, wid, 0) + (if wp = 0 then 1 else 0) ≥ 2 → ¬ 2 ≤ l.count (b, wid, 0) → bufs.qmax f = curr f := by
        intro g1 g2
        rw [if_neg hwz] at g1
        omega
      refine ⟨_, rfl, hP, keepQ hk, keepA hk, hY, ?_⟩
      intro i hi
      obtain ⟨r1, r2, r3⟩ := hs.rest i hi
      have hif : i ≠ f := fun e => hi (b, wid) hact (hf.symm.trans e.symm)
      refine ⟨r1, r2, fun c hcc => ?_⟩
      change (if i * (p.nco * vec) + c ∈ warpPlaces vec cf p f wp then _ else _) = _
      rw [if_neg (fun h => hif ((mem_warpPlaces hc.grp hc.outC hwp hcc).1 h).1.symm)]
      exact r3 c hcc

theorem RescInv.init (r : Run) (vec : ℕ) (cf : Config) (p : Params) (B : ℕ) (bufs : Bufs) (curr : ℕ → Option ℝ) :
    RescInv r vec cf p B bufs curr [] ⟨bufs, fun _ _ => .start⟩ :=
  ⟨fun g _ wp _ => by simp, fun g _ => by simp, fun g _ => by simp, fun g _ e _ => by simp, fun i _ => AccEq.refl _ _⟩

theorem rescale_run {r : Run} {vec : ℕ} {cf : Config} {p : Params} (hc : CfgOk cf p.nci p.nco) (hr : RunOk r cf.bx p.nlatOut) (hn : p.nLong ≤ p.nlatOut) {B : ℕ} {bufs : Bufs}
    {curr : ℕ → Option ℝ} (hcurr : ∀ i, curr i = none → bufs.qmax i = none) (sched : List (ℕ × ℕ × ℕ)) (hv : ∀ x ∈ sched, x.1 < B ∧ x.2.2 < cf.bx / 32)
    (hlf : LoadsFirst cf.bx p B sched) :
    ∃ s, sched.foldlM (rescaleStep vec cf p (B * p.nlatOut * p.nlonOut * (p.nco * vec)) (B * p.nlatOut * p.nlonOut) r.rowIdx curr) ⟨bufs, fun _ _ => .start⟩ = .ok s ∧
      RescInv r vec cf p B bufs curr sched s := by
  induction sched using List.reverseRecOn with
  | nil => exact ⟨_, rfl, RescInv.init ..⟩
  | append_singleton l x ih =>
    obtain ⟨s, h1, h2⟩ := ih (fun y hy => hv y (List.mem_append_left _ hy)) fun l' hl' => hlf l' (hl'.trans (List.prefix_append _ _))
    obtain ⟨s', h3, h4⟩ := rescaleStep_inv hc hr hn hcurr h2 (hv x (List.mem_append_right _ List.mem_cons_self)) fun g hg => hlf l (List.prefix_append _ _) g hg
    refine ⟨s', ?_, h4⟩
    rw [List.foldlM_append, h1]
    change List.foldlM (m := Except PyErr) (rescaleStep vec cf p (B * p.nlatOut * p.nlonOut * (p.nco * vec)) (B * p.nlatOut * p.nlonOut) r.rowIdx curr) s [x] = _
    rw [List.foldlM_cons, h3]
    rfl

theorem loadsFirst_one_warp (p : Params) (B : ℕ) (sched : List (ℕ × ℕ × ℕ)) : LoadsFirst 32 p B sched := by
  intro l _ g _ h wp hw
  obtain rfl : wp = 0 := by omega
  omega

open Classical in
/-- The kernel `rescale` as a whole. -/
theorem runRescale_ok {r : Run} {vec : ℕ} {cf : Config} {p : Params} (hc : CfgOk cf p.nci p.nco) (hr : RunOk r cf.bx p.nlatOut) (hn : p.nLong ≤ p.nlatOut) {B : ℕ} {bufs : Bufs}
    {curr : ℕ → Option ℝ} (hcurr : ∀ i, curr i = none → bufs.qmax i = none) (hcom : Complete cf.bx p B (divUp (p.nLong * p.nlonOut) cf.by') cf.by' r.sched)
    (hlf : LoadsFirst cf.bx p B r.sched) (hf : fits r.limit (divUp (p.nLong * p.nlonOut) cf.by') B 1 0 0) :
    ∃ bufs', runRescale r vec cf p B curr bufs = .ok bufs' ∧ ∀ i, AccEq (p.nco * vec) (accAt (p.nco * vec) bufs' i)
      (if InRows r p B 0 p.nLong i then ⟨fun c => factor (bufs.qmax i) (curr i) * bufs.y (i * (p.nco * vec) + c), factor (bufs.qmax i) (curr i) * bufs.alpha i, curr i⟩
        else accAt (p.nco * vec) bufs i) := by
  unfold runRescale
  dsimp only
  rw [if_pos hf]
  obtain ⟨s, h1, h2⟩ := rescale_run (vec := vec) hc hr hn hcurr r.sched (fun x hx => ⟨(hcom.valid x hx).1, (hcom.valid x hx).2.2⟩) hlf
  rw [h1]
  have hz : 0 < cf.bx / 32 := by have := hc.grp.1; have := hc.grp.2.1; omega
  refine ⟨s.bufs, rfl, fun i => ?_⟩
  by_cases hi : InRows r p B 0 p.nLong i
  · rw [if_pos hi]
    obtain ⟨b, hb, h, -, hh, wo, hwo, rfl⟩ := hi
    have hwid : h * p.nlonOut + wo < p.nLong * p.nlonOut := packed_lt hh hwo
    obtain ⟨q1, q2⟩ := div_mul_add (a := h) hwo
    have hact : Active p B (b, h * p.nlonOut + wo) := ⟨hb, hwid⟩
    have hfl : flatOf r p (b, h * p.nlonOut + wo) = outFlat p b (r.rowIdx h) wo := by
      unfold flatOf
      dsimp only
      rw [q1, q2]
    have e1 := h2.qmax _ hact
    have e2 := h2.alpha _ hact
    have e3 := h2.y _ hact
    rw [if_pos (hcom.twice _ hact 0 hz)] at e1 e2
    rw [hfl] at e1 e2
    refine ⟨e2, e1, fun c hcc => ?_⟩
    have := e3 c hcc
    rw [if_pos (hcom.twice _ hact _ (warpOf_lt hc.grp c)), hfl] at this
    exact this
  · rw [if_neg hi]
    refine h2.rest i fun g hg he => hi ?_
    obtain ⟨c1, c2⟩ := active_cell hg
    exact ⟨g.1, hg.1, g.2 / p.nlonOut, Nat.zero_le _, c1, _, c2, he.symm⟩

end Verif.RingGpu
