import Verif.Lemmas.RingCudaBwd2Step
/-!
The second backward pass of one step of the ring: launches that are refused, and neighbours outside of the block.
-/
namespace Verif.RingGpu
open Verif Verif.Attn Verif.Spec.Attn Verif.AttnGpu Verif.Ring Finset Verif.Spec.RingStep

theorem aRunSpecial_refused {r : ARun} {n vec : ℕ} {cf : Config} {p : Params} {B : ℕ} {x : BIn} {st : BStats} {shift rows cpr cap top : ℕ} (h0 : 0 < rows)
    (h : ¬ fitsTop r.limit (divUp (rows * p.nlonOut) cf.by') cpr B (addShared r.wide vec p cf.by' cap) top (bStaticShared cf.bx)) (g : BGrads) :
    aRunSpecial r n vec cf p B x st shift rows cpr cap top g = .error .processExit := by
  unfold aRunSpecial
  rw [if_neg (by omega)]
  dsimp only
  rw [if_neg h]

/-- A launch that is not accepted ends the process. -/
theorem ringBwdStep2_refused {r : ARun} {p : Params} {B : ℕ} {x : BIn} (h0 : 0 < p.nci) (hr : ARunOk r (bGroupSize p.nci) p.nlatOut) (hrows : ARowsOk r p x.P)
    (hh : p.nci ≤ 8192 → HaloOk p x.P) (hacc : ¬ AAccepted r p B) (st : BStats) (g : BGrads) : ringBwdStep2 r p B x st g = .error .processExit := by
  obtain ⟨v0, v1, v2⟩ := vecOf_mul r.vecOk p.nci p.nco
  have hv := vecOf_or r.vecOk p.nci p.nco
  unfold bGroupSize at hr
  by_cases h1 : p.nci ≤ 8192
  · rw [ringBwdStep2_special r h0 h1]
    rw [if_pos h1] at hr
    have hc := bSpecCfg_ok r.vecOk (nco := p.nco) h0 h1
    have hbx : (bSpecCfg r.vecOk p.nci p.nco).bx = bdimxOf p.nci := rfl
    have hby : (bSpecCfg r.vecOk p.nci p.nco).by' = if p.nci ≤ 512 then 2 else 1 := rfl
    generalize bSpecCfg r.vecOk p.nci p.nco = cf at hc hbx hby ⊢
    generalize vecOf r.vecOk p.nci p.nco = vec at v0 v1 v2 hv hc ⊢
    by_cases hl : 0 < p.nLong → fitsTop r.limit (divUp (p.nLong * p.nlonOut) cf.by') (addCtaPerRow p.maxLen) B
        (addBytes r.wide p.nci p.nco cf.by' (divUp p.maxLen (addCtaPerRow p.maxLen))) (askedBytes r.wide p) (bStaticShared cf.bx)
    · obtain ⟨g1, e1, -⟩ := aRunSpecial_ok (r := r) (n := 1) (p := scaled vec p) hc hv (by rw [hbx]; exact hr) (B := B) x st (shift := 0)
        (rows := p.nLong) (cpr := addCtaPerRow p.maxLen) (cap := divUp p.maxLen (addCtaPerRow p.maxLen)) (top := askedBytes r.wide p) (addCtaPerRow_pos _) g
        (by have := hrows.le; rw [Nat.zero_add]; exact this)
        (fun h hh s => by rw [Nat.zero_add]; exact split_le (addCtaPerRow_pos _) (hrows.long h hh) s) (halo_near (hh h1))
        (fun h => by rw [addShared_eq v1 v2]; exact hl h)
      rw [e1]
      change aRunSpecial r 0 vec cf (scaled vec p) B x st p.nLong (p.nlatOut - p.nLong) 1 p.midLen (askedBytes r.wide p) g1 = _
      have hns : ¬ (p.nLong < p.nlatOut → fitsTop r.limit (divUp ((p.nlatOut - p.nLong) * p.nlonOut) cf.by') 1 B (addBytes r.wide p.nci p.nco cf.by' p.midLen) (askedBytes r.wide p)
          (bStaticShared cf.bx)) := by
        intro H
        rw [hbx, hby] at hl H
        exact hacc ⟨fun h => absurd h1 (by omega), fun _ => hl, fun _ => H⟩
      rw [Classical.not_imp] at hns
      exact aRunSpecial_refused (by omega) (by rw [addShared_eq v1 v2]; exact hns.2) g1
    · rw [Classical.not_imp] at hl
      have := aRunSpecial_refused (r := r) (n := 1) (vec := vec) (cf := cf) (p := scaled vec p) (B := B) (x := x) (st := st) (shift := 0) (cap := divUp p.maxLen (addCtaPerRow p.maxLen)) hl.1
        (by rw [addShared_eq v1 v2]; exact hl.2) g
      rw [this]
      rfl
  · rw [ringBwdStep2_generic r (by omega)]
    generalize vecOf r.vecOk p.nci p.nco = vec at v0 v1 v2 hv ⊢
    unfold aRunGeneric
    dsimp only
    rw [if_neg]
    intro H
    refine hacc ⟨fun _ => ?_, fun h => absurd h h1, fun h => absurd h h1⟩
    rw [← agen_bytes v1 v2]
    exact H

/-! ### Neighbours outside of the block -/

/-- A result or a fault. -/
def Fine {α : Type} (e : Except PyErr α) : Prop := (∃ v, e = .ok v) ∨ e = .error .memoryFault

theorem overM_fine {α β : Type} {f : α → Except PyErr (List β)} (L : List α) (h : ∀ a ∈ L, Fine (f a)) : Fine (overM f L) := by
  induction L with
  | nil => exact Or.inl ⟨_, rfl⟩
  | cons a L ih =>
    have := ih fun a ha => h a (List.mem_cons_of_mem _ ha)
    unfold overM
    rcases h a List.mem_cons_self with ⟨v, e⟩ | e <;> rw [e]
    · rcases this with ⟨w, e'⟩ | e' <;> rw [e']
      · exact Or.inl ⟨_, rfl⟩
      · exact Or.inr rfl
    · exact Or.inr rfl

theorem overM_fault {α β : Type} {f : α → Except PyErr (List β)} (L : List α) (h : ∀ a ∈ L, Fine (f a)) {a : α} (ha : a ∈ L) (hf : f a = .error .memoryFault) :
    overM f L = .error .memoryFault := by
  induction L with
  | nil => exact absurd ha List.not_mem_nil
  | cons a' L ih =>
    have hfine := overM_fine L fun a ha => h a (List.mem_cons_of_mem _ ha)
    unfold overM
    rcases List.mem_cons.1 ha with rfl | ha
    · rw [hf]
    · rw [ih (fun a ha => h a (List.mem_cons_of_mem _ ha)) ha]
      rcases h a' List.mem_cons_self with ⟨v, e⟩ | e <;> rw [e]

theorem place_fine (p : Params) (B b : ℕ) (s : Slot) : Fine (place p B b s) := by
  unfold place
  dsimp only
  split_ifs
  · exact Or.inl ⟨_, rfl⟩
  · exact Or.inr rfl

theorem foldAdd_fine (size : ℕ) (L : List (ℕ × ℝ)) (m : ℕ → ℝ) : Fine (L.foldlM (Disco.atomicAddTo size) m) := by
  induction L generalizing m with
  | nil => exact Or.inl ⟨_, rfl⟩
  | cons a L ih =>
    rw [List.foldlM_cons]
    unfold Disco.atomicAddTo
    split_ifs
    · exact ih _
    · exact Or.inr rfl

theorem addAll_fine (r : ARun) (n vec : ℕ) (p : Params) (B : ℕ) (gs : List AddOut) (g : BGrads) : Fine (addAll r n vec p B gs g) := by
  unfold addAll
  rcases foldAdd_fine (B * p.nlatHalo * p.nlonKx * (p.nci * vec)) (r.addK n (gs.flatMap AddOut.k)) g.dk with ⟨v, e⟩ | e <;> rw [e]
  · change Fine (do
      let dv ← (r.addV n (gs.flatMap AddOut.v)).foldlM (Disco.atomicAddTo (B * p.nlatHalo * p.nlonKx * (p.nco * vec))) g.dv
      return (⟨v, dv⟩ : BGrads))
    rcases foldAdd_fine (B * p.nlatHalo * p.nlonKx * (p.nco * vec)) (r.addV n (gs.flatMap AddOut.v)) g.dv with ⟨v', e'⟩ | e' <;> rw [e']
    · exact Or.inl ⟨_, rfl⟩
    · exact Or.inr rfl
  · exact Or.inr rfl

/-- An entry of the pattern that makes the kernel leave the arrays in the batch element `b`. -/
def Stray (p : Params) (B b : ℕ) (P : Pattern) (wo z : ℕ) : Prop :=
  (p.lonLo ≤ (P.col z % p.nlonIn + p.pscale * wo) % p.nlonIn ∧ (P.col z % p.nlonIn + p.pscale * wo) % p.nlonIn < p.lonLo + p.nlonKx) ∧
    ((b + 1 = B ∧ p.start + p.nlatHalo < (P.col z / p.nlonIn : ℕ)) ∨ (b = 0 ∧ ((P.col z / p.nlonIn : ℕ) : ℤ) + 1 < p.start))

theorem stray_fault {p : Params} {B b : ℕ} {P : Pattern} {wo z : ℕ} (h : Stray p B b P wo z) (w : ℕ → ℝ) : ∃ s, slot p w P wo z = some s ∧ place p B b s = .error .memoryFault := by
  rw [slot_eq]
  unfold Stray at h
  generalize P.col z / p.nlonIn = hi at *
  generalize (P.col z % p.nlonIn + p.pscale * wo) % p.nlonIn = wi at *
  obtain ⟨h1, h2⟩ := h
  have hW : 0 < (p.nlonKx : ℤ) := by omega
  rw [if_pos h1]
  rcases h2 with ⟨rfl, h2⟩ | ⟨rfl, h2⟩
  · rw [if_neg (by omega), if_neg (by omega)]
    refine ⟨_, rfl, ?_⟩
    unfold place
    dsimp only
    rw [if_neg]
    rintro ⟨-, h3⟩
    push_cast at h3
    have h4 : ((p.nlatHalo : ℤ) + 1) * p.nlonKx ≤ ((hi : ℤ) - p.start) * p.nlonKx := mul_le_mul_of_nonneg_right (by omega) (by omega)
    nlinarith
  · rw [if_neg (by omega), if_neg (by omega)]
    refine ⟨_, rfl, ?_⟩
    unfold place
    dsimp only
    rw [if_neg]
    rintro ⟨h3, -⟩
    have h4 : ((hi : ℤ) - p.start) * p.nlonKx ≤ 0 := mul_nonpos_of_nonpos_of_nonneg (by omega) (by omega)
    push_cast at h3
    rw [zero_mul, zero_mul, zero_add] at h3
    omega

theorem aSpecialGroup_fine {vec : ℕ} {cf : Config} {p : Params} {B : ℕ} (hc : CfgOk cf p.nci p.nco) (wide : Bool) (x : BIn) (st : BStats) (rowIdx : ℕ → ℕ)
    {shift rows cpr cap : ℕ} (m : AddMem) (ho : ∀ i, (m.order i).Perm (List.range cf.bx)) {b split wid : ℕ} (hw : wid < rows * p.nlonOut)
    (hcap : (x.P.roff (rowIdx (shift + wid / p.nlonOut) + 1) - x.P.roff (rowIdx (shift + wid / p.nlonOut))) / cpr +
      (if split < (x.P.roff (rowIdx (shift + wid / p.nlonOut) + 1) - x.P.roff (rowIdx (shift + wid / p.nlonOut))) % cpr then 1 else 0) ≤ cap) :
    Fine (aSpecialGroup wide vec cf p B x st rowIdx shift rows cpr cap m b split wid) ∧
      ((∃ z ∈ part x.P (rowIdx (shift + wid / p.nlonOut)) cpr split, Stray p B b x.P (wid % p.nlonOut) z) →
        aSpecialGroup wide vec cf p B x st rowIdx shift rows cpr cap m b split wid = .error .memoryFault) := by
  unfold aSpecialGroup
  rw [pointOf_some hw]
  dsimp only
  obtain ⟨es, c1, c2⟩ := collectAll_ok hc.grp (fun i => slot p x.w x.P (wid % p.nlonOut) (x.P.roff (rowIdx (shift + wid / p.nlonOut)) + split + i * cpr)) ho m.slots hcap
  rw [c1]
  dsimp only
  rw [c2]
  have hfm : (List.range ((x.P.roff (rowIdx (shift + wid / p.nlonOut) + 1) - x.P.roff (rowIdx (shift + wid / p.nlonOut))) / cpr +
      (if split < (x.P.roff (rowIdx (shift + wid / p.nlonOut) + 1) - x.P.roff (rowIdx (shift + wid / p.nlonOut))) % cpr then 1 else 0))).filterMap
        (fun i => slot p x.w x.P (wid % p.nlonOut) (x.P.roff (rowIdx (shift + wid / p.nlonOut)) + split + i * cpr))
      = (part x.P (rowIdx (shift + wid / p.nlonOut)) cpr split).filterMap (slot p x.w x.P (wid % p.nlonOut)) := by
    rw [part_eq, List.filterMap_map]
    rfl
  rw [hfm]
  constructor
  · rcases overM_fine ((part x.P (rowIdx (shift + wid / p.nlonOut)) cpr split).filterMap (slot p x.w x.P (wid % p.nlonOut))) fun s _ => place_fine p B b s with ⟨v, e⟩ | e <;> rw [e]
    · exact Or.inl ⟨_, rfl⟩
    · exact Or.inr rfl
  · rintro ⟨z, hz, hs⟩
    obtain ⟨s, s1, s2⟩ := stray_fault hs x.w
    rw [overM_fault _ (fun s _ => place_fine p B b s) (List.mem_filterMap.2 ⟨z, hz, s1⟩) s2]

/-- A launch, if the lists of neighbours have room. -/
theorem aRunSpecial_fine {r : ARun} {n vec : ℕ} {cf : Config} {p : Params} (hc : CfgOk cf p.nci p.nco) (hr : ARunOk r cf.bx p.nlatOut) {B : ℕ} (x : BIn) (st : BStats)
    {shift rows cpr cap top : ℕ} (hcpr : 0 < cpr) (g : BGrads)
    (hlen : ∀ h < rows, ∀ s, (x.P.roff (r.rowIdx (shift + h) + 1) - x.P.roff (r.rowIdx (shift + h))) / cpr +
      (if s < (x.P.roff (r.rowIdx (shift + h) + 1) - x.P.roff (r.rowIdx (shift + h))) % cpr then 1 else 0) ≤ cap)
    (hacc : 0 < rows → fitsTop r.limit (divUp (rows * p.nlonOut) cf.by') cpr B (addShared r.wide vec p cf.by' cap) top (bStaticShared cf.bx)) :
    Fine (aRunSpecial r n vec cf p B x st shift rows cpr cap top g) ∧
      ((∃ b < B, ∃ h < rows, ∃ wo < p.nlonOut, ∃ z ∈ x.P.row (r.rowIdx (shift + h)), Stray p B b x.P wo z) →
        aRunSpecial r n vec cf p B x st shift rows cpr cap top g = .error .memoryFault) := by
  unfold aRunSpecial
  by_cases h0 : rows = 0
  · rw [if_pos h0]
    refine ⟨Or.inl ⟨_, rfl⟩, ?_⟩
    rintro ⟨_, _, h, hh, -⟩
    omega
  rw [if_neg h0]
  dsimp only
  rw [if_pos (hacc (by omega))]
  have hg : rows * p.nlonOut ≤ divUp (rows * p.nlonOut) cf.by' * cf.by' := le_divUp_mul hc.rows
  generalize divUp (rows * p.nlonOut) cf.by' = gx at hg
  have hgroup : ∀ a : ℕ × ℕ × ℕ, a.2.2 < rows * p.nlonOut → _ := fun a ha => aSpecialGroup_fine (vec := vec) (B := B) (rows := rows) (cap := cap) (split := a.2.1) hc r.wide x st r.rowIdx
    (r.mem n a.1 a.2.1 a.2.2) (b := a.1) (hr.order n a.1 a.2.1 a.2.2) ha (hlen _ (Nat.div_lt_of_lt_mul (by rw [Nat.mul_comm]; exact ha)) a.2.1)
  have hfine : ∀ a ∈ grid3 B cpr gx cf.by', Fine (aSpecialGroup r.wide vec cf p B x st r.rowIdx shift rows cpr cap (r.mem n a.1 a.2.1 a.2.2) a.1 a.2.1 a.2.2) := by
    intro a _
    by_cases hw : a.2.2 < rows * p.nlonOut
    · exact (hgroup a hw).1
    · exact Or.inl ⟨[], aSpecialGroup_none r.wide x st r.rowIdx _ hw⟩
  constructor
  · rcases overM_fine _ hfine with ⟨v, e⟩ | e <;> rw [e]
    · exact addAll_fine _ _ _ _ _ _ _
    · exact Or.inr rfl
  · rintro ⟨b, hb, h, hh, wo, hwo, z, hz, hs⟩
    rw [row_eq] at hz
    obtain ⟨i, hi, rfl⟩ := List.mem_map.1 hz
    obtain ⟨s, hsr, his⟩ := List.mem_flatMap.1 ((splitIdx_perm hcpr _).mem_iff.2 hi)
    have hlt := packed_lt hh hwo
    obtain ⟨d1, d2⟩ := div_mul_add (a := h) hwo
    have hf := (hgroup (b, s, h * p.nlonOut + wo) hlt).2
    dsimp only at hf
    rw [d1, d2] at hf
    have := hf ⟨_, List.mem_map.2 ⟨i, his, rfl⟩, hs⟩
    rw [overM_fault _ hfine (mem_grid3.2 (show (b, s, h * p.nlonOut + wo).1 < B ∧ _ from ⟨hb, List.mem_range.1 hsr, lt_of_lt_of_le hlt hg⟩)) this]
    rfl

/-- A neighbour with a longitude in the block and a row well outside of it makes the kernel leave the arrays. -/
theorem ringBwdStep2_stray {r : ARun} {p : Params} {B : ℕ} {x : BIn} (h0 : 0 < p.nci) (h1 : p.nci ≤ 8192) (hr : ARunOk r (bGroupSize p.nci) p.nlatOut) (hrows : ARowsOk r p x.P)
    (hacc : AAccepted r p B) (st : BStats) (g : BGrads) (hs : ∃ b < B, ∃ ho < p.nlatOut, ∃ wo < p.nlonOut, ∃ z ∈ x.P.row ho, Stray p B b x.P wo z) :
    ringBwdStep2 r p B x st g = .error .memoryFault := by
  obtain ⟨v0, v1, v2⟩ := vecOf_mul r.vecOk p.nci p.nco
  unfold bGroupSize at hr
  rw [ringBwdStep2_special r h0 h1]
  rw [if_pos h1] at hr
  have hc := bSpecCfg_ok r.vecOk (nco := p.nco) h0 h1
  have hbx : (bSpecCfg r.vecOk p.nci p.nco).bx = bdimxOf p.nci := rfl
  have hby : (bSpecCfg r.vecOk p.nci p.nco).by' = if p.nci ≤ 512 then 2 else 1 := rfl
  generalize bSpecCfg r.vecOk p.nci p.nco = cf at hc hbx hby ⊢
  generalize vecOf r.vecOk p.nci p.nco = vec at v0 v1 v2 hc ⊢
  have hL := aRunSpecial_fine (r := r) (n := 1) (vec := vec) (p := scaled vec p) hc (by rw [hbx]; exact hr) (B := B) x st (shift := 0)
    (rows := p.nLong) (cpr := addCtaPerRow p.maxLen) (cap := divUp p.maxLen (addCtaPerRow p.maxLen)) (top := askedBytes r.wide p) (addCtaPerRow_pos _) g
    (fun h hh s => by rw [Nat.zero_add]; exact split_le (addCtaPerRow_pos _) (hrows.long h hh) s)
    (fun h => by rw [addShared_eq v1 v2, hbx, hby]; exact hacc.long h1 h)
  have hS := fun g1 => aRunSpecial_fine (r := r) (n := 0) (vec := vec) (p := scaled vec p) hc (by rw [hbx]; exact hr) (B := B) x st (shift := p.nLong)
    (rows := p.nlatOut - p.nLong) (cpr := 1) (cap := p.midLen) (top := askedBytes r.wide p) one_pos g1
    (fun h hh s => by
      have := split_le one_pos (hrows.short (p.nLong + h) (by omega) (by omega)) s
      rwa [divUp_one] at this)
    (fun h => by rw [addShared_eq v1 v2, hbx, hby]; exact hacc.short h1 (by omega))
  obtain ⟨b, hb, ho, hho, wo, hwo, z, hz, hs⟩ := hs
  obtain ⟨h, hh, rfl⟩ := List.mem_map.1 (hr.rows.mem_iff.2 (List.mem_range.2 hho))
  have hle := hrows.le
  have hh' := List.mem_range.1 hh
  by_cases hl : h < p.nLong
  · rw [hL.2 ⟨b, hb, h, hl, wo, hwo, z, by rw [Nat.zero_add]; exact hz, hs⟩]
    rfl
  · rcases hL.1 with ⟨g1, e⟩ | e <;> rw [e]
    · exact (hS g1).2 ⟨b, hb, h - p.nLong, by omega, wo, hwo, z, by rw [show p.nLong + (h - p.nLong) = h by omega]; exact hz, hs⟩
    · rfl

end Verif.RingGpu
