import Verif.Lemmas.RingCudaBwd2Launch
/-!
The second backward pass of one step of the ring: what all launches mean for the gradients.
-/
namespace Verif.RingGpu
open Verif Verif.Attn Verif.Spec.Attn Verif.AttnGpu Verif.Ring Finset Verif.Spec.RingStep

theorem sum_rowIdx {r : ARun} {bx n : ℕ} (hr : ARunOk r bx n) (F : ℕ → ℝ) : ∑ h ∈ range n, F (r.rowIdx h) = ∑ ho ∈ range n, F ho := by
  rw [← list_sum_range, ← list_sum_range, ← (hr.rows.map F).sum_eq, List.map_map]
  rfl

/-- The sums of a call over all rows. -/
def AddsAll (vec : ℕ) (p : Params) (B : ℕ) (x : BIn) (st : BStats) (g g' : BGrads) : Prop :=
  ∀ y, g'.dk y = g.dk y + ∑ b ∈ range B, ∑ ho ∈ range p.nlatOut, ∑ wo ∈ range p.nlonOut, ((ents p x b ho wo).map (kAt vec p x st y b ho wo)).sum ∧
    g'.dv y = g.dv y + ∑ b ∈ range B, ∑ ho ∈ range p.nlatOut, ∑ wo ∈ range p.nlonOut, ((ents p x b ho wo).map (vAt vec p x st y b ho wo)).sum

theorem Adds.all {vec : ℕ} {p : Params} {B : ℕ} {x : BIn} {st : BStats} {r : ARun} {bx : ℕ} (hr : ARunOk r bx p.nlatOut) {g g' : BGrads}
    (h : Adds vec p B x st r.rowIdx 0 p.nlatOut g g') : AddsAll vec p B x st g g' := by
  intro y
  obtain ⟨h1, h2⟩ := h y
  simp only [Nat.zero_add] at h1 h2
  rw [h1, h2]
  constructor
  all_goals
    congr 1
    refine sum_congr rfl fun b _ => ?_
  · exact sum_rowIdx hr fun ho => ∑ wo ∈ range p.nlonOut, ((ents p x b ho wo).map (kAt vec p x st y b ho wo)).sum
  · exact sum_rowIdx hr fun ho => ∑ wo ∈ range p.nlonOut, ((ents p x b ho wo).map (vAt vec p x st y b ho wo)).sum

theorem Adds.comp {vec : ℕ} {p : Params} {B : ℕ} {x : BIn} {st : BStats} {rowIdx : ℕ → ℕ} {n m : ℕ} (hn : n ≤ m) {g g1 g2 : BGrads} (h1 : Adds vec p B x st rowIdx 0 n g g1)
    (h2 : Adds vec p B x st rowIdx n (m - n) g1 g2) : Adds vec p B x st rowIdx 0 m g g2 := by
  intro y
  obtain ⟨a1, a2⟩ := h1 y
  obtain ⟨b1, b2⟩ := h2 y
  rw [b1, b2, a1, a2, add_assoc, add_assoc]
  have key : ∀ F : ℕ → ℕ → ℝ, ∑ b ∈ range B, ∑ h ∈ range n, F b (0 + h) + ∑ b ∈ range B, ∑ h ∈ range (m - n), F b (n + h) = ∑ b ∈ range B, ∑ h ∈ range m, F b (0 + h) := by
    intro F
    rw [← sum_add_distrib]
    refine sum_congr rfl fun b _ => ?_
    have : m = n + (m - n) := by omega
    conv_rhs => rw [this, sum_range_add]
    simp only [Nat.zero_add]
  exact ⟨by rw [← key fun b h => ∑ wo ∈ range p.nlonOut, ((ents p x b (rowIdx h) wo).map (kAt vec p x st y b (rowIdx h) wo)).sum],
    by rw [← key fun b h => ∑ wo ∈ range p.nlonOut, ((ents p x b (rowIdx h) wo).map (vAt vec p x st y b (rowIdx h) wo)).sum]⟩

theorem addCtaPerRow_pos (n : ℕ) : 0 < addCtaPerRow n := by unfold addCtaPerRow; omega

theorem halo_near {p : Params} {P : Pattern} (h : HaloOk p P) : ∀ ho < p.nlatOut, ∀ wo < p.nlonOut, ∀ z ∈ P.row ho,
    RowNear p (P.col z / p.nlonIn, (P.col z % p.nlonIn + p.pscale * wo) % p.nlonIn) :=
  fun ho hho wo hwo z hz => h ho hho wo hwo _ (List.mem_map.2 ⟨z, hz, rfl⟩)

theorem addShared_eq {vec : ℕ} {p : Params} (h1 : p.nci / vec * vec = p.nci) (h2 : p.nco / vec * vec = p.nco) (wide : Bool) (by' n : ℕ) :
    addShared wide vec (scaled vec p) by' n = addBytes wide p.nci p.nco by' n := by
  unfold addShared addBytes
  change (4 * vec * (p.nco / vec) + 4 * n * 2 + 4 * n) * by' + (if wide then 0 else 4 * vec * (p.nci / vec) * by') = _
  rw [show 4 * vec * (p.nco / vec) = 4 * (p.nco / vec * vec) by ring, show 4 * vec * (p.nci / vec) = 4 * (p.nci / vec * vec) by ring, h1, h2]
  split_ifs <;> ring

theorem agen_bytes {vec nci nco : ℕ} (h1 : nci / vec * vec = nci) (h2 : nco / vec * vec = nco) : 4 * vec * (nci / vec + nco / vec) * 2 = 4 * (nci + nco) * 2 := by
  calc _ = 4 * (nci / vec * vec + nco / vec * vec) * 2 := by ring
    _ = _ := by rw [h1, h2]

theorem divUp_one (n : ℕ) : divUp n 1 = n := by unfold divUp; simp

theorem ringBwdStep2_special (r : ARun) {p : Params} (h0 : 0 < p.nci) (h1 : p.nci ≤ 8192) (B : ℕ) (x : BIn) (st : BStats) (g : BGrads) :
    ringBwdStep2 r p B x st g = (do
      let g ← aRunSpecial r 1 (vecOf r.vecOk p.nci p.nco) (bSpecCfg r.vecOk p.nci p.nco) (scaled (vecOf r.vecOk p.nci p.nco) p) B x st 0 p.nLong (addCtaPerRow p.maxLen)
        (divUp p.maxLen (addCtaPerRow p.maxLen)) (askedBytes r.wide p) g
      aRunSpecial r 0 (vecOf r.vecOk p.nci p.nco) (bSpecCfg r.vecOk p.nci p.nco) (scaled (vecOf r.vecOk p.nci p.nco) p) B x st p.nLong (p.nlatOut - p.nLong) 1 p.midLen
        (askedBytes r.wide p) g) := by
  obtain ⟨v0, v1, v2⟩ := vecOf_mul r.vecOk p.nci p.nco
  have hl := bwdLaunch_eq r.vecOk p.nci p.nco
  dsimp only at hl
  rw [if_neg (by omega), if_pos h1] at hl
  have htop : askedBytes r.wide p = max (addShared r.wide (vecOf r.vecOk p.nci p.nco) (scaled (vecOf r.vecOk p.nci p.nco) p) (if p.nci ≤ 512 then 2 else 1)
      (divUp p.maxLen (addCtaPerRow p.maxLen))) (addShared r.wide (vecOf r.vecOk p.nci p.nco) (scaled (vecOf r.vecOk p.nci p.nco) p) (if p.nci ≤ 512 then 2 else 1) (divUp p.midLen 1)) := by
    rw [addShared_eq v1 v2, addShared_eq v1 v2, divUp_one]
    rfl
  rw [htop]
  conv_rhs => rw [← divUp_one p.midLen]
  unfold ringBwdStep2
  dsimp only
  rw [hl]
  rw [divUp_one]
  rfl

theorem ringBwdStep2_generic (r : ARun) {p : Params} (h1 : 8192 < p.nci) (B : ℕ) (x : BIn) (st : BStats) (g : BGrads) :
    ringBwdStep2 r p B x st g = aRunGeneric r (vecOf r.vecOk p.nci p.nco) (scaled (vecOf r.vecOk p.nci p.nco) p) B x st g := by
  have hl := bwdLaunch_eq r.vecOk p.nci p.nco
  dsimp only at hl
  rw [if_neg (by omega), if_neg (by omega)] at hl
  unfold ringBwdStep2
  dsimp only
  rw [hl]
  rfl

theorem ringBwdStep2_nothing (r : ARun) {p : Params} (h1 : p.nci = 0) (B : ℕ) (x : BIn) (st : BStats) (g : BGrads) : ringBwdStep2 r p B x st g = .ok g := by
  have hl := bwdLaunch_eq r.vecOk p.nci p.nco
  dsimp only at hl
  rw [if_pos h1] at hl
  unfold ringBwdStep2
  dsimp only
  rw [hl]

theorem vecOf_or (vecOk : Bool) (nci nco : ℕ) : vecOf vecOk nci nco = 1 ∨ vecOf vecOk nci nco = 4 := by
  rcases vecOf_cases vecOk nci nco with h | ⟨h, -, -⟩ <;> simp [h]

theorem aRunBoth_ok {r : ARun} {p : Params} {B : ℕ} {x : BIn} {vec : ℕ} {cf : Config} (hv : vec = 1 ∨ vec = 4) (v1 : p.nci / vec * vec = p.nci) (v2 : p.nco / vec * vec = p.nco)
    (hc : CfgOk cf (p.nci / vec) (p.nco / vec)) (hr : ARunOk r cf.bx p.nlatOut) (hrows : ARowsOk r p x.P) (hh : HaloOk p x.P) {top : ℕ}
    (hl : 0 < p.nLong → fitsTop r.limit (divUp (p.nLong * p.nlonOut) cf.by') (addCtaPerRow p.maxLen) B
      (addBytes r.wide p.nci p.nco cf.by' (divUp p.maxLen (addCtaPerRow p.maxLen))) top (bStaticShared cf.bx))
    (hs : p.nLong < p.nlatOut → fitsTop r.limit (divUp ((p.nlatOut - p.nLong) * p.nlonOut) cf.by') 1 B (addBytes r.wide p.nci p.nco cf.by' p.midLen) top (bStaticShared cf.bx))
    (st : BStats) (g : BGrads) :
    ∃ g1 g2, aRunSpecial r 1 vec cf (scaled vec p) B x st 0 p.nLong (addCtaPerRow p.maxLen) (divUp p.maxLen (addCtaPerRow p.maxLen)) top g = .ok g1 ∧
      aRunSpecial r 0 vec cf (scaled vec p) B x st p.nLong (p.nlatOut - p.nLong) 1 p.midLen top g1 = .ok g2 ∧ AddsAll vec (scaled vec p) B x st g g2 := by
  have hnear := halo_near hh
  obtain ⟨g1, e1, e2⟩ := aRunSpecial_ok (r := r) (n := 1) (p := scaled vec p) hc hv hr (B := B) x st (shift := 0)
    (rows := p.nLong) (cpr := addCtaPerRow p.maxLen) (cap := divUp p.maxLen (addCtaPerRow p.maxLen)) (top := top) (addCtaPerRow_pos _) g
    (by have := hrows.le; rw [Nat.zero_add]; exact this)
    (fun h hh s => by rw [Nat.zero_add]; exact split_le (addCtaPerRow_pos _) (hrows.long h hh) s) hnear
    (fun h => by rw [addShared_eq v1 v2]; exact hl h)
  obtain ⟨g2, f1, f2⟩ := aRunSpecial_ok (r := r) (n := 0) (p := scaled vec p) hc hv hr (B := B) x st (shift := p.nLong)
    (rows := p.nlatOut - p.nLong) (cpr := 1) (cap := p.midLen) (top := top) one_pos g1
    (by have := hrows.le; change p.nLong + (p.nlatOut - p.nLong) ≤ p.nlatOut; omega)
    (fun h hh s => by
      have := split_le one_pos (hrows.short (p.nLong + h) (by omega) (by omega)) s
      rwa [divUp_one] at this) hnear
    (fun h => by rw [addShared_eq v1 v2]; exact hs (by omega))
  have e3 : Adds vec (scaled vec p) B x st r.rowIdx 0 p.nlatOut g g2 := Adds.comp hrows.le e2 f2
  exact ⟨g1, g2, e1, f1, Adds.all (p := scaled vec p) hr e3⟩

theorem ringBwdStep2_adds {r : ARun} {p : Params} {B : ℕ} {x : BIn} (h0 : 0 < p.nci) (hg : AGoodRun r p B x.P) (st : BStats) (g : BGrads) :
    ∃ g', ringBwdStep2 r p B x st g = .ok g' ∧ AddsAll (vecOf r.vecOk p.nci p.nco) (scaled (vecOf r.vecOk p.nci p.nco) p) B x st g g' := by
  obtain ⟨v0, v1, v2⟩ := vecOf_mul r.vecOk p.nci p.nco
  have hv := vecOf_or r.vecOk p.nci p.nco
  have hr := hg.run
  unfold bGroupSize at hr
  by_cases h1 : p.nci ≤ 8192
  · rw [ringBwdStep2_special r h0 h1]
    rw [if_pos h1] at hr
    have hc := bSpecCfg_ok r.vecOk (nco := p.nco) h0 h1
    have hbx : (bSpecCfg r.vecOk p.nci p.nco).bx = bdimxOf p.nci := rfl
    have hby : (bSpecCfg r.vecOk p.nci p.nco).by' = if p.nci ≤ 512 then 2 else 1 := rfl
    generalize bSpecCfg r.vecOk p.nci p.nco = cf at hc hbx hby ⊢
    generalize vecOf r.vecOk p.nci p.nco = vec at v0 v1 v2 hv hc ⊢
    obtain ⟨g1, g2, e1, e2, e3⟩ := aRunBoth_ok (r := r) (p := p) (B := B) (x := x) (top := askedBytes r.wide p) hv v1 v2 hc (by rw [hbx]; exact hr) hg.rows (hg.halo h1)
      (fun h => by rw [hbx, hby]; exact hg.accepted.long h1 h) (fun h => by rw [hbx, hby]; exact hg.accepted.short h1 h) st g
    refine ⟨g2, ?_, e3⟩
    rw [e1]
    exact e2
  · rw [ringBwdStep2_generic r (by omega)]
    rw [if_neg h1] at hr
    generalize vecOf r.vecOk p.nci p.nco = vec at v0 v1 v2 hv ⊢
    obtain ⟨g', e1, e2⟩ := aRunGeneric_ok (r := r) (p := scaled vec p) hr hv (B := B) x st g (by
      have := hg.accepted.generic (by omega)
      rw [← agen_bytes v1 v2] at this
      exact this)
    exact ⟨g', e1, Adds.all (p := scaled vec p) hr e2⟩

/-! ### In numbers of channels -/

section
variable {vec : ℕ} {p : Params} (v1 : p.nci / vec * vec = p.nci) (v2 : p.nco / vec * vec = p.nco)

include v1 in
theorem key_addr (b : ℕ) (u : ℕ × ℕ) (w : ℕ → ℝ) (c : ℕ) : vec * (nbrEntry (scaled vec p) w b u).ka + c = cellNo p b u * p.nci + c := by
  change vec * (cellNo p b u * (p.nci / vec)) + c = _
  rw [show vec * (cellNo p b u * (p.nci / vec)) = cellNo p b u * (p.nci / vec * vec) by ring, v1]

include v2 in
theorem val_addr (b : ℕ) (u : ℕ × ℕ) (w : ℕ → ℝ) (c : ℕ) : vec * (nbrEntry (scaled vec p) w b u).va + c = cellNo p b u * p.nco + c := by
  change vec * (cellNo p b u * (p.nco / vec)) + c = _
  rw [show vec * (cellNo p b u * (p.nco / vec)) = cellNo p b u * (p.nco / vec * vec) by ring, v2]

include v1 in
theorem qry_addr (b ho wo c : ℕ) : vec * queryAt (scaled vec p) b ho wo + c = ((b * p.nlatOut + ho) * p.nlonOut + wo) * p.nci + c := by
  rw [query_addr]
  change _ * (p.nci / vec * vec) + c = _
  rw [v1]
  rfl

include v2 in
theorem grd_addr (b ho wo c : ℕ) : vec * gradAt (scaled vec p) b ho wo + c = ((b * p.nlatOut + ho) * p.nlonOut + wo) * p.nco + c := by
  calc _ = ((b * p.nlatOut + ho) * p.nlonOut + wo) * (p.nco / vec * vec) + c := by unfold gradAt scaled; dsimp only; ring
    _ = _ := by rw [v2]

include v2 in
/-- Numbers `hl` and `wl` of the row and the longitude of a neighbour in its block. -/
theorem gradOf_nbr (x : BIn) (b ho wo : ℕ) (u : ℕ × ℕ) :
    gradOf vec (scaled vec p) x b ho wo (nbrEntry (scaled vec p) x.w b u) = dotGV p x b ho wo ((u.1 : ℤ) - p.start).toNat (u.2 - p.lonLo) := by
  unfold gradOf dotGV
  rw [show (scaled vec p).nco * vec = p.nco from v2]
  refine sum_congr rfl fun c _ => ?_
  rw [grd_addr v2, val_addr v2]
  rfl

include v1 in
theorem wOf_nbr (x : BIn) (st : BStats) {M : ℝ} {b ho wo : ℕ} (hM : (st.qmax ((b * p.nlatOut + ho) * p.nlonOut + wo)).getD 0 = M) (u : ℕ × ℕ) :
    wOf vec (scaled vec p) x st b ho wo (nbrEntry (scaled vec p) x.w b u) = softWeight p x st M b ho wo ((u.1 : ℤ) - p.start).toNat (u.2 - p.lonLo) (x.w u.1) := by
  unfold wOf softWeight
  have hf : outFlat (scaled vec p) b ho wo = (b * p.nlatOut + ho) * p.nlonOut + wo := outFlat_eq _ _ _ _
  rw [hf, hM]
  have hs : (∑ c ∈ range ((scaled vec p).nci * vec), x.q (vec * queryAt (scaled vec p) b ho wo + c) * x.k (vec * (nbrEntry (scaled vec p) x.w b u).ka + c))
      = dotQK p x b ho wo ((u.1 : ℤ) - p.start).toNat (u.2 - p.lonLo) := by
    unfold dotQK
    rw [show (scaled vec p).nci * vec = p.nci from v1]
    refine sum_congr rfl fun c _ => ?_
    rw [qry_addr v1, key_addr v1]
    rfl
  rw [hs]
  change Real.exp (_ - M) * x.w u.1 * (1 / _) = _
  ring

include v1 v2 in
/-- What the neighbour `u` of a point adds to number `c` of the cell with number `n`. -/
theorem kAt_cell (x : BIn) (st : BStats) {M : ℝ} {b ho wo : ℕ} (hM : (st.qmax ((b * p.nlatOut + ho) * p.nlonOut + wo)).getD 0 = M) (u : ℕ × ℕ) (n : ℕ) {c : ℕ} (hc : c < p.nci) :
    kAt vec (scaled vec p) x st (n * p.nci + c) b ho wo (nbrEntry (scaled vec p) x.w b u) = if cellNo p b u = n then
      (dotGV p x b ho wo ((u.1 : ℤ) - p.start).toNat (u.2 - p.lonLo) - st.inorm ((b * p.nlatOut + ho) * p.nlonOut + wo)) *
        softWeight p x st M b ho wo ((u.1 : ℤ) - p.start).toNat (u.2 - p.lonLo) (x.w u.1) * entryOf p.nlatOut p.nlonOut p.nci x.q b ho wo c else 0 := by
  unfold kAt
  have hf : outFlat (scaled vec p) b ho wo = (b * p.nlatOut + ho) * p.nlonOut + wo := outFlat_eq _ _ _ _
  rw [gradOf_nbr v2, wOf_nbr v1 x st hM, hf, show (scaled vec p).nci * vec = p.nci from v1]
  simp only [key_addr v1, qry_addr v1]
  by_cases h : cellNo p b u = n
  · rw [if_pos h, h]
    rw [Finset.sum_eq_single c]
    · rw [if_pos rfl]
      rfl
    · intro i _ hi
      rw [if_neg (by omega)]
    · intro h
      exact absurd (mem_range.2 hc) h
  · rw [if_neg h]
    refine sum_eq_zero fun i hi => ?_
    rw [if_neg]
    exact fun e => h (mulAdd_inj e (mem_range.1 hi) hc).1

include v1 v2 in
theorem vAt_cell (x : BIn) (st : BStats) {M : ℝ} {b ho wo : ℕ} (hM : (st.qmax ((b * p.nlatOut + ho) * p.nlonOut + wo)).getD 0 = M) (u : ℕ × ℕ) (n : ℕ) {c : ℕ} (hc : c < p.nco) :
    vAt vec (scaled vec p) x st (n * p.nco + c) b ho wo (nbrEntry (scaled vec p) x.w b u) = if cellNo p b u = n then
      softWeight p x st M b ho wo ((u.1 : ℤ) - p.start).toNat (u.2 - p.lonLo) (x.w u.1) * entryOf p.nlatOut p.nlonOut p.nco x.dy b ho wo c else 0 := by
  unfold vAt
  rw [wOf_nbr v1 x st hM, show (scaled vec p).nco * vec = p.nco from v2]
  simp only [val_addr v2, grd_addr v2]
  by_cases h : cellNo p b u = n
  · rw [if_pos h, h]
    rw [Finset.sum_eq_single c]
    · rw [if_pos rfl]
      rfl
    · intro i _ hi
      rw [if_neg (by omega)]
    · intro h
      exact absurd (mem_range.2 hc) h
  · rw [if_neg h]
    refine sum_eq_zero fun i hi => ?_
    rw [if_neg]
    exact fun e => h (mulAdd_inj e (mem_range.1 hi) hc).1

include v1 in
theorem kAt_far (x : BIn) (st : BStats) {b ho wo n y : ℕ} {u : ℕ × ℕ} (hu : cellNo p b u < n) (hy : n * p.nci ≤ y) :
    kAt vec (scaled vec p) x st y b ho wo (nbrEntry (scaled vec p) x.w b u) = 0 := by
  unfold kAt
  rw [show (scaled vec p).nci * vec = p.nci from v1]
  refine sum_eq_zero fun i hi => ?_
  rw [key_addr v1, if_neg]
  have := packed_lt hu (mem_range.1 hi)
  omega

include v2 in
theorem vAt_far (x : BIn) (st : BStats) {b ho wo n y : ℕ} {u : ℕ × ℕ} (hu : cellNo p b u < n) (hy : n * p.nco ≤ y) :
    vAt vec (scaled vec p) x st y b ho wo (nbrEntry (scaled vec p) x.w b u) = 0 := by
  unfold vAt
  rw [show (scaled vec p).nco * vec = p.nco from v2]
  refine sum_eq_zero fun i hi => ?_
  rw [val_addr v2, if_neg]
  have := packed_lt hu (mem_range.1 hi)
  omega

end

theorem cellNo_inj {p : Params} {b b' hi wi : ℕ} {u : ℕ × ℕ} (hu : (blockOf p).Has u) (hhi : hi < p.nlatHalo) (hwi : wi < p.nlonKx) :
    cellNo p b' u = (b * p.nlatHalo + hi) * p.nlonKx + wi ↔ b' = b ∧ (u.1 : ℤ) = p.start + hi ∧ u.2 = p.lonLo + wi := by
  obtain ⟨a1, a2, a3, a4⟩ := hu
  dsimp only [blockOf] at a1 a2 a3 a4
  unfold cellNo
  constructor
  · intro h
    obtain ⟨h1, h2⟩ := mulAdd_inj h (by omega) hwi
    obtain ⟨h3, h4⟩ := mulAdd_inj h1 (by omega) hhi
    exact ⟨h3, by omega, by omega⟩
  · rintro ⟨rfl, h1, h2⟩
    rw [show ((u.1 : ℤ) - p.start).toNat = hi by omega, show u.2 - p.lonLo = wi by omega]

/-- The neighbours in a cell, among those in the block. -/
theorem nbrsCell_sum {p : Params} {P : Pattern} {ho wo hi wi : ℕ} (hhi : hi < p.nlatHalo) (hwi : wi < p.nlonKx) (F : ℕ × ℕ → ℝ) :
    ((nbrsCell p P ho wo hi wi).map F).sum = ((nbrsIn (blockOf p) P p.nlonIn p.pscale ho wo).map fun u => if (u.1 : ℤ) = p.start + hi ∧ u.2 = p.lonLo + wi then F u else 0).sum := by
  unfold nbrsCell nbrsIn
  generalize gatherNbrs P p.nlonIn p.pscale ho wo = L
  induction L with
  | nil => rfl
  | cons u L ih =>
    rw [List.filter_cons, List.filter_cons]
    by_cases h : (u.1 : ℤ) = p.start + hi ∧ u.2 = p.lonLo + wi
    · have hu : (blockOf p).Has u := ⟨by show p.start ≤ (u.1 : ℤ); omega, by show (u.1 : ℤ) < p.start + p.nlatHalo; omega, by show p.lonLo ≤ u.2; omega, by show u.2 < p.lonLo + p.nlonKx; omega⟩
      rw [if_pos (by simpa using h), if_pos (by simpa using hu), List.map_cons, List.map_cons, List.sum_cons, List.sum_cons, ih, if_pos h]
    · rw [if_neg (by simpa using h)]
      by_cases hu : (blockOf p).Has u
      · rw [if_pos (by simpa using hu), List.map_cons, List.sum_cons, ih, if_neg h, zero_add]
      · rw [if_neg (by simpa using hu), ih]

theorem sum_one_batch {B b : ℕ} (hb : b < B) (f : ℕ → ℝ) (h : ∀ b', b' ≠ b → f b' = 0) : ∑ b' ∈ range B, f b' = f b :=
  Finset.sum_eq_single b (fun b' _ hb' => h b' hb') fun h' => absurd (mem_range.2 hb) h'

/-- All launches together: what every cell of the block receives. -/
theorem addsAll_done {vec : ℕ} {p : Params} (v1 : p.nci / vec * vec = p.nci) (v2 : p.nco / vec * vec = p.nco) {B : ℕ} {x : BIn} {st : BStats} {g g' : BGrads}
    (h : AddsAll vec (scaled vec p) B x st g g') {M : ℕ → ℕ → ℕ → ℝ}
    (hM : ∀ b < B, ∀ ho < p.nlatOut, ∀ wo < p.nlonOut, nbrsIn (blockOf p) x.P p.nlonIn p.pscale ho wo ≠ [] → (st.qmax ((b * p.nlatOut + ho) * p.nlonOut + wo)).getD 0 = M b ho wo) :
    Pass2Done p B x st M g g' := by
  have hents : ∀ b ho wo, ents (scaled vec p) x b ho wo = (nbrsIn (blockOf p) x.P p.nlonIn p.pscale ho wo).map (nbrEntry (scaled vec p) x.w b) :=
    fun b ho wo => entries_nbrs _ _ _ _ _ _
  have hhas : ∀ ho wo, ∀ u ∈ nbrsIn (blockOf p) x.P p.nlonIn p.pscale ho wo, (blockOf p).Has u := by
    intro ho wo u hu
    simpa using (List.mem_filter.1 hu).2
  have key : ∀ (K : ℕ → ℕ → ℕ → Entry → ℝ) (F : ℕ → ℕ → ℕ × ℕ → ℝ), ∀ b < B, ∀ hi < p.nlatHalo, ∀ wi < p.nlonKx,
      (∀ b' < B, ∀ ho < p.nlatOut, ∀ wo < p.nlonOut, ∀ u ∈ nbrsIn (blockOf p) x.P p.nlonIn p.pscale ho wo,
        K b' ho wo (nbrEntry (scaled vec p) x.w b' u) = if cellNo p b' u = (b * p.nlatHalo + hi) * p.nlonKx + wi then F ho wo u else 0) →
      ∑ b' ∈ range B, ∑ ho ∈ range p.nlatOut, ∑ wo ∈ range p.nlonOut, ((ents (scaled vec p) x b' ho wo).map (K b' ho wo)).sum =
        ∑ ho ∈ range p.nlatOut, ∑ wo ∈ range p.nlonOut, ((nbrsCell p x.P ho wo hi wi).map (F ho wo)).sum := by
    intro K F b hb hi hhi wi hwi hK
    rw [Finset.sum_eq_single b]
    · refine sum_congr rfl fun ho hho => sum_congr rfl fun wo hwo => ?_
      rw [nbrsCell_sum hhi hwi, hents, List.map_map]
      refine list_sum_congr fun u hu => ?_
      have := cellNo_inj (b := b) (b' := b) (hhas ho wo u hu) hhi hwi
      change K b ho wo (nbrEntry (scaled vec p) x.w b u) = _
      rw [hK b hb ho (mem_range.1 hho) wo (mem_range.1 hwo) u hu]
      simp only [this, true_and]
    · intro b' hb' hne
      refine sum_eq_zero fun ho hho => sum_eq_zero fun wo hwo => ?_
      rw [hents, List.map_map]
      refine list_sum_zero fun u hu => ?_
      change K b' ho wo (nbrEntry (scaled vec p) x.w b' u) = 0
      rw [hK b' (mem_range.1 hb') ho (mem_range.1 hho) wo (mem_range.1 hwo) u hu, if_neg]
      intro e
      exact hne ((cellNo_inj (hhas ho wo u hu) hhi hwi).1 e).1
    · intro h'
      exact absurd (mem_range.2 hb) h'
  have far : ∀ (K : ℕ → ℕ → ℕ → Entry → ℝ), (∀ b ho wo u, cellNo p b u < B * p.nlatHalo * p.nlonKx → K b ho wo (nbrEntry (scaled vec p) x.w b u) = 0) →
      ∑ b' ∈ range B, ∑ ho ∈ range p.nlatOut, ∑ wo ∈ range p.nlonOut, ((ents (scaled vec p) x b' ho wo).map (K b' ho wo)).sum = 0 := by
    intro K hK
    refine sum_eq_zero fun b hb => sum_eq_zero fun ho _ => sum_eq_zero fun wo _ => ?_
    rw [hents, List.map_map]
    exact list_sum_zero fun u hu => hK b ho wo u (cellNo_lt (mem_range.1 hb) (hhas ho wo u hu))
  refine ⟨fun b hb hi hhi wi hwi => ⟨fun c hc => ?_, fun c hc => ?_⟩, fun i hi => ?_, fun i hi => ?_⟩
  · have := (h (((b * p.nlatHalo + hi) * p.nlonKx + wi) * p.nci + c)).1
    change g'.dk (((b * p.nlatHalo + hi) * p.nlonKx + wi) * p.nci + c) = g.dk (((b * p.nlatHalo + hi) * p.nlonKx + wi) * p.nci + c) + _
    rw [this]
    congr 1
    refine key (fun b' ho wo => kAt vec (scaled vec p) x st (((b * p.nlatHalo + hi) * p.nlonKx + wi) * p.nci + c) b' ho wo) _ b hb hi hhi wi hwi fun b' hb' ho hho wo hwo u hu => ?_
    rw [kAt_cell v1 v2 x st (hM b' hb' ho hho wo hwo (List.ne_nil_of_mem hu)) u _ hc]
    by_cases hcell : cellNo p b' u = (b * p.nlatHalo + hi) * p.nlonKx + wi
    · obtain ⟨rfl, c1, c2⟩ := (cellNo_inj (hhas ho wo u hu) hhi hwi).1 hcell
      rw [if_pos hcell, if_pos hcell, show ((u.1 : ℤ) - p.start).toNat = hi by omega, show u.2 - p.lonLo = wi by omega]
    · rw [if_neg hcell, if_neg hcell]
  · have := (h (((b * p.nlatHalo + hi) * p.nlonKx + wi) * p.nco + c)).2
    change g'.dv (((b * p.nlatHalo + hi) * p.nlonKx + wi) * p.nco + c) = g.dv (((b * p.nlatHalo + hi) * p.nlonKx + wi) * p.nco + c) + _
    rw [this]
    congr 1
    refine key (fun b' ho wo => vAt vec (scaled vec p) x st (((b * p.nlatHalo + hi) * p.nlonKx + wi) * p.nco + c) b' ho wo) _ b hb hi hhi wi hwi fun b' hb' ho hho wo hwo u hu => ?_
    rw [vAt_cell v1 v2 x st (hM b' hb' ho hho wo hwo (List.ne_nil_of_mem hu)) u _ hc]
    by_cases hcell : cellNo p b' u = (b * p.nlatHalo + hi) * p.nlonKx + wi
    · obtain ⟨rfl, c1, c2⟩ := (cellNo_inj (hhas ho wo u hu) hhi hwi).1 hcell
      rw [if_pos hcell, if_pos hcell, show ((u.1 : ℤ) - p.start).toNat = hi by omega, show u.2 - p.lonLo = wi by omega]
    · rw [if_neg hcell, if_neg hcell]
  · rw [(h i).1]
    change g.dk i + ∑ b' ∈ range B, ∑ ho ∈ range p.nlatOut, ∑ wo ∈ range p.nlonOut, _ = _
    rw [far (fun b ho wo => kAt vec (scaled vec p) x st i b ho wo) fun b ho wo u hu => kAt_far v1 x st hu hi, add_zero]
  · rw [(h i).2]
    change g.dv i + ∑ b' ∈ range B, ∑ ho ∈ range p.nlatOut, ∑ wo ∈ range p.nlonOut, _ = _
    rw [far (fun b ho wo => vAt vec (scaled vec p) x st i b ho wo) fun b ho wo u hu => vAt_far v2 x st hu hi, add_zero]

end Verif.RingGpu
