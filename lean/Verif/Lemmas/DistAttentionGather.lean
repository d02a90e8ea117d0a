import Verif.Lemmas.DistAttention
/-!
The gather direction of ring attention.
-/
namespace Verif.Ring
open Verif Verif.Dist Verif.Attn Verif.Spec Verif.Spec.Attn Verif.Spec.Ring Finset

theorem gatherKernel_cell {B nlat nlon : ℕ} {ln : Launch} (hok : LaunchOK B nlat nlon ln) (psi : Pattern) (w : ℕ → ℝ)
    (nlonIn pscale lonLo : ℕ) (start : ℤ) (q k v : RTen) (acc : ℕ → ℕ × ℕ → Acc) {b ho wo : ℕ} (hb : b < B) (hho : ho < nlat)
    (hwo : wo < nlon) : ∃ long, gatherKernel psi w nlonIn pscale lonLo start ln q k v acc b (ho, wo)
      = gatherCell psi w nlonIn pscale lonLo start long k v q b ho wo (acc b (ho, wo)) := by
  obtain ⟨hrows, hg⟩ := hok
  obtain ⟨hnd, hmem⟩ := hg b hb
  have hnd2 : ((List.range nlat).map ln.rowIdx).Nodup := hrows.nodup_iff.2 List.nodup_range
  obtain ⟨h, hh, rfl⟩ := List.mem_map.1 (hrows.mem_iff.2 (List.mem_range.2 hho))
  have hin := (hmem (h, wo)).2 ⟨List.mem_range.1 hh, hwo⟩
  refine ⟨decide (h < ln.nLong), ?_⟩
  unfold gatherKernel
  refine foldl_update_at (ln.order b) (fun t => (ln.rowIdx t.1, t.2))
    (fun t s => gatherCell psi w nlonIn pscale lonLo start (t.1 < ln.nLong) k v q b (ln.rowIdx t.1) t.2 s) (acc b) ?_ (h, wo) hin
  refine List.Nodup.map_on ?_ hnd
  intro x hx y hy hxy
  rw [Prod.mk.injEq] at hxy
  have h1 := List.inj_on_of_nodup_map hnd2 (List.mem_range.2 ((hmem x).1 hx).1) (List.mem_range.2 ((hmem y).1 hy).1) hxy.1
  exact Prod.ext h1 hxy.2

theorem localPsi_row {P : Pattern} (hm : Monotone P.roff) (latLo lonLo nlonIn pscale ho : ℕ) :
    P.row (latLo + ho) = ((localPsi P latLo lonLo nlonIn pscale).row ho).map fun z => P.roff latLo + z := by
  have h1 := hm (Nat.le_add_right latLo ho)
  have h2 := hm (show latLo + ho ≤ latLo + ho + 1 by omega)
  unfold Pattern.row localPsi
  dsimp only
  rw [← add_assoc, List.map_add_range']
  congr 1 <;> omega

theorem gatherHit_local {P : Pattern} {nlonIn : ℕ} (h0 : 0 < nlonIn) (latLo lonLoOut pscale lonLo : ℕ) (start : ℤ) (k : RTen) (wo z : ℕ) :
    gatherHit (localPsi P latLo lonLoOut nlonIn pscale) nlonIn pscale lonLo start k wo z =
      let hi := P.col (P.roff latLo + z) / nlonIn
      let wip := (P.col (P.roff latLo + z) % nlonIn + pscale * (lonLoOut + wo)) % nlonIn
      if lonLo ≤ wip ∧ wip < lonLo + k.W then
        if 0 ≤ (hi : ℤ) - start ∧ (hi : ℤ) - start < k.H then some (((hi : ℤ) - start).toNat, wip - lonLo, hi) else none
      else none := by
  unfold gatherHit localPsi
  dsimp only
  set c := P.col (P.roff latLo + z) with hc
  have hm : ∀ x, x - x / nlonIn * nlonIn = x % nlonIn := fun x => by
    have := Nat.div_add_mod x nlonIn
    rw [Nat.mul_comm] at this; omega
  have hlt := Nat.mod_lt (c % nlonIn + pscale * lonLoOut) h0
  rw [hm c]
  have hdiv : (c / nlonIn * nlonIn + (c % nlonIn + pscale * lonLoOut) % nlonIn) / nlonIn = c / nlonIn := by
    rw [Nat.add_comm, Nat.add_mul_div_right _ _ h0, Nat.div_eq_of_lt hlt, Nat.zero_add]
  rw [hdiv, Nat.add_sub_cancel_left, hm]
  have hw : ((c % nlonIn + pscale * lonLoOut) % nlonIn + pscale * wo) % nlonIn = (c % nlonIn + pscale * (lonLoOut + wo)) % nlonIn := by
    rw [Nat.mod_add_mod]; congr 1; ring
  rw [hw]

/-- The sums of any function over the chunks add up to its sum over the neighbours of the output point. -/
theorem gather_key {Pp Pa : ℕ} (g : Grids) (hPa : 0 < Pa) {P : Pattern} (hmono : Monotone P.roff)
    (hfit : P.Fits g.nlatOut (g.nlatIn * g.nlonIn)) (h0 : 0 < g.nlonIn) (pscale r p lonLo : ℕ) (kh : ℕ → RTen)
    (hk : ∀ s < Pa, (kh s).H = blockSize g.nlatIn Pp p + 2 * r ∧ (kh s).W = blockSize g.nlonIn Pa s)
    (hr : ∀ h < blockSize g.nlatOut Pp p, ∀ z ∈ P.row (blockStart g.nlatOut Pp p + h),
      blockStart g.nlatIn Pp p ≤ P.col z / g.nlonIn + r ∧ P.col z / g.nlonIn < blockStart g.nlatIn Pp p + blockSize g.nlatIn Pp p + r)
    {ho wo : ℕ} (hho : ho < blockSize g.nlatOut Pp p) (hho' : blockStart g.nlatOut Pp p + ho < g.nlatOut)
    (Φ : ℕ → ℕ × ℕ × ℕ → ℝ) (G : ℕ × ℕ → ℝ)
    (hΦ : ∀ s0 < Pa, ∀ t : ℕ × ℕ × ℕ, ∀ hi < g.nlatIn, ∀ wi < blockSize g.nlonIn Pa s0,
        t.1 < blockSize g.nlatIn Pp p + 2 * r → hi + r = blockStart g.nlatIn Pp p + t.1 → t.2.1 = wi → t.2.2 = hi →
        Φ s0 t = G (hi, blockStart g.nlonIn Pa s0 + wi)) :
    ∑ s ∈ range Pa, ((((localPsi P (blockStart g.nlatOut Pp p) lonLo g.nlonIn pscale).row ho).filterMap
        (gatherHit (localPsi P (blockStart g.nlatOut Pp p) lonLo g.nlonIn pscale) g.nlonIn pscale (blockStart g.nlonIn Pa s)
          ((blockStart g.nlatIn Pp p : ℤ) - r) (kh s) wo)).map (Φ s)).sum
      = ((gatherNbrs P g.nlonIn pscale (blockStart g.nlatOut Pp p + ho) (lonLo + wo)).map G).sum := by
  set latLo := blockStart g.nlatOut Pp p
  set psi := localPsi P latLo lonLo g.nlonIn pscale with hpsi
  unfold gatherNbrs
  rw [localPsi_row hmono latLo lonLo g.nlonIn pscale ho, ← hpsi, List.map_map, List.map_map]
  refine chunk_sum Pa (psi.row ho) (fun i => gatherHit psi g.nlonIn pscale (blockStart g.nlonIn Pa i) ((blockStart g.nlatIn Pp p : ℤ) - r) (kh i) wo)
    Φ _ ?_
  intro z hz
  have hz' : P.roff latLo + z ∈ P.row (latLo + ho) := by
    rw [localPsi_row hmono latLo lonLo g.nlonIn pscale ho]
    exact List.mem_map.2 ⟨z, hz, rfl⟩
  obtain ⟨hr1, hr2⟩ := hr ho hho _ hz'
  have hcol := hfit _ hho' _ hz'
  have hhi : P.col (P.roff latLo + z) / g.nlonIn < g.nlatIn := Nat.div_lt_of_lt_mul (by rw [Nat.mul_comm]; exact hcol)
  have hwip : (P.col (P.roff latLo + z) % g.nlonIn + pscale * (lonLo + wo)) % g.nlonIn < g.nlonIn := Nat.mod_lt _ h0
  obtain ⟨s0, hs0, wi, hwi, hwe⟩ := exists_block hPa hwip
  refine ⟨s0, hs0, ⟨((((P.col (P.roff latLo + z) / g.nlonIn : ℕ) : ℤ) - ((blockStart g.nlatIn Pp p : ℤ) - r)).toNat, wi,
    P.col (P.roff latLo + z) / g.nlonIn), ?_, ?_⟩, ?_⟩
  · rw [hpsi, gatherHit_local h0]
    dsimp only
    rw [hwe, (hk s0 hs0).2, (hk s0 hs0).1, if_pos ⟨by omega, by omega⟩, if_pos ⟨by omega, by push_cast; omega⟩, Nat.add_sub_cancel_left]
  · simp only [Function.comp_def]
    rw [hwe]
    refine hΦ s0 hs0 _ _ hhi wi hwi ?_ ?_ rfl rfl
    · dsimp only; omega
    · dsimp only; omega
  · intro s hs hne
    rw [hpsi, gatherHit_local h0]
    dsimp only
    rw [if_neg]
    rintro ⟨h1, h2⟩
    rw [(hk s hs).2] at h2
    rw [hwe] at h1 h2
    obtain ⟨e, _⟩ := block_unique (i := blockStart g.nlonIn Pa s0 + wi - blockStart g.nlonIn Pa s) (r := s) (r' := s0) (i' := wi)
      (n := g.nlonIn) (P := Pa) (by omega) hwi (by omega)
    exact hne e

/-- What the gather kernels leave in the accumulators of one output point. -/
theorem gather_cell {B Ck Cv Pp Pa : ℕ} (g : Grids) (w : ℕ → ℝ) (hPa : 0 < Pa) {P : Pattern} (hmono : Monotone P.roff)
    (hfit : P.Fits g.nlatOut (g.nlatIn * g.nlonIn)) (h0 : 0 < g.nlonIn) (pscale r p a : ℕ) (ha : a < Pa)
    (K V Q : T4) (kh vh : ℕ → RTen) (q : RTen)
    (hk : ∀ a < Pa, HaloTile B Ck g.nlatIn g.nlonIn Pp Pa r K p a (kh a)) (hv : ∀ a < Pa, HaloTile B Cv g.nlatIn g.nlonIn Pp Pa r V p a (vh a))
    (hq : Tile B Ck g.nlatOut g.nlonOut Pp Pa Q p a q)
    (hr : ∀ h < blockSize g.nlatOut Pp p, ∀ z ∈ P.row (blockStart g.nlatOut Pp p + h),
      blockStart g.nlatIn Pp p ≤ P.col z / g.nlonIn + r ∧ P.col z / g.nlonIn < blockStart g.nlatIn Pp p + blockSize g.nlatIn Pp p + r)
    {b c ho wo : ℕ} (hb : b < B) (hc : c < Cv) (hho : ho < blockSize g.nlatOut Pp p) (hwo : wo < blockSize g.nlonOut Pa a)
    (hho' : blockStart g.nlatOut Pp p + ho < g.nlatOut)
    {s : Acc} (hs : Inv ((List.range Pa).flatMap fun i => chunkPts
      (localPsi P (blockStart g.nlatOut Pp p) (blockStart g.nlonOut Pa a) g.nlonIn pscale) w g.nlonIn pscale
      (blockStart g.nlonIn Pa ((a + i) % Pa)) ((blockStart g.nlatIn Pp p : ℤ) - r) (kh ((a + i) % Pa)) (vh ((a + i) % Pa)) q b ho wo) s) :
    s.y c / s.alphaSum = attention Ck w (gatherNbrs P g.nlonIn pscale) K V Q b c (blockStart g.nlatOut Pp p + ho) (blockStart g.nlonOut Pa a + wo) := by
  rw [hs.avg c]
  set latLo := blockStart g.nlatOut Pp p
  set lonLo := blockStart g.nlonOut Pa a
  set psi := localPsi P latLo lonLo g.nlonIn pscale with hpsi
  -- the sum of any function of the neighbours
  have key : ∀ (F : Pt → ℝ) (G : ℕ × ℕ → ℝ), (∀ s0 < Pa, ∀ t : ℕ × ℕ × ℕ, ∀ hi < g.nlatIn, ∀ wi < blockSize g.nlonIn Pa s0,
        t.1 < blockSize g.nlatIn Pp p + 2 * r → hi + r = blockStart g.nlatIn Pp p + t.1 → t.2.1 = wi → t.2.2 = hi →
        F (loadPt w (kh s0) (vh s0) q b ho wo t) = G (hi, blockStart g.nlonIn Pa s0 + wi)) →
      (((List.range Pa).flatMap fun i => chunkPts psi w g.nlonIn pscale (blockStart g.nlonIn Pa ((a + i) % Pa))
        ((blockStart g.nlatIn Pp p : ℤ) - r) (kh ((a + i) % Pa)) (vh ((a + i) % Pa)) q b ho wo).map F).sum
        = ((gatherNbrs P g.nlonIn pscale (latLo + ho) (lonLo + wo)).map G).sum := by
    intro F G hFG
    rw [list_sum_flatMap, list_sum_range, ring_sum ha (fun i => ((chunkPts psi w g.nlonIn pscale (blockStart g.nlonIn Pa i)
        ((blockStart g.nlatIn Pp p : ℤ) - r) (kh i) (vh i) q b ho wo).map F).sum)]
    simp only [chunkPts, List.map_map]
    exact gather_key g hPa hmono hfit h0 pscale r p lonLo kh (fun s hs => ⟨(hk s hs).H_eq, (hk s hs).W_eq⟩) hr hho hho'
      (fun i => F ∘ loadPt w (kh i) (vh i) q b ho wo) G hFG
  have hscore : ∀ s0 < Pa, ∀ t : ℕ × ℕ × ℕ, ∀ hi < g.nlatIn, ∀ wi < blockSize g.nlonIn Pa s0,
      t.1 < blockSize g.nlatIn Pp p + 2 * r → hi + r = blockStart g.nlatIn Pp p + t.1 → t.2.1 = wi →
      (loadPt w (kh s0) (vh s0) q b ho wo t).q = score Ck K Q b (latLo + ho) (lonLo + wo) (hi, blockStart g.nlonIn Pa s0 + wi) := by
    intro s0 hs0 t hi hhi wi hwi h1 h2 h3
    unfold loadPt score
    dsimp only
    rw [hq.C_eq]
    refine Finset.sum_congr rfl fun c' hc' => ?_
    have hc'' := Finset.mem_range.1 hc'
    rw [hq.val_eq b hb c' hc'' ho hho wo hwo, h3, (hk s0 hs0).val_eq b hb c' hc'' t.1 h1 wi hwi hi hhi h2]
  unfold attention softAvg
  congr 1
  · refine key (fun t => t.w * Real.exp t.q * t.v c) _ ?_
    intro s0 hs0 t hi hhi wi hwi h1 h2 h3 h4
    rw [hscore s0 hs0 t hi hhi wi hwi h1 h2 h3]
    show w t.2.2 * _ * (vh s0).val b c t.1 t.2.1 = _
    rw [h4, h3, (hv s0 hs0).val_eq b hb c hc t.1 h1 wi hwi hi hhi h2]
  · refine key (fun t => t.w * Real.exp t.q) _ ?_
    intro s0 hs0 t hi hhi wi hwi h1 h2 h3 h4
    rw [hscore s0 hs0 t hi hhi wi hwi h1 h2 h3]
    show w t.2.2 * _ = _
    rw [h4]

end Verif.Ring
