import Verif.Lemmas.DistAttentionGrad
import Verif.Model.Halo
/-!
Pass 2 of the backward pass of ring attention: values of the chunk gradients, their sum over the ring and over the ranks.
-/
namespace Verif.Ring
open Verif Verif.Dist Verif.Attn Verif.Spec Verif.Spec.Attn Verif.Spec.Ring Finset

theorem part_congr {nb : ℕ → ℕ → List (ℕ × ℕ)} {T T' : ℕ → ℕ → ℝ} {H0 nH W0 nW : ℕ} {u0 : ℕ × ℕ}
    (h : ∀ h < nH, ∀ wo < nW, T h wo = T' h wo) : part nb T H0 nH W0 nW u0 = part nb T' H0 nH W0 nW u0 := by
  unfold part
  refine Finset.sum_congr rfl fun h' hh => Finset.sum_congr rfl fun wo hwo => list_sum_congr fun u _ => ?_
  rw [h h' (Finset.mem_range.1 hh) wo (Finset.mem_range.1 hwo)]

/-- What one output point contributes to the gradient of the key at `u`. -/
noncomputable def termK (Ck Cv : ℕ) (w : ℕ → ℝ) (nb : ℕ → ℕ → List (ℕ × ℕ)) (K V Q DY : T4) (b c : ℕ) (u : ℕ × ℕ) (ho wo : ℕ) : ℝ :=
  Q b c ho wo * prob Ck w nb K Q b ho wo u * (gdot Cv V DY b ho wo u - gbar Ck Cv w nb K V Q DY b ho wo)

/-- What one output point contributes to the gradient of the value at `u`. -/
noncomputable def termV (Ck : ℕ) (w : ℕ → ℝ) (nb : ℕ → ℕ → List (ℕ × ℕ)) (K Q DY : T4) (b c : ℕ) (u : ℕ × ℕ) (ho wo : ℕ) : ℝ :=
  prob Ck w nb K Q b ho wo u * DY b c ho wo

/-- A gradient is the sum of the parts of all ranks. -/
theorem part_blocks {Pp Pa : ℕ} (hPp : 0 < Pp) (hPa : 0 < Pa) (nb : ℕ → ℕ → List (ℕ × ℕ)) (T : ℕ → ℕ → ℝ) (H W : ℕ) (u0 : ℕ × ℕ) :
    ∑ ho ∈ range H, ∑ wo ∈ range W, ((nb ho wo).map fun u => if u = u0 then T ho wo else 0).sum
      = ∑ p ∈ range Pp, ∑ a ∈ range Pa, part nb (fun h x => T (blockStart H Pp p + h) (blockStart W Pa a + x)) (blockStart H Pp p)
          (blockSize H Pp p) (blockStart W Pa a) (blockSize W Pa a) u0 := by
  rw [sum_blocks (n := H) hPp]
  refine Finset.sum_congr rfl fun p _ => ?_
  unfold part
  rw [Finset.sum_comm (s := range Pa)]
  refine Finset.sum_congr rfl fun h _ => ?_
  rw [sum_blocks (n := W) hPa]

theorem gradK_parts {Pp Pa : ℕ} (hPp : 0 < Pp) (hPa : 0 < Pa) (Ck Cv : ℕ) (w : ℕ → ℝ) (nb : ℕ → ℕ → List (ℕ × ℕ)) (H W : ℕ) (K V Q DY : T4)
    (b c hi wi : ℕ) : gradK Ck Cv w nb H W K V Q DY b c hi wi = ∑ p ∈ range Pp, ∑ a ∈ range Pa,
      part nb (fun h x => termK Ck Cv w nb K V Q DY b c (hi, wi) (blockStart H Pp p + h) (blockStart W Pa a + x)) (blockStart H Pp p)
          (blockSize H Pp p) (blockStart W Pa a) (blockSize W Pa a) (hi, wi) := by
  rw [← part_blocks hPp hPa nb (termK Ck Cv w nb K V Q DY b c (hi, wi))]
  unfold gradK
  refine Finset.sum_congr rfl fun ho _ => Finset.sum_congr rfl fun wo _ => list_sum_congr fun u _ => ?_
  split
  · rename_i h; rw [h]; rfl
  · rfl

theorem gradV_parts {Pp Pa : ℕ} (hPp : 0 < Pp) (hPa : 0 < Pa) (Ck : ℕ) (w : ℕ → ℝ) (nb : ℕ → ℕ → List (ℕ × ℕ)) (H W : ℕ) (K Q DY : T4)
    (b c hi wi : ℕ) : gradV Ck w nb H W K Q DY b c hi wi = ∑ p ∈ range Pp, ∑ a ∈ range Pa,
      part nb (fun h x => termV Ck w nb K Q DY b c (hi, wi) (blockStart H Pp p + h) (blockStart W Pa a + x)) (blockStart H Pp p)
          (blockSize H Pp p) (blockStart W Pa a) (blockSize W Pa a) (hi, wi) := by
  rw [← part_blocks hPp hPa nb (termV Ck w nb K Q DY b c (hi, wi))]
  unfold gradV
  refine Finset.sum_congr rfl fun ho _ => Finset.sum_congr rfl fun wo _ => list_sum_congr fun u _ => ?_
  split
  · rename_i h; rw [h]; rfl
  · rfl

/-- A rank contributes nothing outside of its halo. -/
theorem part_outside {g : Grids} {P : Pattern} {Pp r p : ℕ} (hr : Covers g P Pp r p) (T : ℕ → ℕ → ℝ) (W0 nW : ℕ) {hi : ℕ} (wi : ℕ)
    (h : hi + r < blockStart g.nlatIn Pp p ∨ blockStart g.nlatIn Pp p + blockSize g.nlatIn Pp p + r ≤ hi) :
    part (neighbours g P) T (blockStart g.nlatOut Pp p) (blockSize g.nlatOut Pp p) W0 nW (hi, wi) = 0 := by
  unfold part
  refine Finset.sum_eq_zero fun h' hh => Finset.sum_eq_zero fun wo _ => list_sum_zero fun u hu => ?_
  have hh' := Finset.mem_range.1 hh
  rw [if_neg]
  rintro rfl
  unfold Covers at hr
  unfold neighbours at hu
  by_cases hup : g.upsample = true
  · rw [if_pos hup] at hr hu
    unfold scatterNbrs at hu
    obtain ⟨hi', hhi', hu⟩ := List.mem_flatMap.1 hu
    obtain ⟨wi', _, hu⟩ := List.mem_flatMap.1 hu
    obtain ⟨z, hz, hu⟩ := List.mem_map.1 hu
    obtain ⟨hz, hc⟩ := List.mem_filter.1 hz
    have hc' := (of_decide_eq_true hc).1
    obtain ⟨rfl, rfl⟩ := Prod.mk.inj hu
    have := hr hi' (List.mem_range.1 hhi') z hz (by omega) (by omega)
    omega
  · rw [if_neg hup] at hr hu
    unfold gatherNbrs at hu
    obtain ⟨z, hz, hu⟩ := List.mem_map.1 hu
    have h2 := hr h' hh' z hz
    have := (Prod.mk.inj hu).1
    omega

/-! ### The gradients of a chunk -/

section
variable {B Ck Cv Pp Pa : ℕ} {g : Grids} {w : ℕ → ℝ} (hPp : 0 < Pp) (hPa : 0 < Pa) {P : Pattern} (hP : PatternOK g P) (hi0 : 0 < g.nlonIn)
  (ho0 : 0 < g.nlonOut) {r p a : ℕ} (hp : p < Pp) (ha : a < Pa) {K V Q DY : T4} {kh vh : ℕ → RTen} {q dy : RTen}
  (hk : ∀ a < Pa, HaloTile B Ck g.nlatIn g.nlonIn Pp Pa r K p a (kh a)) (hv : ∀ a < Pa, HaloTile B Cv g.nlatIn g.nlonIn Pp Pa r V p a (vh a))
  (hq : Tile B Ck g.nlatOut g.nlonOut Pp Pa Q p a q) (hdy : Tile B Cv g.nlatOut g.nlonOut Pp Pa DY p a dy) (hr : Covers g P Pp r p)
  {fwd : ℕ → ℕ × ℕ → Acc} {inorm : ℕ → ℕ × ℕ → ℝ}
  (hf : ∀ b < B, ∀ h < blockSize g.nlatOut Pp p, ∀ wo < blockSize g.nlonOut Pa a,
    Inv (cellPts g P w Pp Pa r p a kh vh q b h wo Pa) (fwd b (h, wo)))
  (hn : ∀ b < B, ∀ h < blockSize g.nlatOut Pp p, ∀ wo < blockSize g.nlonOut Pa a,
    inorm b (h, wo) = gbar Ck Cv w (neighbours g P) K V Q DY b (blockStart g.nlatOut Pp p + h) (blockStart g.nlonOut Pa a + wo))
  (hZ : ∀ b < B, ∀ h < blockSize g.nlatOut Pp p, ∀ wo < blockSize g.nlonOut Pa a,
    ((neighbours g P (blockStart g.nlatOut Pp p + h) (blockStart g.nlonOut Pa a + wo)).map fun t =>
      w t.1 * Real.exp (score Ck K Q b (blockStart g.nlatOut Pp p + h) (blockStart g.nlonOut Pa a + wo) t)).sum ≠ 0)
include hPp hPa hP hi0 ho0 hp ha hk hv hq hdy hr hf hn hZ

/-- The updates from one output point, from what the kernels load. -/
theorem term_eq {b : ℕ} (hb : b < B) {h wo : ℕ} (hh : h < blockSize g.nlatOut Pp p) (hwo : wo < blockSize g.nlonOut Pa a) {t : BPt} {u : ℕ × ℕ}
    (h1 : t.q = score Ck K Q b (blockStart g.nlatOut Pp p + h) (blockStart g.nlonOut Pa a + wo) u) (h2 : t.w = w u.1)
    (h3 : t.g = gdot Cv V DY b (blockStart g.nlatOut Pp p + h) (blockStart g.nlonOut Pa a + wo) u) :
    (∀ c < Ck, scaleDk (fwd b (h, wo)) (inorm b (h, wo)) t * q.val b c h wo = termK Ck Cv w (neighbours g P) K V Q DY b c u
      (blockStart g.nlatOut Pp p + h) (blockStart g.nlonOut Pa a + wo)) ∧
    (∀ c < Cv, bwdAlpha (fwd b (h, wo)) t * dy.val b c h wo = termV Ck w (neighbours g P) K Q DY b c u
      (blockStart g.nlatOut Pp p + h) (blockStart g.nlonOut Pa a + wo)) := by
  have ha' := alpha_eq hPp hPa hP hi0 ho0 hp ha hk hv hq hr hb hh hwo (hf b hb h hh wo hwo) (hZ b hb h hh wo hwo) h1 h2
  refine ⟨fun c hc => ?_, fun c hc => ?_⟩
  · unfold scaleDk termK
    rw [ha', h3, hn b hb h hh wo hwo, hq.val_eq b hb c hc h hh wo hwo]
    ring
  · unfold termV
    rw [ha', hdy.val_eq b hb c hc h hh wo hwo]

/-- The gradients of a chunk: the parts of this rank. -/
theorem chunkGrads_ok {D : DAttn} (hpsi : D.psi = localPattern g P Pp Pa r p a) (hlat : D.latOut.getD p 0 = blockSize g.nlatOut Pp p)
    (hlon : D.lonOut.getD a 0 = blockSize g.nlonOut Pa a) (hst : haloStart D p = (blockStart g.nlatIn Pp p : ℤ) - r)
    {s0 : ℕ} (hs0 : s0 < Pa) (hoff : offset D.lonIn s0 = blockStart g.nlonIn Pa s0) {ln : Launch2}
    (hrow : ((List.range (blockSize g.nlatOut Pp p)).map ln.rowIdx).Perm (List.range (blockSize g.nlatOut Pp p)))
    (hoK : ∀ b c L, (ln.orderK b c L).Perm L) (hoV : ∀ b c L, (ln.orderV b c L).Perm L) :
    ∃ d, chunkGrads g w D p a s0 ln q dy (kh s0) (vh s0) fwd inorm = .ok d ∧ ∀ b < B, ∀ hl < blockSize g.nlatIn Pp p + 2 * r, ∀ hi < g.nlatIn,
      hi + r = blockStart g.nlatIn Pp p + hl → ∀ wl < blockSize g.nlonIn Pa s0,
      (∀ c < Ck, d.1 b c hl wl = part (neighbours g P) (fun h x => termK Ck Cv w (neighbours g P) K V Q DY b c (hi, blockStart g.nlonIn Pa s0 + wl)
        (blockStart g.nlatOut Pp p + h) (blockStart g.nlonOut Pa a + x)) (blockStart g.nlatOut Pp p) (blockSize g.nlatOut Pp p)
        (blockStart g.nlonOut Pa a) (blockSize g.nlonOut Pa a) (hi, blockStart g.nlonIn Pa s0 + wl)) ∧
      (∀ c < Cv, d.2 b c hl wl = part (neighbours g P) (fun h x => termV Ck w (neighbours g P) K Q DY b c (hi, blockStart g.nlonIn Pa s0 + wl)
        (blockStart g.nlatOut Pp p + h) (blockStart g.nlonOut Pa a + x)) (blockStart g.nlatOut Pp p) (blockSize g.nlatOut Pp p)
        (blockStart g.nlonOut Pa a) (blockSize g.nlonOut Pa a) (hi, blockStart g.nlonIn Pa s0 + wl)) := by
  unfold chunkGrads
  rw [hpsi, hlat, hlon, hst, hoff]
  unfold localPattern
  by_cases hu : g.upsample = true
  · rw [if_pos hu, if_pos hu]
    have hd : g.nlonOut % g.nlonIn = 0 := by
      unfold Grids.upsample at hu
      exact (of_decide_eq_true hu).1
    have hr' := hr
    unfold Covers at hr'
    rw [if_pos hu] at hr'
    refine ⟨_, rfl, fun b hb hl hhl hi hhi he wl hwl => ?_⟩
    have hnb : neighbours g P = scatterNbrs P g.nlatIn g.nlonIn g.nlonOut (g.nlonOut / g.nlonIn) := by
      funext ho wo; unfold neighbours; rw [if_pos hu]
    have key : ∀ h < blockSize g.nlatOut Pp p, ∀ wo < blockSize g.nlonOut Pa a, _ := fun h hh wo hwo =>
      term_eq hPp hPa hP hi0 ho0 hp ha hk hv hq hdy hr hf hn hZ hb hh hwo
        (t := upBPt w ((blockStart g.nlatIn Pp p : ℤ) - r) (kh s0) (vh s0) q dy b ⟨(h, wo), (hl, wl)⟩) (u := (hi, blockStart g.nlonIn Pa s0 + wl))
        (by
          unfold upBPt score
          dsimp only
          rw [hq.C_eq]
          refine Finset.sum_congr rfl fun c' hc' => ?_
          have hc'' := Finset.mem_range.1 hc'
          rw [hq.val_eq b hb c' hc'' h hh wo hwo, (hk s0 hs0).val_eq b hb c' hc'' hl hhl wl hwl hi hhi he, mul_comm])
        (by
          show w (((blockStart g.nlatIn Pp p : ℤ) - r) + hl).toNat = w hi
          congr 1; omega)
        (by
          unfold upBPt gdot
          dsimp only
          rw [(hv s0 hs0).C_eq]
          refine Finset.sum_congr rfl fun c' hc' => ?_
          have hc'' := Finset.mem_range.1 hc'
          rw [hdy.val_eq b hb c' hc'' h hh wo hwo, (hv s0 hs0).val_eq b hb c' hc'' hl hhl wl hwl hi hhi he, mul_comm])
    refine ⟨fun c hc => ?_, fun c hc => ?_⟩
    · unfold upGrads
      dsimp only
      refine (up_sum hPa ho0 hd ha hr' hs0 hhl he hwl _).trans ?_
      rw [hnb] at key ⊢
      exact part_congr fun h hh wo hwo => (key h hh wo hwo).1 c hc
    · unfold upGrads
      dsimp only
      refine (up_sum hPa ho0 hd ha hr' hs0 hhl he hwl _).trans ?_
      rw [hnb] at key ⊢
      exact part_congr fun h hh wo hwo => (key h hh wo hwo).2 c hc
  · rw [if_neg hu, if_neg hu]
    have hr' := hr
    unfold Covers at hr'
    rw [if_neg hu] at hr'
    have hfit := hP.2
    rw [if_neg hu] at hfit
    have hkk : ∀ s < Pa, (kh s).H = blockSize g.nlatIn Pp p + 2 * r ∧ (kh s).W = blockSize g.nlonIn Pa s := fun s hs => ⟨(hk s hs).H_eq, (hk s hs).W_eq⟩
    unfold gatherGrads
    rw [gatherOps_ok hP.1 hi0 _ hkk hr' hs0 ln.special rfl _ hrow]
    refine ⟨_, rfl, fun b hb hl hhl hi hhi he wl hwl => ?_⟩
    have hnb : neighbours g P = gatherNbrs P g.nlonIn (g.nlonIn / g.nlonOut) := by
      funext ho wo; unfold neighbours; rw [if_neg hu]
    have key : ∀ h < blockSize g.nlatOut Pp p, ∀ wo < blockSize g.nlonOut Pa a, _ := fun h hh wo hwo =>
      term_eq hPp hPa hP hi0 ho0 hp ha hk hv hq hdy hr hf hn hZ hb hh hwo
        (t := loadBPt w (kh s0) (vh s0) q dy b h wo (hl, wl, hi)) (u := (hi, blockStart g.nlonIn Pa s0 + wl))
        (by
          unfold loadBPt score
          dsimp only
          rw [hq.C_eq]
          refine Finset.sum_congr rfl fun c' hc' => ?_
          have hc'' := Finset.mem_range.1 hc'
          rw [hq.val_eq b hb c' hc'' h hh wo hwo, (hk s0 hs0).val_eq b hb c' hc'' hl hhl wl hwl hi hhi he])
        rfl
        (by
          unfold loadBPt gdot
          dsimp only
          rw [(hv s0 hs0).C_eq]
          refine Finset.sum_congr rfl fun c' hc' => ?_
          have hc'' := Finset.mem_range.1 hc'
          rw [hdy.val_eq b hb c' hc'' h hh wo hwo, (hv s0 hs0).val_eq b hb c' hc'' hl hhl wl hwl hi hhi he])
    refine ⟨fun c hc => ?_, fun c hc => ?_⟩
    · refine (atomicAdds_perm (hoK b c _) _ _).trans ((ops_sum hPp hPa hP.1 hfit hi0 _ hp hkk hr' hs0 he hwl rfl _ hrow _).trans ?_)
      rw [hnb] at key ⊢
      exact part_congr fun h hh wo hwo => (key h hh wo hwo).1 c hc
    · refine (atomicAdds_perm (hoV b c _) _ _).trans ((ops_sum hPp hPa hP.1 hfit hi0 _ hp hkk hr' hs0 he hwl rfl _ hrow _).trans ?_)
      rw [hnb] at key ⊢
      exact part_congr fun h hh wo hwo => (key h hh wo hwo).2 c hc

end

/-! ### The ring -/

/-- The gradients of the chunks end up next to each other: `X s wl` is the chunk gradient of azimuth rank `s` at one entry. -/
theorem addChunk_at {Pa n : ℕ} {s0 s : ℕ} {wl : ℕ} (hwl : wl < blockSize n Pa s) (chunk full : T4) (b c h : ℕ) :
    addChunk (blockStart n Pa s0) (blockSize n Pa s0) chunk full b c h (blockStart n Pa s + wl)
      = if s = s0 then full b c h (blockStart n Pa s + wl) + chunk b c h wl else full b c h (blockStart n Pa s + wl) := by
  unfold addChunk
  by_cases hs : s = s0
  · subst hs
    rw [if_pos rfl, if_pos ⟨by omega, by omega⟩, Nat.add_sub_cancel_left]
  · rw [if_neg hs, if_neg]
    rintro ⟨h1, h2⟩
    exact hs (block_unique hwl (i' := blockStart n Pa s + wl - blockStart n Pa s0) (r' := s0) (by omega) (by omega)).1

theorem mod_inj {Pa a i j : ℕ} (hi : i < Pa) (hj : j < Pa) (h : (a + i) % Pa = (a + j) % Pa) : i = j := by
  have h' : a + i ≡ a + j [MOD Pa] := h
  have := Nat.ModEq.add_left_cancel' a h'
  unfold Nat.ModEq at this
  rwa [Nat.mod_eq_of_lt hi, Nat.mod_eq_of_lt hj] at this

theorem mod_surj {Pa a s : ℕ} (ha : a < Pa) (hs : s < Pa) : ∃ i < Pa, (a + i) % Pa = s := by
  by_cases h : a ≤ s
  · exact ⟨s - a, by omega, by rw [Nat.add_sub_cancel' h, Nat.mod_eq_of_lt hs]⟩
  · exact ⟨Pa - a + s, by omega, by rw [show a + (Pa - a + s) = s + Pa by omega, Nat.add_mod_right, Nat.mod_eq_of_lt hs]⟩

/-! ### The halo -/

theorem prev_rank {P r : ℕ} (h : 0 < r) (hr : r < P) : prevRank P r = r - 1 := by
  unfold prevRank
  rw [show r + P - 1 = (r - 1) + P by omega, Nat.add_mod_right, Nat.mod_eq_of_lt (by omega)]

theorem next_rank {P r : ℕ} (hr : r + 1 < P) : nextRank P r = r + 1 := by
  unfold nextRank
  rw [Nat.mod_eq_of_lt hr]

/-- The backward pass of the halo exchange sums what the ranks computed for a row. -/
theorem halo_collect {α : Type} [AddCommMonoid α] (φ : α →+ ℝ) {n P r : ℕ} (hr : ∀ s < P, r ≤ blockSize n P s) {H : ℕ → ℕ}
    (hH : ∀ s < P, H s = blockSize n P s) (dout : ℕ → Vec α) (E : ℕ → ℕ → ℝ)
    (h0 : ∀ s < P, ∀ hi, hi + r < blockStart n P s ∨ blockStart n P s + blockSize n P s + r ≤ hi → E s hi = 0)
    (hd : ∀ s < P, ∀ hl < blockSize n P s + 2 * r, ∀ hi < n, hi + r = blockStart n P s + hl → φ ((dout s).val hl) = E s hi)
    {p : ℕ} (hp : p < P) {i : ℕ} (hi : i < blockSize n P p) :
    φ ((haloBackward P H dout r p).val i) = ∑ s ∈ range P, E s (blockStart n P p + i) := by
  have hlt := block_lt (by omega) hp hi
  have hm : Monotone (blockStart n P) := monotone_nat_of_le_succ (fun a => by rw [blockStart_succ]; omega)
  have hval : φ ((haloBackward P H dout r p).val i) = E p (blockStart n P p + i)
      + (if 0 < p then E (p - 1) (blockStart n P p + i) else 0) + (if p + 1 < P then E (p + 1) (blockStart n P p + i) else 0) := by
    have e0 : φ ((dout p).val (r + i)) = E p (blockStart n P p + i) := hd p hp _ (by omega) _ hlt (by omega)
    have e1 : ∀ hp0 : 0 < p, (if i < r then φ ((dout (p - 1)).val (r + H (p - 1) + i)) else 0) = E (p - 1) (blockStart n P p + i) := by
      intro hp0
      have hb := blockStart_succ n P (p - 1)
      rw [Nat.sub_add_cancel hp0] at hb
      have hs := hH (p - 1) (by omega)
      split
      · exact hd (p - 1) (by omega) _ (by omega) _ hlt (by omega)
      · exact (h0 (p - 1) (by omega) _ (by omega)).symm
    have e2 : ∀ hp1 : p + 1 < P, (if H p - r ≤ i then φ ((dout (p + 1)).val (i - (H p - r))) else 0) = E (p + 1) (blockStart n P p + i) := by
      intro hp1
      have hb := blockStart_succ n P p
      have hs := hH p hp
      have hrp := hr p hp
      split
      · exact hd (p + 1) hp1 _ (by omega) _ hlt (by omega)
      · exact (h0 (p + 1) hp1 _ (by omega)).symm
    unfold haloBackward
    dsimp only
    by_cases hp0 : 0 < p
    · by_cases hp1 : p + 1 < P
      · rw [if_pos hp0, if_pos hp1, if_pos hp0, if_pos hp1, ← e0, ← e1 hp0, ← e2 hp1, prev_rank hp0 hp, next_rank hp1]
        split_ifs <;> simp only [map_add, add_zero]
      · rw [if_pos hp0, if_neg hp1, if_pos hp0, if_neg hp1, ← e0, ← e1 hp0, prev_rank hp0 hp]
        split_ifs <;> simp only [map_add, add_zero]
    · by_cases hp1 : p + 1 < P
      · rw [if_neg hp0, if_pos hp1, if_neg hp0, if_pos hp1, ← e0, ← e2 hp1, next_rank hp1]
        split_ifs <;> simp only [map_add, add_zero]
      · rw [if_neg hp0, if_neg hp1, if_neg hp0, if_neg hp1, ← e0]
        simp only [add_zero]
  rw [hval]
  have hz : ∀ s ∈ range P, E s (blockStart n P p + i) = (if s = p then E p (blockStart n P p + i) else 0)
      + (if 0 < p ∧ s = p - 1 then E (p - 1) (blockStart n P p + i) else 0) + (if s = p + 1 then E (p + 1) (blockStart n P p + i) else 0) := by
    intro s hs
    have hs' := Finset.mem_range.1 hs
    have hb := blockStart_succ n P s
    have hb' := blockStart_succ n P p
    by_cases h1 : s = p
    · subst h1
      rw [if_pos rfl, if_neg (by omega), if_neg (by omega), add_zero, add_zero]
    · rw [if_neg h1]
      by_cases h2 : 0 < p ∧ s = p - 1
      · rw [if_pos h2, if_neg (by omega), ← h2.2, zero_add, add_zero]
      · rw [if_neg h2]
        by_cases h3 : s = p + 1
        · rw [if_pos h3, h3, zero_add, zero_add]
        · rw [if_neg h3, add_zero, add_zero]
          refine h0 s hs' _ ?_
          rcases Nat.lt_or_gt_of_ne h1 with h4 | h4
          · right
            have h5 : blockStart n P (s + 1) ≤ blockStart n P (p - 1) := hm (by omega)
            have h6 := blockStart_succ n P (p - 1)
            rw [Nat.sub_add_cancel (by omega)] at h6
            have h7 := hr (p - 1) (by omega)
            omega
          · left
            have h5 : blockStart n P (p + 2) ≤ blockStart n P s := hm (by omega)
            have h6 := blockStart_succ n P (p + 1)
            have h7 := hr (p + 1) (by omega)
            have h8 : blockStart n P (p + 2) = blockStart n P (p + 1) + blockSize n P (p + 1) := h6
            omega
  rw [Finset.sum_congr rfl hz, Finset.sum_add_distrib, Finset.sum_add_distrib, Finset.sum_ite_eq' (range P) p,
    Finset.sum_ite_eq' (range P) (p + 1), if_pos (Finset.mem_range.2 hp)]
  congr 1
  · congr 1
    by_cases hp0 : 0 < p
    · simp only [hp0, true_and]
      rw [if_pos trivial, Finset.sum_ite_eq' (range P) (p - 1), if_pos (Finset.mem_range.2 (by omega))]
    · simp [hp0]
  · simp only [Finset.mem_range]

end Verif.Ring
