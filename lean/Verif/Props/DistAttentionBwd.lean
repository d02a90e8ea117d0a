import Verif.Lemmas.DistAttentionReduce
import Verif.Props.DistAttention
import Verif.Props.Attention
/-!
Property theorems C53, backward pass: distributed neighbourhood attention gives every rank its tile of the gradients.
-/
namespace Verif.Props
open Verif Verif.Dist Verif.Attn Verif.Ring Verif.Spec Verif.Spec.Attn Verif.Spec.Ring Finset

/-- `full` holds the part of rank `(p, a)` of the gradients of keys and values at all longitudes of its padded rows. -/
def IsParts (g : Grids) (P : Pattern) (w : ℕ → ℝ) (B Ck Cv Pp Pa r : ℕ) (K V Q DY : T4) (p a : ℕ) (full : T4 × T4) : Prop :=
  ∀ b < B, ∀ hl < blockSize g.nlatIn Pp p + 2 * r, ∀ hi < g.nlatIn, hi + r = blockStart g.nlatIn Pp p + hl →
      ∀ s < Pa, ∀ wl < blockSize g.nlonIn Pa s,
      (∀ c < Ck, full.1 b c hl (blockStart g.nlonIn Pa s + wl) = part (neighbours g P) (fun h x =>
        termK Ck Cv w (neighbours g P) K V Q DY b c (hi, blockStart g.nlonIn Pa s + wl)
        (blockStart g.nlatOut Pp p + h) (blockStart g.nlonOut Pa a + x)) (blockStart g.nlatOut Pp p) (blockSize g.nlatOut Pp p)
        (blockStart g.nlonOut Pa a) (blockSize g.nlonOut Pa a) (hi, blockStart g.nlonIn Pa s + wl)) ∧
      (∀ c < Cv, full.2 b c hl (blockStart g.nlonIn Pa s + wl) = part (neighbours g P) (fun h x =>
        termV Ck w (neighbours g P) K Q DY b c (hi, blockStart g.nlonIn Pa s + wl)
        (blockStart g.nlatOut Pp p + h) (blockStart g.nlonOut Pa a + x)) (blockStart g.nlatOut Pp p) (blockSize g.nlatOut Pp p)
        (blockStart g.nlonOut Pa a) (blockSize g.nlonOut Pa a) (hi, blockStart g.nlonIn Pa s + wl))

section
variable {g : Grids} {P : Pattern} {w : ℕ → ℝ} {Pp Pa B Ck Cv r : ℕ} (hPp : 0 < Pp) (hPa : 0 < Pa)
  {D : ℕ → ℕ → DAttn} (hF : RankFacts g P Pp Pa r D) {K V : T4} {S : ℕ → ℕ → Slot (ℕ → ℕ × ℕ → Acc)} {q dy : ℕ → ℕ → RTen}
  (hK : ∀ p < Pp, ∀ a < Pa, HaloTile B Ck g.nlatIn g.nlonIn Pp Pa r K p a (S p a).k)
  (hV : ∀ p < Pp, ∀ a < Pa, HaloTile B Cv g.nlatIn g.nlonIn Pp Pa r V p a (S p a).v)
include hPp hPa hF hK hV

/-- The loop of the ring runs through, whatever the kernel accumulates. -/
theorem ring_runs {σ : Type} (kernel : ℕ → ℕ → ℕ → ℕ → RTen → RTen → σ → σ) (init : σ) :
    ∃ st, ringLoop Pp Pa (fun p a => (D p a).lonIn) kernel (fun p a => ⟨(S p a).k, (S p a).v, init⟩) Pa = .ok st ∧
      ∀ p < Pp, ∀ a < Pa, (st p a).acc = iterAcc Pa kernel (fun p a => ⟨(S p a).k, (S p a).v, init⟩) p a Pa := by
  obtain ⟨st, hst, hst'⟩ := ringLoop_ok hPp hPa (fun p a => (D p a).lonIn) kernel (fun p a => ⟨(S p a).k, (S p a).v, init⟩)
    (fun p hp a ha a' ha' => ⟨(hK p hp a ha).B_eq.trans (hK p hp a' ha').B_eq.symm,
      (hK p hp a ha).C_eq.trans (hK p hp a' ha').C_eq.symm, (hK p hp a ha).H_eq.trans (hK p hp a' ha').H_eq.symm⟩)
    (fun p hp a ha a' ha' => ⟨(hV p hp a ha).B_eq.trans (hV p hp a' ha').B_eq.symm,
      (hV p hp a ha).C_eq.trans (hV p hp a' ha').C_eq.symm, (hV p hp a ha).H_eq.trans (hV p hp a' ha').H_eq.symm⟩)
    (fun p hp a ha a' ha' => by
      rw [hF.lonLen p hp a ha a' ha']
      exact ⟨(hK p hp a' ha').W_eq, (hV p hp a' ha').W_eq⟩) Pa le_rfl
  exact ⟨st, hst, fun p hp a ha => (hst' p hp a ha).1⟩

variable (hA : ∀ p < Pp, ∀ a < Pa, ∀ b < B, ∀ h < blockSize g.nlatOut Pp p, ∀ wo < blockSize g.nlonOut Pa a,
        Inv (cellPts g P w Pp Pa r p a (fun s => (S p s).k) (fun s => (S p s).v) (q p a) b h wo Pa) ((S p a).acc b (h, wo)) ∧
        ((S p a).acc b (h, wo)).qmax = phaseMax none (cellPts g P w Pp Pa r p a (fun s => (S p s).k) (fun s => (S p s).v) (q p a) b h wo Pa))
  {bl : ℕ → ℕ → ℕ → BLaunch}
  (hbl : ∀ p < Pp, ∀ a < Pa, ∀ step, BLaunchOK B (blockSize g.nlatOut Pp p) (blockSize g.nlonOut Pa a) (bl p a step))
include hA hbl

/-- Pass 1 computes the three sums over the neighbours. -/
theorem ringPass1_ok : ∃ stats, ringPass1 g w Pp Pa D bl S q dy = .ok stats ∧
    ∀ p < Pp, ∀ a < Pa, ∀ b < B, ∀ h < blockSize g.nlatOut Pp p, ∀ wo < blockSize g.nlonOut Pa a,
      Inv (statPts g P w Pp Pa r p a (fun s => (S p s).k) (fun s => (S p s).v) (q p a) (dy p a) b h wo Pa)
        ⟨packStats (stats p a b (h, wo)), ((S p a).acc b (h, wo)).alphaSum, ((S p a).acc b (h, wo)).qmax⟩ := by
  have hm : ∀ i, i % Pa < Pa := fun i => Nat.mod_lt _ hPa
  unfold ringPass1
  by_cases hu : g.upsample = true
  · rw [if_pos hu]
    set kernel : ℕ → ℕ → ℕ → ℕ → RTen → RTen → (ℕ → ℕ × ℕ → Stats) → ℕ → ℕ × ℕ → Stats := fun p a step src kc vc acc =>
      upStats (D p a).psi w g (offset (D p a).lonIn src) ((D p a).lonOut.getD a 0) (haloStart (D p a) p) (bl p a step).stats (q p a) (dy p a)
          kc vc (S p a).acc acc with hkernel
    obtain ⟨st, hst, hst'⟩ := ring_runs hPp hPa hF hK hV kernel (fun _ _ => Stats.init)
    simp only [bind, Except.bind, pure, Except.pure]
    rw [hst]
    refine ⟨_, rfl, fun p hp a ha b hb h hh wo hwo => ?_⟩
    refine stats_of_up g P w Pp Pa r p a _ _ (q p a) (dy p a) b h wo (hA p hp a ha b hb h hh wo hwo).1 ?_
    rw [hst' p hp a ha]
    have hinv : ∀ n ≤ Pa, ∀ m, packStats (iterAcc Pa kernel (fun p a => ⟨(S p a).k, (S p a).v, fun _ _ => Stats.init⟩) p a n b (h, wo)) m
        = ((statPts g P w Pp Pa r p a (fun s => (S p s).k) (fun s => (S p s).v) (q p a) (dy p a) b h wo n).map fun t =>
            Real.exp (t.q - ((S p a).acc b (h, wo)).qmax.getD 0) * t.w * t.v m).sum := by
      intro n
      induction n with
      | zero =>
        intro _ m
        show packStats Stats.init m = _
        unfold packStats Stats.init statPts cellPts
        simp
      | succ n ih =>
        intro hn m
        have he : iterAcc Pa kernel (fun p a => ⟨(S p a).k, (S p a).v, fun _ _ => Stats.init⟩) p a (n + 1)
            = upStats (localPattern g P Pp Pa r p a) w g (blockStart g.nlonIn Pa ((a + n) % Pa)) (blockSize g.nlonOut Pa a)
              ((blockStart g.nlatIn Pp p : ℤ) - r) (bl p a n).stats (q p a) (dy p a) (S p ((a + n) % Pa)).k (S p ((a + n) % Pa)).v (S p a).acc
              (iterAcc Pa kernel (fun p a => ⟨(S p a).k, (S p a).v, fun _ _ => Stats.init⟩) p a n) := by
          show kernel p a n ((a + n) % Pa) (S p ((a + n) % Pa)).k (S p ((a + n) % Pa)).v _ = _
          rw [hkernel]
          dsimp only
          rw [hF.lonOff p hp a ha _ (hm _), hF.outLon p hp a ha, hF.start p hp a ha, hF.psi_eq p hp a ha]
        rw [he, packStats_upStats (hbl p hp a ha n).stats, ih (by omega) m]
        unfold statPts
        rw [cellPts_succ, List.map_append, List.sum_append]
        unfold roundPts
        rw [if_pos hu]
    exact hinv Pa le_rfl
  · rw [if_neg hu]
    set kernel : ℕ → ℕ → ℕ → ℕ → RTen → RTen → (ℕ → ℕ × ℕ → BAcc) → ℕ → ℕ × ℕ → BAcc := fun p a step src kc vc acc =>
      bGatherKernel (D p a).psi w g.nlonIn (g.nlonIn / g.nlonOut) (offset (D p a).lonIn src) (haloStart (D p a) p) (bl p a step).pass1
          (q p a) (dy p a) kc vc acc with hkernel
    obtain ⟨st, hst, hst'⟩ := ring_runs hPp hPa hF hK hV kernel (fun _ _ => BAcc.init)
    simp only [bind, Except.bind, pure, Except.pure]
    rw [hst]
    refine ⟨_, rfl, fun p hp a ha b hb h hh wo hwo => ?_⟩
    rw [hst' p hp a ha]
    have hinv : ∀ n ≤ Pa, Inv (statPts g P w Pp Pa r p a (fun s => (S p s).k) (fun s => (S p s).v) (q p a) (dy p a) b h wo n)
          (pack (iterAcc Pa kernel (fun p a => ⟨(S p a).k, (S p a).v, fun _ _ => BAcc.init⟩) p a n b (h, wo))) ∧
        (pack (iterAcc Pa kernel (fun p a => ⟨(S p a).k, (S p a).v, fun _ _ => BAcc.init⟩) p a n b (h, wo))).qmax
          = phaseMax none (statPts g P w Pp Pa r p a (fun s => (S p s).k) (fun s => (S p s).v) (q p a) (dy p a) b h wo n) := by
      intro n
      induction n with
      | zero =>
        intro _
        have : pack BAcc.init = Acc.init := by
          unfold pack BAcc.init Acc.init
          congr 1
          funext m
          unfold packStats Stats.init
          simp
        refine ⟨?_, rfl⟩
        show Inv _ (pack BAcc.init)
        rw [this]
        exact Inv.init
      | succ n ih =>
        intro hn
        obtain ⟨ih1, ih2⟩ := ih (by omega)
        have he : iterAcc Pa kernel (fun p a => ⟨(S p a).k, (S p a).v, fun _ _ => BAcc.init⟩) p a (n + 1)
            = bGatherKernel (localPattern g P Pp Pa r p a) w g.nlonIn (g.nlonIn / g.nlonOut) (blockStart g.nlonIn Pa ((a + n) % Pa))
              ((blockStart g.nlatIn Pp p : ℤ) - r) (bl p a n).pass1 (q p a) (dy p a) (S p ((a + n) % Pa)).k (S p ((a + n) % Pa)).v
              (iterAcc Pa kernel (fun p a => ⟨(S p a).k, (S p a).v, fun _ _ => BAcc.init⟩) p a n) := by
          show kernel p a n ((a + n) % Pa) (S p ((a + n) % Pa)).k (S p ((a + n) % Pa)).v _ = _
          rw [hkernel]
          dsimp only
          rw [hF.lonOff p hp a ha _ (hm _), hF.start p hp a ha, hF.psi_eq p hp a ha]
        obtain ⟨long, hl⟩ := bGatherKernel_cell (hbl p hp a ha n).pass1 (localPattern g P Pp Pa r p a) w g.nlonIn (g.nlonIn / g.nlonOut)
          (blockStart g.nlonIn Pa ((a + n) % Pa)) ((blockStart g.nlatIn Pp p : ℤ) - r) (q p a) (dy p a) (S p ((a + n) % Pa)).k
          (S p ((a + n) % Pa)).v (iterAcc Pa kernel (fun p a => ⟨(S p a).k, (S p a).v, fun _ _ => BAcc.init⟩) p a n) hb hh hwo
        rw [he, hl, pack_gatherCell]
        unfold statPts at ih1 ih2 ⊢
        rw [cellPts_succ, phaseMax_append, ← ih2]
        unfold roundPts
        rw [if_neg hu]
        exact ⟨ih1.gatherCell _ _ _ _ _ _ _ _ _ _ _ _ _, gatherCell_qmax _ _ _ _ _ _ _ _ _ _ _ _ _ _⟩
    obtain ⟨h1, h2⟩ := hinv Pa le_rfl
    exact stats_of_gather g P w Pp Pa r p a _ _ (q p a) (dy p a) b h wo (hA p hp a ha b hb h hh wo hwo).1 (hA p hp a ha b hb h hh wo hwo).2 h1 h2

variable (hP : PatternOK g P) (hi0 : 0 < g.nlonIn) (ho0 : 0 < g.nlonOut) {Q DY : T4}
  (hq : ∀ p < Pp, ∀ a < Pa, Tile B Ck g.nlatOut g.nlonOut Pp Pa Q p a (q p a))
  (hdy : ∀ p < Pp, ∀ a < Pa, Tile B Cv g.nlatOut g.nlonOut Pp Pa DY p a (dy p a))
  (hZ : ∀ b < B, ∀ ho < g.nlatOut, ∀ wo < g.nlonOut, ((neighbours g P ho wo).map fun t => w t.1 * Real.exp (score Ck K Q b ho wo t)).sum ≠ 0)
  {stats : ℕ → ℕ → ℕ → ℕ × ℕ → Stats}
  (hst : ∀ p < Pp, ∀ a < Pa, ∀ b < B, ∀ h < blockSize g.nlatOut Pp p, ∀ wo < blockSize g.nlonOut Pa a,
      Inv (statPts g P w Pp Pa r p a (fun s => (S p s).k) (fun s => (S p s).v) (q p a) (dy p a) b h wo Pa)
        ⟨packStats (stats p a b (h, wo)), ((S p a).acc b (h, wo)).alphaSum, ((S p a).acc b (h, wo)).qmax⟩)
include hP hi0 ho0 hq hdy hZ hst

/-- Pass 2 leaves on every rank its part of the gradients at all longitudes of its padded rows. -/
theorem ringPass2_ok : ∃ full, ringPass2 g w Pp Pa D bl S q dy stats = .ok full ∧
    ∀ p < Pp, ∀ a < Pa, IsParts g P w B Ck Cv Pp Pa r K V Q DY p a (full p a) := by
  have hm : ∀ i, i % Pa < Pa := fun i => Nat.mod_lt _ hPa
  unfold ringPass2
  set kernel : ℕ → ℕ → ℕ → ℕ → RTen → RTen → Except PyErr (T4 × T4) → Except PyErr (T4 × T4) := fun p a step src kc vc acc =>
    pass2Step g w (D p a) p a src (bl p a step).pass2 (q p a) (dy p a) (S p a).acc
        (fun b c => (stats p a b c).integral * (1 / ((S p a).acc b c).alphaSum)) kc vc acc with hkernel
  obtain ⟨st, hst1, hst2⟩ := ring_runs hPp hPa hF hK hV kernel (.ok (fun _ _ _ _ => 0, fun _ _ _ _ => 0))
  simp only [bind, Except.bind]
  rw [hst1]
  dsimp only
  suffices hper : ∀ p < Pp, ∀ a < Pa, ∃ y, (st p a).acc = .ok y ∧ IsParts g P w B Ck Cv Pp Pa r K V Q DY p a y by
    obtain ⟨full, hfull, hfull'⟩ := collect_ok hPp hPa (f := fun p a => (st p a).acc) hper
    exact ⟨full, hfull, fun p hp a ha => (hfull' p hp a ha).2⟩
  intro p hp a ha
  rw [hst2 p hp a ha]
  have hZ' : ∀ b < B, ∀ h < blockSize g.nlatOut Pp p, ∀ wo < blockSize g.nlonOut Pa a,
      ((neighbours g P (blockStart g.nlatOut Pp p + h) (blockStart g.nlonOut Pa a + wo)).map fun t =>
        w t.1 * Real.exp (score Ck K Q b (blockStart g.nlatOut Pp p + h) (blockStart g.nlonOut Pa a + wo) t)).sum ≠ 0 :=
    fun b hb h hh wo hwo => hZ b hb _ (block_lt hPp hp hh) _ (block_lt hPa ha hwo)
  have hn : ∀ b < B, ∀ h < blockSize g.nlatOut Pp p, ∀ wo < blockSize g.nlonOut Pa a,
      (stats p a b (h, wo)).integral * (1 / ((S p a).acc b (h, wo)).alphaSum)
        = gbar Ck Cv w (neighbours g P) K V Q DY b (blockStart g.nlatOut Pp p + h) (blockStart g.nlonOut Pa a + wo) := by
    intro b hb h hh wo hwo
    rw [mul_one_div]
    exact (stats_avg hPp hPa hP hi0 ho0 hp ha (hK p hp) (hV p hp) (hq p hp a ha) (hdy p hp a ha) (hF.covers p hp) hb hh hwo
      (hst p hp a ha b hb h hh wo hwo)).1
  have hinv : ∀ n ≤ Pa, ∃ full, iterAcc Pa kernel (fun p a => ⟨(S p a).k, (S p a).v, .ok (fun _ _ _ _ => 0, fun _ _ _ _ => 0)⟩) p a n = .ok full ∧
      ∀ b < B, ∀ hl < blockSize g.nlatIn Pp p + 2 * r, ∀ hi < g.nlatIn, hi + r = blockStart g.nlatIn Pp p + hl →
      ∀ s < Pa, ∀ wl < blockSize g.nlonIn Pa s,
      (∀ c < Ck, full.1 b c hl (blockStart g.nlonIn Pa s + wl) = if ∃ i < n, (a + i) % Pa = s then part (neighbours g P) (fun h x =>
        termK Ck Cv w (neighbours g P) K V Q DY b c (hi, blockStart g.nlonIn Pa s + wl)
        (blockStart g.nlatOut Pp p + h) (blockStart g.nlonOut Pa a + x)) (blockStart g.nlatOut Pp p) (blockSize g.nlatOut Pp p)
        (blockStart g.nlonOut Pa a) (blockSize g.nlonOut Pa a) (hi, blockStart g.nlonIn Pa s + wl) else 0) ∧
      (∀ c < Cv, full.2 b c hl (blockStart g.nlonIn Pa s + wl) = if ∃ i < n, (a + i) % Pa = s then part (neighbours g P) (fun h x =>
        termV Ck w (neighbours g P) K Q DY b c (hi, blockStart g.nlonIn Pa s + wl)
        (blockStart g.nlatOut Pp p + h) (blockStart g.nlonOut Pa a + x)) (blockStart g.nlatOut Pp p) (blockSize g.nlatOut Pp p)
        (blockStart g.nlonOut Pa a) (blockSize g.nlonOut Pa a) (hi, blockStart g.nlonIn Pa s + wl) else 0) := by
    intro n
    induction n with
    | zero =>
      intro _
      refine ⟨_, rfl, fun b _ hl _ hi _ _ s _ wl _ => ⟨fun c _ => ?_, fun c _ => ?_⟩⟩ <;>
        rw [if_neg (by rintro ⟨i, h, _⟩; omega)]
    | succ n ih =>
      intro hn'
      obtain ⟨full, hfull, ih⟩ := ih (by omega)
      obtain ⟨d, hd, hdv⟩ := chunkGrads_ok (inorm := fun b c => (stats p a b c).integral * (1 / ((S p a).acc b c).alphaSum)) hPp hPa hP hi0 ho0 hp ha (hK p hp) (hV p hp) (hq p hp a ha) (hdy p hp a ha) (hF.covers p hp)
        (fun b hb h hh wo hwo => (hA p hp a ha b hb h hh wo hwo).1) hn hZ' (hF.psi_eq p hp a ha) (hF.outLat p hp a ha) (hF.outLon p hp a ha)
        (hF.start p hp a ha) (hm (a + n)) (hF.lonOff p hp a ha _ (hm _)) (hbl p hp a ha n).rows (hbl p hp a ha n).addK (hbl p hp a ha n).addV
      refine ⟨(addChunk (blockStart g.nlonIn Pa ((a + n) % Pa)) (blockSize g.nlonIn Pa ((a + n) % Pa)) d.1 full.1,
        addChunk (blockStart g.nlonIn Pa ((a + n) % Pa)) (blockSize g.nlonIn Pa ((a + n) % Pa)) d.2 full.2), ?_, ?_⟩
      · show kernel p a n ((a + n) % Pa) (S p ((a + n) % Pa)).k (S p ((a + n) % Pa)).v _ = _
        rw [hfull, hkernel]
        dsimp only
        unfold pass2Step
        dsimp only
        rw [hd]
        dsimp only
        rw [hF.lonOff p hp a ha _ (hm _), hF.lonLen p hp a ha _ (hm _)]
      · intro b hb hl hhl hi hhi he s hs wl hwl
        have hex : (∃ i < n + 1, (a + i) % Pa = s) ↔ (∃ i < n, (a + i) % Pa = s) ∨ s = (a + n) % Pa := by
          constructor
          · rintro ⟨i, hi, h⟩
            by_cases h' : i = n
            · right; rw [← h, h']
            · left; exact ⟨i, by omega, h⟩
          · rintro (⟨i, hi, h⟩ | h)
            · exact ⟨i, by omega, h⟩
            · exact ⟨n, by omega, h.symm⟩
        obtain ⟨i1, i2⟩ := ih b hb hl hhl hi hhi he s hs wl hwl
        by_cases hsn : s = (a + n) % Pa
        · have hno : ¬ ∃ i < n, (a + i) % Pa = s := by
            rintro ⟨i, hi, h⟩
            have := mod_inj (a := a) (by omega : i < Pa) (by omega : n < Pa) (h.trans hsn)
            omega
          obtain ⟨j1, j2⟩ := hdv b hb hl hhl hi hhi he wl (hsn ▸ hwl)
          refine ⟨fun c hc => ?_, fun c hc => ?_⟩
          · dsimp only
            rw [addChunk_at hwl, if_pos hsn, if_pos (hex.2 (Or.inr hsn)), i1 c hc, if_neg hno, zero_add, j1 c hc, hsn]
          · dsimp only
            rw [addChunk_at hwl, if_pos hsn, if_pos (hex.2 (Or.inr hsn)), i2 c hc, if_neg hno, zero_add, j2 c hc, hsn]
        · have hiff : (∃ i < n + 1, (a + i) % Pa = s) ↔ ∃ i < n, (a + i) % Pa = s := by
            rw [hex]; exact or_iff_left hsn
          refine ⟨fun c hc => ?_, fun c hc => ?_⟩
          · dsimp only
            rw [addChunk_at hwl, if_neg hsn, i1 c hc]
            simp only [hiff]
          · dsimp only
            rw [addChunk_at hwl, if_neg hsn, i2 c hc]
            simp only [hiff]
  obtain ⟨full, hfull, h⟩ := hinv Pa le_rfl
  refine ⟨full, hfull, fun b hb hl hhl hi hhi he s hs wl hwl => ?_⟩
  have hex := mod_surj ha hs
  obtain ⟨h1, h2⟩ := h b hb hl hhl hi hhi he s hs wl hwl
  refine ⟨fun c hc => ?_, fun c hc => ?_⟩
  · rw [h1 c hc, if_pos hex]
  · rw [h2 c hc, if_pos hex]

end

/-- The sums over the azimuth group and the backward pass of the halo exchange put the parts of all ranks together. -/
theorem halo_tile {g : Grids} {P : Pattern} {Pp Pa B C r : ℕ} (hPp : 0 < Pp) (hcov : ∀ p < Pp, Covers g P Pp r p)
    (hone : Pp = 1 → r = 0) (hr : ∀ s < Pp, r ≤ blockSize g.nlatIn Pp s) (T : ℕ → ℕ → ℕ × ℕ → ℕ → ℕ → ℝ) {own : ℕ → ℕ → RTen}
    (hB : ∀ p < Pp, ∀ a < Pa, (own p a).B = B) (hC : ∀ p < Pp, ∀ a < Pa, (own p a).C = C)
    (hH : ∀ p < Pp, ∀ a < Pa, (own p a).H = blockSize g.nlatIn Pp p + 2 * r) (hW : ∀ p < Pp, ∀ a < Pa, (own p a).W = blockSize g.nlonIn Pa a)
    (hval : ∀ p < Pp, ∀ a < Pa, ∀ b < B, ∀ c < C, ∀ hl < blockSize g.nlatIn Pp p + 2 * r, ∀ hi < g.nlatIn, hi + r = blockStart g.nlatIn Pp p + hl →
      ∀ x < blockSize g.nlonIn Pa a, (own p a).val b c hl x = ∑ a' ∈ range Pa, part (neighbours g P) (fun h y =>
        T b c (hi, blockStart g.nlonIn Pa a + x) (blockStart g.nlatOut Pp p + h) (blockStart g.nlonOut Pa a' + y)) (blockStart g.nlatOut Pp p)
        (blockSize g.nlatOut Pp p) (blockStart g.nlonOut Pa a') (blockSize g.nlonOut Pa a') (hi, blockStart g.nlonIn Pa a + x))
    {H : ℕ → ℕ} (hHs : ∀ s < Pp, H s = blockSize g.nlatIn Pp s) {G : T4}
    (hG : ∀ b c hi wi, G b c hi wi = ∑ p ∈ range Pp, ∑ a ∈ range Pa, part (neighbours g P) (fun h y =>
        T b c (hi, wi) (blockStart g.nlatOut Pp p + h) (blockStart g.nlonOut Pa a + y)) (blockStart g.nlatOut Pp p)
        (blockSize g.nlatOut Pp p) (blockStart g.nlonOut Pa a) (blockSize g.nlonOut Pa a) (hi, wi))
    {p a : ℕ} (hp : p < Pp) (ha : a < Pa) : Tile B C g.nlatIn g.nlonIn Pp Pa G p a (haloGrad Pp r H own p a) := by
  have hE0 : ∀ b c x, ∀ s < Pp, ∀ hi, hi + r < blockStart g.nlatIn Pp s ∨ blockStart g.nlatIn Pp s + blockSize g.nlatIn Pp s + r ≤ hi →
      ∑ a' ∈ range Pa, part (neighbours g P) (fun h y =>
        T b c (hi, blockStart g.nlonIn Pa a + x) (blockStart g.nlatOut Pp s + h) (blockStart g.nlonOut Pa a' + y)) (blockStart g.nlatOut Pp s)
        (blockSize g.nlatOut Pp s) (blockStart g.nlonOut Pa a') (blockSize g.nlonOut Pa a') (hi, blockStart g.nlonIn Pa a + x) = 0 :=
    fun b c x s hs hi h => Finset.sum_eq_zero fun a' _ => part_outside (hcov s hs) _ _ _ _ h
  unfold haloGrad
  by_cases hc : r > 0 ∧ Pp > 1
  · rw [if_pos hc]
    refine ⟨hB p hp a ha, hC p hp a ha, hHs p hp, hW p hp a ha, fun b hb c hcc i hi x hx => ?_⟩
    rw [hG]
    exact halo_collect (⟨⟨fun f => f b c x, rfl⟩, fun _ _ => rfl⟩ : (ℕ → ℕ → ℕ → ℝ) →+ ℝ) hr hHs (fun s => (own s a).viewLat) _ (hE0 b c x)
      (fun s hs hl hhl hi hhi he => hval s hs a ha b hb c hcc hl hhl hi hhi he x hx) hp hi
  · rw [if_neg hc]
    have hr0 : r = 0 := by
      by_contra h
      exact h (hone (by omega))
    subst hr0
    refine ⟨hB p hp a ha, hC p hp a ha, by rw [hH p hp a ha]; rfl, hW p hp a ha, fun b hb c hcc i hi x hx => ?_⟩
    rw [hG, hval p hp a ha b hb c hcc i (by omega) (blockStart g.nlatIn Pp p + i) (block_lt hPp hp hi) rfl x hx]
    symm
    refine Finset.sum_eq_single p ?_ ?_
    · intro s hs hne
      refine hE0 b c x s (Finset.mem_range.1 hs) _ ?_
      by_contra hcon
      push Not at hcon
      obtain ⟨h1, h2⟩ := hcon
      exact hne (block_unique (i := blockStart g.nlatIn Pp p + i - blockStart g.nlatIn Pp s) (r := s) (r' := p) (by omega) hi (by omega)).1
    · intro h; exact absurd (Finset.mem_range.2 hp) h

theorem reduceSlice_eq {Pa a : ℕ} (ha : a < Pa) (lo : ℕ) (full : ℕ → T4) (b c h x : ℕ) :
    reduceSlice Pa a lo full b c h x = ∑ a' ∈ range Pa, full a' b c h (lo + x) := by
  unfold reduceSlice
  split
  · rfl
  · have h1 : Pa = 1 := by omega
    subst h1
    rw [show a = 0 by omega, Finset.sum_range_one]

theorem neighbours_fit {g : Grids} {P : Pattern} (hP : PatternOK g P) (hi : 0 < g.nlonIn) {ho wo : ℕ} (hho : ho < g.nlatOut) :
    ∀ t ∈ neighbours g P ho wo, t.1 < g.nlatIn ∧ t.2 < g.nlonIn := by
  intro t ht
  unfold neighbours at ht
  by_cases hu : g.upsample = true
  · rw [if_pos hu] at ht
    exact mem_scatterNbrs ht
  · rw [if_neg hu] at ht
    have hfit := hP.2
    rw [if_neg hu] at hfit
    obtain ⟨z, hz, rfl⟩ := List.mem_map.1 ht
    exact ⟨(Nat.div_lt_iff_lt_mul hi).2 (hfit ho hho z hz), Nat.mod_lt _ hi⟩

/-- C53, backward: on any process grid on which the layer can be built, with halos no wider than the latitude blocks, and whatever the
order in which thread groups and atomic operations take effect, the backward pass returns to every rank its tile of the gradients of
`<dy, attention(k, v, q)>` for the global tensors, for those inputs that need one. -/
theorem C53_backward (g : Grids) (P : Pattern) (hP : PatternOK g P) (w : ℕ → ℝ) (Pp Pa B Ck Cv : ℕ) (hPp : 0 < Pp) (hPa : 0 < Pa)
    (hi : 0 < g.nlonIn) (ho : 0 < g.nlonOut) (D : ℕ → ℕ → DAttn)
    (hD : ∀ p < Pp, ∀ a < Pa, DAttn.init g P Pp Pa p a = .ok (D p a))
    (hr : ∀ p < Pp, ∀ a < Pa, ∀ s < Pp, (D p a).r ≤ blockSize g.nlatIn Pp s)
    (K V Q DY : T4) (k v q dy : ℕ → ℕ → RTen)
    (hk : ∀ p < Pp, ∀ a < Pa, Tile B Ck g.nlatIn g.nlonIn Pp Pa K p a (k p a))
    (hv : ∀ p < Pp, ∀ a < Pa, Tile B Cv g.nlatIn g.nlonIn Pp Pa V p a (v p a))
    (hq : ∀ p < Pp, ∀ a < Pa, Tile B Ck g.nlatOut g.nlonOut Pp Pa Q p a (q p a))
    (hdy : ∀ p < Pp, ∀ a < Pa, Tile B Cv g.nlatOut g.nlonOut Pp Pa DY p a (dy p a))
    (hZ : ∀ b < B, ∀ ho < g.nlatOut, ∀ wo < g.nlonOut, ((neighbours g P ho wo).map fun t => w t.1 * Real.exp (score Ck K Q b ho wo t)).sum ≠ 0)
    (gl : ℕ → ℕ → ℕ → Launch) (hgl : ∀ p < Pp, ∀ a < Pa, ∀ step, LaunchOK B (blockSize g.nlatOut Pp p) (blockSize g.nlonOut Pa a) (gl p a step))
    (ul : ℕ → ℕ → ℕ → UpLaunch) (hul : ∀ p < Pp, ∀ a < Pa, ∀ step, UpLaunchOK (ul p a step))
    (bl : ℕ → ℕ → ℕ → BLaunch)
    (hbl : ∀ p < Pp, ∀ a < Pa, ∀ step, BLaunchOK B (blockSize g.nlatOut Pp p) (blockSize g.nlonOut Pa a) (bl p a step)) (need : Need) :
    ∃ S G, ringState g w Pp Pa D gl ul k v q = .ok S ∧ ringBackward g w Pp Pa D bl S q dy need = .ok G ∧
      ∃ DK DV DQ : T4,
        (∀ p < Pp, ∀ a < Pa, GradTile need.k B Ck g.nlatIn g.nlonIn Pp Pa DK p a (G p a).k ∧
          GradTile need.v B Cv g.nlatIn g.nlonIn Pp Pa DV p a (G p a).v ∧ GradTile need.q B Ck g.nlatOut g.nlonOut Pp Pa DQ p a (G p a).q) ∧
        ∀ δK δV δQ : T4, HasDerivAt
          (fun t => inner4 B Cv g.nlatOut g.nlonOut DY (attention Ck w (neighbours g P) (line K δK t) (line V δV t) (line Q δQ t)))
          (inner4 B Ck g.nlatIn g.nlonIn DK δK + inner4 B Cv g.nlatIn g.nlonIn DV δV + inner4 B Ck g.nlatOut g.nlonOut DQ δQ) 0 := by
  have hF := rank_facts hP hPp hPa hi ho hD
  have hr' : ∀ s < Pp, (D 0 0).r ≤ blockSize g.nlatIn Pp s := fun s hs => hr 0 hPp 0 hPa s hs
  obtain ⟨S, hS, hK, hV, hA⟩ := ringState_ok w hPp hPa hF hr' q hk hv hgl hul
  have hder := attention_hasDerivAt B Ck Cv g.nlatIn g.nlonIn g.nlatOut g.nlonOut w (neighbours g P) K V Q DY
  have hgrad : ∃ G, ringBackward g w Pp Pa D bl S q dy need = .ok G ∧ ∀ p < Pp, ∀ a < Pa,
      GradTile need.k B Ck g.nlatIn g.nlonIn Pp Pa (gradK Ck Cv w (neighbours g P) g.nlatOut g.nlonOut K V Q DY) p a (G p a).k ∧
      GradTile need.v B Cv g.nlatIn g.nlonIn Pp Pa (gradV Ck w (neighbours g P) g.nlatOut g.nlonOut K Q DY) p a (G p a).v ∧
      GradTile need.q B Ck g.nlatOut g.nlonOut Pp Pa (gradQ Ck Cv w (neighbours g P) K V Q DY) p a (G p a).q := by
    unfold ringBackward
    by_cases hnone : (!(need.k || need.v || need.q)) = true
    · rw [if_pos hnone]
      refine ⟨_, rfl, fun p _ a _ => ?_⟩
      unfold GradTile
      have h1 : need.k = false := by cases h : need.k <;> simp_all
      have h2 : need.v = false := by cases h : need.v <;> simp_all
      have h3 : need.q = false := by cases h : need.q <;> simp_all
      rw [h1, h2, h3]
      exact ⟨rfl, rfl, rfl⟩
    · rw [if_neg hnone]
      obtain ⟨stats, hs1, hs2⟩ := ringPass1_ok (dy := dy) hPp hPa hF hK hV hA hbl
      obtain ⟨full0, h1, h2⟩ := ringPass2_ok hPp hPa hF hK hV hA hbl hP hi ho hq hdy hZ hs2
      have hfull : ∃ full, maybePass2 g w Pp Pa D bl S q dy stats need = .ok full ∧ ((need.k || need.v) = true → full = full0) := by
        unfold maybePass2
        by_cases hkv : (need.k || need.v) = true
        · rw [if_pos hkv]; exact ⟨full0, h1, fun _ => rfl⟩
        · rw [if_neg hkv]; exact ⟨_, rfl, fun h => absurd h hkv⟩
      obtain ⟨full, hf1, hf2⟩ := hfull
      simp only [bind, Except.bind, pure, Except.pure]
      rw [hs1]
      dsimp only
      rw [hf1]
      refine ⟨_, rfl, fun p hp a ha => ⟨?_, ?_, ?_⟩⟩
      · unfold GradTile
        dsimp only
        by_cases hn : need.k = true
        · rw [if_pos hn, if_pos hn, hF.r_eq p hp a ha]
          refine ⟨_, rfl, halo_tile hPp hF.covers hF.one hr' (own := fun p a => ⟨(S p a).k.B, (S p a).k.C, (S p a).k.H, (D p a).lonIn.getD a 0,
            reduceSlice Pa a (offset (D p a).lonIn a) fun a' => (full p a').1⟩) (fun b c u => termK Ck Cv w (neighbours g P) K V Q DY b c u)
            (fun p hp a ha => (hK p hp a ha).B_eq) (fun p hp a ha => (hK p hp a ha).C_eq) (fun p hp a ha => (hK p hp a ha).H_eq)
            (fun p hp a ha => hF.lonLen p hp a ha a ha) ?_ (fun s hs => hF.latLen s hs a ha s hs) (fun b c hi wi => gradK_parts hPp hPa _ _ _ _ _ _ _ _ _ _ _ _ _ _) hp ha⟩
          intro p hp a ha b hb c hc hl hhl hi' hhi he x hx
          dsimp only
          rw [reduceSlice_eq ha, hF.lonOff p hp a ha a ha]
          refine Finset.sum_congr rfl fun a' ha' => ?_
          rw [hf2 (by rw [hn]; rfl)]
          exact (h2 p hp a' (Finset.mem_range.1 ha') b hb hl hhl hi' hhi he a ha x hx).1 c hc
        · rw [if_neg hn, if_neg hn]
      · unfold GradTile
        dsimp only
        by_cases hn : need.v = true
        · rw [if_pos hn, if_pos hn, hF.r_eq p hp a ha]
          refine ⟨_, rfl, halo_tile hPp hF.covers hF.one hr' (own := fun p a => ⟨(S p a).v.B, (S p a).v.C, (S p a).k.H, (D p a).lonIn.getD a 0,
            reduceSlice Pa a (offset (D p a).lonIn a) fun a' => (full p a').2⟩) (fun b c u => termV Ck w (neighbours g P) K Q DY b c u)
            (fun p hp a ha => (hV p hp a ha).B_eq) (fun p hp a ha => (hV p hp a ha).C_eq) (fun p hp a ha => (hK p hp a ha).H_eq)
            (fun p hp a ha => hF.lonLen p hp a ha a ha) ?_ (fun s hs => hF.latLen s hs a ha s hs) (fun b c hi wi => gradV_parts hPp hPa _ _ _ _ _ _ _ _ _ _ _ _) hp ha⟩
          intro p hp a ha b hb c hc hl hhl hi' hhi he x hx
          dsimp only
          rw [reduceSlice_eq ha, hF.lonOff p hp a ha a ha]
          refine Finset.sum_congr rfl fun a' ha' => ?_
          rw [hf2 (by rw [hn]; cases need.k <;> rfl)]
          exact (h2 p hp a' (Finset.mem_range.1 ha') b hb hl hhl hi' hhi he a ha x hx).2 c hc
        · rw [if_neg hn, if_neg hn]
      · unfold GradTile
        dsimp only
        by_cases hn : need.q = true
        · rw [if_pos hn, if_pos hn]
          refine ⟨_, rfl, ⟨(hK p hp a ha).B_eq, (hK p hp a ha).C_eq, hF.outLat p hp a ha, hF.outLon p hp a ha, ?_⟩⟩
          intro b hb c hc h hh x hx
          obtain ⟨e1, e2, e3⟩ := stats_avg hPp hPa hP hi ho hp ha (hK p hp) (hV p hp) (hq p hp a ha) (hdy p hp a ha) (hF.covers p hp) hb hh hx
            (hs2 p hp a ha b hb h hh x hx)
          exact gradQ_eq Ck Cv w (neighbours g P) K V Q DY b c _ _ e1 (e2 c hc) (e3 c hc)
        · rw [if_neg hn, if_neg hn]
  obtain ⟨G, hG1, hG2⟩ := hgrad
  exact ⟨S, G, hS, hG1, _, _, _, hG2, fun δK δV δQ => hder δK δV δQ (fun ho' hho wo _ => neighbours_fit hP hi hho) hZ⟩

/-! ### The specialised kernel of pass 2 -/

/-- C53: the specialised kernel of pass 2 does not compare the local row with the halo before it uses it. An entry of the visited chunk whose
row is outside of the halo (and not the row just above it) is skipped by the generic kernel, and read and written out of bounds by the
specialised one. `C53_backward` shows that the halo the layer computes is wide enough for this never to happen. -/
theorem C53_special_kernel_unguarded (psi : Pattern) (nlonIn pscale lonLo : ℕ) (start : ℤ) (k : RTen) (wo z : ℕ)
    (hwin : lonLo ≤ (psi.col z % nlonIn + pscale * wo) % nlonIn ∧ (psi.col z % nlonIn + pscale * wo) % nlonIn < lonLo + k.W)
    (hrow : ((psi.col z / nlonIn : ℕ) : ℤ) < start - 1 ∨ start + k.H ≤ (psi.col z / nlonIn : ℕ)) :
    hitGeneric psi nlonIn pscale lonLo start k wo z = .skip ∧ hitSpecial psi nlonIn pscale lonLo start k wo z = .outside := by
  have e1 : psi.col z - psi.col z / nlonIn * nlonIn = psi.col z % nlonIn := by
    have := Nat.div_add_mod (psi.col z) nlonIn
    rw [Nat.mul_comm] at this
    omega
  have e2 : ∀ y : ℕ, y - y / nlonIn * nlonIn = y % nlonIn := by
    intro y
    have := Nat.div_add_mod y nlonIn
    rw [Nat.mul_comm] at this
    omega
  unfold hitGeneric gatherHit hitSpecial
  dsimp only
  rw [e1, e2, if_pos hwin, if_pos hwin, if_neg (by omega), if_neg (by omega), if_neg (by omega)]
  exact ⟨rfl, rfl⟩

/-! ### The hypotheses can be met -/

/-- Launches in reverse order, with the specialised kernel. -/
def revBLaunch (nlat nlon : ℕ) : BLaunch :=
  ⟨revLaunch nlat nlon, fun _ => List.reverse, ⟨true, fun h => nlat - 1 - h, fun _ _ => List.reverse, fun _ _ => id⟩⟩

theorem revBLaunch_ok (B nlat nlon : ℕ) : BLaunchOK B nlat nlon (revBLaunch nlat nlon) :=
  ⟨revLaunch_ok B nlat nlon, fun _ L => List.reverse_perm L, (revLaunch_ok B nlat nlon).rows, fun _ _ L => List.reverse_perm L,
    fun _ _ L => List.Perm.refl L⟩

/-- Positive weights and non-empty neighbourhoods: the sums of the weights do not vanish. -/
example (Ck : ℕ) (K Q : T4) (b ho wo : ℕ) :
    ((neighbours ⟨4, 4, 4, 2⟩ ringPattern ho wo).map fun t => (1 : ℝ) * Real.exp (score Ck K Q b ho wo t)).sum ≠ 0 := by
  refine (weight_sum_pos (w := fun _ => 1) ?_ (fun _ _ => one_pos) _).ne'
  have hu : ¬ (⟨4, 4, 4, 2⟩ : Grids).upsample = true := by decide
  unfold neighbours gatherNbrs Pattern.row ringPattern
  rw [if_neg hu]
  simp only [ne_eq, List.map_eq_nil_iff, List.range'_eq_nil_iff]
  omega

/-- A chunk of one row below the row of the entry. -/
example : hitSpecial ⟨fun _ => 0, fun h => h⟩ 2 1 0 2 ⟨1, 1, 1, 2, fun _ _ _ _ => 0⟩ 0 0 = .outside :=
  (C53_special_kernel_unguarded ⟨fun _ => 0, fun h => h⟩ 2 1 0 2 ⟨1, 1, 1, 2, fun _ _ _ _ => 0⟩ 0 0 (by decide) (Or.inl (by decide))).2

end Verif.Props
