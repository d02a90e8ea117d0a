import Verif.Lemmas.DistAttentionMax
import Verif.Spec.RingBwd
/-!
The backward pass of ring attention. Pass 1 runs the accumulators of the forward pass on the values `dy . v`, `k` and `(dy . v) k`.
-/
namespace Verif.Ring
open Verif Verif.Dist Verif.Attn Verif.Spec Verif.Spec.Attn Verif.Spec.Ring Finset

/-! ### Pass 1 -/

/-- The three sums as one vector. -/
def packStats (s : Stats) (n : ℕ) : ℝ := if n = 0 then s.integral else if n % 2 = 1 then s.alphaK (n / 2) else s.alphaKvw (n / 2 - 1)

theorem packStats_zero (s : Stats) : packStats s 0 = s.integral := rfl
theorem packStats_odd (s : Stats) (c : ℕ) : packStats s (2 * c + 1) = s.alphaK c := by
  unfold packStats
  rw [if_neg (by omega), if_pos (by omega), show (2 * c + 1) / 2 = c by omega]
theorem packStats_even (s : Stats) (c : ℕ) : packStats s (2 * c + 2) = s.alphaKvw c := by
  unfold packStats
  rw [if_neg (by omega), if_neg (by omega), show (2 * c + 2) / 2 - 1 = c by omega]

/-- The point of the forward pass with the three values. -/
def packPt (t : BPt) : Pt := ⟨t.q, t.w, packStats ⟨t.g, t.k, fun c => t.g * t.k c⟩⟩

def pack (s : BAcc) : Acc := ⟨packStats s.st, s.alphaSum, s.qmax⟩

theorem packStats_add (s : Stats) (alpha : ℝ) (t : BPt) (n : ℕ) : packStats (s.add alpha t) n = packStats s n + alpha * (packPt t).v n := by
  unfold packStats packPt packStats Stats.add
  dsimp only
  split
  · rfl
  · split
    · rfl
    · ring

theorem packStats_scale (x : ℝ) (s : Stats) (n : ℕ) : packStats (s.scale x) n = x * packStats s n := by
  unfold packStats Stats.scale
  dsimp only
  split
  · rfl
  · split <;> rfl

theorem pack_onePass (s : BAcc) (t : BPt) : pack (bOnePass s t) = onePass (pack s) (packPt t) := by
  unfold pack bOnePass onePass
  dsimp only
  congr 1
  · funext n
    rw [packStats_add, packStats_scale]
    rfl
  · rw [add_comm]; rfl

theorem pack_max (m : Option ℝ) (L : List BPt) : bPhaseMax m L = phaseMax m (L.map packPt) := by
  unfold bPhaseMax phaseMax
  rw [List.foldl_map]
  rfl

theorem pack_rescale (s : BAcc) (m : Option ℝ) : pack (bPhaseRescale s m) = phaseRescale (pack s) m := by
  unfold bPhaseRescale phaseRescale
  by_cases h : s.qmax = m
  · rw [if_pos h, if_pos (show (pack s).qmax = m from h)]
  · rw [if_neg h, if_neg (show ¬ (pack s).qmax = m from h)]
    cases m with
    | none => rfl
    | some n =>
      unfold pack
      dsimp only
      congr 1
      funext i
      exact packStats_scale _ _ _

theorem pack_add (s : BAcc) (t : BPt) : pack (bPhaseAdd s t) = phaseAdd (pack s) (packPt t) := by
  unfold pack bPhaseAdd phaseAdd
  dsimp only
  congr 1
  funext n
  exact packStats_add _ _ _ _

theorem pack_foldl_add (L : List BPt) (s : BAcc) : pack (L.foldl bPhaseAdd s) = (L.map packPt).foldl phaseAdd (pack s) := by
  induction L generalizing s with
  | nil => rfl
  | cons t L ih => rw [List.foldl_cons, ih, pack_add]; rfl

theorem pack_threePhase (s : BAcc) (L : List BPt) : pack (bThreePhase s L) = threePhase (pack s) (L.map packPt) := by
  unfold bThreePhase threePhase
  rw [pack_foldl_add, pack_rescale, pack_max]
  rfl

/-- The three values of every point of a chunk, for one output point. -/
def packTen (k v dy : RTen) (ho wo : ℕ) : RTen :=
  ⟨k.B, 2 * k.C + 1, k.H, k.W, fun b n h x => packStats ⟨∑ c ∈ range v.C, dy.val b c ho wo * v.val b c h x, fun c => k.val b c h x,
    fun c => (∑ c ∈ range v.C, dy.val b c ho wo * v.val b c h x) * k.val b c h x⟩ n⟩

theorem packPt_load (w : ℕ → ℝ) (k v q dy : RTen) (b ho wo : ℕ) (t : ℕ × ℕ × ℕ) :
    packPt (loadBPt w k v q dy b ho wo t) = loadPt w k (packTen k v dy ho wo) q b ho wo t := rfl

theorem packPt_up (w : ℕ → ℝ) (start : ℤ) (k v q dy : RTen) (b : ℕ) (e : Edge) :
    packPt (upBPt w start k v q dy b e) = upPt w start k (packTen k v dy e.cell.1 e.cell.2) q b e := by
  unfold packPt upBPt upPt packTen
  dsimp only
  have : ∑ c ∈ range v.C, v.val b c e.src.1 e.src.2 * dy.val b c e.cell.1 e.cell.2
      = ∑ c ∈ range v.C, dy.val b c e.cell.1 e.cell.2 * v.val b c e.src.1 e.src.2 := Finset.sum_congr rfl fun c _ => mul_comm _ _
  rw [this]

theorem pack_gatherCell (psi : Pattern) (w : ℕ → ℝ) (nlonIn pscale lonLo : ℕ) (start : ℤ) (long : Bool) (k v q dy : RTen) (b ho wo : ℕ) (s : BAcc) :
    pack (bGatherCell psi w nlonIn pscale lonLo start long k v q dy b ho wo s)
      = gatherCell psi w nlonIn pscale lonLo start long k (packTen k v dy ho wo) q b ho wo (pack s) := by
  unfold bGatherCell gatherCell
  cases long with
  | true =>
    rw [if_pos rfl, if_pos rfl, pack_threePhase, List.map_map]
    rfl
  | false =>
    rw [if_neg (by simp), if_neg (by simp)]
    generalize psi.row ho = R
    induction R generalizing s with
    | nil => rfl
    | cons z R ih =>
      rw [List.foldl_cons, List.foldl_cons, ih]
      cases gatherHit psi nlonIn pscale lonLo start k wo z with
      | none => rfl
      | some t =>
        dsimp only
        rw [pack_onePass, packPt_load]

theorem bGatherKernel_cell {B nlat nlon : ℕ} {ln : Launch} (hok : LaunchOK B nlat nlon ln) (psi : Pattern) (w : ℕ → ℝ)
    (nlonIn pscale lonLo : ℕ) (start : ℤ) (q dy k v : RTen) (acc : ℕ → ℕ × ℕ → BAcc) {b ho wo : ℕ} (hb : b < B) (hho : ho < nlat)
    (hwo : wo < nlon) : ∃ long, bGatherKernel psi w nlonIn pscale lonLo start ln q dy k v acc b (ho, wo)
      = bGatherCell psi w nlonIn pscale lonLo start long k v q dy b ho wo (acc b (ho, wo)) := by
  obtain ⟨hrows, hg⟩ := hok
  obtain ⟨hnd, hmem⟩ := hg b hb
  have hnd2 : ((List.range nlat).map ln.rowIdx).Nodup := hrows.nodup_iff.2 List.nodup_range
  obtain ⟨h, hh, rfl⟩ := List.mem_map.1 (hrows.mem_iff.2 (List.mem_range.2 hho))
  have hin := (hmem (h, wo)).2 ⟨List.mem_range.1 hh, hwo⟩
  refine ⟨decide (h < ln.nLong), ?_⟩
  unfold bGatherKernel
  refine foldl_update_at (ln.order b) (fun t => (ln.rowIdx t.1, t.2))
    (fun t s => bGatherCell psi w nlonIn pscale lonLo start (t.1 < ln.nLong) k v q dy b (ln.rowIdx t.1) t.2 s) (acc b) ?_ (h, wo) hin
  refine List.Nodup.map_on ?_ hnd
  intro x hx y hy hxy
  rw [Prod.mk.injEq] at hxy
  have h1 := List.inj_on_of_nodup_map hnd2 (List.mem_range.2 ((hmem x).1 hx).1) (List.mem_range.2 ((hmem y).1 hy).1) hxy.1
  exact Prod.ext h1 hxy.2

/-- Pass 1 in the upsampling direction adds the points of the chunk, weighted with the saved maximum. -/
theorem packStats_upStats {order : ℕ → List Edge → List Edge} (hok : ∀ b L, (order b L).Perm L) (psi : Pattern) (w : ℕ → ℝ) (g : Grids)
    (lonLo nlonOutLocal : ℕ) (start : ℤ) (q dy k v : RTen) (fwd : ℕ → ℕ × ℕ → Acc) (acc : ℕ → ℕ × ℕ → Stats) (b ho wo n : ℕ) :
    packStats (upStats psi w g lonLo nlonOutLocal start order q dy k v fwd acc b (ho, wo)) n = packStats (acc b (ho, wo)) n +
      ((upPts psi w g lonLo nlonOutLocal start q k (packTen k v dy ho wo) b (ho, wo)).map
        fun t => Real.exp (t.q - (fwd b (ho, wo)).qmax.getD 0) * t.w * t.v n).sum := by
  unfold upStats upPts
  dsimp only
  rw [foldl_update_cell _ (fun e : Edge => e.cell)
    (fun (e : Edge) (x : Stats) => x.add (Real.exp ((upBPt w start k v q dy b e).q - (fwd b e.cell).qmax.getD 0) * (upBPt w start k v q dy b e).w) (upBPt w start k v q dy b e))]
  set edges := upEdges psi g.nlonOut (g.nlonOut / g.nlonIn) lonLo nlonOutLocal k.H k.W
  have key : ∀ (L : List Edge) (s : Stats), (∀ e ∈ L, e.cell = (ho, wo)) →
      packStats (L.foldl (fun x e => x.add (Real.exp ((upBPt w start k v q dy b e).q - (fwd b e.cell).qmax.getD 0) * (upBPt w start k v q dy b e).w)
        (upBPt w start k v q dy b e)) s) n = packStats s n + ((L.map (upPt w start k (packTen k v dy ho wo) q b)).map
        fun t => Real.exp (t.q - (fwd b (ho, wo)).qmax.getD 0) * t.w * t.v n).sum := by
    intro L
    induction L with
    | nil => intro s _; simp
    | cons e L ih =>
      intro s he
      have h1 : e.cell = (ho, wo) := he e List.mem_cons_self
      rw [List.foldl_cons, ih _ fun e' he' => he e' (List.mem_cons_of_mem _ he'), packStats_add, packPt_up, h1, List.map_cons, List.map_cons,
        List.sum_cons, ← add_assoc]
      rfl
  rw [key _ _ fun e he => by simpa using (List.mem_filter.1 he).2]
  congr 1
  exact ((((hok b edges).filter _).map _).map _).sum_eq

/-! ### What pass 1 leaves -/

section
variable (g : Grids) (P : Pattern) (w : ℕ → ℝ) (Pp Pa r p a : ℕ) (kh vh : ℕ → RTen) (q dy : RTen) (b h wo : ℕ)

/-- The points of pass 1. -/
def statPts (n : ℕ) : List Pt := cellPts g P w Pp Pa r p a kh (fun s => packTen (kh s) (vh s) dy h wo) q b h wo n

/-- Gather direction: pass 1 repeats the forward pass with the three values, so its sum and maximum are those that the forward pass saved. -/
theorem stats_of_gather {fwd : Acc} (hf : Inv (cellPts g P w Pp Pa r p a kh vh q b h wo Pa) fwd)
    (hm : fwd.qmax = phaseMax none (cellPts g P w Pp Pa r p a kh vh q b h wo Pa)) {s : BAcc}
    (hs : Inv (statPts g P w Pp Pa r p a kh vh q dy b h wo Pa) (pack s))
    (hsm : s.qmax = phaseMax none (statPts g P w Pp Pa r p a kh vh q dy b h wo Pa)) :
    Inv (statPts g P w Pp Pa r p a kh vh q dy b h wo Pa) ⟨packStats s.st, fwd.alphaSum, fwd.qmax⟩ := by
  have hq := phaseMax_congr (cellPts_q g P w Pp Pa r p a kh vh (fun s => packTen (kh s) (vh s) dy h wo) q b h wo Pa) none
  have e1 : s.qmax = fwd.qmax := by rw [hsm, hm, hq]; rfl
  have hqw := congrArg List.sum (cellPts_qw g P w Pp Pa r p a kh vh (fun s => packTen (kh s) (vh s) dy h wo) q b h wo Pa
    fun q w => w * Real.exp q)
  have e2 : s.alphaSum = fwd.alphaSum := by
    rcases hf with ⟨h1, h2⟩ | ⟨m, h1, h2, _⟩
    · rcases hs with ⟨h3, h4⟩ | ⟨m, h3, _⟩
      · rw [h2]; exact congrArg Acc.alphaSum h4
      · have : s.qmax = some m := h3
        rw [e1, h2] at this
        simp [Acc.init] at this
    · rcases hs with ⟨h3, h4⟩ | ⟨m', h3, h4, _⟩
      · have h5 : s.qmax = none := congrArg Acc.qmax h4
        rw [e1, h1] at h5
        simp at h5
      · have h5 : s.qmax = some m' := h3
        rw [e1, h1, Option.some.injEq] at h5
        subst h5
        have h6 : s.alphaSum * Real.exp m = fwd.alphaSum * Real.exp m := by rw [h2, hqw]; exact h4
        exact mul_right_cancel₀ (Real.exp_ne_zero m) h6
  rw [← e1, ← e2]
  exact hs

/-- Upsampling direction: pass 1 adds with the saved maximum. -/
theorem stats_of_up {fwd : Acc} (hf : Inv (cellPts g P w Pp Pa r p a kh vh q b h wo Pa) fwd) {s : Stats}
    (hs : ∀ n, packStats s n = ((statPts g P w Pp Pa r p a kh vh q dy b h wo Pa).map fun t => Real.exp (t.q - fwd.qmax.getD 0) * t.w * t.v n).sum) :
    Inv (statPts g P w Pp Pa r p a kh vh q dy b h wo Pa) ⟨packStats s, fwd.alphaSum, fwd.qmax⟩ := by
  have hqw := congrArg List.sum (cellPts_qw g P w Pp Pa r p a kh vh (fun s => packTen (kh s) (vh s) dy h wo) q b h wo Pa
    fun q w => w * Real.exp q)
  have hlen := congrArg List.length (cellPts_q g P w Pp Pa r p a kh vh (fun s => packTen (kh s) (vh s) dy h wo) q b h wo Pa)
  rw [List.length_map, List.length_map] at hlen
  rcases hf with ⟨h1, h2⟩ | ⟨m, h1, h2, _⟩
  · rw [h1] at hlen
    have h3 : statPts g P w Pp Pa r p a kh vh q dy b h wo Pa = [] := List.eq_nil_of_length_eq_zero hlen.symm
    rw [h3]
    refine Or.inl ⟨rfl, ?_⟩
    rw [h2]
    unfold Acc.init
    congr 1
    funext n
    rw [hs n, h3]
    rfl
  · refine Or.inr ⟨m, h1, ?_, fun c => ?_⟩
    · show fwd.alphaSum * _ = _
      rw [h2, hqw]; rfl
    · show packStats s c * _ = _
      rw [hs c, h1, Option.getD_some, ← list_sum_mul_right]
      refine list_sum_congr fun t _ => ?_
      rw [Real.exp_sub]
      field_simp

end

/-! ### The sums over the neighbours -/

/-- A sum over the points that the kernels visit is the sum over the neighbours. -/
theorem cell_key {B Ck Cv Pp Pa : ℕ} (g : Grids) (w : ℕ → ℝ) (hPp : 0 < Pp) (hPa : 0 < Pa) {P : Pattern} (hP : PatternOK g P) (hi0 : 0 < g.nlonIn)
    (ho0 : 0 < g.nlonOut) (r p a : ℕ) (hp : p < Pp) (ha : a < Pa) (K V Q : T4) (kh vh : ℕ → RTen) (q : RTen)
    (hk : ∀ a < Pa, HaloTile B Ck g.nlatIn g.nlonIn Pp Pa r K p a (kh a)) (hv : ∀ a < Pa, HaloTile B Cv g.nlatIn g.nlonIn Pp Pa r V p a (vh a))
    (hq : Tile B Ck g.nlatOut g.nlonOut Pp Pa Q p a q) (hr : Covers g P Pp r p)
    {b ho wo : ℕ} (hb : b < B) (hho : ho < blockSize g.nlatOut Pp p) (hwo : wo < blockSize g.nlonOut Pa a) (F : Pt → ℝ) (G : ℕ × ℕ → ℝ)
    (hFG : ∀ hi < g.nlatIn, ∀ wi < g.nlonIn, ∀ t : Pt, t.q = score Ck K Q b (blockStart g.nlatOut Pp p + ho) (blockStart g.nlonOut Pa a + wo) (hi, wi) →
      t.w = w hi → (∀ c < Cv, t.v c = V b c hi wi) → F t = G (hi, wi)) :
    ((cellPts g P w Pp Pa r p a kh vh q b ho wo Pa).map F).sum
      = ((neighbours g P (blockStart g.nlatOut Pp p + ho) (blockStart g.nlonOut Pa a + wo)).map G).sum := by
  unfold Covers at hr
  unfold cellPts roundPts localPattern neighbours
  by_cases hu : g.upsample = true
  · rw [if_pos hu] at hr
    simp only [hu, if_true]
    have hd : g.nlonOut % g.nlonIn = 0 := by
      unfold Grids.upsample at hu
      exact (of_decide_eq_true hu).1
    rw [list_sum_flatMap, list_sum_range, ring_sum ha (fun i => ((upPts (localPsiUp (selectUp P g (blockStart g.nlatOut Pp p)
        (blockSize g.nlatOut Pp p) (blockStart g.nlonOut Pa a) ((blockStart g.nlatIn Pp p : ℤ) - r) (blockSize g.nlatIn Pp p + 2 * r))) w g
        (blockStart g.nlonIn Pa i) (blockSize g.nlonOut Pa a) ((blockStart g.nlatIn Pp p : ℤ) - r) q (kh i) (vh i) b (ho, wo)).map F).sum)]
    rw [← up_key g hPa ho0 hd r p a ha hr hho hwo
      (fun i s => F (upPt w ((blockStart g.nlatIn Pp p : ℤ) - r) (kh i) (vh i) q b ⟨(ho, wo), s⟩)) G ?_]
    · refine Finset.sum_congr rfl fun i hi' => ?_
      have hi := Finset.mem_range.1 hi'
      rw [upPts_sum, upEdges_sum, (hk i hi).W_eq, (hk i hi).H_eq]
    · intro s0 hs0 hi hhi hl wi hwi h1 h2
      refine hFG hi hhi _ (block_lt hPa hs0 hwi) _ ?_ ?_ ?_
      · unfold upPt score
        dsimp only
        rw [hq.C_eq]
        refine Finset.sum_congr rfl fun c' hc' => ?_
        have hc'' := Finset.mem_range.1 hc'
        rw [hq.val_eq b hb c' hc'' ho hho wo hwo, (hk s0 hs0).val_eq b hb c' hc'' hl h1 wi hwi hi hhi h2, mul_comm]
      · show w (((blockStart g.nlatIn Pp p : ℤ) - r) + hl).toNat = w hi
        congr 1; omega
      · intro c hc
        exact (hv s0 hs0).val_eq b hb c hc hl h1 wi hwi hi hhi h2
  · rw [if_neg hu] at hr
    have hu' : g.upsample = false := by simpa using hu
    simp only [hu']
    have hfit := hP.2
    rw [if_neg hu] at hfit
    show (((List.range Pa).flatMap fun i => chunkPts (localPsi P (blockStart g.nlatOut Pp p) (blockStart g.nlonOut Pa a) g.nlonIn
        (g.nlonIn / g.nlonOut)) w g.nlonIn (g.nlonIn / g.nlonOut) (blockStart g.nlonIn Pa ((a + i) % Pa)) ((blockStart g.nlatIn Pp p : ℤ) - r)
        (kh ((a + i) % Pa)) (vh ((a + i) % Pa)) q b ho wo).map F).sum = ((gatherNbrs P g.nlonIn (g.nlonIn / g.nlonOut)
          (blockStart g.nlatOut Pp p + ho) (blockStart g.nlonOut Pa a + wo)).map G).sum
    rw [list_sum_flatMap, list_sum_range, ring_sum ha (fun i => ((chunkPts (localPsi P (blockStart g.nlatOut Pp p) (blockStart g.nlonOut Pa a) g.nlonIn
        (g.nlonIn / g.nlonOut)) w g.nlonIn (g.nlonIn / g.nlonOut) (blockStart g.nlonIn Pa i)
        ((blockStart g.nlatIn Pp p : ℤ) - r) (kh i) (vh i) q b ho wo).map F).sum)]
    simp only [chunkPts, List.map_map]
    refine gather_key g hPa hP.1 hfit hi0 _ r p _ kh (fun s hs => ⟨(hk s hs).H_eq, (hk s hs).W_eq⟩) hr hho (block_lt hPp hp hho)
      (fun i => F ∘ loadPt w (kh i) (vh i) q b ho wo) G ?_
    intro s0 hs0 t hi hhi wi hwi h1 h2 h3 h4
    refine hFG hi hhi _ (block_lt hPa hs0 hwi) _ ?_ ?_ ?_
    · unfold loadPt score
      dsimp only
      rw [hq.C_eq]
      refine Finset.sum_congr rfl fun c' hc' => ?_
      have hc'' := Finset.mem_range.1 hc'
      rw [hq.val_eq b hb c' hc'' ho hho wo hwo, h3, (hk s0 hs0).val_eq b hb c' hc'' t.1 h1 wi hwi hi hhi h2]
    · show w t.2.2 = w hi
      rw [h4]
    · intro c hc
      show (vh s0).val b c t.1 t.2.1 = _
      rw [h3]
      exact (hv s0 hs0).val_eq b hb c hc t.1 h1 wi hwi hi hhi h2

/-- The three values of every input point, for one output point of the global tensors. -/
def packGlobal (Cv : ℕ) (K V DY : T4) (ho wo : ℕ) : T4 := fun b n hi wi =>
  packStats ⟨gdot Cv V DY b ho wo (hi, wi), fun c => K b c hi wi, fun c => gdot Cv V DY b ho wo (hi, wi) * K b c hi wi⟩ n

theorem packStats_congr {s t : Stats} {C n : ℕ} (hn : n < 2 * C + 1) (h1 : s.integral = t.integral) (h2 : ∀ c < C, s.alphaK c = t.alphaK c)
    (h3 : ∀ c < C, s.alphaKvw c = t.alphaKvw c) : packStats s n = packStats t n := by
  unfold packStats
  split
  · exact h1
  · split
    · exact h2 _ (by omega)
    · exact h3 _ (by omega)

theorem packTen_tile {B Ck Cv n1 n2 m1 m2 Pp Pa r p a s : ℕ} {K V DY : T4} {k v dy : RTen}
    (hk : HaloTile B Ck n1 n2 Pp Pa r K p s k) (hv : HaloTile B Cv n1 n2 Pp Pa r V p s v) (hdy : Tile B Cv m1 m2 Pp Pa DY p a dy)
    {ho wo : ℕ} (hho : ho < blockSize m1 Pp p) (hwo : wo < blockSize m2 Pa a) :
    HaloTile B (2 * Ck + 1) n1 n2 Pp Pa r (packGlobal Cv K V DY (blockStart m1 Pp p + ho) (blockStart m2 Pa a + wo)) p s (packTen k v dy ho wo) := by
  refine ⟨hk.B_eq, by show 2 * k.C + 1 = _; rw [hk.C_eq], hk.H_eq, hk.W_eq, ?_⟩
  intro b hb n hn h hh x hx row hrow he
  have hg : ∑ c ∈ range v.C, dy.val b c ho wo * v.val b c h x
      = gdot Cv V DY b (blockStart m1 Pp p + ho) (blockStart m2 Pa a + wo) (row, blockStart n2 Pa s + x) := by
    unfold gdot
    rw [hv.C_eq]
    refine Finset.sum_congr rfl fun c hc => ?_
    have hc' := Finset.mem_range.1 hc
    rw [hdy.val_eq b hb c hc' ho hho wo hwo, hv.val_eq b hb c hc' h hh x hx row hrow he]
  unfold packTen packGlobal
  dsimp only
  refine packStats_congr hn hg (fun c hc => hk.val_eq b hb c hc h hh x hx row hrow he) fun c hc => ?_
  dsimp only
  rw [hg, hk.val_eq b hb c hc h hh x hx row hrow he]

theorem softAvg_prob (Ck : ℕ) (w : ℕ → ℝ) (nb : ℕ → ℕ → List (ℕ × ℕ)) (K Q : T4) (b ho wo : ℕ) (f : ℕ × ℕ → ℝ) :
    softAvg (nb ho wo) (fun p => w p.1) (score Ck K Q b ho wo) f = ((nb ho wo).map fun p => prob Ck w nb K Q b ho wo p * f p).sum := by
  unfold softAvg prob
  rw [div_eq_mul_inv, ← list_sum_mul_right]
  refine list_sum_congr fun p _ => ?_
  ring

section
variable {B Ck Cv Pp Pa : ℕ} {g : Grids} {w : ℕ → ℝ} (hPp : 0 < Pp) (hPa : 0 < Pa) {P : Pattern} (hP : PatternOK g P) (hi0 : 0 < g.nlonIn)
  (ho0 : 0 < g.nlonOut) {r p a : ℕ} (hp : p < Pp) (ha : a < Pa) {K V Q DY : T4} {kh vh : ℕ → RTen} {q dy : RTen}
  (hk : ∀ a < Pa, HaloTile B Ck g.nlatIn g.nlonIn Pp Pa r K p a (kh a)) (hv : ∀ a < Pa, HaloTile B Cv g.nlatIn g.nlonIn Pp Pa r V p a (vh a))
  (hq : Tile B Ck g.nlatOut g.nlonOut Pp Pa Q p a q) (hdy : Tile B Cv g.nlatOut g.nlonOut Pp Pa DY p a dy) (hr : Covers g P Pp r p)
  {b ho wo : ℕ} (hb : b < B) (hho : ho < blockSize g.nlatOut Pp p) (hwo : wo < blockSize g.nlonOut Pa a)
include hPp hPa hP hi0 ho0 hp ha hk hv hq hr hb hho hwo

include hdy in
/-- The sums of pass 1, divided by the sum of the weights. -/
theorem stats_avg {s : Stats} {A : ℝ} {m : Option ℝ} (hs : Inv (statPts g P w Pp Pa r p a kh vh q dy b ho wo Pa) ⟨packStats s, A, m⟩) :
    s.integral / A = gbar Ck Cv w (neighbours g P) K V Q DY b (blockStart g.nlatOut Pp p + ho) (blockStart g.nlonOut Pa a + wo) ∧
    (∀ c < Ck, s.alphaK c / A = ((neighbours g P (blockStart g.nlatOut Pp p + ho) (blockStart g.nlonOut Pa a + wo)).map fun t =>
      prob Ck w (neighbours g P) K Q b (blockStart g.nlatOut Pp p + ho) (blockStart g.nlonOut Pa a + wo) t * K b c t.1 t.2).sum) ∧
    (∀ c < Ck, s.alphaKvw c / A = ((neighbours g P (blockStart g.nlatOut Pp p + ho) (blockStart g.nlonOut Pa a + wo)).map fun t =>
      prob Ck w (neighbours g P) K Q b (blockStart g.nlatOut Pp p + ho) (blockStart g.nlonOut Pa a + wo) t *
        (gdot Cv V DY b (blockStart g.nlatOut Pp p + ho) (blockStart g.nlonOut Pa a + wo) t * K b c t.1 t.2)).sum) := by
  have key : ∀ n < 2 * Ck + 1, packStats s n / A = _ := fun n hn =>
    cell_avg g w hPp hPa hP hi0 ho0 r p a hp ha K (packGlobal Cv K V DY (blockStart g.nlatOut Pp p + ho) (blockStart g.nlonOut Pa a + wo)) Q kh
      (fun s => packTen (kh s) (vh s) dy ho wo) q hk (fun s hs => packTen_tile (hk s hs) (hv s hs) hdy hho hwo) hq hr hb hn hho hwo hs
  refine ⟨?_, fun c hc => ?_, fun c hc => ?_⟩
  · have := key 0 (by omega)
    rw [packStats_zero] at this
    rw [this]
    unfold attention gbar
    rw [softAvg_prob]
    rfl
  · have := key (2 * c + 1) (by omega)
    rw [packStats_odd] at this
    rw [this]
    unfold attention packGlobal
    rw [softAvg_prob]
    simp only [packStats_odd]
  · have := key (2 * c + 2) (by omega)
    rw [packStats_even] at this
    rw [this]
    unfold attention packGlobal
    rw [softAvg_prob]
    simp only [packStats_even]

/-- The softmax weight that pass 2 computes for a neighbour. -/
theorem alpha_eq {fwd : Acc} (hf : Inv (cellPts g P w Pp Pa r p a kh vh q b ho wo Pa) fwd)
    (hZ : ((neighbours g P (blockStart g.nlatOut Pp p + ho) (blockStart g.nlonOut Pa a + wo)).map fun t =>
      w t.1 * Real.exp (score Ck K Q b (blockStart g.nlatOut Pp p + ho) (blockStart g.nlonOut Pa a + wo) t)).sum ≠ 0)
    {t : BPt} {u : ℕ × ℕ} (h1 : t.q = score Ck K Q b (blockStart g.nlatOut Pp p + ho) (blockStart g.nlonOut Pa a + wo) u) (h2 : t.w = w u.1) :
    bwdAlpha fwd t = prob Ck w (neighbours g P) K Q b (blockStart g.nlatOut Pp p + ho) (blockStart g.nlonOut Pa a + wo) u := by
  have hsum := cell_key (B := B) (Ck := Ck) (Cv := Cv) g w hPp hPa hP hi0 ho0 r p a hp ha K V Q kh vh q hk hv hq hr hb hho hwo
    (fun t => t.w * Real.exp t.q) (fun u => w u.1 * Real.exp (score Ck K Q b (blockStart g.nlatOut Pp p + ho) (blockStart g.nlonOut Pa a + wo) u))
    (fun hi _ wi _ t h1 h2 _ => by rw [h1, h2])
  unfold bwdAlpha prob
  rw [← hsum] at hZ ⊢
  rcases hf with ⟨h3, _⟩ | ⟨m, h3, h4, _⟩
  · rw [h3] at hZ; simp at hZ
  · rw [← h4] at hZ ⊢
    rw [h3, Option.getD_some, h1, h2, Real.exp_sub]
    have hA : fwd.alphaSum ≠ 0 := fun h => hZ (by rw [h, zero_mul])
    field_simp

end

/-- The gradient of the queries from the three sums. -/
theorem gradQ_eq (Ck Cv : ℕ) (w : ℕ → ℝ) (nb : ℕ → ℕ → List (ℕ × ℕ)) (K V Q DY : T4) (b c ho wo : ℕ) {A I k1 k2 : ℝ}
    (h1 : I / A = gbar Ck Cv w nb K V Q DY b ho wo) (h2 : k1 / A = ((nb ho wo).map fun t => prob Ck w nb K Q b ho wo t * K b c t.1 t.2).sum)
    (h3 : k2 / A = ((nb ho wo).map fun t => prob Ck w nb K Q b ho wo t * (gdot Cv V DY b ho wo t * K b c t.1 t.2)).sum) :
    (1 / A) ^ 2 * (A * k2 - I * k1) = gradQ Ck Cv w nb K V Q DY b c ho wo := by
  have e : (1 / A) ^ 2 * (A * k2 - I * k1) = k2 / A - I / A * (k1 / A) := by
    by_cases hA : A = 0
    · subst hA; simp
    · field_simp
  rw [e, h1, h2, h3, ← list_sum_mul_left, sub_eq_add_neg, ← neg_one_mul, ← list_sum_mul_left, ← list_sum_add]
  unfold gradQ
  refine list_sum_congr fun t _ => ?_
  ring

end Verif.Ring
