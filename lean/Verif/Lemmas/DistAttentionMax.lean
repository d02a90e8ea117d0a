import Verif.Lemmas.DistAttentionGather
import Verif.Lemmas.DistAttentionUp
/-!
The running maximum of the ring-step attention: it is the maximum over the neighbours visited so far, whatever the order.
-/
namespace Verif.Ring
open Verif Verif.Dist Verif.Attn Verif.Spec Verif.Spec.Attn Verif.Spec.Ring Finset

theorem phaseMax_append (m : Option ℝ) (L L' : List Pt) : phaseMax m (L ++ L') = phaseMax (phaseMax m L) L' := List.foldl_append

theorem maxInf_comm (m : Option ℝ) (x y : ℝ) : maxInf (some (maxInf m x)) y = maxInf (some (maxInf m y)) x := by
  cases m with
  | none => exact max_comm x y
  | some m => show max (max m x) y = max (max m y) x; rw [max_assoc, max_comm x y, ← max_assoc]

theorem phaseMax_perm {L L' : List Pt} (h : L.Perm L') (m : Option ℝ) : phaseMax m L = phaseMax m L' := by
  unfold phaseMax
  refine h.foldl_eq' (fun x _ y _ z => ?_) m
  rw [maxInf_comm]

theorem phaseMax_congr {L L' : List Pt} (h : L.map Pt.q = L'.map Pt.q) (m : Option ℝ) : phaseMax m L = phaseMax m L' := by
  have : ∀ L : List Pt, phaseMax m L = (L.map Pt.q).foldl (fun m q => some (maxInf m q)) m := fun L => by
    unfold phaseMax; rw [List.foldl_map]
  rw [this, this, h]

theorem phaseMax_ne_none {L : List Pt} (h : L ≠ []) (m : Option ℝ) : ∃ n, phaseMax m L = some n := by
  cases L with
  | nil => exact absurd rfl h
  | cons t L => exact phaseMax_cons m t L

theorem phaseRescale_qmax (s : Acc) (L : List Pt) : (phaseRescale s (phaseMax s.qmax L)).qmax = phaseMax s.qmax L := by
  unfold phaseRescale
  by_cases h : s.qmax = phaseMax s.qmax L
  · rw [if_pos h]; exact h
  · rw [if_neg h]
    cases hm : phaseMax s.qmax L with
    | some n => rfl
    | none =>
      cases hL : L with
      | nil => rw [hL] at h; exact absurd rfl h
      | cons t L' =>
        obtain ⟨n, hn⟩ := phaseMax_cons s.qmax t L'
        rw [hL, hn] at hm
        simp at hm

theorem foldl_phaseAdd_qmax (L : List Pt) (s : Acc) : (L.foldl phaseAdd s).qmax = s.qmax := by
  induction L generalizing s with
  | nil => rfl
  | cons t L ih => rw [List.foldl_cons, ih]; rfl

theorem threePhase_qmax (s : Acc) (L : List Pt) : (threePhase s L).qmax = phaseMax s.qmax L := by
  unfold threePhase
  rw [foldl_phaseAdd_qmax, phaseRescale_qmax]

theorem gatherCell_qmax (psi : Pattern) (w : ℕ → ℝ) (nlonIn pscale lonLo : ℕ) (start : ℤ) (long : Bool) (k v q : RTen) (b ho wo : ℕ) (s : Acc) :
    (gatherCell psi w nlonIn pscale lonLo start long k v q b ho wo s).qmax
      = phaseMax s.qmax (chunkPts psi w nlonIn pscale lonLo start k v q b ho wo) := by
  unfold gatherCell chunkPts
  cases long with
  | true => rw [if_pos rfl]; exact threePhase_qmax _ _
  | false =>
    rw [if_neg (by simp)]
    generalize psi.row ho = R
    induction R generalizing s with
    | nil => rfl
    | cons z R ih =>
      rw [List.foldl_cons]
      cases hz : gatherHit psi nlonIn pscale lonLo start k wo z with
      | none => rw [List.filterMap_cons_none hz]; exact ih s
      | some t =>
        rw [List.filterMap_cons_some hz, List.map_cons, ih]
        rfl

theorem upKernel_qmax {ln : UpLaunch} (hok : UpLaunchOK ln) (psi : Pattern) (w : ℕ → ℝ) (g : Grids) (lonLo nlonOutLocal : ℕ) (start : ℤ)
    (q k v : RTen) (acc : ℕ → ℕ × ℕ → Acc) (b : ℕ) (c : ℕ × ℕ) :
    (upKernel psi w g lonLo nlonOutLocal start ln q k v acc b c).qmax
      = phaseMax (acc b c).qmax (upPts psi w g lonLo nlonOutLocal start q k v b c) := by
  unfold upKernel upPts
  rw [upAdd_cell, upMax_cell, foldl_phaseAdd_qmax, phaseRescale_qmax]
  exact phaseMax_perm (((hok.max _).filter _).map _) _

/-! ### The neighbours of a cell, in the order of the ring -/

/-- The part of the pattern that rank `(p, a)` stores. -/
def localPattern (g : Grids) (P : Pattern) (Pp Pa r p a : ℕ) : Pattern :=
  if g.upsample then localPsiUp (selectUp P g (blockStart g.nlatOut Pp p) (blockSize g.nlatOut Pp p) (blockStart g.nlonOut Pa a)
        ((blockStart g.nlatIn Pp p : ℤ) - r) (blockSize g.nlatIn Pp p + 2 * r))
  else localPsi P (blockStart g.nlatOut Pp p) (blockStart g.nlonOut Pa a) g.nlonIn (g.nlonIn / g.nlonOut)

/-- The points of chunk `s` that rank `(p, a)` uses for its output point `(h, wo)`. -/
def roundPts (g : Grids) (P : Pattern) (w : ℕ → ℝ) (Pp Pa r p a : ℕ) (k v q : RTen) (b h wo s : ℕ) : List Pt :=
  if g.upsample then upPts (localPattern g P Pp Pa r p a) w g (blockStart g.nlonIn Pa s) (blockSize g.nlonOut Pa a)
      ((blockStart g.nlatIn Pp p : ℤ) - r) q k v b (h, wo)
  else chunkPts (localPattern g P Pp Pa r p a) w g.nlonIn (g.nlonIn / g.nlonOut) (blockStart g.nlonIn Pa s)
      ((blockStart g.nlatIn Pp p : ℤ) - r) k v q b h wo

/-- The points that rank `(p, a)` has used for its output point `(h, wo)` after `n` rounds. -/
def cellPts (g : Grids) (P : Pattern) (w : ℕ → ℝ) (Pp Pa r p a : ℕ) (kh vh : ℕ → RTen) (q : RTen) (b h wo n : ℕ) : List Pt :=
  (List.range n).flatMap fun i =>
    roundPts g P w Pp Pa r p a (kh ((a + i) % Pa)) (vh ((a + i) % Pa)) q b h wo ((a + i) % Pa)

theorem cellPts_succ (g : Grids) (P : Pattern) (w : ℕ → ℝ) (Pp Pa r p a : ℕ) (kh vh : ℕ → RTen) (q : RTen) (b h wo n : ℕ) :
    cellPts g P w Pp Pa r p a kh vh q b h wo (n + 1) = cellPts g P w Pp Pa r p a kh vh q b h wo n ++
      roundPts g P w Pp Pa r p a (kh ((a + n) % Pa)) (vh ((a + n) % Pa)) q b h wo ((a + n) % Pa) := by
  unfold cellPts
  rw [List.range_succ, List.flatMap_append, List.flatMap_singleton]

/-- The scores do not depend on the values. -/
theorem cellPts_q (g : Grids) (P : Pattern) (w : ℕ → ℝ) (Pp Pa r p a : ℕ) (kh vh vh' : ℕ → RTen) (q : RTen) (b h wo n : ℕ) :
    (cellPts g P w Pp Pa r p a kh vh q b h wo n).map Pt.q = (cellPts g P w Pp Pa r p a kh vh' q b h wo n).map Pt.q := by
  unfold cellPts
  rw [List.map_flatMap, List.map_flatMap]
  refine congrArg (fun f => (List.range n).flatMap f) (funext fun i => ?_)
  unfold roundPts
  split
  · unfold upPts; rw [List.map_map, List.map_map]; rfl
  · unfold chunkPts; rw [List.map_map, List.map_map]; rfl

theorem cellPts_qw (g : Grids) (P : Pattern) (w : ℕ → ℝ) (Pp Pa r p a : ℕ) (kh vh vh' : ℕ → RTen) (q : RTen) (b h wo n : ℕ) (F : ℝ → ℝ → ℝ) :
    ((cellPts g P w Pp Pa r p a kh vh q b h wo n).map fun t => F t.q t.w) = (cellPts g P w Pp Pa r p a kh vh' q b h wo n).map fun t => F t.q t.w := by
  unfold cellPts
  rw [List.map_flatMap, List.map_flatMap]
  refine congrArg (fun f => (List.range n).flatMap f) (funext fun i => ?_)
  unfold roundPts
  split
  · unfold upPts; rw [List.map_map, List.map_map]; rfl
  · unfold chunkPts; rw [List.map_map, List.map_map]; rfl

/-- Every row that a local output point of rank `p` looks at lies in the halo. -/
def Covers (g : Grids) (P : Pattern) (Pp r p : ℕ) : Prop :=
  if g.upsample then ∀ hi < g.nlatIn, ∀ z ∈ P.row hi, blockStart g.nlatOut Pp p ≤ P.col z / g.nlonOut →
      P.col z / g.nlonOut < blockStart g.nlatOut Pp p + blockSize g.nlatOut Pp p →
      blockStart g.nlatIn Pp p ≤ hi + r ∧ hi < blockStart g.nlatIn Pp p + blockSize g.nlatIn Pp p + r
  else ∀ h < blockSize g.nlatOut Pp p, ∀ z ∈ P.row (blockStart g.nlatOut Pp p + h),
      blockStart g.nlatIn Pp p ≤ P.col z / g.nlonIn + r ∧ P.col z / g.nlonIn < blockStart g.nlatIn Pp p + blockSize g.nlatIn Pp p + r

/-- What the accumulators of one output point hold at the end. -/
theorem cell_avg {B Ck Cv Pp Pa : ℕ} (g : Grids) (w : ℕ → ℝ) (hPp : 0 < Pp) (hPa : 0 < Pa) {P : Pattern} (hP : PatternOK g P) (hi0 : 0 < g.nlonIn)
    (ho0 : 0 < g.nlonOut) (r p a : ℕ) (hp : p < Pp) (ha : a < Pa) (K V Q : T4) (kh vh : ℕ → RTen) (q : RTen)
    (hk : ∀ a < Pa, HaloTile B Ck g.nlatIn g.nlonIn Pp Pa r K p a (kh a)) (hv : ∀ a < Pa, HaloTile B Cv g.nlatIn g.nlonIn Pp Pa r V p a (vh a))
    (hq : Tile B Ck g.nlatOut g.nlonOut Pp Pa Q p a q) (hr : Covers g P Pp r p)
    {b c ho wo : ℕ} (hb : b < B) (hc : c < Cv) (hho : ho < blockSize g.nlatOut Pp p) (hwo : wo < blockSize g.nlonOut Pa a)
    {s : Acc} (hs : Inv (cellPts g P w Pp Pa r p a kh vh q b ho wo Pa) s) :
    s.y c / s.alphaSum = attention Ck w (neighbours g P) K V Q b c (blockStart g.nlatOut Pp p + ho) (blockStart g.nlonOut Pa a + wo) := by
  unfold Covers at hr
  unfold cellPts roundPts localPattern at hs
  by_cases hu : g.upsample = true
  · rw [if_pos hu] at hr
    simp only [hu, if_true] at hs
    have hd : g.nlonOut % g.nlonIn = 0 := by
      unfold Grids.upsample at hu
      exact (of_decide_eq_true hu).1
    rw [up_cell g w hPa ho0 hd r p a ha K V Q kh vh q hk hv hq hr hb hc hho hwo hs]
    unfold attention neighbours
    simp only [hu, if_true]
  · rw [if_neg hu] at hr
    have hu' : g.upsample = false := by simpa using hu
    simp only [hu'] at hs
    have hfit := hP.2
    rw [if_neg hu] at hfit
    rw [gather_cell g w hPa hP.1 hfit hi0 (g.nlonIn / g.nlonOut) r p a ha K V Q kh vh q hk hv hq hr hb hc hho hwo (block_lt hPp hp hho) hs]
    unfold attention neighbours
    simp only [hu']
    rfl

end Verif.Ring
