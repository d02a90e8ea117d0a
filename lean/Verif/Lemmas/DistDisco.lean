import Verif.Model.DistDisco
import Verif.Lemmas.DistGrid
import Verif.Lemmas.Disco
import Verif.Props.Collectives
/-!
Lemmas for the distributed DISCO convolution: splitting the filter, and the collectives on parts of global tensors.
-/
namespace Verif.Dist
open Verif Verif.SHT Verif.Disco Verif.Spec Finset

variable {R : Type}

/-- The taps that read from the input latitudes of polar rank `p`, in local coordinates. -/
def localTaps (n P p : ℕ) (taps : List (Tap R)) : List (Tap R) :=
  (taps.filter fun a => blockStart n P p ≤ a.latIn ∧ a.latIn < blockStart n P p + blockSize n P p).map fun a =>
    { a with latIn := a.latIn - blockStart n P p }

theorem splitPsi_encode (n P p W : ℕ) (hp : p < P) (sh : List ℕ) (hsh : computeSplitShapes n P = .ok sh) (taps : List (Tap R))
    (h : ∀ a ∈ taps, a.lonIn < W) : splitPsi sh p W (taps.map (encode W)) = (localTaps n P p taps).map (encode W) := by
  unfold splitPsi localTaps
  dsimp only
  rw [css_offset_block hsh p hp.le, css_offset_block hsh (p + 1) hp, blockStart_succ, List.filter_map, List.map_map, List.map_map]
  have e : taps.filter ((fun e : Entry R => decide (e.col / W < blockStart n P p + blockSize n P p ∧ e.col / W ≥ blockStart n P p)) ∘ encode W)
      = taps.filter fun a => blockStart n P p ≤ a.latIn ∧ a.latIn < blockStart n P p + blockSize n P p := by
    apply List.filter_congr
    intro a ha
    simp only [Function.comp, encode, col_div (h a ha)]
    exact decide_eq_decide.2 (by constructor <;> rintro ⟨h1, h2⟩ <;> exact ⟨h2, h1⟩)
  rw [e]
  apply List.map_congr_left
  intro a ha
  have hl := h a (List.mem_of_mem_filter ha)
  simp only [Function.comp, encode, col_div hl, col_mod hl]

theorem localTaps_fits (n P p K Ho W : ℕ) (taps : List (Tap R)) (hf : Fits taps K Ho n W) :
    Fits (localTaps n P p taps) K Ho (blockSize n P p) W := by
  intro b hb
  unfold localTaps at hb
  obtain ⟨a, ha, rfl⟩ := List.mem_map.1 hb
  obtain ⟨ha1, ha2⟩ := List.mem_filter.1 ha
  obtain ⟨h1, h2, h3, h4⟩ := hf a ha1
  have := of_decide_eq_true ha2
  exact ⟨h1, h2, by show a.latIn - _ < _; omega, h4⟩

variable [CommSemiring R]

/-- Only values inside the grid matter. -/
theorem discoSum_congr (taps : List (Tap R)) (K Ho H W Wo : ℕ) (hf : Fits taps K Ho H W) (x y : ℕ → ℕ → R)
    (h : ∀ i < H, ∀ j < W, x i j = y i j) (k t p : ℕ) : discoSum taps W Wo x k t p = discoSum taps W Wo y k t p := by
  unfold discoSum
  congr 1
  apply List.map_congr_left
  intro a ha
  obtain ⟨-, -, h3, h4⟩ := hf a ha
  rw [h _ h3 _ (show a.column W Wo p < W from Nat.mod_lt _ (by omega))]

theorem list_sum_filter_ite {α : Type} (q : α → Bool) (f : α → R) (l : List α) :
    ((l.filter q).map f).sum = (l.map fun a => if q a then f a else 0).sum := by
  induction l with
  | nil => rfl
  | cons a l ih =>
    by_cases h : q a <;> simp [h, ih]

/-- The contributions of the latitude blocks add up to the documented sum. -/
theorem discoSum_blocks (taps : List (Tap R)) (K Ho n W Wo P : ℕ) (hP : 0 < P) (hf : Fits taps K Ho n W) (X : ℕ → ℕ → R) (k t q : ℕ) :
    ∑ p ∈ range P, discoSum (localTaps n P p taps) W Wo (fun i j => X (blockStart n P p + i) j) k t q = discoSum taps W Wo X k t q := by
  unfold discoSum localTaps
  simp only [List.map_map]
  have e : ∀ p, ((List.filter (fun a => decide (blockStart n P p ≤ a.latIn ∧ a.latIn < blockStart n P p + blockSize n P p)) taps).map
      ((fun a : Tap R => if a.ker = k ∧ a.latOut = t then a.val * X (blockStart n P p + a.latIn) (a.column W Wo q) else 0) ∘
        fun a => { a with latIn := a.latIn - blockStart n P p })).sum
      = (taps.map fun a => if blockStart n P p ≤ a.latIn ∧ a.latIn < blockStart n P p + blockSize n P p then
          (if a.ker = k ∧ a.latOut = t then a.val * X a.latIn (a.column W Wo q) else 0) else 0).sum := by
    intro p
    rw [list_sum_filter_ite]
    congr 1
    apply List.map_congr_left
    intro a _
    by_cases h : blockStart n P p ≤ a.latIn ∧ a.latIn < blockStart n P p + blockSize n P p
    · simp only [h, decide_true, if_true, and_self, Function.comp]
      rw [show blockStart n P p + (a.latIn - blockStart n P p) = a.latIn by omega]
      rfl
    · simp only [h, decide_false, if_false, Bool.false_eq_true]
  simp only [e]
  rw [sum_list_sum]
  congr 1
  apply List.map_congr_left
  intro a ha
  obtain ⟨r, hr, i, hi, hj⟩ := exists_block (n := n) (P := P) (j := a.latIn) hP (hf a ha).2.2.1
  rw [sum_eq_single r]
  · rw [if_pos (by omega)]
  · intro b _ hb
    rw [if_neg]
    rintro ⟨h1, h2⟩
    apply hb
    have := block_unique (n := n) (P := P) (r := b) (i := a.latIn - blockStart n P b) (r' := r) (i' := i) (by omega) hi (by omega)
    exact this.1
  · intro h; exact absurd (mem_range.2 hr) h

/-- The transposed sum at an owned latitude only needs the taps of the block. -/
theorem discoAdjoint_local (taps : List (Tap R)) (n P p W Wo : ℕ) (y : ℕ → ℕ → ℕ → R) (i j : ℕ) (hi : i < blockSize n P p) :
    discoAdjoint (localTaps n P p taps) W Wo y i j = discoAdjoint taps W Wo y (blockStart n P p + i) j := by
  unfold discoAdjoint localTaps
  rw [List.map_map, list_sum_filter_ite]
  congr 1
  apply List.map_congr_left
  intro a _
  by_cases h : blockStart n P p ≤ a.latIn ∧ a.latIn < blockStart n P p + blockSize n P p
  · simp only [h, decide_true, if_true, and_self, Function.comp]
    refine sum_congr rfl fun q _ => ?_
    have : (a.latIn - blockStart n P p = i) ↔ (a.latIn = blockStart n P p + i) := by omega
    simp only [this]
    rfl
  · simp only [h, decide_false, if_false, Bool.false_eq_true]
    symm
    apply sum_eq_zero
    intro q _
    rw [if_neg]
    rintro ⟨h1, -⟩
    exact h (by omega)

theorem discoAdjoint_congr (taps : List (Tap R)) (K Ho H W Wo : ℕ) (hf : Fits taps K Ho H W) (x y : ℕ → ℕ → ℕ → R)
    (h : ∀ k < K, ∀ t < Ho, ∀ q < Wo, x k t q = y k t q) (i j : ℕ) : discoAdjoint taps W Wo x i j = discoAdjoint taps W Wo y i j := by
  unfold discoAdjoint
  congr 1
  apply List.map_congr_left
  intro a ha
  obtain ⟨h1, h2, -, -⟩ := hf a ha
  refine sum_congr rfl fun q hq => ?_
  rw [h _ h1 _ h2 _ (mem_range.1 hq)]

section
variable {α : Type}

theorem polarReduceScatter_part [AddCommMonoid α] (n1 Pp Pa : ℕ) (c0 c2 : ℕ → Cut) (hp : 0 < Pp) (h1 : Pp ≤ n1) (Z : ℕ → ℕ → ℕ → ℕ → ℕ → α)
    (x : ℕ → ℕ → Ten3 α) (hx : ∀ p < Pp, ∀ a < Pa, IsPart (c0 a) (whole n1) (c2 a) (Z p a) (x p a)) (p : ℕ) (hp' : p < Pp) (a : ℕ)
    (ha' : a < Pa) :
    ∃ y, polarReduceScatter Pp x p a = .ok y ∧ IsPart (c0 a) ⟨n1, Pp, p⟩ (c2 a) (fun c j w => ∑ s ∈ range Pp, Z s a c j w) y := by
  obtain ⟨v, hv, hl, hb⟩ := Props.C48_reduce_scatter n1 Pp hp h1 (fun s => viewLat (x s a))
    (fun s hs => by show (x s a).d1 = n1; rw [(hx s hs a ha').2.1, whole_size]) p hp'
  refine ⟨⟨(x p a).d0, v.len, (x p a).d2, fun c j w => v.val j c w⟩, ?_, (hx p hp' a ha').1, hl, (hx p hp' a ha').2.2.1, ?_⟩
  · unfold polarReduceScatter reduceFromScatterToForward
    rw [hv]
  · intro i hi j hj k hk
    show v.val j i k = _
    rw [hb j hj]
    simp only [Finset.sum_apply]
    refine sum_congr rfl fun s hs => ?_
    have := (hx s (mem_range.1 hs) a ha').2.2.2 i hi (blockStart n1 Pp p + j)
      (by rw [whole_size]; exact block_lt hp hp' hj) k hk
    rw [whole_start, zero_add] at this
    exact this

theorem azimuthReduceScatter_part [AddCommMonoid α] (n2 Pp Pa : ℕ) (c0 c1 : ℕ → Cut) (ha : 0 < Pa) (h2 : Pa ≤ n2)
    (Z : ℕ → ℕ → ℕ → ℕ → ℕ → α)
    (x : ℕ → ℕ → Ten3 α) (hx : ∀ p < Pp, ∀ a < Pa, IsPart (c0 p) (c1 p) (whole n2) (Z p a) (x p a)) (p : ℕ) (hp' : p < Pp) (a : ℕ)
    (ha' : a < Pa) :
    ∃ y, azimuthReduceScatter Pa x p a = .ok y ∧ IsPart (c0 p) (c1 p) ⟨n2, Pa, a⟩ (fun c j w => ∑ s ∈ range Pa, Z p s c j w) y := by
  unfold azimuthReduceScatter
  split
  · obtain ⟨v, hv, hl, hb⟩ := Props.C48_reduce_scatter n2 Pa ha h2 (fun s => viewLon (x p s))
      (fun s hs => by show (x p s).d2 = n2; rw [(hx p hp' s hs).2.2.1, whole_size]) a ha'
    refine ⟨⟨(x p a).d0, (x p a).d1, v.len, fun c j w => v.val w c j⟩, ?_, (hx p hp' a ha').1, (hx p hp' a ha').2.1, hl, ?_⟩
    · unfold reduceFromScatterToForward
      rw [hv]
    · intro i hi j hj k hk
      show v.val k i j = _
      rw [hb k hk]
      simp only [Finset.sum_apply]
      refine sum_congr rfl fun s hs => ?_
      have := (hx p hp' s (mem_range.1 hs)).2.2.2 i hi j hj (blockStart n2 Pa a + k)
        (by rw [whole_size]; exact block_lt ha ha' hk)
      rw [whole_start, zero_add] at this
      exact this
  · have h1 : Pa = 1 := by omega
    subst h1
    obtain rfl : a = 0 := by omega
    refine ⟨_, rfl, ?_⟩
    simp only [sum_range_one]
    exact hx p hp' 0 ha'

theorem polarGather_part (n1 Pp Pa : ℕ) (c0 c2 : ℕ → Cut) (hp : 0 < Pp) (h1 : Pp ≤ n1) (X : ℕ → ℕ → ℕ → α)
    (x : ℕ → ℕ → Ten3 α) (hx : ∀ p < Pp, ∀ a < Pa, IsPart (c0 a) ⟨n1, Pp, p⟩ (c2 a) X (x p a)) (sz : List ℕ)
    (hsz : computeSplitShapes n1 Pp = .ok sz) (p : ℕ) (hp' : p < Pp) (a : ℕ) (ha' : a < Pa) :
    ∃ y, polarGather Pp x sz p a = .ok y ∧ IsPart (c0 a) (whole n1) (c2 a) X y := by
  have hloc : ∀ s < Pp, ∀ j < blockSize n1 Pp s, locate sz (blockStart n1 Pp s + j) = (s, j) := by
    intro s hs j hj
    have := locate_offset sz s j (by rw [css_getD_block hsz s hs]; exact hj)
    rwa [css_offset_block hsz s hs.le] at this
  obtain ⟨v, hv, hl, hb⟩ := Props.C46_gather n1 Pp hp h1 (fun j c w => (x (locate sz j).1 a).val c (locate sz j).2 w)
    (fun s => viewLat (x s a))
    (fun s hs => ⟨(hx s hs a ha').2.1, fun j hj => by funext c w; simp only [viewLat, hloc s hs j hj]⟩)
    (some sz) (fun l h => by cases h; exact hsz) p hp'
  refine ⟨⟨(x p a).d0, v.len, (x p a).d2, fun c j w => v.val j c w⟩, ?_, (hx p hp' a ha').1, by rw [whole_size]; exact hl, (hx p hp' a ha').2.2.1, ?_⟩
  · unfold polarGather gatherFromCopyToForward
    rw [hv]
  · intro i hi j hj k hk
    rw [whole_size] at hj
    show v.val j i k = _
    rw [hb j hj, whole_start, zero_add]
    obtain ⟨r, hr, i', hi', hj'⟩ := exists_block (n := n1) (P := Pp) (j := j) hp hj
    rw [hj']
    dsimp only
    rw [hloc r hr i' hi']
    exact (hx r hr a ha').2.2.2 i hi i' hi' k hk
end

end Verif.Dist
