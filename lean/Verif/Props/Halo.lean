import Verif.Model.Halo
import Verif.Props.CollectiveGrad
/-!
Property theorems C50: latitude halo exchange.
-/
namespace Verif.Props
open Verif Verif.Dist Verif.Spec Finset

private theorem locate3 (a b c j : ℕ) :
    locate [a, b, c] j = if j < a then (0, j) else if j < a + b then (1, j - a) else
      if j < a + b + c then (2, j - a - b) else (3, j - a - b - c) := by
  unfold locate locate locate locate
  split_ifs <;> first | rfl | omega

private theorem prevRank_eq {P r : ℕ} (h : 0 < r) (hr : r < P) : prevRank P r = r - 1 := by
  unfold prevRank
  rw [show r + P - 1 = (r - 1) + P by omega, Nat.add_mod_right, Nat.mod_eq_of_lt (by omega)]

private theorem nextRank_eq {P r : ℕ} (hr : r + 1 < P) : nextRank P r = r + 1 := by
  unfold nextRank; exact Nat.mod_eq_of_lt hr

/-- What the exchange puts in the three parts of the result. -/
theorem halo_value {α : Type} [Zero α] (P : ℕ) (x : ℕ → Vec α) (rLat : ℕ) (h1 : 0 < rLat)
    (hx : ∀ r < P, rLat ≤ (x r).len) (r : ℕ) (hr : r < P) :
    ∃ y, haloForward P x rLat r = .ok y ∧ y.len = rLat + (x r).len + rLat ∧
      (∀ i < rLat, y.val i = if 0 < r then (x (r - 1)).val ((x (r - 1)).len - rLat + i) else 0) ∧
      (∀ i < (x r).len, y.val (rLat + i) = (x r).val i) ∧
      (∀ i < rLat, y.val (rLat + (x r).len + i) = if r + 1 < P then (x (r + 1)).val i else 0) := by
  let top : Vec α := if 0 < r then ⟨rLat, fun i => (x (r - 1)).val ((x (r - 1)).len - rLat + i)⟩ else Vec.zeros rLat
  let bot : Vec α := if r + 1 < P then ⟨rLat, fun i => (x (r + 1)).val i⟩ else Vec.zeros rLat
  have htop : haloRecvTop P x rLat r = .ok top := by
    unfold haloRecvTop
    by_cases h : 0 < r
    · have := hx (r - 1) (by omega)
      simp only [gt_iff_lt, h, if_true, top]
      rw [prevRank_eq h hr, Vec.takeLast, if_neg (by omega), min_eq_left this, recvInto, if_pos rfl]
    · simp [h, top]
  have hbot : haloRecvBot P x rLat r = .ok bot := by
    unfold haloRecvBot
    by_cases h : r + 1 < P
    · have := hx (r + 1) h
      simp only [h, if_true, bot]
      rw [nextRank_eq h, Vec.takeFirst, min_eq_left this, recvInto, if_pos rfl]
    · simp [h, bot]
  have htl : top.len = rLat := by simp only [top]; split <;> rfl
  have hbl : bot.len = rLat := by simp only [bot]; split <;> rfl
  let y := Vec.cat 3 (fun k => if k = 0 then top else if k = 1 then x r else bot)
  have hsz : (List.range 3).map (fun k => ((fun k => if k = 0 then top else if k = 1 then x r else bot) k).len)
      = [rLat, (x r).len, rLat] := by
    simp [List.range_succ, htl, hbl]
  have hv : ∀ j, y.val j = ((fun k => if k = 0 then top else if k = 1 then x r else bot)
      (min (locate [rLat, (x r).len, rLat] j).1 2)).val (locate [rLat, (x r).len, rLat] j).2 := by
    intro j
    rw [← hsz]
    rfl
  refine ⟨y, ?_, ?_, ?_, ?_, ?_⟩
  · unfold haloForward
    simp only [htop, hbot, bind, Except.bind, pure, Except.pure]
    rfl
  · show (List.map _ _).sum = _
    rw [hsz]; simp; omega
  · intro i hi
    rw [hv, locate3, if_pos hi]
    show top.val i = _
    simp only [top]
    split <;> rfl
  · intro i hi
    rw [hv, locate3, if_neg (by omega), if_pos (by omega)]
    simp
  · intro i hi
    rw [hv, locate3, if_neg (by omega), if_neg (by omega), if_pos (by omega)]
    rw [show rLat + (x r).len + i - rLat - (x r).len = i by omega]
    show bot.val i = _
    simp only [bot]
    split <;> rfl

/-- C50. After the exchange rank `r` holds its rows together with `rLat` rows on either side of the *global*
tensor, and zeros beyond the poles. -/
theorem C50_halo_window (n P : ℕ) (hP : 0 < P) {α : Type} [Zero α] (X : ℕ → α) (x : ℕ → Vec α)
    (hx : ∀ r < P, IsBlock n P X r (x r)) (rLat : ℕ) (h1 : 0 < rLat) (h2 : ∀ r < P, rLat ≤ blockSize n P r)
    (r : ℕ) (hr : r < P) :
    ∃ y, haloForward P x rLat r = .ok y ∧ y.len = blockSize n P r + 2 * rLat ∧
      ∀ i < blockSize n P r + 2 * rLat, ∀ row : ℤ, row = (blockStart n P r : ℤ) + i - rLat →
        y.val i = if 0 ≤ row ∧ row < n then X row.toNat else 0 := by
  obtain ⟨y, hy, hl, ht, hm, hb⟩ := halo_value P x rLat h1 (fun s hs => by rw [(hx s hs).1]; exact h2 s hs) r hr
  have hlen : ∀ s < P, (x s).len = blockSize n P s := fun s hs => (hx s hs).1
  rw [hlen r hr] at hl hm hb
  have hend : blockStart n P r + blockSize n P r ≤ n := by
    have := blockSize_pos (n := n) (P := P) (r := r)
    have h3 := h2 r hr
    have := block_lt (n := n) (P := P) (r := r) (i := blockSize n P r - 1) hP hr (by omega)
    omega
  refine ⟨y, hy, by omega, ?_⟩
  rintro i hi row rfl
  by_cases c1 : i < rLat
  · rw [ht i c1]
    by_cases hr0 : 0 < r
    · have hs := blockStart_succ n P (r - 1)
      rw [show r - 1 + 1 = r by omega] at hs
      have hle := h2 (r - 1) (by omega)
      rw [if_pos hr0, if_pos (by omega), hlen (r - 1) (by omega), (hx (r - 1) (by omega)).2 _ (by omega)]
      congr 1; omega
    · have h0 : r = 0 := by omega
      subst h0
      rw [if_neg (by omega), if_neg (by simp [blockStart]; omega)]
  · by_cases c2 : i < rLat + blockSize n P r
    · have := hm (i - rLat) (by omega)
      rw [show rLat + (i - rLat) = i by omega] at this
      rw [this, (hx r hr).2 _ (by omega), if_pos (by omega)]
      congr 1; omega
    · have := hb (i - rLat - blockSize n P r) (by omega)
      rw [show rLat + blockSize n P r + (i - rLat - blockSize n P r) = i by omega] at this
      rw [this]
      have hs := blockStart_succ n P r
      by_cases hr1 : r + 1 < P
      · have hle := h2 (r + 1) hr1
        have hlt := block_lt (n := n) (P := P) (r := r + 1) (i := i - rLat - blockSize n P r) hP hr1 (by omega)
        rw [if_pos hr1, (hx (r + 1) hr1).2 _ (by omega), if_pos (by omega)]
        congr 1; omega
      · have : r + 1 = P := by omega
        have hlast := blockStart_last (n := n) hP
        rw [← this] at hlast
        rw [if_neg hr1, if_neg]
        rw [this] at hlast hs
        omega

/-- C50 (adjoint). The backward pass is the adjoint of the exchange: halo gradients flow back to the owners. -/
theorem C50_halo_adjoint {R : Type} [CommRing R] (P : ℕ) (x g : ℕ → Vec R) (rLat : ℕ) (h1 : 0 < rLat)
    (hx : ∀ r < P, rLat ≤ (x r).len) :
    ∃ y : ℕ → Vec R, (∀ r < P, haloForward P x rLat r = .ok (y r)) ∧
      ∑ r ∈ range P, dot (y r).len (y r).val (g r).val =
        ∑ r ∈ range P, dot (x r).len (x r).val (haloBackward P (fun s => (x s).len) g rLat r).val := by
  have hf : ∀ r, ∃ y, r < P → (haloForward P x rLat r = .ok y ∧ y.len = rLat + (x r).len + rLat ∧
      (∀ i < rLat, y.val i = if 0 < r then (x (r - 1)).val ((x (r - 1)).len - rLat + i) else 0) ∧
      (∀ i < (x r).len, y.val (rLat + i) = (x r).val i) ∧
      (∀ i < rLat, y.val (rLat + (x r).len + i) = if r + 1 < P then (x (r + 1)).val i else 0)) := by
    intro r
    by_cases hr : r < P
    · obtain ⟨y, hy⟩ := halo_value P x rLat h1 hx r hr
      exact ⟨y, fun _ => hy⟩
    · exact ⟨x r, fun h => absurd h hr⟩
  choose y hy using hf
  refine ⟨y, fun r hr => (hy r hr).1, ?_⟩
  rcases P with _ | Q
  · simp
  let H := fun s => (x s).len
  let A : ℕ → R := fun r => ∑ i ∈ range rLat, (x r).val (H r - rLat + i) * (g (r + 1)).val i
  let B : ℕ → R := fun r => ∑ i ∈ range rLat, (x (r + 1)).val i * (g r).val (rLat + H r + i)
  let M : ℕ → R := fun r => ∑ i ∈ range (H r), (x r).val i * (g r).val (rLat + i)
  have hL : ∀ r ∈ range (Q + 1), dot (y r).len (y r).val (g r).val =
      (if 0 < r then A (r - 1) else 0) + M r + (if r + 1 < Q + 1 then B r else 0) := by
    intro r hr
    obtain ⟨-, e1, e2, e3, e4⟩ := hy r (mem_range.1 hr)
    unfold dot
    rw [e1, sum_range_add, sum_range_add]
    congr 1
    · congr 1
      · by_cases h : 0 < r
        · simp only [h, if_true, A]
          refine sum_congr rfl fun i hi => ?_
          rw [e2 i (mem_range.1 hi), if_pos h, show r - 1 + 1 = r by omega]
        · simp only [h, if_false]
          refine sum_eq_zero fun i hi => ?_
          rw [e2 i (mem_range.1 hi), if_neg h, zero_mul]
      · exact sum_congr rfl fun i hi => by rw [e3 i (mem_range.1 hi)]
    · by_cases h : r + 1 < Q + 1
      · simp only [h, if_true, B]
        exact sum_congr rfl fun i hi => by rw [e4 i (mem_range.1 hi), if_pos h]
      · simp only [h, if_false]
        exact sum_eq_zero fun i hi => by rw [e4 i (mem_range.1 hi), if_neg h, zero_mul]
  have hR : ∀ r ∈ range (Q + 1), dot (x r).len (x r).val (haloBackward (Q + 1) H g rLat r).val =
      M r + (if 0 < r then B (r - 1) else 0) + (if r + 1 < Q + 1 then A r else 0) := by
    intro r hr
    have hr := mem_range.1 hr
    have hlen := hx r hr
    have hsplit1 : ∀ f : ℕ → R, ∑ i ∈ range (H r), (if i < rLat then f i else 0) = ∑ i ∈ range rLat, f i := by
      intro f
      rw [← sum_filter]
      refine sum_congr ?_ fun _ _ => rfl
      ext i; simp only [mem_filter, mem_range]
      exact ⟨fun h => h.2, fun h => ⟨lt_of_lt_of_le h hlen, h⟩⟩
    have hsplit2 : ∀ f : ℕ → R, ∑ i ∈ range (H r), (if H r - rLat ≤ i then f i else 0)
        = ∑ i ∈ range rLat, f (H r - rLat + i) := by
      intro f
      have hH : H r = (H r - rLat) + rLat := by have : rLat ≤ H r := hlen; omega
      conv_lhs => rw [hH]
      rw [sum_range_add]
      rw [sum_eq_zero, zero_add]
      · refine sum_congr rfl fun i hi => ?_
        rw [if_pos (by omega)]
      · intro i hi
        rw [if_neg]
        have := mem_range.1 hi; omega
    have hval : ∀ i, (haloBackward (Q + 1) H g rLat r).val i = (g r).val (rLat + i)
        + (if 0 < r then (if i < rLat then (g (r - 1)).val (rLat + H (r - 1) + i) else 0) else 0)
        + (if r + 1 < Q + 1 then
            (if H r - rLat ≤ i then (g (r + 1)).val (i - (H r - rLat)) else 0) else 0) := by
      intro i
      simp only [haloBackward, gt_iff_lt]
      by_cases ha : 0 < r
      · by_cases hb : r + 1 < Q + 1
        · simp only [ha, hb, if_true, prevRank_eq ha hr, nextRank_eq hb]
          split_ifs <;> simp
        · simp only [ha, hb, if_true, if_false, prevRank_eq ha hr]
          split_ifs <;> simp
      · by_cases hb : r + 1 < Q + 1
        · simp only [ha, hb, if_true, if_false, nextRank_eq hb]
          split_ifs <;> simp
        · simp only [ha, hb, if_false]; simp
    unfold dot
    simp only [hval, mul_add, sum_add_distrib]
    congr 1
    · congr 1
      by_cases ha : 0 < r
      · simp only [ha, if_true, B, mul_ite, mul_zero]
        rw [show (x r).len = H r from rfl, hsplit1]
        refine sum_congr rfl fun i _ => ?_
        rw [show r - 1 + 1 = r by omega]
      · simp [ha]
    · by_cases hb : r + 1 < Q + 1
      · simp only [hb, if_true, A, mul_ite, mul_zero]
        rw [show (x r).len = H r from rfl, hsplit2]
        refine sum_congr rfl fun i _ => ?_
        rw [Nat.add_sub_cancel_left]
      · simp [hb]
  rw [sum_congr rfl hL, sum_congr rfl hR]
  simp only [sum_add_distrib]
  have s1 : ∀ F : ℕ → R, ∑ r ∈ range (Q + 1), (if 0 < r then F (r - 1) else 0) = ∑ r ∈ range Q, F r := by
    intro F; rw [sum_range_succ']; simp
  have s2 : ∀ F : ℕ → R, ∑ r ∈ range (Q + 1), (if r + 1 < Q + 1 then F r else 0) = ∑ r ∈ range Q, F r := by
    intro F
    rw [sum_range_succ, if_neg (by omega), add_zero]
    exact sum_congr rfl fun r hr => by rw [if_pos]; have := mem_range.1 hr; omega
  rw [s1, s2, s1, s2]; ring

/-- C50 (failure). If a neighbour has fewer rows than the halo, or the halo is empty (`x[-0:]` is all of `x`),
the message does not fit the receive buffer and the exchange fails on the rank below it. -/
theorem C50_halo_error {α : Type} [Zero α] (P : ℕ) (x : ℕ → Vec α) (rLat r : ℕ) (h0 : 0 < r) (hr : r < P)
    (h : (x (r - 1)).len < rLat ∨ (rLat = 0 ∧ 0 < (x (r - 1)).len)) :
    haloForward P x rLat r = .error .runtimeError := by
  have : recvInto rLat ((x (prevRank P r)).takeLast rLat) = Except.error PyErr.runtimeError := by
    rw [prevRank_eq h0 hr]
    unfold recvInto Vec.takeLast
    rw [if_neg]
    split
    · omega
    · simp only; omega
  simp [haloForward, haloRecvTop, h0, this, bind, Except.bind]

/-- Non-vacuity: 10 rows on 3 ranks with a halo of 2 rows. -/
example : ∀ r < 3, 2 ≤ blockSize 10 3 r := by decide

end Verif.Props
