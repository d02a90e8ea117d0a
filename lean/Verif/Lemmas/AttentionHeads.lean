import Verif.Lemmas.Arr
import Verif.Lemmas.AttentionRef
/-!
Head folding and unfolding entry by entry.
-/
namespace Verif.Attn
open Verif Verif.Spec.Attn Finset

/-- Every packed channel belongs to one head. -/
theorem packed_lt {n c nh C : ℕ} (hn : n < nh) (hc : c < C) : n * C + c < nh * C := by
  calc n * C + c < n * C + C := by omega
    _ = (n + 1) * C := by ring
    _ ≤ nh * C := Nat.mul_le_mul_right _ hn

theorem packed_split {j nh C : ℕ} (hj : j < nh * C) : j / C < nh ∧ j % C < C ∧ j / C * C + j % C = j := by
  have hC : 0 < C := Nat.pos_of_ne_zero fun h => by rw [h] at hj; simp at hj
  exact ⟨Nat.div_lt_of_lt_mul (by rw [Nat.mul_comm]; exact hj), Nat.mod_lt _ hC, by rw [Nat.mul_comm]; exact Nat.div_add_mod j C⟩

theorem refFold_ok {x : Arr} {B H W nh C : ℕ} (hx : x.shape = [B, H, W, nh * C]) (hB : 0 < B) (hH : 0 < H) (hW : 0 < W) (hn : 0 < nh) :
    ∃ y, refFold nh x = .ok y ∧ y.shape = [B * nh, C, H, W] ∧ ∀ b < B, ∀ n < nh, ∀ c < C, ∀ h < H, ∀ w < W,
      y.at [b * nh + n, c, h, w] = x.at [b, h, w, n * C + c] := by
  have h1 := reshape_infer x [some B, some H, some W, some nh, none] (B * (H * (W * nh))) C (by simp) (by simp)
    (by positivity) (by rw [hx]; simp; ring)
  set y1 : Arr := ⟨[B, H, W, nh, C], x.data⟩
  have e1 : y1.shape = [B, H, W, nh, C] := rfl
  obtain ⟨e2, e3⟩ := permute_03412 e1
  have h2 := reshape_infer (y1.permute [0, 3, 4, 1, 2]) [some (B * nh), none, some H, some W] (B * nh * (H * W)) C (by simp) (by simp)
    (by positivity) (by rw [e2]; simp; ring)
  refine ⟨⟨[B * nh, C, H, W], (y1.permute [0, 3, 4, 1, 2]).data⟩, ?_, rfl, fun b hb n hn c hc h hh w hw => ?_⟩
  · unfold refFold
    rw [hx]
    dsimp only
    rw [h1]
    exact h2
  · have e4 := e3 b hb h hh w hw n hn c hc
    have e5 : y1.at [b, h, w, n, c] = x.at [b, h, w, n * C + c] := by
      unfold Arr.at
      rw [e1, hx]
      refine congrArg x.data ?_
      rw [flat5, flat4]
      ring
    rw [← e5, ← e4]
    unfold Arr.at
    rw [e2]
    refine congrArg (Arr.data _) ?_
    rw [flat5, flat4]

theorem refUnfold_ok {x : Arr} {B H W nh C : ℕ} (hx : x.shape = [B * nh, C, H, W]) :
    ∃ y, refUnfold B nh x = .ok y ∧ y.shape = [B, H, W, nh * C] ∧ ∀ b < B, ∀ n < nh, ∀ c < C, ∀ h < H, ∀ w < W,
      y.at [b, h, w, n * C + c] = x.at [b * nh + n, c, h, w] := by
  have h1 := reshape_full x [B, nh, C, H, W] (by rw [hx]; simp; ring)
  set y1 : Arr := ⟨[B, nh, C, H, W], x.data⟩
  have e1 : y1.shape = [B, nh, C, H, W] := rfl
  obtain ⟨e2, e3⟩ := permute_03412 e1
  have h2 := reshape_full (y1.permute [0, 3, 4, 1, 2]) [B, H, W, nh * C] (by rw [e2]; simp)
  refine ⟨⟨[B, H, W, nh * C], (y1.permute [0, 3, 4, 1, 2]).data⟩, ?_, rfl, fun b hb n hn c hc h hh w hw => ?_⟩
  · unfold refUnfold
    rw [hx]
    dsimp only
    rw [show [some B, some nh, some C, some H, some W] = [B, nh, C, H, W].map some from rfl, h1]
    exact h2
  · have e4 := e3 b hb n hn c hc h hh w hw
    have e5 : y1.at [b, n, c, h, w] = x.at [b * nh + n, c, h, w] := by
      unfold Arr.at
      rw [e1, hx]
      refine congrArg x.data ?_
      rw [flat5, flat4]
    rw [← e5, ← e4]
    unfold Arr.at
    rw [e2]
    refine congrArg (Arr.data _) ?_
    rw [flat5, flat4]
    ring

theorem cpuFold_ok {x : Arr} {B H W nh C : ℕ} (hx : x.shape = [B, H, W, nh * C]) (hn : 0 < nh) :
    ∃ y, cpuFold nh x = .ok y ∧ y.shape = [B * nh, H, W, C] ∧ ∀ b < B, ∀ n < nh, ∀ c < C, ∀ h < H, ∀ w < W,
      y.at [b * nh + n, h, w, c] = x.at [b, h, w, n * C + c] := by
  by_cases h1 : nh = 1
  · subst h1
    refine ⟨x, by simp [cpuFold], by simpa using hx, fun b hb n hn c hc h hh w hw => ?_⟩
    have : n = 0 := by omega
    subst this
    simp
  have h1' := reshape_full x [B, H, W, nh, C] (by rw [hx]; simp)
  set y1 : Arr := ⟨[B, H, W, nh, C], x.data⟩
  have e1 : y1.shape = [B, H, W, nh, C] := rfl
  obtain ⟨e2, e3⟩ := permute_03124 e1
  have h2 := reshape_full (y1.permute [0, 3, 1, 2, 4]) [B * nh, H, W, C] (by rw [e2]; simp; ring)
  refine ⟨⟨[B * nh, H, W, C], (y1.permute [0, 3, 1, 2, 4]).data⟩, ?_, rfl, fun b hb n hn c hc h hh w hw => ?_⟩
  · unfold cpuFold
    rw [if_neg h1, hx]
    simp only [List.getD_cons_zero, List.getD_cons_succ]
    rw [Nat.mul_div_cancel_left _ hn]
    rw [show [some B, some H, some W, some nh, some C] = [B, H, W, nh, C].map some from rfl, h1']
    exact h2
  · have e4 := e3 b hb h hh w hw n hn c hc
    have e5 : y1.at [b, h, w, n, c] = x.at [b, h, w, n * C + c] := by
      unfold Arr.at
      rw [e1, hx]
      refine congrArg x.data ?_
      rw [flat5, flat4]
      ring
    rw [← e5, ← e4]
    unfold Arr.at
    rw [e2]
    refine congrArg (Arr.data _) ?_
    rw [flat5, flat4]

theorem cpuUnfold_ok {x : Arr} {B H W nh C : ℕ} (hx : x.shape = [B * nh, H, W, C]) (hn : 0 < nh) :
    ∃ y, cpuUnfold nh x = .ok y ∧ y.shape = [B, H, W, nh * C] ∧ ∀ b < B, ∀ n < nh, ∀ c < C, ∀ h < H, ∀ w < W,
      y.at [b, h, w, n * C + c] = x.at [b * nh + n, h, w, c] := by
  by_cases h1 : nh = 1
  · subst h1
    refine ⟨x, by simp [cpuUnfold], by simpa using hx, fun b hb n hn c hc h hh w hw => ?_⟩
    have : n = 0 := by omega
    subst this
    simp
  have h1' := reshape_full x [B, nh, H, W, C] (by rw [hx]; simp; ring)
  set y1 : Arr := ⟨[B, nh, H, W, C], x.data⟩
  have e1 : y1.shape = [B, nh, H, W, C] := rfl
  obtain ⟨e2, e3⟩ := permute_02314 e1
  have h2 := reshape_full (y1.permute [0, 2, 3, 1, 4]) [B, H, W, nh * C] (by rw [e2]; simp)
  refine ⟨⟨[B, H, W, nh * C], (y1.permute [0, 2, 3, 1, 4]).data⟩, ?_, rfl, fun b hb n hn c hc h hh w hw => ?_⟩
  · unfold cpuUnfold
    rw [if_neg h1, hx]
    simp only [List.getD_cons_zero, List.getD_cons_succ]
    rw [Nat.mul_div_cancel _ (by omega : 0 < nh)]
    rw [show [some B, some nh, some H, some W, some C] = [B, nh, H, W, C].map some from rfl, h1']
    exact h2
  · have e4 := e3 b hb n hn h hh w hw c hc
    have e5 : y1.at [b, n, h, w, c] = x.at [b * nh + n, h, w, c] := by
      unfold Arr.at
      rw [e1, hx]
      refine congrArg x.data ?_
      rw [flat5, flat4]
    rw [← e5, ← e4]
    unfold Arr.at
    rw [e2]
    refine congrArg (Arr.data _) ?_
    rw [flat5, flat4]
    ring

/-- Attention reads the queries of the output point and the keys and values of its neighbours, in one batch entry. -/
theorem attention_congr {C : ℕ} {w : ℕ → ℝ} {nb : ℕ → ℕ → List (ℕ × ℕ)} {k v q k' v' q' : T4} {b b' c c' ho wo : ℕ}
    (hk : ∀ p ∈ nb ho wo, ∀ e < C, k b e p.1 p.2 = k' b' e p.1 p.2) (hv : ∀ p ∈ nb ho wo, v b c p.1 p.2 = v' b' c' p.1 p.2)
    (hq : ∀ e < C, q b e ho wo = q' b' e ho wo) :
    attention C w nb k v q b c ho wo = attention C w nb k' v' q' b' c' ho wo := by
  have hs : ∀ p ∈ nb ho wo, score C k q b ho wo p = score C k' q' b' ho wo p := by
    intro p hp
    unfold score
    exact sum_congr rfl fun e he => by rw [hk p hp e (mem_range.1 he), hq e (mem_range.1 he)]
  unfold attention softAvg
  congr 2
  · exact List.map_congr_left fun p hp => by simp only [hs p hp, hv p hp]
  · exact List.map_congr_left fun p hp => by rw [hs p hp]

end Verif.Attn
