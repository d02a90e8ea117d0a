import Mathlib.Tactic.Ring
import Mathlib.Tactic.NormNum
import Mathlib.Data.Nat.ModEq
import Mathlib.Data.List.Forall2
import Verif.Model.AttentionOp
/-!
Row-major arithmetic for the shape operations.
-/
namespace Verif.Attn
open Verif Verif.Spec.Attn Finset

theorem flat_lt {i s : List ℕ} (h : Inside i s) : flat s i < s.prod := by
  induction h with
  | nil => simp [flat]
  | @cons i n is s hi _ ih =>
    simp only [flat, List.prod_cons]
    calc i * s.prod + flat s is < i * s.prod + s.prod := by omega
      _ = (i + 1) * s.prod := by ring
      _ ≤ n * s.prod := Nat.mul_le_mul_right _ hi

theorem unflat_flat {i s : List ℕ} (h : Inside i s) : unflat s (flat s i) = i := by
  induction h with
  | nil => rfl
  | @cons i n is s hi hr ih =>
    have hlt := flat_lt hr
    simp only [flat, unflat]
    have hp : 0 < s.prod := by omega
    rw [Nat.add_comm, Nat.add_mul_div_right _ _ hp, Nat.div_eq_of_lt hlt, Nat.add_mul_mod_self_right, Nat.mod_eq_of_lt hlt, ih, zero_add]

theorem flat_unflat {s : List ℕ} {k : ℕ} (h : k < s.prod) : flat s (unflat s k) = k ∧ Inside (unflat s k) s := by
  induction s generalizing k with
  | nil => simp at h; subst h; exact ⟨rfl, List.Forall₂.nil⟩
  | cons n s ih =>
    rw [List.prod_cons] at h
    have hp : 0 < s.prod := Nat.pos_of_ne_zero fun h0 => by rw [h0] at h; simp at h
    obtain ⟨h1, h2⟩ := ih (Nat.mod_lt k hp)
    refine ⟨?_, List.Forall₂.cons (Nat.div_lt_of_lt_mul (by rw [Nat.mul_comm]; exact h)) h2⟩
    simp only [flat, unflat]
    rw [h1, Nat.mul_comm]
    exact Nat.div_add_mod k s.prod

theorem permute_at (x : Arr) (dims i : List ℕ) (h : Inside i (dims.map fun a => x.shape.getD a 0)) :
    (x.permute dims).at i = x.at ((List.range x.shape.length).map fun a => i.getD (dims.idxOf a) 0) := by
  unfold Arr.permute Arr.at
  dsimp only
  rw [unflat_flat h]

theorem inside4 {a b c d A B C D : ℕ} (ha : a < A) (hb : b < B) (hc : c < C) (hd : d < D) : Inside [a, b, c, d] [A, B, C, D] :=
  .cons ha (.cons hb (.cons hc (.cons hd .nil)))

theorem inside5 {a b c d e A B C D E : ℕ} (ha : a < A) (hb : b < B) (hc : c < C) (hd : d < D) (he : e < E) :
    Inside [a, b, c, d, e] [A, B, C, D, E] := .cons ha (inside4 hb hc hd he)

theorem inside4_inv {a b c d A B C D : ℕ} (h : Inside [a, b, c, d] [A, B, C, D]) : a < A ∧ b < B ∧ c < C ∧ d < D := by
  unfold Inside at h
  simpa using h

theorem flat4 (A B C D a b c d : ℕ) : flat [A, B, C, D] [a, b, c, d] = ((a * B + b) * C + c) * D + d := by
  simp only [flat, List.prod_cons, List.prod_nil]; ring

theorem flat5 (A B C D E a b c d e : ℕ) : flat [A, B, C, D, E] [a, b, c, d, e] = (((a * B + b) * C + c) * D + d) * E + e := by
  simp only [flat, List.prod_cons, List.prod_nil]; ring

theorem of4_at {a b c d A B C D : ℕ} (f : ℕ → ℕ → ℕ → ℕ → ℝ) (ha : a < A) (hb : b < B) (hc : c < C) (hd : d < D) :
    (Arr.of4 A B C D f).at [a, b, c, d] = f a b c d := by
  unfold Arr.of4 Arr.at
  dsimp only
  rw [unflat_flat (inside4 ha hb hc hd)]
  rfl

/-- The permutations of four axes that occur. -/
theorem permute_0231 {x : Arr} {B C H W : ℕ} (hx : x.shape = [B, C, H, W]) :
    (x.permute [0, 2, 3, 1]).shape = [B, H, W, C] ∧ ∀ b < B, ∀ c < C, ∀ h < H, ∀ w < W,
      (x.permute [0, 2, 3, 1]).at [b, h, w, c] = x.at [b, c, h, w] := by
  refine ⟨by simp [Arr.permute, hx], fun b hb c hc h hh w hw => ?_⟩
  rw [permute_at _ _ _ (by simp only [hx]; exact inside4 hb hh hw hc), hx]
  rfl

theorem permute_0312 {x : Arr} {B C H W : ℕ} (hx : x.shape = [B, H, W, C]) :
    (x.permute [0, 3, 1, 2]).shape = [B, C, H, W] ∧ ∀ b < B, ∀ c < C, ∀ h < H, ∀ w < W,
      (x.permute [0, 3, 1, 2]).at [b, c, h, w] = x.at [b, h, w, c] := by
  refine ⟨by simp [Arr.permute, hx], fun b hb c hc h hh w hw => ?_⟩
  rw [permute_at _ _ _ (by simp only [hx]; exact inside4 hb hc hh hw), hx]
  rfl

theorem permute_0132 {x : Arr} {B C H W : ℕ} (hx : x.shape = [B, C, H, W]) :
    (x.permute [0, 1, 3, 2]).shape = [B, C, W, H] ∧ ∀ b < B, ∀ c < C, ∀ h < H, ∀ w < W,
      (x.permute [0, 1, 3, 2]).at [b, c, w, h] = x.at [b, c, h, w] := by
  refine ⟨by simp [Arr.permute, hx], fun b hb c hc h hh w hw => ?_⟩
  rw [permute_at _ _ _ (by simp only [hx]; exact inside4 hb hc hw hh), hx]
  rfl

/-- The permutations of five axes that occur. -/
theorem permute_03412 {x : Arr} {a b c d e : ℕ} (hx : x.shape = [a, b, c, d, e]) :
    (x.permute [0, 3, 4, 1, 2]).shape = [a, d, e, b, c] ∧ ∀ i < a, ∀ j < b, ∀ k < c, ∀ l < d, ∀ m < e,
      (x.permute [0, 3, 4, 1, 2]).at [i, l, m, j, k] = x.at [i, j, k, l, m] := by
  refine ⟨by simp [Arr.permute, hx], fun i hi j hj k hk l hl m hm => ?_⟩
  rw [permute_at _ _ _ (by simp only [hx]; exact inside5 hi hl hm hj hk), hx]
  rfl

theorem permute_03124 {x : Arr} {a b c d e : ℕ} (hx : x.shape = [a, b, c, d, e]) :
    (x.permute [0, 3, 1, 2, 4]).shape = [a, d, b, c, e] ∧ ∀ i < a, ∀ j < b, ∀ k < c, ∀ l < d, ∀ m < e,
      (x.permute [0, 3, 1, 2, 4]).at [i, l, j, k, m] = x.at [i, j, k, l, m] := by
  refine ⟨by simp [Arr.permute, hx], fun i hi j hj k hk l hl m hm => ?_⟩
  rw [permute_at _ _ _ (by simp only [hx]; exact inside5 hi hl hj hk hm), hx]
  rfl

theorem permute_02314 {x : Arr} {a b c d e : ℕ} (hx : x.shape = [a, b, c, d, e]) :
    (x.permute [0, 2, 3, 1, 4]).shape = [a, c, d, b, e] ∧ ∀ i < a, ∀ j < b, ∀ k < c, ∀ l < d, ∀ m < e,
      (x.permute [0, 2, 3, 1, 4]).at [i, k, l, j, m] = x.at [i, j, k, l, m] := by
  refine ⟨by simp [Arr.permute, hx], fun i hi j hj k hk l hl m hm => ?_⟩
  rw [permute_at _ _ _ (by simp only [hx]; exact inside5 hi hk hl hj hm), hx]
  rfl

theorem permute_01342 {x : Arr} {a b c d e : ℕ} (hx : x.shape = [a, b, c, d, e]) :
    (x.permute [0, 1, 3, 4, 2]).shape = [a, b, d, e, c] ∧ ∀ i < a, ∀ j < b, ∀ k < c, ∀ l < d, ∀ m < e,
      (x.permute [0, 1, 3, 4, 2]).at [i, j, l, m, k] = x.at [i, j, k, l, m] := by
  refine ⟨by simp [Arr.permute, hx], fun i hi j hj k hk l hl m hm => ?_⟩
  rw [permute_at _ _ _ (by simp only [hx]; exact inside5 hi hj hl hm hk), hx]
  rfl

/-- A reshape to a completely given shape. -/
theorem reshape_full (x : Arr) (s : List ℕ) (h : s.prod = x.shape.prod) : x.reshape (s.map some) = .ok ⟨s, x.data⟩ := by
  unfold Arr.reshape inferShape
  have h1 : (List.map (fun a : Option ℕ => a.getD 1) (s.map some)) = s := by simp
  have h2 : (List.map (fun a : Option ℕ => a.getD 0) (s.map some)) = s := by simp
  dsimp only
  rw [h1, h2, if_neg (by simp), if_neg (by simp [h])]

/-- A reshape of an incompatible tensor. -/
theorem reshape_full_error (x : Arr) (s : List ℕ) (h : s.prod ≠ x.shape.prod) : x.reshape (s.map some) = .error .runtimeError := by
  unfold Arr.reshape inferShape
  have h1 : (List.map (fun a : Option ℕ => a.getD 1) (s.map some)) = s := by simp
  dsimp only
  rw [h1, if_neg (by simp), if_pos h]

/-- A reshape with one missing size: `p` is the product of the given ones. -/
theorem reshape_infer (x : Arr) (s : List (Option ℕ)) (p m : ℕ) (hn : none ∈ s) (hp : (s.map fun a => a.getD 1).prod = p) (h0 : 0 < p)
    (h : x.shape.prod = m * p) : x.reshape s = .ok ⟨s.map fun a => a.getD m, x.data⟩ := by
  unfold Arr.reshape inferShape
  dsimp only
  rw [if_pos hn, hp, if_neg (by omega), h, Nat.mul_mod_left, if_neg (by simp), Nat.mul_div_cancel _ h0]

theorem reshape_infer_error (x : Arr) (s : List (Option ℕ)) (p : ℕ) (hn : none ∈ s) (hp : (s.map fun a => a.getD 1).prod = p)
    (h : p = 0 ∨ x.shape.prod % p ≠ 0) : x.reshape s = .error .runtimeError := by
  unfold Arr.reshape inferShape
  dsimp only
  rw [if_pos hn, hp]
  by_cases h0 : p = 0
  · rw [if_pos h0]
  · rw [if_neg h0, if_pos (h.resolve_left h0)]

end Verif.Attn
