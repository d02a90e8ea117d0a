import Verif.Lemmas.AttentionPattern
import Verif.Lemmas.AttentionHeads
/-!
The steps of the attention layers, entry by entry.
-/
namespace Verif.Attn
open Verif Verif.Spec Verif.Spec.Attn Verif.Quad Verif.Filter Verif.Disco Finset

theorem linear_ok {x : Arr} {B H V Cin : ℕ} (Cout : ℕ) (W : ℕ → ℕ → ℝ) (bias : Option (ℕ → ℝ)) (hx : x.shape = [B, H, V, Cin]) :
    ∃ y, linear Cin Cout W bias x = .ok y ∧ y.shape = [B, H, V, Cout] ∧ ∀ b < B, ∀ h < H, ∀ w < V, ∀ o < Cout,
      y.at [b, h, w, o] = (∑ c ∈ range Cin, x.at [b, h, w, c] * W o c) + bias.elim 0 (fun f => f o) := by
  refine ⟨_, by unfold linear; rw [hx, if_neg (by simp)], rfl, fun b _ h _ w _ o ho => ?_⟩
  unfold Arr.at
  dsimp only
  have e : flat ([B, H, V, Cin].dropLast ++ [Cout]) [b, h, w, o] = ((b * H + h) * V + w) * Cout + o := flat4 B H V Cout b h w o
  rw [e]
  have h0 : 0 < Cout := by omega
  rw [Nat.mul_comm ((b * H + h) * V + w) Cout, Nat.mul_add_div h0, Nat.div_eq_of_lt ho, Nat.mul_add_mod, Nat.mod_eq_of_lt ho, add_zero]
  congr 1
  refine sum_congr rfl fun c _ => ?_
  rw [hx, flat4]

theorem conv1x1_ok {x : Arr} {B H V Cin : ℕ} (Cout : ℕ) (W : ℕ → ℕ → ℝ) (bias : Option (ℕ → ℝ)) (hx : x.shape = [B, Cin, H, V]) :
    ∃ y, conv1x1 Cin Cout W bias x = .ok y ∧ y.shape = [B, Cout, H, V] ∧ ∀ b < B, ∀ h < H, ∀ w < V, ∀ o < Cout,
      y.at [b, o, h, w] = (∑ c ∈ range Cin, x.at [b, c, h, w] * W o c) + bias.elim 0 (fun f => f o) := by
  refine ⟨_, by unfold conv1x1; rw [hx]; dsimp only; rw [if_neg (by simp)], rfl, fun b hb h hh w hw o ho => ?_⟩
  rw [of4_at _ hb ho hh hw]

/-- RMS normalisation of the last axis, for tensors of any rank: the tensor is a list of vectors of length `C`. -/
theorem rmsNorm_ok {x : Arr} {C : ℕ} (eps : ℝ) (g : ℕ → ℝ) (hx : x.shape.getLastD 0 = C) :
    ∃ y, rmsNorm C eps g x = .ok y ∧ y.shape = x.shape ∧ ∀ r, ∀ c < C, y.data (r * C + c)
      = x.data (r * C + c) / Real.sqrt ((∑ c' ∈ range C, x.data (r * C + c') ^ 2) / C + eps) * g c := by
  have e : rmsNorm C eps g x = .ok ⟨x.shape, fun k =>
      x.data k / Real.sqrt ((∑ c ∈ range C, x.data (k / C * C + c) ^ 2) / C + eps) * g (k % C)⟩ := by
    unfold rmsNorm; rw [if_neg (by simpa using hx)]
  refine ⟨_, e, rfl, fun r c hc => ?_⟩
  have h0 : 0 < C := by omega
  dsimp only
  rw [Nat.mul_comm r C, Nat.mul_add_div h0, Nat.div_eq_of_lt hc, Nat.mul_add_mod, Nat.mod_eq_of_lt hc, add_zero, Nat.mul_comm C r]

/-- The normalisation of `NeighborhoodAttentionS2`. -/
theorem nbhdNorm_ok {x : Arr} {B H W nh C : ℕ} (eps : ℝ) (g : Option (ℕ → ℝ)) (hx : x.shape = [B, H, W, nh * C]) (hB : 0 < B) (hH : 0 < H)
    (hW : 0 < W) (hn : 0 < nh) :
    ∃ y, nbhdNorm nh C eps g x = .ok y ∧ y.shape = [B, H, W, nh * C] ∧ ∀ b < B, ∀ n < nh, ∀ c < C, ∀ h < H, ∀ w < W,
      y.at [b, h, w, n * C + c] = headNorm C eps g (fun b c h w => x.at [b, h, w, n * C + c]) b c h w := by
  cases g with
  | none => exact ⟨x, rfl, hx, fun b _ n _ c _ h _ w _ => rfl⟩
  | some g =>
    have h1 := reshape_infer x [some B, some H, some W, some nh, none] (B * (H * (W * nh))) C (by simp) (by simp)
      (by positivity) (by rw [hx]; simp; ring)
    have hl : (⟨[B, H, W, nh, C], x.data⟩ : Arr).shape.getLastD 0 = C := rfl
    obtain ⟨y, y1, y2, y3⟩ := rmsNorm_ok eps (fun c => 1 + g c) hl
    have h2 := reshape_full y [B, H, W, nh * C] (by rw [y2]; simp)
    refine ⟨⟨[B, H, W, nh * C], y.data⟩, ?_, rfl, fun b hb n hn c hc h hh w hw => ?_⟩
    · unfold nbhdNorm
      dsimp only
      rw [hx]
      dsimp only
      rw [h1]
      simp only [List.map_cons, List.map_nil, Option.getD_some, Option.getD_none, bind, Except.bind] at y1 ⊢
      rw [y1]
      exact h2
    · unfold headNorm Arr.at
      dsimp only
      have e : ∀ c, flat [B, H, W, nh * C] [b, h, w, n * C + c] = (((b * H + h) * W + w) * nh + n) * C + c := fun c => by rw [flat4]; ring
      rw [hx]
      simp only [e]
      exact y3 _ c hc

theorem optNorm_ok {x : Arr} {B nh S C : ℕ} (eps : ℝ) (g : Option (ℕ → ℝ)) (hx : x.shape = [B, nh, S, C]) :
    ∃ y, optNorm C eps g x = .ok y ∧ y.shape = [B, nh, S, C] ∧ ∀ b n s, ∀ c < C,
      y.at [b, n, s, c] = headNorm C eps g (fun b c n s => x.at [b, n, s, c]) b c n s := by
  cases g with
  | none => exact ⟨x, rfl, hx, fun b n s c _ => rfl⟩
  | some g =>
    obtain ⟨y, y1, y2, y3⟩ := rmsNorm_ok eps (fun c => 1 + g c) (show x.shape.getLastD 0 = C by rw [hx]; rfl)
    refine ⟨y, y1, y2.trans hx, fun b n s c hc => ?_⟩
    unfold headNorm Arr.at
    dsimp only
    rw [y2, hx]
    simp only [flat4]
    exact y3 _ c hc

theorem splitHeads_ok {x : Arr} {B H W nh C : ℕ} (hx : x.shape = [B, nh * C, H, W]) (hB : 0 < B) (hH : 0 < H) (hW : 0 < W) (hn : 0 < nh) :
    ∃ y, splitHeads nh x = .ok y ∧ y.shape = [B, nh, H * W, C] ∧ ∀ b < B, ∀ n < nh, ∀ h < H, ∀ w < W, ∀ c < C,
      y.at [b, n, h * W + w, c] = x.at [b, n * C + c, h, w] := by
  have h1 := reshape_infer x [some B, some nh, none, some H, some W] (B * (nh * (H * W))) C (by simp) (by simp)
    (by positivity) (by rw [hx]; simp; ring)
  set y1 : Arr := ⟨[B, nh, C, H, W], x.data⟩
  have e1 : y1.shape = [B, nh, C, H, W] := rfl
  obtain ⟨e2, e3⟩ := permute_01342 e1
  have h2 := reshape_full (y1.permute [0, 1, 3, 4, 2]) [B, nh, H * W, C] (by rw [e2]; simp [mul_assoc])
  refine ⟨⟨[B, nh, H * W, C], (y1.permute [0, 1, 3, 4, 2]).data⟩, ?_, rfl, fun b hb n hn h hh w hw c hc => ?_⟩
  · unfold splitHeads
    rw [hx]
    dsimp only
    rw [h1]
    exact h2
  · have e4 := e3 b hb n hn c hc h hh w hw
    have e5 : y1.at [b, n, c, h, w] = x.at [b, n * C + c, h, w] := by
      unfold Arr.at
      rw [e1, hx]
      refine congrArg x.data ?_
      rw [flat5, flat4]
      ring
    rw [← e5, ← e4]
    unfold Arr.at
    rw [e2]
    refine congrArg (Arr.data _) ?_
    rw [flat5, flat4]
    ring

theorem sdpa_ok {q k v : Arr} {B nh L E S F M : ℕ} (mask : ℕ → ℝ) (a : ℝ) (hq : q.shape = [B, nh, L, E]) (hk : k.shape = [B, nh, S, E])
    (hv : v.shape = [B, nh, S, F]) (hM : M = S) :
    ∃ y, sdpa q k v M mask a = .ok y ∧ y.shape = [B, nh, L, F] ∧ ∀ b < B, ∀ n < nh, ∀ l < L, ∀ f < F, y.at [b, n, l, f]
      = (∑ j ∈ range S, Real.exp ((∑ e ∈ range E, q.at [b, n, l, e] * k.at [b, n, j, e]) * a + mask j) * v.at [b, n, j, f])
        / ∑ j ∈ range S, Real.exp ((∑ e ∈ range E, q.at [b, n, l, e] * k.at [b, n, j, e]) * a + mask j) := by
  refine ⟨_, by unfold sdpa; rw [hq, hk, hv]; dsimp only; rw [if_neg (by simp [hM])], rfl, fun b hb n hn l hl f hf => ?_⟩
  rw [of4_at _ hb hn hl hf]
  have e : ∀ j ∈ range S, mask (if M = 1 then 0 else j) = mask j := by
    intro j hj
    have := mem_range.1 hj
    congr 1
    split <;> omega
  have hden : ∑ i ∈ range S, Real.exp ((∑ e ∈ range E, q.at [b, n, l, e] * k.at [b, n, i, e]) * a + mask (if M = 1 then 0 else i))
      = ∑ i ∈ range S, Real.exp ((∑ e ∈ range E, q.at [b, n, l, e] * k.at [b, n, i, e]) * a + mask i) :=
    sum_congr rfl fun i hi => by rw [e i hi]
  rw [sum_div]
  refine sum_congr rfl fun j hj => ?_
  rw [e j hj, hden]
  ring

/-- The attention of `AttentionS2` is a sum over the whole grid, with quadrature weights. -/
theorem sum_wholeGrid (H W : ℕ) (f : ℕ → ℝ) (g : ℕ × ℕ → ℝ) (h : ∀ i < H, ∀ j < W, f (i * W + j) = g (i, j)) :
    ∑ s ∈ range (H * W), f s = ∑ p ∈ wholeGrid H W, g p := by
  rw [sum_range_blocks]
  unfold wholeGrid
  rw [sum_product]
  exact sum_congr rfl fun i hi => sum_congr rfl fun j hj => h i (mem_range.1 hi) j (mem_range.1 hj)

/-- Set attention reads the query at the point, and keys and values on the set. -/
theorem setAttention_congr {C : ℕ} {w w' : ℕ → ℝ} {D : Finset (ℕ × ℕ)} {k v q k' v' q' : T4} {b c ho wo : ℕ}
    (hw : ∀ p ∈ D, w p.1 = w' p.1)
    (hk : ∀ p ∈ D, ∀ e < C, k b e p.1 p.2 = k' b e p.1 p.2) (hv : ∀ p ∈ D, v b c p.1 p.2 = v' b c p.1 p.2)
    (hq : ∀ e < C, q b e ho wo = q' b e ho wo) :
    setAttention C w D k v q b c ho wo = setAttention C w' D k' v' q' b c ho wo := by
  have hs : ∀ p ∈ D, score C k q b ho wo p = score C k' q' b ho wo p := fun p hp => by
    unfold score
    exact sum_congr rfl fun e he => by rw [hk p hp e (mem_range.1 he), hq e (mem_range.1 he)]
  unfold setAttention
  congr 1
  · exact sum_congr rfl fun p hp => by rw [hw p hp, hs p hp, hv p hp]
  · exact sum_congr rfl fun p hp => by rw [hw p hp, hs p hp]

theorem headNorm_congr {C : ℕ} {eps : ℝ} {g : Option (ℕ → ℝ)} {x y : T4} {b h w b' h' w' : ℕ} (hxy : ∀ c < C, x b c h w = y b' c h' w') :
    ∀ c < C, headNorm C eps g x b c h w = headNorm C eps g y b' c h' w' := by
  intro c hc
  unfold headNorm
  cases g with
  | none => exact hxy c hc
  | some g =>
    dsimp only
    rw [hxy c hc, sum_congr rfl fun c' hc' => by rw [hxy c' (mem_range.1 hc')]]

theorem proj_congr {Cin : ℕ} {W : ℕ → ℕ → ℝ} {bias : Option (ℕ → ℝ)} {x y : T4} {b o h w : ℕ} (hxy : ∀ c < Cin, x b c h w = y b c h w) :
    proj Cin W bias x b o h w = proj Cin W bias y b o h w := by
  unfold proj
  rw [sum_congr rfl fun c hc => by rw [hxy c (mem_range.1 hc)]]

end Verif.Attn
