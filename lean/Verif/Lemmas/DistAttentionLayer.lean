import Verif.Lemmas.AttentionLayer
import Verif.Lemmas.AttentionCudaFwd
import Verif.Model.DistAttentionLayer
import Verif.Spec.Ring
import Verif.Spec.DistAttentionLayer
/-!
The steps of the distributed attention layer on one rank, entry by entry.
-/
namespace Verif.Ring
open Verif Verif.Attn Verif.Dist Verif.Spec Verif.Spec.Attn Verif.Spec.Ring Finset

theorem permute_01423 {x : Arr} {a b c d e : ℕ} (hx : x.shape = [a, b, c, d, e]) :
    (x.permute [0, 1, 4, 2, 3]).shape = [a, b, e, c, d] ∧ ∀ i < a, ∀ j < b, ∀ k < c, ∀ l < d, ∀ m < e,
      (x.permute [0, 1, 4, 2, 3]).at [i, j, m, k, l] = x.at [i, j, k, l, m] := by
  refine ⟨by simp [Arr.permute, hx], fun i hi j hj k hk l hl m hm => ?_⟩
  rw [permute_at _ _ _ (by simp only [hx]; exact inside5 hi hj hm hk hl), hx]
  rfl

/-- The normalisation acts inside every head. -/
theorem distNorm_ok {x : Arr} {B H W nh C : ℕ} (eps : ℝ) (g : Option (ℕ → ℝ)) (hx : x.shape = [B, nh * C, H, W]) (hB : 0 < B) (hH : 0 < H)
    (hW : 0 < W) (hn : 0 < nh) :
    ∃ y, distNorm nh C eps g x = .ok y ∧ y.shape = [B, nh * C, H, W] ∧ ∀ b < B, ∀ n < nh, ∀ c < C, ∀ h < H, ∀ w < W,
      y.at [b, n * C + c, h, w] = headNorm C eps g (fun b c h w => x.at [b, n * C + c, h, w]) b c h w := by
  cases g with
  | none => exact ⟨x, rfl, hx, fun b _ n _ c _ h _ w _ => rfl⟩
  | some g =>
    have h1 := reshape_infer x [some B, some nh, none, some H, some W] (B * (nh * (H * W))) C (by simp) (by simp)
      (by positivity) (by rw [hx]; simp; ring)
    set y1 : Arr := ⟨[B, nh, C, H, W], x.data⟩
    have e1 : y1.shape = [B, nh, C, H, W] := rfl
    obtain ⟨e2, e3⟩ := permute_01342 e1
    obtain ⟨y, y2, y3, y4⟩ := rmsNorm_ok eps (fun c => 1 + g c) (show (y1.permute [0, 1, 3, 4, 2]).shape.getLastD 0 = C by rw [e2]; rfl)
    have e4 : y.shape = [B, nh, H, W, C] := y3.trans e2
    obtain ⟨e5, e6⟩ := permute_01423 e4
    have h2 := reshape_full (y.permute [0, 1, 4, 2, 3]) [B, nh * C, H, W] (by rw [e5]; simp [mul_assoc])
    refine ⟨⟨[B, nh * C, H, W], (y.permute [0, 1, 4, 2, 3]).data⟩, ?_, rfl, fun b hb n hn c hc h hh w hw => ?_⟩
    · unfold distNorm
      dsimp only
      rw [hx]
      dsimp only
      rw [h1]
      dsimp only
      have e7 : (⟨List.map (fun a : Option ℕ => a.getD C) [some B, some nh, none, some H, some W], x.data⟩ : Arr) = y1 := rfl
      rw [e7, y2]
      exact h2
    · have e8 : (⟨[B, nh * C, H, W], (y.permute [0, 1, 4, 2, 3]).data⟩ : Arr).at [b, n * C + c, h, w] = y.at [b, n, h, w, c] := by
        rw [← e6 b hb n hn h hh w hw c hc]
        unfold Arr.at
        rw [e5]
        refine congrArg (Arr.data _) ?_
        rw [flat5, flat4]
        ring
      have e9 : ∀ c < C, (y1.permute [0, 1, 3, 4, 2]).data ((((b * nh + n) * H + h) * W + w) * C + c) = x.at [b, n * C + c, h, w] := by
        intro c hc
        have := e3 b hb n hn c hc h hh w hw
        unfold Arr.at at this
        rw [e2, flat5] at this
        rw [this]
        unfold Arr.at
        rw [hx]
        refine congrArg x.data ?_
        rw [e1, flat5, flat4]
        ring
      rw [e8]
      unfold headNorm
      dsimp only
      have e10 : y.at [b, n, h, w, c] = y.data ((((b * nh + n) * H + h) * W + w) * C + c) := by unfold Arr.at; rw [e4, flat5]
      rw [e10, y4 _ c hc, e9 c hc, sum_congr rfl fun c' hc' => by rw [e9 c' (mem_range.1 hc')]]

/-- Folding the heads into the batch. -/
theorem foldHeads_ok {x : Arr} {B H W nh C : ℕ} (hx : x.shape = [B, nh * C, H, W]) (hB : 0 < B) (hH : 0 < H) (hW : 0 < W) (hn : 0 < nh) :
    ∃ f, foldHeads nh x = .ok f ∧ f.B = B * nh ∧ f.C = C ∧ f.H = H ∧ f.W = W ∧ ∀ b n c h w,
      f.val (b * nh + n) c h w = x.at [b, n * C + c, h, w] := by
  have h1 := reshape_infer x [some (B * nh), none, some H, some W] (B * nh * (H * W)) C (by simp) (by simp)
    (by positivity) (by rw [hx]; simp; ring)
  refine ⟨⟨B * nh, C, H, W, (⟨[B * nh, C, H, W], x.data⟩ : Arr).fn4⟩, ?_, rfl, rfl, rfl, rfl, fun b n c h w => ?_⟩
  · unfold foldHeads
    rw [hx]
    dsimp only
    rw [h1]
    rfl
  · unfold Arr.fn4 Arr.at
    rw [hx]
    refine congrArg x.data ?_
    rw [flat4, flat4]
    ring

/-- Putting the heads next to each other. -/
theorem unfoldHeads_ok {x : RTen} {B nh C H W : ℕ} (hB : x.B = B * nh) (hC : x.C = C) (hH : x.H = H) (hW : x.W = W) (hn : 0 < nh) :
    ∃ y, unfoldHeads nh x = .ok y ∧ y.shape = [B, nh * C, H, W] ∧ ∀ b < B, ∀ n < nh, ∀ c < C, ∀ h < H, ∀ w < W,
      y.at [b, n * C + c, h, w] = x.val (b * nh + n) c h w := by
  have h1 := reshape_full (Arr.of4 x.B x.C x.H x.W x.val) [x.B / nh, nh * x.C, x.H, x.W] (by
    show _ = List.prod [x.B, x.C, x.H, x.W]
    rw [hB, Nat.mul_div_cancel _ hn]
    simp [mul_assoc])
  refine ⟨_, h1, by rw [hB, hC, hH, hW, Nat.mul_div_cancel _ hn], fun b hb n hn' c hc h hh w hw => ?_⟩
  have hbn : b * nh + n < B * nh := packed_lt hb hn'
  rw [hB, hC, hH, hW, Nat.mul_div_cancel _ hn, ← of4_at x.val hbn hc hh hw]
  unfold Arr.at
  refine congrArg (Arr.data _) ?_
  show flat [B, nh * C, H, W] _ = flat [B * nh, C, H, W] _
  rw [flat4, flat4]
  ring

/-- The global tensor of which the folded tensors are tiles. -/
noncomputable def foldedGlobal (nh C inC : ℕ) (eps : ℝ) (g : Option (ℕ → ℝ)) (W : ℕ → ℕ → ℝ) (bias : Option (ℕ → ℝ)) (X : T4) : T4 :=
  fun bn c h w => headNorm C eps g (head C (bn % nh) (proj inC W bias X)) (bn / nh) c h w

/-- Projection, normalisation and folding of a tile. -/
theorem branch_ok {B C inC n1 n2 Pp Pa nh p a : ℕ} {X x : Arr} (hx : ArrTile B inC n1 n2 Pp Pa X p a x) (hB : 0 < B) (hn : 0 < nh)
    (h1 : 0 < blockSize n1 Pp p) (h2 : 0 < blockSize n2 Pa a) (W : ℕ → ℕ → ℝ) (bias : Option (ℕ → ℝ)) (eps : ℝ) (g : Option (ℕ → ℝ)) :
    ∃ y z, conv1x1 inC (nh * C) W bias x = .ok y ∧ distNorm nh C eps g y = .ok z ∧
      (∃ f, foldHeads nh z = .ok f ∧ Tile (B * nh) C n1 n2 Pp Pa (foldedGlobal nh C inC eps g W bias X.fn4) p a f) ∧
      ∀ s, ∃ f, foldHeads nh (z.scale s) = .ok f ∧
        Tile (B * nh) C n1 n2 Pp Pa (fun b c h w => foldedGlobal nh C inC eps g W bias X.fn4 b c h w * s) p a f := by
  obtain ⟨y, y1, y2, y3⟩ := conv1x1_ok (nh * C) W bias hx.shape
  obtain ⟨z, z1, z2, z3⟩ := distNorm_ok eps g y2 hB h1 h2 hn
  have hval : ∀ b < B, ∀ n < nh, ∀ c < C, ∀ h < blockSize n1 Pp p, ∀ w < blockSize n2 Pa a, z.at [b, n * C + c, h, w]
      = headNorm C eps g (head C n (proj inC W bias X.fn4)) b c (blockStart n1 Pp p + h) (blockStart n2 Pa a + w) := by
    intro b hb n hn c hc h hh w hw
    rw [z3 b hb n hn c hc h hh w hw]
    refine headNorm_congr (fun c hc => ?_) c hc
    rw [y3 b hb h hh w hw _ (packed_lt hn hc)]
    unfold head proj
    congr 1
    exact sum_congr rfl fun c' hc' => by rw [hx.at_eq b hb c' (mem_range.1 hc') h hh w hw]; rfl
  have hfold : ∀ bn < B * nh, ∀ c < C, ∀ h < blockSize n1 Pp p, ∀ w < blockSize n2 Pa a, z.at [bn / nh, bn % nh * C + c, h, w]
      = foldedGlobal nh C inC eps g W bias X.fn4 bn c (blockStart n1 Pp p + h) (blockStart n2 Pa a + w) := by
    intro bn hbn c hc h hh w hw
    exact hval _ (packed_split hbn).1 _ (packed_split hbn).2.1 c hc h hh w hw
  have hsplit : ∀ bn, bn / nh * nh + bn % nh = bn := fun bn => by rw [Nat.mul_comm]; exact Nat.div_add_mod bn nh
  refine ⟨y, z, y1, z1, ?_, fun s => ?_⟩
  · obtain ⟨f, f1, f2, f3, f4, f5, f6⟩ := foldHeads_ok z2 hB h1 h2 hn
    refine ⟨f, f1, f2, f3, f4, f5, fun bn hbn c hc h hh w hw => ?_⟩
    rw [← hfold bn hbn c hc h hh w hw, ← f6, hsplit]
  · obtain ⟨f, f1, f2, f3, f4, f5, f6⟩ := foldHeads_ok (x := z.scale s) z2 hB h1 h2 hn
    refine ⟨f, f1, f2, f3, f4, f5, fun bn hbn c hc h hh w hw => ?_⟩
    rw [← hfold bn hbn c hc h hh w hw]
    have := f6 (bn / nh) (bn % nh) c h w
    rw [hsplit] at this
    rw [this]
    rfl

/-- Attention inside one head does not look at the other entries of the batch. -/
theorem setAttention_batch {C : ℕ} {w : ℕ → ℝ} {D : Finset (ℕ × ℕ)} {k v q k' v' q' : T4} {b b' c ho wo : ℕ}
    (hk : ∀ e i j, k b e i j = k' b' e i j) (hv : ∀ i j, v b c i j = v' b' c i j) (hq : ∀ e, q b e ho wo = q' b' e ho wo) :
    setAttention C w D k v q b c ho wo = setAttention C w D k' v' q' b' c ho wo := by
  unfold setAttention score
  simp only [hk, hv, hq]

end Verif.Ring
