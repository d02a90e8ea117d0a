import Verif.Lemmas.LayoutCuda
import Verif.Props.AttentionLayout
/-!
Property C89: on the GPU the layout conversions put every entry where it belongs, whatever the order in which blocks and threads run and whatever shared memory and
the fresh output hold before, and give the same tensor as on the CPU; together with the sizes for which they do not run at all.
-/
namespace Verif.Props
open Verif Verif.Attn Verif.GpuLayout Finset

/-- The sizes a conversion accepts: no axis is empty, the tensor has less than `2 ^ 31` entries, the axis that becomes the second dimension of the grid (`second`:
longitudes for `to_nhwc`, channels for `to_nchw`) makes less than 65536 tiles of 32, and batch size times latitudes is less than 65536. -/
structure GpuSizes (B C H W second : ℕ) : Prop where
  b : 0 < B
  c : 0 < C
  h : 0 < H
  w : 0 < W
  entries : B * C * H * W < 2 ^ 31
  tiles : (second + 31) / 32 < 65536
  rows : B * H < 65536

/-- Four samples with 256 channels on a grid of 361 × 720. -/
example : GpuSizes 4 256 361 720 720 := ⟨by decide, by decide, by decide, by decide, by norm_num, by norm_num, by norm_num⟩

private theorem le_prod {a b c d n : ℕ} (h : a * b * c * d ≤ n) (ha : 0 < a) (hb : 0 < b) (hc : 0 < c) (hd : 0 < d) : b ≤ n ∧ d ≤ n := by
  have h1 : b ≤ b * (a * c * d) := Nat.le_mul_of_pos_right b (by positivity)
  have h2 : d ≤ d * (a * b * c) := Nat.le_mul_of_pos_right d (by positivity)
  rw [show b * (a * c * d) = a * b * c * d from by ring] at h1
  rw [show d * (a * b * c) = a * b * c * d from by ring] at h2
  exact ⟨h1.trans h, h2.trans h⟩

private theorem divUp_pos {a : ℕ} (h : 0 < a) : 0 < AttnGpu.divUp a 32 := by unfold AttnGpu.divUp; omega

private theorem launchChecked_ok {gx gy gz n : ℕ} (run : Except PyErr Mem) (h1 : 0 < gx) (h1' : gx < 2 ^ 32) (h2 : 0 < gy) (h2' : gy < 65536) (h3 : 0 < gz)
    (h3' : gz < 65536) (h4 : n < 2 ^ 31) : launchChecked gx gy gz n run = run := by
  unfold launchChecked
  have e2 : gy % 2 ^ 32 = gy := Nat.mod_eq_of_lt (by omega)
  have e3 : gz % 2 ^ 32 = gz := Nat.mod_eq_of_lt (by omega)
  rw [e2, e3, Nat.mod_eq_of_lt h1', if_neg (by omega), if_neg (by omega), if_neg (by omega), if_neg (by omega)]

/-- C89: `to_nhwc` moves entry `[b, c, h, w]` to `[b, h, w, c]`, under every schedule and for every PTX version. -/
theorem C89_nhwc (x : Arr) (B C H W : ℕ) (hx : x.shape = [B, C, H, W]) (hs : GpuSizes B C H W W) (r : Run)
    (hr : Schedule 32 (tileWarps r.ptx) ((C + 31) / 32) ((W + 31) / 32) (H * B) r.order) :
    ∃ y, toNhwcCuda r true x = .ok y ∧ y.shape = [B, H, W, C] ∧ ∀ b < B, ∀ c < C, ∀ h < H, ∀ w < W, y.at [b, h, w, c] = x.at [b, c, h, w] := by
  obtain ⟨m, e, he⟩ := launch_0231 hx r.ptx hr r.mem
  have hp : x.shape.prod < 2 ^ 31 := by
    rw [hx]
    simp only [List.prod_cons, List.prod_nil, mul_one]
    have := hs.entries
    calc B * (C * (H * W)) = B * C * H * W := by ring
      _ < _ := this
  have hc : C ≤ 2 ^ 31 := (le_prod (le_of_lt hs.entries) hs.b hs.c hs.h hs.w).1
  have hg := launchChecked_ok (gx := AttnGpu.divUp C 32) (gy := AttnGpu.divUp W 32) (gz := H * B) (n := x.shape.prod)
    (launch (step0231 32 B C H W x.data) r.order r.mem) (divUp_pos hs.c) (by unfold AttnGpu.divUp; omega) (divUp_pos hs.w) hs.tiles
    (Nat.mul_pos hs.h hs.b) (by rw [mul_comm]; exact hs.rows) hp
  refine ⟨⟨[B, H, W, C], m.out⟩, ?_, rfl, fun b hb c hc h hh w hw => he b hb h hh w hw c hc⟩
  unfold toNhwcCuda permuteToNhwcCuda
  rw [if_neg (by simp [hx]), if_neg (by decide)]
  rw [hx] at hg ⊢
  dsimp only
  rw [if_neg (by decide), if_neg (by decide), hg, e]

/-- C89: `to_nchw` moves entry `[b, h, w, c]` to `[b, c, h, w]`. -/
theorem C89_nchw (x : Arr) (B C H W : ℕ) (hx : x.shape = [B, H, W, C]) (hs : GpuSizes B C H W C) (r : Run)
    (hr : Schedule 32 (tileWarps r.ptx) ((W + 31) / 32) ((C + 31) / 32) (H * B) r.order) :
    ∃ y, toNchwCuda r true x = .ok y ∧ y.shape = [B, C, H, W] ∧ ∀ b < B, ∀ c < C, ∀ h < H, ∀ w < W, y.at [b, c, h, w] = x.at [b, h, w, c] := by
  obtain ⟨m, e, he⟩ := launch_0312 hx r.ptx hr r.mem
  have hp : x.shape.prod < 2 ^ 31 := by
    rw [hx]
    simp only [List.prod_cons, List.prod_nil, mul_one]
    have := hs.entries
    calc B * (H * (W * C)) = B * C * H * W := by ring
      _ < _ := this
  have hw : W ≤ 2 ^ 31 := (le_prod (le_of_lt hs.entries) hs.b hs.c hs.h hs.w).2
  have hg := launchChecked_ok (gx := AttnGpu.divUp W 32) (gy := AttnGpu.divUp C 32) (gz := H * B) (n := x.shape.prod)
    (launch (step0312 32 B C H W x.data) r.order r.mem) (divUp_pos hs.w) (by unfold AttnGpu.divUp; omega) (divUp_pos hs.c) hs.tiles
    (Nat.mul_pos hs.h hs.b) (by rw [mul_comm]; exact hs.rows) hp
  refine ⟨⟨[B, C, H, W], m.out⟩, ?_, rfl, fun b hb c hc h hh w hw => he b hb c hc h hh w hw⟩
  unfold toNchwCuda permuteToNchwCuda
  rw [if_neg (by simp [hx]), if_neg (by decide)]
  rw [hx] at hg ⊢
  dsimp only
  rw [if_neg (by decide), if_neg (by decide), hg, e]

/-- C89: a launch always has a schedule, so that the theorems speak of something; here for any grid. -/
theorem C89_schedule (X Y gx gy gz : ℕ) : ∃ l, Schedule X Y gx gy gz l := ⟨_, exists_schedule X Y gx gy gz⟩

/-- C89: the GPU gives what the CPU gives, in both directions. -/
theorem C89_cpu (x z : Arr) (B C H W : ℕ) (hx : x.shape = [B, C, H, W]) (hz : z.shape = [B, H, W, C]) (hw : GpuSizes B C H W W) (hc : GpuSizes B C H W C)
    (r r' : Run) (hr : Schedule 32 (tileWarps r.ptx) ((C + 31) / 32) ((W + 31) / 32) (H * B) r.order)
    (hr' : Schedule 32 (tileWarps r'.ptx) ((W + 31) / 32) ((C + 31) / 32) (H * B) r'.order) :
    (∃ y y', toNhwcCuda r true x = .ok y ∧ toNhwc x = .ok y' ∧ SameTensor y y') ∧
    ∃ y y', toNchwCuda r' true z = .ok y ∧ toNchw z = .ok y' ∧ SameTensor y y' := by
  refine ⟨?_, ?_⟩
  · obtain ⟨y, h1, h2, h3⟩ := C89_nhwc x B C H W hx hw r hr
    obtain ⟨y', -, g1, g2, g3, -, -⟩ := C44_layout x B C H W hx
    refine ⟨y, y', h1, g1, by rw [h2, g2], fun i hi => ?_⟩
    rw [h2] at hi
    obtain ⟨b, h, w, c, rfl, hb, hh, hw', hc'⟩ := inside4_iff hi
    rw [h3 b hb c hc' h hh w hw', g3 b hb c hc' h hh w hw']
  · obtain ⟨y, h1, h2, h3⟩ := C89_nchw z B C H W hz hc r' hr'
    obtain ⟨y', -, g1, g2, g3, -, -⟩ := C44_layout_back z B C H W hz
    refine ⟨y, y', h1, g1, by rw [h2, g2], fun i hi => ?_⟩
    rw [h2] at hi
    obtain ⟨b, c, h, w, rfl, hb, hc', hh, hw'⟩ := inside4_iff hi
    rw [h3 b hb c hc' h hh w hw', g3 b hb c hc' h hh w hw']

/-- C89: the two conversions undo each other, in both orders. -/
theorem C89_inverse (x z : Arr) (B C H W : ℕ) (hx : x.shape = [B, C, H, W]) (hz : z.shape = [B, H, W, C]) (hw : GpuSizes B C H W W) (hc : GpuSizes B C H W C)
    (r r' : Run) (hr : Schedule 32 (tileWarps r.ptx) ((C + 31) / 32) ((W + 31) / 32) (H * B) r.order)
    (hr' : Schedule 32 (tileWarps r'.ptx) ((W + 31) / 32) ((C + 31) / 32) (H * B) r'.order) :
    (∃ y y', toNhwcCuda r true x = .ok y ∧ toNchwCuda r' true y = .ok y' ∧ SameTensor y' x) ∧
    ∃ y y', toNchwCuda r' true z = .ok y ∧ toNhwcCuda r true y = .ok y' ∧ SameTensor y' z := by
  refine ⟨?_, ?_⟩
  · obtain ⟨y, h1, h2, h3⟩ := C89_nhwc x B C H W hx hw r hr
    obtain ⟨y', g1, g2, g3⟩ := C89_nchw y B C H W h2 hc r' hr'
    refine ⟨y, y', h1, g1, by rw [g2, hx], fun i hi => ?_⟩
    rw [g2] at hi
    obtain ⟨b, c, h, w, rfl, hb, hc', hh, hw'⟩ := inside4_iff hi
    rw [g3 b hb c hc' h hh w hw', h3 b hb c hc' h hh w hw']
  · obtain ⟨y, h1, h2, h3⟩ := C89_nchw z B C H W hz hc r' hr'
    obtain ⟨y', g1, g2, g3⟩ := C89_nhwc y B C H W h2 hw r hr
    refine ⟨y, y', h1, g1, by rw [g2, hz], fun i hi => ?_⟩
    rw [g2] at hi
    obtain ⟨b, h, w, c, rfl, hb, hh, hw', hc'⟩ := inside4_iff hi
    rw [g3 b hb c hc' h hh w hw', h3 b hb c hc' h hh w hw']

/-- C89: what the library registers as the gradient is the gradient: the adjoint of the conversion. -/
theorem C89_gradient (x g : Arr) (B C H W : ℕ) (hx : x.shape = [B, C, H, W]) (hg : g.shape = [B, H, W, C]) (hw : GpuSizes B C H W W) (hc : GpuSizes B C H W C)
    (r r' : Run) (hr : Schedule 32 (tileWarps r.ptx) ((C + 31) / 32) ((W + 31) / 32) (H * B) r.order)
    (hr' : Schedule 32 (tileWarps r'.ptx) ((W + 31) / 32) ((C + 31) / 32) (H * B) r'.order) :
    (∃ y dx, toNhwcCuda r true x = .ok y ∧ toNhwcBackward r' true g = .ok dx ∧ dx.shape = x.shape ∧
      ∑ b ∈ range B, ∑ h ∈ range H, ∑ w ∈ range W, ∑ c ∈ range C, g.at [b, h, w, c] * y.at [b, h, w, c] =
      ∑ b ∈ range B, ∑ c ∈ range C, ∑ h ∈ range H, ∑ w ∈ range W, dx.at [b, c, h, w] * x.at [b, c, h, w]) ∧
    ∃ y dg, toNchwCuda r' true g = .ok y ∧ toNchwBackward r true x = .ok dg ∧ dg.shape = g.shape ∧
      ∑ b ∈ range B, ∑ c ∈ range C, ∑ h ∈ range H, ∑ w ∈ range W, x.at [b, c, h, w] * y.at [b, c, h, w] =
      ∑ b ∈ range B, ∑ h ∈ range H, ∑ w ∈ range W, ∑ c ∈ range C, dg.at [b, h, w, c] * g.at [b, h, w, c] := by
  obtain ⟨y, h1, h2, h3⟩ := C89_nhwc x B C H W hx hw r hr
  obtain ⟨dx, g1, g2, g3⟩ := C89_nchw g B C H W hg hc r' hr'
  have e1 : toNhwcBackward r' true g = .ok dx := by
    unfold toNchwCuda at g1
    rw [if_neg (by simp [hg])] at g1
    exact g1
  have e2 : toNchwBackward r true x = .ok y := by
    unfold toNhwcCuda at h1
    rw [if_neg (by simp [hx])] at h1
    exact h1
  have key : ∀ f : ℕ → ℕ → ℕ → ℕ → ℝ, ∑ b ∈ range B, ∑ h ∈ range H, ∑ w ∈ range W, ∑ c ∈ range C, f b c h w =
      ∑ b ∈ range B, ∑ c ∈ range C, ∑ h ∈ range H, ∑ w ∈ range W, f b c h w := by
    intro f
    refine sum_congr rfl fun b _ => ?_
    rw [sum_comm' (s := range C) (t := fun _ => range H) (t' := range H) (s' := fun _ => range C) (by intro x y; simp)]
    exact sum_congr rfl fun h _ => sum_comm
  refine ⟨⟨y, dx, h1, e1, by rw [g2, hx], ?_⟩, ⟨dx, y, g1, e2, by rw [h2, hg], ?_⟩⟩
  · rw [← key fun b c h w => dx.at [b, c, h, w] * x.at [b, c, h, w]]
    refine sum_congr rfl fun b hb => sum_congr rfl fun h hh => sum_congr rfl fun w hw => sum_congr rfl fun c hc => ?_
    rw [mem_range] at hb hh hw hc
    rw [h3 b hb c hc h hh w hw, g3 b hb c hc h hh w hw]
  · rw [← key fun b c h w => x.at [b, c, h, w] * dx.at [b, c, h, w]]
    refine sum_congr rfl fun b hb => sum_congr rfl fun h hh => sum_congr rfl fun w hw => sum_congr rfl fun c hc => ?_
    rw [mem_range] at hb hh hw hc
    rw [h3 b hb c hc h hh w hw, g3 b hb c hc h hh w hw]

/-- The hypotheses are met: one sample, 40 channels, a grid of 3 × 70 (so that there are full tiles and partial ones), under the schedule that fills all tiles
first. -/
example : ∃ (x : Arr) (r : Run), x.shape = [1, 40, 3, 70] ∧ GpuSizes 1 40 3 70 70 ∧
    Schedule 32 (tileWarps r.ptx) ((40 + 31) / 32) ((70 + 31) / 32) (3 * 1) r.order :=
  ⟨⟨[1, 40, 3, 70], fun k => k⟩, ⟨90, _, ⟨fun _ _ => 0, fun _ => 0⟩⟩, rfl,
    ⟨by decide, by decide, by decide, by decide, by norm_num, by norm_num, by norm_num⟩, exists_schedule 32 (tileWarps 90) _ _ _⟩

/-- C89, sizes that are refused with `RuntimeError`, whatever the run: batch size times latitudes of 65536 or more, 65536 or more tiles in the second direction of the
grid, `2 ^ 31` or more entries. (Extents are 63-bit numbers and the grid is computed with 32 bits, hence the upper bounds.) -/
theorem C89_refused (x : Arr) (B C H W : ℕ) (r : Run) :
    (x.shape = [B, C, H, W] → (65536 ≤ B * H ∧ B * H < 2 ^ 32) ∨ (65536 ≤ (W + 31) / 32 ∧ (W + 31) / 32 < 2 ^ 32) ∨ 2 ^ 31 ≤ B * C * H * W →
      toNhwcCuda r true x = .error .runtimeError) ∧
    (x.shape = [B, H, W, C] → (65536 ≤ B * H ∧ B * H < 2 ^ 32) ∨ (65536 ≤ (C + 31) / 32 ∧ (C + 31) / 32 < 2 ^ 32) ∨ 2 ^ 31 ≤ B * C * H * W →
      toNchwCuda r true x = .error .runtimeError) := by
  have key : ∀ gx gy gz n run, (65536 ≤ gz ∧ gz < 2 ^ 32) ∨ (65536 ≤ gy ∧ gy < 2 ^ 32) ∨ 2 ^ 31 ≤ n →
      launchChecked gx gy gz n run = .error .runtimeError := by
    intro gx gy gz n run h
    unfold launchChecked
    by_cases h1 : gy % 2 ^ 32 < 65536
    · rw [if_neg (by omega)]
      by_cases h2 : gz % 2 ^ 32 < 65536
      · rw [if_neg (by omega)]
        rcases h with ⟨a, b⟩ | ⟨a, b⟩ | h
        · rw [Nat.mod_eq_of_lt b] at h2; omega
        · rw [Nat.mod_eq_of_lt b] at h1; omega
        · rw [if_pos (by omega)]
      · rw [if_pos h2]
    · rw [if_pos h1]
  refine ⟨fun hx h => ?_, fun hx h => ?_⟩
  · unfold toNhwcCuda permuteToNhwcCuda
    rw [if_neg (by simp [hx]), if_neg (by decide), hx]
    dsimp only
    rw [if_neg (by decide), if_neg (by decide), key _ _ _ _ _ (by
      simp only [List.prod_cons, List.prod_nil, mul_one]
      rw [show B * (C * (H * W)) = B * C * H * W from by ring, mul_comm H B]
      exact h)]
  · unfold toNchwCuda permuteToNchwCuda
    rw [if_neg (by simp [hx]), if_neg (by decide), hx]
    dsimp only
    rw [if_neg (by decide), if_neg (by decide), key _ _ _ _ _ (by
      simp only [List.prod_cons, List.prod_nil, mul_one]
      rw [show B * (H * (W * C)) = B * C * H * W from by ring, mul_comm H B]
      exact h)]

/-- A batch of 91 samples on a grid of 721 × 1440, with one channel: converted on the CPU, refused on the GPU. -/
example : (65536 ≤ 91 * 721 ∧ 91 * 721 < 2 ^ 32) := by norm_num

/-- C89, an empty tensor: on the GPU the process ends, on the CPU the result is an empty tensor. -/
theorem C89_empty (x : Arr) (B C H W : ℕ) (r : Run) (h0 : B = 0 ∨ C = 0 ∨ H = 0 ∨ W = 0) (hB : B * H < 65536) (hC : C < 2 ^ 16) (hW : W < 2 ^ 16) :
    (x.shape = [B, C, H, W] → toNhwcCuda r true x = .error .processExit ∧ ∃ y, toNhwc x = .ok y ∧ y.shape = [B, H, W, C]) ∧
    (x.shape = [B, H, W, C] → toNchwCuda r true x = .error .processExit ∧ ∃ y, toNchw x = .ok y ∧ y.shape = [B, C, H, W]) := by
  have hn : B * C * H * W = 0 := by rcases h0 with h | h | h | h <;> rw [h] <;> ring
  have key : ∀ gx gy run, gx < 65536 → gy < 65536 → gx = 0 ∨ gy = 0 ∨ H * B = 0 → launchChecked gx gy (H * B) 0 run = .error .processExit := by
    intro gx gy run hx hy h
    rw [mul_comm] at hB
    unfold launchChecked
    rw [Nat.mod_eq_of_lt (a := gx) (by omega), Nat.mod_eq_of_lt (a := gy) (by omega), Nat.mod_eq_of_lt (a := H * B) (by omega), if_neg (by omega), if_neg (by omega),
      if_neg (by omega), if_pos h]
  have d0 : ∀ a, a = 0 → AttnGpu.divUp a 32 = 0 := by intro a h; rw [h]; rfl
  have d1 : ∀ a, a < 2 ^ 16 → AttnGpu.divUp a 32 < 65536 := by intro a h; unfold AttnGpu.divUp; omega
  have hz : (C = 0 ∨ W = 0) ∨ H * B = 0 := by
    rcases h0 with h | h | h | h
    · right; rw [h, mul_zero]
    · exact .inl (.inl h)
    · right; rw [h, zero_mul]
    · exact .inl (.inr h)
  refine ⟨fun hx => ⟨?_, ?_⟩, fun hx => ⟨?_, ?_⟩⟩
  · unfold toNhwcCuda permuteToNhwcCuda
    rw [if_neg (by simp [hx]), if_neg (by decide), hx]
    dsimp only
    have e : ([B, C, H, W] : List ℕ).prod = 0 := by
      simp only [List.prod_cons, List.prod_nil, mul_one]; rw [← hn]; ring
    rw [if_neg (by decide), if_neg (by decide), e, key _ _ _ (d1 _ hC) (d1 _ hW) (by
      rcases hz with (h | h) | h
      · exact .inl (d0 _ h)
      · exact .inr (.inl (d0 _ h))
      · exact .inr (.inr h))]
  · obtain ⟨y, -, g1, g2, -⟩ := C44_layout x B C H W hx
    exact ⟨y, g1, g2⟩
  · unfold toNchwCuda permuteToNchwCuda
    rw [if_neg (by simp [hx]), if_neg (by decide), hx]
    dsimp only
    have e : ([B, H, W, C] : List ℕ).prod = 0 := by
      simp only [List.prod_cons, List.prod_nil, mul_one]; rw [← hn]; ring
    rw [if_neg (by decide), if_neg (by decide), e, key _ _ _ (d1 _ hW) (d1 _ hC) (by
      rcases hz with (h | h) | h
      · exact .inr (.inl (d0 _ h))
      · exact .inl (d0 _ h)
      · exact .inr (.inr h))]
  · obtain ⟨y, -, g1, g2, -⟩ := C44_layout_back x B C H W hx
    exact ⟨y, g1, g2⟩

/-- An empty batch on a small grid. -/
example : ((0 : ℕ) = 0 ∨ 8 = 0 ∨ 12 = 0 ∨ 24 = 0) ∧ 0 * 12 < 65536 := by decide

/-- C89, other refusals, whatever the run: a tensor that does not have four axes, that is not on the GPU or not contiguous raises `RuntimeError`; a type that is not
`float`, `double`, `half` or `bfloat16` raises `NotImplementedError`. -/
theorem C89_invalid (r : Run) (x : Arr) (fl : Bool) :
    (x.shape.length ≠ 4 → toNhwcCuda r fl x = .error .runtimeError ∧ toNchwCuda r fl x = .error .runtimeError ∧
      ∀ k, permuteToNhwcCuda r k x = .error .runtimeError ∧ permuteToNchwCuda r k x = .error .runtimeError) ∧
    (∀ k : Kind, k.cuda = false ∨ k.contiguous = false → permuteToNhwcCuda r k x = .error .runtimeError ∧ permuteToNchwCuda r k x = .error .runtimeError) ∧
    (x.shape.length = 4 → toNhwcCuda r false x = .error .notImplemented ∧ toNchwCuda r false x = .error .notImplemented) := by
  refine ⟨fun h => ?_, fun k hk => ?_, fun h => ?_⟩
  · have e : ∀ k, permuteToNhwcCuda r k x = .error .runtimeError ∧ permuteToNchwCuda r k x = .error .runtimeError := by
      intro k
      unfold permuteToNhwcCuda permuteToNchwCuda
      by_cases hc : k.cuda = false
      · rw [if_pos hc, if_pos hc]; exact ⟨rfl, rfl⟩
      · rw [if_neg hc, if_neg hc]
        obtain ⟨s, d⟩ := x
        match s, h with
        | [], _ => exact ⟨rfl, rfl⟩
        | [_], _ => exact ⟨rfl, rfl⟩
        | [_, _], _ => exact ⟨rfl, rfl⟩
        | [_, _, _], _ => exact ⟨rfl, rfl⟩
        | [_, _, _, _], h => exact absurd rfl h
        | _ :: _ :: _ :: _ :: _ :: _, _ => exact ⟨rfl, rfl⟩
    exact ⟨by rw [toNhwcCuda, if_pos h], by rw [toNchwCuda, if_pos h], e⟩
  · unfold permuteToNhwcCuda permuteToNchwCuda
    by_cases hc : k.cuda = false
    · rw [if_pos hc, if_pos hc]; exact ⟨rfl, rfl⟩
    · rw [if_neg hc, if_neg hc]
      have hk' : k.contiguous = false := hk.resolve_left hc
      refine ⟨?_, ?_⟩
      all_goals
        split
        · rw [if_pos hk']
        · rfl
  · obtain ⟨s, d⟩ := x
    match s, h with
    | [_, _, _, _], _ => exact ⟨rfl, rfl⟩

end Verif.Props
