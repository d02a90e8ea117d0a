import Verif.Props.StanfordConvert
/-!
C84: the items of the segmentation and depth data sets.
-/
namespace Verif.Props
open Finset Verif.Stanford Verif.Loss

/-- Row `k` of `H` is cut off if the fraction `f` is taken from each end. -/
def RowCut (f : ℝ) (H k : ℕ) : Prop := 0 < f ∧ ((k : ℝ) + 1 ≤ f * H ∨ ((H - 1 - k : ℕ) : ℝ) + 1 ≤ f * H)

theorem excludePoles_eq {α : Type} (f : ℝ) (H : ℕ) (v : α) (x : ℕ → ℕ → α) (k j : ℕ) (hk : k < H) [Decidable (RowCut f H k)] :
    excludePoles f H v x k j = if RowCut f H k then v else x k j := by
  unfold excludePoles
  by_cases hf : 0 < f
  · have hfl : ∀ m : ℕ, m < polarCut f H ↔ (m : ℝ) + 1 ≤ f * H := fun m => by
      unfold polarCut
      rw [Nat.lt_iff_add_one_le, Nat.le_floor_iff (mul_nonneg hf.le (Nat.cast_nonneg H))]
      push_cast
      rfl
    have hcut : RowCut f H k ↔ k < polarCut f H ∨ H - polarCut f H ≤ k := by
      unfold RowCut
      rw [← hfl, ← hfl]
      constructor
      · rintro ⟨_, h | h⟩
        · exact .inl h
        · right; omega
      · rintro (h | h)
        · exact ⟨hf, .inl h⟩
        · exact ⟨hf, .inr (by omega)⟩
    rw [if_pos hf]
    by_cases hp : 0 < polarCut f H
    · rw [if_pos hp]
      unfold cutPoles
      by_cases h : RowCut f H k
      · rw [if_pos h, if_pos (hcut.1 h)]
      · rw [if_neg h, if_neg (fun h' => h (hcut.2 h'))]
    · rw [if_neg hp, if_neg]
      intro h
      have := hcut.1 h
      omega
  · rw [if_neg hf, if_neg]
    exact fun h => hf h.1

open Classical in
/-- C84. Segmentation targets. For every picture, number of classes and fraction: a pixel is ignored (-100) if its row is among the `f H` rows next to a pole or its index
is not that of a class; all others keep their index. -/
theorem C84_segmentation (N : ℕ) (f : ℝ) (H : ℕ) (t : ℕ → ℕ → ℤ) (k j : ℕ) (hk : k < H) :
    segTarget N f true H t k j = (if RowCut f H k ∨ (N : ℤ) ≤ t k j then -100 else t k j) ∧
    segTarget N f false H t k j = if RowCut f H k then -100 else t k j := by
  unfold segTarget
  rw [excludePoles_eq f H _ _ k j hk, excludePoles_eq f H _ _ k j hk]
  refine ⟨?_, rfl⟩
  by_cases h : RowCut f H k
  · rw [if_pos h, if_pos (.inl h)]
  · rw [if_neg h]
    simp only [if_true, maskClasses, h, false_or]

/-- C84. The masking of invalid classes never applies to converted data sets: all their indices are below the number of classes (`C83_pixel_class`). -/
theorem C84_mask_idle (labels : List String) (r g b : ℕ → ℕ → ℕ) (t : ℕ → ℕ → ℤ) (k j id : ℕ) (h : pixelClass labels (r k j) (g k j) (b k j) = .ok id) (ht : t k j = id) :
    maskClasses (classList labels).length t k j = t k j := by
  have hid : id < (classList labels).length := by
    by_cases hl : labels.length ≤ if r k j * 65536 + g k j * 256 + b k j = 855309 then 3341 else r k j * 65536 + g k j * 256 + b k j
    · rw [(C83_pixel_class labels (r k j) (g k j) (b k j)).2 hl] at h
      cases h
    · obtain ⟨i, h1, h2, -⟩ := (C83_pixel_class labels (r k j) (g k j) (b k j)).1 _ (List.getElem?_eq_getElem (not_le.1 hl))
      rw [h] at h1
      rwa [Except.ok.inj h1]
  unfold maskClasses
  rw [if_neg (by rw [ht]; push Not; exact_mod_cast hid)]

/-- C84. How much is cut off: with a fraction below one half some row remains, and from one half on none of an even number of rows. -/
theorem C84_rows (f : ℝ) (H : ℕ) (hH : 0 < H) : (f < 1 / 2 → ∃ k < H, ¬ RowCut f H k) ∧ (1 / 2 ≤ f → Even H → ∀ k < H, RowCut f H k) := by
  have hH' : (0 : ℝ) < H := by exact_mod_cast hH
  constructor
  · intro hf
    refine ⟨H / 2, by omega, ?_⟩
    rintro ⟨-, h | h⟩
    · have h1 : f * H < H / 2 := by nlinarith
      have h2 : (H : ℝ) ≤ 2 * ((H / 2 : ℕ) : ℝ) + 1 := by exact_mod_cast (by omega : H ≤ 2 * (H / 2) + 1)
      linarith
    · have h1 : f * H < H / 2 := by nlinarith
      have h2 : (H : ℝ) ≤ 2 * ((H - 1 - H / 2 : ℕ) : ℝ) + 2 := by exact_mod_cast (by omega : H ≤ 2 * (H - 1 - H / 2) + 2)
      linarith
  · rintro hf ⟨m, rfl⟩ k hk
    refine ⟨by linarith, ?_⟩
    have h1 : (m : ℝ) ≤ f * ((m + m : ℕ) : ℝ) := by
      push_cast at hH' ⊢
      nlinarith
    rcases Nat.lt_or_ge k m with h | h
    · left
      have : (k : ℝ) + 1 ≤ m := by exact_mod_cast h
      linarith
    · right
      have : ((m + m - 1 - k : ℕ) : ℝ) + 1 ≤ m := by exact_mod_cast (by omega : m + m - 1 - k + 1 ≤ m)
      linarith

open Classical in
/-- C84. Depth targets. For every picture with at least one pixel: a pixel is 0 if its row is cut off or its depth is the greatest of the picture; otherwise it is its depth, or
`log (1 + depth)` if asked for. -/
theorem C84_depth (f : ℝ) (logDepth : Bool) (H W : ℕ) (hH : 0 < H) (hW : 0 < W) (t : ℕ → ℕ → ℝ) :
    ∃ r, depthTarget f logDepth true H W t = .ok r ∧ ∀ k < H, ∀ j < W, r k j =
      if RowCut f H k ∨ IsGreatest (values H W t) (t k j) then 0 else if logDepth then Real.log (1 + t k j) else t k j := by
  obtain ⟨m, h1, h2⟩ := npMax_spec hH hW t
  unfold depthTarget
  rw [if_pos rfl, h1]
  refine ⟨_, rfl, fun k hk j hj => ?_⟩
  have hg : IsGreatest (values H W t) (t k j) ↔ t k j = m := ⟨fun h => h.unique h2, fun h => by rw [h]; exact h2⟩
  have key : excludePoles f H 0 (maskDepth m t) k j = if RowCut f H k ∨ IsGreatest (values H W t) (t k j) then 0 else t k j := by
    rw [excludePoles_eq f H _ _ k j hk]
    unfold maskDepth
    by_cases hr : RowCut f H k
    · simp [hr]
    · by_cases he : t k j = m
      · rw [if_neg hr, if_pos he, if_pos (.inr (hg.2 he)), mul_zero]
      · rw [if_neg hr, if_neg he, if_neg (by rw [hg]; tauto), mul_one]
  cases logDepth with
  | false =>
    simp only [Bool.false_eq_true, if_false]
    exact key
  | true =>
    simp only [if_true]
    rw [key]
    split <;> simp

/-- C84, finding. The masking takes the greatest depth of each picture for the mark of an invalid pixel. So a picture without invalid pixels loses its farthest point, and a picture of
constant depth becomes 0 everywhere, whatever the depth. -/
theorem C84_depth_constant (f : ℝ) (logDepth : Bool) (H W : ℕ) (hH : 0 < H) (hW : 0 < W) (t : ℕ → ℕ → ℝ) :
    ∃ r, depthTarget f logDepth true H W t = .ok r ∧ (∃ k < H, ∃ j < W, r k j = 0 ∧ IsGreatest (values H W t) (t k j)) ∧
      ∀ d, (∀ k < H, ∀ j < W, t k j = d) → ∀ k < H, ∀ j < W, r k j = 0 := by
  classical
  obtain ⟨r, hr, h⟩ := C84_depth f logDepth H W hH hW t
  refine ⟨r, hr, ?_, fun d hd k hk j hj => ?_⟩
  · obtain ⟨m, -, h2⟩ := npMax_spec hH hW t
    obtain ⟨k, hk, j, hj, e⟩ := h2.1
    have hg : IsGreatest (values H W t) (t k j) := by rw [e]; exact h2
    exact ⟨k, hk, j, hj, by rw [h k hk j hj, if_pos (.inr hg)], hg⟩
  · rw [h k hk j hj, if_pos]
    right
    refine ⟨⟨k, hk, j, hj, rfl⟩, ?_⟩
    rintro y ⟨k', hk', j', hj', rfl⟩
    rw [hd k hk j hj, hd k' hk' j' hj']

/-- C84, finding. One depth picture of constant depth makes the statistics of the targets of the whole data set NaN (with `C82_target`). -/
theorem C84_constant_poisons (E : QEnv) (n H W : ℕ) (hH : 2 ≤ H) (hW : 0 < W) (f : ℝ) (logDepth : Bool) (t : ℕ → ℕ → ℕ → ℝ) (x : ℕ → ℕ → ℕ → ℕ → ℝ)
    (i : ℕ) (hi : i < n) (d : ℝ) (hd : ∀ k < H, ∀ j < W, t i k j = d) (r : ℕ → ℕ → ℕ → ℝ) (hr : ∀ i < n, depthTarget f logDepth true H W (t i) = .ok (r i)) :
    (computeStats E n H W (fun i => .pair (x i) (r i)) true).map (·.target) = .ok (some none) := by
  obtain ⟨q, -, -, h, -⟩ := C82_target E n H W (by omega) hH hW (fun i => .pair (x i) (r i)) x r fun i _ => rfl
  refine h ⟨i, hi, ?_⟩
  obtain ⟨r', h1, -, h2⟩ := C84_depth_constant f logDepth H W (by omega) hW (t i)
  obtain rfl : r' = r i := by rw [hr i hi] at h1; exact (Except.ok.inj h1).symm
  exact h2 d hd

/-- C84. Subsets return the item of the parent at the given position, with the position in the parent if asked for; positions count from the end if negative,
and out of range raise. -/
theorem C84_subset {α β : Type} (get : ℤ → Except PyErr (DsItem α β)) (indices : List ℤ) (b : Bool) :
    (∀ i (h : i < indices.length) data, get indices[i] = .ok data → subsetGet get indices b i = .ok (if b then .triple data.inp data.tar indices[i] else .pair data.inp data.tar) ∧
      subsetGet get indices b ((i : ℤ) - indices.length) = subsetGet get indices b i) ∧
    (∀ i : ℤ, (indices.length : ℤ) ≤ i ∨ i < -indices.length → subsetGet get indices b i = .error .indexError) := by
  constructor
  · intro i h data hd
    have h1 : pyIndex indices i = .ok indices[i] := by
      unfold pyIndex
      rw [if_pos (by omega)]
      simp [h]
    have h2 : pyIndex indices ((i : ℤ) - indices.length) = .ok indices[i] := by
      unfold pyIndex
      rw [if_neg (by omega), if_pos (by omega), show ((indices.length : ℤ) + ((i : ℤ) - indices.length)).toNat = i by omega]
      simp [h]
    constructor
    · unfold subsetGet
      rw [h1]
      simp only [bind, Except.bind, hd]
      cases b <;> rfl
    · unfold subsetGet
      rw [h1, h2]
  · intro i hi
    have : pyIndex indices i = .error .indexError := by
      unfold pyIndex
      by_cases h0 : 0 ≤ i
      · rw [if_pos h0, List.getElem?_eq_none (by omega)]
      · rw [if_neg h0, if_neg (by omega)]
    unfold subsetGet
    rw [this]
    rfl

/-- C84, finding. `return_index` has no effect where it is used: the segmentation data set ignores its own flag, and a `DataLoader` over a subset fetches batches
through the method that `Subset` inherits, which does not look at the flag either. So no batch of a loader carries an index. -/
theorem C84_return_index {α β : Type} (read : ℤ → Except PyErr (α × β)) (flag flag' : Bool) (indices batch : List ℤ) (items : List (DsItem α β)) :
    (∀ i, segGet read flag i = segGet read flag' i) ∧
    (loaderFetch (segGet read flag) indices flag' batch = .ok items → ∀ it ∈ items, ∃ a b, it = .pair a b) := by
  refine ⟨fun i => rfl, ?_⟩
  unfold loaderFetch subsetGetItems
  induction batch generalizing items with
  | nil => intro h; cases h; simp
  | cons x xs ih =>
    intro h it hit
    rw [List.mapM_cons] at h
    simp only [bind, Except.bind] at h
    cases hx : pyIndex indices x with
    | error e => rw [hx] at h; cases h
    | ok real =>
      rw [hx] at h
      dsimp only at h
      unfold segGet at h
      cases hr : read real with
      | error e => rw [hr] at h; cases h
      | ok p =>
        rw [hr] at h
        dsimp only [Except.map] at h
        split at h
        · cases h
        · rename_i v hv
          cases h
          rcases List.mem_cons.1 hit with rfl | hit
          · exact ⟨_, _, rfl⟩
          · exact ih v (by simpa only [bind, Except.bind, segGet, Except.map] using hv) it hit

/-- C84, finding. `_id_to_class` returns no class name for any index; it returns without an exception exactly on indices above the number of classes. -/
theorem C84_id_to_class (N : ℕ) (id : ℤ) : (∀ name : String, idToClass N id ≠ .ok (some name)) ∧ (idToClass N id = .ok none ↔ (N : ℤ) < id) ∧
    (id ≤ N → idToClass N id = .error .attributeError) := by
  unfold idToClass
  split
  · exact ⟨by simp, by simp [*], fun _ => by omega⟩
  · exact ⟨by simp, by simp [*], fun _ => rfl⟩

/-- C84. Channels. With the alpha channel ignored, items of files with at least 3 channels have 3; `input_shape` agrees with the items unless the file has fewer. -/
theorem C84_channels (n : ℕ) (b : Bool) : (3 ≤ n → itemChannels n b = inputChannels n b) ∧ itemChannels n true = min 3 n ∧ itemChannels n false = n := by
  refine ⟨fun h => ?_, rfl, ?_⟩
  · unfold itemChannels inputChannels
    cases b <;> simp [h]
  · simp [itemChannels]

/-- A cut of 10 percent of 100 rows: 10 rows at each end. -/
example : RowCut (1 / 10) 100 9 ∧ ¬ RowCut (1 / 10) 100 10 ∧ ¬ RowCut (1 / 10) 100 89 ∧ RowCut (1 / 10) 100 90 := by
  unfold RowCut
  norm_num

end Verif.Props
