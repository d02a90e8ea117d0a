import Verif.Spec.Layers
import Verif.Lemmas.Layers
/-!
C77: the building blocks of the example models: truncated normal initialisation, stochastic depth and patches.
-/
namespace Verif.Props
open Verif Verif.Dist Verif.SHT Verif.Spec Verif.Layers MeasureTheory ProbabilityTheory Set

/-! ### Truncated normal initialisation -/

/-- **C77.** For every mean, every positive standard deviation and all bounds `a < b`, `trunc_normal_` draws its uniform numbers from an interval, and an entry
then has exactly the law of the normal distribution conditioned on lying between `a` and `b`. -/
theorem C77_trunc_normal (g : ℝ → ℝ) (hg : IsErfInv g) (mean std a b : ℝ) (hs : 0 < std) (hab : a < b) :
    ∃ lo hi, truncRange mean std a b = .ok (lo, hi) ∧ lo < hi ∧
      Measure.map (truncEntry g mean std a b) (cond volume (Icc lo hi)) = cond (gaussianReal mean (std ^ 2).toNNReal) (Icc a b) := by
  have h := normCdf_strictMono (div_lt_div_of_pos_right (sub_lt_sub_right hab mean) hs)
  refine ⟨_, _, ?_, ?_, trunc_law g hg mean std a b hs hab⟩
  · rw [truncRange, if_neg hs.ne', if_neg (by linarith)]
  · linarith

/-- **C77.** Clamping never changes an entry: the inverse transform already lands between the bounds. -/
theorem C77_trunc_clamp (g : ℝ → ℝ) (hg : IsErfInv g) (mean std a b lo hi v : ℝ) (hs : 0 < std)
    (hr : truncRange mean std a b = .ok (lo, hi)) (h1 : lo ≤ v) (h2 : v ≤ hi) :
    a ≤ truncRaw g mean std v ∧ truncRaw g mean std v ≤ b ∧ truncEntry g mean std a b v = truncRaw g mean std v := by
  rw [truncRange, if_neg hs.ne'] at hr
  split_ifs at hr with hlt
  simp only [Except.ok.injEq, Prod.mk.injEq] at hr
  obtain ⟨rfl, rfl⟩ := hr
  have b1 := lt_of_lt_of_le (cdf_bounds _).1 h1
  have b2 := lt_of_le_of_lt h2 (cdf_bounds _).2
  have e1 := (le_entry g hg mean std a v hs b1 b2).mpr h1
  have e2 := (entry_le g hg mean std b v hs b1 b2).mpr h2
  exact ⟨e1, e2, by rw [truncEntry, max_eq_left e1, min_eq_left e2]⟩

/-- **C77.** A standard deviation of 0 is a division by zero; a negative one, or bounds in the wrong order, are an empty range. -/
theorem C77_trunc_errors (mean std a b : ℝ) :
    (std = 0 → truncRange mean std a b = .error .zeroDivision) ∧
    (std < 0 → a < b → truncRange mean std a b = .error .runtimeError) ∧
    (0 < std → b < a → truncRange mean std a b = .error .runtimeError) := by
  refine ⟨fun h => by rw [truncRange, if_pos h], fun h hab => ?_, fun h hab => ?_⟩
  · have h1 := normCdf_strictMono (div_lt_div_of_neg_of_lt h (sub_lt_sub_right hab mean))
    rw [truncRange, if_neg h.ne, if_pos (by linarith)]
  · have h1 := normCdf_strictMono (div_lt_div_of_pos_right (sub_lt_sub_right hab mean) h)
    rw [truncRange, if_neg h.ne', if_pos (by linarith)]

/-- The inverse error function exists. -/
example : ∃ g, IsErfInv g := by
  classical
  refine ⟨fun v => if h : -1 < v ∧ v < 1 then (erf_surj v h.1 h.2).choose else 0, fun v h1 h2 => ?_⟩
  simp only [dif_pos (And.intro h1 h2)]
  exact (erf_surj v h1 h2).choose_spec

/-- The position embedding of the example models: mean 0, standard deviation 0.02, bounds -2 and 2. -/
example : ∃ lo hi, truncRange 0 0.02 (-2) 2 = .ok (lo, hi) ∧ lo < hi := by
  obtain ⟨g, hg⟩ : ∃ g, IsErfInv g := by
    classical
    refine ⟨fun v => if h : -1 < v ∧ v < 1 then (erf_surj v h.1 h.2).choose else 0, fun v h1 h2 => ?_⟩
    simp only [dif_pos (And.intro h1 h2)]
    exact (erf_surj v h1 h2).choose_spec
  obtain ⟨lo, hi, h, hl, _⟩ := C77_trunc_normal g hg 0 0.02 (-2) 2 (by norm_num) (by norm_num)
  exact ⟨lo, hi, h, hl⟩

/-! ### Stochastic depth -/

/-- **C77.** Outside training, whatever the probability and even for `None`, and for probability 0, the batch comes back unchanged. -/
theorem C77_drop_off {ι : Type} (x : ℕ → ι → ℝ) (p : Option ℝ) (training : Bool) (u : ℕ → ℝ) (h : p = some 0 ∨ training = false) :
    dropPath x p training u = .ok fun b i => some (x b i) := by
  simp only [dropPath]
  rw [if_pos h]

/-- **C77.** In training with probability `0 < p < 1`: every sample is dropped or kept as a whole, by its own random number alone. It is dropped when the number is
below `p`, and otherwise divided by `1 - p`. -/
theorem C77_drop_sample {ι : Type} (x : ℕ → ι → ℝ) (p : ℝ) (u : ℕ → ℝ) (h0 : 0 < p) (h1 : p < 1) (hu : ∀ b, 0 ≤ u b ∧ u b < 1) :
    ∃ y, dropPath x (some p) true u = .ok y ∧
      ∀ b, (u b < p → ∀ i, y b i = some 0) ∧ (p ≤ u b → ∀ i, y b i = some (x b i / (1 - p))) := by
  refine ⟨_, by rw [dropPath, if_neg (by simp [h0.ne'])], fun b => ⟨fun h i => ?_, fun h i => ?_⟩⟩
  · have e : ⌊1 - p + u b⌋ = 0 := by
      rw [Int.floor_eq_iff]
      have := hu b
      push_cast
      constructor <;> linarith
    simp only [e, if_neg (show ¬(1 - p = 0) by linarith), Int.cast_zero, mul_zero]
  · have e : ⌊1 - p + u b⌋ = 1 := by
      rw [Int.floor_eq_iff]
      have := hu b
      push_cast
      constructor <;> linarith
    simp only [e, if_neg (show ¬(1 - p = 0) by linarith), Int.cast_one, mul_one]

/-- **C77.** For every probability `p` except 1, an entry is on average what it was: its mean over the uniform random number of its sample is the entry. -/
theorem C77_drop_mean {ι : Type} (x : ℕ → ι → ℝ) (p : ℝ) (hp : p ≠ 1) (b : ℕ) (i : ι) :
    ∃ f : ℝ → ℝ, (∀ u : ℕ → ℝ, ∃ y, dropPath x (some p) true u = .ok y ∧ y b i = some (f (u b))) ∧ ∫ r in (0 : ℝ)..1, f r = x b i := by
  rcases eq_or_ne p 0 with rfl | h0
  · exact ⟨fun _ => x b i, fun u => ⟨_, C77_drop_off x _ _ u (Or.inl rfl), rfl⟩, by simp⟩
  · have hk : 1 - p ≠ 0 := sub_ne_zero.mpr hp.symm
    refine ⟨fun r => x b i / (1 - p) * (⌊1 - p + r⌋ : ℤ), fun u => ⟨_, by rw [dropPath, if_neg (by simp [h0])], ?_⟩, ?_⟩
    · simp only [if_neg hk]
    · rw [intervalIntegral.integral_const_mul, floor_mean]
      field_simp

/-- **C77.** With probability 1 in training, where every path should be dropped, every entry is NaN instead of 0. Without a probability, as `DropPath()` has it,
training raises `TypeError`. -/
theorem C77_drop_one_none {ι : Type} (x : ℕ → ι → ℝ) (u : ℕ → ℝ) :
    dropPath x (some 1) true u = .ok (fun _ _ => none) ∧ dropPath x none true u = .error .typeError := by
  constructor
  · rw [dropPath, if_neg (by simp)]
    simp
  · rw [dropPath, if_neg (by simp)]

/-- Half of the paths: the first sample is dropped, the second doubled. -/
example : ∃ y, dropPath (fun b (_ : Unit) => (b : ℝ) + 3) (some (1 / 2)) true (fun b => if b = 0 then 1 / 4 else 3 / 4) = .ok y ∧
    y 0 () = some 0 ∧ y 1 () = some 8 := by
  obtain ⟨y, h, hy⟩ := C77_drop_sample (fun b (_ : Unit) => (b : ℝ) + 3) (1 / 2) (fun b => if b = 0 then 1 / 4 else 3 / 4) (by norm_num) (by norm_num)
    (fun b => by split_ifs <;> norm_num)
  refine ⟨y, h, (hy 0).1 (by norm_num) (), ?_⟩
  rw [(hy 1).2 (by norm_num) ()]
  norm_num

/-! ### Patches -/

theorem conv_extent (n k : ℕ) (hk : 0 < k) (h : k ≤ n) : (n - k) / k + 1 = n / k := by
  rw [Nat.div_eq_sub_div hk h]

/-- **C77.** A patch embedding of an image of the declared size, at least one patch large, has one column for each of the `num_patches` patches, in row-major order,
and the column is the linear map of the pixels of that patch. -/
theorem C77_patches (imgH imgW ph pw inC dim : ℕ) (w : ℕ → ℕ → ℕ → ℕ → ℝ) (bias : ℕ → ℝ) (x : Ten3 ℝ) (h0 : 0 < ph) (h1 : 0 < pw)
    (hH : ph ≤ imgH) (hW : pw ≤ imgW) (hx : x.d0 = inC ∧ x.d1 = imgH ∧ x.d2 = imgW) :
    ∃ P y, PatchEmbed.init imgH imgW ph pw inC dim w bias = .ok P ∧ P.forward x = .ok y ∧ y.d0 = dim ∧ y.d1 = P.numPatches ∧
      P.numPatches = imgH / ph * (imgW / pw) ∧
      ∀ o, ∀ i < imgH / ph, ∀ j < imgW / pw, y.val o (i * (imgW / pw) + j)
        = ∑ c ∈ Finset.range inC, ∑ s ∈ Finset.range ph, ∑ t ∈ Finset.range pw, w o c s t * x.val c (i * ph + s) (j * pw + t) + bias o := by
  obtain ⟨e0, e1, e2⟩ := hx
  refine ⟨_, ⟨dim, imgH / ph * (imgW / pw), fun o n => ∑ c ∈ Finset.range inC, ∑ s ∈ Finset.range ph, ∑ t ∈ Finset.range pw,
    w o c s t * x.val c (n / (imgW / pw) * ph + s) (n % (imgW / pw) * pw + t) + bias o⟩,
    by rw [PatchEmbed.init, if_neg (by omega)], ?_, ?_, ?_, rfl, ?_⟩
  · simp only [PatchEmbed.forward, convStride, e0, e1, e2, ne_eq, not_true_eq_false, if_false, if_neg (show ¬(imgH < ph ∨ imgW < pw) by omega),
      conv_extent imgH ph h0 hH, conv_extent imgW pw h1 hW]
  · rfl
  · rfl
  · intro o i _ j hj
    have hq : (i * (imgW / pw) + j) / (imgW / pw) = i := by
      rw [Nat.add_comm, Nat.add_mul_div_right _ _ (by omega), Nat.div_eq_of_lt hj, Nat.zero_add]
    have hr : (i * (imgW / pw) + j) % (imgW / pw) = j := by
      rw [Nat.add_comm, Nat.add_mul_mod_self_right, Nat.mod_eq_of_lt hj]
    simp only [hq, hr]

/-- **C77.** Every pixel inside the grid of whole patches lies in exactly one of the patches; the pixels below or right of it lie in none. -/
theorem C77_patch_partition (imgH imgW ph pw r c : ℕ) (h0 : 0 < ph) (h1 : 0 < pw) :
    (r < imgH / ph * ph ∧ c < imgW / pw * pw → ∃! q : ℕ × ℕ, (q.1 < imgH / ph ∧ q.2 < imgW / pw) ∧ InPatch ph pw q.1 q.2 r c) ∧
    (¬(r < imgH / ph * ph ∧ c < imgW / pw * pw) → ∀ i < imgH / ph, ∀ j < imgW / pw, ¬InPatch ph pw i j r c) := by
  constructor
  · rintro ⟨hr, hc⟩
    refine ⟨(r / ph, c / pw), ⟨⟨(Nat.div_lt_iff_lt_mul h0).mpr hr, (Nat.div_lt_iff_lt_mul h1).mpr hc⟩, Nat.div_mul_le_self _ _,
      Nat.lt_mul_of_div_lt (Nat.lt_succ_self _) h0, Nat.div_mul_le_self _ _, Nat.lt_mul_of_div_lt (Nat.lt_succ_self _) h1⟩, ?_⟩
    rintro ⟨i, j⟩ ⟨_, a1, a2, a3, a4⟩
    have ei : r / ph = i := Nat.div_eq_of_lt_le a1 a2
    have ej : c / pw = j := Nat.div_eq_of_lt_le a3 a4
    rw [ei, ej]
  · rintro h i hi j hj ⟨_, a2, _, a4⟩
    exact h ⟨lt_of_lt_of_le a2 (Nat.mul_le_mul_right _ hi), lt_of_lt_of_le a4 (Nat.mul_le_mul_right _ hj)⟩

/-- **C77.** The column of a patch depends on the pixels of that patch only; in particular the pixels outside the grid of whole patches are ignored. -/
theorem C77_patch_local (imgH imgW ph pw inC dim : ℕ) (w : ℕ → ℕ → ℕ → ℕ → ℝ) (bias : ℕ → ℝ) (x x' : Ten3 ℝ) (h0 : 0 < ph) (h1 : 0 < pw)
    (hH : ph ≤ imgH) (hW : pw ≤ imgW) (hx : x.d0 = inC ∧ x.d1 = imgH ∧ x.d2 = imgW) (hx' : x'.d0 = inC ∧ x'.d1 = imgH ∧ x'.d2 = imgW)
    (i j : ℕ) (hi : i < imgH / ph) (hj : j < imgW / pw) (heq : ∀ c < inC, ∀ r q, InPatch ph pw i j r q → x.val c r q = x'.val c r q) :
    ∃ P y y', PatchEmbed.init imgH imgW ph pw inC dim w bias = .ok P ∧ P.forward x = .ok y ∧ P.forward x' = .ok y' ∧
      ∀ o, y.val o (i * (imgW / pw) + j) = y'.val o (i * (imgW / pw) + j) := by
  obtain ⟨P, y, hP, hy, -, -, -, hv⟩ := C77_patches imgH imgW ph pw inC dim w bias x h0 h1 hH hW hx
  obtain ⟨P', y', hP', hy', -, -, -, hv'⟩ := C77_patches imgH imgW ph pw inC dim w bias x' h0 h1 hH hW hx'
  rw [hP] at hP'
  cases hP'
  refine ⟨P, y, y', hP, hy, hy', fun o => ?_⟩
  rw [hv o i hi j hj, hv' o i hi j hj]
  congr 1
  refine Finset.sum_congr rfl fun c hc => Finset.sum_congr rfl fun s hs => Finset.sum_congr rfl fun t ht => ?_
  rw [Finset.mem_range] at hc hs ht
  rw [heq c hc _ _ ⟨by omega, by rw [Nat.add_mul]; omega, by omega, by rw [Nat.add_mul]; omega⟩]

/-- **C77.** An image of another size, with another number of channels, or smaller than one patch raises `RuntimeError`; a patch extent 0 a
`ZeroDivisionError` at construction. -/
theorem C77_patch_errors (imgH imgW ph pw inC dim : ℕ) (w : ℕ → ℕ → ℕ → ℕ → ℝ) (bias : ℕ → ℝ) (x : Ten3 ℝ) :
    (ph = 0 ∨ pw = 0 → PatchEmbed.init imgH imgW ph pw inC dim w bias = .error .zeroDivision) ∧
    (0 < ph → 0 < pw → x.d0 ≠ inC ∨ x.d1 ≠ imgH ∨ x.d2 ≠ imgW ∨ imgH < ph ∨ imgW < pw →
      ∃ P, PatchEmbed.init imgH imgW ph pw inC dim w bias = .ok P ∧ P.forward x = .error .runtimeError) := by
  refine ⟨fun h => by rw [PatchEmbed.init, if_pos h], fun h0 h1 h => ⟨_, by rw [PatchEmbed.init, if_neg (by omega)], ?_⟩⟩
  simp only [PatchEmbed.forward, convStride]
  by_cases a1 : x.d1 = imgH
  · by_cases a2 : x.d2 = imgW
    · by_cases a0 : x.d0 = inC
      · have : imgH < ph ∨ imgW < pw := by tauto
        simp [a0, a1, a2, this]
      · simp [a0, a1, a2]
    · simp [a1, a2]
  · simp [a1]

/-- A 5 by 4 image in 2 by 2 patches: four patches, and the last row is ignored. -/
example : ∃ P y, PatchEmbed.init 5 4 2 2 1 1 (fun _ _ _ _ => 1) (fun _ => 0) = .ok P ∧
    P.forward ⟨1, 5, 4, fun _ r c => (r : ℝ) * 10 + c⟩ = .ok y ∧ y.d1 = 4 ∧ y.val 0 3 = 110 := by
  obtain ⟨P, y, hP, hy, -, hc, hn, hv⟩ := C77_patches 5 4 2 2 1 1 (fun _ _ _ _ => 1) (fun _ => 0) ⟨1, 5, 4, fun _ r c => (r : ℝ) * 10 + c⟩
    (by norm_num) (by norm_num) (by norm_num) (by norm_num) ⟨rfl, rfl, rfl⟩
  refine ⟨P, y, hP, hy, by rw [hc, hn], ?_⟩
  have h := hv 0 1 (by norm_num) 1 (by norm_num)
  norm_num [Finset.sum_range_succ] at h
  exact h

end Verif.Props
