import Mathlib.Tactic.NormNum
import Mathlib.Tactic.Linarith
import Verif.Lemmas.DiscoNorm
/-!
Property C35: what the filter normalisation guarantees. Filters are lists of taps (`Spec/Disco.lean`); `rowSum` adds up
over the taps of one filter at one output latitude, `colSum` over the taps of one filter at one latitude of the finer grid
(the output of the transposed convolution). `NormFits` says that the taps fit the grids and that weights and mask have the
right lengths.
-/
namespace Verif.Props
open Verif Verif.Dist Verif.Disco Verif.Spec Finset

theorem knownMode_nodal : knownMode "nodal" := Or.inl rfl

theorem normAlias_nodal {mode : String} (h : mode = "nodal" ∨ mode = "individual") : normAlias mode = "nodal" := by
  rcases h with rfl | rfl <;> simp [normAlias]

/-- The absolute integral after dividing by the clamped scale, in both directions. -/
theorem nodal_isum (A : NormArgs) (taps : List (Tap ℝ)) (heps : 0 < A.eps) (hm : A.merge = false) (k i : ℕ) (φ : ℝ → ℝ)
    (hφ : ∀ v s : ℝ, 0 < s → φ (v / s) = φ v / s) :
    isum A.transpose (taps.map fun a => { a with val := finishOf A a (selectOf A "nodal" taps a) }) k i
      (fun a => φ a.val * A.quad.val (gIn A.transpose a))
      = isum A.transpose taps k i (fun a => φ a.val * A.quad.val (gIn A.transpose a))
        / max (isum A.transpose taps k i (fun a => |a.val| * A.quad.val (gIn A.transpose a))) A.eps := by
  have hb : ∀ k i, biasOf A "nodal" taps k i = 0 := by
    intro k i; unfold biasOf; dsimp only; rw [if_neg (fun h => by simp at h)]
  have hs : ∀ k i, scaleOf A "nodal" taps k i = isum A.transpose taps k i (fun a => |a.val| * A.quad.val (gIn A.transpose a)) := by
    intro k i; unfold scaleOf; rw [hb]; simp only [sub_zero]
  rw [isum_map, div_eq_mul_inv, ← isum_mul_right]
  refine isum_congr fun a _ hk hg => ?_
  have e1 : finishOf A a (selectOf A "nodal" taps a) = a.val
      / max (isum A.transpose taps k i (fun a => |a.val| * A.quad.val (gIn A.transpose a))) A.eps := by
    simp only [finishOf, hm, Bool.false_eq_true, and_false, if_false, selectOf, true_or, if_true, hb, sub_zero, hs, hk, hg]
  have hp : 0 < max (isum A.transpose taps k i (fun a => |a.val| * A.quad.val (gIn A.transpose a))) A.eps :=
    lt_of_lt_of_le heps (le_max_right _ _)
  have hg' : ∀ v, gIn A.transpose { a with val := v } = gIn A.transpose a := fun _ => rfl
  simp only [hg', e1, hφ _ _ hp]
  rw [div_eq_mul_inv]; ring

/-- C35: nodal normalisation (and its deprecated alias) keeps the stencil and divides every filter at every output latitude by
its absolute integral `S`: afterwards the absolute integral is 1 when `S >= eps` (and `S / eps` below); a non-negative filter
integrates to 1. -/
theorem C35_nodal (A : NormArgs) (taps : List (Tap ℝ)) (hA : NormFits A taps) (ht : A.transpose = false)
    (hm : A.merge = false) (heps : 0 < A.eps) (mode : String) (hmode : mode = "nodal" ∨ mode = "individual") :
    ∃ taps', normalize A mode (taps.map (encode A.nlonIn)) = .ok (taps'.map (encode A.nlonIn)) ∧ SameStencil taps taps' ∧
      ∀ k t S, S = rowSum taps k t (fun a => |a.val| * A.quad.val a.latIn) →
        (A.eps ≤ S → rowSum taps' k t (fun a => |a.val| * A.quad.val a.latIn) = 1) ∧
        (S ≤ A.eps → rowSum taps' k t (fun a => |a.val| * A.quad.val a.latIn) = S / A.eps) ∧
        (A.eps ≤ S → (∀ a ∈ taps, a.ker = k → a.latOut = t → 0 ≤ a.val) →
          rowSum taps' k t (fun a => a.val * A.quad.val a.latIn) = 1) := by
  have hn := normAlias_nodal hmode
  refine ⟨_, normalize_val hA mode (hn ▸ knownMode_nodal), sameStencil_map _ _, fun k t S hS => ?_⟩
  rw [hn]
  have key := fun φ hφ => nodal_isum A taps heps hm k t φ hφ
  have ka := key (fun v => |v|) (fun v s hs => by rw [abs_div, abs_of_pos hs])
  have ki := key (fun v => v) (fun v s _ => rfl)
  have e1 : ∀ l : List (Tap ℝ), ∀ φ : ℝ → ℝ, isum A.transpose l k t (fun a => φ a.val * A.quad.val (gIn A.transpose a))
      = rowSum l k t (fun a => φ a.val * A.quad.val a.latIn) := by
    intro l φ; rw [ht]; rfl
  simp only [e1 _ (fun v => |v|)] at ka
  simp only [e1 _ (fun v => |v|), e1 _ (fun v => v)] at ki
  rw [ka, ki, ← hS]
  refine ⟨fun h => ?_, fun h => ?_, fun h hv => ?_⟩
  · rw [max_eq_left h, div_self (by linarith)]
  · rw [max_eq_right h]
  · have : rowSum taps k t (fun a => a.val * A.quad.val a.latIn) = S := by
      rw [hS, ← isum_false, ← isum_false]
      exact isum_congr fun a ha hk hg => by rw [abs_of_nonneg (hv a ha hk hg)]
    rw [this, max_eq_left h, div_self (by linarith)]

/-- C35: with `merge_quadrature` the returned values are, for every mode, the unmerged ones times the quadrature weight of the
tap, once; for the transposed normalisation they are also divided by the ratio of the longitude counts. -/
theorem C35_merge_once (A : NormArgs) (taps : List (Tap ℝ)) (hA : NormFits A taps) (mode : String)
    (hmode : knownMode (normAlias mode)) :
    ∃ f : Tap ℝ → ℝ,
      normalize { A with merge := false } mode (taps.map (encode A.nlonIn))
        = .ok ((taps.map fun a => { a with val := f a }).map (encode A.nlonIn)) ∧
      normalize { A with merge := true } mode (taps.map (encode A.nlonIn))
        = .ok ((taps.map fun a => { a with val := (if A.transpose then f a * A.quad.val a.latOut / ((A.nlonOut : ℝ) / A.nlonIn)
            else f a * A.quad.val a.latIn) }).map (encode A.nlonIn)) := by
  have h0 : NormFits { A with merge := false } taps := ⟨hA.nlon, hA.fits, hA.quad, hA.mask, hA.ker⟩
  have h1 : NormFits { A with merge := true } taps := ⟨hA.nlon, hA.fits, hA.quad, hA.mask, hA.ker⟩
  refine ⟨fun a => selectOf A (normAlias mode) taps a, ?_, ?_⟩
  · rw [normalize_val h0 mode hmode]
    congr 2
    refine List.map_congr_left fun a _ => ?_
    congr 1
    unfold finishOf
    simp
    rfl
  · rw [normalize_val h1 mode hmode]
    congr 2
    refine List.map_congr_left fun a _ => ?_
    congr 1
    have e0 : selectOf { A with merge := true } (normAlias mode) taps a = selectOf A (normAlias mode) taps a := rfl
    rw [e0]
    unfold finishOf
    simp only [if_true, and_true]
    cases ht : A.transpose
    · simp [gIn]
    · simp [gIn]

/-- The merged nodal filters, in both directions; `c` is the transpose correction. -/
theorem nodal_merged_isum (A : NormArgs) (taps : List (Tap ℝ)) (heps : 0 < A.eps) (hm : A.merge = true) (k i : ℕ) (φ : ℝ → ℝ)
    (hφ : ∀ v s : ℝ, 0 < s → φ (v / s) = φ v / s) (c : ℝ) (hc : c = if A.transpose then (A.nlonOut : ℝ) / A.nlonIn else 1)
    (hc0 : 0 < c) (hw : ∀ v i, φ (v * A.quad.val i) = φ v * A.quad.val i) :
    isum A.transpose (taps.map fun a => { a with val := finishOf A a (selectOf A "nodal" taps a) }) k i (fun a => φ a.val)
      = isum A.transpose taps k i (fun a => φ a.val * A.quad.val (gIn A.transpose a))
        / max (isum A.transpose taps k i (fun a => |a.val| * A.quad.val (gIn A.transpose a))) A.eps / c := by
  have h := nodal_isum { A with merge := false } taps heps rfl k i φ hφ
  dsimp only at h
  rw [← h, isum_map, isum_map, div_eq_mul_inv, ← isum_mul_right]
  refine isum_congr fun a _ _ _ => ?_
  have e : finishOf A a (selectOf A "nodal" taps a)
      = finishOf { A with merge := false } a (selectOf { A with merge := false } "nodal" taps a)
        * A.quad.val (gIn A.transpose a) / c := by
    have e0 : selectOf { A with merge := false } "nodal" taps a = selectOf A "nodal" taps a := rfl
    rw [e0]
    unfold finishOf
    rw [hm, hc]
    cases ht : A.transpose <;> simp
  dsimp only
  rw [e, hφ _ _ hc0, hw]
  have hg' : ∀ v, gIn A.transpose { a with val := v } = gIn A.transpose a := fun _ => rfl
  rw [hg', div_eq_mul_inv]
  rfl

/-- C35, end to end: contracting with nodal-normalised, quadrature-merged filters. A non-negative filter maps the constant field
`c` to `c` wherever its raw integral is at least `eps`; any filter maps a field bounded by `M` to a field bounded by `M`. -/
theorem C35_contraction (A : NormArgs) (taps : List (Tap ℝ)) (hA : NormFits A taps) (ht : A.transpose = false)
    (hm : A.merge = true) (heps : 0 < A.eps) (mode : String) (hmode : mode = "nodal" ∨ mode = "individual")
    (hw : ∀ i, 0 ≤ A.quad.val i) (hW : 0 < A.nlonOut) (hd : A.nlonOut ∣ A.nlonIn) (hle : A.nlatOut ≤ A.nlonIn) :
    ∃ es, normalize A mode (taps.map (encode A.nlonIn)) = .ok es ∧
      ∀ x : Mat ℝ, x.d0 = A.nlatIn → x.d1 = A.nlonIn → ∃ y,
        contraction x (getPsi A.kernelSize es A.nlatIn A.nlonIn A.nlatOut) A.nlonOut = .ok y ∧
        (∀ c k t, ∀ p < A.nlonOut, (∀ i j, x.val i j = c) → (∀ a ∈ taps, a.ker = k → a.latOut = t → 0 ≤ a.val) →
          A.eps ≤ rowSum taps k t (fun a => |a.val| * A.quad.val a.latIn) → y.val k t p = c) ∧
        (∀ M k t, ∀ p < A.nlonOut, 0 ≤ M → (∀ i j, |x.val i j| ≤ M) → |y.val k t p| ≤ M) := by
  have hn := normAlias_nodal hmode
  refine ⟨_, normalize_val hA mode (hn ▸ knownMode_nodal), fun x hx0 hx1 => ?_⟩
  rw [hn]
  set taps' := taps.map fun a => { a with val := finishOf A a (selectOf A "nodal" taps a) } with htaps'
  have hfit : Fits taps' A.kernelSize A.nlatOut A.nlatIn A.nlonIn := by
    intro a ha
    obtain ⟨b, hb, rfl⟩ := List.mem_map.1 ha
    exact hA.fits b hb
  obtain ⟨y, h1, -, -, -, h2⟩ := contraction_value taps' A.kernelSize A.nlatOut A.nlonOut x (by rw [hx0, hx1]; exact hfit) hW
    (by rw [hx1]; exact hd) (by rw [hx1]; exact hle)
  rw [hx0, hx1] at h1
  refine ⟨y, h1, ?_, ?_⟩
  · intro c k t p hp hx hv hS
    rw [h2 k t p hp]
    have e1 : discoSum taps' x.d1 A.nlonOut x.val k t p = isum A.transpose taps' k t (fun a => a.val) * c := by
      rw [← isum_mul_right, ht]
      unfold discoSum isum
      congr 1
      refine List.map_congr_left fun a _ => ?_
      rw [hx]; rfl
    have e2 := nodal_merged_isum A taps heps hm k t (fun v => v) (fun v s _ => rfl) 1 (by simp [ht]) one_pos (fun _ _ => rfl)
    have e3 : isum A.transpose taps k t (fun a => a.val * A.quad.val (gIn A.transpose a))
        = isum A.transpose taps k t (fun a => |a.val| * A.quad.val (gIn A.transpose a)) := by
      refine isum_congr fun a ha hk hg => ?_
      rw [ht] at hg
      rw [abs_of_nonneg (hv a ha hk hg)]
    have e4 : isum A.transpose taps k t (fun a => |a.val| * A.quad.val (gIn A.transpose a))
        = rowSum taps k t (fun a => |a.val| * A.quad.val a.latIn) := by rw [ht]; rfl
    rw [e3, e4, max_eq_left hS, div_self (by linarith), div_one] at e2
    rw [e1, e2, one_mul]
  · intro M k t p hp hM hx
    rw [h2 k t p hp]
    have e2 := nodal_merged_isum A taps heps hm k t (fun v => |v|) (fun v s hs => by rw [abs_div, abs_of_pos hs]) 1
      (by simp [ht]) one_pos (fun v i => by rw [abs_mul, abs_of_nonneg (hw i)])
    have e3 : isum A.transpose taps' k t (fun a => |a.val|) ≤ 1 := by
      rw [e2, div_one]
      exact (div_le_one (lt_of_lt_of_le heps (le_max_right _ _))).2 (le_max_left _ _)
    have e4 : |discoSum taps' x.d1 A.nlonOut x.val k t p| ≤ isum A.transpose taps' k t (fun a => |a.val|) * M := by
      rw [ht]
      clear_value taps'
      clear e2 e3 h2 h1 hfit htaps'
      unfold discoSum isum
      induction taps' with
      | nil => simp
      | cons a l ih =>
        simp only [List.map_cons, List.sum_cons]
        refine le_trans (abs_add_le _ _) ?_
        rw [add_mul]
        refine add_le_add ?_ ih
        by_cases hc : a.ker = k ∧ a.latOut = t
        · rw [if_pos hc, if_pos (show a.ker = k ∧ gOut false a = t from hc), abs_mul]
          exact mul_le_mul_of_nonneg_left (hx _ _) (abs_nonneg _)
        · rw [if_neg hc, if_neg (show ¬ (a.ker = k ∧ gOut false a = t) from hc)]
          simp
    calc _ ≤ _ := e4
      _ ≤ 1 * M := mul_le_mul_of_nonneg_right e3 hM
      _ = M := one_mul M

/-- C35, transposed direction: nodal normalisation makes each filter, at every latitude of the finer grid, integrate to 1 against
the quadrature weights of the coarser grid. -/
theorem C35_transpose_nodal (A : NormArgs) (taps : List (Tap ℝ)) (hA : NormFits A taps) (ht : A.transpose = true)
    (hm : A.merge = false) (heps : 0 < A.eps) (mode : String) (hmode : mode = "nodal" ∨ mode = "individual") :
    ∃ taps', normalize A mode (taps.map (encode A.nlonIn)) = .ok (taps'.map (encode A.nlonIn)) ∧ SameStencil taps taps' ∧
      ∀ k i S, S = colSum taps k i (fun a => |a.val| * A.quad.val a.latOut) →
        (A.eps ≤ S → colSum taps' k i (fun a => |a.val| * A.quad.val a.latOut) = 1) ∧
        (S ≤ A.eps → colSum taps' k i (fun a => |a.val| * A.quad.val a.latOut) = S / A.eps) ∧
        (A.eps ≤ S → (∀ a ∈ taps, a.ker = k → a.latIn = i → 0 ≤ a.val) →
          colSum taps' k i (fun a => a.val * A.quad.val a.latOut) = 1) := by
  have hn := normAlias_nodal hmode
  refine ⟨_, normalize_val hA mode (hn ▸ knownMode_nodal), sameStencil_map _ _, fun k t S hS => ?_⟩
  rw [hn]
  have key := fun φ hφ => nodal_isum A taps heps hm k t φ hφ
  have ka := key (fun v => |v|) (fun v s hs => by rw [abs_div, abs_of_pos hs])
  have ki := key (fun v => v) (fun v s _ => rfl)
  have e1 : ∀ l : List (Tap ℝ), ∀ φ : ℝ → ℝ, isum A.transpose l k t (fun a => φ a.val * A.quad.val (gIn A.transpose a))
      = colSum l k t (fun a => φ a.val * A.quad.val a.latOut) := by
    intro l φ; rw [ht]; rfl
  simp only [e1 _ (fun v => |v|)] at ka
  simp only [e1 _ (fun v => |v|), e1 _ (fun v => v)] at ki
  rw [ka, ki, ← hS]
  refine ⟨fun h => ?_, fun h => ?_, fun h hv => ?_⟩
  · rw [max_eq_left h, div_self (by linarith)]
  · rw [max_eq_right h]
  · have : colSum taps k t (fun a => a.val * A.quad.val a.latOut) = S := by
      rw [hS, ← isum_true, ← isum_true]
      exact isum_congr fun a ha hk hg => by rw [abs_of_nonneg (hv a ha hk hg)]
    rw [this, max_eq_left h, div_self (by linarith)]

/-- C35, transposed direction, end to end: the transposed contraction of a field that is `c` on filter `k` and zero on the other
filters averages to `c` over every latitude circle of the output, for a non-negative filter. `A` is set up as
`DiscreteContinuousConvTransposeS2` does: the "input" shape is the finer output grid. -/
theorem C35_transpose_contraction (A : NormArgs) (taps : List (Tap ℝ)) (hA : NormFits A taps) (ht : A.transpose = true)
    (hm : A.merge = true) (heps : 0 < A.eps) (mode : String) (hmode : mode = "nodal" ∨ mode = "individual")
    (hW : 0 < A.nlonOut) (hd : A.nlonOut ∣ A.nlonIn) :
    ∃ es, normalize A mode (taps.map (encode A.nlonIn)) = .ok es ∧
      ∀ (x : Ten ℝ) (c : ℝ) (k : ℕ), x.d0 = A.kernelSize → x.d1 = A.nlatOut → x.d2 = A.nlonOut →
        (∀ k' t p, x.val k' t p = if k' = k then c else 0) → ∃ y,
        transposeContraction x (getPsiT A.kernelSize es A.nlatOut A.nlatIn A.nlonIn) A.nlonIn = .ok y ∧
        ∀ i, (∀ a ∈ taps, a.ker = k → a.latIn = i → 0 ≤ a.val) →
          A.eps ≤ colSum taps k i (fun a => |a.val| * A.quad.val a.latOut) →
          (∑ j ∈ range A.nlonIn, y.val i j) / A.nlonIn = c := by
  have hn := normAlias_nodal hmode
  refine ⟨_, normalize_val hA mode (hn ▸ knownMode_nodal), fun x c k hx0 hx1 hx2 hx => ?_⟩
  rw [hn]
  set taps' := taps.map fun a => { a with val := finishOf A a (selectOf A "nodal" taps a) } with htaps'
  have hfit : Fits taps' A.kernelSize A.nlatOut A.nlatIn A.nlonIn := by
    intro a ha
    obtain ⟨b, hb, rfl⟩ := List.mem_map.1 ha
    exact hA.fits b hb
  obtain ⟨y, h1, -, -, h2⟩ := transposeContraction_value taps' A.kernelSize A.nlatIn A.nlonIn x (by rw [hx1]; exact hfit) hx0
    (by rw [hx2]; exact hW) (by rw [hx2]; exact hd) hA.nlon
  rw [hx1] at h1
  refine ⟨y, h1, fun i hv hS => ?_⟩
  have hWr : (0 : ℝ) < A.nlonOut := by exact_mod_cast hW
  have hNr : (0 : ℝ) < A.nlonIn := by exact_mod_cast hA.nlon
  have e2 := nodal_merged_isum A taps heps hm k i (fun v => v) (fun v s _ => rfl) ((A.nlonOut : ℝ) / A.nlonIn) (by simp [ht])
    (div_pos hWr hNr) (fun _ _ => rfl)
  have e3 : isum A.transpose taps k i (fun a => a.val * A.quad.val (gIn A.transpose a))
      = isum A.transpose taps k i (fun a => |a.val| * A.quad.val (gIn A.transpose a)) := by
    refine isum_congr fun a ha hk hg => ?_
    rw [ht] at hg
    rw [abs_of_nonneg (hv a ha hk hg)]
  have e4 : isum A.transpose taps k i (fun a => |a.val| * A.quad.val (gIn A.transpose a))
      = colSum taps k i (fun a => |a.val| * A.quad.val a.latOut) := by rw [ht]; rfl
  rw [e3, e4, max_eq_left hS, div_self (by linarith)] at e2
  have e5 : ∑ j ∈ range A.nlonIn, y.val i j = isum A.transpose taps' k i (fun a => a.val) * (A.nlonOut * c) := by
    rw [sum_congr rfl fun j hj => h2 i j (mem_range.1 hj)]
    rw [← isum_mul_right, ht]
    clear_value taps'
    clear e2 h2 h1 hfit htaps'
    unfold discoAdjoint isum
    induction taps' with
    | nil => simp
    | cons a l ih =>
      simp only [List.map_cons, List.sum_cons]
      rw [sum_add_distrib, ih]
      congr 1
      rw [sum_comm]
      have hcol : ∀ p, a.column A.nlonIn x.d2 p < A.nlonIn := fun p => Nat.mod_lt _ hA.nlon
      have hin : ∀ p, (∑ j ∈ range A.nlonIn, if a.latIn = i ∧ a.column A.nlonIn x.d2 p = j then
          a.val * x.val a.ker a.latOut p else 0) = if a.ker = k ∧ a.latIn = i then a.val * c else 0 := by
        intro p
        rw [sum_eq_single (a.column A.nlonIn x.d2 p)]
        · rw [hx]
          by_cases h1 : a.latIn = i <;> by_cases h2 : a.ker = k <;> simp [h1, h2]
        · intro j _ hj
          rw [if_neg (fun h => hj h.2.symm)]
        · intro h; exact absurd (mem_range.2 (hcol p)) h
      rw [sum_congr rfl fun p _ => hin p, sum_const, card_range, hx2, nsmul_eq_mul]
      by_cases hc : a.ker = k ∧ a.latIn = i
      · rw [if_pos hc, if_pos (show a.ker = k ∧ gOut true a = i from hc)]; ring
      · rw [if_neg hc, if_neg (show ¬ (a.ker = k ∧ gOut true a = i) from hc)]; ring
  rw [e5, e2]
  field_simp

/-- C35, modal mode: an anisotropic filter (its mask entry is false; without a mask every filter but the first) on a row with
enough support has its weighted mean removed, so it integrates to 0, and is divided by its absolute integral. -/
theorem C35_modal (A : NormArgs) (taps : List (Tap ℝ)) (hA : NormFits A taps) (ht : A.transpose = false)
    (hm : A.merge = false) (heps : 0 < A.eps) :
    ∃ taps', normalize A "modal" (taps.map (encode A.nlonIn)) = .ok (taps'.map (encode A.nlonIn)) ∧ SameStencil taps taps' ∧
      ∀ k t, (∃ m, A.isoMask = some m ∧ m[k]? = some false) ∨ (A.isoMask = none ∧ k ≠ 0) →
        ∀ W μ S, W = rowSum taps k t (fun a => A.quad.val a.latIn) → A.eps < W →
        μ = rowSum taps k t (fun a => a.val * A.quad.val a.latIn) / W →
        S = rowSum taps k t (fun a => |a.val - μ| * A.quad.val a.latIn) →
        rowSum taps' k t (fun a => a.val * A.quad.val a.latIn) = 0 ∧
        (A.eps ≤ S → rowSum taps' k t (fun a => |a.val| * A.quad.val a.latIn) = 1) := by
  refine ⟨_, normalize_val hA "modal" (by simp [normAlias, knownMode]), sameStencil_map _ _, ?_⟩
  intro k t hk W μ S hW hWe hμ hS
  have hiso : A.iso k = false := by
    unfold NormArgs.iso
    rcases hk with ⟨m, h1, h2⟩ | ⟨h1, h2⟩
    · rw [h1]; simp only [List.getD_eq_getElem?_getD, h2]; rfl
    · rw [h1]; simpa using h2
  have hal : normAlias "modal" = "modal" := by simp [normAlias]
  have hb : biasOf A "modal" taps k t = μ := by
    unfold biasOf
    dsimp only
    have e1 : isum A.transpose taps k t (fun a => A.quad.val (gIn A.transpose a)) = W := by rw [hW, ht]; rfl
    have e2 : isum A.transpose taps k t (fun a => a.val * A.quad.val (gIn A.transpose a)) = μ * W := by
      rw [hμ, div_mul_cancel₀ _ (by linarith), ht]; rfl
    rw [e1, e2, if_pos ⟨rfl, hiso, by rw [abs_of_pos (by linarith)]; exact hWe⟩, max_eq_left hWe.le]
    exact mul_div_cancel_right₀ _ (by linarith)
  have hs : scaleOf A "modal" taps k t = S := by
    unfold scaleOf
    rw [hb, hS, ht]; rfl
  have hp : 0 < max S A.eps := lt_of_lt_of_le heps (le_max_right _ _)
  have hval : ∀ a, a.ker = k → a.latOut = t → finishOf A a (selectOf A "modal" taps a) = (a.val - μ) / max S A.eps := by
    intro a h1 h2
    have hg : gOut A.transpose a = t := by rw [ht]; exact h2
    unfold finishOf selectOf
    simp only [hm, Bool.false_eq_true, and_false, if_false, or_true, if_true, h1, hg, hb, hs]
  have hfin : ∀ φ : ℝ → ℝ, rowSum (taps.map fun a => { a with val := finishOf A a (selectOf A (normAlias "modal") taps a) }) k t
      (fun a => φ a.val * A.quad.val a.latIn)
      = rowSum taps k t (fun a => φ ((a.val - μ) / max S A.eps) * A.quad.val a.latIn) := by
    intro φ
    rw [hal, ← isum_false, ← isum_false, isum_map]
    exact isum_congr fun a _ h1 h2 => by rw [hval a h1 h2]
  constructor
  · rw [hfin (fun v => v)]
    have : rowSum taps k t (fun a => (a.val - μ) / max S A.eps * A.quad.val a.latIn)
        = (rowSum taps k t (fun a => a.val * A.quad.val a.latIn) - rowSum taps k t (fun a => A.quad.val a.latIn) * μ)
          * (max S A.eps)⁻¹ := by
      simp only [← isum_false]
      rw [← isum_mul_right, ← isum_sub, ← isum_mul_right]
      exact isum_congr fun a _ _ _ => by rw [div_eq_mul_inv]; ring
    rw [this, ← hW, hμ, mul_div_cancel₀ _ (by linarith), sub_self, zero_mul]
  · intro h
    rw [hfin (fun v => |v|)]
    have : rowSum taps k t (fun a => |(a.val - μ) / max S A.eps| * A.quad.val a.latIn) = S * (max S A.eps)⁻¹ := by
      rw [hS]
      simp only [← isum_false]
      rw [← isum_mul_right]
      refine isum_congr fun a _ _ _ => ?_
      rw [isum_false, ← hS, abs_div, abs_of_pos hp, div_eq_mul_inv]; ring
    rw [this, max_eq_left h, mul_inv_cancel₀ (by linarith)]

/-- C35, modal mode on isotropic filters: no mean is removed, the filter is treated as in nodal mode. -/
theorem C35_modal_isotropic (A : NormArgs) (taps : List (Tap ℝ)) (hA : NormFits A taps) (ht : A.transpose = false)
    (hm : A.merge = false) (heps : 0 < A.eps) :
    ∃ taps', normalize A "modal" (taps.map (encode A.nlonIn)) = .ok (taps'.map (encode A.nlonIn)) ∧ SameStencil taps taps' ∧
      ∀ k t, (∃ m, A.isoMask = some m ∧ m[k]? = some true) ∨ (A.isoMask = none ∧ k = 0) →
        A.eps ≤ rowSum taps k t (fun a => |a.val| * A.quad.val a.latIn) →
        rowSum taps' k t (fun a => |a.val| * A.quad.val a.latIn) = 1 := by
  refine ⟨_, normalize_val hA "modal" (by simp [normAlias, knownMode]), sameStencil_map _ _, ?_⟩
  intro k t hk hS
  have hiso : A.iso k = true := by
    unfold NormArgs.iso
    rcases hk with ⟨m, h1, h2⟩ | ⟨h1, h2⟩
    · rw [h1]; simp only [List.getD_eq_getElem?_getD, h2]; rfl
    · rw [h1]; simpa using h2
  have hal : normAlias "modal" = "modal" := by simp [normAlias]
  have hb : biasOf A "modal" taps k t = 0 := by
    unfold biasOf
    dsimp only
    rw [if_neg (fun h => by rw [hiso] at h; exact absurd h.2.1 (by simp))]
  have hs : scaleOf A "modal" taps k t = rowSum taps k t (fun a => |a.val| * A.quad.val a.latIn) := by
    unfold scaleOf
    rw [hb, ht]; simp only [sub_zero]; rfl
  set S := rowSum taps k t (fun a => |a.val| * A.quad.val a.latIn) with hSdef
  have hSp : 0 < S := lt_of_lt_of_le heps hS
  have : rowSum (taps.map fun a => { a with val := finishOf A a (selectOf A (normAlias "modal") taps a) }) k t
      (fun a => |a.val| * A.quad.val a.latIn) = S * S⁻¹ := by
    rw [hal, hSdef, ← isum_false, ← isum_false, isum_map, ← isum_mul_right]
    refine isum_congr fun a _ h1 h2 => ?_
    have hg : gOut A.transpose a = t := by rw [ht]; exact h2
    have hv : finishOf A a (selectOf A "modal" taps a) = a.val / S := by
      unfold finishOf selectOf
      simp only [hm, Bool.false_eq_true, and_false, if_false, or_true, if_true, h1, hg, hb, hs, sub_zero]
      rw [max_eq_left hS]
    rw [hv, isum_false, ← hSdef, abs_div, abs_of_pos hSp, div_eq_mul_inv]; ring
  rw [this, mul_inv_cancel₀ hSp.ne']

/-- C35, mean mode: each filter is divided by the average of its absolute integrals over the output latitudes, so that average
becomes 1. -/
theorem C35_mean (A : NormArgs) (taps : List (Tap ℝ)) (hA : NormFits A taps) (ht : A.transpose = false)
    (hm : A.merge = false) (heps : 0 < A.eps) :
    ∃ taps', normalize A "mean" (taps.map (encode A.nlonIn)) = .ok (taps'.map (encode A.nlonIn)) ∧ SameStencil taps taps' ∧
      ∀ k M, M = (∑ t ∈ range A.nlatOut, rowSum taps k t (fun a => |a.val| * A.quad.val a.latIn)) / A.nlatOut → A.eps ≤ M →
        (∑ t ∈ range A.nlatOut, rowSum taps' k t (fun a => |a.val| * A.quad.val a.latIn)) / A.nlatOut = 1 := by
  refine ⟨_, normalize_val hA "mean" (by simp [normAlias, knownMode]), sameStencil_map _ _, ?_⟩
  intro k M hM hMe
  have hal : normAlias "mean" = "mean" := by simp [normAlias]
  have hMp : 0 < M := lt_of_lt_of_le heps hMe
  have hn : A.nlat = A.nlatOut := by unfold NormArgs.nlat; rw [ht]; rfl
  have hs : ∀ t, scaleOf A "mean" taps k t = rowSum taps k t (fun a => |a.val| * A.quad.val a.latIn) := by
    intro t
    have hb : biasOf A "mean" taps k t = 0 := by
      unfold biasOf; dsimp only; rw [if_neg (fun h => by simp at h)]
    unfold scaleOf
    rw [hb, ht]; simp only [sub_zero]; rfl
  have hrow : ∀ t, rowSum (taps.map fun a => { a with val := finishOf A a (selectOf A (normAlias "mean") taps a) }) k t
      (fun a => |a.val| * A.quad.val a.latIn) = rowSum taps k t (fun a => |a.val| * A.quad.val a.latIn) * M⁻¹ := by
    intro t
    rw [hal, ← isum_false, ← isum_false, isum_map, ← isum_mul_right]
    refine isum_congr fun a _ h1 _ => ?_
    have hv : finishOf A a (selectOf A "mean" taps a) = a.val / M := by
      unfold finishOf selectOf
      simp only [hm, Bool.false_eq_true, and_false, if_false, h1, hs, hn, ← hM, max_eq_left hMe]
      simp
    rw [hv, abs_div, abs_of_pos hMp, div_eq_mul_inv]; ring
  rw [sum_congr rfl fun t _ => hrow t, ← sum_mul, div_eq_mul_inv, mul_right_comm,
    ← div_eq_mul_inv _ (A.nlatOut : ℝ), ← hM, mul_inv_cancel₀ hMp.ne']

/-- C35, support mode: the integral becomes the weighted average of the raw filter over its support; a filter that is constant on
its support integrates to that constant. -/
theorem C35_support (A : NormArgs) (taps : List (Tap ℝ)) (hA : NormFits A taps) (ht : A.transpose = false)
    (hm : A.merge = false) :
    ∃ taps', normalize A "support" (taps.map (encode A.nlonIn)) = .ok (taps'.map (encode A.nlonIn)) ∧ SameStencil taps taps' ∧
      ∀ k t W, W = rowSum taps k t (fun a => A.quad.val a.latIn) → A.eps ≤ W → 0 < W →
        rowSum taps' k t (fun a => a.val * A.quad.val a.latIn) = rowSum taps k t (fun a => a.val * A.quad.val a.latIn) / W ∧
        ∀ c, (∀ a ∈ taps, a.ker = k → a.latOut = t → a.val = c) →
          rowSum taps' k t (fun a => a.val * A.quad.val a.latIn) = c := by
  refine ⟨_, normalize_val hA "support" (by simp [normAlias, knownMode]), sameStencil_map _ _, ?_⟩
  intro k t W hW hWe hWp
  have hal : normAlias "support" = "support" := by simp [normAlias]
  have hrow : rowSum (taps.map fun a => { a with val := finishOf A a (selectOf A (normAlias "support") taps a) }) k t
      (fun a => a.val * A.quad.val a.latIn) = rowSum taps k t (fun a => a.val * A.quad.val a.latIn) / W := by
    rw [hal, div_eq_mul_inv, ← isum_false, ← isum_false, isum_map, ← isum_mul_right]
    refine isum_congr fun a _ h1 h2 => ?_
    have hg : gOut A.transpose a = t := by rw [ht]; exact h2
    have hsup : isum A.transpose taps k t (fun b => A.quad.val (gIn A.transpose b)) = W := by rw [hW, ht]; rfl
    have hv : finishOf A a (selectOf A "support" taps a) = a.val / W := by
      unfold finishOf selectOf
      simp only [hm, Bool.false_eq_true, and_false, if_false, h1, hg, hsup, max_eq_left hWe]
      simp
    rw [hv, div_eq_mul_inv]; ring
  refine ⟨hrow, fun c hc => ?_⟩
  have : rowSum taps k t (fun a => a.val * A.quad.val a.latIn) = W * c := by
    rw [hW, ← isum_false, ← isum_false, ← isum_mul_right]
    exact isum_congr fun a ha h1 h2 => by rw [hc a ha h1 h2, mul_comm]
  rw [hrow, this, mul_div_cancel_left₀ _ hWp.ne']

/-- C35, geometric mode (and its deprecated alias "area ratio"): values are divided by a quarter of `1 - cos(theta_cutoff)`. The
cap of half-angle `theta_cutoff` covers the fraction `(1 - cos) / 2` of the sphere, so a filter that is 1 on a support of exactly
that measure integrates to 2, not 1 (finding). -/
theorem C35_geometric (A : NormArgs) (taps : List (Tap ℝ)) (hA : NormFits A taps)
    (hm : A.merge = false) (mode : String) (hmode : mode = "geometric" ∨ mode = "area ratio")
    (hc : A.eps ≤ (1 - Real.cos A.thetaCutoff) / 4) (hc0 : Real.cos A.thetaCutoff < 1) :
    ∃ taps', normalize A mode (taps.map (encode A.nlonIn)) = .ok (taps'.map (encode A.nlonIn)) ∧ SameStencil taps taps' ∧
      ∀ k t, rowSum taps' k t (fun a => a.val * A.quad.val a.latIn)
          = rowSum taps k t (fun a => a.val * A.quad.val a.latIn) / ((1 - Real.cos A.thetaCutoff) / 4) ∧
        (rowSum taps k t (fun a => A.quad.val a.latIn) = (1 - Real.cos A.thetaCutoff) / 2 →
          (∀ a ∈ taps, a.ker = k → a.latOut = t → a.val = 1) →
          rowSum taps' k t (fun a => a.val * A.quad.val a.latIn) = 2) := by
  have hal : normAlias mode = "geometric" := by rcases hmode with rfl | rfl <;> simp [normAlias]
  refine ⟨_, normalize_val hA mode (by rw [hal]; simp [knownMode]), sameStencil_map _ _, ?_⟩
  intro k t
  have e4 : (1 - Real.cos A.thetaCutoff) / 2 / 2 = (1 - Real.cos A.thetaCutoff) / 4 := by ring
  have hrow : rowSum (taps.map fun a => { a with val := finishOf A a (selectOf A (normAlias mode) taps a) }) k t
      (fun a => a.val * A.quad.val a.latIn)
      = rowSum taps k t (fun a => a.val * A.quad.val a.latIn) / ((1 - Real.cos A.thetaCutoff) / 4) := by
    rw [hal, div_eq_mul_inv, ← isum_false, ← isum_false, isum_map, ← isum_mul_right]
    refine isum_congr fun a _ h1 h2 => ?_
    have hv : finishOf A a (selectOf A "geometric" taps a) = a.val / ((1 - Real.cos A.thetaCutoff) / 4) := by
      unfold finishOf selectOf
      simp only [hm, Bool.false_eq_true, and_false, if_false, e4, max_eq_left hc]
      simp
    rw [hv, div_eq_mul_inv]; ring
  refine ⟨hrow, fun hW hv => ?_⟩
  have : rowSum taps k t (fun a => a.val * A.quad.val a.latIn) = (1 - Real.cos A.thetaCutoff) / 2 := by
    rw [← hW, ← isum_false, ← isum_false]
    exact isum_congr fun a ha h1 h2 => by rw [hv a ha h1 h2, one_mul]
  rw [hrow, this]
  have : (1 - Real.cos A.thetaCutoff) ≠ 0 := by linarith
  field_simp
  norm_num

/-- C35: mode "none" leaves the values unchanged (before the quadrature weights are merged). -/
theorem C35_none (A : NormArgs) (taps : List (Tap ℝ)) (hA : NormFits A taps) (hm : A.merge = false) :
    normalize A "none" (taps.map (encode A.nlonIn)) = .ok (taps.map (encode A.nlonIn)) := by
  rw [normalize_val hA "none" (by simp [normAlias, knownMode])]
  congr 2
  conv_rhs => rw [← List.map_id taps]
  refine List.map_congr_left fun a _ => ?_
  have hal : normAlias "none" = "none" := by simp [normAlias]
  rw [hal]
  unfold finishOf selectOf
  simp [hm]

/-- C35: for taps that fit, the only failure is an unknown mode, reported as `ValueError`. -/
theorem C35_error_iff (A : NormArgs) (taps : List (Tap ℝ)) (hA : NormFits A taps) (mode : String) (e : PyErr) :
    normalize A mode (taps.map (encode A.nlonIn)) = .error e ↔ e = .valueError ∧
      mode ∉ ["nodal", "modal", "mean", "support", "geometric", "none", "individual", "area ratio"] := by
  have hk : knownMode (normAlias mode) ↔
      mode ∈ ["nodal", "modal", "mean", "support", "geometric", "none", "individual", "area ratio"] := by
    unfold normAlias
    split
    next h => subst h; simp [knownMode]
    split
    next h => subst h; simp [knownMode]
    next h1 h2 => simp [knownMode, h1, h2]
  rw [← hk]
  by_cases h : knownMode (normAlias mode)
  · rw [normalize_val hA mode h]
    simp [h]
  · have : normalize A mode (taps.map (encode A.nlonIn)) = .error .valueError := by
      have h0 := normalize_val hA "none" (by simp [normAlias, knownMode])
      unfold Disco.normalize at h0 ⊢
      dsimp only at h0 ⊢
      split at h0
      · cases h0
      next c1 =>
        rw [if_neg c1]
        split at h0
        · cases h0
        next c2 =>
          rw [if_neg c2]
          split at h0
          · cases h0
          next c3 =>
            rw [if_neg c3]
            have hmod : ¬ normAlias mode = "modal" := fun hh => h (by rw [hh]; simp [knownMode])
            rw [if_neg (fun hh => hmod hh.1), if_pos h]
    rw [this]
    simp only [Except.error.injEq, h, not_false_iff, and_true]
    exact eq_comm

/-- Two filters on a 2 × 4 input grid and one output row: a positive one and a signed one. -/
noncomputable def exNormArgs (transpose merge : Bool) : NormArgs :=
  { nlatIn := 2, nlonIn := 4, nlatOut := 2, nlonOut := 4, kernelSize := 2, quad := ⟨2, fun _ => 1 / 8⟩, thetaCutoff := 1,
    transpose := transpose, merge := merge, isoMask := none, eps := 1 / 1000000000 }

def exNormTaps : List (Tap ℝ) := [⟨0, 0, 0, 0, 1⟩, ⟨0, 0, 1, 3, 2⟩, ⟨1, 0, 0, 1, 3⟩, ⟨1, 0, 1, 2, -2⟩, ⟨0, 1, 1, 0, 4⟩]

theorem exNorm_fits (tr me : Bool) : NormFits (exNormArgs tr me) exNormTaps :=
  ⟨by simp [exNormArgs], by simp [Fits, exNormTaps, exNormArgs], by simp [exNormArgs],
    by intro m h; simp [exNormArgs] at h, by simp [exNormArgs]⟩

example : (exNormArgs false false).eps ≤
    rowSum exNormTaps 0 0 (fun a => |a.val| * (exNormArgs false false).quad.val a.latIn) := by
  norm_num [rowSum, exNormTaps, exNormArgs]

example : (exNormArgs false false).eps < rowSum exNormTaps 1 0 (fun a => (exNormArgs false false).quad.val a.latIn) := by
  norm_num [rowSum, exNormTaps, exNormArgs]

example : (exNormArgs true true).eps ≤
    colSum exNormTaps 0 1 (fun a => |a.val| * (exNormArgs true true).quad.val a.latOut) := by
  norm_num [colSum, exNormTaps, exNormArgs]

example : (∀ i, 0 ≤ (exNormArgs false true).quad.val i) ∧ (exNormArgs false true).nlonOut ∣ (exNormArgs false true).nlonIn ∧
    (exNormArgs false true).nlatOut ≤ (exNormArgs false true).nlonIn := by
  simp [exNormArgs]

end Verif.Props
