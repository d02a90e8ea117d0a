import Verif.Model.Resample
import Verif.Spec.Resample
import Verif.Props.QuadratureS2
import Verif.Props.SHT
/-!
Property theorems C26, C27: resampling.
-/
namespace Verif.Props
open Verif Verif.Dist Verif.Quad Verif.Spec Verif.Resample Finset

/-! ### Searching -/

theorem searchsorted_spec (n : ℕ) (a : ℕ → ℝ) (v : ℝ) (h : ∀ i j, i < j → j < n → a i < a j) :
    searchsorted n a v ≤ n ∧ ∀ i < n, (a i ≤ v ↔ i < searchsorted n a v) := by
  classical
  have hex : ∃ c, c = n ∨ (c < n ∧ ¬ a c ≤ v) := ⟨n, Or.inl rfl⟩
  set c := Nat.find hex with hc
  have hcs := Nat.find_spec hex
  have hcm : ∀ i < c, i ≠ n ∧ ¬ (i < n ∧ ¬ a i ≤ v) := fun i hi => not_or.1 (Nat.find_min hex hi)
  have hcn : c ≤ n := by
    rcases hcs with h1 | h1
    · exact h1.le
    · exact h1.1.le
  have key : ∀ i < n, (a i ≤ v ↔ i < c) := by
    intro i hi
    constructor
    · intro hiv
      by_contra hci
      rcases hcs with h1 | ⟨h1, h2⟩
      · exact absurd hi (by omega)
      · rcases Nat.lt_or_ge c i with h3 | h3
        · exact h2 ((h c i h3 hi).le.trans hiv)
        · have : i = c := by omega
          rw [this] at hiv; exact h2 hiv
    · intro hic
      by_contra hn
      exact (hcm i hic).2 ⟨hi, hn⟩
  have hf : (range n).filter (fun i => a i ≤ v) = range c := by
    ext i
    simp only [mem_filter, mem_range]
    constructor
    · rintro ⟨h1, h2⟩; exact (key i h1).1 h2
    · intro h1; exact ⟨by omega, (key i (by omega)).2 h1⟩
  have : searchsorted n a v = c := by
    unfold searchsorted
    rw [Finset.filter_congr_decidable, hf, card_range]
  rw [this]
  exact ⟨hcn, key⟩

theorem wrap_nat (i n : ℕ) : wrap (i : ℤ) n = i := by
  unfold wrap
  rw [if_neg (by omega), Int.toNat_natCast]

/-- The latitude index brackets the latitude. -/
theorem latIndex_spec (n : ℕ) (lats : ℕ → ℝ) (h : ∀ i j, i < j → j < n → lats i < lats j) (hn : 2 ≤ n) (v : ℝ) (h0 : lats 0 ≤ v)
    (h1 : v ≤ lats (n - 1)) :
    ∃ i : ℕ, latIndex n lats v = i ∧ i + 1 < n ∧ lats i ≤ v ∧ v ≤ lats (i + 1) ∧ latWeight n lats v = (v - lats i) / (lats (i + 1) - lats i) := by
  obtain ⟨hc, hs⟩ := searchsorted_spec n lats v h
  have hpos : 0 < searchsorted n lats v := (hs 0 (by omega)).1 h0
  have main : ∃ i : ℕ, latIndex n lats v = i ∧ i + 1 < n ∧ lats i ≤ v ∧ v ≤ lats (i + 1) := by
    unfold latIndex
    by_cases hv : v = lats (n - 1)
    · have : n - 1 < searchsorted n lats v := (hs (n - 1) (by omega)).1 hv.ge
      have e : searchsorted n lats v = n := by omega
      refine ⟨n - 2, ?_, by omega, ?_, ?_⟩
      · simp only [if_pos hv, e]; omega
      · rw [hv]; exact (h (n - 2) (n - 1) (by omega) (by omega)).le
      · rw [show n - 2 + 1 = n - 1 by omega]; exact hv.le
    · have hlt : v < lats (n - 1) := lt_of_le_of_ne h1 hv
      have hcn : searchsorted n lats v < n := by
        by_contra hge
        have := (hs (n - 1) (by omega)).2 (by omega)
        linarith
      refine ⟨searchsorted n lats v - 1, ?_, by omega, ?_, ?_⟩
      · simp only [if_neg hv]; omega
      · exact (hs _ (by omega)).2 (by omega)
      · rw [show searchsorted n lats v - 1 + 1 = searchsorted n lats v by omega]
        by_contra hlt'
        push Not at hlt'
        exact absurd ((hs _ hcn).1 hlt'.le) (lt_irrefl _)
  obtain ⟨i, e, hi, ha, hb⟩ := main
  refine ⟨i, e, hi, ha, hb, ?_⟩
  unfold latWeight
  rw [e]
  simp only [wrap, if_neg (show ¬ ((i : ℤ) < 0) by omega), Int.toNat_natCast]

/-- The longitude index, in closed form. -/
theorem lonLeft_eq (nIn nOut j : ℕ) (hn : 0 < nIn) (hj : j < nOut) : lonLeft nIn (precomputeLongitudes nOut j) = ((j * nIn / nOut : ℕ) : ℤ) := by
  have hout : 0 < nOut := by omega
  have hpi := Real.pi_pos
  have hlt : j * nIn / nOut < nIn := by
    rw [Nat.div_lt_iff_lt_mul hout, mul_comm]
    exact Nat.mul_lt_mul_of_pos_left hj hn
  have key : ∀ i < nIn, (precomputeLongitudes nIn i ≤ precomputeLongitudes nOut j ↔ i < j * nIn / nOut + 1) := by
    intro i hi
    rw [(C05_longitudes nIn i hi).1, (C05_longitudes nOut j hj).1, Nat.lt_succ_iff, Nat.le_div_iff_mul_le hout]
    rw [div_le_div_iff₀ (by exact_mod_cast hn) (by exact_mod_cast hout)]
    constructor
    · intro hle
      have : (2 * Real.pi) * ((i : ℝ) * nOut) ≤ (2 * Real.pi) * ((j : ℝ) * nIn) := by nlinarith
      have := le_of_mul_le_mul_left this (by positivity)
      exact_mod_cast this
    · intro hle
      have : (i : ℝ) * nOut ≤ (j : ℝ) * nIn := by exact_mod_cast hle
      nlinarith
  have hcount : searchsorted nIn (precomputeLongitudes nIn) (precomputeLongitudes nOut j) = j * nIn / nOut + 1 := by
    classical
    unfold searchsorted
    rw [Finset.filter_congr_decidable]
    have : (range nIn).filter (fun i => precomputeLongitudes nIn i ≤ precomputeLongitudes nOut j) = range (j * nIn / nOut + 1) := by
      ext i
      simp only [mem_filter, mem_range]
      constructor
      · rintro ⟨h1, h2⟩; exact (key i h1).1 h2
      · intro h1; exact ⟨by omega, (key i (by omega)).2 h1⟩
    rw [this, card_range]
  unfold lonLeft
  rw [hcount]
  push_cast; ring

/-- The right index is the left one plus one, periodically. -/
theorem lonRight_eq (nIn nOut j : ℕ) (hn : 0 < nIn) (hj : j < nOut) :
    lonRight nIn (precomputeLongitudes nOut j) = (((j * nIn / nOut + 1) % nIn : ℕ) : ℤ) := by
  have hout : 0 < nOut := by omega
  have hpi := Real.pi_pos
  have hlt : j * nIn / nOut < nIn := by
    rw [Nat.div_lt_iff_lt_mul hout, mul_comm]
    exact Nat.mul_lt_mul_of_pos_left hj hn
  have hiff : precomputeLongitudes nOut j ≥ precomputeLongitudes nIn (nIn - 1) ↔ j * nIn / nOut = nIn - 1 := by
    rw [ge_iff_le, (C05_longitudes nIn (nIn - 1) (by omega)).1, (C05_longitudes nOut j hj).1,
      div_le_div_iff₀ (by exact_mod_cast hn) (by exact_mod_cast hout)]
    have : nIn - 1 ≤ j * nIn / nOut ↔ j * nIn / nOut = nIn - 1 := by omega
    rw [← this, Nat.le_div_iff_mul_le hout]
    constructor
    · intro hle
      have : (2 * Real.pi) * (((nIn - 1 : ℕ) : ℝ) * nOut) ≤ (2 * Real.pi) * ((j : ℝ) * nIn) := by nlinarith
      have := le_of_mul_le_mul_left this (by positivity)
      exact_mod_cast this
    · intro hle
      have : ((nIn - 1 : ℕ) : ℝ) * nOut ≤ (j : ℝ) * nIn := by exact_mod_cast hle
      nlinarith
  unfold lonRight
  rw [lonLeft_eq nIn nOut j hn hj]
  by_cases hc : j * nIn / nOut = nIn - 1
  · rw [if_pos (hiff.2 hc), hc, Nat.sub_add_cancel hn, Nat.mod_self]; rfl
  · rw [if_neg (fun h => hc (hiff.1 h)), Nat.mod_eq_of_lt (by omega)]; push_cast; ring

theorem lonDifference_eq (nIn nOut j : ℕ) (hn : 2 ≤ nIn) (hj : j < nOut) :
    lonDifference nIn (precomputeLongitudes nOut j) = 2 * Real.pi / nIn := by
  have hout : 0 < nOut := by omega
  have hpi := Real.pi_pos
  have hn0 : (0 : ℝ) < nIn := by exact_mod_cast (show 0 < nIn by omega)
  have hlt : j * nIn / nOut < nIn := by
    rw [Nat.div_lt_iff_lt_mul hout, mul_comm]
    exact Nat.mul_lt_mul_of_pos_left hj (by omega)
  unfold lonDifference
  rw [lonLeft_eq nIn nOut j (by omega) hj, lonRight_eq nIn nOut j (by omega) hj]
  simp only [wrap_nat]
  rw [(C05_longitudes nIn _ hlt).1, (C05_longitudes nIn _ (Nat.mod_lt _ (by omega))).1]
  set q := j * nIn / nOut
  by_cases hc : q = nIn - 1
  · rw [hc, Nat.sub_add_cancel (by omega), Nat.mod_self]
    have hcast : ((nIn - 1 : ℕ) : ℝ) = (nIn : ℝ) - 1 := by rw [Nat.cast_sub (by omega)]; simp
    have h1 : (1 : ℝ) < nIn := by exact_mod_cast (show 1 < nIn by omega)
    have hneg : 2 * Real.pi * ((0 : ℕ) : ℝ) / nIn - 2 * Real.pi * ((nIn - 1 : ℕ) : ℝ) / nIn < 0 := by
      rw [hcast]
      simp only [Nat.cast_zero, mul_zero, zero_div, zero_sub, neg_lt_zero]
      have : (0 : ℝ) < (nIn : ℝ) - 1 := by linarith
      positivity
    rw [if_pos hneg, hcast]
    field_simp
    simp
  · rw [Nat.mod_eq_of_lt (by omega)]
    have hd : 2 * Real.pi * ((q + 1 : ℕ) : ℝ) / nIn - 2 * Real.pi * (q : ℝ) / nIn = 2 * Real.pi / nIn := by push_cast; ring
    rw [hd, if_neg (by have : 0 < 2 * Real.pi / (nIn : ℝ) := by positivity
                       linarith)]

theorem lonWeight_eq (nIn nOut j : ℕ) (hn : 2 ≤ nIn) (hj : j < nOut) :
    lonWeight nIn (precomputeLongitudes nOut j) = ((j * nIn % nOut : ℕ) : ℝ) / nOut := by
  have hout : (0 : ℝ) < nOut := by exact_mod_cast (show 0 < nOut by omega)
  have hn0 : (0 : ℝ) < nIn := by exact_mod_cast (show 0 < nIn by omega)
  have hpi := Real.pi_pos
  have hlt : j * nIn / nOut < nIn := by
    rw [Nat.div_lt_iff_lt_mul (by omega), mul_comm]
    exact Nat.mul_lt_mul_of_pos_left hj (by omega)
  unfold lonWeight
  rw [lonDifference_eq nIn nOut j hn hj, lonLeft_eq nIn nOut j (by omega) hj]
  simp only [wrap_nat]
  rw [(C05_longitudes nIn _ hlt).1, (C05_longitudes nOut j hj).1]
  have hdm : ((j * nIn / nOut : ℕ) : ℝ) * nOut + ((j * nIn % nOut : ℕ) : ℝ) = j * nIn := by
    have := Nat.div_add_mod (j * nIn) nOut
    rw [mul_comm] at this
    exact_mod_cast this
  generalize ((j * nIn / nOut : ℕ) : ℝ) = q at *
  generalize ((j * nIn % nOut : ℕ) : ℝ) = rr at *
  have e : rr = j * nIn - q * nOut := by linarith
  rw [e]
  field_simp

/-! ### The resampler -/

/-- The hypotheses of the value theorems: the mode exists, both latitude grids exist, two input latitudes and longitudes. -/
structure ResampleBuilt (gauss : ℕ → Rule) (tol : ℝ) (maxiter : ℕ) (A : Resample.Args) (rin rout : Rule) : Prop where
  mode : A.mode = "bilinear" ∨ A.mode = "bilinear-spherical"
  latIn : precomputeLatitudes gauss tol maxiter A.nlatIn A.gridIn = .ok rin
  latOut : precomputeLatitudes gauss tol maxiter A.nlatOut A.gridOut = .ok rout
  sizeIn : rin.n = A.nlatIn
  sizeOut : rout.n = A.nlatOut
  gridIn : LatGrid A.nlatIn rin.x
  gridOut : LatGrid A.nlatOut rout.x
  twoLat : 2 ≤ A.nlatIn
  twoLon : 2 ≤ A.nlonIn

theorem needsPoles_iff (nIn : ℕ) (latsIn : ℕ → ℝ) (nOut : ℕ) (latsOut : ℕ → ℝ) :
    needsPoles nIn latsIn nOut latsOut = true ↔ BeyondGrid nIn latsIn nOut latsOut := by
  unfold needsPoles BeyondGrid
  rw [decide_eq_true_iff]
  constructor
  · rintro (⟨i, h1, h2⟩ | ⟨i, h1, h2⟩)
    · exact ⟨i, h1, Or.inr h2⟩
    · exact ⟨i, h1, Or.inl h2⟩
  · rintro ⟨i, h1, h2 | h2⟩
    · exact Or.inr ⟨i, h1, h2⟩
    · exact Or.inl ⟨i, h1, h2⟩

/-- If a symmetric output grid reaches beyond a symmetric input grid, the input grid has no pole rows. -/
theorem beyond_open {nIn nOut : ℕ} {latsIn latsOut : ℕ → ℝ} (hin : LatGrid nIn latsIn) (hout : LatGrid nOut latsOut) (hn : 0 < nIn)
    (h : BeyondGrid nIn latsIn nOut latsOut) : 0 < latsIn 0 ∧ latsIn (nIn - 1) < Real.pi := by
  have hs := hin.symm 0 hn
  rw [Nat.sub_zero] at hs
  obtain ⟨i, hi, h1 | h1⟩ := h
  · have := (hout.range i hi).1
    constructor <;> linarith
  · have := (hout.range i hi).2
    constructor <;> linarith

theorem poleLats_increasing {n : ℕ} {lats : ℕ → ℝ} (h : LatGrid n lats) (h0 : 0 < lats 0) (h1 : lats (n - 1) < Real.pi) :
    ∀ i j, i < j → j < n + 2 → poleLats n lats i < poleLats n lats j := by
  intro i j hij hj
  have hpi := Real.pi_pos
  have hle : ∀ k < n, lats 0 ≤ lats k := fun k hk => by
    rcases Nat.eq_zero_or_pos k with h | h'
    · rw [h]
    · exact (h.increasing 0 k h' hk).le
  have hge : ∀ k < n, lats k ≤ lats (n - 1) := fun k hk => by
    rcases Nat.lt_or_ge k (n - 1) with h' | h'
    · exact (h.increasing k (n - 1) h' (by omega)).le
    · rw [show k = n - 1 by omega]
  unfold poleLats
  rw [if_neg (show ¬ j = 0 by omega)]
  by_cases hi : i = 0
  · rw [if_pos hi]
    split_ifs
    · exact hpi
    · have := hle (j - 1) (by omega); linarith
  · rw [if_neg hi, if_neg (by omega)]
    split_ifs
    · have := hge (i - 1) (by omega); linarith
    · exact h.increasing (i - 1) (j - 1) (by omega) (by omega)

/-- What the constructor stores, and what `forward` then computes. -/
theorem resample_forward {gauss : ℕ → Rule} {tol : ℝ} {maxiter : ℕ} {A : Resample.Args} {rin rout : Rule}
    (H : ResampleBuilt gauss tol maxiter A rin rout) :
    ∃ (R : Resampler) (N : ℕ) (lats : ℕ → ℝ) (I : ℕ → ℕ), Resample.init gauss tol maxiter A = .ok R ∧ (R.lonDiff = fun j => lonDifference A.nlonIn (precomputeLongitudes A.nlonOut j)) ∧
      (R.skip = true ↔ A.nlonIn = A.nlonOut ∧ A.nlatIn = A.nlatOut ∧ A.gridIn = A.gridOut) ∧
      (∀ i j, i < j → j < N → lats i < lats j) ∧
      (∀ i < A.nlatOut, I i + 1 < N ∧ lats (I i) ≤ rout.x i ∧ rout.x i ≤ lats (I i + 1)) ∧
      ∀ x : Mat ℝ, x.d0 = A.nlatIn → x.d1 = A.nlonIn →
        ∃ X, Rows A.nlatIn A.nlonIn rin.x x.val (BeyondGrid A.nlatIn rin.x A.nlatOut rout.x) N lats X ∧
          (R.skip = false → ∃ y, R.forward x = .ok y ∧ y.d0 = A.nlatOut ∧ y.d1 = A.nlonOut ∧ ∀ i < A.nlatOut, ∀ j < A.nlonOut,
            let sp := A.mode == "bilinear-spherical"
            let w := (rout.x i - lats (I i)) / (lats (I i + 1) - lats (I i))
            y.val i j = interp sp (interp sp (X (I i) (j * A.nlonIn / A.nlonOut)) (X (I i + 1) (j * A.nlonIn / A.nlonOut)) w)
              (interp sp (X (I i) ((j * A.nlonIn / A.nlonOut + 1) % A.nlonIn)) (X (I i + 1) ((j * A.nlonIn / A.nlonOut + 1) % A.nlonIn)) w)
              (((j * A.nlonIn % A.nlonOut : ℕ) : ℝ) / A.nlonOut)) := by
  have h2 := H.twoLat
  have h3 := H.twoLon
  set B := BeyondGrid A.nlatIn rin.x A.nlatOut rout.x with hB
  set ex := needsPoles rin.n rin.x rout.n rout.x with hex
  have hexB : ex = true ↔ B := by rw [hex, H.sizeIn, H.sizeOut]; exact needsPoles_iff _ _ _ _
  set N := if ex then rin.n + 2 else rin.n with hN
  set lats := if ex then poleLats rin.n rin.x else rin.x with hlats
  have hinc : ∀ i j, i < j → j < N → lats i < lats j := by
    by_cases hb : ex = true
    · rw [hN, hlats, if_pos hb, if_pos hb]
      obtain ⟨o1, o2⟩ := beyond_open H.gridIn H.gridOut (by omega) (hexB.1 hb)
      rw [H.sizeIn]
      exact poleLats_increasing H.gridIn o1 o2
    · rw [hN, hlats, if_neg hb, if_neg hb, H.sizeIn]
      exact H.gridIn.increasing
  have hN2 : 2 ≤ N := by
    have := H.sizeIn
    rw [hN]; split_ifs <;> omega
  have hcov : ∀ i < A.nlatOut, lats 0 ≤ rout.x i ∧ rout.x i ≤ lats (N - 1) := by
    intro i hi
    by_cases hb : ex = true
    · rw [hN, hlats, if_pos hb, if_pos hb]
      have := H.gridOut.range i hi
      unfold poleLats
      rw [if_pos rfl, if_neg (by omega), if_pos (by omega)]
      exact this
    · have hnb : ¬ B := fun h => hb (hexB.2 h)
      rw [hN, hlats, if_neg hb, if_neg hb, H.sizeIn]
      rw [hB] at hnb
      unfold BeyondGrid at hnb
      push Not at hnb
      exact hnb i hi
  have hbr : ∀ i, ∃ k : ℕ, i < A.nlatOut → (latIndex N lats (rout.x i) = k ∧ k + 1 < N ∧ lats k ≤ rout.x i ∧ rout.x i ≤ lats (k + 1) ∧
      latWeight N lats (rout.x i) = (rout.x i - lats k) / (lats (k + 1) - lats k)) := by
    intro i
    by_cases hi : i < A.nlatOut
    · obtain ⟨k, hk⟩ := latIndex_spec N lats hinc hN2 (rout.x i) (hcov i hi).1 (hcov i hi).2
      exact ⟨k, fun _ => hk⟩
    · exact ⟨0, fun h => absurd h hi⟩
  choose I hI using hbr
  have hmode : ¬ (A.mode ≠ "bilinear" ∧ A.mode ≠ "bilinear-spherical") := by
    rintro ⟨a, b⟩; rcases H.mode with h | h
    · exact a h
    · exact b h
  have hbuild : Resample.init gauss tol maxiter A = .ok ⟨A.mode == "bilinear-spherical", rout.n, A.nlonOut, ex, fun i => latIndex N lats (rout.x i), fun i => latWeight N lats (rout.x i),
    fun j => lonLeft A.nlonIn (precomputeLongitudes A.nlonOut j), fun j => lonRight A.nlonIn (precomputeLongitudes A.nlonOut j),
    fun j => lonDifference A.nlonIn (precomputeLongitudes A.nlonOut j), fun j => lonWeight A.nlonIn (precomputeLongitudes A.nlonOut j),
    decide (A.nlonIn = A.nlonOut) && decide (A.nlatIn = A.nlatOut) && (A.gridIn == A.gridOut)⟩ := by
    unfold Resample.init
    rw [if_neg hmode, H.latIn]
    dsimp only
    rw [H.latOut]
    dsimp only
    unfold build
    dsimp only
    rw [← hex, ← hN, ← hlats, if_neg, if_neg (by omega)]
    push Not
    intro i hi
    rw [H.sizeOut] at hi
    obtain ⟨e, h, _⟩ := hI i hi
    rw [e]
    unfold inBounds
    omega
  refine ⟨_, N, lats, I, hbuild, rfl, ?_, hinc, fun i hi => ⟨(hI i hi).2.1, (hI i hi).2.2.1, (hI i hi).2.2.2.1⟩, fun x x0 x1 => ?_⟩
  · simp [and_assoc]
  · refine ⟨(if ex then expandPoles x else x).val, ⟨?_, ?_, ?_, ?_⟩, ?_⟩
    · intro hnb
      have hb : ¬ ex = true := fun h => hnb (hexB.1 h)
      rw [hN, hlats, if_neg hb, if_neg hb, if_neg hb]
      exact ⟨H.sizeIn, fun _ _ => rfl, fun _ _ _ => rfl⟩
    · intro hb
      rw [hN, if_pos (hexB.2 hb), H.sizeIn]
    · intro hb
      rw [hlats, if_pos (hexB.2 hb), if_pos (hexB.2 hb), H.sizeIn]
      unfold poleLats expandPoles
      refine ⟨fun k hk => ?_, fun k hk j => ?_⟩
      · rw [if_neg (by omega), if_neg (by omega)]; rfl
      · dsimp only
        rw [if_neg (by omega), if_neg (by omega)]; rfl
    · intro hb
      rw [hlats, if_pos (hexB.2 hb), if_pos (hexB.2 hb), H.sizeIn]
      unfold poleLats expandPoles
      refine ⟨if_pos rfl, ?_, fun j => ?_, fun j => ?_⟩
      · rw [if_neg (by omega), if_pos rfl]
      · dsimp only
        rw [if_pos rfl, x1]
      · dsimp only
        rw [if_neg (by omega), x0, if_pos rfl, x1]
    · intro hskip
      set Y := if ex then expandPoles x else x with hY
      have hY0 : Y.d0 = N := by
        rw [hY, hN]
        split_ifs
        · show x.d0 + 2 = _; rw [x0, H.sizeIn]
        · rw [x0, H.sizeIn]
      have hY1 : Y.d1 = A.nlonIn := by
        rw [hY]
        split_ifs
        · exact x1
        · exact x1
      unfold Resampler.forward
      dsimp only at hskip ⊢
      rw [hskip, if_neg (by simp), if_neg (by omega), ← hY]
      have hup : Resampler.upLat ⟨A.mode == "bilinear-spherical", rout.n, A.nlonOut, ex, fun i => latIndex N lats (rout.x i), fun i => latWeight N lats (rout.x i),
          fun j => lonLeft A.nlonIn (precomputeLongitudes A.nlonOut j), fun j => lonRight A.nlonIn (precomputeLongitudes A.nlonOut j),
          fun j => lonDifference A.nlonIn (precomputeLongitudes A.nlonOut j), fun j => lonWeight A.nlonIn (precomputeLongitudes A.nlonOut j),
          false⟩ Y = .ok ⟨rout.n, Y.d1, fun i j =>
          interp (A.mode == "bilinear-spherical") (Y.val (wrap (latIndex N lats (rout.x i)) Y.d0) j) (Y.val (wrap (latIndex N lats (rout.x i) + 1) Y.d0) j)
            (latWeight N lats (rout.x i))⟩ := by
        unfold Resampler.upLat
        dsimp only
        rw [if_neg]
        push Not
        intro i hi
        rw [H.sizeOut] at hi
        obtain ⟨e, h, _⟩ := hI i hi
        rw [e, hY0]
        unfold inBounds
        omega
      rw [hup]
      dsimp only
      unfold Resampler.upLon
      dsimp only
      rw [if_neg]
      · refine ⟨_, rfl, H.sizeOut, rfl, fun i hi j hj => ?_⟩
        dsimp only
        obtain ⟨e, h, h4, h5, h6⟩ := hI i hi
        have e' : (latIndex N lats (rout.x i) + 1 : ℤ) = ((I i + 1 : ℕ) : ℤ) := by rw [e]; push_cast; rfl
        rw [lonLeft_eq _ _ j (by omega) hj, lonRight_eq _ _ j (by omega) hj, lonWeight_eq _ _ j h3 hj, e', e, h6]
        simp only [wrap_nat]
      · push Not
        intro j hj
        rw [lonLeft_eq _ _ j (by omega) hj, lonRight_eq _ _ j (by omega) hj, hY1]
        have hlt : j * A.nlonIn / A.nlonOut < A.nlonIn := by
          rw [Nat.div_lt_iff_lt_mul (by omega), mul_comm]
          exact Nat.mul_lt_mul_of_pos_left hj (by omega)
        have hlt2 := Nat.mod_lt (j * A.nlonIn / A.nlonOut + 1) (show 0 < A.nlonIn by omega)
        unfold inBounds
        generalize (j * A.nlonIn / A.nlonOut + 1) % A.nlonIn = q at *
        generalize j * A.nlonIn / A.nlonOut = p at *
        omega

theorem lerp_eq (a b w : ℝ) : interp false a b w = (1 - w) * a + w * b := by
  simp only [interp, lerp, Bool.false_eq_true, if_false]; ring

/-- Equal grids: the latitudes coincide, so no row lies beyond. -/
theorem skip_not_beyond {gauss : ℕ → Rule} {tol : ℝ} {maxiter : ℕ} {A : Resample.Args} {rin rout : Rule}
    (H : ResampleBuilt gauss tol maxiter A rin rout) (hs : A.nlatIn = A.nlatOut ∧ A.gridIn = A.gridOut) :
    rin = rout ∧ ¬ BeyondGrid A.nlatIn rin.x A.nlatOut rout.x := by
  have h := H.latIn
  rw [hs.1, hs.2, H.latOut] at h
  have e : rin = rout := (Except.ok.inj h).symm
  refine ⟨e, ?_⟩
  rintro ⟨i, hi, h1 | h1⟩
  · rw [← e] at h1
    rcases Nat.eq_zero_or_pos i with h | h'
    · rw [h] at h1; exact lt_irrefl _ h1
    · have := H.gridIn.increasing 0 i h' (by omega); linarith
  · rw [← e] at h1
    rcases Nat.lt_or_ge i (A.nlatIn - 1) with h | h'
    · have := H.gridIn.increasing i (A.nlatIn - 1) h (by omega); linarith
    · rw [show i = A.nlatIn - 1 by omega] at h1; exact lt_irrefl _ h1

/-- Interpolation at a node. -/
theorem interp_node {N : ℕ} {lats : ℕ → ℝ} (hinc : ∀ i j, i < j → j < N → lats i < lats j) (sp : Bool) (f : ℕ → ℝ) (v : ℝ) (i k : ℕ)
    (hi : i + 1 < N) (hk : k < N) (h1 : lats i ≤ v) (h2 : v ≤ lats (i + 1)) (hv : v = lats k) :
    interp sp (f i) (f (i + 1)) ((v - lats i) / (lats (i + 1) - lats i)) = f k := by
  have hlt := hinc i (i + 1) (by omega) hi
  have hne : lats (i + 1) - lats i ≠ 0 := by linarith
  have hcase : k = i ∨ k = i + 1 := by
    by_contra hcon
    push Not at hcon
    rcases Nat.lt_or_ge k i with h | h
    · have := hinc k i h (by omega); linarith
    · have := hinc (i + 1) k (by omega) hk; linarith
  rcases hcase with h | h
  · subst h
    rw [hv, sub_self, zero_div]
    unfold interp lerp slerp
    dsimp only
    split_ifs with hs ho
    · have hso : Real.sin (f (k + 1) - f k) ≠ 0 := by
        have : (0 : ℝ) < 1e-4 := by norm_num
        linarith
      simp only [sub_zero, one_mul, zero_mul, Real.sin_zero, zero_div, add_zero]
      rw [div_self hso, one_mul]
    · ring
    · ring
  · subst h
    rw [hv, div_self hne]
    unfold interp lerp slerp
    dsimp only
    split_ifs with hs ho
    · have hso : Real.sin (f (i + 1) - f i) ≠ 0 := by
        have : (0 : ℝ) < 1e-4 := by norm_num
        linarith
      simp only [sub_self, one_mul, zero_mul, Real.sin_zero, zero_div, zero_add]
      rw [div_self hso, one_mul]
    · ring
    · ring

/-- C26. In mode "bilinear", for every field, the output at every grid point is the bilinear interpolant of the field (with pole rows added when an
output latitude lies beyond the input grid). -/
theorem C26_value (gauss : ℕ → Rule) (tol : ℝ) (maxiter : ℕ) (A : Resample.Args) (rin rout : Rule) (H : ResampleBuilt gauss tol maxiter A rin rout)
    (hm : A.mode = "bilinear") (x : Mat ℝ) (h0 : x.d0 = A.nlatIn) (h1 : x.d1 = A.nlonIn) :
    ∃ R y N lats X, Resample.init gauss tol maxiter A = .ok R ∧ R.forward x = .ok y ∧ y.d0 = A.nlatOut ∧ y.d1 = A.nlonOut ∧
      Rows A.nlatIn A.nlonIn rin.x x.val (BeyondGrid A.nlatIn rin.x A.nlatOut rout.x) N lats X ∧
      ∀ i < A.nlatOut, ∀ j < A.nlonOut, BilinearAt N A.nlonIn lats X (rout.x i) (2 * Real.pi * j / A.nlonOut) (y.val i j) := by
  obtain ⟨R, N, lats, I, hR, _, hskip, hinc, hI, hf⟩ := resample_forward H
  obtain ⟨X, hX, hy⟩ := hf x h0 h1
  have h3 := H.twoLon
  have hpi := Real.pi_pos
  have hsp : (A.mode == "bilinear-spherical") = false := by rw [hm]; decide
  -- the bracketing data, for any value
  have data : ∀ i < A.nlatOut, ∀ j < A.nlonOut, ∀ v,
      v = (1 - ((j * A.nlonIn % A.nlonOut : ℕ) : ℝ) / A.nlonOut) * ((1 - (rout.x i - lats (I i)) / (lats (I i + 1) - lats (I i))) * X (I i) (j * A.nlonIn / A.nlonOut)
          + (rout.x i - lats (I i)) / (lats (I i + 1) - lats (I i)) * X (I i + 1) (j * A.nlonIn / A.nlonOut))
        + ((j * A.nlonIn % A.nlonOut : ℕ) : ℝ) / A.nlonOut * ((1 - (rout.x i - lats (I i)) / (lats (I i + 1) - lats (I i))) * X (I i) ((j * A.nlonIn / A.nlonOut + 1) % A.nlonIn)
          + (rout.x i - lats (I i)) / (lats (I i + 1) - lats (I i)) * X (I i + 1) ((j * A.nlonIn / A.nlonOut + 1) % A.nlonIn)) →
      BilinearAt N A.nlonIn lats X (rout.x i) (2 * Real.pi * j / A.nlonOut) v := by
    intro i hi j hj v hv
    obtain ⟨g1, g2, g3⟩ := hI i hi
    have hlt := hinc _ _ (Nat.lt_succ_self (I i)) g1
    have hd : 0 < lats (I i + 1) - lats (I i) := sub_pos.2 hlt
    have hout : (0 : ℝ) < A.nlonOut := by exact_mod_cast (show 0 < A.nlonOut by omega)
    have hin : (0 : ℝ) < A.nlonIn := by exact_mod_cast (show 0 < A.nlonIn by omega)
    have hmod : ((j * A.nlonIn % A.nlonOut : ℕ) : ℝ) < A.nlonOut := by exact_mod_cast Nat.mod_lt _ (show 0 < A.nlonOut by omega)
    have hmod0 : (0 : ℝ) ≤ ((j * A.nlonIn % A.nlonOut : ℕ) : ℝ) := Nat.cast_nonneg _
    have hlt : j * A.nlonIn / A.nlonOut < A.nlonIn := by
      rw [Nat.div_lt_iff_lt_mul (by omega), mul_comm]
      exact Nat.mul_lt_mul_of_pos_left hj (by omega)
    have hdm : ((j * A.nlonIn / A.nlonOut : ℕ) : ℝ) * A.nlonOut + ((j * A.nlonIn % A.nlonOut : ℕ) : ℝ) = j * A.nlonIn := by
      have := Nat.div_add_mod (j * A.nlonIn) A.nlonOut
      rw [mul_comm] at this
      exact_mod_cast this
    refine ⟨I i, j * A.nlonIn / A.nlonOut, (rout.x i - lats (I i)) / (lats (I i + 1) - lats (I i)), ((j * A.nlonIn % A.nlonOut : ℕ) : ℝ) / A.nlonOut,
      g1, hlt, g2, g3, ?_, ?_, ?_, ?_, ?_, ?_, ?_, ?_, hv⟩
    · generalize ((j * A.nlonIn / A.nlonOut : ℕ) : ℝ) = q at *
      generalize ((j * A.nlonIn % A.nlonOut : ℕ) : ℝ) = p at *
      rw [div_le_div_iff₀ hin hout]
      nlinarith
    · generalize ((j * A.nlonIn / A.nlonOut : ℕ) : ℝ) = q at *
      generalize ((j * A.nlonIn % A.nlonOut : ℕ) : ℝ) = p at *
      rw [div_lt_div_iff₀ hout hin]
      nlinarith
    · field_simp; ring
    · generalize ((j * A.nlonIn / A.nlonOut : ℕ) : ℝ) = q at *
      generalize ((j * A.nlonIn % A.nlonOut : ℕ) : ℝ) = p at *
      rw [div_eq_div_iff hout.ne' hin.ne']
      field_simp
      linarith
    · exact div_nonneg (by linarith) hd.le
    · rw [div_le_one hd]; linarith
    · exact div_nonneg hmod0 hout.le
    · rw [div_lt_one hout]; exact hmod
  cases hsk : R.skip with
  | false =>
    obtain ⟨y, e, y0, y1, yv⟩ := hy hsk
    refine ⟨R, y, N, lats, X, hR, e, y0, y1, hX, fun i hi j hj => data i hi j hj _ ?_⟩
    have := yv i hi j hj
    simp only [hsp, lerp_eq] at this
    exact this
  | true =>
    obtain ⟨s1, s2, s3⟩ := hskip.1 hsk
    obtain ⟨e, hnb⟩ := skip_not_beyond H ⟨s2, s3⟩
    obtain ⟨b1, b2, b3⟩ := hX.same hnb
    refine ⟨R, x, N, lats, X, hR, by unfold Resampler.forward; rw [if_pos hsk], by rw [h0, s2], by rw [h1, s1], hX, fun i hi j hj => data i hi j hj _ ?_⟩
    obtain ⟨g1, g2, g3⟩ := hI i hi
    rw [s1, Nat.mul_mod_left, Nat.mul_div_cancel _ (by omega)]
    have hn := interp_node hinc false (fun k => X k j) (rout.x i) (I i) i g1 (by omega) g2 g3 (by rw [b2 i (by omega), e])
    simp only [lerp_eq] at hn
    rw [hn, b3 i (by omega) j]
    simp

/-- Every row of the extended field lies between the bounds of the field. -/
theorem rows_bounds {nIn nlon : ℕ} {latsIn : ℕ → ℝ} {x : ℕ → ℕ → ℝ} {b : Prop} {N : ℕ} {lats : ℕ → ℝ} {X : ℕ → ℕ → ℝ}
    (h : Rows nIn nlon latsIn x b N lats X) (hn : 0 < nIn) (hl : 0 < nlon) (lo hi : ℝ) (hx : ∀ k < nIn, ∀ j < nlon, lo ≤ x k j ∧ x k j ≤ hi) :
    ∀ k < N, ∀ j < nlon, lo ≤ X k j ∧ X k j ≤ hi := by
  intro k hk j hj
  by_cases hb : b
  · have hc := h.count hb
    have hlon : (0 : ℝ) < nlon := by exact_mod_cast hl
    have mean : ∀ r < nIn, lo ≤ (∑ j' ∈ range nlon, x r j') / nlon ∧ (∑ j' ∈ range nlon, x r j') / nlon ≤ hi := by
      intro r hr
      rw [le_div_iff₀ hlon, div_le_iff₀ hlon]
      constructor
      · calc lo * nlon = ∑ _j' ∈ range nlon, lo := by simp [mul_comm]
          _ ≤ _ := sum_le_sum fun j' hj' => (hx r hr j' (mem_range.1 hj')).1
      · calc _ ≤ ∑ _j' ∈ range nlon, hi := sum_le_sum fun j' hj' => (hx r hr j' (mem_range.1 hj')).2
          _ = hi * nlon := by simp [mul_comm]
    obtain ⟨_, _, p3, p4⟩ := h.poles hb
    by_cases hk0 : k = 0
    · rw [hk0, p3]; exact mean 0 hn
    · by_cases hk1 : k = nIn + 1
      · rw [hk1, p4]; exact mean (nIn - 1) (by omega)
      · have := (h.inner hb).2 (k - 1) (by omega) j
        rw [Nat.sub_add_cancel (by omega)] at this
        rw [this]
        exact hx (k - 1) (by omega) j hj
  · obtain ⟨b1, b2, b3⟩ := h.same hb
    rw [b3 k (by omega) j]
    exact hx k (by omega) j hj

/-- C26. Bilinear resampling stays between any bounds of the input. -/
theorem C26_bounds (gauss : ℕ → Rule) (tol : ℝ) (maxiter : ℕ) (A : Resample.Args) (rin rout : Rule) (H : ResampleBuilt gauss tol maxiter A rin rout)
    (hm : A.mode = "bilinear") (x : Mat ℝ) (h0 : x.d0 = A.nlatIn) (h1 : x.d1 = A.nlonIn) (lo hi : ℝ)
    (hx : ∀ k < A.nlatIn, ∀ j < A.nlonIn, lo ≤ x.val k j ∧ x.val k j ≤ hi) :
    ∃ R y, Resample.init gauss tol maxiter A = .ok R ∧ R.forward x = .ok y ∧ y.d0 = A.nlatOut ∧ y.d1 = A.nlonOut ∧
      ∀ i < A.nlatOut, ∀ j < A.nlonOut, lo ≤ y.val i j ∧ y.val i j ≤ hi := by
  obtain ⟨R, y, N, lats, X, hR, hy, y0, y1, hX, hv⟩ := C26_value gauss tol maxiter A rin rout H hm x h0 h1
  have h2 := H.twoLat
  have h3 := H.twoLon
  have hb := rows_bounds hX (by omega) (by omega) lo hi hx
  refine ⟨R, y, hR, hy, y0, y1, fun i hi' j hj => ?_⟩
  obtain ⟨a, b, s, t, a1, b1, _, _, _, _, _, _, s0, s1, t0, t1, e⟩ := hv i hi' j hj
  have q1 := hb a (by omega) b b1
  have q2 := hb (a + 1) a1 b b1
  have q3 := hb a (by omega) ((b + 1) % A.nlonIn) (Nat.mod_lt _ (by omega))
  have q4 := hb (a + 1) a1 ((b + 1) % A.nlonIn) (Nat.mod_lt _ (by omega))
  have cv : ∀ p q w : ℝ, lo ≤ p ∧ p ≤ hi → lo ≤ q ∧ q ≤ hi → 0 ≤ w → w ≤ 1 → lo ≤ (1 - w) * p + w * q ∧ (1 - w) * p + w * q ≤ hi := by
    intro p q w hp hq hw0 hw1
    constructor
    · nlinarith [hp.1, hq.1]
    · nlinarith [hp.2, hq.2]
  rw [e]
  exact cv _ _ t (cv _ _ s q1 q2 s0 s1) (cv _ _ s q3 q4 s0 s1) t0 t1.le

/-- C26. Constants are preserved, in both modes. -/
theorem C26_constant (gauss : ℕ → Rule) (tol : ℝ) (maxiter : ℕ) (A : Resample.Args) (rin rout : Rule) (H : ResampleBuilt gauss tol maxiter A rin rout)
    (x : Mat ℝ) (h0 : x.d0 = A.nlatIn) (h1 : x.d1 = A.nlonIn) (c : ℝ) (hx : ∀ k < A.nlatIn, ∀ j < A.nlonIn, x.val k j = c) :
    ∃ R y, Resample.init gauss tol maxiter A = .ok R ∧ R.forward x = .ok y ∧ y.d0 = A.nlatOut ∧ y.d1 = A.nlonOut ∧
      ∀ i < A.nlatOut, ∀ j < A.nlonOut, y.val i j = c := by
  obtain ⟨R, N, lats, I, hR, _, hskip, hinc, hI, hf⟩ := resample_forward H
  obtain ⟨X, hX, hy⟩ := hf x h0 h1
  have h2 := H.twoLat
  have h3 := H.twoLon
  have hXc : ∀ k < N, ∀ j < A.nlonIn, X k j = c := fun k hk j hj => by
    have := rows_bounds hX (by omega) (by omega) c c (fun k hk j hj => by rw [hx k hk j hj]; exact ⟨le_rfl, le_rfl⟩) k hk j hj
    linarith [this.1, this.2]
  have hc : ∀ (sp : Bool) (w : ℝ), interp sp c c w = c := by
    intro sp w
    have h : ¬ (Real.sin (c - c) > 1e-4) := by rw [sub_self, Real.sin_zero]; norm_num
    unfold interp slerp lerp
    dsimp only
    rw [if_neg h]
    split_ifs <;> ring
  cases hsk : R.skip with
  | true =>
    obtain ⟨s1, s2, s3⟩ := hskip.1 hsk
    exact ⟨R, x, hR, by unfold Resampler.forward; rw [if_pos hsk], by rw [h0, s2], by rw [h1, s1], fun i hi j hj => hx i (by omega) j (by omega)⟩
  | false =>
    obtain ⟨y, e, y0, y1, yv⟩ := hy hsk
    refine ⟨R, y, hR, e, y0, y1, fun i hi j hj => ?_⟩
    have hlt : j * A.nlonIn / A.nlonOut < A.nlonIn := by
      rw [Nat.div_lt_iff_lt_mul (by omega), mul_comm]
      exact Nat.mul_lt_mul_of_pos_left hj (by omega)
    have hlt2 := Nat.mod_lt (j * A.nlonIn / A.nlonOut + 1) (show 0 < A.nlonIn by omega)
    obtain ⟨g1, _, _⟩ := hI i hi
    have := yv i hi j hj
    dsimp only at this
    rw [this, hXc _ (by omega) _ hlt, hXc _ g1 _ hlt, hXc _ (by omega) _ hlt2, hXc _ g1 _ hlt2, hc, hc]

/-- C26. At an output point that coincides with an input node, the output is the input value, in both modes. -/
theorem C26_nodes (gauss : ℕ → Rule) (tol : ℝ) (maxiter : ℕ) (A : Resample.Args) (rin rout : Rule) (H : ResampleBuilt gauss tol maxiter A rin rout)
    (x : Mat ℝ) (h0 : x.d0 = A.nlatIn) (h1 : x.d1 = A.nlonIn) :
    ∃ R y, Resample.init gauss tol maxiter A = .ok R ∧ R.forward x = .ok y ∧ y.d0 = A.nlatOut ∧ y.d1 = A.nlonOut ∧
      ∀ i < A.nlatOut, ∀ j < A.nlonOut, ∀ k < A.nlatIn, ∀ l < A.nlonIn, rout.x i = rin.x k → j * A.nlonIn = l * A.nlonOut →
        y.val i j = x.val k l := by
  obtain ⟨R, N, lats, I, hR, _, hskip, hinc, hI, hf⟩ := resample_forward H
  obtain ⟨X, hX, hy⟩ := hf x h0 h1
  have h2 := H.twoLat
  have h3 := H.twoLon
  cases hsk : R.skip with
  | true =>
    obtain ⟨s1, s2, s3⟩ := hskip.1 hsk
    refine ⟨R, x, hR, by unfold Resampler.forward; rw [if_pos hsk], by rw [h0, s2], by rw [h1, s1], fun i hi j hj k hk l hl hik hjl => ?_⟩
    obtain ⟨e, _⟩ := skip_not_beyond H ⟨s2, s3⟩
    have hjl' : j = l := by
      rw [s1] at hjl
      exact Nat.eq_of_mul_eq_mul_right (by omega) hjl
    have hik' : i = k := by
      rw [e] at hik
      by_contra hne
      rcases Nat.lt_or_gt_of_ne hne with h | h
      · have := H.gridOut.increasing i k h (by omega); linarith
      · have := H.gridOut.increasing k i h (by omega); linarith
    rw [hjl', hik']
  | false =>
    obtain ⟨y, e, y0, y1, yv⟩ := hy hsk
    refine ⟨R, y, hR, e, y0, y1, fun i hi j hj k hk l hl hik hjl => ?_⟩
    have hrow : ∃ k', k' < N ∧ lats k' = rin.x k ∧ ∀ c, X k' c = x.val k c := by
      by_cases hb : BeyondGrid A.nlatIn rin.x A.nlatOut rout.x
      · refine ⟨k + 1, by rw [hX.count hb]; omega, (hX.inner hb).1 k hk, fun c => (hX.inner hb).2 k hk c⟩
      · obtain ⟨b1, b2, b3⟩ := hX.same hb
        exact ⟨k, by omega, b2 k hk, b3 k hk⟩
    obtain ⟨k', hk', hl', hX'⟩ := hrow
    obtain ⟨g1, g2, g3⟩ := hI i hi
    have := yv i hi j hj
    dsimp only at this
    rw [this, hjl, Nat.mul_mod_left, Nat.mul_div_cancel _ (by omega : 0 < A.nlonOut),
      interp_node hinc _ (fun r => X r l) (rout.x i) (I i) k' g1 hk' g2 g3 (by rw [hik, hl']),
      interp_node hinc _ (fun r => X r ((l + 1) % A.nlonIn)) (rout.x i) (I i) k' g1 hk' g2 g3 (by rw [hik, hl']), hX', hX']
    have hz : ∀ (sp : Bool) (a b : ℝ), interp sp a b 0 = a := by
      intro sp a b
      have := interp_node (N := 2) (lats := fun k => (k : ℝ)) (fun i j hij _ => by exact_mod_cast hij) sp (fun k => if k = 0 then a else b) 0 0 0
        (by norm_num) (by norm_num) (by norm_num) (by norm_num) (by norm_num)
      simpa using this
    rw [Nat.cast_zero, zero_div, hz]

/-- C27. On equal grids the output is the input. -/
theorem C27_identity (gauss : ℕ → Rule) (tol : ℝ) (maxiter : ℕ) (A : Resample.Args) (rin rout : Rule) (H : ResampleBuilt gauss tol maxiter A rin rout)
    (hlon : A.nlonIn = A.nlonOut) (hlat : A.nlatIn = A.nlatOut) (hg : A.gridIn = A.gridOut) (x : Mat ℝ) :
    ∃ R, Resample.init gauss tol maxiter A = .ok R ∧ R.forward x = .ok x := by
  obtain ⟨R, N, lats, I, hR, _, hskip, _⟩ := resample_forward H
  exact ⟨R, hR, by unfold Resampler.forward; rw [if_pos (hskip.2 ⟨hlon, hlat, hg⟩)]⟩

/-- The rows of a rotated field are the rotated rows. -/
theorem rows_shift {nIn nlon : ℕ} {latsIn : ℕ → ℝ} {x x' : ℕ → ℕ → ℝ} {b : Prop} {N : ℕ} {lats : ℕ → ℝ} {X X' : ℕ → ℕ → ℝ} (s : ℕ)
    (h : Rows nIn nlon latsIn x b N lats X) (h' : Rows nIn nlon latsIn x' b N lats X') (hn : 0 < nIn) (hl : 0 < nlon)
    (hx : ∀ k < nIn, ∀ j < nlon, x' k j = x k ((j + s) % nlon)) : ∀ k < N, ∀ j < nlon, X' k j = X k ((j + s) % nlon) := by
  intro k hk j hj
  by_cases hb : b
  · have hc := h.count hb
    have mean : ∀ r < nIn, ∑ j' ∈ range nlon, x' r j' = ∑ j' ∈ range nlon, x r j' := by
      intro r hr
      rw [← sum_mod_shift nlon s hl (fun j => x r j)]
      exact sum_congr rfl fun j hj => hx r hr j (mem_range.1 hj)
    by_cases hk0 : k = 0
    · rw [hk0, (h.poles hb).2.2.1, (h'.poles hb).2.2.1, mean 0 hn]
    · by_cases hk1 : k = nIn + 1
      · rw [hk1, (h.poles hb).2.2.2, (h'.poles hb).2.2.2, mean (nIn - 1) (by omega)]
      · have e1 := (h.inner hb).2 (k - 1) (by omega) ((j + s) % nlon)
        have e2 := (h'.inner hb).2 (k - 1) (by omega) j
        rw [Nat.sub_add_cancel (by omega)] at e1 e2
        rw [e1, e2, hx (k - 1) (by omega) j hj]
  · obtain ⟨b1, b2, b3⟩ := h.same hb
    rw [b3 k (by omega), (h'.same hb).2.2 k (by omega), hx k (by omega) j hj]

/-- C27. Rotating the input by `s` columns rotates the output by `t` columns, whenever the two rotations are the same angle. Both modes. -/
theorem C27_rotation (gauss : ℕ → Rule) (tol : ℝ) (maxiter : ℕ) (A : Resample.Args) (rin rout : Rule) (H : ResampleBuilt gauss tol maxiter A rin rout)
    (s t : ℕ) (hst : 2 * Real.pi * s / A.nlonIn = 2 * Real.pi * t / A.nlonOut)
    (x x' : Mat ℝ) (h0 : x.d0 = A.nlatIn) (h1 : x.d1 = A.nlonIn) (h0' : x'.d0 = A.nlatIn) (h1' : x'.d1 = A.nlonIn)
    (hx : ∀ k < A.nlatIn, ∀ j < A.nlonIn, x'.val k j = x.val k ((j + s) % A.nlonIn)) :
    ∃ R y y', Resample.init gauss tol maxiter A = .ok R ∧ R.forward x = .ok y ∧ R.forward x' = .ok y' ∧ y'.d0 = y.d0 ∧ y'.d1 = y.d1 ∧
      ∀ i < A.nlatOut, ∀ j < A.nlonOut, y'.val i j = y.val i ((j + t) % A.nlonOut) := by
  obtain ⟨R, N, lats, I, hR, _, hskip, hinc, hI, hf⟩ := resample_forward H
  obtain ⟨X, hX, hy⟩ := hf x h0 h1
  obtain ⟨X', hX', hy'⟩ := hf x' h0' h1'
  have h2 := H.twoLat
  have h3 := H.twoLon
  have hpi := Real.pi_pos
  have hst' : 0 < A.nlonOut → t * A.nlonIn = s * A.nlonOut := by
    intro hpos
    have hout : (0 : ℝ) < A.nlonOut := by exact_mod_cast hpos
    have hin : (0 : ℝ) < A.nlonIn := by exact_mod_cast (show 0 < A.nlonIn by omega)
    rw [div_eq_div_iff hin.ne' hout.ne'] at hst
    have : (t : ℝ) * A.nlonIn = s * A.nlonOut := by
      have h2pi : (2 * Real.pi) ≠ 0 := by positivity
      apply mul_left_cancel₀ h2pi
      linarith
    exact_mod_cast this
  have hsh := rows_shift s hX hX' (by omega) (by omega) hx
  cases hsk : R.skip with
  | true =>
    obtain ⟨s1, s2, s3⟩ := hskip.1 hsk
    refine ⟨R, x, x', hR, by unfold Resampler.forward; rw [if_pos hsk], by unfold Resampler.forward; rw [if_pos hsk], by rw [h0, h0'], by rw [h1, h1'],
      fun i hi j hj => ?_⟩
    have hts : t = s := by
      have := hst' (by omega)
      rw [← s1] at this
      exact Nat.eq_of_mul_eq_mul_right (by omega) this
    rw [hx i (by omega) j (by omega), hts, s1]
  | false =>
    obtain ⟨y, e, y0, y1, yv⟩ := hy hsk
    obtain ⟨y', e', y0', y1', yv'⟩ := hy' hsk
    refine ⟨R, y, y', hR, e, e', by rw [y0, y0'], by rw [y1, y1'], fun i hi j hj => ?_⟩
    have hpos : 0 < A.nlonOut := by omega
    have hts := hst' hpos
    have hr := Nat.mod_lt (j + t) hpos
    obtain ⟨g1, _, _⟩ := hI i hi
    have hlt : j * A.nlonIn / A.nlonOut < A.nlonIn := by
      rw [Nat.div_lt_iff_lt_mul hpos, mul_comm]
      exact Nat.mul_lt_mul_of_pos_left hj (by omega)
    have hlt2 : (j + t) % A.nlonOut * A.nlonIn / A.nlonOut < A.nlonIn := by
      rw [Nat.div_lt_iff_lt_mul hpos, mul_comm]
      exact Nat.mul_lt_mul_of_pos_left hr (by omega)
    -- columns and weights of the rotated point
    have key : (j + t) % A.nlonOut * A.nlonIn + A.nlonOut * (A.nlonIn * ((j + t) / A.nlonOut)) = j * A.nlonIn + A.nlonOut * s := by
      have := Nat.mod_add_div (j + t) A.nlonOut
      calc _ = ((j + t) % A.nlonOut + A.nlonOut * ((j + t) / A.nlonOut)) * A.nlonIn := by ring
        _ = (j + t) * A.nlonIn := by rw [this]
        _ = _ := by rw [add_mul, hts]; ring
    have hq : (j + t) % A.nlonOut * A.nlonIn / A.nlonOut = (j * A.nlonIn / A.nlonOut + s) % A.nlonIn := by
      have h5 := congrArg (· / A.nlonOut) key
      simp only [Nat.add_mul_div_left _ _ hpos] at h5
      have h6 := congrArg (· % A.nlonIn) h5
      simp only [Nat.add_mul_mod_self_left, Nat.mod_eq_of_lt hlt2] at h6
      exact h6
    have hp : (j + t) % A.nlonOut * A.nlonIn % A.nlonOut = j * A.nlonIn % A.nlonOut := by
      have h5 := congrArg (· % A.nlonOut) key
      simpa only [Nat.add_mul_mod_self_left] using h5
    have a1 := yv _ hi _ hr
    have a2 := yv' i hi j hj
    dsimp only at a1 a2
    rw [a1, a2, hq, hp, hsh _ (by omega) _ hlt, hsh _ g1 _ hlt, hsh _ (by omega) _ (Nat.mod_lt _ (by omega)), hsh _ g1 _ (Nat.mod_lt _ (by omega))]
    have hc : ((j * A.nlonIn / A.nlonOut + 1) % A.nlonIn + s) % A.nlonIn = ((j * A.nlonIn / A.nlonOut + s) % A.nlonIn + 1) % A.nlonIn := by
      rw [Nat.mod_add_mod, Nat.mod_add_mod]; congr 1; omega
    rw [hc]

/-- C26. Bilinear resampling is linear in the field. -/
theorem C26_linear (gauss : ℕ → Rule) (tol : ℝ) (maxiter : ℕ) (A : Resample.Args) (rin rout : Rule) (H : ResampleBuilt gauss tol maxiter A rin rout)
    (hm : A.mode = "bilinear") (a b : ℝ) (x1 x2 x3 : Mat ℝ) (d1 : x1.d0 = A.nlatIn ∧ x1.d1 = A.nlonIn) (d2 : x2.d0 = A.nlatIn ∧ x2.d1 = A.nlonIn)
    (d3 : x3.d0 = A.nlatIn ∧ x3.d1 = A.nlonIn) (hx : ∀ k < A.nlatIn, ∀ j < A.nlonIn, x3.val k j = a * x1.val k j + b * x2.val k j) :
    ∃ R y1 y2 y3, Resample.init gauss tol maxiter A = .ok R ∧ R.forward x1 = .ok y1 ∧ R.forward x2 = .ok y2 ∧ R.forward x3 = .ok y3 ∧
      ∀ i < A.nlatOut, ∀ j < A.nlonOut, y3.val i j = a * y1.val i j + b * y2.val i j := by
  obtain ⟨R, N, lats, I, hR, _, hskip, hinc, hI, hf⟩ := resample_forward H
  obtain ⟨X1, hX1, hy1⟩ := hf x1 d1.1 d1.2
  obtain ⟨X2, hX2, hy2⟩ := hf x2 d2.1 d2.2
  obtain ⟨X3, hX3, hy3⟩ := hf x3 d3.1 d3.2
  have h2 := H.twoLat
  have h3 := H.twoLon
  have hsp : (A.mode == "bilinear-spherical") = false := by rw [hm]; decide
  have hX : ∀ k < N, ∀ j < A.nlonIn, X3 k j = a * X1 k j + b * X2 k j := by
    intro k hk j hj
    by_cases hb : BeyondGrid A.nlatIn rin.x A.nlatOut rout.x
    · have hc := hX1.count hb
      have mean : ∀ r < A.nlatIn, (∑ j' ∈ range A.nlonIn, x3.val r j') / (A.nlonIn : ℝ)
          = a * ((∑ j' ∈ range A.nlonIn, x1.val r j') / (A.nlonIn : ℝ)) + b * ((∑ j' ∈ range A.nlonIn, x2.val r j') / (A.nlonIn : ℝ)) := by
        intro r hr
        rw [sum_congr rfl fun j hj => hx r hr j (mem_range.1 hj), sum_add_distrib, ← mul_sum, ← mul_sum]
        ring
      by_cases hk0 : k = 0
      · rw [hk0, (hX1.poles hb).2.2.1, (hX2.poles hb).2.2.1, (hX3.poles hb).2.2.1, mean 0 (by omega)]
      · by_cases hk1 : k = A.nlatIn + 1
        · rw [hk1, (hX1.poles hb).2.2.2, (hX2.poles hb).2.2.2, (hX3.poles hb).2.2.2, mean (A.nlatIn - 1) (by omega)]
        · have e1 := (hX1.inner hb).2 (k - 1) (by omega) j
          have e2 := (hX2.inner hb).2 (k - 1) (by omega) j
          have e3 := (hX3.inner hb).2 (k - 1) (by omega) j
          rw [Nat.sub_add_cancel (by omega)] at e1 e2 e3
          rw [e1, e2, e3, hx (k - 1) (by omega) j hj]
    · have hN := (hX1.same hb).1
      rw [(hX1.same hb).2.2 k (by omega), (hX2.same hb).2.2 k (by omega), (hX3.same hb).2.2 k (by omega), hx k (by omega) j hj]
  cases hsk : R.skip with
  | true =>
    obtain ⟨s1, s2, s3⟩ := hskip.1 hsk
    refine ⟨R, x1, x2, x3, hR, by unfold Resampler.forward; rw [if_pos hsk], by unfold Resampler.forward; rw [if_pos hsk],
      by unfold Resampler.forward; rw [if_pos hsk], fun i hi j hj => hx i (by omega) j (by omega)⟩
  | false =>
    obtain ⟨y1, e1, _, _, v1⟩ := hy1 hsk
    obtain ⟨y2, e2, _, _, v2⟩ := hy2 hsk
    obtain ⟨y3, e3, _, _, v3⟩ := hy3 hsk
    refine ⟨R, y1, y2, y3, hR, e1, e2, e3, fun i hi j hj => ?_⟩
    have hpos : 0 < A.nlonOut := by omega
    obtain ⟨g1, _, _⟩ := hI i hi
    have hlt : j * A.nlonIn / A.nlonOut < A.nlonIn := by
      rw [Nat.div_lt_iff_lt_mul hpos, mul_comm]
      exact Nat.mul_lt_mul_of_pos_left hj (by omega)
    have hlt2 := Nat.mod_lt (j * A.nlonIn / A.nlonOut + 1) (show 0 < A.nlonIn by omega)
    have w1 := v1 i hi j hj
    have w2 := v2 i hi j hj
    have w3 := v3 i hi j hj
    simp only [hsp, lerp_eq] at w1 w2 w3
    rw [w1, w2, w3, hX _ (by omega) _ hlt, hX _ g1 _ hlt, hX _ (by omega) _ hlt2, hX _ g1 _ hlt2]
    ring

/-! ### The grids meet the hypotheses -/

/-- The named latitude grids with at least two rows (one for Gauss) are latitude grids. -/
theorem latGrid_named (gauss : ℕ → Rule) (tol : ℝ) (maxiter n : ℕ) (grid : String)
    (h : (2 ≤ n ∧ (grid = "equiangular" ∨ grid = "equiangular-trapezoidal")) ∨ (1 ≤ n ∧ grid = "legendre-gauss" ∧ IsGaussRule (gauss n) n)) :
    ∃ r, precomputeLatitudes gauss tol maxiter n grid = .ok r ∧ r.n = n ∧ LatGrid n r.x := by
  have hpi := Real.pi_pos
  rcases h with ⟨hn, rfl | rfl⟩ | ⟨hn, rfl, hg⟩
  · obtain ⟨r, h1, h2, h3⟩ := C05_equiangular_latitudes gauss tol maxiter n hn
    have hpos : (0 : ℝ) < (n : ℝ) - 1 := by
      have : (2 : ℝ) ≤ n := by exact_mod_cast hn
      linarith
    refine ⟨r, h1, h2, ⟨fun k hk => ?_, fun i j hij hj => ?_, fun k hk => ?_⟩⟩
    · rw [(h3 k hk).1]
      have : (k : ℝ) ≤ (n : ℝ) - 1 := by
        have : (k : ℝ) + 1 ≤ n := by exact_mod_cast hk
        linarith
      refine ⟨by positivity, ?_⟩
      rw [div_le_iff₀ hpos]
      exact mul_le_mul_of_nonneg_left this hpi.le
    · rw [(h3 i (by omega)).1, (h3 j hj).1]
      have : (i : ℝ) < j := by exact_mod_cast hij
      exact div_lt_div_of_pos_right (mul_lt_mul_of_pos_left this hpi) hpos
    · rw [(h3 (n - 1 - k) (by omega)).1, (h3 k hk).1, Nat.cast_sub (by omega), Nat.cast_sub (by omega)]
      push_cast
      field_simp
  · obtain ⟨r, h1, h2, h3, h4⟩ := C05_trapezoidal_latitudes gauss tol maxiter n hn
    have hpos : (0 : ℝ) < (n : ℝ) - 1 := by
      have : (2 : ℝ) ≤ n := by exact_mod_cast hn
      linarith
    refine ⟨r, h1, h2, ⟨fun k hk => ⟨(h3 k hk).1, (h3 k hk).2.1⟩, h4, fun k hk => ?_⟩⟩
    refine Real.injOn_cos ⟨(h3 (n - 1 - k) (by omega)).1, (h3 (n - 1 - k) (by omega)).2.1⟩
      ⟨by linarith [(h3 k hk).2.1], by linarith [(h3 k hk).1]⟩ ?_
    rw [Real.cos_pi_sub, (h3 (n - 1 - k) (by omega)).2.2, (h3 k hk).2.2, Nat.cast_sub (by omega), Nat.cast_sub (by omega)]
    push_cast
    field_simp
    ring
  · obtain ⟨r, h1, h2, h3, h4⟩ := C05_gauss_latitudes gauss tol maxiter n hn hg
    refine ⟨r, h1, h2, ⟨fun k hk => ⟨(h3 k hk).1.le, (h3 k hk).2.1.le⟩, h4, fun k hk => ?_⟩⟩
    refine Real.injOn_cos ⟨(h3 (n - 1 - k) (by omega)).1.le, (h3 (n - 1 - k) (by omega)).2.1.le⟩
      ⟨by linarith [(h3 k hk).2.1], by linarith [(h3 k hk).1]⟩ ?_
    rw [Real.cos_pi_sub, (h3 (n - 1 - k) (by omega)).2.2.1, (h3 k hk).2.2.1]
    have := hg.symm_x (n - 1 - k) (by omega)
    rw [this]

/-- C26, hypotheses: every pair of named grids with two input rows and columns, in both modes, meets `ResampleBuilt`. -/
theorem C26_built (gauss : ℕ → Rule) (tol : ℝ) (maxiter : ℕ) (A : Resample.Args) (hm : A.mode = "bilinear" ∨ A.mode = "bilinear-spherical")
    (h2 : 2 ≤ A.nlatIn) (h3 : 2 ≤ A.nlonIn)
    (hin : A.gridIn = "equiangular" ∨ A.gridIn = "equiangular-trapezoidal" ∨ (A.gridIn = "legendre-gauss" ∧ IsGaussRule (gauss A.nlatIn) A.nlatIn))
    (hout : (2 ≤ A.nlatOut ∧ (A.gridOut = "equiangular" ∨ A.gridOut = "equiangular-trapezoidal")) ∨
      (1 ≤ A.nlatOut ∧ A.gridOut = "legendre-gauss" ∧ IsGaussRule (gauss A.nlatOut) A.nlatOut)) :
    ∃ rin rout, ResampleBuilt gauss tol maxiter A rin rout := by
  obtain ⟨rin, a1, a2, a3⟩ := latGrid_named gauss tol maxiter A.nlatIn A.gridIn (by
    rcases hin with h | h | h
    · exact Or.inl ⟨h2, Or.inl h⟩
    · exact Or.inl ⟨h2, Or.inr h⟩
    · exact Or.inr ⟨by omega, h⟩)
  obtain ⟨rout, b1, b2, b3⟩ := latGrid_named gauss tol maxiter A.nlatOut A.gridOut hout
  exact ⟨rin, rout, hm, a1, b1, a2, b2, a3, b3, h2, h3⟩

/-- Non-vacuity: doubling an equiangular grid. -/
example (gauss : ℕ → Rule) : ∃ rin rout, ResampleBuilt gauss 1e-16 100 ⟨3, 4, 5, 8, "equiangular", "equiangular", "bilinear"⟩ rin rout :=
  C26_built gauss _ _ _ (Or.inl rfl) (by norm_num) (by norm_num) (Or.inl rfl) (Or.inl ⟨by norm_num, Or.inl rfl⟩)

/-- Non-vacuity of the pole rows: an equiangular output grid reaches beyond any Gauss grid. -/
example (gauss : ℕ → Rule) (hg : IsGaussRule (gauss 2) 2) : ∃ rin rout,
    ResampleBuilt gauss 1e-16 100 ⟨2, 4, 3, 6, "legendre-gauss", "equiangular", "bilinear-spherical"⟩ rin rout ∧ BeyondGrid 2 rin.x 3 rout.x := by
  obtain ⟨rin, rout, H⟩ := C26_built gauss 1e-16 100 ⟨2, 4, 3, 6, "legendre-gauss", "equiangular", "bilinear-spherical"⟩ (Or.inr rfl) (by norm_num)
    (by norm_num) (Or.inr (Or.inr ⟨rfl, hg⟩)) (Or.inl ⟨by norm_num, Or.inl rfl⟩)
  refine ⟨rin, rout, H, 0, by norm_num, Or.inl ?_⟩
  obtain ⟨r, h1, h2, h3⟩ := C05_equiangular_latitudes gauss 1e-16 100 3 (by norm_num)
  obtain ⟨r', h1', h2', h3', _⟩ := C05_gauss_latitudes gauss 1e-16 100 2 (by norm_num) hg
  have e : rout = r := Except.ok.inj (H.latOut.symm.trans h1)
  have e' : rin = r' := Except.ok.inj (H.latIn.symm.trans h1')
  rw [e, e', (h3 0 (by norm_num)).1]
  have := (h3' 0 (by norm_num)).1
  simpa using this

/-- Non-vacuity of the rotation theorem: one column of four is two columns of eight. -/
example : 2 * Real.pi * ((1 : ℕ) : ℝ) / ((4 : ℕ) : ℝ) = 2 * Real.pi * ((2 : ℕ) : ℝ) / ((8 : ℕ) : ℝ) := by push_cast; ring

/-! ### The spherical mode, and inputs outside the hypotheses -/

/-- C26. In mode "bilinear-spherical" the interpolation along an axis is the documented great-circle formula when `sin (b - a)` exceeds `1e-4`. -/
theorem C26_spherical_value (a b w : ℝ) (h : Real.sin (b - a) > 1e-4) :
    interp true a b w = Real.sin ((1 - w) * (b - a)) / Real.sin (b - a) * a + Real.sin (w * (b - a)) / Real.sin (b - a) * b := by
  unfold interp slerp
  dsimp only
  rw [if_pos rfl, if_pos h, if_pos h]

/-- C26, a defect: the code tests `sin ω > 1e-4` without an absolute value, so for every difference with a negative sine it interpolates linearly. -/
theorem C26_spherical_negative_linear (a b w : ℝ) (h : Real.sin (b - a) ≤ 1e-4) : interp true a b w = (1 - w) * a + w * b := by
  unfold interp slerp
  dsimp only
  rw [if_pos rfl, if_neg (not_lt.2 h), if_neg (not_lt.2 h)]

/-- C26, the defect is observable: with neighbouring values `π/2` and `0` the documented formula at the midpoint gives `π √2 / 4`, the code gives `π / 4`. -/
theorem C26_spherical_negative_wrong : interp true (Real.pi / 2) 0 (1 / 2) = Real.pi / 4 ∧
    interp true (Real.pi / 2) 0 (1 / 2) ≠
      Real.sin ((1 - 1 / 2) * (0 - Real.pi / 2)) / Real.sin (0 - Real.pi / 2) * (Real.pi / 2) + Real.sin (1 / 2 * (0 - Real.pi / 2)) / Real.sin (0 - Real.pi / 2) * 0 := by
  have hs : Real.sin (0 - Real.pi / 2) = -1 := by rw [zero_sub, Real.sin_neg, Real.sin_pi_div_two]
  have h := C26_spherical_negative_linear (Real.pi / 2) 0 (1 / 2) (by rw [hs]; norm_num)
  have e : interp true (Real.pi / 2) 0 (1 / 2) = Real.pi / 4 := by rw [h]; ring
  refine ⟨e, ?_⟩
  rw [e, hs, show (1 - 1 / 2) * (0 - Real.pi / 2) = -(Real.pi / 4) by ring, Real.sin_neg, Real.sin_pi_div_four]
  intro hc
  have hpi := Real.pi_pos
  have h1 : Real.pi * (Real.sqrt 2 - 1) = 0 := by linarith
  rcases mul_eq_zero.1 h1 with h2 | h2
  · linarith
  · have h3 : Real.sqrt 2 = 1 := by linarith
    have := Real.sq_sqrt (show (0 : ℝ) ≤ 2 by norm_num)
    rw [h3] at this
    norm_num at this

/-- C26. An unknown mode is refused, whatever the grids. -/
theorem C26_unknown_mode (gauss : ℕ → Rule) (tol : ℝ) (maxiter : ℕ) (A : Resample.Args) (h1 : A.mode ≠ "bilinear") (h2 : A.mode ≠ "bilinear-spherical") :
    Resample.init gauss tol maxiter A = .error .notImplemented := by
  unfold Resample.init
  rw [if_pos ⟨h1, h2⟩]

/-- C26. An unknown grid is refused. -/
theorem C26_unknown_grid (gauss : ℕ → Rule) (tol : ℝ) (maxiter : ℕ) (A : Resample.Args) (hm : A.mode = "bilinear" ∨ A.mode = "bilinear-spherical")
    (h : ¬ (A.gridIn = "equiangular-trapezoidal" ∨ A.gridIn = "legendre-gauss" ∨ A.gridIn = "lobatto" ∨ A.gridIn = "equiangular")) :
    Resample.init gauss tol maxiter A = .error .valueError := by
  push Not at h
  unfold Resample.init
  rw [if_neg (by rintro ⟨a, b⟩; rcases hm with h | h; exacts [a h, b h]), C05_unknown_grid gauss tol maxiter _ _ h.1 h.2.1 h.2.2.1 h.2.2.2]

/-- C26, a defect: with a single input longitude the denominator of the longitude weight is zero (in floating point the weight is NaN, and so is
the output), although a field with one longitude is legal elsewhere in the library. -/
theorem C26_single_longitude (v : ℝ) (hv : 0 ≤ v) : lonDifference 1 v = 0 := by
  have h0 : precomputeLongitudes 1 0 = 0 := by rw [(C05_longitudes 1 0 (by norm_num)).1]; simp
  have hl : lonLeft 1 v = 0 := by
    unfold lonLeft searchsorted
    have : (range 1).filter (fun i => precomputeLongitudes 1 i ≤ v) = range 1 := by
      apply filter_true_of_mem
      intro i hi
      have : i = 0 := by have := mem_range.1 hi; omega
      rw [this, h0]; exact hv
    rw [this]; simp
  have hr : lonRight 1 v = 0 := by
    unfold lonRight
    rw [if_pos (by rw [h0]; exact hv)]
  unfold lonDifference
  rw [hl, hr]
  simp

/-- C27, a defect: on a grid with one latitude the constructor raises an IndexError, although input and output grid are the same and `forward` would
return its input. -/
theorem C27_single_latitude_error (gauss : ℕ → Rule) (tol : ℝ) (maxiter nlon : ℕ) (hg : IsGaussRule (gauss 1) 1) :
    Resample.init gauss tol maxiter ⟨1, nlon, 1, nlon, "legendre-gauss", "legendre-gauss", "bilinear"⟩ = .error .indexError := by
  obtain ⟨r, h1, h2, _⟩ := C05_gauss_latitudes gauss tol maxiter 1 le_rfl hg
  unfold Resample.init
  dsimp only
  rw [if_neg (by simp), h1]
  dsimp only
  have hnp : needsPoles 1 r.x 1 r.x = false := by
    rw [Bool.eq_false_iff, Ne, needsPoles_iff]
    rintro ⟨i, hi, h⟩
    have : i = 0 := by omega
    rw [this] at h
    rcases h with h | h <;> exact lt_irrefl _ h
  unfold build
  dsimp only
  rw [h2, hnp]
  simp only [Bool.false_eq_true, if_false]
  rw [if_pos]
  intro hall
  have hb := hall 0 (by norm_num)
  have hs : searchsorted 1 r.x (r.x 0) = 1 := by
    unfold searchsorted
    rw [filter_true_of_mem, card_range]
    intro i hi
    have : i = 0 := by have := mem_range.1 hi; omega
    rw [this]
  unfold latIndex inBounds at hb
  dsimp only at hb
  rw [hs] at hb
  simp at hb

end Verif.Props
