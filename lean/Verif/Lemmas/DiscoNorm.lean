import Mathlib.Algebra.Order.BigOperators.Group.List
import Mathlib.Tactic.Positivity
import Mathlib.Tactic.FieldSimp
import Verif.Model.DiscoNorm
import Verif.Lemmas.Disco
/-! Lemmas about the filter normalisation. -/
namespace Verif.Disco
open Verif Verif.Dist Verif.Spec Finset

theorem scatterAdd_val (z : List (ℕ × ℝ)) (g : ℕ) : scatterAdd z g = (z.map fun p => if p.1 = g then p.2 else 0).sum := by
  have h : ∀ (z : List (ℕ × ℝ)) (a : ℕ → ℝ), z.foldl (fun a p => Function.update a p.1 (a p.1 + p.2)) a g
      = a g + (z.map fun p => if p.1 = g then p.2 else 0).sum := by
    intro z
    induction z with
    | nil => intro a; simp
    | cons p z ih =>
      intro a
      rw [List.foldl_cons, ih, List.map_cons, List.sum_cons]
      by_cases hp : p.1 = g
      · subst hp; simp; ring
      · rw [Function.update_of_ne (Ne.symm hp), if_neg hp]; ring
  rw [scatterAdd, h]; simp

/-- The latitude a tap is grouped by, and the latitude its quadrature weight is read at. -/
def gOut (tr : Bool) (a : Tap ℝ) : ℕ := if tr then a.latIn else a.latOut
def gIn (tr : Bool) (a : Tap ℝ) : ℕ := if tr then a.latOut else a.latIn

def isum (tr : Bool) (taps : List (Tap ℝ)) (k i : ℕ) (f : Tap ℝ → ℝ) : ℝ :=
  (taps.map fun a => if a.ker = k ∧ gOut tr a = i then f a else 0).sum

theorem isum_false (taps : List (Tap ℝ)) (k i : ℕ) (f : Tap ℝ → ℝ) : isum false taps k i f = rowSum taps k i f := rfl
theorem isum_true (taps : List (Tap ℝ)) (k i : ℕ) (f : Tap ℝ → ℝ) : isum true taps k i f = colSum taps k i f := rfl

theorem isum_congr {tr : Bool} {taps : List (Tap ℝ)} {k i : ℕ} {f g : Tap ℝ → ℝ}
    (h : ∀ a ∈ taps, a.ker = k → gOut tr a = i → f a = g a) : isum tr taps k i f = isum tr taps k i g := by
  unfold isum
  congr 1
  refine List.map_congr_left fun a ha => ?_
  split
  next hc => exact h a ha hc.1 hc.2
  next => rfl

theorem isum_mul_right (tr : Bool) (taps : List (Tap ℝ)) (k i : ℕ) (f : Tap ℝ → ℝ) (c : ℝ) :
    isum tr taps k i (fun a => f a * c) = isum tr taps k i f * c := by
  unfold isum
  rw [← List.sum_map_mul_right]
  congr 1
  refine List.map_congr_left fun a _ => ?_
  split <;> simp

theorem isum_sub (tr : Bool) (taps : List (Tap ℝ)) (k i : ℕ) (f g : Tap ℝ → ℝ) :
    isum tr taps k i (fun a => f a - g a) = isum tr taps k i f - isum tr taps k i g := by
  unfold isum
  induction taps with
  | nil => simp
  | cons a l ih =>
    simp only [List.map_cons, List.sum_cons, ih]
    split <;> ring

theorem isum_nonneg {tr : Bool} {taps : List (Tap ℝ)} {k i : ℕ} {f : Tap ℝ → ℝ}
    (h : ∀ a ∈ taps, a.ker = k → gOut tr a = i → 0 ≤ f a) : 0 ≤ isum tr taps k i f := by
  unfold isum
  refine List.sum_nonneg fun x hx => ?_
  obtain ⟨a, ha, rfl⟩ := List.mem_map.1 hx
  split
  next hc => exact h a ha hc.1 hc.2
  next => exact le_refl 0

theorem isum_map (tr : Bool) (taps : List (Tap ℝ)) (k i : ℕ) (f : Tap ℝ → ℝ) (v : Tap ℝ → ℝ) :
    isum tr (taps.map fun a => { a with val := v a }) k i f = isum tr taps k i (fun a => f { a with val := v a }) := by
  unfold isum
  rw [List.map_map]
  congr 1

/-- The taps fit the arguments of the normalisation. -/
structure NormFits (A : NormArgs) (taps : List (Tap ℝ)) : Prop where
  nlon : 0 < A.nlonIn
  fits : Fits taps A.kernelSize A.nlatOut A.nlatIn A.nlonIn
  quad : A.quad.len = if A.transpose then A.nlatOut else A.nlatIn
  mask : ∀ m, A.isoMask = some m → m.length = A.kernelSize
  ker : 0 < A.kernelSize

section
variable {A : NormArgs} {taps : List (Tap ℝ)} (hA : NormFits A taps)
include hA

theorem latOut_encode {a : Tap ℝ} (ha : a ∈ taps) : A.latOut (encode A.nlonIn a) = gOut A.transpose a := by
  unfold NormArgs.latOut gOut encode
  rw [col_div (hA.fits a ha).2.2.2]

theorem latIn_encode {a : Tap ℝ} (ha : a ∈ taps) : A.latIn (encode A.nlonIn a) = gIn A.transpose a := by
  unfold NormArgs.latIn gIn encode
  rw [col_div (hA.fits a ha).2.2.2]

theorem gOut_lt {a : Tap ℝ} (ha : a ∈ taps) : gOut A.transpose a < A.nlat := by
  obtain ⟨_, h2, h3, _⟩ := hA.fits a ha
  unfold gOut NormArgs.nlat
  split <;> assumption

theorem q_encode {a : Tap ℝ} (ha : a ∈ taps) : A.q (encode A.nlonIn a) = A.quad.val (gIn A.transpose a) := by
  unfold NormArgs.q; rw [latIn_encode hA ha]

theorem gid_encode {a : Tap ℝ} (ha : a ∈ taps) : A.gid (encode A.nlonIn a) = a.ker * A.nlat + gOut A.transpose a := by
  unfold NormArgs.gid; rw [latOut_encode hA ha]; rfl

theorem gid_eq {a : Tap ℝ} (ha : a ∈ taps) {k i : ℕ} (hi : i < A.nlat) :
    A.gid (encode A.nlonIn a) = k * A.nlat + i ↔ a.ker = k ∧ gOut A.transpose a = i := by
  rw [gid_encode hA ha]
  have h := gOut_lt hA ha
  constructor
  · intro e
    have h1 := congrArg (· / A.nlat) e
    have h2 := congrArg (· % A.nlat) e
    have hp : 0 < A.nlat := by omega
    simp only [Nat.mul_comm _ A.nlat, Nat.mul_add_div hp, Nat.div_eq_of_lt h, Nat.div_eq_of_lt hi, Nat.mul_add_mod,
      Nat.mod_eq_of_lt h, Nat.mod_eq_of_lt hi, Nat.add_zero] at h1 h2
    exact ⟨h1, h2⟩
  · rintro ⟨rfl, rfl⟩; rfl

theorem scatter_group (f : Entry ℝ → ℝ) {k i : ℕ} (hi : i < A.nlat) :
    scatterAdd ((taps.map (encode A.nlonIn)).map fun e => (A.gid e, f e)) (k * A.nlat + i)
      = isum A.transpose taps k i (fun a => f (encode A.nlonIn a)) := by
  rw [scatterAdd_val, List.map_map, List.map_map]
  unfold isum
  congr 1
  refine List.map_congr_left fun a ha => ?_
  simp only [Function.comp]
  by_cases hc : a.ker = k ∧ gOut A.transpose a = i
  · rw [if_pos hc, if_pos ((gid_eq hA ha hi).2 hc)]
  · rw [if_neg hc, if_neg (fun e => hc ((gid_eq hA ha hi).1 e))]

theorem support_val {k i : ℕ} (hi : i < A.nlat) : A.support (taps.map (encode A.nlonIn)) (k * A.nlat + i)
    = isum A.transpose taps k i (fun a => A.quad.val (gIn A.transpose a)) := by
  rw [NormArgs.support, scatter_group hA _ hi]
  exact isum_congr fun a ha _ _ => q_encode hA ha

/-- Closed form of the bias. -/
noncomputable def biasOf (A : NormArgs) (mode : String) (taps : List (Tap ℝ)) (k i : ℕ) : ℝ :=
  let sup := isum A.transpose taps k i (fun a => A.quad.val (gIn A.transpose a))
  if mode = "modal" ∧ A.iso k = false ∧ A.eps < |sup| then
    isum A.transpose taps k i (fun a => a.val * A.quad.val (gIn A.transpose a)) / max sup A.eps
  else 0

theorem bias_val (mode : String) {k i : ℕ} (hi : i < A.nlat) :
    A.bias mode (taps.map (encode A.nlonIn)) (k * A.nlat + i) = biasOf A mode taps k i := by
  unfold NormArgs.bias biasOf
  dsimp only
  by_cases hm : mode = "modal"
  · rw [if_pos hm, support_val hA hi, scatter_group hA _ hi]
    have e : isum A.transpose taps k i (fun a => (encode A.nlonIn a).val * A.q (encode A.nlonIn a) * A.aniso (encode A.nlonIn a).ker)
        = isum A.transpose taps k i (fun a => a.val * A.quad.val (gIn A.transpose a)) * A.aniso k := by
      rw [← isum_mul_right]
      refine isum_congr fun a ha hk _ => ?_
      rw [q_encode hA ha]
      simp only [encode]; rw [hk]
    rw [e]
    by_cases hs : A.eps < |isum A.transpose taps k i (fun a => A.quad.val (gIn A.transpose a))|
    · rw [if_pos hs]
      cases hk : A.iso k
      · rw [if_pos ⟨hm, rfl, hs⟩]
        simp [NormArgs.aniso, hk]
      · rw [if_neg (fun h => by simp at h)]
        simp [NormArgs.aniso, hk]
    · rw [if_neg hs, if_neg (fun h => hs h.2.2)]
  · rw [if_neg hm, if_neg (fun h => hm h.1)]

/-- Closed form of the scale. -/
noncomputable def scaleOf (A : NormArgs) (mode : String) (taps : List (Tap ℝ)) (k i : ℕ) : ℝ :=
  isum A.transpose taps k i (fun a => |a.val - biasOf A mode taps k i| * A.quad.val (gIn A.transpose a))

theorem scale_val (mode : String) {k i : ℕ} (hi : i < A.nlat) :
    A.scale mode (taps.map (encode A.nlonIn)) (k * A.nlat + i) = scaleOf A mode taps k i := by
  unfold NormArgs.scale scaleOf
  rw [scatter_group hA _ hi]
  refine isum_congr fun a ha hk hg => ?_
  rw [q_encode hA ha, gid_encode hA ha, hk, hg, bias_val hA mode hi]
  rfl

/-- Closed form of the normalised value of a tap. -/
noncomputable def selectOf (A : NormArgs) (mode : String) (taps : List (Tap ℝ)) (a : Tap ℝ) : ℝ :=
  if mode = "nodal" ∨ mode = "modal" then
    (a.val - biasOf A mode taps a.ker (gOut A.transpose a)) / max (scaleOf A mode taps a.ker (gOut A.transpose a)) A.eps
  else if mode = "mean" then
    a.val / max ((∑ i ∈ range A.nlat, scaleOf A mode taps a.ker i) / A.nlat) A.eps
  else if mode = "support" then
    a.val / max (isum A.transpose taps a.ker (gOut A.transpose a) (fun b => A.quad.val (gIn A.transpose b))) A.eps
  else if mode = "geometric" then a.val / max ((1 - Real.cos A.thetaCutoff) / 2 / 2) A.eps
  else a.val

theorem select_val (mode : String) (hm : knownMode mode) {a : Tap ℝ} (ha : a ∈ taps) :
    (A.select mode (taps.map (encode A.nlonIn)) (encode A.nlonIn a)).getD 0 = selectOf A mode taps a := by
  have hlt := gOut_lt hA ha
  have hv : (encode A.nlonIn a).val = a.val := rfl
  have hk : (encode A.nlonIn a).ker = a.ker := rfl
  unfold NormArgs.select selectOf
  rw [gid_encode hA ha, bias_val hA mode hlt, scale_val hA mode hlt, support_val hA hlt, hv, hk]
  split
  · rfl
  split
  next h0 h =>
    have e1 : A.meanLat (A.bias mode (taps.map (encode A.nlonIn))) a.ker = 0 := by
      unfold NormArgs.meanLat
      rw [sum_eq_zero, zero_div]
      intro i hi
      rw [bias_val hA mode (mem_range.1 hi), biasOf]
      rw [if_neg (fun h => h0 (Or.inr h.1))]
    have e2 : A.meanLat (A.scale mode (taps.map (encode A.nlonIn))) a.ker
        = (∑ i ∈ range A.nlat, scaleOf A mode taps a.ker i) / A.nlat := by
      unfold NormArgs.meanLat
      congr 1
      exact sum_congr rfl fun i hi => scale_val hA mode (mem_range.1 hi)
    rw [e1, e2, sub_zero]; rfl
  split
  · rfl
  split
  · rfl
  split
  · rfl
  next h1 h2 h3 h4 h5 =>
    rcases hm with h | h | h | h | h | h
    · exact absurd (Or.inl h) h1
    · exact absurd (Or.inr h) h1
    · exact absurd h h2
    · exact absurd h h3
    · exact absurd h h4
    · exact absurd h h5

/-- Closed form of the value returned for a tap. -/
noncomputable def finishOf (A : NormArgs) (a : Tap ℝ) (v : ℝ) : ℝ :=
  let v := if A.merge then v * A.quad.val (gIn A.transpose a) else v
  if A.transpose ∧ A.merge then v / ((A.nlonOut : ℝ) / (A.nlonIn : ℝ)) else v

theorem normalize_val (mode : String) (hm : knownMode (normAlias mode)) :
    normalize A mode (taps.map (encode A.nlonIn)) = .ok ((taps.map fun a =>
      { a with val := finishOf A a (selectOf A (normAlias mode) taps a) }).map (encode A.nlonIn)) := by
  unfold normalize
  dsimp only
  rw [if_neg (show ¬ A.nlonIn = 0 from hA.nlon.ne')]
  rw [if_neg (by
    rintro ⟨e, he, hq⟩
    obtain ⟨a, ha, rfl⟩ := List.mem_map.1 he
    rw [latIn_encode hA ha, hA.quad] at hq
    obtain ⟨_, h2, h3, _⟩ := hA.fits a ha
    unfold gIn at hq
    split at hq <;> omega)]
  rw [if_neg (by
    rintro ⟨e, he, hq⟩
    obtain ⟨a, ha, rfl⟩ := List.mem_map.1 he
    rw [gid_encode hA ha] at hq
    have h1 := (hA.fits a ha).1
    have h2 := gOut_lt hA ha
    have : (a.ker + 1) * A.nlat ≤ A.kernelSize * A.nlat := Nat.mul_le_mul_right _ h1
    rw [Nat.add_mul] at this
    omega)]
  rw [if_neg (by
    rintro ⟨_, h⟩
    apply h
    unfold NormArgs.maskOk
    split
    next m hm =>
      rw [decide_eq_true_eq]
      intro e he
      obtain ⟨a, ha, rfl⟩ := List.mem_map.1 he
      rw [hA.mask m hm]; exact (hA.fits a ha).1
    next => exact decide_eq_true hA.ker)]
  rw [if_neg (not_not.2 hm), List.map_map, List.map_map]
  congr 1
  refine List.map_congr_left fun a ha => ?_
  simp only [Function.comp]
  rw [select_val hA _ hm ha]
  simp only [NormArgs.finish, finishOf, q_encode hA ha]
  rfl

end

theorem sameStencil_map (taps : List (Tap ℝ)) (v : Tap ℝ → ℝ) : SameStencil taps (taps.map fun a => { a with val := v a }) := by
  unfold SameStencil
  rw [List.map_map]
  rfl

end Verif.Disco
