import Mathlib.Tactic.NormNum
import Mathlib.Data.Nat.ModEq
import Mathlib.Tactic.FinCases
import Mathlib.Algebra.Ring.Rat
import Verif.Lemmas.Disco
/-!
C28, C29, C32: the discrete-continuous convolution computes the documented sum, commutes with longitude rotation, and its
transposed contraction is the adjoint.
-/
namespace Verif.Props
open Verif Verif.Dist Verif.Spec Verif.Disco Finset

variable {R : Type} [CommSemiring R]

/-- C28: the reference contraction returns, for each kernel index, output row and column, the sum over the stored entries. -/
theorem C28_contraction (taps : List (Tap R)) (K nlatOut nlonOut : ℕ) (x : Mat R) (hf : Fits taps K nlatOut x.d0 x.d1)
    (hW : 0 < nlonOut) (hd : nlonOut ∣ x.d1) (hle : nlatOut ≤ x.d1) :
    ∃ y, contraction x (getPsi K (taps.map (encode x.d1)) x.d0 x.d1 nlatOut) nlonOut = .ok y ∧
      y.d0 = K ∧ y.d1 = nlatOut ∧ y.d2 = nlonOut ∧
      ∀ k < K, ∀ t < nlatOut, ∀ p < nlonOut, y.val k t p
        = (taps.map fun a => if a.ker = k ∧ a.latOut = t then
            a.val * x.val a.latIn ((a.lonIn + p * (x.d1 / nlonOut)) % x.d1) else 0).sum := by
  obtain ⟨y, h1, h2, h3, h4, h5⟩ := contraction_value taps K nlatOut nlonOut x hf hW hd hle
  exact ⟨y, h1, h2, h3, h4, fun k _ t _ p hp => h5 k t p hp⟩

/-- C28: exactly when the contraction raises. The last condition (`nlat_out <= nlon_in`) is a check of the code that compares a
number of latitudes with a number of longitudes. -/
theorem C28_ok_iff (x : Mat R) (psi : Psi R) (nlonOut : ℕ) :
    (∃ y, contraction x psi nlonOut = .ok y) ↔ psi.d2 = x.d0 * x.d1 ∧ 0 < nlonOut ∧ nlonOut ∣ x.d1 ∧ psi.d1 ≤ x.d1 := by
  unfold contraction
  constructor
  · rintro ⟨z, h⟩
    split at h
    · cases h
    split at h
    · cases h
    split at h
    · cases h
    split at h
    · cases h
    rename_i h1 h2 h3 h4
    exact ⟨not_not.1 h1, by omega, Nat.dvd_of_mod_eq_zero (not_not.1 h3), not_not.1 h4⟩
  · rintro ⟨h1, h2, h3, h4⟩
    rw [if_neg (by simpa using h1), if_neg (by omega), if_neg (by simp [Nat.mod_eq_zero_of_dvd h3]), if_neg (by simpa using h4)]
    exact ⟨_, rfl⟩

/-- A layer whose entries are the stored form of `taps`, with consistent sizes. -/
structure LayerOf (L : Layer R) (taps : List (Tap R)) : Prop where
  entries : L.entries = taps.map (encode L.nlonIn)
  fits : Fits taps L.kernelSize L.nlatOut L.nlatIn L.nlonIn
  nlon : 0 < L.nlonOut
  dvd : L.nlonOut ∣ L.nlonIn
  le : L.nlatOut ≤ L.nlonIn

omit [CommSemiring R] in
/-- C28: a layer is built exactly for a positive number of groups that divides both channel counts, and then `groups` blocks of
input channels and of output channels make up all channels. -/
theorem C28_channels (inChannels outChannels groups gs og : ℕ) :
    channelSplit inChannels outChannels groups = .ok (gs, og) ↔ 0 < groups ∧ groups * gs = inChannels ∧ groups * og = outChannels := by
  unfold channelSplit
  constructor
  · intro h
    split at h
    · cases h
    rename_i h0
    split at h
    · cases h
    rename_i h1
    split at h
    · cases h
    rename_i h2
    obtain ⟨rfl, rfl⟩ := Prod.mk.inj (Except.ok.inj h)
    exact ⟨by omega, Nat.mul_div_cancel' (Nat.dvd_of_mod_eq_zero (by omega)), Nat.mul_div_cancel' (Nat.dvd_of_mod_eq_zero (by omega))⟩
  · rintro ⟨h0, rfl, rfl⟩
    rw [if_neg (by omega), if_neg (by simp), if_neg (by simp), Nat.mul_div_cancel_left _ h0, Nat.mul_div_cancel_left _ h0]

example : channelSplit 6 4 2 = .ok (3, 2) := (C28_channels ..).2 ⟨by decide, rfl, rfl⟩

/-- C28 for the layer: channel mixing inside the group, plus bias. -/
theorem C28_layer (L : Layer R) (taps : List (Tap R)) (hL : LayerOf L taps) (x : Ten R)
    (hx : x.d0 = L.groups * L.groupsize ∧ x.d1 = L.nlatIn ∧ x.d2 = L.nlonIn) :
    ∃ y, L.forward x = .ok y ∧ y.d0 = L.groups * L.outPerGroup ∧ y.d1 = L.nlatOut ∧ y.d2 = L.nlonOut ∧
      ∀ oc t, ∀ p < L.nlonOut, y.val oc t p = (∑ c ∈ range L.groupsize, ∑ k ∈ range L.kernelSize,
        discoSum taps L.nlonIn L.nlonOut (x.val (oc / L.outPerGroup * L.groupsize + c)) k t p * L.weight oc c k)
        + (match L.bias with | none => 0 | some b => b oc) := by
  obtain ⟨hx0, hx1, hx2⟩ := hx
  have h : ∀ c, ∃ y, contraction ⟨x.d1, x.d2, x.val c⟩ (getPsi L.kernelSize L.entries L.nlatIn L.nlonIn L.nlatOut) L.nlonOut
      = .ok y ∧ ∀ k t, ∀ p < L.nlonOut, y.val k t p = discoSum taps L.nlonIn L.nlonOut (x.val c) k t p := by
    intro c
    obtain ⟨y, h1, -, -, -, h5⟩ := contraction_value taps L.kernelSize L.nlatOut L.nlonOut ⟨x.d1, x.d2, x.val c⟩
      (by simpa only [hx1, hx2] using hL.fits) hL.nlon (by simpa only [hx2] using hL.dvd) (by simpa only [hx2] using hL.le)
    refine ⟨y, ?_, ?_⟩
    · rw [hL.entries, ← h1]; simp only [hx1, hx2]
    · intro k t p hp; rw [h5 k t p hp]; simp only [hx2]
  choose y hy hyv using h
  unfold Layer.forward
  simp only [hy]
  rw [if_neg (by simpa using hx0)]
  refine ⟨_, rfl, rfl, rfl, rfl, ?_⟩
  intro oc t p hp
  have hm : L.mix (fun c k i j => (y c).val k i j) oc t p = ∑ c ∈ range L.groupsize, ∑ k ∈ range L.kernelSize,
        discoSum taps L.nlonIn L.nlonOut (x.val (oc / L.outPerGroup * L.groupsize + c)) k t p * L.weight oc c k := by
    unfold Layer.mix Layer.weightR
    refine sum_congr rfl fun c _ => sum_congr rfl fun k _ => ?_
    simp only [hyv _ k t p hp, Nat.div_add_mod']
  simp only [Layer.addBias]
  cases L.bias with
  | none => simp only [hm, add_zero]
  | some b => simp only [hm]

theorem discoSum_shift (taps : List (Tap R)) (nI nO s : ℕ) (hd : nO ∣ nI) (x : ℕ → ℕ → R) (k t p : ℕ) :
    discoSum taps nI nO (fun i j => x i ((j + s * (nI / nO)) % nI)) k t p = discoSum taps nI nO x k t ((p + s) % nO) := by
  unfold discoSum
  congr 1
  apply List.map_congr_left
  intro a _
  have : (a.column nI nO p + s * (nI / nO)) % nI = a.column nI nO ((p + s) % nO) := by
    unfold Tap.column
    rw [Nat.mod_add_mod]
    have e : (p + s) % nO * (nI / nO) ≡ (p + s) * (nI / nO) [MOD nI] := by
      have := Nat.ModEq.mul_right' (nI / nO) (Nat.mod_modEq (p + s) nO)
      rwa [Nat.mul_div_cancel' hd] at this
    have := (Nat.ModEq.add_left a.lonIn e).symm
    rw [Nat.ModEq] at this
    rw [← this]
    congr 1
    ring
  simp only [this]

/-- C29: rotating the input by `s * nlon_in / nlon_out` columns rotates the output of the layer by `s` columns. -/
theorem C29_rotation (L : Layer R) (taps : List (Tap R)) (hL : LayerOf L taps) (x : Ten R)
    (hx : x.d0 = L.groups * L.groupsize ∧ x.d1 = L.nlatIn ∧ x.d2 = L.nlonIn) (s : ℕ) :
    ∃ y z, L.forward x = .ok y ∧
      L.forward ⟨x.d0, x.d1, x.d2, fun c i j => x.val c i ((j + s * (L.nlonIn / L.nlonOut)) % L.nlonIn)⟩ = .ok z ∧
      ∀ oc t, ∀ p < L.nlonOut, z.val oc t p = y.val oc t ((p + s) % L.nlonOut) := by
  obtain ⟨y, h1, -, -, -, h2⟩ := C28_layer L taps hL x hx
  obtain ⟨z, h3, -, -, -, h4⟩ := C28_layer L taps hL
    ⟨x.d0, x.d1, x.d2, fun c i j => x.val c i ((j + s * (L.nlonIn / L.nlonOut)) % L.nlonIn)⟩ hx
  refine ⟨y, z, h1, h3, fun oc t p hp => ?_⟩
  rw [h4 oc t p hp, h2 oc t _ (Nat.mod_lt _ hL.nlon)]
  congr 1
  refine sum_congr rfl fun c _ => sum_congr rfl fun k _ => ?_
  rw [discoSum_shift taps _ _ s hL.dvd]

/-- A transposed layer whose entries are the stored form of `taps` (the taps relate a row of the coarse input grid to a point
of the fine output grid). -/
structure TLayerOf (L : Layer R) (taps : List (Tap R)) : Prop where
  entries : L.entries = taps.map (encode L.nlonOut)
  fits : Fits taps L.kernelSize L.nlatIn L.nlatOut L.nlonOut
  nlon : 0 < L.nlonIn
  nlonOut : 0 < L.nlonOut
  dvd : L.nlonIn ∣ L.nlonOut

/-- C32: the transposed layer applies the transposed sum to the channel mix. -/
theorem C32_transpose_layer (L : Layer R) (taps : List (Tap R)) (hL : TLayerOf L taps) (x : Ten R)
    (hx : x.d0 = L.groups * L.groupsize ∧ x.d1 = L.nlatIn ∧ x.d2 = L.nlonIn) :
    ∃ y, L.transposeForward x = .ok y ∧ y.d0 = L.groups * L.outPerGroup ∧ y.d1 = L.nlatOut ∧ y.d2 = L.nlonOut ∧
      ∀ oc i, ∀ j < L.nlonOut, y.val oc i j = discoAdjoint taps L.nlonOut L.nlonIn
        (fun k t p => ∑ c ∈ range L.groupsize, x.val (oc / L.outPerGroup * L.groupsize + c) t p * L.weight oc c k) i j
        + (match L.bias with | none => 0 | some b => b oc) := by
  obtain ⟨hx0, hx1, hx2⟩ := hx
  have h : ∀ oc, ∃ y, transposeContraction (L.expand x oc) (getPsiT L.kernelSize L.entries L.nlatIn L.nlatOut L.nlonOut) L.nlonOut
      = .ok y ∧ ∀ i, ∀ j < L.nlonOut, y.val i j = discoAdjoint taps L.nlonOut L.nlonIn
        (fun k t p => ∑ c ∈ range L.groupsize, x.val (oc / L.outPerGroup * L.groupsize + c) t p * L.weight oc c k) i j := by
    intro oc
    obtain ⟨y, h1, -, -, h5⟩ := transposeContraction_value taps L.kernelSize L.nlatOut L.nlonOut (L.expand x oc)
      (by simpa only [Layer.expand, hx1] using hL.fits) rfl (by simpa only [Layer.expand, hx2] using hL.nlon)
      (by simpa only [Layer.expand, hx2] using hL.dvd) hL.nlonOut
    refine ⟨y, ?_, ?_⟩
    · rw [hL.entries, ← h1]; simp only [Layer.expand, hx1]
    · intro i j hj
      rw [h5 i j hj]
      simp only [Layer.expand, hx2, Layer.weightR, Nat.div_add_mod']
  choose y hy hyv using h
  unfold Layer.transposeForward
  simp only [hy]
  rw [if_neg (by simpa using hx0)]
  refine ⟨_, rfl, rfl, rfl, rfl, ?_⟩
  intro oc i j hj
  simp only [Layer.addBias]
  cases L.bias with
  | none => simp only [hyv _ i j hj, add_zero]
  | some b => simp only [hyv _ i j hj]

/-- C32: for the same stored filter, the transposed contraction is the exact adjoint of the contraction. -/
theorem C32_adjoint (taps : List (Tap R)) (K nlatOut nlonOut : ℕ) (x : Mat R) (g : Ten R)
    (hf : Fits taps K nlatOut x.d0 x.d1) (hW : 0 < nlonOut) (hI : 0 < x.d1) (hd : nlonOut ∣ x.d1) (hle : nlatOut ≤ x.d1)
    (hg : g.d0 = K ∧ g.d1 = nlatOut ∧ g.d2 = nlonOut) :
    ∃ y z, contraction x (getPsi K (taps.map (encode x.d1)) x.d0 x.d1 nlatOut) nlonOut = .ok y ∧
      transposeContraction g (getPsiT K (taps.map (encode x.d1)) nlatOut x.d0 x.d1) x.d1 = .ok z ∧
      ∑ k ∈ range K, ∑ t ∈ range nlatOut, ∑ p ∈ range nlonOut, y.val k t p * g.val k t p
        = ∑ i ∈ range x.d0, ∑ j ∈ range x.d1, x.val i j * z.val i j := by
  obtain ⟨hg0, hg1, hg2⟩ := hg
  obtain ⟨y, h1, -, -, -, h2⟩ := contraction_value taps K nlatOut nlonOut x hf hW hd hle
  obtain ⟨z, h3, -, -, h4⟩ := transposeContraction_value taps K x.d0 x.d1 g (by rw [hg1]; exact hf) hg0 (by omega)
    (by rw [hg2]; exact hd) hI
  refine ⟨y, z, h1, by rw [← hg1]; exact h3, ?_⟩
  rw [hg2] at h4
  have e1 : ∀ k, ∀ t, ∀ p ∈ range nlonOut, y.val k t p * g.val k t p = discoSum taps x.d1 nlonOut x.val k t p * g.val k t p :=
    fun k t p hp => by rw [h2 k t p (mem_range.1 hp)]
  have e2 : ∀ i, ∀ j ∈ range x.d1, x.val i j * z.val i j = x.val i j * discoAdjoint taps x.d1 nlonOut g.val i j :=
    fun i j hj => by rw [h4 i j (mem_range.1 hj)]
  rw [sum_congr rfl fun k _ => sum_congr rfl fun t _ => sum_congr rfl (e1 k t), sum_congr rfl fun i _ => sum_congr rfl (e2 i)]
  exact disco_adjoint taps K nlatOut x.d0 x.d1 nlonOut hf x.val g.val

/-- C32: exactly when the transposed contraction raises. -/
theorem C32_ok_iff (x : Ten R) (psi : Psi R) (W : ℕ) :
    (∃ z, transposeContraction x psi W = .ok z) ↔
      0 < W ∧ 0 < x.d2 ∧ x.d2 ∣ W ∧ psi.d2 = x.d1 * W ∧ x.d0 = psi.d0 := transposeContraction_ok_iff x psi W

/-- C29 for the transposed layer: rotating the coarse input by `s` columns rotates the fine output by `s * nlon_out / nlon_in`
columns. -/
theorem C29_transpose_rotation (L : Layer R) (taps : List (Tap R)) (hL : TLayerOf L taps) (x : Ten R)
    (hx : x.d0 = L.groups * L.groupsize ∧ x.d1 = L.nlatIn ∧ x.d2 = L.nlonIn) (s : ℕ) :
    ∃ y z, L.transposeForward x = .ok y ∧
      L.transposeForward ⟨x.d0, x.d1, x.d2, fun c i j => x.val c i ((j + s) % L.nlonIn)⟩ = .ok z ∧
      ∀ oc i, ∀ j < L.nlonOut, z.val oc i j = y.val oc i ((j + s * (L.nlonOut / L.nlonIn)) % L.nlonOut) := by
  obtain ⟨y, h1, -, -, -, h2⟩ := C32_transpose_layer L taps hL x hx
  obtain ⟨z, h3, -, -, -, h4⟩ := C32_transpose_layer L taps hL
    ⟨x.d0, x.d1, x.d2, fun c i j => x.val c i ((j + s) % L.nlonIn)⟩ hx
  refine ⟨y, z, h1, h3, fun oc i j hj => ?_⟩
  rw [h4 oc i j hj, h2 oc i _ (Nat.mod_lt _ hL.nlonOut)]
  congr 1
  unfold discoAdjoint
  congr 1
  apply List.map_congr_left
  intro a _
  -- reindex p ↦ (p + s) mod nlonIn
  have hn := hL.nlon
  set n := L.nlonIn with hn'
  set W := L.nlonOut with hW'
  set ps := W / n with hps
  have hWe : W = n * ps := (Nat.mul_div_cancel' hL.dvd).symm
  have hcol : ∀ p, a.column W n ((p + s) % n) = (j + s * ps) % W ↔ a.column W n p = j := by
    intro p
    have e : a.column W n ((p + s) % n) = (a.column W n p + s * ps) % W := by
      unfold Tap.column
      rw [Nat.mod_add_mod]
      have e : (p + s) % n * ps ≡ (p + s) * ps [MOD W] := by
        have := Nat.ModEq.mul_right' ps (Nat.mod_modEq (p + s) n)
        rwa [← hWe] at this
      have := Nat.ModEq.add_left a.lonIn e
      rw [Nat.ModEq] at this
      rw [← hps, this]
      congr 1
      ring
    rw [e]
    constructor
    · intro h
      have h' : a.column W n p + s * ps ≡ j + s * ps [MOD W] := h
      have := Nat.ModEq.add_right_cancel' _ h'
      have hlt : a.column W n p < W := Nat.mod_lt _ hL.nlonOut
      rwa [Nat.ModEq, Nat.mod_eq_of_lt hlt, Nat.mod_eq_of_lt hj] at this
    · intro h; rw [h]
  refine sum_bij' (i := fun p _ => (p + s) % n) (j := fun q _ => (q + (n - s % n)) % n) ?_ ?_ ?_ ?_ ?_
  · intro p _; exact mem_range.2 (Nat.mod_lt _ hn)
  · intro p _; exact mem_range.2 (Nat.mod_lt _ hn)
  · intro p hp
    have hp := mem_range.1 hp
    have h1 : (p + s) % n = (p + s % n) % n := by rw [Nat.add_mod_mod]
    have hs := Nat.mod_lt s hn
    rw [h1, Nat.mod_add_mod, show p + s % n + (n - s % n) = p + n by omega, Nat.add_mod_right, Nat.mod_eq_of_lt hp]
  · intro q hq
    have hq := mem_range.1 hq
    have hs := Nat.mod_lt s hn
    rw [Nat.mod_add_mod, ← Nat.add_mod_mod, show q + (n - s % n) + s % n = q + n by omega, Nat.add_mod_right, Nat.mod_eq_of_lt hq]
  · intro p hp
    simp only [hcol]

/-! Concrete cases: two kernels, a 2 × 4 input grid, a 2 × 2 output grid. -/

def exTaps : List (Tap ℚ) :=
  [⟨0, 0, 0, 1, 2⟩, ⟨0, 0, 1, 3, 3⟩, ⟨1, 0, 0, 0, 5⟩, ⟨0, 1, 1, 0, 7⟩, ⟨1, 1, 1, 2, 1⟩, ⟨1, 1, 0, 2, 4⟩]

def exX : Mat ℚ := ⟨2, 4, fun i j => (i * 4 + j : ℕ)⟩

example : Fits exTaps 2 2 exX.d0 exX.d1 ∧ 0 < 2 ∧ 2 ∣ exX.d1 ∧ 2 ≤ exX.d1 := by
  refine ⟨?_, by decide, by decide, by decide⟩
  intro a ha
  simp only [exTaps, List.mem_cons, List.not_mem_nil, or_false] at ha
  rcases ha with rfl | rfl | rfl | rfl | rfl | rfl <;> decide

/-- A grouped layer meeting `LayerOf`. -/
def exLayer : Layer ℚ :=
  { groups := 2, groupsize := 1, outPerGroup := 2, kernelSize := 2, nlatIn := 2, nlonIn := 4, nlatOut := 2, nlonOut := 2
    weight := fun o c k => (o + c + k : ℕ), bias := some fun o => (o : ℕ), entries := exTaps.map (encode 4) }

example : LayerOf exLayer exTaps := by
  refine ⟨rfl, ?_, by decide, by decide, by decide⟩
  intro a ha
  simp only [exTaps, List.mem_cons, List.not_mem_nil, or_false] at ha
  rcases ha with rfl | rfl | rfl | rfl | rfl | rfl <;> decide

/-- A transposed layer (coarse 2 × 2 input, fine 2 × 4 output) meeting `TLayerOf`. -/
def exTLayer : Layer ℚ := { exLayer with nlonIn := 2, nlonOut := 4 }

example : TLayerOf exTLayer exTaps := by
  refine ⟨rfl, ?_, by decide, by decide, by decide⟩
  intro a ha
  simp only [exTaps, List.mem_cons, List.not_mem_nil, or_false] at ha
  rcases ha with rfl | rfl | rfl | rfl | rfl | rfl <;> decide

/-- The contraction at kernel 0, row 0, column 1 of the concrete case reads columns 3 and 1: `2 * 3 + 3 * 5`. -/
example : discoSum exTaps 4 2 exX.val 0 0 1 = 21 := by
  norm_num [discoSum, exTaps, exX, Tap.column]

end Verif.Props
