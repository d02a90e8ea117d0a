import Verif.Model.DistSHTGrad
import Verif.Spec.Gradient
import Verif.Props.DistSHT
/-!
The backward passes of the distributed transforms: tiles, and adjoints of the serial steps.
-/
namespace Verif.Props
open Verif Verif.Dist Verif.SHT Verif.FFT Verif.Spec Finset

/-! ### The transposes -/

theorem azimuthInBackward_eq {α : Type} (Pa n0 : ℕ) (g : ℕ → ℕ → Ten3 α) (p a : ℕ) : azimuthInBackward Pa n0 g p a = azimuthOut Pa g n0 p a := by
  unfold azimuthInBackward azimuthOut backTrans02 trans20 distTransposeBackward distTransposeForward
  split
  · cases computeSplitShapes n0 Pa with
    | error e => rfl
    | ok sh =>
      simp only [bind, Except.bind]
      cases transposeRank Pa (fun s => (view02 (g p s)).swap) sh a with
      | error e => rfl
      | ok y => rfl
  · rfl

theorem polarInBackward_eq {α : Type} (Pp n0 : ℕ) (g : ℕ → ℕ → Ten3 α) (p a : ℕ) : polarInBackward Pp n0 g p a = polarOut Pp g n0 p a := by
  unfold polarInBackward polarOut backTrans01 trans10 distTransposeBackward distTransposeForward
  split
  · cases computeSplitShapes n0 Pp with
    | error e => rfl
    | ok sh =>
      simp only [bind, Except.bind]
      cases transposeRank Pp (fun s => (view01 (g s a)).swap) sh p with
      | error e => rfl
      | ok y => rfl
  · rfl

theorem azimuthOutBackward_eq {α : Type} (Pa n0 : ℕ) (g : ℕ → ℕ → Ten3 α) (sh : List ℕ) (h : computeSplitShapes n0 Pa = .ok sh) (p a : ℕ) :
    azimuthOutBackward Pa n0 g p a = azimuthIn Pa g sh p a := by
  unfold azimuthOutBackward azimuthIn backTrans20 trans02 distTransposeBackward distTransposeForward
  split
  · rw [h]
    simp only [bind, Except.bind]
    have e : (fun s => (view02 (g p s)).swap.swap) = fun s => view02 (g p s) := rfl
    rw [e]
    cases transposeRank Pa (fun s => view02 (g p s)) sh a with
    | error e => rfl
    | ok y => rfl
  · rfl

theorem polarOutBackward_eq {α : Type} (Pp n0 : ℕ) (g : ℕ → ℕ → Ten3 α) (sh : List ℕ) (h : computeSplitShapes n0 Pp = .ok sh) (p a : ℕ) :
    polarOutBackward Pp n0 g p a = polarIn Pp g sh p a := by
  unfold polarOutBackward polarIn backTrans10 trans01 distTransposeBackward distTransposeForward
  split
  · rw [h]
    simp only [bind, Except.bind]
    have e : (fun s => (view01 (g s a)).swap.swap) = fun s => view01 (g s a) := rfl
    rw [e]
    cases transposeRank Pp (fun s => view01 (g s a)) sh p with
    | error e => rfl
    | ok y => rfl
  · rfl

theorem unpadBackward_part {α : Type} [Zero α] (lead : List ℕ) (n1 n2 Pp Pa N : ℕ) (X : List ℕ → ℕ → ℕ → α) (p a : ℕ) (g : LTen α)
    (hx : IsTile lead n1 n2 Pp Pa X p a g) : IsPart (whole N) ⟨n1, Pp, p⟩ ⟨n2, Pa, a⟩ (flatGlobal lead X) (unpadBackward N lead.prod g) := by
  obtain ⟨h0, h1, h2, h3⟩ := hx
  subst h0
  refine ⟨(whole_size _).symm, h1, h2, fun i hi j hj k hk => ?_⟩
  rw [whole_start, zero_add]
  unfold flatGlobal unpadBackward
  dsimp only
  split
  · next h => exact h3 _ ((leadIndex_valid _ _).2 (C55_unflatten_roundtrip g.lead i h).1) j hj k hk
  · rfl

/-! ### The passes -/

theorem analysisBackward_tile {α β γ : Type} [Zero α] [Zero γ] {Pp Pa nlat nlon L M : ℕ} (hf : Fits Pp Pa nlat nlon L M)
    (lmax mmax : ℕ → ℕ → ℕ) (GT : ℕ → ℕ → Ten3 γ → Ten3 β) (FT : ℕ → ℕ → Ten3 β → Ten3 α)
    (Gg : (ℕ → ℕ → ℕ → γ) → ℕ → ℕ → ℕ → β) (Fg : (ℕ → ℕ → ℕ → β) → ℕ → ℕ → ℕ → α)
    (h1 : ∀ p < Pp, ∀ a < Pa, lmax p a = L) (h2 : ∀ p < Pp, ∀ a < Pa, mmax p a = M)
    (hG : ∀ p < Pp, ∀ a < Pa, ∀ (c0 : Cut) (Z : ℕ → ℕ → ℕ → γ) x, IsPart c0 (whole L) ⟨M, Pa, a⟩ Z x →
      IsPart c0 (whole nlat) ⟨M, Pa, a⟩ (Gg Z) (GT p a x))
    (hF : ∀ p < Pp, ∀ a < Pa, ∀ (c0 c1 : Cut) (X : ℕ → ℕ → ℕ → β) x, IsPart c0 c1 (whole M) X x → IsPart c0 c1 (whole nlon) (Fg X) (FT p a x))
    (lead : List ℕ) (X : List ℕ → ℕ → ℕ → α) (x : ℕ → ℕ → LTen α) (hx : ∀ p < Pp, ∀ a < Pa, IsTile lead nlat nlon Pp Pa X p a (x p a))
    (Q : List ℕ → ℕ → ℕ → γ) (g : ℕ → ℕ → LTen γ) (hg : ∀ p < Pp, ∀ a < Pa, IsTile lead L M Pp Pa Q p a (g p a)) :
    ∃ y, analysisBackward Pp Pa lmax mmax GT FT x g = .ok y ∧
      ∀ p < Pp, ∀ a < Pa, IsTile lead nlat nlon Pp Pa (fun idx => Fg (Gg (flatGlobal lead Q)) (flatIndex lead idx)) p a (y p a) := by
  let N := max lead.prod (max Pp Pa)
  have hNp : Pp ≤ N := le_trans (le_max_left _ _) (le_max_right _ _)
  have hNa : Pa ≤ N := le_trans (le_max_right _ _) (le_max_right _ _)
  have hflat := fun p hp a ha => flattenPad_part lead nlat nlon Pp Pa (max Pp Pa) X p a (x p a) (hx p hp a ha)
  have hd0 : ∀ p < Pp, ∀ a < Pa, (flattenPad (x p a) (max Pp Pa)).1.d0 = N := fun p hp a ha => by
    rw [(hflat p hp a ha).2.1, whole_size]
  obtain ⟨shl, hshl⟩ := css_exists hf.degrees hf.polar
  obtain ⟨shm, hshm⟩ := css_exists hf.orders hf.azimuth
  have q0 : ∀ p < Pp, ∀ a < Pa, IsPart (whole N) ⟨L, Pp, p⟩ ⟨M, Pa, a⟩ (flatGlobal lead Q)
      (unpadBackward (flattenPad (x p a) (max Pp Pa)).1.d0 (flattenPad (x p a) (max Pp Pa)).2 (g p a)) := fun p hp a ha => by
    rw [hd0 p hp a ha, (hflat p hp a ha).1]
    exact unpadBackward_part lead L M Pp Pa N Q p a (g p a) (hg p hp a ha)
  obtain ⟨x1, hx1, q1⟩ := collect_ok hf.polar hf.azimuth (f := fun p a => polarOutBackward Pp (lmax p a) (fun p a =>
      unpadBackward (flattenPad (x p a) (max Pp Pa)).1.d0 (flattenPad (x p a) (max Pp Pa)).2 (g p a)) p a)
    fun p hp a ha => by
      rw [polarOutBackward_eq Pp _ _ shl (by rw [h1 p hp a ha]; exact hshl)]
      exact polarIn_part N L Pp Pa (fun a => ⟨M, Pa, a⟩) hf.polar hNp hf.degrees (flatGlobal lead Q) _ q0 _ hshl p hp a ha
  have q2 : ∀ p < Pp, ∀ a < Pa, IsPart ⟨N, Pp, p⟩ (whole nlat) ⟨M, Pa, a⟩ (Gg (flatGlobal lead Q)) (GT p a (x1 p a)) :=
    fun p hp a ha => hG p hp a ha _ _ _ (q1 p hp a ha).2
  obtain ⟨x3, hx3, q3⟩ := collect_ok hf.polar hf.azimuth
    (f := fun p a => polarInBackward Pp (flattenPad (x p a) (max Pp Pa)).1.d0 (fun p a => GT p a (x1 p a)) p a)
    fun p hp a ha => by
      rw [polarInBackward_eq, hd0 p hp a ha]
      exact polarOut_part N nlat Pp Pa (fun a => ⟨M, Pa, a⟩) hf.polar hNp hf.lat _ _ q2 p hp a ha
  obtain ⟨x4, hx4, q4⟩ := collect_ok hf.polar hf.azimuth (f := fun p a => azimuthOutBackward Pa (mmax p a) x3 p a)
    fun p hp a ha => by
      rw [azimuthOutBackward_eq Pa _ _ shm (by rw [h2 p hp a ha]; exact hshm)]
      exact azimuthIn_part N M Pp Pa (fun p => ⟨nlat, Pp, p⟩) hf.azimuth hNa hf.orders _ x3
        (fun p hp a ha => (q3 p hp a ha).2) _ hshm p hp a ha
  have q5 : ∀ p < Pp, ∀ a < Pa, IsPart ⟨N, Pa, a⟩ ⟨nlat, Pp, p⟩ (whole nlon) (Fg (Gg (flatGlobal lead Q))) (FT p a (x4 p a)) :=
    fun p hp a ha => hF p hp a ha _ _ _ _ (q4 p hp a ha).2
  obtain ⟨x6, hx6, q6⟩ := collect_ok hf.polar hf.azimuth
    (f := fun p a => azimuthInBackward Pa (flattenPad (x p a) (max Pp Pa)).1.d0 (fun p a => FT p a (x4 p a)) p a)
    fun p hp a ha => by
      rw [azimuthInBackward_eq, hd0 p hp a ha]
      exact azimuthOut_part N nlon Pp Pa (fun p => ⟨nlat, Pp, p⟩) hf.azimuth hNa hf.lon _ _ q5 p hp a ha
  obtain ⟨y, hy, qy⟩ := collect_ok hf.polar hf.azimuth
    (f := fun p a => padBackward (x6 p a) (x p a).lead (flattenPad (x p a) (max Pp Pa)).2)
    fun p hp a ha => by
      rw [(hx p hp a ha).1, (hflat p hp a ha).1]
      exact unpad_tile lead nlat nlon Pp Pa N (le_max_left _ _) _ p a (x6 p a) (q6 p hp a ha).2
  refine ⟨y, ?_, fun p hp a ha => (qy p hp a ha).2⟩
  unfold analysisBackward
  dsimp only
  rw [hx1, except_bind_ok, hx3, except_bind_ok, hx4, except_bind_ok, hx6, except_bind_ok, hy]

theorem synthesisBackward_tile {α β γ : Type} [Zero α] [Zero γ] {Pp Pa nlat nlon L M : ℕ} (hf : Fits Pp Pa nlat nlon L M)
    (lat lon : ℕ → ℕ → ℕ) (FT : ℕ → ℕ → Ten3 γ → Ten3 β) (GT : ℕ → ℕ → Ten3 β → Ten3 α)
    (Fg : (ℕ → ℕ → ℕ → γ) → ℕ → ℕ → ℕ → β) (Gg : (ℕ → ℕ → ℕ → β) → ℕ → ℕ → ℕ → α)
    (h1 : ∀ p < Pp, ∀ a < Pa, lat p a = nlat) (h2 : ∀ p < Pp, ∀ a < Pa, lon p a = nlon)
    (hF : ∀ p < Pp, ∀ a < Pa, ∀ (c0 c1 : Cut) (X : ℕ → ℕ → ℕ → γ) x, IsPart c0 c1 (whole nlon) X x → IsPart c0 c1 (whole M) (Fg X) (FT p a x))
    (hG : ∀ p < Pp, ∀ a < Pa, ∀ (c0 : Cut) (Z : ℕ → ℕ → ℕ → β) x, IsPart c0 (whole nlat) ⟨M, Pa, a⟩ Z x →
      IsPart c0 (whole L) ⟨M, Pa, a⟩ (Gg Z) (GT p a x))
    (lead : List ℕ) (X : List ℕ → ℕ → ℕ → α) (x : ℕ → ℕ → LTen α) (hx : ∀ p < Pp, ∀ a < Pa, IsTile lead L M Pp Pa X p a (x p a))
    (Q : List ℕ → ℕ → ℕ → γ) (g : ℕ → ℕ → LTen γ) (hg : ∀ p < Pp, ∀ a < Pa, IsTile lead nlat nlon Pp Pa Q p a (g p a)) :
    ∃ y, synthesisBackward Pp Pa lat lon FT GT x g = .ok y ∧
      ∀ p < Pp, ∀ a < Pa, IsTile lead L M Pp Pa (fun idx => Gg (Fg (flatGlobal lead Q)) (flatIndex lead idx)) p a (y p a) := by
  let N := max lead.prod (max Pp Pa)
  have hNp : Pp ≤ N := le_trans (le_max_left _ _) (le_max_right _ _)
  have hNa : Pa ≤ N := le_trans (le_max_right _ _) (le_max_right _ _)
  have hflat := fun p hp a ha => flattenPad_part lead L M Pp Pa (max Pp Pa) X p a (x p a) (hx p hp a ha)
  have hd0 : ∀ p < Pp, ∀ a < Pa, (flattenPad (x p a) (max Pp Pa)).1.d0 = N := fun p hp a ha => by
    rw [(hflat p hp a ha).2.1, whole_size]
  obtain ⟨sha, hsha⟩ := css_exists hf.lat hf.polar
  obtain ⟨sho, hsho⟩ := css_exists hf.lon hf.azimuth
  have q0 : ∀ p < Pp, ∀ a < Pa, IsPart (whole N) ⟨nlat, Pp, p⟩ ⟨nlon, Pa, a⟩ (flatGlobal lead Q)
      (unpadBackward (flattenPad (x p a) (max Pp Pa)).1.d0 (flattenPad (x p a) (max Pp Pa)).2 (g p a)) := fun p hp a ha => by
    rw [hd0 p hp a ha, (hflat p hp a ha).1]
    exact unpadBackward_part lead nlat nlon Pp Pa N Q p a (g p a) (hg p hp a ha)
  obtain ⟨x1, hx1, q1⟩ := collect_ok hf.polar hf.azimuth (f := fun p a => azimuthOutBackward Pa (lon p a) (fun p a =>
      unpadBackward (flattenPad (x p a) (max Pp Pa)).1.d0 (flattenPad (x p a) (max Pp Pa)).2 (g p a)) p a)
    fun p hp a ha => by
      rw [azimuthOutBackward_eq Pa _ _ sho (by rw [h2 p hp a ha]; exact hsho)]
      exact azimuthIn_part N nlon Pp Pa (fun p => ⟨nlat, Pp, p⟩) hf.azimuth hNa hf.lon (flatGlobal lead Q) _ q0 _ hsho p hp a ha
  have q2 : ∀ p < Pp, ∀ a < Pa, IsPart ⟨N, Pa, a⟩ ⟨nlat, Pp, p⟩ (whole M) (Fg (flatGlobal lead Q)) (FT p a (x1 p a)) :=
    fun p hp a ha => hF p hp a ha _ _ _ _ (q1 p hp a ha).2
  obtain ⟨x3, hx3, q3⟩ := collect_ok hf.polar hf.azimuth
    (f := fun p a => azimuthInBackward Pa (flattenPad (x p a) (max Pp Pa)).1.d0 (fun p a => FT p a (x1 p a)) p a)
    fun p hp a ha => by
      rw [azimuthInBackward_eq, hd0 p hp a ha]
      exact azimuthOut_part N M Pp Pa (fun p => ⟨nlat, Pp, p⟩) hf.azimuth hNa hf.orders _ _ q2 p hp a ha
  obtain ⟨x4, hx4, q4⟩ := collect_ok hf.polar hf.azimuth (f := fun p a => polarOutBackward Pp (lat p a) x3 p a)
    fun p hp a ha => by
      rw [polarOutBackward_eq Pp _ _ sha (by rw [h1 p hp a ha]; exact hsha)]
      exact polarIn_part N nlat Pp Pa (fun a => ⟨M, Pa, a⟩) hf.polar hNp hf.lat _ x3
        (fun p hp a ha => (q3 p hp a ha).2) _ hsha p hp a ha
  have q5 : ∀ p < Pp, ∀ a < Pa, IsPart ⟨N, Pp, p⟩ (whole L) ⟨M, Pa, a⟩ (Gg (Fg (flatGlobal lead Q))) (GT p a (x4 p a)) :=
    fun p hp a ha => hG p hp a ha _ _ _ (q4 p hp a ha).2
  obtain ⟨x6, hx6, q6⟩ := collect_ok hf.polar hf.azimuth
    (f := fun p a => polarInBackward Pp (flattenPad (x p a) (max Pp Pa)).1.d0 (fun p a => GT p a (x4 p a)) p a)
    fun p hp a ha => by
      rw [polarInBackward_eq, hd0 p hp a ha]
      exact polarOut_part N L Pp Pa (fun a => ⟨M, Pa, a⟩) hf.polar hNp hf.degrees _ _ q5 p hp a ha
  obtain ⟨y, hy, qy⟩ := collect_ok hf.polar hf.azimuth
    (f := fun p a => padBackward (x6 p a) (x p a).lead (flattenPad (x p a) (max Pp Pa)).2)
    fun p hp a ha => by
      rw [(hx p hp a ha).1, (hflat p hp a ha).1]
      exact unpad_tile lead L M Pp Pa N (le_max_left _ _) _ p a (x6 p a) (q6 p hp a ha).2
  refine ⟨y, ?_, fun p hp a ha => (qy p hp a ha).2⟩
  unfold synthesisBackward
  dsimp only
  rw [hx1, except_bind_ok, hx3, except_bind_ok, hx4, except_bind_ok, hx6, except_bind_ok, hy]

/-! ### The local steps on global tensors -/

/-- see `localRfftBackward` -/
noncomputable def rfftT (M nlon : ℕ) (Z : ℕ → ℕ → ℕ → ℂ) (c k j : ℕ) : ℝ :=
  2 * Real.pi * ((1 / nlon : ℝ) * ∑ m ∈ range M, if m ≤ nlon / 2 then
    (Z c k m).re * Real.cos (2 * Real.pi * j * m / nlon) - (Z c k m).im * Real.sin (2 * Real.pi * j * m / nlon) else 0)

/-- see `localIrfftBackward` -/
noncomputable def irfftT (nlon : ℕ) (G : ℕ → ℕ → ℕ → ℝ) (c k m : ℕ) : ℂ :=
  if m ≤ nlon / 2 then
    if m = 0 ∨ 2 * m = nlon then ⟨∑ j ∈ range nlon, G c k j * Real.cos (2 * Real.pi * j * m / nlon), 0⟩
    else ⟨2 * ∑ j ∈ range nlon, G c k j * Real.cos (2 * Real.pi * j * m / nlon),
      -(2 * ∑ j ∈ range nlon, G c k j * Real.sin (2 * Real.pi * j * m / nlon))⟩
  else 0

/-- see `localLegendreBackward` -/
noncomputable def legT (L : ℕ) (W : ℕ → ℕ → ℕ → ℝ) (G : ℕ → ℕ → ℕ → ℂ) (c k m : ℕ) : ℂ :=
  ⟨∑ l ∈ range L, (G c l m).re * W m l k, ∑ l ∈ range L, (G c l m).im * W m l k⟩

/-- see `localVectorLegendreBackward` -/
noncomputable def vlegT (L : ℕ) (w0 w1 : ℕ → ℕ → ℕ → ℝ) (G : ℕ → ℕ → ℕ → ℂ × ℂ) (c k m : ℕ) : ℂ × ℂ :=
  (⟨∑ l ∈ range L, (G c l m).1.re * w0 m l k + ∑ l ∈ range L, (G c l m).2.im * w1 m l k,
      ∑ l ∈ range L, (G c l m).1.im * w0 m l k - ∑ l ∈ range L, (G c l m).2.re * w1 m l k⟩,
     ⟨∑ l ∈ range L, (G c l m).1.im * w1 m l k - ∑ l ∈ range L, (G c l m).2.re * w0 m l k,
      -∑ l ∈ range L, (G c l m).1.re * w1 m l k - ∑ l ∈ range L, (G c l m).2.im * w0 m l k⟩)

/-- see `localRfft2Backward` -/
noncomputable def rfftT2 (M nlon : ℕ) (Z : ℕ → ℕ → ℕ → ℂ × ℂ) (c k j : ℕ) : ℝ × ℝ :=
  (rfftT M nlon (fun c k m => (Z c k m).1) c k j, rfftT M nlon (fun c k m => (Z c k m).2) c k j)

/-- see `localIrfft2Backward` -/
noncomputable def irfftT2 (nlon : ℕ) (G : ℕ → ℕ → ℕ → ℝ × ℝ) (c k m : ℕ) : ℂ × ℂ :=
  (irfftT nlon (fun c k j => (G c k j).1) c k m, irfftT nlon (fun c k j => (G c k j).2) c k m)

theorem localRfftBackward_part (M nlon : ℕ) (c0 c1 : Cut) (Z : ℕ → ℕ → ℕ → ℂ) (g : Ten3 ℂ) (hg : IsPart c0 c1 (whole M) Z g) :
    IsPart c0 c1 (whole nlon) (rfftT M nlon Z) (localRfftBackward nlon g) := by
  obtain ⟨h0, h1, h2, h3⟩ := hg
  rw [whole_size] at h2 h3
  refine ⟨h0, h1, (whole_size _).symm, fun i hi k hk j _ => ?_⟩
  rw [whole_start, zero_add]
  unfold localRfftBackward rfftT
  dsimp only
  rw [h2]
  congr 2
  refine sum_congr rfl fun m hm => ?_
  have := h3 i hi k hk m (mem_range.1 hm)
  rw [whole_start, zero_add] at this
  rw [this]

theorem localIrfftBackward_part (M nlon : ℕ) (c0 c1 : Cut) (G : ℕ → ℕ → ℕ → ℝ) (g : Ten3 ℝ) (hg : IsPart c0 c1 (whole nlon) G g) :
    IsPart c0 c1 (whole M) (irfftT nlon G) (localIrfftBackward M g) := by
  obtain ⟨h0, h1, h2, h3⟩ := hg
  rw [whole_size] at h2 h3
  refine ⟨h0, h1, (whole_size _).symm, fun i hi k hk m _ => ?_⟩
  rw [whole_start, zero_add]
  have e : ∀ F : ℕ → ℝ, ∑ j ∈ range nlon, g.val i k j * F j = ∑ j ∈ range nlon, G (c0.start + i) (c1.start + k) j * F j := fun F =>
    sum_congr rfl fun j hj => by
      have := h3 i hi k hk j (mem_range.1 hj)
      rw [whole_start, zero_add] at this
      rw [this]
  unfold localIrfftBackward irfftT
  dsimp only
  rw [h2, e fun j => Real.cos (2 * Real.pi * j * m / nlon), e fun j => Real.sin (2 * Real.pi * j * m / nlon)]

theorem localLegendreBackward_part (L n : ℕ) (c0 c2 : Cut) (W w : ℕ → ℕ → ℕ → ℝ) (hw : ∀ m, w m = W (c2.start + m))
    (G : ℕ → ℕ → ℕ → ℂ) (g : Ten3 ℂ) (hg : IsPart c0 (whole L) c2 G g) :
    IsPart c0 (whole n) c2 (legT L W G) (localLegendreBackward n w g) := by
  obtain ⟨h0, h1, h2, h3⟩ := hg
  rw [whole_size] at h1 h3
  refine ⟨h0, (whole_size _).symm, h2, fun i hi k _ m hm => ?_⟩
  rw [whole_start, zero_add]
  have e : ∀ F : ℂ → ℕ → ℝ, ∑ l ∈ range L, F (g.val i l m) l = ∑ l ∈ range L, F (G (c0.start + i) l (c2.start + m)) l := fun F =>
    sum_congr rfl fun l hl => by
      have := h3 i hi l (mem_range.1 hl) m hm
      rw [whole_start, zero_add] at this
      rw [this]
  unfold localLegendreBackward legT
  dsimp only
  rw [h1, hw m, e fun z l => z.re * W (c2.start + m) l k, e fun z l => z.im * W (c2.start + m) l k]

theorem localVectorLegendreBackward_part (L n : ℕ) (c0 c2 : Cut) (W0 W1 w0 w1 : ℕ → ℕ → ℕ → ℝ) (hw0 : ∀ m, w0 m = W0 (c2.start + m))
    (hw1 : ∀ m, w1 m = W1 (c2.start + m)) (G : ℕ → ℕ → ℕ → ℂ × ℂ) (g : Ten3 (ℂ × ℂ)) (hg : IsPart c0 (whole L) c2 G g) :
    IsPart c0 (whole n) c2 (vlegT L W0 W1 G) (localVectorLegendreBackward n w0 w1 g) := by
  obtain ⟨h0, h1, h2, h3⟩ := hg
  rw [whole_size] at h1 h3
  refine ⟨h0, (whole_size _).symm, h2, fun i hi k _ m hm => ?_⟩
  rw [whole_start, zero_add]
  have e : ∀ F : ℂ × ℂ → ℕ → ℝ, ∑ l ∈ range L, F (g.val i l m) l = ∑ l ∈ range L, F (G (c0.start + i) l (c2.start + m)) l := fun F =>
    sum_congr rfl fun l hl => by
      have := h3 i hi l (mem_range.1 hl) m hm
      rw [whole_start, zero_add] at this
      rw [this]
  unfold localVectorLegendreBackward vlegT
  dsimp only
  rw [h1, hw0 m, hw1 m, e fun z l => z.1.re * W0 (c2.start + m) l k, e fun z l => z.2.im * W1 (c2.start + m) l k,
    e fun z l => z.1.im * W0 (c2.start + m) l k, e fun z l => z.2.re * W1 (c2.start + m) l k,
    e fun z l => z.1.im * W1 (c2.start + m) l k, e fun z l => z.2.re * W0 (c2.start + m) l k,
    e fun z l => z.1.re * W1 (c2.start + m) l k, e fun z l => z.2.im * W0 (c2.start + m) l k]

theorem localRfft2Backward_part (M nlon : ℕ) (c0 c1 : Cut) (Z : ℕ → ℕ → ℕ → ℂ × ℂ) (g : Ten3 (ℂ × ℂ)) (hg : IsPart c0 c1 (whole M) Z g) :
    IsPart c0 c1 (whole nlon) (rfftT2 M nlon Z) (localRfft2Backward nlon g) :=
  stack_part (localRfftBackward_part M nlon c0 c1 _ _ (fst_part hg)) (localRfftBackward_part M nlon c0 c1 _ _ (snd_part hg))

theorem localIrfft2Backward_part (M nlon : ℕ) (c0 c1 : Cut) (G : ℕ → ℕ → ℕ → ℝ × ℝ) (g : Ten3 (ℝ × ℝ)) (hg : IsPart c0 c1 (whole nlon) G g) :
    IsPart c0 c1 (whole M) (irfftT2 nlon G) (localIrfft2Backward M g) :=
  stack_part (localIrfftBackward_part M nlon c0 c1 _ _ (fst_part hg)) (localIrfftBackward_part M nlon c0 c1 _ _ (snd_part hg))

/-! ### Adjoints -/

theorem dft_parts (n : ℕ) (x : ℕ → ℝ) (m : ℕ) : (dft n x m).re = ∑ j ∈ range n, x j * Real.cos (2 * Real.pi * j * m / n) ∧
    (dft n x m).im = -∑ j ∈ range n, x j * Real.sin (2 * Real.pi * j * m / n) := by
  have e : ∀ j : ℕ, Complex.exp (-(2 * Real.pi * Complex.I * j * m / n)) = Complex.exp (((-(2 * Real.pi * j * m / n) : ℝ) : ℂ) * Complex.I) := fun j => by
    congr 1; push_cast; ring
  unfold dft
  constructor
  · rw [Complex.re_sum]
    exact sum_congr rfl fun j _ => by rw [e, Complex.re_ofReal_mul, Complex.exp_ofReal_mul_I_re, Real.cos_neg]
  · rw [Complex.im_sum, ← sum_neg_distrib]
    exact sum_congr rfl fun j _ => by rw [e, Complex.im_ofReal_mul, Complex.exp_ofReal_mul_I_im, Real.sin_neg]; ring

theorem leg_pair (n L M : ℕ) (W : ℕ → ℕ → ℕ → ℝ) (z g : ℕ → ℕ → ℝ) :
    ∑ l ∈ range L, ∑ m ∈ range M, (∑ k ∈ range n, z k m * W m l k) * g l m = ∑ k ∈ range n, ∑ m ∈ range M, z k m * ∑ l ∈ range L, g l m * W m l k := by
  simp_rw [sum_mul, mul_sum]
  rw [sum_comm]
  rw [sum_comm (s := range n)]
  refine sum_congr rfl fun m _ => ?_
  rw [sum_comm]
  exact sum_congr rfl fun k _ => sum_congr rfl fun l _ => by ring

theorem leg_adjoint (n L M : ℕ) (W : ℕ → ℕ → ℕ → ℝ) (Z G : ℕ → ℕ → ℕ → ℂ) (c d : ℕ) :
    pairC L M (legG n W Z c) (G d) = pairC n M (Z c) (legT L W G d) := by
  unfold pairC legG legT
  simp only [sum_add_distrib]
  rw [leg_pair n L M W (fun k m => (Z c k m).re) (fun l m => (G d l m).re), leg_pair n L M W (fun k m => (Z c k m).im) (fun l m => (G d l m).im)]

theorem vleg_adjoint (n L M : ℕ) (w0 w1 : ℕ → ℕ → ℕ → ℝ) (Z G : ℕ → ℕ → ℕ → ℂ × ℂ) (c d : ℕ) :
    pairC2 L M (vlegG n w0 w1 Z c) (G d) = pairC2 n M (Z c) (vlegT L w0 w1 G d) := by
  unfold pairC2 pairC vlegG vlegT
  simp only [sum_add_distrib, add_mul, sub_mul, mul_add, mul_sub, sum_sub_distrib, neg_mul, mul_neg, sum_neg_distrib]
  rw [leg_pair n L M w0 (fun k m => (Z c k m).1.re) (fun l m => (G d l m).1.re), leg_pair n L M w1 (fun k m => (Z c k m).2.im) (fun l m => (G d l m).1.re),
    leg_pair n L M w0 (fun k m => (Z c k m).1.im) (fun l m => (G d l m).1.im), leg_pair n L M w1 (fun k m => (Z c k m).2.re) (fun l m => (G d l m).1.im),
    leg_pair n L M w1 (fun k m => (Z c k m).1.im) (fun l m => (G d l m).2.re), leg_pair n L M w0 (fun k m => (Z c k m).2.re) (fun l m => (G d l m).2.re),
    leg_pair n L M w1 (fun k m => (Z c k m).1.re) (fun l m => (G d l m).2.im), leg_pair n L M w0 (fun k m => (Z c k m).2.im) (fun l m => (G d l m).2.im)]
  ring

theorem rfft_adjoint (n1 M nlon : ℕ) (X : ℕ → ℕ → ℕ → ℝ) (Z : ℕ → ℕ → ℕ → ℂ) (c d : ℕ) :
    pairC n1 M (rfftG nlon X c) (Z d) = pairR n1 nlon (X c) (rfftT M nlon Z d) := by
  unfold pairC pairR
  refine sum_congr rfl fun k _ => ?_
  have e : ∀ m, (rfftG nlon X c k m).re * (Z d k m).re + (rfftG nlon X c k m).im * (Z d k m).im =
      ∑ j ∈ range nlon, X c k j * (2 * Real.pi * ((1 / nlon : ℝ) * if m ≤ nlon / 2 then
        (Z d k m).re * Real.cos (2 * Real.pi * j * m / nlon) - (Z d k m).im * Real.sin (2 * Real.pi * j * m / nlon) else 0)) := fun m => by
    unfold rfftG
    by_cases h : m ≤ nlon / 2
    · simp only [if_pos h]
      have e2 : (2 * Real.pi * ((1 / nlon : ℂ) * dft nlon (X c k) m) : ℂ) = ((2 * Real.pi * (1 / nlon) : ℝ) : ℂ) * dft nlon (X c k) m := by
        push_cast; ring
      rw [e2, Complex.re_ofReal_mul, Complex.im_ofReal_mul, (dft_parts nlon (X c k) m).1, (dft_parts nlon (X c k) m).2, mul_neg, neg_mul, ← sub_eq_add_neg,
        mul_sum, mul_sum, sum_mul, sum_mul, ← sum_sub_distrib]
      exact sum_congr rfl fun j _ => by ring
    · simp only [if_neg h]
      simp
  rw [sum_congr rfl fun m _ => e m, sum_comm]
  refine sum_congr rfl fun j _ => ?_
  unfold rfftT
  rw [mul_sum, mul_sum, mul_sum]

theorem irfft_adjoint (n1 M nlon : ℕ) (Z : ℕ → ℕ → ℕ → ℂ) (G : ℕ → ℕ → ℕ → ℝ) (c d : ℕ) :
    pairR n1 nlon (irfftG M nlon Z c) (G d) = pairC n1 M (Z c) (irfftT nlon G d) := by
  unfold pairC pairR
  refine sum_congr rfl fun k _ => ?_
  have e : ∀ m, (if m < M then (Z c k m).re * (irfftT nlon G d k m).re + (Z c k m).im * (irfftT nlon G d k m).im else 0) =
      if m < M ∧ m < nlon / 2 + 1 then ∑ j ∈ range nlon, (if m = 0 ∨ 2 * m = nlon then 1 else 2) *
        ((if m = 0 ∨ 2 * m = nlon then ((Z c k m).re : ℂ) else Z c k m).re * Real.cos (2 * Real.pi * j * m / nlon) -
          (if m = 0 ∨ 2 * m = nlon then ((Z c k m).re : ℂ) else Z c k m).im * Real.sin (2 * Real.pi * j * m / nlon)) * G d k j else 0 := fun m => by
    by_cases h1 : m < M
    · by_cases h2 : m ≤ nlon / 2
      · rw [if_pos h1, if_pos ⟨h1, by omega⟩]
        unfold irfftT
        rw [if_pos h2]
        by_cases h3 : m = 0 ∨ 2 * m = nlon
        · simp only [if_pos h3, Complex.ofReal_re, Complex.ofReal_im, mul_zero, zero_mul, add_zero, sub_zero, one_mul, mul_sum]
          exact sum_congr rfl fun j _ => by ring
        · simp only [if_neg h3, mul_neg, mul_sum]
          rw [← sub_eq_add_neg, ← sum_sub_distrib]
          exact sum_congr rfl fun j _ => by ring
      · rw [if_pos h1, if_neg (by omega)]
        unfold irfftT
        rw [if_neg h2]
        simp
    · rw [if_neg h1, if_neg (by omega)]
  have e1 : ∑ m ∈ range M, ((Z c k m).re * (irfftT nlon G d k m).re + (Z c k m).im * (irfftT nlon G d k m).im) =
      ∑ m ∈ range (M + (nlon / 2 + 1)), if m < M then (Z c k m).re * (irfftT nlon G d k m).re + (Z c k m).im * (irfftT nlon G d k m).im else 0 := by
    rw [← sum_filter]
    refine sum_congr ?_ fun _ _ => rfl
    ext m; simp only [mem_range, mem_filter]; omega
  rw [e1, sum_congr rfl fun m _ => e m]
  have e3 : ∀ j, irfftG M nlon Z c k j * G d k j = ∑ m ∈ range (M + (nlon / 2 + 1)), if m < M ∧ m < nlon / 2 + 1 then
      (if m = 0 ∨ 2 * m = nlon then 1 else 2) * ((if m = 0 ∨ 2 * m = nlon then ((Z c k m).re : ℂ) else Z c k m).re * Real.cos (2 * Real.pi * j * m / nlon) -
          (if m = 0 ∨ 2 * m = nlon then ((Z c k m).re : ℂ) else Z c k m).im * Real.sin (2 * Real.pi * j * m / nlon)) * G d k j else 0 := fun j => by
    unfold irfftG synth
    rw [sum_mul, ← sum_filter]
    have hs : (range (M + (nlon / 2 + 1))).filter (fun m => m < M ∧ m < nlon / 2 + 1) = (range (nlon / 2 + 1)).filter (fun m => m < M) := by
      ext m; simp only [mem_range, mem_filter]; omega
    rw [hs, sum_filter]
    refine sum_congr rfl fun m _ => ?_
    by_cases h1 : m < M
    · simp only [if_pos h1]
    · simp only [if_neg h1]
      simp
  rw [sum_congr rfl fun j _ => e3 j, sum_comm]
  refine sum_congr rfl fun m _ => ?_
  split
  · rfl
  · simp

theorem rfft2_adjoint (n1 M nlon : ℕ) (X : ℕ → ℕ → ℕ → ℝ × ℝ) (Z : ℕ → ℕ → ℕ → ℂ × ℂ) (c d : ℕ) :
    pairC2 n1 M (rfftG2 nlon X c) (Z d) = pairR2 n1 nlon (X c) (rfftT2 M nlon Z d) :=
  congrArg₂ (· + ·) (rfft_adjoint n1 M nlon (fun c k j => (X c k j).1) (fun c k m => (Z c k m).1) c d)
    (rfft_adjoint n1 M nlon (fun c k j => (X c k j).2) (fun c k m => (Z c k m).2) c d)

theorem irfft2_adjoint (n1 M nlon : ℕ) (Z : ℕ → ℕ → ℕ → ℂ × ℂ) (G : ℕ → ℕ → ℕ → ℝ × ℝ) (c d : ℕ) :
    pairR2 n1 nlon (irfftG2 M nlon Z c) (G d) = pairC2 n1 M (Z c) (irfftT2 nlon G d) :=
  congrArg₂ (· + ·) (irfft_adjoint n1 M nlon (fun c k m => (Z c k m).1) (fun c k j => (G c k j).1) c d)
    (irfft_adjoint n1 M nlon (fun c k m => (Z c k m).2) (fun c k j => (G c k j).2) c d)

end Verif.Props
