import Verif.Model.DistQuadGrad
import Verif.Spec.Gradient
import Verif.Lemmas.DistSHTGrad
import Verif.Props.DistQuadrature
import Verif.Props.DistSHTGrad
import Verif.Props.MessagesQuad
/-!
Property theorems C106: the backward passes of distributed quadrature and resampling.
-/
namespace Verif.Props
open Verif Verif.Msg Verif.Spec.Msg Verif.Dist Verif.SHT Verif.Quad Verif.Resample Verif.Spec Finset

/-! ### Quadrature -/

/-- C106. If all ranks pass the same gradient `γ` of the result to the backward pass, every rank obtains its tile of the array `V`, which is the
gradient of the serial module: `γ * quad(f) = <f, V>` for every global field `f`. -/
theorem C106_quadrature (gauss : ℕ → Rule) (hg : ∀ n, (gauss n).n = n) (tol : ℝ) (maxiter nlat nlon : ℕ) (grid : String) (nz : Bool)
    (hgrid : grid ≠ "equiangular-trapezoidal") (r : Rule) (hr : quadratureS2Rule gauss tol maxiter nlat grid = .ok r) (Pp Pa : ℕ)
    (hp : 0 < Pp) (ha : 0 < Pa) (hlat : Pp ≤ nlat) (hlon : Pa ≤ nlon) (w : ℕ → ℕ → Mat ℝ)
    (hw : ∀ p < Pp, ∀ a < Pa, dquadInit gauss tol maxiter nlat nlon grid nz Pp Pa p a = .ok (w p a))
    (γ : ℝ) (g : ℕ → ℕ → ℝ) (hγ : ∀ p < Pp, ∀ a < Pa, g p a = γ) :
    ∃ V : ℕ → ℕ → ℝ, (∀ f, quadForward r nlon nz f * γ = pairR nlat nlon f V) ∧
      ∀ p < Pp, ∀ a < Pa, IsFieldTile nlat nlon Pp Pa V p a (dquadBackward Pp Pa w g p a) := by
  have hn : r.n = nlat := by
    refine rule_size gauss hg tol maxiter nlat grid r ?_
    unfold quadratureS2Rule at hr
    unfold distQuadratureRule
    split_ifs at hr ⊢ <;> exact hr
  refine ⟨fun k _ => γ * quadWeight r nlon nz k, fun f => ?_, fun p hp' a ha' => ?_⟩
  · unfold quadForward pairR
    rw [hn, sum_mul]
    refine sum_congr rfl fun k _ => ?_
    rw [sum_mul]
    exact sum_congr rfl fun j _ => by ring
  · obtain ⟨w', h1, h2, h3, h4⟩ := C54_quadrature_init gauss hg tol maxiter nlat nlon grid nz hgrid r hr Pp Pa hp ha hlat hlon p a hp' ha'
    rw [hw p hp' a ha'] at h1
    cases h1
    refine ⟨h2, h3, fun k hk j hj => ?_⟩
    unfold dquadBackward reduceFromBackward
    simp only [ite_self, hγ p hp' a ha']
    rw [h4 k hk j hj]

/-- A 3 by 4 equiangular grid on a 2 by 3 process grid. -/
example (tol : ℝ) (γ : ℝ) : ∃ (r : Rule) (w : ℕ → ℕ → Mat ℝ) (V : ℕ → ℕ → ℝ),
    quadratureS2Rule (fun n => ⟨n, fun _ => 0, fun _ => 0⟩) tol 100 3 "equiangular" = .ok r ∧
      (∀ f, quadForward r 4 true f * γ = pairR 3 4 f V) ∧ ∀ p < 2, ∀ a < 3, IsFieldTile 3 4 2 3 V p a (dquadBackward 2 3 w (fun _ _ => γ) p a) := by
  obtain ⟨r, hr⟩ : ∃ r, quadratureS2Rule (fun n => ⟨n, fun _ => 0, fun _ => 0⟩) tol 100 3 "equiangular" = .ok r := by
    unfold quadratureS2Rule clenshawCurtissWeights
    rw [if_neg (by decide), if_neg (by decide), if_pos rfl, if_neg (by omega)]
    exact ⟨_, rfl⟩
  have hw : ∀ p a, ∃ w, p < 2 → a < 3 → dquadInit (fun n => ⟨n, fun _ => 0, fun _ => 0⟩) tol 100 3 4 "equiangular" true 2 3 p a = .ok w := fun p a => by
    by_cases h : p < 2 ∧ a < 3
    · obtain ⟨w, hw, _⟩ := C54_quadrature_init (fun n => ⟨n, fun _ => 0, fun _ => 0⟩) (fun _ => rfl) tol 100 3 4 "equiangular" true (by decide) r hr
        2 3 (by omega) (by omega) (by omega) (by omega) p a h.1 h.2
      exact ⟨w, fun _ _ => hw⟩
    · exact ⟨⟨0, 0, fun _ _ => 0⟩, fun h1 h2 => absurd ⟨h1, h2⟩ h⟩
  choose w hw using hw
  obtain ⟨V, h1, h2⟩ := C106_quadrature (fun n => ⟨n, fun _ => 0, fun _ => 0⟩) (fun _ => rfl) tol 100 3 4 "equiangular" true (by decide) r hr
    2 3 (by omega) (by omega) (by omega) (by omega) w (fun p hp a ha => hw p a hp ha) γ (fun _ _ => γ) (fun _ _ _ _ => rfl)
  exact ⟨r, w, V, hr, h1, h2⟩

/-! ### Resampling -/

/-- Adjoint of `latG`. -/
noncomputable def latT (R : Resampler) (n1 : ℕ) (G : ℕ → ℕ → ℕ → ℝ) (c k j : ℕ) : ℝ :=
  ∑ i ∈ range R.nlatOut, ((if k = wrap (R.latIdx i) n1 then (1 - R.latW i) * G c i j else 0) +
    if k = wrap (R.latIdx i + 1) n1 then R.latW i * G c i j else 0)

/-- Adjoint of `lonG`. -/
noncomputable def lonT (R : Resampler) (n2 : ℕ) (G : ℕ → ℕ → ℕ → ℝ) (c i k : ℕ) : ℝ :=
  ∑ j ∈ range R.nlonOut, ((if k = wrap (R.lonL j) n2 then (1 - R.lonW j) * G c i j else 0) +
    if k = wrap (R.lonR j) n2 then R.lonW j * G c i j else 0)

/-- Adjoint of `poleG`. -/
noncomputable def poleT (n1 n2 : ℕ) (G : ℕ → ℕ → ℕ → ℝ) (c i j : ℕ) : ℝ :=
  G c (i + 1) j + (if i = 0 then (∑ j' ∈ range n2, G c 0 j') / n2 else 0) + if i + 1 = n1 then (∑ j' ∈ range n2, G c (n1 + 1) j') / n2 else 0

theorem pick_two (n a b : ℕ) (ha : a < n) (hb : b < n) (x : ℕ → ℝ) (u v : ℝ) :
    ∑ k ∈ range n, x k * ((if k = a then u else 0) + if k = b then v else 0) = x a * u + x b * v := by
  simp_rw [mul_add, mul_ite, mul_zero]
  rw [sum_add_distrib, sum_ite_eq' (range n) a, sum_ite_eq' (range n) b, if_pos (mem_range.2 ha), if_pos (mem_range.2 hb)]

theorem lat_adjoint (R : Resampler) (hb : R.spherical = false) (n1 n2 : ℕ)
    (hi : ∀ i < R.nlatOut, inBounds (R.latIdx i) n1 ∧ inBounds (R.latIdx i + 1) n1) (X G : ℕ → ℕ → ℕ → ℝ) (c d : ℕ) :
    pairR R.nlatOut n2 (latG R n1 X c) (G d) = pairR n1 n2 (X c) (latT R n1 G d) := by
  unfold pairR latT
  simp_rw [mul_sum]
  rw [sum_comm (s := range R.nlatOut), sum_comm (s := range n1)]
  refine sum_congr rfl fun j _ => ?_
  rw [sum_comm (s := range n1)]
  refine sum_congr rfl fun i h => ?_
  rw [pick_two n1 _ _ (wrap_lt (hi i (mem_range.1 h)).1) (wrap_lt (hi i (mem_range.1 h)).2) (fun k => X c k j)]
  unfold latG interp lerp
  rw [hb]
  simp only [Bool.false_eq_true, if_false]
  ring

theorem lon_adjoint (R : Resampler) (hb : R.spherical = false) (n1 n2 : ℕ)
    (hi : ∀ j < R.nlonOut, inBounds (R.lonL j) n2 ∧ inBounds (R.lonR j) n2) (X G : ℕ → ℕ → ℕ → ℝ) (c d : ℕ) :
    pairR n1 R.nlonOut (lonG R n2 X c) (G d) = pairR n1 n2 (X c) (lonT R n2 G d) := by
  unfold pairR lonT
  refine sum_congr rfl fun i _ => ?_
  simp_rw [mul_sum]
  rw [sum_comm (s := range n2)]
  refine sum_congr rfl fun j h => ?_
  rw [pick_two n2 _ _ (wrap_lt (hi j (mem_range.1 h)).1) (wrap_lt (hi j (mem_range.1 h)).2) (fun k => X c i k)]
  unfold lonG interp lerp
  rw [hb]
  simp only [Bool.false_eq_true, if_false]
  ring

theorem pole_adjoint (n1 n2 : ℕ) (h1 : 0 < n1) (X G : ℕ → ℕ → ℕ → ℝ) (c d : ℕ) :
    pairR (n1 + 2) n2 (poleG n1 n2 X c) (G d) = pairR n1 n2 (X c) (poleT n1 n2 G d) := by
  have hl : pairR (n1 + 2) n2 (poleG n1 n2 X c) (G d) = ∑ i ∈ range n1, ∑ j ∈ range n2, X c i j * G d (i + 1) j +
      (∑ j ∈ range n2, X c 0 j) / n2 * ∑ j ∈ range n2, G d 0 j + (∑ j ∈ range n2, X c (n1 - 1) j) / n2 * ∑ j ∈ range n2, G d (n1 + 1) j := by
    unfold pairR
    rw [sum_range_succ, sum_range_succ']
    congr 1
    · congr 1
      · refine sum_congr rfl fun i hi => sum_congr rfl fun j _ => ?_
        have := mem_range.1 hi
        unfold poleG
        rw [if_neg (by omega), if_neg (by omega), Nat.add_sub_cancel]
      · rw [mul_sum]
        refine sum_congr rfl fun j _ => ?_
        unfold poleG
        rw [if_pos rfl]
    · rw [mul_sum]
      refine sum_congr rfl fun j _ => ?_
      unfold poleG
      rw [if_neg (by omega), if_pos rfl]
  have hr : pairR n1 n2 (X c) (poleT n1 n2 G d) = ∑ i ∈ range n1, (∑ j ∈ range n2, X c i j * G d (i + 1) j +
      (if i = 0 then (∑ j ∈ range n2, X c i j) * ((∑ j ∈ range n2, G d 0 j) / n2) else 0) +
      if i = n1 - 1 then (∑ j ∈ range n2, X c i j) * ((∑ j ∈ range n2, G d (n1 + 1) j) / n2) else 0) := by
    unfold pairR poleT
    refine sum_congr rfl fun i hi => ?_
    have hi' := mem_range.1 hi
    simp_rw [mul_add, sum_add_distrib]
    congr 1
    · congr 1
      by_cases h : i = 0
      · simp only [if_pos h]; rw [sum_mul]
      · simp only [if_neg h, mul_zero, sum_const_zero]
    · by_cases h : i + 1 = n1
      · simp only [if_pos h, if_pos (show i = n1 - 1 by omega)]; rw [sum_mul]
      · simp only [if_neg h, if_neg (show ¬ i = n1 - 1 by omega), mul_zero, sum_const_zero]
  rw [hl, hr, sum_add_distrib, sum_add_distrib, sum_ite_eq' (range n1) 0, sum_ite_eq' (range n1) (n1 - 1), if_pos (mem_range.2 h1),
    if_pos (mem_range.2 (by omega))]
  ring

theorem upLatBackward_part (R : Resampler) (n1 : ℕ) (c0 c2 : Cut) (G : ℕ → ℕ → ℕ → ℝ) (g : Ten3 ℝ) (hg : IsPart c0 (whole R.nlatOut) c2 G g) :
    IsPart c0 (whole n1) c2 (latT R n1 G) (upLatBackward R n1 g) := by
  obtain ⟨h0, h1, h2, h3⟩ := hg
  rw [whole_size] at h1 h3
  refine ⟨h0, (whole_size _).symm, h2, fun c hc k _ j hj => ?_⟩
  rw [whole_start, zero_add]
  unfold upLatBackward latT
  dsimp only
  rw [h1]
  refine sum_congr rfl fun i hi => ?_
  rw [h3 c hc i (mem_range.1 hi) j hj, whole_start, zero_add]

theorem upLonBackward_part (R : Resampler) (n2 : ℕ) (c0 c1 : Cut) (G : ℕ → ℕ → ℕ → ℝ) (g : Ten3 ℝ) (hg : IsPart c0 c1 (whole R.nlonOut) G g) :
    IsPart c0 c1 (whole n2) (lonT R n2 G) (upLonBackward R n2 g) := by
  obtain ⟨h0, h1, h2, h3⟩ := hg
  rw [whole_size] at h2 h3
  refine ⟨h0, h1, (whole_size _).symm, fun c hc i hi k _ => ?_⟩
  rw [whole_start, zero_add]
  unfold upLonBackward lonT
  dsimp only
  rw [h2]
  refine sum_congr rfl fun j hj => ?_
  rw [h3 c hc i hi j (mem_range.1 hj), whole_start, zero_add]

theorem polesBackward_part (n1 n2 Pa : ℕ) (c0 : Cut) (ha : 0 < Pa) (lons : ℕ → ℕ → ℕ) (G : ℕ → ℕ → ℕ → ℝ) (g : ℕ → ℕ → Ten3 ℝ) (p : ℕ)
    (hl : ∀ a < Pa, lons p a = blockSize n2 Pa a)
    (hg : ∀ a < Pa, IsPart c0 (whole (n1 + 2)) ⟨n2, Pa, a⟩ G (g p a)) (a : ℕ) (ha' : a < Pa) :
    IsPart c0 (whole n1) ⟨n2, Pa, a⟩ (poleT n1 n2 G) (dExpandPolesBackward Pa lons g p a) := by
  have hd1 : ∀ s < Pa, (g p s).d1 = n1 + 2 := fun s hs => by rw [(hg s hs).2.1, whole_size]
  have hsum : ∀ k < n1 + 2, ∀ c < c0.size, ∑ s ∈ range Pa, ∑ j ∈ range (g p s).d2, (g p s).val c k j = ∑ j ∈ range n2, G (c0.start + c) k j := by
    intro k hk c hc
    rw [sum_blocks ha (fun j => G (c0.start + c) k j)]
    refine sum_congr rfl fun s hs => ?_
    obtain ⟨_, _, q2, q3⟩ := hg s (mem_range.1 hs)
    rw [q2]
    refine sum_congr rfl fun j hj => ?_
    have := q3 c hc k (by rw [whole_size]; exact hk) j (mem_range.1 hj)
    rwa [whole_start, zero_add] at this
  have hcount : ∑ s ∈ range Pa, lons p s = n2 := by
    have := sum_blocks (n := n2) ha (fun _ => 1)
    simp only [sum_const, card_range, smul_eq_mul, mul_one] at this
    rw [this]
    exact sum_congr rfl fun s hs => hl s (mem_range.1 hs)
  have red : ∀ {β : Type} [AddCommMonoid β] (v : ℕ → Vec β) (i : ℕ), (if Pa > 1 then reduceFromForward Pa v a else v a).val i = ∑ s ∈ range Pa, (v s).val i := by
    intro β _ v i
    by_cases h : Pa > 1
    · rw [if_pos h]
      unfold reduceFromForward reduce
      rw [if_neg (by omega)]
    · have e : Pa = 1 := by omega
      subst e
      have e0 : a = 0 := by omega
      subst e0
      simp
  have red' : ∀ (v : ℕ → Vec ℝ) (i : ℕ), (if Pa > 1 then copyToBackward Pa v a else v a).val i = ∑ s ∈ range Pa, (v s).val i := fun v i => red v i
  obtain ⟨q0, q1, q2, q3⟩ := hg a ha'
  refine ⟨q0, ?_, q2, fun c hc i hi j hj => ?_⟩
  · rw [whole_size]; show (g p a).d1 - 2 = _; rw [hd1 a ha']; rfl
  · rw [whole_size] at hi
    rw [whole_start, zero_add]
    unfold poleT dExpandPolesBackward reduceFromBackward poleCount
    simp only [ite_self]
    rw [red, red', red', hd1 a ha', hsum 0 (by omega) c hc, hcount, Nat.add_sub_cancel]
    have e2 : ∑ s ∈ range Pa, ∑ j ∈ range (g p s).d2, (g p s).val c ((g p s).d1 - 1) j = ∑ j ∈ range n2, G (c0.start + c) (n1 + 1) j := by
      rw [← hsum (n1 + 1) (by omega) c hc]
      exact sum_congr rfl fun s hs => by rw [hd1 s (mem_range.1 hs)]; rfl
    rw [e2]
    have := q3 c hc (i + 1) (by rw [whole_size]; omega) j hj
    rw [whole_start, zero_add] at this
    rw [this]

/-- The serial module as a composition. -/
theorem resample_serial (R : Resampler) (hs : R.skip = false) (n1 n2 : ℕ) (hn : 0 < n1) (X : ℕ → ℕ → ℕ → ℝ) (c : ℕ) (Y : Mat ℝ)
    (h : R.forward ⟨n1, n2, X c⟩ = .ok Y) :
    (∀ i < R.nlatOut, inBounds (R.latIdx i) (if R.expand then n1 + 2 else n1) ∧ inBounds (R.latIdx i + 1) (if R.expand then n1 + 2 else n1)) ∧
      (∀ j < R.nlonOut, inBounds (R.lonL j) n2 ∧ inBounds (R.lonR j) n2) ∧
      Y.val = lonG R n2 (latG R (if R.expand then n1 + 2 else n1) (if R.expand then poleG n1 n2 X else X)) c := by
  generalize hN : (if R.expand then n1 + 2 else n1) = N
  generalize hE : (if R.expand then poleG n1 n2 X else X) = E
  unfold Resampler.forward at h
  rw [hs, if_neg (by simp), if_neg (by rintro ⟨_, h⟩; exact absurd h (by show ¬ n1 = 0; omega))] at h
  have he : (if R.expand then expandPoles ⟨n1, n2, X c⟩ else (⟨n1, n2, X c⟩ : Mat ℝ)) = ⟨N, n2, E c⟩ := by
    rw [← hN, ← hE]
    by_cases hE : R.expand
    · simp only [hE, if_true]
      rfl
    · simp only [hE, if_false, Bool.false_eq_true]
  rw [he] at h
  unfold Resampler.upLat at h
  by_cases hb : ∀ i < R.nlatOut, inBounds (R.latIdx i) N ∧ inBounds (R.latIdx i + 1) N
  · rw [if_neg (not_not.2 hb)] at h
    unfold Resampler.upLon at h
    dsimp only at h
    by_cases hb2 : ∀ j < R.nlonOut, inBounds (R.lonL j) n2 ∧ inBounds (R.lonR j) n2
    · rw [if_neg (not_not.2 hb2)] at h
      cases h
      exact ⟨hb, hb2, rfl⟩
    · rw [if_pos hb2] at h; cases h
  · rw [if_pos hb] at h; cases h

/-- The adjoint of the serial module in the mode "bilinear". -/
noncomputable def resampleT (R : Resampler) (n1 n2 : ℕ) (G : ℕ → ℕ → ℕ → ℝ) : ℕ → ℕ → ℕ → ℝ :=
  if R.expand then poleT n1 n2 (latT R (n1 + 2) (lonT R n2 G)) else latT R n1 (lonT R n2 G)

theorem resample_adjoint (R : Resampler) (hs : R.skip = false) (hb : R.spherical = false) (n1 n2 : ℕ) (hn : 0 < n1) (G : ℕ → ℕ → ℕ → ℝ) (c : ℕ)
    (f : ℕ → ℕ → ℝ) (Y : Mat ℝ) (h : R.forward ⟨n1, n2, f⟩ = .ok Y) :
    pairR R.nlatOut R.nlonOut Y.val (G c) = pairR n1 n2 f (resampleT R n1 n2 G c) := by
  obtain ⟨q1, q2, q3⟩ := resample_serial R hs n1 n2 hn (fun _ => f) c Y h
  rw [q3, lon_adjoint R hb _ n2 q2 _ G c c, lat_adjoint R hb _ n2 q1 _ (lonT R n2 G) c c]
  unfold resampleT
  by_cases hE : R.expand = true
  · simp only [hE, if_true]
    exact pole_adjoint n1 n2 hn (fun _ => f) _ c c
  · simp only [hE, if_false, Bool.false_eq_true]

theorem dresampler_parts {gauss : ℕ → Rule} {tol : ℝ} {maxiter : ℕ} {A : Resample.Args} {R : Resampler}
    (hR : Resample.init gauss tol maxiter A = .ok R) {Pp Pa : ℕ} {D : DResampler} (hD : DResampler.init gauss tol maxiter A Pp Pa = .ok D) :
    D.R = R ∧ computeSplitShapes A.nlatIn Pp = .ok D.latIn ∧ computeSplitShapes A.nlonIn Pa = .ok D.lonIn := by
  unfold DResampler.init at hD
  split at hD
  · cases hD
  · cases e1 : computeSplitShapes A.nlatIn Pp with
    | error e => rw [e1] at hD; cases hD
    | ok s1 =>
      cases e2 : computeSplitShapes A.nlonIn Pa with
      | error e => rw [e1, except_bind_ok, e2] at hD; cases hD
      | ok s2 =>
        cases e3 : computeSplitShapes A.nlatOut Pp with
        | error e => rw [e1, except_bind_ok, e2, except_bind_ok, e3] at hD; cases hD
        | ok s3 =>
          cases e4 : computeSplitShapes A.nlonOut Pa with
          | error e => rw [e1, except_bind_ok, e2, except_bind_ok, e3, except_bind_ok, e4] at hD; cases hD
          | ok s4 =>
            rw [e1, except_bind_ok, e2, except_bind_ok, e3, except_bind_ok, e4, except_bind_ok, hR, except_bind_ok] at hD
            cases hD
            exact ⟨rfl, rfl, rfl⟩

theorem blockSize_all (n : ℕ) : blockSize n 1 0 = n := by
  have h := blockStart_succ n 1 0
  rw [blockStart_last (by omega)] at h
  have : blockStart n 1 0 = 0 := by simp [blockStart]
  omega

/-- The stages of the backward pass. -/
theorem resample_back_stages (gauss : ℕ → Rule) (tol : ℝ) (maxiter : ℕ) (A : Resample.Args) (R : Resampler)
    (hR : Resample.init gauss tol maxiter A = .ok R) (Pp Pa C : ℕ) (hp : 0 < Pp) (ha : 0 < Pa)
    (h1 : Pp ≤ A.nlatIn) (h2 : Pa ≤ A.nlonIn) (h3 : Pp ≤ R.nlatOut) (h4 : Pa ≤ R.nlonOut) (h5 : Pp ≤ C) (h6 : Pa ≤ C) (D : DResampler)
    (hD : DResampler.init gauss tol maxiter A Pp Pa = .ok D) (X G : ℕ → ℕ → ℕ → ℝ) (x g : ℕ → ℕ → Ten3 ℝ)
    (hx : ∀ p < Pp, ∀ a < Pa, IsPart (whole C) ⟨A.nlatIn, Pp, p⟩ ⟨A.nlonIn, Pa, a⟩ X (x p a))
    (hg : ∀ p < Pp, ∀ a < Pa, IsPart (whole C) ⟨R.nlatOut, Pp, p⟩ ⟨R.nlonOut, Pa, a⟩ G (g p a)) :
    ∃ g1 g3 g4 v : ℕ → ℕ → Ten3 ℝ,
      let g5 : ℕ → ℕ → Ten3 ℝ := fun p a => upLatBackward R ((if Pp > 1 then D.latIn.sum else (x p a).d1) + if R.expand then 2 else 0) (g4 p a)
      collect Pp Pa (fun p a => azimuthOutBackward Pa R.nlonOut g p a) = .ok g1 ∧
      collect Pp Pa (fun p a => azimuthInBackward Pa (x p a).d0
        (fun p a => upLonBackward R (if Pa > 1 then D.lonIn.sum else (x p a).d2) (g1 p a)) p a) = .ok g3 ∧
      collect Pp Pa (fun p a => polarOutBackward Pp R.nlatOut g3 p a) = .ok g4 ∧
      collect Pp Pa (fun p a => polarInBackward Pp (x p a).d0
        (fun p a => if R.expand then dExpandPolesBackward Pa (fun p a => (x p a).d2) g5 p a else g5 p a) p a) = .ok v ∧
      (∀ p < Pp, ∀ a < Pa, (g4 p a).d0 = blockSize C Pp p) ∧
      ∀ p < Pp, ∀ a < Pa, IsPart (whole C) ⟨A.nlatIn, Pp, p⟩ ⟨A.nlonIn, Pa, a⟩ (resampleT R A.nlatIn A.nlonIn G) (v p a) := by
  obtain ⟨hDR, hlat, hlon⟩ := dresampler_parts hR hD
  have hd0 : ∀ p < Pp, ∀ a < Pa, (x p a).d0 = C := fun p hp' a ha' => by rw [(hx p hp' a ha').1, whole_size]
  have hrows : ∀ p < Pp, ∀ a < Pa, (if Pp > 1 then D.latIn.sum else (x p a).d1) = A.nlatIn := fun p hp' a ha' => by
    by_cases h : Pp > 1
    · rw [if_pos h, css_sum hlat]
    · have e : Pp = 1 := by omega
      have e0 : p = 0 := by omega
      subst e e0
      rw [if_neg h, (hx 0 hp' a ha').2.1]
      exact blockSize_all A.nlatIn
  have hcols : ∀ p < Pp, ∀ a < Pa, (if Pa > 1 then D.lonIn.sum else (x p a).d2) = A.nlonIn := fun p hp' a ha' => by
    by_cases h : Pa > 1
    · rw [if_pos h, css_sum hlon]
    · have e : Pa = 1 := by omega
      have e0 : a = 0 := by omega
      subst e e0
      rw [if_neg h, (hx p hp' 0 ha').2.2.1]
      exact blockSize_all A.nlonIn
  obtain ⟨sho, hsho⟩ := css_exists h4 ha
  obtain ⟨sha, hsha⟩ := css_exists h3 hp
  let n1 := A.nlatIn + if R.expand then 2 else 0
  obtain ⟨g1, hg1, q1⟩ := collect_ok hp ha (f := fun p a => azimuthOutBackward Pa R.nlonOut g p a)
    fun p hp' a ha' => by
      rw [azimuthOutBackward_eq Pa _ _ sho hsho]
      exact azimuthIn_part C R.nlonOut Pp Pa (fun p => ⟨R.nlatOut, Pp, p⟩) ha h6 h4 G g hg _ hsho p hp' a ha'
  have q2 : ∀ p < Pp, ∀ a < Pa, IsPart ⟨C, Pa, a⟩ ⟨R.nlatOut, Pp, p⟩ (whole A.nlonIn) (lonT R A.nlonIn G)
      (upLonBackward R (if Pa > 1 then D.lonIn.sum else (x p a).d2) (g1 p a)) := fun p hp' a ha' => by
    rw [hcols p hp' a ha']
    exact upLonBackward_part R A.nlonIn _ _ G _ (q1 p hp' a ha').2
  obtain ⟨g3, hg3, q3⟩ := collect_ok hp ha
    (f := fun p a => azimuthInBackward Pa (x p a).d0 (fun p a => upLonBackward R (if Pa > 1 then D.lonIn.sum else (x p a).d2) (g1 p a)) p a)
    fun p hp' a ha' => by
      rw [azimuthInBackward_eq, hd0 p hp' a ha']
      exact azimuthOut_part C A.nlonIn Pp Pa (fun p => ⟨R.nlatOut, Pp, p⟩) ha h6 h2 _ _ q2 p hp' a ha'
  obtain ⟨g4, hg4, q4⟩ := collect_ok hp ha (f := fun p a => polarOutBackward Pp R.nlatOut g3 p a)
    fun p hp' a ha' => by
      rw [polarOutBackward_eq Pp _ _ sha hsha]
      exact polarIn_part C R.nlatOut Pp Pa (fun a => ⟨A.nlonIn, Pa, a⟩) hp h5 h3 _ g3 (fun p hp a ha => (q3 p hp a ha).2) _ hsha p hp' a ha'
  have q5 : ∀ p < Pp, ∀ a < Pa, IsPart ⟨C, Pp, p⟩ (whole n1) ⟨A.nlonIn, Pa, a⟩ (latT R n1 (lonT R A.nlonIn G))
      (upLatBackward R ((if Pp > 1 then D.latIn.sum else (x p a).d1) + if R.expand then 2 else 0) (g4 p a)) := fun p hp' a ha' => by
    rw [hrows p hp' a ha']
    exact upLatBackward_part R n1 _ _ _ _ (q4 p hp' a ha').2
  generalize hG5 : (fun p a => upLatBackward R ((if Pp > 1 then D.latIn.sum else (x p a).d1) + if R.expand then 2 else 0) (g4 p a)) = g5
  have q5' : ∀ p < Pp, ∀ a < Pa, IsPart ⟨C, Pp, p⟩ (whole n1) ⟨A.nlonIn, Pa, a⟩ (latT R n1 (lonT R A.nlonIn G)) (g5 p a) := by
    rw [← hG5]; exact q5
  have q6 : ∀ p < Pp, ∀ a < Pa, IsPart ⟨C, Pp, p⟩ (whole A.nlatIn) ⟨A.nlonIn, Pa, a⟩ (resampleT R A.nlatIn A.nlonIn G)
      (if R.expand then dExpandPolesBackward Pa (fun p a => (x p a).d2) g5 p a else g5 p a) := fun p hp' a ha' => by
    unfold resampleT
    by_cases hE : R.expand = true
    · simp only [n1, hE, if_true] at q5' ⊢
      exact polesBackward_part A.nlatIn A.nlonIn Pa _ ha _ _ g5 p (fun s hs => (hx p hp' s hs).2.2.1) (q5' p hp') a ha'
    · simp only [n1, hE, if_false, Bool.false_eq_true, add_zero] at q5' ⊢
      exact q5' p hp' a ha'
  obtain ⟨v, hv, qv⟩ := collect_ok hp ha
    (f := fun p a => polarInBackward Pp (x p a).d0 (fun p a => if R.expand then dExpandPolesBackward Pa (fun p a => (x p a).d2) g5 p a else g5 p a) p a)
    fun p hp' a ha' => by
      rw [polarInBackward_eq, hd0 p hp' a ha']
      exact polarOut_part C A.nlatIn Pp Pa (fun a => ⟨A.nlonIn, Pa, a⟩) hp h5 h1 _ _ q6 p hp' a ha'
  subst hG5
  exact ⟨g1, g3, g4, v, hg1, hg3, hg4, hv, fun p hp' a ha' => (q4 p hp' a ha').2.1, fun p hp' a ha' => (qv p hp' a ha').2⟩

/-- C106. Let the ranks hold tiles of an input of shape `(channels, nlat_in, nlon_in)` and of a gradient `G` of the output, with at least as many
channels as ranks in each direction. Then the backward pass runs and leaves on every rank the tile of the array `V`, which is the gradient of the
serial module: `<resample(f), G c> = <f, V c>` for every channel `c` and every field `f` of the input grid that the serial module accepts. -/
theorem C106_resample (gauss : ℕ → Rule) (tol : ℝ) (maxiter : ℕ) (A : Resample.Args) (R : Resampler)
    (hR : Resample.init gauss tol maxiter A = .ok R) (hb : R.spherical = false) (hs : R.skip = false) (Pp Pa C : ℕ) (hp : 0 < Pp) (ha : 0 < Pa)
    (h1 : Pp ≤ A.nlatIn) (h2 : Pa ≤ A.nlonIn) (h3 : Pp ≤ R.nlatOut) (h4 : Pa ≤ R.nlonOut) (h5 : Pp ≤ C) (h6 : Pa ≤ C) (D : DResampler)
    (hD : DResampler.init gauss tol maxiter A Pp Pa = .ok D) (X G : ℕ → ℕ → ℕ → ℝ) (x g : ℕ → ℕ → Ten3 ℝ)
    (hx : ∀ p < Pp, ∀ a < Pa, IsPart (whole C) ⟨A.nlatIn, Pp, p⟩ ⟨A.nlonIn, Pa, a⟩ X (x p a))
    (hg : ∀ p < Pp, ∀ a < Pa, IsPart (whole C) ⟨R.nlatOut, Pp, p⟩ ⟨R.nlonOut, Pa, a⟩ G (g p a)) :
    ∃ (V : ℕ → ℕ → ℕ → ℝ) (v : ℕ → ℕ → Ten3 ℝ),
      (∀ c f Y, R.forward ⟨A.nlatIn, A.nlonIn, f⟩ = .ok Y → pairR R.nlatOut R.nlonOut Y.val (G c) = pairR A.nlatIn A.nlonIn f (V c)) ∧
      D.backward Pp Pa x g = .ok v ∧
      ∀ p < Pp, ∀ a < Pa, IsPart (whole C) ⟨A.nlatIn, Pp, p⟩ ⟨A.nlonIn, Pa, a⟩ V (v p a) := by
  have hn1 : 0 < A.nlatIn := lt_of_lt_of_le hp h1
  obtain ⟨g1, g3, g4, v, e1, e2, e3, e4, -, hq⟩ := resample_back_stages gauss tol maxiter A R hR Pp Pa C hp ha h1 h2 h3 h4 h5 h6 D hD X G x g hx hg
  refine ⟨resampleT R A.nlatIn A.nlonIn G, v, fun c f Y h => resample_adjoint R hs hb _ _ hn1 G c f Y h, ?_, hq⟩
  unfold DResampler.backward
  rw [if_neg (by rw [(dresampler_parts hR hD).1, hs]; simp)]
  dsimp only
  rw [(dresampler_parts hR hD).1, e1, except_bind_ok, e2, except_bind_ok, e3, except_bind_ok]
  exact e4

/-- C106. If the two grids are the same, the gradient is returned unchanged. -/
theorem C106_resample_skip (D : DResampler) (hs : D.R.skip = true) (Pp Pa : ℕ) (x g : ℕ → ℕ → Ten3 ℝ) : D.backward Pp Pa x g = .ok g := by
  unfold DResampler.backward
  rw [if_pos hs]

/-! ### Schedules -/

/-- The batches of the backward pass match, whatever the input. -/
theorem matched_resample_back {Pp Pa : ℕ} {glob : ℕ → ℕ → ℕ} (hg : GlobInj Pp Pa glob) (D : DResampler) (x : ℕ → ℕ → Ten3 ℝ) :
    Matched (ofRounds (fun i => glob i.1 i.2) (resampleBackRounds Pp Pa glob D x)) := by
  refine matched_rounds _ _ (grid_inj hg) fun Q hQ => ?_
  unfold resampleBackRounds at hQ
  split at hQ
  · cases hQ
  · rw [List.mem_append, List.mem_append] at hQ
    rcases hQ with hQ | hQ | hQ
    · simp only [List.mem_cons, List.not_mem_nil, or_false] at hQ
      rcases hQ with rfl | rfl | rfl | rfl | rfl
      · exact matched_trans hg
      · exact matched_local _ _ (grid_inj hg)
      · exact matched_trans hg
      · exact matched_trans hg
      · exact matched_local _ _ (grid_inj hg)
    · split at hQ
      · simp only [expandBackRounds, List.mem_cons, List.not_mem_nil, or_false] at hQ
        rcases hQ with rfl | rfl | rfl | rfl
        · exact matched_local _ _ (grid_inj hg)
        · exact matched_sum hg
        · exact matched_sum hg
        · exact matched_local _ _ (grid_inj hg)
      · cases hQ
    · simp only [List.mem_cons, List.not_mem_nil, or_false] at hQ
      rw [hQ]
      exact matched_trans hg

/-- The rounds of the backward pass of `_expand_poles` fit and give the gradient. -/
theorem expand_back_run {Pp Pa : ℕ} {glob : ℕ → ℕ → ℕ} (hg : GlobInj Pp Pa glob) (lons : ℕ → ℕ → ℕ) (g : ℕ → ℕ → Ten3 ℝ)
    (hd : ∀ p < Pp, ∀ a < Pa, ∀ a' < Pa, (g p a).d0 = (g p a').d0) (mem : Fin Pp × Fin Pa → RsMem)
    (hm : ∀ i, mem i = (fun p a => (⟨g p a, default, default, poleCount Pa lons p a⟩ : RsMem)) i.1 i.2) :
    FitsAll (fun i : Fin Pp × Fin Pa => glob i.1 i.2) (expandBackRounds Pp Pa glob) mem ∧
      ∃ Y : ℕ → ℕ → RsMem, (∀ p a, (Y p a).x = dExpandPolesBackward Pa lons g p a) ∧
        ∀ i, runs (fun i : Fin Pp × Fin Pa => glob i.1 i.2) (expandBackRounds Pp Pa glob) mem i = Y i.1 i.2 := by
  set N : ℕ → ℕ → Vec ℝ := fun p a => ⟨(g p a).d0, fun c => ∑ j ∈ range (g p a).d2, (g p a).val c 0 j⟩ with hN
  set S : ℕ → ℕ → Vec ℝ := fun p a => ⟨(g p a).d0, fun c => ∑ j ∈ range (g p a).d2, (g p a).val c ((g p a).d1 - 1) j⟩ with hS
  have r1 := local_step (M := RsMsg) (fun i => glob i.1 i.2) (fun (_ : Fin Pp × Fin Pa) (s : RsMem) => poleGradSums s)
    (fun p a => (⟨g p a, default, default, poleCount Pa lons p a⟩ : RsMem)) (fun p a => (⟨g p a, N p a, S p a, poleCount Pa lons p a⟩ : RsMem)) mem hm fun _ => rfl
  have hd' : ∀ i : Fin Pp × Fin Pa, ∀ r < Pa, (g i.1 r).d0 = (g i.1 i.2).d0 := fun i r hr => hd _ i.1.2 r hr _ i.2.2
  obtain ⟨f2, r2⟩ := sum_step (glob := glob) (az := true) hg southField_ok (fun p a => (⟨g p a, N p a, S p a, poleCount Pa lons p a⟩ : RsMem)) S (fun _ _ => rfl) _ r1 hd'
  obtain ⟨f3, r3⟩ := sum_step (glob := glob) (az := true) hg northField_ok
    (fun p a => (⟨g p a, N p a, reduceFromForward Pa (memberOf true S p a) a, poleCount Pa lons p a⟩ : RsMem)) N (fun _ _ => rfl) _ r2 hd'
  have r4 := local_step (M := RsMsg) (fun i => glob i.1 i.2) (fun (_ : Fin Pp × Fin Pa) (s : RsMem) => poleGradRows s)
    (fun p a => (⟨g p a, reduceFromForward Pa (memberOf true N p a) a, reduceFromForward Pa (memberOf true S p a) a, poleCount Pa lons p a⟩ : RsMem))
    (fun p a => ⟨dExpandPolesBackward Pa lons g p a, reduceFromForward Pa (memberOf true N p a) a, reduceFromForward Pa (memberOf true S p a) a, poleCount Pa lons p a⟩) _ r3 fun i => by
      unfold dExpandPolesBackward reduceFromBackward
      simp only [ite_self]
      have e : ∀ v : ℕ → Vec ℝ, (if Pa > 1 then copyToBackward Pa v i.2 else v i.2) = reduceFromForward Pa v i.2 := fun v => allreduce_if i.2.2 v
      rw [e, e]
      rfl
  exact ⟨⟨fits_local _ _ _, f2, f3, fits_local _ _ _, trivial⟩,
    fun p a => ⟨dExpandPolesBackward Pa lons g p a, reduceFromForward Pa (memberOf true N p a) a, reduceFromForward Pa (memberOf true S p a) a, poleCount Pa lons p a⟩,
    fun _ _ => rfl, r4⟩

/-- C106: under every schedule of ranks and messages the backward pass meets no error and no deadlock, and every rank that has finished holds its
part of the gradient of the serial module; see `C106_resample`. -/
theorem C106_schedules (gauss : ℕ → Rule) (tol : ℝ) (maxiter : ℕ) (A : Resample.Args) (R : Resampler)
    (hR : Resample.init gauss tol maxiter A = .ok R) (hb : R.spherical = false) (hs : R.skip = false) (Pp Pa C : ℕ) (hp : 0 < Pp) (ha : 0 < Pa)
    (h1 : Pp ≤ A.nlatIn) (h2 : Pa ≤ A.nlonIn) (h3 : Pp ≤ R.nlatOut) (h4 : Pa ≤ R.nlonOut) (h5 : Pp ≤ C) (h6 : Pa ≤ C)
    (glob : ℕ → ℕ → ℕ) (hglob : GlobInj Pp Pa glob) (D : DResampler)
    (hD : DResampler.init gauss tol maxiter A Pp Pa = .ok D) (X G : ℕ → ℕ → ℕ → ℝ) (x g : ℕ → ℕ → Ten3 ℝ)
    (hx : ∀ p < Pp, ∀ a < Pa, IsPart (whole C) ⟨A.nlatIn, Pp, p⟩ ⟨A.nlonIn, Pa, a⟩ X (x p a))
    (hg : ∀ p < Pp, ∀ a < Pa, IsPart (whole C) ⟨R.nlatOut, Pp, p⟩ ⟨R.nlonOut, Pa, a⟩ G (g p a)) :
    ∃ (V : ℕ → ℕ → ℕ → ℝ) (v : ℕ → ℕ → Ten3 ℝ),
      (∀ c f Y, R.forward ⟨A.nlatIn, A.nlonIn, f⟩ = .ok Y → pairR R.nlatOut R.nlonOut Y.val (G c) = pairR A.nlatIn A.nlonIn f (V c)) ∧
      D.backward Pp Pa x g = .ok v ∧
      EverySchedule (resampleBackProg Pp Pa glob D x) (resampleBackMem Pp Pa x g) (fun _ s => s.x) (fun i => v i.1 i.2) ∧
      ∀ p < Pp, ∀ a < Pa, IsPart (whole C) ⟨A.nlatIn, Pp, p⟩ ⟨A.nlonIn, Pa, a⟩ V (v p a) := by
  have hn1 : 0 < A.nlatIn := lt_of_lt_of_le hp h1
  have hDR := (dresampler_parts hR hD).1
  obtain ⟨g1, g3, g4, v, e1, e2, e3, e4, hd0, hq⟩ := resample_back_stages gauss tol maxiter A R hR Pp Pa C hp ha h1 h2 h3 h4 h5 h6 D hD X G x g hx hg
  refine ⟨resampleT R A.nlatIn A.nlonIn G, v, fun c f Y h => resample_adjoint R hs hb _ _ hn1 G c f Y h, ?_, ?_, hq⟩
  · unfold DResampler.backward
    rw [if_neg (by rw [hDR, hs]; simp)]
    dsimp only
    rw [hDR, e1, except_bind_ok, e2, except_bind_ok, e3, except_bind_ok]
    exact e4
  set K : ℕ → ℕ → Vec ℕ := poleCount Pa (fun p a => (x p a).d2) with hK
  let M : (ℕ → ℕ → Ten3 ℝ) → ℕ → ℕ → RsMem := fun t p a => ⟨t p a, default, default, K p a⟩
  set g2 : ℕ → ℕ → Ten3 ℝ := fun p a => upLonBackward R (if Pa > 1 then D.lonIn.sum else (x p a).d2) (g1 p a) with hg2
  generalize hG5 : (fun p a => upLatBackward R ((if Pp > 1 then D.latIn.sum else (x p a).d1) + if R.expand then 2 else 0) (g4 p a)) = g5 at e4
  obtain ⟨f1, r1⟩ := trans_step (glob := glob) (az := true) (v := v02) (sizes := fun _ _ => chanShapes R.nlonOut Pa) hglob rsField_ok (M g) g (fun _ _ => rfl) (fun _ => rfl)
    (resampleBackMem Pp Pa x g) (fun _ => rfl) g1 (fun i => by
      have := collect_all e1 i.1 i.1.2 i.2 i.2.2
      rw [azimuthOutBackward_eq Pa _ _ _ (chanShapes_ok h4 ha)] at this
      exact this)
  have r2 := local_step (M := RsMsg) (fun i => glob i.1 i.2)
    (fun (i : Fin Pp × Fin Pa) (s : RsMem) => ({ s with x := upLonBackward R (if Pa > 1 then D.lonIn.sum else (x i.1 i.2).d2) s.x } : RsMem))
    (M g1) (M g2) _ r1 fun _ => rfl
  obtain ⟨f3, r3⟩ := trans_step (glob := glob) (az := true) (v := v20) (sizes := fun p a => chanShapes (x p a).d0 Pa) hglob rsField_ok (M g2) g2 (fun _ _ => rfl) (fun _ => rfl)
    _ r2 g3 (fun i => by
      have := collect_all e2 i.1 i.1.2 i.2 i.2.2
      rw [azimuthInBackward_eq] at this
      exact azimuthOut_trans (n := fun p a => (x p a).d0) this)
  obtain ⟨f4, r4⟩ := trans_step (glob := glob) (az := false) (v := v01) (sizes := fun _ _ => chanShapes R.nlatOut Pp) hglob rsField_ok (M g3) g3 (fun _ _ => rfl) (fun _ => rfl)
    _ r3 g4 (fun i => by
      have := collect_all e3 i.1 i.1.2 i.2 i.2.2
      rw [polarOutBackward_eq Pp _ _ _ (chanShapes_ok h3 hp)] at this
      exact this)
  have r5 := local_step (M := RsMsg) (fun i => glob i.1 i.2)
    (fun (i : Fin Pp × Fin Pa) (s : RsMem) =>
      ({ s with x := upLatBackward R ((if Pp > 1 then D.latIn.sum else (x i.1 i.2).d1) + if R.expand then 2 else 0) s.x } : RsMem))
    (M g4) (M g5) _ r4 fun i => by rw [← hG5]
  have hd : ∀ p < Pp, ∀ a < Pa, ∀ a' < Pa, (g5 p a).d0 = (g5 p a').d0 := fun p hp' a ha' a' ha'' => by
    rw [← hG5]
    exact (hd0 p hp' a ha').trans (hd0 p hp' a' ha'').symm
  obtain ⟨L, hL⟩ : ∃ L, L = [transRound Pp Pa glob true rsField v02 fun _ _ => chanShapes R.nlonOut Pa,
     localRound fun i s => { s with x := upLonBackward R (if Pa > 1 then D.lonIn.sum else (x i.1 i.2).d2) s.x },
     transRound Pp Pa glob true rsField v20 fun p a => chanShapes (x p a).d0 Pa,
     transRound Pp Pa glob false rsField v01 fun _ _ => chanShapes R.nlatOut Pp,
     localRound fun i s => { s with x := upLatBackward R ((if Pp > 1 then D.latIn.sum else (x i.1 i.2).d1) + if R.expand then 2 else 0) s.x }] := ⟨_, rfl⟩
  have fL : FitsAll (fun i : Fin Pp × Fin Pa => glob i.1 i.2) L (resampleBackMem Pp Pa x g) := by
    rw [hL]
    exact ⟨f1, fits_local _ _ _, f3, f4, fits_local _ _ _, trivial⟩
  have rL : ∀ i, runs (fun i : Fin Pp × Fin Pa => glob i.1 i.2) L (resampleBackMem Pp Pa x g) i = M g5 i.1 i.2 := by
    rw [hL]
    exact r5
  have hB : FitsAll (fun i : Fin Pp × Fin Pa => glob i.1 i.2) (if R.expand then expandBackRounds Pp Pa glob else [])
        (runs (fun i : Fin Pp × Fin Pa => glob i.1 i.2) L (resampleBackMem Pp Pa x g)) ∧
      ∃ Y : ℕ → ℕ → RsMem, (∀ p a, (Y p a).x = if R.expand then dExpandPolesBackward Pa (fun p a => (x p a).d2) g5 p a else g5 p a) ∧
        ∀ i, runs (fun i : Fin Pp × Fin Pa => glob i.1 i.2) (if R.expand then expandBackRounds Pp Pa glob else [])
          (runs (fun i : Fin Pp × Fin Pa => glob i.1 i.2) L (resampleBackMem Pp Pa x g)) i = Y i.1 i.2 := by
    by_cases he : R.expand = true
    · simp only [if_pos he]
      exact expand_back_run hglob (fun p a => (x p a).d2) g5 hd _ rL
    · simp only [if_neg he]
      exact ⟨trivial, M g5, fun _ _ => rfl, rL⟩
  obtain ⟨fB, Y, hY, rB⟩ := hB
  obtain ⟨f7, r7⟩ := trans_step (glob := glob) (az := false) (v := v10) (sizes := fun p a => chanShapes (x p a).d0 Pp) hglob rsField_ok Y _ hY (fun _ => rfl)
    _ rB v (fun i => by
      have := collect_all e4 i.1 i.1.2 i.2 i.2.2
      rw [polarInBackward_eq] at this
      exact polarOut_trans (n := fun p a => (x p a).d0) this)
  have hrounds : resampleBackRounds Pp Pa glob D x = L ++ ((if R.expand then expandBackRounds Pp Pa glob else []) ++
      [transRound Pp Pa glob false rsField v10 fun p a => chanShapes (x p a).d0 Pp]) := by
    unfold resampleBackRounds
    rw [hDR, if_neg (by rw [hs]; simp), hL]
  refine everySchedule _ (matched_resample_back hglob D x) _ ?_ _ _ fun i => ?_
  · rw [hrounds, fitsAll_append, fitsAll_append]
    exact ⟨fL, fB, f7, trivial⟩
  · rw [hrounds, runs_append, runs_append]
    exact congrArg RsMem.x (r7 i)

theorem resample_linear {gauss : ℕ → Rule} {tol : ℝ} {maxiter : ℕ} {A : Resample.Args} (hm : A.mode = "bilinear") {R : Resampler}
    (hR : Resample.init gauss tol maxiter A = .ok R) : R.spherical = false := by
  unfold Resample.init at hR
  rw [if_neg (by rw [hm]; decide)] at hR
  cases e1 : precomputeLatitudes gauss tol maxiter A.nlatIn A.gridIn with
  | error e => rw [e1] at hR; cases hR
  | ok rin =>
    cases e2 : precomputeLatitudes gauss tol maxiter A.nlatOut A.gridOut with
    | error e => rw [e1, e2] at hR; cases hR
    | ok rout =>
      rw [e1, e2] at hR
      dsimp only at hR
      unfold build at hR
      dsimp only at hR
      split_ifs at hR <;> (cases hR; rw [hm]; exact (by decide : ("bilinear" == "bilinear-spherical") = false))

/-- C106, all the named grids, in the mode "bilinear". With two input rows and columns, sizes that the process grid does not exceed and enough
channels, both modules are built, the serial one accepts every field of the input grid, and the backward pass of the distributed one leaves, under every
schedule, on every rank the tile of the gradient of the serial one. -/
theorem C106_resample_grids (gauss : ℕ → Rule) (tol : ℝ) (maxiter : ℕ) (A : Resample.Args) (rin rout : Rule) (hm : A.mode = "bilinear")
    (H : ResampleBuilt gauss tol maxiter A rin rout) (hsame : ¬ (A.nlonIn = A.nlonOut ∧ A.nlatIn = A.nlatOut ∧ A.gridIn = A.gridOut))
    (Pp Pa C : ℕ) (hp : 0 < Pp) (ha : 0 < Pa) (h1 : Pp ≤ A.nlatIn) (h2 : Pa ≤ A.nlonIn) (h3 : Pp ≤ A.nlatOut) (h4 : Pa ≤ A.nlonOut)
    (h5 : Pp ≤ C) (h6 : Pa ≤ C) (glob : ℕ → ℕ → ℕ) (hglob : GlobInj Pp Pa glob) (X G : ℕ → ℕ → ℕ → ℝ) (x g : ℕ → ℕ → Ten3 ℝ)
    (hx : ∀ p < Pp, ∀ a < Pa, IsPart (whole C) ⟨A.nlatIn, Pp, p⟩ ⟨A.nlonIn, Pa, a⟩ X (x p a))
    (hg : ∀ p < Pp, ∀ a < Pa, IsPart (whole C) ⟨A.nlatOut, Pp, p⟩ ⟨A.nlonOut, Pa, a⟩ G (g p a)) :
    ∃ (R : Resampler) (D : DResampler) (V : ℕ → ℕ → ℕ → ℝ) (v : ℕ → ℕ → Ten3 ℝ), Resample.init gauss tol maxiter A = .ok R ∧
      DResampler.init gauss tol maxiter A Pp Pa = .ok D ∧
      (∀ c f, ∃ Y, R.forward ⟨A.nlatIn, A.nlonIn, f⟩ = .ok Y ∧
        pairR A.nlatOut A.nlonOut Y.val (G c) = pairR A.nlatIn A.nlonIn f (V c)) ∧
      D.backward Pp Pa x g = .ok v ∧
      EverySchedule (resampleBackProg Pp Pa glob D x) (resampleBackMem Pp Pa x g) (fun _ s => s.x) (fun i => v i.1 i.2) ∧
      ∀ p < Pp, ∀ a < Pa, IsPart (whole C) ⟨A.nlatIn, Pp, p⟩ ⟨A.nlonIn, Pa, a⟩ V (v p a) := by
  obtain ⟨R, N, lats, I, hR, _, hskip, _, _, hf⟩ := resample_forward H
  have hs : R.skip = false := by
    cases h : R.skip
    · rfl
    · exact absurd (hskip.1 h) hsame
  obtain ⟨D, hD, _⟩ := C54_resample_init gauss tol maxiter A R hR Pp Pa hp ha h1 h2 h3 h4
  obtain ⟨e1, e2⟩ := resample_sizes H hR
  rw [← e1, ← e2] at hg
  obtain ⟨V, v, hV, hv, hv', hq⟩ := C106_schedules gauss tol maxiter A R hR (resample_linear hm hR) hs Pp Pa C hp ha h1 h2 (by omega) (by omega) h5 h6 glob hglob
    D hD X G x g hx hg
  refine ⟨R, D, V, v, hR, hD, fun c f => ?_, hv, hv', hq⟩
  obtain ⟨_, _, h⟩ := hf ⟨A.nlatIn, A.nlonIn, f⟩ rfl rfl
  obtain ⟨Y, hY, _⟩ := h hs
  refine ⟨Y, hY, ?_⟩
  rw [← e1, ← e2]
  exact hV c f Y hY

/-- Non-vacuity: from a 2 by 4 Gauss grid to a 3 by 6 equiangular grid (which needs the pole rows), on a 2 by 3 process grid with three
channels. -/
example (gauss : ℕ → Rule) (hg : IsGaussRule (gauss 2) 2) (X G : ℕ → ℕ → ℕ → ℝ) :
    ∃ (D : DResampler) (v : ℕ → ℕ → Ten3 ℝ) (V : ℕ → ℕ → ℕ → ℝ), DResampler.init gauss 1e-16 100 ⟨2, 4, 3, 6, "legendre-gauss", "equiangular", "bilinear"⟩ 2 3 = .ok D ∧
      EverySchedule (resampleBackProg 2 3 (fun p a => p * 3 + a) D fun p a => piece X (whole 3) ⟨2, 2, p⟩ ⟨4, 3, a⟩)
        (resampleBackMem 2 3 (fun p a => piece X (whole 3) ⟨2, 2, p⟩ ⟨4, 3, a⟩) fun p a => piece G (whole 3) ⟨3, 2, p⟩ ⟨6, 3, a⟩)
        (fun _ s => s.x) (fun i => v i.1 i.2) ∧
      ∀ p < 2, ∀ a < 3, IsPart (whole 3) ⟨2, 2, p⟩ ⟨4, 3, a⟩ V (v p a) := by
  obtain ⟨rin, rout, H⟩ := C26_built gauss 1e-16 100 ⟨2, 4, 3, 6, "legendre-gauss", "equiangular", "bilinear"⟩ (Or.inl rfl) (by norm_num)
    (by norm_num) (Or.inr (Or.inr ⟨rfl, hg⟩)) (Or.inl ⟨by norm_num, Or.inl rfl⟩)
  obtain ⟨_, D, V, v, _, hD, _, _, hv, hq⟩ := C106_resample_grids gauss 1e-16 100 _ rin rout rfl H (by norm_num) 2 3 3 (by norm_num) (by norm_num)
    (by norm_num) (by norm_num) (by norm_num) (by norm_num) (by norm_num) (by norm_num) _ (globInj_rowMajor 2 3) X G
    (fun p a => piece X (whole 3) ⟨2, 2, p⟩ ⟨4, 3, a⟩) (fun p a => piece G (whole 3) ⟨3, 2, p⟩ ⟨6, 3, a⟩)
    (fun p _ a _ => piece_isPart _ _ _ _) (fun p _ a _ => piece_isPart _ _ _ _)
  exact ⟨D, v, V, hD, hv, hq⟩

end Verif.Props
