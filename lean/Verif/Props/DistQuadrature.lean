import Verif.Model.DistQuadrature
import Verif.Lemmas.DistGrid
import Verif.Props.SpectralConv
import Verif.Props.Resample
import Verif.Props.DistSHT
/-!
Property theorems C54: distributed quadrature and resampling.
-/
namespace Verif.Props
open Verif Verif.Dist Verif.SHT Verif.Quad Verif.Resample Verif.Spec Finset

/-! ### Quadrature -/

/-- A rank's tile of a global field. -/
def IsFieldTile (nlat nlon Pp Pa : ℕ) (X : ℕ → ℕ → ℝ) (p a : ℕ) (x : Mat ℝ) : Prop :=
  x.d0 = blockSize nlat Pp p ∧ x.d1 = blockSize nlon Pa a ∧
    ∀ k < blockSize nlat Pp p, ∀ j < blockSize nlon Pa a, x.val k j = X (blockStart nlat Pp p + k) (blockStart nlon Pa a + j)

theorem split_chunk {α : Type} (n P r : ℕ) (h0 : 0 < P) (h : P ≤ n) (hr : r < P) (v : ℕ → α) :
    ∃ c, splitTensorAlongDim (⟨n, v⟩ : Vec α) P = .ok c ∧ (c r).len = blockSize n P r ∧ ∀ i, (c r).val i = v (blockStart n P r + i) := by
  obtain ⟨s, hs⟩ := css_exists h h0
  refine ⟨fun r => (⟨n, v⟩ : Vec α).chunk s r, ?_, css_getD_block hs r hr, fun i => ?_⟩
  · unfold splitTensorAlongDim
    rw [if_neg (by show ¬ ¬ P ≤ n; omega), show computeSplitShapes (⟨n, v⟩ : Vec α).len P = .ok s from hs]
    simp [bind, Except.bind, pure, Except.pure, css_sum hs]
  · simp only [Vec.chunk]
    rw [css_offset_block hs r (by omega)]

theorem splitLat_ok {α : Type} (P r : ℕ) (h0 : 0 < P) (hr : r < P) (w : Mat α) (h : P ≤ w.d0) :
    ∃ y, splitLat P r w = .ok y ∧ y.d0 = blockSize w.d0 P r ∧ y.d1 = w.d1 ∧ ∀ k j, y.val k j = w.val (blockStart w.d0 P r + k) j := by
  unfold splitLat
  by_cases hP : P > 1
  · obtain ⟨c, hc, hcl, hcv⟩ := split_chunk w.d0 P r h0 h hr w.val
    rw [if_pos hP, hc]
    exact ⟨_, rfl, hcl, rfl, fun k j => by show (c r).val k j = _; rw [hcv]⟩
  · rw [if_neg hP]
    have e1 : P = 1 := by omega
    subst e1
    have e2 : r = 0 := by omega
    subst e2
    exact ⟨w, rfl, by simp [blockSize, Nat.mod_one], rfl, fun k j => by simp [blockStart]⟩

theorem splitLon_ok {α : Type} (P r : ℕ) (h0 : 0 < P) (hr : r < P) (w : Mat α) (h : P ≤ w.d1) :
    ∃ y, splitLon P r w = .ok y ∧ y.d0 = w.d0 ∧ y.d1 = blockSize w.d1 P r ∧ ∀ k j, y.val k j = w.val k (blockStart w.d1 P r + j) := by
  unfold splitLon
  by_cases hP : P > 1
  · obtain ⟨c, hc, hcl, hcv⟩ := split_chunk w.d1 P r h0 h hr fun j k => w.val k j
    rw [if_pos hP, hc]
    exact ⟨_, rfl, rfl, hcl, fun k j => by show (c r).val j k = _; rw [hcv]⟩
  · rw [if_neg hP]
    have e1 : P = 1 := by omega
    subst e1
    have e2 : r = 0 := by omega
    subst e2
    exact ⟨w, rfl, rfl, by simp [blockSize, Nat.mod_one], fun k j => by simp [blockStart]⟩

theorem rule_size (gauss : ℕ → Rule) (hg : ∀ n, (gauss n).n = n) (tol : ℝ) (maxiter nlat : ℕ) (grid : String) (r : Rule)
    (h : distQuadratureRule gauss tol maxiter nlat grid = .ok r) : r.n = nlat := by
  unfold distQuadratureRule legendreGaussWeights lobattoWeights clenshawCurtissWeights at h
  split_ifs at h <;> cases h
  · exact hg nlat
  · rfl
  · rfl

/-- C54. The weights that a rank keeps are its tile of the serial weights, on every process grid that is not larger than the grid of
points. -/
theorem C54_quadrature_init (gauss : ℕ → Rule) (hg : ∀ n, (gauss n).n = n) (tol : ℝ) (maxiter nlat nlon : ℕ) (grid : String) (nz : Bool)
    (hgrid : grid ≠ "equiangular-trapezoidal") (r : Rule) (hr : quadratureS2Rule gauss tol maxiter nlat grid = .ok r) (Pp Pa : ℕ)
    (hp : 0 < Pp) (ha : 0 < Pa) (hlat : Pp ≤ nlat) (hlon : Pa ≤ nlon) (p a : ℕ) (hp' : p < Pp) (ha' : a < Pa) :
    ∃ w, dquadInit gauss tol maxiter nlat nlon grid nz Pp Pa p a = .ok w ∧
      IsFieldTile nlat nlon Pp Pa (fun k _ => quadWeight r nlon nz k) p a w := by
  have hr' : distQuadratureRule gauss tol maxiter nlat grid = .ok r := by
    unfold quadratureS2Rule at hr
    unfold distQuadratureRule
    split_ifs at hr ⊢ <;> exact hr
  have hn := rule_size gauss hg tol maxiter nlat grid r hr'
  obtain ⟨s1, h1⟩ := css_exists hlat hp
  obtain ⟨s2, h2⟩ := css_exists hlon ha
  unfold dquadInit
  rw [hr', except_bind_ok, h1, except_bind_ok, h2, except_bind_ok, if_neg (by simpa using hn)]
  obtain ⟨w1, hw1, e0, e1, ev⟩ := splitLat_ok Pp p hp hp' (⟨nlat, nlon, fun k _ => quadWeight r nlon nz k⟩ : Mat ℝ) hlat
  obtain ⟨w2, hw2, f0, f1, fv⟩ := splitLon_ok Pa a ha ha' w1 (by rw [e1]; exact hlon)
  rw [hw1, except_bind_ok, hw2]
  exact ⟨w2, rfl, by rw [f0, e0], by rw [f1, e1], fun k _ j _ => by rw [fv, ev]⟩

theorem reduce_all {α : Type} [AddCommMonoid α] (P r : ℕ) (hr : r < P) (q : ℕ → α) :
    (if P > 1 then (reduceFromForward P (fun s => (⟨1, fun _ => q s⟩ : Vec α)) r).val 0 else q r) = ∑ s ∈ range P, q s := by
  by_cases h : P > 1
  · rw [if_pos h]
    unfold reduceFromForward reduce
    rw [if_neg (by omega)]
  · have h1 : P = 1 := by omega
    subst h1
    have h0 : r = 0 := by omega
    subst h0
    simp

/-- C54. Every rank obtains the integral (or average) that the serial module computes from the global field. -/
theorem C54_quadrature (gauss : ℕ → Rule) (hg : ∀ n, (gauss n).n = n) (tol : ℝ) (maxiter nlat nlon : ℕ) (grid : String) (nz : Bool)
    (hgrid : grid ≠ "equiangular-trapezoidal") (r : Rule) (hr : quadratureS2Rule gauss tol maxiter nlat grid = .ok r) (Pp Pa : ℕ)
    (hp : 0 < Pp) (ha : 0 < Pa) (hlat : Pp ≤ nlat) (hlon : Pa ≤ nlon) (w : ℕ → ℕ → Mat ℝ)
    (hw : ∀ p < Pp, ∀ a < Pa, dquadInit gauss tol maxiter nlat nlon grid nz Pp Pa p a = .ok (w p a))
    (X : ℕ → ℕ → ℝ) (x : ℕ → ℕ → Mat ℝ) (hx : ∀ p < Pp, ∀ a < Pa, IsFieldTile nlat nlon Pp Pa X p a (x p a)) :
    ∃ y, dquadForward Pp Pa w x = .ok y ∧ ∀ p < Pp, ∀ a < Pa, y p a = quadForward r nlon nz X := by
  have hw' : ∀ p < Pp, ∀ a < Pa, IsFieldTile nlat nlon Pp Pa (fun k _ => quadWeight r nlon nz k) p a (w p a) := fun p hp' a ha' => by
    obtain ⟨w', h1, h2⟩ := C54_quadrature_init gauss hg tol maxiter nlat nlon grid nz hgrid r hr Pp Pa hp ha hlat hlon p a hp' ha'
    rw [hw p hp' a ha'] at h1
    cases h1
    exact h2
  have hn : r.n = nlat := by
    refine rule_size gauss hg tol maxiter nlat grid r ?_
    unfold quadratureS2Rule at hr
    unfold distQuadratureRule
    split_ifs at hr ⊢ <;> exact hr
  obtain ⟨q, hq, hqv⟩ := collect_ok hp ha (f := fun p a => dquadLocal (w p a) (x p a))
    (Q := fun p a y => y = ∑ k ∈ range (blockSize nlat Pp p), ∑ j ∈ range (blockSize nlon Pa a),
      X (blockStart nlat Pp p + k) (blockStart nlon Pa a + j) * quadWeight r nlon nz (blockStart nlat Pp p + k)) fun p hp' a ha' => by
    obtain ⟨a0, a1, av⟩ := hx p hp' a ha'
    obtain ⟨b0, b1, bv⟩ := hw' p hp' a ha'
    unfold dquadLocal
    rw [if_neg (by rw [a0, a1, b0, b1]; simp)]
    refine ⟨_, rfl, ?_⟩
    rw [a0, a1]
    exact sum_congr rfl fun k hk => sum_congr rfl fun j hj => by
      rw [av k (mem_range.1 hk) j (mem_range.1 hj), bv k (mem_range.1 hk) j (mem_range.1 hj)]
  unfold dquadForward
  rw [hq, except_bind_ok]
  refine ⟨_, rfl, fun p hp' a ha' => ?_⟩
  dsimp only
  have e1 : ∀ p' < Pp, ∀ a', (if Pp > 1 then (reduceFromForward Pp (fun s => (⟨1, fun _ => q s a'⟩ : Vec ℝ)) p').val 0 else q p' a') = ∑ s ∈ range Pp, q s a' :=
    fun p' hp' a' => reduce_all Pp p' hp' fun s => q s a'
  rw [reduce_all Pa a ha' (fun s => if Pp > 1 then (reduceFromForward Pp (fun s' => (⟨1, fun _ => q s' s⟩ : Vec ℝ)) p).val 0 else q p s)]
  rw [sum_congr rfl fun s _ => e1 p hp' s]
  have e3 : quadForward r nlon nz X = ∑ s ∈ range Pp, ∑ k ∈ range (blockSize nlat Pp s),
      ∑ j ∈ range nlon, X (blockStart nlat Pp s + k) j * quadWeight r nlon nz (blockStart nlat Pp s + k) := by
    unfold quadForward
    rw [hn, sum_blocks hp]
  rw [e3, sum_comm]
  refine sum_congr rfl fun s hs => ?_
  have e2 : ∀ t ∈ range Pa, q s t = _ := fun t ht => (hqv s (mem_range.1 hs) t (mem_range.1 ht)).2
  rw [sum_congr rfl e2, sum_comm]
  exact sum_congr rfl fun k _ =>
    (sum_blocks ha fun j => X (blockStart nlat Pp s + k) j * quadWeight r nlon nz (blockStart nlat Pp s + k)).symm

/-- C54 (a difference from the serial module). The grid "equiangular-trapezoidal" is documented for both modules and accepted by the
serial one; the distributed one refuses it. -/
theorem C54_trapezoidal_refused (gauss : ℕ → Rule) (tol : ℝ) (maxiter nlat nlon : ℕ) (hn : 2 ≤ nlat) (nz : Bool) (Pp Pa p a : ℕ) :
    (∃ r, quadratureS2Rule gauss tol maxiter nlat "equiangular-trapezoidal" = .ok r) ∧
      dquadInit gauss tol maxiter nlat nlon "equiangular-trapezoidal" nz Pp Pa p a = .error .valueError := by
  refine ⟨?_, ?_⟩
  · unfold quadratureS2Rule trapezoidalWeights
    rw [if_neg (by decide), if_neg (by decide), if_neg (by decide), if_pos rfl, if_neg (by decide), if_neg (by omega), if_neg (by omega)]
    exact ⟨_, rfl⟩
  · unfold dquadInit distQuadratureRule
    rw [if_neg (by decide), if_neg (by decide), if_neg (by decide)]
    rfl

/-- A 3 by 4 equiangular grid on a 2 by 3 process grid. -/
example (tol : ℝ) (X : ℕ → ℕ → ℝ) : ∃ (r : Rule) (w : ℕ → ℕ → Mat ℝ) (y : ℕ → ℕ → ℝ),
    quadratureS2Rule (fun n => ⟨n, fun _ => 0, fun _ => 0⟩) tol 100 3 "equiangular" = .ok r ∧
      dquadForward 2 3 w (fun p a => ⟨blockSize 3 2 p, blockSize 4 3 a, fun k j => X (blockStart 3 2 p + k) (blockStart 4 3 a + j)⟩) = .ok y ∧
      ∀ p < 2, ∀ a < 3, y p a = quadForward r 4 false X := by
  have hr : ∃ r, quadratureS2Rule (fun n => ⟨n, fun _ => 0, fun _ => 0⟩) tol 100 3 "equiangular" = .ok r := by
    unfold quadratureS2Rule clenshawCurtissWeights
    rw [if_neg (by decide), if_neg (by decide), if_pos rfl, if_neg (by norm_num)]
    exact ⟨_, rfl⟩
  obtain ⟨r, hr⟩ := hr
  have hw : ∀ p a, ∃ w : Mat ℝ, p < 2 → a < 3 → dquadInit (fun n => ⟨n, fun _ => 0, fun _ => 0⟩) tol 100 3 4 "equiangular" false 2 3 p a = .ok w :=
    fun p a => by
      by_cases h : p < 2 ∧ a < 3
      · obtain ⟨w, h', _⟩ := C54_quadrature_init _ (fun _ => rfl) tol 100 3 4 "equiangular" false (by decide) r hr 2 3 (by norm_num) (by norm_num)
          (by norm_num) (by norm_num) p a h.1 h.2
        exact ⟨w, fun _ _ => h'⟩
      · exact ⟨⟨0, 0, fun _ _ => 0⟩, fun h1 h2 => absurd ⟨h1, h2⟩ h⟩
  choose w hw using hw
  obtain ⟨y, hy, hv⟩ := C54_quadrature _ (fun _ => rfl) tol 100 3 4 "equiangular" false (by decide) r hr 2 3 (by norm_num) (by norm_num)
    (by norm_num) (by norm_num) w (fun p hp a ha => hw p a hp ha) X
    (fun p a => ⟨blockSize 3 2 p, blockSize 4 3 a, fun k j => X (blockStart 3 2 p + k) (blockStart 4 3 a + j)⟩)
    (fun p _ a _ => ⟨rfl, rfl, fun _ _ _ _ => rfl⟩)
  exact ⟨r, w, y, hr, hy, hv⟩

/-! ### Resampling -/

/-- The global field with the two pole rows. -/
noncomputable def poleG (n1 n2 : ℕ) (X : ℕ → ℕ → ℕ → ℝ) (c k j : ℕ) : ℝ :=
  if k = 0 then (∑ j' ∈ range n2, X c 0 j') / n2
  else if k = n1 + 1 then (∑ j' ∈ range n2, X c (n1 - 1) j') / n2
  else X c (k - 1) j

/-- Interpolation along latitude of a global field. -/
noncomputable def latG (R : Resampler) (n1 : ℕ) (X : ℕ → ℕ → ℕ → ℝ) (c i j : ℕ) : ℝ :=
  interp R.spherical (X c (wrap (R.latIdx i) n1) j) (X c (wrap (R.latIdx i + 1) n1) j) (R.latW i)

/-- Interpolation along longitude of a global field. -/
noncomputable def lonG (R : Resampler) (n2 : ℕ) (X : ℕ → ℕ → ℕ → ℝ) (c i j : ℕ) : ℝ :=
  interp R.spherical (X c i (wrap (R.lonL j) n2)) (X c i (wrap (R.lonR j) n2)) (R.lonW j)

theorem wrap_lt {i : ℤ} {n : ℕ} (h : inBounds i n) : wrap i n < n := by
  unfold inBounds at h
  unfold wrap
  split <;> omega

theorem upLat_part (R : Resampler) (n1 : ℕ) (hb : ∀ i < R.nlatOut, inBounds (R.latIdx i) n1 ∧ inBounds (R.latIdx i + 1) n1) (c0 c2 : Cut)
    (X : ℕ → ℕ → ℕ → ℝ) (x : Ten3 ℝ) (hx : IsPart c0 (whole n1) c2 X x) :
    ∃ y, mapChannels R.upLat x = .ok y ∧ IsPart c0 (whole R.nlatOut) c2 (latG R n1 X) y := by
  obtain ⟨h0, h1, h2, h3⟩ := hx
  rw [whole_size] at h1 h3
  have hg : ∀ c, R.upLat ⟨x.d1, x.d2, x.val c⟩ = .ok ⟨R.nlatOut, x.d2, fun i j =>
      interp R.spherical (x.val c (wrap (R.latIdx i) x.d1) j) (x.val c (wrap (R.latIdx i + 1) x.d1) j) (R.latW i)⟩ := fun c => by
    unfold Resampler.upLat
    rw [if_neg (by rw [not_not]; show ∀ i < R.nlatOut, inBounds (R.latIdx i) x.d1 ∧ inBounds (R.latIdx i + 1) x.d1; rw [h1]; exact hb)]
  rw [mapChannels_ok _ hg]
  refine ⟨_, rfl, h0, ?_, h2, fun c hc i hi j hj => ?_⟩
  · rw [whole_size]
  · rw [whole_size] at hi
    have e : ∀ k < n1, x.val c k j = X (c0.start + c) k (c2.start + j) := fun k hk => by
      have := h3 c hc k hk j hj
      rwa [whole_start, zero_add] at this
    rw [whole_start, zero_add]
    unfold latG
    dsimp only
    rw [h1, e _ (wrap_lt (hb i hi).1), e _ (wrap_lt (hb i hi).2)]

theorem upLon_part (R : Resampler) (n2 : ℕ) (hb : ∀ j < R.nlonOut, inBounds (R.lonL j) n2 ∧ inBounds (R.lonR j) n2) (c0 c1 : Cut)
    (X : ℕ → ℕ → ℕ → ℝ) (x : Ten3 ℝ) (hx : IsPart c0 c1 (whole n2) X x) :
    ∃ y, mapChannels R.upLon x = .ok y ∧ IsPart c0 c1 (whole R.nlonOut) (lonG R n2 X) y := by
  obtain ⟨h0, h1, h2, h3⟩ := hx
  rw [whole_size] at h2 h3
  have hg : ∀ c, R.upLon ⟨x.d1, x.d2, x.val c⟩ = .ok ⟨x.d1, R.nlonOut, fun i j =>
      interp R.spherical (x.val c i (wrap (R.lonL j) x.d2)) (x.val c i (wrap (R.lonR j) x.d2)) (R.lonW j)⟩ := fun c => by
    unfold Resampler.upLon
    rw [if_neg (by rw [not_not]; show ∀ j < R.nlonOut, inBounds (R.lonL j) x.d2 ∧ inBounds (R.lonR j) x.d2; rw [h2]; exact hb)]
  rw [mapChannels_ok _ hg]
  refine ⟨_, rfl, h0, h1, ?_, fun c hc i hi j hj => ?_⟩
  · rw [whole_size]
  · rw [whole_size] at hj
    have e : ∀ k < n2, x.val c i k = X (c0.start + c) (c1.start + i) k := fun k hk => by
      have := h3 c hc i hi k hk
      rwa [whole_start, zero_add] at this
    rw [whole_start, zero_add]
    unfold lonG
    dsimp only
    rw [h2, e _ (wrap_lt (hb j hj).1), e _ (wrap_lt (hb j hj).2)]

theorem poles_part (n1 n2 Pa : ℕ) (c0 : Cut) (h1 : 0 < n1) (ha : 0 < Pa) (X : ℕ → ℕ → ℕ → ℝ) (x : ℕ → ℕ → Ten3 ℝ)
    (p : ℕ) (hx : ∀ a < Pa, IsPart c0 (whole n1) ⟨n2, Pa, a⟩ X (x p a)) (a : ℕ) (ha' : a < Pa) :
    ∃ y, dExpandPoles Pa x p a = .ok y ∧ IsPart c0 (whole (n1 + 2)) ⟨n2, Pa, a⟩ (poleG n1 n2 X) y := by
  have hd1 : ∀ s < Pa, (x p s).d1 = n1 := fun s hs => by rw [(hx s hs).2.1, whole_size]
  have hsum : ∀ k < n1, ∀ c < c0.size, ∑ s ∈ range Pa, ∑ j ∈ range (x p s).d2, (x p s).val c k j = ∑ j ∈ range n2, X (c0.start + c) k j := by
    intro k hk c hc
    rw [sum_blocks ha (fun j => X (c0.start + c) k j)]
    refine sum_congr rfl fun s hs => ?_
    obtain ⟨_, _, q2, q3⟩ := hx s (mem_range.1 hs)
    rw [q2]
    refine sum_congr rfl fun j hj => ?_
    have := q3 c hc k (by rw [whole_size]; exact hk) j (mem_range.1 hj)
    rwa [whole_start, zero_add] at this
  have hcount : ∑ s ∈ range Pa, (x p s).d2 = n2 := by
    have := sum_blocks (n := n2) ha (fun _ => 1)
    simp only [sum_const, card_range, smul_eq_mul, mul_one] at this
    rw [this]
    exact sum_congr rfl fun s hs => (hx s (mem_range.1 hs)).2.2.1
  have red : ∀ {β : Type} [AddCommMonoid β] (v : ℕ → Vec β) (i : ℕ), (if Pa > 1 then reduceFromForward Pa v a else v a).val i = ∑ s ∈ range Pa, (v s).val i := by
    intro β _ v i
    by_cases h : Pa > 1
    · rw [if_pos h]
      unfold reduceFromForward reduce
      rw [if_neg (by omega)]
    · have e : Pa = 1 := by omega
      subst e
      have e0 : a = 0 := by omega
      subst e0
      simp
  obtain ⟨q0, q1, q2, q3⟩ := hx a ha'
  unfold dExpandPoles
  rw [if_neg (by rw [hd1 a ha']; omega)]
  refine ⟨_, rfl, q0, ?_, q2, fun c hc i hi j hj => ?_⟩
  · rw [whole_size]; show (x p a).d1 + 2 = _; rw [hd1 a ha']
  · rw [whole_size] at hi
    rw [whole_start, zero_add]
    unfold poleG
    dsimp only
    rw [red, red, red, hd1 a ha', hsum 0 h1 c hc, hcount]
    have e2 : ∑ s ∈ range Pa, ∑ j ∈ range (x p s).d2, (x p s).val c ((x p s).d1 - 1) j = ∑ j ∈ range n2, X (c0.start + c) (n1 - 1) j := by
      rw [← hsum (n1 - 1) (by omega) c hc]
      exact sum_congr rfl fun s hs => by rw [hd1 s (mem_range.1 hs)]
    rw [e2]
    by_cases h0 : i = 0
    · rw [if_pos h0, if_pos h0]
    · rw [if_neg h0, if_neg h0]
      by_cases h2 : i = n1 + 1
      · rw [if_pos h2, if_pos h2]
      · rw [if_neg h2, if_neg h2]
        have := q3 c hc (i - 1) (by rw [whole_size]; omega) j hj
        rwa [whole_start, zero_add] at this

/-- C54. On a process grid that is not larger than the two grids of points the distributed object is built as soon as the serial one is,
and holds the same indices and weights. -/
theorem C54_resample_init (gauss : ℕ → Rule) (tol : ℝ) (maxiter : ℕ) (A : Resample.Args) (R : Resampler)
    (hR : Resample.init gauss tol maxiter A = .ok R) (Pp Pa : ℕ) (hp : 0 < Pp) (ha : 0 < Pa) (h1 : Pp ≤ A.nlatIn) (h2 : Pa ≤ A.nlonIn)
    (h3 : Pp ≤ A.nlatOut) (h4 : Pa ≤ A.nlonOut) :
    ∃ D, DResampler.init gauss tol maxiter A Pp Pa = .ok D ∧ D.R = R ∧ computeSplitShapes A.nlatIn Pp = .ok D.latIn ∧
      computeSplitShapes A.nlonIn Pa = .ok D.lonIn := by
  obtain ⟨s1, e1⟩ := css_exists h1 hp
  obtain ⟨s2, e2⟩ := css_exists h2 ha
  obtain ⟨s3, e3⟩ := css_exists h3 hp
  obtain ⟨s4, e4⟩ := css_exists h4 ha
  have hm : ¬ (A.mode ≠ "bilinear" ∧ A.mode ≠ "bilinear-spherical") := fun h => by
    unfold Resample.init at hR
    rw [if_pos h] at hR
    cases hR
  unfold DResampler.init
  rw [if_neg hm, e1, except_bind_ok, e2, except_bind_ok, e3, except_bind_ok, e4, except_bind_ok, hR, except_bind_ok]
  exact ⟨_, rfl, rfl, rfl, rfl⟩

/-- C54. Let the ranks hold the tiles of a global tensor `X` of shape `(channels, nlat_in, nlon_in)` with at least as many channels as
ranks in each direction. Then the distributed module returns on every rank the tile of the tensor that the serial module computes. -/
theorem C54_resample (gauss : ℕ → Rule) (tol : ℝ) (maxiter : ℕ) (A : Resample.Args) (R : Resampler)
    (hR : Resample.init gauss tol maxiter A = .ok R) (hs : R.skip = false) (Pp Pa C : ℕ) (hp : 0 < Pp) (ha : 0 < Pa) (h1 : Pp ≤ A.nlatIn)
    (h2 : Pa ≤ A.nlonIn) (h3 : Pp ≤ R.nlatOut) (h4 : Pa ≤ R.nlonOut) (h5 : Pp ≤ C) (h6 : Pa ≤ C) (D : DResampler)
    (hD : DResampler.init gauss tol maxiter A Pp Pa = .ok D) (X : ℕ → ℕ → ℕ → ℝ) (x : ℕ → ℕ → Ten3 ℝ)
    (hx : ∀ p < Pp, ∀ a < Pa, IsPart (whole C) ⟨A.nlatIn, Pp, p⟩ ⟨A.nlonIn, Pa, a⟩ X (x p a))
    (Y : ℕ → Mat ℝ) (hY : ∀ c < C, R.forward ⟨A.nlatIn, A.nlonIn, X c⟩ = .ok (Y c)) :
    ∃ y, D.forward Pp Pa x = .ok y ∧
      ∀ p < Pp, ∀ a < Pa, IsPart (whole C) ⟨R.nlatOut, Pp, p⟩ ⟨R.nlonOut, Pa, a⟩ (fun c => (Y c).val) (y p a) := by
  obtain ⟨hDR, hlat, hlon⟩ : D.R = R ∧ computeSplitShapes A.nlatIn Pp = .ok D.latIn ∧ computeSplitShapes A.nlonIn Pa = .ok D.lonIn := by
    unfold DResampler.init at hD
    split at hD
    · cases hD
    · cases e1 : computeSplitShapes A.nlatIn Pp with
      | error e => rw [e1] at hD; cases hD
      | ok s1 =>
        cases e2 : computeSplitShapes A.nlonIn Pa with
        | error e => rw [e1, except_bind_ok, e2] at hD; cases hD
        | ok s2 =>
          cases e3 : computeSplitShapes A.nlatOut Pp with
          | error e => rw [e1, except_bind_ok, e2, except_bind_ok, e3] at hD; cases hD
          | ok s3 =>
            cases e4 : computeSplitShapes A.nlonOut Pa with
            | error e => rw [e1, except_bind_ok, e2, except_bind_ok, e3, except_bind_ok, e4] at hD; cases hD
            | ok s4 =>
              rw [e1, except_bind_ok, e2, except_bind_ok, e3, except_bind_ok, e4, except_bind_ok, hR, except_bind_ok] at hD
              cases hD
              exact ⟨rfl, rfl, rfl⟩
  have hn1 : 0 < A.nlatIn := lt_of_lt_of_le hp h1
  have hC : 0 < C := lt_of_lt_of_le hp h5
  -- the rows seen by the latitude interpolation
  let n1 := if R.expand then A.nlatIn + 2 else A.nlatIn
  let E : ℕ → ℕ → ℕ → ℝ := if R.expand then poleG A.nlatIn A.nlonIn X else X
  have hser : (∀ i < R.nlatOut, inBounds (R.latIdx i) n1 ∧ inBounds (R.latIdx i + 1) n1) ∧
      (∀ j < R.nlonOut, inBounds (R.lonL j) A.nlonIn ∧ inBounds (R.lonR j) A.nlonIn) ∧
      ∀ c < C, (Y c).val = lonG R A.nlonIn (latG R n1 E) c := by
    have key : ∀ c < C, (∀ i < R.nlatOut, inBounds (R.latIdx i) n1 ∧ inBounds (R.latIdx i + 1) n1) ∧
      (∀ j < R.nlonOut, inBounds (R.lonL j) A.nlonIn ∧ inBounds (R.lonR j) A.nlonIn) ∧
      (Y c).val = lonG R A.nlonIn (latG R n1 E) c := fun c hc => by
      have h := hY c hc
      unfold Resampler.forward at h
      rw [hs, if_neg (by simp), if_neg (by rintro ⟨_, h⟩; exact absurd h (by show ¬ A.nlatIn = 0; omega))] at h
      have he : (if R.expand then expandPoles ⟨A.nlatIn, A.nlonIn, X c⟩ else (⟨A.nlatIn, A.nlonIn, X c⟩ : Mat ℝ)) = ⟨n1, A.nlonIn, E c⟩ := by
        by_cases hE : R.expand
        · simp only [n1, E, hE, if_true]
          rfl
        · simp only [n1, E, hE, if_false, Bool.false_eq_true]
      rw [he] at h
      unfold Resampler.upLat at h
      by_cases hb : ∀ i < R.nlatOut, inBounds (R.latIdx i) n1 ∧ inBounds (R.latIdx i + 1) n1
      · rw [if_neg (not_not.2 hb)] at h
        unfold Resampler.upLon at h
        dsimp only at h
        by_cases hb2 : ∀ j < R.nlonOut, inBounds (R.lonL j) A.nlonIn ∧ inBounds (R.lonR j) A.nlonIn
        · rw [if_neg (not_not.2 hb2)] at h
          cases h' : Y c with
          | mk d0 d1 v =>
            rw [h'] at h
            cases h
            exact ⟨hb, hb2, rfl⟩
        · rw [if_pos hb2] at h; cases h
      · rw [if_pos hb] at h; cases h
    exact ⟨(key 0 hC).1, (key 0 hC).2.1, fun c hc => (key c hc).2.2⟩
  obtain ⟨hb1, hb2, hYv⟩ := hser
  obtain ⟨x1, hx1, q1⟩ := collect_ok hp ha (f := fun p a => polarIn Pp x D.latIn p a)
    fun p hp' a ha' => polarIn_part C A.nlatIn Pp Pa (fun a => ⟨A.nlonIn, Pa, a⟩) hp h5 h1 X x hx _ hlat p hp' a ha'
  have hx2 : ∃ x2, expandStage Pp Pa D.R.expand x1 = .ok x2 ∧
      ∀ p < Pp, ∀ a < Pa, IsPart ⟨C, Pp, p⟩ (whole n1) ⟨A.nlonIn, Pa, a⟩ E (x2 p a) := by
    unfold expandStage
    by_cases hE : R.expand
    · rw [hDR, if_pos hE]
      simp only [n1, E, hE, if_true]
      obtain ⟨x2, hx2, q2⟩ := collect_ok hp ha (f := fun p a => dExpandPoles Pa x1 p a)
        fun p hp' a ha' => poles_part A.nlatIn A.nlonIn Pa ⟨C, Pp, p⟩ hn1 ha X x1 p (fun a ha'' => (q1 p hp' a ha'').2) a ha'
      exact ⟨x2, hx2, fun p hp' a ha' => (q2 p hp' a ha').2⟩
    · rw [hDR, if_neg hE]
      simp only [n1, E, hE, if_false, Bool.false_eq_true]
      exact ⟨x1, rfl, fun p hp' a ha' => (q1 p hp' a ha').2⟩
  obtain ⟨x2, hx2, q2⟩ := hx2
  obtain ⟨x3, hx3, q3⟩ := collect_ok hp ha (f := fun p a => mapChannels D.R.upLat (x2 p a))
    fun p hp' a ha' => by
      rw [hDR]
      exact upLat_part R n1 hb1 _ _ E (x2 p a) (q2 p hp' a ha')
  have hd0 : ∀ p < Pp, ∀ a < Pa, (x p a).d0 = C := fun p hp' a ha' => by rw [(hx p hp' a ha').1, whole_size]
  obtain ⟨x4, hx4, q4⟩ := collect_ok hp ha (f := fun p a => polarOut Pp x3 (x p a).d0 p a)
    fun p hp' a ha' => by
      rw [hd0 p hp' a ha']
      exact polarOut_part C R.nlatOut Pp Pa (fun a => ⟨A.nlonIn, Pa, a⟩) hp h5 h3 _ x3 (fun p hp a ha => (q3 p hp a ha).2) p hp' a ha'
  obtain ⟨x5, hx5, q5⟩ := collect_ok hp ha (f := fun p a => azimuthIn Pa x4 D.lonIn p a)
    fun p hp' a ha' => azimuthIn_part C A.nlonIn Pp Pa (fun p => ⟨R.nlatOut, Pp, p⟩) ha h6 h2 _ x4 (fun p hp a ha => (q4 p hp a ha).2) _ hlon p hp' a ha'
  obtain ⟨x6, hx6, q6⟩ := collect_ok hp ha (f := fun p a => mapChannels D.R.upLon (x5 p a))
    fun p hp' a ha' => by
      rw [hDR]
      exact upLon_part R A.nlonIn hb2 _ _ _ (x5 p a) (q5 p hp' a ha').2
  obtain ⟨y, hy, qy⟩ := collect_ok hp ha (f := fun p a => azimuthOut Pa x6 (x p a).d0 p a)
    fun p hp' a ha' => by
      rw [hd0 p hp' a ha']
      exact azimuthOut_part C R.nlonOut Pp Pa (fun p => ⟨R.nlatOut, Pp, p⟩) ha h6 h4 _ x6 (fun p hp a ha => (q6 p hp a ha).2) p hp' a ha'
  refine ⟨y, ?_, fun p hp' a ha' => ?_⟩
  · unfold DResampler.forward
    rw [if_neg (by rw [hDR, hs]; simp), hx1, except_bind_ok, hx2, except_bind_ok, hx3, except_bind_ok, hx4, except_bind_ok, hx5,
      except_bind_ok, hx6, except_bind_ok, hy]
  · obtain ⟨g0, g1, g2, g3⟩ := (qy p hp' a ha').2
    refine ⟨g0, g1, g2, fun c hc i hi j hj => ?_⟩
    rw [g3 c hc i hi j hj, whole_start, zero_add]
    dsimp only
    rw [hYv c (by rw [whole_size] at hc; exact hc)]

/-- C54. If the two grids are the same, the module returns the tiles unchanged, as the serial module returns its input. -/
theorem C54_resample_skip (D : DResampler) (hs : D.R.skip = true) (Pp Pa : ℕ) (x : ℕ → ℕ → Ten3 ℝ) (f : Mat ℝ) :
    D.forward Pp Pa x = .ok x ∧ D.R.forward f = .ok f := by
  unfold DResampler.forward Resampler.forward
  rw [if_pos hs, if_pos hs]
  exact ⟨rfl, rfl⟩

/-- C54 (error branch). With fewer channels than polar ranks the module raises (the serial module does not). -/
theorem C54_resample_few_channels (D : DResampler) (hs : D.R.skip = false) (Pp Pa : ℕ) (hp : 1 < Pp) (ha : 0 < Pa) (x : ℕ → ℕ → Ten3 ℝ)
    (h : (x 0 0).d0 < Pp) : ∃ e, D.forward Pp Pa x = .error e := by
  have : ∃ e, polarIn Pp x D.latIn 0 0 = .error e := by
    unfold polarIn trans01 distTransposeForward transposeRank
    rw [if_pos hp]
    simp only [if_neg (show ¬ Pp = 1 by omega)]
    cases hc : computeSplitShapes (view01 (x 0 0)).d0 Pp with
    | error e => exact ⟨e, rfl⟩
    | ok s =>
      have := ((css_ok_iff _ _ _).1 hc).1
      exact absurd this (by show ¬ Pp ≤ (x 0 0).d0; omega)
  obtain ⟨e, he⟩ := this
  obtain ⟨e', he'⟩ := collect_error (Pp := Pp) (f := fun p a => polarIn Pp x D.latIn p a) (by omega) ha he
  refine ⟨e', ?_⟩
  unfold DResampler.forward
  rw [if_neg (by rw [hs]; simp), he']
  rfl

theorem resample_sizes {gauss : ℕ → Rule} {tol : ℝ} {maxiter : ℕ} {A : Resample.Args} {rin rout : Rule}
    (H : ResampleBuilt gauss tol maxiter A rin rout) {R : Resampler} (hR : Resample.init gauss tol maxiter A = .ok R) :
    R.nlatOut = A.nlatOut ∧ R.nlonOut = A.nlonOut := by
  unfold Resample.init at hR
  split at hR
  · cases hR
  · rw [H.latIn, H.latOut] at hR
    dsimp only at hR
    unfold build at hR
    dsimp only at hR
    by_cases h1 : A.nlonIn = 0
    · have := H.twoLon; omega
    · rw [if_neg h1] at hR
      split_ifs at hR <;> (cases hR; exact ⟨H.sizeOut, rfl⟩)

/-- C54, all the named grids. With two input rows and columns, sizes that the process grid does not exceed and enough channels, the
distributed module is built, runs, and returns the tiles of the serial result. -/
theorem C54_resample_grids (gauss : ℕ → Rule) (tol : ℝ) (maxiter : ℕ) (A : Resample.Args) (rin rout : Rule)
    (H : ResampleBuilt gauss tol maxiter A rin rout) (hsame : ¬ (A.nlonIn = A.nlonOut ∧ A.nlatIn = A.nlatOut ∧ A.gridIn = A.gridOut))
    (Pp Pa C : ℕ) (hp : 0 < Pp) (ha : 0 < Pa) (h1 : Pp ≤ A.nlatIn) (h2 : Pa ≤ A.nlonIn) (h3 : Pp ≤ A.nlatOut) (h4 : Pa ≤ A.nlonOut)
    (h5 : Pp ≤ C) (h6 : Pa ≤ C) (X : ℕ → ℕ → ℕ → ℝ) (x : ℕ → ℕ → Ten3 ℝ)
    (hx : ∀ p < Pp, ∀ a < Pa, IsPart (whole C) ⟨A.nlatIn, Pp, p⟩ ⟨A.nlonIn, Pa, a⟩ X (x p a)) :
    ∃ (R : Resampler) (D : DResampler) (Y : ℕ → Mat ℝ) (y : ℕ → ℕ → Ten3 ℝ), Resample.init gauss tol maxiter A = .ok R ∧ DResampler.init gauss tol maxiter A Pp Pa = .ok D ∧
      (∀ c, R.forward ⟨A.nlatIn, A.nlonIn, X c⟩ = .ok (Y c)) ∧ D.forward Pp Pa x = .ok y ∧
      ∀ p < Pp, ∀ a < Pa, IsPart (whole C) ⟨A.nlatOut, Pp, p⟩ ⟨A.nlonOut, Pa, a⟩ (fun c => (Y c).val) (y p a) := by
  obtain ⟨R, N, lats, I, hR, _, hskip, _, _, hf⟩ := resample_forward H
  have hs : R.skip = false := by
    cases h : R.skip
    · rfl
    · exact absurd (hskip.1 h) hsame
  have hY : ∀ c, ∃ Y, R.forward ⟨A.nlatIn, A.nlonIn, X c⟩ = .ok Y := fun c => by
    obtain ⟨_, _, h⟩ := hf ⟨A.nlatIn, A.nlonIn, X c⟩ rfl rfl
    obtain ⟨y, hy, _⟩ := h hs
    exact ⟨y, hy⟩
  choose Y hY using hY
  obtain ⟨D, hD, _⟩ := C54_resample_init gauss tol maxiter A R hR Pp Pa hp ha h1 h2 h3 h4
  obtain ⟨e1, e2⟩ := resample_sizes H hR
  obtain ⟨y, hy, hq⟩ := C54_resample gauss tol maxiter A R hR hs Pp Pa C hp ha h1 h2 (by omega) (by omega) h5 h6 D hD X x hx Y (fun c _ => hY c)
  rw [e1, e2] at hq
  exact ⟨R, D, Y, y, hR, hD, hY, hy, hq⟩

/-- Non-vacuity: from a 2 by 4 Gauss grid to a 3 by 6 equiangular grid (which needs the pole rows), on a 2 by 3 process grid with three
channels. -/
example (gauss : ℕ → Rule) (hg : IsGaussRule (gauss 2) 2) (X : ℕ → ℕ → ℕ → ℝ) :
    ∃ D y Y, DResampler.init gauss 1e-16 100 ⟨2, 4, 3, 6, "legendre-gauss", "equiangular", "bilinear"⟩ 2 3 = .ok D ∧
      D.forward 2 3 (fun p a => ⟨3, blockSize 2 2 p, blockSize 4 3 a, fun c k j => X c (blockStart 2 2 p + k) (blockStart 4 3 a + j)⟩) = .ok y ∧
      ∀ p < 2, ∀ a < 3, IsPart (whole 3) ⟨3, 2, p⟩ ⟨6, 3, a⟩ Y (y p a) := by
  obtain ⟨rin, rout, H⟩ := C26_built gauss 1e-16 100 ⟨2, 4, 3, 6, "legendre-gauss", "equiangular", "bilinear"⟩ (Or.inl rfl) (by norm_num)
    (by norm_num) (Or.inr (Or.inr ⟨rfl, hg⟩)) (Or.inl ⟨by norm_num, Or.inl rfl⟩)
  obtain ⟨_, D, Y, y, _, hD, _, hy, hq⟩ := C54_resample_grids gauss 1e-16 100 _ rin rout H (by norm_num) 2 3 3 (by norm_num) (by norm_num)
    (by norm_num) (by norm_num) (by norm_num) (by norm_num) (by norm_num) (by norm_num) X
    (fun p a => ⟨3, blockSize 2 2 p, blockSize 4 3 a, fun c k j => X c (blockStart 2 2 p + k) (blockStart 4 3 a + j)⟩)
    (fun p _ a _ => ⟨by rw [whole_size], rfl, rfl, fun c _ k _ j _ => by rw [whole_start, zero_add]; rfl⟩)
  exact ⟨D, y, _, hD, hy, hq⟩

end Verif.Props
