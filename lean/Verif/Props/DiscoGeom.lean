import Mathlib.Tactic.FieldSimp
import Mathlib.Data.List.Chain
import Verif.Lemmas.DiscoGeom
import Verif.Props.Quadrature
import Verif.Props.Disco
import Verif.Props.DiscoCpu
import Verif.Props.DiscoNorm
import Verif.Props.FilterBasis
import Verif.Props.FilterMask
/-!
Property C37: the filter precomputation evaluates the basis at the polar coordinates of the input points as seen from the output
point, and the layer built from it computes the documented quadrature of filter times field. Points, distances and the rotation
to the pole are specified in `Spec/Sphere.lean`.
-/
namespace Verif.Props
open Verif Verif.Dist Verif.Quad Verif.Filter Verif.Disco Verif.Spec Finset

/-- C37: `(theta, phi)` are the polar coordinates of the input point in the frame rotated to the output point: `theta` in
`[0, pi]` is the great-circle distance, `phi` lies in `[0, 2 pi)`, the point with these coordinates is the rotated input point, and the
rotation is an isometry that takes the output point to the pole. -/
theorem C37_polar (latOut latIn lon : ℝ) :
    let p := polarAt latOut latIn lon
    (0 ≤ p.1 ∧ p.1 ≤ Real.pi) ∧ (0 ≤ p.2 ∧ p.2 < 2 * Real.pi) ∧
      p.1 = geodesic (point latIn lon) (point latOut 0) ∧
      point p.1 p.2 = toPole latOut (point latIn lon) ∧
      toPole latOut (point latOut 0) = (0, 0, 1) ∧
      ∀ u v, dot3 (toPole latOut u) (toPole latOut v) = dot3 u v := by
  obtain ⟨h1, h2, h3, h4⟩ := polarAt_spec latOut latIn lon
  exact ⟨h1, h2, h3, h4, toPole_point latOut, dot_toPole latOut⟩

/-- C37: `phi` is measured at the output point from the southward meridian direction towards the east. -/
theorem C37_azimuth (latOut latIn lon : ℝ) :
    let p := polarAt latOut latIn lon
    point latIn lon = (Real.cos p.1 * Real.sin latOut + Real.sin p.1 * Real.cos p.2 * Real.cos latOut,
      Real.sin p.1 * Real.sin p.2,
      Real.cos p.1 * Real.cos latOut - Real.sin p.1 * Real.cos p.2 * Real.sin latOut) := by
  intro p
  have h : point p.1 p.2 = toPole latOut (point latIn lon) := (C37_polar latOut latIn lon).2.2.2.1
  generalize point latIn lon = v at h ⊢
  unfold toPole at h
  obtain ⟨x, y, z⟩ := v
  have h1 : Real.sin p.1 * Real.cos p.2 = Real.cos latOut * x - Real.sin latOut * z := congrArg Prod.fst h
  have h2 : Real.sin p.1 * Real.sin p.2 = y := congrArg (fun q : ℝ × ℝ × ℝ => q.2.1) h
  have h3 : Real.cos p.1 = Real.sin latOut * x + Real.cos latOut * z := congrArg (fun q : ℝ × ℝ × ℝ => q.2.2) h
  have hs := Real.sin_sq_add_cos_sq latOut
  ext1
  · dsimp only; rw [h1, h3]; linear_combination (-x) * hs
  · ext1
    · exact h2.symm
    · dsimp only; rw [h1, h3]; linear_combination (-z) * hs

/-- C37: which entries are stored, and with which value. -/
theorem C37_entries (B : Basis) (latsIn latsOut : ℕ → ℝ) (nlatIn nlonIn nlatOut : ℕ) (rc : ℝ) (e : Entry ℝ) :
    e ∈ rawEntries B latsIn latsOut nlatIn nlonIn nlatOut rc ↔ e.ker < B.kernelSize ∧ e.row < nlatOut ∧
      ∃ i < nlatIn, ∃ j < nlonIn, e.col = i * nlonIn + j ∧
        B.val rc (geodesic (point (latsIn i) (precomputeLongitudes nlonIn j)) (point (latsOut e.row) 0))
          (polarAt (latsOut e.row) (latsIn i) (precomputeLongitudes nlonIn j)).2 e.ker = some e.val := by
  rw [rawEntries_eq, List.mem_map]
  constructor
  · rintro ⟨a, ha, rfl⟩
    obtain ⟨h1, h2, h3, h4, h5⟩ := (mem_rawTaps ..).1 ha
    refine ⟨h1, h2, a.latIn, h3, a.lonIn, h4, rfl, ?_⟩
    unfold fval at h5
    rw [(C37_polar _ _ _).2.2.1] at h5
    exact h5
  · rintro ⟨h1, h2, i, hi, j, hj, hc, hv⟩
    refine ⟨⟨e.ker, e.row, i, j, e.val⟩, (mem_rawTaps ..).2 ⟨h1, h2, hi, hj, ?_⟩, ?_⟩
    · unfold fval
      rw [(C37_polar _ _ _).2.2.1]
      exact hv
    · unfold encode
      dsimp only
      rw [← hc]

/-- The bases as the precomputation sees them. -/
noncomputable def plBasis (nr nphi : ℕ) : Basis := ⟨plKernelSize nr nphi, plMask nr nphi, plVal nr nphi⟩
noncomputable def zernikeBasis (N : ℕ) : Basis := ⟨zernikeKernelSize N, zernikeMask N, zernikeVal N⟩
noncomputable def harmonicBasis (n m : ℕ) (mask : List Bool) (norms : Option (ℕ → ℝ)) (width : ℝ) : Basis :=
  ⟨harmonicKernelSize n m, mask, harmonicVal m norms width⟩

/-- A basis that stores exactly the points of its disk. -/
def FullDisk (B : Basis) : Prop := ∀ rc r phi k, k < B.kernelSize → ((B.val rc r phi k).isSome ↔ r ≤ rc)

theorem fullDisk_zernike (N : ℕ) : FullDisk (zernikeBasis N) := by
  intro rc r phi k _
  simp only [zernikeBasis, zernikeVal]
  split <;> simp [*]

theorem fullDisk_harmonic (n m : ℕ) (mask : List Bool) (norms : Option (ℕ → ℝ)) (width : ℝ) :
    FullDisk (harmonicBasis n m mask norms width) := by
  intro rc r phi k _
  simp only [harmonicBasis, harmonicVal]
  split <;> simp [*]

/-- C37, Zernike and harmonic bases: an entry is stored exactly for the grid points within the cutoff of the output point, for every
filter. -/
theorem C37_within_cutoff (B : Basis) (hB : FullDisk B) (latsIn latsOut : ℕ → ℝ) (nlatIn nlonIn nlatOut : ℕ) (rc : ℝ) (k t i j : ℕ)
    (hk : k < B.kernelSize) (ht : t < nlatOut) (hi : i < nlatIn) (hj : j < nlonIn) :
    (∃ e ∈ rawEntries B latsIn latsOut nlatIn nlonIn nlatOut rc, e.ker = k ∧ e.row = t ∧ e.col = i * nlonIn + j) ↔
      geodesic (point (latsIn i) (precomputeLongitudes nlonIn j)) (point (latsOut t) 0) ≤ rc := by
  rw [← hB rc _ (polarAt (latsOut t) (latsIn i) (precomputeLongitudes nlonIn j)).2 k hk]
  constructor
  · rintro ⟨e, he, rfl, rfl, hc⟩
    obtain ⟨-, -, i', hi', j', hj', hc', hv⟩ := (C37_entries ..).1 he
    have := col_inj hj hj' (hc.symm.trans hc')
    obtain ⟨rfl, rfl⟩ := this
    rw [hv]; rfl
  · intro h
    obtain ⟨v, hv⟩ := Option.isSome_iff_exists.1 h
    exact ⟨⟨k, t, i * nlonIn + j, v⟩, (C37_entries ..).2 ⟨hk, ht, i, hi, j, hj, rfl, hv⟩, rfl, rfl, rfl⟩
/-- C37, piecewise linear basis: entries only within the cutoff, and every grid point strictly within the cutoff carries an entry of
some filter with positive value. -/
theorem C37_within_cutoff_pl (nr nphi : ℕ) (hnr : 1 ≤ nr) (hn : 1 ≤ nphi) (hodd : nphi = 1 → nr % 2 = 1) (latsIn latsOut : ℕ → ℝ)
    (nlatIn nlonIn nlatOut : ℕ) (rc : ℝ) (hrc : 0 < rc) (t i j : ℕ) (ht : t < nlatOut) (hi : i < nlatIn) (hj : j < nlonIn) :
    let d := geodesic (point (latsIn i) (precomputeLongitudes nlonIn j)) (point (latsOut t) 0)
    (∀ e ∈ rawEntries (plBasis nr nphi) latsIn latsOut nlatIn nlonIn nlatOut rc, e.row = t → e.col = i * nlonIn + j →
      d ≤ rc ∧ 0 ≤ e.val) ∧
    (d < rc → ∃ e ∈ rawEntries (plBasis nr nphi) latsIn latsOut nlatIn nlonIn nlatOut rc, e.row = t ∧ e.col = i * nlonIn + j ∧ 0 < e.val) := by
  intro d
  obtain ⟨h1, h2, h3, -⟩ := C37_polar (latsOut t) (latsIn i) (precomputeLongitudes nlonIn j)
  have hd0 : 0 ≤ d := by rw [h3] at h1; exact h1.1
  constructor
  · rintro e he rfl hc
    obtain ⟨-, -, i', hi', j', hj', hc', hv⟩ := (C37_entries ..).1 he
    obtain ⟨rfl, rfl⟩ := col_inj hj hj' (hc.symm.trans hc')
    refine ⟨?_, C36_nonneg nr nphi rc _ _ hrc hd0 _ _ hv⟩
    by_contra hlt
    have hv' : plVal nr nphi rc d (polarAt (latsOut e.row) (latsIn i) (precomputeLongitudes nlonIn j)).2 e.ker = some e.val := hv
    rw [C36_support nr nphi rc d _ hrc (not_le.1 hlt)] at hv'
    cases hv'
  · intro hlt
    have hpi := Real.pi_pos
    set phi := (polarAt (latsOut t) (latsIn i) (precomputeLongitudes nlonIn j)).2
    have hsum := C36_partition_of_unity nr nphi hnr hn hodd rc d phi hrc hd0 hlt.le (by linarith [h2.1]) h2.2
    have hpos : 0 < ∑ k ∈ range (plKernelSize nr nphi), (plVal nr nphi rc d phi k).getD 0 := by
      rw [hsum]
      split
      · exact one_pos
      · exact div_pos (by linarith) (by positivity)
    obtain ⟨k, hk, hkp⟩ : ∃ k ∈ range (plKernelSize nr nphi), 0 < (plVal nr nphi rc d phi k).getD 0 := by
      by_contra hno
      push Not at hno
      exact absurd hpos (not_lt.2 (sum_nonpos hno))
    cases hv : plVal nr nphi rc d phi k with
    | none => rw [hv] at hkp; exact absurd hkp (lt_irrefl _)
    | some v =>
      rw [hv] at hkp
      exact ⟨⟨k, t, i * nlonIn + j, v⟩, (C37_entries ..).2 ⟨mem_range.1 hk, ht, i, hi, j, hj, rfl, hv⟩, rfl, rfl, hkp⟩

/-- C37: the stencil stored for output longitude 0, shifted by `p` output longitudes, keeps its distances: the grid point it then
touches is as far from output point `(t, p)`. -/
theorem C37_shifted (ga a : ℝ) (nlonIn nlonOut : ℕ) (hW : 0 < nlonOut) (hI : 0 < nlonIn) (hd : nlonOut ∣ nlonIn) (j p : ℕ) :
    geodesic (point ga (precomputeLongitudes nlonIn ((j + p * (nlonIn / nlonOut)) % nlonIn))) (point a (precomputeLongitudes nlonOut p))
      = geodesic (point ga (precomputeLongitudes nlonIn j)) (point a 0) := by
  obtain ⟨s, rfl⟩ := hd
  have hs : 0 < s := Nat.pos_of_mul_pos_left hI
  have hlon : ∀ n i, precomputeLongitudes n i = 2 * Real.pi * i / n := by
    intro n i; unfold precomputeLongitudes linspace; push_cast
    rw [add_sub_cancel_right, zero_add, sub_zero]
  rw [Nat.mul_div_cancel_left _ hW, ← geodesic_shift ga _ a (precomputeLongitudes nlonOut p)]
  refine geodesic_lon_congr _ _ _ _ _ (-(((j + p * s) / (nlonOut * s) : ℕ) : ℤ)) ?_
  have hW' : (nlonOut : ℝ) ≠ 0 := by positivity
  have hs' : (s : ℝ) ≠ 0 := by positivity
  have hdm : (((j + p * s) % (nlonOut * s) : ℕ) : ℝ) = j + p * s - (nlonOut * s) * (((j + p * s) / (nlonOut * s) : ℕ) : ℝ) := by
    have := Nat.mod_add_div (j + p * s) (nlonOut * s)
    have h : (((j + p * s) % (nlonOut * s) : ℕ) : ℝ) + ((nlonOut * s) * (((j + p * s) / (nlonOut * s) : ℕ) : ℝ)) = j + p * s := by
      exact_mod_cast this
    linarith
  rw [hlon, hlon, hlon, hdm]
  generalize (j + p * s) / (nlonOut * s) = q
  push_cast
  field_simp
  ring

/-- C37: the stored entries meet the conditions under which the optimised kernels are correct (C30): they fit the grids, the
rows are in order, the offsets are the running counts. -/
theorem C37_stored_form (B : Basis) (latsIn latsOut : ℕ → ℝ) (nlatIn nlonIn nlatOut : ℕ) (rc : ℝ) :
    ∃ taps, rawEntries B latsIn latsOut nlatIn nlonIn nlatOut rc = taps.map (encode nlonIn) ∧
      Fits taps B.kernelSize nlatOut nlatIn nlonIn ∧ RowSorted (taps.map (encode nlonIn)) ∧
      ∀ t ≤ nlatOut, rowOffsetsRaw B latsIn latsOut nlatIn nlonIn rc t
        = ((rawEntries B latsIn latsOut nlatIn nlonIn nlatOut rc).filter fun e => e.row < t).length := by
  refine ⟨rawTaps B latsIn latsOut nlatIn nlonIn nlatOut rc, rawEntries_eq .., fits_rawTaps _ _ _ _ _ _ _, ?_, ?_⟩
  · rw [← rawEntries_eq]; exact rowSorted_rawEntries _ _ _ _ _ _ _
  · intro t ht
    rw [rowOffsetsRaw_eq]
    obtain ⟨d, rfl⟩ := Nat.exists_eq_add_of_le ht
    unfold rawEntries
    rw [List.range_add, List.flatMap_append, List.filter_append, List.filter_eq_self.2, List.filter_eq_nil_iff.2, List.append_nil]
    · intro e he
      obtain ⟨t', ht', he⟩ := List.mem_flatMap.1 he
      obtain ⟨u, -, rfl⟩ := List.mem_map.1 ht'
      obtain ⟨h, -, rfl⟩ := List.mem_map.1 he
      simp
    · intro e he
      obtain ⟨t', ht', he⟩ := List.mem_flatMap.1 he
      obtain ⟨h, -, rfl⟩ := List.mem_map.1 he
      simpa using ht'

/-- C37: when every filter has an entry at every output latitude and there are at least two output latitudes, no filter starts
with the row the preceding one ended with, so the row runs of the optimised layout (C31) are well formed. -/
theorem C37_no_collision (B : Basis) (latsIn latsOut : ℕ → ℝ) (nlatIn nlonIn nlatOut : ℕ) (rc : ℝ) (h2 : 2 ≤ nlatOut)
    (hall : ∀ k < B.kernelSize, ∀ t < nlatOut, ∃ e ∈ rawEntries B latsIn latsOut nlatIn nlonIn nlatOut rc, e.ker = k ∧ e.row = t) :
    NoCollision B.kernelSize (rawEntries B latsIn latsOut nlatIn nlonIn nlatOut rc) := by
  have hfit : ∀ e ∈ rawEntries B latsIn latsOut nlatIn nlonIn nlatOut rc, e.ker < B.kernelSize := fun e he => ((C37_entries ..).1 he).1
  have hperm := byKernel_perm B.kernelSize _ hfit
  have hs := byKernel_sorted B.kernelSize (rawEntries B latsIn latsOut nlatIn nlonIn nlatOut rc)
  have hl := byKernel_lex B.kernelSize _ (rowSorted_rawEntries B latsIn latsOut nlatIn nlonIn nlatOut rc)
  unfold NoCollision
  rw [List.isChain_iff_forall_rel_of_append_cons_cons]
  intro a b l₁ l₂ hlist hne
  rw [hlist] at hs hl hperm
  have hmem : ∀ e, e ∈ l₁ ++ a :: b :: l₂ ↔ e ∈ rawEntries B latsIn latsOut nlatIn nlonIn nlatOut rc := fun e => hperm.mem_iff
  have ha : a.ker < B.kernelSize := hfit a ((hmem a).1 (by simp))
  have hb : b.ker < B.kernelSize := hfit b ((hmem b).1 (by simp))
  obtain ⟨ea, hea, hka, hra⟩ := hall a.ker ha (nlatOut - 1) (by omega)
  obtain ⟨eb, heb, hkb, hrb⟩ := hall b.ker hb 0 (by omega)
  rw [← hmem] at hea heb
  rw [List.pairwise_append] at hs hl
  obtain ⟨hs1, hs2, hs3⟩ := hs
  obtain ⟨hl1, hl2, hl3⟩ := hl
  rw [List.pairwise_cons, List.pairwise_cons] at hs2 hl2
  have hab : a.ker < b.ker := lt_of_le_of_ne (hs2.1 b (by simp)) hne
  have hra' : nlatOut - 1 ≤ a.row := by
    rcases List.mem_append.1 hea with h | h
    · rw [← hra]; exact hl3 ea h a (by simp) hka
    · rcases List.mem_cons.1 h with h | h
      · rw [← h, hra]
      · exfalso
        rcases List.mem_cons.1 h with h | h
        · rw [h] at hka; omega
        · have := hs2.2.1 ea h; omega
  have hrb' : b.row ≤ 0 := by
    rcases List.mem_append.1 heb with h | h
    · have := hs3 eb h a (by simp); omega
    · rcases List.mem_cons.1 h with h | h
      · rw [h] at hkb; omega
      · rcases List.mem_cons.1 h with h | h
        · rw [← h, hrb]
        · rw [← hrb]; exact hl2.2.1 eb h hkb.symm
  omega

/-- The condition of `C37_no_collision` is met by the Zernike and harmonic bases whenever every output latitude is also an input
latitude (the same grid on both sides, say). -/
theorem C37_no_collision_same_grid (B : Basis) (hB : FullDisk B) (latsIn latsOut : ℕ → ℝ) (nlatIn nlonIn nlatOut : ℕ) (rc : ℝ) (hrc : 0 ≤ rc)
    (hI : 0 < nlonIn) (h2 : 2 ≤ nlatOut) (hsub : ∀ t < nlatOut, ∃ i < nlatIn, latsIn i = latsOut t) :
    NoCollision B.kernelSize (rawEntries B latsIn latsOut nlatIn nlonIn nlatOut rc) := by
  refine C37_no_collision B latsIn latsOut nlatIn nlonIn nlatOut rc h2 fun k hk t ht => ?_
  obtain ⟨i, hi, he⟩ := hsub t ht
  obtain ⟨e, h, h1, h3, -⟩ := (C37_within_cutoff B hB latsIn latsOut nlatIn nlonIn nlatOut rc k t i 0 hk ht hi hI).2 (by
    rw [he, (C05_longitudes nlonIn 0 hI).2.1]
    unfold geodesic
    rw [dot_point, Real.arccos_one]
    exact hrc)
  exact ⟨e, h, h1, h3⟩

/-- The weight of grid point `(i, lon)` in filter `k` at output latitude `t`, at longitude distance `d`. -/
noncomputable def psiAt (B : Basis) (latsIn latsOut : ℕ → ℝ) (rc : ℝ) (k t i : ℕ) (d : ℝ) : ℝ :=
  (B.val rc (polarAt (latsOut t) (latsIn i) d).1 (polarAt (latsOut t) (latsIn i) d).2 k).getD 0

theorem polarAt_periodic (a ga be be' : ℝ) (n : ℤ) (h : be' = be + n * (2 * Real.pi)) : polarAt a ga be' = polarAt a ga be := by
  unfold polarAt rotated
  rw [h, Real.cos_add_int_mul_two_pi, Real.sin_add_int_mul_two_pi]

theorem sum_rotate (n s : ℕ) (f : ℕ → ℝ) : ∑ j ∈ range n, f ((j + s) % n) = ∑ j ∈ range n, f j := by
  rcases Nat.eq_zero_or_pos n with rfl | hn
  · simp
  refine sum_bij' (fun j _ => (j + s) % n) (fun j _ => (j + (n - s % n)) % n) ?_ ?_ ?_ ?_ ?_
  · intro j _; exact mem_range.2 (Nat.mod_lt _ hn)
  · intro j _; exact mem_range.2 (Nat.mod_lt _ hn)
  · intro j hj
    have hj' := mem_range.1 hj
    have hs := Nat.mod_lt s hn
    rw [Nat.mod_add_mod]
    have := Nat.div_add_mod s n
    have : j + s + (n - s % n) = j + n * (s / n + 1) := by rw [mul_add]; omega
    rw [this, Nat.add_mul_mod_self_left, Nat.mod_eq_of_lt hj']
  · intro j hj
    have hj' := mem_range.1 hj
    have hs := Nat.mod_lt s hn
    rw [Nat.mod_add_mod]
    have := Nat.div_add_mod s n
    have : j + (n - s % n) + s = j + n * (s / n + 1) := by rw [mul_add]; omega
    rw [this, Nat.add_mul_mod_self_left, Nat.mod_eq_of_lt hj']
  · intro j _; rfl

/-- Shifting the stencil by `p` output longitudes is the same as evaluating the filter at the longitude differences. -/
theorem sum_shifted (B : Basis) (latsIn latsOut : ℕ → ℝ) (rc : ℝ) (k t i nlonIn nlonOut : ℕ) (hW : 0 < nlonOut) (hI : 0 < nlonIn)
    (hd : nlonOut ∣ nlonIn) (p : ℕ) (x : ℕ → ℝ) :
    ∑ j ∈ range nlonIn, psiAt B latsIn latsOut rc k t i (precomputeLongitudes nlonIn j) * x ((j + p * (nlonIn / nlonOut)) % nlonIn)
      = ∑ j ∈ range nlonIn, psiAt B latsIn latsOut rc k t i (precomputeLongitudes nlonIn j - precomputeLongitudes nlonOut p) * x j := by
  rw [← sum_rotate nlonIn (p * (nlonIn / nlonOut))
    (fun j => psiAt B latsIn latsOut rc k t i (precomputeLongitudes nlonIn j - precomputeLongitudes nlonOut p) * x j)]
  refine sum_congr rfl fun j _ => ?_
  congr 1
  unfold psiAt
  have hlon : ∀ n i, precomputeLongitudes n i = 2 * Real.pi * i / n := by
    intro n i; unfold precomputeLongitudes linspace; push_cast
    rw [add_sub_cancel_right, zero_add, sub_zero]
  obtain ⟨s, rfl⟩ := hd
  have hs : 0 < s := Nat.pos_of_mul_pos_left hI
  rw [Nat.mul_div_cancel_left _ hW]
  rw [polarAt_periodic (latsOut t) (latsIn i) (precomputeLongitudes (nlonOut * s) j)
    (precomputeLongitudes (nlonOut * s) ((j + p * s) % (nlonOut * s)) - precomputeLongitudes nlonOut p)
    (-(((j + p * s) / (nlonOut * s) : ℕ) : ℤ)) ?_]
  have hW' : (nlonOut : ℝ) ≠ 0 := by positivity
  have hs' : (s : ℝ) ≠ 0 := by positivity
  have hdm : (((j + p * s) % (nlonOut * s) : ℕ) : ℝ) = j + p * s - (nlonOut * s) * (((j + p * s) / (nlonOut * s) : ℕ) : ℝ) := by
    have := Nat.mod_add_div (j + p * s) (nlonOut * s)
    have h : (((j + p * s) % (nlonOut * s) : ℕ) : ℝ) + ((nlonOut * s) * (((j + p * s) / (nlonOut * s) : ℕ) : ℝ)) = j + p * s := by
      exact_mod_cast this
    linarith
  rw [hlon, hlon, hlon, hdm]
  generalize (j + p * s) / (nlonOut * s) = q
  push_cast
  field_simp
  ring

/-- What a successful `convEntries` says. -/
theorem convEntries_ok {gauss : ℕ → Rule} {tol : ℝ} {maxiter nlatIn nlonIn nlatOut nlonOut : ℕ} {B : Basis} {gridIn gridOut mode : String}
    {theta : Option ℝ} {es : List (Entry ℝ)}
    (h : convEntries gauss tol maxiter nlatIn nlonIn nlatOut nlonOut B gridIn gridOut mode theta = .ok es) :
    ∃ cutoff rin rout, cutoff = theta.getD (Real.pi / ((nlatOut : ℝ) - 1)) ∧ 0 < cutoff ∧ 0 < nlonOut ∧ nlonOut ∣ nlonIn ∧ 0 < nlatOut ∧
      precomputeLatitudes gauss tol maxiter nlatIn gridIn = .ok rin ∧ precomputeLatitudes gauss tol maxiter nlatOut gridOut = .ok rout ∧
      Disco.normalize (preNorm ⟨nlatIn, nlonIn, nlatOut, nlonOut, B, gridIn, gridOut, cutoff, 1 / 10 ^ 3, false, mode, true⟩ rin rout) mode
        (rawEntries B rin.x rout.x nlatIn nlonIn nlatOut ((1 + 1 / 10 ^ 3) * cutoff)) = .ok es := by
  unfold convEntries at h
  split at h
  · cases h
  split at h
  · cases h
  split at h
  · cases h
  dsimp only at h
  split at h
  · cases h
  next h1 h2 h3 h4 =>
    refine ⟨theta.getD (Real.pi / ((nlatOut : ℝ) - 1)), ?_⟩
    unfold precompute at h
    dsimp only at h
    split at h
    · cases h
    next r hr =>
      split at hr
      · cases hr
      next rin hin =>
        split at hr
        · cases hr
        next rout hout =>
          split at hr
          · cases hr
          next h5 =>
            split at hr
            · cases hr
            next es' hn =>
              cases hr
              cases h
              refine ⟨rin, rout, rfl, not_le.1 h4, by omega, Nat.dvd_of_mod_eq_zero (by omega), by omega, hin, hout, hn⟩

/-- The value the normalised convolution is documented to have at output point `(t, p)` for one input channel `x` and filter `k`:
quadrature of filter times field over the sphere, divided by the absolute integral of the filter. The quadrature weight of a
grid point is `w_i / (2 nlon)`, so that the weights of the whole grid add up to 1. -/
noncomputable def filteredValue (B : Basis) (rin rout : Rule) (nlonIn nlonOut : ℕ) (rc : ℝ) (x : ℕ → ℕ → ℝ) (k t p : ℕ) : ℝ :=
  (∑ i ∈ range rin.n, ∑ j ∈ range nlonIn,
      psiAt B rin.x rout.x rc k t i (precomputeLongitudes nlonIn j - precomputeLongitudes nlonOut p) * (rin.w i / nlonIn / 2) * x i j)
    / max (∑ i ∈ range rin.n, ∑ j ∈ range nlonIn,
      |psiAt B rin.x rout.x rc k t i (precomputeLongitudes nlonIn j)| * (rin.w i / nlonIn / 2)) (1 / 10 ^ 9)

/-- C37 together with C28 and C35, the whole layer: for every grid, basis, cutoff, field and weight, the layer built with nodal
normalisation returns at output point `(t, p)` the weighted sum over channels and filters of the normalised quadrature of
filter times field, the filter being evaluated at the polar coordinates (`C37_polar`) of the input points around the output point. -/
theorem C37_layer (gauss : ℕ → Rule) (tol : ℝ) (maxiter nlatIn nlonIn nlatOut nlonOut : ℕ) (B : Basis) (gridIn gridOut : String)
    (theta : Option ℝ) (es : List (Entry ℝ)) (rin rout : Rule)
    (hes : convEntries gauss tol maxiter nlatIn nlonIn nlatOut nlonOut B gridIn gridOut "nodal" theta = .ok es)
    (hin : precomputeLatitudes gauss tol maxiter nlatIn gridIn = .ok rin)
    (hout : precomputeLatitudes gauss tol maxiter nlatOut gridOut = .ok rout) (hn : rin.n = nlatIn)
    (hI : 0 < nlonIn) (hK : 0 < B.kernelSize) (hmask : B.mask.length = B.kernelSize) (hle : nlatOut ≤ nlonIn)
    (L : Layer ℝ) (hL : L.entries = es ∧ L.kernelSize = B.kernelSize ∧ L.nlatIn = nlatIn ∧ L.nlonIn = nlonIn ∧ L.nlatOut = nlatOut ∧
      L.nlonOut = nlonOut) (x : Ten ℝ) (hx : x.d0 = L.groups * L.groupsize ∧ x.d1 = nlatIn ∧ x.d2 = nlonIn) :
    ∃ y, L.forward x = .ok y ∧ y.d0 = L.groups * L.outPerGroup ∧ y.d1 = nlatOut ∧ y.d2 = nlonOut ∧
      ∀ oc, ∀ t < nlatOut, ∀ p < nlonOut, y.val oc t p = (∑ c ∈ range L.groupsize, ∑ k ∈ range B.kernelSize,
        filteredValue B rin rout nlonIn nlonOut ((1 + 1 / 10 ^ 3) * theta.getD (Real.pi / ((nlatOut : ℝ) - 1)))
          (x.val (oc / L.outPerGroup * L.groupsize + c)) k t p * L.weight oc c k)
        + (match L.bias with | none => 0 | some b => b oc) := by
  obtain ⟨cutoff, rin', rout', hc, hpos, hW, hd, -, hin', hout', hnorm⟩ := convEntries_ok hes
  rw [hin] at hin'; cases hin'
  rw [hout] at hout'; cases hout'
  rw [← hc]
  set rc := (1 + 1 / 10 ^ 3) * cutoff with hrc
  set P : PreArgs := ⟨nlatIn, nlonIn, nlatOut, nlonOut, B, gridIn, gridOut, cutoff, 1 / 10 ^ 3, false, "nodal", true⟩
  set taps := rawTaps B rin.x rout.x nlatIn nlonIn nlatOut rc with htaps
  have hfit := fits_rawTaps B rin.x rout.x nlatIn nlonIn nlatOut rc
  have hA : NormFits (preNorm P rin rout) taps := by
    refine ⟨hI, hfit, ?_, ?_, hK⟩
    · exact hn
    · intro m hm
      cases hm
      exact hmask
  have hq : ∀ i, (preNorm P rin rout).quad.val i = rin.w i / nlonIn / 2 := fun i => rfl
  have hval := normalize_val hA "nodal" (normAlias_nodal (Or.inl rfl) ▸ knownMode_nodal)
  rw [rawEntries_eq] at hnorm
  have hnorm' : Disco.normalize (preNorm P rin rout) "nodal" (taps.map (encode (preNorm P rin rout).nlonIn)) = .ok es := hnorm
  rw [hval, normAlias_nodal (Or.inl rfl)] at hnorm'
  injection hnorm' with hes'
  set taps' := taps.map fun a => { a with val := finishOf (preNorm P rin rout) a (selectOf (preNorm P rin rout) "nodal" taps a) }
  have hS : ∀ k t, scaleOf (preNorm P rin rout) "nodal" taps k t = rowSum taps k t fun a => |a.val| * (rin.w a.latIn / nlonIn / 2) := by
    intro k t
    unfold scaleOf
    have hb : biasOf (preNorm P rin rout) "nodal" taps k t = 0 := by
      unfold biasOf; dsimp only; rw [if_neg (fun h => by simp at h)]
    rw [hb]
    simp only [sub_zero, hq]
    rfl
  have hv : ∀ a, finishOf (preNorm P rin rout) a (selectOf (preNorm P rin rout) "nodal" taps a)
      = a.val / max (rowSum taps a.ker a.latOut fun a => |a.val| * (rin.w a.latIn / nlonIn / 2)) (1 / 10 ^ 9) * (rin.w a.latIn / nlonIn / 2) := by
    intro a
    have hb : ∀ k t, biasOf (preNorm P rin rout) "nodal" taps k t = 0 := by
      intro k t; unfold biasOf; dsimp only; rw [if_neg (fun h => by simp at h)]
    rw [← hS]
    unfold finishOf selectOf
    rw [hb]
    simp only [true_or, if_true, sub_zero, hq]
    rfl
  have hLof : LayerOf L taps' := by
    obtain ⟨e1, e2, e3, e4, e5, e6⟩ := hL
    refine ⟨?_, ?_, by omega, by rw [e6, e4]; exact hd, by omega⟩
    · rw [e1, ← hes', e4]; rfl
    · intro a ha
      obtain ⟨b, hb, rfl⟩ := List.mem_map.1 ha
      rw [e2, e3, e4, e5]
      exact hfit b hb
  obtain ⟨y, h1, h2, h3, h4, h5⟩ := C28_layer L taps' hLof x ⟨hx.1, by rw [hx.2.1, hL.2.2.1], by rw [hx.2.2, hL.2.2.2.1]⟩
  obtain ⟨-, e2, -, e4, e5, e6⟩ := hL
  refine ⟨y, h1, h2, by rw [h3, e5], by rw [h4, e6], ?_⟩
  intro oc t ht p hp
  rw [h5 oc t p (by omega), e2, e4, e6]
  refine congrArg₂ (· + ·) ?_ (by cases L.bias <;> rfl)
  refine sum_congr rfl fun c _ => sum_congr rfl fun k hk => ?_
  have hk := mem_range.1 hk
  congr 1
  generalize x.val (oc / L.outPerGroup * L.groupsize + c) = z
  set S := rowSum taps k t fun a => |a.val| * (rin.w a.latIn / nlonIn / 2) with hSdef
  have hd1 : discoSum taps' nlonIn nlonOut z k t p
      = rowSum taps k t fun a => a.val / max S (1 / 10 ^ 9) * (rin.w a.latIn / nlonIn / 2) * z a.latIn (a.column nlonIn nlonOut p) := by
    unfold discoSum rowSum
    simp only [taps', List.map_map]
    congr 1
    refine List.map_congr_left fun a _ => ?_
    simp only [Function.comp]
    by_cases hcond : a.ker = k ∧ a.latOut = t
    · rw [if_pos hcond, if_pos hcond, hv a, hcond.1, hcond.2]
      rfl
    · rw [if_neg hcond, if_neg hcond]
  have hsum : ∀ f : ℕ → ℕ → ℝ → ℝ, (∀ i j, f i j 0 = 0) → rowSum taps k t (fun a => f a.latIn a.lonIn a.val)
      = ∑ i ∈ range nlatIn, ∑ j ∈ range nlonIn, f i j (psiAt B rin.x rout.x rc k t i (precomputeLongitudes nlonIn j)) := by
    intro f hf
    rw [htaps, sum_rawTaps B rin.x rout.x nlatIn nlonIn nlatOut rc k t hk ht]
    refine sum_congr rfl fun i _ => sum_congr rfl fun j _ => ?_
    unfold psiAt
    change _ = f i j ((fval B rin.x rout.x nlonIn rc k t i j).getD 0)
    cases fval B rin.x rout.x nlonIn rc k t i j with
    | none => exact (hf i j).symm
    | some v => rfl
  rw [hd1]
  unfold filteredValue
  have hS2 : S = ∑ i ∈ range rin.n, ∑ j ∈ range nlonIn,
      |psiAt B rin.x rout.x rc k t i (precomputeLongitudes nlonIn j)| * (rin.w i / nlonIn / 2) := by
    rw [hSdef, hsum (fun i _ v => |v| * (rin.w i / nlonIn / 2)) (fun _ _ => by simp), hn]
  rw [← hS2]
  have := hsum (fun i j v => v / max S (1 / 10 ^ 9) * (rin.w i / nlonIn / 2) * z i ((j + p * (nlonIn / nlonOut)) % nlonIn)) (fun _ _ => by simp)
  rw [show (fun a : Tap ℝ => a.val / max S (1 / 10 ^ 9) * (rin.w a.latIn / nlonIn / 2) * z a.latIn (a.column nlonIn nlonOut p))
    = fun a => a.val / max S (1 / 10 ^ 9) * (rin.w a.latIn / nlonIn / 2) * z a.latIn ((a.lonIn + p * (nlonIn / nlonOut)) % nlonIn) from rfl, this]
  rw [sum_div, hn]
  refine sum_congr rfl fun i _ => ?_
  have hsh := sum_shifted B rin.x rout.x rc k t i nlonIn nlonOut hW hI hd p (z i)
  have r1 : ∀ j ∈ range nlonIn, psiAt B rin.x rout.x rc k t i (precomputeLongitudes nlonIn j) / max S (1 / 10 ^ 9) * (rin.w i / nlonIn / 2)
        * z i ((j + p * (nlonIn / nlonOut)) % nlonIn)
      = (rin.w i / nlonIn / 2 / max S (1 / 10 ^ 9)) * (psiAt B rin.x rout.x rc k t i (precomputeLongitudes nlonIn j)
        * z i ((j + p * (nlonIn / nlonOut)) % nlonIn)) := fun j _ => by ring
  have r2 : ∀ j ∈ range nlonIn, psiAt B rin.x rout.x rc k t i (precomputeLongitudes nlonIn j - precomputeLongitudes nlonOut p)
        * (rin.w i / nlonIn / 2) * z i j
      = (rin.w i / nlonIn / 2) * (psiAt B rin.x rout.x rc k t i (precomputeLongitudes nlonIn j - precomputeLongitudes nlonOut p) * z i j) :=
    fun j _ => by ring
  rw [sum_congr rfl r1, sum_congr rfl r2, ← mul_sum, ← mul_sum, hsh]
  ring

/-- C37: on equiangular grids and with the piecewise linear basis the construction succeeds, so `C37_layer` applies to it. -/
theorem C37_layer_exists (gauss : ℕ → Rule) (tol : ℝ) (maxiter nlatIn nlonIn nlatOut nlonOut nr nphi : ℕ) (hin : 2 ≤ nlatIn) (hout : 2 ≤ nlatOut)
    (hI : 0 < nlonIn) (hW : 0 < nlonOut) (hd : nlonOut ∣ nlonIn) (hK : 0 < plKernelSize nr nphi) :
    ∃ es rin rout, convEntries gauss tol maxiter nlatIn nlonIn nlatOut nlonOut (plBasis nr nphi) "equiangular" "equiangular" "nodal" none = .ok es ∧
      precomputeLatitudes gauss tol maxiter nlatIn "equiangular" = .ok rin ∧ rin.n = nlatIn ∧
      precomputeLatitudes gauss tol maxiter nlatOut "equiangular" = .ok rout ∧ (plBasis nr nphi).mask.length = (plBasis nr nphi).kernelSize := by
  obtain ⟨rin, h1, h2, -⟩ := C05_equiangular_latitudes gauss tol maxiter nlatIn hin
  obtain ⟨rout, h3, h4, -⟩ := C05_equiangular_latitudes gauss tol maxiter nlatOut hout
  have hpos : 0 < Real.pi / ((nlatOut : ℝ) - 1) := by
    have : (2 : ℝ) ≤ nlatOut := by exact_mod_cast hout
    exact div_pos Real.pi_pos (by linarith)
  have hA : NormFits (preNorm ⟨nlatIn, nlonIn, nlatOut, nlonOut, plBasis nr nphi, "equiangular", "equiangular",
      Real.pi / ((nlatOut : ℝ) - 1), 1 / 10 ^ 3, false, "nodal", true⟩ rin rout)
      (rawTaps (plBasis nr nphi) rin.x rout.x nlatIn nlonIn nlatOut ((1 + 1 / 10 ^ 3) * (Real.pi / ((nlatOut : ℝ) - 1)))) := by
    refine ⟨hI, fits_rawTaps _ _ _ _ _ _ _, h2, ?_, hK⟩
    intro m hm
    cases hm
    exact C60_pl_mask_length nr nphi
  have hval := normalize_val hA "nodal" (normAlias_nodal (Or.inl rfl) ▸ knownMode_nodal)
  suffices h : ∃ es, convEntries gauss tol maxiter nlatIn nlonIn nlatOut nlonOut (plBasis nr nphi) "equiangular" "equiangular" "nodal"
      none = .ok es by
    obtain ⟨es, h⟩ := h
    exact ⟨es, rin, rout, h, h1, h2, h3, C60_pl_mask_length nr nphi⟩
  unfold convEntries
  rw [if_neg (by omega), if_neg (by rw [not_not]; exact Nat.mod_eq_zero_of_dvd hd), if_neg (fun h => by omega)]
  dsimp only [Option.getD_none]
  rw [if_neg (not_le.2 hpos)]
  unfold precompute
  dsimp only
  rw [h1]
  dsimp only
  rw [h3]
  dsimp only
  rw [if_neg (by omega), rawEntries_eq]
  have := hval
  dsimp only [preNorm] at this
  dsimp only [preNorm]
  rw [this]
  exact ⟨_, rfl⟩

/-- C37: requests the constructor refuses. -/
theorem C37_error (gauss : ℕ → Rule) (tol : ℝ) (maxiter nlatIn nlonIn nlatOut nlonOut : ℕ) (B : Basis) (gridIn gridOut mode : String)
    (theta : Option ℝ) :
    (0 < nlonOut → ¬ nlonOut ∣ nlonIn →
      convEntries gauss tol maxiter nlatIn nlonIn nlatOut nlonOut B gridIn gridOut mode theta = .error .valueError) ∧
    (∀ c, theta = some c → c ≤ 0 → 0 < nlonOut →
      convEntries gauss tol maxiter nlatIn nlonIn nlatOut nlonOut B gridIn gridOut mode theta = .error .valueError) ∧
    (theta = none → nlatOut = 1 → 0 < nlonOut → nlonOut ∣ nlonIn →
      convEntries gauss tol maxiter nlatIn nlonIn nlatOut nlonOut B gridIn gridOut mode theta = .error .zeroDivision) := by
  unfold convEntries
  refine ⟨fun h1 h2 => ?_, fun c hc h1 h2 => ?_, fun h1 h2 h3 h4 => ?_⟩
  · rw [if_neg (by omega), if_pos (fun h => h2 (Nat.dvd_of_mod_eq_zero h))]
  · subst hc
    rw [if_neg (by omega)]
    by_cases h3 : nlonIn % nlonOut ≠ 0
    · rw [if_pos h3]
    · rw [if_neg h3, if_neg (fun h => by simp at h)]
      dsimp only [Option.getD_some]
      rw [if_pos h1]
  · rw [if_neg (by omega), if_neg (by rw [not_not]; exact Nat.mod_eq_zero_of_dvd h4), if_pos ⟨h1, h2⟩]

/-- The north pole seen from the equator: distance `pi / 2`. -/
example : (polarAt (Real.pi / 2) 0 0).1 = Real.pi / 2 := by
  rw [(C37_polar _ _ _).2.2.1]
  simp [geodesic, dot3, point]

example : FullDisk (zernikeBasis 3) ∧ 0 < (zernikeBasis 3).kernelSize := ⟨fullDisk_zernike 3, by decide⟩

end Verif.Props
