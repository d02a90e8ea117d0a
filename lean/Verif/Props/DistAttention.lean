import Verif.Lemmas.DistAttentionMax
/-!
Property theorems C53: distributed neighbourhood attention gives every rank its tile of the serial result.
-/
namespace Verif.Props
open Verif Verif.Dist Verif.Ring Verif.Spec Verif.Spec.Attn Verif.Spec.Ring Finset

/-! ### The constructor -/

theorem zip_all_iff {n m Pa s : ℕ} {big small : List ℕ} (hb : computeSplitShapes n Pa = .ok big) (hs : computeSplitShapes m Pa = .ok small) :
    ((big.zip small).all fun t => t.1 = s * t.2) = true ↔ ∀ r < Pa, blockSize n Pa r = s * blockSize m Pa r := by
  have lb := css_length hb
  have ls := css_length hs
  rw [List.all_eq_true]
  constructor
  · intro h r hr
    have hm : (big.getD r 0, small.getD r 0) ∈ big.zip small := by
      rw [List.getD_eq_getElem _ _ (by omega), List.getD_eq_getElem _ _ (by omega)]
      rw [List.mem_iff_getElem]
      exact ⟨r, by rw [List.length_zip]; omega, by rw [List.getElem_zip]⟩
    have := h _ hm
    rw [css_getD_block hb r hr, css_getD_block hs r hr] at this
    simpa using this
  · intro h t ht
    obtain ⟨r, hr, rfl⟩ := List.mem_iff_getElem.1 ht
    rw [List.length_zip] at hr
    rw [List.getElem_zip]
    have h1 := css_getD_block hb r (by omega)
    have h2 := css_getD_block hs r (by omega)
    rw [List.getD_eq_getElem _ _ (by omega)] at h1 h2
    rw [h1, h2]
    simpa using h r (by omega)

/-- Blocks of `s * m` points are `s` times the blocks of `m` points on every rank exactly when `s = 1` or the ranks divide `m`. -/
theorem blocks_scale {m Pa s : ℕ} (hPa : 0 < Pa) (hs : 0 < s) :
    (∀ r < Pa, blockSize (s * m) Pa r = s * blockSize m Pa r) ↔ s = 1 ∨ Pa ∣ m := by
  constructor
  · intro h
    by_contra hn
    rw [not_or] at hn
    obtain ⟨h1, h2⟩ := hn
    have h3 : 0 < m % Pa := Nat.pos_of_ne_zero fun h => h2 (Nat.dvd_of_mod_eq_zero h)
    have h4 := Nat.mod_lt m hPa
    have e0 := h 0 hPa
    have e1 := h (Pa - 1) (by omega)
    unfold blockSize at e0 e1
    rw [if_pos h3, Nat.mul_add, Nat.mul_one] at e0
    rw [if_neg (by omega : ¬ Pa - 1 < m % Pa), Nat.add_zero] at e1
    split at e0 <;> split at e1 <;> omega
  · rintro (rfl | ⟨k, rfl⟩) r _
    · simp
    · unfold blockSize
      rw [show s * (Pa * k) = Pa * (s * k) by ring, Nat.mul_div_cancel_left _ hPa, Nat.mul_div_cancel_left _ hPa, Nat.mul_mod_right, Nat.mul_mod_right]
      simp

theorem upsample_iff (g : Grids) : g.upsample = true ↔ g.nlonOut % g.nlonIn = 0 ∧ g.nlonIn % g.nlonOut ≠ 0 := by
  unfold Grids.upsample; exact decide_eq_true_iff

theorem init_ok_iff (g : Grids) (P : Pattern) (Pp Pa p a : ℕ) (D : DAttn) : DAttn.init g P Pp Pa p a = .ok D ↔
    ∃ latIn lonIn latOut lonOut, computeSplitShapes g.nlatIn Pp = .ok latIn ∧ computeSplitShapes g.nlonIn Pa = .ok lonIn ∧
      computeSplitShapes g.nlatOut Pp = .ok latOut ∧ computeSplitShapes g.nlonOut Pa = .ok lonOut ∧ pscaleCheck g lonIn lonOut = .ok () ∧
      D = DAttn.build g P Pp p a latIn lonIn latOut lonOut := by
  unfold DAttn.init
  simp only [bind, Except.bind, pure, Except.pure]
  cases computeSplitShapes g.nlatIn Pp with
  | error e => simp
  | ok latIn =>
    cases computeSplitShapes g.nlonIn Pa with
    | error e => simp
    | ok lonIn =>
      cases computeSplitShapes g.nlatOut Pp with
      | error e => simp
      | ok latOut =>
        cases computeSplitShapes g.nlonOut Pa with
        | error e => simp
        | ok lonOut =>
          dsimp only
          cases h : pscaleCheck g lonIn lonOut with
          | error e => simp [h]
          | ok u => simp [h, eq_comm]

/-- C53: for grids whose longitudes divide each other the layer can be built on a process grid exactly when no rank is left without
points and the longitudes of the coarser grid divide evenly among the ranks (or both grids have the same number of longitudes). -/
theorem C53_init (g : Grids) (P : Pattern) (Pp Pa p a : ℕ) (hPp : 0 < Pp) (hPa : 0 < Pa) (hi : 0 < g.nlonIn) (ho : 0 < g.nlonOut)
    (hd : g.nlonOut ∣ g.nlonIn ∨ g.nlonIn ∣ g.nlonOut) :
    (∃ D, DAttn.init g P Pp Pa p a = .ok D) ↔ Pp ≤ g.nlatIn ∧ Pp ≤ g.nlatOut ∧ Pa ≤ g.nlonIn ∧ Pa ≤ g.nlonOut ∧
      (g.nlonIn = g.nlonOut ∨ Pa ∣ min g.nlonIn g.nlonOut) := by
  have hscale : ∀ lonIn lonOut, computeSplitShapes g.nlonIn Pa = .ok lonIn → computeSplitShapes g.nlonOut Pa = .ok lonOut →
      (pscaleCheck g lonIn lonOut = .ok () ↔ (g.nlonIn = g.nlonOut ∨ Pa ∣ min g.nlonIn g.nlonOut)) := by
    intro lonIn lonOut h1 h2
    unfold pscaleCheck
    by_cases hu : g.upsample = true
    · rw [if_pos hu]
      rw [upsample_iff] at hu
      obtain ⟨k, hk⟩ := Nat.dvd_of_mod_eq_zero hu.1
      have hk0 : 0 < k := Nat.pos_of_ne_zero fun h => by rw [h] at hk; omega
      have hle : g.nlonIn ≤ g.nlonOut := Nat.le_of_dvd ho ⟨k, hk⟩
      have hq : g.nlonOut / g.nlonIn = k := by rw [hk, Nat.mul_div_cancel_left _ hi]
      unfold scaleCheck
      have hz := zip_all_iff (s := g.nlonOut / g.nlonIn) h2 h1
      rw [hq] at hz
      have hb := blocks_scale (m := g.nlonIn) hPa hk0
      rw [Nat.mul_comm k, ← hk] at hb
      rw [hb] at hz
      have hk1 : k = 1 ↔ g.nlonIn = g.nlonOut := by
        constructor
        · rintro rfl; omega
        · intro h; rw [← h] at hk; nlinarith
      rw [hq, min_eq_left hle, ← hk1, ← hz]
      split
      · rename_i h; exact ⟨fun _ => h, fun _ => rfl⟩
      · rename_i h; exact ⟨fun h' => by simp at h', fun h' => absurd h' h⟩
    · rw [if_neg hu]
      have hdv : g.nlonOut ∣ g.nlonIn := by
        rcases hd with h | h
        · exact h
        · rw [upsample_iff, not_and_not_right] at hu
          exact Nat.dvd_of_mod_eq_zero (hu (Nat.mod_eq_zero_of_dvd h))
      obtain ⟨k, hk⟩ := hdv
      have hk0 : 0 < k := Nat.pos_of_ne_zero fun h => by rw [h] at hk; omega
      have hle : g.nlonOut ≤ g.nlonIn := Nat.le_of_dvd hi ⟨k, hk⟩
      have hq : g.nlonIn / g.nlonOut = k := by rw [hk, Nat.mul_div_cancel_left _ ho]
      unfold scaleCheck
      have hz := zip_all_iff (s := g.nlonIn / g.nlonOut) h1 h2
      rw [hq] at hz
      have hb := blocks_scale (m := g.nlonOut) hPa hk0
      rw [Nat.mul_comm k, ← hk] at hb
      rw [hb] at hz
      have hk1 : k = 1 ↔ g.nlonIn = g.nlonOut := by
        constructor
        · rintro rfl; omega
        · intro h; rw [h] at hk; nlinarith
      rw [hq, min_eq_right hle, ← hk1, ← hz]
      split
      · rename_i h; exact ⟨fun _ => h, fun _ => rfl⟩
      · rename_i h; exact ⟨fun h' => by simp at h', fun h' => absurd h' h⟩
  constructor
  · rintro ⟨D, hD⟩
    obtain ⟨l1, l2, l3, l4, h1, h2, h3, h4, h5, _⟩ := (init_ok_iff g P Pp Pa p a D).1 hD
    exact ⟨((css_ok_iff _ _ _).1 h1).1, ((css_ok_iff _ _ _).1 h3).1, ((css_ok_iff _ _ _).1 h2).1, ((css_ok_iff _ _ _).1 h4).1,
      (hscale l2 l4 h2 h4).1 h5⟩
  · rintro ⟨h1, h2, h3, h4, h5⟩
    obtain ⟨l1, e1⟩ := css_exists h1 hPp
    obtain ⟨l2, e2⟩ := css_exists h3 hPa
    obtain ⟨l3, e3⟩ := css_exists h2 hPp
    obtain ⟨l4, e4⟩ := css_exists h4 hPa
    exact ⟨_, (init_ok_iff g P Pp Pa p a _).2 ⟨l1, l2, l3, l4, e1, e2, e3, e4, (hscale l2 l4 e2 e4).2 h5, rfl⟩⟩

/-! ### The halo -/

theorem neighbour_rows_gather {g : Grids} (P : Pattern) (hu : ¬ g.upsample = true) (ho wo : ℕ) (t : ℕ × ℕ) (ht : t ∈ neighbours g P ho wo) :
    ∃ z ∈ P.row ho, t.1 = P.col z / g.nlonIn := by
  unfold neighbours at ht
  rw [if_neg hu] at ht
  obtain ⟨z, hz, rfl⟩ := List.mem_map.1 ht
  exact ⟨z, hz, rfl⟩

/-- All rows that the points of rank `p` look at, in the gather direction. -/
theorem gather_rows_iff {g : Grids} {P : Pattern} (hm : Monotone P.roff) (lo n : ℕ) (Q : ℕ → Prop) :
    (∀ x ∈ (List.range' (P.roff lo) (P.roff (lo + n) - P.roff lo)).map fun z => P.col z / g.nlonIn, Q x) ↔
      ∀ h < n, ∀ z ∈ P.row (lo + h), Q (P.col z / g.nlonIn) := by
  constructor
  · intro H h hh z hz
    refine H _ (List.mem_map.2 ⟨z, ?_, rfl⟩)
    rw [Pattern.row, List.mem_range'_1] at hz
    rw [List.mem_range'_1]
    have h1 := hm (show lo ≤ lo + h by omega)
    have h2 := hm (show lo + h + 1 ≤ lo + n by omega)
    have h3 := hm (show lo + h ≤ lo + h + 1 by omega)
    omega
  · intro H x hx
    obtain ⟨z, hz, rfl⟩ := List.mem_map.1 hx
    rw [List.mem_range'_1] at hz
    -- the row that holds entry `z`
    have : ∀ n, z < P.roff (lo + n) → ∃ h < n, P.roff (lo + h) ≤ z ∧ z < P.roff (lo + h + 1) := by
      intro n
      induction n with
      | zero => intro h; rw [Nat.add_zero] at h; omega
      | succ n ih =>
        intro h
        by_cases h' : z < P.roff (lo + n)
        · obtain ⟨k, hk, hk'⟩ := ih h'
          exact ⟨k, by omega, hk'⟩
        · exact ⟨n, by omega, by omega, h⟩
    obtain ⟨h, hh, h1, h2⟩ := this n (by have := hm (show lo ≤ lo + n by omega); omega)
    refine H h hh z ?_
    rw [Pattern.row, List.mem_range'_1]
    omega

theorem up_rows_iff {g : Grids} {P : Pattern} (lo n : ℕ) (Q : ℕ → Prop) :
    (∀ x ∈ ((entriesOf P g.nlatIn).filter fun e => P.col e.2 / g.nlonOut ≥ lo ∧ P.col e.2 / g.nlonOut < lo + n).map fun e => e.1, Q x) ↔
      ∀ hi < g.nlatIn, ∀ z ∈ P.row hi, lo ≤ P.col z / g.nlonOut → P.col z / g.nlonOut < lo + n → Q hi := by
  constructor
  · intro H hi hhi z hz h1 h2
    refine H hi (List.mem_map.2 ⟨(hi, z), List.mem_filter.2 ⟨?_, by simpa using ⟨h1, h2⟩⟩, rfl⟩)
    exact List.mem_flatMap.2 ⟨hi, List.mem_range.2 hhi, List.mem_map.2 ⟨z, hz, rfl⟩⟩
  · intro H x hx
    obtain ⟨e, he, rfl⟩ := List.mem_map.1 hx
    obtain ⟨h1, h2⟩ := List.mem_filter.1 he
    obtain ⟨hi, hhi, h3⟩ := List.mem_flatMap.1 h1
    obtain ⟨z, hz, rfl⟩ := List.mem_map.1 h3
    have h4 : P.col z / g.nlonOut ≥ lo ∧ P.col z / g.nlonOut < lo + n := by simpa using h2
    exact H hi (List.mem_range.1 hhi) z hz h4.1 h4.2

/-- What the constructor stores. -/
theorem init_fields {g : Grids} {P : Pattern} {Pp Pa p a : ℕ} {D : DAttn} (h : DAttn.init g P Pp Pa p a = .ok D) :
    computeSplitShapes g.nlatIn Pp = .ok D.latIn ∧ computeSplitShapes g.nlonIn Pa = .ok D.lonIn ∧
      computeSplitShapes g.nlatOut Pp = .ok D.latOut ∧ computeSplitShapes g.nlonOut Pa = .ok D.lonOut ∧
      D.r = (if g.upsample then rLatUp Pp D.latIn D.latOut P g.nlatIn g.nlonOut else rLat Pp D.latIn D.latOut P g.nlonIn) ∧
      D.psi = (if g.upsample then localPsiUp (selectUp P g (offset D.latOut p) (D.latOut.getD p 0) (offset D.lonOut a)
        ((offset D.latIn p : ℤ) - D.r) (D.latIn.getD p 0 + 2 * D.r))
        else localPsi P (offset D.latOut p) (offset D.lonOut a) g.nlonIn (g.nlonIn / g.nlonOut)) := by
  obtain ⟨l1, l2, l3, l4, h1, h2, h3, h4, _, rfl⟩ := (init_ok_iff g P Pp Pa p a D).1 h
  unfold DAttn.build
  by_cases hu : g.upsample = true
  · rw [if_pos hu, if_pos hu, if_pos hu]; exact ⟨h1, h2, h3, h4, rfl, rfl⟩
  · rw [if_neg hu, if_neg hu, if_neg hu]; exact ⟨h1, h2, h3, h4, rfl, rfl⟩

/-- The stored halo width contains every row that a local output point needs. -/
theorem halo_le_iff {g : Grids} {P : Pattern} (hP : PatternOK g P) {Pp Pa p a : ℕ} {D : DAttn} (h : DAttn.init g P Pp Pa p a = .ok D)
    (h1 : Pp ≠ 1) (r : ℕ) : D.r ≤ r ↔ ∀ p < Pp,
      if g.upsample then ∀ hi < g.nlatIn, ∀ z ∈ P.row hi, blockStart g.nlatOut Pp p ≤ P.col z / g.nlonOut →
          P.col z / g.nlonOut < blockStart g.nlatOut Pp p + blockSize g.nlatOut Pp p →
          blockStart g.nlatIn Pp p ≤ hi + r ∧ hi < blockStart g.nlatIn Pp p + blockSize g.nlatIn Pp p + r
      else ∀ h < blockSize g.nlatOut Pp p, ∀ z ∈ P.row (blockStart g.nlatOut Pp p + h),
          blockStart g.nlatIn Pp p ≤ P.col z / g.nlonIn + r ∧ P.col z / g.nlonIn < blockStart g.nlatIn Pp p + blockSize g.nlatIn Pp p + r := by
  obtain ⟨e1, e2, e3, e4, e5, _⟩ := init_fields h
  rw [e5]
  by_cases hu : g.upsample = true
  · simp only [hu, if_true]
    unfold rLatUp
    rw [if_neg h1, maxOverhang_le_iff]
    refine forall₂_congr fun p hp => ?_
    rw [css_offset_block e1 p hp.le, css_getD_block e1 p hp, css_offset_block e3 p hp.le, css_getD_block e3 p hp]
    exact up_rows_iff _ _ fun x => blockStart g.nlatIn Pp p ≤ x + r ∧ x < blockStart g.nlatIn Pp p + blockSize g.nlatIn Pp p + r
  · simp only [hu]
    unfold rLat
    rw [if_neg (by simp), if_neg h1, maxOverhang_le_iff]
    refine forall₂_congr fun p hp => ?_
    rw [css_offset_block e1 p hp.le, css_getD_block e1 p hp, css_offset_block e3 p hp.le, css_getD_block e3 p hp]
    exact gather_rows_iff hP.1 _ _ fun x => blockStart g.nlatIn Pp p ≤ x + r ∧ x < blockStart g.nlatIn Pp p + blockSize g.nlatIn Pp p + r

/-- C53: the number of halo rows is the least number with which every rank has all rows that hold a neighbour of one of its output
points; with one polar rank it is zero. -/
theorem C53_halo_width (g : Grids) (P : Pattern) (hP : PatternOK g P) (Pp Pa p a : ℕ) (hi : 0 < g.nlonIn) (ho : 0 < g.nlonOut) (D : DAttn)
    (hD : DAttn.init g P Pp Pa p a = .ok D) :
    (Pp = 1 → D.r = 0) ∧ (Pp ≠ 1 → ∀ r, D.r ≤ r ↔ ∀ p < Pp, ∀ h < blockSize g.nlatOut Pp p, ∀ wo < g.nlonOut,
      ∀ t ∈ neighbours g P (blockStart g.nlatOut Pp p + h) wo,
        blockStart g.nlatIn Pp p ≤ t.1 + r ∧ t.1 < blockStart g.nlatIn Pp p + blockSize g.nlatIn Pp p + r) := by
  refine ⟨fun h1 => ?_, fun h1 r => ?_⟩
  · obtain ⟨_, _, _, _, e5, _⟩ := init_fields hD
    rw [e5]
    split
    · unfold rLatUp; rw [if_pos h1]
    · unfold rLat; rw [if_pos h1]
  · rw [halo_le_iff hP hD h1]
    refine forall₂_congr fun p hp => ?_
    by_cases hu : g.upsample = true
    · rw [if_pos hu]
      unfold neighbours
      simp only [hu, if_true]
      constructor
      · intro H h hh wo _ t ht
        obtain ⟨hi', hhi, h2⟩ := List.mem_flatMap.1 ht
        obtain ⟨wi, _, h3⟩ := List.mem_flatMap.1 h2
        obtain ⟨z, hz, rfl⟩ := List.mem_map.1 h3
        obtain ⟨hz1, hz2⟩ := List.mem_filter.1 hz
        have hz3 := of_decide_eq_true hz2
        exact H hi' (List.mem_range.1 hhi) z hz1 (by omega) (by omega)
      · intro H hi' hhi z hz h2 h3
        refine H (P.col z / g.nlonOut - blockStart g.nlatOut Pp p) (by omega) (P.col z % g.nlonOut) (Nat.mod_lt _ ho) (hi', 0) ?_
        unfold scatterNbrs
        refine List.mem_flatMap.2 ⟨hi', List.mem_range.2 hhi, List.mem_flatMap.2 ⟨0, List.mem_range.2 hi, List.mem_map.2 ⟨z, ?_, rfl⟩⟩⟩
        refine List.mem_filter.2 ⟨hz, decide_eq_true ⟨by omega, ?_⟩⟩
        rw [Nat.mul_zero, Nat.add_zero, Nat.mod_mod]
    · rw [if_neg hu]
      constructor
      · intro H h hh wo _ t ht
        obtain ⟨z, hz, he⟩ := neighbour_rows_gather P hu _ _ _ ht
        rw [he]
        exact H h hh z hz
      · intro H h hh z hz
        have := H h hh 0 ho (P.col z / g.nlonIn, (P.col z % g.nlonIn + g.nlonIn / g.nlonOut * 0) % g.nlonIn) ?_
        · exact this
        · unfold neighbours
          rw [if_neg hu]
          exact List.mem_map.2 ⟨z, hz, rfl⟩

/-! ### The forward pass -/

/-- What the ranks store, in terms of blocks. -/
structure RankFacts (g : Grids) (P : Pattern) (Pp Pa r : ℕ) (D : ℕ → ℕ → DAttn) : Prop where
  r_eq : ∀ p < Pp, ∀ a < Pa, (D p a).r = r
  one : Pp = 1 → r = 0
  psi_eq : ∀ p < Pp, ∀ a < Pa, (D p a).psi = localPattern g P Pp Pa r p a
  lonOff : ∀ p < Pp, ∀ a < Pa, ∀ s < Pa, offset (D p a).lonIn s = blockStart g.nlonIn Pa s
  lonLen : ∀ p < Pp, ∀ a < Pa, ∀ s < Pa, (D p a).lonIn.getD s 0 = blockSize g.nlonIn Pa s
  latLen : ∀ p < Pp, ∀ a < Pa, ∀ s < Pp, (D p a).latIn.getD s 0 = blockSize g.nlatIn Pp s
  outLat : ∀ p < Pp, ∀ a < Pa, (D p a).latOut.getD p 0 = blockSize g.nlatOut Pp p
  outLon : ∀ p < Pp, ∀ a < Pa, (D p a).lonOut.getD a 0 = blockSize g.nlonOut Pa a
  start : ∀ p < Pp, ∀ a < Pa, haloStart (D p a) p = (blockStart g.nlatIn Pp p : ℤ) - r
  covers : ∀ p < Pp, Covers g P Pp r p

theorem rank_facts {g : Grids} {P : Pattern} (hP : PatternOK g P) {Pp Pa : ℕ} (hPp : 0 < Pp) (hPa : 0 < Pa)
    (hi : 0 < g.nlonIn) (ho : 0 < g.nlonOut) {D : ℕ → ℕ → DAttn}
    (hD : ∀ p < Pp, ∀ a < Pa, DAttn.init g P Pp Pa p a = .ok (D p a)) : RankFacts g P Pp Pa (D 0 0).r D := by
  have hrr : ∀ p < Pp, ∀ a < Pa, (D p a).r = (D 0 0).r := by
    intro p hp a ha
    obtain ⟨e1, _, e3, _, e5, _⟩ := init_fields (hD p hp a ha)
    obtain ⟨f1, _, f3, _, f5, _⟩ := init_fields (hD 0 hPp 0 hPa)
    rw [e1, Except.ok.injEq] at f1
    rw [e3, Except.ok.injEq] at f3
    rw [e5, f5, f1, f3]
  refine ⟨hrr, (C53_halo_width g P hP Pp Pa 0 0 hi ho _ (hD 0 hPp 0 hPa)).1, ?_, ?_, ?_, ?_, ?_, ?_, ?_, ?_⟩
  · intro p hp a ha
    obtain ⟨e1, e2, e3, e4, e5, e6⟩ := init_fields (hD p hp a ha)
    rw [e6, css_offset_block e3 p hp.le, css_getD_block e3 p hp, css_offset_block e4 a ha.le, css_offset_block e1 p hp.le,
      css_getD_block e1 p hp, hrr p hp a ha]
    rfl
  · intro p hp a ha s hs
    exact css_offset_block (init_fields (hD p hp a ha)).2.1 s hs.le
  · intro p hp a ha s hs
    exact css_getD_block (init_fields (hD p hp a ha)).2.1 s hs
  · intro p hp a ha s hs
    exact css_getD_block (init_fields (hD p hp a ha)).1 s hs
  · intro p hp a ha
    exact css_getD_block (init_fields (hD p hp a ha)).2.2.1 p hp
  · intro p hp a ha
    exact css_getD_block (init_fields (hD p hp a ha)).2.2.2.1 a ha
  · intro p hp a ha
    unfold haloStart
    rw [css_offset_block (init_fields (hD p hp a ha)).1 p hp.le, hrr p hp a ha]
  · intro p hp
    unfold Covers
    by_cases h1 : Pp = 1
    · subst h1
      have hp0 : p = 0 := by omega
      subst hp0
      have e1 : blockStart g.nlatIn 1 0 = 0 := by simp [blockStart]
      have e2 : blockSize g.nlatIn 1 0 = g.nlatIn := by simp [blockSize, Nat.mod_one]
      by_cases hu : g.upsample = true
      · rw [if_pos hu]
        intro hi' hhi z _ _ _
        omega
      · rw [if_neg hu]
        intro h' hh' z hz
        have hfit : P.Fits g.nlatOut (g.nlatIn * g.nlonIn) := by have := hP.2; rwa [if_neg hu] at this
        have := hfit _ (block_lt hPp hp hh') z hz
        have : P.col z / g.nlonIn < g.nlatIn := Nat.div_lt_of_lt_mul (by rw [Nat.mul_comm]; exact this)
        rw [e1, e2]
        exact ⟨Nat.zero_le _, by omega⟩
    · exact (halo_le_iff hP (hD 0 hPp 0 hPa) h1 (D 0 0).r).1 le_rfl p hp

/-- What the forward pass leaves on every rank: padded keys and values, and accumulators that hold the sums and the maximum over the
neighbours. -/
theorem ringState_ok {g : Grids} {P : Pattern} (w : ℕ → ℝ) {Pp Pa B Ck Cv r : ℕ} (hPp : 0 < Pp) (hPa : 0 < Pa)
    {D : ℕ → ℕ → DAttn} (hF : RankFacts g P Pp Pa r D) (hr : ∀ s < Pp, r ≤ blockSize g.nlatIn Pp s)
    {K V : T4} {k v : ℕ → ℕ → RTen} (q : ℕ → ℕ → RTen)
    (hk : ∀ p < Pp, ∀ a < Pa, Tile B Ck g.nlatIn g.nlonIn Pp Pa K p a (k p a))
    (hv : ∀ p < Pp, ∀ a < Pa, Tile B Cv g.nlatIn g.nlonIn Pp Pa V p a (v p a))
    {gl : ℕ → ℕ → ℕ → Launch} (hgl : ∀ p < Pp, ∀ a < Pa, ∀ step, LaunchOK B (blockSize g.nlatOut Pp p) (blockSize g.nlonOut Pa a) (gl p a step))
    {ul : ℕ → ℕ → ℕ → UpLaunch} (hul : ∀ p < Pp, ∀ a < Pa, ∀ step, UpLaunchOK (ul p a step)) :
    ∃ S, ringState g w Pp Pa D gl ul k v q = .ok S ∧
      (∀ p < Pp, ∀ a < Pa, HaloTile B Ck g.nlatIn g.nlonIn Pp Pa r K p a (S p a).k) ∧
      (∀ p < Pp, ∀ a < Pa, HaloTile B Cv g.nlatIn g.nlonIn Pp Pa r V p a (S p a).v) ∧
      ∀ p < Pp, ∀ a < Pa, ∀ b < B, ∀ h < blockSize g.nlatOut Pp p, ∀ wo < blockSize g.nlonOut Pa a,
        Inv (cellPts g P w Pp Pa r p a (fun s => (S p s).k) (fun s => (S p s).v) (q p a) b h wo Pa) ((S p a).acc b (h, wo)) ∧
        ((S p a).acc b (h, wo)).qmax = phaseMax none (cellPts g P w Pp Pa r p a (fun s => (S p s).k) (fun s => (S p s).v) (q p a) b h wo Pa) := by
  unfold ringState
  obtain ⟨kh, hkh, hkh'⟩ := collect_ok hPp hPa (f := fun p a => haloPad Pp (D p a).r k p a)
    (Q := fun p a y => HaloTile B Ck g.nlatIn g.nlonIn Pp Pa r K p a y)
    (fun p hp a ha => by rw [hF.r_eq p hp a ha]; exact haloPad_ok hPp hk hF.one (fun _ => hr) hp ha)
  obtain ⟨vh, hvh, hvh'⟩ := collect_ok hPp hPa (f := fun p a => haloPad Pp (D p a).r v p a)
    (Q := fun p a y => HaloTile B Cv g.nlatIn g.nlonIn Pp Pa r V p a y)
    (fun p hp a ha => by rw [hF.r_eq p hp a ha]; exact haloPad_ok hPp hv hF.one (fun _ => hr) hp ha)
  simp only [bind, Except.bind, pure, Except.pure]
  rw [hkh, hvh]
  dsimp only
  set kernel : ℕ → ℕ → ℕ → ℕ → RTen → RTen → (ℕ → ℕ × ℕ → Acc) → ℕ → ℕ × ℕ → Acc := fun p a step src kc vc acc =>
    if g.upsample then
      upKernel (D p a).psi w g (offset (D p a).lonIn src) ((D p a).lonOut.getD a 0) (haloStart (D p a) p) (ul p a step) (q p a) kc vc acc
    else
      gatherKernel (D p a).psi w g.nlonIn (g.nlonIn / g.nlonOut) (offset (D p a).lonIn src) (haloStart (D p a) p) (gl p a step) (q p a) kc vc acc
    with hkernel
  set st0 : ℕ → ℕ → Slot (ℕ → ℕ × ℕ → Acc) := fun p a => ⟨kh p a, vh p a, fun _ _ => Acc.init⟩ with hst0
  have hK : ∀ p < Pp, ∀ a < Pa, HaloTile B Ck g.nlatIn g.nlonIn Pp Pa r K p a (kh p a) := fun p hp a ha => (hkh' p hp a ha).2
  have hV : ∀ p < Pp, ∀ a < Pa, HaloTile B Cv g.nlatIn g.nlonIn Pp Pa r V p a (vh p a) := fun p hp a ha => (hvh' p hp a ha).2
  obtain ⟨st, hst, hst'⟩ := ringLoop_ok hPp hPa (fun p a => (D p a).lonIn) kernel st0
    (fun p hp a ha a' ha' => ⟨by rw [hst0]; exact (hK p hp a ha).B_eq.trans (hK p hp a' ha').B_eq.symm,
      (hK p hp a ha).C_eq.trans (hK p hp a' ha').C_eq.symm, (hK p hp a ha).H_eq.trans (hK p hp a' ha').H_eq.symm⟩)
    (fun p hp a ha a' ha' => ⟨by rw [hst0]; exact (hV p hp a ha).B_eq.trans (hV p hp a' ha').B_eq.symm,
      (hV p hp a ha).C_eq.trans (hV p hp a' ha').C_eq.symm, (hV p hp a ha).H_eq.trans (hV p hp a' ha').H_eq.symm⟩)
    (fun p hp a ha a' ha' => by
      rw [hF.lonLen p hp a ha a' ha']
      exact ⟨(hK p hp a' ha').W_eq, (hV p hp a' ha').W_eq⟩) Pa le_rfl
  rw [hst]
  refine ⟨_, rfl, hK, hV, fun p hp a ha b hb h hh wo hwo => ?_⟩
  dsimp only
  rw [(hst' p hp a ha).1]
  have hm : ∀ i, i % Pa < Pa := fun i => Nat.mod_lt _ hPa
  have hinv : ∀ n ≤ Pa, Inv (cellPts g P w Pp Pa r p a (kh p) (vh p) (q p a) b h wo n) (iterAcc Pa kernel st0 p a n b (h, wo)) ∧
      (iterAcc Pa kernel st0 p a n b (h, wo)).qmax = phaseMax none (cellPts g P w Pp Pa r p a (kh p) (vh p) (q p a) b h wo n) := by
    intro n hn
    induction n with
    | zero => exact ⟨Inv.init, rfl⟩
    | succ n ih =>
      obtain ⟨ih1, ih2⟩ := ih (by omega)
      rw [cellPts_succ, phaseMax_append, ← ih2]
      unfold roundPts
      by_cases hu : g.upsample = true
      · have he : iterAcc Pa kernel st0 p a (n + 1) = upKernel (localPattern g P Pp Pa r p a) w g (blockStart g.nlonIn Pa ((a + n) % Pa))
            (blockSize g.nlonOut Pa a) ((blockStart g.nlatIn Pp p : ℤ) - r) (ul p a n) (q p a) (kh p ((a + n) % Pa)) (vh p ((a + n) % Pa))
            (iterAcc Pa kernel st0 p a n) := by
          show kernel p a n ((a + n) % Pa) (kh p ((a + n) % Pa)) (vh p ((a + n) % Pa)) (iterAcc Pa kernel st0 p a n) = _
          rw [hkernel]
          dsimp only
          rw [if_pos hu, hF.lonOff p hp a ha _ (hm _), hF.outLon p hp a ha, hF.start p hp a ha, hF.psi_eq p hp a ha]
        rw [he, if_pos hu]
        exact ⟨ih1.upKernel (hul p hp a ha n) _ _ _ _ _ _ _ _ _, upKernel_qmax (hul p hp a ha n) _ _ _ _ _ _ _ _ _ _ _ _⟩
      · have he : iterAcc Pa kernel st0 p a (n + 1) = gatherKernel (localPattern g P Pp Pa r p a) w g.nlonIn (g.nlonIn / g.nlonOut)
            (blockStart g.nlonIn Pa ((a + n) % Pa)) ((blockStart g.nlatIn Pp p : ℤ) - r) (gl p a n) (q p a) (kh p ((a + n) % Pa))
            (vh p ((a + n) % Pa)) (iterAcc Pa kernel st0 p a n) := by
          show kernel p a n ((a + n) % Pa) (kh p ((a + n) % Pa)) (vh p ((a + n) % Pa)) (iterAcc Pa kernel st0 p a n) = _
          rw [hkernel]
          dsimp only
          rw [if_neg hu, hF.lonOff p hp a ha _ (hm _), hF.start p hp a ha, hF.psi_eq p hp a ha]
        obtain ⟨long, hl⟩ := gatherKernel_cell (hgl p hp a ha n) (localPattern g P Pp Pa r p a) w g.nlonIn (g.nlonIn / g.nlonOut)
          (blockStart g.nlonIn Pa ((a + n) % Pa)) ((blockStart g.nlatIn Pp p : ℤ) - r) (q p a) (kh p ((a + n) % Pa))
          (vh p ((a + n) % Pa)) (iterAcc Pa kernel st0 p a n) hb hh hwo
        rw [he, hl, if_neg hu]
        exact ⟨ih1.gatherCell _ _ _ _ _ _ _ _ _ _ _ _ _, gatherCell_qmax _ _ _ _ _ _ _ _ _ _ _ _ _ _⟩
  exact hinv Pa le_rfl

/-- C53: on any process grid on which the layer can be built, with halos no wider than the latitude blocks, and whatever the order in
which thread groups and atomic operations take effect, every rank gets its tile of the attention of the global tensors. -/
theorem C53_forward (g : Grids) (P : Pattern) (hP : PatternOK g P) (w : ℕ → ℝ) (Pp Pa B Ck Cv : ℕ) (hPp : 0 < Pp) (hPa : 0 < Pa)
    (hi : 0 < g.nlonIn) (ho : 0 < g.nlonOut) (D : ℕ → ℕ → DAttn)
    (hD : ∀ p < Pp, ∀ a < Pa, DAttn.init g P Pp Pa p a = .ok (D p a))
    (hr : ∀ p < Pp, ∀ a < Pa, ∀ s < Pp, (D p a).r ≤ blockSize g.nlatIn Pp s)
    (K V Q : T4) (k v q : ℕ → ℕ → RTen)
    (hk : ∀ p < Pp, ∀ a < Pa, Tile B Ck g.nlatIn g.nlonIn Pp Pa K p a (k p a))
    (hv : ∀ p < Pp, ∀ a < Pa, Tile B Cv g.nlatIn g.nlonIn Pp Pa V p a (v p a))
    (hq : ∀ p < Pp, ∀ a < Pa, Tile B Ck g.nlatOut g.nlonOut Pp Pa Q p a (q p a))
    (gl : ℕ → ℕ → ℕ → Launch) (hgl : ∀ p < Pp, ∀ a < Pa, ∀ step, LaunchOK B (blockSize g.nlatOut Pp p) (blockSize g.nlonOut Pa a) (gl p a step))
    (ul : ℕ → ℕ → ℕ → UpLaunch) (hul : ∀ p < Pp, ∀ a < Pa, ∀ step, UpLaunchOK (ul p a step)) :
    ∃ y, ringForward g w Pp Pa D gl ul k v q = .ok y ∧
      ∀ p < Pp, ∀ a < Pa, Tile B Cv g.nlatOut g.nlonOut Pp Pa (attention Ck w (neighbours g P) K V Q) p a (y p a) := by
  have hF := rank_facts hP hPp hPa hi ho hD
  obtain ⟨S, hS, hK, hV, hA⟩ := ringState_ok w hPp hPa hF (fun s hs => hr 0 hPp 0 hPa s hs) q hk hv hgl hul
  unfold ringForward
  simp only [bind, Except.bind, pure, Except.pure]
  rw [hS]
  refine ⟨_, rfl, fun p hp a ha => ?_⟩
  refine ⟨(hq p hp a ha).B_eq, (hv p hp a ha).C_eq, hF.outLat p hp a ha, hF.outLon p hp a ha, ?_⟩
  intro b hb c hc h hh wo hwo
  exact cell_avg g w hPp hPa hP hi ho (D 0 0).r p a hp ha K V Q (fun s => (S p s).k) (fun s => (S p s).v) (q p a) (hK p hp) (hV p hp)
    (hq p hp a ha) (hF.covers p hp) hb hc hh hwo (hA p hp a ha b hb h hh wo hwo).1

/-- C53: if the halo is wider than the block of latitudes of some rank, the forward pass raises. -/
theorem C53_halo_too_wide (g : Grids) (P : Pattern) (hP : PatternOK g P) (w : ℕ → ℝ) (Pp Pa B Ck : ℕ) (hPp : 0 < Pp) (hPa : 0 < Pa)
    (hi : 0 < g.nlonIn) (ho : 0 < g.nlonOut) (D : ℕ → ℕ → DAttn) (hD : ∀ p < Pp, ∀ a < Pa, DAttn.init g P Pp Pa p a = .ok (D p a))
    (s : ℕ) (hs : s < Pp) (hr : blockSize g.nlatIn Pp s < (D s 0).r) (K : T4) (k v q : ℕ → ℕ → RTen)
    (hk : ∀ p < Pp, ∀ a < Pa, Tile B Ck g.nlatIn g.nlonIn Pp Pa K p a (k p a)) (gl : ℕ → ℕ → ℕ → Launch) (ul : ℕ → ℕ → ℕ → UpLaunch) :
    ∃ e, ringForward g w Pp Pa D gl ul k v q = .error e := by
  have hrr : ∀ p < Pp, ∀ a < Pa, (D p a).r = (D 0 0).r := by
    intro p hp a ha
    obtain ⟨e1, _, e3, _, e5, _⟩ := init_fields (hD p hp a ha)
    obtain ⟨f1, _, f3, _, f5, _⟩ := init_fields (hD 0 hPp 0 hPa)
    rw [e1, Except.ok.injEq] at f1
    rw [e3, Except.ok.injEq] at f3
    rw [e5, f5, f1, f3]
  have hP1 : 1 < Pp := by
    by_contra h
    have := (C53_halo_width g P hP Pp Pa s 0 hi ho _ (hD s hs 0 hPa)).1 (by omega)
    omega
  rw [hrr s hs 0 hPa] at hr
  -- the rank that expects rows of `s`
  have hfail : ∃ p < Pp, haloPad Pp (D p 0).r k p 0 = .error .runtimeError := by
    by_cases hlast : s + 1 < Pp
    · refine ⟨s + 1, hlast, ?_⟩
      unfold haloPad
      rw [hrr (s + 1) hlast 0 hPa, if_pos ⟨by omega, hP1⟩,
        C50_halo_error Pp (fun s => (k s 0).viewLat) (D 0 0).r (s + 1) (by omega) hlast
          (Or.inl (by show (k (s + 1 - 1) 0).H < _; rw [Nat.add_sub_cancel, (hk s hs 0 hPa).H_eq]; exact hr))]
    · refine ⟨s - 1, by omega, ?_⟩
      unfold haloPad
      rw [hrr (s - 1) (by omega) 0 hPa, if_pos ⟨by omega, hP1⟩]
      have hn : nextRank Pp (s - 1) = s := by unfold nextRank; rw [Nat.mod_eq_of_lt (by omega)]; omega
      have hbot : haloRecvBot Pp (fun s => (k s 0).viewLat) (D 0 0).r (s - 1) = .error .runtimeError := by
        unfold haloRecvBot recvInto Vec.takeFirst
        rw [if_pos (by omega), hn, if_neg]
        show ¬ min (D 0 0).r (k s 0).H = (D 0 0).r
        rw [(hk s hs 0 hPa).H_eq]
        omega
      have htop : ∀ e, haloRecvTop Pp (fun s => (k s 0).viewLat) (D 0 0).r (s - 1) = .error e → e = .runtimeError := by
        intro e he
        unfold haloRecvTop recvInto at he
        split at he
        · split at he
          · simp at he
          · simpa using he.symm
        · simp at he
      unfold haloForward
      simp only [bind, Except.bind, pure, Except.pure]
      cases ht : haloRecvTop Pp (fun s => (k s 0).viewLat) (D 0 0).r (s - 1) with
      | error e => rw [htop e ht]
      | ok x => rw [hbot]
  obtain ⟨p, hp, hf⟩ := hfail
  obtain ⟨e, he⟩ := collect_error (Pp := Pp) (Pa := Pa) (f := fun p a => haloPad Pp (D p a).r k p a) hp hPa hf
  unfold ringForward ringState
  simp only [bind, Except.bind]
  rw [he]
  exact ⟨e, rfl⟩

/-! ### The hypotheses can be met -/

/-- Four rows of two neighbours: the point below the output point and one to the south-east. -/
def ringPattern : Pattern := ⟨fun z => if z % 2 = 0 then z / 2 * 4 else min (z / 2 + 1) 3 * 4 + 1, fun h => 2 * h⟩

theorem ringPattern_ok : PatternOK ⟨4, 4, 4, 2⟩ ringPattern := by
  refine ⟨fun a b h => by simp only [ringPattern]; omega, ?_⟩
  have hu : ¬ (⟨4, 4, 4, 2⟩ : Grids).upsample = true := by decide
  rw [if_neg hu]
  intro h hh z hz
  rw [Pattern.row, List.mem_range'_1] at hz
  have hh' : h < 4 := hh
  simp only [ringPattern] at hz ⊢
  split <;> omega

/-- Two rows of input latitudes that scatter to two output points each. -/
def ringPatternUp : Pattern := ⟨fun z => (z + z / 2) / 2 * 4 + z % 2, fun h => 2 * h⟩

theorem ringPatternUp_ok : PatternOK ⟨4, 2, 6, 4⟩ ringPatternUp := by
  refine ⟨fun a b h => by simp only [ringPatternUp]; omega, ?_⟩
  have hu : (⟨4, 2, 6, 4⟩ : Grids).upsample = true := by decide
  rw [if_pos hu]
  intro h hh z hz
  rw [Pattern.row, List.mem_range'_1] at hz
  have hh' : h < 4 := hh
  simp only [ringPatternUp] at hz ⊢
  omega

/-- Every output point has its thread group, rows in reverse. -/
def revLaunch (nlat nlon : ℕ) : Launch := ⟨fun h => nlat - 1 - h, 1, fun _ => (List.range nlat).flatMap fun h => (List.range nlon).map fun w => (h, w)⟩

theorem revLaunch_ok (B nlat nlon : ℕ) : LaunchOK B nlat nlon (revLaunch nlat nlon) := by
  refine ⟨?_, fun b _ => ⟨?_, fun t => ?_⟩⟩
  · refine List.perm_of_nodup_nodup_toFinset_eq ?_ List.nodup_range ?_
    · refine List.Nodup.map_on ?_ List.nodup_range
      intro x hx y hy h
      have := List.mem_range.1 hx
      have := List.mem_range.1 hy
      simp only [revLaunch] at h
      omega
    · ext x
      simp only [List.mem_toFinset, List.mem_map, List.mem_range, revLaunch]
      constructor
      · rintro ⟨h, hh, rfl⟩; omega
      · intro h; exact ⟨nlat - 1 - x, by omega, by omega⟩
  · rw [revLaunch]
    refine List.nodup_flatMap.2 ⟨fun h _ => ?_, ?_⟩
    · exact List.Nodup.map (fun a b h => (Prod.mk.inj h).2) List.nodup_range
    · refine List.nodup_range.imp ?_
      intro a b hab x hx hy
      obtain ⟨_, _, rfl⟩ := List.mem_map.1 hx
      obtain ⟨_, _, h⟩ := List.mem_map.1 hy
      exact hab (Prod.mk.inj h).1.symm
  · simp only [revLaunch, List.mem_flatMap, List.mem_range, List.mem_map]
    constructor
    · rintro ⟨h, hh, w, hw, rfl⟩; exact ⟨hh, hw⟩
    · rintro ⟨h1, h2⟩; exact ⟨t.1, h1, t.2, h2, rfl⟩

example : UpLaunchOK ⟨List.reverse, id⟩ := ⟨fun L => List.reverse_perm L, fun L => List.Perm.refl L⟩

/-- On two by two ranks: the gather direction from a 4 × 4 to a 4 × 2 grid has a halo of one row and blocks of two. -/
example : ∃ D : ℕ → ℕ → DAttn, (∀ p < 2, ∀ a < 2, DAttn.init ⟨4, 4, 4, 2⟩ ringPattern 2 2 p a = .ok (D p a)) ∧
    (∀ p < 2, ∀ a < 2, (D p a).r = 1) ∧ (∀ p < 2, ∀ a < 2, ∀ s < 2, (D p a).r ≤ blockSize 4 2 s) := by
  refine ⟨fun p a => DAttn.build ⟨4, 4, 4, 2⟩ ringPattern 2 p a [2, 2] [2, 2] [2, 2] [1, 1], fun p _ a _ => ?_, fun p _ a _ => ?_,
    fun p _ a _ s hs => ?_⟩
  · rfl
  · show rLat 2 [2, 2] [2, 2] ringPattern 4 = 1
    decide
  · show rLat 2 [2, 2] [2, 2] ringPattern 4 ≤ _
    have : rLat 2 [2, 2] [2, 2] ringPattern 4 = 1 := by decide
    rw [this]
    exact Nat.le_trans (by decide : 1 ≤ 2) (by unfold blockSize; omega)

/-- The upsampling direction from 4 × 2 to 6 × 4. -/
example : ∃ D : ℕ → ℕ → DAttn, (∀ p < 2, ∀ a < 2, DAttn.init ⟨4, 2, 6, 4⟩ ringPatternUp 2 2 p a = .ok (D p a)) ∧
    ∀ p < 2, ∀ a < 2, ∀ s < 2, (D p a).r ≤ blockSize 4 2 s := by
  refine ⟨fun p a => DAttn.build ⟨4, 2, 6, 4⟩ ringPatternUp 2 p a [2, 2] [1, 1] [3, 3] [2, 2], fun p _ a _ => rfl, fun p _ a _ s hs => ?_⟩
  show rLatUp 2 [2, 2] [3, 3] ringPatternUp 4 4 ≤ _
  have : rLatUp 2 [2, 2] [3, 3] ringPatternUp 4 4 ≤ 1 := by decide
  exact this.trans (Nat.le_trans (by decide : 1 ≤ 2) (by unfold blockSize; omega))

/-- A row that looks three rows further: with four polar ranks of one row each the halo is too wide. -/
def farPattern : Pattern := ⟨fun z => min (z + 3) 3 * 2, fun h => h⟩

example : ∃ D, DAttn.init ⟨4, 2, 4, 2⟩ farPattern 4 1 0 0 = .ok D ∧ blockSize 4 4 0 < D.r := by
  refine ⟨DAttn.build ⟨4, 2, 4, 2⟩ farPattern 4 0 0 [1, 1, 1, 1] [2] [1, 1, 1, 1] [2], rfl, ?_⟩
  show blockSize 4 4 0 < rLat 4 [1, 1, 1, 1] [1, 1, 1, 1] farPattern 2
  decide

end Verif.Props
