import Mathlib.Data.Nat.ModEq
import Verif.Model.AttentionLayer
import Verif.Lemmas.AttentionRef
import Verif.Props.DiscoGeom
/-!
The neighbourhoods that `NeighborhoodAttentionS2` stores are spherical disks.
-/
namespace Verif.Attn
open Verif Verif.Spec Verif.Spec.Attn Verif.Quad Verif.Filter Verif.Disco Verif.Props Finset

/-! ### From lists of neighbours to sets -/

theorem attention_set {C : ℕ} {w : ℕ → ℝ} {nb : ℕ → ℕ → List (ℕ × ℕ)} {D : Finset (ℕ × ℕ)} (k v q : T4) (b c ho wo : ℕ)
    (hn : (nb ho wo).Nodup) (hm : ∀ p, p ∈ nb ho wo ↔ p ∈ D) :
    attention C w nb k v q b c ho wo = setAttention C w D k v q b c ho wo := by
  have hD : D = (nb ho wo).toFinset := by ext p; rw [List.mem_toFinset, hm]
  unfold attention softAvg setAttention
  rw [hD, List.sum_toFinset _ hn, List.sum_toFinset _ hn]

/-! ### The stored columns of one row -/

theorem map_slice {α : Type} (a b c : List α) (d : α) :
    (List.range' a.length b.length).map (fun z => (a ++ b ++ c).getD z d) = b := by
  apply List.ext_getElem
  · simp
  · intro i h1 h2
    rw [List.getElem_map, List.getElem_range', List.getD_eq_getElem?_getD]
    simp only [one_mul]
    rw [List.append_assoc, List.getElem?_append_right (by omega), Nat.add_sub_cancel_left, List.getElem?_append_left h2,
      List.getElem?_eq_getElem h2]
    rfl

theorem nodup_grid {α : Type} (K H W : ℕ) (val : ℕ → ℕ → ℕ → Option α) : (grid K H W val).Nodup := by
  unfold grid
  rw [List.nodup_flatMap]
  refine ⟨fun k _ => ?_, ?_⟩
  · rw [List.nodup_flatMap]
    refine ⟨fun i _ => ?_, ?_⟩
    · refine List.Nodup.filterMap ?_ List.nodup_range
      intro j j' e h1 h2
      obtain ⟨v, -, rfl⟩ := Option.map_eq_some_iff.1 h1
      obtain ⟨v', -, h⟩ := Option.map_eq_some_iff.1 h2
      simp only [Prod.mk.injEq] at h
      exact h.2.2.1.symm
    · refine List.Pairwise.imp ?_ (List.nodup_range (n := H))
      intro i i' hne e h1 h2
      obtain ⟨j, -, h1⟩ := List.mem_filterMap.1 h1
      obtain ⟨j', -, h2⟩ := List.mem_filterMap.1 h2
      obtain ⟨v, -, rfl⟩ := Option.map_eq_some_iff.1 h1
      obtain ⟨v', -, h⟩ := Option.map_eq_some_iff.1 h2
      simp only [Prod.mk.injEq] at h
      exact hne h.2.1.symm
  · refine List.Pairwise.imp ?_ (List.nodup_range (n := K))
    intro k k' hne e h1 h2
    obtain ⟨i, -, h1⟩ := List.mem_flatMap.1 h1
    obtain ⟨i', -, h2⟩ := List.mem_flatMap.1 h2
    obtain ⟨j, -, h1⟩ := List.mem_filterMap.1 h1
    obtain ⟨j', -, h2⟩ := List.mem_filterMap.1 h2
    obtain ⟨v, -, rfl⟩ := Option.map_eq_some_iff.1 h1
    obtain ⟨v', -, h⟩ := Option.map_eq_some_iff.1 h2
    simp only [Prod.mk.injEq] at h
    exact hne h.1.symm

theorem nbhdBasis_size : nbhdBasis.kernelSize = 1 := rfl

theorem nbhdBasis_val (rc r phi : ℝ) : (nbhdBasis.val rc r phi 0).isSome ↔ r ≤ rc := fullDisk_zernike 1 rc r phi 0 (by decide)

/-- The columns stored for one row. -/
noncomputable def rowCols (latsIn : ℕ → ℝ) (nlatIn nlonIn : ℕ) (rc latOut : ℝ) (t : ℕ) : List ℕ :=
  (rawRow nbhdBasis latsIn nlatIn nlonIn rc latOut t).map fun e => e.col

theorem mem_rowCols (latsIn : ℕ → ℝ) (nlatIn nlonIn : ℕ) (rc latOut : ℝ) (t c : ℕ) :
    c ∈ rowCols latsIn nlatIn nlonIn rc latOut t ↔ ∃ i < nlatIn, ∃ j < nlonIn, c = i * nlonIn + j ∧
      geodesic (point (latsIn i) (precomputeLongitudes nlonIn j)) (point latOut 0) ≤ rc := by
  unfold rowCols rawRow
  rw [List.map_map, List.mem_map]
  constructor
  · rintro ⟨⟨k, i, j, v⟩, hg, rfl⟩
    obtain ⟨hk, hi, hj, hv⟩ := (mem_grid ..).1 hg
    have hk0 : k = 0 := by rw [nbhdBasis_size] at hk; omega
    subst hk0
    refine ⟨i, hi, j, hj, rfl, ?_⟩
    rw [← (C37_polar _ _ _).2.2.1]
    exact (nbhdBasis_val _ _ _).1 (by rw [hv]; rfl)
  · rintro ⟨i, hi, j, hj, rfl, hg⟩
    rw [← (C37_polar _ _ _).2.2.1] at hg
    obtain ⟨v, hv⟩ := Option.isSome_iff_exists.1 ((nbhdBasis_val _ _ (polarAt latOut (latsIn i) (precomputeLongitudes nlonIn j)).2).2 hg)
    exact ⟨(0, i, j, v), (mem_grid ..).2 ⟨by rw [nbhdBasis_size]; decide, hi, hj, hv⟩, rfl⟩

theorem nodup_rowCols (latsIn : ℕ → ℝ) (nlatIn nlonIn : ℕ) (rc latOut : ℝ) (t : ℕ) : (rowCols latsIn nlatIn nlonIn rc latOut t).Nodup := by
  unfold rowCols rawRow
  rw [List.map_map]
  refine List.Nodup.map_on ?_ (nodup_grid ..)
  rintro ⟨k, i, j, v⟩ h1 ⟨k', i', j', v'⟩ h2 he
  obtain ⟨hk, hi, hj, hv⟩ := (mem_grid ..).1 h1
  obtain ⟨hk', hi', hj', hv'⟩ := (mem_grid ..).1 h2
  rw [nbhdBasis_size] at hk hk'
  obtain ⟨rfl, rfl⟩ := col_inj hj hj' he
  have : k = k' := by omega
  subst this
  rw [hv] at hv'
  cases hv'
  rfl

/-- Reading row `h` of the stored pattern gives the columns stored for it. -/
theorem pattern_row (latsIn latsOut : ℕ → ℝ) (nlatIn nlonIn nlatOut : ℕ) (rc : ℝ) (es : List (Entry ℝ))
    (hes : es.map (fun e => e.col) = (rawEntries nbhdBasis latsIn latsOut nlatIn nlonIn nlatOut rc).map fun e => e.col) (h : ℕ) (hh : h < nlatOut) :
    let P := patternOf es (rowOffsetsRaw nbhdBasis latsIn latsOut nlatIn nlonIn rc)
    (P.row h).map P.col = rowCols latsIn nlatIn nlonIn rc (latsOut h) h := by
  intro P
  have hlen : P.roff (h + 1) - P.roff h = (rowCols latsIn nlatIn nlonIn rc (latsOut h) h).length := by
    show rowOffsetsRaw _ _ _ _ _ _ (h + 1) - rowOffsetsRaw _ _ _ _ _ _ h = _
    rw [rowOffsetsRaw, Nat.add_sub_cancel_left]
    unfold rowCols
    rw [List.length_map]
  have hoff : P.roff h = ((rawEntries nbhdBasis latsIn latsOut nlatIn nlonIn h rc).map fun e => e.col).length := by
    rw [List.length_map]
    exact rowOffsetsRaw_eq ..
  obtain ⟨d, rfl⟩ : ∃ d, nlatOut = h + 1 + d := ⟨nlatOut - (h + 1), by omega⟩
  have hsplit : es.map (fun e => e.col) = (rawEntries nbhdBasis latsIn latsOut nlatIn nlonIn h rc).map (fun e => e.col)
      ++ rowCols latsIn nlatIn nlonIn rc (latsOut h) h
      ++ (((List.range d).map (h + 1 + ·)).flatMap fun t => rawRow nbhdBasis latsIn nlatIn nlonIn rc (latsOut t) t).map fun e => e.col := by
    rw [hes]
    unfold rawEntries rowCols
    rw [List.range_add, List.flatMap_append, List.range_succ, List.flatMap_append, List.map_append, List.map_append]
    simp only [List.flatMap_cons, List.flatMap_nil, List.append_nil]
  unfold Pattern.row
  rw [hlen, hoff]
  show (List.range' _ _).map (fun z => (es.map fun e => e.col).getD z 0) = _
  rw [hsplit]
  exact map_slice _ _ _ 0

/-! ### The neighbours -/

theorem precompute_lon (n i : ℕ) : precomputeLongitudes n i = lonOf n i := by
  unfold precomputeLongitudes linspace lonOf
  push_cast
  rw [add_sub_cancel_right, zero_add, sub_zero]

theorem geodesic_comm (u v : ℝ × ℝ × ℝ) : geodesic u v = geodesic v u := by
  unfold geodesic dot3
  congr 1
  ring

theorem mem_diskPoints {thIn thOut : ℕ → ℝ} {nlatIn nlonIn nlonOut : ℕ} {rc : ℝ} {ho wo : ℕ} {p : ℕ × ℕ} :
    p ∈ diskPoints thIn thOut nlatIn nlonIn nlonOut rc ho wo ↔ (p.1 < nlatIn ∧ p.2 < nlonIn) ∧
      geodesic (point (thIn p.1) (lonOf nlonIn p.2)) (point (thOut ho) (lonOf nlonOut wo)) ≤ rc := by
  unfold diskPoints wholeGrid
  rw [mem_filter, mem_product, mem_range, mem_range]

/-- Turning back. -/
theorem turn_back {j n s : ℕ} (hj : j < n) : ((j + (n - s % n)) % n + s) % n = j := by
  have hn : 0 < n := by omega
  have hs := Nat.mod_lt s hn
  rw [Nat.mod_add_mod]
  have := Nat.div_add_mod s n
  have e : j + (n - s % n) + s = j + n * (s / n + 1) := by rw [Nat.mul_add]; omega
  rw [e, Nat.add_mul_mod_self_left, Nat.mod_eq_of_lt hj]

theorem turn_inj {i j n s : ℕ} (hi : i < n) (hj : j < n) (h : (i + s) % n = (j + s) % n) : i = j := by
  have := Nat.ModEq.add_right_cancel' s (show (i + s) ≡ (j + s) [MOD n] from h)
  unfold Nat.ModEq at this
  rwa [Nat.mod_eq_of_lt hi, Nat.mod_eq_of_lt hj] at this

theorem gather_disk (P : Pattern) (thIn thOut : ℕ → ℝ) (nlatIn nlonIn nlonOut : ℕ) (rc : ℝ) (hI : 0 < nlonIn) (hW : 0 < nlonOut)
    (hd : nlonOut ∣ nlonIn) (ho wo : ℕ) (hP : (P.row ho).map P.col = rowCols thIn nlatIn nlonIn rc (thOut ho) ho) :
    (gatherNbrs P nlonIn (nlonIn / nlonOut) ho wo).Nodup ∧
      ∀ p, p ∈ gatherNbrs P nlonIn (nlonIn / nlonOut) ho wo ↔ p ∈ diskPoints thIn thOut nlatIn nlonIn nlonOut rc ho wo := by
  have e : gatherNbrs P nlonIn (nlonIn / nlonOut) ho wo = (rowCols thIn nlatIn nlonIn rc (thOut ho) ho).map fun c =>
      (c / nlonIn, (c % nlonIn + nlonIn / nlonOut * wo) % nlonIn) := by
    unfold gatherNbrs
    rw [← hP, List.map_map]
    rfl
  rw [e]
  have split : ∀ i j, j < nlonIn → (i * nlonIn + j) / nlonIn = i ∧ (i * nlonIn + j) % nlonIn = j := fun i j hj => by
    rw [Nat.mul_comm, Nat.mul_add_div hI, Nat.div_eq_of_lt hj, Nat.mul_add_mod, Nat.mod_eq_of_lt hj]; exact ⟨rfl, rfl⟩
  have key : ∀ i j, geodesic (point (thIn i) (lonOf nlonIn ((j + nlonIn / nlonOut * wo) % nlonIn))) (point (thOut ho) (lonOf nlonOut wo))
      = geodesic (point (thIn i) (precomputeLongitudes nlonIn j)) (point (thOut ho) 0) := fun i j => by
    rw [← precompute_lon, ← precompute_lon, Nat.mul_comm _ wo]
    exact C37_shifted _ _ nlonIn nlonOut hW hI hd j wo
  constructor
  · refine List.Nodup.map_on ?_ (nodup_rowCols ..)
    intro c hc c' hc' he
    obtain ⟨i, hi, j, hj, rfl, -⟩ := (mem_rowCols ..).1 hc
    obtain ⟨i', hi', j', hj', rfl, -⟩ := (mem_rowCols ..).1 hc'
    rw [(split i j hj).1, (split i j hj).2, (split i' j' hj').1, (split i' j' hj').2, Prod.mk.injEq] at he
    rw [he.1, turn_inj hj hj' he.2]
  · rintro ⟨i, j'⟩
    rw [mem_diskPoints, List.mem_map]
    constructor
    · rintro ⟨c, hc, he⟩
      obtain ⟨i, hi, j, hj, rfl, hg⟩ := (mem_rowCols ..).1 hc
      rw [(split i j hj).1, (split i j hj).2, Prod.mk.injEq] at he
      obtain ⟨rfl, rfl⟩ := he
      exact ⟨⟨hi, Nat.mod_lt _ hI⟩, by dsimp only; rw [key]; exact hg⟩
    · rintro ⟨⟨hi, hj⟩, hg⟩
      dsimp only at hi hj hg
      have hj0 := Nat.mod_lt (j' + (nlonIn - (nlonIn / nlonOut * wo) % nlonIn)) hI
      have ht := turn_back (s := nlonIn / nlonOut * wo) hj
      refine ⟨i * nlonIn + (j' + (nlonIn - (nlonIn / nlonOut * wo) % nlonIn)) % nlonIn, (mem_rowCols ..).2 ⟨i, hi, _, hj0, rfl, ?_⟩, ?_⟩
      · rw [← key, ht]; exact hg
      · rw [(split i _ hj0).1, (split i _ hj0).2, ht]

theorem scatter_disk (P : Pattern) (thIn thOut : ℕ → ℝ) (nlatIn nlonIn nlatOut nlonOut : ℕ) (rc : ℝ) (hI : 0 < nlonIn) (hW : 0 < nlonOut)
    (hd : nlonIn ∣ nlonOut) (ho wo : ℕ) (hho : ho < nlatOut) (hwo : wo < nlonOut)
    (hP : ∀ hi < nlatIn, (P.row hi).map P.col = rowCols thOut nlatOut nlonOut rc (thIn hi) hi) :
    (scatterNbrs P nlatIn nlonIn nlonOut (nlonOut / nlonIn) ho wo).Nodup ∧
      ∀ p, p ∈ scatterNbrs P nlatIn nlonIn nlonOut (nlonOut / nlonIn) ho wo ↔ p ∈ diskPoints thIn thOut nlatIn nlonIn nlonOut rc ho wo := by
  have split : ∀ i j, j < nlonOut → (i * nlonOut + j) / nlonOut = i ∧ (i * nlonOut + j) % nlonOut = j := fun i j hj => by
    rw [Nat.mul_comm, Nat.mul_add_div hW, Nat.div_eq_of_lt hj, Nat.mul_add_mod, Nat.mod_eq_of_lt hj]; exact ⟨rfl, rfl⟩
  have key : ∀ hi wi j, geodesic (point (thIn hi) (lonOf nlonIn wi)) (point (thOut ho) (lonOf nlonOut ((j + nlonOut / nlonIn * wi) % nlonOut)))
      = geodesic (point (thOut ho) (precomputeLongitudes nlonOut j)) (point (thIn hi) 0) := fun hi wi j => by
    rw [geodesic_comm, ← precompute_lon, ← precompute_lon, Nat.mul_comm _ wi]
    exact C37_shifted _ _ nlonOut nlonIn hI hW hd j wi
  have cell : ∀ hi < nlatIn, ∀ wi, ((P.row hi).filter fun z => decide (P.col z / nlonOut = ho ∧
        (P.col z % nlonOut + nlonOut / nlonIn * wi) % nlonOut = wo)).map (fun _ => (hi, wi))
      = ((rowCols thOut nlatOut nlonOut rc (thIn hi) hi).filter fun c => decide (c / nlonOut = ho ∧
        (c % nlonOut + nlonOut / nlonIn * wi) % nlonOut = wo)).map fun _ => (hi, wi) := by
    intro hi hhi wi
    rw [← hP hi hhi, List.filter_map, List.map_map]
    rfl
  have mem : ∀ p, p ∈ scatterNbrs P nlatIn nlonIn nlonOut (nlonOut / nlonIn) ho wo ↔
      p ∈ diskPoints thIn thOut nlatIn nlonIn nlonOut rc ho wo := by
    rintro ⟨hi, wi⟩
    rw [mem_diskPoints]
    unfold scatterNbrs
    simp only [List.mem_flatMap, List.mem_range]
    constructor
    · rintro ⟨hi', hhi, wi', hwi, hm⟩
      rw [cell hi' hhi wi', List.mem_map] at hm
      obtain ⟨c, hc, he⟩ := hm
      rw [Prod.mk.injEq] at he
      obtain ⟨rfl, rfl⟩ := he
      rw [List.mem_filter, decide_eq_true_eq] at hc
      obtain ⟨hc, h1, h2⟩ := hc
      obtain ⟨i, hi, j, hj, rfl, hg⟩ := (mem_rowCols ..).1 hc
      rw [(split i j hj).1] at h1
      rw [(split i j hj).2] at h2
      subst h1
      refine ⟨⟨hhi, hwi⟩, ?_⟩
      rw [← h2, key]
      exact hg
    · rintro ⟨⟨hhi, hwi⟩, hg⟩
      refine ⟨hi, hhi, wi, hwi, ?_⟩
      rw [cell hi hhi wi, List.mem_map]
      have hj0 := Nat.mod_lt (wo + (nlonOut - (nlonOut / nlonIn * wi) % nlonOut)) hW
      have ht := turn_back (s := nlonOut / nlonIn * wi) hwo
      refine ⟨ho * nlonOut + (wo + (nlonOut - (nlonOut / nlonIn * wi) % nlonOut)) % nlonOut, ?_, rfl⟩
      rw [List.mem_filter, decide_eq_true_eq]
      refine ⟨(mem_rowCols ..).2 ⟨ho, hho, _, hj0, rfl, ?_⟩, (split ho _ hj0).1, ?_⟩
      · rw [← key hi wi, ht]; exact hg
      · rw [(split ho _ hj0).2, ht]
  refine ⟨?_, mem⟩
  unfold scatterNbrs
  rw [List.nodup_flatMap]
  refine ⟨fun hi hhi => ?_, ?_⟩
  · rw [List.mem_range] at hhi
    rw [List.nodup_flatMap]
    refine ⟨fun wi _ => ?_, ?_⟩
    · rw [cell hi hhi wi]
      refine List.Nodup.map_on ?_ ((nodup_rowCols ..).filter _)
      intro c hc c' hc' _
      rw [List.mem_filter, decide_eq_true_eq] at hc hc'
      obtain ⟨hc, h1, h2⟩ := hc
      obtain ⟨hc', h1', h2'⟩ := hc'
      obtain ⟨i, hi, j, hj, rfl, hg⟩ := (mem_rowCols ..).1 hc
      obtain ⟨i', hi', j', hj', rfl, hg'⟩ := (mem_rowCols ..).1 hc'
      rw [(split i j hj).1] at h1
      rw [(split i j hj).2] at h2
      rw [(split i' j' hj').1] at h1'
      rw [(split i' j' hj').2] at h2'
      rw [h1, h1', turn_inj hj hj' (h2.trans h2'.symm)]
    · refine List.Pairwise.imp ?_ (List.nodup_range (n := nlonIn))
      intro a b hne p h1 h2
      obtain ⟨_, -, rfl⟩ := List.mem_map.1 h1
      obtain ⟨_, -, h⟩ := List.mem_map.1 h2
      exact hne (congrArg Prod.snd h).symm
  · refine List.Pairwise.imp ?_ (List.nodup_range (n := nlatIn))
    intro a b hne p h1 h2
    obtain ⟨_, -, h1⟩ := List.mem_flatMap.1 h1
    obtain ⟨_, -, h2⟩ := List.mem_flatMap.1 h2
    obtain ⟨_, -, rfl⟩ := List.mem_map.1 h1
    obtain ⟨_, -, h⟩ := List.mem_map.1 h2
    exact hne (congrArg Prod.fst h).symm

end Verif.Attn
