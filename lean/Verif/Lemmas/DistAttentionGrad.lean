import Verif.Lemmas.DistAttentionBwd
/-!
Pass 2 of the backward pass of ring attention: the gradients of a chunk.
-/
namespace Verif.Ring
open Verif Verif.Dist Verif.Attn Verif.Spec Verif.Spec.Attn Verif.Spec.Ring Finset

/-- The part of a gradient at the input point `u0` that comes from a block of output points. -/
noncomputable def part (nb : ℕ → ℕ → List (ℕ × ℕ)) (T : ℕ → ℕ → ℝ) (H0 nH W0 nW : ℕ) (u0 : ℕ × ℕ) : ℝ :=
  ∑ h ∈ range nH, ∑ wo ∈ range nW, ((nb (H0 + h) (W0 + wo)).map fun u => if u = u0 then T h wo else 0).sum

/-! ### The updates of a launch -/

theorem collectHits_generic (cell : ℕ × ℕ) (psi : Pattern) (nlonIn pscale lonLo : ℕ) (start : ℤ) (k : RTen) (wo : ℕ) (R : List ℕ) :
    collectHits cell (R.map (hitGeneric psi nlonIn pscale lonLo start k wo))
      = .ok ((R.filterMap (gatherHit psi nlonIn pscale lonLo start k wo)).map (Op.mk cell)) := by
  induction R with
  | nil => rfl
  | cons z R ih =>
    rw [List.map_cons]
    cases h : gatherHit psi nlonIn pscale lonLo start k wo z with
    | none =>
      have : hitGeneric psi nlonIn pscale lonLo start k wo z = .skip := by unfold hitGeneric; rw [h]
      rw [this, List.filterMap_cons_none h]
      exact ih
    | some t =>
      have : hitGeneric psi nlonIn pscale lonLo start k wo z = .use t := by unfold hitGeneric; rw [h]
      rw [this, List.filterMap_cons_some h]
      show (match collectHits cell (R.map (hitGeneric psi nlonIn pscale lonLo start k wo)) with
        | .error e => Except.error e
        | .ok r => Except.ok ((⟨cell, t⟩ : Op) :: r)) = _
      rw [ih]
      rfl

/-- On rows in the halo the two tests agree. -/
theorem hitSpecial_eq {psi : Pattern} {nlonIn : ℕ} {start : ℤ} {k : RTen} {z : ℕ} (h1 : start ≤ (psi.col z / nlonIn : ℕ))
    (h2 : ((psi.col z / nlonIn : ℕ) : ℤ) < start + k.H) (pscale lonLo wo : ℕ) :
    hitSpecial psi nlonIn pscale lonLo start k wo z = hitGeneric psi nlonIn pscale lonLo start k wo z := by
  unfold hitSpecial hitGeneric gatherHit
  dsimp only
  split
  · rw [if_neg (by omega), if_pos ⟨by omega, by omega⟩, if_pos ⟨by omega, by omega⟩]
  · rfl

theorem collectOps_ok {hits : ℕ × ℕ → List Hit} {f : ℕ × ℕ → List Op} (L : List (ℕ × ℕ)) (h : ∀ c ∈ L, collectHits c (hits c) = .ok (f c)) :
    collectOps hits L = .ok (L.flatMap f) := by
  induction L with
  | nil => rfl
  | cons c L ih =>
    unfold collectOps
    rw [h c List.mem_cons_self, ih fun c' hc' => h c' (List.mem_cons_of_mem _ hc')]
    rfl

theorem atomicAdds_eq (L : List Op) (x : Op → ℝ) (cell : ℕ × ℕ) :
    atomicAdds L x cell = (L.map fun o => if (o.t.1, o.t.2.1) = cell then x o else 0).sum := by
  unfold atomicAdds
  rw [foldl_update_cell L (fun o : Op => (o.t.1, o.t.2.1)) (fun (o : Op) (s : ℝ) => s + x o), ← list_sum_filter]
  have : ∀ (L : List Op) (s : ℝ), L.foldl (fun s o => s + x o) s = s + (L.map x).sum := by
    intro L
    induction L with
    | nil => intro s; simp
    | cons o L ih => intro s; rw [List.foldl_cons, ih, List.map_cons, List.sum_cons, add_assoc]
  rw [this, zero_add]

theorem atomicAdds_perm {L L' : List Op} (h : L.Perm L') (x : Op → ℝ) (cell : ℕ × ℕ) : atomicAdds L x cell = atomicAdds L' x cell := by
  rw [atomicAdds_eq, atomicAdds_eq, (h.map _).sum_eq]

/-! ### Gather direction -/

section
variable {Pp Pa : ℕ} {g : Grids} (hPp : 0 < Pp) (hPa : 0 < Pa) {P : Pattern} (hmono : Monotone P.roff)
  (hfit : P.Fits g.nlatOut (g.nlatIn * g.nlonIn)) (h0 : 0 < g.nlonIn) (pscale : ℕ) {r p lonLo : ℕ} (hp : p < Pp) {kh : ℕ → RTen}
  (hk : ∀ s < Pa, (kh s).H = blockSize g.nlatIn Pp p + 2 * r ∧ (kh s).W = blockSize g.nlonIn Pa s)
  (hr : ∀ h < blockSize g.nlatOut Pp p, ∀ z ∈ P.row (blockStart g.nlatOut Pp p + h),
      blockStart g.nlatIn Pp p ≤ P.col z / g.nlonIn + r ∧ P.col z / g.nlonIn < blockStart g.nlatIn Pp p + blockSize g.nlatIn Pp p + r)
include hmono hk hr hfit h0

include hPp hPa hp in
/-- The hits of one output point in one chunk at one local input point. -/
theorem chunk_hits {s0 : ℕ} (hs0 : s0 < Pa) {hl hi wl : ℕ} (hhi : hi + r = blockStart g.nlatIn Pp p + hl)
    (hwl : wl < blockSize g.nlonIn Pa s0) {h : ℕ} (hh : h < blockSize g.nlatOut Pp p) (wo : ℕ) (y : ℕ × ℕ × ℕ → ℝ) :
    ((((localPsi P (blockStart g.nlatOut Pp p) lonLo g.nlonIn pscale).row h).filterMap
        (gatherHit (localPsi P (blockStart g.nlatOut Pp p) lonLo g.nlonIn pscale) g.nlonIn pscale (blockStart g.nlonIn Pa s0)
          ((blockStart g.nlatIn Pp p : ℤ) - r) (kh s0) wo)).map fun t => if (t.1, t.2.1) = (hl, wl) then y t else 0).sum
      = ((gatherNbrs P g.nlonIn pscale (blockStart g.nlatOut Pp p + h) (lonLo + wo)).map
          fun u => if u = (hi, blockStart g.nlonIn Pa s0 + wl) then y (hl, wl, hi) else 0).sum := by
  rw [← gather_key g hPa hmono hfit h0 pscale r p lonLo kh hk hr hh (block_lt hPp hp hh)
    (fun s t => if s = s0 ∧ (t.1, t.2.1) = (hl, wl) then y t else 0)
    (fun u => if u = (hi, blockStart g.nlonIn Pa s0 + wl) then y (hl, wl, hi) else 0), Finset.sum_eq_single s0]
  · simp only [true_and]
  · intro s _ hne
    refine list_sum_zero fun t _ => ?_
    rw [if_neg fun h => hne h.1]
  · intro h; exact absurd (Finset.mem_range.2 hs0) h
  · intro s hs t hi' _ wi hwi _ h2 h3 h4
    by_cases hc : s = s0 ∧ (t.1, t.2.1) = (hl, wl)
    · obtain ⟨rfl, h5⟩ := hc
      rw [Prod.mk.injEq] at h5
      have e1 : hi' = hi := by omega
      have e2 : wi = wl := by omega
      rw [if_pos ⟨rfl, by rw [h5.1, h5.2]⟩, if_pos (by rw [e1, e2])]
      congr 1
      exact Prod.ext h5.1 (Prod.ext h5.2 (h4.trans e1))
    · rw [if_neg hc, if_neg]
      intro h5
      rw [Prod.mk.injEq] at h5
      obtain ⟨e1, e2⟩ := block_unique hwi hwl h5.2
      exact hc ⟨e1, by rw [Prod.mk.injEq]; omega⟩

omit hfit in
/-- The list of updates of a launch. -/
theorem gatherOps_ok {s0 : ℕ} (hs0 : s0 < Pa) (special : Bool) {rowIdx : ℕ → ℕ} {nlat : ℕ} (hn : nlat = blockSize g.nlatOut Pp p) (nlon : ℕ)
    (hrow : ((List.range nlat).map rowIdx).Perm (List.range nlat)) :
    gatherOps (localPsi P (blockStart g.nlatOut Pp p) lonLo g.nlonIn pscale) g.nlonIn pscale (blockStart g.nlonIn Pa s0)
        ((blockStart g.nlatIn Pp p : ℤ) - r) special rowIdx nlat nlon (kh s0)
      = .ok (((List.range nlat).flatMap fun h => (List.range nlon).map fun wo => (rowIdx h, wo)).flatMap fun c =>
          (((localPsi P (blockStart g.nlatOut Pp p) lonLo g.nlonIn pscale).row c.1).filterMap
            (gatherHit (localPsi P (blockStart g.nlatOut Pp p) lonLo g.nlonIn pscale) g.nlonIn pscale (blockStart g.nlonIn Pa s0)
              ((blockStart g.nlatIn Pp p : ℤ) - r) (kh s0) c.2)).map (Op.mk c)) := by
  unfold gatherOps
  refine collectOps_ok _ fun c hc => ?_
  obtain ⟨h', hh', hc'⟩ := List.mem_flatMap.1 hc
  obtain ⟨wo, _, rfl⟩ := List.mem_map.1 hc'
  have hlt : rowIdx h' < blockSize g.nlatOut Pp p := by
    rw [← hn]
    exact List.mem_range.1 (hrow.mem_iff.1 (List.mem_map.2 ⟨h', hh', rfl⟩))
  rw [← collectHits_generic]
  congr 1
  refine List.map_congr_left fun z hz => ?_
  cases special with
  | false => rfl
  | true =>
    rw [if_pos rfl]
    have hz' : P.roff (blockStart g.nlatOut Pp p) + z ∈ P.row (blockStart g.nlatOut Pp p + rowIdx h') := by
      rw [localPsi_row hmono (blockStart g.nlatOut Pp p) lonLo g.nlonIn pscale (rowIdx h')]
      exact List.mem_map.2 ⟨z, hz, rfl⟩
    obtain ⟨hr1, hr2⟩ := hr _ hlt _ hz'
    have hcol : (localPsi P (blockStart g.nlatOut Pp p) lonLo g.nlonIn pscale).col z / g.nlonIn
        = P.col (P.roff (blockStart g.nlatOut Pp p) + z) / g.nlonIn := by
      unfold localPsi
      dsimp only
      rw [Nat.add_comm, Nat.add_mul_div_right _ _ h0, Nat.div_eq_of_lt (Nat.mod_lt _ h0), Nat.zero_add]
    refine hitSpecial_eq ?_ ?_ _ _ _
    · rw [hcol]; omega
    · rw [hcol, (hk s0 hs0).1]; push_cast; omega

include hPp hPa hp in
/-- The atomic additions of a launch at one local input point. -/
theorem ops_sum {s0 : ℕ} (hs0 : s0 < Pa) {hl hi wl : ℕ} (hhi : hi + r = blockStart g.nlatIn Pp p + hl)
    (hwl : wl < blockSize g.nlonIn Pa s0) {rowIdx : ℕ → ℕ} {nlat : ℕ} (hn : nlat = blockSize g.nlatOut Pp p) (nlon : ℕ)
    (hrow : ((List.range nlat).map rowIdx).Perm (List.range nlat)) (x : Op → ℝ) :
    atomicAdds (((List.range nlat).flatMap fun h => (List.range nlon).map fun wo => (rowIdx h, wo)).flatMap fun c =>
          (((localPsi P (blockStart g.nlatOut Pp p) lonLo g.nlonIn pscale).row c.1).filterMap
            (gatherHit (localPsi P (blockStart g.nlatOut Pp p) lonLo g.nlonIn pscale) g.nlonIn pscale (blockStart g.nlonIn Pa s0)
              ((blockStart g.nlatIn Pp p : ℤ) - r) (kh s0) c.2)).map (Op.mk c)) x (hl, wl)
      = part (gatherNbrs P g.nlonIn pscale) (fun h wo => x ⟨(h, wo), (hl, wl, hi)⟩) (blockStart g.nlatOut Pp p) nlat lonLo nlon
          (hi, blockStart g.nlonIn Pa s0 + wl) := by
  rw [atomicAdds_eq, list_sum_flatMap, list_sum_flatMap]
  unfold part
  have hcell : ∀ h < nlat, ((((List.range nlon).map fun wo => (h, wo)).map fun c : ℕ × ℕ =>
      (((((localPsi P (blockStart g.nlatOut Pp p) lonLo g.nlonIn pscale).row c.1).filterMap
            (gatherHit (localPsi P (blockStart g.nlatOut Pp p) lonLo g.nlonIn pscale) g.nlonIn pscale (blockStart g.nlonIn Pa s0)
              ((blockStart g.nlatIn Pp p : ℤ) - r) (kh s0) c.2)).map (Op.mk c)).map
                fun o => if (o.t.1, o.t.2.1) = (hl, wl) then x o else 0).sum).sum)
      = ∑ wo ∈ range nlon, ((gatherNbrs P g.nlonIn pscale (blockStart g.nlatOut Pp p + h) (lonLo + wo)).map
          fun u => if u = (hi, blockStart g.nlonIn Pa s0 + wl) then x ⟨(h, wo), (hl, wl, hi)⟩ else 0).sum := by
    intro h hh
    rw [List.map_map, list_sum_range]
    refine Finset.sum_congr rfl fun wo _ => ?_
    simp only [Function.comp_def]
    rw [List.map_map]
    exact chunk_hits hPp hPa hmono hfit h0 pscale hp hk hr hs0 hhi hwl (hn ▸ hh) wo fun t => x ⟨(h, wo), t⟩
  have hperm := (hrow.map fun h => ∑ wo ∈ range nlon, ((gatherNbrs P g.nlonIn pscale (blockStart g.nlatOut Pp p + h) (lonLo + wo)).map
          fun u => if u = (hi, blockStart g.nlonIn Pa s0 + wl) then x ⟨(h, wo), (hl, wl, hi)⟩ else 0).sum).sum_eq
  rw [← list_sum_range, ← hperm, List.map_map]
  refine list_sum_congr fun h hh => ?_
  exact hcell (rowIdx h) (List.mem_range.1 (hrow.mem_iff.1 (List.mem_map.2 ⟨h, hh, rfl⟩)))

end

/-! ### Upsampling direction -/

theorem upRowSum_list (psi : Pattern) (g : Grids) (lonLo nl hl wl : ℕ) (x : ℕ × ℕ → ℝ) :
    upRowSum psi g lonLo nl hl wl x = ((psi.row hl).map fun z =>
      (upLocalWo (psi.col z - psi.col z / g.nlonOut * g.nlonOut) (lonLo + wl) (g.nlonOut / g.nlonIn) g.nlonOut nl).elim 0
        fun wo => x (psi.col z / g.nlonOut, wo)).sum := by
  unfold upRowSum
  have : ∀ (L : List ℕ) (s : ℝ), L.foldl (fun s z =>
      match upLocalWo (psi.col z - psi.col z / g.nlonOut * g.nlonOut) (lonLo + wl) (g.nlonOut / g.nlonIn) g.nlonOut nl with
      | none => s
      | some wo => s + x (psi.col z / g.nlonOut, wo)) s = s + (L.map fun z =>
      (upLocalWo (psi.col z - psi.col z / g.nlonOut * g.nlonOut) (lonLo + wl) (g.nlonOut / g.nlonIn) g.nlonOut nl).elim 0
        fun wo => x (psi.col z / g.nlonOut, wo)).sum := by
    intro L
    induction L with
    | nil => intro s; simp
    | cons z L ih =>
      intro s
      rw [List.foldl_cons, ih, List.map_cons, List.sum_cons]
      cases upLocalWo (psi.col z - psi.col z / g.nlonOut * g.nlonOut) (lonLo + wl) (g.nlonOut / g.nlonIn) g.nlonOut nl with
      | none => simp
      | some wo => simp only [Option.elim]; rw [add_assoc]
  rw [← zero_add (List.sum _)]
  exact this _ 0

theorem upLocalWo_lt {a b c d nl wo : ℕ} (h : upLocalWo a b c d nl = some wo) : wo < nl := by
  unfold upLocalWo at h
  dsimp only at h
  generalize (if a + c * b ≥ d then a + c * b - d else a + c * b) = y at h
  by_cases hy : y < nl
  · rw [if_pos hy, Option.some.injEq] at h; omega
  · rw [if_neg hy] at h; simp at h

/-- The sum over the row of a chunk cell, sorted by output points. -/
theorem upRowSum_cells (psi : Pattern) (g : Grids) (lonLo nl hl wl H W nlat : ℕ) (hhl : hl < H) (hwl : wl < W)
    (hcol : ∀ z ∈ psi.row hl, psi.col z / g.nlonOut < nlat) (x : ℕ × ℕ → ℝ) :
    upRowSum psi g lonLo nl hl wl x = ∑ h ∈ range nlat, ∑ wo ∈ range nl,
      (((upEdges psi g.nlonOut (g.nlonOut / g.nlonIn) lonLo nl H W).filter fun e => e.cell = (h, wo)).map
        fun e => if e.src = (hl, wl) then x (h, wo) else 0).sum := by
  have h1 : ∀ h wo, (((upEdges psi g.nlonOut (g.nlonOut / g.nlonIn) lonLo nl H W).filter fun e => e.cell = (h, wo)).map
        fun e => if e.src = (hl, wl) then x (h, wo) else 0).sum = ((psi.row hl).map fun z =>
      if psi.col z / g.nlonOut = h ∧
          upLocalWo (psi.col z - psi.col z / g.nlonOut * g.nlonOut) (lonLo + wl) (g.nlonOut / g.nlonIn) g.nlonOut nl = some wo then x (h, wo) else 0).sum := by
    intro h wo
    rw [upEdges_sum, Finset.sum_eq_single wl, Finset.sum_eq_single hl]
    · simp
    · intro hi _ hne
      refine list_sum_zero fun z _ => ?_
      rw [if_neg (fun h => hne (Prod.mk.inj h).1), ite_self]
    · intro h; exact absurd (Finset.mem_range.2 hhl) h
    · intro wi _ hne
      refine Finset.sum_eq_zero fun hi _ => list_sum_zero fun z _ => ?_
      rw [if_neg (fun h => hne (Prod.mk.inj h).2), ite_self]
    · intro h; exact absurd (Finset.mem_range.2 hwl) h
  simp only [h1]
  rw [upRowSum_list]
  simp only [← list_finset_comm]
  refine list_sum_congr fun z hz => ?_
  rw [Finset.sum_eq_single (psi.col z / g.nlonOut)]
  · cases hw : upLocalWo (psi.col z - psi.col z / g.nlonOut * g.nlonOut) (lonLo + wl) (g.nlonOut / g.nlonIn) g.nlonOut nl with
    | none => simp
    | some wo =>
      rw [Finset.sum_eq_single wo]
      · simp
      · intro wo' _ hne
        rw [if_neg]
        rintro ⟨_, h⟩
        exact hne (Option.some.inj h).symm
      · intro h; exact absurd (Finset.mem_range.2 (upLocalWo_lt hw)) h
  · intro h _ hne
    refine Finset.sum_eq_zero fun wo _ => ?_
    rw [if_neg fun h' => hne h'.1.symm]
  · intro h; exact absurd (Finset.mem_range.2 (hcol z hz)) h

theorem selectUp_col {P : Pattern} {g : Grids} (h0 : 0 < g.nlonOut) (latLo nlatLocal lonLo : ℕ) (start : ℤ) (nlatHalo : ℕ) :
    ∀ e ∈ selectUp P g latLo nlatLocal lonLo start nlatHalo, e.2 / g.nlonOut < nlatLocal := by
  intro e he
  obtain ⟨t, _, h⟩ := List.mem_filterMap.1 he
  dsimp only at h
  split at h
  · rename_i hc
    simp only [Option.some.injEq] at h
    subst h
    dsimp only
    have h1 := Int.emod_lt_of_pos (((P.col t.2 - P.col t.2 / g.nlonOut * g.nlonOut : ℕ) : ℤ) - lonLo) (show (0 : ℤ) < g.nlonOut by omega)
    rw [Nat.add_comm, Nat.add_mul_div_right _ _ h0, Nat.div_eq_of_lt (by omega), Nat.zero_add]
    omega
  · simp at h

theorem localPsiUp_col {P : Pattern} {g : Grids} (h0 : 0 < g.nlonOut) (latLo nlatLocal lonLo : ℕ) (start : ℤ) (nlatHalo hl : ℕ) :
    ∀ z ∈ (localPsiUp (selectUp P g latLo nlatLocal lonLo start nlatHalo)).row hl,
      (localPsiUp (selectUp P g latLo nlatLocal lonLo start nlatHalo)).col z / g.nlonOut < nlatLocal := by
  intro z hz
  have h1 : (localPsiUp (selectUp P g latLo nlatLocal lonLo start nlatHalo)).col z
      ∈ ((localPsiUp (selectUp P g latLo nlatLocal lonLo start nlatHalo)).row hl).map (localPsiUp (selectUp P g latLo nlatLocal lonLo start nlatHalo)).col :=
    List.mem_map.2 ⟨z, hz, rfl⟩
  rw [localPsiUp_row _ (selectUp_sorted _ _ _ _ _ _ _)] at h1
  obtain ⟨e, he, h2⟩ := List.mem_map.1 h1
  rw [← h2]
  exact selectUp_col h0 _ _ _ _ _ e (List.mem_filter.1 he).1

/-- The row sum of a chunk cell over the neighbours of the output points. -/
theorem up_sum {Pp Pa : ℕ} {g : Grids} (hPa : 0 < Pa) {P : Pattern} (h0 : 0 < g.nlonOut) (hdvd : g.nlonOut % g.nlonIn = 0) {r p a : ℕ}
    (ha : a < Pa)
    (hr : ∀ hi < g.nlatIn, ∀ z ∈ P.row hi, blockStart g.nlatOut Pp p ≤ P.col z / g.nlonOut →
      P.col z / g.nlonOut < blockStart g.nlatOut Pp p + blockSize g.nlatOut Pp p →
      blockStart g.nlatIn Pp p ≤ hi + r ∧ hi < blockStart g.nlatIn Pp p + blockSize g.nlatIn Pp p + r)
    {s0 : ℕ} (hs0 : s0 < Pa) {hl hi wl : ℕ} (hhl : hl < blockSize g.nlatIn Pp p + 2 * r) (hhi : hi + r = blockStart g.nlatIn Pp p + hl)
    (hwl : wl < blockSize g.nlonIn Pa s0) (x : ℕ × ℕ → ℝ) :
    upRowSum (localPsiUp (selectUp P g (blockStart g.nlatOut Pp p) (blockSize g.nlatOut Pp p) (blockStart g.nlonOut Pa a)
        ((blockStart g.nlatIn Pp p : ℤ) - r) (blockSize g.nlatIn Pp p + 2 * r))) g (blockStart g.nlonIn Pa s0) (blockSize g.nlonOut Pa a) hl wl x
      = part (scatterNbrs P g.nlatIn g.nlonIn g.nlonOut (g.nlonOut / g.nlonIn)) (fun h wo => x (h, wo)) (blockStart g.nlatOut Pp p)
          (blockSize g.nlatOut Pp p) (blockStart g.nlonOut Pa a) (blockSize g.nlonOut Pa a) (hi, blockStart g.nlonIn Pa s0 + wl) := by
  rw [upRowSum_cells _ g _ _ hl wl (blockSize g.nlatIn Pp p + 2 * r) (blockSize g.nlonIn Pa s0) (blockSize g.nlatOut Pp p) hhl hwl
    (localPsiUp_col h0 _ _ _ _ _ _)]
  unfold part
  refine Finset.sum_congr rfl fun h hh => Finset.sum_congr rfl fun wo hwo => ?_
  rw [← up_key g hPa h0 hdvd r p a ha hr (Finset.mem_range.1 hh) (Finset.mem_range.1 hwo)
    (fun s t => if s = s0 ∧ t = (hl, wl) then x (h, wo) else 0) _ ?_, Finset.sum_eq_single s0]
  · simp only [true_and]
  · intro s _ hne
    refine list_sum_zero fun t _ => ?_
    rw [if_neg fun h => hne h.1]
  · intro h; exact absurd (Finset.mem_range.2 hs0) h
  · intro s hs hi' _ hl' wi hwi _ h2
    by_cases hc : s = s0 ∧ (hl', wi) = (hl, wl)
    · obtain ⟨rfl, h5⟩ := hc
      rw [Prod.mk.injEq] at h5
      rw [if_pos ⟨rfl, by rw [h5.1, h5.2]⟩, if_pos (by rw [Prod.mk.injEq]; omega)]
    · rw [if_neg hc, if_neg]
      intro h5
      rw [Prod.mk.injEq] at h5
      obtain ⟨e1, e2⟩ := block_unique hwi hwl h5.2
      exact hc ⟨e1, by rw [Prod.mk.injEq]; omega⟩

end Verif.Ring
