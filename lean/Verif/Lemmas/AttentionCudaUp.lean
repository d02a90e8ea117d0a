import Verif.Lemmas.AttentionCudaFwd
/-!
The GPU scatter kernels (upsampling): what their atomic operations add up to.
-/
namespace Verif.AttnGpu
open Verif Verif.Attn Verif.Spec.Attn Finset

theorem sub_div_mul (x W : ℕ) : x - x / W * W = x % W := by
  have := Nat.div_add_mod x W
  rw [Nat.mul_comm] at this
  omega

theorem scatterPoint_eq (P : Pattern) {nlonIn nlonOut wi z : ℕ} (hdiv : nlonOut % nlonIn = 0) (h0 : 0 < nlonOut) (hwi : wi < nlonIn) :
    scatterPoint P nlonIn nlonOut wi z = outOf P nlonOut (nlonOut / nlonIn) wi z := by
  have hN : nlonOut / nlonIn * nlonIn = nlonOut := Nat.div_mul_cancel (Nat.dvd_of_mod_eq_zero hdiv)
  have h1 : nlonOut / nlonIn * wi < nlonOut := by
    have hp : 0 < nlonOut / nlonIn := by
      rcases Nat.eq_zero_or_pos (nlonOut / nlonIn) with h | h
      · rw [h] at hN; omega
      · exact h
    calc nlonOut / nlonIn * wi < nlonOut / nlonIn * nlonIn := Nat.mul_lt_mul_of_pos_left hwi hp
      _ = nlonOut := hN
  have h2 := Nat.mod_lt (P.col z) h0
  unfold scatterPoint outOf scatterWo
  dsimp only
  rw [sub_div_mul]
  refine Prod.ext rfl ?_
  dsimp only
  generalize P.col z % nlonOut = x at h2 ⊢
  generalize nlonOut / nlonIn * wi = y at h1 ⊢
  split_ifs with h
  · rw [Nat.mod_eq_sub_mod h, Nat.mod_eq_of_lt (by omega)]
  · rw [Nat.mod_eq_of_lt (by omega)]

theorem outOf_lt {P : Pattern} {d : Dims} (hfit : P.Fits d.nlatIn (d.nlatOut * d.nlonOut)) (h0 : 0 < d.nlonOut) {hi : ℕ} (hhi : hi < d.nlatIn)
    {z : ℕ} (hz : z ∈ P.row hi) (ps wi : ℕ) : (outOf P d.nlonOut ps wi z).1 < d.nlatOut ∧ (outOf P d.nlonOut ps wi z).2 < d.nlonOut :=
  ⟨Nat.div_lt_of_lt_mul (by rw [Nat.mul_comm]; exact hfit hi hhi z hz), Nat.mod_lt _ h0⟩

theorem locOk_none (bx n : ℕ) : LocOk bx none n := fun m hm => by simp at hm

/-- A staged vector, where the thread has written it. -/
theorem staged_at {n t c : ℕ} (a : ℕ → ℝ) (base : ℕ) (junk : ℕ → ℝ) (hc : c ∈ Disco.strided 32 n t) : staged n a base junk t c = a (base + c) := by
  unfold staged
  have e := foldl_update_at (Disco.strided 32 n t) (chans_nodup (bx := 32) (n := n) (t := t) (loc := none) (by omega)) (fun c (_ : ℝ) => a (base + c)) junk c
  rw [if_pos hc] at e
  exact e

theorem warpDot_eq {n : ℕ} (sh : ℕ → ℕ → ℝ) (a : ℕ → ℝ) (base : ℕ) (S : ℕ → ℝ) (hS : ∀ t < 32, ∀ c ∈ Disco.strided 32 n t, sh t c = S c) {t : ℕ} (ht : t < 32) :
    warpDot n sh a base t = ∑ c ∈ range n, S c * a (base + c) := by
  unfold warpDot
  rw [warpSum_eq _ ht]
  have : ∀ t ∈ range 32, (Disco.strided 32 n t).foldl (fun acc c => acc + sh t c * a (base + c)) 0
      = ((chans 32 none n t).map fun c => S c * a (base + c)).sum := by
    intro t ht
    have e := foldl_ev (σ := ℝ) id (fun acc c => acc + sh t c * a (base + c)) (fun c => sh t c * a (base + c)) (Disco.strided 32 n t)
      (fun _ _ _ => rfl) 0
    simp only [id, zero_add] at e
    rw [e]
    exact list_sum_congr fun c hc => by rw [hS t (mem_range.1 ht) c hc]
  rw [sum_congr rfl this, sum_chans (by omega) (locOk_none _ _)]

section
variable (d : Dims) (nh : ℕ) (k v q : ℕ → ℝ)

/-- The score an upsampling warp computes, in every thread. -/
theorem upScore_eq (junk : ShJunk) (bh hi wi ho wo : ℕ) {t : ℕ} (ht : t < 32) :
    upScore d nh (upKey d nh k junk bh hi wi) q bh ho wo t
      = score d.Ck (headView d.nlatIn d.nlonIn nh d.Ck k) (headView d.nlatOut d.nlonOut nh d.Ck q) bh ho wo (hi, wi) := by
  unfold upScore score
  have e : ∀ H W C h w c : ℕ, headBase H W nh C bh + (h * W + w) * (nh * C) + c = ((bh / nh * H + h) * W + w) * (nh * C) + (bh % nh * C + c) := by
    intro H W C h w c
    unfold headBase
    dsimp only
    rw [sub_div_mul]
    ring
  rw [warpDot_eq _ _ _ (fun c => headView d.nlatIn d.nlonIn nh d.Ck k bh c hi wi) ?_ ht]
  · refine sum_congr rfl fun c _ => ?_
    unfold headView
    rw [e, mul_comm]
  · intro t _ c hc
    unfold upKey headView
    rw [staged_at _ _ _ hc, e]

theorem upVal_eq (junk : ShJunk) (bh hi wi : ℕ) {t c : ℕ} (hc : c ∈ Disco.strided 32 d.Cv t) :
    upVal d nh v junk bh hi wi t c = headView d.nlatIn d.nlonIn nh d.Cv v bh c hi wi := by
  unfold upVal headView
  rw [staged_at _ _ _ hc]
  unfold headBase
  dsimp only
  rw [sub_div_mul]
  ring_nf

end

/-! ### Adding up the operations of a grid -/

theorem addsAt_flatMap {ι : Type} (L : List ι) (f : ι → List (ℕ × ℝ)) (x : ℕ) :
    Disco.addsAt (L.flatMap f) x = (L.map fun i => Disco.addsAt (f i) x).sum := by
  unfold Disco.addsAt
  rw [list_sum_flatMap]

/-- The operations of a grid over the points of an `H × W` map. -/
theorem addsAt_grid {bhs gx by' H W : ℕ} (hg : H * W ≤ gx * by') (f : ℕ → ℕ → List (ℕ × ℝ)) (g : ℕ → ℕ → ℕ → List (ℕ × ℝ))
    (hf : ∀ bh wid, f bh wid = if wid ≥ H * W then [] else g bh (wid / W) (wid % W)) (x : ℕ) :
    Disco.addsAt (overGrid bhs gx by' f) x = ∑ bh ∈ range bhs, ∑ h ∈ range H, ∑ w ∈ range W, Disco.addsAt (g bh h w) x := by
  unfold overGrid
  rw [addsAt_flatMap, list_sum_range]
  refine sum_congr rfl fun bh _ => ?_
  rw [addsAt_flatMap, list_sum_range]
  refine Eq.trans ?_ ((Filter.sum_range_blocks H W (fun i => Disco.addsAt (g bh (i / W) (i % W)) x)).trans ?_)
  · rw [← sum_subset (range_subset_range.2 hg)]
    · refine sum_congr rfl fun wid hw => ?_
      rw [hf, if_neg (by rw [mem_range] at hw; omega)]
    · intro wid _ hw
      rw [mem_range] at hw
      rw [hf, if_pos (by omega)]
      rfl
  · refine sum_congr rfl fun h _ => sum_congr rfl fun w hw => ?_
    obtain ⟨e1, e2⟩ := div_mul_add (a := h) (mem_range.1 hw)
    rw [e1, e2]

/-- The cell of an output point in a scratch array. -/
theorem cell_inj {H W bh bh' h h' w w' : ℕ} (hh : h < H) (hh' : h' < H) (hw : w < W) (hw' : w' < W)
    (e : bh * H * W + (h * W + w) = bh' * H * W + (h' * W + w')) : bh = bh' ∧ h = h' ∧ w = w' := by
  have e1 : (bh * H + h) * W + w = (bh' * H + h') * W + w' := by
    rw [Nat.add_mul, Nat.add_mul, Nat.add_assoc, Nat.add_assoc]
    exact e
  obtain ⟨e2, e3⟩ := mulAdd_inj e1 hw hw'
  obtain ⟨e4, e5⟩ := mulAdd_inj e2 hh hh'
  exact ⟨e4, e5, e3⟩

theorem cell_lt {B H W bh h w : ℕ} (hb : bh < B) (hh : h < H) (hw : w < W) : bh * H * W + (h * W + w) < B * H * W := by
  have := packed_lt (packed_lt hb hh) hw
  rw [Nat.add_mul, Nat.add_assoc] at this
  exact this

/-- Operations of one warp on the cells of its output points, `K` numbers per cell; `all` distinguishes the threads that take part. -/
theorem addsAt_cells {ι : Type} {H W K bh bh0 ho wo c0 : ℕ} (L : List ι) (pt : ι → ℕ × ℕ) (hpt : ∀ z ∈ L, (pt z).1 < H ∧ (pt z).2 < W) (hho : ho < H) (hwo : wo < W)
    (hc0 : c0 < K) (V : ι → ℕ → ℕ → ℝ) (U : ι → ℕ → ℝ) (hV : ∀ z ∈ L, ∀ t < 32, ∀ c ∈ Disco.strided 32 K t, V z t c = U z c) :
    Disco.addsAt (L.flatMap fun z => (List.range 32).flatMap fun t => (Disco.strided 32 K t).map fun c =>
        (bh * H * W * K + ((pt z).1 * W + (pt z).2) * K + c, V z t c)) (bh0 * H * W * K + (ho * W + wo) * K + c0)
      = (L.map fun z => if bh = bh0 ∧ pt z = (ho, wo) then U z c0 else 0).sum := by
  rw [addsAt_flatMap]
  refine list_sum_congr fun z hz => ?_
  rw [addsAt_flatMap, list_sum_range]
  have h1 : ∀ t ∈ range 32, Disco.addsAt ((Disco.strided 32 K t).map fun c =>
        (bh * H * W * K + ((pt z).1 * W + (pt z).2) * K + c, V z t c)) (bh0 * H * W * K + (ho * W + wo) * K + c0)
      = ((chans 32 none K t).map fun c => if bh * H * W * K + ((pt z).1 * W + (pt z).2) * K + c = bh0 * H * W * K + (ho * W + wo) * K + c0
          then U z c else 0).sum := by
    intro t ht
    unfold Disco.addsAt
    rw [List.map_map]
    refine list_sum_congr fun c hc => ?_
    dsimp only [Function.comp]
    rw [hV z hz t (mem_range.1 ht) c hc]
  rw [sum_congr rfl h1, sum_chans (by omega) (locOk_none _ _)]
  have h2 : ∀ c ∈ range K, (if bh * H * W * K + ((pt z).1 * W + (pt z).2) * K + c = bh0 * H * W * K + (ho * W + wo) * K + c0 then U z c else 0)
      = if c = c0 then (if bh = bh0 ∧ pt z = (ho, wo) then U z c0 else 0) else 0 := by
    intro c hc
    rw [mem_range] at hc
    by_cases e : bh * H * W * K + ((pt z).1 * W + (pt z).2) * K + c = bh0 * H * W * K + (ho * W + wo) * K + c0
    · rw [if_pos e]
      rw [← Nat.add_mul, ← Nat.add_mul] at e
      obtain ⟨e1, e2⟩ := mulAdd_inj e hc hc0
      obtain ⟨e3, e4, e5⟩ := cell_inj (hpt z hz).1 hho (hpt z hz).2 hwo e1
      rw [if_pos e2, if_pos ⟨e3, Prod.ext e4 e5⟩, e2]
    · rw [if_neg e]
      split_ifs with h3 h4
      · exfalso
        apply e
        rw [h4.1, h4.2, h3]
      · rfl
      · rfl
  rw [sum_congr rfl h2, Finset.sum_ite_eq', if_pos (mem_range.2 hc0)]

/-- The same for one number per cell, written by one thread. -/
theorem addsAt_cell {ι : Type} {H W bh bh0 ho wo : ℕ} (L : List ι) (pt : ι → ℕ × ℕ) (hpt : ∀ z ∈ L, (pt z).1 < H ∧ (pt z).2 < W) (hho : ho < H) (hwo : wo < W)
    (U : ι → ℝ) :
    Disco.addsAt (L.map fun z => (bh * H * W + ((pt z).1 * W + (pt z).2), U z)) (bh0 * H * W + (ho * W + wo))
      = (L.map fun z => if bh = bh0 ∧ pt z = (ho, wo) then U z else 0).sum := by
  unfold Disco.addsAt
  rw [List.map_map]
  refine list_sum_congr fun z hz => ?_
  dsimp only [Function.comp]
  by_cases e : bh * H * W + ((pt z).1 * W + (pt z).2) = bh0 * H * W + (ho * W + wo)
  · obtain ⟨e3, e4, e5⟩ := cell_inj (hpt z hz).1 hho (hpt z hz).2 hwo e
    rw [if_pos e, if_pos ⟨e3, Prod.ext e4 e5⟩]
  · rw [if_neg e, if_neg]
    rintro ⟨h1, h2⟩
    apply e
    rw [h1, h2]

/-- Adding up over the grid, only the neighbours of the output point contribute. -/
theorem sum_scatter (P : Pattern) {d : Dims} (hdiv : d.nlonOut % d.nlonIn = 0) (h0 : 0 < d.nlonOut) {bhs bh0 : ℕ} (hb : bh0 < bhs) (ho wo : ℕ)
    (U : ℕ → ℕ × ℕ → ℝ) :
    ∑ bh ∈ range bhs, ∑ hi ∈ range d.nlatIn, ∑ wi ∈ range d.nlonIn, ((P.row hi).map fun z =>
        if bh = bh0 ∧ scatterPoint P d.nlonIn d.nlonOut wi z = (ho, wo) then U bh (hi, wi) else 0).sum
      = ((scatterNbrs P d.nlatIn d.nlonIn d.nlonOut (d.nlonOut / d.nlonIn) ho wo).map (U bh0)).sum := by
  rw [scatter_sum, sum_eq_single_of_mem bh0 (mem_range.2 hb)]
  · refine sum_congr rfl fun hi _ => sum_congr rfl fun wi hwi => list_sum_congr fun z _ => ?_
    rw [scatterPoint_eq P hdiv h0 (mem_range.1 hwi)]
    simp
  · intro bh _ hne
    refine sum_eq_zero fun hi _ => sum_eq_zero fun wi _ => list_sum_zero fun z _ => ?_
    rw [if_neg (fun h => hne h.1)]

/-! ### The maximum -/

theorem atomicMax_ok (size : ℕ) (L : List (ℕ × ℝ)) (hL : ∀ a ∈ L, a.1 < size) (mem : ℕ → ℝ) :
    ∃ out, L.foldlM (atomicMaxTo size) mem = .ok out ∧ (∀ a ∈ L, a.2 ≤ out a.1) ∧
      ∀ i, out i = mem i ∨ ∃ a ∈ L, a.1 = i ∧ out i = a.2 := by
  induction L using List.reverseRecOn with
  | nil => exact ⟨mem, rfl, by simp, fun _ => Or.inl rfl⟩
  | append_singleton L a ih =>
    obtain ⟨out, h1, h2, h3⟩ := ih (fun b hb => hL b (List.mem_append_left _ hb))
    have ha := hL a (List.mem_append_right _ List.mem_cons_self)
    refine ⟨Function.update out a.1 (max (out a.1) a.2), ?_, ?_, ?_⟩
    · rw [List.foldlM_append, h1]
      change ([a].foldlM (atomicMaxTo size) out) = _
      rw [List.foldlM_cons]
      unfold atomicMaxTo
      rw [if_pos ha]
      rfl
    · intro b hb
      rw [List.mem_append, List.mem_singleton] at hb
      by_cases hab : b.1 = a.1
      · rw [hab, Function.update_self]
        rcases hb with hb | rfl
        · exact le_trans (by rw [← hab]; exact h2 b hb) (le_max_left _ _)
        · exact le_max_right _ _
      · rw [Function.update_of_ne hab]
        rcases hb with hb | rfl
        · exact h2 b hb
        · exact absurd rfl hab
    · intro i
      by_cases hi : i = a.1
      · subst hi
        rw [Function.update_self]
        rcases max_choice (out a.1) a.2 with h | h
        · rw [h]
          rcases h3 a.1 with h' | ⟨b, hb, e1, e2⟩
          · exact Or.inl h'
          · exact Or.inr ⟨b, List.mem_append_left _ hb, e1, e2⟩
        · rw [h]
          exact Or.inr ⟨a, List.mem_append_right _ List.mem_cons_self, rfl, rfl⟩
      · rw [Function.update_of_ne hi]
        rcases h3 i with h' | ⟨b, hb, e1, e2⟩
        · exact Or.inl h'
        · exact Or.inr ⟨b, List.mem_append_left _ hb, e1, e2⟩

/-! ### The four passes -/

theorem bind_ok {ε α β : Type} (a : α) (f : α → Except ε β) : (Except.ok a >>= f) = f a := rfl

theorem bind_error {ε α β : Type} (e : ε) (f : α → Except ε β) : (Except.error e >>= f) = .error e := rfl

theorem mem_scatterNbrs_iff {P : Pattern} {nlatIn nlonIn nlonOut ps ho wo hi wi : ℕ} : (hi, wi) ∈ scatterNbrs P nlatIn nlonIn nlonOut ps ho wo ↔
    hi < nlatIn ∧ wi < nlonIn ∧ ∃ z ∈ P.row hi, outOf P nlonOut ps wi z = (ho, wo) := by
  unfold scatterNbrs
  simp only [List.mem_flatMap, List.mem_range, List.mem_map, List.mem_filter, decide_eq_true_eq, Prod.mk.injEq]
  constructor
  · rintro ⟨a, ha, b, hb, z, ⟨hz, e⟩, rfl, rfl⟩
    exact ⟨ha, hb, z, hz, Prod.ext e.1 e.2⟩
  · rintro ⟨ha, hb, z, hz, e⟩
    exact ⟨hi, ha, wi, hb, z, ⟨hz, (Prod.ext_iff.1 e).1, (Prod.ext_iff.1 e).2⟩, rfl, rfl⟩

section
variable {r : GpuRun} {d : Dims} {nh : ℕ} {w : ℕ → ℝ} {P : Pattern} {k v q : ℕ → ℝ}

/-- The address of the cell of an entry is inside the scratch arrays. -/
theorem scatter_cell_lt (hfit : P.Fits d.nlatIn (d.nlatOut * d.nlonOut)) (hdiv : d.nlonOut % d.nlonIn = 0) (h0 : 0 < d.nlonOut) {hi wi z : ℕ}
    (hhi : hi < d.nlatIn) (hwi : wi < d.nlonIn) (hz : z ∈ P.row hi) :
    (scatterPoint P d.nlonIn d.nlonOut wi z).1 < d.nlatOut ∧ (scatterPoint P d.nlonIn d.nlonOut wi z).2 < d.nlonOut := by
  rw [scatterPoint_eq P hdiv h0 hwi]
  exact outOf_lt hfit h0 hhi hz _ _

theorem split_wid {H W wid : ℕ} (h : ¬ wid ≥ H * W) : wid / W < H ∧ wid % W < W := by
  have hW : 0 < W := by
    rcases Nat.eq_zero_or_pos W with h' | h'
    · subst h'; omega
    · exact h'
  exact ⟨Nat.div_lt_of_lt_mul (by rw [Nat.mul_comm]; omega), Nat.mod_lt _ hW⟩

theorem upMax_ok (hperm : ∀ L, (r.perm L).Perm L) (hfit : P.Fits d.nlatIn (d.nlatOut * d.nlonOut)) (hdiv : d.nlonOut % d.nlonIn = 0) (h0 : 0 < d.nlonOut)
    (hl : launchOk (divUp (d.nlatIn * d.nlonIn) 2) (d.B * nh) (4 * d.Ck * 2)) :
    ∃ m, gpuUpMax r d nh P k q = .ok m ∧ ∀ bh < d.B * nh, ∀ ho < d.nlatOut, ∀ wo < d.nlonOut,
      (∀ p ∈ scatterNbrs P d.nlatIn d.nlonIn d.nlonOut (d.nlonOut / d.nlonIn) ho wo,
        score d.Ck (headView d.nlatIn d.nlonIn nh d.Ck k) (headView d.nlatOut d.nlonOut nh d.Ck q) bh ho wo p ≤ m (bh * d.nlatOut * d.nlonOut + (ho * d.nlonOut + wo))) ∧
      (m (bh * d.nlatOut * d.nlonOut + (ho * d.nlonOut + wo)) = r.fmin ∨
        ∃ p ∈ scatterNbrs P d.nlatIn d.nlonIn d.nlonOut (d.nlonOut / d.nlonIn) ho wo, m (bh * d.nlatOut * d.nlonOut + (ho * d.nlonOut + wo))
          = score d.Ck (headView d.nlatIn d.nlonIn nh d.Ck k) (headView d.nlatOut d.nlonOut nh d.Ck q) bh ho wo p) := by
  unfold gpuUpMax checked
  dsimp only
  rw [if_pos hl]
  have hp := hperm (overGrid (d.B * nh) (divUp (d.nlatIn * d.nlonIn) 2) 2 (upMaxOps d nh P k q r.junk))
  -- every operation of the pass
  have hmem : ∀ a ∈ overGrid (d.B * nh) (divUp (d.nlatIn * d.nlonIn) 2) 2 (upMaxOps d nh P k q r.junk), ∃ bh < d.B * nh, ∃ hi < d.nlatIn, ∃ wi < d.nlonIn,
      ∃ z ∈ P.row hi, a = (bh * d.nlatOut * d.nlonOut + ((outOf P d.nlonOut (d.nlonOut / d.nlonIn) wi z).1 * d.nlonOut
        + (outOf P d.nlonOut (d.nlonOut / d.nlonIn) wi z).2), score d.Ck (headView d.nlatIn d.nlonIn nh d.Ck k) (headView d.nlatOut d.nlonOut nh d.Ck q) bh
          (outOf P d.nlonOut (d.nlonOut / d.nlonIn) wi z).1 (outOf P d.nlonOut (d.nlonOut / d.nlonIn) wi z).2 (hi, wi)) := by
    intro a ha
    obtain ⟨bh, hb, wid, _, ha⟩ := mem_overGrid.1 ha
    unfold upMaxOps at ha
    split_ifs at ha with hw
    · simp at ha
    · dsimp only at ha
      obtain ⟨hh, hw'⟩ := split_wid hw
      rw [sub_div_mul] at ha
      obtain ⟨z, hz, rfl⟩ := List.mem_map.1 ha
      refine ⟨bh, hb, _, hh, _, hw', z, hz, ?_⟩
      rw [upScore_eq _ _ _ _ _ _ _ _ _ _ (by omega), scatterPoint_eq P hdiv h0 hw']
  obtain ⟨m, h1, h2, h3⟩ := atomicMax_ok (d.B * nh * d.nlatOut * d.nlonOut)
    (r.perm (overGrid (d.B * nh) (divUp (d.nlatIn * d.nlonIn) 2) 2 (upMaxOps d nh P k q r.junk))) (fun a ha => by
      obtain ⟨bh, hb, hi, hhi, wi, hwi, z, hz, rfl⟩ := hmem a (hp.subset ha)
      exact cell_lt hb (outOf_lt hfit h0 hhi hz _ _).1 (outOf_lt hfit h0 hhi hz _ _).2) (fun _ => r.fmin)
  refine ⟨m, h1, fun bh hb ho hho wo hwo => ⟨?_, ?_⟩⟩
  · rintro ⟨hi, wi⟩ hpn
    obtain ⟨hhi, hwi, z, hz, he⟩ := mem_scatterNbrs_iff.1 hpn
    refine h2 (bh * d.nlatOut * d.nlonOut + (ho * d.nlonOut + wo),
        score d.Ck (headView d.nlatIn d.nlonIn nh d.Ck k) (headView d.nlatOut d.nlonOut nh d.Ck q) bh ho wo (hi, wi))
      (hp.symm.subset (mem_overGrid.2 ⟨bh, hb, hi * d.nlonIn + wi, lt_of_lt_of_le (packed_lt hhi hwi) (le_divUp_mul (by omega)), ?_⟩))
    unfold upMaxOps
    rw [if_neg (by have := packed_lt hhi hwi; omega)]
    dsimp only
    obtain ⟨e1, e2⟩ := div_mul_add (a := hi) hwi
    rw [sub_div_mul, e1, e2]
    refine List.mem_map.2 ⟨z, hz, ?_⟩
    rw [upScore_eq _ _ _ _ _ _ _ _ _ _ (by omega), scatterPoint_eq P hdiv h0 hwi, he]
  · rcases h3 (bh * d.nlatOut * d.nlonOut + (ho * d.nlonOut + wo)) with h | ⟨a, ha, e1, e2⟩
    · exact Or.inl h
    · right
      obtain ⟨bh', hb', hi, hhi, wi, hwi, z, hz, rfl⟩ := hmem a (hp.subset ha)
      have hlt := outOf_lt hfit h0 hhi hz (d.nlonOut / d.nlonIn) wi
      obtain ⟨f1, f2, f3⟩ := cell_inj hlt.1 hho hlt.2 hwo e1
      refine ⟨(hi, wi), mem_scatterNbrs_iff.2 ⟨hhi, hwi, z, hz, Prod.ext f2 f3⟩, ?_⟩
      rw [e2]
      dsimp only
      rw [f1, f2, f3]

/-- The sum of the weights, relative to the buffer of maxima. -/
theorem upDen_ok (hperm : ∀ L, (r.perm L).Perm L) (hfit : P.Fits d.nlatIn (d.nlatOut * d.nlonOut)) (hdiv : d.nlonOut % d.nlonIn = 0) (h0 : 0 < d.nlonOut)
    (m : ℕ → ℝ) : ∃ D, (r.perm (overGrid (d.B * nh) (divUp (d.nlatIn * d.nlonIn) 2) 2 (upDenOps d nh w P k q m r.junk))).foldlM
        (Disco.atomicAddTo (d.B * nh * d.nlatOut * d.nlonOut)) (fun _ => (0 : ℝ)) = .ok D ∧
      ∀ bh < d.B * nh, ∀ ho < d.nlatOut, ∀ wo < d.nlonOut, D (bh * d.nlatOut * d.nlonOut + (ho * d.nlonOut + wo))
        = ((scatterNbrs P d.nlatIn d.nlonIn d.nlonOut (d.nlonOut / d.nlonIn) ho wo).map fun p =>
          Real.exp (score d.Ck (headView d.nlatIn d.nlonIn nh d.Ck k) (headView d.nlatOut d.nlonOut nh d.Ck q) bh ho wo p
            - m (bh * d.nlatOut * d.nlonOut + (ho * d.nlonOut + wo))) * w p.1).sum := by
  have hp := hperm (overGrid (d.B * nh) (divUp (d.nlatIn * d.nlonIn) 2) 2 (upDenOps d nh w P k q m r.junk))
  obtain ⟨D, h1, h2⟩ := Disco.atomicAddTo_fold (d.B * nh * d.nlatOut * d.nlonOut)
    (r.perm (overGrid (d.B * nh) (divUp (d.nlatIn * d.nlonIn) 2) 2 (upDenOps d nh w P k q m r.junk))) (fun a ha => by
      obtain ⟨bh, hb, wid, _, ha⟩ := mem_overGrid.1 (hp.subset ha)
      unfold upDenOps at ha
      split_ifs at ha with hw
      · simp at ha
      · dsimp only at ha
        obtain ⟨hh, hw'⟩ := split_wid hw
        rw [sub_div_mul] at ha
        obtain ⟨z, hz, rfl⟩ := List.mem_map.1 ha
        have := scatter_cell_lt hfit hdiv h0 hh hw' hz
        exact cell_lt hb this.1 this.2) (fun _ => (0 : ℝ))
  refine ⟨D, h1, fun bh hb ho hho wo hwo => ?_⟩
  rw [h2, Disco.addsAt_perm hp, zero_add, addsAt_grid (H := d.nlatIn) (W := d.nlonIn) (le_divUp_mul (by omega)) _ (fun bh hi wi => (P.row hi).map fun z =>
      (bh * d.nlatOut * d.nlonOut + ((scatterPoint P d.nlonIn d.nlonOut wi z).1 * d.nlonOut + (scatterPoint P d.nlonIn d.nlonOut wi z).2),
        upAlpha d nh w m (upKey d nh k (r.junk bh (hi * d.nlonIn + wi)) bh hi wi) q bh hi (scatterPoint P d.nlonIn d.nlonOut wi z) 0)) ?_,
    ← sum_scatter P hdiv h0 hb ho wo (fun bh p => Real.exp (score d.Ck (headView d.nlatIn d.nlonIn nh d.Ck k) (headView d.nlatOut d.nlonOut nh d.Ck q) bh ho wo p
            - m (bh * d.nlatOut * d.nlonOut + (ho * d.nlonOut + wo))) * w p.1)]
  · refine sum_congr rfl fun bh' _ => sum_congr rfl fun hi hhi => sum_congr rfl fun wi hwi => ?_
    rw [mem_range] at hhi hwi
    rw [addsAt_cell (P.row hi) (fun z => scatterPoint P d.nlonIn d.nlonOut wi z) (fun z hz => scatter_cell_lt hfit hdiv h0 hhi hwi hz) hho hwo]
    refine list_sum_congr fun z hz => ?_
    by_cases hc : bh' = bh ∧ scatterPoint P d.nlonIn d.nlonOut wi z = (ho, wo)
    · rw [if_pos hc, if_pos hc]
      unfold upAlpha
      rw [upScore_eq _ _ _ _ _ _ _ _ _ _ (by omega), hc.2]
    · rw [if_neg hc, if_neg hc]
  · intro bh wid
    unfold upDenOps
    dsimp only
    rw [sub_div_mul, Nat.mul_comm (wid / d.nlonIn) d.nlonIn, Nat.div_add_mod]

/-- The weighted sums of the values, relative to the buffer of maxima. -/
theorem upNum_ok (hperm : ∀ L, (r.perm L).Perm L) (hfit : P.Fits d.nlatIn (d.nlatOut * d.nlonOut)) (hdiv : d.nlonOut % d.nlonIn = 0) (h0 : 0 < d.nlonOut)
    (m : ℕ → ℝ) : ∃ D, (r.perm (overGrid (d.B * nh) (divUp (d.nlatIn * d.nlonIn) 2) 2 (upNumOps d nh w P k v q m r.junk))).foldlM
        (Disco.atomicAddTo (d.B * nh * d.nlatOut * d.nlonOut * d.Cv)) (fun _ => (0 : ℝ)) = .ok D ∧
      ∀ bh < d.B * nh, ∀ ho < d.nlatOut, ∀ wo < d.nlonOut, ∀ c < d.Cv, D ((bh * d.nlatOut * d.nlonOut + (ho * d.nlonOut + wo)) * d.Cv + c)
        = ((scatterNbrs P d.nlatIn d.nlonIn d.nlonOut (d.nlonOut / d.nlonIn) ho wo).map fun p =>
          Real.exp (score d.Ck (headView d.nlatIn d.nlonIn nh d.Ck k) (headView d.nlatOut d.nlonOut nh d.Ck q) bh ho wo p
            - m (bh * d.nlatOut * d.nlonOut + (ho * d.nlonOut + wo))) * w p.1 * headView d.nlatIn d.nlonIn nh d.Cv v bh c p.1 p.2).sum := by
  have hp := hperm (overGrid (d.B * nh) (divUp (d.nlatIn * d.nlonIn) 2) 2 (upNumOps d nh w P k v q m r.junk))
  obtain ⟨D, h1, h2⟩ := Disco.atomicAddTo_fold (d.B * nh * d.nlatOut * d.nlonOut * d.Cv)
    (r.perm (overGrid (d.B * nh) (divUp (d.nlatIn * d.nlonIn) 2) 2 (upNumOps d nh w P k v q m r.junk))) (fun a ha => by
      obtain ⟨bh, hb, wid, _, ha⟩ := mem_overGrid.1 (hp.subset ha)
      unfold upNumOps at ha
      split_ifs at ha with hw
      · simp at ha
      · dsimp only at ha
        obtain ⟨hh, hw'⟩ := split_wid hw
        rw [sub_div_mul] at ha
        obtain ⟨z, hz, ha⟩ := List.mem_flatMap.1 ha
        obtain ⟨t, ht, ha⟩ := List.mem_flatMap.1 ha
        obtain ⟨c, hc, rfl⟩ := List.mem_map.1 ha
        have := scatter_cell_lt hfit hdiv h0 hh hw' hz
        have hc' := ((mem_chans (bx := 32) (by omega) (locOk_none 32 d.Cv) (List.mem_range.1 ht)).1 hc).1
        have := packed_lt (cell_lt hb this.1 this.2) hc'
        rw [Nat.add_mul] at this
        exact this) (fun _ => (0 : ℝ))
  refine ⟨D, h1, fun bh hb ho hho wo hwo c hc => ?_⟩
  rw [h2, Disco.addsAt_perm hp, zero_add, addsAt_grid (H := d.nlatIn) (W := d.nlonIn) (le_divUp_mul (by omega)) _ (fun bh hi wi => (P.row hi).flatMap fun z =>
      (List.range 32).flatMap fun t => (Disco.strided 32 d.Cv t).map fun c =>
        (bh * d.nlatOut * d.nlonOut * d.Cv + ((scatterPoint P d.nlonIn d.nlonOut wi z).1 * d.nlonOut + (scatterPoint P d.nlonIn d.nlonOut wi z).2) * d.Cv + c,
          upAlpha d nh w m (upKey d nh k (r.junk bh (hi * d.nlonIn + wi)) bh hi wi) q bh hi (scatterPoint P d.nlonIn d.nlonOut wi z) t
            * upVal d nh v (r.junk bh (hi * d.nlonIn + wi)) bh hi wi t c)) ?_,
    ← sum_scatter P hdiv h0 hb ho wo (fun bh p => Real.exp (score d.Ck (headView d.nlatIn d.nlonIn nh d.Ck k) (headView d.nlatOut d.nlonOut nh d.Ck q) bh ho wo p
            - m (bh * d.nlatOut * d.nlonOut + (ho * d.nlonOut + wo))) * w p.1 * headView d.nlatIn d.nlonIn nh d.Cv v bh c p.1 p.2)]
  · refine sum_congr rfl fun bh' _ => sum_congr rfl fun hi hhi => sum_congr rfl fun wi hwi => ?_
    rw [mem_range] at hhi hwi
    rw [Nat.add_mul, addsAt_cells (P.row hi) (fun z => scatterPoint P d.nlonIn d.nlonOut wi z) (fun z hz => scatter_cell_lt hfit hdiv h0 hhi hwi hz) hho hwo hc
      (fun z t c => upAlpha d nh w m (upKey d nh k (r.junk bh' (hi * d.nlonIn + wi)) bh' hi wi) q bh' hi (scatterPoint P d.nlonIn d.nlonOut wi z) t
            * upVal d nh v (r.junk bh' (hi * d.nlonIn + wi)) bh' hi wi t c)
      (fun z c => upAlpha d nh w m (upKey d nh k (r.junk bh' (hi * d.nlonIn + wi)) bh' hi wi) q bh' hi (scatterPoint P d.nlonIn d.nlonOut wi z) 0
            * headView d.nlatIn d.nlonIn nh d.Cv v bh' c hi wi)]
    · refine list_sum_congr fun z hz => ?_
      by_cases hc : bh' = bh ∧ scatterPoint P d.nlonIn d.nlonOut wi z = (ho, wo)
      · rw [if_pos hc, if_pos hc]
        unfold upAlpha
        rw [upScore_eq _ _ _ _ _ _ _ _ _ _ (by omega), hc.2]
      · rw [if_neg hc, if_neg hc]
    · intro z _ t ht c hc
      unfold upAlpha
      rw [upScore_eq _ _ _ _ _ _ _ _ _ _ ht, upScore_eq _ _ _ _ _ _ _ _ _ _ (by omega), upVal_eq _ _ _ _ _ _ _ hc]
  · intro bh wid
    unfold upNumOps
    dsimp only
    rw [sub_div_mul, Nat.mul_comm (wid / d.nlonIn) d.nlonIn, Nat.div_add_mod]

/-- The launches of the scatter path are all accepted. -/
def ScatterLaunch (d : Dims) (nh : ℕ) : Prop :=
  launchOk (divUp (d.nlatIn * d.nlonIn) 2) (d.B * nh) (4 * (d.Ck + d.Cv) * 2) ∧ launchOk (divUp (d.nlatOut * d.nlonOut) 2) (d.B * nh) 0

/-- The scatter path computes attention, whatever the order of the atomics. -/
theorem gpuScatter_eq (hn : 0 < nh) (hperm : ∀ L, (r.perm L).Perm L) (hfit : P.Fits d.nlatIn (d.nlatOut * d.nlonOut)) (hdiv : d.nlonOut % d.nlonIn = 0)
    (h0 : 0 < d.nlonOut) (hl : ScatterLaunch d nh) :
    ∃ out, gpuScatter r d nh w P k v q = .ok out ∧
      (∀ bh < d.B * nh, ∀ c < d.Cv, ∀ ho < d.nlatOut, ∀ wo < d.nlonOut, headView d.nlatOut d.nlonOut nh d.Cv out bh c ho wo
        = attention d.Ck w (scatterNbrs P d.nlatIn d.nlonIn d.nlonOut (d.nlonOut / d.nlonIn)) (headView d.nlatIn d.nlonIn nh d.Ck k)
          (headView d.nlatIn d.nlonIn nh d.Cv v) (headView d.nlatOut d.nlonOut nh d.Ck q) bh c ho wo) ∧
      ∀ i, d.B * d.nlatOut * d.nlonOut * (d.Cv * nh) ≤ i → out i = r.mem i := by
  obtain ⟨l1, l2⟩ := hl
  have l0 : launchOk (divUp (d.nlatIn * d.nlonIn) 2) (d.B * nh) (4 * d.Ck * 2) := by
    unfold launchOk at l1 ⊢
    omega
  obtain ⟨m, m1, -⟩ := upMax_ok (k := k) (q := q) hperm hfit hdiv h0 l0
  obtain ⟨D, D1, D2⟩ := upDen_ok (r := r) (nh := nh) (w := w) (k := k) (q := q) hperm hfit hdiv h0 m
  obtain ⟨N, N1, N2⟩ := upNum_ok (r := r) (nh := nh) (w := w) (k := k) (v := v) (q := q) hperm hfit hdiv h0 m
  set X : T4 := attention d.Ck w (scatterNbrs P d.nlatIn d.nlonIn d.nlonOut (d.nlonOut / d.nlonIn)) (headView d.nlatIn d.nlonIn nh d.Ck k)
    (headView d.nlatIn d.nlonIn nh d.Cv v) (headView d.nlatOut d.nlonOut nh d.Ck q) with hX
  have hp := hperm (overGrid (d.B * nh) (divUp (d.nlatOut * d.nlonOut) 2) 2 (upStores d nh N D))
  have hval : ∀ bh < d.B * nh, ∀ c < d.Cv, ∀ ho < d.nlatOut, ∀ wo < d.nlonOut,
      N ((bh * d.nlatOut * d.nlonOut + (ho * d.nlonOut + wo)) * d.Cv + c) * (1 / D (bh * d.nlatOut * d.nlonOut + (ho * d.nlonOut + wo))) = X bh c ho wo := by
    intro bh hb c hc ho hho wo hwo
    rw [N2 bh hb ho hho wo hwo c hc, D2 bh hb ho hho wo hwo, mul_one_div, softAvg_shifted]
    rfl
  have haddr : ∀ bh wid c, (bh / nh * d.nlatOut * d.nlonOut + wid) * (nh * d.Cv) + (bh - bh / nh * nh) * d.Cv + c
      = ((bh / nh * d.nlatOut + wid / d.nlonOut) * d.nlonOut + wid % d.nlonOut) * (nh * d.Cv) + (bh % nh * d.Cv + c) := by
    intro bh wid c
    rw [sub_div_mul]
    have := Nat.div_add_mod wid d.nlonOut
    conv_lhs => rw [← this]
    ring
  obtain ⟨out, o1, o2, o3⟩ := stores_ok (d.B * d.nlatOut * d.nlonOut * (d.Cv * nh)) (r.perm (overGrid (d.B * nh) (divUp (d.nlatOut * d.nlonOut) 2) 2 (upStores d nh N D)))
    (unhead d.nlatOut d.nlonOut nh d.Cv X) (fun a ha => by
      obtain ⟨bh, hb, wid, _, ha⟩ := mem_overGrid.1 (hp.subset ha)
      unfold upStores at ha
      split_ifs at ha with hw
      · simp at ha
      · dsimp only at ha
        obtain ⟨hh, hw'⟩ := split_wid hw
        obtain ⟨t, ht, ha⟩ := List.mem_flatMap.1 ha
        obtain ⟨c, hc, rfl⟩ := List.mem_map.1 ha
        have hc' := ((mem_chans (bx := 32) (by omega) (locOk_none 32 d.Cv) (List.mem_range.1 ht)).1 hc).1
        dsimp only
        rw [haddr, unhead_addr X hn hc' hh hw', ← hval bh hb c hc' _ hh _ hw', Nat.mul_comm (wid / d.nlonOut) d.nlonOut, Nat.div_add_mod]
        exact ⟨addr_lt hn hb hc' hh hw', rfl⟩) r.mem
  refine ⟨out, ?_, ?_, ?_⟩
  · unfold gpuScatter checked
    dsimp only
    rw [m1, bind_ok, if_pos l1, D1, bind_ok, if_pos l1, N1, bind_ok, if_pos l2]
    exact o1
  · intro bh hb c hc ho hho wo hwo
    have hmem : (((bh / nh * d.nlatOut + ho) * d.nlonOut + wo) * (nh * d.Cv) + (bh % nh * d.Cv + c), X bh c ho wo)
        ∈ r.perm (overGrid (d.B * nh) (divUp (d.nlatOut * d.nlonOut) 2) 2 (upStores d nh N D)) := by
      refine hp.symm.subset (mem_overGrid.2 ⟨bh, hb, ho * d.nlonOut + wo, lt_of_lt_of_le (packed_lt hho hwo) (le_divUp_mul (by omega)), ?_⟩)
      unfold upStores
      rw [if_neg (by have := packed_lt hho hwo; omega)]
      dsimp only
      refine List.mem_flatMap.2 ⟨c % 32, List.mem_range.2 (Nat.mod_lt _ (by omega)), List.mem_map.2 ⟨c, ?_, ?_⟩⟩
      · exact (mem_chans (bx := 32) (by omega) (locOk_none 32 d.Cv) (Nat.mod_lt _ (by omega))).2 ⟨hc, rfl⟩
      · obtain ⟨e1, e2⟩ := div_mul_add (a := ho) hwo
        rw [haddr, e1, e2, hval bh hb c hc ho hho wo hwo]
    have := o2 _ hmem
    dsimp only at this
    rw [unhead_addr X hn hc hho hwo] at this
    exact this
  · intro i hi
    refine o3 i fun a ha he => ?_
    obtain ⟨bh, hb, wid, _, ha⟩ := mem_overGrid.1 (hp.subset ha)
    unfold upStores at ha
    split_ifs at ha with hw
    · simp at ha
    · dsimp only at ha
      obtain ⟨hh, hw'⟩ := split_wid hw
      obtain ⟨t, ht, ha⟩ := List.mem_flatMap.1 ha
      obtain ⟨c, hc, rfl⟩ := List.mem_map.1 ha
      have hc' := ((mem_chans (bx := 32) (by omega) (locOk_none 32 d.Cv) (List.mem_range.1 ht)).1 hc).1
      dsimp only at he
      rw [haddr] at he
      have := addr_lt (B := d.B) hn hb hc' hh hw'
      omega

/-- A launch of the scatter path that is refused ends the process. -/
theorem gpuScatter_refused (hperm : ∀ L, (r.perm L).Perm L) (hfit : P.Fits d.nlatIn (d.nlatOut * d.nlonOut)) (hdiv : d.nlonOut % d.nlonIn = 0)
    (h0 : 0 < d.nlonOut) (hl : ¬ ScatterLaunch d nh) : gpuScatter r d nh w P k v q = .error .processExit := by
  by_cases l0 : launchOk (divUp (d.nlatIn * d.nlonIn) 2) (d.B * nh) (4 * d.Ck * 2)
  · obtain ⟨m, m1, -⟩ := upMax_ok (k := k) (q := q) hperm hfit hdiv h0 l0
    unfold gpuScatter checked
    dsimp only
    rw [m1, bind_ok]
    by_cases l1 : launchOk (divUp (d.nlatIn * d.nlonIn) 2) (d.B * nh) (4 * (d.Ck + d.Cv) * 2)
    · obtain ⟨D, D1, D2⟩ := upDen_ok (r := r) (nh := nh) (w := w) (k := k) (q := q) hperm hfit hdiv h0 m
      obtain ⟨N, N1, N2⟩ := upNum_ok (r := r) (nh := nh) (w := w) (k := k) (v := v) (q := q) hperm hfit hdiv h0 m
      rw [if_pos l1, D1, bind_ok, if_pos l1, N1, bind_ok, if_neg (fun l2 => hl ⟨l1, l2⟩)]
    · rw [if_neg l1]
      rfl
  · unfold gpuScatter gpuUpMax checked
    dsimp only
    rw [if_neg l0]
    rfl

end

end Verif.AttnGpu
