import Verif.Spec.RingCudaUp
import Verif.Lemmas.RingCudaStep
import Verif.Lemmas.AttentionCudaUp
import Verif.Lemmas.DistAttentionUp
/-!
The upsampling ring kernels: rows of the pattern, dot products, and what the operations of a grid add up to.
-/
namespace Verif.RingGpuUp
open Verif Verif.Attn Verif.Spec.Attn Verif.AttnGpu Verif.Ring Verif.RingGpu Verif.Spec.RingStep Finset

variable {p : UParams} {P : Pattern}

theorem hits_eq (hf : UFits p P) {hi wi : ℕ} (hhi : hi < p.nlatHalo) (hwi : wi < p.nlonKx) :
    hits p P hi wi = targetsUp P p.nlonOutG p.pscaleOut p.lonLo p.nlonOut hi wi := by
  unfold hits targetsUp
  have hcol := hf.cols hi hhi
  generalize P.row hi = R at hcol ⊢
  have hs : p.pscaleOut * (p.lonLo + wi) ≤ p.nlonOutG := le_trans (Nat.mul_le_mul_left _ (by omega)) hf.shift
  induction R with
  | nil => rfl
  | cons z R ih =>
    have hz := hcol z List.mem_cons_self
    have hn : 0 < p.nlonOutG := by
      rcases Nat.eq_zero_or_pos p.nlonOutG with h | h
      · rw [h] at hz; omega
      · exact h
    have hm := Nat.mod_lt (P.col z) hn
    rw [List.filterMap_cons, List.map_cons, List.filter_cons, ih fun z hz => hcol z (List.mem_cons_of_mem _ hz)]
    unfold upLocalWo rotated
    dsimp only
    rw [AttnGpu.sub_div_mul]
    generalize P.col z % p.nlonOutG = c at *
    generalize p.pscaleOut * (p.lonLo + wi) = s at *
    have hw : (if c + s ≥ p.nlonOutG then c + s - p.nlonOutG else c + s) = (c + s) % p.nlonOutG := by
      split_ifs with h
      · rw [Nat.mod_eq_sub_mod h, Nat.mod_eq_of_lt (by omega)]
      · rw [Nat.mod_eq_of_lt (by omega)]
    rw [hw]
    by_cases h : (c + s) % p.nlonOutG < p.nlonOut
    · simp [h]
    · simp [h]

theorem hits_lt (hf : UFits p P) {hi wi : ℕ} (hhi : hi < p.nlatHalo) (hwi : wi < p.nlonKx) {x : ℕ × ℕ} (hx : x ∈ hits p P hi wi) : x.1 < p.nlatOut ∧ x.2 < p.nlonOut := by
  rw [hits_eq hf hhi hwi] at hx
  unfold targetsUp at hx
  rw [List.mem_filter] at hx
  obtain ⟨h1, h2⟩ := hx
  obtain ⟨z, hz, rfl⟩ := List.mem_map.1 h1
  refine ⟨Nat.div_lt_of_lt_mul ?_, by simpa using h2⟩
  rw [Nat.mul_comm]
  exact hf.cols hi hhi z hz

theorem sum_targets (P : Pattern) (n ps lonLo nlonOut hi wi ho wo : ℕ) (hwo : wo < nlonOut) (u : ℝ) :
    ((targetsUp P n ps lonLo nlonOut hi wi).map fun x => if x = (ho, wo) then u else 0).sum
      = (((P.row hi).filter fun z => rotated P n ps (lonLo + wi) z = (ho, wo)).map fun _ => u).sum := by
  unfold targetsUp
  generalize P.row hi = R
  induction R with
  | nil => rfl
  | cons z R ih =>
    rw [List.map_cons, List.filter_cons, List.filter_cons]
    by_cases h : rotated P n ps (lonLo + wi) z = (ho, wo)
    · rw [if_pos (by rw [h]; simpa using hwo), if_pos (by simpa using h), List.map_cons, List.sum_cons, List.map_cons, List.sum_cons, ih, if_pos h]
    · rw [if_neg (c := decide (rotated P n ps (lonLo + wi) z = (ho, wo)) = true) (by simpa using h)]
      split_ifs with h2
      · rw [List.map_cons, List.sum_cons, if_neg h, zero_add, ih]
      · exact ih

theorem mem_nbrsUp {n ps lonLo H W ho wo hi wi : ℕ} :
    (hi, wi) ∈ nbrsUp P n ps lonLo H W ho wo ↔ hi < H ∧ wi < W ∧ ∃ z ∈ P.row hi, rotated P n ps (lonLo + wi) z = (ho, wo) := by
  unfold nbrsUp
  simp only [List.mem_flatMap, List.mem_range, List.mem_map, List.mem_filter, decide_eq_true_eq, Prod.mk.injEq]
  constructor
  · rintro ⟨a, ha, b, hb, z, ⟨hz, e⟩, rfl, rfl⟩
    exact ⟨ha, hb, z, hz, e⟩
  · rintro ⟨ha, hb, z, hz, e⟩
    exact ⟨hi, ha, wi, hb, z, ⟨hz, e⟩, rfl, rfl⟩

theorem mem_hits_iff (hf : UFits p P) {hi wi ho wo : ℕ} (hhi : hi < p.nlatHalo) (hwi : wi < p.nlonKx) (hwo : wo < p.nlonOut) :
    (ho, wo) ∈ hits p P hi wi ↔ (hi, wi) ∈ nbrsUp P p.nlonOutG p.pscaleOut p.lonLo p.nlatHalo p.nlonKx ho wo := by
  rw [hits_eq hf hhi hwi, mem_nbrsUp]
  unfold targetsUp
  rw [List.mem_filter, List.mem_map]
  constructor
  · rintro ⟨⟨z, hz, e⟩, -⟩
    exact ⟨hhi, hwi, z, hz, e⟩
  · rintro ⟨-, -, z, hz, e⟩
    exact ⟨⟨z, hz, e⟩, by simpa using hwo⟩

/-- Adding up over the grid, only the cells that list the output point contribute. -/
theorem sum_nbrsUp (hf : UFits p P) {B b0 : ℕ} (hb : b0 < B) {ho wo : ℕ} (hwo : wo < p.nlonOut) (U : ℕ → ℕ × ℕ → ℝ) :
    ∑ b ∈ range B, ∑ hi ∈ range p.nlatHalo, ∑ wi ∈ range p.nlonKx, ((hits p P hi wi).map fun x => if b = b0 ∧ x = (ho, wo) then U b (hi, wi) else 0).sum
      = ((nbrsUp P p.nlonOutG p.pscaleOut p.lonLo p.nlatHalo p.nlonKx ho wo).map (U b0)).sum := by
  rw [sum_eq_single_of_mem b0 (mem_range.2 hb)]
  · unfold nbrsUp
    rw [list_sum_flatMap, list_sum_range]
    refine sum_congr rfl fun hi hhi => ?_
    rw [list_sum_flatMap, list_sum_range]
    refine sum_congr rfl fun wi hwi => ?_
    rw [hits_eq hf (mem_range.1 hhi) (mem_range.1 hwi), List.map_map]
    rw [show (U b0 ∘ fun (_ : ℕ) => (hi, wi)) = fun _ => U b0 (hi, wi) from rfl, ← sum_targets P p.nlonOutG p.pscaleOut p.lonLo p.nlonOut hi wi ho wo hwo]
    exact list_sum_congr fun x _ => by simp
  · intro b _ hne
    refine sum_eq_zero fun hi _ => sum_eq_zero fun wi _ => list_sum_zero fun z _ => ?_
    rw [if_neg (fun h => hne h.1)]

/-! ### Addresses and dot products -/

theorem inAt_entry (C b hi wi c : ℕ) (a : ℕ → ℝ) : a (inAt p C b hi wi + c) = entryOf p.nlatHalo p.nlonKx C a b hi wi c := by
  unfold inAt entryOf
  congr 1
  ring

theorem outAt_entry (C b : ℕ) (x : ℕ × ℕ) (c : ℕ) (a : ℕ → ℝ) : a (outAt p C b x + c) = entryOf p.nlatOut p.nlonOut C a b x.1 x.2 c := by
  unfold outAt entryOf
  congr 1
  ring

theorem cellAt_eq (b : ℕ) (x : ℕ × ℕ) : cellAt p b x = (b * p.nlatOut + x.1) * p.nlonOut + x.2 := by
  unfold cellAt
  ring

theorem shK_at (k : ℕ → ℝ) (junk : ShJunk) (b hi wi : ℕ) {t c : ℕ} (hc : c ∈ Disco.strided 32 p.nci t) :
    shK p k junk b hi wi t c = entryOf p.nlatHalo p.nlonKx p.nci k b hi wi c := by
  unfold shK
  rw [staged_at _ _ _ hc, inAt_entry _ _ _ _ _ k]

theorem shV_at (v : ℕ → ℝ) (junk : ShJunk) (b hi wi : ℕ) {t c : ℕ} (hc : c ∈ Disco.strided 32 p.nco t) :
    shV p v junk b hi wi t c = entryOf p.nlatHalo p.nlonKx p.nco v b hi wi c := by
  unfold shV
  rw [staged_at _ _ _ hc, inAt_entry _ _ _ _ _ v]

theorem scoreAt_eq (k q : ℕ → ℝ) (junk : ShJunk) (b hi wi : ℕ) (x : ℕ × ℕ) {t : ℕ} (ht : t < 32) :
    scoreAt p (shK p k junk b hi wi) q b x t = dotQ p k q b x.1 x.2 (hi, wi) := by
  unfold scoreAt dotQ
  rw [warpDot_eq _ q _ (fun c => entryOf p.nlatHalo p.nlonKx p.nci k b hi wi c) (fun t _ c hc => shK_at k junk b hi wi hc) ht]
  exact sum_congr rfl fun c _ => by rw [outAt_entry _ _ _ _ q]

theorem gradAt_eq (v dy : ℕ → ℝ) (junk : ShJunk) (b hi wi : ℕ) (x : ℕ × ℕ) {t : ℕ} (ht : t < 32) :
    gradAt p (shV p v junk b hi wi) dy b x t = dotV p v dy b x.1 x.2 (hi, wi) := by
  unfold gradAt dotV
  rw [warpDot_eq _ dy _ (fun c => entryOf p.nlatHalo p.nlonKx p.nco v b hi wi c) (fun t _ c hc => shV_at v junk b hi wi hc) ht]
  exact sum_congr rfl fun c _ => by rw [outAt_entry _ _ _ _ dy]

/-! ### The operations of a grid -/

theorem atCell_eq {α : Type} (p : UParams) (f : ℕ → ℕ → List α) (wid : ℕ) :
    atCell p f wid = if wid ≥ p.nlatHalo * p.nlonKx then [] else f (wid / p.nlonKx) (wid % p.nlonKx) := by
  unfold atCell
  rw [AttnGpu.sub_div_mul]

theorem mem_grid_cells {α : Type} (p : UParams) (B : ℕ) (f : ℕ → ℕ → ℕ → ℕ → List α) {a : α} :
    a ∈ overGrid B (divUp (p.nlatHalo * p.nlonKx) 2) 2 (fun b wid => atCell p (f b wid) wid)
      ↔ ∃ b < B, ∃ hi < p.nlatHalo, ∃ wi < p.nlonKx, a ∈ f b (hi * p.nlonKx + wi) hi wi := by
  rw [mem_overGrid]
  constructor
  · rintro ⟨b, hb, wid, -, ha⟩
    rw [atCell_eq] at ha
    split_ifs at ha with h
    · simp at ha
    · obtain ⟨h1, h2⟩ := split_wid h
      refine ⟨b, hb, _, h1, _, h2, ?_⟩
      rwa [Nat.div_add_mod']
  · rintro ⟨b, hb, hi, hhi, wi, hwi, ha⟩
    have hlt : hi * p.nlonKx + wi < p.nlatHalo * p.nlonKx := packed_lt hhi hwi
    obtain ⟨e1, e2⟩ := div_mul_add (a := hi) hwi
    refine ⟨b, hb, hi * p.nlonKx + wi, lt_of_lt_of_le hlt (le_divUp_mul (by omega)), ?_⟩
    rw [atCell_eq, if_neg (by omega), e1, e2]
    exact ha

theorem lanes_map {β : Type} (C : ℕ) (f : ℕ × ℕ → β) :
    (lanes C).map f = (List.range 32).flatMap fun t => (Disco.strided 32 C t).map fun c => f (t, c) := by
  unfold lanes
  rw [List.map_flatMap]
  congr 1
  funext t
  rw [List.map_map]
  rfl

theorem mem_lanes {C : ℕ} {l : ℕ × ℕ} : l ∈ lanes C ↔ l.1 < 32 ∧ l.2 ∈ Disco.strided 32 C l.1 := by
  unfold lanes
  simp only [List.mem_flatMap, List.mem_range, List.mem_map]
  constructor
  · rintro ⟨t, ht, c, hc, rfl⟩
    exact ⟨ht, hc⟩
  · rintro ⟨h1, h2⟩
    exact ⟨l.1, h1, l.2, h2, rfl⟩

theorem lane_lt {C : ℕ} {l : ℕ × ℕ} (h : l ∈ lanes C) : l.2 < C := by
  obtain ⟨h1, h2⟩ := mem_lanes.1 h
  exact ((mem_chans (loc := none) (by omega) (locOk_none 32 C) h1).1 h2).1

theorem exists_lane {C c : ℕ} (hc : c < C) : ∃ t, (t, c) ∈ lanes C :=
  ⟨c % 32, mem_lanes.2 ⟨Nat.mod_lt _ (by omega), (mem_chans (loc := none) (by omega) (locOk_none 32 C) (Nat.mod_lt _ (by omega))).2 ⟨hc, rfl⟩⟩⟩

/-- One atomic addition per output point. -/
theorem addsAt_points (hf : UFits p P) {B b0 ho wo : ℕ} (hb : b0 < B) (hho : ho < p.nlatOut) (hwo : wo < p.nlonOut) (f : ℕ → ℕ → ℕ → ℕ → ℕ × ℕ → ℝ) (U : ℕ → ℕ × ℕ → ℝ)
    (hU : ∀ b wid hi wi, (ho, wo) ∈ hits p P hi wi → f b wid hi wi (ho, wo) = U b (hi, wi)) :
    Disco.addsAt (overGrid B (divUp (p.nlatHalo * p.nlonKx) 2) 2 fun b wid => atCell p (fun hi wi => (hits p P hi wi).map fun x => (cellAt p b x, f b wid hi wi x)) wid)
        (cellAt p b0 (ho, wo))
      = ((nbrsUp P p.nlonOutG p.pscaleOut p.lonLo p.nlatHalo p.nlonKx ho wo).map (U b0)).sum := by
  rw [addsAt_grid (H := p.nlatHalo) (W := p.nlonKx) (le_divUp_mul (by omega)) _
    (fun b hi wi => (hits p P hi wi).map fun x => (cellAt p b x, f b (hi * p.nlonKx + wi) hi wi x)) (fun b wid => by rw [atCell_eq, Nat.div_add_mod'])]
  rw [← sum_nbrsUp hf hb hwo U]
  refine sum_congr rfl fun b _ => sum_congr rfl fun hi hhi => sum_congr rfl fun wi hwi => ?_
  unfold cellAt
  rw [addsAt_cell (hits p P hi wi) (fun x => x) (fun x hx => hits_lt hf (mem_range.1 hhi) (mem_range.1 hwi) hx) hho hwo]
  refine list_sum_congr fun x hx => ?_
  by_cases h : b = b0 ∧ x = (ho, wo)
  · rw [if_pos h, if_pos h]
    obtain ⟨-, rfl⟩ := h
    exact hU _ _ _ _ hx
  · rw [if_neg h, if_neg h]

/-- One atomic addition per output point and channel. -/
theorem addsAt_chans (hf : UFits p P) {B b0 ho wo C c0 : ℕ} (hb : b0 < B) (hho : ho < p.nlatOut) (hwo : wo < p.nlonOut) (hc : c0 < C)
    (f : ℕ → ℕ → ℕ → ℕ → ℕ × ℕ → ℕ × ℕ → ℝ) (U : ℕ → ℕ × ℕ → ℝ)
    (hU : ∀ b wid hi wi, (ho, wo) ∈ hits p P hi wi → ∀ t < 32, c0 ∈ Disco.strided 32 C t → f b wid hi wi (ho, wo) (t, c0) = U b (hi, wi)) :
    Disco.addsAt (overGrid B (divUp (p.nlatHalo * p.nlonKx) 2) 2 fun b wid => atCell p (fun hi wi => (hits p P hi wi).flatMap fun x => (lanes C).map fun l =>
          (outAt p C b x + l.2, f b wid hi wi x l)) wid) (outAt p C b0 (ho, wo) + c0)
      = ((nbrsUp P p.nlonOutG p.pscaleOut p.lonLo p.nlatHalo p.nlonKx ho wo).map (U b0)).sum := by
  classical
  rw [addsAt_grid (H := p.nlatHalo) (W := p.nlonKx) (le_divUp_mul (by omega)) _
    (fun b hi wi => (hits p P hi wi).flatMap fun x => (lanes C).map fun l => (outAt p C b x + l.2, f b (hi * p.nlonKx + wi) hi wi x l))
    (fun b wid => by rw [atCell_eq, Nat.div_add_mod'])]
  rw [← sum_nbrsUp hf hb hwo U]
  refine sum_congr rfl fun b _ => sum_congr rfl fun hi hhi => sum_congr rfl fun wi hwi => ?_
  simp only [lanes_map]
  unfold outAt
  rw [addsAt_cells (hits p P hi wi) (fun x => x) (fun x hx => hits_lt hf (mem_range.1 hhi) (mem_range.1 hwi) hx) hho hwo hc
    (fun x t c => f b (hi * p.nlonKx + wi) hi wi x (t, c)) (fun x c => f b (hi * p.nlonKx + wi) hi wi x (c % 32, c)) (by
      intro x _ t ht c hc
      rw [((mem_chans (loc := none) (by omega) (locOk_none 32 C) ht).1 hc).2])]
  refine list_sum_congr fun x hx => ?_
  by_cases h : b = b0 ∧ x = (ho, wo)
  · rw [if_pos h, if_pos h]
    obtain ⟨-, rfl⟩ := h
    exact hU _ _ _ _ hx _ (Nat.mod_lt _ (by omega)) ((mem_chans (loc := none) (by omega) (locOk_none 32 C) (Nat.mod_lt _ (by omega))).2 ⟨hc, rfl⟩)
  · rw [if_neg h, if_neg h]

theorem cellAt_lt {B b : ℕ} {x : ℕ × ℕ} (hb : b < B) (hx : x.1 < p.nlatOut ∧ x.2 < p.nlonOut) : cellAt p b x < B * p.nlatOut * p.nlonOut := cell_lt hb hx.1 hx.2

theorem outAt_eq (C b : ℕ) (x : ℕ × ℕ) : outAt p C b x = cellAt p b x * C := by
  unfold outAt cellAt
  rw [← Nat.add_mul]

theorem outAt_lt {B b C c : ℕ} {x : ℕ × ℕ} (hb : b < B) (hx : x.1 < p.nlatOut ∧ x.2 < p.nlonOut) (hc : c < C) : outAt p C b x + c < B * p.nlatOut * p.nlonOut * C := by
  rw [outAt_eq]
  exact packed_lt (cellAt_lt hb hx) hc

/-- All atomic additions to numbers per output point take effect, inside the array. -/
theorem points_fold (hf : UFits p P) {r : URun} (hr : URunOk r) (n B : ℕ) (f : ℕ → ℕ → ℕ → ℕ → ℕ × ℕ → ℝ) (mem : ℕ → ℝ) (U : ℕ → ℕ → ℕ → ℕ × ℕ → ℝ)
    (hU : ∀ b wid hi wi x, x ∈ hits p P hi wi → f b wid hi wi x = U b x.1 x.2 (hi, wi)) :
    ∃ out, (r.perm n (overGrid B (divUp (p.nlatHalo * p.nlonKx) 2) 2 fun b wid =>
        atCell p (fun hi wi => (hits p P hi wi).map fun x => (cellAt p b x, f b wid hi wi x)) wid)).foldlM (Disco.atomicAddTo (B * p.nlatOut * p.nlonOut)) mem = .ok out ∧
      (∀ b < B, ∀ ho < p.nlatOut, ∀ wo < p.nlonOut, out (cellAt p b (ho, wo)) = mem (cellAt p b (ho, wo))
        + ((nbrsUp P p.nlonOutG p.pscaleOut p.lonLo p.nlatHalo p.nlonKx ho wo).map (U b ho wo)).sum) ∧
      ∀ i, B * p.nlatOut * p.nlonOut ≤ i → out i = mem i := by
  have hmem : ∀ a ∈ overGrid B (divUp (p.nlatHalo * p.nlonKx) 2) 2 (fun b wid =>
      atCell p (fun hi wi => (hits p P hi wi).map fun x => (cellAt p b x, f b wid hi wi x)) wid), a.1 < B * p.nlatOut * p.nlonOut := by
    intro a ha
    obtain ⟨b, hb, hi, hhi, wi, hwi, h⟩ := (mem_grid_cells p B fun b wid hi wi => (hits p P hi wi).map fun x => (cellAt p b x, f b wid hi wi x)).1 ha
    obtain ⟨x, hx, rfl⟩ := List.mem_map.1 h
    exact cellAt_lt hb (hits_lt hf hhi hwi hx)
  obtain ⟨out, h1, h2⟩ := Disco.atomicAddTo_fold (B * p.nlatOut * p.nlonOut) _ (fun a ha => hmem a ((hr.perm n _).mem_iff.1 ha)) mem
  refine ⟨out, h1, fun b hb ho hho wo hwo => ?_, fun i hi => ?_⟩
  · rw [h2, Disco.addsAt_perm (hr.perm n _), addsAt_points hf hb hho hwo f (fun b => U b ho wo) fun b wid hi wi hx => hU b wid hi wi _ hx]
  · rw [h2, Disco.addsAt_perm (hr.perm n _)]
    unfold Disco.addsAt
    rw [list_sum_zero, add_zero]
    intro a ha
    rw [if_neg]
    have := hmem a ha
    omega

/-- All atomic additions to channels take effect, inside the array. -/
theorem chans_fold (hf : UFits p P) {r : URun} (hr : URunOk r) (n B C : ℕ) (f : ℕ → ℕ → ℕ → ℕ → ℕ × ℕ → ℕ × ℕ → ℝ) (mem : ℕ → ℝ) (U : ℕ → ℕ → ℕ → ℕ → ℕ × ℕ → ℝ)
    (hU : ∀ b wid hi wi x, x ∈ hits p P hi wi → ∀ t < 32, ∀ c ∈ Disco.strided 32 C t, f b wid hi wi x (t, c) = U b x.1 x.2 c (hi, wi)) :
    ∃ out, (r.perm n (overGrid B (divUp (p.nlatHalo * p.nlonKx) 2) 2 fun b wid =>
        atCell p (fun hi wi => (hits p P hi wi).flatMap fun x => (lanes C).map fun l => (outAt p C b x + l.2, f b wid hi wi x l)) wid)).foldlM
          (Disco.atomicAddTo (B * p.nlatOut * p.nlonOut * C)) mem = .ok out ∧
      (∀ b < B, ∀ ho < p.nlatOut, ∀ wo < p.nlonOut, ∀ c < C, out (cellAt p b (ho, wo) * C + c) = mem (cellAt p b (ho, wo) * C + c)
        + ((nbrsUp P p.nlonOutG p.pscaleOut p.lonLo p.nlatHalo p.nlonKx ho wo).map (U b ho wo c)).sum) ∧
      ∀ i, B * p.nlatOut * p.nlonOut * C ≤ i → out i = mem i := by
  have hmem : ∀ a ∈ overGrid B (divUp (p.nlatHalo * p.nlonKx) 2) 2 (fun b wid =>
      atCell p (fun hi wi => (hits p P hi wi).flatMap fun x => (lanes C).map fun l => (outAt p C b x + l.2, f b wid hi wi x l)) wid), a.1 < B * p.nlatOut * p.nlonOut * C := by
    intro a ha
    obtain ⟨b, hb, hi, hhi, wi, hwi, h⟩ := (mem_grid_cells p B fun b wid hi wi => (hits p P hi wi).flatMap fun x => (lanes C).map fun l =>
      (outAt p C b x + l.2, f b wid hi wi x l)).1 ha
    obtain ⟨x, hx, h⟩ := List.mem_flatMap.1 h
    obtain ⟨l, hl, rfl⟩ := List.mem_map.1 h
    exact outAt_lt hb (hits_lt hf hhi hwi hx) (lane_lt hl)
  obtain ⟨out, h1, h2⟩ := Disco.atomicAddTo_fold (B * p.nlatOut * p.nlonOut * C) _ (fun a ha => hmem a ((hr.perm n _).mem_iff.1 ha)) mem
  refine ⟨out, h1, fun b hb ho hho wo hwo c hc => ?_, fun i hi => ?_⟩
  · rw [← outAt_eq, h2, Disco.addsAt_perm (hr.perm n _), addsAt_chans hf hb hho hwo hc f (fun b => U b ho wo c) fun b wid hi wi hx t ht hc => hU b wid hi wi _ hx t ht c hc]
  · rw [h2, Disco.addsAt_perm (hr.perm n _)]
    unfold Disco.addsAt
    rw [list_sum_zero, add_zero]
    intro a ha
    rw [if_neg]
    have := hmem a ha
    omega

end Verif.RingGpuUp
