import Verif.Spec.RingCudaBwd2
import Verif.Lemmas.RingCudaBwd2
/-!
The second backward pass of one step of the ring: all launches together.
-/
namespace Verif.RingGpu
open Verif Verif.Attn Verif.Spec.Attn Verif.AttnGpu Verif.Ring Finset Verif.Spec.RingStep

/-- What a neighbour of a point adds to number `y` of the gradient of the keys. -/
noncomputable def kAt (vec : ℕ) (p : Params) (x : BIn) (st : BStats) (y b ho wo : ℕ) (e : Entry) : ℝ :=
  ∑ i ∈ range (p.nci * vec), if vec * e.ka + i = y then
    (gradOf vec p x b ho wo e - st.inorm (outFlat p b ho wo)) * wOf vec p x st b ho wo e * x.q (vec * queryAt p b ho wo + i) else 0

/-- What a neighbour of a point adds to number `y` of the gradient of the values. -/
noncomputable def vAt (vec : ℕ) (p : Params) (x : BIn) (st : BStats) (y b ho wo : ℕ) (e : Entry) : ℝ :=
  ∑ i ∈ range (p.nco * vec), if vec * e.va + i = y then wOf vec p x st b ho wo e * x.dy (vec * gradAt p b ho wo + i) else 0

/-- All neighbours of a point. -/
def ents (p : Params) (x : BIn) (b ho wo : ℕ) : List Entry := (x.P.row ho).filterMap (entry p x.w x.P b wo)

theorem ents_in {p : Params} {x : BIn} {B b wo : ℕ} (hb : b < B) (L : List ℕ) :
    ∀ e ∈ L.filterMap (entry p x.w x.P b wo), ∃ i < B * p.nlatHalo * p.nlonKx, e.ka = i * p.nci ∧ e.va = i * p.nco := by
  intro e he
  obtain ⟨z, -, hz⟩ := List.mem_filterMap.1 he
  rw [entry_some] at hz
  split_ifs at hz with h
  obtain rfl := Option.some.inj hz
  exact ⟨_, cellNo_lt hb h, rfl, rfl⟩

/-- Output of a group with known sums. -/
structure OutOk (vec : ℕ) (p : Params) (B : ℕ) (x : BIn) (st : BStats) (b ho wo : ℕ) (es : List Entry) (o : AddOut) : Prop where
  k : ∀ y, Disco.addsAt o.k y = (es.map (kAt vec p x st y b ho wo)).sum
  v : ∀ y, Disco.addsAt o.v y = (es.map (vAt vec p x st y b ho wo)).sum
  kIn : ∀ a ∈ o.k, a.1 < B * p.nlatHalo * p.nlonKx * (p.nci * vec)
  vIn : ∀ a ∈ o.v, a.1 < B * p.nlatHalo * p.nlonKx * (p.nco * vec)

theorem outOk_loop {vec : ℕ} {cf : Config} {whole : Bool} {p : Params} {x : BIn} {B b ho wo : ℕ} {qv qs gs : ℕ → ℕ → ℕ → ℝ} (hc : CfgOk cf p.nci p.nco)
    (h : Views vec cf whole p x b ho wo qv qs gs) (st : BStats) (hb : b < B) (L : List ℕ) :
    OutOk vec p B x st b ho wo (L.filterMap (entry p x.w x.P b wo)) (addLoop vec cf whole p x st qv qs gs (outFlat p b ho wo) (L.filterMap (entry p x.w x.P b wo))) :=
  ⟨addLoop_k hc h st _, addLoop_v hc h st _, (addLoop_in hc st (ents_in hb L)).1, (addLoop_in hc st (ents_in hb L)).2⟩

theorem addAll_ok {r : ARun} {bx n vec : ℕ} {p : Params} {B : ℕ} (hr : ARunOk r bx p.nlatOut) {gs : List AddOut} (g : BGrads)
    (hk : ∀ o ∈ gs, ∀ a ∈ o.k, a.1 < B * p.nlatHalo * p.nlonKx * (p.nci * vec)) (hv : ∀ o ∈ gs, ∀ a ∈ o.v, a.1 < B * p.nlatHalo * p.nlonKx * (p.nco * vec)) :
    ∃ g', addAll r n vec p B gs g = .ok g' ∧ ∀ y, g'.dk y = g.dk y + (gs.map fun o => Disco.addsAt o.k y).sum ∧ g'.dv y = g.dv y + (gs.map fun o => Disco.addsAt o.v y).sum := by
  obtain ⟨dk, k1, k2⟩ := Disco.atomicAddTo_fold (B * p.nlatHalo * p.nlonKx * (p.nci * vec)) (r.addK n (gs.flatMap AddOut.k)) (by
    intro a ha
    obtain ⟨o, ho, ha⟩ := List.mem_flatMap.1 ((hr.addK n _).mem_iff.1 ha)
    exact hk o ho a ha) g.dk
  obtain ⟨dv, v1, v2⟩ := Disco.atomicAddTo_fold (B * p.nlatHalo * p.nlonKx * (p.nco * vec)) (r.addV n (gs.flatMap AddOut.v)) (by
    intro a ha
    obtain ⟨o, ho, ha⟩ := List.mem_flatMap.1 ((hr.addV n _).mem_iff.1 ha)
    exact hv o ho a ha) g.dv
  refine ⟨⟨dk, dv⟩, ?_, fun y => ⟨?_, ?_⟩⟩
  · unfold addAll
    rw [k1]
    change (do
      let dv ← (r.addV n (gs.flatMap AddOut.v)).foldlM (Disco.atomicAddTo (B * p.nlatHalo * p.nlonKx * (p.nco * vec))) g.dv
      return (⟨dk, dv⟩ : BGrads)) = _
    rw [v1]
    rfl
  · change dk y = _
    rw [k2, Disco.addsAt_perm (hr.addK n _), addsAt_flatMap]
  · change dv y = _
    rw [v2, Disco.addsAt_perm (hr.addV n _), addsAt_flatMap]

/-- The sums of a launch over the rows `R`, in terms of the rows. -/
def Adds (vec : ℕ) (p : Params) (B : ℕ) (x : BIn) (st : BStats) (rowIdx : ℕ → ℕ) (shift rows : ℕ) (g g' : BGrads) : Prop :=
  ∀ y, g'.dk y = g.dk y + ∑ b ∈ range B, ∑ h ∈ range rows, ∑ wo ∈ range p.nlonOut,
      ((ents p x b (rowIdx (shift + h)) wo).map (kAt vec p x st y b (rowIdx (shift + h)) wo)).sum ∧
    g'.dv y = g.dv y + ∑ b ∈ range B, ∑ h ∈ range rows, ∑ wo ∈ range p.nlonOut,
      ((ents p x b (rowIdx (shift + h)) wo).map (vAt vec p x st y b (rowIdx (shift + h)) wo)).sum

theorem sum_grid {n H W : ℕ} (hn : H * W ≤ n) (f : ℕ → ℝ) (hf : ∀ i, ¬ i < H * W → f i = 0) : ∑ i ∈ range n, f i = ∑ h ∈ range H, ∑ w ∈ range W, f (h * W + w) := by
  have h := addsAt_grid_self (bhs := 1) (gx := n) (by' := 1) (H := H) (W := W) (by omega) (fun _ i => if i < H * W then [(0, f i)] else []) (fun _ i hi => if_neg (by omega)) 0
  unfold overGrid at h
  rw [addsAt_flatMap, list_sum_range, Finset.sum_range_one, addsAt_flatMap, list_sum_range, Nat.mul_one, Finset.sum_range_one] at h
  have e1 : ∀ i, Disco.addsAt (if i < H * W then [((0 : ℕ), f i)] else []) 0 = f i := by
    intro i
    split_ifs with hi
    · simp [Disco.addsAt]
    · simp [Disco.addsAt, hf i hi]
  simp only [e1] at h
  exact h

theorem aGenericGroup_some (wide : Bool) (vec : ℕ) (p : Params) (x : BIn) (st : BStats) (rowIdx : ℕ → ℕ) (m : AddMem) (b : ℕ) {wid : ℕ} (h : wid < p.nlatOut * p.nlonOut) (hv : vec = 1 ∨ vec = 4)
    {B : ℕ} (hb : b < B) : ∃ o, aGenericGroup wide vec p x st rowIdx m b wid = [o] ∧ OutOk vec p B x st b (rowIdx (wid / p.nlonOut)) (wid % p.nlonOut)
      (ents p x b (rowIdx (wid / p.nlonOut)) (wid % p.nlonOut)) o := by
  unfold aGenericGroup
  rw [pointOf_some h, Nat.zero_add]
  exact ⟨_, rfl, outOk_loop (cf := ⟨32, 2, none, none, false, 0⟩) ⟨⟨by norm_num, by norm_num, by norm_num⟩, by norm_num, locOk_none _ _, locOk_none _ _⟩ (views_generic hv wide p x m b _ _) st hb _⟩

theorem aGenericGroup_none (wide : Bool) (vec : ℕ) (p : Params) (x : BIn) (st : BStats) (rowIdx : ℕ → ℕ) (m : AddMem) (b : ℕ) {wid : ℕ} (h : ¬ wid < p.nlatOut * p.nlonOut) :
    aGenericGroup wide vec p x st rowIdx m b wid = [] := by
  unfold aGenericGroup
  rw [pointOf_none h]

/-- The entries of part `s` of a row. -/
def part (P : Pattern) (ho cpr s : ℕ) : List ℕ := (splitIdx (P.roff (ho + 1) - P.roff ho) cpr s).map fun i => P.roff ho + i

theorem part_eq (P : Pattern) (ho cpr s : ℕ) : part P ho cpr s =
    (List.range ((P.roff (ho + 1) - P.roff ho) / cpr + if s < (P.roff (ho + 1) - P.roff ho) % cpr then 1 else 0)).map fun i => P.roff ho + s + i * cpr := by
  unfold part splitIdx
  rw [List.map_map]
  refine List.map_congr_left fun i _ => ?_
  change P.roff ho + (s + i * cpr) = _
  omega

theorem part_sub {P : Pattern} {ho cpr s : ℕ} (hs : s < cpr) : ∀ z ∈ part P ho cpr s, z ∈ P.row ho := by
  intro z hz
  obtain ⟨i, hi, rfl⟩ := List.mem_map.1 hz
  rw [row_eq]
  exact List.mem_map.2 ⟨i, List.mem_range.2 ((mem_splitIdx hs).1 hi).1, rfl⟩

theorem parts_sum {P : Pattern} {cpr : ℕ} (hc : 0 < cpr) (ho : ℕ) (f : ℕ → Option Entry) (F : Entry → ℝ) :
    ∑ s ∈ range cpr, (((part P ho cpr s).filterMap f).map F).sum = (((P.row ho).filterMap f).map F).sum := by
  have hp := ((splitIdx_perm hc (P.roff (ho + 1) - P.roff ho)).map fun i => P.roff ho + i).filterMap f
  rw [← row_eq] at hp
  rw [← (hp.map F).sum_eq, ← list_sum_range, ← list_sum_flatMap, List.map_flatMap (f := fun i => P.roff ho + i), List.filterMap_flatMap]
  rfl

theorem aSpecialGroup_some {vec : ℕ} {cf : Config} {p : Params} {B : ℕ} (hc : CfgOk cf p.nci p.nco) (hv : vec = 1 ∨ vec = 4) (wide : Bool) (x : BIn) (st : BStats) (rowIdx : ℕ → ℕ)
    {shift rows cpr cap : ℕ} (m : AddMem) (ho : ∀ i, (m.order i).Perm (List.range cf.bx)) {b split wid : ℕ} (hb : b < B) (hs : split < cpr) (hw : wid < rows * p.nlonOut)
    (hcap : (x.P.roff (rowIdx (shift + wid / p.nlonOut) + 1) - x.P.roff (rowIdx (shift + wid / p.nlonOut))) / cpr +
      (if split < (x.P.roff (rowIdx (shift + wid / p.nlonOut) + 1) - x.P.roff (rowIdx (shift + wid / p.nlonOut))) % cpr then 1 else 0) ≤ cap)
    (hh : ∀ z ∈ x.P.row (rowIdx (shift + wid / p.nlonOut)), RowNear p (x.P.col z / p.nlonIn, (x.P.col z % p.nlonIn + p.pscale * (wid % p.nlonOut)) % p.nlonIn)) :
    ∃ o, aSpecialGroup wide vec cf p B x st rowIdx shift rows cpr cap m b split wid = .ok [o] ∧ OutOk vec p B x st b (rowIdx (shift + wid / p.nlonOut)) (wid % p.nlonOut)
      ((part x.P (rowIdx (shift + wid / p.nlonOut)) cpr split).filterMap (entry p x.w x.P b (wid % p.nlonOut))) o := by
  unfold aSpecialGroup
  rw [pointOf_some hw]
  dsimp only
  obtain ⟨es, c1, c2⟩ := collectAll_ok hc.grp (fun i => slot p x.w x.P (wid % p.nlonOut) (x.P.roff (rowIdx (shift + wid / p.nlonOut)) + split + i * cpr)) ho m.slots hcap
  rw [c1]
  dsimp only
  rw [c2]
  have hfm : (List.range ((x.P.roff (rowIdx (shift + wid / p.nlonOut) + 1) - x.P.roff (rowIdx (shift + wid / p.nlonOut))) / cpr +
      (if split < (x.P.roff (rowIdx (shift + wid / p.nlonOut) + 1) - x.P.roff (rowIdx (shift + wid / p.nlonOut))) % cpr then 1 else 0))).filterMap
        (fun i => slot p x.w x.P (wid % p.nlonOut) (x.P.roff (rowIdx (shift + wid / p.nlonOut)) + split + i * cpr))
      = (part x.P (rowIdx (shift + wid / p.nlonOut)) cpr split).filterMap (slot p x.w x.P (wid % p.nlonOut)) := by
    rw [part_eq, List.filterMap_map]
    rfl
  rw [hfm, place_all hb x.w x.P (wid % p.nlonOut) _ fun z hz => hh z (part_sub hs z hz)]
  dsimp only
  exact ⟨_, rfl, outOk_loop hc (views_special hc hv wide x m b _ _) st hb _⟩

theorem aSpecialGroup_none {vec : ℕ} {cf : Config} {p : Params} {B : ℕ} (wide : Bool) (x : BIn) (st : BStats) (rowIdx : ℕ → ℕ)
    {shift rows cpr cap : ℕ} (m : AddMem) {b split wid : ℕ} (hw : ¬ wid < rows * p.nlonOut) :
    aSpecialGroup wide vec cf p B x st rowIdx shift rows cpr cap m b split wid = .ok [] := by
  unfold aSpecialGroup
  rw [pointOf_none hw]

theorem sum_points {rows W n : ℕ} (hn : rows * W ≤ n) (F : ℕ → ℕ → ℝ) (f : ℕ → ℝ) (h1 : ∀ i < rows * W, f i = F (i / W) (i % W)) (h0 : ∀ i < n, ¬ i < rows * W → f i = 0) :
    ∑ i ∈ range n, f i = ∑ h ∈ range rows, ∑ w ∈ range W, F h w := by
  rw [sum_congr rfl fun i hi => show f i = if i < rows * W then f i else 0 by
    split_ifs with h
    · rfl
    · exact h0 i (mem_range.1 hi) h]
  rw [sum_grid hn _ fun i hi => if_neg hi]
  refine sum_congr rfl fun h hh => sum_congr rfl fun w hw => ?_
  obtain ⟨e1, e2⟩ := div_mul_add (a := h) (mem_range.1 hw)
  have hlt := packed_lt (mem_range.1 hh) (mem_range.1 hw)
  rw [if_pos hlt, h1 _ hlt, e1, e2]

theorem aRunGeneric_ok {r : ARun} {p : Params} (hr : ARunOk r 32 p.nlatOut) {vec : ℕ} (hv : vec = 1 ∨ vec = 4) {B : ℕ} (x : BIn) (st : BStats) (g : BGrads)
    (hacc : fits r.limit (divUp (p.nlatOut * p.nlonOut) 2) B 1 (4 * vec * (p.nci + p.nco) * 2) 0) :
    ∃ g', aRunGeneric r vec p B x st g = .ok g' ∧ Adds vec p B x st r.rowIdx 0 p.nlatOut g g' := by
  classical
  have hg : p.nlatOut * p.nlonOut ≤ divUp (p.nlatOut * p.nlonOut) 2 * 2 := le_divUp_mul (by norm_num)
  unfold aRunGeneric
  dsimp only
  rw [if_pos hacc]
  generalize divUp (p.nlatOut * p.nlonOut) 2 = gx at hg
  have hin : ∀ o ∈ (grid2 B gx 2).flatMap fun a => aGenericGroup r.wide vec p x st r.rowIdx (r.mem 0 a.1 0 a.2) a.1 a.2,
      ∃ b ho wo es, OutOk vec p B x st b ho wo es o := by
    intro o ho
    obtain ⟨a, ha, ho⟩ := List.mem_flatMap.1 ho
    obtain ⟨hb, -⟩ := mem_grid2.1 ha
    by_cases hw : a.2 < p.nlatOut * p.nlonOut
    · obtain ⟨o', e1, e2⟩ := aGenericGroup_some r.wide vec p x st r.rowIdx (r.mem 0 a.1 0 a.2) a.1 hw hv hb
      rw [e1] at ho
      obtain rfl := List.mem_singleton.1 ho
      exact ⟨_, _, _, _, e2⟩
    · rw [aGenericGroup_none r.wide vec p x st r.rowIdx _ a.1 hw] at ho
      exact absurd ho (by simp)
  obtain ⟨g', e1, e2⟩ := addAll_ok (n := 0) (vec := vec) (B := B) hr g (fun o ho => by obtain ⟨_, _, _, _, h⟩ := hin o ho; exact h.kIn)
    (fun o ho => by obtain ⟨_, _, _, _, h⟩ := hin o ho; exact h.vIn)
  refine ⟨g', e1, fun y => ?_⟩
  obtain ⟨a1, a2⟩ := e2 y
  rw [a1, a2]
  have key : ∀ (f : AddOut → ℝ) (F : ℕ → ℕ → ℕ → ℝ), (∀ b ho wo o, OutOk vec p B x st b ho wo (ents p x b ho wo) o → f o = F b ho wo) →
      (((grid2 B gx 2).flatMap fun a => aGenericGroup r.wide vec p x st r.rowIdx (r.mem 0 a.1 0 a.2) a.1 a.2).map f).sum
        = ∑ b ∈ range B, ∑ h ∈ range p.nlatOut, ∑ wo ∈ range p.nlonOut, F b (r.rowIdx (0 + h)) wo := by
    intro f F hf
    rw [list_sum_flatMap]
    unfold grid2 overGrid
    rw [list_sum_flatMap, list_sum_range]
    refine sum_congr rfl fun b hb => ?_
    rw [list_sum_flatMap, list_sum_range]
    refine sum_points hg (fun h w => F b (r.rowIdx (0 + h)) w) _ (fun i hi => ?_) fun i _ hi => ?_
    · obtain ⟨o, o1, o2⟩ := aGenericGroup_some r.wide vec p x st r.rowIdx (r.mem 0 b 0 i) b hi hv (mem_range.1 hb)
      rw [List.map_singleton, List.sum_singleton]
      dsimp only
      rw [o1, List.map_singleton, List.sum_singleton, hf _ _ _ _ o2, Nat.zero_add]
    · rw [List.map_singleton, List.sum_singleton]
      dsimp only
      rw [aGenericGroup_none r.wide vec p x st r.rowIdx _ b hi]
      rfl
  exact ⟨by rw [key _ (fun b ho wo => ((ents p x b ho wo).map (kAt vec p x st y b ho wo)).sum) fun b ho wo o h => h.k y],
    by rw [key _ (fun b ho wo => ((ents p x b ho wo).map (vAt vec p x st y b ho wo)).sum) fun b ho wo o h => h.v y]⟩

theorem aRunSpecial_ok {r : ARun} {n vec : ℕ} {cf : Config} {p : Params} (hc : CfgOk cf p.nci p.nco) (hv : vec = 1 ∨ vec = 4) (hr : ARunOk r cf.bx p.nlatOut) {B : ℕ} (x : BIn) (st : BStats)
    {shift rows cpr cap top : ℕ} (hcpr : 0 < cpr) (g : BGrads) (hrows : shift + rows ≤ p.nlatOut)
    (hlen : ∀ h < rows, ∀ s, (x.P.roff (r.rowIdx (shift + h) + 1) - x.P.roff (r.rowIdx (shift + h))) / cpr +
      (if s < (x.P.roff (r.rowIdx (shift + h) + 1) - x.P.roff (r.rowIdx (shift + h))) % cpr then 1 else 0) ≤ cap)
    (hh : ∀ ho < p.nlatOut, ∀ wo < p.nlonOut, ∀ z ∈ x.P.row ho, RowNear p (x.P.col z / p.nlonIn, (x.P.col z % p.nlonIn + p.pscale * wo) % p.nlonIn))
    (hacc : 0 < rows → fitsTop r.limit (divUp (rows * p.nlonOut) cf.by') cpr B (addShared r.wide vec p cf.by' cap) top (bStaticShared cf.bx)) :
    ∃ g', aRunSpecial r n vec cf p B x st shift rows cpr cap top g = .ok g' ∧ Adds vec p B x st r.rowIdx shift rows g g' := by
  classical
  unfold aRunSpecial
  by_cases h0 : rows = 0
  · rw [if_pos h0]
    refine ⟨g, rfl, fun y => ?_⟩
    rw [h0]
    simp
  rw [if_neg h0]
  dsimp only
  rw [if_pos (hacc (by omega))]
  have hg : rows * p.nlonOut ≤ divUp (rows * p.nlonOut) cf.by' * cf.by' := le_divUp_mul hc.rows
  generalize divUp (rows * p.nlonOut) cf.by' = gx at hg
  have hgroup : ∀ a ∈ grid3 B cpr gx cf.by', ∃ gs, aSpecialGroup r.wide vec cf p B x st r.rowIdx shift rows cpr cap (r.mem n a.1 a.2.1 a.2.2) a.1 a.2.1 a.2.2 = .ok gs ∧
      if a.2.2 < rows * p.nlonOut then ∃ o, gs = [o] ∧ OutOk vec p B x st a.1 (r.rowIdx (shift + a.2.2 / p.nlonOut)) (a.2.2 % p.nlonOut)
        ((part x.P (r.rowIdx (shift + a.2.2 / p.nlonOut)) cpr a.2.1).filterMap (entry p x.w x.P a.1 (a.2.2 % p.nlonOut))) o else gs = [] := by
    intro a ha
    obtain ⟨hb, hs, -⟩ := mem_grid3.1 ha
    by_cases hw : a.2.2 < rows * p.nlonOut
    · have hdiv : a.2.2 / p.nlonOut < rows := Nat.div_lt_of_lt_mul (by rw [Nat.mul_comm]; exact hw)
      have hpos : 0 < p.nlonOut := Nat.pos_of_ne_zero fun h => by rw [h] at hw; simp at hw
      have hrow : r.rowIdx (shift + a.2.2 / p.nlonOut) < p.nlatOut :=
        List.mem_range.1 (hr.rows.mem_iff.1 (List.mem_map.2 ⟨_, List.mem_range.2 (by omega), rfl⟩))
      have hcap := hlen _ hdiv a.2.1
      obtain ⟨o, o1, o2⟩ := aSpecialGroup_some (cap := cap) hc hv r.wide x st r.rowIdx (r.mem n a.1 a.2.1 a.2.2) (hr.order n a.1 a.2.1 a.2.2) hb hs hw hcap
        (hh _ hrow _ (Nat.mod_lt _ hpos))
      exact ⟨[o], o1, by rw [if_pos hw]; exact ⟨o, rfl, o2⟩⟩
    · exact ⟨[], aSpecialGroup_none r.wide x st r.rowIdx _ hw, by rw [if_neg hw]⟩
  obtain ⟨G, hG⟩ : ∃ G : ℕ × ℕ × ℕ → List AddOut, ∀ a ∈ grid3 B cpr gx cf.by',
      aSpecialGroup r.wide vec cf p B x st r.rowIdx shift rows cpr cap (r.mem n a.1 a.2.1 a.2.2) a.1 a.2.1 a.2.2 = .ok (G a) ∧
      if a.2.2 < rows * p.nlonOut then ∃ o, G a = [o] ∧ OutOk vec p B x st a.1 (r.rowIdx (shift + a.2.2 / p.nlonOut)) (a.2.2 % p.nlonOut)
        ((part x.P (r.rowIdx (shift + a.2.2 / p.nlonOut)) cpr a.2.1).filterMap (entry p x.w x.P a.1 (a.2.2 % p.nlonOut))) o else G a = [] := by
    refine ⟨fun a => if h : a ∈ grid3 B cpr gx cf.by' then (hgroup a h).choose else [], fun a ha => ?_⟩
    simp only [dif_pos ha]
    exact (hgroup a ha).choose_spec
  have hin : ∀ o ∈ (grid3 B cpr gx cf.by').flatMap G, ∃ b ho wo es, OutOk vec p B x st b ho wo es o := by
    intro o ho
    obtain ⟨a, ha, ho⟩ := List.mem_flatMap.1 ho
    obtain ⟨-, h2⟩ := hG a ha
    split_ifs at h2 with hw
    · obtain ⟨o', e1, e2⟩ := h2
      rw [e1] at ho
      obtain rfl := List.mem_singleton.1 ho
      exact ⟨_, _, _, _, e2⟩
    · rw [h2] at ho
      exact absurd ho (by simp)
  obtain ⟨g', e1, e2⟩ := addAll_ok (n := n) (vec := vec) (B := B) hr g (fun o ho => by obtain ⟨_, _, _, _, h⟩ := hin o ho; exact h.kIn)
    (fun o ho => by obtain ⟨_, _, _, _, h⟩ := hin o ho; exact h.vIn)
  refine ⟨g', ?_, fun y => ?_⟩
  · rw [overM_ok _ fun a ha => (hG a ha).1]
    exact e1
  obtain ⟨a1, a2⟩ := e2 y
  rw [a1, a2]
  have key : ∀ (f : AddOut → ℝ) (F : ℕ → ℕ → ℕ → Entry → ℝ), (∀ b ho wo es o, OutOk vec p B x st b ho wo es o → f o = (es.map (F b ho wo)).sum) →
      (((grid3 B cpr gx cf.by').flatMap G).map f).sum
        = ∑ b ∈ range B, ∑ h ∈ range rows, ∑ wo ∈ range p.nlonOut, ((ents p x b (r.rowIdx (shift + h)) wo).map (F b (r.rowIdx (shift + h)) wo)).sum := by
    intro f F hf
    rw [list_sum_flatMap, grid3_sum]
    refine sum_congr rfl fun b hb => ?_
    refine sum_points (by exact hg) (fun h wo => ((ents p x b (r.rowIdx (shift + h)) wo).map (F b (r.rowIdx (shift + h)) wo)).sum) _ (fun i hi => ?_) fun i hi hi' => ?_
    · unfold ents
      rw [← parts_sum hcpr]
      refine sum_congr rfl fun s hs => ?_
      obtain ⟨-, h2⟩ := hG (b, s, i) (mem_grid3.2 ⟨mem_range.1 hb, mem_range.1 hs, by dsimp only; omega⟩)
      rw [if_pos hi] at h2
      obtain ⟨o, o1, o2⟩ := h2
      rw [o1, List.map_singleton, List.sum_singleton, hf _ _ _ _ _ o2]
    · refine sum_eq_zero fun s hs => ?_
      obtain ⟨-, h2⟩ := hG (b, s, i) (mem_grid3.2 ⟨mem_range.1 hb, mem_range.1 hs, hi⟩)
      rw [if_neg hi'] at h2
      rw [h2]
      rfl
  exact ⟨by rw [key _ (fun b ho wo => kAt vec p x st y b ho wo) fun b ho wo es o h => h.k y],
    by rw [key _ (fun b ho wo => vAt vec p x st y b ho wo) fun b ho wo es o h => h.v y]⟩

end Verif.RingGpu
