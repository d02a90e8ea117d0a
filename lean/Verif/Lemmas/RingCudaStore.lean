import Verif.Lemmas.RingCudaGroup
import Verif.Lemmas.AttentionHeads
import Verif.Spec.RingCuda
/-!
The one-pass kernels of the ring step: what they leave in the accumulators.
-/
namespace Verif.RingGpu
open Verif Verif.Attn Verif.Spec.Attn Verif.AttnGpu Verif.Ring Finset

/-! ### Places and points -/

/-- The accumulators of the point with number `i`. -/
def accAt (C : ℕ) (bufs : Bufs) (i : ℕ) : Acc := ⟨fun c => bufs.y (i * C + c), bufs.alpha i, bufs.qmax i⟩

/-- The same accumulators in the channels below `C`. -/
def AccEq (C : ℕ) (a b : Acc) : Prop := a.alphaSum = b.alphaSum ∧ a.qmax = b.qmax ∧ ∀ c < C, a.y c = b.y c

theorem AccEq.refl (C : ℕ) (a : Acc) : AccEq C a a := ⟨rfl, rfl, fun _ _ => rfl⟩

theorem AccEq.trans {C : ℕ} {a b c : Acc} (h : AccEq C a b) (h' : AccEq C b c) : AccEq C a c :=
  ⟨h.1.trans h'.1, h.2.1.trans h'.2.1, fun x hx => (h.2.2 x hx).trans (h'.2.2 x hx)⟩

theorem AccEq.closed {C : ℕ} {a b : Acc} (h : AccEq C a b) (L : List Pt) : AccEq C (closed a L) (closed b L) := by
  obtain ⟨h1, h2, h3⟩ := h
  unfold RingGpu.closed
  rw [h2, h1]
  cases phaseMax b.qmax L with
  | none => exact ⟨h1, h2, h3⟩
  | some n => exact ⟨rfl, rfl, fun c hc => by dsimp only; rw [h3 c hc]⟩

/-- The neighbours of a point in the chunk. -/
def chunk (vec : ℕ) (p : Params) (w : ℕ → ℝ) (P : Pattern) (k v q : ℕ → ℝ) (b ho wo : ℕ) : List Pt :=
  chunkPts P w p.nlonIn p.pscale p.lonLo p.start (keyTen vec p 0 k) (valTen vec p 0 v) (queryTen vec p 0 q) b ho wo

/-- The neighbours of the point with number `i`. -/
def chunkAt (vec : ℕ) (p : Params) (w : ℕ → ℝ) (P : Pattern) (k v q : ℕ → ℝ) (i : ℕ) : List Pt :=
  chunk vec p w P k v q (i / p.nlonOut / p.nlatOut) (i / p.nlonOut % p.nlatOut) (i % p.nlonOut)

theorem outFlat_eq (p : Params) (b ho wo : ℕ) : outFlat p b ho wo = (b * p.nlatOut + ho) * p.nlonOut + wo := by
  unfold outFlat
  ring

theorem outFlat_decode {p : Params} {b ho wo : ℕ} (hh : ho < p.nlatOut) (hw : wo < p.nlonOut) :
    outFlat p b ho wo / p.nlonOut / p.nlatOut = b ∧ outFlat p b ho wo / p.nlonOut % p.nlatOut = ho ∧ outFlat p b ho wo % p.nlonOut = wo := by
  rw [outFlat_eq]
  obtain ⟨e1, e2⟩ := div_mul_add (a := b * p.nlatOut + ho) hw
  obtain ⟨e3, e4⟩ := div_mul_add (a := b) hh
  rw [e1, e2, e3, e4]
  exact ⟨rfl, rfl, rfl⟩

theorem outFlat_lt {p : Params} {B b ho wo : ℕ} (hb : b < B) (hh : ho < p.nlatOut) (hw : wo < p.nlonOut) : outFlat p b ho wo < B * p.nlatOut * p.nlonOut := by
  rw [outFlat_eq]
  exact packed_lt (packed_lt hb hh) hw

theorem chunkAt_outFlat (vec : ℕ) {p : Params} (w : ℕ → ℝ) (P : Pattern) (k v q : ℕ → ℝ) {b ho wo : ℕ} (hh : ho < p.nlatOut) (hw : wo < p.nlonOut) :
    chunkAt vec p w P k v q (outFlat p b ho wo) = chunk vec p w P k v q b ho wo := by
  obtain ⟨h1, h2, h3⟩ := outFlat_decode (b := b) hh hw
  unfold chunkAt
  rw [h1, h2, h3]

theorem row_eq (P : Pattern) (h : ℕ) : P.row h = (List.range (P.roff (h + 1) - P.roff h)).map fun i => P.roff h + i := by
  unfold Pattern.row
  rw [List.range'_eq_map_range]

theorem sub_div_mul (x W : ℕ) : x - x / W * W = x % W := by
  have := Nat.div_add_mod x W
  rw [Nat.mul_comm] at this
  omega

theorem pointOf_some {rowIdx : ℕ → ℕ} {shift rows W wid : ℕ} (h : wid < rows * W) :
    pointOf rowIdx shift rows W wid = some (rowIdx (shift + wid / W), wid % W) := by
  unfold pointOf
  rw [if_neg (by omega), sub_div_mul]

theorem pointOf_none {rowIdx : ℕ → ℕ} {shift rows W wid : ℕ} (h : ¬ wid < rows * W) : pointOf rowIdx shift rows W wid = none := by
  unfold pointOf
  rw [if_pos (by omega)]

/-! ### Groups -/

/-- The threads of a group have loaded the accumulators. -/
theorem agree_load {vec bx : ℕ} (hb : 0 < bx) {loc : Option ℕ} (p : Params) (bufs : Bufs) (i : ℕ) (junk : ℕ → ℕ → ℕ → ℝ) :
    Agree vec bx (chans bx loc p.nco) (loadThr vec (chans bx loc p.nco) p bufs i junk) (accAt (p.nco * vec) bufs i) := by
  intro t _
  refine ⟨rfl, rfl, fun c hc j _ => ?_⟩
  unfold loadThr accAt
  dsimp only
  rw [AttnGpu.foldl_update_at _ (chans_nodup hb) (fun c _ => vload vec bufs.y (i * p.nco + c)), if_pos hc]
  unfold vload
  congr 1
  ring

theorem genericGroup_ok (vec : ℕ) (p : Params) (w : ℕ → ℝ) (P : Pattern) (k v q : ℕ → ℝ) (rowIdx : ℕ → ℕ) (junk : ℕ → ℕ → ℕ → ℝ) (bufs : Bufs) {b wid : ℕ}
    (hw : wid < p.nlatOut * p.nlonOut) :
    ∃ thr, genericGroup vec p w P k v q rowIdx junk bufs b wid = [⟨outFlat p b (rowIdx (wid / p.nlonOut)) (wid % p.nlonOut), thr⟩] ∧
      Agree vec 32 (chans 32 none p.nco) thr
        (closed (accAt (p.nco * vec) bufs (outFlat p b (rowIdx (wid / p.nlonOut)) (wid % p.nlonOut))) (chunk vec p w P k v q b (rowIdx (wid / p.nlonOut)) (wid % p.nlonOut))) := by
  unfold genericGroup
  rw [pointOf_some hw, Nat.zero_add]
  refine ⟨_, rfl, ?_⟩
  have hl : LocOk 32 none p.nci := fun m hm => by simp at hm
  have hg : GroupOk 32 := ⟨by omega, by omega, by omega⟩
  have := agree_online (loc' := none) hg hl (fun _ c => vload vec q (queryAt p b (rowIdx (wid / p.nlonOut)) (wid % p.nlonOut) + c)) k v
    (fun c => q (vec * queryAt p b (rowIdx (wid / p.nlonOut)) (wid % p.nlonOut) + c))
    (fun t _ c _ j _ => by unfold vload; congr 1; ring)
    ((P.row (rowIdx (wid / p.nlonOut))).filterMap (entry p w P b (wid % p.nlonOut)))
    (agree_load (vec := vec) (bx := 32) (by omega) (loc := none) p bufs (outFlat p b (rowIdx (wid / p.nlonOut)) (wid % p.nlonOut)) junk)
  rw [entries_pts vec p 0, foldl_onePass] at this
  exact this

theorem specialGroup_ok {vec : ℕ} {cf : Config} {p : Params} (hc : CfgOk cf p.nci p.nco) (w : ℕ → ℝ) (P : Pattern) (k v q : ℕ → ℝ) (rowIdx : ℕ → ℕ) (sh : Shared)
    (ho : ∀ i, (sh.order i).Perm (List.range cf.bx)) (junk : ℕ → ℕ → ℕ → ℝ) (bufs : Bufs) {b wid : ℕ} (hw : wid < (p.nlatOut - p.nLong) * p.nlonOut)
    (hrow : P.roff (rowIdx (p.nLong + wid / p.nlonOut) + 1) - P.roff (rowIdx (p.nLong + wid / p.nlonOut)) ≤ p.midLen) :
    ∃ gs, specialGroup vec cf p w P k v q rowIdx sh junk bufs b wid = .ok gs ∧
      (chunk vec p w P k v q b (rowIdx (p.nLong + wid / p.nlonOut)) (wid % p.nlonOut) = [] ∧ gs = [] ∨
      ∃ thr, gs = [⟨outFlat p b (rowIdx (p.nLong + wid / p.nlonOut)) (wid % p.nlonOut), thr⟩] ∧
      Agree vec cf.bx (chans cf.bx cf.locO p.nco) thr
        (closed (accAt (p.nco * vec) bufs (outFlat p b (rowIdx (p.nLong + wid / p.nlonOut)) (wid % p.nlonOut)))
          (chunk vec p w P k v q b (rowIdx (p.nLong + wid / p.nlonOut)) (wid % p.nlonOut)))) := by
  unfold specialGroup
  rw [pointOf_some hw]
  generalize rowIdx (p.nLong + wid / p.nlonOut) = h at *
  generalize wid % p.nlonOut = wo
  dsimp only
  obtain ⟨es, e1, e2⟩ := collectAll_ok hc.grp (fun i => entry p w P b wo (P.roff h + i)) ho sh.entries hrow
  have e3 : (List.range (P.roff (h + 1) - P.roff h)).filterMap (fun i => entry p w P b wo (P.roff h + i)) = (P.row h).filterMap (entry p w P b wo) := by
    rw [row_eq, List.filterMap_map]
    rfl
  have e4 : ((P.row h).filterMap (entry p w P b wo)).map (ptOf vec p.nci k v fun c => q (vec * queryAt p b h wo + c)) = chunk vec p w P k v q b h wo :=
    entries_pts vec p 0 w P k v q b h wo _
  rw [e3] at e1 e2
  rw [e1]
  dsimp only
  by_cases h0 : ((P.row h).filterMap (entry p w P b wo)).length = 0
  · rw [if_pos h0]
    refine ⟨_, rfl, Or.inl ⟨?_, rfl⟩⟩
    rw [← e4, List.eq_nil_of_length_eq_zero h0]
    rfl
  · rw [if_neg h0]
    refine ⟨_, rfl, Or.inr ⟨_, rfl, ?_⟩⟩
    rw [e2]
    have := agree_online (loc' := cf.locO) hc.grp hc.inC (staged vec (chans cf.bx cf.locI p.nci) q (queryAt p b h wo) sh.query) k v
      (fun c => q (vec * queryAt p b h wo + c)) (fun t _ c hcc j _ => staged_eq hc.grp q _ _ hcc)
      ((P.row h).filterMap (entry p w P b wo)) (agree_load (vec := vec) hc.grp.1 (loc := cf.locO) p bufs (outFlat p b h wo) junk)
    rw [e4, foldl_onePass] at this
    exact this

/-! ### Stores -/

theorem overM_ok {α β : Type} {f : α → Except PyErr (List β)} {g : α → List β} (L : List α) (h : ∀ x ∈ L, f x = .ok (g x)) : overM f L = .ok (L.flatMap g) := by
  induction L with
  | nil => rfl
  | cons a L ih =>
    unfold overM
    rw [h a List.mem_cons_self, ih fun x hx => h x (List.mem_cons_of_mem _ hx), List.flatMap_cons]

theorem y_addr (vec nco i c j : ℕ) : vec * (i * nco + c) + j = i * (nco * vec) + (c * vec + j) := by ring

theorem y_addr_inj {C i i' e e' : ℕ} (he : e < C) (he' : e' < C) (h : i * C + e = i' * C + e') : i = i' ∧ e = e' := by
  obtain ⟨a1, a2⟩ := div_mul_add (a := i) he
  obtain ⟨b1, b2⟩ := div_mul_add (a := i') he'
  rw [h] at a1 a2
  omega

theorem chan_mem {vec bx nco e : ℕ} {loc : Option ℕ} (hb : 0 < bx) (hl : LocOk bx loc nco) (he : e < nco * vec) :
    e / vec % bx < bx ∧ e / vec ∈ chans bx loc nco (e / vec % bx) ∧ e % vec < vec ∧ e / vec * vec + e % vec = e := by
  obtain ⟨s1, s2, s3⟩ := packed_split he
  exact ⟨Nat.mod_lt _ hb, (mem_chans hb hl (Nat.mod_lt _ hb)).2 ⟨s1, rfl⟩, s2, s3⟩

theorem chan_lt {vec bx nco t c j : ℕ} {loc : Option ℕ} (hb : 0 < bx) (hl : LocOk bx loc nco) (ht : t < bx) (hc : c ∈ chans bx loc nco t) (hj : j < vec) :
    c * vec + j < nco * vec := packed_lt ((mem_chans hb hl ht).1 hc).1 hj

theorem mem_yStores {vec : ℕ} {cf : Config} {p : Params} {g : GroupOut} {a : ℕ × ℝ} : a ∈ yStores vec cf p g ↔
    ∃ t < cf.bx, ∃ c ∈ chans cf.bx cf.locO p.nco t, ∃ j < vec, a = (g.flat * (p.nco * vec) + (c * vec + j), (g.thr t).y c j) := by
  unfold yStores
  simp only [List.mem_flatMap, List.mem_map, List.mem_range, y_addr]
  constructor
  · rintro ⟨t, ht, c, hc, j, hj, rfl⟩
    exact ⟨t, ht, c, hc, j, hj, rfl⟩
  · rintro ⟨t, ht, c, hc, j, hj, rfl⟩
    exact ⟨t, ht, c, hc, j, hj, rfl⟩

/-- The stores of groups that agree with `F` leave `F` at their points and everything else as it was. -/
theorem storeGroups_ok {r : Run} (hY : ∀ L, (r.storeY L).Perm L) (hA : ∀ L, (r.storeA L).Perm L) (hM : ∀ L, (r.storeM L).Perm L) {vec : ℕ} {cf : Config} {p : Params}
    (hb : 0 < cf.bx) (hl : LocOk cf.bx cf.locO p.nco) (B : ℕ) (gs : List GroupOut) (bufs : Bufs) (F : ℕ → Acc)
    (h : ∀ g ∈ gs, g.flat < B * p.nlatOut * p.nlonOut ∧ Agree vec cf.bx (chans cf.bx cf.locO p.nco) g.thr (F g.flat)) :
    ∃ bufs', storeGroups r vec cf p B gs bufs = .ok bufs' ∧ (∀ g ∈ gs, AccEq (p.nco * vec) (accAt (p.nco * vec) bufs' g.flat) (F g.flat)) ∧
      ∀ i, (∀ g ∈ gs, g.flat ≠ i) → AccEq (p.nco * vec) (accAt (p.nco * vec) bufs' i) (accAt (p.nco * vec) bufs i) := by
  obtain ⟨y', y1, y2, y3⟩ := stores_ok (B * p.nlatOut * p.nlonOut * (p.nco * vec)) (r.storeY (gs.flatMap (yStores vec cf p)))
    (fun x => (F (x / (p.nco * vec))).y (x % (p.nco * vec))) (by
      intro a ha
      obtain ⟨g, hg, ha⟩ := List.mem_flatMap.1 ((hY _).subset ha)
      obtain ⟨t, ht, c, hc, j, hj, rfl⟩ := mem_yStores.1 ha
      have hlt := chan_lt hb hl ht hc hj
      obtain ⟨d1, d2⟩ := div_mul_add (a := g.flat) hlt
      refine ⟨packed_lt (h g hg).1 hlt, ?_⟩
      dsimp only
      rw [d1, d2]
      exact ((h g hg).2 t ht).2.2 c hc j hj) bufs.y
  obtain ⟨a', a1, a2, a3⟩ := stores_ok (B * p.nlatOut * p.nlonOut) (r.storeA (gs.map fun g => (g.flat, (g.thr 0).alpha))) (fun x => (F x).alphaSum) (by
      intro a ha
      obtain ⟨g, hg, rfl⟩ := List.mem_map.1 ((hA _).subset ha)
      exact ⟨(h g hg).1, ((h g hg).2 0 hb).1⟩) bufs.alpha
  obtain ⟨m', m1, m2, m3⟩ := stores_gen (B * p.nlatOut * p.nlonOut) (r.storeM (gs.map fun g => (g.flat, (g.thr 0).qmax))) (fun x => (F x).qmax) (by
      intro a ha
      obtain ⟨g, hg, rfl⟩ := List.mem_map.1 ((hM _).subset ha)
      exact ⟨(h g hg).1, ((h g hg).2 0 hb).2.1⟩) bufs.qmax
  refine ⟨⟨y', a', m'⟩, ?_, ?_, ?_⟩
  · unfold storeGroups
    rw [y1, a1, m1]
    rfl
  · intro g hg
    refine ⟨a2 (g.flat, (g.thr 0).alpha) ((hA _).symm.subset (List.mem_map.2 ⟨g, hg, rfl⟩)), m2 (g.flat, (g.thr 0).qmax) ((hM _).symm.subset (List.mem_map.2 ⟨g, hg, rfl⟩)), ?_⟩
    intro e he
    obtain ⟨c1, c2, c3, c4⟩ := chan_mem (loc := cf.locO) hb hl he
    have := y2 (g.flat * (p.nco * vec) + (e / vec * vec + e % vec), (g.thr (e / vec % cf.bx)).y (e / vec) (e % vec))
      ((hY _).symm.subset (List.mem_flatMap.2 ⟨g, hg, mem_yStores.2 ⟨_, c1, _, c2, _, c3, rfl⟩⟩))
    rw [c4] at this
    obtain ⟨d1, d2⟩ := div_mul_add (a := g.flat) he
    rw [d1, d2] at this
    exact this
  · intro i hi
    refine ⟨a3 i ?_, m3 i ?_, fun e he => y3 _ ?_⟩
    · intro a ha
      obtain ⟨g, hg, rfl⟩ := List.mem_map.1 ((hA _).subset ha)
      exact hi g hg
    · intro a ha
      obtain ⟨g, hg, rfl⟩ := List.mem_map.1 ((hM _).subset ha)
      exact hi g hg
    · intro a ha heq
      obtain ⟨g, hg, ha⟩ := List.mem_flatMap.1 ((hY _).subset ha)
      obtain ⟨t, ht, c, hc, j, hj, rfl⟩ := mem_yStores.1 ha
      exact hi g hg (y_addr_inj (chan_lt hb hl ht hc hj) he heq).1

/-! ### The two one-pass launches -/

theorem RunOk.row_lt {r : Run} {bx n : ℕ} (hr : RunOk r bx n) {h : ℕ} (hh : h < n) : r.rowIdx h < n :=
  List.mem_range.1 (hr.rows.subset (List.mem_map_of_mem (List.mem_range.2 hh)))

theorem RunOk.row_surj {r : Run} {bx n : ℕ} (hr : RunOk r bx n) {h : ℕ} (hh : h < n) : ∃ h' < n, r.rowIdx h' = h := by
  obtain ⟨h', h1, h2⟩ := List.mem_map.1 (hr.rows.symm.subset (List.mem_range.2 hh))
  exact ⟨h', List.mem_range.1 h1, h2⟩

theorem RunOk.row_inj {r : Run} {bx n : ℕ} (hr : RunOk r bx n) {h h' : ℕ} (hh : h < n) (hh' : h' < n) (he : r.rowIdx h = r.rowIdx h') : h = h' := by
  have hn : ((List.range n).map r.rowIdx).Nodup := hr.rows.nodup_iff.2 List.nodup_range
  exact List.inj_on_of_nodup_map hn (List.mem_range.2 hh) (List.mem_range.2 hh') he

/-- The points of the rows numbered `lo` to `hi` (exclusive) in the order of the rows. -/
def InRows (r : Run) (p : Params) (B lo hi i : ℕ) : Prop :=
  ∃ b < B, ∃ h, lo ≤ h ∧ h < hi ∧ ∃ wo < p.nlonOut, i = outFlat p b (r.rowIdx h) wo

theorem inRows_lt {r : Run} {p : Params} {bx B lo hi i : ℕ} (hr : RunOk r bx p.nlatOut) (hhi : hi ≤ p.nlatOut) (h : InRows r p B lo hi i) : i < B * p.nlatOut * p.nlonOut := by
  obtain ⟨b, hb, h, -, h2, wo, hw, rfl⟩ := h
  exact outFlat_lt hb (hr.row_lt (by omega)) hw

theorem inRows_all {r : Run} {p : Params} {bx B i : ℕ} (hr : RunOk r bx p.nlatOut) (n : ℕ) (hi : i < B * p.nlatOut * p.nlonOut) :
    InRows r p B 0 n i ∨ InRows r p B n p.nlatOut i := by
  obtain ⟨s1, s2, s3⟩ := packed_split hi
  obtain ⟨t1, t2, t3⟩ := packed_split s1
  obtain ⟨h', h1, h2⟩ := hr.row_surj t2
  have he : i = outFlat p (i / p.nlonOut / p.nlatOut) (r.rowIdx h') (i % p.nlonOut) := by
    rw [outFlat_eq, h2, t3, s3]
  rcases Nat.lt_or_ge h' n with hl | hl
  · exact Or.inl ⟨_, t1, h', by omega, hl, _, s2, he⟩
  · exact Or.inr ⟨_, t1, h', hl, h1, _, s2, he⟩

theorem inRows_disjoint {r : Run} {p : Params} {bx B i n : ℕ} (hr : RunOk r bx p.nlatOut) (h : InRows r p B 0 n i) (h' : InRows r p B n p.nlatOut i) : False := by
  obtain ⟨b, hb, h, -, h2, wo, hw, rfl⟩ := h
  obtain ⟨b', hb', g, g1, g2, wo', hw', he⟩ := h'
  have d1 := (outFlat_decode (p := p) (b := b) (hr.row_lt (h := h) (by omega)) hw).2.1
  have d2 := (outFlat_decode (p := p) (b := b') (hr.row_lt g2) hw').2.1
  rw [he, d2] at d1
  have := hr.row_inj g2 (by omega : h < p.nlatOut) d1
  omega

open Classical in
/-- What a kernel is to do: the points of `S` take up their neighbours, the others keep their accumulators. -/
def Effect (vec : ℕ) (p : Params) (w : ℕ → ℝ) (P : Pattern) (k v q : ℕ → ℝ) (S : ℕ → Prop) (bufs bufs' : Bufs) : Prop :=
  ∀ i, AccEq (p.nco * vec) (accAt (p.nco * vec) bufs' i)
    (if S i then closed (accAt (p.nco * vec) bufs i) (chunkAt vec p w P k v q i) else accAt (p.nco * vec) bufs i)

theorem runGeneric_ok {r : Run} {p : Params} (hr : RunOk r 32 p.nlatOut) (vec : ℕ) {B : ℕ} (w : ℕ → ℝ) (P : Pattern) (k v q : ℕ → ℝ) (bufs : Bufs)
    (hf : fits r.limit (divUp (p.nlatOut * p.nlonOut) 2) B 1 (4 * vec * p.nco * 2) 0) :
    ∃ bufs', runGeneric r vec p B w P k v q bufs = .ok bufs' ∧ Effect vec p w P k v q (fun i => i < B * p.nlatOut * p.nlonOut) bufs bufs' := by
  unfold runGeneric
  dsimp only
  rw [if_pos hf]
  have hl : LocOk 32 none p.nco := fun m hm => by simp at hm
  have hcell : ∀ {wid : ℕ}, wid < p.nlatOut * p.nlonOut → wid / p.nlonOut < p.nlatOut ∧ wid % p.nlonOut < p.nlonOut := fun hw =>
    ⟨(packed_split hw).1, (packed_split hw).2.1⟩
  have hmem : ∀ g ∈ (grid2 B (divUp (p.nlatOut * p.nlonOut) 2) 2).flatMap fun x => genericGroup vec p w P k v q r.rowIdx (r.junk 0 x.1 0 x.2) bufs x.1 x.2,
      g.flat < B * p.nlatOut * p.nlonOut ∧ Agree vec 32 (chans 32 none p.nco) g.thr (closed (accAt (p.nco * vec) bufs g.flat) (chunkAt vec p w P k v q g.flat)) := by
    intro g hg
    obtain ⟨x, hx, hg⟩ := List.mem_flatMap.1 hg
    obtain ⟨b, hb, wid, -, hx⟩ := mem_overGrid.1 hx
    obtain rfl := List.mem_singleton.1 hx
    by_cases hw : wid < p.nlatOut * p.nlonOut
    · obtain ⟨thr, e, hag⟩ := genericGroup_ok vec p w P k v q r.rowIdx (r.junk 0 b 0 wid) bufs (b := b) hw
      dsimp only at hg
      rw [e] at hg
      obtain rfl := List.mem_singleton.1 hg
      have h1 := hr.row_lt (hcell hw).1
      refine ⟨outFlat_lt hb h1 (hcell hw).2, ?_⟩
      dsimp only
      rw [chunkAt_outFlat vec w P k v q h1 (hcell hw).2]
      exact hag
    · dsimp only at hg
      unfold genericGroup at hg
      rw [pointOf_none hw] at hg
      simp at hg
  obtain ⟨bufs', h1, h2, h3⟩ := storeGroups_ok hr.storeY hr.storeA hr.storeM (vec := vec) (cf := ⟨32, 2, none, none, false, 0⟩) (p := p) (by dsimp only; omega) hl B _ bufs
    (fun i => closed (accAt (p.nco * vec) bufs i) (chunkAt vec p w P k v q i)) hmem
  refine ⟨bufs', h1, fun i => ?_⟩
  by_cases hi : i < B * p.nlatOut * p.nlonOut
  · rw [if_pos hi]
    obtain ⟨b, hb, h, -, hh, wo, hw, rfl⟩ : InRows r p B 0 p.nlatOut i := (inRows_all hr p.nlatOut hi).elim id fun ⟨b, _, h, h1, h2, _⟩ => by omega
    have hwid : h * p.nlonOut + wo < p.nlatOut * p.nlonOut := packed_lt hh hw
    obtain ⟨q1, q2⟩ := div_mul_add (a := h) hw
    obtain ⟨thr, e, hag⟩ := genericGroup_ok vec p w P k v q r.rowIdx (r.junk 0 b 0 (h * p.nlonOut + wo)) bufs (b := b) hwid
    rw [q1, q2] at e
    exact h2 ⟨outFlat p b (r.rowIdx h) wo, thr⟩ (List.mem_flatMap.2 ⟨(b, h * p.nlonOut + wo),
      mem_overGrid.2 ⟨b, hb, _, lt_of_lt_of_le hwid (le_divUp_mul (by omega)), List.mem_singleton.2 rfl⟩, by dsimp only; rw [e]; exact List.mem_singleton.2 rfl⟩)
  · rw [if_neg hi]
    exact h3 i fun g hg he => hi (he ▸ (hmem g hg).1)

theorem runSpecial_ok {r : Run} {vec : ℕ} {cf : Config} {p : Params} (hc : CfgOk cf p.nci p.nco) (hr : RunOk r cf.bx p.nlatOut) {B : ℕ} (w : ℕ → ℝ) (P : Pattern)
    (k v q : ℕ → ℝ) (bufs : Bufs) (hn : p.nLong ≤ p.nlatOut) (hmid : ∀ h, p.nLong ≤ h → h < p.nlatOut → P.roff (r.rowIdx h + 1) - P.roff (r.rowIdx h) ≤ p.midLen)
    (hf : p.nLong < p.nlatOut → fits r.limit (divUp ((p.nlatOut - p.nLong) * p.nlonOut) cf.by') B 1 ((4 * vec * p.nci + 8 * p.midLen * 2 + 4 * p.midLen) * cf.by')
      (staticShared cf.bx)) :
    ∃ bufs', runSpecial r vec cf p B w P k v q bufs = .ok bufs' ∧ Effect vec p w P k v q (InRows r p B p.nLong p.nlatOut) bufs bufs' := by
  unfold runSpecial
  by_cases h0 : p.nlatOut - p.nLong = 0
  · rw [if_pos h0]
    refine ⟨bufs, rfl, fun i => ?_⟩
    rw [if_neg]
    · exact AccEq.refl _ _
    · rintro ⟨b, hb, h, h1, h2, -⟩
      omega
  rw [if_neg h0]
  dsimp only
  rw [if_pos (hf (by omega))]
  have hcell : ∀ {wid : ℕ}, wid < (p.nlatOut - p.nLong) * p.nlonOut → wid / p.nlonOut < p.nlatOut - p.nLong ∧ wid % p.nlonOut < p.nlonOut := fun hw =>
    ⟨(packed_split hw).1, (packed_split hw).2.1⟩
  have hgrp : ∀ x : ℕ × ℕ, ∃ gs, specialGroup vec cf p w P k v q r.rowIdx (r.shared 0 x.1 0 x.2) (r.junk 0 x.1 0 x.2) bufs x.1 x.2 = .ok gs ∧
      (¬ x.2 < (p.nlatOut - p.nLong) * p.nlonOut → gs = []) ∧ (x.2 < (p.nlatOut - p.nLong) * p.nlonOut →
      (chunk vec p w P k v q x.1 (r.rowIdx (p.nLong + x.2 / p.nlonOut)) (x.2 % p.nlonOut) = [] ∧ gs = [] ∨
      ∃ thr, gs = [⟨outFlat p x.1 (r.rowIdx (p.nLong + x.2 / p.nlonOut)) (x.2 % p.nlonOut), thr⟩] ∧
      Agree vec cf.bx (chans cf.bx cf.locO p.nco) thr
        (closed (accAt (p.nco * vec) bufs (outFlat p x.1 (r.rowIdx (p.nLong + x.2 / p.nlonOut)) (x.2 % p.nlonOut)))
          (chunk vec p w P k v q x.1 (r.rowIdx (p.nLong + x.2 / p.nlonOut)) (x.2 % p.nlonOut))))) := by
    rintro ⟨b, wid⟩
    by_cases hw : wid < (p.nlatOut - p.nLong) * p.nlonOut
    · obtain ⟨gs, e1, e2⟩ := specialGroup_ok (vec := vec) hc w P k v q r.rowIdx (r.shared 0 b 0 wid) (hr.order 0 b 0 wid) (r.junk 0 b 0 wid) bufs (b := b) hw
        (hmid _ (Nat.le_add_right _ _) (by have := (hcell hw).1; omega))
      exact ⟨gs, e1, fun h => absurd hw h, fun _ => e2⟩
    · refine ⟨[], ?_, fun _ => rfl, fun h => absurd h hw⟩
      unfold specialGroup
      rw [pointOf_none hw]
  choose G g1 g2 g3 using hgrp
  rw [overM_ok (g := G) _ fun x _ => g1 x]
  have hmem : ∀ g ∈ (grid2 B (divUp ((p.nlatOut - p.nLong) * p.nlonOut) cf.by') cf.by').flatMap G,
      g.flat < B * p.nlatOut * p.nlonOut ∧ Agree vec cf.bx (chans cf.bx cf.locO p.nco) g.thr (closed (accAt (p.nco * vec) bufs g.flat) (chunkAt vec p w P k v q g.flat)) ∧
      InRows r p B p.nLong p.nlatOut g.flat := by
    intro g hg
    obtain ⟨x, hx, hg⟩ := List.mem_flatMap.1 hg
    obtain ⟨b, hb, wid, -, hx⟩ := mem_overGrid.1 hx
    obtain rfl := List.mem_singleton.1 hx
    by_cases hw : wid < (p.nlatOut - p.nLong) * p.nlonOut
    · rcases g3 (b, wid) hw with ⟨-, e⟩ | ⟨thr, e, hag⟩
      · rw [e] at hg
        simp at hg
      · rw [e] at hg
        obtain rfl := List.mem_singleton.1 hg
        have h1 := (hcell hw).1
        have h2 := hr.row_lt (show p.nLong + wid / p.nlonOut < p.nlatOut by omega)
        refine ⟨outFlat_lt hb h2 (hcell hw).2, ?_, b, hb, p.nLong + wid / p.nlonOut, Nat.le_add_right _ _, by omega, _, (hcell hw).2, rfl⟩
        dsimp only
        rw [chunkAt_outFlat vec w P k v q h2 (hcell hw).2]
        exact hag
    · rw [g2 (b, wid) hw] at hg
      simp at hg
  obtain ⟨bufs', h1, h2, h3⟩ := storeGroups_ok hr.storeY hr.storeA hr.storeM (vec := vec) (cf := cf) (p := p) hc.grp.1 hc.outC B _ bufs
    (fun i => closed (accAt (p.nco * vec) bufs i) (chunkAt vec p w P k v q i)) fun g hg => ⟨(hmem g hg).1, (hmem g hg).2.1⟩
  refine ⟨bufs', h1, fun i => ?_⟩
  by_cases hi : InRows r p B p.nLong p.nlatOut i
  · rw [if_pos hi]
    obtain ⟨b, hb, h, hh1, hh2, wo, hw, rfl⟩ := hi
    have hwid : (h - p.nLong) * p.nlonOut + wo < (p.nlatOut - p.nLong) * p.nlonOut := packed_lt (by omega) hw
    obtain ⟨q1, q2⟩ := div_mul_add (a := h - p.nLong) hw
    have e := g3 (b, (h - p.nLong) * p.nlonOut + wo) hwid
    dsimp only at e
    rw [q1, q2, show p.nLong + (h - p.nLong) = h by omega] at e
    have hin : (b, (h - p.nLong) * p.nlonOut + wo) ∈ grid2 B (divUp ((p.nlatOut - p.nLong) * p.nlonOut) cf.by') cf.by' :=
      mem_overGrid.2 ⟨b, hb, _, lt_of_lt_of_le hwid (le_divUp_mul hc.rows), List.mem_singleton.2 rfl⟩
    rcases e with ⟨e1, e2⟩ | ⟨thr, e1, e2⟩
    · rw [chunkAt_outFlat vec w P k v q (hr.row_lt hh2) hw, e1, closed_nil]
      by_cases hex : ∃ g ∈ (grid2 B (divUp ((p.nlatOut - p.nLong) * p.nlonOut) cf.by') cf.by').flatMap G, g.flat = outFlat p b (r.rowIdx h) wo
      · obtain ⟨g, hg, he⟩ := hex
        have := h2 g hg
        rw [he, chunkAt_outFlat vec w P k v q (hr.row_lt hh2) hw, e1, closed_nil] at this
        exact this
      · exact h3 _ fun g hg he => hex ⟨g, hg, he⟩
    · exact h2 ⟨outFlat p b (r.rowIdx h) wo, thr⟩ (List.mem_flatMap.2 ⟨_, hin, by rw [e1]; exact List.mem_singleton.2 rfl⟩)
  · rw [if_neg hi]
    exact h3 i fun g hg he => hi (he ▸ (hmem g hg).2.2)

end Verif.RingGpu
