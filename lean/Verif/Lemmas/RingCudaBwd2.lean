import Verif.Model.RingCudaBwd2
import Verif.Lemmas.RingCudaBwdStep
import Verif.Lemmas.AttentionCudaBwdGather
/-!
The second backward pass of one step of the ring: what the groups add.
-/
namespace Verif.RingGpu
open Verif Verif.Attn Verif.Spec.Attn Verif.AttnGpu Verif.Ring Finset Verif.Spec.RingStep

/-! ### The neighbours -/

/-- The cell of the block that a neighbour lies in, counted through the batch. -/
def cellNo (p : Params) (b : ℕ) (u : ℕ × ℕ) : ℕ := (b * p.nlatHalo + ((u.1 : ℤ) - p.start).toNat) * p.nlonKx + (u.2 - p.lonLo)

/-- A neighbour as the kernels keep it. -/
def nbrEntry (p : Params) (w : ℕ → ℝ) (b : ℕ) (u : ℕ × ℕ) : Entry := ⟨cellNo p b u * p.nci, cellNo p b u * p.nco, w u.1⟩

theorem cellNo_lt {p : Params} {B b : ℕ} {u : ℕ × ℕ} (hb : b < B) (hu : (blockOf p).Has u) : cellNo p b u < B * p.nlatHalo * p.nlonKx := by
  obtain ⟨a1, a2, a3, a4⟩ := hu
  dsimp only [blockOf] at a1 a2 a3 a4
  exact packed_lt (packed_lt hb (by omega)) (by omega)

theorem entry_some (p : Params) (w : ℕ → ℝ) (P : Pattern) (b wo z : ℕ) :
    entry p w P b wo z = if (blockOf p).Has (P.col z / p.nlonIn, (P.col z % p.nlonIn + p.pscale * wo) % p.nlonIn) then
      some (nbrEntry p w b (P.col z / p.nlonIn, (P.col z % p.nlonIn + p.pscale * wo) % p.nlonIn)) else none := by
  unfold entry
  dsimp only
  rw [sub_div_mul, sub_div_mul]
  by_cases h3 : (blockOf p).Has (P.col z / p.nlonIn, (P.col z % p.nlonIn + p.pscale * wo) % p.nlonIn)
  · rw [if_pos h3]
    obtain ⟨a1, a2, a3, a4⟩ := h3
    dsimp only [blockOf] at a1 a2 a3 a4
    rw [if_pos ⟨a3, a4⟩, if_pos ⟨by omega, by omega⟩]
    unfold nbrEntry cellNo
    dsimp only
    congr 2 <;> ring
  · rw [if_neg h3]
    split_ifs with h4 h5
    · exact absurd ⟨by show p.start ≤ _; omega, by show _ < p.start + (p.nlatHalo : ℤ); omega, h4.1, h4.2⟩ h3
    · rfl
    · rfl

theorem entries_nbrs (p : Params) (w : ℕ → ℝ) (P : Pattern) (b ho wo : ℕ) :
    (P.row ho).filterMap (entry p w P b wo) = (nbrsIn (blockOf p) P p.nlonIn p.pscale ho wo).map (nbrEntry p w b) := by
  unfold nbrsIn gatherNbrs
  generalize P.row ho = R
  induction R with
  | nil => rfl
  | cons z R ih =>
    have hh := entry_some p w P b wo z
    rw [List.map_cons, List.filter_cons]
    by_cases h3 : (blockOf p).Has (P.col z / p.nlonIn, (P.col z % p.nlonIn + p.pscale * wo) % p.nlonIn)
    · rw [if_pos (by simpa using h3), List.map_cons, ← ih]
      rw [if_pos h3] at hh
      rw [List.filterMap_cons_some hh]
    · rw [if_neg (by simpa using h3), ← ih]
      rw [if_neg h3] at hh
      rw [List.filterMap_cons_none hh]

/-- An entry of the pattern whose longitude is in the block has its row in the block or just before it. -/
def RowNear (p : Params) (u : ℕ × ℕ) : Prop := p.lonLo ≤ u.2 → u.2 < p.lonLo + p.nlonKx → p.start - 1 ≤ u.1 ∧ (u.1 : ℤ) < p.start + p.nlatHalo

theorem slot_eq (p : Params) (w : ℕ → ℝ) (P : Pattern) (wo z : ℕ) :
    slot p w P wo z = if p.lonLo ≤ (P.col z % p.nlonIn + p.pscale * wo) % p.nlonIn ∧ (P.col z % p.nlonIn + p.pscale * wo) % p.nlonIn < p.lonLo + p.nlonKx then
      if ((P.col z / p.nlonIn : ℕ) : ℤ) - p.start = -1 then none
      else if 0 ≤ ((P.col z / p.nlonIn : ℕ) : ℤ) - p.start ∧ ((P.col z / p.nlonIn : ℕ) : ℤ) - p.start < p.nlatHalo then
        some ⟨((P.col z / p.nlonIn : ℕ) : ℤ) - p.start, (((P.col z % p.nlonIn + p.pscale * wo) % p.nlonIn : ℕ) : ℤ) - p.lonLo, w (P.col z / p.nlonIn)⟩
      else some ⟨((P.col z / p.nlonIn : ℕ) : ℤ) - p.start, -1, 0⟩
    else none := by
  unfold slot
  dsimp only
  rw [sub_div_mul, sub_div_mul]

theorem place_slot {p : Params} {B b : ℕ} (hb : b < B) (w : ℕ → ℝ) (P : Pattern) (wo z : ℕ)
    (hz : RowNear p (P.col z / p.nlonIn, (P.col z % p.nlonIn + p.pscale * wo) % p.nlonIn)) :
    (slot p w P wo z = none ∧ entry p w P b wo z = none) ∨ ∃ s e, slot p w P wo z = some s ∧ entry p w P b wo z = some e ∧ place p B b s = .ok [e] := by
  rw [slot_eq, entry_some]
  unfold RowNear at hz
  dsimp only at hz
  generalize P.col z / p.nlonIn = hi at *
  generalize (P.col z % p.nlonIn + p.pscale * wo) % p.nlonIn = wi at *
  by_cases h1 : p.lonLo ≤ wi ∧ wi < p.lonLo + p.nlonKx
  · obtain ⟨n1, n2⟩ := hz h1.1 h1.2
    rw [if_pos h1]
    by_cases h2 : (hi : ℤ) - p.start = -1
    · left
      rw [if_pos h2, if_neg]
      · exact ⟨rfl, rfl⟩
      · rintro ⟨a1, -, -, -⟩
        dsimp only [blockOf] at a1
        omega
    · right
      have hh : (blockOf p).Has (hi, wi) := ⟨by show p.start ≤ (hi : ℤ); omega, by show (hi : ℤ) < p.start + p.nlatHalo; omega, h1.1, h1.2⟩
      rw [if_neg h2, if_pos ⟨by omega, by omega⟩, if_pos hh]
      refine ⟨_, _, rfl, rfl, ?_⟩
      have hlt := cellNo_lt hb hh
      have hc : (b : ℤ) * p.nlatHalo * p.nlonKx + ((hi : ℤ) - p.start) * p.nlonKx + ((wi : ℤ) - p.lonLo) = (cellNo p b (hi, wi) : ℕ) := by
        unfold cellNo
        dsimp only
        push_cast
        rw [Int.toNat_of_nonneg (by omega), Nat.cast_sub h1.1]
        ring
      unfold place
      dsimp only
      rw [hc, if_pos ⟨by positivity, by exact_mod_cast hlt⟩, Int.toNat_natCast]
      rfl
  · left
    rw [if_neg h1, if_neg]
    · exact ⟨rfl, rfl⟩
    · rintro ⟨-, -, a3, a4⟩
      exact h1 ⟨a3, a4⟩

/-- The slots of entries near the block name the neighbours. -/
theorem place_all {p : Params} {B b : ℕ} (hb : b < B) (w : ℕ → ℝ) (P : Pattern) (wo : ℕ) (L : List ℕ)
    (hL : ∀ z ∈ L, RowNear p (P.col z / p.nlonIn, (P.col z % p.nlonIn + p.pscale * wo) % p.nlonIn)) :
    overM (place p B b) (L.filterMap (slot p w P wo)) = .ok (L.filterMap (entry p w P b wo)) := by
  induction L with
  | nil => rfl
  | cons z L ih =>
    have := ih fun z hz => hL z (List.mem_cons_of_mem _ hz)
    rcases place_slot hb w P wo z (hL z List.mem_cons_self) with ⟨h1, h2⟩ | ⟨s, e, h1, h2, h3⟩
    · rw [List.filterMap_cons_none h1, List.filterMap_cons_none h2, this]
    · rw [List.filterMap_cons_some h1, List.filterMap_cons_some h2]
      unfold overM
      rw [h3]
      dsimp only
      rw [this]
      rfl

/-! ### One group -/

/-- The softmax weight of a neighbour. -/
noncomputable def wOf (vec : ℕ) (p : Params) (x : BIn) (st : BStats) (b ho wo : ℕ) (e : Entry) : ℝ :=
  Real.exp ((∑ c ∈ range (p.nci * vec), x.q (vec * queryAt p b ho wo + c) * x.k (vec * e.ka + c)) - (st.qmax (outFlat p b ho wo)).getD 0) * e.w * (1 / st.alpha (outFlat p b ho wo))

/-- Query and output gradient as the threads of a group have them. -/
structure Views (vec : ℕ) (cf : Config) (whole : Bool) (p : Params) (x : BIn) (b ho wo : ℕ) (qv qs gs : ℕ → ℕ → ℕ → ℝ) : Prop where
  own1 : ∀ t < cf.bx, ∀ c ∈ chans cf.bx cf.locI p.nci t, ∀ j < vec, qv t c j = x.q (vec * queryAt p b ho wo + (c * vec + j))
  own2 : ∀ t < cf.bx, ∀ c ∈ chans cf.bx cf.locI p.nci t, ∀ j < vec, qs t c j = x.q (vec * queryAt p b ho wo + (c * vec + j))
  own3 : ∀ t < cf.bx, ∀ c ∈ chans cf.bx cf.locO p.nco t, ∀ j < vec, gs t c j = x.dy (vec * gradAt p b ho wo + (c * vec + j))
  flatQ : whole = false → ∀ t < cf.bx, ∀ e ∈ Disco.strided cf.bx (p.nci * vec) t, qs t (e / vec) (e % vec) = x.q (vec * queryAt p b ho wo + e)
  flatG : whole = false → ∀ t < cf.bx, ∀ e ∈ Disco.strided cf.bx (p.nco * vec) t, gs t (e / vec) (e % vec) = x.dy (vec * gradAt p b ho wo + e)

section
variable {vec : ℕ} {cf : Config} {whole : Bool} {p : Params} {x : BIn} {b ho wo : ℕ} {qv qs gs : ℕ → ℕ → ℕ → ℝ}

theorem alphaMul_eq (hc : CfgOk cf p.nci p.nco) (h : Views vec cf whole p x b ho wo qv qs gs) (st : BStats) (e : Entry) {t : ℕ} (ht : t < cf.bx) :
    alphaMul vec cf.bx (chans cf.bx cf.locI p.nci) qv x.k st (outFlat p b ho wo) e t = wOf vec p x st b ho wo e := by
  unfold alphaMul wOf
  rw [score_eq hc.grp hc.inC qv x.k x.v (fun c => x.q (vec * queryAt p b ho wo + c)) h.own1 e ht]
  rfl

/-- What a group adds to the gradient of the keys. -/
theorem addLoop_k (hc : CfgOk cf p.nci p.nco) (h : Views vec cf whole p x b ho wo qv qs gs) (st : BStats) (es : List Entry) (y : ℕ) :
    Disco.addsAt (addLoop vec cf whole p x st qv qs gs (outFlat p b ho wo) es).k y
      = (es.map fun e => ∑ i ∈ range (p.nci * vec), if vec * e.ka + i = y then
        (gradOf vec p x b ho wo e - st.inorm (outFlat p b ho wo)) * wOf vec p x st b ho wo e * x.q (vec * queryAt p b ho wo + i) else 0).sum := by
  unfold addLoop
  dsimp only
  rw [addsAt_flatMap]
  refine list_sum_congr fun e _ => ?_
  refine addsAt_addOps hc.grp.1 hc.inC _ (fun t ht => ?_) (fun i => x.q (vec * queryAt p b ho wo + i)) h.own2 h.flatQ y
  rw [alphaMul_eq hc h st e ht, gradDot_eq hc.grp hc.outC gs x.v (fun c => x.dy (vec * gradAt p b ho wo + c)) h.own3 e ht]
  rfl

/-- What a group adds to the gradient of the values. -/
theorem addLoop_v (hc : CfgOk cf p.nci p.nco) (h : Views vec cf whole p x b ho wo qv qs gs) (st : BStats) (es : List Entry) (y : ℕ) :
    Disco.addsAt (addLoop vec cf whole p x st qv qs gs (outFlat p b ho wo) es).v y
      = (es.map fun e => ∑ i ∈ range (p.nco * vec), if vec * e.va + i = y then wOf vec p x st b ho wo e * x.dy (vec * gradAt p b ho wo + i) else 0).sum := by
  unfold addLoop
  dsimp only
  rw [addsAt_flatMap]
  refine list_sum_congr fun e _ => ?_
  exact addsAt_addOps hc.grp.1 hc.outC _ (fun t ht => alphaMul_eq hc h st e ht) (fun i => x.dy (vec * gradAt p b ho wo + i)) h.own3 h.flatG y

theorem addLoop_in (hc : CfgOk cf p.nci p.nco) (st : BStats) {flat n : ℕ} {es : List Entry} (hes : ∀ e ∈ es, ∃ i < n, e.ka = i * p.nci ∧ e.va = i * p.nco) :
    (∀ a ∈ (addLoop vec cf whole p x st qv qs gs flat es).k, a.1 < n * (p.nci * vec)) ∧ ∀ a ∈ (addLoop vec cf whole p x st qv qs gs flat es).v, a.1 < n * (p.nco * vec) := by
  unfold addLoop
  dsimp only
  constructor
  all_goals
    intro a ha
    obtain ⟨e, he, ha⟩ := List.mem_flatMap.1 ha
    obtain ⟨i, hi, e1, e2⟩ := hes e he
  · obtain ⟨j, hj, ea⟩ := mem_addOps hc.grp.1 hc.inC ha
    rw [ea, e1, show vec * (i * p.nci) + j = i * (p.nci * vec) + j by ring]
    exact packed_lt hi hj
  · obtain ⟨j, hj, ea⟩ := mem_addOps hc.grp.1 hc.outC ha
    rw [ea, e2, show vec * (i * p.nco) + j = i * (p.nco * vec) + j by ring]
    exact packed_lt hi hj

theorem stage_own {loc : Option ℕ} {bx n : ℕ} (hb : 0 < bx) (hl : LocOk bx loc n) (sync : Bool) (a : ℕ → ℝ) (base : ℕ) (junk : ℕ → ℕ → ℕ → ℝ) {t c j : ℕ} (ht : t < bx)
    (hcc : c ∈ chans bx loc n t) : stageView vec bx sync (chans bx loc n) a base junk t c j = a (vec * base + (c * vec + j)) := by
  rw [stageView_own hb hl sync a base junk ht hcc]
  unfold vload
  congr 1
  ring

theorem views_special (hc : CfgOk cf p.nci p.nco) (hv : vec = 1 ∨ vec = 4) (wide : Bool) (x : BIn) (m : AddMem) (b ho wo : ℕ) :
    Views vec cf (!bwdSync wide vec) p x b ho wo (staged vec (chans cf.bx cf.locI p.nci) x.q (queryAt p b ho wo) m.regs)
      (stageView vec cf.bx (bwdSync wide vec) (chans cf.bx cf.locI p.nci) x.q (queryAt p b ho wo) m.query)
      (stageView vec cf.bx (bwdSync wide vec) (chans cf.bx cf.locO p.nco) x.dy (gradAt p b ho wo) m.grad) := by
  have hw : (!bwdSync wide vec) = false → wide = false := by
    unfold bwdSync
    cases wide <;> simp
  refine ⟨fun t _ c hcc j _ => staged_eq hc.grp x.q _ _ hcc, fun t ht c hcc j _ => stage_own hc.grp.1 hc.inC _ _ _ _ ht hcc,
    fun t ht c hcc j _ => stage_own hc.grp.1 hc.outC _ _ _ _ ht hcc, fun h t ht e he => ?_, fun h t ht e he => ?_⟩
  · rw [hw h]
    exact stageView_flat hc.grp.1 hc.inC hv _ _ _ ht he
  · rw [hw h]
    exact stageView_flat hc.grp.1 hc.outC hv _ _ _ ht he

theorem views_generic (hv : vec = 1 ∨ vec = 4) (wide : Bool) (p : Params) (x : BIn) (m : AddMem) (b ho wo : ℕ) :
    Views vec ⟨32, 2, none, none, false, 0⟩ wide p x b ho wo (stageView vec 32 (bwdSync wide vec) (chans 32 none p.nci) x.q (queryAt p b ho wo) m.query)
      (stageView vec 32 (bwdSync wide vec) (chans 32 none p.nci) x.q (queryAt p b ho wo) m.query)
      (stageView vec 32 (bwdSync wide vec) (chans 32 none p.nco) x.dy (gradAt p b ho wo) m.grad) := by
  have h0 : 0 < 32 := by norm_num
  refine ⟨fun t ht c hcc j _ => stage_own h0 (locOk_none _ _) _ _ _ _ ht hcc, fun t ht c hcc j _ => stage_own h0 (locOk_none _ _) _ _ _ _ ht hcc,
    fun t ht c hcc j _ => stage_own h0 (locOk_none _ _) _ _ _ _ ht hcc, fun h t ht e he => ?_, fun h t ht e he => ?_⟩
  · rw [h]
    exact stageView_flat h0 (locOk_none _ _) hv _ _ _ ht he
  · rw [h]
    exact stageView_flat h0 (locOk_none _ _) hv _ _ _ ht he

end

end Verif.RingGpu
