import Verif.Lemmas.RingCudaLong
import Verif.Spec.RingCudaBwd
/-!
The first backward pass of the ring step, seen as two forward steps: sum of the weights and `alpha_k` are what a forward step makes of the keys as values; integral and
`alpha_kvw` are what it makes of them when the weight of a neighbour is multiplied by its product of output gradient and value.
-/
namespace Verif.RingGpu
open Verif Verif.Attn Verif.Spec.Attn Verif.AttnGpu Verif.Ring Finset

/-- One of the two halves of the registers of a thread. -/
def BThr.half (two : Bool) (s : BThr) : Thr := ⟨cond two s.integral s.alpha, s.qmax, cond two s.kvw s.kacc⟩

/-- One of the two halves of the accumulators. -/
def BBufs.half (two : Bool) (s : BBufs) : Bufs := ⟨cond two s.kvw s.kacc, cond two s.integral s.alpha, s.qmax⟩

/-- The orders of one half. -/
def BRun.half (two : Bool) (r : BRun) : Run :=
  { r.toRun with
    storeY := cond two r.storeW r.storeY
    storeA := cond two r.storeI r.storeA
    addY := cond two r.addW r.addY
    addA := cond two r.addI r.addA }

/-- Keys in the role of values. -/
def keyed (p : Params) : Params := { p with nco := p.nci }

/-- See `keyed`. -/
def keyedCfg (cf : Config) : Config := { cf with locO := cf.locI }

/-- A neighbour of one half. -/
def keyEntry (two : Bool) (G : Entry → ℝ) (e : Entry) : Entry := ⟨e.ka, e.ka, cond two (e.w * G e) e.w⟩

theorem BRunOk.half {r : BRun} {bx n : ℕ} (h : BRunOk r bx n) (two : Bool) : RunOk (r.half two) bx n := by
  cases two
  · exact ⟨h.rows, h.order, h.storeY, h.storeA, h.storeM, h.maxM, h.addY, h.addA⟩
  · exact ⟨h.rows, h.order, h.storeW, h.storeI, h.storeM, h.maxM, h.addW, h.addI⟩

theorem keyedCfg_ok {cf : Config} {nci nco : ℕ} (h : CfgOk cf nci nco) : CfgOk (keyedCfg cf) nci nci := ⟨h.grp, h.rows, h.inC, h.inC⟩

/-! ### The threads -/

theorem half_online (two : Bool) {vec bx : ℕ} (chI chO : ℕ → List ℕ) (qv gv : ℕ → ℕ → ℕ → ℝ) (k v : ℕ → ℝ) (G : Entry → ℝ) {t : ℕ}
    (hG : ∀ e, gradDot vec bx chO gv v e t = G e) (es : List Entry) (s : ℕ → BThr) :
    BThr.half two (es.foldl (bOnlineThr vec bx chI chO qv gv k v) s t)
      = (es.map (keyEntry two G)).foldl (onlineThr vec bx chI chI qv k k) (fun t => BThr.half two (s t)) t := by
  induction es using List.reverseRecOn with
  | nil => rfl
  | append_singleton es e ih =>
    rw [List.foldl_append, List.map_append, List.foldl_append]
    generalize es.foldl (bOnlineThr vec bx chI chO qv gv k v) s = S at *
    generalize (es.map (keyEntry two G)).foldl (onlineThr vec bx chI chI qv k k) (fun t => BThr.half two (s t)) = S' at *
    rw [List.map_cons, List.map_nil, List.foldl_cons, List.foldl_nil, List.foldl_cons, List.foldl_nil]
    unfold onlineThr bOnlineThr
    dsimp only
    rw [← ih, hG]
    have hs : score vec bx chI qv k (keyEntry two G e) t = score vec bx chI qv k e t := rfl
    rw [hs]
    generalize score vec bx chI qv k e t = x
    cases two
    · unfold BThr.half keyEntry
      dsimp only [cond_false]
      rw [add_comm]
    · unfold BThr.half keyEntry
      dsimp only [cond_true]
      rw [add_comm]
      simp only [mul_assoc]

theorem half_add (two : Bool) {vec bx : ℕ} (chI chO : ℕ → List ℕ) (qv gv : ℕ → ℕ → ℕ → ℝ) (k v : ℕ → ℝ) (G : Entry → ℝ) {t : ℕ}
    (hG : ∀ e, gradDot vec bx chO gv v e t = G e) (m : Option ℝ) (es : List Entry) (s : ℕ → BThr) :
    BThr.half two (es.foldl (bAddThr vec bx chI chO qv gv k v m) s t)
      = (es.map (keyEntry two G)).foldl (addThr vec bx chI chI qv k k m) (fun t => BThr.half two (s t)) t := by
  induction es using List.reverseRecOn with
  | nil => rfl
  | append_singleton es e ih =>
    rw [List.foldl_append, List.map_append, List.foldl_append]
    generalize es.foldl (bAddThr vec bx chI chO qv gv k v m) s = S at *
    generalize (es.map (keyEntry two G)).foldl (addThr vec bx chI chI qv k k m) (fun t => BThr.half two (s t)) = S' at *
    rw [List.map_cons, List.map_nil, List.foldl_cons, List.foldl_nil, List.foldl_cons, List.foldl_nil]
    unfold addThr bAddThr
    dsimp only
    rw [← ih, hG]
    have hs : score vec bx chI qv k (keyEntry two G e) t = score vec bx chI qv k e t := rfl
    rw [hs]
    generalize score vec bx chI qv k e t = x
    cases two
    · rfl
    · unfold BThr.half keyEntry
      dsimp only [cond_true]
      simp only [mul_assoc]

theorem gradDot_eq {vec bx nco : ℕ} {loc : Option ℕ} (hg : GroupOk bx) (hl : LocOk bx loc nco) (gv : ℕ → ℕ → ℕ → ℝ) (v : ℕ → ℝ) (D : ℕ → ℝ)
    (hD : ∀ t < bx, ∀ c ∈ chans bx loc nco t, ∀ j < vec, gv t c j = D (c * vec + j)) (e : Entry) {t : ℕ} (ht : t < bx) :
    gradDot vec bx (chans bx loc nco) gv v e t = ∑ c ∈ range (nco * vec), D c * v (vec * e.va + c) := by
  unfold gradDot
  rw [groupSum_eq hg _ ht, sum_dotPart hg.1 hl gv v e.va D hD]

/-! ### The points of a chunk -/

/-- The product of the output gradient with the value of a neighbour. -/
def gradOf (vec : ℕ) (p : Params) (x : BIn) (b ho wo : ℕ) (e : Entry) : ℝ :=
  ∑ c ∈ range (p.nco * vec), x.dy (vec * gradAt p b ho wo + c) * x.v (vec * e.va + c)

/-- The neighbour an entry stands for, in one half. -/
def bPtOf (two : Bool) (vec : ℕ) (p : Params) (x : BIn) (b ho wo : ℕ) (e : Entry) : Pt :=
  ptOf vec p.nci x.k x.k (fun c => x.q (vec * queryAt p b ho wo + c)) (keyEntry two (gradOf vec p x b ho wo) e)

/-- The neighbours of a point in the chunk. -/
def bChunk (two : Bool) (vec : ℕ) (p : Params) (x : BIn) (b ho wo : ℕ) : List Pt :=
  ((x.P.row ho).filterMap (entry p x.w x.P b wo)).map (bPtOf two vec p x b ho wo)

/-- The neighbours of the point with number `i`. -/
def bChunkAt (two : Bool) (vec : ℕ) (p : Params) (x : BIn) (i : ℕ) : List Pt :=
  bChunk two vec p x (i / p.nlonOut / p.nlatOut) (i / p.nlonOut % p.nlatOut) (i % p.nlonOut)

/-- The neighbours that part `s` of a row has in the chunk. -/
def bChunkSplit (two : Bool) (vec : ℕ) (p : Params) (x : BIn) (cpr b ho wo s : ℕ) : List Pt :=
  ((splitIdx (x.P.roff (ho + 1) - x.P.roff ho) cpr s).filterMap fun i => entry p x.w x.P b wo (x.P.roff ho + i)).map (bPtOf two vec p x b ho wo)

theorem bChunkAt_outFlat (two : Bool) (vec : ℕ) {p : Params} (x : BIn) {b ho wo : ℕ} (hh : ho < p.nlatOut) (hw : wo < p.nlonOut) :
    bChunkAt two vec p x (outFlat p b ho wo) = bChunk two vec p x b ho wo := by
  obtain ⟨h1, h2, h3⟩ := outFlat_decode (b := b) hh hw
  unfold bChunkAt
  rw [h1, h2, h3]

theorem row_entries (p : Params) (x : BIn) (b ho wo : ℕ) :
    (List.range (x.P.roff (ho + 1) - x.P.roff ho)).filterMap (fun i => entry p x.w x.P b wo (x.P.roff ho + i)) = (x.P.row ho).filterMap (entry p x.w x.P b wo) := by
  rw [row_eq, List.filterMap_map]
  rfl

theorem bChunkSplit_perm (two : Bool) (vec : ℕ) (p : Params) (x : BIn) {cpr : ℕ} (hc : 0 < cpr) (b ho wo : ℕ) :
    ((List.range cpr).flatMap (bChunkSplit two vec p x cpr b ho wo)).Perm (bChunk two vec p x b ho wo) := by
  unfold bChunk
  rw [← row_entries]
  have := ((splitIdx_perm hc (x.P.roff (ho + 1) - x.P.roff ho)).filterMap fun i => entry p x.w x.P b wo (x.P.roff ho + i)).map (bPtOf two vec p x b ho wo)
  rw [List.filterMap_flatMap, List.map_flatMap] at this
  exact this

theorem phaseMax_half (two : Bool) (vec : ℕ) (p : Params) (x : BIn) (b ho wo : ℕ) (m : Option ℝ) (es : List Entry) :
    phaseMax m (es.map (bPtOf two vec p x b ho wo)) = phaseMax m (es.map (bPtOf false vec p x b ho wo)) := by
  unfold phaseMax
  rw [List.foldl_map, List.foldl_map]
  rfl

/-! ### The groups -/

/-- The threads of a one-pass kernel after all neighbours. -/
theorem agree_bOnline (two : Bool) {vec bx : ℕ} {loc loc' : Option ℕ} {p : Params} (hg : GroupOk bx) (hl : LocOk bx loc p.nci) (hl' : LocOk bx loc' p.nco) (x : BIn) (b ho wo : ℕ)
    (qv gv : ℕ → ℕ → ℕ → ℝ) (hQ : ∀ t < bx, ∀ c ∈ chans bx loc p.nci t, ∀ j < vec, qv t c j = x.q (vec * queryAt p b ho wo + (c * vec + j)))
    (hD : ∀ t < bx, ∀ c ∈ chans bx loc' p.nco t, ∀ j < vec, gv t c j = x.dy (vec * gradAt p b ho wo + (c * vec + j))) (es : List Entry) (bufs : BBufs) (i : ℕ) (jk jw : ℕ → ℕ → ℕ → ℝ) :
    Agree vec bx (chans bx loc p.nci)
      (fun t => BThr.half two (es.foldl (bOnlineThr vec bx (chans bx loc p.nci) (chans bx loc' p.nco) qv gv x.k x.v) (bLoadThr vec (chans bx loc p.nci) p bufs i jk jw) t))
      (closed (accAt (p.nci * vec) (bufs.half two) i) (es.map (bPtOf two vec p x b ho wo))) := by
  have hload : (fun t => BThr.half two (bLoadThr vec (chans bx loc p.nci) p bufs i jk jw t)) = loadThr vec (chans bx loc p.nci) (keyed p) (bufs.half two) i (cond two jw jk) := by
    cases two <;> rfl
  have := agree_online (loc' := loc) hg hl qv x.k x.k (fun c => x.q (vec * queryAt p b ho wo + c)) hQ (es.map (keyEntry two (gradOf vec p x b ho wo)))
    (agree_load (vec := vec) (bx := bx) hg.1 (loc := loc) (keyed p) (bufs.half two) i (cond two jw jk))
  rw [foldl_onePass, List.map_map] at this
  intro t ht
  dsimp only
  rw [half_online two _ _ qv gv x.k x.v (gradOf vec p x b ho wo) (fun e => gradDot_eq hg hl' gv x.v (fun c => x.dy (vec * gradAt p b ho wo + c)) hD e ht), hload]
  exact this t ht

theorem bGenericGroup_ok (vec : ℕ) (p : Params) (x : BIn) (rowIdx : ℕ → ℕ) (junk : BJunk) (bufs : BBufs) {b wid : ℕ} (hw : wid < p.nlatOut * p.nlonOut) :
    ∃ thr, bGenericGroup vec p x rowIdx junk bufs b wid = [⟨outFlat p b (rowIdx (wid / p.nlonOut)) (wid % p.nlonOut), thr⟩] ∧
      ∀ two, Agree vec 32 (chans 32 none p.nci) (fun t => BThr.half two (thr t))
        (closed (accAt (p.nci * vec) (bufs.half two) (outFlat p b (rowIdx (wid / p.nlonOut)) (wid % p.nlonOut)))
          (bChunk two vec p x b (rowIdx (wid / p.nlonOut)) (wid % p.nlonOut))) := by
  unfold bGenericGroup
  rw [pointOf_some hw, Nat.zero_add]
  have hg : GroupOk 32 := ⟨by omega, by omega, by omega⟩
  refine ⟨_, rfl, fun two => ?_⟩
  exact agree_bOnline two hg (fun m hm => by simp at hm) (fun m hm => by simp at hm) x b _ _ _ _ (fun t _ c _ j _ => by unfold vload; congr 1; ring)
    (fun t _ c hcc j _ => staged_eq hg x.dy _ _ hcc) _ bufs _ junk.kacc junk.kvw

theorem bSpecialGroup_ok {vec : ℕ} {cf : Config} {p : Params} (hc : CfgOk cf p.nci p.nco) (x : BIn) (rowIdx : ℕ → ℕ) (sh : Shared)
    (ho : ∀ i, (sh.order i).Perm (List.range cf.bx)) (junk : BJunk) (bufs : BBufs) {b wid : ℕ} (hw : wid < (p.nlatOut - p.nLong) * p.nlonOut)
    (hrow : x.P.roff (rowIdx (p.nLong + wid / p.nlonOut) + 1) - x.P.roff (rowIdx (p.nLong + wid / p.nlonOut)) ≤ p.midLen) :
    ∃ thr, bSpecialGroup vec cf p x rowIdx sh junk bufs b wid = .ok [⟨outFlat p b (rowIdx (p.nLong + wid / p.nlonOut)) (wid % p.nlonOut), thr⟩] ∧
      ∀ two, Agree vec cf.bx (chans cf.bx cf.locI p.nci) (fun t => BThr.half two (thr t))
        (closed (accAt (p.nci * vec) (bufs.half two) (outFlat p b (rowIdx (p.nLong + wid / p.nlonOut)) (wid % p.nlonOut)))
          (bChunk two vec p x b (rowIdx (p.nLong + wid / p.nlonOut)) (wid % p.nlonOut))) := by
  unfold bSpecialGroup
  rw [pointOf_some hw]
  generalize rowIdx (p.nLong + wid / p.nlonOut) = h at *
  generalize wid % p.nlonOut = wo
  dsimp only
  obtain ⟨es, e1, e2⟩ := collectAll_ok hc.grp (fun i => entry p x.w x.P b wo (x.P.roff h + i)) ho sh.entries hrow
  rw [row_entries] at e1 e2
  rw [e1]
  dsimp only
  refine ⟨_, rfl, fun two => ?_⟩
  rw [e2]
  exact agree_bOnline two hc.grp hc.inC hc.outC x b h wo _ _ (fun t _ c hcc j _ => staged_eq hc.grp x.q _ _ hcc) (fun t _ c hcc j _ => staged_eq hc.grp x.dy _ _ hcc) _ bufs _
    junk.kacc junk.kvw

theorem bSoftmaxGroup_ok {vec : ℕ} {cf : Config} {p : Params} (hc : CfgOk cf p.nci p.nco) (x : BIn) (rowIdx : ℕ → ℕ) {cpr : ℕ} (hcp : 0 < cpr) (sh : Shared)
    (ho : ∀ i, (sh.order i).Perm (List.range cf.bx)) (prev : ℕ → Option ℝ) {b split wid : ℕ} (hw : wid < p.nLong * p.nlonOut)
    (hrow : x.P.roff (rowIdx (wid / p.nlonOut) + 1) - x.P.roff (rowIdx (wid / p.nlonOut)) ≤ p.maxLen) :
    bSoftmaxGroup vec cf p x rowIdx cpr sh prev b split wid
      = .ok [(outFlat p b (rowIdx (wid / p.nlonOut)) (wid % p.nlonOut), phaseMax (prev (outFlat p b (rowIdx (wid / p.nlonOut)) (wid % p.nlonOut)))
        (bChunkSplit false vec p x cpr b (rowIdx (wid / p.nlonOut)) (wid % p.nlonOut) split))] := by
  unfold bSoftmaxGroup
  rw [pointOf_some hw, Nat.zero_add]
  generalize rowIdx (wid / p.nlonOut) = h at *
  generalize wid % p.nlonOut = wo
  dsimp only
  obtain ⟨n, es, e1, e2⟩ := collectSplit_ok hc.grp p x.w x.P hcp sh ho b h wo split hrow
  rw [e1]
  dsimp only
  rw [e2]
  congr 3
  unfold phaseMax bChunkSplit
  rw [List.foldl_map]
  congr 1
  funext m e
  rw [score_eq hc.grp hc.inC _ x.k x.k (fun c => x.q (vec * queryAt p b h wo + c)) (fun t _ c hcc j _ => staged_eq hc.grp x.q _ _ hcc) e hc.grp.1]
  rfl

theorem bFinalizeGroup_ok {vec : ℕ} {cf : Config} {p : Params} (hc : CfgOk cf p.nci p.nco) (x : BIn) (rowIdx : ℕ → ℕ) {cpr : ℕ} (hcp : 0 < cpr) (sh : Shared)
    (ho : ∀ i, (sh.order i).Perm (List.range cf.bx)) (junk : BJunk) (curr : ℕ → Option ℝ) {b split wid : ℕ} (hw : wid < p.nLong * p.nlonOut)
    (hrow : x.P.roff (rowIdx (wid / p.nlonOut) + 1) - x.P.roff (rowIdx (wid / p.nlonOut)) ≤ p.maxLen) :
    ∃ thr, bFinalizeGroup vec cf p x rowIdx cpr sh junk curr b split wid = .ok [⟨outFlat p b (rowIdx (wid / p.nlonOut)) (wid % p.nlonOut), thr⟩] ∧
      ∀ two, (BThr.half two (thr 0)).alpha = ((bChunkSplit two vec p x cpr b (rowIdx (wid / p.nlonOut)) (wid % p.nlonOut) split).map fun t =>
        Real.exp (t.q - (curr (outFlat p b (rowIdx (wid / p.nlonOut)) (wid % p.nlonOut))).getD 0) * t.w).sum ∧
      ∀ e < p.nci * vec, (BThr.half two (thr (e / vec % cf.bx))).y (e / vec) (e % vec) =
        ((bChunkSplit two vec p x cpr b (rowIdx (wid / p.nlonOut)) (wid % p.nlonOut) split).map fun t =>
        Real.exp (t.q - (curr (outFlat p b (rowIdx (wid / p.nlonOut)) (wid % p.nlonOut))).getD 0) * t.w * t.v e).sum := by
  unfold bFinalizeGroup
  rw [pointOf_some hw, Nat.zero_add]
  generalize rowIdx (wid / p.nlonOut) = h at *
  generalize wid % p.nlonOut = wo
  dsimp only
  obtain ⟨n, es, e1, e2⟩ := collectSplit_ok hc.grp p x.w x.P hcp sh ho b h wo split hrow
  rw [e1]
  dsimp only
  rw [e2]
  generalize hL : (splitIdx (x.P.roff (h + 1) - x.P.roff h) cpr split).filterMap (fun i => entry p x.w x.P b wo (x.P.roff h + i)) = L
  have hsplit : ∀ two, bChunkSplit two vec p x cpr b h wo split = L.map (bPtOf two vec p x b h wo) := fun two => by unfold bChunkSplit; rw [hL]
  refine ⟨_, rfl, fun two => ?_⟩
  have key := fun t (ht : t < cf.bx) => addThr_eq (vec := vec) (loc' := cf.locI) (nco := p.nci) hc.grp hc.inC
    (staged vec (chans cf.bx cf.locI p.nci) x.q (queryAt p b h wo) sh.query) x.k x.k (fun c => x.q (vec * queryAt p b h wo + c))
    (fun t _ c hcc j _ => staged_eq hc.grp x.q _ _ hcc) (curr (outFlat p b h wo)) (L.map (keyEntry two (gradOf vec p x b h wo))) (cond two junk.kvw junk.kacc) ht
  have hhalf := fun t (ht : t < cf.bx) => half_add two (chans cf.bx cf.locI p.nci) (chans cf.bx cf.locO p.nco)
    (staged vec (chans cf.bx cf.locI p.nci) x.q (queryAt p b h wo) sh.query) (staged vec (chans cf.bx cf.locO p.nco) x.dy (gradAt p b h wo) junk.grad) x.k x.v (gradOf vec p x b h wo)
    (fun e => gradDot_eq hc.grp hc.outC _ x.v (fun c => x.dy (vec * gradAt p b h wo + c)) (fun t _ c hcc j _ => staged_eq hc.grp x.dy _ _ hcc) e ht)
    (curr (outFlat p b h wo)) L
    (fun t => ⟨0, none, 0, (chans cf.bx cf.locI p.nci t).foldl (fun y c => Function.update y c fun _ => 0) (junk.kacc t),
          (chans cf.bx cf.locI p.nci t).foldl (fun y c => Function.update y c fun _ => 0) (junk.kvw t)⟩)
  have hinit : (fun t => BThr.half two ⟨0, none, 0, (chans cf.bx cf.locI p.nci t).foldl (fun y c => Function.update y c fun _ => 0) (junk.kacc t),
          (chans cf.bx cf.locI p.nci t).foldl (fun y c => Function.update y c fun _ => 0) (junk.kvw t)⟩)
      = fun t => ⟨0, none, (chans cf.bx cf.locI p.nci t).foldl (fun y c => Function.update y c fun _ => 0) (cond two junk.kvw junk.kacc t)⟩ := by
    cases two <;> rfl
  rw [hinit] at hhalf
  rw [hsplit two]
  simp only [List.map_map] at key ⊢
  refine ⟨?_, fun e he => ?_⟩
  · rw [hhalf 0 hc.grp.1]
    exact (key 0 hc.grp.1).1
  · obtain ⟨c1, c2, c3, c4⟩ := chan_mem (loc := cf.locI) hc.grp.1 hc.inC he
    rw [hhalf _ c1]
    have := (key _ c1).2 _ c2 _ c3
    rw [c4] at this
    exact this

end Verif.RingGpu
