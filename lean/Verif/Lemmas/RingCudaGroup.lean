import Verif.Lemmas.RingCudaCollect
import Verif.Lemmas.DistAttention
/-!
What the thread groups of the ring kernels compute for one output point.
-/
namespace Verif.RingGpu
open Verif Verif.Attn Verif.Spec.Attn Verif.AttnGpu Verif.Ring Finset

/-! ### Accumulating points -/

/-- The accumulators after the points `L`. -/
noncomputable def closed (s : Acc) (L : List Pt) : Acc :=
  match phaseMax s.qmax L with
  | none => s
  | some n => ⟨fun c => expDiff s.qmax n * s.y c + (L.map fun t => Real.exp (t.q - n) * t.w * t.v c).sum,
      expDiff s.qmax n * s.alphaSum + (L.map fun t => Real.exp (t.q - n) * t.w).sum, some n⟩

theorem expDiff_self (n : ℝ) : expDiff (some n) n = 1 := by simp [expDiff]

theorem expDiff_trans (m : Option ℝ) (n n' : ℝ) : Real.exp (n - n') * expDiff m n = expDiff m n' := by
  cases m with
  | none => simp [expDiff]
  | some m => simp only [expDiff]; rw [← Real.exp_add]; congr 1; ring

theorem closed_nil (s : Acc) : closed s [] = s := by
  unfold closed phaseMax
  rw [List.foldl_nil]
  cases h : s.qmax with
  | none => rfl
  | some n =>
    obtain ⟨y, a, q⟩ := s
    dsimp only at h
    subst h
    simp [expDiff_self]

theorem phaseMax_append (m : Option ℝ) (L : List Pt) (t : Pt) : phaseMax m (L ++ [t]) = some (maxInf (phaseMax m L) t.q) := by
  unfold phaseMax
  rw [List.foldl_append]
  rfl

theorem exp_shift_sum (L : List Pt) (n n' : ℝ) (f : Pt → ℝ) :
    Real.exp (n - n') * (L.map fun t => Real.exp (t.q - n) * f t).sum = (L.map fun t => Real.exp (t.q - n') * f t).sum := by
  rw [← List.sum_map_mul_left]
  refine list_sum_congr fun t _ => ?_
  rw [← mul_assoc, ← Real.exp_add]
  congr 2
  ring

theorem onePass_closed (s : Acc) (L : List Pt) (t : Pt) : onePass (closed s L) t = closed s (L ++ [t]) := by
  rcases List.eq_nil_or_concat L with rfl | ⟨L', u, rfl⟩
  · rw [closed_nil, List.nil_append]
    unfold closed
    rw [show phaseMax s.qmax [t] = some (maxInf s.qmax t.q) from rfl]
    dsimp only
    unfold onePass
    simp only [List.map_cons, List.map_nil, List.sum_cons, List.sum_nil, add_zero]
    rw [mul_comm s.alphaSum, add_comm]
  · rw [List.concat_eq_append]
    obtain ⟨K, hK⟩ : ∃ K, K = L' ++ [u] := ⟨_, rfl⟩
    obtain ⟨n, hn⟩ : ∃ n, phaseMax s.qmax K = some n := ⟨_, by rw [hK]; exact phaseMax_append _ _ _⟩
    rw [← hK]
    have h1 : closed s K = ⟨fun c => expDiff s.qmax n * s.y c + (K.map fun t => Real.exp (t.q - n) * t.w * t.v c).sum,
      expDiff s.qmax n * s.alphaSum + (K.map fun t => Real.exp (t.q - n) * t.w).sum, some n⟩ := by
      unfold closed
      rw [hn]
    rw [h1]
    unfold closed onePass
    rw [phaseMax_append, hn]
    dsimp only
    obtain ⟨m, hm⟩ : ∃ m, m = maxInf (some n) t.q := ⟨_, rfl⟩
    rw [← hm]
    have e0 : expDiff (some n) m = Real.exp (n - m) := rfl
    rw [e0]
    congr 1
    · funext c
      rw [mul_add, ← mul_assoc, expDiff_trans]
      simp only [mul_assoc]
      rw [exp_shift_sum K n m fun t => t.w * t.v c]
      simp only [List.map_append, List.map_cons, List.map_nil, List.sum_append, List.sum_cons, List.sum_nil, add_zero]
      ring
    · rw [mul_comm _ (Real.exp (n - m)), mul_add, ← mul_assoc, expDiff_trans, exp_shift_sum K n m fun t => t.w]
      simp only [List.map_append, List.map_cons, List.map_nil, List.sum_append, List.sum_cons, List.sum_nil, add_zero]
      ring

/-- The loop of the one-pass kernels. -/
theorem foldl_onePass (s : Acc) (L : List Pt) : L.foldl onePass s = closed s L := by
  induction L using List.reverseRecOn with
  | nil => rw [closed_nil]; rfl
  | append_singleton L t ih => rw [List.foldl_append, ih]; exact onePass_closed s L t

/-- The additions of the kernel `finalize`. -/
theorem foldl_phaseAdd_eq (s : Acc) (L : List Pt) : L.foldl phaseAdd s
    = ⟨fun c => s.y c + (L.map fun t => Real.exp (t.q - s.qmax.getD 0) * t.w * t.v c).sum,
      s.alphaSum + (L.map fun t => Real.exp (t.q - s.qmax.getD 0) * t.w).sum, s.qmax⟩ := by
  induction L using List.reverseRecOn with
  | nil => simp
  | append_singleton L t ih =>
    rw [List.foldl_append, ih]
    simp only [List.foldl_cons, List.foldl_nil, phaseAdd, List.map_append, List.map_cons, List.map_nil, List.sum_append, List.sum_cons, List.sum_nil,
      add_zero, add_assoc]

/-- The three kernels for long rows. -/
theorem threePhase_closed (s : Acc) (L : List Pt) : threePhase s L = closed s L := by
  unfold threePhase closed
  rw [foldl_phaseAdd_eq]
  cases h : phaseMax s.qmax L with
  | none =>
    cases L with
    | nil =>
      have : s.qmax = none := h
      unfold phaseRescale
      rw [if_pos this]
      simp
    | cons t L =>
      obtain ⟨n, hn⟩ := phaseMax_cons s.qmax t L
      rw [hn] at h
      cases h
  | some n =>
    unfold phaseRescale
    by_cases he : s.qmax = some n
    · rw [if_pos he, he]
      simp [expDiff_self]
    · rw [if_neg he]
      simp

/-! ### Flat arrays -/

/-- A flat array as a tensor `[B, C, H, W]` stored in the layout `[B, H, W, C]`. -/
def cells (H W C : ℕ) (a : ℕ → ℝ) : T4 := fun b c h w => a (((b * H + h) * W + w) * C + c)

/-- The neighbour an entry stands for. -/
def ptOf (vec nci : ℕ) (k v : ℕ → ℝ) (Q : ℕ → ℝ) (e : Entry) : Pt :=
  ⟨∑ c ∈ range (nci * vec), Q c * k (vec * e.ka + c), e.w, fun c => v (vec * e.va + c)⟩

theorem score_eq {vec bx nci : ℕ} {loc : Option ℕ} (hg : GroupOk bx) (hl : LocOk bx loc nci) (qv : ℕ → ℕ → ℕ → ℝ) (k v : ℕ → ℝ) (Q : ℕ → ℝ)
    (hQ : ∀ t < bx, ∀ c ∈ chans bx loc nci t, ∀ j < vec, qv t c j = Q (c * vec + j)) (e : Entry) {t : ℕ} (ht : t < bx) :
    score vec bx (chans bx loc nci) qv k e t = (ptOf vec nci k v Q e).q := by
  unfold score
  rw [groupSum_eq hg _ ht, sum_dotPart hg.1 hl qv k e.ka Q hQ]
  rfl

/-- Two sets of channel loops may differ; the staged query is right for each. -/
theorem staged_eq {vec bx nci : ℕ} {loc : Option ℕ} (hg : GroupOk bx) (q : ℕ → ℝ) (qa : ℕ) (junk : ℕ → ℕ → ℕ → ℝ) {t c j : ℕ}
    (hc : c ∈ chans bx loc nci t) : staged vec (chans bx loc nci) q qa junk t c j = q (vec * qa + (c * vec + j)) := by
  unfold staged
  rw [AttnGpu.foldl_update_at _ (chans_nodup hg.1) (fun c _ => vload vec q (qa + c)), if_pos hc]
  unfold vload
  congr 1
  ring

/-- The threads of a group agree with the accumulators of a sequential loop. -/
def Agree (vec bx : ℕ) (chO : ℕ → List ℕ) (s : ℕ → Thr) (o : Acc) : Prop :=
  ∀ t < bx, (s t).alpha = o.alphaSum ∧ (s t).qmax = o.qmax ∧ ∀ c ∈ chO t, ∀ j < vec, (s t).y c j = o.y (c * vec + j)

theorem agree_online {vec bx nci nco : ℕ} {loc loc' : Option ℕ} (hg : GroupOk bx) (hl : LocOk bx loc nci) (qv : ℕ → ℕ → ℕ → ℝ) (k v : ℕ → ℝ) (Q : ℕ → ℝ)
    (hQ : ∀ t < bx, ∀ c ∈ chans bx loc nci t, ∀ j < vec, qv t c j = Q (c * vec + j)) (es : List Entry) {s : ℕ → Thr} {o : Acc}
    (h : Agree vec bx (chans bx loc' nco) s o) :
    Agree vec bx (chans bx loc' nco) (es.foldl (onlineThr vec bx (chans bx loc nci) (chans bx loc' nco) qv k v) s)
      ((es.map (ptOf vec nci k v Q)).foldl onePass o) := by
  induction es generalizing s o with
  | nil => exact h
  | cons e es ih =>
    rw [List.foldl_cons, List.map_cons, List.foldl_cons]
    refine ih fun t ht => ?_
    obtain ⟨h1, h2, h3⟩ := h t ht
    unfold onlineThr onePass
    dsimp only
    rw [score_eq hg hl qv k v Q hQ e ht, h1, h2]
    refine ⟨rfl, rfl, fun c hc j hj => ?_⟩
    generalize maxInf o.qmax (ptOf vec nci k v Q e).q = m
    rw [AttnGpu.foldl_update_at _ (chans_nodup hg.1) (fun c (y : ℕ → ℝ) => fun j => expDiff o.qmax m * y j
      + Real.exp ((ptOf vec nci k v Q e).q - m) * e.w * vload vec v (e.va + c) j), if_pos hc, h3 c hc j hj]
    unfold vload ptOf
    dsimp only
    rw [show vec * (e.va + c) + j = vec * e.va + (c * vec + j) by ring]

/-- What a group of `finalize` has added up. -/
theorem addThr_eq {vec bx nci nco : ℕ} {loc loc' : Option ℕ} (hg : GroupOk bx) (hl : LocOk bx loc nci) (qv : ℕ → ℕ → ℕ → ℝ) (k v : ℕ → ℝ) (Q : ℕ → ℝ)
    (hQ : ∀ t < bx, ∀ c ∈ chans bx loc nci t, ∀ j < vec, qv t c j = Q (c * vec + j)) (m : Option ℝ) (es : List Entry) (junk : ℕ → ℕ → ℕ → ℝ) {t : ℕ} (ht : t < bx) :
    (es.foldl (addThr vec bx (chans bx loc nci) (chans bx loc' nco) qv k v m)
        (fun t => ⟨0, none, (chans bx loc' nco t).foldl (fun y c => Function.update y c fun _ => 0) (junk t)⟩) t).alpha
      = ((es.map (ptOf vec nci k v Q)).map fun x => Real.exp (x.q - m.getD 0) * x.w).sum ∧
    ∀ c ∈ chans bx loc' nco t, ∀ j < vec,
      (es.foldl (addThr vec bx (chans bx loc nci) (chans bx loc' nco) qv k v m)
        (fun t => ⟨0, none, (chans bx loc' nco t).foldl (fun y c => Function.update y c fun _ => 0) (junk t)⟩) t).y c j
      = ((es.map (ptOf vec nci k v Q)).map fun x => Real.exp (x.q - m.getD 0) * x.w * x.v (c * vec + j)).sum := by
  induction es using List.reverseRecOn with
  | nil =>
    refine ⟨rfl, fun c hc j _ => ?_⟩
    rw [List.foldl_nil]
    dsimp only
    rw [AttnGpu.foldl_update_at _ (chans_nodup hg.1) (fun _ _ => fun _ => (0 : ℝ)), if_pos hc]
    rfl
  | append_singleton es e ih =>
    obtain ⟨h1, h2⟩ := ih
    rw [List.foldl_append]
    generalize es.foldl (addThr vec bx (chans bx loc nci) (chans bx loc' nco) qv k v m)
      (fun t => ⟨0, none, (chans bx loc' nco t).foldl (fun y c => Function.update y c fun _ => 0) (junk t)⟩) = s at h1 h2
    rw [List.foldl_cons, List.foldl_nil]
    unfold addThr
    dsimp only
    rw [score_eq hg hl qv k v Q hQ e ht, h1]
    simp only [List.map_append, List.map_cons, List.map_nil, List.sum_append, List.sum_cons, List.sum_nil, add_zero]
    refine ⟨rfl, fun c hc j hj => ?_⟩
    rw [AttnGpu.foldl_update_at _ (chans_nodup hg.1) (fun c (y : ℕ → ℝ) => fun j => y j
      + Real.exp ((ptOf vec nci k v Q e).q - m.getD 0) * e.w * vload vec v (e.va + c) j), if_pos hc, h2 c hc j hj]
    congr 2
    unfold vload ptOf
    dsimp only
    rw [show vec * (e.va + c) + j = vec * e.va + (c * vec + j) by ring]

/-! ### The points of a chunk -/

/-- The key, value and query tensors of a call. -/
def keyTen (vec : ℕ) (p : Params) (B : ℕ) (k : ℕ → ℝ) : RTen := ⟨B, p.nci * vec, p.nlatHalo, p.nlonKx, cells p.nlatHalo p.nlonKx (p.nci * vec) k⟩
/-- See `keyTen`. -/
def valTen (vec : ℕ) (p : Params) (B : ℕ) (v : ℕ → ℝ) : RTen := ⟨B, p.nco * vec, p.nlatHalo, p.nlonKx, cells p.nlatHalo p.nlonKx (p.nco * vec) v⟩
/-- See `keyTen`. -/
def queryTen (vec : ℕ) (p : Params) (B : ℕ) (q : ℕ → ℝ) : RTen := ⟨B, p.nci * vec, p.nlatOut, p.nlonOut, cells p.nlatOut p.nlonOut (p.nci * vec) q⟩

theorem query_addr (vec : ℕ) (p : Params) (b ho wo c : ℕ) : vec * queryAt p b ho wo + c = ((b * p.nlatOut + ho) * p.nlonOut + wo) * (p.nci * vec) + c := by
  unfold queryAt
  ring

/-- The entries found at the positions `zs` are the points of the chunk among them. -/
theorem entries_pts (vec : ℕ) (p : Params) (B : ℕ) (w : ℕ → ℝ) (P : Pattern) (k v q : ℕ → ℝ) (b ho wo : ℕ) (zs : List ℕ) :
    (zs.filterMap (entry p w P b wo)).map (ptOf vec p.nci k v fun c => q (vec * queryAt p b ho wo + c))
      = (zs.filterMap (gatherHit P p.nlonIn p.pscale p.lonLo p.start (keyTen vec p B k) wo)).map
        (loadPt w (keyTen vec p B k) (valTen vec p B v) (queryTen vec p B q) b ho wo) := by
  rw [List.map_filterMap, List.map_filterMap]
  refine List.filterMap_congr fun z _ => ?_
  have e2 : gatherHit P p.nlonIn p.pscale p.lonLo p.start (keyTen vec p B k) wo z =
      if p.lonLo ≤ P.col z - P.col z / p.nlonIn * p.nlonIn + p.pscale * wo - (P.col z - P.col z / p.nlonIn * p.nlonIn + p.pscale * wo) / p.nlonIn * p.nlonIn ∧
        P.col z - P.col z / p.nlonIn * p.nlonIn + p.pscale * wo - (P.col z - P.col z / p.nlonIn * p.nlonIn + p.pscale * wo) / p.nlonIn * p.nlonIn < p.lonLo + p.nlonKx
      then if 0 ≤ ((P.col z / p.nlonIn : ℕ) : ℤ) - p.start ∧ ((P.col z / p.nlonIn : ℕ) : ℤ) - p.start < (p.nlatHalo : ℤ)
        then some ((((P.col z / p.nlonIn : ℕ) : ℤ) - p.start).toNat,
          P.col z - P.col z / p.nlonIn * p.nlonIn + p.pscale * wo - (P.col z - P.col z / p.nlonIn * p.nlonIn + p.pscale * wo) / p.nlonIn * p.nlonIn - p.lonLo,
          P.col z / p.nlonIn)
        else none
      else none := rfl
  rw [e2]
  unfold entry
  dsimp only
  by_cases h1 : p.lonLo ≤ P.col z - P.col z / p.nlonIn * p.nlonIn + p.pscale * wo - (P.col z - P.col z / p.nlonIn * p.nlonIn + p.pscale * wo) / p.nlonIn * p.nlonIn ∧
      P.col z - P.col z / p.nlonIn * p.nlonIn + p.pscale * wo - (P.col z - P.col z / p.nlonIn * p.nlonIn + p.pscale * wo) / p.nlonIn * p.nlonIn < p.lonLo + p.nlonKx
  · rw [if_pos h1, if_pos h1]
    by_cases h2 : 0 ≤ ((P.col z / p.nlonIn : ℕ) : ℤ) - p.start ∧ ((P.col z / p.nlonIn : ℕ) : ℤ) - p.start < (p.nlatHalo : ℤ)
    · rw [if_pos h2, if_pos h2, Option.map_some, Option.map_some]
      congr 1
      unfold ptOf loadPt
      dsimp only [queryTen, keyTen, valTen, cells]
      congr 1
      · refine sum_congr rfl fun c _ => ?_
        rw [query_addr]
        congr 2
        ring
      · funext c
        congr 1
        ring
    · rw [if_neg h2, if_neg h2]
      rfl
  · rw [if_neg h1, if_neg h1]
    rfl

end Verif.RingGpu
