import Verif.Model.AttentionCudaBwd
import Verif.Lemmas.AttentionCudaOp
/-!
One group of the GPU gather backward kernels: its registers after the loop over the neighbours, and what it adds to the gradients.
-/
namespace Verif.AttnGpu
open Verif Verif.Attn Verif.Spec.Attn Finset

/-! ### Gradients from shifted weights -/

section
variable (Ck Cv : ℕ) (w : ℕ → ℝ) (nb : ℕ → ℕ → List (ℕ × ℕ)) (k v q dy : T4) (b ho wo : ℕ) (m : ℝ)

/-- The weight of a neighbour relative to `m`. -/
noncomputable def relW (p : ℕ × ℕ) : ℝ := Real.exp (score Ck k q b ho wo p - m) * w p.1

theorem relW_eq (p : ℕ × ℕ) : relW Ck w k q b ho wo m p = w p.1 * Real.exp (score Ck k q b ho wo p) * Real.exp (-m) := by
  unfold relW
  rw [sub_eq_add_neg, Real.exp_add]
  ring

theorem relW_sum : ((nb ho wo).map (relW Ck w k q b ho wo m)).sum
    = ((nb ho wo).map fun p => w p.1 * Real.exp (score Ck k q b ho wo p)).sum * Real.exp (-m) := by
  rw [← list_sum_mul_right]
  exact list_sum_congr fun p _ => relW_eq ..

theorem relW_prob (p : ℕ × ℕ) : relW Ck w k q b ho wo m p * (1 / ((nb ho wo).map (relW Ck w k q b ho wo m)).sum) = prob Ck w nb k q b ho wo p := by
  rw [relW_sum, relW_eq, mul_one_div, mul_div_mul_right _ _ (Real.exp_ne_zero _)]
  rfl

theorem relW_gbar : ((nb ho wo).map fun p => relW Ck w k q b ho wo m p * gdot Cv v dy b ho wo p).sum
      * (1 / ((nb ho wo).map (relW Ck w k q b ho wo m)).sum) = gbar Ck Cv w nb k v q dy b ho wo := by
  rw [← list_sum_mul_right]
  unfold gbar
  refine list_sum_congr fun p _ => ?_
  rw [← relW_prob Ck w nb k q b ho wo m p]
  ring

/-- The gradient of the query from the three sums. -/
theorem relW_gradQ (c : ℕ) :
    let Z := ((nb ho wo).map (relW Ck w k q b ho wo m)).sum
    1 / Z * (1 / Z) * (Z * ((nb ho wo).map fun p => relW Ck w k q b ho wo m p * gdot Cv v dy b ho wo p * k b c p.1 p.2).sum
      - ((nb ho wo).map fun p => relW Ck w k q b ho wo m p * gdot Cv v dy b ho wo p).sum
        * ((nb ho wo).map fun p => relW Ck w k q b ho wo m p * k b c p.1 p.2).sum) = gradQ Ck Cv w nb k v q dy b c ho wo := by
  intro Z
  have e1 : 1 / Z * (1 / Z) * (Z * ((nb ho wo).map fun p => relW Ck w k q b ho wo m p * gdot Cv v dy b ho wo p * k b c p.1 p.2).sum)
      = ((nb ho wo).map fun p => prob Ck w nb k q b ho wo p * gdot Cv v dy b ho wo p * k b c p.1 p.2).sum := by
    have : 1 / Z * (1 / Z) * (Z * ((nb ho wo).map fun p => relW Ck w k q b ho wo m p * gdot Cv v dy b ho wo p * k b c p.1 p.2).sum)
        = ((nb ho wo).map fun p => relW Ck w k q b ho wo m p * gdot Cv v dy b ho wo p * k b c p.1 p.2).sum * (1 / Z) := by
      rcases eq_or_ne Z 0 with h | h
      · rw [h]; simp
      · field_simp
    rw [this, ← list_sum_mul_right]
    refine list_sum_congr fun p _ => ?_
    rw [← relW_prob Ck w nb k q b ho wo m p]
    ring
  have e2 : ((nb ho wo).map fun p => relW Ck w k q b ho wo m p * k b c p.1 p.2).sum * (1 / Z)
      = ((nb ho wo).map fun p => prob Ck w nb k q b ho wo p * k b c p.1 p.2).sum := by
    rw [← list_sum_mul_right]
    refine list_sum_congr fun p _ => ?_
    rw [← relW_prob Ck w nb k q b ho wo m p]
    ring
  have e3 := relW_gbar Ck Cv w nb k v q dy b ho wo m
  rw [mul_sub, e1]
  have : 1 / Z * (1 / Z) * (((nb ho wo).map fun p => relW Ck w k q b ho wo m p * gdot Cv v dy b ho wo p).sum
        * ((nb ho wo).map fun p => relW Ck w k q b ho wo m p * k b c p.1 p.2).sum)
      = (((nb ho wo).map fun p => relW Ck w k q b ho wo m p * gdot Cv v dy b ho wo p).sum * (1 / Z))
        * (((nb ho wo).map fun p => relW Ck w k q b ho wo m p * k b c p.1 p.2).sum * (1 / Z)) := by ring
  rw [this, e3, e2, ← list_sum_mul_left, sub_eq_add_neg, ← neg_one_mul, ← list_sum_mul_left, ← list_sum_add]
  unfold gradQ
  refine list_sum_congr fun p _ => ?_
  ring

end

/-! ### Staging -/

section
variable {vec bx n : ℕ} {loc : Option ℕ} (hb : 0 < bx) (hl : LocOk bx loc n)
include hb hl

theorem stageView_own (sync : Bool) (a : ℕ → ℝ) (base : ℕ) (junk : ℕ → ℕ → ℕ → ℝ) {t c : ℕ} (ht : t < bx) (hc : c ∈ chans bx loc n t) :
    stageView vec bx sync (chans bx loc n) a base junk t c = vload vec a (base + c) := by
  have hp := chans_perm hb hl
  unfold stageView
  split_ifs
  · rw [foldl_update_at _ (hp.nodup_iff.2 List.nodup_range) (fun c _ => vload vec a (base + c)), if_pos]
    exact List.mem_flatMap.2 ⟨t, List.mem_range.2 ht, hc⟩
  · rw [foldl_update_at _ (chans_nodup hb) (fun c _ => vload vec a (base + c)), if_pos hc]

theorem stageView_sync (a : ℕ → ℝ) (base : ℕ) (junk : ℕ → ℕ → ℕ → ℝ) (t : ℕ) {c : ℕ} (hc : c < n) :
    stageView vec bx true (chans bx loc n) a base junk t c = vload vec a (base + c) := by
  have hp := chans_perm hb hl
  unfold stageView
  rw [if_pos rfl, foldl_update_at _ (hp.nodup_iff.2 List.nodup_range) (fun c _ => vload vec a (base + c)), if_pos]
  exact hp.symm.subset (List.mem_range.2 hc)

/-- What the additions of a group read from shared memory is what was staged, on every device. -/
theorem stageView_flat (hv : vec = 1 ∨ vec = 4) (a : ℕ → ℝ) (base : ℕ) (junk : ℕ → ℕ → ℕ → ℝ) {t e : ℕ} (ht : t < bx)
    (he : e ∈ Disco.strided bx (n * vec) t) :
    stageView vec bx (bwdSync false vec) (chans bx loc n) a base junk t (e / vec) (e % vec) = a (vec * base + e) := by
  obtain ⟨h1, h2⟩ := (Disco.mem_strided hb ht).1 he
  have hv0 : 0 < vec := by omega
  have hlt : e / vec < n := (packed_split h1).1
  have hval : vload vec a (base + e / vec) (e % vec) = a (vec * base + e) := by
    unfold vload
    rw [Nat.mul_add, Nat.add_assoc, Nat.div_add_mod]
  rcases hv with rfl | rfl
  · rw [stageView_own hb hl _ a base junk ht, hval]
    rw [Nat.div_one]
    exact (mem_chans hb hl ht).2 ⟨by omega, h2⟩
  · rw [show bwdSync false 4 = true from rfl, stageView_sync hb hl a base junk t hlt, hval]

/-- The additions of a group: `σ` times the staged vector. -/
theorem addsAt_addOps {wide : Bool} {base : ℕ} {scale : ℕ → ℝ} {sh : ℕ → ℕ → ℕ → ℝ} (σ : ℝ) (hsc : ∀ t < bx, scale t = σ) (S : ℕ → ℝ)
    (hown : ∀ t < bx, ∀ c ∈ chans bx loc n t, ∀ j < vec, sh t c j = S (c * vec + j))
    (hall : wide = false → ∀ t < bx, ∀ e ∈ Disco.strided bx (n * vec) t, sh t (e / vec) (e % vec) = S e) (x : ℕ) :
    Disco.addsAt (addOps vec bx wide (chans bx loc n) n base scale sh) x
      = ∑ e ∈ range (n * vec), if vec * base + e = x then σ * S e else 0 := by
  unfold addOps
  rw [addsAt_flatMap, list_sum_range]
  cases wide with
  | true =>
    simp only [if_true]
    rw [Filter.sum_range_blocks n vec (fun e => if vec * base + e = x then σ * S e else 0),
      ← sum_chans hb hl (fun c => ∑ j ∈ range vec, if vec * base + (c * vec + j) = x then σ * S (c * vec + j) else 0)]
    refine sum_congr rfl fun t ht => ?_
    rw [mem_range] at ht
    rw [addsAt_flatMap]
    refine list_sum_congr fun c hc => ?_
    unfold Disco.addsAt
    rw [List.map_map, list_sum_range]
    refine sum_congr rfl fun j hj => ?_
    have e : vec * (base + c) + j = vec * base + (c * vec + j) := by ring
    simp only [Function.comp, hsc t ht, hown t ht c hc j (mem_range.1 hj), e]
  | false =>
    simp only [Bool.false_eq_true, if_false]
    rw [← sum_chans hb (locOk_none bx (n * vec)) (fun e => if vec * base + e = x then σ * S e else 0)]
    refine sum_congr rfl fun t ht => ?_
    rw [mem_range] at ht
    unfold Disco.addsAt
    rw [List.map_map]
    refine list_sum_congr fun e he => ?_
    dsimp only [Function.comp]
    rw [hsc t ht, hall rfl t ht e he]

/-- Where the additions go. -/
theorem mem_addOps {wide : Bool} {base : ℕ} {scale : ℕ → ℝ} {sh : ℕ → ℕ → ℕ → ℝ} {a : ℕ × ℝ}
    (h : a ∈ addOps vec bx wide (chans bx loc n) n base scale sh) : ∃ e < n * vec, a.1 = vec * base + e := by
  unfold addOps at h
  obtain ⟨t, ht, h⟩ := List.mem_flatMap.1 h
  rw [List.mem_range] at ht
  cases wide with
  | true =>
    rw [if_pos rfl] at h
    obtain ⟨c, hc, h⟩ := List.mem_flatMap.1 h
    obtain ⟨j, hj, rfl⟩ := List.mem_map.1 h
    refine ⟨c * vec + j, packed_lt ((mem_chans hb hl ht).1 hc).1 (List.mem_range.1 hj), ?_⟩
    dsimp only
    ring
  | false =>
    rw [if_neg (by simp)] at h
    obtain ⟨e, he, rfl⟩ := List.mem_map.1 h
    exact ⟨e, ((Disco.mem_strided hb ht).1 he).1, rfl⟩

end

/-! ### The loop over the neighbours -/

theorem rescale (L : List ℕ) (sc wt x : ℕ → ℝ) (m m' : ℝ) :
    (L.map fun z => Real.exp (sc z - m) * wt z * x z).sum * Real.exp (m - m') = (L.map fun z => Real.exp (sc z - m') * wt z * x z).sum := by
  rw [← list_sum_mul_right]
  refine list_sum_congr fun z _ => ?_
  rw [show sc z - m' = sc z - m + (m - m') by ring, Real.exp_add (sc z - m)]
  ring

theorem list_sum_snoc (L : List ℕ) (z : ℕ) (f : ℕ → ℝ) : ((L ++ [z]).map f).sum = (L.map f).sum + f z := by simp

/-- The registers of a group after the neighbours of `L`. -/
def BwdInv (vec : ℕ) (cf : Config) (nci : ℕ) (L : List ℕ) (sc wt g : ℕ → ℝ) (κ : ℕ → ℕ → ℝ) (m : ℝ) (s : ℕ → BwdThr) : Prop :=
  ∀ t < cf.bx, (s t).qdotkMax = m ∧ (s t).alphaSum = (L.map fun z => Real.exp (sc z - m) * wt z).sum ∧
    (s t).integral = (L.map fun z => Real.exp (sc z - m) * wt z * g z).sum ∧
    ∀ c ∈ chans cf.bx cf.locI nci t, ∀ j < vec,
      (s t).ak c j = (L.map fun z => Real.exp (sc z - m) * wt z * κ z (c * vec + j)).sum ∧
      (s t).avw c j = (L.map fun z => Real.exp (sc z - m) * wt z * g z).sum ∧
      (s t).akvw c j = (L.map fun z => Real.exp (sc z - m) * wt z * (g z * κ z (c * vec + j))).sum

theorem bwdInv_step {vec : ℕ} {cf : Config} {nci nco : ℕ} (hc : CfgOk cf nci nco) (qv gv : ℕ → ℕ → ℕ → ℝ) (k v : ℕ → ℝ) (ka va : ℕ → ℕ)
    (wt : ℕ → ℝ) (Q G : ℕ → ℝ) (hQ : ∀ t < cf.bx, ∀ c ∈ chans cf.bx cf.locI nci t, ∀ j < vec, qv t c j = Q (c * vec + j))
    (hG : ∀ t < cf.bx, ∀ c ∈ chans cf.bx cf.locO nco t, ∀ j < vec, gv t c j = G (c * vec + j)) {L : List ℕ} {s : ℕ → BwdThr} {m : ℝ}
    (h : BwdInv vec cf nci L (fun z => ∑ e ∈ range (nci * vec), Q e * k (vec * ka z + e)) wt
      (fun z => ∑ e ∈ range (nco * vec), G e * v (vec * va z + e)) (fun z e => k (vec * ka z + e)) m s) (z : ℕ) :
    BwdInv vec cf nci (L ++ [z]) (fun z => ∑ e ∈ range (nci * vec), Q e * k (vec * ka z + e)) wt
      (fun z => ∑ e ∈ range (nco * vec), G e * v (vec * va z + e)) (fun z e => k (vec * ka z + e))
      (max m (∑ e ∈ range (nci * vec), Q e * k (vec * ka z + e)))
      (bwdStep vec cf.bx (chans cf.bx cf.locI nci) (chans cf.bx cf.locO nco) qv gv k v (ka z) (va z) (wt z) s) := by
  intro t ht
  obtain ⟨h1, h2, h3, h4⟩ := h t ht
  have hd : groupSum cf.bx (fun t => dotPart vec (chans cf.bx cf.locI nci t) (qv t) k (ka z)) t
      = ∑ e ∈ range (nci * vec), Q e * k (vec * ka z + e) := by
    rw [groupSum_eq hc.grp _ ht, sum_dotPart hc.grp.1 hc.inC qv k (ka z) Q hQ]
  have hg : groupSum cf.bx (fun t => dotPart vec (chans cf.bx cf.locO nco t) (gv t) v (va z)) t
      = ∑ e ∈ range (nco * vec), G e * v (vec * va z + e) := by
    rw [groupSum_eq hc.grp _ ht, sum_dotPart hc.grp.1 hc.outC gv v (va z) G hG]
  unfold bwdStep
  dsimp only
  rw [hd, hg, h1]
  generalize hsc : (fun z => ∑ e ∈ range (nci * vec), Q e * k (vec * ka z + e)) = sc at *
  generalize hgg : (fun z => ∑ e ∈ range (nco * vec), G e * v (vec * va z + e)) = g at *
  rw [show (∑ e ∈ range (nci * vec), Q e * k (vec * ka z + e)) = sc z by rw [← hsc], show (∑ e ∈ range (nco * vec), G e * v (vec * va z + e)) = g z by rw [← hgg]]
  generalize max m (sc z) = m'
  have rs := fun x => rescale L sc wt x m m'
  have rs1 := rs fun _ => 1
  simp only [mul_one] at rs1
  refine ⟨rfl, ?_, ?_, fun c hcc j hj => ?_⟩
  · rw [h2, rs1, list_sum_snoc, ← hsc]
  · rw [h3, rs, list_sum_snoc, ← hsc, ← hgg]
  · obtain ⟨a1, a2, a3⟩ := h4 c hcc j hj
    have ev : vload vec k (ka z + c) j = k (vec * ka z + (c * vec + j)) := by
      unfold vload
      rw [show vec * (ka z + c) + j = vec * ka z + (c * vec + j) by ring]
    refine ⟨?_, ?_, ?_⟩
    · rw [foldl_update_at _ (chans_nodup hc.grp.1) (fun c (y : ℕ → ℝ) => fun j => Real.exp (m - m') * y j + Real.exp (sc z - m') * wt z * vload vec k (ka z + c) j),
        if_pos hcc]
      rw [a1, ev, mul_comm (Real.exp (m - m')), rs, list_sum_snoc, ← hsc]
    · rw [foldl_update_at _ (chans_nodup hc.grp.1) (fun c (y : ℕ → ℝ) => fun j => Real.exp (m - m') * y j + Real.exp (sc z - m') * wt z * g z), if_pos hcc]
      rw [a2, mul_comm (Real.exp (m - m')), rs, list_sum_snoc, ← hsc, ← hgg]
    · rw [foldl_update_at _ (chans_nodup hc.grp.1)
        (fun c (y : ℕ → ℝ) => fun j => Real.exp (m - m') * y j + Real.exp (sc z - m') * wt z * g z * vload vec k (ka z + c) j), if_pos hcc]
      rw [a3, ev, mul_comm (Real.exp (m - m')), rs, list_sum_snoc, mul_assoc (_ * _) (g z), ← hsc, ← hgg]

theorem inAddr_flat {d : Dims} {nh C vec bh : ℕ} {p : ℕ × ℕ} {e : ℕ} (a : ℕ → ℝ) :
    a (vec * inAddr d nh C bh p + e) = headView d.nlatIn d.nlonIn nh (C * vec) a bh e p.1 p.2 := by
  have := addr_eq (H := d.nlatIn) (W := d.nlonIn) (nh := nh) (nc := C) (vec := vec) (bh := bh) (h := p.1) (w := p.2) (c := 0) (j := e)
  simp only [Nat.add_zero, Nat.zero_mul, Nat.zero_add] at this
  unfold headView inAddr
  rw [this]

theorem outAddr_flat {d : Dims} {nh C vec bh ho wo e : ℕ} (a : ℕ → ℝ) :
    a (vec * outAddr d nh C bh ho wo + e) = headView d.nlatOut d.nlonOut nh (C * vec) a bh e ho wo := by
  have := addr_eq (H := d.nlatOut) (W := d.nlonOut) (nh := nh) (nc := C) (vec := vec) (bh := bh) (h := ho) (w := wo) (c := 0) (j := e)
  simp only [Nat.add_zero, Nat.zero_mul, Nat.zero_add] at this
  unfold headView outAddr
  rw [this]

section
variable {vec : ℕ} {cf : Config} {d : Dims} (hc : CfgOk cf d.Ck d.Cv) (nh : ℕ) (x : BwdIn) (wide : Bool) (fmin : ℝ) (junk : ℕ → ℕ → ℕ → ℕ → ℝ)
  (bh ho wo : ℕ)
include hc

theorem bwdQ_own {t c j : ℕ} (ht : t < cf.bx) (hcc : c ∈ chans cf.bx cf.locI d.Ck t) :
    bwdQ vec cf d nh x.q wide junk bh ho wo t c j = headView d.nlatOut d.nlonOut nh (d.Ck * vec) x.q bh (c * vec + j) ho wo := by
  unfold bwdQ
  rw [stageView_own hc.grp.1 hc.inC _ _ _ _ ht hcc, ← outAddr_flat]
  unfold vload
  rw [show vec * (outAddr d nh d.Ck bh ho wo + c) + j = vec * outAddr d nh d.Ck bh ho wo + (c * vec + j) by ring]

theorem bwdG_own {t c j : ℕ} (ht : t < cf.bx) (hcc : c ∈ chans cf.bx cf.locO d.Cv t) :
    bwdG vec cf d nh x.dy wide junk bh ho wo t c j = headView d.nlatOut d.nlonOut nh (d.Cv * vec) x.dy bh (c * vec + j) ho wo := by
  unfold bwdG
  rw [stageView_own hc.grp.1 hc.outC _ _ _ _ ht hcc, ← outAddr_flat]
  unfold vload
  rw [show vec * (outAddr d nh d.Cv bh ho wo + c) + j = vec * outAddr d nh d.Cv bh ho wo + (c * vec + j) by ring]

theorem qdotk_eq {p : ℕ × ℕ} {t : ℕ} (ht : t < cf.bx) :
    groupSum cf.bx (fun t => dotPart vec (chans cf.bx cf.locI d.Ck t) (bwdQ vec cf d nh x.q wide junk bh ho wo t) x.k (inAddr d nh d.Ck bh p)) t
      = score (d.Ck * vec) (headView d.nlatIn d.nlonIn nh (d.Ck * vec) x.k) (headView d.nlatOut d.nlonOut nh (d.Ck * vec) x.q) bh ho wo p := by
  rw [groupSum_eq hc.grp _ ht, sum_dotPart hc.grp.1 hc.inC _ x.k _ (fun e => headView d.nlatOut d.nlonOut nh (d.Ck * vec) x.q bh e ho wo)
    (fun t ht c hcc j _ => bwdQ_own hc nh x wide junk bh ho wo ht hcc)]
  unfold score
  exact sum_congr rfl fun e _ => by rw [inAddr_flat x.k]

theorem gdotv_eq {p : ℕ × ℕ} {t : ℕ} (ht : t < cf.bx) :
    groupSum cf.bx (fun t => dotPart vec (chans cf.bx cf.locO d.Cv t) (bwdG vec cf d nh x.dy wide junk bh ho wo t) x.v (inAddr d nh d.Cv bh p)) t
      = gdot (d.Cv * vec) (headView d.nlatIn d.nlonIn nh (d.Cv * vec) x.v) (headView d.nlatOut d.nlonOut nh (d.Cv * vec) x.dy) bh ho wo p := by
  rw [groupSum_eq hc.grp _ ht, sum_dotPart hc.grp.1 hc.outC _ x.v _ (fun e => headView d.nlatOut d.nlonOut nh (d.Cv * vec) x.dy bh e ho wo)
    (fun t ht c hcc j _ => bwdG_own hc nh x wide junk bh ho wo ht hcc)]
  unfold gdot
  exact sum_congr rfl fun e _ => by rw [inAddr_flat x.v]

/-- The registers of a group after the first loop. -/
theorem bwdGroup_eq :
    let K := headView d.nlatIn d.nlonIn nh (d.Ck * vec) x.k
    let V := headView d.nlatIn d.nlonIn nh (d.Cv * vec) x.v
    let Q := headView d.nlatOut d.nlonOut nh (d.Ck * vec) x.q
    let D := headView d.nlatOut d.nlonOut nh (d.Cv * vec) x.dy
    let nb := gatherNbrs x.P d.nlonIn (d.nlonIn / d.nlonOut) ho wo
    ∃ m, ∀ t < cf.bx, (bwdGroup vec cf d nh x wide fmin junk bh ho wo t).qdotkMax = m ∧
      (bwdGroup vec cf d nh x wide fmin junk bh ho wo t).alphaSum = (nb.map (relW (d.Ck * vec) x.w K Q bh ho wo m)).sum ∧
      (bwdGroup vec cf d nh x wide fmin junk bh ho wo t).integral
        = (nb.map fun p => relW (d.Ck * vec) x.w K Q bh ho wo m p * gdot (d.Cv * vec) V D bh ho wo p).sum ∧
      ∀ c ∈ chans cf.bx cf.locI d.Ck t, ∀ j < vec,
        (bwdGroup vec cf d nh x wide fmin junk bh ho wo t).ak c j
          = (nb.map fun p => relW (d.Ck * vec) x.w K Q bh ho wo m p * K bh (c * vec + j) p.1 p.2).sum ∧
        (bwdGroup vec cf d nh x wide fmin junk bh ho wo t).avw c j
          = (nb.map fun p => relW (d.Ck * vec) x.w K Q bh ho wo m p * gdot (d.Cv * vec) V D bh ho wo p).sum ∧
        (bwdGroup vec cf d nh x wide fmin junk bh ho wo t).akvw c j
          = (nb.map fun p => relW (d.Ck * vec) x.w K Q bh ho wo m p * gdot (d.Cv * vec) V D bh ho wo p * K bh (c * vec + j) p.1 p.2).sum := by
  intro K V Q D nb
  set pt := gatherPoint x.P d.nlonIn (d.nlonIn / d.nlonOut) wo with hpt
  have key : ∀ L : List ℕ, ∃ m, BwdInv vec cf d.Ck L
      (fun z => ∑ e ∈ range (d.Ck * vec), Q bh e ho wo * x.k (vec * inAddr d nh d.Ck bh (pt z) + e)) (fun z => x.w (pt z).1)
      (fun z => ∑ e ∈ range (d.Cv * vec), D bh e ho wo * x.v (vec * inAddr d nh d.Cv bh (pt z) + e))
      (fun z e => x.k (vec * inAddr d nh d.Ck bh (pt z) + e)) m
      (L.foldl (fun s z => bwdStep vec cf.bx (chans cf.bx cf.locI d.Ck) (chans cf.bx cf.locO d.Cv) (bwdQ vec cf d nh x.q wide junk bh ho wo)
        (bwdG vec cf d nh x.dy wide junk bh ho wo) x.k x.v (inAddr d nh d.Ck bh (pt z)) (inAddr d nh d.Cv bh (pt z)) (x.w (pt z).1) s)
        (fun t => ⟨0, fmin, 0, (chans cf.bx cf.locI d.Ck t).foldl (fun (y : ℕ → ℕ → ℝ) c => Function.update y c fun _ => 0) (junk 2 t),
          (chans cf.bx cf.locI d.Ck t).foldl (fun (y : ℕ → ℕ → ℝ) c => Function.update y c fun _ => 0) (junk 3 t),
          (chans cf.bx cf.locI d.Ck t).foldl (fun (y : ℕ → ℕ → ℝ) c => Function.update y c fun _ => 0) (junk 4 t)⟩)) := by
    intro L
    induction L using List.reverseRecOn with
    | nil =>
      refine ⟨fmin, fun t ht => ⟨rfl, rfl, rfl, fun c hcc j hj => ?_⟩⟩
      have e : ∀ i, (chans cf.bx cf.locI d.Ck t).foldl (fun (y : ℕ → ℕ → ℝ) c => Function.update y c fun _ => 0) (junk i t) c j = 0 := by
        intro i
        rw [foldl_update_at _ (chans_nodup hc.grp.1) (fun _ _ => fun _ => (0 : ℝ)), if_pos hcc]
      exact ⟨e 2, e 3, e 4⟩
    | append_singleton L z ih =>
      obtain ⟨m, hm⟩ := ih
      rw [List.foldl_append]
      exact ⟨_, bwdInv_step hc _ _ x.k x.v (fun z => inAddr d nh d.Ck bh (pt z)) (fun z => inAddr d nh d.Cv bh (pt z)) (fun z => x.w (pt z).1)
        (fun e => Q bh e ho wo) (fun e => D bh e ho wo) (fun t ht c hcc j _ => bwdQ_own hc nh x wide junk bh ho wo ht hcc)
        (fun t ht c hcc j _ => bwdG_own hc nh x wide junk bh ho wo ht hcc) hm z⟩
  obtain ⟨m, hm⟩ := key (x.P.row ho)
  refine ⟨m, fun t ht => ?_⟩
  obtain ⟨h1, h2, h3, h4⟩ := hm t ht
  have hnb : nb = (x.P.row ho).map pt := by
    show gatherNbrs x.P d.nlonIn (d.nlonIn / d.nlonOut) ho wo = _
    unfold gatherNbrs
    refine List.map_congr_left fun z _ => ?_
    rw [hpt, gatherPoint_eq]
  have sum_nb : ∀ f : ℕ × ℕ → ℝ, (nb.map f).sum = ((x.P.row ho).map fun z => f (pt z)).sum := by
    intro f
    rw [hnb, List.map_map]
    rfl
  have esc : ∀ z, (∑ e ∈ range (d.Ck * vec), Q bh e ho wo * x.k (vec * inAddr d nh d.Ck bh (pt z) + e)) = score (d.Ck * vec) K Q bh ho wo (pt z) := by
    intro z
    unfold score
    exact sum_congr rfl fun e _ => by rw [inAddr_flat x.k]
  have eg : ∀ z, (∑ e ∈ range (d.Cv * vec), D bh e ho wo * x.v (vec * inAddr d nh d.Cv bh (pt z) + e)) = gdot (d.Cv * vec) V D bh ho wo (pt z) := by
    intro z
    unfold gdot
    exact sum_congr rfl fun e _ => by rw [inAddr_flat x.v]
  have ek : ∀ z e, x.k (vec * inAddr d nh d.Ck bh (pt z) + e) = K bh e (pt z).1 (pt z).2 := fun z e => inAddr_flat x.k
  simp only [esc, eg] at h1 h2 h3 h4
  simp only [ek] at h4
  refine ⟨h1, ?_, ?_, fun c hcc j hj => ?_⟩
  · rw [sum_nb]; exact h2
  · rw [sum_nb]; exact h3
  · obtain ⟨a1, a2, a3⟩ := h4 c hcc j hj
    refine ⟨?_, ?_, ?_⟩
    · rw [sum_nb]; exact a1
    · rw [sum_nb]; exact a2
    · rw [sum_nb]
      refine a3.trans (list_sum_congr fun z _ => ?_)
      unfold relW
      ring

end

end Verif.AttnGpu
