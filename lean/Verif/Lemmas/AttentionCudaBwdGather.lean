import Verif.Lemmas.AttentionCudaBwd
/-!
The GPU gather backward kernels: the three gradient arrays.
-/
namespace Verif.AttnGpu
open Verif Verif.Attn Verif.Spec.Attn Finset

/-! ### Addresses and grids -/

theorem addr_inj {H W nh C bh bh' h h' w w' c c' : ℕ} (hn : 0 < nh) (hh : h < H) (hh' : h' < H) (hw : w < W) (hw' : w' < W) (hc : c < C) (hc' : c' < C)
    (e : ((bh / nh * H + h) * W + w) * (nh * C) + (bh % nh * C + c) = ((bh' / nh * H + h') * W + w') * (nh * C) + (bh' % nh * C + c')) :
    bh = bh' ∧ h = h' ∧ w = w' ∧ c = c' := by
  obtain ⟨e1, e2⟩ := mulAdd_inj e (packed_lt (Nat.mod_lt _ hn) hc) (packed_lt (Nat.mod_lt _ hn) hc')
  obtain ⟨e3, e4⟩ := mulAdd_inj e1 hw hw'
  obtain ⟨e5, e6⟩ := mulAdd_inj e3 hh hh'
  obtain ⟨e7, e8⟩ := mulAdd_inj e2 hc hc'
  refine ⟨?_, e6, e4, e8⟩
  rw [← Nat.div_add_mod bh nh, ← Nat.div_add_mod bh' nh, e5, e7]

theorem inAddr_eq {d : Dims} {nh C vec bh : ℕ} {p : ℕ × ℕ} {e : ℕ} :
    vec * inAddr d nh C bh p + e = ((bh / nh * d.nlatIn + p.1) * d.nlonIn + p.2) * (nh * (C * vec)) + (bh % nh * (C * vec) + e) := by
  have := addr_eq (H := d.nlatIn) (W := d.nlonIn) (nh := nh) (nc := C) (vec := vec) (bh := bh) (h := p.1) (w := p.2) (c := 0) (j := e)
  simp only [Nat.add_zero, Nat.zero_mul, Nat.zero_add] at this
  exact this

/-- Of the additions to one input point, those that reach a given cell. -/
theorem sum_point {d : Dims} {nh C vec bh bh0 c hi wi : ℕ} {p : ℕ × ℕ} (hn : 0 < nh) (hp : p.1 < d.nlatIn ∧ p.2 < d.nlonIn) (hc : c < C * vec)
    (hhi : hi < d.nlatIn) (hwi : wi < d.nlonIn) (V : ℕ → ℝ) :
    (∑ e ∈ range (C * vec), if vec * inAddr d nh C bh p + e
        = ((bh0 / nh * d.nlatIn + hi) * d.nlonIn + wi) * (nh * (C * vec)) + (bh0 % nh * (C * vec) + c) then V e else 0)
      = if bh = bh0 ∧ p = (hi, wi) then V c else 0 := by
  by_cases h : bh = bh0 ∧ p = (hi, wi)
  · rw [if_pos h, sum_eq_single_of_mem c (mem_range.2 hc)]
    · rw [if_pos]
      rw [inAddr_eq, h.1, h.2]
    · intro e he hne
      rw [if_neg]
      intro e'
      rw [inAddr_eq] at e'
      exact hne (addr_inj hn hp.1 hhi hp.2 hwi (mem_range.1 he) hc e').2.2.2
  · rw [if_neg h]
    refine sum_eq_zero fun e he => ?_
    rw [if_neg]
    intro e'
    rw [inAddr_eq] at e'
    obtain ⟨a, b, c, -⟩ := addr_inj hn hp.1 hhi hp.2 hwi (mem_range.1 he) hc e'
    exact h ⟨a, Prod.ext b c⟩

theorem addsAt_grid_self {bhs gx by' H W : ℕ} (hg : H * W ≤ gx * by') (f : ℕ → ℕ → List (ℕ × ℝ)) (hf : ∀ bh wid, wid ≥ H * W → f bh wid = []) (x : ℕ) :
    Disco.addsAt (overGrid bhs gx by' f) x = ∑ bh ∈ range bhs, ∑ h ∈ range H, ∑ w ∈ range W, Disco.addsAt (f bh (h * W + w)) x := by
  refine addsAt_grid hg f (fun bh h w => f bh (h * W + w)) (fun bh wid => ?_) x
  split_ifs with h
  · exact hf bh wid h
  · rw [Nat.mul_comm, Nat.div_add_mod]

/-- The rows are taken up in any order. -/
theorem sum_rows {r : GpuRun} {n : ℕ} (hr : RunOk r n) (F : ℕ → ℝ) : ∑ h ∈ range n, F (r.rowIdx h) = ∑ ho ∈ range n, F ho := by
  rw [← list_sum_range, ← list_sum_range, ← (hr.rows.map F).sum_eq, List.map_map]
  rfl

theorem bwdPoint_eq (r : GpuRun) {W h w : ℕ} (hw : w < W) : bwdPoint r W (h * W + w) = (r.rowIdx h, w) := by
  unfold bwdPoint
  dsimp only
  obtain ⟨e1, e2⟩ := div_mul_add (a := h) hw
  rw [sub_div_mul, e1, e2]

theorem gatherNbrs_in {d : Dims} {P : Pattern} (hfit : P.Fits d.nlatOut (d.nlatIn * d.nlonIn)) (hin : 0 < d.nlonIn) (ps : ℕ)
    {ho : ℕ} (hho : ho < d.nlatOut) (wo : ℕ) : ∀ p ∈ gatherNbrs P d.nlonIn ps ho wo, p.1 < d.nlatIn ∧ p.2 < d.nlonIn := by
  intro p hp
  obtain ⟨z, hz, rfl⟩ := List.mem_map.1 hp
  exact ⟨(Nat.div_lt_iff_lt_mul hin).2 (hfit ho hho z hz), Nat.mod_lt _ hin⟩

/-! ### One group -/

section
variable {vec : ℕ} {cf : Config} {d : Dims} (hc : CfgOk cf d.Ck d.Cv) (hv : vec = 1 ∨ vec = 4) (nh : ℕ) (x : BwdIn) (r : BwdRun)
include hc

theorem bwdAlpha_eq (wide : Bool) (fmin : ℝ) (junk : ℕ → ℕ → ℕ → ℕ → ℝ) (bh ho wo : ℕ) (p : ℕ × ℕ) {t : ℕ} (ht : t < cf.bx) :
    bwdAlpha vec cf d nh x (bwdQ vec cf d nh x.q wide junk bh ho wo) (bwdGroup vec cf d nh x wide fmin junk bh ho wo) bh p t
      = prob (d.Ck * vec) x.w (gatherNbrs x.P d.nlonIn (d.nlonIn / d.nlonOut)) (headView d.nlatIn d.nlonIn nh (d.Ck * vec) x.k)
        (headView d.nlatOut d.nlonOut nh (d.Ck * vec) x.q) bh ho wo p := by
  obtain ⟨m, hm⟩ := bwdGroup_eq (vec := vec) hc nh x wide fmin junk bh ho wo
  obtain ⟨h1, h2, -, -⟩ := hm t ht
  unfold bwdAlpha
  dsimp only
  rw [qdotk_eq hc nh x wide junk bh ho wo ht, h1, h2]
  exact relW_prob (d.Ck * vec) x.w (gatherNbrs x.P d.nlonIn (d.nlonIn / d.nlonOut)) (headView d.nlatIn d.nlonIn nh (d.Ck * vec) x.k)
        (headView d.nlatOut d.nlonOut nh (d.Ck * vec) x.q) bh ho wo m p

theorem bwdBar_eq (wide : Bool) (fmin : ℝ) (junk : ℕ → ℕ → ℕ → ℕ → ℝ) (bh ho wo : ℕ) {t : ℕ} (ht : t < cf.bx) :
    (bwdGroup vec cf d nh x wide fmin junk bh ho wo t).integral * (1 / (bwdGroup vec cf d nh x wide fmin junk bh ho wo t).alphaSum)
      = gbar (d.Ck * vec) (d.Cv * vec) x.w (gatherNbrs x.P d.nlonIn (d.nlonIn / d.nlonOut)) (headView d.nlatIn d.nlonIn nh (d.Ck * vec) x.k)
        (headView d.nlatIn d.nlonIn nh (d.Cv * vec) x.v) (headView d.nlatOut d.nlonOut nh (d.Ck * vec) x.q)
        (headView d.nlatOut d.nlonOut nh (d.Cv * vec) x.dy) bh ho wo := by
  obtain ⟨m, hm⟩ := bwdGroup_eq (vec := vec) hc nh x wide fmin junk bh ho wo
  obtain ⟨h1, h2, h3, -⟩ := hm t ht
  rw [h2, h3]
  exact relW_gbar ..

theorem bwdDq_eq (wide : Bool) (fmin : ℝ) (junk : ℕ → ℕ → ℕ → ℕ → ℝ) (bh ho wo : ℕ) {t c j : ℕ} (ht : t < cf.bx)
    (hcc : c ∈ chans cf.bx cf.locI d.Ck t) (hj : j < vec) :
    1 / (bwdGroup vec cf d nh x wide fmin junk bh ho wo t).alphaSum * (1 / (bwdGroup vec cf d nh x wide fmin junk bh ho wo t).alphaSum)
        * ((bwdGroup vec cf d nh x wide fmin junk bh ho wo t).alphaSum * (bwdGroup vec cf d nh x wide fmin junk bh ho wo t).akvw c j
          - (bwdGroup vec cf d nh x wide fmin junk bh ho wo t).avw c j * (bwdGroup vec cf d nh x wide fmin junk bh ho wo t).ak c j)
      = gradQ (d.Ck * vec) (d.Cv * vec) x.w (gatherNbrs x.P d.nlonIn (d.nlonIn / d.nlonOut)) (headView d.nlatIn d.nlonIn nh (d.Ck * vec) x.k)
        (headView d.nlatIn d.nlonIn nh (d.Cv * vec) x.v) (headView d.nlatOut d.nlonOut nh (d.Ck * vec) x.q)
        (headView d.nlatOut d.nlonOut nh (d.Cv * vec) x.dy) bh (c * vec + j) ho wo := by
  obtain ⟨m, hm⟩ := bwdGroup_eq (vec := vec) hc nh x wide fmin junk bh ho wo
  obtain ⟨h1, h2, h3, h4⟩ := hm t ht
  obtain ⟨a1, a2, a3⟩ := h4 c hcc j hj
  rw [h2, a1, a2, a3]
  exact relW_gradQ ..

omit hc in
theorem sum_nbrs (ho wo : ℕ) (f : ℕ × ℕ → ℝ) : ((x.P.row ho).map fun z => f (gatherPoint x.P d.nlonIn (d.nlonIn / d.nlonOut) wo z)).sum
    = ((gatherNbrs x.P d.nlonIn (d.nlonIn / d.nlonOut) ho wo).map f).sum := by
  unfold gatherNbrs
  rw [List.map_map]
  refine list_sum_congr fun z _ => ?_
  rw [gatherPoint_eq]
  rfl

include hv

/-- What a group adds to the gradient of the values. -/
theorem bwdVOps_adds (bh : ℕ) {h wo : ℕ} (hh : h < d.nlatOut) (hwo : wo < d.nlonOut) (y : ℕ) :
    Disco.addsAt (bwdVOps vec cf d nh x r bh (h * d.nlonOut + wo)) y
      = ((gatherNbrs x.P d.nlonIn (d.nlonIn / d.nlonOut) (r.rowIdx h) wo).map fun p => ∑ e ∈ range (d.Cv * vec),
        if vec * inAddr d nh d.Cv bh p + e = y then
          prob (d.Ck * vec) x.w (gatherNbrs x.P d.nlonIn (d.nlonIn / d.nlonOut)) (headView d.nlatIn d.nlonIn nh (d.Ck * vec) x.k)
            (headView d.nlatOut d.nlonOut nh (d.Ck * vec) x.q) bh (r.rowIdx h) wo p
          * headView d.nlatOut d.nlonOut nh (d.Cv * vec) x.dy bh e (r.rowIdx h) wo else 0).sum := by
  have hlt := packed_lt hh hwo
  unfold bwdVOps
  rw [if_neg (by omega), bwdPoint_eq _ hwo]
  dsimp only
  rw [addsAt_flatMap, ← sum_nbrs]
  refine list_sum_congr fun z _ => ?_
  generalize gatherPoint x.P d.nlonIn (d.nlonIn / d.nlonOut) wo z = p
  refine addsAt_addOps hc.grp.1 hc.outC (prob (d.Ck * vec) x.w (gatherNbrs x.P d.nlonIn (d.nlonIn / d.nlonOut))
      (headView d.nlatIn d.nlonIn nh (d.Ck * vec) x.k) (headView d.nlatOut d.nlonOut nh (d.Ck * vec) x.q) bh (r.rowIdx h) wo p)
    (fun t ht => bwdAlpha_eq hc nh x r.wide r.fmin _ bh _ _ _ ht) (fun e => headView d.nlatOut d.nlonOut nh (d.Cv * vec) x.dy bh e (r.rowIdx h) wo)
    (fun t ht c hcc j _ => bwdG_own hc nh x r.wide _ bh _ _ ht hcc) (fun hw t ht e he => ?_) y
  rw [hw]
  unfold bwdG
  rw [stageView_flat hc.grp.1 hc.outC hv _ _ _ ht he, outAddr_flat x.dy]

/-- What a group adds to the gradient of the keys. -/
theorem bwdKOps_adds (bh : ℕ) {h wo : ℕ} (hh : h < d.nlatOut) (hwo : wo < d.nlonOut) (y : ℕ) :
    Disco.addsAt (bwdKOps vec cf d nh x r bh (h * d.nlonOut + wo)) y
      = ((gatherNbrs x.P d.nlonIn (d.nlonIn / d.nlonOut) (r.rowIdx h) wo).map fun p => ∑ e ∈ range (d.Ck * vec),
        if vec * inAddr d nh d.Ck bh p + e = y then
          (gdot (d.Cv * vec) (headView d.nlatIn d.nlonIn nh (d.Cv * vec) x.v) (headView d.nlatOut d.nlonOut nh (d.Cv * vec) x.dy) bh (r.rowIdx h) wo p
            - gbar (d.Ck * vec) (d.Cv * vec) x.w (gatherNbrs x.P d.nlonIn (d.nlonIn / d.nlonOut)) (headView d.nlatIn d.nlonIn nh (d.Ck * vec) x.k)
              (headView d.nlatIn d.nlonIn nh (d.Cv * vec) x.v) (headView d.nlatOut d.nlonOut nh (d.Ck * vec) x.q)
              (headView d.nlatOut d.nlonOut nh (d.Cv * vec) x.dy) bh (r.rowIdx h) wo)
          * prob (d.Ck * vec) x.w (gatherNbrs x.P d.nlonIn (d.nlonIn / d.nlonOut)) (headView d.nlatIn d.nlonIn nh (d.Ck * vec) x.k)
            (headView d.nlatOut d.nlonOut nh (d.Ck * vec) x.q) bh (r.rowIdx h) wo p
          * headView d.nlatOut d.nlonOut nh (d.Ck * vec) x.q bh e (r.rowIdx h) wo else 0).sum := by
  have hlt := packed_lt hh hwo
  unfold bwdKOps
  rw [if_neg (by omega), bwdPoint_eq _ hwo]
  dsimp only
  rw [addsAt_flatMap, ← sum_nbrs]
  refine list_sum_congr fun z _ => ?_
  generalize gatherPoint x.P d.nlonIn (d.nlonIn / d.nlonOut) wo z = p
  refine addsAt_addOps hc.grp.1 hc.inC ((gdot (d.Cv * vec) (headView d.nlatIn d.nlonIn nh (d.Cv * vec) x.v)
        (headView d.nlatOut d.nlonOut nh (d.Cv * vec) x.dy) bh (r.rowIdx h) wo p
      - gbar (d.Ck * vec) (d.Cv * vec) x.w (gatherNbrs x.P d.nlonIn (d.nlonIn / d.nlonOut)) (headView d.nlatIn d.nlonIn nh (d.Ck * vec) x.k)
        (headView d.nlatIn d.nlonIn nh (d.Cv * vec) x.v) (headView d.nlatOut d.nlonOut nh (d.Ck * vec) x.q)
        (headView d.nlatOut d.nlonOut nh (d.Cv * vec) x.dy) bh (r.rowIdx h) wo)
      * prob (d.Ck * vec) x.w (gatherNbrs x.P d.nlonIn (d.nlonIn / d.nlonOut)) (headView d.nlatIn d.nlonIn nh (d.Ck * vec) x.k)
        (headView d.nlatOut d.nlonOut nh (d.Ck * vec) x.q) bh (r.rowIdx h) wo p) (fun t ht => ?_)
    (fun e => headView d.nlatOut d.nlonOut nh (d.Ck * vec) x.q bh e (r.rowIdx h) wo)
    (fun t ht c hcc j _ => bwdQ_own hc nh x r.wide _ bh _ _ ht hcc) (fun hw t ht e he => ?_) y
  · rw [bwdAlpha_eq hc nh x r.wide r.fmin _ bh _ _ _ ht, bwdBar_eq hc nh x r.wide r.fmin _ bh _ _ ht, gdotv_eq hc nh x r.wide _ bh _ _ ht]
  · rw [hw]
    unfold bwdQ
    rw [stageView_flat hc.grp.1 hc.inC hv _ _ _ ht he, outAddr_flat x.q]

end

/-! ### The arrays -/

section
variable {vec : ℕ} {cf : Config} {d : Dims} (hc : CfgOk cf d.Ck d.Cv) (hv : vec = 1 ∨ vec = 4) {nh : ℕ} (hn : 0 < nh) (x : BwdIn) (r : BwdRun)
  (hr : RunOk r.toGpuRun d.nlatOut) (h0 : 0 < d.nlonIn) (hfit : x.P.Fits d.nlatOut (d.nlatIn * d.nlonIn)) (size : ℕ)
include hc hv hn hr h0 hfit

theorem bwdV_array (hsize : size = d.B * d.nlatIn * d.nlonIn * (d.Cv * vec * nh)) :
    ∃ out, (r.perm (overGrid (d.B * nh) (divUp (d.nlatOut * d.nlonOut) cf.by') cf.by' (bwdVOps vec cf d nh x r))).foldlM
        (Disco.atomicAddTo size) (fun _ => (0 : ℝ)) = .ok out ∧
      ∀ bh < d.B * nh, ∀ c < d.Cv * vec, ∀ hi < d.nlatIn, ∀ wi < d.nlonIn, headView d.nlatIn d.nlonIn nh (d.Cv * vec) out bh c hi wi
        = gradV (d.Ck * vec) x.w (gatherNbrs x.P d.nlonIn (d.nlonIn / d.nlonOut)) d.nlatOut d.nlonOut
          (headView d.nlatIn d.nlonIn nh (d.Ck * vec) x.k) (headView d.nlatOut d.nlonOut nh (d.Ck * vec) x.q)
          (headView d.nlatOut d.nlonOut nh (d.Cv * vec) x.dy) bh c hi wi := by
  have hperm := hr.perm (overGrid (d.B * nh) (divUp (d.nlatOut * d.nlonOut) cf.by') cf.by' (bwdVOps vec cf d nh x r))
  obtain ⟨out, o1, o2⟩ := Disco.atomicAddTo_fold size
    (r.perm (overGrid (d.B * nh) (divUp (d.nlatOut * d.nlonOut) cf.by') cf.by' (bwdVOps vec cf d nh x r))) (fun a ha => by
      obtain ⟨bh, hb, wid, _, ha⟩ := mem_overGrid.1 (hperm.subset ha)
      unfold bwdVOps at ha
      split_ifs at ha with hw
      · simp at ha
      · dsimp only at ha
        obtain ⟨hh, hw'⟩ := split_wid hw
        obtain ⟨z, hz, ha⟩ := List.mem_flatMap.1 ha
        obtain ⟨e, he, e'⟩ := mem_addOps hc.grp.1 hc.outC ha
        have hin := gatherNbrs_in hfit h0 (d.nlonIn / d.nlonOut) (hr.row_lt hh) (wid % d.nlonOut)
          (gatherPoint x.P d.nlonIn (d.nlonIn / d.nlonOut) (wid % d.nlonOut) z) (by
            rw [gatherPoint_eq]
            exact List.mem_map_of_mem hz)
        rw [e', inAddr_eq, hsize]
        unfold bwdPoint
        dsimp only
        rw [sub_div_mul]
        exact addr_lt hn hb he hin.1 hin.2) (fun _ => (0 : ℝ))
  refine ⟨out, o1, fun bh hb c hcc hi hhi wi hwi => ?_⟩
  have hin := fun {ho : ℕ} (hho : ho < d.nlatOut) wo => gatherNbrs_in hfit h0 (d.nlonIn / d.nlonOut) hho wo
  unfold headView
  rw [o2, zero_add, Disco.addsAt_perm hperm, addsAt_grid_self (le_divUp_mul hc.rows) _ (fun bh wid h => by
    unfold bwdVOps
    rw [if_pos h])]
  have step : ∀ bh' ∈ range (d.B * nh), (∑ h ∈ range d.nlatOut, ∑ wo ∈ range d.nlonOut, Disco.addsAt (bwdVOps vec cf d nh x r bh' (h * d.nlonOut + wo))
        (((bh / nh * d.nlatIn + hi) * d.nlonIn + wi) * (nh * (d.Cv * vec)) + (bh % nh * (d.Cv * vec) + c)))
      = if bh' = bh then gradV (d.Ck * vec) x.w (gatherNbrs x.P d.nlonIn (d.nlonIn / d.nlonOut)) d.nlatOut d.nlonOut
          (headView d.nlatIn d.nlonIn nh (d.Ck * vec) x.k) (headView d.nlatOut d.nlonOut nh (d.Ck * vec) x.q)
          (headView d.nlatOut d.nlonOut nh (d.Cv * vec) x.dy) bh c hi wi else 0 := by
    intro bh' _
    by_cases hbb : bh' = bh
    · rw [if_pos hbb, hbb]
      unfold gradV
      refine Eq.trans ?_ (sum_rows hr _)
      refine sum_congr rfl fun h hh => sum_congr rfl fun wo hwo => ?_
      rw [mem_range] at hh hwo
      rw [bwdVOps_adds hc hv nh x r bh hh hwo]
      refine list_sum_congr fun p hp => ?_
      rw [sum_point hn (hin (hr.row_lt hh) wo p hp) hcc hhi hwi]
      simp
    · rw [if_neg hbb]
      refine sum_eq_zero fun h hh => sum_eq_zero fun wo hwo => ?_
      rw [mem_range] at hh hwo
      rw [bwdVOps_adds hc hv nh x r bh' hh hwo]
      refine list_sum_zero fun p hp => ?_
      rw [sum_point hn (hin (hr.row_lt hh) wo p hp) hcc hhi hwi, if_neg (fun h => hbb h.1)]
  rw [sum_congr rfl step, Finset.sum_ite_eq', if_pos (mem_range.2 hb)]
  rfl

theorem bwdK_array (hsize : size = d.B * d.nlatIn * d.nlonIn * (d.Ck * vec * nh)) :
    ∃ out, (r.perm (overGrid (d.B * nh) (divUp (d.nlatOut * d.nlonOut) cf.by') cf.by' (bwdKOps vec cf d nh x r))).foldlM
        (Disco.atomicAddTo size) (fun _ => (0 : ℝ)) = .ok out ∧
      ∀ bh < d.B * nh, ∀ c < d.Ck * vec, ∀ hi < d.nlatIn, ∀ wi < d.nlonIn, headView d.nlatIn d.nlonIn nh (d.Ck * vec) out bh c hi wi
        = gradK (d.Ck * vec) (d.Cv * vec) x.w (gatherNbrs x.P d.nlonIn (d.nlonIn / d.nlonOut)) d.nlatOut d.nlonOut
          (headView d.nlatIn d.nlonIn nh (d.Ck * vec) x.k) (headView d.nlatIn d.nlonIn nh (d.Cv * vec) x.v)
          (headView d.nlatOut d.nlonOut nh (d.Ck * vec) x.q) (headView d.nlatOut d.nlonOut nh (d.Cv * vec) x.dy) bh c hi wi := by
  have hperm := hr.perm (overGrid (d.B * nh) (divUp (d.nlatOut * d.nlonOut) cf.by') cf.by' (bwdKOps vec cf d nh x r))
  obtain ⟨out, o1, o2⟩ := Disco.atomicAddTo_fold size
    (r.perm (overGrid (d.B * nh) (divUp (d.nlatOut * d.nlonOut) cf.by') cf.by' (bwdKOps vec cf d nh x r))) (fun a ha => by
      obtain ⟨bh, hb, wid, _, ha⟩ := mem_overGrid.1 (hperm.subset ha)
      unfold bwdKOps at ha
      split_ifs at ha with hw
      · simp at ha
      · dsimp only at ha
        obtain ⟨hh, hw'⟩ := split_wid hw
        obtain ⟨z, hz, ha⟩ := List.mem_flatMap.1 ha
        obtain ⟨e, he, e'⟩ := mem_addOps hc.grp.1 hc.inC ha
        have hin := gatherNbrs_in hfit h0 (d.nlonIn / d.nlonOut) (hr.row_lt hh) (wid % d.nlonOut)
          (gatherPoint x.P d.nlonIn (d.nlonIn / d.nlonOut) (wid % d.nlonOut) z) (by
            rw [gatherPoint_eq]
            exact List.mem_map_of_mem hz)
        rw [e', inAddr_eq, hsize]
        unfold bwdPoint
        dsimp only
        rw [sub_div_mul]
        exact addr_lt hn hb he hin.1 hin.2) (fun _ => (0 : ℝ))
  refine ⟨out, o1, fun bh hb c hcc hi hhi wi hwi => ?_⟩
  have hin := fun {ho : ℕ} (hho : ho < d.nlatOut) wo => gatherNbrs_in hfit h0 (d.nlonIn / d.nlonOut) hho wo
  unfold headView
  rw [o2, zero_add, Disco.addsAt_perm hperm, addsAt_grid_self (le_divUp_mul hc.rows) _ (fun bh wid h => by
    unfold bwdKOps
    rw [if_pos h])]
  have step : ∀ bh' ∈ range (d.B * nh), (∑ h ∈ range d.nlatOut, ∑ wo ∈ range d.nlonOut, Disco.addsAt (bwdKOps vec cf d nh x r bh' (h * d.nlonOut + wo))
        (((bh / nh * d.nlatIn + hi) * d.nlonIn + wi) * (nh * (d.Ck * vec)) + (bh % nh * (d.Ck * vec) + c)))
      = if bh' = bh then gradK (d.Ck * vec) (d.Cv * vec) x.w (gatherNbrs x.P d.nlonIn (d.nlonIn / d.nlonOut)) d.nlatOut d.nlonOut
          (headView d.nlatIn d.nlonIn nh (d.Ck * vec) x.k) (headView d.nlatIn d.nlonIn nh (d.Cv * vec) x.v)
          (headView d.nlatOut d.nlonOut nh (d.Ck * vec) x.q) (headView d.nlatOut d.nlonOut nh (d.Cv * vec) x.dy) bh c hi wi else 0 := by
    intro bh' _
    by_cases hbb : bh' = bh
    · rw [if_pos hbb, hbb]
      unfold gradK
      refine Eq.trans ?_ (sum_rows hr _)
      refine sum_congr rfl fun h hh => sum_congr rfl fun wo hwo => ?_
      rw [mem_range] at hh hwo
      rw [bwdKOps_adds hc hv nh x r bh hh hwo]
      refine list_sum_congr fun p hp => ?_
      rw [sum_point hn (hin (hr.row_lt hh) wo p hp) hcc hhi hwi]
      by_cases hp' : p = (hi, wi)
      · rw [if_pos ⟨rfl, hp'⟩, if_pos hp']
        ring
      · rw [if_neg (fun h => hp' h.2), if_neg hp']
    · rw [if_neg hbb]
      refine sum_eq_zero fun h hh => sum_eq_zero fun wo hwo => ?_
      rw [mem_range] at hh hwo
      rw [bwdKOps_adds hc hv nh x r bh' hh hwo]
      refine list_sum_zero fun p hp => ?_
      rw [sum_point hn (hin (hr.row_lt hh) wo p hp) hcc hhi hwi, if_neg (fun h => hbb h.1)]
  rw [sum_congr rfl step, Finset.sum_ite_eq', if_pos (mem_range.2 hb)]
  rfl

omit hv h0 hfit in
theorem bwdQ_array (hsize : size = d.B * d.nlatOut * d.nlonOut * (d.Ck * vec * nh)) :
    ∃ out, (r.perm (overGrid (d.B * nh) (divUp (d.nlatOut * d.nlonOut) cf.by') cf.by' (bwdDqOps vec cf d nh x r))).foldlM
        (storeTo size) (fun _ => (0 : ℝ)) = .ok out ∧
      ∀ bh < d.B * nh, ∀ c < d.Ck * vec, ∀ ho < d.nlatOut, ∀ wo < d.nlonOut, headView d.nlatOut d.nlonOut nh (d.Ck * vec) out bh c ho wo
        = gradQ (d.Ck * vec) (d.Cv * vec) x.w (gatherNbrs x.P d.nlonIn (d.nlonIn / d.nlonOut)) (headView d.nlatIn d.nlonIn nh (d.Ck * vec) x.k)
          (headView d.nlatIn d.nlonIn nh (d.Cv * vec) x.v) (headView d.nlatOut d.nlonOut nh (d.Ck * vec) x.q)
          (headView d.nlatOut d.nlonOut nh (d.Cv * vec) x.dy) bh c ho wo := by
  set X : T4 := gradQ (d.Ck * vec) (d.Cv * vec) x.w (gatherNbrs x.P d.nlonIn (d.nlonIn / d.nlonOut)) (headView d.nlatIn d.nlonIn nh (d.Ck * vec) x.k)
          (headView d.nlatIn d.nlonIn nh (d.Cv * vec) x.v) (headView d.nlatOut d.nlonOut nh (d.Ck * vec) x.q)
          (headView d.nlatOut d.nlonOut nh (d.Cv * vec) x.dy) with hX
  set L := overGrid (d.B * nh) (divUp (d.nlatOut * d.nlonOut) cf.by') cf.by' (bwdDqOps vec cf d nh x r) with hL
  have hperm := hr.perm L
  have hmem : ∀ a : ℕ × ℝ, a ∈ L ↔ ∃ bh < d.B * nh, ∃ wid < d.nlatOut * d.nlonOut, ∃ t < cf.bx, ∃ c ∈ chans cf.bx cf.locI d.Ck t, ∃ j < vec,
      a = (vec * (headBase d.nlatOut d.nlonOut nh d.Ck bh + cellOff d.nlonOut nh d.Ck (r.rowIdx (wid / d.nlonOut)) (wid % d.nlonOut) + c) + j,
        X bh (c * vec + j) (r.rowIdx (wid / d.nlonOut)) (wid % d.nlonOut)) := by
    intro a
    rw [hL, mem_overGrid]
    constructor
    · rintro ⟨bh, hbh, wid, -, ha⟩
      unfold bwdDqOps at ha
      split_ifs at ha with hw
      · simp at ha
      · dsimp only at ha
        obtain ⟨t, ht, ha⟩ := List.mem_flatMap.1 ha
        obtain ⟨c, hcc, ha⟩ := List.mem_flatMap.1 ha
        obtain ⟨j, hj, rfl⟩ := List.mem_map.1 ha
        rw [List.mem_range] at ht hj
        refine ⟨bh, hbh, wid, by omega, t, ht, c, hcc, j, hj, ?_⟩
        rw [bwdDq_eq hc nh x r.wide r.fmin _ bh _ _ ht hcc hj]
        unfold bwdPoint outAddr
        dsimp only
        rw [sub_div_mul]
    · rintro ⟨bh, hbh, wid, hw, t, ht, c, hcc, j, hj, rfl⟩
      refine ⟨bh, hbh, wid, lt_of_lt_of_le hw (le_divUp_mul hc.rows), ?_⟩
      unfold bwdDqOps
      rw [if_neg (by omega)]
      dsimp only
      refine List.mem_flatMap.2 ⟨t, List.mem_range.2 ht, List.mem_flatMap.2 ⟨c, hcc, List.mem_map.2 ⟨j, List.mem_range.2 hj, ?_⟩⟩⟩
      rw [bwdDq_eq hc nh x r.wide r.fmin _ bh _ _ ht hcc hj]
      unfold bwdPoint outAddr
      dsimp only
      rw [sub_div_mul]
  have hin : ∀ a ∈ r.perm L, a.1 < size ∧ a.2 = unhead d.nlatOut d.nlonOut nh (d.Ck * vec) X a.1 := by
    intro a ha
    obtain ⟨bh, hbh, wid, hw, t, ht, c, hcc, j, hj, rfl⟩ := (hmem a).1 (hperm.subset ha)
    obtain ⟨h1, h2, -⟩ := packed_split hw
    have h3 := hr.row_lt h1
    have h4 : c * vec + j < d.Ck * vec := packed_lt ((mem_chans hc.grp.1 hc.inC ht).1 hcc).1 hj
    rw [addr_eq, hsize]
    exact ⟨addr_lt hn hbh h4 h3 h2, (unhead_addr X hn h4 h3 h2).symm⟩
  obtain ⟨out, o1, o2, o3⟩ := stores_ok size (r.perm L) _ hin (fun _ => (0 : ℝ))
  refine ⟨out, o1, fun bh hbh c hc' ho hho wo hwo => ?_⟩
  obtain ⟨h', hh', e'⟩ := hr.row_surj hho
  obtain ⟨s1, s2, s3⟩ := packed_split hc'
  have hb := hc.grp.1
  have ht := Nat.mod_lt (c / vec) hb
  have hw : h' * d.nlonOut + wo < d.nlatOut * d.nlonOut := packed_lt hh' hwo
  obtain ⟨q1, q2⟩ := div_mul_add (a := h') hwo
  have := (hmem _).2 ⟨bh, hbh, h' * d.nlonOut + wo, hw, c / vec % cf.bx, ht, c / vec, (mem_chans hb hc.inC ht).2 ⟨s1, rfl⟩, c % vec, s2, rfl⟩
  have hfin := o2 _ (hperm.symm.subset this)
  dsimp only at hfin
  rw [q1, q2, e', addr_eq, s3, unhead_addr X hn hc' hho hwo] at hfin
  exact hfin

end

end Verif.AttnGpu
