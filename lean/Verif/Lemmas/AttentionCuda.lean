import Verif.Model.AttentionCuda
import Verif.Lemmas.AttentionHeads
import Verif.Lemmas.AttentionCpu
import Verif.Lemmas.DiscoCudaBwd
import Verif.Lemmas.FilterBasis
/-!
The GPU attention kernels: reductions over threads, channel loops, addresses, schedules.
-/
namespace Verif.AttnGpu
open Verif Verif.Attn Verif.Spec.Attn Finset

/-! ### Reductions -/

theorem warpSum_eq (f : ℕ → ℝ) {l : ℕ} (hl : l < 32) : warpSum f l = ∑ i ∈ range 32, f i := by
  have e : ∑ i ∈ range 32, f i = ∑ i ∈ range 32, f (l ^^^ i) := by
    refine Finset.sum_nbij' (fun i => l ^^^ i) (fun i => l ^^^ i) ?_ ?_ ?_ ?_ ?_
    · intro i hi
      rw [mem_range] at *
      exact Nat.xor_lt_two_pow (n := 5) hl hi
    · intro i hi
      rw [mem_range] at *
      exact Nat.xor_lt_two_pow (n := 5) hl hi
    · intro i _
      rw [← Nat.xor_assoc, Nat.xor_self, Nat.zero_xor]
    · intro i _
      rw [← Nat.xor_assoc, Nat.xor_self, Nat.zero_xor]
    · intro i _
      rw [← Nat.xor_assoc, Nat.xor_self, Nat.zero_xor]
  rw [e]
  simp only [warpSum, List.foldl_cons, List.foldl_nil, warpStep, Nat.xor_assoc, Finset.sum_range_succ, Finset.sum_range_zero, Nat.reduceXor,
    Nat.xor_zero, zero_add]
  ring

theorem blockSum_eq (f : ℕ → ℝ) {m : ℕ} (hm : m ≤ 32) (t : ℕ) : blockSum (m * 32) f t = ∑ i ∈ range (m * 32), f i := by
  unfold blockSum
  dsimp only
  rw [warpSum_eq _ (by omega), Filter.sum_range_blocks, Nat.mul_div_cancel _ (by omega : 0 < 32)]
  have h1 : ∀ lid, (if lid < m then warpSum (fun l => f (lid * 32 + l)) 0 else 0) = if lid < m then ∑ l ∈ range 32, f (lid * 32 + l) else 0 := by
    intro lid
    rw [warpSum_eq _ (by omega)]
  simp only [h1]
  rw [← Finset.sum_filter]
  refine sum_congr ?_ fun _ _ => rfl
  ext i
  rw [mem_filter, mem_range, mem_range]
  omega

/-- Group sizes in use: a warp, or a block of at most 32 warps. -/
def GroupOk (bx : ℕ) : Prop := 0 < bx ∧ bx % 32 = 0 ∧ bx ≤ 1024

theorem groupSum_eq {bx : ℕ} (h : GroupOk bx) (f : ℕ → ℝ) {t : ℕ} (ht : t < bx) : groupSum bx f t = ∑ i ∈ range bx, f i := by
  obtain ⟨_, h2, h3⟩ := h
  unfold groupSum
  split_ifs with hb
  · subst hb
    exact warpSum_eq f ht
  · have e : bx = bx / 32 * 32 := by omega
    rw [e]
    exact blockSum_eq f (by omega) t

theorem vred_eq (vec : ℕ) (x : ℕ → ℝ) : vred vec x = ∑ j ∈ range vec, x j := by
  unfold vred
  have := foldl_ev (σ := ℝ) id (fun s j => s + x j) x (List.range vec) (fun _ _ _ => rfl) 0
  rw [list_sum_range] at this
  simpa using this

/-! ### Channel loops -/

/-- The unrolled loop fits the channel count. -/
def LocOk (bx : ℕ) (loc : Option ℕ) (n : ℕ) : Prop := ∀ m ∈ loc, 1 ≤ m ∧ bx * (m - 1) ≤ n ∧ n ≤ bx * m

theorem mem_chans {bx n t c : ℕ} {loc : Option ℕ} (hb : 0 < bx) (hl : LocOk bx loc n) (ht : t < bx) :
    c ∈ chans bx loc n t ↔ c < n ∧ c % bx = t := by
  cases loc with
  | none => exact Disco.mem_strided hb ht
  | some m =>
    obtain ⟨h1, h2, h3⟩ := hl m rfl
    have e1 := Nat.div_add_mod c bx
    unfold chans unrolled
    dsimp only
    rw [List.mem_append, List.mem_map]
    constructor
    · rintro (⟨i, hi, rfl⟩ | h)
      · rw [List.mem_range] at hi
        refine ⟨?_, by rw [Nat.mul_comm, Nat.mul_add_mod, Nat.mod_eq_of_lt ht]⟩
        have : bx * (i + 1) ≤ bx * (m - 1) := Nat.mul_le_mul_left _ hi
        rw [Nat.mul_succ] at this
        rw [Nat.mul_comm] at h2
        rw [Nat.mul_comm i]
        rw [Nat.mul_comm] at h2
        omega
      · split_ifs at h with hc
        · rw [List.mem_singleton] at h
          subst h
          exact ⟨hc, by rw [Nat.mul_comm, Nat.mul_add_mod, Nat.mod_eq_of_lt ht]⟩
        · simp at h
    · rintro ⟨hc, hm⟩
      have hq : c / bx < m := Nat.div_lt_of_lt_mul (lt_of_lt_of_le hc h3)
      rw [hm] at e1
      rw [Nat.mul_comm] at e1
      rcases Nat.lt_or_ge (c / bx) (m - 1) with h | h
      · exact Or.inl ⟨c / bx, List.mem_range.2 h, e1⟩
      · have : c / bx = m - 1 := by omega
        rw [this] at e1
        refine Or.inr ?_
        rw [if_pos (by omega), List.mem_singleton]
        omega

theorem chans_nodup {bx n t : ℕ} {loc : Option ℕ} (hb : 0 < bx) : (chans bx loc n t).Nodup := by
  cases loc with
  | none => exact List.nodup_range' bx (h := hb)
  | some m =>
    unfold chans unrolled
    dsimp only
    have inj : Function.Injective fun i => i * bx + t := fun a b h => Nat.eq_of_mul_eq_mul_right hb (by simpa using h)
    rw [List.nodup_append]
    refine ⟨List.nodup_range.map inj, by split_ifs <;> simp, ?_⟩
    intro a ha b hb' hab
    subst hab
    obtain ⟨i, hi, e⟩ := List.mem_map.1 ha
    split_ifs at hb' with hc
    · rw [List.mem_singleton] at hb'
      rw [hb'] at e
      have := inj e
      rw [List.mem_range] at hi
      omega
    · simp at hb'

/-- The loops of all threads of a group together visit every channel once. -/
theorem chans_perm {bx n : ℕ} {loc : Option ℕ} (hb : 0 < bx) (hl : LocOk bx loc n) :
    ((List.range bx).flatMap (chans bx loc n)).Perm (List.range n) := by
  rw [List.perm_ext_iff_of_nodup]
  · intro i
    rw [List.mem_flatMap, List.mem_range]
    constructor
    · rintro ⟨t, ht, hi⟩
      exact ((mem_chans hb hl (List.mem_range.1 ht)).1 hi).1
    · intro hi
      exact ⟨i % bx, List.mem_range.2 (Nat.mod_lt _ hb), (mem_chans hb hl (Nat.mod_lt _ hb)).2 ⟨hi, rfl⟩⟩
  · rw [List.nodup_flatMap]
    refine ⟨fun t _ => chans_nodup hb, ?_⟩
    refine List.Pairwise.imp_of_mem ?_ List.pairwise_lt_range
    intro a b ha hb' hab i h1 h2
    have e1 := ((mem_chans hb hl (List.mem_range.1 ha)).1 h1).2
    have e2 := ((mem_chans hb hl (List.mem_range.1 hb')).1 h2).2
    omega
  · exact List.nodup_range

/-- Summing over the threads and the channels of each is summing over the channels. -/
theorem sum_chans {bx n : ℕ} {loc : Option ℕ} (hb : 0 < bx) (hl : LocOk bx loc n) (g : ℕ → ℝ) :
    ∑ t ∈ range bx, ((chans bx loc n t).map g).sum = ∑ c ∈ range n, g c := by
  rw [← list_sum_range, ← list_sum_flatMap, ((chans_perm hb hl).map g).sum_eq, list_sum_range]

/-- Updates at different places do not see each other. -/
theorem foldl_update_at {β : Type} (L : List ℕ) (hn : L.Nodup) (g : ℕ → β → β) (y : ℕ → β) (c : ℕ) :
    (L.foldl (fun y c => Function.update y c (g c (y c))) y) c = if c ∈ L then g c (y c) else y c := by
  induction L generalizing y with
  | nil => simp
  | cons a L ih =>
    obtain ⟨h1, h2⟩ := List.nodup_cons.1 hn
    rw [List.foldl_cons, ih h2]
    by_cases hc : c = a
    · subst hc
      simp [h1]
    · simp [hc]

theorem foldl_add_at (L : List ℕ) (g : ℕ → ℕ → ℝ) (j : ℕ) :
    (L.foldl (fun (acc : ℕ → ℝ) c => fun j => acc j + g c j) (fun _ => 0)) j = (L.map fun c => g c j).sum := by
  have := foldl_ev (σ := ℕ → ℝ) (fun a => a j) (fun acc c => fun j => acc j + g c j) (fun c => g c j) L (fun _ _ _ => rfl) (fun _ => 0)
  simpa using this

/-- The dot product of a group. -/
theorem sum_dotPart {vec bx n : ℕ} {loc : Option ℕ} (hb : 0 < bx) (hl : LocOk bx loc n) (qv : ℕ → ℕ → ℕ → ℝ) (k : ℕ → ℝ) (ka : ℕ)
    (Q : ℕ → ℝ) (hQ : ∀ t < bx, ∀ c ∈ chans bx loc n t, ∀ j < vec, qv t c j = Q (c * vec + j)) :
    ∑ t ∈ range bx, dotPart vec (chans bx loc n t) (qv t) k ka = ∑ e ∈ range (n * vec), Q e * k (vec * ka + e) := by
  have h1 : ∀ t ∈ range bx, dotPart vec (chans bx loc n t) (qv t) k ka
      = ((chans bx loc n t).map fun c => ∑ j ∈ range vec, Q (c * vec + j) * k (vec * ka + (c * vec + j))).sum := by
    intro t ht
    unfold dotPart
    rw [vred_eq, list_finset_comm]
    refine sum_congr rfl fun j hj => ?_
    rw [foldl_add_at]
    refine list_sum_congr fun c hc => ?_
    rw [hQ t (mem_range.1 ht) c hc j (mem_range.1 hj)]
    unfold vload
    rw [show vec * (ka + c) + j = vec * ka + (c * vec + j) by ring]
  rw [sum_congr rfl h1, sum_chans hb hl, Filter.sum_range_blocks]

/-! ### Addresses -/

/-- One head of a packed tensor `(B, H, W, nh * C)`, heads folded into the batch. -/
def headView (H W nh C : ℕ) (a : ℕ → ℝ) : T4 := fun bh c h w => a (((bh / nh * H + h) * W + w) * (nh * C) + (bh % nh * C + c))

theorem addr_eq {H W nh nc vec bh h w c j : ℕ} :
    vec * (headBase H W nh nc bh + cellOff W nh nc h w + c) + j
      = ((bh / nh * H + h) * W + w) * (nh * (nc * vec)) + (bh % nh * (nc * vec) + (c * vec + j)) := by
  unfold headBase cellOff
  dsimp only
  have : bh - bh / nh * nh = bh % nh := by
    have := Nat.div_add_mod bh nh
    rw [Nat.mul_comm] at this
    omega
  rw [this]
  ring

theorem gatherPoint_eq (P : Pattern) {nlonIn : ℕ} (pscale wo z : ℕ) :
    gatherPoint P nlonIn pscale wo z = (P.col z / nlonIn, (P.col z % nlonIn + pscale * wo) % nlonIn) := by
  have e : ∀ x : ℕ, x - x / nlonIn * nlonIn = x % nlonIn := by
    intro x
    have := Nat.div_add_mod x nlonIn
    rw [Nat.mul_comm] at this
    omega
  unfold gatherPoint
  simp only [e]

/-! ### The gather group -/

/-- A configuration whose loops fit the channel counts. -/
structure CfgOk (cf : Config) (nci nco : ℕ) : Prop where
  grp : GroupOk cf.bx
  rows : 0 < cf.by'
  inC : LocOk cf.bx cf.locI nci
  outC : LocOk cf.bx cf.locO nco

/-- The threads of a group agree with the sequential loop. -/
def Agree (vec : ℕ) (cf : Config) (nco : ℕ) (s : ℕ → FwdThr) (o : Online) : Prop :=
  ∀ t < cf.bx, (s t).alphaSum = o.alphaSum ∧ (s t).qdotkMax = o.qdotkMax ∧
    ∀ c ∈ chans cf.bx cf.locO nco t, ∀ j < vec, (s t).y c j = o.y (c * vec + j)

theorem agree_step {vec : ℕ} {cf : Config} {nci nco : ℕ} (hc : CfgOk cf nci nco) (qv : ℕ → ℕ → ℕ → ℝ) (k v : ℕ → ℝ) (ka va : ℕ) (quad : ℝ)
    (Q : ℕ → ℝ) (hQ : ∀ t < cf.bx, ∀ c ∈ chans cf.bx cf.locI nci t, ∀ j < vec, qv t c j = Q (c * vec + j))
    {s : ℕ → FwdThr} {o : Online} (h : Agree vec cf nco s o) :
    Agree vec cf nco (fwdStep vec cf.bx (chans cf.bx cf.locI nci) (chans cf.bx cf.locO nco) qv k v ka va quad s)
      (onlineStep o (∑ e ∈ range (nci * vec), Q e * k (vec * ka + e)) quad (fun e => v (vec * va + e))) := by
  intro t ht
  obtain ⟨h1, h2, h3⟩ := h t ht
  have hd : groupSum cf.bx (fun t => dotPart vec (chans cf.bx cf.locI nci t) (qv t) k ka) t
      = ∑ e ∈ range (nci * vec), Q e * k (vec * ka + e) := by
    rw [groupSum_eq hc.grp _ ht, sum_dotPart hc.grp.1 hc.inC qv k ka Q hQ]
  unfold fwdStep onlineStep
  dsimp only
  rw [hd, h1, h2]
  refine ⟨rfl, rfl, fun c hcc j hj => ?_⟩
  generalize max o.qdotkMax (∑ e ∈ range (nci * vec), Q e * k (vec * ka + e)) = m
  generalize Real.exp ((∑ e ∈ range (nci * vec), Q e * k (vec * ka + e)) - m) * quad = alpha
  rw [foldl_update_at _ (chans_nodup hc.grp.1) (fun c (y : ℕ → ℝ) => fun j => Real.exp (o.qdotkMax - m) * y j + alpha * vload vec v (va + c) j),
    if_pos hcc]
  rw [h3 c hcc j hj, mul_comm (Real.exp _) (o.y _)]
  unfold vload
  rw [show vec * (va + c) + j = vec * va + (c * vec + j) by ring]

/-- The state of a group after the loop over the neighbours. -/
theorem fwdGroup_agree {vec : ℕ} {cf : Config} {d : Dims} (hc : CfgOk cf d.Ck d.Cv) (nh : ℕ) (w : ℕ → ℝ) (P : Pattern) (k v q : ℕ → ℝ)
    (fmin : ℝ) (junk : ℕ → ℕ → ℕ → ℝ) (bh ho wo : ℕ) :
    Agree vec cf d.Cv (fwdGroup vec cf d nh w P k v q fmin junk bh ho wo)
      (onlineFold (gatherNbrs P d.nlonIn (d.nlonIn / d.nlonOut) ho wo) (fun p => w p.1)
        (score (d.Ck * vec) (headView d.nlatIn d.nlonIn nh (d.Ck * vec) k) (headView d.nlatOut d.nlonOut nh (d.Ck * vec) q) bh ho wo)
        (fun p e => headView d.nlatIn d.nlonIn nh (d.Cv * vec) v bh e p.1 p.2) ⟨0, fmin, fun _ => 0⟩) := by
  unfold fwdGroup onlineFold gatherNbrs
  dsimp only
  rw [List.foldl_map]
  set qa := headBase d.nlatOut d.nlonOut nh d.Ck bh + cellOff d.nlonOut nh d.Ck ho wo with hqa
  set qv := fun t => if cf.staged = true then (chans cf.bx cf.locI d.Ck t).foldl (fun sh c => Function.update sh c (vload vec q (qa + c))) (junk t)
    else fun c => vload vec q (qa + c) with hqv
  have hQ : ∀ t < cf.bx, ∀ c ∈ chans cf.bx cf.locI d.Ck t, ∀ j < vec,
      qv t c j = headView d.nlatOut d.nlonOut nh (d.Ck * vec) q bh (c * vec + j) ho wo := by
    intro t ht c hcc j _
    have e : vload vec q (qa + c) j = headView d.nlatOut d.nlonOut nh (d.Ck * vec) q bh (c * vec + j) ho wo := by
      unfold vload headView
      rw [hqa, addr_eq]
    rw [hqv]
    dsimp only
    split_ifs
    · rw [foldl_update_at _ (chans_nodup hc.grp.1) (fun c _ => vload vec q (qa + c)), if_pos hcc, e]
    · exact e
  have init : Agree vec cf d.Cv (fun t => ⟨0, fmin, (chans cf.bx cf.locO d.Cv t).foldl (fun y c => Function.update y c fun _ => 0) (junk t)⟩)
      ⟨0, fmin, fun _ => 0⟩ := by
    intro t ht
    refine ⟨rfl, rfl, fun c hcc j _ => ?_⟩
    dsimp only
    rw [foldl_update_at _ (chans_nodup hc.grp.1) (fun _ _ => fun _ => (0 : ℝ)), if_pos hcc]
  have step : ∀ z s o, Agree vec cf d.Cv s o → Agree vec cf d.Cv
      (fwdStep vec cf.bx (chans cf.bx cf.locI d.Ck) (chans cf.bx cf.locO d.Cv) qv k v
        (headBase d.nlatIn d.nlonIn nh d.Ck bh + cellOff d.nlonIn nh d.Ck (gatherPoint P d.nlonIn (d.nlonIn / d.nlonOut) wo z).1
          (gatherPoint P d.nlonIn (d.nlonIn / d.nlonOut) wo z).2)
        (headBase d.nlatIn d.nlonIn nh d.Cv bh + cellOff d.nlonIn nh d.Cv (gatherPoint P d.nlonIn (d.nlonIn / d.nlonOut) wo z).1
          (gatherPoint P d.nlonIn (d.nlonIn / d.nlonOut) wo z).2) (w (gatherPoint P d.nlonIn (d.nlonIn / d.nlonOut) wo z).1) s)
      (onlineStep o (score (d.Ck * vec) (headView d.nlatIn d.nlonIn nh (d.Ck * vec) k) (headView d.nlatOut d.nlonOut nh (d.Ck * vec) q) bh ho wo
          (P.col z / d.nlonIn, (P.col z % d.nlonIn + d.nlonIn / d.nlonOut * wo) % d.nlonIn)) (w (P.col z / d.nlonIn))
        (fun e => headView d.nlatIn d.nlonIn nh (d.Cv * vec) v bh e (P.col z / d.nlonIn)
          ((P.col z % d.nlonIn + d.nlonIn / d.nlonOut * wo) % d.nlonIn))) := by
    intro z s o h
    have := agree_step hc qv k v
      (headBase d.nlatIn d.nlonIn nh d.Ck bh + cellOff d.nlonIn nh d.Ck (gatherPoint P d.nlonIn (d.nlonIn / d.nlonOut) wo z).1
        (gatherPoint P d.nlonIn (d.nlonIn / d.nlonOut) wo z).2)
      (headBase d.nlatIn d.nlonIn nh d.Cv bh + cellOff d.nlonIn nh d.Cv (gatherPoint P d.nlonIn (d.nlonIn / d.nlonOut) wo z).1
        (gatherPoint P d.nlonIn (d.nlonIn / d.nlonOut) wo z).2) (w (gatherPoint P d.nlonIn (d.nlonIn / d.nlonOut) wo z).1)
      (fun e => headView d.nlatOut d.nlonOut nh (d.Ck * vec) q bh e ho wo) hQ h
    rw [gatherPoint_eq] at this ⊢
    have ek : ∀ (C e h x : ℕ) (a : ℕ → ℝ), a (vec * (headBase d.nlatIn d.nlonIn nh C bh + cellOff d.nlonIn nh C h x) + e)
        = headView d.nlatIn d.nlonIn nh (C * vec) a bh e h x := by
      intro C e h x a
      have := addr_eq (H := d.nlatIn) (W := d.nlonIn) (nh := nh) (nc := C) (vec := vec) (bh := bh) (h := h) (w := x) (c := 0) (j := e)
      simp only [Nat.add_zero, Nat.zero_mul, Nat.zero_add] at this
      unfold headView
      rw [this]
    simp only [ek] at this
    exact this
  clear_value qv
  generalize hs0 : (fun t => (⟨0, fmin, (chans cf.bx cf.locO d.Cv t).foldl (fun y c => Function.update y c fun _ => 0) (junk t)⟩ : FwdThr)) = s0 at init ⊢
  generalize ho0 : (⟨0, fmin, fun _ => 0⟩ : Online) = o0 at init ⊢
  clear hs0 ho0
  induction P.row ho generalizing s0 o0 with
  | nil => exact init
  | cons z L ih =>
    rw [List.foldl_cons, List.foldl_cons]
    exact ih _ _ (step z s0 o0 init)

/-- What a group writes. -/
theorem fwdGroup_out {vec : ℕ} {cf : Config} {d : Dims} (hc : CfgOk cf d.Ck d.Cv) (nh : ℕ) (w : ℕ → ℝ) (P : Pattern) (k v q : ℕ → ℝ)
    (fmin : ℝ) (junk : ℕ → ℕ → ℕ → ℝ) (bh ho wo : ℕ) {t : ℕ} (ht : t < cf.bx) {c : ℕ} (hcc : c ∈ chans cf.bx cf.locO d.Cv t) {j : ℕ} (hj : j < vec) :
    1 / (fwdGroup vec cf d nh w P k v q fmin junk bh ho wo t).alphaSum * (fwdGroup vec cf d nh w P k v q fmin junk bh ho wo t).y c j
      = attention (d.Ck * vec) w (gatherNbrs P d.nlonIn (d.nlonIn / d.nlonOut)) (headView d.nlatIn d.nlonIn nh (d.Ck * vec) k)
        (headView d.nlatIn d.nlonIn nh (d.Cv * vec) v) (headView d.nlatOut d.nlonOut nh (d.Ck * vec) q) bh (c * vec + j) ho wo := by
  obtain ⟨h1, -, h3⟩ := fwdGroup_agree (vec := vec) hc nh w P k v q fmin junk bh ho wo t ht
  rw [h1, h3 c hcc j hj, one_div_mul_eq_div, onlineFold_avg]
  rfl

end Verif.AttnGpu
