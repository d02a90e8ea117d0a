import Verif.Lemmas.AttentionCudaLaunch
/-!
The output array of the GPU gather kernels.
-/
namespace Verif.AttnGpu
open Verif Verif.Attn Verif.Spec.Attn Finset

/-- The orders in which a run takes up rows and performs stores are complete. -/
structure RunOk (r : GpuRun) (nlatOut : ℕ) : Prop where
  perm : ∀ L, (r.perm L).Perm L
  rows : ((List.range nlatOut).map r.rowIdx).Perm (List.range nlatOut)

theorem RunOk.row_lt {r : GpuRun} {n : ℕ} (hr : RunOk r n) {h : ℕ} (hh : h < n) : r.rowIdx h < n :=
  List.mem_range.1 (hr.rows.subset (List.mem_map_of_mem (List.mem_range.2 hh)))

theorem RunOk.row_surj {r : GpuRun} {n : ℕ} (hr : RunOk r n) {h : ℕ} (hh : h < n) : ∃ h' < n, r.rowIdx h' = h := by
  obtain ⟨h', h1, h2⟩ := List.mem_map.1 (hr.rows.symm.subset (List.mem_range.2 hh))
  exact ⟨h', List.mem_range.1 h1, h2⟩

theorem mem_overGrid {α : Type} {bhs gx by' : ℕ} {f : ℕ → ℕ → List α} {a : α} :
    a ∈ overGrid bhs gx by' f ↔ ∃ bh < bhs, ∃ wid < gx * by', a ∈ f bh wid := by
  unfold overGrid
  simp only [List.mem_flatMap, List.mem_range]

theorem le_divUp_mul {n b : ℕ} (hb : 0 < b) : n ≤ divUp n b * b := by
  unfold divUp
  have e := Nat.div_add_mod (n + (b - 1)) b
  have l := Nat.mod_lt (n + (b - 1)) hb
  rw [Nat.mul_comm] at e
  omega

/-- Stores that all agree with `F` leave `F` wherever something is stored. -/
theorem stores_ok (size : ℕ) (L : List (ℕ × ℝ)) (F : ℕ → ℝ) (h : ∀ a ∈ L, a.1 < size ∧ a.2 = F a.1) (mem : ℕ → ℝ) :
    ∃ out, L.foldlM (storeTo size) mem = .ok out ∧ (∀ a ∈ L, out a.1 = F a.1) ∧ ∀ i, (∀ a ∈ L, a.1 ≠ i) → out i = mem i := by
  induction L using List.reverseRecOn with
  | nil => exact ⟨mem, rfl, by simp, fun _ _ => rfl⟩
  | append_singleton L a ih =>
    obtain ⟨out, h1, h2, h3⟩ := ih (fun b hb => h b (List.mem_append_left _ hb))
    obtain ⟨ha1, ha2⟩ := h a (List.mem_append_right _ List.mem_cons_self)
    refine ⟨Function.update out a.1 a.2, ?_, ?_, ?_⟩
    · rw [List.foldlM_append, h1]
      change ([a].foldlM (storeTo size) out) = _
      rw [List.foldlM_cons]
      unfold storeTo Disco.store
      rw [if_pos ha1]
      rfl
    · intro b hb
      by_cases hab : b.1 = a.1
      · rw [hab, Function.update_self, ha2]
      · rw [Function.update_of_ne hab]
        rw [List.mem_append, List.mem_singleton] at hb
        rcases hb with hb | rfl
        · exact h2 b hb
        · exact absurd rfl hab
    · intro i hi
      rw [Function.update_of_ne (fun e => hi a (List.mem_append_right _ List.mem_cons_self) e.symm)]
      exact h3 i fun b hb => hi b (List.mem_append_left _ hb)

/-- The packed array of a tensor given head by head. -/
def unhead (H W nh C : ℕ) (x : T4) (i : ℕ) : ℝ :=
  x (i / (nh * C) / W / H * nh + i % (nh * C) / C) (i % (nh * C) % C) (i / (nh * C) / W % H) (i / (nh * C) % W)

theorem div_mul_add {a b c : ℕ} (h : c < b) : (a * b + c) / b = a ∧ (a * b + c) % b = c := by
  have hb : 0 < b := by omega
  rw [Nat.mul_comm a b]
  exact ⟨by rw [Nat.mul_add_div hb, Nat.div_eq_of_lt h, Nat.add_zero], by rw [Nat.mul_add_mod, Nat.mod_eq_of_lt h]⟩

theorem unhead_addr {H W nh C bh c h w : ℕ} (x : T4) (hn : 0 < nh) (hc : c < C) (hh : h < H) (hw : w < W) :
    unhead H W nh C x (((bh / nh * H + h) * W + w) * (nh * C) + (bh % nh * C + c)) = x bh c h w := by
  have hp : bh % nh * C + c < nh * C := packed_lt (Nat.mod_lt _ hn) hc
  obtain ⟨e1, e2⟩ := div_mul_add (a := (bh / nh * H + h) * W + w) hp
  obtain ⟨e3, e4⟩ := div_mul_add (a := bh % nh) hc
  obtain ⟨e5, e6⟩ := div_mul_add (a := bh / nh * H + h) hw
  obtain ⟨e7, e8⟩ := div_mul_add (a := bh / nh) hh
  unfold unhead
  rw [e1, e2, e3, e4, e5, e6, e7, e8]
  have := Nat.div_add_mod bh nh
  rw [Nat.mul_comm] at this
  rw [this]

theorem addr_lt {B H W nh C bh c h w : ℕ} (hn : 0 < nh) (hb : bh < B * nh) (hc : c < C) (hh : h < H) (hw : w < W) :
    ((bh / nh * H + h) * W + w) * (nh * C) + (bh % nh * C + c) < B * H * W * (C * nh) := by
  rw [Nat.mul_comm C nh]
  refine packed_lt (packed_lt (packed_lt ?_ hh) hw) (packed_lt (Nat.mod_lt _ hn) hc)
  exact Nat.div_lt_of_lt_mul (by rw [Nat.mul_comm]; exact hb)

theorem addr_surj {B H W nh C i : ℕ} (hi : i < B * H * W * (C * nh)) :
    ∃ bh < B * nh, ∃ c < C, ∃ h < H, ∃ w < W, ((bh / nh * H + h) * W + w) * (nh * C) + (bh % nh * C + c) = i := by
  rw [Nat.mul_comm C nh] at hi
  obtain ⟨a1, a2, a3⟩ := packed_split hi
  obtain ⟨b1, b2, b3⟩ := packed_split a1
  obtain ⟨c1, c2, c3⟩ := packed_split b1
  obtain ⟨d1, d2, d3⟩ := packed_split a2
  refine ⟨i / (nh * C) / W / H * nh + i % (nh * C) / C, packed_lt c1 d1, _, d2, _, c2, _, b2, ?_⟩
  obtain ⟨e1, e2⟩ := div_mul_add (a := i / (nh * C) / W / H) d1
  rw [e1, e2, c3, b3, d3, a3]

/-- The stores of a gather kernel fill the output with attention and touch nothing else. -/
theorem gather_stores {vec : ℕ} {cf : Config} {d : Dims} (hc : CfgOk cf d.Ck d.Cv) {nh : ℕ} (hn : 0 < nh) (w : ℕ → ℝ) (P : Pattern)
    (k v q : ℕ → ℝ) (r : GpuRun) (hr : RunOk r d.nlatOut) (size : ℕ) (hsize : size = d.B * d.nlatOut * d.nlonOut * (d.Cv * vec * nh)) :
    ∃ out, (r.perm (overGrid (d.B * nh) (divUp (d.nlatOut * d.nlonOut) cf.by') cf.by' (fwdStores vec cf d nh w P k v q r))).foldlM
        (storeTo size) r.mem = .ok out ∧
      (∀ bh < d.B * nh, ∀ c < d.Cv * vec, ∀ ho < d.nlatOut, ∀ wo < d.nlonOut, headView d.nlatOut d.nlonOut nh (d.Cv * vec) out bh c ho wo
        = attention (d.Ck * vec) w (gatherNbrs P d.nlonIn (d.nlonIn / d.nlonOut)) (headView d.nlatIn d.nlonIn nh (d.Ck * vec) k)
          (headView d.nlatIn d.nlonIn nh (d.Cv * vec) v) (headView d.nlatOut d.nlonOut nh (d.Ck * vec) q) bh c ho wo) ∧
      ∀ i, size ≤ i → out i = r.mem i := by
  set X : T4 := attention (d.Ck * vec) w (gatherNbrs P d.nlonIn (d.nlonIn / d.nlonOut)) (headView d.nlatIn d.nlonIn nh (d.Ck * vec) k)
    (headView d.nlatIn d.nlonIn nh (d.Cv * vec) v) (headView d.nlatOut d.nlonOut nh (d.Ck * vec) q) with hX
  set L := overGrid (d.B * nh) (divUp (d.nlatOut * d.nlonOut) cf.by') cf.by' (fwdStores vec cf d nh w P k v q r) with hL
  have hperm := hr.perm L
  have split : ∀ x W : ℕ, x - x / W * W = x % W := by
    intro x W
    have := Nat.div_add_mod x W
    rw [Nat.mul_comm] at this
    omega
  have hmem : ∀ a : ℕ × ℝ, a ∈ L ↔ ∃ bh < d.B * nh, ∃ wid < d.nlatOut * d.nlonOut, ∃ t < cf.bx, ∃ c ∈ chans cf.bx cf.locO d.Cv t, ∃ j < vec,
      a = (vec * (headBase d.nlatOut d.nlonOut nh d.Cv bh + cellOff d.nlonOut nh d.Cv (r.rowIdx (wid / d.nlonOut)) (wid % d.nlonOut) + c) + j,
        X bh (c * vec + j) (r.rowIdx (wid / d.nlonOut)) (wid % d.nlonOut)) := by
    intro a
    rw [hL, mem_overGrid]
    constructor
    · rintro ⟨bh, hbh, wid, -, ha⟩
      unfold fwdStores at ha
      split_ifs at ha with hw
      · simp at ha
      · simp only [List.mem_flatMap, List.mem_range, List.mem_map, split] at ha
        obtain ⟨t, ht, c, hcc, j, hj, rfl⟩ := ha
        refine ⟨bh, hbh, wid, by omega, t, ht, c, hcc, j, hj, ?_⟩
        rw [fwdGroup_out hc nh w P k v q _ _ bh _ _ ht hcc hj]
    · rintro ⟨bh, hbh, wid, hw, t, ht, c, hcc, j, hj, rfl⟩
      refine ⟨bh, hbh, wid, lt_of_lt_of_le hw (le_divUp_mul hc.rows), ?_⟩
      unfold fwdStores
      rw [if_neg (by omega)]
      simp only [List.mem_flatMap, List.mem_range, List.mem_map, split]
      refine ⟨t, ht, c, hcc, j, hj, ?_⟩
      rw [fwdGroup_out hc nh w P k v q _ _ bh _ _ ht hcc hj]
  have hcell : ∀ {wid : ℕ}, wid < d.nlatOut * d.nlonOut → wid / d.nlonOut < d.nlatOut ∧ wid % d.nlonOut < d.nlonOut := by
    intro wid hw
    exact ⟨(packed_split hw).1, (packed_split hw).2.1⟩
  have hin : ∀ a ∈ r.perm L, a.1 < size ∧ a.2 = unhead d.nlatOut d.nlonOut nh (d.Cv * vec) X a.1 := by
    intro a ha
    obtain ⟨bh, hbh, wid, hw, t, ht, c, hcc, j, hj, rfl⟩ := (hmem a).1 (hperm.subset ha)
    obtain ⟨h1, h2⟩ := hcell hw
    have h3 := hr.row_lt h1
    have h4 : c * vec + j < d.Cv * vec := packed_lt ((mem_chans hc.grp.1 hc.outC ht).1 hcc).1 hj
    rw [addr_eq, hsize]
    exact ⟨addr_lt hn hbh h4 h3 h2, (unhead_addr X hn h4 h3 h2).symm⟩
  obtain ⟨out, o1, o2, o3⟩ := stores_ok size (r.perm L) _ hin r.mem
  refine ⟨out, o1, ?_, fun i hi => o3 i fun a ha e => ?_⟩
  · intro bh hbh c hc' ho hho wo hwo
    obtain ⟨h', hh', e'⟩ := hr.row_surj hho
    obtain ⟨s1, s2, s3⟩ := packed_split hc'
    have hb := hc.grp.1
    have ht := Nat.mod_lt (c / vec) hb
    have hw : h' * d.nlonOut + wo < d.nlatOut * d.nlonOut := packed_lt hh' hwo
    obtain ⟨q1, q2⟩ := div_mul_add (a := h') hwo
    have := (hmem _).2 ⟨bh, hbh, h' * d.nlonOut + wo, hw, c / vec % cf.bx, ht, c / vec, (mem_chans hb hc.outC ht).2 ⟨s1, rfl⟩, c % vec, s2, rfl⟩
    have hfin := o2 _ (hperm.symm.subset this)
    dsimp only at hfin
    rw [q1, q2, e', addr_eq, s3, unhead_addr X hn hc' hho hwo] at hfin
    exact hfin
  · have := (hin a ha).1
    omega

end Verif.AttnGpu
