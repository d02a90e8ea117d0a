import Verif.Lemmas.AttentionCudaBwdGather
/-!
The GPU scatter backward kernels (upsampling): the three gradient arrays.
-/
namespace Verif.AttnGpu
open Verif Verif.Attn Verif.Spec.Attn Finset

theorem mem_strided_lt {n t c : ℕ} (ht : t < 32) (hc : c ∈ Disco.strided 32 n t) : c < n :=
  ((mem_chans (bx := 32) (by omega) (locOk_none 32 n) ht).1 hc).1

/-- Stores of one warp per point. -/
theorem warp_stores {perm : List (ℕ × ℝ) → List (ℕ × ℝ)} (hperm : ∀ L, (perm L).Perm L) {B nh H W C : ℕ} (hn : 0 < nh)
    (ops : ℕ → ℕ → List (ℕ × ℝ)) (X : T4) (hout : ∀ bh wid, wid ≥ H * W → ops bh wid = [])
    (Y : ℕ → ℕ → ℕ → ℕ → ℕ → ℝ) (hY : ∀ bh < B * nh, ∀ h < H, ∀ w < W, ∀ t < 32, ∀ c ∈ Disco.strided 32 C t, Y bh h w t c = X bh c h w)
    (hops : ∀ bh, ∀ h < H, ∀ w < W, ops bh (h * W + w) = (List.range 32).flatMap fun t => (Disco.strided 32 C t).map fun c =>
      (((bh / nh * H + h) * W + w) * (nh * C) + (bh % nh * C + c), Y bh h w t c)) :
    ∃ out, (perm (overGrid (B * nh) (divUp (H * W) 2) 2 ops)).foldlM (storeTo (B * H * W * (C * nh))) (fun _ => (0 : ℝ)) = .ok out ∧
      ∀ bh < B * nh, ∀ c < C, ∀ h < H, ∀ w < W, headView H W nh C out bh c h w = X bh c h w := by
  have hp := hperm (overGrid (B * nh) (divUp (H * W) 2) 2 ops)
  obtain ⟨out, o1, o2, -⟩ := stores_ok (B * H * W * (C * nh)) (perm (overGrid (B * nh) (divUp (H * W) 2) 2 ops)) (unhead H W nh C X) (fun a ha => by
    obtain ⟨bh, hb, wid, _, ha⟩ := mem_overGrid.1 (hp.subset ha)
    by_cases hw : wid ≥ H * W
    · rw [hout bh wid hw] at ha
      simp at ha
    · obtain ⟨hh, hw'⟩ := split_wid hw
      have e : wid / W * W + wid % W = wid := by rw [Nat.mul_comm, Nat.div_add_mod]
      rw [← e, hops bh _ hh _ hw'] at ha
      obtain ⟨t, ht, ha⟩ := List.mem_flatMap.1 ha
      obtain ⟨c, hc, rfl⟩ := List.mem_map.1 ha
      have hc' := mem_strided_lt (List.mem_range.1 ht) hc
      exact ⟨addr_lt hn hb hc' hh hw', by rw [unhead_addr X hn hc' hh hw']; exact hY bh hb _ hh _ hw' t (List.mem_range.1 ht) c hc⟩) (fun _ => 0)
  refine ⟨out, o1, fun bh hb c hc h hh w hw => ?_⟩
  have ht : c % 32 < 32 := Nat.mod_lt _ (by omega)
  have hcs : c ∈ Disco.strided 32 C (c % 32) := (mem_chans (bx := 32) (by omega) (locOk_none 32 C) ht).2 ⟨hc, rfl⟩
  have hmem : (((bh / nh * H + h) * W + w) * (nh * C) + (bh % nh * C + c), Y bh h w (c % 32) c) ∈ perm (overGrid (B * nh) (divUp (H * W) 2) 2 ops) := by
    refine hp.symm.subset (mem_overGrid.2 ⟨bh, hb, h * W + w, lt_of_lt_of_le (packed_lt hh hw) (le_divUp_mul (by omega)), ?_⟩)
    rw [hops bh h hh w hw]
    exact List.mem_flatMap.2 ⟨c % 32, List.mem_range.2 ht, List.mem_map.2 ⟨c, hcs, rfl⟩⟩
  have := o2 _ hmem
  dsimp only at this
  rw [unhead_addr X hn hc hh hw] at this
  exact this

/-! ### Atomic additions to the scratch arrays -/

section
variable {perm : List (ℕ × ℝ) → List (ℕ × ℝ)} (hperm : ∀ L, (perm L).Perm L) {P : Pattern} {d : Dims} {nh : ℕ}
  (hfit : P.Fits d.nlatIn (d.nlatOut * d.nlonOut)) (hdiv : d.nlonOut % d.nlonIn = 0) (h0 : 0 < d.nlonOut) (ops : ℕ → ℕ → List (ℕ × ℝ))
  (hout : ∀ bh wid, wid ≥ d.nlatIn * d.nlonIn → ops bh wid = [])
include hperm hfit hdiv h0 hout

/-- One number per output point. -/
theorem scatter_adds (F : ℕ → ℕ → ℕ → ℕ × ℕ → ℝ)
    (hops : ∀ bh, ∀ hi < d.nlatIn, ∀ wi < d.nlonIn, ops bh (hi * d.nlonIn + wi) = (P.row hi).map fun z =>
      (bh * d.nlatOut * d.nlonOut + ((scatterPoint P d.nlonIn d.nlonOut wi z).1 * d.nlonOut + (scatterPoint P d.nlonIn d.nlonOut wi z).2),
        F bh (scatterPoint P d.nlonIn d.nlonOut wi z).1 (scatterPoint P d.nlonIn d.nlonOut wi z).2 (hi, wi))) :
    ∃ D, (perm (overGrid (d.B * nh) (divUp (d.nlatIn * d.nlonIn) 2) 2 ops)).foldlM (Disco.atomicAddTo (d.B * nh * d.nlatOut * d.nlonOut))
        (fun _ => (0 : ℝ)) = .ok D ∧
      ∀ bh < d.B * nh, ∀ ho < d.nlatOut, ∀ wo < d.nlonOut, D (bh * d.nlatOut * d.nlonOut + (ho * d.nlonOut + wo))
        = ((scatterNbrs P d.nlatIn d.nlonIn d.nlonOut (d.nlonOut / d.nlonIn) ho wo).map (F bh ho wo)).sum := by
  have hp := hperm (overGrid (d.B * nh) (divUp (d.nlatIn * d.nlonIn) 2) 2 ops)
  obtain ⟨D, h1, h2⟩ := Disco.atomicAddTo_fold (d.B * nh * d.nlatOut * d.nlonOut)
    (perm (overGrid (d.B * nh) (divUp (d.nlatIn * d.nlonIn) 2) 2 ops)) (fun a ha => by
      obtain ⟨bh, hb, wid, _, ha⟩ := mem_overGrid.1 (hp.subset ha)
      by_cases hw : wid ≥ d.nlatIn * d.nlonIn
      · rw [hout bh wid hw] at ha
        simp at ha
      · obtain ⟨hh, hw'⟩ := split_wid hw
        have e : wid / d.nlonIn * d.nlonIn + wid % d.nlonIn = wid := by rw [Nat.mul_comm, Nat.div_add_mod]
        rw [← e, hops bh _ hh _ hw'] at ha
        obtain ⟨z, hz, rfl⟩ := List.mem_map.1 ha
        have := scatter_cell_lt hfit hdiv h0 hh hw' hz
        exact cell_lt hb this.1 this.2) (fun _ => (0 : ℝ))
  refine ⟨D, h1, fun bh hb ho hho wo hwo => ?_⟩
  rw [h2, Disco.addsAt_perm hp, zero_add, addsAt_grid_self (H := d.nlatIn) (W := d.nlonIn) (le_divUp_mul (by omega)) _ hout,
    ← sum_scatter P hdiv h0 hb ho wo (fun bh p => F bh ho wo p)]
  refine sum_congr rfl fun bh' _ => sum_congr rfl fun hi hhi => sum_congr rfl fun wi hwi => ?_
  rw [mem_range] at hhi hwi
  rw [hops bh' hi hhi wi hwi, addsAt_cell (P.row hi) (fun z => scatterPoint P d.nlonIn d.nlonOut wi z)
    (fun z hz => scatter_cell_lt hfit hdiv h0 hhi hwi hz) hho hwo
    (fun z => F bh' (scatterPoint P d.nlonIn d.nlonOut wi z).1 (scatterPoint P d.nlonIn d.nlonOut wi z).2 (hi, wi))]
  refine list_sum_congr fun z hz => ?_
  by_cases hc : bh' = bh ∧ scatterPoint P d.nlonIn d.nlonOut wi z = (ho, wo)
  · rw [if_pos hc, if_pos hc, hc.2]
  · rw [if_neg hc, if_neg hc]

/-- `K` numbers per output point. -/
theorem scatter_addsK {K : ℕ} (F : ℕ → ℕ → ℕ → ℕ × ℕ → ℕ → ℝ) (Y : ℕ → ℕ → ℕ → ℕ → ℕ → ℕ → ℝ)
    (hY : ∀ bh, ∀ hi < d.nlatIn, ∀ wi < d.nlonIn, ∀ z, ∀ t < 32, ∀ c ∈ Disco.strided 32 K t, Y bh hi wi z t c
      = F bh (scatterPoint P d.nlonIn d.nlonOut wi z).1 (scatterPoint P d.nlonIn d.nlonOut wi z).2 (hi, wi) c)
    (hops : ∀ bh, ∀ hi < d.nlatIn, ∀ wi < d.nlonIn, ops bh (hi * d.nlonIn + wi) = (P.row hi).flatMap fun z =>
      (List.range 32).flatMap fun t => (Disco.strided 32 K t).map fun c =>
        (bh * d.nlatOut * d.nlonOut * K + ((scatterPoint P d.nlonIn d.nlonOut wi z).1 * d.nlonOut + (scatterPoint P d.nlonIn d.nlonOut wi z).2) * K + c,
          Y bh hi wi z t c)) :
    ∃ D, (perm (overGrid (d.B * nh) (divUp (d.nlatIn * d.nlonIn) 2) 2 ops)).foldlM (Disco.atomicAddTo (d.B * nh * d.nlatOut * d.nlonOut * K))
        (fun _ => (0 : ℝ)) = .ok D ∧
      ∀ bh < d.B * nh, ∀ ho < d.nlatOut, ∀ wo < d.nlonOut, ∀ c < K, D ((bh * d.nlatOut * d.nlonOut + (ho * d.nlonOut + wo)) * K + c)
        = ((scatterNbrs P d.nlatIn d.nlonIn d.nlonOut (d.nlonOut / d.nlonIn) ho wo).map fun p => F bh ho wo p c).sum := by
  have hp := hperm (overGrid (d.B * nh) (divUp (d.nlatIn * d.nlonIn) 2) 2 ops)
  obtain ⟨D, h1, h2⟩ := Disco.atomicAddTo_fold (d.B * nh * d.nlatOut * d.nlonOut * K)
    (perm (overGrid (d.B * nh) (divUp (d.nlatIn * d.nlonIn) 2) 2 ops)) (fun a ha => by
      obtain ⟨bh, hb, wid, _, ha⟩ := mem_overGrid.1 (hp.subset ha)
      by_cases hw : wid ≥ d.nlatIn * d.nlonIn
      · rw [hout bh wid hw] at ha
        simp at ha
      · obtain ⟨hh, hw'⟩ := split_wid hw
        have e : wid / d.nlonIn * d.nlonIn + wid % d.nlonIn = wid := by rw [Nat.mul_comm, Nat.div_add_mod]
        rw [← e, hops bh _ hh _ hw'] at ha
        obtain ⟨z, hz, ha⟩ := List.mem_flatMap.1 ha
        obtain ⟨t, ht, ha⟩ := List.mem_flatMap.1 ha
        obtain ⟨c, hc, rfl⟩ := List.mem_map.1 ha
        have := scatter_cell_lt hfit hdiv h0 hh hw' hz
        have := packed_lt (cell_lt hb this.1 this.2) (mem_strided_lt (List.mem_range.1 ht) hc)
        rw [Nat.add_mul] at this
        exact this) (fun _ => (0 : ℝ))
  refine ⟨D, h1, fun bh hb ho hho wo hwo c hc => ?_⟩
  rw [h2, Disco.addsAt_perm hp, zero_add, addsAt_grid_self (H := d.nlatIn) (W := d.nlonIn) (le_divUp_mul (by omega)) _ hout,
    ← sum_scatter P hdiv h0 hb ho wo (fun bh p => F bh ho wo p c)]
  refine sum_congr rfl fun bh' _ => sum_congr rfl fun hi hhi => sum_congr rfl fun wi hwi => ?_
  rw [mem_range] at hhi hwi
  rw [Nat.add_mul, hops bh' hi hhi wi hwi, addsAt_cells (P.row hi) (fun z => scatterPoint P d.nlonIn d.nlonOut wi z)
    (fun z hz => scatter_cell_lt hfit hdiv h0 hhi hwi hz) hho hwo hc (fun z t c => Y bh' hi wi z t c)
    (fun z c => F bh' (scatterPoint P d.nlonIn d.nlonOut wi z).1 (scatterPoint P d.nlonIn d.nlonOut wi z).2 (hi, wi) c)
    (fun z _ t ht c hc => hY bh' hi hhi wi hwi z t ht c hc)]
  refine list_sum_congr fun z hz => ?_
  by_cases hc : bh' = bh ∧ scatterPoint P d.nlonIn d.nlonOut wi z = (ho, wo)
  · rw [if_pos hc, if_pos hc, hc.2]
  · rw [if_neg hc, if_neg hc]

end

/-! ### What a warp computes -/

theorem warpBase_eq {H W nh C bh h w c : ℕ} :
    headBase H W nh C bh + (h * W + w) * (nh * C) + c = ((bh / nh * H + h) * W + w) * (nh * C) + (bh % nh * C + c) := by
  unfold headBase
  dsimp only
  rw [sub_div_mul]
  ring

section
variable (d : Dims) (nh : ℕ) (x : BwdIn)

theorem upG_eq (junk : ShJunk) (bh hi wi ho wo : ℕ) {t : ℕ} (ht : t < 32) :
    upG d nh (upVal d nh x.v junk bh hi wi) x.dy bh ho wo t
      = gdot d.Cv (headView d.nlatIn d.nlonIn nh d.Cv x.v) (headView d.nlatOut d.nlonOut nh d.Cv x.dy) bh ho wo (hi, wi) := by
  unfold upG gdot
  rw [warpDot_eq _ _ _ (fun c => headView d.nlatIn d.nlonIn nh d.Cv x.v bh c hi wi) (fun t _ c hc => upVal_eq _ _ _ _ _ _ _ hc) ht]
  refine sum_congr rfl fun c _ => ?_
  unfold headView
  rw [warpBase_eq, mul_comm]

theorem upKey_eq (junk : ShJunk) (bh hi wi : ℕ) {t c : ℕ} (hc : c ∈ Disco.strided 32 d.Ck t) :
    upKey d nh x.k junk bh hi wi t c = headView d.nlatIn d.nlonIn nh d.Ck x.k bh c hi wi := by
  unfold upKey headView
  rw [staged_at _ _ _ hc, warpBase_eq]

theorem upAlpha_eq (m : ℕ → ℝ) (junk : ShJunk) (bh hi wi : ℕ) (p : ℕ × ℕ) {t : ℕ} (ht : t < 32) :
    upAlpha d nh x.w m (upKey d nh x.k junk bh hi wi) x.q bh hi p t
      = relW d.Ck x.w (headView d.nlatIn d.nlonIn nh d.Ck x.k) (headView d.nlatOut d.nlonOut nh d.Ck x.q) bh p.1 p.2
        (m (bh * d.nlatOut * d.nlonOut + (p.1 * d.nlonOut + p.2))) (hi, wi) := by
  unfold upAlpha relW
  rw [upScore_eq _ _ _ _ _ _ _ _ _ _ ht]

theorem upAg_eq (m : ℕ → ℝ) (junk : ℕ → ℕ → ShJunk) (bh wid hi wi : ℕ) (p : ℕ × ℕ) {t : ℕ} (ht : t < 32) :
    upAg d nh x m junk bh wid hi wi p t
      = relW d.Ck x.w (headView d.nlatIn d.nlonIn nh d.Ck x.k) (headView d.nlatOut d.nlonOut nh d.Ck x.q) bh p.1 p.2
        (m (bh * d.nlatOut * d.nlonOut + (p.1 * d.nlonOut + p.2))) (hi, wi)
      * gdot d.Cv (headView d.nlatIn d.nlonIn nh d.Cv x.v) (headView d.nlatOut d.nlonOut nh d.Cv x.dy) bh p.1 p.2 (hi, wi) := by
  unfold upAg
  rw [upAlpha_eq d nh x m _ bh hi wi p ht, upG_eq d nh x _ bh hi wi p.1 p.2 ht]

end

/-- The accumulation in shared memory. -/
theorem upAcc_eq (n : ℕ) (junk : ℕ → ℝ) (L : List ℕ) (scale a : ℕ → ℝ) (base : ℕ → ℕ) {t c : ℕ} (hc : c ∈ Disco.strided 32 n t) :
    upAcc n junk L scale a base t c = (L.map fun z => scale z * a (base z + c)).sum := by
  have nd : (Disco.strided 32 n t).Nodup := chans_nodup (bx := 32) (n := n) (t := t) (loc := none) (by omega)
  unfold upAcc
  induction L using List.reverseRecOn with
  | nil =>
    have e := foldl_update_at (Disco.strided 32 n t) nd (fun _ (_ : ℝ) => (0 : ℝ)) junk c
    rw [if_pos hc] at e
    exact e
  | append_singleton L z ih =>
    rw [List.foldl_append, list_sum_snoc]
    have e := foldl_update_at (Disco.strided 32 n t) nd (fun c (y : ℝ) => y + scale z * a (base z + c))
      (L.foldl (fun sh z => (Disco.strided 32 n t).foldl (fun sh c => Function.update sh c (sh c + scale z * a (base z + c))) sh)
        ((Disco.strided 32 n t).foldl (fun sh c => Function.update sh c 0) junk)) c
    rw [if_pos hc, ih] at e
    exact e

/-! ### The passes together -/

/-- The launches of the scatter backward pass are all accepted. -/
def ScatterBwdLaunch (d : Dims) (nh : ℕ) : Prop :=
  launchOk (divUp (d.nlatIn * d.nlonIn) 2) (d.B * nh) (4 * (2 * d.Ck + 2 * d.Cv) * 2) ∧ launchOk (divUp (d.nlatOut * d.nlonOut) 2) (d.B * nh) 0

section
variable {r : BwdRun} {d : Dims} {nh : ℕ} {x : BwdIn} (hn : 0 < nh) (hperm : ∀ L, (r.perm L).Perm L)
  (hfit : x.P.Fits d.nlatIn (d.nlatOut * d.nlonOut)) (hdiv : d.nlonOut % d.nlonIn = 0) (h0 : 0 < d.nlonOut)

/-- The scratch arrays. -/
structure UpScratch (d : Dims) (nh : ℕ) (x : BwdIn) (m S Avw Ak Akvw : ℕ → ℝ) : Prop where
  den : ∀ bh < d.B * nh, ∀ ho < d.nlatOut, ∀ wo < d.nlonOut, S (bh * d.nlatOut * d.nlonOut + (ho * d.nlonOut + wo))
    = ((scatterNbrs x.P d.nlatIn d.nlonIn d.nlonOut (d.nlonOut / d.nlonIn) ho wo).map
      (relW d.Ck x.w (headView d.nlatIn d.nlonIn nh d.Ck x.k) (headView d.nlatOut d.nlonOut nh d.Ck x.q) bh ho wo
        (m (bh * d.nlatOut * d.nlonOut + (ho * d.nlonOut + wo))))).sum
  avw : ∀ bh < d.B * nh, ∀ ho < d.nlatOut, ∀ wo < d.nlonOut, Avw (bh * d.nlatOut * d.nlonOut + (ho * d.nlonOut + wo))
    = ((scatterNbrs x.P d.nlatIn d.nlonIn d.nlonOut (d.nlonOut / d.nlonIn) ho wo).map fun p =>
      relW d.Ck x.w (headView d.nlatIn d.nlonIn nh d.Ck x.k) (headView d.nlatOut d.nlonOut nh d.Ck x.q) bh ho wo
        (m (bh * d.nlatOut * d.nlonOut + (ho * d.nlonOut + wo))) p
      * gdot d.Cv (headView d.nlatIn d.nlonIn nh d.Cv x.v) (headView d.nlatOut d.nlonOut nh d.Cv x.dy) bh ho wo p).sum
  ak : ∀ bh < d.B * nh, ∀ ho < d.nlatOut, ∀ wo < d.nlonOut, ∀ c < d.Ck, Ak ((bh * d.nlatOut * d.nlonOut + (ho * d.nlonOut + wo)) * d.Ck + c)
    = ((scatterNbrs x.P d.nlatIn d.nlonIn d.nlonOut (d.nlonOut / d.nlonIn) ho wo).map fun p =>
      relW d.Ck x.w (headView d.nlatIn d.nlonIn nh d.Ck x.k) (headView d.nlatOut d.nlonOut nh d.Ck x.q) bh ho wo
        (m (bh * d.nlatOut * d.nlonOut + (ho * d.nlonOut + wo))) p * headView d.nlatIn d.nlonIn nh d.Ck x.k bh c p.1 p.2).sum
  akvw : ∀ bh < d.B * nh, ∀ ho < d.nlatOut, ∀ wo < d.nlonOut, ∀ c < d.Ck, Akvw ((bh * d.nlatOut * d.nlonOut + (ho * d.nlonOut + wo)) * d.Ck + c)
    = ((scatterNbrs x.P d.nlatIn d.nlonIn d.nlonOut (d.nlonOut / d.nlonIn) ho wo).map fun p =>
      relW d.Ck x.w (headView d.nlatIn d.nlonIn nh d.Ck x.k) (headView d.nlatOut d.nlonOut nh d.Ck x.q) bh ho wo
        (m (bh * d.nlatOut * d.nlonOut + (ho * d.nlonOut + wo))) p
      * gdot d.Cv (headView d.nlatIn d.nlonIn nh d.Cv x.v) (headView d.nlatOut d.nlonOut nh d.Cv x.dy) bh ho wo p
      * headView d.nlatIn d.nlonIn nh d.Ck x.k bh c p.1 p.2).sum

section
include hperm hfit hdiv h0

theorem upScratch_ok (m : ℕ → ℝ) : ∃ S Avw Ak Akvw, UpScratch d nh x m S Avw Ak Akvw ∧
    (r.perm (overGrid (d.B * nh) (divUp (d.nlatIn * d.nlonIn) 2) 2 (upDenOps d nh x.w x.P x.k x.q m r.junk))).foldlM
      (Disco.atomicAddTo (d.B * nh * d.nlatOut * d.nlonOut)) (fun _ => (0 : ℝ)) = .ok S ∧
    (r.perm (overGrid (d.B * nh) (divUp (d.nlatIn * d.nlonIn) 2) 2 (upAvwOps d nh x m r.junk))).foldlM
      (Disco.atomicAddTo (d.B * nh * d.nlatOut * d.nlonOut)) (fun _ => (0 : ℝ)) = .ok Avw ∧
    (r.perm (overGrid (d.B * nh) (divUp (d.nlatIn * d.nlonIn) 2) 2 (upAkOps d nh x m r.junk))).foldlM
      (Disco.atomicAddTo (d.B * nh * d.nlatOut * d.nlonOut * d.Ck)) (fun _ => (0 : ℝ)) = .ok Ak ∧
    (r.perm (overGrid (d.B * nh) (divUp (d.nlatIn * d.nlonIn) 2) 2 (upAkvwOps d nh x m r.junk))).foldlM
      (Disco.atomicAddTo (d.B * nh * d.nlatOut * d.nlonOut * d.Ck)) (fun _ => (0 : ℝ)) = .ok Akvw := by
  obtain ⟨S, s1, s2⟩ := upDen_ok (r := r.toGpuRun) (nh := nh) (w := x.w) (k := x.k) (q := x.q) hperm hfit hdiv h0 m
  obtain ⟨A, a1, a2⟩ := scatter_adds (nh := nh) hperm hfit hdiv h0 (upAvwOps d nh x m r.junk) (fun bh wid h => by unfold upAvwOps; rw [if_pos h])
    (fun bh ho wo p => relW d.Ck x.w (headView d.nlatIn d.nlonIn nh d.Ck x.k) (headView d.nlatOut d.nlonOut nh d.Ck x.q) bh ho wo
        (m (bh * d.nlatOut * d.nlonOut + (ho * d.nlonOut + wo))) p
      * gdot d.Cv (headView d.nlatIn d.nlonIn nh d.Cv x.v) (headView d.nlatOut d.nlonOut nh d.Cv x.dy) bh ho wo p)
    (fun bh hi hhi wi hwi => by
      have hlt := packed_lt hhi hwi
      obtain ⟨e1, e2⟩ := div_mul_add (a := hi) hwi
      unfold upAvwOps
      rw [if_neg (by omega)]
      dsimp only
      rw [sub_div_mul, e1, e2]
      refine List.map_congr_left fun z _ => ?_
      rw [upAg_eq d nh x m r.junk bh _ hi wi _ (by omega)])
  obtain ⟨K, k1, k2⟩ := scatter_addsK (nh := nh) (K := d.Ck) hperm hfit hdiv h0 (upAkOps d nh x m r.junk) (fun bh wid h => by unfold upAkOps; rw [if_pos h])
    (fun bh ho wo p c => relW d.Ck x.w (headView d.nlatIn d.nlonIn nh d.Ck x.k) (headView d.nlatOut d.nlonOut nh d.Ck x.q) bh ho wo
        (m (bh * d.nlatOut * d.nlonOut + (ho * d.nlonOut + wo))) p * headView d.nlatIn d.nlonIn nh d.Ck x.k bh c p.1 p.2)
    (fun bh hi wi z t c => upAlpha d nh x.w m (upKey d nh x.k (r.junk bh (hi * d.nlonIn + wi)) bh hi wi) x.q bh hi
      (scatterPoint x.P d.nlonIn d.nlonOut wi z) t * upKey d nh x.k (r.junk bh (hi * d.nlonIn + wi)) bh hi wi t c)
    (fun bh hi _ wi _ z t ht c hc => by rw [upAlpha_eq d nh x m _ bh hi wi _ ht, upKey_eq d nh x _ bh hi wi hc])
    (fun bh hi hhi wi hwi => by
      have hlt := packed_lt hhi hwi
      obtain ⟨e1, e2⟩ := div_mul_add (a := hi) hwi
      unfold upAkOps
      rw [if_neg (by omega)]
      dsimp only
      rw [sub_div_mul, e1, e2])
  obtain ⟨L, l1, l2⟩ := scatter_addsK (nh := nh) (K := d.Ck) hperm hfit hdiv h0 (upAkvwOps d nh x m r.junk) (fun bh wid h => by unfold upAkvwOps; rw [if_pos h])
    (fun bh ho wo p c => relW d.Ck x.w (headView d.nlatIn d.nlonIn nh d.Ck x.k) (headView d.nlatOut d.nlonOut nh d.Ck x.q) bh ho wo
        (m (bh * d.nlatOut * d.nlonOut + (ho * d.nlonOut + wo))) p
      * gdot d.Cv (headView d.nlatIn d.nlonIn nh d.Cv x.v) (headView d.nlatOut d.nlonOut nh d.Cv x.dy) bh ho wo p
      * headView d.nlatIn d.nlonIn nh d.Ck x.k bh c p.1 p.2)
    (fun bh hi wi z t c => upAg d nh x m r.junk bh (hi * d.nlonIn + wi) hi wi
      (scatterPoint x.P d.nlonIn d.nlonOut wi z) t * upKey d nh x.k (r.junk bh (hi * d.nlonIn + wi)) bh hi wi t c)
    (fun bh hi _ wi _ z t ht c hc => by rw [upAg_eq d nh x m _ bh _ hi wi _ ht, upKey_eq d nh x _ bh hi wi hc])
    (fun bh hi hhi wi hwi => by
      have hlt := packed_lt hhi hwi
      obtain ⟨e1, e2⟩ := div_mul_add (a := hi) hwi
      unfold upAkvwOps
      rw [if_neg (by omega)]
      dsimp only
      rw [sub_div_mul, e1, e2])
  exact ⟨S, A, K, L, ⟨s2, a2, k2, l2⟩, s1, a1, k1, l1⟩

end

section
variable {m S Avw Ak Akvw : ℕ → ℝ} (hU : UpScratch d nh x m S Avw Ak Akvw)
include hU hn hperm

theorem upDq_ok : ∃ out, (r.perm (overGrid (d.B * nh) (divUp (d.nlatOut * d.nlonOut) 2) 2 (upDqOps d nh S Avw Ak Akvw))).foldlM
      (storeTo (d.B * d.nlatOut * d.nlonOut * (d.Ck * nh))) (fun _ => (0 : ℝ)) = .ok out ∧
    ∀ bh < d.B * nh, ∀ c < d.Ck, ∀ ho < d.nlatOut, ∀ wo < d.nlonOut, headView d.nlatOut d.nlonOut nh d.Ck out bh c ho wo
      = gradQ d.Ck d.Cv x.w (scatterNbrs x.P d.nlatIn d.nlonIn d.nlonOut (d.nlonOut / d.nlonIn)) (headView d.nlatIn d.nlonIn nh d.Ck x.k)
        (headView d.nlatIn d.nlonIn nh d.Cv x.v) (headView d.nlatOut d.nlonOut nh d.Ck x.q) (headView d.nlatOut d.nlonOut nh d.Cv x.dy) bh c ho wo := by
  refine warp_stores hperm hn _ _ (fun bh wid h => by unfold upDqOps; rw [if_pos h])
    (fun bh ho wo t c => 1 / S (bh * d.nlatOut * d.nlonOut + (ho * d.nlonOut + wo)) * (1 / S (bh * d.nlatOut * d.nlonOut + (ho * d.nlonOut + wo)))
      * (S (bh * d.nlatOut * d.nlonOut + (ho * d.nlonOut + wo)) * Akvw ((bh * d.nlatOut * d.nlonOut + (ho * d.nlonOut + wo)) * d.Ck + c)
        - Avw (bh * d.nlatOut * d.nlonOut + (ho * d.nlonOut + wo)) * Ak ((bh * d.nlatOut * d.nlonOut + (ho * d.nlonOut + wo)) * d.Ck + c)))
    (fun bh hb ho hho wo hwo t ht c hc => ?_) (fun bh ho hho wo hwo => ?_)
  · have hc' := mem_strided_lt ht hc
    rw [hU.den bh hb ho hho wo hwo, hU.avw bh hb ho hho wo hwo, hU.ak bh hb ho hho wo hwo c hc', hU.akvw bh hb ho hho wo hwo c hc']
    exact relW_gradQ ..
  · have hlt := packed_lt hho hwo
    unfold upDqOps
    rw [if_neg (by omega)]
    dsimp only
    have e : ∀ c, (bh / nh * d.nlatOut * d.nlonOut + (ho * d.nlonOut + wo)) * (nh * d.Ck) + (bh - bh / nh * nh) * d.Ck + c
        = ((bh / nh * d.nlatOut + ho) * d.nlonOut + wo) * (nh * d.Ck) + (bh % nh * d.Ck + c) := by
      intro c
      rw [sub_div_mul]
      ring
    simp only [e]

include hfit hdiv h0

omit hn hperm in
theorem upMul_eq {bh : ℕ} (hb : bh < d.B * nh) {wid hi wi z : ℕ} (hhi : hi < d.nlatIn) (hwi : wi < d.nlonIn) (hz : z ∈ x.P.row hi) {t : ℕ} (ht : t < 32) :
    upAlphaMul d nh x m S r.junk bh wid hi wi (scatterPoint x.P d.nlonIn d.nlonOut wi z) t
      = prob d.Ck x.w (scatterNbrs x.P d.nlatIn d.nlonIn d.nlonOut (d.nlonOut / d.nlonIn)) (headView d.nlatIn d.nlonIn nh d.Ck x.k)
        (headView d.nlatOut d.nlonOut nh d.Ck x.q) bh (scatterPoint x.P d.nlonIn d.nlonOut wi z).1 (scatterPoint x.P d.nlonIn d.nlonOut wi z).2 (hi, wi) := by
  obtain ⟨c1, c2⟩ := scatter_cell_lt hfit hdiv h0 hhi hwi hz
  unfold upAlphaMul
  rw [upAlpha_eq d nh x m _ bh hi wi _ ht, hU.den bh hb _ c1 _ c2, div_eq_mul_one_div]
  exact relW_prob ..

omit hn hperm in
theorem upScale_eq {bh : ℕ} (hb : bh < d.B * nh) {wid hi wi z : ℕ} (hhi : hi < d.nlatIn) (hwi : wi < d.nlonIn) (hz : z ∈ x.P.row hi) {t : ℕ} (ht : t < 32) :
    upScaleK d nh x m S Avw r.junk bh wid hi wi (scatterPoint x.P d.nlonIn d.nlonOut wi z) t
      = (gdot d.Cv (headView d.nlatIn d.nlonIn nh d.Cv x.v) (headView d.nlatOut d.nlonOut nh d.Cv x.dy) bh
            (scatterPoint x.P d.nlonIn d.nlonOut wi z).1 (scatterPoint x.P d.nlonIn d.nlonOut wi z).2 (hi, wi)
          - gbar d.Ck d.Cv x.w (scatterNbrs x.P d.nlatIn d.nlonIn d.nlonOut (d.nlonOut / d.nlonIn)) (headView d.nlatIn d.nlonIn nh d.Ck x.k)
            (headView d.nlatIn d.nlonIn nh d.Cv x.v) (headView d.nlatOut d.nlonOut nh d.Ck x.q) (headView d.nlatOut d.nlonOut nh d.Cv x.dy) bh
            (scatterPoint x.P d.nlonIn d.nlonOut wi z).1 (scatterPoint x.P d.nlonIn d.nlonOut wi z).2)
        * prob d.Ck x.w (scatterNbrs x.P d.nlatIn d.nlonIn d.nlonOut (d.nlonOut / d.nlonIn)) (headView d.nlatIn d.nlonIn nh d.Ck x.k)
        (headView d.nlatOut d.nlonOut nh d.Ck x.q) bh (scatterPoint x.P d.nlonIn d.nlonOut wi z).1 (scatterPoint x.P d.nlonIn d.nlonOut wi z).2 (hi, wi) := by
  obtain ⟨c1, c2⟩ := scatter_cell_lt hfit hdiv h0 hhi hwi hz
  unfold upScaleK
  rw [upMul_eq hfit hdiv h0 hU hb hhi hwi hz ht, upG_eq d nh x _ bh hi wi _ _ ht, hU.den bh hb _ c1 _ c2, hU.avw bh hb _ c1 _ c2,
    div_eq_mul_one_div, relW_gbar]

theorem upDv_ok : ∃ out, (r.perm (overGrid (d.B * nh) (divUp (d.nlatIn * d.nlonIn) 2) 2 (upDvOps d nh x m S r.junk))).foldlM
      (storeTo (d.B * d.nlatIn * d.nlonIn * (d.Cv * nh))) (fun _ => (0 : ℝ)) = .ok out ∧
    ∀ bh < d.B * nh, ∀ c < d.Cv, ∀ hi < d.nlatIn, ∀ wi < d.nlonIn, headView d.nlatIn d.nlonIn nh d.Cv out bh c hi wi
      = gradV d.Ck x.w (scatterNbrs x.P d.nlatIn d.nlonIn d.nlonOut (d.nlonOut / d.nlonIn)) d.nlatOut d.nlonOut
        (headView d.nlatIn d.nlonIn nh d.Ck x.k) (headView d.nlatOut d.nlonOut nh d.Ck x.q) (headView d.nlatOut d.nlonOut nh d.Cv x.dy) bh c hi wi := by
  refine warp_stores hperm hn _ _ (fun bh wid h => by unfold upDvOps; rw [if_pos h])
    (fun bh hi wi t c => upAcc d.Cv (r.junk bh (hi * d.nlonIn + wi) t 3) (x.P.row hi)
      (fun z => upAlphaMul d nh x m S r.junk bh (hi * d.nlonIn + wi) hi wi (scatterPoint x.P d.nlonIn d.nlonOut wi z) t) x.dy
      (fun z => headBase d.nlatOut d.nlonOut nh d.Cv bh
        + ((scatterPoint x.P d.nlonIn d.nlonOut wi z).1 * d.nlonOut + (scatterPoint x.P d.nlonIn d.nlonOut wi z).2) * (nh * d.Cv)) t c)
    (fun bh hb hi hhi wi hwi t ht c hc => ?_) (fun bh hi hhi wi hwi => ?_)
  · rw [upAcc_eq _ _ _ _ _ _ hc]
    have e : gradV d.Ck x.w (scatterNbrs x.P d.nlatIn d.nlonIn d.nlonOut (d.nlonOut / d.nlonIn)) d.nlatOut d.nlonOut
          (headView d.nlatIn d.nlonIn nh d.Ck x.k) (headView d.nlatOut d.nlonOut nh d.Ck x.q) (headView d.nlatOut d.nlonOut nh d.Cv x.dy) bh c hi wi
        = ∑ ho ∈ range d.nlatOut, ∑ wo ∈ range d.nlonOut,
          ((scatterNbrs x.P d.nlatIn d.nlonIn d.nlonOut (d.nlonOut / d.nlonIn) ho wo).map fun p => if p = (hi, wi) then
            prob d.Ck x.w (scatterNbrs x.P d.nlatIn d.nlonIn d.nlonOut (d.nlonOut / d.nlonIn)) (headView d.nlatIn d.nlonIn nh d.Ck x.k)
              (headView d.nlatOut d.nlonOut nh d.Ck x.q) bh ho wo (hi, wi) * headView d.nlatOut d.nlonOut nh d.Cv x.dy bh c ho wo else 0).sum := by
      unfold gradV
      refine Finset.sum_congr rfl fun ho _ => Finset.sum_congr rfl fun wo _ => list_sum_congr fun p _ => ?_
      split_ifs with hp
      · rw [hp]
      · rfl
    rw [e, scatter_back d x.P hfit h0 (d.nlonOut / d.nlonIn) (fun ho wo => prob d.Ck x.w
      (scatterNbrs x.P d.nlatIn d.nlonIn d.nlonOut (d.nlonOut / d.nlonIn)) (headView d.nlatIn d.nlonIn nh d.Ck x.k)
      (headView d.nlatOut d.nlonOut nh d.Ck x.q) bh ho wo (hi, wi) * headView d.nlatOut d.nlonOut nh d.Cv x.dy bh c ho wo) hhi hwi]
    refine list_sum_congr fun z hz => ?_
    rw [upMul_eq hfit hdiv h0 hU hb hhi hwi hz ht, warpBase_eq, scatterPoint_eq x.P hdiv h0 hwi]
    rfl
  · have hlt := packed_lt hhi hwi
    obtain ⟨e1, e2⟩ := div_mul_add (a := hi) hwi
    unfold upDvOps
    rw [if_neg (by omega)]
    dsimp only
    rw [sub_div_mul, e1, e2]
    simp only [warpBase_eq]

theorem upDk_ok : ∃ out, (r.perm (overGrid (d.B * nh) (divUp (d.nlatIn * d.nlonIn) 2) 2 (upDkOps d nh x m S Avw r.junk))).foldlM
      (storeTo (d.B * d.nlatIn * d.nlonIn * (d.Ck * nh))) (fun _ => (0 : ℝ)) = .ok out ∧
    ∀ bh < d.B * nh, ∀ c < d.Ck, ∀ hi < d.nlatIn, ∀ wi < d.nlonIn, headView d.nlatIn d.nlonIn nh d.Ck out bh c hi wi
      = gradK d.Ck d.Cv x.w (scatterNbrs x.P d.nlatIn d.nlonIn d.nlonOut (d.nlonOut / d.nlonIn)) d.nlatOut d.nlonOut
        (headView d.nlatIn d.nlonIn nh d.Ck x.k) (headView d.nlatIn d.nlonIn nh d.Cv x.v) (headView d.nlatOut d.nlonOut nh d.Ck x.q)
        (headView d.nlatOut d.nlonOut nh d.Cv x.dy) bh c hi wi := by
  refine warp_stores hperm hn _ _ (fun bh wid h => by unfold upDkOps; rw [if_pos h])
    (fun bh hi wi t c => upAcc d.Ck (r.junk bh (hi * d.nlonIn + wi) t 2) (x.P.row hi)
      (fun z => upScaleK d nh x m S Avw r.junk bh (hi * d.nlonIn + wi) hi wi (scatterPoint x.P d.nlonIn d.nlonOut wi z) t) x.q
      (fun z => headBase d.nlatOut d.nlonOut nh d.Ck bh
        + ((scatterPoint x.P d.nlonIn d.nlonOut wi z).1 * d.nlonOut + (scatterPoint x.P d.nlonIn d.nlonOut wi z).2) * (nh * d.Ck)) t c)
    (fun bh hb hi hhi wi hwi t ht c hc => ?_) (fun bh hi hhi wi hwi => ?_)
  · rw [upAcc_eq _ _ _ _ _ _ hc]
    set nb := scatterNbrs x.P d.nlatIn d.nlonIn d.nlonOut (d.nlonOut / d.nlonIn) with hnb
    set K := headView d.nlatIn d.nlonIn nh d.Ck x.k with hK
    set V := headView d.nlatIn d.nlonIn nh d.Cv x.v with hV
    set Q := headView d.nlatOut d.nlonOut nh d.Ck x.q with hQ
    set G := headView d.nlatOut d.nlonOut nh d.Cv x.dy with hG
    have e : gradK d.Ck d.Cv x.w nb d.nlatOut d.nlonOut K V Q G bh c hi wi
        = ∑ ho ∈ range d.nlatOut, ∑ wo ∈ range d.nlonOut, ((nb ho wo).map fun p => if p = (hi, wi) then
            Q bh c ho wo * prob d.Ck x.w nb K Q bh ho wo (hi, wi) * (gdot d.Cv V G bh ho wo (hi, wi) - gbar d.Ck d.Cv x.w nb K V Q G bh ho wo) else 0).sum := by
      unfold gradK
      refine Finset.sum_congr rfl fun ho _ => Finset.sum_congr rfl fun wo _ => list_sum_congr fun p _ => ?_
      split_ifs with hp
      · rw [hp]
      · rfl
    rw [e, hnb, scatter_back d x.P hfit h0 (d.nlonOut / d.nlonIn) (fun ho wo => Q bh c ho wo * prob d.Ck x.w
      (scatterNbrs x.P d.nlatIn d.nlonIn d.nlonOut (d.nlonOut / d.nlonIn)) K Q bh ho wo (hi, wi)
      * (gdot d.Cv V G bh ho wo (hi, wi) - gbar d.Ck d.Cv x.w (scatterNbrs x.P d.nlatIn d.nlonIn d.nlonOut (d.nlonOut / d.nlonIn)) K V Q G bh ho wo)) hhi hwi]
    refine list_sum_congr fun z hz => ?_
    rw [upScale_eq hfit hdiv h0 hU hb hhi hwi hz ht, warpBase_eq, scatterPoint_eq x.P hdiv h0 hwi]
    change _ * Q bh c _ _ = _
    ring
  · have hlt := packed_lt hhi hwi
    obtain ⟨e1, e2⟩ := div_mul_add (a := hi) hwi
    unfold upDkOps
    rw [if_neg (by omega)]
    dsimp only
    rw [sub_div_mul, e1, e2]
    simp only [warpBase_eq]

end

section
include hn hperm hfit hdiv h0

/-- The scatter backward pass returns the three gradients, whatever the order of stores and atomics. -/
theorem gpuBwdScatter_eq (hl : ScatterBwdLaunch d nh) : ∃ g, gpuBwdScatter r d nh x = .ok g ∧
    (∀ bh < d.B * nh, ∀ c < d.Ck, ∀ hi < d.nlatIn, ∀ wi < d.nlonIn, headView d.nlatIn d.nlonIn nh d.Ck g.dk bh c hi wi
      = gradK d.Ck d.Cv x.w (scatterNbrs x.P d.nlatIn d.nlonIn d.nlonOut (d.nlonOut / d.nlonIn)) d.nlatOut d.nlonOut
        (headView d.nlatIn d.nlonIn nh d.Ck x.k) (headView d.nlatIn d.nlonIn nh d.Cv x.v) (headView d.nlatOut d.nlonOut nh d.Ck x.q)
        (headView d.nlatOut d.nlonOut nh d.Cv x.dy) bh c hi wi) ∧
    (∀ bh < d.B * nh, ∀ c < d.Cv, ∀ hi < d.nlatIn, ∀ wi < d.nlonIn, headView d.nlatIn d.nlonIn nh d.Cv g.dv bh c hi wi
      = gradV d.Ck x.w (scatterNbrs x.P d.nlatIn d.nlonIn d.nlonOut (d.nlonOut / d.nlonIn)) d.nlatOut d.nlonOut
        (headView d.nlatIn d.nlonIn nh d.Ck x.k) (headView d.nlatOut d.nlonOut nh d.Ck x.q) (headView d.nlatOut d.nlonOut nh d.Cv x.dy) bh c hi wi) ∧
    ∀ bh < d.B * nh, ∀ c < d.Ck, ∀ ho < d.nlatOut, ∀ wo < d.nlonOut, headView d.nlatOut d.nlonOut nh d.Ck g.dq bh c ho wo
      = gradQ d.Ck d.Cv x.w (scatterNbrs x.P d.nlatIn d.nlonIn d.nlonOut (d.nlonOut / d.nlonIn)) (headView d.nlatIn d.nlonIn nh d.Ck x.k)
        (headView d.nlatIn d.nlonIn nh d.Cv x.v) (headView d.nlatOut d.nlonOut nh d.Ck x.q) (headView d.nlatOut d.nlonOut nh d.Cv x.dy) bh c ho wo := by
  obtain ⟨l2, l3⟩ := hl
  have l0 : launchOk (divUp (d.nlatIn * d.nlonIn) 2) (d.B * nh) (4 * d.Ck * 2) := by
    unfold launchOk at l2 ⊢
    omega
  have l1 : launchOk (divUp (d.nlatIn * d.nlonIn) 2) (d.B * nh) (4 * (d.Ck + d.Cv) * 2) := by
    unfold launchOk at l2 ⊢
    omega
  obtain ⟨m, m1, -⟩ := upMax_ok (r := r.toGpuRun) (k := x.k) (q := x.q) hperm hfit hdiv h0 l0
  obtain ⟨S, A, K, L, hU, s1, a1, k1, e1⟩ := upScratch_ok (r := r) (nh := nh) (x := x) hperm hfit hdiv h0 m
  obtain ⟨dq, q1, q2⟩ := upDq_ok hn hperm hU
  obtain ⟨dk, c1, c2⟩ := upDk_ok hn hperm hfit hdiv h0 hU
  obtain ⟨dv, v1, v2⟩ := upDv_ok hn hperm hfit hdiv h0 hU
  refine ⟨⟨dk, dv, dq⟩, ?_, c2, v2, q2⟩
  unfold gpuBwdScatter checked
  dsimp only
  rw [m1, bind_ok, if_pos l1, s1, bind_ok, if_pos l1, a1, bind_ok, if_pos l1, k1, bind_ok, if_pos l1, e1, bind_ok, if_pos l3, q1, bind_ok,
    if_pos l2, c1, bind_ok, if_pos l2, v1, bind_ok]
  rfl

theorem gpuBwdScatter_refused (hl : ¬ ScatterBwdLaunch d nh) : gpuBwdScatter r d nh x = .error .processExit := by
  by_cases l0 : launchOk (divUp (d.nlatIn * d.nlonIn) 2) (d.B * nh) (4 * d.Ck * 2)
  · obtain ⟨m, m1, -⟩ := upMax_ok (r := r.toGpuRun) (k := x.k) (q := x.q) hperm hfit hdiv h0 l0
    unfold gpuBwdScatter checked
    dsimp only
    rw [m1, bind_ok]
    by_cases l1 : launchOk (divUp (d.nlatIn * d.nlonIn) 2) (d.B * nh) (4 * (d.Ck + d.Cv) * 2)
    · obtain ⟨S, A, K, L, hU, s1, a1, k1, e1⟩ := upScratch_ok (r := r) (nh := nh) (x := x) hperm hfit hdiv h0 m
      rw [if_pos l1, s1, bind_ok, if_pos l1, a1, bind_ok, if_pos l1, k1, bind_ok, if_pos l1, e1, bind_ok]
      by_cases l3 : launchOk (divUp (d.nlatOut * d.nlonOut) 2) (d.B * nh) 0
      · obtain ⟨dq, q1, q2⟩ := upDq_ok hn hperm hU
        rw [if_pos l3, q1, bind_ok, if_neg (fun l2 => hl ⟨l2, l3⟩), bind_error]
      · rw [if_neg l3, bind_error]
    · rw [if_neg l1, bind_error]
  · unfold gpuBwdScatter gpuUpMax checked
    dsimp only
    rw [if_neg l0, bind_error]

end
end

/-- The launches of the scatter backward pass, spelled out. -/
theorem scatterBwdLaunch_iff {d : Dims} {nh : ℕ} : ScatterBwdLaunch d nh ↔ 0 < d.nlatIn * d.nlonIn ∧ 0 < d.nlatOut * d.nlonOut ∧ 0 < d.B * nh ∧
    d.B * nh ≤ 65535 ∧ d.nlatIn * d.nlonIn ≤ 2 * 2147483647 ∧ d.nlatOut * d.nlonOut ≤ 2 * 2147483647 ∧ d.Ck + d.Cv ≤ 3072 := by
  unfold ScatterBwdLaunch launchOk
  rw [divUp_pos (by omega), divUp_pos (by omega), show 2 ^ 31 = 2147483647 + 1 by norm_num, divUp_lt (by omega), divUp_lt (by omega)]
  omega

end Verif.AttnGpu
