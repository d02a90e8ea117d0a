import Verif.Lemmas.RingCudaUpStep
import Verif.Lemmas.DistAttentionGrad
import Verif.Lemmas.DistAttentionUp
/-!
The backward steps of the upsampling ring kernels, and the model of the ring.
-/
namespace Verif.RingGpuUp
open Verif Verif.Attn Verif.Spec.Attn Verif.AttnGpu Verif.Ring Verif.Spec.Ring Verif.RingGpu Verif.Spec.RingStep Finset

variable {p : UParams} {P : Pattern}

/-! ### Pass 1 -/

/-- The softmax weight, not normalised. -/
noncomputable def wt (p : UParams) (w : ℤ → ℝ) (k q : ℕ → ℝ) (qmax : ℕ → Option ℝ) (b ho wo : ℕ) (x : ℕ × ℕ) : ℝ :=
  Real.exp (dotQ p k q b ho wo x - (qmax (cellAt p b (ho, wo))).getD 0) * w (p.start + x.1)

theorem agAt_eq (w : ℤ → ℝ) (qmax : ℕ → Option ℝ) (k v q dy : ℕ → ℝ) (junk : ShJunk) (b hi wi : ℕ) (x : ℕ × ℕ) {t : ℕ} (ht : t < 32) :
    agAt p w qmax (shK p k junk b hi wi) (shV p v junk b hi wi) q dy b hi x t = wt p w k q qmax b x.1 x.2 (hi, wi) * dotV p v dy b x.1 x.2 (hi, wi) := by
  unfold agAt
  rw [alphaAt_eq _ _ _ _ _ _ _ _ _ ht, gradAt_eq _ _ _ _ _ _ _ ht]
  rfl

theorem upPass1_ok (hf : UFits p P) {r : URun} (hr : URunOk r) {B : ℕ} (hl : launchOk (divUp (p.nlatHalo * p.nlonKx) 2) B (4 * (p.nci + p.nco) * 2)) (w : ℤ → ℝ)
    (k v q dy : ℕ → ℝ) (qmax : ℕ → Option ℝ) (s : StatBufs) :
    ∃ s', upPass1 r p B w P k v q dy qmax s = .ok s' ∧
      (∀ b < B, ∀ ho < p.nlatOut, ∀ wo < p.nlonOut,
        (s'.integral (cellAt p b (ho, wo)) = s.integral (cellAt p b (ho, wo))
          + ((nbrsUp P p.nlonOutG p.pscaleOut p.lonLo p.nlatHalo p.nlonKx ho wo).map fun x => wt p w k q qmax b ho wo x * dotV p v dy b ho wo x).sum) ∧
        ∀ c < p.nci,
          (s'.alphaK (cellAt p b (ho, wo) * p.nci + c) = s.alphaK (cellAt p b (ho, wo) * p.nci + c) + ((nbrsUp P p.nlonOutG p.pscaleOut p.lonLo p.nlatHalo p.nlonKx ho wo).map
            fun x => wt p w k q qmax b ho wo x * entryOf p.nlatHalo p.nlonKx p.nci k b x.1 x.2 c).sum) ∧
          s'.alphaKvw (cellAt p b (ho, wo) * p.nci + c) = s.alphaKvw (cellAt p b (ho, wo) * p.nci + c)
            + ((nbrsUp P p.nlonOutG p.pscaleOut p.lonLo p.nlatHalo p.nlonKx ho wo).map
              fun x => wt p w k q qmax b ho wo x * dotV p v dy b ho wo x * entryOf p.nlatHalo p.nlonKx p.nci k b x.1 x.2 c).sum) ∧
      (∀ i, B * p.nlatOut * p.nlonOut ≤ i → s'.integral i = s.integral i) ∧
      ∀ i, B * p.nlatOut * p.nlonOut * p.nci ≤ i → s'.alphaK i = s.alphaK i ∧ s'.alphaKvw i = s.alphaKvw i := by
  obtain ⟨i', i1, i2, i3⟩ := points_fold hf hr 0 B (fun b wid hi wi x => agAt p w qmax (shK p k (r.junk 0 b wid) b hi wi) (shV p v (r.junk 0 b wid) b hi wi) q dy b hi x 0) s.integral
    (fun b ho wo x => wt p w k q qmax b ho wo x * dotV p v dy b ho wo x) (fun b wid hi wi x _ => agAt_eq _ _ _ _ _ _ _ _ _ _ _ (by omega))
  obtain ⟨k', k1, k2, k3⟩ := chans_fold hf hr 1 B p.nci
    (fun b wid hi wi x l => alphaAt p w qmax (shK p k (r.junk 0 b wid) b hi wi) q b hi x l.1 * shK p k (r.junk 0 b wid) b hi wi l.1 l.2) s.alphaK
    (fun b ho wo c x => wt p w k q qmax b ho wo x * entryOf p.nlatHalo p.nlonKx p.nci k b x.1 x.2 c)
    (fun b wid hi wi x _ t ht c hc => by rw [alphaAt_eq _ _ _ _ _ _ _ _ _ ht, shK_at _ _ _ _ _ hc]; rfl)
  obtain ⟨g', g1, g2, g3⟩ := chans_fold hf hr 2 B p.nci
    (fun b wid hi wi x l => agAt p w qmax (shK p k (r.junk 0 b wid) b hi wi) (shV p v (r.junk 0 b wid) b hi wi) q dy b hi x l.1 * shK p k (r.junk 0 b wid) b hi wi l.1 l.2) s.alphaKvw
    (fun b ho wo c x => wt p w k q qmax b ho wo x * dotV p v dy b ho wo x * entryOf p.nlatHalo p.nlonKx p.nci k b x.1 x.2 c)
    (fun b wid hi wi x _ t ht c hc => by rw [agAt_eq _ _ _ _ _ _ _ _ _ _ _ ht, shK_at _ _ _ _ _ hc])
  refine ⟨⟨i', k', g'⟩, ?_, fun b hb ho hho wo hwo => ⟨i2 b hb ho hho wo hwo, fun c hc => ⟨k2 b hb ho hho wo hwo c hc, g2 b hb ho hho wo hwo c hc⟩⟩, i3, fun i hi => ⟨k3 i hi, g3 i hi⟩⟩
  unfold upPass1
  dsimp only
  rw [if_pos hl]
  have i1' : List.foldlM (Disco.atomicAddTo (B * p.nlatOut * p.nlonOut)) s.integral
      (r.perm 0 (overGrid B (divUp (p.nlatHalo * p.nlonKx) 2) 2 (addIOps p w P k v q dy qmax (r.junk 0)))) = .ok i' := i1
  have k1' : List.foldlM (Disco.atomicAddTo (B * p.nlatOut * p.nlonOut * p.nci)) s.alphaK
      (r.perm 1 (overGrid B (divUp (p.nlatHalo * p.nlonKx) 2) 2 (addKOps p w P k q qmax (r.junk 0)))) = .ok k' := k1
  have g1' : List.foldlM (Disco.atomicAddTo (B * p.nlatOut * p.nlonOut * p.nci)) s.alphaKvw
      (r.perm 2 (overGrid B (divUp (p.nlatHalo * p.nlonKx) 2) 2 (addKvwOps p w P k v q dy qmax (r.junk 0)))) = .ok g' := g1
  rw [i1', bind_ok, k1', bind_ok, g1']
  rfl

/-! ### Pass 2 -/

theorem rowAcc_at (C : ℕ) (L : List (ℕ × ℕ)) (x : ℕ × ℕ → ℕ → ℝ) (junk : ℕ → ℝ) {t c : ℕ} (hc : c ∈ Disco.strided 32 C t) :
    rowAcc C L x junk t c = (L.map fun o => x o c).sum := by
  have nd : (Disco.strided 32 C t).Nodup := chans_nodup (bx := 32) (n := C) (t := t) (loc := none) (by omega)
  unfold rowAcc
  induction L using List.reverseRecOn with
  | nil =>
    have := AttnGpu.foldl_update_at (Disco.strided 32 C t) nd (fun _ (_ : ℝ) => (0 : ℝ)) junk c
    rw [List.foldl_nil, this, if_pos hc]
    rfl
  | append_singleton L o ih =>
    rw [List.foldl_append, List.foldl_cons, List.foldl_nil, List.map_append, List.sum_append]
    have := AttnGpu.foldl_update_at (Disco.strided 32 C t) nd (fun c y => y + x o c)
      (L.foldl (fun sh o => (Disco.strided 32 C t).foldl (fun sh c => Function.update sh c (sh c + x o c)) sh) ((Disco.strided 32 C t).foldl (fun sh c => Function.update sh c 0) junk)) c
    rw [this, if_pos hc, ih]
    simp

theorem row_nil_iff (P : Pattern) (hi : ℕ) : P.roff (hi + 1) - P.roff hi = 0 ↔ P.row hi = [] := by
  unfold Pattern.row
  rw [List.range'_eq_nil_iff]

theorem inAt_eq (C b hi wi : ℕ) : inAt p C b hi wi = ((b * p.nlatHalo + hi) * p.nlonKx + wi) * C := by
  unfold inAt
  ring

theorem alphaNorm_eq (w : ℤ → ℝ) (qmax : ℕ → Option ℝ) (asum k q : ℕ → ℝ) (junk : ShJunk) (b hi wi : ℕ) (x : ℕ × ℕ) {t : ℕ} (ht : t < 32) :
    alphaNorm p w qmax asum (shK p k junk b hi wi) q b hi x t = wt p w k q qmax b x.1 x.2 (hi, wi) / asum (cellAt p b x) := by
  unfold alphaNorm
  rw [alphaAt_eq _ _ _ _ _ _ _ _ _ ht]
  rfl

/-- Stores of one number per cell of the block and channel. -/
theorem cells_store {r : URun} (hr : URunOk r) (n B C : ℕ) (f : ℕ → ℕ → ℕ → ℕ → ℕ × ℕ → ℝ) (mem : ℕ → ℝ) (U : ℕ → ℕ → ℕ → ℕ → ℝ)
    (hU : ∀ b wid hi wi, hi < p.nlatHalo → wi < p.nlonKx → ∀ t < 32, ∀ c ∈ Disco.strided 32 C t, f b wid hi wi (t, c) = U b hi wi c) :
    ∃ out, (r.perm n (overGrid B (divUp (p.nlatHalo * p.nlonKx) 2) 2 fun b wid => atCell p (fun hi wi => if P.roff (hi + 1) - P.roff hi = 0 then [] else
        (lanes C).map fun l => (inAt p C b hi wi + l.2, f b wid hi wi l)) wid)).foldlM (storeTo (B * p.nlatHalo * p.nlonKx * C)) mem = .ok out ∧
      (∀ b < B, ∀ hi < p.nlatHalo, ∀ wi < p.nlonKx, ∀ c < C,
        entryOf p.nlatHalo p.nlonKx C out b hi wi c = if P.row hi = [] then entryOf p.nlatHalo p.nlonKx C mem b hi wi c else U b hi wi c) ∧
      ∀ i, B * p.nlatHalo * p.nlonKx * C ≤ i → out i = mem i := by
  have hmem : ∀ a, a ∈ overGrid B (divUp (p.nlatHalo * p.nlonKx) 2) 2 (fun b wid => atCell p (fun hi wi => if P.roff (hi + 1) - P.roff hi = 0 then [] else
        (lanes C).map fun l => (inAt p C b hi wi + l.2, f b wid hi wi l)) wid) ↔
      ∃ b < B, ∃ hi < p.nlatHalo, ∃ wi < p.nlonKx, P.row hi ≠ [] ∧ ∃ c < C, a = (((b * p.nlatHalo + hi) * p.nlonKx + wi) * C + c, U b hi wi c) := by
    intro a
    refine (mem_grid_cells p B fun b wid hi wi => if P.roff (hi + 1) - P.roff hi = 0 then [] else
        (lanes C).map fun l => (inAt p C b hi wi + l.2, f b wid hi wi l)).trans ?_
    refine exists_congr fun b => and_congr_right fun hb => exists_congr fun hi => and_congr_right fun hhi => exists_congr fun wi => and_congr_right fun hwi => ?_
    by_cases h : P.row hi = []
    · rw [if_pos ((row_nil_iff P hi).2 h)]
      simp [h]
    · rw [if_neg fun h' => h ((row_nil_iff P hi).1 h'), List.mem_map]
      constructor
      · rintro ⟨⟨t, c⟩, hl, rfl⟩
        obtain ⟨l1, l2⟩ := mem_lanes.1 hl
        exact ⟨h, c, lane_lt hl, by rw [hU _ _ _ _ hhi hwi t l1 c l2, inAt_eq]⟩
      · rintro ⟨-, c, hc, rfl⟩
        obtain ⟨t, ht⟩ := exists_lane hc
        obtain ⟨l1, l2⟩ := mem_lanes.1 ht
        exact ⟨(t, c), ht, by rw [hU _ _ _ _ hhi hwi t l1 c l2, inAt_eq]⟩
  have hlt : ∀ {b hi wi c : ℕ}, b < B → hi < p.nlatHalo → wi < p.nlonKx → c < C → ((b * p.nlatHalo + hi) * p.nlonKx + wi) * C + c < B * p.nlatHalo * p.nlonKx * C :=
    fun hb hhi hwi hc => packed_lt (packed_lt (packed_lt hb hhi) hwi) hc
  generalize overGrid B (divUp (p.nlatHalo * p.nlonKx) 2) 2 (fun b wid => atCell p (fun hi wi => if P.roff (hi + 1) - P.roff hi = 0 then [] else
        (lanes C).map fun l => (inAt p C b hi wi + l.2, f b wid hi wi l)) wid) = ops at *
  obtain ⟨out, o1, o2, o3⟩ := stores_ok (B * p.nlatHalo * p.nlonKx * C) (r.perm n ops)
    (fun a => U (a / C / p.nlonKx / p.nlatHalo) (a / C / p.nlonKx % p.nlatHalo) (a / C % p.nlonKx) (a % C)) (by
      intro a ha
      obtain ⟨b, hb, hi, hhi, wi, hwi, -, c, hc, rfl⟩ := (hmem a).1 ((hr.perm n _).mem_iff.1 ha)
      refine ⟨hlt hb hhi hwi hc, ?_⟩
      dsimp only
      obtain ⟨d1, d2⟩ := div_mul_add (a := (b * p.nlatHalo + hi) * p.nlonKx + wi) hc
      obtain ⟨d3, d4⟩ := div_mul_add (a := b * p.nlatHalo + hi) hwi
      obtain ⟨d5, d6⟩ := div_mul_add (a := b) hhi
      rw [d1, d2, d3, d4, d5, d6]) mem
  refine ⟨out, o1, fun b hb hi hhi wi hwi c hc => ?_, fun i hi => o3 i fun a ha hai => ?_⟩
  · unfold entryOf
    by_cases h : P.row hi = []
    · rw [if_pos h]
      refine o3 _ fun a ha hai => ?_
      obtain ⟨b', hb', hi', hhi', wi', hwi', h', c', hc', rfl⟩ := (hmem a).1 ((hr.perm n _).mem_iff.1 ha)
      obtain ⟨e1, -⟩ := mulAdd_inj hai hc' hc
      obtain ⟨e2, -⟩ := mulAdd_inj e1 hwi' hwi
      obtain ⟨-, rfl⟩ := mulAdd_inj e2 hhi' hhi
      exact h' h
    · rw [if_neg h]
      have := o2 _ ((hr.perm n _).mem_iff.2 ((hmem _).2 ⟨b, hb, hi, hhi, wi, hwi, h, c, hc, rfl⟩))
      dsimp only at this
      obtain ⟨d1, d2⟩ := div_mul_add (a := (b * p.nlatHalo + hi) * p.nlonKx + wi) hc
      obtain ⟨d3, d4⟩ := div_mul_add (a := b * p.nlatHalo + hi) hwi
      obtain ⟨d5, d6⟩ := div_mul_add (a := b) hhi
      rw [this, d1, d2, d3, d4, d5, d6]
  · obtain ⟨b', hb', hi', hhi', wi', hwi', h', c', hc', rfl⟩ := (hmem a).1 ((hr.perm n _).mem_iff.1 ha)
    have := hlt hb' hhi' hwi' hc'
    dsimp only at hai
    omega

theorem upPass2_ok (hf : UFits p P) {r : URun} (hr : URunOk r) {B : ℕ} (hl : launchOk (divUp (p.nlatHalo * p.nlonKx) 2) B (4 * (2 * p.nci + 2 * p.nco) * 2)) (w : ℤ → ℝ)
    (k v q dy asum : ℕ → ℝ) (qmax : ℕ → Option ℝ) (inorm dk dv : ℕ → ℝ) :
    ∃ dk' dv', upPass2 r p B w P k v q dy asum qmax inorm dk dv = .ok (dk', dv') ∧
      (∀ b < B, ∀ hi < p.nlatHalo, ∀ wi < p.nlonKx,
        (∀ c < p.nci, entryOf p.nlatHalo p.nlonKx p.nci dk' b hi wi c = if P.row hi = [] then entryOf p.nlatHalo p.nlonKx p.nci dk b hi wi c else
          ((targetsUp P p.nlonOutG p.pscaleOut p.lonLo p.nlonOut hi wi).map fun x => (dotV p v dy b x.1 x.2 (hi, wi) - inorm (cellAt p b x)) * (wt p w k q qmax b x.1 x.2 (hi, wi) / asum (cellAt p b x))
            * entryOf p.nlatOut p.nlonOut p.nci q b x.1 x.2 c).sum) ∧
        ∀ c < p.nco, entryOf p.nlatHalo p.nlonKx p.nco dv' b hi wi c = if P.row hi = [] then entryOf p.nlatHalo p.nlonKx p.nco dv b hi wi c else
          ((targetsUp P p.nlonOutG p.pscaleOut p.lonLo p.nlonOut hi wi).map fun x => wt p w k q qmax b x.1 x.2 (hi, wi) / asum (cellAt p b x) * entryOf p.nlatOut p.nlonOut p.nco dy b x.1 x.2 c).sum) ∧
      (∀ i, B * p.nlatHalo * p.nlonKx * p.nci ≤ i → dk' i = dk i) ∧ ∀ i, B * p.nlatHalo * p.nlonKx * p.nco ≤ i → dv' i = dv i := by
  obtain ⟨dk', k1, k2, k3⟩ := cells_store (p := p) (P := P) hr 0 B p.nci (fun b wid hi wi l => rowAcc p.nci (hits p P hi wi) (fun x c =>
      (gradAt p (shV p v (r.junk 0 b wid) b hi wi) dy b x l.1 - inorm (cellAt p b x)) * alphaNorm p w qmax asum (shK p k (r.junk 0 b wid) b hi wi) q b hi x l.1
        * q (outAt p p.nci b x + c)) (r.junk 0 b wid l.1 2) l.1 l.2) dk
    (fun b hi wi c => ((targetsUp P p.nlonOutG p.pscaleOut p.lonLo p.nlonOut hi wi).map fun x => (dotV p v dy b x.1 x.2 (hi, wi) - inorm (cellAt p b x)) * (wt p w k q qmax b x.1 x.2 (hi, wi) / asum (cellAt p b x))
            * entryOf p.nlatOut p.nlonOut p.nci q b x.1 x.2 c).sum) (by
      intro b wid hi wi hhi hwi t ht c hc
      rw [rowAcc_at _ _ _ _ hc, hits_eq hf hhi hwi]
      congr 1
      refine List.map_congr_left fun x hx => ?_
      rw [gradAt_eq _ _ _ _ _ _ _ ht, alphaNorm_eq _ _ _ _ _ _ _ _ _ _ ht, outAt_entry p.nci b x c q])
  obtain ⟨dv', v1, v2, v3⟩ := cells_store (p := p) (P := P) hr 1 B p.nco (fun b wid hi wi l => rowAcc p.nco (hits p P hi wi) (fun x c =>
      alphaNorm p w qmax asum (shK p k (r.junk 0 b wid) b hi wi) q b hi x l.1 * dy (outAt p p.nco b x + c)) (r.junk 0 b wid l.1 3) l.1 l.2) dv
    (fun b hi wi c => ((targetsUp P p.nlonOutG p.pscaleOut p.lonLo p.nlonOut hi wi).map fun x => wt p w k q qmax b x.1 x.2 (hi, wi) / asum (cellAt p b x) * entryOf p.nlatOut p.nlonOut p.nco dy b x.1 x.2 c).sum) (by
      intro b wid hi wi hhi hwi t ht c hc
      rw [rowAcc_at _ _ _ _ hc, hits_eq hf hhi hwi]
      congr 1
      refine List.map_congr_left fun x hx => ?_
      rw [alphaNorm_eq _ _ _ _ _ _ _ _ _ _ ht, outAt_entry p.nco b x c dy])
  refine ⟨dk', dv', ?_, fun b hb hi hhi wi hwi => ⟨k2 b hb hi hhi wi hwi, v2 b hb hi hhi wi hwi⟩, k3, v3⟩
  unfold upPass2
  dsimp only
  rw [if_pos hl]
  have k1' : List.foldlM (storeTo (B * p.nlatHalo * p.nlonKx * p.nci)) dk
      (r.perm 0 (overGrid B (divUp (p.nlatHalo * p.nlonKx) 2) 2 (dkOps p w P k v q dy asum qmax inorm (r.junk 0)))) = .ok dk' := k1
  have v1' : List.foldlM (storeTo (B * p.nlatHalo * p.nlonKx * p.nco)) dv
      (r.perm 1 (overGrid B (divUp (p.nlatHalo * p.nlonKx) 2) 2 (dvOps p w P k q dy asum qmax (r.junk 0)))) = .ok dv' := v1
  rw [k1', bind_ok, v1']
  rfl

/-! ### The model of the ring -/

theorem upEdges_hits (p : UParams) (P : Pattern) : upEdges P p.nlonOutG p.pscaleOut p.lonLo p.nlonOut p.nlatHalo p.nlonKx
    = (List.range p.nlatHalo).flatMap fun hi => (List.range p.nlonKx).flatMap fun wi => (hits p P hi wi).map fun x => (⟨x, (hi, wi)⟩ : Edge) := by
  unfold Ring.upEdges hits
  congr 1
  funext hi
  congr 1
  funext wi
  rw [List.map_filterMap]
  congr 1
  funext z
  dsimp only
  cases upLocalWo (P.col z - P.col z / p.nlonOutG * p.nlonOutG) (p.lonLo + wi) p.pscaleOut p.nlonOutG p.nlonOut <;> rfl

theorem edges_cell (hf : UFits p P) {ho wo : ℕ} (hwo : wo < p.nlonOut) :
    (upEdges P p.nlonOutG p.pscaleOut p.lonLo p.nlonOut p.nlatHalo p.nlonKx).filter (fun e => e.cell = (ho, wo))
      = (nbrsUp P p.nlonOutG p.pscaleOut p.lonLo p.nlatHalo p.nlonKx ho wo).map fun x => (⟨(ho, wo), x⟩ : Edge) := by
  rw [upEdges_hits]
  unfold nbrsUp
  rw [List.filter_flatMap, List.map_flatMap]
  refine List.flatMap_congr fun hi hhi => ?_
  rw [List.filter_flatMap, List.map_flatMap]
  refine List.flatMap_congr fun wi hwi => ?_
  rw [hits_eq hf (List.mem_range.1 hhi) (List.mem_range.1 hwi)]
  unfold targetsUp
  generalize P.row hi = R
  induction R with
  | nil => rfl
  | cons z R ih =>
    rw [List.map_cons, List.filter_cons, List.filter_cons]
    by_cases h : rotated P p.nlonOutG p.pscaleOut (p.lonLo + wi) z = (ho, wo)
    · rw [if_pos (by rw [h]; simpa using hwo), if_pos (by simpa using h), List.map_cons, List.filter_cons_of_pos (by simpa using h), ih, h]
      rfl
    · rw [if_neg (c := decide (rotated P p.nlonOutG p.pscaleOut (p.lonLo + wi) z = (ho, wo)) = true) (by simpa using h)]
      split_ifs
      · rw [List.map_cons, List.filter_cons_of_neg (by simpa using h), ih]
      · exact ih

/-- One launch of the model, at one point. -/
theorem upKernel_closed {ln : UpLaunch} (hok : UpLaunchOK ln) (psi : Pattern) (w : ℕ → ℝ) (g : Grids) (lonLo nlonOutLocal : ℕ) (start : ℤ) (q k v : RTen)
    (acc : ℕ → ℕ × ℕ → Acc) (b : ℕ) (c : ℕ × ℕ) :
    upKernel psi w g lonLo nlonOutLocal start ln q k v acc b c = closed (acc b c) (upPts psi w g lonLo nlonOutLocal start q k v b c) := by
  unfold upKernel upPts
  rw [upAdd_cell, upMax_cell, ← threePhase_closed]
  unfold threePhase
  generalize upEdges psi g.nlonOut (g.nlonOut / g.nlonIn) lonLo nlonOutLocal k.H k.W = edges
  have p1 := ((hok.max edges).filter fun e => e.cell = c).map (upPt w start k v q b)
  have p3 := ((hok.add edges).filter fun e => e.cell = c).map (upPt w start k v q b)
  have hm : ∀ m, phaseMax m (((ln.order1 edges).filter fun e => e.cell = c).map (upPt w start k v q b)) = phaseMax m ((edges.filter fun e => e.cell = c).map (upPt w start k v q b)) := by
    intro m
    refine eq_of_leO fun y => ?_
    rw [leO_phaseMax, leO_phaseMax]
    exact and_congr_right fun _ => forall_congr' fun t => by rw [p1.mem_iff]
  rw [hm, foldl_phaseAdd_eq, foldl_phaseAdd_eq]
  congr 1
  · funext e
    rw [(p3.map _).sum_eq]
  · rw [(p3.map _).sum_eq]

theorem upRowSum_hits (p : UParams) (P : Pattern) (g : Grids) (hg : g.nlonOut = p.nlonOutG) (hs : g.nlonOut / g.nlonIn = p.pscaleOut) (hi wi : ℕ) (x : ℕ × ℕ → ℝ) :
    upRowSum P g p.lonLo p.nlonOut hi wi x = ((hits p P hi wi).map x).sum := by
  rw [upRowSum_list, hs, hg]
  unfold hits
  generalize P.row hi = R
  induction R with
  | nil => rfl
  | cons z R ih =>
    rw [List.map_cons, List.sum_cons, ih, List.filterMap_cons]
    dsimp only
    cases upLocalWo (P.col z - P.col z / p.nlonOutG * p.nlonOutG) (p.lonLo + wi) p.pscaleOut p.nlonOutG p.nlonOut with
    | none => simp
    | some wo => simp

end Verif.RingGpuUp
