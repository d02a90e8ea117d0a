import Verif.Spec.Segformer
import Verif.Lemmas.Transformer
import Verif.Lemmas.UNet
/-!
Lemmas on the spherical Segformer: the layers act on shifted fields by shifting their results, and compute what the specification says.
-/
namespace Verif.Seg
open Verif Verif.Dist Verif.FFT Verif.Quad Verif.SHT Verif.SFNO Verif.Filter Verif.Disco Verif.Spec Verif.Props Verif.LSNO Verif.UNet Finset

/-- `f` maps stacks of fields of one shape to stacks of another, its results are related to its arguments by `P`, and `f'` maps arguments that are shifted by `s`
columns to results that are shifted by `s'` columns. -/
def Acts (f f' : Ten3 ℝ → Except PyErr (Ten3 ℝ)) (C H W s D H' W' s' : ℕ) (P : Ten3 ℝ → Ten3 ℝ → Prop) : Prop :=
  ∀ x x', HasShape x C H W → Rolled s x x' → ∃ y y', f x = .ok y ∧ f' x' = .ok y' ∧ HasShape y D H' W' ∧ Rolled s' y y' ∧ P x y

theorem Acts.comp {f f' g g' : Ten3 ℝ → Except PyErr (Ten3 ℝ)} {C H W s D H' W' s' E H'' W'' s'' : ℕ} {P Q : Ten3 ℝ → Ten3 ℝ → Prop}
    (h : Acts f f' C H W s D H' W' s' P) (k : Acts g g' D H' W' s' E H'' W'' s'' Q) :
    Acts (fun x => f x >>= g) (fun x => f' x >>= g') C H W s E H'' W'' s'' fun x z => ∃ y, P x y ∧ Q y z := by
  intro x x' hx hr
  obtain ⟨y, y', e, e', sy, ry, hp⟩ := h x x' hx hr
  obtain ⟨z, z', g1, g1', sz, rz, hq⟩ := k y y' sy ry
  exact ⟨z, z', by dsimp only; rw [e, except_bind_ok, g1], by dsimp only; rw [e', except_bind_ok, g1'], sz, rz, y, hp, hq⟩

theorem Acts.mono {f f' : Ten3 ℝ → Except PyErr (Ten3 ℝ)} {C H W s D H' W' s' : ℕ} {P Q : Ten3 ℝ → Ten3 ℝ → Prop}
    (h : Acts f f' C H W s D H' W' s' P) (k : ∀ x y, HasShape x C H W → P x y → Q x y) : Acts f f' C H W s D H' W' s' Q := by
  intro x x' hx hr
  obtain ⟨y, y', e, e', sy, ry, hp⟩ := h x x' hx hr
  exact ⟨y, y', e, e', sy, ry, k x y hx hp⟩

theorem Acts.of_eq {f f' g g' : Ten3 ℝ → Except PyErr (Ten3 ℝ)} {C H W s D H' W' s' : ℕ} {P : Ten3 ℝ → Ten3 ℝ → Prop} (h : Acts f f' C H W s D H' W' s' P)
    (e : ∀ x, g x = f x) (e' : ∀ x, g' x = f' x) : Acts g g' C H W s D H' W' s' P := by
  intro x x' hx hr
  rw [e, e']
  exact h x x' hx hr

/-- A residual connection. -/
theorem Acts.residual {f f' : Ten3 ℝ → Except PyErr (Ten3 ℝ)} {C H W s : ℕ} {P : Ten3 ℝ → Ten3 ℝ → Prop} (h : Acts f f' C H W s C H W s P) :
    Acts (fun x => f x >>= fun y => addEmbed y x) (fun x => f' x >>= fun y => addEmbed y x) C H W s C H W s
      fun x z => ∃ y, HasShape y C H W ∧ P x y ∧ Is z C H W fun o t j => x.val o t j + y.val o t j := by
  intro x x' hx hr
  obtain ⟨y, y', e, e', sy, ry, hp⟩ := h x x' hx hr
  obtain ⟨z, z', g, g', sz, rz⟩ := addEmbed_roll ry hr (sy.1.trans hx.1.symm) (sy.2.1.trans hx.2.1.symm) (sy.2.2.trans hx.2.2.symm)
  obtain ⟨z2, g2, sz2, vz⟩ := addEmbed_same (r := y) (x := x) (sy.1.trans hx.1.symm) (sy.2.1.trans hx.2.1.symm) (sy.2.2.trans hx.2.2.symm)
  rw [g] at g2
  cases g2
  rw [hx.1, hx.2.1, hx.2.2] at sz vz
  exact ⟨z, z', by dsimp only; rw [e, except_bind_ok, g], by dsimp only; rw [e', except_bind_ok, g'], sz, rz, y, sy, hp, sz, vz⟩

/-! ### Pointwise layers -/

theorem norm_acts (C H W s : ℕ) (g b : ℕ → ℝ) :
    Acts (LayerNorm.forward ⟨C, g, b⟩) (LayerNorm.forward ⟨C, g, b⟩) C H W s C H W s fun x y => Is y C H W (layerNormAt C g b x) := by
  intro x x' hx hr
  unfold LayerNorm.forward
  rw [if_neg (by rw [hx.1]; simp), if_neg (by rw [hr.d0, hx.1]; simp)]
  refine ⟨_, _, rfl, rfl, hx, ⟨hr.d0, hr.d1, hr.d2, ?_⟩, hx, ?_⟩
  · intro c hc k hk j hj
    dsimp only at hc hk hj ⊢
    have hv : ∀ i < x.d0, x'.val i k j = x.val i k ((j + s) % x.d2) := fun i hi => hr.val i hi k hk j hj
    rw [hr.d0, S2T.chanMean_congr hv, S2T.chanVar_congr hv, hv c hc]
  · intro o _ t _ j _
    dsimp only
    rw [hx.1]
    rfl

theorem conv1_acts (C D H W s : ℕ) (p : LinParams) :
    Acts (Lin.forward (.conv ⟨C, D, p.w, some p.b⟩)) (Lin.forward (.conv ⟨C, D, p.w, some p.b⟩)) C H W s D H W s fun x y => Is y D H W (mixAt C p x) := by
  intro x x' hx hr
  obtain ⟨y, y', e, e', sy, ry⟩ := conv1_roll (F := ⟨C, D, p.w, some p.b⟩) hx.1 hr
  rw [hx.2.1, hx.2.2] at sy
  refine ⟨y, y', e, e', sy, ry, sy, fun o _ t _ j _ => ?_⟩
  unfold Conv1.forward at e
  rw [if_neg (by rw [hx.1]; simp)] at e
  cases e
  rfl

theorem pointwise_acts (f : ℝ → ℝ) (C H W s : ℕ) :
    Acts (fun x => .ok (pointwise f x)) (fun x => .ok (pointwise f x)) C H W s C H W s fun x y => Is y C H W fun o t j => f (x.val o t j) :=
  fun _ _ hx hr => ⟨_, _, rfl, rfl, hx, pointwise_roll f hr, hx, fun _ _ _ _ _ _ => rfl⟩

/-! ### Convolutions -/

/-- A convolution with one group. -/
theorem conv_acts {L : Disco.Layer ℝ} {C D H W H' W' s s' : ℕ} (F : DiscoFits L C D H W H' W') (hW : 0 < W') (hd : W' ∣ W) (hs : s * W' = s' * W)
    {P : Ten3 ℝ → Ten3 ℝ → Prop} (hP : ∀ x, HasShape x C H W → ∃ y, discoForward L x = .ok y ∧ P x y) :
    Acts (discoForward L) (discoForward L) C H W s D H' W' s' P := by
  intro x x' hx hr
  obtain ⟨y, y', e, e', sy, ry⟩ := disco_roll (s' := s') F (by
    obtain ⟨q, rfl⟩ := hd
    rw [Nat.mul_div_cancel_left _ hW]
    refine Nat.eq_of_mul_eq_mul_right hW ?_
    rw [hs]; ring) hx hr
  obtain ⟨y2, e2, hp⟩ := hP x hx
  rw [e] at e2
  cases e2
  exact ⟨y, y', e, e', sy, ry, hp⟩

theorem trans_acts {L : Disco.Layer ℝ} {C D H W H' W' s s' : ℕ} (F : TransFits L C D H W H' W') (hW : 0 < W) (hd : W ∣ W') (hs : s * W' = s' * W)
    {P : Ten3 ℝ → Ten3 ℝ → Prop} (hP : ∀ x, HasShape x C H W → ∃ y, transForward L x = .ok y ∧ P x y) :
    Acts (transForward L) (transForward L) C H W s D H' W' s' P := by
  intro x x' hx hr
  obtain ⟨y, y', e, e', sy, ry⟩ := trans_roll (s' := s') F (by
    obtain ⟨q, rfl⟩ := hd
    rw [Nat.mul_div_cancel_left _ hW]
    refine Nat.eq_of_mul_eq_mul_right hW ?_
    rw [← hs]; ring) hx hr
  obtain ⟨y2, e2, hp⟩ := hP x hx
  rw [e] at e2
  cases e2
  exact ⟨y, y', e, e', sy, ry, hp⟩

/-- The constructor with one group is the one of `Model/LSNO.lean`. -/
theorem groupedInit_one (env : Env) (a : DiscoArgs) (w : ℕ → ℕ → ℕ → ℝ) (bias : Option (ℕ → ℝ)) : groupedInit env a 1 w bias = discoInit env a w bias := rfl

/-- The depthwise convolution of a feed-forward network. -/
theorem depth_acts {env : Env} {C H W : ℕ} {shape : List ℕ} {basis g : String} {B : Basis} {r : Rule} {theta : ℝ} (hB : getBasis shape basis = .ok B)
    (hK : 0 < B.kernelSize) (hC : C ≠ 0) (h1 : precomputeLatitudes env.gauss env.tol env.maxiter H g = .ok r) (h2 : r.n = H) (hH : 0 < H) (hW : 0 < W) (hle : H ≤ W)
    (ht : 0 < theta) (w : ℕ → ℕ → ℕ → ℝ) :
    ∃ L, groupedInit env ⟨C, C, H, W, H, W, shape, basis, g, g, theta⟩ C w none = .ok L ∧
      ∀ s, Acts (discoForward L) (discoForward L) C H W s C H W s fun x y => Is y C H W (depthAt B r W theta w x) := by
  obtain ⟨es, taps, he, hes, hfit⟩ := convEntries_ready (a := ⟨C, C, H, W, H, W, shape, basis, g, g, theta⟩) (B := B) (rin := r) (rout := r)
    ⟨hB, hK, hC, h1, h2, h1, hH, hW, hW, dvd_refl W, ht⟩
  have hC' : 0 < C := Nat.pos_of_ne_zero hC
  have hsplit : channelSplit C C C = .ok (1, 1) := by
    unfold channelSplit
    rw [if_neg hC, if_neg (by rw [Nat.mod_self]; simp), if_neg (by rw [Nat.mod_self]; simp), Nat.div_self hC']
  refine ⟨⟨C, 1, 1, B.kernelSize, H, W, H, W, w, none, es⟩, ?_, fun s x x' hx hr => ?_⟩
  · unfold groupedInit
    dsimp only
    rw [hB, except_bind_ok, hsplit, except_bind_ok]
    dsimp only at he ⊢
    rw [if_neg (by omega), he]
    rfl
  · have hL : LayerOf (⟨C, 1, 1, B.kernelSize, H, W, H, W, w, none, es⟩ : Disco.Layer ℝ) taps := ⟨hes, hfit, hW, dvd_refl W, hle⟩
    obtain ⟨y, k1, k2, k3, k4, k5⟩ := C28_layer _ taps hL ⟨x.d0, x.d1, x.d2, x.val⟩ ⟨by rw [mul_one]; exact hx.1, hx.2.1, hx.2.2⟩
    obtain ⟨y', k1', k2', k3', k4', k5'⟩ := C28_layer _ taps hL ⟨x'.d0, x'.d1, x'.d2, x'.val⟩
      ⟨by rw [mul_one]; exact hr.d0.trans hx.1, hr.d1.trans hx.2.1, hr.d2.trans hx.2.2⟩
    obtain ⟨z, m1, _, _, _, m5⟩ := C37_layer env.gauss env.tol env.maxiter H W H W B g g (some theta) es r r he h1 h1 h2 hW hK (getBasis_mask hB) hle
      (⟨C, 1, 1, B.kernelSize, H, W, H, W, w, none, es⟩ : Disco.Layer ℝ) ⟨rfl, rfl, rfl, rfl, rfl, rfl⟩ ⟨x.d0, x.d1, x.d2, x.val⟩
      ⟨by rw [mul_one]; exact hx.1, hx.2.1, hx.2.2⟩
    rw [k1] at m1
    cases m1
    dsimp only at k2 k2' k3 k3' k4 k4' k5 k5' m5
    rw [mul_one] at k2 k2'
    refine ⟨⟨y.d0, y.d1, y.d2, y.val⟩, ⟨y'.d0, y'.d1, y'.d2, y'.val⟩, ?_, ?_, ⟨k2, k3, k4⟩, ⟨k2'.trans k2.symm, k3'.trans k3.symm, k4'.trans k4.symm, ?_⟩,
      ⟨k2, k3, k4⟩, ?_⟩
    · unfold discoForward; rw [k1]; rfl
    · unfold discoForward; rw [k1']; rfl
    · intro oc ho t _ p hp
      dsimp only at ho hp ⊢
      rw [k4] at hp ⊢
      rw [k2] at ho
      rw [k5' oc t p hp, k5 oc t _ (Nat.mod_lt _ hW)]
      refine congrArg₂ (· + ·) (sum_congr rfl fun c hc => sum_congr rfl fun k _ => ?_) rfl
      congr 1
      have hc0 : oc / 1 * 1 + c = oc := by
        have := mem_range.1 hc
        rw [Nat.div_one, mul_one]; omega
      rw [hc0]
      have := discoSum_shift taps W W s (dvd_refl W)
      rw [Nat.div_self hW, mul_one] at this
      rw [← this]
      refine discoSum_congr hfit _ hW (fun i hi j hj => ?_) k t p
      dsimp only at hi hj ⊢
      rw [hr.val oc (by rw [hx.1]; exact ho) i (by rw [hx.2.1]; exact hi) j (by rw [hx.2.2]; exact hj), hx.2.2]
    · intro o ho t ht j hj
      dsimp only
      rw [m5 o t ht j hj]
      simp only [Nat.div_one, mul_one, sum_range_one, add_zero, Option.getD_some]
      rfl

/-! ### Attention -/

theorem attn_acts {T : S2T.Attention} {p : Spec.Attn.Params} {r : Rule} {C heads H W s : ℕ} {mode : String} {theta : ℝ} (hW : 0 < W)
    (hT : S2T.Attends T p r C C heads H W (S2T.reach mode r H W theta)) {run run' : Option Attn.CpuRun}
    (hrun : ∀ k, run = some k → CoversBlocks ⟨heads, C / heads, C / heads, H, W, H, W⟩ k.order)
    (hrun' : ∀ k, run' = some k → CoversBlocks ⟨heads, C / heads, C / heads, H, W, H, W⟩ k.order) :
    Acts (T.forward run) (T.forward run') C H W s C H W s fun x y => Is y C H W fun o t j =>
      Spec.Attn.layer p C (C / heads) (C / heads) C (1 / Real.sqrt ((C / heads : ℕ) : ℝ)) (fun i => 2 * Real.pi * r.w i / W) (S2T.reach mode r H W theta)
        (S2T.t4 x) (S2T.t4 x) (S2T.t4 x) 0 o t j := by
  intro x x' hx hr
  obtain ⟨y, y', e, e', sy, ry⟩ := S2T.attends_roll hW hT hT (fun t j z hz => S2T.reach_lt hz) (fun t _ j _ => S2T.reach_turn hW t j s) hrun hrun' hx hr
  obtain ⟨y2, e2, _, vy⟩ := hT run hrun x hx
  rw [e] at e2
  cases e2
  exact ⟨y, y', e, e', sy, ry, sy, vy⟩

/-! ### Loops -/

/-- The repetitions of a block, step by step. -/
theorem reps_acts {run run' : ℕ → Option Attn.CpuRun} {C H W s : ℕ} {P Q : ℕ → Ten3 ℝ → Ten3 ℝ → Prop} (R : ℕ → Rep)
    (ha : ∀ q, Acts ((R q).att.forward (run q)) ((R q).att.forward (run' q)) C H W s C H W s (P q))
    (hf : ∀ q, Acts (R q).ffn.forward (R q).ffn.forward C H W s C H W s (Q q)) : ∀ (n i : ℕ),
    Acts (runReps run i ((List.range' i n).map R)) (runReps run' i ((List.range' i n).map R)) C H W s C H W s fun x y =>
      ∃ h m : ℕ → Ten3 ℝ, h i = x ∧ h (i + n) = y ∧ ∀ q, i ≤ q → q < i + n → P q (h q) (m q) ∧ Q q (m q) (h (q + 1))
  | 0, i => fun x x' hx hr => ⟨x, x', rfl, rfl, hx, hr, fun _ => x, fun _ => x, rfl, rfl, fun q h1 h2 => by omega⟩
  | n + 1, i => by
    intro x x' hx hr
    obtain ⟨y, y', e1, e1', s1, r1, p1⟩ := ha i x x' hx hr
    obtain ⟨z, z', e2, e2', s2, r2, p2⟩ := hf i y y' s1 r1
    obtain ⟨v, v', e3, e3', s3, r3, h, m, h1, h2, h3⟩ := reps_acts R ha hf n (i + 1) z z' s2 r2
    refine ⟨v, v', ?_, ?_, s3, r3, fun q => if q = i then x else h q, fun q => if q = i then y else m q, if_pos rfl, ?_, fun q g1 g2 => ?_⟩
    · rw [List.range'_succ, List.map_cons]
      simp only [runReps]
      rw [e1, except_bind_ok, e2, except_bind_ok, e3]
    · rw [List.range'_succ, List.map_cons]
      simp only [runReps]
      rw [e1', except_bind_ok, e2', except_bind_ok, e3']
    · dsimp only
      rw [if_neg (by omega), ← h2]
      congr 1; omega
    · dsimp only
      rw [if_neg (show ¬ q + 1 = i by omega)]
      by_cases hq : q = i
      · subst hq
        rw [if_pos rfl, if_pos rfl, h1]
        exact ⟨p1, p2⟩
      · rw [if_neg hq, if_neg hq]
        exact h3 q (by omega) (by omega)

/-- The encoder and the upsampling, step by step. -/
theorem encode_acts {run run' : ℕ → ℕ → Option Attn.CpuRun} {C H W s : ℕ → ℕ} {H0 W0 s0 n : ℕ} {P Q : ℕ → Ten3 ℝ → Ten3 ℝ → Prop} (B : ℕ → Block) (U : ℕ → Up)
    (hb : ∀ i < n, Acts ((B i).forward (run i)) ((B i).forward (run' i)) (C i) (H i) (W i) (s i) (C (i + 1)) (H (i + 1)) (W (i + 1)) (s (i + 1)) (P i))
    (hu : ∀ i < n, Acts (U i).forward (U i).forward (C (i + 1)) (H (i + 1)) (W (i + 1)) (s (i + 1)) (C (i + 1)) H0 W0 s0 (Q i)) : ∀ (m i : ℕ), i + m ≤ n →
    ∀ x x', HasShape x (C i) (H i) (W i) → Rolled (s i) x x' → ∃ (fs fs' : List (Ten3 ℝ)) (f u u' : ℕ → Ten3 ℝ),
      encode run i ((List.range' i m).map B) x = .ok fs ∧ encode run' i ((List.range' i m).map B) x' = .ok fs' ∧ f i = x ∧
      ((fs.zip ((List.range' i m).map U)).mapM fun q => q.2.forward q.1) = .ok ((List.range' i m).map u) ∧
      ((fs'.zip ((List.range' i m).map U)).mapM fun q => q.2.forward q.1) = .ok ((List.range' i m).map u') ∧
      ∀ l, i ≤ l → l < i + m → P l (f l) (f (l + 1)) ∧ Q l (f (l + 1)) (u l) ∧ HasShape (u l) (C (l + 1)) H0 W0 ∧ Rolled s0 (u l) (u' l)
  | 0, i, _, x, x', hx, hr => ⟨[], [], fun _ => x, fun _ => x, fun _ => x, rfl, rfl, rfl, rfl, rfl, fun l h1 h2 => by omega⟩
  | m + 1, i, hn, x, x', hx, hr => by
    obtain ⟨y, y', e1, e1', s1, r1, p1⟩ := hb i (by omega) x x' hx hr
    obtain ⟨z, z', e2, e2', s2, r2, p2⟩ := hu i (by omega) y y' s1 r1
    obtain ⟨fs, fs', f, u, u', g1, g1', g2, g3, g3', g4⟩ := encode_acts B U hb hu m (i + 1) (by omega) y y' s1 r1
    have hmap : ∀ (v : ℕ → Ten3 ℝ) (z : Ten3 ℝ), (List.range' i (m + 1)).map (fun l => if l = i then z else v l) = z :: (List.range' (i + 1) m).map v := by
      intro v z
      rw [List.range'_succ, List.map_cons, if_pos rfl]
      congr 1
      refine List.map_congr_left fun l hl => ?_
      rw [if_neg]
      have := (List.mem_range'_1.1 hl).1
      omega
    refine ⟨y :: fs, y' :: fs', fun l => if l = i then x else f l, fun l => if l = i then z else u l, fun l => if l = i then z' else u' l, ?_, ?_, if_pos rfl, ?_, ?_,
      fun l h1 h2 => ?_⟩
    · rw [List.range'_succ, List.map_cons]
      simp only [encode]
      rw [e1, except_bind_ok, g1]
      rfl
    · rw [List.range'_succ, List.map_cons]
      simp only [encode]
      rw [e1', except_bind_ok, g1']
      rfl
    · rw [hmap, List.range'_succ, List.map_cons, List.zip_cons_cons, List.mapM_cons, e2, except_bind_ok, g3]
      rfl
    · rw [hmap, List.range'_succ, List.map_cons, List.zip_cons_cons, List.mapM_cons, e2', except_bind_ok, g3']
      rfl
    · dsimp only
      rw [if_neg (show ¬ l + 1 = i by omega)]
      by_cases hl : l = i
      · subst hl
        simp only [if_true]
        rw [g2]
        exact ⟨p1, p2, s2, r2⟩
      · simp only [if_neg hl]
        exact g4 l (by omega) (by omega)

/-- The concatenation of a list of stacks of fields, and a linear map of it. -/
theorem catAll_acts {H W s : ℕ} {C : ℕ → ℕ} {u u' : ℕ → Ten3 ℝ} : ∀ (m i : ℕ),
    (∀ l, i ≤ l → l < i + (m + 1) → HasShape (u l) (C l) H W ∧ Rolled s (u l) (u' l)) →
    ∃ c c', catAll ((List.range' i (m + 1)).map u) = .ok c ∧ catAll ((List.range' i (m + 1)).map u') = .ok c' ∧
      HasShape c (∑ l ∈ range (m + 1), C (i + l)) H W ∧ Rolled s c c' ∧ ∀ (w : ℕ → ℝ) (t j : ℕ),
        ∑ k ∈ range (∑ l ∈ range (m + 1), C (i + l)), w k * c.val k t j
          = ∑ l ∈ range (m + 1), ∑ k ∈ range (C (i + l)), w ((∑ q ∈ range l, C (i + q)) + k) * (u (i + l)).val k t j
  | 0, i, h => by
    obtain ⟨h1, h2⟩ := h i le_rfl (by omega)
    refine ⟨u i, u' i, rfl, rfl, ?_, h2, fun w t j => ?_⟩
    · rw [sum_range_one]; exact h1
    · simp
  | m + 1, i, h => by
    obtain ⟨h1, h2⟩ := h i le_rfl (by omega)
    obtain ⟨c, c', e, e', sc, rc, vc⟩ := catAll_acts (H := H) (W := W) (s := s) (C := C) (u := u) (u' := u') m (i + 1) (fun l g1 g2 => h l (by omega) (by omega))
    obtain ⟨y, y', f, f', sy, ry⟩ := cat_roll h1 sc h2 rc
    have hsum : ∑ l ∈ range (m + 1 + 1), C (i + l) = C i + ∑ l ∈ range (m + 1), C (i + 1 + l) := by
      rw [sum_range_succ', add_comm]
      congr 1
      exact sum_congr rfl fun l _ => by congr 1; omega
    refine ⟨y, y', ?_, ?_, by rw [hsum]; exact sy, ry, fun w t j => ?_⟩
    · rw [List.range'_succ, List.map_cons]
      rw [List.range'_succ, List.map_cons] at e ⊢
      simp only [catAll]
      rw [e, except_bind_ok, f]
    · rw [List.range'_succ, List.map_cons]
      rw [List.range'_succ, List.map_cons] at e' ⊢
      simp only [catAll]
      rw [e', except_bind_ok, f']
    · rw [hsum, sum_range_add, sum_range_succ' _ (m + 1), add_comm]
      unfold cat at f
      rw [if_pos ⟨h1.2.1.trans sc.2.1.symm, h1.2.2.trans sc.2.2.symm⟩] at f
      cases f
      dsimp only
      rw [h1.1]
      congr 1
      · have := vc (fun k => w (C i + k)) t j
        rw [show ∑ k ∈ range (∑ l ∈ range (m + 1), C (i + 1 + l)), w (C i + k) * (if C i + k < C i then (u i).val (C i + k) t j else c.val (C i + k - C i) t j)
            = ∑ k ∈ range (∑ l ∈ range (m + 1), C (i + 1 + l)), w (C i + k) * c.val k t j from sum_congr rfl fun k _ => by
              rw [if_neg (by omega), Nat.add_sub_cancel_left], this]
        refine sum_congr rfl fun l _ => ?_
        rw [show i + (l + 1) = i + 1 + l by omega]
        refine sum_congr rfl fun k _ => ?_
        congr 2
        have e1 : ∑ q ∈ range l, C (i + (q + 1)) = ∑ q ∈ range l, C (i + 1 + q) := sum_congr rfl fun q _ => by rw [show i + (q + 1) = i + 1 + q by omega]
        rw [sum_range_succ' (fun q => C (i + q)) l, e1]
        have e0 : C (i + 0) = C i := rfl
        omega
      · simp only [Nat.add_zero, range_zero, sum_empty, Nat.zero_add]
        exact sum_congr rfl fun k hk => by rw [if_pos (mem_range.1 hk)]

end Verif.Seg
