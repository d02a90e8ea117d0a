import Verif.Lemmas.AttentionHeads
import Verif.Props.AttentionCpu
import Verif.Lemmas.FilterBasis
import Mathlib.Tactic.IntervalCases
/-!
Property C44: layout conversions and head packing move entries without losing or duplicating any, and the attention operators treat every
head on its own. A tensor is its shape and its row-major memory (`Arr`); `x.at [i, j, ...]` is one entry.
-/
namespace Verif.Props
open Verif Verif.Attn Verif.Spec.Attn Finset

/-- Two tensors are equal: same shape, same entries. -/
def SameTensor (x y : Arr) : Prop := x.shape = y.shape ∧ ∀ i, Inside i x.shape → x.at i = y.at i

theorem inside4_iff {i : List ℕ} {A B C D : ℕ} (h : Inside i [A, B, C, D]) :
    ∃ a b c d, i = [a, b, c, d] ∧ a < A ∧ b < B ∧ c < C ∧ d < D := by
  cases h with
  | cons ha h => cases h with
    | cons hb h => cases h with
      | cons hc h => cases h with
        | cons hd h => cases h; exact ⟨_, _, _, _, rfl, ha, hb, hc, hd⟩

/-- C44: `to_nhwc` moves entry `[b, c, h, w]` to `[b, h, w, c]`, and `to_nchw` brings back the tensor it started from. -/
theorem C44_layout (x : Arr) (B C H W : ℕ) (hx : x.shape = [B, C, H, W]) :
    ∃ y z, toNhwc x = .ok y ∧ y.shape = [B, H, W, C] ∧
      (∀ b < B, ∀ c < C, ∀ h < H, ∀ w < W, y.at [b, h, w, c] = x.at [b, c, h, w]) ∧ toNchw y = .ok z ∧ SameTensor z x := by
  obtain ⟨h1, h2⟩ := permute_0231 hx
  obtain ⟨h3, h4⟩ := permute_0312 h1
  refine ⟨_, _, by simp [toNhwc, hx], h1, h2, by unfold toNchw; rw [h1]; rfl, by rw [h3, hx], fun i hi => ?_⟩
  rw [h3] at hi
  obtain ⟨b, c, h, w, rfl, hb, hc, hh, hw⟩ := inside4_iff hi
  rw [h4 b hb c hc h hh w hw, h2 b hb c hc h hh w hw]

/-- C44: the other order. -/
theorem C44_layout_back (x : Arr) (B C H W : ℕ) (hx : x.shape = [B, H, W, C]) :
    ∃ y z, toNchw x = .ok y ∧ y.shape = [B, C, H, W] ∧
      (∀ b < B, ∀ c < C, ∀ h < H, ∀ w < W, y.at [b, c, h, w] = x.at [b, h, w, c]) ∧ toNhwc y = .ok z ∧ SameTensor z x := by
  obtain ⟨h1, h2⟩ := permute_0312 hx
  obtain ⟨h3, h4⟩ := permute_0231 h1
  refine ⟨_, _, by simp [toNchw, hx], h1, h2, by unfold toNhwc; rw [h1]; rfl, by rw [h3, hx], fun i hi => ?_⟩
  rw [h3] at hi
  obtain ⟨b, h, w, c, rfl, hb, hh, hw, hc⟩ := inside4_iff hi
  rw [h4 b hb c hc h hh w hw, h2 b hb c hc h hh w hw]

/-- C44, error branch: anything that does not have four axes is refused. -/
theorem C44_layout_error (x : Arr) (h : x.shape.length ≠ 4) : toNhwc x = .error .runtimeError ∧ toNchw x = .error .runtimeError := by
  unfold toNhwc toNchw
  rw [if_pos h, if_pos h]
  exact ⟨rfl, rfl⟩

/-- C44, heads in the reference operator: head `n` of batch entry `b` becomes batch entry `b * nh + n`, and unfolding gives back
the tensor. -/
theorem C44_heads_reference (x : Arr) (B H W nh C : ℕ) (hx : x.shape = [B, H, W, nh * C]) (hB : 0 < B) (hH : 0 < H) (hW : 0 < W) (hn : 0 < nh) :
    ∃ y z, refFold nh x = .ok y ∧ y.shape = [B * nh, C, H, W] ∧
      (∀ b < B, ∀ n < nh, ∀ c < C, ∀ h < H, ∀ w < W, y.at [b * nh + n, c, h, w] = x.at [b, h, w, n * C + c]) ∧
      refUnfold B nh y = .ok z ∧ refUnfoldBwd nh y = .ok z ∧ SameTensor z x := by
  obtain ⟨y, h1, h2, h3⟩ := refFold_ok hx hB hH hW hn
  obtain ⟨z, h4, h5, h6⟩ := refUnfold_ok h2
  refine ⟨y, z, h1, h2, h3, h4, ?_, by rw [h5, hx], fun i hi => ?_⟩
  · unfold refUnfoldBwd
    rw [if_neg hn.ne', h2]
    simp only [List.getD_cons_zero]
    rw [Nat.mul_div_cancel _ hn, h4]
  · rw [h5] at hi
    obtain ⟨b, h, w, j, rfl, hb, hh, hw, hj⟩ := inside4_iff hi
    obtain ⟨e1, e2, e3⟩ := packed_split hj
    rw [← e3, h6 b hb _ e1 _ e2 h hh w hw, h3 b hb _ e1 _ e2 h hh w hw]

/-- C44, heads in the CPU operators. -/
theorem C44_heads_cpu (x : Arr) (B H W nh C : ℕ) (hx : x.shape = [B, H, W, nh * C]) (hn : 0 < nh) :
    ∃ y z, cpuFold nh x = .ok y ∧ y.shape = [B * nh, H, W, C] ∧
      (∀ b < B, ∀ n < nh, ∀ c < C, ∀ h < H, ∀ w < W, y.at [b * nh + n, h, w, c] = x.at [b, h, w, n * C + c]) ∧
      cpuUnfold nh y = .ok z ∧ SameTensor z x := by
  obtain ⟨y, h1, h2, h3⟩ := cpuFold_ok hx hn
  obtain ⟨z, h4, h5, h6⟩ := cpuUnfold_ok h2 hn
  refine ⟨y, z, h1, h2, h3, h4, by rw [h5, hx], fun i hi => ?_⟩
  rw [h5] at hi
  obtain ⟨b, h, w, j, rfl, hb, hh, hw, hj⟩ := inside4_iff hi
  obtain ⟨e1, e2, e3⟩ := packed_split hj
  rw [← e3, h6 b hb _ e1 _ e2 h hh w hw, h3 b hb _ e1 _ e2 h hh w hw]

/-- C44, the other order: folding after unfolding is the identity as well, for both implementations. -/
theorem C44_heads_back (x x' : Arr) (B H W nh C : ℕ) (hx : x.shape = [B * nh, C, H, W]) (hx' : x'.shape = [B * nh, H, W, C])
    (hB : 0 < B) (hH : 0 < H) (hW : 0 < W) (hn : 0 < nh) :
    (∃ y z, refUnfold B nh x = .ok y ∧ refFold nh y = .ok z ∧ SameTensor z x) ∧
      ∃ y z, cpuUnfold nh x' = .ok y ∧ cpuFold nh y = .ok z ∧ SameTensor z x' := by
  constructor
  · obtain ⟨y, h1, h2, h3⟩ := refUnfold_ok hx
    obtain ⟨z, h4, h5, h6⟩ := refFold_ok h2 hB hH hW hn
    refine ⟨y, z, h1, h4, by rw [h5, hx], fun i hi => ?_⟩
    rw [h5] at hi
    obtain ⟨j, c, h, w, rfl, hj, hc, hh, hw⟩ := inside4_iff hi
    obtain ⟨e1, e2, e3⟩ := packed_split hj
    rw [← e3, h6 _ e1 _ e2 c hc h hh w hw, h3 _ e1 _ e2 c hc h hh w hw]
  · obtain ⟨y, h1, h2, h3⟩ := cpuUnfold_ok hx' hn
    obtain ⟨z, h4, h5, h6⟩ := cpuFold_ok h2 hn
    refine ⟨y, z, h1, h4, by rw [h5, hx'], fun i hi => ?_⟩
    rw [h5] at hi
    obtain ⟨j, h, w, c, rfl, hj, hh, hw, hc⟩ := inside4_iff hi
    obtain ⟨e1, e2, e3⟩ := packed_split hj
    rw [← e3, h6 _ e1 _ e2 c hc h hh w hw, h3 _ e1 _ e2 c hc h hh w hw]

/-- C44, error branches: a channel count that is not a multiple of the number of heads is refused by both implementations, zero
heads too. -/
theorem C44_heads_error (x v : Arr) (B H W C nh : ℕ) (hx : x.shape = [B, H, W, C]) :
    (0 < B → 0 < H → 0 < W → ¬ nh ∣ C → refFold nh x = .error .runtimeError) ∧ refFold 0 x = .error .runtimeError ∧
    (¬ nh ∣ C → cpuHeadCheck nh v x = .error .runtimeError ∧ cpuHeadCheck nh x v = .error .runtimeError) ∧
    cpuHeadCheck 0 v x = .error .runtimeError := by
  refine ⟨fun hB hH hW hd => ?_, ?_, fun hd => ?_, rfl⟩
  · unfold refFold
    rw [hx]
    dsimp only
    rw [reshape_infer_error x _ (B * (H * (W * nh))) (by simp) (by simp) ?_]
    rcases Nat.eq_zero_or_pos nh with h0 | h0
    · left; simp [h0]
    · right
      rw [hx]
      simp only [List.prod_cons, List.prod_nil, mul_one]
      intro hm
      rw [← Nat.mul_assoc, ← Nat.mul_assoc, ← Nat.mul_assoc, ← Nat.mul_assoc, Nat.mul_mod_mul_left] at hm
      have := Nat.mul_eq_zero.mp hm
      rcases this with h | h
      · have : 0 < B * H * W := by positivity
        omega
      · exact hd (Nat.dvd_of_mod_eq_zero h)
  · unfold refFold
    rw [hx]
    dsimp only
    rw [reshape_infer_error x _ 0 (by simp) (by simp) (Or.inl rfl)]
  · have hm : C % nh ≠ 0 := fun h => hd (Nat.dvd_of_mod_eq_zero h)
    unfold cpuHeadCheck
    rw [hx]
    simp only [List.getD_cons_zero, List.getD_cons_succ, if_pos hm]
    constructor
    · split
      · rfl
      · rfl
    · split
      · rfl
      · split
        · rfl
        · rfl

/-! ### The operators -/

/-- Head `n` of a packed channels-last tensor with `C` channels per head, in channels-first order. -/
def packedHead (C n : ℕ) (x : Arr) : T4 := fun b c h w => x.at [b, h, w, n * C + c]

/-- The neighbours of an output point, in whichever direction the longitudes allow. -/
def opNbrs (P : Pattern) (nlatIn nlonIn nlonOut ho wo : ℕ) : List (ℕ × ℕ) :=
  if nlonIn % nlonOut = 0 then gatherNbrs P nlonIn (nlonIn / nlonOut) ho wo
  else scatterNbrs P nlatIn nlonIn nlonOut (nlonOut / nlonIn) ho wo

/-- The packed tensors of one call and the stored pattern fit together. -/
structure OpFits (B nh Ck Cv nlatIn nlonIn nlatOut nlonOut : ℕ) (P : Pattern) (k v q : Arr) : Prop where
  hk : k.shape = [B, nlatIn, nlonIn, nh * Ck]
  hv : v.shape = [B, nlatIn, nlonIn, nh * Cv]
  hq : q.shape = [B, nlatOut, nlonOut, nh * Ck]
  posB : 0 < B
  posn : 0 < nh
  poslatIn : 0 < nlatIn
  poslonIn : 0 < nlonIn
  poslatOut : 0 < nlatOut
  poslonOut : 0 < nlonOut
  dir : nlonIn % nlonOut = 0 ∨ nlonOut % nlonIn = 0
  fits : if nlonIn % nlonOut = 0 then P.Fits nlatOut (nlatIn * nlonIn) else P.Fits nlatIn (nlatOut * nlonOut)

section
variable {B nh Ck Cv nlatIn nlonIn nlatOut nlonOut : ℕ} {P : Pattern} {k v q : Arr}

theorem opNbrs_inside (F : OpFits B nh Ck Cv nlatIn nlonIn nlatOut nlonOut P k v q) {ho : ℕ} (hho : ho < nlatOut) (wo : ℕ) :
    ∀ p ∈ opNbrs P nlatIn nlonIn nlonOut ho wo, p.1 < nlatIn ∧ p.2 < nlonIn := by
  intro p hp
  unfold opNbrs at hp
  have hf := F.fits
  split at hp
  · next h =>
    rw [if_pos h] at hf
    exact gatherNbrs_fits (d := ⟨B, Ck, Cv, nlatIn, nlonIn, nlatOut, nlonOut⟩) hf F.poslonIn _ hho wo p hp
  · exact mem_scatterNbrs hp

theorem refKernel_eq (d : Dims) (h1 : 0 < d.nlonIn) (h0 : 0 < d.nlonOut) (hdir : d.nlonIn % d.nlonOut = 0 ∨ d.nlonOut % d.nlonIn = 0) (w : ℕ → ℝ)
    (P : Pattern) (k v q : T4) :
    ∃ g, refDirection d.nlonIn d.nlonOut = .ok g ∧ (g = true ↔ d.nlonIn % d.nlonOut = 0) ∧
      refKernel g d w P k v q = .ok (attention d.Ck w (opNbrs P d.nlatIn d.nlonIn d.nlonOut) k v q) := by
  by_cases h : d.nlonIn % d.nlonOut = 0
  · refine ⟨true, by unfold refDirection; rw [if_neg h0.ne', if_pos h], by simp [h], ?_⟩
    unfold refKernel
    rw [if_pos rfl, C38_reference d h0 h]
    congr 2
    funext ho wo
    unfold opNbrs
    rw [if_pos h]
  · refine ⟨false, by unfold refDirection; rw [if_neg h0.ne', if_neg h, if_neg h1.ne', if_pos (hdir.resolve_left h)], by simp [h], ?_⟩
    unfold refKernel
    rw [if_neg (by simp), C41_reference d h1 (hdir.resolve_left h)]
    congr 2
    funext ho wo
    unfold opNbrs
    rw [if_neg h]

/-- C44, reference operator: for every number of heads, head `n` of the output is the attention of head `n` of the queries over
heads `n` of keys and values. No other head enters. -/
theorem C44_operator_reference (F : OpFits B nh Ck Cv nlatIn nlonIn nlatOut nlonOut P k v q) (w : ℕ → ℝ) :
    ∃ y, refOp w P nh nlonIn nlatOut nlonOut k v q = .ok y ∧ y.shape = [B, nlatOut, nlonOut, nh * Cv] ∧
      ∀ b < B, ∀ n < nh, ∀ c < Cv, ∀ ho < nlatOut, ∀ wo < nlonOut, y.at [b, ho, wo, n * Cv + c]
        = attention Ck w (opNbrs P nlatIn nlonIn nlonOut) (packedHead Ck n k) (packedHead Cv n v) (packedHead Ck n q) b c ho wo := by
  obtain ⟨k', k1, k2, k3⟩ := refFold_ok F.hk F.posB F.poslatIn F.poslonIn F.posn
  obtain ⟨v', v1, v2, v3⟩ := refFold_ok F.hv F.posB F.poslatIn F.poslonIn F.posn
  obtain ⟨q', q1, q2, q3⟩ := refFold_ok F.hq F.posB F.poslatOut F.poslonOut F.posn
  have hd : refDims k' v' q' nlonIn nlatOut nlonOut = ⟨B * nh, Ck, Cv, nlatIn, nlonIn, nlatOut, nlonOut⟩ := by
    unfold refDims; rw [k2, v2, q2]; rfl
  obtain ⟨g, g1, -, g2⟩ := refKernel_eq ⟨B * nh, Ck, Cv, nlatIn, nlonIn, nlatOut, nlonOut⟩ F.poslonIn F.poslonOut F.dir w P k'.fn4 v'.fn4 q'.fn4
  obtain ⟨y, y1, y2, y3⟩ := refUnfold_ok (x := Arr.of4 (B * nh) Cv nlatOut nlonOut
    (attention Ck w (opNbrs P nlatIn nlonIn nlonOut) k'.fn4 v'.fn4 q'.fn4)) (B := B) (nh := nh) (C := Cv) (H := nlatOut) (W := nlonOut) rfl
  refine ⟨y, ?_, y2, fun b hb n hn c hc ho hho wo hwo => ?_⟩
  · unfold refOp
    dsimp only at g1 g2
    simp only [k1, v1, q1, g1, hd, g2, bind, Except.bind]
    rw [F.hq]
    exact y1
  · have hbn := packed_lt hb hn
    rw [y3 b hb n hn c hc ho hho wo hwo, of4_at _ hbn hc hho hwo]
    refine attention_congr (fun p hp e he => ?_) (fun p hp => ?_) (fun e he => ?_)
    · obtain ⟨i1, i2⟩ := opNbrs_inside F hho wo p hp
      exact k3 b hb n hn e he _ i1 _ i2
    · obtain ⟨i1, i2⟩ := opNbrs_inside F hho wo p hp
      exact v3 b hb n hn c hc _ i1 _ i2
    · exact q3 b hb n hn e he _ hho _ hwo

theorem cpuForward_eq (d : Dims) (h1 : 0 < d.nlonIn) (h0 : 0 < d.nlonOut) (hdir : d.nlonIn % d.nlonOut = 0 ∨ d.nlonOut % d.nlonIn = 0)
    (w : ℕ → ℝ) (P : Pattern) (k v q : T4) (fmin : ℝ) (mem : ℕ × ℕ × ℕ → ℕ → ℝ) (order : List (ℕ × ℕ × ℕ)) (hord : CoversBlocks d order) :
    ∃ y, cpuForward d w P k v q fmin mem order = .ok y ∧ ∀ b < d.B, ∀ c < d.Cv, ∀ ho < d.nlatOut, ∀ wo < d.nlonOut,
      y b ho wo c = attention d.Ck w (opNbrs P d.nlatIn d.nlonIn d.nlonOut) (nchw k) (nchw v) (nchw q) b c ho wo := by
  have hnb : ∀ nb : ℕ → ℕ → List (ℕ × ℕ), (∀ ho wo, nb ho wo = opNbrs P d.nlatIn d.nlonIn d.nlonOut ho wo) →
      nb = opNbrs P d.nlatIn d.nlonIn d.nlonOut := fun nb h => funext fun ho => funext fun wo => h ho wo
  by_cases h : d.nlonIn % d.nlonOut = 0
  · obtain ⟨y, y1, y2⟩ := C38_cpu d h0 h1 h w P k v q fmin mem order hord
    rw [hnb (gatherNbrs P d.nlonIn (d.nlonIn / d.nlonOut)) (fun ho wo => by unfold opNbrs; rw [if_pos h])] at y2
    exact ⟨y, y1, y2⟩
  · obtain ⟨y, _, y1, -, y2⟩ := C41_cpu d h0 h1 h (hdir.resolve_left h) w P k v q fmin mem order hord
    rw [hnb (scatterNbrs P d.nlatIn d.nlonIn d.nlonOut (d.nlonOut / d.nlonIn)) (fun ho wo => by unfold opNbrs; rw [if_neg h])] at y2
    exact ⟨y, y1, fun b hb c hc ho hho wo hwo => (y2 b hb c hc ho hho wo hwo).2⟩

theorem cpuDirection_ok (nlonIn nlatOut nlonOut : ℕ) (h1 : 0 < nlonIn) (h0 : 0 < nlonOut) (hdir : nlonIn % nlonOut = 0 ∨ nlonOut % nlonIn = 0) :
    ∃ g, cpuDirection ⟨0, 0, 0, 0, nlonIn, nlatOut, nlonOut⟩ = .ok g := by
  unfold cpuDirection
  rw [if_neg (by dsimp only; omega)]
  by_cases h : nlonIn % nlonOut = 0
  · exact ⟨true, by rw [if_pos h]⟩
  · exact ⟨false, by rw [if_neg h, if_pos (hdir.resolve_left h)]⟩

theorem cpuHeadCheck_ok (F : OpFits B nh Ck Cv nlatIn nlonIn nlatOut nlonOut P k v q) : cpuHeadCheck nh v q = .ok () := by
  unfold cpuHeadCheck
  rw [if_neg F.posn.ne', F.hq, F.hv]
  simp

/-- C44, CPU operator, for every schedule of its threads. -/
theorem C44_operator_cpu (F : OpFits B nh Ck Cv nlatIn nlonIn nlatOut nlonOut P k v q) (w : ℕ → ℝ) (r : CpuRun)
    (hord : CoversBlocks ⟨B * nh, Ck, Cv, nlatIn, nlonIn, nlatOut, nlonOut⟩ r.order) :
    ∃ y, cpuOp r w P nh nlonIn nlatOut nlonOut k v q = .ok y ∧ y.shape = [B, nlatOut, nlonOut, nh * Cv] ∧
      ∀ b < B, ∀ n < nh, ∀ c < Cv, ∀ ho < nlatOut, ∀ wo < nlonOut, y.at [b, ho, wo, n * Cv + c]
        = attention Ck w (opNbrs P nlatIn nlonIn nlonOut) (packedHead Ck n k) (packedHead Cv n v) (packedHead Ck n q) b c ho wo := by
  obtain ⟨k', k1, k2, k3⟩ := cpuFold_ok F.hk F.posn
  obtain ⟨v', v1, v2, v3⟩ := cpuFold_ok F.hv F.posn
  obtain ⟨q', q1, q2, q3⟩ := cpuFold_ok F.hq F.posn
  have hd : cpuDims k' v' q' nlonIn nlatOut nlonOut = ⟨B * nh, Ck, Cv, nlatIn, nlonIn, nlatOut, nlonOut⟩ := by
    unfold cpuDims; rw [k2, v2, q2]; rfl
  obtain ⟨g, g1⟩ := cpuDirection_ok nlonIn nlatOut nlonOut F.poslonIn F.poslonOut F.dir
  obtain ⟨z, z1, z2⟩ := cpuForward_eq ⟨B * nh, Ck, Cv, nlatIn, nlonIn, nlatOut, nlonOut⟩ F.poslonIn F.poslonOut F.dir w P k'.fn4 v'.fn4 q'.fn4
    r.fmin r.mem r.order hord
  obtain ⟨y, y1, y2, y3⟩ := cpuUnfold_ok (x := Arr.of4 (B * nh) nlatOut nlonOut Cv z) (B := B) (nh := nh) (C := Cv) (H := nlatOut) (W := nlonOut)
    rfl F.posn
  refine ⟨y, ?_, y2, fun b hb n hn c hc ho hho wo hwo => ?_⟩
  · unfold cpuOp
    simp only [k1, v1, q1, g1, hd, z1, cpuHeadCheck_ok F, bind, Except.bind]
    exact y1
  · have hbn := packed_lt hb hn
    rw [y3 b hb n hn c hc ho hho wo hwo, of4_at _ hbn hho hwo hc, z2 _ hbn c hc ho hho wo hwo]
    refine attention_congr (fun p hp e he => ?_) (fun p hp => ?_) (fun e he => ?_)
    · obtain ⟨i1, i2⟩ := opNbrs_inside F hho wo p hp
      exact k3 b hb n hn e he _ i1 _ i2
    · obtain ⟨i1, i2⟩ := opNbrs_inside F hho wo p hp
      exact v3 b hb n hn c hc _ i1 _ i2
    · exact q3 b hb n hn e he _ hho _ hwo

/-- C44 and C38: the reference and the CPU operator return the same tensor. -/
theorem C44_operators_agree (F : OpFits B nh Ck Cv nlatIn nlonIn nlatOut nlonOut P k v q) (w : ℕ → ℝ) (r : CpuRun)
    (hord : CoversBlocks ⟨B * nh, Ck, Cv, nlatIn, nlonIn, nlatOut, nlonOut⟩ r.order) :
    ∃ y y', refOp w P nh nlonIn nlatOut nlonOut k v q = .ok y ∧ cpuOp r w P nh nlonIn nlatOut nlonOut k v q = .ok y' ∧ SameTensor y y' := by
  obtain ⟨y, h1, h2, h3⟩ := C44_operator_reference F w
  obtain ⟨y', h1', h2', h3'⟩ := C44_operator_cpu F w r hord
  refine ⟨y, y', h1, h1', by rw [h2, h2'], fun i hi => ?_⟩
  rw [h2] at hi
  obtain ⟨b, h, wo, j, rfl, hb, hh, hw, hj⟩ := inside4_iff hi
  obtain ⟨e1, e2, e3⟩ := packed_split hj
  rw [← e3, h3 b hb _ e1 _ e2 h hh wo hw, h3' b hb _ e1 _ e2 h hh wo hw]

end

example : OpFits 1 2 3 2 2 4 2 2 exPattern ⟨[1, 2, 4, 6], fun i => i⟩ ⟨[1, 2, 4, 4], fun i => i⟩ ⟨[1, 2, 2, 6], fun i => i⟩ where
  hk := rfl
  hv := rfl
  hq := rfl
  posB := by decide
  posn := by decide
  poslatIn := by decide
  poslonIn := by decide
  poslatOut := by decide
  poslonOut := by decide
  dir := Or.inl rfl
  fits := by rw [if_pos rfl]; unfold Pattern.Fits; decide

/-! ### Gradients of the packed operators -/

/-- The straight line through the tensor `x` in direction `δ`. -/
def lineArr (x δ : Arr) (t : ℝ) : Arr := ⟨x.shape, fun i => x.data i + t * δ.data i⟩

/-- The inner product of two packed tensors of shape `[B, H, W, N]`. -/
def packedInner (B H W N : ℕ) (x y : Arr) : ℝ :=
  ∑ b ∈ range B, ∑ h ∈ range H, ∑ w ∈ range W, ∑ j ∈ range N, x.at [b, h, w, j] * y.at [b, h, w, j]

theorem lineArr_at {x δ : Arr} (h : δ.shape = x.shape) (t : ℝ) (i : List ℕ) : (lineArr x δ t).at i = x.at i + t * δ.at i := by
  unfold Arr.at lineArr
  rw [h]

/-- `x'` is `x` with the heads moved into the batch. -/
def Folded (B nh C H W : ℕ) (x' : T4) (x : Arr) : Prop :=
  ∀ b < B, ∀ n < nh, ∀ c < C, ∀ h < H, ∀ w < W, x' (b * nh + n) c h w = x.at [b, h, w, n * C + c]

theorem packedInner_folded {B nh C H W : ℕ} {x' y' : T4} {x y : Arr} (hx : Folded B nh C H W x' x) (hy : Folded B nh C H W y' y) :
    packedInner B H W (nh * C) x y = inner4 (B * nh) C H W x' y' := by
  unfold packedInner inner4
  rw [Filter.sum_range_blocks]
  refine sum_congr rfl fun b hb => ?_
  have e : ∀ h ∈ range H, ∀ w ∈ range W, ∑ j ∈ range (nh * C), x.at [b, h, w, j] * y.at [b, h, w, j]
      = ∑ n ∈ range nh, ∑ c ∈ range C, x' (b * nh + n) c h w * y' (b * nh + n) c h w := by
    intro h hh w hw
    rw [Filter.sum_range_blocks]
    refine sum_congr rfl fun n hn => sum_congr rfl fun c hc => ?_
    rw [mem_range] at *
    rw [hx b hb n hn c hc h hh w hw, hy b hb n hn c hc h hh w hw]
  rw [sum_congr rfl fun h hh => sum_congr rfl fun w hw => e h hh w hw]
  rw [sum_congr rfl fun h _ => sum_comm (s := range W) (t := range nh)
    (f := fun w n => ∑ c ∈ range C, x' (b * nh + n) c h w * y' (b * nh + n) c h w)]
  rw [sum_comm (s := range H)]
  refine sum_congr rfl fun n _ => ?_
  rw [sum_congr rfl fun h _ => sum_comm (s := range W) (t := range C) (f := fun w c => x' (b * nh + n) c h w * y' (b * nh + n) c h w)]
  exact sum_comm (s := range H)

/-- The entries of `x` with the heads moved into the batch. -/
def foldFn (nh C : ℕ) (x : Arr) : T4 := fun j c h w => x.at [j / nh, h, w, j % nh * C + c]

theorem folded_foldFn {B nh C H W : ℕ} (x : Arr) : Folded B nh C H W (foldFn nh C x) x := by
  intro b _ n hn c _ h _ w _
  unfold foldFn
  rw [Nat.mul_comm b nh, Nat.mul_add_div (by omega), Nat.div_eq_of_lt hn, Nat.mul_add_mod, Nat.mod_eq_of_lt hn, add_zero]

section
variable {B nh Ck Cv nlatIn nlonIn nlatOut nlonOut : ℕ} {P : Pattern} {k v q : Arr}

/-- Gradients of the folded tensors, put back into packed order, are gradients of the packed tensors. -/
theorem packed_hasDerivAt (F : OpFits B nh Ck Cv nlatIn nlonIn nlatOut nlonOut P k v q) (w : ℕ → ℝ) {k' v' q' dy' dk' dv' dq' : T4}
    {dy dk dv dq δk δv δq : Arr}
    (hk : Folded B nh Ck nlatIn nlonIn k' k) (hv : Folded B nh Cv nlatIn nlonIn v' v) (hq : Folded B nh Ck nlatOut nlonOut q' q)
    (hdy : Folded B nh Cv nlatOut nlonOut dy' dy)
    (hdk : Folded B nh Ck nlatIn nlonIn dk' dk) (hdv : Folded B nh Cv nlatIn nlonIn dv' dv) (hdq : Folded B nh Ck nlatOut nlonOut dq' dq)
    (sk : δk.shape = k.shape) (sv : δv.shape = v.shape) (sq : δq.shape = q.shape)
    (H : ∀ δk δv δq : T4, HasDerivAt (fun t => inner4 (B * nh) Cv nlatOut nlonOut dy'
        (attention Ck w (opNbrs P nlatIn nlonIn nlonOut) (line k' δk t) (line v' δv t) (line q' δq t)))
      (inner4 (B * nh) Ck nlatIn nlonIn dk' δk + inner4 (B * nh) Cv nlatIn nlonIn dv' δv + inner4 (B * nh) Ck nlatOut nlonOut dq' δq) 0)
    (y : ℝ → Arr)
    (hy : ∀ t, ∀ b < B, ∀ n < nh, ∀ c < Cv, ∀ ho < nlatOut, ∀ wo < nlonOut, (y t).at [b, ho, wo, n * Cv + c]
      = attention Ck w (opNbrs P nlatIn nlonIn nlonOut) (packedHead Ck n (lineArr k δk t)) (packedHead Cv n (lineArr v δv t))
        (packedHead Ck n (lineArr q δq t)) b c ho wo) :
    HasDerivAt (fun t => packedInner B nlatOut nlonOut (nh * Cv) dy (y t))
      (packedInner B nlatIn nlonIn (nh * Ck) dk δk + packedInner B nlatIn nlonIn (nh * Cv) dv δv
        + packedInner B nlatOut nlonOut (nh * Ck) dq δq) 0 := by
  rw [packedInner_folded hdk (folded_foldFn δk), packedInner_folded hdv (folded_foldFn δv), packedInner_folded hdq (folded_foldFn δq)]
  refine (H (foldFn nh Ck δk) (foldFn nh Cv δv) (foldFn nh Ck δq)).congr_of_eventuallyEq (Filter.Eventually.of_forall fun t => ?_)
  dsimp only
  refine packedInner_folded hdy fun b hb n hn c hc ho hho wo hwo => ?_
  rw [hy t b hb n hn c hc ho hho wo hwo]
  refine attention_congr (fun p hp e he => ?_) (fun p hp => ?_) (fun e he => ?_)
  · obtain ⟨i1, i2⟩ := opNbrs_inside F hho wo p hp
    unfold line packedHead
    rw [lineArr_at sk, hk b hb n hn e he _ i1 _ i2, folded_foldFn (B := B) (H := nlatIn) (W := nlonIn) δk b hb n hn e he _ i1 _ i2]
  · obtain ⟨i1, i2⟩ := opNbrs_inside F hho wo p hp
    unfold line packedHead
    rw [lineArr_at sv, hv b hb n hn c hc _ i1 _ i2, folded_foldFn (B := B) (H := nlatIn) (W := nlonIn) δv b hb n hn c hc _ i1 _ i2]
  · unfold line packedHead
    rw [lineArr_at sq, hq b hb n hn e he _ hho _ hwo, folded_foldFn (B := B) (H := nlatOut) (W := nlonOut) δq b hb n hn e he _ hho _ hwo]

theorem OpFits.line (F : OpFits B nh Ck Cv nlatIn nlonIn nlatOut nlonOut P k v q) (δk δv δq : Arr) (t : ℝ) :
    OpFits B nh Ck Cv nlatIn nlonIn nlatOut nlonOut P (lineArr k δk t) (lineArr v δv t) (lineArr q δq t) :=
  ⟨F.hk, F.hv, F.hq, F.posB, F.posn, F.poslatIn, F.poslonIn, F.poslatOut, F.poslonOut, F.dir, F.fits⟩

theorem row_ne_of_opNbrs {ho : ℕ} (h : nlonIn % nlonOut = 0) (hne : opNbrs P nlatIn nlonIn nlonOut ho 0 ≠ []) : P.row ho ≠ [] := by
  intro hr
  apply hne
  unfold opNbrs gatherNbrs
  rw [if_pos h, hr]
  rfl

theorem refBwdKernel_eq (d : Dims) (h1 : 0 < d.nlonIn) (h0 : 0 < d.nlonOut) (hdir : d.nlonIn % d.nlonOut = 0 ∨ d.nlonOut % d.nlonIn = 0) (w : ℕ → ℝ)
    (hw : ∀ hi < d.nlatIn, 0 < w hi)
    (P : Pattern) (hfit : if d.nlonIn % d.nlonOut = 0 then P.Fits d.nlatOut (d.nlatIn * d.nlonIn) else P.Fits d.nlatIn (d.nlatOut * d.nlonOut))
    (hne : ∀ ho < d.nlatOut, ∀ wo < d.nlonOut, opNbrs P d.nlatIn d.nlonIn d.nlonOut ho wo ≠ []) (k v q dy : T4) :
    ∃ g dk dv dq, refDirection d.nlonIn d.nlonOut = .ok g ∧ refBwdKernel g d w P k v q dy = .ok (dk, dv, dq) ∧
      ∀ δk δv δq : T4, HasDerivAt (fun t => inner4 d.B d.Cv d.nlatOut d.nlonOut dy
        (attention d.Ck w (opNbrs P d.nlatIn d.nlonIn d.nlonOut) (line k δk t) (line v δv t) (line q δq t)))
        (inner4 d.B d.Ck d.nlatIn d.nlonIn dk δk + inner4 d.B d.Cv d.nlatIn d.nlonIn dv δv
          + inner4 d.B d.Ck d.nlatOut d.nlonOut dq δq) 0 := by
  have hnb : ∀ nb : ℕ → ℕ → List (ℕ × ℕ), (∀ ho wo, nb ho wo = opNbrs P d.nlatIn d.nlonIn d.nlonOut ho wo) →
      opNbrs P d.nlatIn d.nlonIn d.nlonOut = nb := fun nb h => (funext fun ho => funext fun wo => h ho wo).symm
  by_cases h : d.nlonIn % d.nlonOut = 0
  · rw [if_pos h] at hfit
    obtain ⟨y, dk, dv, dq, hy, e1, e2, e3, e4⟩ := C42_reference d h0 h h1 w hw P hfit
      (fun ho hho => row_ne_of_opNbrs h (hne ho hho 0 h0)) k v q dy
    refine ⟨true, dk, dv, dq, by unfold refDirection; rw [if_neg h0.ne', if_pos h], ?_, fun δk δv δq => ?_⟩
    · unfold refBwdKernel
      simp only [if_true, e1, e2, e3, bind, Except.bind, pure, Except.pure]
    · have e := e4 δk δv δq
      have hya : y = fun k v q => attention d.Ck w (gatherNbrs P d.nlonIn (d.nlonIn / d.nlonOut)) k v q := by
        funext k v q
        have := hy k v q
        rw [C38_reference d h0 h] at this
        exact (Except.ok.inj this).symm
      rw [hya] at e
      rw [hnb (gatherNbrs P d.nlonIn (d.nlonIn / d.nlonOut)) (fun ho wo => by unfold opNbrs; rw [if_pos h])]
      exact e
  · rw [if_neg h] at hfit
    have h' := hdir.resolve_left h
    have hn : opNbrs P d.nlatIn d.nlonIn d.nlonOut = scatterNbrs P d.nlatIn d.nlonIn d.nlonOut (d.nlonOut / d.nlonIn) :=
      hnb _ (fun ho wo => by unfold opNbrs; rw [if_neg h])
    rw [hn] at hne
    obtain ⟨y, dk, dv, dq, hy, e1, e2, e3, e4⟩ := C42_upsample_reference d h1 h' h0 w hw P hfit hne k v q dy
    refine ⟨false, dk, dv, dq, by unfold refDirection; rw [if_neg h0.ne', if_neg h, if_neg h1.ne', if_pos h'], ?_, fun δk δv δq => ?_⟩
    · unfold refBwdKernel
      simp only [Bool.false_eq_true, if_false, e1, e2, e3, bind, Except.bind, pure, Except.pure]
    · have e := e4 δk δv δq
      have hya : y = fun k v q => attention d.Ck w (scatterNbrs P d.nlatIn d.nlonIn d.nlonOut (d.nlonOut / d.nlonIn)) k v q := by
        funext k v q
        have := hy k v q
        rw [C41_reference d h1 h'] at this
        exact (Except.ok.inj this).symm
      rw [hya] at e
      rw [hn]
      exact e

/-- C44 and C42 for the reference operator with heads: the backward pass returns tensors of the shapes of keys, values and queries, and
together they are the gradient of the forward pass, in every direction. -/
theorem C44_gradient_reference (F : OpFits B nh Ck Cv nlatIn nlonIn nlatOut nlonOut P k v q) (w : ℕ → ℝ) (hw : ∀ hi < nlatIn, 0 < w hi)
    (hne : ∀ ho < nlatOut, ∀ wo < nlonOut, opNbrs P nlatIn nlonIn nlonOut ho wo ≠ []) (dy : Arr)
    (hdy : dy.shape = [B, nlatOut, nlonOut, nh * Cv]) :
    ∃ dk dv dq, refOpBwd w P nh nlonIn nlatOut nlonOut k v q dy = .ok (dk, dv, dq) ∧
      dk.shape = k.shape ∧ dv.shape = v.shape ∧ dq.shape = q.shape ∧
      ∀ δk δv δq : Arr, δk.shape = k.shape → δv.shape = v.shape → δq.shape = q.shape →
        ∃ y : ℝ → Arr, (∀ t, refOp w P nh nlonIn nlatOut nlonOut (lineArr k δk t) (lineArr v δv t) (lineArr q δq t) = .ok (y t)) ∧
          HasDerivAt (fun t => packedInner B nlatOut nlonOut (nh * Cv) dy (y t))
            (packedInner B nlatIn nlonIn (nh * Ck) dk δk + packedInner B nlatIn nlonIn (nh * Cv) dv δv
              + packedInner B nlatOut nlonOut (nh * Ck) dq δq) 0 := by
  obtain ⟨k', k1, k2, k3⟩ := refFold_ok F.hk F.posB F.poslatIn F.poslonIn F.posn
  obtain ⟨v', v1, v2, v3⟩ := refFold_ok F.hv F.posB F.poslatIn F.poslonIn F.posn
  obtain ⟨q', q1, q2, q3⟩ := refFold_ok F.hq F.posB F.poslatOut F.poslonOut F.posn
  obtain ⟨y', y1, y2, y3⟩ := refFold_ok hdy F.posB F.poslatOut F.poslonOut F.posn
  have hd : refDims k' v' q' nlonIn nlatOut nlonOut = ⟨B * nh, Ck, Cv, nlatIn, nlonIn, nlatOut, nlonOut⟩ := by
    unfold refDims; rw [k2, v2, q2]; rfl
  obtain ⟨g, dk, dv, dq, g1, g2, g3⟩ := refBwdKernel_eq ⟨B * nh, Ck, Cv, nlatIn, nlonIn, nlatOut, nlonOut⟩ F.poslonIn F.poslonOut F.dir w hw P
    F.fits hne k'.fn4 v'.fn4 q'.fn4 y'.fn4
  have unf : ∀ (C H W : ℕ) (x : T4), ∃ z, refUnfoldBwd nh (Arr.of4 (B * nh) C H W x) = .ok z ∧ z.shape = [B, H, W, nh * C] ∧
      Folded B nh C H W x z := by
    intro C H W x
    obtain ⟨z, z1, z2, z3⟩ := refUnfold_ok (x := Arr.of4 (B * nh) C H W x) (B := B) (nh := nh) (C := C) (H := H) (W := W) rfl
    refine ⟨z, ?_, z2, fun b hb n hn c hc h hh w hw => ?_⟩
    · unfold refUnfoldBwd
      rw [if_neg F.posn.ne', show (Arr.of4 (B * nh) C H W x).shape.getD 0 0 = B * nh from rfl, Nat.mul_div_cancel _ F.posn, z1]
    · rw [z3 b hb n hn c hc h hh w hw, of4_at _ (packed_lt hb hn) hc hh hw]
  obtain ⟨dkw, a1, a2, a3⟩ := unf Ck nlatIn nlonIn dk
  obtain ⟨dvw, b1, b2, b3⟩ := unf Cv nlatIn nlonIn dv
  obtain ⟨dqw, c1, c2, c3⟩ := unf Ck nlatOut nlonOut dq
  refine ⟨dkw, dvw, dqw, ?_, by rw [a2, F.hk], by rw [b2, F.hv], by rw [c2, F.hq], fun δk δv δq sk sv sq => ?_⟩
  · unfold refOpBwd
    dsimp only at g1 g2
    simp only [k1, v1, q1, y1, g1, hd, g2, a1, b1, c1, bind, Except.bind, pure, Except.pure]
  · have hy := fun t => C44_operator_reference (F.line δk δv δq t) w
    choose y e1 e2 e3 using hy
    exact ⟨y, e1, packed_hasDerivAt F w (k' := k'.fn4) (v' := v'.fn4) (q' := q'.fn4) (dy' := y'.fn4) k3 v3 q3 y3 a3 b3 c3 sk sv sq g3 y e3⟩

/-- Channels last from channels first. -/
def nhwc (x : T4) : T4 := fun b h w c => x b c h w

theorem inner4_nhwc (B C H W : ℕ) (x y : T4) : inner4 B H W C x (nhwc y) = inner4 B C H W (nchw x) y := inner4_nchw B C H W x (nhwc y)

theorem cpuBackward_eq (d : Dims) (h1 : 0 < d.nlonIn) (h0 : 0 < d.nlonOut) (hdir : d.nlonIn % d.nlonOut = 0 ∨ d.nlonOut % d.nlonIn = 0) (w : ℕ → ℝ)
    (hw : ∀ hi < d.nlatIn, 0 < w hi)
    (P : Pattern) (hfit : if d.nlonIn % d.nlonOut = 0 then P.Fits d.nlatOut (d.nlatIn * d.nlonIn) else P.Fits d.nlatIn (d.nlatOut * d.nlonOut))
    (hne : ∀ ho < d.nlatOut, ∀ wo < d.nlonOut, opNbrs P d.nlatIn d.nlonIn d.nlonOut ho wo ≠ []) (k v q dy : T4)
    (r : CpuRun) (hord : CoversBlocks d r.order) (hA : SchedCells d r.orderA) (hB : SchedChannels d.B d.Ck r.orderB)
    (hC : SchedChannels d.B d.Cv r.orderC) :
    ∃ g, cpuBackward d w P k v q dy r.fmin r.mem r.orderA r.orderB r.orderC = .ok g ∧
      ∀ δk δv δq : T4, HasDerivAt (fun t => inner4 d.B d.Cv d.nlatOut d.nlonOut (nchw dy)
        (attention d.Ck w (opNbrs P d.nlatIn d.nlonIn d.nlonOut) (line (nchw k) δk t) (line (nchw v) δv t) (line (nchw q) δq t)))
        (inner4 d.B d.Ck d.nlatIn d.nlonIn (nchw g.dk) δk + inner4 d.B d.Cv d.nlatIn d.nlonIn (nchw g.dv) δv
          + inner4 d.B d.Ck d.nlatOut d.nlonOut (nchw g.dq) δq) 0 := by
  have key : ∀ (y : T4 → T4 → T4 → T4) (g : Grads), (∀ k v q, cpuForward d w P k v q r.fmin r.mem r.order = .ok (y k v q)) →
      cpuBackward d w P k v q dy r.fmin r.mem r.orderA r.orderB r.orderC = .ok g →
      (∀ δk δv δq : T4, HasDerivAt
        (fun t => inner4 d.B d.nlatOut d.nlonOut d.Cv dy (y (line k δk t) (line v δv t) (line q δq t)))
        (inner4 d.B d.nlatIn d.nlonIn d.Ck g.dk δk + inner4 d.B d.nlatIn d.nlonIn d.Cv g.dv δv
          + inner4 d.B d.nlatOut d.nlonOut d.Ck g.dq δq) 0) →
      ∃ g, cpuBackward d w P k v q dy r.fmin r.mem r.orderA r.orderB r.orderC = .ok g ∧
      ∀ δk δv δq : T4, HasDerivAt (fun t => inner4 d.B d.Cv d.nlatOut d.nlonOut (nchw dy)
        (attention d.Ck w (opNbrs P d.nlatIn d.nlonIn d.nlonOut) (line (nchw k) δk t) (line (nchw v) δv t) (line (nchw q) δq t)))
        (inner4 d.B d.Ck d.nlatIn d.nlonIn (nchw g.dk) δk + inner4 d.B d.Cv d.nlatIn d.nlonIn (nchw g.dv) δv
          + inner4 d.B d.Ck d.nlatOut d.nlonOut (nchw g.dq) δq) 0 := by
    intro y g hy hg H
    refine ⟨g, hg, fun δk δv δq => ?_⟩
    have e := H (nhwc δk) (nhwc δv) (nhwc δq)
    rw [inner4_nhwc, inner4_nhwc _ _ _ _ g.dv, inner4_nhwc _ _ _ _ g.dq] at e
    have hf : (fun t => inner4 d.B d.Cv d.nlatOut d.nlonOut (nchw dy)
        (attention d.Ck w (opNbrs P d.nlatIn d.nlonIn d.nlonOut) (line (nchw k) δk t) (line (nchw v) δv t) (line (nchw q) δq t)))
        = fun t => inner4 d.B d.nlatOut d.nlonOut d.Cv dy (y (line k (nhwc δk) t) (line v (nhwc δv) t) (line q (nhwc δq) t)) := by
      funext t
      rw [inner4_nchw _ _ _ _ dy]
      refine inner4_congr_right _ fun b hb c hc ho hho wo hwo => ?_
      obtain ⟨z, z1, z2⟩ := cpuForward_eq d h1 h0 hdir w P (line k (nhwc δk) t) (line v (nhwc δv) t) (line q (nhwc δq) t) r.fmin r.mem r.order
        hord
      rw [hy] at z1
      rw [Except.ok.inj z1]
      exact (z2 b hb c hc ho hho wo hwo).symm
    rw [hf]
    exact e
  by_cases h : d.nlonIn % d.nlonOut = 0
  · rw [if_pos h] at hfit
    obtain ⟨y, g, hy, hg, H⟩ := C42_cpu d h0 h1 h w hw P hfit (fun ho hho => row_ne_of_opNbrs h (hne ho hho 0 h0)) k v q dy r.fmin r.mem r.mem
      r.order hord r.orderA hA r.orderB r.orderC hB hC
    exact key y g hy hg H
  · rw [if_neg h] at hfit
    have h' := hdir.resolve_left h
    have hn : opNbrs P d.nlatIn d.nlonIn d.nlonOut = scatterNbrs P d.nlatIn d.nlonIn d.nlonOut (d.nlonOut / d.nlonIn) :=
      funext fun ho => funext fun wo => by unfold opNbrs; rw [if_neg h]
    obtain ⟨y, g, hy, hg, H⟩ := C42_cpu_upsample d h0 h1 h h' w hw P hfit (by rw [← hn]; exact hne) k v q dy r.fmin r.mem r.mem
      r.order hord r.orderA hA r.orderB r.orderC hB hC
    exact key y g hy hg H

/-- A run of the CPU kernels that executes every loop iteration. -/
structure CpuRun.Complete (r : CpuRun) (d : Dims) : Prop where
  fwd : CoversBlocks d r.order
  cells : SchedCells d r.orderA
  keys : SchedChannels d.B d.Ck r.orderB
  values : SchedChannels d.B d.Cv r.orderC

/-- C44 and C42 for the CPU operator with heads, for every schedule of its threads. -/
theorem C44_gradient_cpu (F : OpFits B nh Ck Cv nlatIn nlonIn nlatOut nlonOut P k v q) (w : ℕ → ℝ) (hw : ∀ hi < nlatIn, 0 < w hi)
    (hne : ∀ ho < nlatOut, ∀ wo < nlonOut, opNbrs P nlatIn nlonIn nlonOut ho wo ≠ []) (dy : Arr)
    (hdy : dy.shape = [B, nlatOut, nlonOut, nh * Cv]) (r : CpuRun)
    (hr : CpuRun.Complete r ⟨B * nh, Ck, Cv, nlatIn, nlonIn, nlatOut, nlonOut⟩) :
    ∃ dk dv dq, cpuOpBwd r w P nh nlonIn nlatOut nlonOut k v q dy = .ok (dk, dv, dq) ∧
      dk.shape = k.shape ∧ dv.shape = v.shape ∧ dq.shape = q.shape ∧
      ∀ δk δv δq : Arr, δk.shape = k.shape → δv.shape = v.shape → δq.shape = q.shape →
        ∃ y : ℝ → Arr, (∀ t, cpuOp r w P nh nlonIn nlatOut nlonOut (lineArr k δk t) (lineArr v δv t) (lineArr q δq t) = .ok (y t)) ∧
          HasDerivAt (fun t => packedInner B nlatOut nlonOut (nh * Cv) dy (y t))
            (packedInner B nlatIn nlonIn (nh * Ck) dk δk + packedInner B nlatIn nlonIn (nh * Cv) dv δv
              + packedInner B nlatOut nlonOut (nh * Ck) dq δq) 0 := by
  obtain ⟨k', k1, k2, k3⟩ := cpuFold_ok F.hk F.posn
  obtain ⟨v', v1, v2, v3⟩ := cpuFold_ok F.hv F.posn
  obtain ⟨q', q1, q2, q3⟩ := cpuFold_ok F.hq F.posn
  obtain ⟨y', y1, y2, y3⟩ := cpuFold_ok hdy F.posn
  have hd : cpuDims k' v' q' nlonIn nlatOut nlonOut = ⟨B * nh, Ck, Cv, nlatIn, nlonIn, nlatOut, nlonOut⟩ := by
    unfold cpuDims; rw [k2, v2, q2]; rfl
  obtain ⟨dir, d1⟩ := cpuDirection_ok nlonIn nlatOut nlonOut F.poslonIn F.poslonOut F.dir
  obtain ⟨g, g2, g3⟩ := cpuBackward_eq ⟨B * nh, Ck, Cv, nlatIn, nlonIn, nlatOut, nlonOut⟩ F.poslonIn F.poslonOut F.dir w hw P
    F.fits hne k'.fn4 v'.fn4 q'.fn4 y'.fn4 r hr.fwd hr.cells hr.keys hr.values
  have unf : ∀ (C H W : ℕ) (x : T4), ∃ z, cpuUnfold nh (Arr.of4 (B * nh) H W C x) = .ok z ∧ z.shape = [B, H, W, nh * C] ∧
      Folded B nh C H W (nchw x) z := by
    intro C H W x
    obtain ⟨z, z1, z2, z3⟩ := cpuUnfold_ok (x := Arr.of4 (B * nh) H W C x) (B := B) (nh := nh) (C := C) (H := H) (W := W) rfl F.posn
    refine ⟨z, z1, z2, fun b hb n hn c hc h hh w hw => ?_⟩
    rw [z3 b hb n hn c hc h hh w hw, of4_at _ (packed_lt hb hn) hh hw hc]
    rfl
  obtain ⟨dkw, a1, a2, a3⟩ := unf Ck nlatIn nlonIn g.dk
  obtain ⟨dvw, b1, b2, b3⟩ := unf Cv nlatIn nlonIn g.dv
  obtain ⟨dqw, c1, c2, c3⟩ := unf Ck nlatOut nlonOut g.dq
  refine ⟨dkw, dvw, dqw, ?_, by rw [a2, F.hk], by rw [b2, F.hv], by rw [c2, F.hq], fun δk δv δq sk sv sq => ?_⟩
  · unfold cpuOpBwd
    simp only [k1, v1, q1, y1, d1, hd, g2, a1, b1, c1, cpuHeadCheck_ok F, bind, Except.bind, pure, Except.pure]
  · have hy := fun t => C44_operator_cpu (F.line δk δv δq t) w r hr.fwd
    choose y e1 e2 e3 using hy
    exact ⟨y, e1, packed_hasDerivAt F w (k' := nchw k'.fn4) (v' := nchw v'.fn4) (q' := nchw q'.fn4) (dy' := nchw y'.fn4) k3 v3 q3 y3
      a3 b3 c3 sk sv sq g3 y e3⟩

end

example : (∀ ho < 2, ∀ wo < 2, opNbrs exPattern 2 4 2 ho wo ≠ []) := by
  intro ho hho wo _
  interval_cases ho <;> interval_cases wo <;> decide

end Verif.Props
