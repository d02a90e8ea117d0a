import Verif.Lemmas.Attention
/-! The reference attention kernels compute the specification: gather direction and upsampling direction. -/
namespace Verif.Attn
open Verif Verif.Spec.Attn Finset

theorem gatherNbrs_eq (P : Pattern) (n ps ho wo : ℕ) : gatherNbrs P n ps ho wo = (P.row ho).map (nbrOf P n ps wo) := rfl

theorem refCell_eq (d : Dims) (w : ℕ → ℝ) (P : Pattern) (ps : ℕ) (k v q : T4) (b ho wo : ℕ) :
    refCell d w P ps k v q b ho wo = onlineFold (P.row ho) (fun z => w (nbrOf P d.nlonIn ps wo z).1)
      (fun z => score d.Ck k q b ho wo (nbrOf P d.nlonIn ps wo z))
      (fun z c => v b c (nbrOf P d.nlonIn ps wo z).1 (nbrOf P d.nlonIn ps wo z).2) ⟨0, 0, fun _ => 0⟩ := rfl

theorem gatherScale_ok {d : Dims} (h0 : 0 < d.nlonOut) (h : d.nlonIn % d.nlonOut = 0) :
    gatherScale d = .ok (d.nlonIn / d.nlonOut) := by
  unfold gatherScale
  rw [if_neg (by omega), if_neg (by simpa using h)]

theorem scatterScale_ok {d : Dims} (h0 : 0 < d.nlonIn) (h : d.nlonOut % d.nlonIn = 0) :
    scatterScale d = .ok (d.nlonOut / d.nlonIn) := by
  unfold scatterScale
  rw [if_neg (by omega), if_neg (by simpa using h)]

theorem refForward_eq {d : Dims} (h0 : 0 < d.nlonOut) (h : d.nlonIn % d.nlonOut = 0) (w : ℕ → ℝ) (P : Pattern) (k v q : T4) :
    refForward d w P k v q = .ok (attention d.Ck w (gatherNbrs P d.nlonIn (d.nlonIn / d.nlonOut)) k v q) := by
  unfold refForward
  rw [gatherScale_ok h0 h]
  dsimp only
  congr 1
  funext b c ho wo
  rw [refCell_eq, onlineFold_avg, attention, gatherNbrs_eq, softAvg_map]

/-- The stored probabilities: exponentials shifted by any `m`, divided by their sum. -/
theorem shifted_prob {ι : Type} (L : List ι) (w s : ι → ℝ) (m : ℝ) (i : ι) :
    Real.exp (s i - m) * w i / (L.map fun i => Real.exp (s i - m) * w i).sum
      = w i * Real.exp (s i) / (L.map fun i => w i * Real.exp (s i)).sum := by
  have h2 : (L.map fun i => Real.exp (s i - m) * w i).sum = Real.exp (-m) * (L.map fun i => w i * Real.exp (s i)).sum := by
    rw [← list_sum_mul_left]
    refine list_sum_congr fun i _ => ?_
    rw [sub_eq_add_neg, Real.exp_add]; ring
  have h1 : Real.exp (s i - m) * w i = Real.exp (-m) * (w i * Real.exp (s i)) := by
    rw [sub_eq_add_neg, Real.exp_add]; ring
  rw [h1, h2, mul_div_mul_left _ _ (Real.exp_ne_zero _)]

theorem alphaNz_prob (d : Dims) (w : ℕ → ℝ) (P : Pattern) (ps : ℕ) (k q : T4) (b ho wo z : ℕ) :
    alphaNz d w P ps k q b ho wo z / accum (P.row ho) (alphaNz d w P ps k q b ho wo)
      = prob d.Ck w (gatherNbrs P d.nlonIn ps) k q b ho wo (nbrOf P d.nlonIn ps wo z) := by
  rw [accum_eq]
  unfold prob
  rw [gatherNbrs_eq, List.map_map]
  exact shifted_prob (P.row ho) (fun z => w (nbrOf P d.nlonIn ps wo z).1)
    (fun z => score d.Ck k q b ho wo (nbrOf P d.nlonIn ps wo z)) _ z

theorem addAt_foldl {ι : Type} (L : List ι) (p : ι → ℕ × ℕ) (a : ι → ℝ) (x : ℕ × ℕ → ℝ) (i : ℕ × ℕ) :
    (L.foldl (fun x e => addAt x (p e) (a e)) x) i = x i + (L.map fun e => if p e = i then a e else 0).sum := by
  refine foldl_ev (fun x : ℕ × ℕ → ℝ => x i) _ _ L (fun x e _ => ?_) x
  unfold addAt
  by_cases h : i = p e
  · rw [if_pos h, if_pos h.symm]
  · rw [if_neg h, if_neg (Ne.symm h), add_zero]

theorem scatterLoop_eq (H W : ℕ) (row : ℕ → List ℕ) (at_ : ℕ → ℕ → ℕ → ℕ × ℕ) (val : ℕ → ℕ → ℕ → ℝ) (i : ℕ × ℕ) :
    scatterLoop H W row at_ val (fun _ => 0) i
      = ∑ ho ∈ range H, ∑ wo ∈ range W, ((row ho).map fun z => if at_ ho wo z = i then val ho wo z else 0).sum := by
  unfold scatterLoop
  have h := foldl_ev (fun x : ℕ × ℕ → ℝ => x i)
    (fun x ho => (List.range W).foldl (fun x wo => (row ho).foldl (fun x z => addAt x (at_ ho wo z) (val ho wo z)) x) x)
    (fun ho => ∑ wo ∈ range W, ((row ho).map fun z => if at_ ho wo z = i then val ho wo z else 0).sum) (List.range H)
    (fun x ho _ => by
      rw [foldl_ev (fun x : ℕ × ℕ → ℝ => x i) _
        (fun wo => ((row ho).map fun z => if at_ ho wo z = i then val ho wo z else 0).sum) _
        (fun x wo _ => addAt_foldl (row ho) (at_ ho wo) (val ho wo) x i), list_sum_range]) (fun _ => 0)
  rw [h, list_sum_range, zero_add]

theorem gather_map_if (P : Pattern) (n ps ho wo : ℕ) (i : ℕ × ℕ) (f : ℕ × ℕ → ℝ) :
    ((gatherNbrs P n ps ho wo).map fun p => if p = i then f p else 0).sum
      = ((P.row ho).map fun z => if nbrOf P n ps wo z = i then f (nbrOf P n ps wo z) else 0).sum := by
  rw [gatherNbrs_eq, List.map_map]; rfl

theorem refDv_eq {d : Dims} (h0 : 0 < d.nlonOut) (h : d.nlonIn % d.nlonOut = 0) (w : ℕ → ℝ) (P : Pattern) (k v q dy : T4)
    (hrow : ∀ ho < d.nlatOut, P.row ho ≠ []) :
    refDv d w P k v q dy
      = .ok (gradV d.Ck w (gatherNbrs P d.nlonIn (d.nlonIn / d.nlonOut)) d.nlatOut d.nlonOut k q dy) := by
  unfold refDv
  rw [gatherScale_ok h0 h]
  dsimp only
  rw [if_neg (by rintro ⟨ho, h1, h2⟩; exact hrow ho h1 h2)]
  congr 1
  funext b c hi wi
  rw [scatterLoop_eq]
  unfold gradV
  refine Finset.sum_congr rfl fun ho _ => Finset.sum_congr rfl fun wo _ => ?_
  rw [gather_map_if]
  refine list_sum_congr fun z _ => ?_
  rw [alphaNz_prob]

/-- The average of `g` computed with the stored exponentials. -/
theorem alphaNz_avg (d : Dims) (w : ℕ → ℝ) (P : Pattern) (ps : ℕ) (k q : T4) (b ho wo : ℕ) (g : ℕ × ℕ → ℝ) :
    accum (P.row ho) (fun z => alphaNz d w P ps k q b ho wo z * g (nbrOf P d.nlonIn ps wo z))
        / accum (P.row ho) (alphaNz d w P ps k q b ho wo)
      = ((gatherNbrs P d.nlonIn ps ho wo).map fun p => prob d.Ck w (gatherNbrs P d.nlonIn ps) k q b ho wo p * g p).sum := by
  rw [gatherNbrs_eq, List.map_map, accum_eq (P.row ho) (fun z => _ * _), div_eq_mul_inv, ← list_sum_mul_right]
  refine list_sum_congr fun z _ => ?_
  rw [Function.comp_apply, ← alphaNz_prob]
  ring

theorem refDk_eq {d : Dims} (h0 : 0 < d.nlonOut) (h : d.nlonIn % d.nlonOut = 0) (w : ℕ → ℝ) (P : Pattern) (k v q dy : T4)
    (hrow : ∀ ho < d.nlatOut, P.row ho ≠ []) :
    refDk d w P k v q dy
      = .ok (gradK d.Ck d.Cv w (gatherNbrs P d.nlonIn (d.nlonIn / d.nlonOut)) d.nlatOut d.nlonOut k v q dy) := by
  unfold refDk
  rw [gatherScale_ok h0 h]
  dsimp only
  rw [if_neg (by rintro ⟨ho, h1, h2⟩; exact hrow ho h1 h2)]
  congr 1
  funext b c hi wi
  rw [scatterLoop_eq]
  unfold gradK
  refine Finset.sum_congr rfl fun ho _ => Finset.sum_congr rfl fun wo _ => ?_
  rw [gather_map_if]
  refine list_sum_congr fun z _ => ?_
  rw [alphaNz_prob]
  have hb := alphaNz_avg d w P (d.nlonIn / d.nlonOut) k q b ho wo (gdot d.Cv v dy b ho wo)
  have hb' : gbar d.Ck d.Cv w (gatherNbrs P d.nlonIn (d.nlonIn / d.nlonOut)) k v q dy b ho wo
      = accum (P.row ho) (fun z => alphaNz d w P (d.nlonIn / d.nlonOut) k q b ho wo z *
          gdot d.Cv v dy b ho wo (nbrOf P d.nlonIn (d.nlonIn / d.nlonOut) wo z))
        / accum (P.row ho) (alphaNz d w P (d.nlonIn / d.nlonOut) k q b ho wo) := hb.symm
  rw [hb']
  rfl

/-- The quotient rule in the form of the code. -/
theorem dq_formula {ι : Type} (L : List ι) (a g κ : ι → ℝ) :
    ((L.map fun i => a i * κ i * g i).sum * (L.map a).sum - (L.map fun i => a i * g i).sum * (L.map fun i => a i * κ i).sum)
        / ((L.map a).sum * (L.map a).sum)
      = (L.map fun i => a i / (L.map a).sum * (g i - (L.map fun i => a i * g i).sum / (L.map a).sum) * κ i).sum := by
  set A := (L.map a).sum
  set G := (L.map fun i => a i * g i).sum
  have h : (L.map fun i => a i / A * (g i - G / A) * κ i).sum
      = A⁻¹ * (L.map fun i => a i * κ i * g i).sum - (G / A * A⁻¹) * (L.map fun i => a i * κ i).sum := by
    rw [← list_sum_mul_left, sub_eq_add_neg, ← neg_one_mul, ← mul_assoc, ← list_sum_mul_left, ← list_sum_add]
    refine list_sum_congr fun i _ => ?_
    ring
  rw [h]
  by_cases hA : A = 0
  · rw [hA]; simp
  · field_simp

theorem refDq_eq {d : Dims} (h0 : 0 < d.nlonOut) (h : d.nlonIn % d.nlonOut = 0) (w : ℕ → ℝ) (P : Pattern) (k v q dy : T4)
    (hrow : ∀ ho < d.nlatOut, P.row ho ≠ []) :
    refDq d w P k v q dy
      = .ok (gradQ d.Ck d.Cv w (gatherNbrs P d.nlonIn (d.nlonIn / d.nlonOut)) k v q dy) := by
  unfold refDq
  rw [gatherScale_ok h0 h]
  dsimp only
  rw [if_neg (by rintro ⟨ho, h1, h2⟩; exact hrow ho h1 h2)]
  congr 1
  funext b c ho wo
  set ps := d.nlonIn / d.nlonOut
  have hb := alphaNz_avg d w P ps k q b ho wo (gdot d.Cv v dy b ho wo)
  have hp : ∀ z, _ := fun z => alphaNz_prob d w P ps k q b ho wo z
  simp only [accum_eq] at hb hp ⊢
  rw [dq_formula]
  unfold gradQ
  conv_rhs => rw [gatherNbrs_eq, List.map_map]
  refine list_sum_congr fun z _ => ?_
  rw [Function.comp_apply, ← hp z]
  have hb' : gbar d.Ck d.Cv w (gatherNbrs P d.nlonIn ps) k v q dy b ho wo = _ := hb.symm
  rw [hb']
  rfl

/-! ### Upsampling -/

/-- The list of all loop iterations of the upsampling reference. -/
def upEdges (d : Dims) (P : Pattern) : List (ℕ × ℕ × ℕ) :=
  (List.range d.nlatIn).flatMap fun hi => (List.range d.nlonIn).flatMap fun wi => (P.row hi).map fun z => (hi, wi, z)

theorem upLoop_eq {σ : Type} (d : Dims) (P : Pattern) (body : σ → ℕ → ℕ → ℕ → σ) (s : σ) :
    upLoop d P body s = (upEdges d P).foldl (fun s e => body s e.1 e.2.1 e.2.2) s := by
  unfold upLoop upEdges
  simp only [List.foldl_flatMap, List.foldl_map]

theorem mem_upEdges {d : Dims} {P : Pattern} {hi wi z : ℕ} :
    (hi, wi, z) ∈ upEdges d P ↔ hi < d.nlatIn ∧ wi < d.nlonIn ∧ z ∈ P.row hi := by
  unfold upEdges
  simp only [List.mem_flatMap, List.mem_range, List.mem_map, Prod.mk.injEq]
  constructor
  · rintro ⟨a, ha, b, hb, c, hc, rfl, rfl, rfl⟩; exact ⟨ha, hb, hc⟩
  · rintro ⟨h1, h2, h3⟩; exact ⟨hi, h1, wi, h2, z, h3, rfl, rfl, rfl⟩

theorem upEdges_sum (d : Dims) (P : Pattern) (g : ℕ → ℕ → ℕ → ℝ) :
    ((upEdges d P).map fun e => g e.1 e.2.1 e.2.2).sum
      = ∑ hi ∈ range d.nlatIn, ∑ wi ∈ range d.nlonIn, ((P.row hi).map fun z => g hi wi z).sum := by
  unfold upEdges
  rw [list_sum_flatMap, list_sum_range]
  refine Finset.sum_congr rfl fun hi _ => ?_
  rw [list_sum_flatMap, list_sum_range]
  refine Finset.sum_congr rfl fun wi _ => ?_
  rw [List.map_map]; rfl

/-- The maximum read in pass 2 was written in pass 1: it is not minus infinity. -/
theorem upMax_isSome (d : Dims) (P : Pattern) (ps : ℕ) (k q : T4) (b : ℕ) {hi wi z : ℕ} (h1 : hi < d.nlatIn) (h2 : wi < d.nlonIn)
    (h3 : z ∈ P.row hi) : upMax d P ps k q b (outOf P d.nlonOut ps wi z) ≠ ⊥ := by
  unfold upMax
  rw [upLoop_eq]
  have hm := (mem_upEdges (d := d) (P := P)).2 ⟨h1, h2, h3⟩
  generalize upEdges d P = E at hm
  have hkeep : ∀ (E : List (ℕ × ℕ × ℕ)) (mx : ℕ × ℕ → WithBot ℝ) (o : ℕ × ℕ), mx o ≠ ⊥ →
      (E.foldl (fun mx e => Function.update mx (outOf P d.nlonOut ps e.2.1 e.2.2) (max (mx (outOf P d.nlonOut ps e.2.1 e.2.2))
        ((dotC d.Ck q k b (outOf P d.nlonOut ps e.2.1 e.2.2).1 (outOf P d.nlonOut ps e.2.1 e.2.2).2 e.1 e.2.1 : ℝ) : WithBot ℝ))) mx) o ≠ ⊥ := by
    intro E
    induction E with
    | nil => intro mx o h; exact h
    | cons e E ih =>
      intro mx o h
      rw [List.foldl_cons]
      refine ih _ _ ?_
      rw [Function.update_apply]
      split_ifs with ho
      · exact ne_bot_of_le_ne_bot (WithBot.coe_ne_bot) (le_max_right _ _)
      · exact h
  suffices H : ∀ mx : ℕ × ℕ → WithBot ℝ, (E.foldl (fun mx e => Function.update mx (outOf P d.nlonOut ps e.2.1 e.2.2)
      (max (mx (outOf P d.nlonOut ps e.2.1 e.2.2)) ((dotC d.Ck q k b (outOf P d.nlonOut ps e.2.1 e.2.2).1
        (outOf P d.nlonOut ps e.2.1 e.2.2).2 e.1 e.2.1 : ℝ) : WithBot ℝ))) mx) (outOf P d.nlonOut ps wi z) ≠ ⊥ from H _
  induction E with
  | nil => simp at hm
  | cons e E ih =>
    intro mx
    rw [List.foldl_cons]
    rcases List.mem_cons.1 hm with rfl | hm
    · refine hkeep E _ _ ?_
      dsimp only
      rw [Function.update_self]
      exact ne_bot_of_le_ne_bot (WithBot.coe_ne_bot) (le_max_right _ _)
    · exact ih hm _

theorem upAccum_eq (d : Dims) (P : Pattern) (ps : ℕ) (f : ℕ → ℕ → ℕ → ℝ) (o : ℕ × ℕ) :
    upAccum d P ps f o = ∑ hi ∈ range d.nlatIn, ∑ wi ∈ range d.nlonIn,
      ((P.row hi).map fun z => if outOf P d.nlonOut ps wi z = o then f hi wi z else 0).sum := by
  unfold upAccum
  rw [upLoop_eq, addAt_foldl (upEdges d P) (fun e => outOf P d.nlonOut ps e.2.1 e.2.2) (fun e => f e.1 e.2.1 e.2.2),
    ← upEdges_sum, zero_add]

theorem scatter_sum (P : Pattern) (nlatIn nlonIn nlonOut ps ho wo : ℕ) (g : ℕ × ℕ → ℝ) :
    ((scatterNbrs P nlatIn nlonIn nlonOut ps ho wo).map g).sum = ∑ hi ∈ range nlatIn, ∑ wi ∈ range nlonIn,
      ((P.row hi).map fun z => if outOf P nlonOut ps wi z = (ho, wo) then g (hi, wi) else 0).sum := by
  unfold scatterNbrs
  rw [list_sum_flatMap, list_sum_range]
  refine Finset.sum_congr rfl fun hi _ => ?_
  rw [list_sum_flatMap, list_sum_range]
  refine Finset.sum_congr rfl fun wi _ => ?_
  rw [List.map_map]
  have : ((P.row hi).filter fun z => P.col z / nlonOut = ho ∧ (P.col z % nlonOut + ps * wi) % nlonOut = wo)
      = (P.row hi).filter fun z => outOf P nlonOut ps wi z = (ho, wo) := by
    refine List.filter_congr fun z _ => ?_
    simp [outOf]
  rw [this, list_sum_filter]
  rfl

theorem mem_scatterNbrs {P : Pattern} {nlatIn nlonIn nlonOut ps ho wo : ℕ} {p : ℕ × ℕ}
    (h : p ∈ scatterNbrs P nlatIn nlonIn nlonOut ps ho wo) : p.1 < nlatIn ∧ p.2 < nlonIn := by
  unfold scatterNbrs at h
  simp only [List.mem_flatMap, List.mem_range, List.mem_map, List.mem_filter] at h
  obtain ⟨hi, h1, wi, h2, z, _, rfl⟩ := h
  exact ⟨h1, h2⟩

/-- An accumulator of pass 2, as a sum over the neighbours of the output cell. -/
theorem upAccum_alpha (d : Dims) (w : ℕ → ℝ) (P : Pattern) (ps : ℕ) (k q : T4) (b ho wo : ℕ) (f : ℕ → ℕ → ℕ → ℝ) (g : ℕ × ℕ → ℝ)
    (hfg : ∀ hi wi z, outOf P d.nlonOut ps wi z = (ho, wo) → f hi wi z = upAlpha d w P ps k q b hi wi z * g (hi, wi)) :
    upAccum d P ps f (ho, wo) = ((scatterNbrs P d.nlatIn d.nlonIn d.nlonOut ps ho wo).map fun p =>
      Real.exp (score d.Ck k q b ho wo p - (upMax d P ps k q b (ho, wo)).unbotD 0) * w p.1 * g p).sum := by
  rw [upAccum_eq, scatter_sum]
  refine Finset.sum_congr rfl fun hi _ => Finset.sum_congr rfl fun wi _ => list_sum_congr fun z _ => ?_
  by_cases h : outOf P d.nlonOut ps wi z = (ho, wo)
  · rw [if_pos h, if_pos h, hfg hi wi z h]
    unfold upAlpha
    rw [h]; rfl
  · rw [if_neg h, if_neg h]

theorem upAccum_alpha_one (d : Dims) (w : ℕ → ℝ) (P : Pattern) (ps : ℕ) (k q : T4) (b ho wo : ℕ) :
    upAccum d P ps (upAlpha d w P ps k q b) (ho, wo) = ((scatterNbrs P d.nlatIn d.nlonIn d.nlonOut ps ho wo).map fun p =>
      Real.exp (score d.Ck k q b ho wo p - (upMax d P ps k q b (ho, wo)).unbotD 0) * w p.1).sum := by
  rw [upAccum_alpha d w P ps k q b ho wo _ (fun _ => 1) (fun hi wi z _ => (mul_one _).symm)]
  simp only [mul_one]

theorem refUpForward_eq {d : Dims} (h0 : 0 < d.nlonIn) (h : d.nlonOut % d.nlonIn = 0) (w : ℕ → ℝ) (P : Pattern) (k v q : T4) :
    refUpForward d w P k v q
      = .ok (attention d.Ck w (scatterNbrs P d.nlatIn d.nlonIn d.nlonOut (d.nlonOut / d.nlonIn)) k v q) := by
  unfold refUpForward
  rw [scatterScale_ok h0 h]
  dsimp only
  congr 1
  funext b c ho wo
  rw [upAccum_alpha_one, upAccum_alpha d w P _ k q b ho wo _ (fun p => v b c p.1 p.2) (fun hi wi z _ => rfl)]
  exact softAvg_shifted _ (fun p : ℕ × ℕ => w p.1) _ _ _

theorem upAlpha_prob (d : Dims) (w : ℕ → ℝ) (P : Pattern) (ps : ℕ) (k q : T4) (b hi wi z ho wo : ℕ)
    (h : outOf P d.nlonOut ps wi z = (ho, wo)) :
    upAlpha d w P ps k q b hi wi z / upAccum d P ps (upAlpha d w P ps k q b) (ho, wo)
      = prob d.Ck w (scatterNbrs P d.nlatIn d.nlonIn d.nlonOut ps) k q b ho wo (hi, wi) := by
  rw [upAccum_alpha_one]
  unfold prob
  rw [← shifted_prob _ (fun p : ℕ × ℕ => w p.1) (score d.Ck k q b ho wo) ((upMax d P ps k q b (ho, wo)).unbotD 0) (hi, wi)]
  unfold upAlpha
  rw [h]; rfl

/-- A scatter back to the input points. -/
theorem upLoop_addAt (d : Dims) (P : Pattern) (f : ℕ → ℕ → ℕ → ℝ) {hi wi : ℕ} (h1 : hi < d.nlatIn) (h2 : wi < d.nlonIn) :
    upLoop d P (fun x hi wi z => addAt x (hi, wi) (f hi wi z)) (fun _ => 0) (hi, wi) = ((P.row hi).map fun z => f hi wi z).sum := by
  rw [upLoop_eq, addAt_foldl (upEdges d P) (fun e => (e.1, e.2.1)) (fun e => f e.1 e.2.1 e.2.2), zero_add,
    upEdges_sum d P (fun hi' wi' z => if (hi', wi') = (hi, wi) then f hi' wi' z else 0),
    Finset.sum_eq_single hi, Finset.sum_eq_single wi]
  · exact list_sum_congr fun z _ => if_pos rfl
  · intro x _ hx
    exact list_sum_zero fun z _ => if_neg (by simp [hx])
  · intro h; exact absurd (Finset.mem_range.2 h2) h
  · intro x _ hx
    exact Finset.sum_eq_zero fun y _ => list_sum_zero fun z _ => if_neg (by simp [hx])
  · intro h; exact absurd (Finset.mem_range.2 h1) h

/-- Summing, over all output cells, the entries that reach the cell is summing over all entries of the row. -/
theorem scatter_back (d : Dims) (P : Pattern) (hfit : P.Fits d.nlatIn (d.nlatOut * d.nlonOut)) (hW : 0 < d.nlonOut) (ps : ℕ)
    (f : ℕ → ℕ → ℝ) {hi wi : ℕ} (h1 : hi < d.nlatIn) (h2 : wi < d.nlonIn) :
    ∑ ho ∈ range d.nlatOut, ∑ wo ∈ range d.nlonOut,
      ((scatterNbrs P d.nlatIn d.nlonIn d.nlonOut ps ho wo).map fun p => if p = (hi, wi) then f ho wo else 0).sum
      = ((P.row hi).map fun z => f (outOf P d.nlonOut ps wi z).1 (outOf P d.nlonOut ps wi z).2).sum := by
  have hstep : ∀ ho wo, ((scatterNbrs P d.nlatIn d.nlonIn d.nlonOut ps ho wo).map fun p => if p = (hi, wi) then f ho wo else 0).sum
      = ((P.row hi).map fun z => if outOf P d.nlonOut ps wi z = (ho, wo) then f ho wo else 0).sum := by
    intro ho wo
    rw [scatter_sum, Finset.sum_eq_single hi, Finset.sum_eq_single wi]
    · exact list_sum_congr fun z _ => by simp
    · intro x _ hx
      exact list_sum_zero fun z _ => by simp [hx]
    · intro h; exact absurd (Finset.mem_range.2 h2) h
    · intro x _ hx
      exact Finset.sum_eq_zero fun y _ => list_sum_zero fun z _ => by simp [hx]
    · intro h; exact absurd (Finset.mem_range.2 h1) h
  rw [Finset.sum_congr rfl fun ho _ => Finset.sum_congr rfl fun wo _ => hstep ho wo]
  rw [Finset.sum_congr rfl fun ho _ => (list_finset_comm _ _ _).symm, ← list_finset_comm]
  refine list_sum_congr fun z hz => ?_
  have ha : (outOf P d.nlonOut ps wi z).1 < d.nlatOut := by
    unfold outOf
    exact (Nat.div_lt_iff_lt_mul hW).2 (hfit hi h1 z hz)
  have hb : (outOf P d.nlonOut ps wi z).2 < d.nlonOut := Nat.mod_lt _ hW
  rw [Finset.sum_eq_single (outOf P d.nlonOut ps wi z).1, Finset.sum_eq_single (outOf P d.nlonOut ps wi z).2]
  · simp
  · intro x _ hx
    rw [if_neg]; intro e; exact hx (by rw [e])
  · intro h; exact absurd (Finset.mem_range.2 hb) h
  · intro x _ hx
    refine Finset.sum_eq_zero fun y _ => ?_
    rw [if_neg]; intro e; exact hx (by rw [e])
  · intro h; exact absurd (Finset.mem_range.2 ha) h

theorem refUpDv_eq {d : Dims} (h0 : 0 < d.nlonIn) (h : d.nlonOut % d.nlonIn = 0) (hW : 0 < d.nlonOut) (w : ℕ → ℝ) (P : Pattern)
    (hfit : P.Fits d.nlatIn (d.nlatOut * d.nlonOut)) (k v q dy : T4) :
    ∃ dv, refUpDv d w P k v q dy = .ok dv ∧ ∀ b c, ∀ hi < d.nlatIn, ∀ wi < d.nlonIn,
      dv b c hi wi = gradV d.Ck w (scatterNbrs P d.nlatIn d.nlonIn d.nlonOut (d.nlonOut / d.nlonIn)) d.nlatOut d.nlonOut k q dy
        b c hi wi := by
  unfold refUpDv
  rw [scatterScale_ok h0 h]
  refine ⟨_, rfl, fun b c hi h1 wi h2 => ?_⟩
  dsimp only
  rw [upLoop_addAt d P _ h1 h2]
  set ps := d.nlonOut / d.nlonIn
  have e : gradV d.Ck w (scatterNbrs P d.nlatIn d.nlonIn d.nlonOut ps) d.nlatOut d.nlonOut k q dy b c hi wi
      = ∑ ho ∈ range d.nlatOut, ∑ wo ∈ range d.nlonOut,
        ((scatterNbrs P d.nlatIn d.nlonIn d.nlonOut ps ho wo).map fun p => if p = (hi, wi) then
          prob d.Ck w (scatterNbrs P d.nlatIn d.nlonIn d.nlonOut ps) k q b ho wo (hi, wi) * dy b c ho wo else 0).sum := by
    unfold gradV
    refine Finset.sum_congr rfl fun ho _ => Finset.sum_congr rfl fun wo _ => list_sum_congr fun p _ => ?_
    split_ifs with hp
    · rw [hp]
    · rfl
  rw [e, scatter_back d P hfit hW ps
    (fun ho wo => prob d.Ck w (scatterNbrs P d.nlatIn d.nlonIn d.nlonOut ps) k q b ho wo (hi, wi) * dy b c ho wo) h1 h2]
  refine list_sum_congr fun z _ => ?_
  rw [← upAlpha_prob d w P ps k q b hi wi z (outOf P d.nlonOut ps wi z).1 (outOf P d.nlonOut ps wi z).2 rfl]

theorem upAlpha_avg (d : Dims) (w : ℕ → ℝ) (P : Pattern) (ps : ℕ) (k q : T4) (b ho wo : ℕ) (f : ℕ → ℕ → ℕ → ℝ) (g : ℕ × ℕ → ℝ)
    (hfg : ∀ hi wi z, outOf P d.nlonOut ps wi z = (ho, wo) → f hi wi z = upAlpha d w P ps k q b hi wi z * g (hi, wi)) :
    upAccum d P ps f (ho, wo) / upAccum d P ps (upAlpha d w P ps k q b) (ho, wo)
      = ((scatterNbrs P d.nlatIn d.nlonIn d.nlonOut ps ho wo).map fun p =>
        prob d.Ck w (scatterNbrs P d.nlatIn d.nlonIn d.nlonOut ps) k q b ho wo p * g p).sum := by
  rw [upAccum_alpha d w P ps k q b ho wo f g hfg, upAccum_alpha_one, div_eq_mul_inv, ← list_sum_mul_right]
  refine list_sum_congr fun p _ => ?_
  unfold prob
  rw [← shifted_prob _ (fun p : ℕ × ℕ => w p.1) (score d.Ck k q b ho wo) ((upMax d P ps k q b (ho, wo)).unbotD 0) p]
  ring

theorem refUpDk_eq {d : Dims} (h0 : 0 < d.nlonIn) (h : d.nlonOut % d.nlonIn = 0) (hW : 0 < d.nlonOut) (w : ℕ → ℝ) (P : Pattern)
    (hfit : P.Fits d.nlatIn (d.nlatOut * d.nlonOut)) (k v q dy : T4) :
    ∃ dk, refUpDk d w P k v q dy = .ok dk ∧ ∀ b c, ∀ hi < d.nlatIn, ∀ wi < d.nlonIn,
      dk b c hi wi = gradK d.Ck d.Cv w (scatterNbrs P d.nlatIn d.nlonIn d.nlonOut (d.nlonOut / d.nlonIn)) d.nlatOut d.nlonOut
        k v q dy b c hi wi := by
  unfold refUpDk
  rw [scatterScale_ok h0 h]
  refine ⟨_, rfl, fun b c hi h1 wi h2 => ?_⟩
  dsimp only
  rw [upLoop_addAt d P _ h1 h2]
  set ps := d.nlonOut / d.nlonIn
  set nb := scatterNbrs P d.nlatIn d.nlonIn d.nlonOut ps with hnb
  have e : gradK d.Ck d.Cv w nb d.nlatOut d.nlonOut k v q dy b c hi wi
      = ∑ ho ∈ range d.nlatOut, ∑ wo ∈ range d.nlonOut,
        ((scatterNbrs P d.nlatIn d.nlonIn d.nlonOut ps ho wo).map fun p => if p = (hi, wi) then
          q b c ho wo * prob d.Ck w nb k q b ho wo (hi, wi) *
            (gdot d.Cv v dy b ho wo (hi, wi) - gbar d.Ck d.Cv w nb k v q dy b ho wo) else 0).sum := by
    unfold gradK
    refine Finset.sum_congr rfl fun ho _ => Finset.sum_congr rfl fun wo _ => list_sum_congr fun p _ => ?_
    split_ifs with hp
    · rw [hp]
    · rfl
  rw [e, scatter_back d P hfit hW ps (fun ho wo => q b c ho wo * prob d.Ck w nb k q b ho wo (hi, wi) *
            (gdot d.Cv v dy b ho wo (hi, wi) - gbar d.Ck d.Cv w nb k v q dy b ho wo)) h1 h2]
  refine list_sum_congr fun z _ => ?_
  rw [← upAlpha_prob d w P ps k q b hi wi z (outOf P d.nlonOut ps wi z).1 (outOf P d.nlonOut ps wi z).2 rfl]
  have hb := upAlpha_avg d w P ps k q b (outOf P d.nlonOut ps wi z).1 (outOf P d.nlonOut ps wi z).2
    (fun hi wi z => upAlpha d w P ps k q b hi wi z *
      dotC d.Cv dy v b (outOf P d.nlonOut ps wi z).1 (outOf P d.nlonOut ps wi z).2 hi wi)
    (gdot d.Cv v dy b (outOf P d.nlonOut ps wi z).1 (outOf P d.nlonOut ps wi z).2)
    (fun hi' wi' z' hz' => by rw [hz']; rfl)
  have hb' : gbar d.Ck d.Cv w nb k v q dy b (outOf P d.nlonOut ps wi z).1 (outOf P d.nlonOut ps wi z).2 = _ := hb.symm
  rw [hb']
  have hg : gdot d.Cv v dy b (outOf P d.nlonOut ps wi z).1 (outOf P d.nlonOut ps wi z).2 (hi, wi)
    = dotC d.Cv dy v b (outOf P d.nlonOut ps wi z).1 (outOf P d.nlonOut ps wi z).2 hi wi := rfl
  rw [hg]
  ring

theorem refUpDq_eq {d : Dims} (h0 : 0 < d.nlonIn) (h : d.nlonOut % d.nlonIn = 0) (w : ℕ → ℝ) (P : Pattern) (k v q dy : T4) :
    refUpDq d w P k v q dy
      = .ok (gradQ d.Ck d.Cv w (scatterNbrs P d.nlatIn d.nlonIn d.nlonOut (d.nlonOut / d.nlonIn)) k v q dy) := by
  unfold refUpDq
  rw [scatterScale_ok h0 h]
  dsimp only
  congr 1
  funext b c ho wo
  set ps := d.nlonOut / d.nlonIn
  set nb := scatterNbrs P d.nlatIn d.nlonIn d.nlonOut ps with hnb
  rw [upAccum_alpha_one,
    upAccum_alpha d w P ps k q b ho wo _ (fun p => gdot d.Cv v dy b ho wo p * k b c p.1 p.2)
      (fun hi wi z hz => by rw [hz, mul_assoc]; rfl),
    upAccum_alpha d w P ps k q b ho wo _ (gdot d.Cv v dy b ho wo) (fun hi wi z hz => by rw [hz]; rfl),
    upAccum_alpha d w P ps k q b ho wo _ (fun p => k b c p.1 p.2) (fun hi wi z hz => rfl)]
  set a : ℕ × ℕ → ℝ := fun p => Real.exp (score d.Ck k q b ho wo p - (upMax d P ps k q b (ho, wo)).unbotD 0) * w p.1 with ha
  have hf := dq_formula (nb ho wo) a (gdot d.Cv v dy b ho wo) (fun p => k b c p.1 p.2)
  have e1 : ((nb ho wo).map fun p => a p * (gdot d.Cv v dy b ho wo p * k b c p.1 p.2)).sum
      = ((nb ho wo).map fun p => a p * k b c p.1 p.2 * gdot d.Cv v dy b ho wo p).sum :=
    list_sum_congr fun p _ => by ring
  have hp : ∀ p, a p / ((nb ho wo).map a).sum = prob d.Ck w nb k q b ho wo p := fun p =>
    shifted_prob (nb ho wo) (fun p : ℕ × ℕ => w p.1) (score d.Ck k q b ho wo) ((upMax d P ps k q b (ho, wo)).unbotD 0) p
  have hbar : gbar d.Ck d.Cv w nb k v q dy b ho wo
      = ((nb ho wo).map fun p => a p * gdot d.Cv v dy b ho wo p).sum / ((nb ho wo).map a).sum := by
    unfold gbar
    rw [div_eq_mul_inv, ← list_sum_mul_right]
    refine list_sum_congr fun p _ => ?_
    rw [← hp p]; ring
  unfold gradQ
  rw [hbar]
  simp only [← hp]
  rw [← hf, ← e1]

end Verif.Attn
