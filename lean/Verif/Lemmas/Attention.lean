import Verif.Model.Attention
import Mathlib.Algebra.BigOperators.Group.List.Basic
import Mathlib.Analysis.Calculus.Deriv.Basic
import Mathlib.Analysis.Calculus.Deriv.Add
import Mathlib.Analysis.Calculus.Deriv.Mul
import Mathlib.Analysis.Calculus.Deriv.Inv
import Mathlib.Analysis.SpecialFunctions.ExpDeriv
import Mathlib.Tactic.Ring
import Mathlib.Tactic.Linarith
import Mathlib.Tactic.FieldSimp
/-! Lemmas about the attention kernels: folds as sums, the running softmax, the derivative of a weighted softmax average. -/
namespace Verif.Attn
open Verif Verif.Spec.Attn Finset

/-! ### Folds and sums -/

theorem foldl_ev {σ ι : Type} (ev : σ → ℝ) (f : σ → ι → σ) (g : ι → ℝ) (L : List ι)
    (h : ∀ s, ∀ e ∈ L, ev (f s e) = ev s + g e) (s : σ) : ev (L.foldl f s) = ev s + (L.map g).sum := by
  induction L generalizing s with
  | nil => simp
  | cons e L ih =>
    rw [List.foldl_cons, ih (fun s e' he => h s e' (List.mem_cons_of_mem _ he)), h s e List.mem_cons_self, List.map_cons,
      List.sum_cons, add_assoc]

theorem list_sum_range (n : ℕ) (g : ℕ → ℝ) : ((List.range n).map g).sum = ∑ i ∈ range n, g i := by
  induction n with
  | zero => simp
  | succ n ih => rw [List.range_succ, List.map_append, List.sum_append, ih, Finset.sum_range_succ]; simp

theorem list_sum_mul_left {ι : Type} (L : List ι) (a : ℝ) (f : ι → ℝ) :
    (L.map fun i => a * f i).sum = a * (L.map f).sum := List.sum_map_mul_left ..

theorem list_sum_mul_right {ι : Type} (L : List ι) (a : ℝ) (f : ι → ℝ) :
    (L.map fun i => f i * a).sum = (L.map f).sum * a := List.sum_map_mul_right ..

theorem list_sum_add {ι : Type} (L : List ι) (f g : ι → ℝ) :
    (L.map fun i => f i + g i).sum = (L.map f).sum + (L.map g).sum := by
  induction L with
  | nil => simp
  | cons a L ih => simp only [List.map_cons, List.sum_cons, ih]; ring

theorem list_sum_congr {ι : Type} {L : List ι} {f g : ι → ℝ} (h : ∀ i ∈ L, f i = g i) : (L.map f).sum = (L.map g).sum := by
  rw [List.map_congr_left h]

theorem list_sum_zero {ι : Type} {L : List ι} {f : ι → ℝ} (h : ∀ i ∈ L, f i = 0) : (L.map f).sum = 0 := by
  rw [list_sum_congr h]; simp

theorem list_sum_flatMap {ι κ : Type} (L : List ι) (f : ι → List κ) (g : κ → ℝ) :
    ((L.flatMap f).map g).sum = (L.map fun i => ((f i).map g).sum).sum := by
  induction L with
  | nil => simp
  | cons a L ih => simp [ih]

theorem list_sum_filter {ι : Type} (L : List ι) (p : ι → Prop) [DecidablePred p] (g : ι → ℝ) :
    ((L.filter fun i => p i).map g).sum = (L.map fun i => if p i then g i else 0).sum := by
  induction L with
  | nil => simp
  | cons a L ih => by_cases h : p a <;> simp [h, ih]

theorem list_finset_comm {ι : Type} (L : List ι) (s : Finset ℕ) (f : ι → ℕ → ℝ) :
    (L.map fun i => ∑ c ∈ s, f i c).sum = ∑ c ∈ s, (L.map fun i => f i c).sum := by
  induction L with
  | nil => simp
  | cons a L ih => simp only [List.map_cons, List.sum_cons, ih, Finset.sum_add_distrib]

theorem accum_eq (L : List ℕ) (f : ℕ → ℝ) : accum L f = (L.map f).sum := by
  have := foldl_ev (σ := ℝ) id (fun a z => a + f z) f L (fun _ _ _ => rfl) 0
  simpa [accum] using this

/-- A sum over a list, grouped by the value of a key. -/
theorem sum_group (H W : ℕ) (L : List (ℕ × ℕ)) (hL : ∀ p ∈ L, p.1 < H ∧ p.2 < W) (f δ : ℕ × ℕ → ℝ) :
    (L.map fun p => f p * δ p).sum
      = ∑ h ∈ range H, ∑ w ∈ range W, (L.map fun p => if p = (h, w) then f p else 0).sum * δ (h, w) := by
  induction L with
  | nil => simp
  | cons a L ih =>
    rw [List.map_cons, List.sum_cons, ih (fun p hp => hL p (List.mem_cons_of_mem _ hp))]
    have ha := hL a List.mem_cons_self
    have : f a * δ a = ∑ h ∈ range H, ∑ w ∈ range W, (if a = (h, w) then f a else 0) * δ (h, w) := by
      rw [Finset.sum_eq_single a.1, Finset.sum_eq_single a.2]
      · simp
      · intro w _ hw
        rw [if_neg]; · simp
        intro h; exact hw (by rw [h])
      · intro h; exact absurd (Finset.mem_range.2 ha.2) h
      · intro h _ hh
        refine Finset.sum_eq_zero fun w _ => ?_
        rw [if_neg]; · simp
        intro e; exact hh (by rw [e])
      · intro h; exact absurd (Finset.mem_range.2 ha.1) h
    rw [this, ← Finset.sum_add_distrib]
    refine Finset.sum_congr rfl fun h _ => ?_
    rw [← Finset.sum_add_distrib]
    refine Finset.sum_congr rfl fun w _ => ?_
    rw [List.map_cons, List.sum_cons, add_mul]

/-! ### Averages -/

theorem softAvg_perm {ι : Type} {L L' : List ι} (h : L.Perm L') (w s v : ι → ℝ) : softAvg L w s v = softAvg L' w s v := by
  unfold softAvg
  rw [(h.map _).sum_eq, (h.map _).sum_eq]

theorem softAvg_map {ι κ : Type} (L : List ι) (f : ι → κ) (w s v : κ → ℝ) :
    softAvg (L.map f) w s v = softAvg L (fun i => w (f i)) (fun i => s (f i)) (fun i => v (f i)) := by
  unfold softAvg
  simp only [List.map_map, Function.comp_def]

theorem softAvg_congr {ι : Type} {L : List ι} {w w' s s' v v' : ι → ℝ} (hw : ∀ i ∈ L, w i = w' i) (hs : ∀ i ∈ L, s i = s' i)
    (hv : ∀ i ∈ L, v i = v' i) : softAvg L w s v = softAvg L w' s' v' := by
  unfold softAvg
  congr 1
  · exact list_sum_congr fun i hi => by rw [hw i hi, hs i hi, hv i hi]
  · exact list_sum_congr fun i hi => by rw [hw i hi, hs i hi]

theorem weight_sum_pos {ι : Type} {L : List ι} (hL : L ≠ []) {w : ι → ℝ} (hw : ∀ i ∈ L, 0 < w i) (s : ι → ℝ) :
    0 < (L.map fun i => w i * Real.exp (s i)).sum := by
  refine List.sum_pos _ ?_ (by simpa using hL)
  intro x hx
  obtain ⟨i, hi, rfl⟩ := List.mem_map.1 hx
  exact mul_pos (hw i hi) (Real.exp_pos _)

/-- Replacing `exp s` by `exp (s - m)` in numerator and denominator changes nothing. -/
theorem softAvg_shifted {ι : Type} (L : List ι) (w s v : ι → ℝ) (m : ℝ) :
    (L.map fun i => Real.exp (s i - m) * w i * v i).sum / (L.map fun i => Real.exp (s i - m) * w i).sum = softAvg L w s v := by
  unfold softAvg
  have h1 : (L.map fun i => Real.exp (s i - m) * w i * v i).sum = Real.exp (-m) * (L.map fun i => w i * Real.exp (s i) * v i).sum := by
    rw [← list_sum_mul_left]
    refine list_sum_congr fun i _ => ?_
    rw [sub_eq_add_neg, Real.exp_add]; ring
  have h2 : (L.map fun i => Real.exp (s i - m) * w i).sum = Real.exp (-m) * (L.map fun i => w i * Real.exp (s i)).sum := by
    rw [← list_sum_mul_left]
    refine list_sum_congr fun i _ => ?_
    rw [sub_eq_add_neg, Real.exp_add]; ring
  rw [h1, h2, mul_div_mul_left _ _ (Real.exp_ne_zero _)]

/-! ### The running softmax -/

/-- The loop of the running softmax over a list with given scores, weights and values. -/
noncomputable def onlineFold {ι : Type} (L : List ι) (w s : ι → ℝ) (v : ι → ℕ → ℝ) (s0 : Online) : Online :=
  L.foldl (fun st i => onlineStep st (s i) (w i) (v i)) s0

theorem onlineStep_alphaSum (st : Online) (q w : ℝ) (v : ℕ → ℝ) :
    (onlineStep st q w v).alphaSum * Real.exp (onlineStep st q w v).qdotkMax
      = st.alphaSum * Real.exp st.qdotkMax + w * Real.exp q := by
  simp only [onlineStep, Real.exp_sub]
  field_simp
  ring

theorem onlineStep_y (st : Online) (q w : ℝ) (v : ℕ → ℝ) (c : ℕ) :
    (onlineStep st q w v).y c * Real.exp (onlineStep st q w v).qdotkMax
      = st.y c * Real.exp st.qdotkMax + w * Real.exp q * v c := by
  simp only [onlineStep, Real.exp_sub]
  field_simp

theorem onlineFold_alphaSum {ι : Type} (L : List ι) (w s : ι → ℝ) (v : ι → ℕ → ℝ) (s0 : Online) :
    (onlineFold L w s v s0).alphaSum * Real.exp (onlineFold L w s v s0).qdotkMax
      = s0.alphaSum * Real.exp s0.qdotkMax + (L.map fun i => w i * Real.exp (s i)).sum :=
  foldl_ev (fun st : Online => st.alphaSum * Real.exp st.qdotkMax) _ _ L
    (fun st i _ => onlineStep_alphaSum st (s i) (w i) (v i)) s0

theorem onlineFold_y {ι : Type} (L : List ι) (w s : ι → ℝ) (v : ι → ℕ → ℝ) (s0 : Online) (c : ℕ) :
    (onlineFold L w s v s0).y c * Real.exp (onlineFold L w s v s0).qdotkMax
      = s0.y c * Real.exp s0.qdotkMax + (L.map fun i => w i * Real.exp (s i) * v i c).sum :=
  foldl_ev (fun st : Online => st.y c * Real.exp st.qdotkMax) _ _ L
    (fun st i _ => onlineStep_y st (s i) (w i) (v i) c) s0

theorem onlineFold_max {ι : Type} (L : List ι) (w s : ι → ℝ) (v : ι → ℕ → ℝ) (s0 : Online) :
    (onlineFold L w s v s0).qdotkMax = L.foldl (fun m i => max m (s i)) s0.qdotkMax := by
  unfold onlineFold
  induction L generalizing s0 with
  | nil => rfl
  | cons a L ih => rw [List.foldl_cons, ih]; rfl

theorem le_foldl_max {ι : Type} (L : List ι) (s : ι → ℝ) (m : ℝ) :
    m ≤ L.foldl (fun m i => max m (s i)) m ∧ ∀ i ∈ L, s i ≤ L.foldl (fun m i => max m (s i)) m := by
  induction L generalizing m with
  | nil => simp
  | cons a L ih =>
    rw [List.foldl_cons]
    obtain ⟨h1, h2⟩ := ih (max m (s a))
    refine ⟨(le_max_left _ _).trans h1, fun i hi => ?_⟩
    rcases List.mem_cons.1 hi with rfl | hi
    · exact (le_max_right _ _).trans h1
    · exact h2 i hi

theorem foldl_max_mem {ι : Type} (L : List ι) (s : ι → ℝ) (m : ℝ) :
    L.foldl (fun m i => max m (s i)) m = m ∨ ∃ i ∈ L, L.foldl (fun m i => max m (s i)) m = s i := by
  induction L generalizing m with
  | nil => simp
  | cons a L ih =>
    rw [List.foldl_cons]
    rcases ih (max m (s a)) with h | ⟨i, hi, h⟩
    · rcases max_choice m (s a) with h' | h'
      · exact Or.inl (h.trans h')
      · exact Or.inr ⟨a, List.mem_cons_self, h.trans h'⟩
    · exact Or.inr ⟨i, List.mem_cons_of_mem _ hi, h⟩

/-- The result of the running softmax is the exact weighted average, whatever the starting maximum. -/
theorem onlineFold_avg {ι : Type} (L : List ι) (w s : ι → ℝ) (v : ι → ℕ → ℝ) (m0 : ℝ) (c : ℕ) :
    (onlineFold L w s v ⟨0, m0, fun _ => 0⟩).y c / (onlineFold L w s v ⟨0, m0, fun _ => 0⟩).alphaSum
      = softAvg L w s (fun i => v i c) := by
  have h1 := onlineFold_alphaSum L w s v ⟨0, m0, fun _ => 0⟩
  have h2 := onlineFold_y L w s v ⟨0, m0, fun _ => 0⟩ c
  rw [zero_mul, zero_add] at h1 h2
  unfold softAvg
  rw [← h1, ← h2, mul_div_mul_right _ _ (Real.exp_ne_zero _)]

/-! ### The gradients as formulas -/

section
variable (Ck Cv : ℕ) (w : ℕ → ℝ) (nb : ℕ → ℕ → List (ℕ × ℕ)) (H W : ℕ) (k v q dy : T4)

/-- The softmax probability of the neighbour `p`. -/
noncomputable def prob (b ho wo : ℕ) (p : ℕ × ℕ) : ℝ :=
  w p.1 * Real.exp (score Ck k q b ho wo p) / ((nb ho wo).map fun p => w p.1 * Real.exp (score Ck k q b ho wo p)).sum

/-- The cotangent dotted with the value at `p`. -/
def gdot (b ho wo : ℕ) (p : ℕ × ℕ) : ℝ := ∑ c ∈ range Cv, dy b c ho wo * v b c p.1 p.2

/-- Its average over the neighbourhood. -/
noncomputable def gbar (b ho wo : ℕ) : ℝ :=
  ((nb ho wo).map fun p => prob Ck w nb k q b ho wo p * gdot Cv v dy b ho wo p).sum

/-- Gradient with respect to the values. -/
noncomputable def gradV (b c hi wi : ℕ) : ℝ := ∑ ho ∈ range H, ∑ wo ∈ range W,
  ((nb ho wo).map fun p => if p = (hi, wi) then prob Ck w nb k q b ho wo p * dy b c ho wo else 0).sum

/-- Gradient with respect to the keys. -/
noncomputable def gradK (b c hi wi : ℕ) : ℝ := ∑ ho ∈ range H, ∑ wo ∈ range W,
  ((nb ho wo).map fun p => if p = (hi, wi) then
    q b c ho wo * prob Ck w nb k q b ho wo p * (gdot Cv v dy b ho wo p - gbar Ck Cv w nb k v q dy b ho wo) else 0).sum

/-- Gradient with respect to the queries. -/
noncomputable def gradQ (b c ho wo : ℕ) : ℝ :=
  ((nb ho wo).map fun p =>
    prob Ck w nb k q b ho wo p * (gdot Cv v dy b ho wo p - gbar Ck Cv w nb k v q dy b ho wo) * k b c p.1 p.2).sum

end

/-- Derivative of a weighted softmax average along a path of scores and values. -/
theorem hasDerivAt_softAvg {ι : Type} (L : List ι) (w : ι → ℝ) (s v : ι → ℝ → ℝ) (s' v' : ι → ℝ) (t : ℝ)
    (hs : ∀ i ∈ L, HasDerivAt (s i) (s' i) t) (hv : ∀ i ∈ L, HasDerivAt (v i) (v' i) t)
    (hZ : (L.map fun i => w i * Real.exp (s i t)).sum ≠ 0) :
    HasDerivAt (fun t => softAvg L w (fun i => s i t) (fun i => v i t))
      (L.map fun i => w i * Real.exp (s i t) / (L.map fun i => w i * Real.exp (s i t)).sum
        * (v' i + (v i t - softAvg L w (fun i => s i t) (fun i => v i t)) * s' i)).sum t := by
  have hsum : ∀ (L : List ι) (f : ι → ℝ → ℝ) (f' : ι → ℝ), (∀ i ∈ L, HasDerivAt (f i) (f' i) t) →
      HasDerivAt (fun t => (L.map fun i => f i t).sum) ((L.map f').sum) t := by
    intro L f f' h
    induction L with
    | nil => simpa using hasDerivAt_const t (0 : ℝ)
    | cons a L ih =>
      simp only [List.map_cons, List.sum_cons]
      exact (h a List.mem_cons_self).add (ih fun i hi => h i (List.mem_cons_of_mem _ hi))
  have hD := hsum L (fun i t => w i * Real.exp (s i t)) (fun i => w i * (Real.exp (s i t) * s' i))
    (fun i hi => ((hs i hi).exp).const_mul (w i))
  have hN := hsum L (fun i t => w i * Real.exp (s i t) * v i t)
    (fun i => w i * (Real.exp (s i t) * s' i) * v i t + w i * Real.exp (s i t) * v' i)
    (fun i hi => (((hs i hi).exp).const_mul (w i)).mul (hv i hi))
  have h := hN.div hD hZ
  refine h.congr_deriv ?_
  unfold softAvg
  set Z := (L.map fun i => w i * Real.exp (s i t)).sum with hZd
  set N := (L.map fun i => w i * Real.exp (s i t) * v i t).sum with hNd
  have e : (L.map fun i => w i * Real.exp (s i t) / Z * (v' i + (v i t - N / Z) * s' i)).sum
      = (1 / Z) * (L.map fun i => w i * (Real.exp (s i t) * s' i) * v i t + w i * Real.exp (s i t) * v' i).sum
        - N / Z ^ 2 * (L.map fun i => w i * (Real.exp (s i t) * s' i)).sum := by
    rw [← list_sum_mul_left, ← list_sum_mul_left, sub_eq_add_neg, ← neg_one_mul, ← list_sum_mul_left, ← list_sum_add]
    refine list_sum_congr fun i _ => ?_
    field_simp
    ring
  rw [e]
  field_simp

/-- The derivative of `<dy, attention>` along any direction is given by the gradient formulas. -/
theorem attention_hasDerivAt (B Ck Cv Hi Wi Ho Wo : ℕ) (w : ℕ → ℝ) (nb : ℕ → ℕ → List (ℕ × ℕ)) (k v q dy δk δv δq : T4)
    (hnb : ∀ ho < Ho, ∀ wo < Wo, ∀ p ∈ nb ho wo, p.1 < Hi ∧ p.2 < Wi)
    (hZ : ∀ b < B, ∀ ho < Ho, ∀ wo < Wo, ((nb ho wo).map fun p => w p.1 * Real.exp (score Ck k q b ho wo p)).sum ≠ 0) :
    HasDerivAt (fun t : ℝ => inner4 B Cv Ho Wo dy (attention Ck w nb (fun b c h x => k b c h x + t * δk b c h x)
        (fun b c h x => v b c h x + t * δv b c h x) (fun b c h x => q b c h x + t * δq b c h x)))
      (inner4 B Ck Hi Wi (gradK Ck Cv w nb Ho Wo k v q dy) δk + inner4 B Cv Hi Wi (gradV Ck w nb Ho Wo k q dy) δv
        + inner4 B Ck Ho Wo (gradQ Ck Cv w nb k v q dy) δq) 0 := by
  -- the derivative of the score
  let s' : ℕ → ℕ → ℕ → ℕ × ℕ → ℝ := fun b ho wo p =>
    ∑ c ∈ range Ck, (δq b c ho wo * k b c p.1 p.2 + q b c ho wo * δk b c p.1 p.2)
  have hlin : ∀ a δ : ℝ, HasDerivAt (fun t : ℝ => a + t * δ) δ 0 := fun a δ => by
    simpa using ((hasDerivAt_id (0 : ℝ)).mul_const δ).const_add a
  have hs : ∀ b ho wo p, HasDerivAt (fun t : ℝ => score Ck (fun b c h x => k b c h x + t * δk b c h x)
      (fun b c h x => q b c h x + t * δq b c h x) b ho wo p) (s' b ho wo p) 0 := by
    intro b ho wo p
    unfold score
    refine HasDerivAt.fun_sum fun c _ => ?_
    have := (hlin (q b c ho wo) (δq b c ho wo)).fun_mul (hlin (k b c p.1 p.2) (δk b c p.1 p.2))
    simpa using this
  have hcell : ∀ b < B, ∀ c, ∀ ho < Ho, ∀ wo < Wo,
      HasDerivAt (fun t : ℝ => attention Ck w nb (fun b c h x => k b c h x + t * δk b c h x)
        (fun b c h x => v b c h x + t * δv b c h x) (fun b c h x => q b c h x + t * δq b c h x) b c ho wo)
      (((nb ho wo).map fun p => prob Ck w nb k q b ho wo p * (δv b c p.1 p.2 + (v b c p.1 p.2
        - attention Ck w nb k v q b c ho wo) * s' b ho wo p)).sum) 0 := by
    intro b hb c ho hho wo hwo
    have h := hasDerivAt_softAvg (nb ho wo) (fun p => w p.1)
      (fun p t => score Ck (fun b c h x => k b c h x + t * δk b c h x) (fun b c h x => q b c h x + t * δq b c h x) b ho wo p)
      (fun p t => v b c p.1 p.2 + t * δv b c p.1 p.2) (s' b ho wo) (fun p => δv b c p.1 p.2) 0
      (fun p _ => hs b ho wo p) (fun p _ => hlin _ _) (by simpa using hZ b hb ho hho wo hwo)
    simpa [prob, attention] using h
  have hall : HasDerivAt (fun t : ℝ => inner4 B Cv Ho Wo dy (attention Ck w nb (fun b c h x => k b c h x + t * δk b c h x)
        (fun b c h x => v b c h x + t * δv b c h x) (fun b c h x => q b c h x + t * δq b c h x)))
      (∑ b ∈ range B, ∑ c ∈ range Cv, ∑ ho ∈ range Ho, ∑ wo ∈ range Wo, dy b c ho wo *
        ((nb ho wo).map fun p => prob Ck w nb k q b ho wo p * (δv b c p.1 p.2 + (v b c p.1 p.2
        - attention Ck w nb k v q b c ho wo) * s' b ho wo p)).sum) 0 := by
    unfold inner4
    refine HasDerivAt.fun_sum fun b hb => HasDerivAt.fun_sum fun c _ => HasDerivAt.fun_sum fun ho hho =>
      HasDerivAt.fun_sum fun wo hwo => ?_
    exact (hcell b (Finset.mem_range.1 hb) c ho (Finset.mem_range.1 hho) wo (Finset.mem_range.1 hwo)).const_mul _
  refine hall.congr_deriv ?_
  -- one cell, all channels
  have hcellsum : ∀ b ho wo, ∑ c ∈ range Cv, dy b c ho wo *
        ((nb ho wo).map fun p => prob Ck w nb k q b ho wo p * (δv b c p.1 p.2 + (v b c p.1 p.2
        - attention Ck w nb k v q b c ho wo) * s' b ho wo p)).sum
      = (∑ c ∈ range Ck, ((nb ho wo).map fun p => q b c ho wo * prob Ck w nb k q b ho wo p *
          (gdot Cv v dy b ho wo p - gbar Ck Cv w nb k v q dy b ho wo) * δk b c p.1 p.2).sum)
        + (∑ c ∈ range Cv, ((nb ho wo).map fun p => prob Ck w nb k q b ho wo p * dy b c ho wo * δv b c p.1 p.2).sum)
        + ∑ c ∈ range Ck, gradQ Ck Cv w nb k v q dy b c ho wo * δq b c ho wo := by
    intro b ho wo
    have hbar : ∑ c ∈ range Cv, dy b c ho wo * attention Ck w nb k v q b c ho wo = gbar Ck Cv w nb k v q dy b ho wo := by
      unfold gbar gdot attention softAvg prob
      simp only [Finset.mul_sum]
      rw [list_finset_comm]
      refine Finset.sum_congr rfl fun c _ => ?_
      rw [← mul_div_assoc, div_eq_mul_inv, ← list_sum_mul_left, ← list_sum_mul_right]
      refine list_sum_congr fun p _ => ?_
      ring
    simp only [gradQ, ← list_sum_mul_left, ← list_sum_mul_right]
    rw [← list_finset_comm, ← list_finset_comm, ← list_finset_comm, ← list_finset_comm, ← list_sum_add, ← list_sum_add]
    refine list_sum_congr fun p _ => ?_
    have e1 : ∑ c ∈ range Cv, dy b c ho wo * (prob Ck w nb k q b ho wo p * (δv b c p.1 p.2 + (v b c p.1 p.2
        - attention Ck w nb k v q b c ho wo) * s' b ho wo p))
        = prob Ck w nb k q b ho wo p * (∑ c ∈ range Cv, dy b c ho wo * δv b c p.1 p.2)
          + prob Ck w nb k q b ho wo p * (gdot Cv v dy b ho wo p - gbar Ck Cv w nb k v q dy b ho wo) * s' b ho wo p := by
      rw [← hbar]
      unfold gdot
      generalize s' b ho wo p = S
      rw [Finset.mul_sum, ← Finset.sum_sub_distrib, Finset.mul_sum, Finset.sum_mul, ← Finset.sum_add_distrib]
      refine Finset.sum_congr rfl fun c _ => ?_
      ring
    rw [e1, Finset.mul_sum, Finset.mul_sum, add_comm, add_right_comm, ← Finset.sum_add_distrib]
    congr 1
    · refine Finset.sum_congr rfl fun c _ => ?_
      ring
    · refine Finset.sum_congr rfl fun c _ => ?_
      ring
  have key : ∀ b, ∑ c ∈ range Cv, ∑ ho ∈ range Ho, ∑ wo ∈ range Wo, dy b c ho wo *
        ((nb ho wo).map fun p => prob Ck w nb k q b ho wo p * (δv b c p.1 p.2 + (v b c p.1 p.2
        - attention Ck w nb k v q b c ho wo) * s' b ho wo p)).sum
      = ∑ ho ∈ range Ho, ∑ wo ∈ range Wo, ((∑ c ∈ range Ck, ((nb ho wo).map fun p => q b c ho wo * prob Ck w nb k q b ho wo p *
          (gdot Cv v dy b ho wo p - gbar Ck Cv w nb k v q dy b ho wo) * δk b c p.1 p.2).sum)
        + (∑ c ∈ range Cv, ((nb ho wo).map fun p => prob Ck w nb k q b ho wo p * dy b c ho wo * δv b c p.1 p.2).sum)
        + ∑ c ∈ range Ck, gradQ Ck Cv w nb k v q dy b c ho wo * δq b c ho wo) := by
    intro b
    rw [Finset.sum_comm]
    refine Finset.sum_congr rfl fun ho _ => ?_
    rw [Finset.sum_comm]
    exact Finset.sum_congr rfl fun wo _ => hcellsum b ho wo
  unfold inner4
  rw [← Finset.sum_add_distrib, ← Finset.sum_add_distrib]
  refine Finset.sum_congr rfl fun b _ => ?_
  rw [key b]
  simp only [Finset.sum_add_distrib]
  congr 1
  · congr 1
    · -- keys
      have : ∀ ho ∈ range Ho, ∀ wo ∈ range Wo, (∑ c ∈ range Ck, ((nb ho wo).map fun p => q b c ho wo * prob Ck w nb k q b ho wo p *
          (gdot Cv v dy b ho wo p - gbar Ck Cv w nb k v q dy b ho wo) * δk b c p.1 p.2).sum)
          = ∑ c ∈ range Ck, ∑ h ∈ range Hi, ∑ x ∈ range Wi, ((nb ho wo).map fun p => if p = (h, x) then
            q b c ho wo * prob Ck w nb k q b ho wo p * (gdot Cv v dy b ho wo p - gbar Ck Cv w nb k v q dy b ho wo)
            else 0).sum * δk b c h x := by
        intro ho hho wo hwo
        refine Finset.sum_congr rfl fun c _ => ?_
        exact sum_group Hi Wi (nb ho wo) (hnb ho (Finset.mem_range.1 hho) wo (Finset.mem_range.1 hwo)) _
          (fun p => δk b c p.1 p.2)
      rw [Finset.sum_congr rfl fun ho hho => Finset.sum_congr rfl fun wo hwo => this ho hho wo hwo]
      unfold gradK
      simp only [Finset.sum_mul]
      rw [Finset.sum_congr rfl fun ho _ => Finset.sum_comm, Finset.sum_comm]
      refine Finset.sum_congr rfl fun c _ => ?_
      rw [Finset.sum_congr rfl fun ho _ => Finset.sum_comm, Finset.sum_comm]
      refine Finset.sum_congr rfl fun h _ => ?_
      rw [Finset.sum_congr rfl fun ho _ => Finset.sum_comm, Finset.sum_comm]
    · have : ∀ ho ∈ range Ho, ∀ wo ∈ range Wo, (∑ c ∈ range Cv, ((nb ho wo).map fun p => prob Ck w nb k q b ho wo p *
          dy b c ho wo * δv b c p.1 p.2).sum)
          = ∑ c ∈ range Cv, ∑ h ∈ range Hi, ∑ x ∈ range Wi, ((nb ho wo).map fun p => if p = (h, x) then
            prob Ck w nb k q b ho wo p * dy b c ho wo else 0).sum * δv b c h x := by
        intro ho hho wo hwo
        refine Finset.sum_congr rfl fun c _ => ?_
        exact sum_group Hi Wi (nb ho wo) (hnb ho (Finset.mem_range.1 hho) wo (Finset.mem_range.1 hwo)) _
          (fun p => δv b c p.1 p.2)
      rw [Finset.sum_congr rfl fun ho hho => Finset.sum_congr rfl fun wo hwo => this ho hho wo hwo]
      unfold gradV
      simp only [Finset.sum_mul]
      rw [Finset.sum_congr rfl fun ho _ => Finset.sum_comm, Finset.sum_comm]
      refine Finset.sum_congr rfl fun c _ => ?_
      rw [Finset.sum_congr rfl fun ho _ => Finset.sum_comm, Finset.sum_comm]
      refine Finset.sum_congr rfl fun h _ => ?_
      rw [Finset.sum_congr rfl fun ho _ => Finset.sum_comm, Finset.sum_comm]
  · rw [Finset.sum_congr rfl fun ho _ => Finset.sum_comm, Finset.sum_comm]

end Verif.Attn
