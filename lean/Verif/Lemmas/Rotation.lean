import Verif.Spec.Rotation
import Verif.Lemmas.Legendre
import Mathlib.Analysis.SpecialFunctions.Exponential
import Mathlib.Analysis.Calculus.MeanValue
import Mathlib.Analysis.Calculus.FDeriv.CompCLM
import Mathlib.Analysis.SpecialFunctions.Trigonometric.Deriv
import Mathlib.Analysis.SpecialFunctions.Complex.Circle
/-!
The spherical harmonics of one degree span a space that rotations leave invariant.
-/
namespace Verif.Rot
open Verif.Spec Verif.Leg Finset Polynomial

/-- `x + i y`. -/
noncomputable def zeta (p : Fin 3 → ℝ) : ℂ := ⟨p 0, p 1⟩

/-- The harmonic of degree `l` and order `m` without normalisation, as a function of the point. -/
noncomputable def harm (l m : ℕ) (p : Fin 3 → ℝ) : ℂ := ((legendreDeriv l m).eval (p 2) : ℝ) * zeta p ^ m

/-- `sqrt((l - m)(l + m + 1))`. -/
noncomputable def lad (l m : ℕ) : ℝ := Real.sqrt (((l : ℝ) - m) * (l + m + 1))

theorem lad_top (l : ℕ) : lad l l = 0 := by simp [lad]

theorem lad_sq (l m : ℕ) (h : m ≤ l) : lad l m ^ 2 = ((l : ℝ) - m) * (l + m + 1) := by
  unfold lad
  rw [Real.sq_sqrt]
  have : (m : ℝ) ≤ l := by exact_mod_cast h
  exact mul_nonneg (by linarith) (by positivity)

theorem lad_pos (l m : ℕ) (h : m < l) : 0 < lad l m := by
  unfold lad
  have : (m : ℝ) < l := by exact_mod_cast h
  exact Real.sqrt_pos.2 (mul_pos (by linarith) (by positivity))

theorem norm_ladder (l m : ℕ) (h : m < l) : legendreNorm l m = lad l m * legendreNorm l (m + 1) := by
  unfold legendreNorm lad
  have hm : (m : ℝ) < l := by exact_mod_cast h
  have h1 : ((l - m).factorial : ℝ) = ((l : ℝ) - m) * ((l - (m + 1)).factorial : ℝ) := by
    rw [show l - m = (l - (m + 1)) + 1 by omega, Nat.factorial_succ]
    push_cast [Nat.cast_sub (show m + 1 ≤ l by omega)]
    ring
  have h2 : ((l + (m + 1)).factorial : ℝ) = ((l : ℝ) + m + 1) * ((l + m).factorial : ℝ) := by
    rw [show l + (m + 1) = (l + m) + 1 by omega, Nat.factorial_succ]
    push_cast
    ring
  have p1 : (0 : ℝ) < (l - (m + 1)).factorial := by exact_mod_cast Nat.factorial_pos _
  have p2 : (0 : ℝ) < (l + m).factorial := by exact_mod_cast Nat.factorial_pos _
  have p3 : (0 : ℝ) < (l : ℝ) - m := by linarith
  have p4 : (0 : ℝ) < (l : ℝ) + m + 1 := by positivity
  rw [h1, h2]
  have e : Real.sqrt (((l : ℝ) - m) * ((l - (m + 1)).factorial : ℝ) / ((l + m).factorial : ℝ))
      = Real.sqrt (((l : ℝ) - m) * (l + m + 1)) * Real.sqrt (((l - (m + 1)).factorial : ℝ) / (((l : ℝ) + m + 1) * ((l + m).factorial : ℝ))) := by
    rw [← Real.sqrt_mul (by positivity)]
    congr 1
    field_simp
  rw [e]
  ring

/-- The orthonormal harmonic, without sign. -/
noncomputable def oharm (l m : ℕ) (p : Fin 3 → ℝ) : ℂ := (legendreNorm l m : ℝ) * harm l m p

/-- Multiplicity of an order in a real series. -/
def mult (m : ℕ) : ℝ := if m = 0 then 1 else 2

/-- The field of degree `l` with the coefficients `u`. -/
noncomputable def degField (l : ℕ) (u : ℕ → ℂ) (p : Fin 3 → ℝ) : ℝ := ∑ m ∈ range (l + 1), mult m * (u m * oharm l m p).re

/-- Its energy. -/
noncomputable def power (l : ℕ) (u : ℕ → ℂ) : ℝ := (u 0).re ^ 2 + 2 * ∑ m ∈ range l, ‖u (m + 1)‖ ^ 2

def OnSphere (p : Fin 3 → ℝ) : Prop := p 0 ^ 2 + p 1 ^ 2 + p 2 ^ 2 = 1

/-- A map of the sphere to itself under which the fields of each degree stay fields of that degree with the same energy. -/
def Isotypic (T : (Fin 3 → ℝ) → (Fin 3 → ℝ)) : Prop :=
  (∀ p, OnSphere p → OnSphere (T p)) ∧
    ∀ l u, ∃ u' : ℕ → ℂ, power l u' = power l u ∧ ∀ p, OnSphere p → degField l u (T p) = degField l u' p

theorem Isotypic.comp {S T : (Fin 3 → ℝ) → (Fin 3 → ℝ)} (hS : Isotypic S) (hT : Isotypic T) : Isotypic (fun p => S (T p)) := by
  refine ⟨fun p hp => hS.1 _ (hT.1 _ hp), fun l u => ?_⟩
  obtain ⟨u', h1, h2⟩ := hS.2 l u
  obtain ⟨u'', h3, h4⟩ := hT.2 l u'
  exact ⟨u'', h3.trans h1, fun p hp => by rw [h2 _ (hT.1 _ hp), h4 _ hp]⟩

/-! ### Rotation about the polar axis, and the reflection -/

noncomputable def rotZ (a : ℝ) (p : Fin 3 → ℝ) : Fin 3 → ℝ := ![Real.cos a * p 0 - Real.sin a * p 1, Real.sin a * p 0 + Real.cos a * p 1, p 2]

theorem zeta_rotZ (a : ℝ) (p : Fin 3 → ℝ) : zeta (rotZ a p) = Complex.exp (a * Complex.I) * zeta p := by
  apply Complex.ext
  · simp [zeta, rotZ, Complex.exp_ofReal_mul_I_re, Complex.exp_ofReal_mul_I_im]
  · simp [zeta, rotZ, Complex.exp_ofReal_mul_I_re, Complex.exp_ofReal_mul_I_im]
    ring

theorem isotypic_rotZ (a : ℝ) : Isotypic (rotZ a) := by
  refine ⟨fun p hp => ?_, fun l u => ⟨fun m => u m * Complex.exp (a * Complex.I) ^ m, ?_, fun p _ => ?_⟩⟩
  · unfold OnSphere at *
    simp only [rotZ, Matrix.cons_val_zero, Matrix.cons_val_one, Matrix.cons_val]
    linear_combination hp + (p 0 ^ 2 + p 1 ^ 2) * Real.sin_sq_add_cos_sq a
  · unfold power
    simp [Complex.norm_exp_ofReal_mul_I]
  · unfold degField
    refine sum_congr rfl fun m _ => ?_
    congr 2
    unfold oharm harm
    rw [zeta_rotZ, mul_pow]
    simp only [rotZ, Matrix.cons_val]
    ring

noncomputable def reflY (p : Fin 3 → ℝ) : Fin 3 → ℝ := ![p 0, -p 1, p 2]

theorem isotypic_reflY : Isotypic reflY := by
  refine ⟨fun p hp => ?_, fun l u => ⟨fun m => (starRingEnd ℂ) (u m), ?_, fun p _ => ?_⟩⟩
  · unfold OnSphere at *
    simp only [reflY, Matrix.cons_val_zero, Matrix.cons_val_one, Matrix.cons_val]
    linear_combination hp
  · unfold power
    simp
  · unfold degField
    refine sum_congr rfl fun m _ => ?_
    congr 1
    have h1 : zeta (reflY p) = (starRingEnd ℂ) (zeta p) := by
      apply Complex.ext <;> simp [zeta, reflY]
    have h2 : oharm l m (reflY p) = (starRingEnd ℂ) (oharm l m p) := by
      unfold oharm harm
      rw [h1]
      simp [reflY]
    rw [h2]
    simp

/-! ### Rotation about the second axis -/

noncomputable def rotY (b : ℝ) (p : Fin 3 → ℝ) : Fin 3 → ℝ := ![Real.cos b * p 0 + Real.sin b * p 2, p 1, -Real.sin b * p 0 + Real.cos b * p 2]

theorem onSphere_rotY (b : ℝ) (p : Fin 3 → ℝ) (hp : OnSphere p) : OnSphere (rotY b p) := by
  unfold OnSphere at *
  simp only [rotY, Matrix.cons_val_zero, Matrix.cons_val_one, Matrix.cons_val]
  linear_combination hp + (p 0 ^ 2 + p 2 ^ 2) * Real.sin_sq_add_cos_sq b

/-- The ladder operators: the derivative of the normalised harmonics along the rotation. `v m` stands for the harmonic of order `m`. -/
noncomputable def ladder (l : ℕ) (v : ℕ → ℂ) : ℕ → ℂ
  | 0 => ((-(lad l 0 * (v 1).re) : ℝ) : ℂ)
  | m + 1 => (1 / 2 : ℂ) * (-(lad l (m + 1) : ℂ) * v (m + 2) + (lad l m : ℂ) * v m)

theorem harm_ladder (l : ℕ) (p : Fin 3 → ℝ) (hp : OnSphere p) (m : ℕ) :
    ((m + 1 : ℕ) : ℂ) * p 2 * ((legendreDeriv l (m + 1)).eval (p 2) : ℝ) * zeta p ^ m - p 0 * ((legendreDeriv l (m + 2)).eval (p 2) : ℝ) * zeta p ^ (m + 1)
      = (1 / 2 : ℂ) * (-harm l (m + 2) p + (((l : ℝ) - m) * (l + m + 1) : ℝ) * harm l m p) := by
  have hode := congrArg (eval (p 2)) (ode l m)
  simp only [eval_add, eval_sub, eval_mul, eval_one, eval_pow, eval_X, eval_ofNat, eval_natCast, eval_zero] at hode
  have hodeC : (1 - (p 2 : ℂ) ^ 2) * ((legendreDeriv l (m + 2)).eval (p 2) : ℝ) - 2 * ((m : ℂ) + 1) * p 2 * ((legendreDeriv l (m + 1)).eval (p 2) : ℝ)
      + ((l : ℂ) - m) * (l + m + 1) * ((legendreDeriv l m).eval (p 2) : ℝ) = 0 := by exact_mod_cast hode
  have hz : zeta p = p 0 + p 1 * Complex.I := by apply Complex.ext <;> simp [zeta]
  have hs : (p 0 : ℂ) ^ 2 + (p 1 : ℂ) ^ 2 + (p 2 : ℂ) ^ 2 = 1 := by exact_mod_cast hp
  -- zeta * conj zeta = 1 - z^2
  have hq : 2 * (p 0 : ℂ) * zeta p = zeta p ^ 2 + (1 - (p 2 : ℂ) ^ 2) := by
    rw [hz]
    have := Complex.I_sq
    linear_combination (-(p 1 : ℂ) ^ 2) * this + hs
  unfold harm
  push_cast
  rw [pow_add (zeta p) m 2, pow_succ (zeta p) m]
  linear_combination (-(1 / 2 : ℂ) * zeta p ^ m) * hodeC - (1 / 2 : ℂ) * ((legendreDeriv l (m + 2)).eval (p 2) : ℝ) * zeta p ^ m * hq

theorem oharm_zero_im (l : ℕ) (p : Fin 3 → ℝ) : (oharm l 0 p).im = 0 := by simp [oharm, harm]

theorem oharm_top (l : ℕ) (p : Fin 3 → ℝ) : oharm l (l + 1) p = 0 := by
  unfold oharm harm
  rw [Q_zero l (l + 1) (by omega)]
  simp

theorem hasDerivAt_harm (l m : ℕ) (p : Fin 3 → ℝ) (t : ℝ) : HasDerivAt (fun t => harm l m (rotY t p))
    (-(rotY t p 0 : ℂ) * ((legendreDeriv l (m + 1)).eval (rotY t p 2) : ℝ) * zeta (rotY t p) ^ m
      + ((legendreDeriv l m).eval (rotY t p 2) : ℝ) * (m * zeta (rotY t p) ^ (m - 1) * (rotY t p 2 : ℂ))) t := by
  have hz2 : HasDerivAt (fun t => rotY t p 2) (-rotY t p 0) t := by
    have := (((Real.hasDerivAt_sin t).neg.mul_const (p 0)).add ((Real.hasDerivAt_cos t).mul_const (p 2)))
    refine this.congr_deriv ?_
    simp only [rotY, Matrix.cons_val_zero]
    ring
  have hx : HasDerivAt (fun t => rotY t p 0) (rotY t p 2) t := by
    have := (((Real.hasDerivAt_cos t).mul_const (p 0)).add ((Real.hasDerivAt_sin t).mul_const (p 2)))
    refine this.congr_deriv ?_
    simp only [rotY, Matrix.cons_val]
  have hq : HasDerivAt (fun t => (((legendreDeriv l m).eval (rotY t p 2) : ℝ) : ℂ)) (((legendreDeriv l (m + 1)).eval (rotY t p 2) * -rotY t p 0 : ℝ) : ℂ) t := by
    have := ((legendreDeriv l m).hasDerivAt (rotY t p 2)).comp t hz2
    rw [deriv_Q] at this
    exact this.ofReal_comp
  have hzeta : HasDerivAt (fun t => zeta (rotY t p)) (rotY t p 2 : ℂ) t := by
    have h1 : (fun t => zeta (rotY t p)) = fun t => (rotY t p 0 : ℂ) + p 1 * Complex.I := by
      funext t
      have h1 : rotY t p 1 = p 1 := by simp [rotY]
      unfold zeta
      rw [h1]
      apply Complex.ext <;> simp
    rw [h1]
    exact hx.ofReal_comp.add_const _
  have := hq.mul (hzeta.pow m)
  refine this.congr_deriv ?_
  push_cast
  simp only [Pi.pow_apply]
  ring

theorem hasDerivAt_oharm (l m : ℕ) (hm : m ≤ l) (p : Fin 3 → ℝ) (hp : OnSphere p) (t : ℝ) :
    HasDerivAt (fun t => oharm l m (rotY t p)) (ladder l (fun m => oharm l m (rotY t p)) m) t := by
  have h := (hasDerivAt_harm l m p t).const_mul ((legendreNorm l m : ℝ) : ℂ)
  refine h.congr_deriv ?_
  have hq := onSphere_rotY t p hp
  generalize rotY t p = q at *
  cases m with
  | zero =>
    unfold ladder oharm harm
    by_cases hl : l = 0
    · subst hl
      rw [Q_zero 0 (0 + 1) (by omega), lad_top]
      simp
    · have hn := norm_ladder l 0 (by omega)
      have e : zeta q = q 0 + q 1 * Complex.I := by apply Complex.ext <;> simp [zeta]
      rw [hn]
      apply Complex.ext
      · simp [zeta]
        ring
      · simp [zeta]
  | succ m =>
    have hl := harm_ladder l q hq m
    have hn := norm_ladder l m (by omega)
    have hsq := lad_sq l m (by omega)
    have h2 : ((legendreNorm l (m + 1) : ℝ) : ℂ) * harm l (m + 2) q = (lad l (m + 1) : ℂ) * oharm l (m + 2) q := by
      by_cases hml : m + 1 = l
      · subst hml
        rw [lad_top]
        unfold harm
        rw [Q_zero (m + 1) (m + 2) (by omega)]
        simp
      · have hn2 := norm_ladder l (m + 1) (by omega)
        rw [hn2]
        unfold oharm
        push_cast
        ring
    have h3 : (lad l m : ℂ) * oharm l m q = ((legendreNorm l (m + 1) : ℝ) : ℂ) * ((((l : ℝ) - m) * (l + m + 1) : ℝ) : ℂ) * harm l m q := by
      rw [← hsq]
      unfold oharm
      rw [hn]
      push_cast
      ring
    unfold ladder
    dsimp only
    rw [Nat.add_sub_cancel]
    linear_combination ((legendreNorm l (m + 1) : ℝ) : ℂ) * hl - (1 / 2 : ℂ) * h2 * (-1) * (-1) - (1 / 2 : ℂ) * h3

/-- The real part at order 0. -/
noncomputable def tame (v : ℕ → ℂ) (m : ℕ) : ℂ := if m = 0 then ((v 0).re : ℂ) else v m

/-- The action on coefficients: the adjoint of `ladder`. -/
noncomputable def coLadder (l : ℕ) (v : ℕ → ℂ) : ℕ → ℂ
  | 0 => ((lad l 0 * (v 1).re : ℝ) : ℂ)
  | m + 1 => (1 / 2 : ℂ) * (-(lad l m : ℂ) * tame v m + (lad l (m + 1) : ℂ) * v (m + 2))

theorem adjoint_partial (l : ℕ) (u v : ℕ → ℂ) (hv : (v 0).im = 0) (n : ℕ) :
    ∑ m ∈ range (n + 1), mult m * (coLadder l u m * v m).re - ∑ m ∈ range (n + 1), mult m * (u m * ladder l v m).re
      = lad l n * ((u (n + 1) * v n).re + (tame u n * v (n + 1)).re) := by
  induction n with
  | zero =>
    simp [mult, coLadder, ladder, tame, hv]
    ring
  | succ n ih =>
    rw [sum_range_succ, sum_range_succ (fun m => mult m * (u m * ladder l v m).re)]
    have e : mult (n + 1) * (coLadder l u (n + 1) * v (n + 1)).re - mult (n + 1) * (u (n + 1) * ladder l v (n + 1)).re
        = lad l (n + 1) * ((u (n + 2) * v (n + 1)).re + (tame u (n + 1) * v (n + 2)).re)
          - lad l n * ((u (n + 1) * v n).re + (tame u n * v (n + 1)).re) := by
      have ht : tame u (n + 1) = u (n + 1) := by simp [tame]
      rw [ht]
      simp only [mult, coLadder, ladder, if_neg (Nat.succ_ne_zero n)]
      simp only [Complex.mul_re, Complex.mul_im, Complex.add_re, Complex.add_im, Complex.neg_re, Complex.neg_im, Complex.ofReal_re, Complex.ofReal_im,
        show (1 / 2 : ℂ) = ((1 / 2 : ℝ) : ℂ) by push_cast; rfl]
      ring
    linear_combination ih + e

theorem energy_partial (l : ℕ) (u : ℕ → ℂ) (n : ℕ) :
    ∑ m ∈ range (n + 1), mult m * (coLadder l u m * (starRingEnd ℂ) (tame u m)).re = lad l n * (u (n + 1) * (starRingEnd ℂ) (tame u n)).re := by
  induction n with
  | zero =>
    simp [mult, coLadder, tame]
    ring
  | succ n ih =>
    rw [sum_range_succ, ih]
    have ht : tame u (n + 1) = u (n + 1) := by simp [tame]
    rw [ht]
    simp only [mult, coLadder, if_neg (Nat.succ_ne_zero n)]
    simp only [Complex.mul_re, Complex.mul_im, Complex.add_re, Complex.add_im, Complex.neg_re, Complex.neg_im, Complex.ofReal_re, Complex.ofReal_im, Complex.conj_re, Complex.conj_im,
      show (1 / 2 : ℂ) = ((1 / 2 : ℝ) : ℂ) by push_cast; rfl]
    ring

/-! ### The flow on the coefficients -/

/-- A vector of coefficients as a sequence. -/
noncomputable def ex (l : ℕ) (u : Fin (l + 1) → ℂ) (m : ℕ) : ℂ := if h : m < l + 1 then u ⟨m, h⟩ else 0

noncomputable def genL (l : ℕ) : (Fin (l + 1) → ℂ) →ₗ[ℝ] (Fin (l + 1) → ℂ) where
  toFun u m := coLadder l (ex l u) m
  map_add' u v := by
    have he : ∀ m, ex l (u + v) m = ex l u m + ex l v m := by intro m; unfold ex; split_ifs <;> simp
    have ht : ∀ m, tame (ex l (u + v)) m = tame (ex l u) m + tame (ex l v) m := by
      intro m; unfold tame; split_ifs <;> simp [he]
    funext ⟨m, hm⟩
    cases m with
    | zero => simp [coLadder, he]; ring
    | succ m => simp [coLadder, he, ht]; ring
  map_smul' r u := by
    have he : ∀ m, ex l (r • u) m = r * ex l u m := by intro m; unfold ex; split_ifs <;> simp
    have ht : ∀ m, tame (ex l (r • u)) m = r * tame (ex l u) m := by
      intro m; unfold tame; split_ifs <;> simp [he]
    funext ⟨m, hm⟩
    cases m with
    | zero => simp [coLadder, he]; ring
    | succ m => simp [coLadder, he, ht]; ring

noncomputable def gen (l : ℕ) : (Fin (l + 1) → ℂ) →L[ℝ] (Fin (l + 1) → ℂ) := LinearMap.toContinuousLinearMap (genL l)

noncomputable def flow (l : ℕ) (u : Fin (l + 1) → ℂ) (s : ℝ) : Fin (l + 1) → ℂ := NormedSpace.exp (s • gen l) u

theorem flow_zero (l : ℕ) (u : Fin (l + 1) → ℂ) : flow l u 0 = u := by
  unfold flow
  have h : (0 : ℝ) • gen l = 0 := by
    apply ContinuousLinearMap.ext
    intro v
    rw [smul_apply]
    simp
  rw [h, NormedSpace.exp_zero]
  rfl

theorem hasDerivAt_flow (l : ℕ) (u : Fin (l + 1) → ℂ) (s : ℝ) : HasDerivAt (flow l u) (gen l (flow l u s)) s := by
  have h := hasDerivAt_exp_smul_const' (𝕂 := ℝ) (gen l) s
  have := h.clm_apply (hasDerivAt_const s u)
  refine this.congr_deriv ?_
  simp [flow]

theorem hasDerivAt_ex (l : ℕ) (u : Fin (l + 1) → ℂ) (s : ℝ) (m : ℕ) (hm : m < l + 1) :
    HasDerivAt (fun s => ex l (flow l u s) m) (coLadder l (ex l (flow l u s)) m) s := by
  have := (hasDerivAt_pi.1 (hasDerivAt_flow l u s)) ⟨m, hm⟩
  simp only [ex, dif_pos hm]
  exact this

theorem ex_top (l : ℕ) (u : Fin (l + 1) → ℂ) : ex l u (l + 1) = 0 := by simp [ex]

theorem isotypic_rotY (b : ℝ) : Isotypic (rotY b) := by
  refine ⟨fun p hp => onSphere_rotY b p hp, fun l u => ?_⟩
  set u0 : Fin (l + 1) → ℂ := fun m => u m with hu0
  have hex : ∀ m, m < l + 1 → ex l u0 m = u m := by intro m hm; simp [ex, hm, hu0]
  refine ⟨ex l (flow l u0 b), ?_, fun p hp => ?_⟩
  · have hpow : ∀ s, power l (ex l (flow l u0 s)) = ∑ m ∈ range (l + 1), mult m * ((tame (ex l (flow l u0 s)) m).re ^ 2 + (tame (ex l (flow l u0 s)) m).im ^ 2) := by
      intro s
      rw [sum_range_succ']
      unfold power
      rw [mul_sum, add_comm]
      congr 1
      · refine sum_congr rfl fun m _ => ?_
        simp only [mult, tame, if_neg (Nat.succ_ne_zero m)]
        rw [Complex.sq_norm, Complex.normSq_apply]
        ring
      · simp [mult, tame]
    have hd : ∀ s, HasDerivAt (fun s => power l (ex l (flow l u0 s))) 0 s := by
      intro s
      have h1 : ∀ m ∈ range (l + 1), HasDerivAt (fun s => mult m * ((tame (ex l (flow l u0 s)) m).re ^ 2 + (tame (ex l (flow l u0 s)) m).im ^ 2))
          (2 * (mult m * (coLadder l (ex l (flow l u0 s)) m * (starRingEnd ℂ) (tame (ex l (flow l u0 s)) m)).re)) s := by
        intro m hm
        have hdm := hasDerivAt_ex l u0 s m (mem_range.1 hm)
        have hre : HasDerivAt (fun s => (ex l (flow l u0 s) m).re) (coLadder l (ex l (flow l u0 s)) m).re s :=
          (Complex.reCLM.hasFDerivAt.comp_hasDerivAt s hdm)
        have him : HasDerivAt (fun s => (ex l (flow l u0 s) m).im) (coLadder l (ex l (flow l u0 s)) m).im s :=
          (Complex.imCLM.hasFDerivAt.comp_hasDerivAt s hdm)
        cases m with
        | zero =>
          have := ((hre.pow 2).const_mul (mult 0))
          have e : (fun s => mult 0 * ((tame (ex l (flow l u0 s)) 0).re ^ 2 + (tame (ex l (flow l u0 s)) 0).im ^ 2))
              = fun s => mult 0 * (ex l (flow l u0 s) 0).re ^ 2 := by
            funext s; simp [tame]
          rw [e]
          refine this.congr_deriv ?_
          simp [tame, coLadder]
          ring
        | succ m =>
          have := (((hre.pow 2).add (him.pow 2)).const_mul (mult (m + 1)))
          have e : (fun s => mult (m + 1) * ((tame (ex l (flow l u0 s)) (m + 1)).re ^ 2 + (tame (ex l (flow l u0 s)) (m + 1)).im ^ 2))
              = fun s => mult (m + 1) * ((ex l (flow l u0 s) (m + 1)).re ^ 2 + (ex l (flow l u0 s) (m + 1)).im ^ 2) := by
            funext s; simp [tame]
          rw [e]
          refine this.congr_deriv ?_
          simp [tame, Complex.mul_re]
          ring
      have h2 := HasDerivAt.fun_sum h1
      have h3 : (fun s => power l (ex l (flow l u0 s))) = fun s => ∑ m ∈ range (l + 1), mult m * ((tame (ex l (flow l u0 s)) m).re ^ 2 + (tame (ex l (flow l u0 s)) m).im ^ 2) :=
        funext hpow
      rw [h3]
      refine h2.congr_deriv ?_
      rw [← mul_sum, energy_partial, lad_top]
      ring
    have hc := is_const_of_deriv_eq_zero (fun s => (hd s).differentiableAt) (fun s => (hd s).deriv) b 0
    rw [hc, flow_zero]
    unfold power
    rw [hex 0 (by omega)]
    congr 2
    exact sum_congr rfl fun m hm => by rw [hex (m + 1) (by have := mem_range.1 hm; omega)]
  · have hd : ∀ s, HasDerivAt (fun s => ∑ m ∈ range (l + 1), mult m * (ex l (flow l u0 s) m * oharm l m (rotY (b - s) p)).re) 0 s := by
      intro s
      have h1 : ∀ m ∈ range (l + 1), HasDerivAt (fun s => mult m * (ex l (flow l u0 s) m * oharm l m (rotY (b - s) p)).re)
          (mult m * (coLadder l (ex l (flow l u0 s)) m * oharm l m (rotY (b - s) p)).re
            - mult m * (ex l (flow l u0 s) m * ladder l (fun m => oharm l m (rotY (b - s) p)) m).re) s := by
        intro m hm
        have hdm := hasDerivAt_ex l u0 s m (mem_range.1 hm)
        have hdo := (hasDerivAt_oharm l m (by have := mem_range.1 hm; omega) p hp (b - s)).scomp s ((hasDerivAt_id s).const_sub b)
        have := (Complex.reCLM.hasFDerivAt.comp_hasDerivAt s (hdm.mul hdo)).const_mul (mult m)
        refine this.congr_deriv ?_
        simp
        ring
      have h2 := HasDerivAt.fun_sum h1
      refine h2.congr_deriv ?_
      rw [sum_sub_distrib, adjoint_partial l _ _ (oharm_zero_im l _), lad_top, zero_mul]
    have hc := is_const_of_deriv_eq_zero (fun s => (hd s).differentiableAt) (fun s => (hd s).deriv) 0 b
    simp only [sub_zero, sub_self, flow_zero] at hc
    have hr : rotY 0 p = p := by
      funext i
      fin_cases i <;> simp [rotY]
    rw [hr] at hc
    unfold degField
    rw [← hc]
    exact sum_congr rfl fun m hm => by rw [hex m (mem_range.1 hm)]

/-! ### All rotations and reflections -/

theorem onSphere_point (th ph : ℝ) : OnSphere (spherePoint th ph) := by
  unfold OnSphere spherePoint
  simp only [Matrix.cons_val_zero, Matrix.cons_val_one, Matrix.cons_val]
  linear_combination Real.sin th ^ 2 * Real.sin_sq_add_cos_sq ph + Real.sin_sq_add_cos_sq th

/-- A point of the circle. -/
theorem circle_angle (a b r : ℝ) (h : a ^ 2 + b ^ 2 = r ^ 2) (hr : 0 ≤ r) : ∃ t : ℝ, a = r * Real.cos t ∧ b = r * Real.sin t := by
  have hn : ‖(⟨a, b⟩ : ℂ)‖ = r := by
    have h2 : ‖(⟨a, b⟩ : ℂ)‖ ^ 2 = r ^ 2 := by
      rw [Complex.sq_norm, Complex.normSq_mk]
      linarith
    exact (sq_eq_sq₀ (norm_nonneg _) hr).1 h2
  refine ⟨Complex.arg ⟨a, b⟩, ?_, ?_⟩
  · have := Complex.norm_mul_cos_arg (⟨a, b⟩ : ℂ)
    rw [hn] at this
    exact this.symm
  · have := Complex.norm_mul_sin_arg (⟨a, b⟩ : ℂ)
    rw [hn] at this
    exact this.symm

theorem exists_point (p : Fin 3 → ℝ) (hp : OnSphere p) : ∃ th ph, p = spherePoint th ph := by
  unfold OnSphere at hp
  have h1 : -1 ≤ p 2 := by nlinarith [sq_nonneg (p 0), sq_nonneg (p 1)]
  have h2 : p 2 ≤ 1 := by nlinarith [sq_nonneg (p 0), sq_nonneg (p 1)]
  have hs : 0 ≤ Real.sin (Real.arccos (p 2)) := Real.sin_nonneg_of_nonneg_of_le_pi (Real.arccos_nonneg _) (Real.arccos_le_pi _)
  have hc : Real.cos (Real.arccos (p 2)) = p 2 := Real.cos_arccos h1 h2
  have hr : p 0 ^ 2 + p 1 ^ 2 = Real.sin (Real.arccos (p 2)) ^ 2 := by
    have := Real.sin_sq_add_cos_sq (Real.arccos (p 2))
    rw [hc] at this
    linarith
  obtain ⟨t, e0, e1⟩ := circle_angle _ _ _ hr hs
  refine ⟨Real.arccos (p 2), t, ?_⟩
  funext i
  fin_cases i
  · simpa [spherePoint] using e0
  · simpa [spherePoint] using e1
  · simp [spherePoint, hc]

noncomputable def matZ (a : ℝ) : Matrix (Fin 3) (Fin 3) ℝ := !![Real.cos a, -Real.sin a, 0; Real.sin a, Real.cos a, 0; 0, 0, 1]
noncomputable def matY (b : ℝ) : Matrix (Fin 3) (Fin 3) ℝ := !![Real.cos b, 0, Real.sin b; 0, 1, 0; -Real.sin b, 0, Real.cos b]

theorem matZ_mulVec (a : ℝ) (p : Fin 3 → ℝ) : (matZ a).mulVec p = rotZ a p := by
  funext i
  fin_cases i <;> simp [matZ, rotZ, Matrix.mulVec, dotProduct, Fin.sum_univ_three]
  ring

theorem matY_mulVec (b : ℝ) (p : Fin 3 → ℝ) : (matY b).mulVec p = rotY b p := by
  funext i
  fin_cases i <;> simp [matY, rotY, Matrix.mulVec, dotProduct, Fin.sum_univ_three]

theorem matZ_inv (a : ℝ) : matZ a * (matZ a).transpose = 1 := by
  have := Real.sin_sq_add_cos_sq a
  ext i j
  fin_cases i <;> fin_cases j <;> simp [matZ, Matrix.mul_apply, Fin.sum_univ_three] <;> nlinarith

theorem matY_inv (b : ℝ) : matY b * (matY b).transpose = 1 := by
  have := Real.sin_sq_add_cos_sq b
  ext i j
  fin_cases i <;> fin_cases j <;> simp [matY, Matrix.mul_apply, Fin.sum_univ_three] <;> nlinarith

/-- An orthogonal matrix that fixes the pole. -/
theorem isotypic_fix (N : Matrix (Fin 3) (Fin 3) ℝ) (h : N.transpose * N = 1) (h0 : N 0 2 = 0) (h1 : N 1 2 = 0) (h2 : N 2 2 = 1) :
    Isotypic N.mulVec := by
  have h' : N * N.transpose = 1 := mul_eq_one_comm.1 h
  have e : ∀ i j, N 0 i * N 0 j + N 1 i * N 1 j + N 2 i * N 2 j = if i = j then 1 else 0 := by
    intro i j
    have := congrFun (congrFun h i) j
    simpa [Matrix.mul_apply, Fin.sum_univ_three, Matrix.one_apply] using this
  have e' : N 2 0 ^ 2 + N 2 1 ^ 2 + N 2 2 ^ 2 = 1 := by
    have := congrFun (congrFun h' 2) 2
    simpa [Matrix.mul_apply, Fin.sum_univ_three, Matrix.one_apply, pow_two] using this
  rw [h2] at e'
  have z0 : N 2 0 = 0 := by nlinarith [sq_nonneg (N 2 0), sq_nonneg (N 2 1)]
  have z1 : N 2 1 = 0 := by nlinarith [sq_nonneg (N 2 0), sq_nonneg (N 2 1)]
  have e00 := e 0 0
  have e01 := e 0 1
  have e11 := e 1 1
  simp only [z0, z1, if_true, if_neg (show ¬ (0 : Fin 3) = 1 by decide)] at e00 e01 e11
  obtain ⟨t, c, s⟩ := circle_angle (N 0 0) (N 1 0) 1 (by linarith [e00]) zero_le_one
  rw [one_mul] at c s
  have hd : (N 0 0 * N 1 1 - N 1 0 * N 0 1) ^ 2 = 1 := by
    have : (N 0 0 * N 1 1 - N 1 0 * N 0 1) ^ 2 = (N 0 0 * N 0 0 + N 1 0 * N 1 0 + 0 * 0) * (N 0 1 * N 0 1 + N 1 1 * N 1 1 + 0 * 0)
        - (N 0 0 * N 0 1 + N 1 0 * N 1 1 + 0 * 0) ^ 2 := by ring
    rw [this, e00, e01, e11]
    norm_num
  set d := N 0 0 * N 1 1 - N 1 0 * N 0 1 with hdd
  have f01 : N 0 1 = -(N 1 0) * d := by
    rw [hdd]
    linear_combination -(N 0 1) * e00 + N 0 0 * e01
  have f11 : N 1 1 = N 0 0 * d := by
    rw [hdd]
    linear_combination -(N 1 1) * e00 + N 1 0 * e01
  have hcase : d = 1 ∨ d = -1 := by
    have : (d - 1) * (d + 1) = 0 := by linear_combination hd
    rcases mul_eq_zero.1 this with h | h
    · left; linarith
    · right; linarith
  rcases hcase with hd1 | hd1
  · have : N.mulVec = rotZ t := by
      funext p i
      fin_cases i
      · simp [rotZ, Matrix.mulVec, dotProduct, Fin.sum_univ_three, h0, f01, hd1, ← c, ← s]
        ring
      · simp [rotZ, Matrix.mulVec, dotProduct, Fin.sum_univ_three, h1, f11, hd1, ← c, ← s]
      · simp [rotZ, Matrix.mulVec, dotProduct, Fin.sum_univ_three, h2, z0, z1]
    rw [this]
    exact isotypic_rotZ t
  · have : N.mulVec = fun p => rotZ t (reflY p) := by
      funext p i
      fin_cases i
      · simp [rotZ, reflY, Matrix.mulVec, dotProduct, Fin.sum_univ_three, h0, f01, hd1, ← c, ← s]
      · simp [rotZ, reflY, Matrix.mulVec, dotProduct, Fin.sum_univ_three, h1, f11, hd1, ← c, ← s]
      · simp [rotZ, reflY, Matrix.mulVec, dotProduct, Fin.sum_univ_three, h2, z0, z1]
    rw [this]
    exact (isotypic_rotZ t).comp isotypic_reflY

/-- Every rotation and reflection. -/
theorem isotypic_orthogonal (R : Matrix (Fin 3) (Fin 3) ℝ) (h : Orthogonal R) : Isotypic R.mulVec := by
  unfold Orthogonal at h
  have e : R 0 2 ^ 2 + R 1 2 ^ 2 + R 2 2 ^ 2 = 1 := by
    have := congrFun (congrFun h 2) 2
    simpa [Matrix.mul_apply, Fin.sum_univ_three, Matrix.one_apply, pow_two] using this
  obtain ⟨th, ph, hp⟩ := exists_point (fun i => R i 2) e
  have q0 : R 0 2 = Real.sin th * Real.cos ph := by have := congrFun hp 0; simpa [spherePoint] using this
  have q1 : R 1 2 = Real.sin th * Real.sin ph := by have := congrFun hp 1; simpa [spherePoint] using this
  have q2 : R 2 2 = Real.cos th := by have := congrFun hp 2; simpa [spherePoint] using this
  set N := (matY th).transpose * ((matZ ph).transpose * R) with hN
  have hR : R = matZ ph * (matY th * N) := by
    rw [hN, ← Matrix.mul_assoc (matY th), matY_inv, Matrix.one_mul, ← Matrix.mul_assoc, matZ_inv, Matrix.one_mul]
  have hNN : N.transpose * N = 1 := by
    rw [hN]
    simp only [Matrix.transpose_mul, Matrix.transpose_transpose]
    calc R.transpose * matZ ph * matY th * ((matY th).transpose * ((matZ ph).transpose * R))
        = R.transpose * (matZ ph * ((matY th * (matY th).transpose) * (matZ ph).transpose)) * R := by simp only [Matrix.mul_assoc]
      _ = 1 := by rw [matY_inv, Matrix.one_mul, matZ_inv, Matrix.mul_one, h]
  have s1 := Real.sin_sq_add_cos_sq th
  have s2 := Real.sin_sq_add_cos_sq ph
  have hfix : Isotypic N.mulVec := by
    refine isotypic_fix N hNN ?_ ?_ ?_
    · simp [hN, matY, matZ, Matrix.mul_apply, Fin.sum_univ_three, q0, q1, q2]
      linear_combination (Real.cos th * Real.sin th) * s2
    · simp [hN, matY, matZ, Matrix.mul_apply, Fin.sum_univ_three, q0, q1, q2]
      ring
    · simp [hN, matY, matZ, Matrix.mul_apply, Fin.sum_univ_three, q0, q1, q2]
      linear_combination Real.sin th ^ 2 * s2 + s1
  have hcomp : R.mulVec = fun p => rotZ ph (rotY th (N.mulVec p)) := by
    funext p
    rw [← matY_mulVec, ← matZ_mulVec, Matrix.mulVec_mulVec, Matrix.mulVec_mulVec, Matrix.mul_assoc, ← hR]
  rw [hcomp]
  exact (isotypic_rotZ ph).comp ((isotypic_rotY th).comp hfix)

/-- The harmonics at the point with colatitude `th` and longitude `ph`. -/
theorem oharm_point (l m : ℕ) (hm : m ≤ l) (th ph : ℝ) :
    oharm l m (spherePoint th ph) = (legendreTheta l m th : ℝ) * Complex.exp (m * ph * Complex.I) := by
  have hz : zeta (spherePoint th ph) = (Real.sin th : ℝ) * Complex.exp (ph * Complex.I) := by
    apply Complex.ext
    · rw [Complex.re_ofReal_mul, Complex.exp_ofReal_mul_I_re]
      simp [zeta, spherePoint]
    · rw [Complex.im_ofReal_mul, Complex.exp_ofReal_mul_I_im]
      simp [zeta, spherePoint]
  unfold oharm harm legendreTheta
  rw [hz, if_pos hm, mul_pow, ← Complex.exp_nat_mul, ← mul_assoc ((m : ℕ) : ℂ)]
  have : spherePoint th ph 2 = Real.cos th := by simp [spherePoint]
  rw [this]
  push_cast
  ring

end Verif.Rot
