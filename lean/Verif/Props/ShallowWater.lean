import Verif.Props.VectorSHT
import Verif.Props.RandomFields
import Verif.Model.ShallowWater
import Mathlib.Algebra.Module.Pi
import Mathlib.Tactic.Module
/-!
Property theorems C22-C24 and C61: the shallow-water solver.
-/
namespace Verif.Props
open Verif Verif.Dist Verif.FFT Verif.Quad Verif.Legendre Verif.Truncation Verif.Spec Verif.SHT Finset

/-! ### C23: the multistep scheme, for any tendency -/

/-- The trajectory that C23 asks for: Euler, a first-order two-term start, then third-order Adams-Bashforth over the three most recent
states; the filter `h` is applied to every new state. -/
structure ABTrajectory {E : Type} [AddCommGroup E] [Module ℝ E] (f h : E → E) (dt : ℝ) (u0 : E) (u : ℕ → E) : Prop where
  start : u 0 = u0
  euler : u 1 = h (u 0 + dt • f (u 0))
  second : u 2 = h (u 1 + dt • (((28 : ℝ) / 12) • f (u 1) - ((16 : ℝ) / 12) • f (u 0)))
  ab3 : ∀ k, 2 ≤ k → u (k + 1) = h (u k + dt • (((23 : ℝ) / 12) • f (u k) - ((16 : ℝ) / 12) • f (u (k - 1)) + ((5 : ℝ) / 12) • f (u (k - 2))))

/-- A trajectory is determined by its definition. -/
theorem abTrajectory_unique {E : Type} [AddCommGroup E] [Module ℝ E] {f h : E → E} {dt : ℝ} {u0 : E} {u v : ℕ → E}
    (hu : ABTrajectory f h dt u0 u) (hv : ABTrajectory f h dt u0 v) (n : ℕ) : u n = v n := by
  have e0 : u 0 = v 0 := by rw [hu.start, hv.start]
  have e1 : u 1 = v 1 := by rw [hu.euler, hv.euler, e0]
  have e2 : u 2 = v 2 := by rw [hu.second, hv.second, e0, e1]
  induction n using Nat.strong_induction_on with
  | _ n ih =>
    match n with
    | 0 => exact e0
    | 1 => exact e1
    | 2 => exact e2
    | n + 3 => rw [hu.ab3 (n + 2) (by omega), hv.ab3 (n + 2) (by omega), ih (n + 2) (by omega), ih (n + 2 - 1) (by omega), ih (n + 2 - 2) (by omega)]

/-- What the loop knows after `n` iterations. -/
structure ABInv {E : Type} [AddCommGroup E] [Module ℝ E] (F : E → E) (u : ℕ → E) (n : ℕ) (s : AB E) : Prop where
  now : s.u = u n
  pnew : s.inew = (-(n : ℤ)) % 3
  pnow : s.inow = (1 - (n : ℤ)) % 3
  pold : s.iold = (2 - (n : ℤ)) % 3
  last : 1 ≤ n → s.D s.inow = F (u (n - 1))
  last2 : 2 ≤ n → s.D s.iold = F (u (n - 2))

theorem abIter_ok {E : Type} [AddCommGroup E] [Module ℝ E] (f : E → Except PyErr E) (F h : E → E) (hf : ∀ u, f u = .ok (F u)) (dt : ℝ)
    (it : ℕ) (s : AB E) : abIter f h dt it s = .ok
      (let D := Function.update s.D s.inew (F s.u)
       let D := if it = 0 then Function.update (Function.update D s.inow (D s.inew)) s.iold (D s.inew)
         else if it = 1 then Function.update D s.iold (D s.inew) else D
       ⟨h (s.u + dt • (((23 : ℝ) / 12) • D s.inew - ((16 : ℝ) / 12) • D s.inow + ((5 : ℝ) / 12) • D s.iold)), D,
        (s.inew - 1) % 3, (s.inow - 1) % 3, (s.iold - 1) % 3⟩) := by
  unfold abIter
  rw [hf]

theorem abIter_inv {E : Type} [AddCommGroup E] [Module ℝ E] (f : E → Except PyErr E) (F h : E → E) (hf : ∀ u, f u = .ok (F u)) (dt : ℝ)
    (u0 : E) (u : ℕ → E) (hu : ABTrajectory F h dt u0 u) (n : ℕ) (s : AB E) (hs : ABInv F u n s) :
    ∃ s', abIter f h dt n s = .ok s' ∧ ABInv F u (n + 1) s' := by
  refine ⟨_, abIter_ok f F h hf dt n s, ?_⟩
  have n1 : s.inow ≠ s.inew := by rw [hs.pnow, hs.pnew]; omega
  have n2 : s.iold ≠ s.inew := by rw [hs.pold, hs.pnew]; omega
  have n3 : s.iold ≠ s.inow := by rw [hs.pold, hs.pnow]; omega
  have p1 : (s.inew - 1) % 3 = s.iold := by rw [hs.pold, hs.pnew]; omega
  have p2 : (s.inow - 1) % 3 = s.inew := by rw [hs.pnow, hs.pnew]; omega
  have p3 : (s.iold - 1) % 3 = s.inow := by rw [hs.pold, hs.pnow]; omega
  have hnow := hs.now
  refine ⟨?_, ?_, ?_, ?_, ?_, ?_⟩
  · dsimp only
    match n with
    | 0 =>
      rw [if_pos rfl]
      simp only [Function.update_self, Function.update_of_ne n2.symm, Function.update_of_ne n1.symm, Function.update_of_ne n3.symm]
      rw [hu.euler, hnow]
      congr 2
      module
    | 1 =>
      rw [if_neg (by norm_num), if_pos rfl]
      simp only [Function.update_self, Function.update_of_ne n2.symm, Function.update_of_ne n3.symm, Function.update_of_ne n1]
      rw [hu.second, hnow, hs.last (by norm_num)]
      congr 2
      simp only [Nat.sub_self]
      module
    | n + 2 =>
      rw [if_neg (by omega), if_neg (by omega)]
      simp only [Function.update_self, Function.update_of_ne n1, Function.update_of_ne n2]
      rw [hu.ab3 (n + 2) (by omega), hnow, hs.last (by omega), hs.last2 (by omega)]
  · show (s.inew - 1) % 3 = _
    rw [hs.pnew]; push_cast; omega
  · show (s.inow - 1) % 3 = _
    rw [hs.pnow]; push_cast; omega
  · show (s.iold - 1) % 3 = _
    rw [hs.pold]; push_cast; omega
  · intro _
    dsimp only
    rw [p2]
    split_ifs
    · rw [Function.update_of_ne n2.symm, Function.update_of_ne n1.symm, Function.update_self, hnow]; rfl
    · rw [Function.update_of_ne n2.symm, Function.update_self, hnow]; rfl
    · rw [Function.update_self, hnow]; rfl
  · intro h2
    dsimp only
    rw [p3, if_neg (by omega)]
    have e : n + 1 - 2 = n - 1 := by omega
    split_ifs with h1
    · rw [Function.update_of_ne n3.symm, Function.update_of_ne n1, hs.last (by omega), e]
    · rw [Function.update_of_ne n1, hs.last (by omega), e]

theorem abTrajectory_exists {E : Type} [AddCommGroup E] [Module ℝ E] (F h : E → E) (dt : ℝ) (u0 : E) : ∃ u, ABTrajectory F h dt u0 u := by
  let next3 : E × E × E → E × E × E := fun p =>
    (p.2.1, p.2.2, h (p.2.2 + dt • (((23 : ℝ) / 12) • F p.2.2 - ((16 : ℝ) / 12) • F p.2.1 + ((5 : ℝ) / 12) • F p.1)))
  let u1 := h (u0 + dt • F u0)
  let u2 := h (u1 + dt • (((28 : ℝ) / 12) • F u1 - ((16 : ℝ) / 12) • F u0))
  let s : ℕ → E × E × E := fun n => next3^[n] (u0, u1, u2)
  have hs : ∀ n, s (n + 1) = next3 (s n) := fun n => Function.iterate_succ_apply' _ _ _
  have h1 : ∀ n, (s (n + 1)).1 = (s n).2.1 := fun n => by rw [hs]
  have h2 : ∀ n, (s (n + 1)).2.1 = (s n).2.2 := fun n => by rw [hs]
  refine ⟨fun n => (s n).1, rfl, ?_, ?_, ?_⟩
  · show (s 1).1 = _; rw [h1]; rfl
  · show (s 2).1 = h ((s 1).1 + dt • (((28 : ℝ) / 12) • F (s 1).1 - ((16 : ℝ) / 12) • F (s 0).1))
    rw [h1, h2, h1]; rfl
  · intro k hk
    obtain ⟨k, rfl⟩ : ∃ j, k = j + 2 := ⟨k - 2, by omega⟩
    show (s (k + 3)).1 = h ((s (k + 2)).1 + dt • (((23 : ℝ) / 12) • F (s (k + 2)).1 - ((16 : ℝ) / 12) • F (s (k + 1)).1 + ((5 : ℝ) / 12) • F (s k).1))
    rw [h1 (k + 2), h2 (k + 1), h1 (k + 1), h2 k, h1 k, hs k]

/-- C23. The loop of `timestep` with its rotating buffer indices computes, for every number of steps, the trajectory of the multistep
scheme; for every tendency function, filter, time step and initial state. -/
theorem C23_scheme {E : Type} [AddCommGroup E] [Module ℝ E] (f : E → Except PyErr E) (F h : E → E) (hf : ∀ u, f u = .ok (F u)) (dt : ℝ) (u0 : E) :
    ∃ u, ABTrajectory F h dt u0 u ∧ ∀ n, ∃ s, abRun f h dt u0 n = .ok s ∧ s.u = u n := by
  obtain ⟨u, hu⟩ := abTrajectory_exists F h dt u0
  refine ⟨u, hu, fun n => ?_⟩
  have key : ∀ n, ∃ s, abRun f h dt u0 n = .ok s ∧ ABInv F u n s := by
    intro n
    induction n with
    | zero => exact ⟨_, rfl, hu.start.symm, rfl, rfl, rfl, fun h => by omega, fun h => by omega⟩
    | succ n ih =>
      obtain ⟨s, h1, h2⟩ := ih
      obtain ⟨s', h3, h4⟩ := abIter_inv f F h hf dt u0 u hu n s h2
      exact ⟨s', by rw [abRun, h1]; exact h3, h4⟩
  obtain ⟨s, h1, h2⟩ := key n
  exact ⟨s, h1, h2.now⟩

/-- C23 (finding). The second step is not the second-order Adams-Bashforth step that the code comment announces (`3/2 f_1 - 1/2 f_0`): for the
tendency `f(u) = u` the two differ. -/
theorem C23_second_step_not_ab2 : ∃ (u : ℕ → ℝ), ABTrajectory (fun x : ℝ => x) id (1 : ℝ) 1 u ∧
    u 2 ≠ u 1 + (1 : ℝ) • (((3 : ℝ) / 2) • u 1 - ((1 : ℝ) / 2) • u 0) := by
  obtain ⟨u, hu⟩ := abTrajectory_exists (fun x : ℝ => x) id (1 : ℝ) (1 : ℝ)
  refine ⟨u, hu, ?_⟩
  rw [hu.second, hu.euler, hu.start]
  norm_num [smul_eq_mul]

/-- C23 (error branch). An exception of the tendency stops the loop. -/
theorem C23_error {E : Type} [AddCommGroup E] [Module ℝ E] (f : E → Except PyErr E) (h : E → E) (dt : ℝ) (u0 : E) (e : PyErr) (hf : f u0 = .error e)
    (n : ℕ) : abRun f h dt u0 (n + 1) = .error e := by
  induction n with
  | zero => simp [abRun, abIter, hf]
  | succ n ih => rw [abRun, ih]

/-! ### The solver -/

/-- The hypotheses under which the solver is built (and its tables are finite numbers). -/
structure SweBuilt (env : Env) (A : SweArgs) (r : Rule) (d L : ℕ) : Prop where
  lon_pos : 0 < A.nlon
  radius_ne : A.radius ≠ 0
  rule : gridRule env.gauss env.tol env.maxiter A.nlat A.grid = .ok r
  exact : SymmetricExactRule r A.nlat d
  trunc : sizes A.nlat A.nlon A.lmax A.mmax A.grid = .ok (L, L)
  two : 2 ≤ L
  deg : 2 * (L - 1) ≤ d
  ord : 2 * (L - 1) ≤ A.nlon

/-- What the constructor stores. -/
structure SweIs (env : Env) (A : SweArgs) (r : Rule) (L : ℕ) (S : Swe) : Prop where
  nlat : S.nlat = A.nlat
  nlon : S.nlon = A.nlon
  dt : S.dt = A.dt
  radius : S.radius = A.radius
  lmax : S.lmax = L
  mmax : S.mmax = L
  sht : RealSHT.init env A.transform = .ok S.sht
  isht : InverseRealSHT.init env A.transform = .ok S.isht
  vsht : RealVectorSHT.init env A.transform = .ok S.vsht
  ivsht : InverseRealVectorSHT.init env A.transform = .ok S.ivsht
  coriolis : S.coriolis = fun k => 2 * A.omega * Real.sin (-Real.arcsin (r.x k))
  quad : S.quadWeights = r.w
  s1 : S.sht.nlat = A.nlat ∧ S.sht.nlon = A.nlon ∧ S.sht.lmax = L ∧ S.sht.mmax = L
  s2 : S.isht.nlat = A.nlat ∧ S.isht.nlon = A.nlon ∧ S.isht.lmax = L ∧ S.isht.mmax = L
  s3 : S.vsht.nlat = A.nlat ∧ S.vsht.nlon = A.nlon ∧ S.vsht.lmax = L ∧ S.vsht.mmax = L
  s4 : S.ivsht.nlat = A.nlat ∧ S.ivsht.nlon = A.nlon ∧ S.ivsht.lmax = L ∧ S.ivsht.mmax = L

theorem swe_init {env : Env} {A : SweArgs} {r : Rule} {d L : ℕ} (H : SweBuilt env A r d L) :
    ∃ S, Swe.init env A = .ok S ∧ SweIs env A r L S := by
  have h0 : 0 < L := by have := H.two; omega
  have e1 := realSHT_init env A.transform r L H.rule H.trunc h0
  have e2 := inverseRealSHT_init env A.transform r L H.rule H.trunc h0
  have e3 := realVectorSHT_init env A.transform r L H.rule H.trunc h0
  have e4 := inverseRealVectorSHT_init env A.transform r L H.rule H.trunc h0
  suffices h : ∃ S, Swe.init env A = .ok S ∧ _ from h
  refine ⟨⟨A.nlat, A.nlon, A.dt, A.radius, L, L, _, _, _, _, fun k => 2 * A.omega * Real.sin (-Real.arcsin (r.x k)), r.w⟩, ?_,
    rfl, rfl, rfl, rfl, rfl, rfl, e1, e2, e3, e4, rfl, rfl, ⟨rfl, rfl, rfl, rfl⟩, ⟨rfl, rfl, rfl, rfl⟩, ⟨rfl, rfl, rfl, rfl⟩, ⟨rfl, rfl, rfl, rfl⟩⟩
  unfold Swe.init
  rw [e1]
  dsimp only
  rw [e2]
  dsimp only
  rw [e3]
  dsimp only
  rw [e4]
  dsimp only
  rw [H.rule]
  dsimp only
  rw [if_neg (by omega)]

theorem swe_getuv {env : Env} (be : C2R) {A : SweArgs} {r : Rule} {d L : ℕ} (H : SweBuilt env A r d L) {S : Swe} (hS : SweIs env A r L S)
    (z : Ten3 ℂ) (h0 : z.d0 = 2) (h1 : z.d1 = L) (h2 : z.d2 = L) :
    ∃ f, S.getuv be z = .ok f ∧ f.d0 = 2 ∧ f.d1 = A.nlat ∧ f.d2 = A.nlon := by
  have hL := H.two
  have hn := H.lon_pos
  obtain ⟨f, hf, f0, f1, f2, _⟩ := inverseRealVectorSHT_forward be S.ivsht
    ⟨z.d0, z.d1, z.d2, fun d l m => (S.invlap l : ℂ) * z.val d l m / (S.radius : ℂ)⟩ h0 (by rw [hS.s4.2.2.1]; exact h1) (by rw [hS.s4.2.2.2]; exact h2)
    (by rw [hS.s4.2.2.2]; omega) (by rw [hS.s4.2.1]; omega)
  exact ⟨f, hf, f0, by rw [f1, hS.s4.1], by rw [f2, hS.s4.2.1]⟩

theorem swe_vrtdiv {env : Env} {A : SweArgs} {r : Rule} {d L : ℕ} (H : SweBuilt env A r d L) {S : Swe} (hS : SweIs env A r L S)
    (f : Ten3 ℝ) (h0 : f.d0 = 2) (h1 : f.d1 = A.nlat) (h2 : f.d2 = A.nlon) :
    ∃ z, S.vrtdivspec f = .ok z ∧ z.d0 = 2 ∧ z.d1 = L ∧ z.d2 = L ∧ ∀ e m, z.val e 0 m = 0 := by
  have hn := H.lon_pos
  obtain ⟨c, _, hc, c0, c1, c2, _⟩ := realVectorSHT_forward S.vsht f h0 (by rw [hS.s3.1, h1]) (by rw [hS.s3.2.1, h2]) (by rw [hS.s3.2.1]; omega)
  refine ⟨⟨c.d0, c.d1, c.d2, fun d l m => (S.lap l : ℂ) * (S.radius : ℂ) * c.val d l m⟩, ?_, c0, by rw [c1, hS.s3.2.2.1], by rw [c2, hS.s3.2.2.2], ?_⟩
  · unfold Swe.vrtdivspec
    rw [hc]
  · intro e m
    simp [Swe.lap]

/-- The vector analysis depends on the field only through its values on the grid. -/
theorem vrtdiv_congr (S : Swe) (hn : 0 < S.vsht.nlon) (f g : Ten3 ℝ) (hf : f.d0 = 2 ∧ f.d1 = S.vsht.nlat ∧ f.d2 = S.vsht.nlon)
    (hg : g.d0 = 2 ∧ g.d1 = S.vsht.nlat ∧ g.d2 = S.vsht.nlon)
    (h : ∀ e < 2, ∀ k < S.vsht.nlat, ∀ j < S.vsht.nlon, f.val e k j = g.val e k j) :
    ∃ cf cg, S.vrtdivspec f = .ok cf ∧ S.vrtdivspec g = .ok cg ∧ ∀ e < 2, ∀ l, ∀ m < S.vsht.mmax, cf.val e l m = cg.val e l m := by
  obtain ⟨cf, zf, h1, _, _, _, z1, v1⟩ := realVectorSHT_forward S.vsht f hf.1 hf.2.1 hf.2.2 hn
  obtain ⟨cg, zg, h2, _, _, _, z2, v2⟩ := realVectorSHT_forward S.vsht g hg.1 hg.2.1 hg.2.2 hn
  have hz : ∀ e < 2, ∀ k < S.vsht.nlat, ∀ m < S.vsht.mmax, zf e k m = zg e k m := by
    intro e he k hk m hm
    rw [z1 e he k m hm, z2 e he k m hm, dft_congr S.vsht.nlon _ _ (h e he k hk)]
  have hc : ∀ e < 2, ∀ l, ∀ m < S.vsht.mmax, cf.val e l m = cg.val e l m := by
    intro e he l m hm
    match e, he with
    | 0, _ =>
      rw [(v1 l m hm).1, (v2 l m hm).1]
      exact sum_congr rfl fun k hk => by rw [hz 0 (by norm_num) k (mem_range.1 hk) m hm, hz 1 (by norm_num) k (mem_range.1 hk) m hm]
    | 1, _ =>
      rw [(v1 l m hm).2, (v2 l m hm).2]
      exact sum_congr rfl fun k hk => by rw [hz 0 (by norm_num) k (mem_range.1 hk) m hm, hz 1 (by norm_num) k (mem_range.1 hk) m hm]
  refine ⟨⟨cf.d0, cf.d1, cf.d2, fun d l m => (S.lap l : ℂ) * (S.radius : ℂ) * cf.val d l m⟩,
    ⟨cg.d0, cg.d1, cg.d2, fun d l m => (S.lap l : ℂ) * (S.radius : ℂ) * cg.val d l m⟩, ?_, ?_, ?_⟩
  · unfold Swe.vrtdivspec; rw [h1]
  · unfold Swe.vrtdivspec; rw [h2]
  · intro e he l m hm
    dsimp only
    rw [hc e he l m hm]

theorem swe_coriolis {env : Env} {A : SweArgs} {r : Rule} {d L : ℕ} (H : SweBuilt env A r d L) {S : Swe} (hS : SweIs env A r L S)
    (k : ℕ) (hk : k < A.nlat) : S.coriolis k = 2 * A.omega * Real.cos (Real.arccos (r.x (A.nlat - 1 - k))) := by
  have h1 := H.exact.inside k hk
  have h2 := H.exact.inside (A.nlat - 1 - k) (by omega)
  rw [hS.coriolis, Real.cos_arccos h2.1 h2.2, H.exact.symm_x k hk]
  dsimp only
  rw [Real.sin_neg, Real.sin_arcsin h1.1 h1.2]

/-- C61. The tendency is that of the rotating shallow-water equations in vorticity-divergence form, for every state: with `V` the wind, `phi` and
`zeta` the gridded geopotential and vorticity, `2 omega cos(theta)` the Coriolis parameter, and with `vort`, `div` the two components of
`vrtdivspec`, `d phi/dt = -div(phi V)`, `d zeta/dt = -div((zeta + f) V)`, `d delta/dt = vort((zeta + f) V) - lap(phi + |V|^2 / 2)`. It never
raises. -/
theorem C61_tendency (env : Env) (be : C2R) (A : SweArgs) (r : Rule) (d L : ℕ) (H : SweBuilt env A r d L) :
    ∃ S : Swe, Swe.init env A = .ok S ∧ SweIs env A r L S ∧ ∀ u : ℕ → ℕ → ℕ → ℂ,
    ∃ (ugrid V : Ten3 ℝ) (absF phiF : Ten3 ℂ) (en : Mat ℂ) (t : ℕ → ℕ → ℕ → ℂ),
      S.spec2grid be ⟨3, L, L, u⟩ = .ok ugrid ∧ S.getuv be ⟨2, L, L, fun e => u (e + 1)⟩ = .ok V ∧
      S.vrtdivspec ⟨2, A.nlat, A.nlon, fun e k j =>
        (ugrid.val 1 k j + 2 * A.omega * Real.cos (Real.arccos (r.x (A.nlat - 1 - k)))) * V.val e k j⟩ = .ok absF ∧
      S.vrtdivspec ⟨2, A.nlat, A.nlon, fun e k j => ugrid.val 0 k j * V.val e k j⟩ = .ok phiF ∧
      S.sht.forward ⟨A.nlat, A.nlon, fun k j => ugrid.val 0 k j + (V.val 0 k j ^ 2 + V.val 1 k j ^ 2) / 2⟩ = .ok en ∧
      S.dudtspec be u = .ok t ∧ (∀ e m, t e 0 m = 0) ∧
      ∀ l < L, ∀ m < L, t 0 l m = -phiF.val 1 l m ∧ t 1 l m = -absF.val 1 l m ∧
        t 2 l m = absF.val 0 l m - ((-(l * (l + 1) : ℝ) / A.radius ^ 2 : ℝ) : ℂ) * en.val l m := by
  obtain ⟨S, hS, hI⟩ := swe_init H
  refine ⟨S, hS, hI, fun u => ?_⟩
  have hL := H.two
  have hn := H.lon_pos
  have hug : ∀ e, ∃ f, S.isht.forward be ⟨L, L, u e⟩ = .ok f ∧ f.d0 = A.nlat ∧ f.d1 = A.nlon := by
    intro e
    obtain ⟨f, h1, h2, h3, _⟩ := inverseRealSHT_forward be S.isht ⟨L, L, u e⟩ hI.s2.2.2.1.symm hI.s2.2.2.2.symm (by rw [hI.s2.2.2.2]; omega)
      (by rw [hI.s2.2.1]; omega)
    exact ⟨f, h1, by rw [h2, hI.s2.1], by rw [h3, hI.s2.2.1]⟩
  choose g hg1 hg2 hg3 using hug
  have hsg : S.spec2grid be ⟨3, L, L, u⟩ = .ok ⟨3, (g 0).d0, (g 0).d1, fun e => (g e).val⟩ := mapChannels_ok g hg1
  set ugrid : Ten3 ℝ := ⟨3, (g 0).d0, (g 0).d1, fun e => (g e).val⟩
  obtain ⟨V, hV, V0, V1, V2⟩ := swe_getuv be H hI ⟨2, L, L, fun e => u (e + 1)⟩ rfl rfl rfl
  have v1 := hI.s3.1
  have v2 := hI.s3.2.1
  obtain ⟨a, a', ha, ha', haa⟩ := vrtdiv_congr S (by omega)
    ⟨2, A.nlat, A.nlon, fun e k j => (ugrid.val 1 k j + 2 * A.omega * Real.cos (Real.arccos (r.x (A.nlat - 1 - k)))) * V.val e k j⟩
    ⟨2, A.nlat, A.nlon, fun e k j => V.val e k j * (ugrid.val 1 k j + S.coriolis k)⟩ ⟨rfl, v1.symm, v2.symm⟩ ⟨rfl, v1.symm, v2.symm⟩
    (fun e _ k hk j _ => by dsimp only; rw [swe_coriolis H hI k (by omega)]; ring)
  obtain ⟨p, p', hp, hp', hpp⟩ := vrtdiv_congr S (by omega) ⟨2, A.nlat, A.nlon, fun e k j => ugrid.val 0 k j * V.val e k j⟩
    ⟨2, A.nlat, A.nlon, fun e k j => V.val e k j * ugrid.val 0 k j⟩ ⟨rfl, v1.symm, v2.symm⟩ ⟨rfl, v1.symm, v2.symm⟩
    (fun e _ k _ j _ => by dsimp only; ring)
  have az : ∀ e m, a'.val e 0 m = 0 := by
    obtain ⟨z, hz, _, _, _, hz0⟩ := swe_vrtdiv H hI _ rfl rfl rfl |> fun (h : ∃ z, S.vrtdivspec ⟨2, A.nlat, A.nlon, fun e k j => V.val e k j * (ugrid.val 1 k j + S.coriolis k)⟩ = .ok z ∧ _) => h
    rw [ha'] at hz; cases hz; exact hz0
  have pz : ∀ e m, p'.val e 0 m = 0 := by
    obtain ⟨z, hz, _, _, _, hz0⟩ := swe_vrtdiv H hI _ rfl rfl rfl |> fun (h : ∃ z, S.vrtdivspec ⟨2, A.nlat, A.nlon, fun e k j => V.val e k j * ugrid.val 0 k j⟩ = .ok z ∧ _) => h
    rw [hp'] at hz; cases hz; exact hz0
  obtain ⟨en, en', hen, hen', hee⟩ := realSHT_congr S.sht (by rw [hI.s1.2.1]; omega)
    ⟨A.nlat, A.nlon, fun k j => ugrid.val 0 k j + (V.val 0 k j ^ 2 + V.val 1 k j ^ 2) / 2⟩
    ⟨A.nlat, A.nlon, fun k j => ugrid.val 0 k j + 0.5 * (V.val 0 k j ^ 2 + V.val 1 k j ^ 2)⟩
    ⟨hI.s1.1.symm, hI.s1.2.1.symm⟩ ⟨hI.s1.1.symm, hI.s1.2.1.symm⟩ (fun k _ j _ => by dsimp only; ring)
  refine ⟨ugrid, V, a, p, en, fun d l m => if d = 0 then -1 * p'.val 1 l m else if d = 1 then -1 * a'.val 1 l m
    else a'.val 0 l m - (S.lap l : ℂ) * en'.val l m, hsg, hV, ha, hp, hen, ?_, ?_, ?_⟩
  · unfold Swe.dudtspec
    rw [hI.lmax, hI.mmax, hI.nlat, hI.nlon, hsg]
    dsimp only
    rw [hV]
    dsimp only
    rw [ha']
    dsimp only
    rw [hp']
    dsimp only
    rw [hen']
  · intro e m
    dsimp only
    split_ifs
    · rw [pz]; simp
    · rw [az]; simp
    · rw [az]; simp [Swe.lap]
  · intro l hl m hm
    have m3 : m < S.vsht.mmax := by rw [hI.s3.2.2.2]; exact hm
    have m1 : m < S.sht.mmax := by rw [hI.s1.2.2.2]; exact hm
    refine ⟨?_, ?_, ?_⟩
    · show -1 * p'.val 1 l m = _
      rw [hpp 1 (by norm_num) l m m3]; ring
    · show -1 * a'.val 1 l m = _
      rw [haa 1 (by norm_num) l m m3]; ring
    · show a'.val 0 l m - (S.lap l : ℂ) * en'.val l m = _
      rw [haa 0 (by norm_num) l m m3, hee l m m1]
      simp only [Swe.lap, hI.radius]
      congr 3
      ring

theorem hyperdiff_zero {env : Env} {A : SweArgs} {r : Rule} {L : ℕ} {S : Swe} (_hS : SweIs env A r L S) : S.hyperdiff 0 = 1 := by
  simp [Swe.hyperdiff, Swe.lap]

/-- C23 for the solver: `timestep` returns the trajectory of the multistep scheme for the tendency `dudtspec` of the solver, with the hyperdiffusion
applied to vorticity and divergence after every step. -/
theorem C23_timestep (env : Env) (be : C2R) (A : SweArgs) (r : Rule) (d L : ℕ) (H : SweBuilt env A r d L) (u0 : Ten3 ℂ) (h0 : u0.d0 = 3)
    (h1 : u0.d1 = L) (h2 : u0.d2 = L) :
    ∃ (S : Swe) (F : (ℕ → ℕ → ℕ → ℂ) → (ℕ → ℕ → ℕ → ℂ)) (u : ℕ → (ℕ → ℕ → ℕ → ℂ)), Swe.init env A = .ok S ∧ (∀ v, S.dudtspec be v = .ok (F v)) ∧
      ABTrajectory F (fun (v : ℕ → ℕ → ℕ → ℂ) e l m => if e = 0 then v e l m else (Real.exp ((-A.dt / 7200) * (((l : ℝ) * (l + 1)) / ((L - 1 : ℝ) * L)) ^ 4) : ℝ) * v e l m)
        A.dt u0.val u ∧
      ∀ n, ∃ w, S.timestep be u0 n = .ok w ∧ w.d0 = 3 ∧ w.d1 = L ∧ w.d2 = L ∧ w.val = u n := by
  obtain ⟨S, hS, hI, hF⟩ := C61_tendency env be A r d L H
  have hF' : ∀ v, ∃ t, S.dudtspec be v = .ok t := fun v => by
    obtain ⟨_, _, _, _, _, t, _, _, _, _, _, ht, _⟩ := hF v
    exact ⟨t, ht⟩
  choose F hF1 using hF'
  have hh : S.diffuse = (fun (v : ℕ → ℕ → ℕ → ℂ) e l m => if e = 0 then v e l m
      else (Real.exp ((-A.dt / 7200) * (((l : ℝ) * (l + 1)) / ((L - 1 : ℝ) * L)) ^ 4) : ℝ) * v e l m) := by
    funext v e l m
    unfold Swe.diffuse Swe.hyperdiff Swe.lap
    rw [hI.lmax, hI.dt, hI.radius]
    have hc : ((L - 1 : ℕ) : ℝ) = (L : ℝ) - 1 := by
      have := H.two
      rw [Nat.cast_sub (by omega)]; simp
    rw [hc]
    have e1 : -A.dt / 2 / 3600 = -A.dt / 7200 := by ring
    have e2 : (-(l : ℝ) * (l + 1) / A.radius ^ 2) / (-((L : ℝ) - 1) * ((L : ℝ) - 1 + 1) / A.radius ^ 2) = (l : ℝ) * (l + 1) / (((L : ℝ) - 1) * L) := by
      have hr2 : A.radius ^ 2 ≠ 0 := pow_ne_zero 2 H.radius_ne
      rw [div_div_div_cancel_right₀ hr2, sub_add_cancel, neg_mul, neg_mul, neg_div_neg_eq]
    rw [e1, e2]
  obtain ⟨u, hu, hr⟩ := C23_scheme (S.dudtspec be) F S.diffuse hF1 A.dt u0.val
  rw [hh] at hu
  refine ⟨S, F, u, hS, hF1, hu, fun n => ?_⟩
  obtain ⟨s, hs, hsu⟩ := hr n
  unfold Swe.timestep
  by_cases hn : n = 0
  · rw [if_pos hn]
    subst hn
    exact ⟨u0, rfl, h0, h1, h2, hu.start.symm⟩
  · rw [if_neg hn, if_neg (by rw [h0, h1, h2, hI.lmax, hI.mmax]; simp), hI.dt, hs]
    exact ⟨_, rfl, rfl, hI.lmax, hI.mmax, hsu⟩

/-- C22. Any number of steps leaves the degree-0 coefficients of geopotential, vorticity and divergence unchanged, from any state; zero steps
return the input. -/
theorem C22_conserved (env : Env) (be : C2R) (A : SweArgs) (r : Rule) (d L : ℕ) (H : SweBuilt env A r d L) (u0 : Ten3 ℂ) (h0 : u0.d0 = 3)
    (h1 : u0.d1 = L) (h2 : u0.d2 = L) :
    ∃ S, Swe.init env A = .ok S ∧ S.timestep be u0 0 = .ok u0 ∧
      ∀ n, ∃ w, S.timestep be u0 n = .ok w ∧ w.d0 = 3 ∧ w.d1 = L ∧ w.d2 = L ∧ ∀ e m, w.val e 0 m = u0.val e 0 m := by
  obtain ⟨S, F, u, hS, hF, hu, hw⟩ := C23_timestep env be A r d L H u0 h0 h1 h2
  obtain ⟨S', hS', _, hT⟩ := C61_tendency env be A r d L H
  rw [hS] at hS'; cases hS'
  have hF0 : ∀ v e m, F v e 0 m = 0 := by
    intro v e m
    obtain ⟨_, _, _, _, _, t, _, _, _, _, _, ht, hz, _⟩ := hT v
    rw [hF v] at ht; cases ht
    exact hz e m
  have key : ∀ n e m, u n e 0 m = u0.val e 0 m := by
    intro n
    induction n using Nat.strong_induction_on with
    | _ n ih =>
      intro e m
      match n with
      | 0 => rw [hu.start]
      | 1 =>
        rw [hu.euler]
        simp only [Pi.add_apply, Pi.smul_apply, hF0]
        have := ih 0 (by norm_num) e m
        simp [this]
      | 2 =>
        rw [hu.second]
        simp only [Pi.add_apply, Pi.sub_apply, Pi.smul_apply, hF0]
        have := ih 1 (by norm_num) e m
        simp [this]
      | n + 3 =>
        rw [hu.ab3 (n + 2) (by omega)]
        simp only [Pi.add_apply, Pi.sub_apply, Pi.smul_apply, hF0]
        have := ih (n + 2) (by omega) e m
        simp [this]
  refine ⟨S, hS, by simp [Swe.timestep], fun n => ?_⟩
  obtain ⟨w, h3, h4, h5, h6, h7⟩ := hw n
  exact ⟨w, h3, h4, h5, h6, fun e m => by rw [h7]; exact key n e m⟩

/-- C22 (error branch). A state of the wrong shape is rejected as soon as one step is asked for. -/
theorem C22_shape_error (be : C2R) (S : Swe) (u : Ten3 ℂ) (n : ℕ) (hn : n ≠ 0) (h : u.d0 ≠ 3 ∨ u.d1 ≠ S.lmax ∨ u.d2 ≠ S.mmax) :
    S.timestep be u n = .error .runtimeError := by
  unfold Swe.timestep
  rw [if_neg hn, if_pos h]

theorem ten3_eta {α : Type} {a b c : ℕ} (u : Ten3 α) (h0 : u.d0 = a) (h1 : u.d1 = b) (h2 : u.d2 = c) : u = ⟨a, b, c, u.val⟩ := by
  subst h0 h1 h2; rfl

/-- The quadrature is a fixed multiple of the `(0, 0)` coefficient of the analysis. -/
theorem coefficient_quad (env : Env) (a : Args) (r : Rule) (d L : ℕ) (hn : 0 < a.nlon)
    (hr : gridRule env.gauss env.tol env.maxiter a.nlat a.grid = .ok r) (hx : SymmetricExactRule r a.nlat d)
    (hL : sizes a.nlat a.nlon a.lmax a.mmax a.grid = .ok (L, L)) (h0 : 0 < L) (hm : 2 * (L - 1) ≤ a.nlon)
    (f : Mat ℝ) (hf0 : f.d0 = a.nlat) (hf1 : f.d1 = a.nlon) (S : RealSHT) (c : Mat ℂ) (hS : RealSHT.init env a = .ok S)
    (hc : S.forward f = .ok c) : c.val 0 0 = ((tableScale a.norm false 0 * legendreNorm 0 0
      * ∑ k ∈ range a.nlat, ∑ j ∈ range a.nlon, f.val k j * (2 * Real.pi / a.nlon * r.w k) : ℝ) : ℂ) := by
  obtain ⟨S', c', hS', hc', _, _, hv⟩ := C59_analysis_value env a r d L hn hr hx hL h0 hm f hf0 hf1
  rw [hS] at hS'; cases hS'
  rw [hc] at hc'; cases hc'
  have h := hv 0 h0 0 h0
  have hA : ∀ x, assocLegendre 0 0 x = legendreNorm 0 0 := by
    intro x
    simp [assocLegendre, legendreDeriv, rodriguesBase]
  rw [h, mul_sum]
  push_cast
  refine sum_congr rfl fun k _ => ?_
  rw [mul_sum]
  refine sum_congr rfl fun j _ => ?_
  rw [hA]
  have : csSign a.csphase 0 = 1 := by unfold csSign; split_ifs <;> simp
  rw [this]
  simp
  ring

/-- C22. The integrals over the sphere of the three gridded fields (in particular the total mass) do not change in any number of steps, if the
degree-0 coefficients of the state are those of real fields. -/
theorem C22_mass (env : Env) (be : C2R) (A : SweArgs) (r : Rule) (d L : ℕ) (H : SweBuilt env A r d L) (u0 : Ten3 ℂ) (h0 : u0.d0 = 3)
    (h1 : u0.d1 = L) (h2 : u0.d2 = L) (n : ℕ) :
    ∃ S w g0 g, Swe.init env A = .ok S ∧ S.timestep be u0 n = .ok w ∧ S.spec2grid be u0 = .ok g0 ∧ S.spec2grid be w = .ok g ∧
      ∀ e dimensionless, S.integrateGrid (g.val e) dimensionless = S.integrateGrid (g0.val e) dimensionless := by
  obtain ⟨S, hS, _, hw⟩ := C22_conserved env be A r d L H u0 h0 h1 h2
  obtain ⟨S', hS', hI⟩ := swe_init H
  rw [hS] at hS'; cases hS'
  obtain ⟨w, ht, w0, w1, w2, hz⟩ := hw n
  have hL := H.two
  have hn := H.lon_pos
  -- one field of one state
  have key : ∀ c : ℕ → ℕ → ℂ, ∃ f : Mat ℝ, S.isht.forward be ⟨L, L, c⟩ = .ok f ∧
      tableScale "ortho" false 0 * legendreNorm 0 0
        * (∑ k ∈ range A.nlat, ∑ j ∈ range A.nlon, f.val k j * (2 * Real.pi / A.nlon * r.w k)) = (c 0 0).re := by
    intro c
    obtain ⟨T, I, f, c', hT, hI', hf, hc', _, _, hv⟩ := C14_analysis_of_synthesis env be A.transform r d L hn H.rule H.exact H.trunc (by omega) H.deg
      H.ord ⟨L, L, c⟩ rfl rfl
    rw [hI.isht] at hI'; cases hI'
    obtain ⟨f', e1, e2, e3, _⟩ := inverseRealSHT_forward be S.isht ⟨L, L, c⟩ hI.s2.2.2.1.symm hI.s2.2.2.2.symm (by rw [hI.s2.2.2.2]; omega)
      (by rw [hI.s2.2.1]; omega)
    rw [hf] at e1; cases e1
    have h := coefficient_quad env A.transform r d L hn H.rule H.exact H.trunc (by omega) H.ord f (by rw [e2, hI.s2.1]; rfl)
      (by rw [e3, hI.s2.2.1]; rfl) T c' hT hc'
    rw [hv 0 (by omega) 0 (by omega)] at h
    refine ⟨f, hf, ?_⟩
    unfold admissible at h
    rw [if_neg (by omega), if_pos (Or.inl rfl)] at h
    exact_mod_cast h.symm
  choose G hG1 hG2 using key
  have b0 : u0 = ⟨3, L, L, u0.val⟩ := ten3_eta u0 h0 h1 h2
  have bw : w = ⟨3, L, L, w.val⟩ := ten3_eta w w0 w1 w2
  have s0 : S.spec2grid be u0 = .ok ⟨3, (G (u0.val 0)).d0, (G (u0.val 0)).d1, fun e => (G (u0.val e)).val⟩ := by
    rw [b0]; exact mapChannels_ok (fun e => G (u0.val e)) (fun e => hG1 _)
  have sw : S.spec2grid be w = .ok ⟨3, (G (w.val 0)).d0, (G (w.val 0)).d1, fun e => (G (w.val e)).val⟩ := by
    rw [bw]; exact mapChannels_ok (fun e => G (w.val e)) (fun e => hG1 _)
  refine ⟨S, w, _, _, hS, ht, s0, sw, fun e dl => ?_⟩
  have e1 := hG2 (u0.val e)
  have e2 := hG2 (w.val e)
  rw [hz e 0, ← e1] at e2
  have hq : tableScale "ortho" false 0 * legendreNorm 0 0 ≠ 0 := by
    have h1 := tableScale_mul "ortho" 0
    have h2 : tableScale "ortho" false 0 ≠ 0 := fun h => by rw [h] at h1; simp at h1
    have h3 : legendreNorm 0 0 ≠ 0 := by
      unfold legendreNorm
      have := Real.pi_pos
      positivity
    exact mul_ne_zero h2 h3
  have e3 := mul_left_cancel₀ hq e2
  have fold : ∀ f : ℕ → ℕ → ℝ, S.integrateGrid f dl = (∑ k ∈ range A.nlat, ∑ j ∈ range A.nlon, f k j * (2 * Real.pi / A.nlon * r.w k))
      * (if dl then 1 else S.radius) ^ 2 := by
    intro f
    unfold Swe.integrateGrid
    rw [hI.nlat, hI.nlon, hI.quad, sum_mul]
    refine sum_congr rfl fun k _ => ?_
    rw [sum_mul]
    exact sum_congr rfl fun j _ => by ring
  dsimp only
  rw [fold, fold, e3]

/-- C61. What `vrtdivspec` computes, for every wind field `(u, v)` (eastward, northward): the discrete weak form, against the harmonics
`Y = P(theta) exp(i m phi)`, of the vorticity `(d(v)/d phi + d(u sin theta)/d theta)/(R sin theta)` and of the divergence
`(d(u)/d phi - d(v sin theta)/d theta)/(R sin theta)`: the derivatives are moved to `Y`. -/
theorem C61_vrtdiv_value (env : Env) (A : SweArgs) (r : Rule) (d L : ℕ) (H : SweBuilt env A r d L) (f : Ten3 ℝ) (h0 : f.d0 = 2)
    (h1 : f.d1 = A.nlat) (h2 : f.d2 = A.nlon) :
    ∃ S z, Swe.init env A = .ok S ∧ S.vrtdivspec f = .ok z ∧ z.d0 = 2 ∧ z.d1 = L ∧ z.d2 = L ∧ ∀ l < L, ∀ m < L,
      z.val 0 l m = -(1 / A.radius : ℝ) * ∑ k ∈ range A.nlat, ∑ j ∈ range A.nlon, (2 * Real.pi / A.nlon * r.w k : ℝ) *
        ((f.val 0 k j * deriv (legendreTheta l m) (Real.arccos (r.x (A.nlat - 1 - k))) : ℝ)
          - Complex.I * (f.val 1 k j * legendreOverSin l m (Real.arccos (r.x (A.nlat - 1 - k))) : ℝ))
        * Complex.exp (-(m * (2 * Real.pi * j / A.nlon)) * Complex.I) ∧
      z.val 1 l m = -(1 / A.radius : ℝ) * ∑ k ∈ range A.nlat, ∑ j ∈ range A.nlon, (2 * Real.pi / A.nlon * r.w k : ℝ) *
        (-(f.val 1 k j * deriv (legendreTheta l m) (Real.arccos (r.x (A.nlat - 1 - k))) : ℝ)
          - Complex.I * (f.val 0 k j * legendreOverSin l m (Real.arccos (r.x (A.nlat - 1 - k))) : ℝ))
        * Complex.exp (-(m * (2 * Real.pi * j / A.nlon)) * Complex.I) := by
  obtain ⟨S, hS, hI⟩ := swe_init H
  have hL := H.two
  have hn := H.lon_pos
  have hV := hI.vsht
  rw [realVectorSHT_init env A.transform r L H.rule H.trunc (by omega)] at hV
  have hV' : S.vsht = _ := (Except.ok.inj hV).symm
  obtain ⟨c, z, hc, c0, c1, c2, hz, hv⟩ := realVectorSHT_forward S.vsht f h0 (by rw [h1, hI.s3.1]) (by rw [h2, hI.s3.2.1]) (by rw [hI.s3.2.1]; exact hn)
  refine ⟨S, ⟨c.d0, c.d1, c.d2, fun d l m => (S.lap l : ℂ) * (S.radius : ℂ) * c.val d l m⟩, hS, ?_, c0, by rw [c1, hI.s3.2.2.1],
    by rw [c2, hI.s3.2.2.2], fun l hl m hm => ?_⟩
  · unfold Swe.vrtdivspec; rw [hc]
  · have m3 : m < S.vsht.mmax := by rw [hI.s3.2.2.2]; exact hm
    have hord := H.ord
    have hw : ∀ k < A.nlat, S.lap l * S.radius * S.vsht.w0 m l k = -(1 / A.radius) * (deriv (legendreTheta l m) (Real.arccos (r.x (A.nlat - 1 - k))) * r.w k)
        ∧ S.lap l * S.radius * S.vsht.w1 m l k = (1 / A.radius) * (legendreOverSin l m (Real.arccos (r.x (A.nlat - 1 - k))) * r.w k) := by
      intro k hk
      have hin := H.exact.inside (A.nlat - 1 - k) (by omega)
      have hcol : colat r k = Real.arccos (r.x (A.nlat - 1 - k)) := by unfold colat; rw [H.exact.size]
      have hd := dlegpolyVal_eq L L (colat r k) (by rw [hcol]; exact Real.arccos_nonneg _) (by rw [hcol]; exact Real.arccos_le_pi _) "ortho" false false m l hl
      rw [hV']
      show S.lap l * S.radius * ((dlegpolyVal L L "ortho" false false (colat r k)).1 m l * r.w k * normFactorV l) = _ ∧
        S.lap l * S.radius * (-1 * ((dlegpolyVal L L "ortho" false false (colat r k)).2 m l * r.w k * normFactorV l)) = _
      rw [hd.1, hd.2, hcol, (hasDeriv_theta l m _).deriv]
      have t1 : tableScale "ortho" false l = 1 := by simp [tableScale, normScale]
      have t2 : csSign false m = 1 := by simp [csSign]
      rw [t1, t2]
      unfold Swe.lap normFactorV
      rw [hI.radius]
      have hR := H.radius_ne
      by_cases hl0 : l = 0
      · subst hl0
        have q1 : dTheta 0 m (Real.arccos (r.x (A.nlat - 1 - k))) = 0 := by
          unfold dTheta
          split_ifs with h
          · have : m = 0 := by omega
            subst this
            simp [legendreDeriv, rodriguesBase]
          · rfl
        have q2 : legendreOverSin 0 m (Real.arccos (r.x (A.nlat - 1 - k))) = 0 := by
          unfold legendreOverSin
          split_ifs with h
          · have : m = 0 := by omega
            subst this
            simp
          · rfl
        rw [q1, q2]; simp
      · rw [if_neg hl0]
        have hl1 : (l : ℝ) ≠ 0 := by exact_mod_cast hl0
        have hl2 : (l : ℝ) + 1 ≠ 0 := by positivity
        constructor
        · field_simp
        · field_simp
    have hzz : ∀ e < 2, ∀ k, z e k m = ∑ j ∈ range A.nlon, (2 * Real.pi / A.nlon : ℝ) * (f.val e k j : ℂ)
        * Complex.exp (-(m * (2 * Real.pi * j / A.nlon)) * Complex.I) := by
      intro e he k
      rw [hz e he k m m3, hI.s3.2.1, if_pos (by omega)]
      unfold dft
      rw [mul_sum, mul_sum]
      refine sum_congr rfl fun j _ => ?_
      have : Complex.exp (-(m * (2 * Real.pi * j / A.nlon)) * Complex.I) = Complex.exp (-(2 * Real.pi * Complex.I * j * m / A.nlon)) := by
        congr 1; ring
      rw [this]
      push_cast
      ring
    have wc0 : ∀ k < A.nlat, (S.lap l : ℂ) * (S.radius : ℂ) * (S.vsht.w0 m l k : ℂ) = ((-(1 / A.radius) * (deriv (legendreTheta l m) (Real.arccos (r.x (A.nlat - 1 - k))) * r.w k) : ℝ) : ℂ) := by
      intro k hk; rw [← (hw k hk).1]; push_cast; ring
    have wc1 : ∀ k < A.nlat, (S.lap l : ℂ) * (S.radius : ℂ) * (S.vsht.w1 m l k : ℂ) = (((1 / A.radius) * (legendreOverSin l m (Real.arccos (r.x (A.nlat - 1 - k))) * r.w k) : ℝ) : ℂ) := by
      intro k hk; rw [← (hw k hk).2]; push_cast; ring
    constructor
    · show (S.lap l : ℂ) * (S.radius : ℂ) * c.val 0 l m = _
      rw [(hv l m m3).1, hI.s3.1, mul_sum, mul_sum]
      refine sum_congr rfl fun k hk => ?_
      have hk := mem_range.1 hk
      have e : (S.lap l : ℂ) * (S.radius : ℂ) * (z 0 k m * S.vsht.w0 m l k + Complex.I * z 1 k m * S.vsht.w1 m l k)
          = z 0 k m * ((S.lap l : ℂ) * (S.radius : ℂ) * (S.vsht.w0 m l k : ℂ)) + Complex.I * z 1 k m * ((S.lap l : ℂ) * (S.radius : ℂ) * (S.vsht.w1 m l k : ℂ)) := by ring
      rw [e, wc0 k hk, wc1 k hk, hzz 0 (by norm_num) k, hzz 1 (by norm_num) k, mul_sum, sum_mul, mul_sum, sum_mul, ← sum_add_distrib]
      refine sum_congr rfl fun j _ => ?_
      push_cast
      ring
    · show (S.lap l : ℂ) * (S.radius : ℂ) * c.val 1 l m = _
      rw [(hv l m m3).2, hI.s3.1, mul_sum, mul_sum]
      refine sum_congr rfl fun k hk => ?_
      have hk := mem_range.1 hk
      have e : (S.lap l : ℂ) * (S.radius : ℂ) * (Complex.I * z 0 k m * S.vsht.w1 m l k - z 1 k m * S.vsht.w0 m l k)
          = Complex.I * z 0 k m * ((S.lap l : ℂ) * (S.radius : ℂ) * (S.vsht.w1 m l k : ℂ)) - z 1 k m * ((S.lap l : ℂ) * (S.radius : ℂ) * (S.vsht.w0 m l k : ℂ)) := by ring
      rw [e, wc0 k hk, wc1 k hk, hzz 0 (by norm_num) k, hzz 1 (by norm_num) k, mul_sum, sum_mul, sum_mul, mul_sum, ← sum_sub_distrib]
      refine sum_congr rfl fun j _ => ?_
      push_cast
      ring

/-! ### C24 -/

/-- C24. Vorticity and divergence of the wind of `z` are `z`, up to the part of `z` that no wind field determines (degree 0, orders above the
degree, imaginary parts at order 0). Content at the Nyquist order must be absent (`C18_nyquist_not_recovered`). -/
theorem C24_vorticity_of_wind (env : Env) (be : C2R) (A : SweArgs) (r : Rule) (d L : ℕ) (H : SweBuilt env A r d L) (z : Ten3 ℂ) (h0 : z.d0 = 2)
    (h1 : z.d1 = L) (h2 : z.d2 = L) (hny : ∀ e < 2, ∀ l < L, ∀ m < L, 2 * m = A.nlon → z.val e l m = 0) :
    ∃ S V z', Swe.init env A = .ok S ∧ S.getuv be z = .ok V ∧ S.vrtdivspec V = .ok z' ∧ z'.d0 = 2 ∧ z'.d1 = L ∧ z'.d2 = L ∧
      ∀ e < 2, ∀ l < L, ∀ m < L, z'.val e l m = vecAdmissible (z.val e) l m := by
  obtain ⟨S, hS, hI⟩ := swe_init H
  have hL := H.two
  have hn := H.lon_pos
  obtain ⟨T, I, V, c', hT, hI', hV, hc', d0, d1, d2, hv⟩ := C18_analysis_of_synthesis env be A.transform r d L hn H.rule H.exact H.trunc (by omega) H.deg H.ord
    ⟨z.d0, z.d1, z.d2, fun d l m => (S.invlap l : ℂ) * z.val d l m / (S.radius : ℂ)⟩ h0 h1 h2 (fun e he l hl m hm h => by
      dsimp only; rw [hny e he l hl m hm h]; simp)
  rw [hI.ivsht] at hI'; cases hI'
  rw [hI.vsht] at hT; cases hT
  refine ⟨S, V, ⟨c'.d0, c'.d1, c'.d2, fun d l m => (S.lap l : ℂ) * (S.radius : ℂ) * c'.val d l m⟩, hS, hV, ?_, d0, d1, d2, fun e he l hl m hm => ?_⟩
  · unfold Swe.vrtdivspec; rw [hc']
  · dsimp only
    rw [hv e he l hl m hm]
    unfold vecAdmissible
    split_ifs with ha hb
    · simp
    · have hl0 : l ≠ 0 := fun h => ha (Or.inl h)
      have hk : S.lap l * S.radius * (S.invlap l / S.radius) = 1 := by
        unfold Swe.lap Swe.invlap
        have hR : S.radius ≠ 0 := by rw [hI.radius]; exact H.radius_ne
        have hl1 : (l : ℝ) ≠ 0 := by exact_mod_cast hl0
        have hl2 : (l : ℝ) + 1 ≠ 0 := by positivity
        rw [if_neg hl0]
        field_simp
      have : ((S.invlap l : ℂ) * z.val e l m / (S.radius : ℂ)).re = S.invlap l / S.radius * (z.val e l m).re := by
        rw [Complex.div_ofReal_re, Complex.re_ofReal_mul]; ring
      rw [this]
      have hk' : (S.lap l : ℂ) * (S.radius : ℂ) * ((S.invlap l / S.radius : ℝ) : ℂ) = 1 := by exact_mod_cast hk
      rw [Complex.ofReal_mul, ← mul_assoc, hk', one_mul]
    · have hl0 : l ≠ 0 := fun h => ha (Or.inl h)
      have hk : S.lap l * S.radius * (S.invlap l / S.radius) = 1 := by
        unfold Swe.lap Swe.invlap
        have hR : S.radius ≠ 0 := by rw [hI.radius]; exact H.radius_ne
        have hl1 : (l : ℝ) ≠ 0 := by exact_mod_cast hl0
        have hl2 : (l : ℝ) + 1 ≠ 0 := by positivity
        rw [if_neg hl0]
        field_simp
      have hk' : (S.lap l : ℂ) * (S.radius : ℂ) * ((S.invlap l : ℂ) / (S.radius : ℂ)) = 1 := by exact_mod_cast hk
      linear_combination (z.val e l m) * hk'

/-- C24. Triangular arrays without degree-0 content, with a real order-0 column and no Nyquist content, are recovered exactly; and the wind is
recovered from its vorticity and divergence. -/
theorem C24_roundtrip (env : Env) (be : C2R) (A : SweArgs) (r : Rule) (d L : ℕ) (H : SweBuilt env A r d L) (z : Ten3 ℂ) (h0 : z.d0 = 2)
    (h1 : z.d1 = L) (h2 : z.d2 = L) (hny : ∀ e < 2, ∀ l < L, ∀ m < L, 2 * m = A.nlon → z.val e l m = 0)
    (htri : ∀ e < 2, ∀ l < L, ∀ m < L, l < m → z.val e l m = 0) (hzero : ∀ e < 2, z.val e 0 0 = 0)
    (hreal : ∀ e < 2, ∀ l < L, (z.val e l 0).im = 0) :
    ∃ S V z' V', Swe.init env A = .ok S ∧ S.getuv be z = .ok V ∧ S.vrtdivspec V = .ok z' ∧ S.getuv be z' = .ok V' ∧
      (∀ e < 2, ∀ l < L, ∀ m < L, z'.val e l m = z.val e l m) ∧ ∀ e < 2, ∀ k < A.nlat, ∀ j < A.nlon, V'.val e k j = V.val e k j := by
  obtain ⟨S, V, z', hS, hV, hz', d0, d1, d2, hv⟩ := C24_vorticity_of_wind env be A r d L H z h0 h1 h2 hny
  have hzz : ∀ e < 2, ∀ l < L, ∀ m < L, z'.val e l m = z.val e l m := by
    intro e he l hl m hm
    rw [hv e he l hl m hm]
    unfold vecAdmissible
    split_ifs with ha hb
    · rcases ha with ha | ha
      · subst ha
        by_cases hm0 : m = 0
        · subst hm0; rw [hzero e he]
        · rw [htri e he 0 hl m hm (by omega)]
      · rw [htri e he l hl m hm ha]
    · subst hb
      apply Complex.ext
      · simp
      · simp [hreal e he l hl]
    · rfl
  obtain ⟨S', hS', hI⟩ := swe_init H
  rw [hS] at hS'; cases hS'
  have hL := H.two
  have hn := H.lon_pos
  obtain ⟨f, e1, _, _, _, fv⟩ := inverseRealVectorSHT_forward be S.ivsht ⟨z.d0, z.d1, z.d2, fun d l m => (S.invlap l : ℂ) * z.val d l m / (S.radius : ℂ)⟩ h0
    (by rw [hI.s4.2.2.1]; exact h1) (by rw [hI.s4.2.2.2]; exact h2) (by rw [hI.s4.2.2.2]; omega) (by rw [hI.s4.2.1]; omega)
  obtain ⟨g, e2, _, _, _, gv⟩ := inverseRealVectorSHT_forward be S.ivsht ⟨z'.d0, z'.d1, z'.d2, fun d l m => (S.invlap l : ℂ) * z'.val d l m / (S.radius : ℂ)⟩ d0
    (by rw [hI.s4.2.2.1]; exact d1) (by rw [hI.s4.2.2.2]; exact d2) (by rw [hI.s4.2.2.2]; omega) (by rw [hI.s4.2.1]; omega)
  refine ⟨S, V, z', g, hS, hV, hz', e2, hzz, ?_⟩
  have : V = f := by
    have : (Except.ok V : Except PyErr _) = .ok f := by rw [← hV, ← e1]; rfl
    exact Except.ok.inj this
  subst this
  intro e he k _ j hj
  have hj' : j < S.ivsht.nlon := by rw [hI.s4.2.1]; exact hj
  rw [fv e he k j hj', gv e he k j hj']
  congr 1
  funext m
  have hvec : m < S.ivsht.mmax → vecSpec S.ivsht (fun d l m => (S.invlap l : ℂ) * z'.val d l m / (S.radius : ℂ)) e k m
      = vecSpec S.ivsht (fun d l m => (S.invlap l : ℂ) * z.val d l m / (S.radius : ℂ)) e k m := by
    intro hm
    rw [hI.s4.2.2.2] at hm
    unfold vecSpec
    rw [hI.s4.2.2.1]
    split_ifs
    · refine sum_congr rfl fun l hl => ?_
      dsimp only
      rw [hzz 0 (by norm_num) l (mem_range.1 hl) m hm, hzz 1 (by norm_num) l (mem_range.1 hl) m hm]
    · refine sum_congr rfl fun l hl => ?_
      dsimp only
      rw [hzz 0 (by norm_num) l (mem_range.1 hl) m hm, hzz 1 (by norm_num) l (mem_range.1 hl) m hm]
  by_cases hm : m < S.ivsht.mmax
  · rw [if_pos hm, if_pos hm, hvec hm]
  · rw [if_neg hm, if_neg hm]

/-- C24. The wind of `z`: with the stream function `psi` and the velocity potential `chi` (`psi`, `chi` solve `lap psi = vorticity`,
`lap chi = divergence`, coefficient by coefficient), `R u = d psi/d theta + (1/sin theta) d chi/d phi` and
`R v = (1/sin theta) d psi/d phi - d chi/d theta`, at every grid point (stated multiplied by `sin theta`; the series below carry the factor `1/R`). -/
theorem C24_wind (env : Env) (be : C2R) (A : SweArgs) (r : Rule) (d L : ℕ) (H : SweBuilt env A r d L) (z : Ten3 ℂ) (h0 : z.d0 = 2)
    (h1 : z.d1 = L) (h2 : z.d2 = L) (P : ℕ → ℕ → ℕ → ℂ)
    (hP0 : ∀ e < 2, ∀ m, P e 0 m = 0) (hP : ∀ e < 2, ∀ l : ℕ, 1 ≤ l → ∀ m, -((l * (l + 1) : ℝ) : ℂ) / (A.radius : ℂ) ^ 2 * ((A.radius : ℂ) * P e l m) = z.val e l m) :
    ∃ S V, Swe.init env A = .ok S ∧ S.getuv be z = .ok V ∧ V.d0 = 2 ∧ V.d1 = A.nlat ∧ V.d2 = A.nlon ∧
      ∀ k < A.nlat, ∀ j < A.nlon, ∃ pth pph cth cph : ℝ,
        HasDerivAt (fun th => harmonicSeries "ortho" false A.nlon L L (P 0) th (2 * Real.pi * j / A.nlon)) pth (Real.arccos (r.x (A.nlat - 1 - k))) ∧
        HasDerivAt (fun ph => harmonicSeries "ortho" false A.nlon L L (P 0) (Real.arccos (r.x (A.nlat - 1 - k))) ph) pph (2 * Real.pi * j / A.nlon) ∧
        HasDerivAt (fun th => harmonicSeries "ortho" false A.nlon L L (P 1) th (2 * Real.pi * j / A.nlon)) cth (Real.arccos (r.x (A.nlat - 1 - k))) ∧
        HasDerivAt (fun ph => harmonicSeries "ortho" false A.nlon L L (P 1) (Real.arccos (r.x (A.nlat - 1 - k))) ph) cph (2 * Real.pi * j / A.nlon) ∧
        Real.sin (Real.arccos (r.x (A.nlat - 1 - k))) * V.val 0 k j = Real.sin (Real.arccos (r.x (A.nlat - 1 - k))) * pth + cph ∧
        Real.sin (Real.arccos (r.x (A.nlat - 1 - k))) * V.val 1 k j = pph - Real.sin (Real.arccos (r.x (A.nlat - 1 - k))) * cth := by
  obtain ⟨S, hS, hI⟩ := swe_init H
  have hL := H.two
  obtain ⟨I, V, hI', hV, v0, v1, v2, hv⟩ := C19_vector_synthesis env be A.transform r d L H.lon_pos H.rule H.exact H.trunc (by omega)
    ⟨z.d0, z.d1, z.d2, fun d l m => (S.invlap l : ℂ) * z.val d l m / (S.radius : ℂ)⟩ h0 h1 h2
  rw [hI.ivsht] at hI'; cases hI'
  have hc : ∀ e < 2, (fun l m => (S.invlap l : ℂ) * z.val e l m / (S.radius : ℂ)) = P e := by
    intro e he
    funext l m
    by_cases hl : l = 0
    · subst hl; rw [hP0 e he m]; simp [Swe.invlap]
    · rw [← hP e he l (by omega) m]
      unfold Swe.invlap
      rw [if_neg hl, hI.radius]
      have hR : (A.radius : ℂ) ≠ 0 := by exact_mod_cast H.radius_ne
      have hl1 : (l : ℂ) ≠ 0 := by exact_mod_cast hl
      have hl2 : (l : ℂ) + 1 ≠ 0 := by exact_mod_cast Nat.succ_ne_zero l
      push_cast
      field_simp
  refine ⟨S, V, hS, hV, v0, v1, v2, fun k hk j hj => ?_⟩
  obtain ⟨a, b, c, e, q1, q2, q3, q4, q5, q6, _⟩ := hv k hk j hj
  have c0 := hc 0 (by norm_num)
  have c1 := hc 1 (by norm_num)
  dsimp only at q1 q2 q3 q4
  rw [c0] at q1 q2
  rw [c1] at q3 q4
  exact ⟨a, b, c, e, q1, q2, q3, q4, q5, q6⟩

/-- C24 (error branches). Fields and coefficient arrays of the wrong shape are rejected. -/
theorem C24_shape_errors (env : Env) (be : C2R) (A : SweArgs) (r : Rule) (d L : ℕ) (H : SweBuilt env A r d L) (z : Ten3 ℂ) (f : Ten3 ℝ) :
    ∃ S, Swe.init env A = .ok S ∧ (z.d0 ≠ 2 ∨ z.d1 ≠ L ∨ z.d2 ≠ L → S.getuv be z = .error .runtimeError) ∧
      (f.d0 ≠ 2 ∨ f.d1 ≠ A.nlat ∨ f.d2 ≠ A.nlon → S.vrtdivspec f = .error .runtimeError) := by
  obtain ⟨S, hS, hI⟩ := swe_init H
  refine ⟨S, hS, fun h => ?_, fun h => ?_⟩
  · exact (C18_shape_errors be S.vsht S.ivsht f ⟨z.d0, z.d1, z.d2, _⟩).2 (by rw [hI.s4.2.2.1, hI.s4.2.2.2]; exact h)
  · unfold Swe.vrtdivspec
    rw [(C18_shape_errors be S.vsht S.ivsht f z).1 (by rw [hI.s3.1, hI.s3.2.1]; exact h)]

/-- The solver is built, with every hypothesis above, at the default truncation on `equiangular` and `legendre-gauss` grids (three latitudes and two
longitudes are enough for two degrees). -/
theorem C22_default (env : Env) (A : SweArgs) (hg : A.grid = "equiangular" ∨ (A.grid = "legendre-gauss" ∧ IsGaussRule (env.gauss A.nlat) A.nlat))
    (h : 3 ≤ A.nlat) (h' : 2 ≤ A.nlon) (hl : A.lmax = none) (hm : A.mmax = none) (hR : A.radius ≠ 0) : ∃ r d L, SweBuilt env A r d L := by
  obtain ⟨r, d, L, h1, h2, h3, h4, h5, h6⟩ := default_grid env A.transform hg (by show 2 ≤ A.nlat; omega) (by show 1 ≤ A.nlon; omega) hl hm
  refine ⟨r, d, L, by omega, hR, h1, h2, h3, ?_, h5, h6⟩
  have hs : ∃ a : ℤ, 2 ≤ a ∧ truncateLmax A.nlat A.grid = .ok a := by
    rcases hg with hg | ⟨hg, _⟩
    · exact ⟨((A.nlat : ℤ) + 1) / 2, by omega, by rw [hg]; simp [truncateLmax]⟩
    · exact ⟨A.nlat, by omega, by rw [hg]; simp [truncateLmax]⟩
  obtain ⟨a, ha, hs⟩ := hs
  have h3' : sizes A.nlat A.nlon none none A.grid = .ok (L, L) := by
    have h3' : sizes A.nlat A.nlon A.lmax A.mmax A.grid = .ok (L, L) := h3
    rwa [hl, hm] at h3'
  have hb : (2 : ℤ) ≤ truncateMmax A.nlon := by unfold truncateMmax; omega
  unfold sizes truncateSht pyOr at h3'
  rw [hs] at h3'
  simp only [except_bind_ok, pure, Except.pure] at h3'
  rw [if_neg (by omega)] at h3'
  have := congrArg Prod.fst (Except.ok.inj h3')
  dsimp only at this
  omega

/-- Non-vacuity: the default solver grid, 16 latitudes and 32 longitudes, the Earth's radius. -/
example (env : Env) : ∃ r d L, SweBuilt env ⟨16, 32, 600, none, none, "equiangular", 6371220, 7292 / 100000000⟩ r d L :=
  C22_default env _ (Or.inl rfl) (by norm_num) (by norm_num) rfl rfl (by norm_num)

end Verif.Props
