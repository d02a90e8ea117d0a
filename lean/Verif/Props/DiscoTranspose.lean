import Verif.Model.DiscoTranspose
import Verif.Props.DiscoGeom
/-!
Property C37, the transposed layer: what the transposed convolution built from two grids computes.
-/
namespace Verif.Props
open Verif Verif.Dist Verif.Quad Verif.Filter Verif.Disco Verif.Spec Finset

/-- What a successful `transEntries` says. -/
theorem transEntries_ok {gauss : ℕ → Rule} {tol : ℝ} {maxiter nlatIn nlonIn nlatOut nlonOut : ℕ} {B : Basis} {gridIn gridOut mode : String}
    {theta : Option ℝ} {es : List (Entry ℝ)}
    (h : transEntries gauss tol maxiter nlatIn nlonIn nlatOut nlonOut B gridIn gridOut mode theta = .ok es) :
    ∃ cutoff rin rout, cutoff = theta.getD (Real.pi / ((nlatIn : ℝ) - 1)) ∧ 0 < cutoff ∧ 0 < nlonIn ∧ nlonIn ∣ nlonOut ∧ 0 < nlatIn ∧
      precomputeLatitudes gauss tol maxiter nlatIn gridIn = .ok rin ∧ precomputeLatitudes gauss tol maxiter nlatOut gridOut = .ok rout ∧
      Disco.normalize (preNorm ⟨nlatOut, nlonOut, nlatIn, nlonIn, B, gridOut, gridIn, cutoff, 1 / 10 ^ 3, true, mode, true⟩ rout rin) mode
        (rawEntries B rout.x rin.x nlatOut nlonOut nlatIn ((1 + 1 / 10 ^ 3) * cutoff)) = .ok es := by
  unfold transEntries at h
  split at h
  · cases h
  split at h
  · cases h
  split at h
  · cases h
  dsimp only at h
  split at h
  · cases h
  next h1 h2 h3 h4 =>
    refine ⟨theta.getD (Real.pi / ((nlatIn : ℝ) - 1)), ?_⟩
    unfold precompute at h
    dsimp only at h
    split at h
    · cases h
    next r hr =>
      split at hr
      · cases hr
      next rout hout =>
        split at hr
        · cases hr
        next rin hin =>
          split at hr
          · cases hr
          next h5 =>
            split at hr
            · cases hr
            next es' hn =>
              cases hr
              cases h
              refine ⟨rin, rout, rfl, not_le.1 h4, by omega, Nat.dvd_of_mod_eq_zero (by omega), by omega, hin, hout, hn⟩

/-- The sum over all taps, split by filter and row. -/
theorem sum_split (taps : List (Tap ℝ)) (K nt : ℕ) (h : ∀ a ∈ taps, a.ker < K ∧ a.latOut < nt) (f : Tap ℝ → ℝ) :
    (taps.map f).sum = ∑ k ∈ range K, ∑ t ∈ range nt, rowSum taps k t f := by
  unfold rowSum
  induction taps with
  | nil => simp
  | cons a l ih =>
    simp only [List.map_cons, List.sum_cons, sum_add_distrib]
    rw [← ih fun b hb => h b (List.mem_cons_of_mem _ hb)]
    congr 1
    obtain ⟨hk, ht⟩ := h a List.mem_cons_self
    rw [sum_eq_single_of_mem a.ker (mem_range.2 hk), sum_eq_single_of_mem a.latOut (mem_range.2 ht)]
    · simp
    · intro t _ hne; rw [if_neg]; rintro ⟨-, e⟩; exact hne e.symm
    · intro k _ hne; refine sum_eq_zero fun t _ => ?_; rw [if_neg]; rintro ⟨e, -⟩; exact hne e.symm

/-- The value the normalised transposed convolution has at output point `(i, j)` for one channel `x` on the input grid and filter `k`: every
input point `(t, p)` spreads its value with the filter centred there, weighted with its quadrature weight `w_t / (2 nlon)`; the result is
divided by the mean of the absolute filter value that the whole input grid puts on latitude `i`, averaged over the output longitudes. -/
noncomputable def spreadValue (B : Basis) (rin rout : Rule) (nlonIn nlonOut : ℕ) (rc : ℝ) (x : ℕ → ℕ → ℝ) (k i j : ℕ) : ℝ :=
  (∑ t ∈ range rin.n, ∑ p ∈ range nlonIn,
      psiAt B rout.x rin.x rc k t i (precomputeLongitudes nlonOut j - precomputeLongitudes nlonIn p) * (rin.w t / nlonIn / 2) * x t p)
    / max (∑ t ∈ range rin.n, ∑ j' ∈ range nlonOut,
      |psiAt B rout.x rin.x rc k t i (precomputeLongitudes nlonOut j')| * (rin.w t / nlonOut / 2)) (1 / 10 ^ 9)

/-- C37 together with C32 and C35, the whole transposed layer: for every grid, basis, cutoff, field and weight, the transposed layer built with
nodal normalisation returns at output point `(i, j)` the weighted sum over channels and filters of what the input points spread to it. -/
theorem C37_transpose_layer (gauss : ℕ → Rule) (tol : ℝ) (maxiter nlatIn nlonIn nlatOut nlonOut : ℕ) (B : Basis) (gridIn gridOut : String)
    (theta : Option ℝ) (es : List (Entry ℝ)) (rin rout : Rule)
    (hes : transEntries gauss tol maxiter nlatIn nlonIn nlatOut nlonOut B gridIn gridOut "nodal" theta = .ok es)
    (hin : precomputeLatitudes gauss tol maxiter nlatIn gridIn = .ok rin)
    (hout : precomputeLatitudes gauss tol maxiter nlatOut gridOut = .ok rout) (hn : rin.n = nlatIn)
    (hI : 0 < nlonOut) (hK : 0 < B.kernelSize) (hmask : B.mask.length = B.kernelSize)
    (L : Layer ℝ) (hL : L.entries = es ∧ L.kernelSize = B.kernelSize ∧ L.nlatIn = nlatIn ∧ L.nlonIn = nlonIn ∧ L.nlatOut = nlatOut ∧
      L.nlonOut = nlonOut) (x : Ten ℝ) (hx : x.d0 = L.groups * L.groupsize ∧ x.d1 = nlatIn ∧ x.d2 = nlonIn) :
    ∃ y, L.transposeForward x = .ok y ∧ y.d0 = L.groups * L.outPerGroup ∧ y.d1 = nlatOut ∧ y.d2 = nlonOut ∧
      ∀ oc, ∀ i < nlatOut, ∀ j < nlonOut, y.val oc i j = (∑ c ∈ range L.groupsize, ∑ k ∈ range B.kernelSize,
        spreadValue B rin rout nlonIn nlonOut ((1 + 1 / 10 ^ 3) * theta.getD (Real.pi / ((nlatIn : ℝ) - 1)))
          (x.val (oc / L.outPerGroup * L.groupsize + c)) k i j * L.weight oc c k)
        + (match L.bias with | none => 0 | some b => b oc) := by
  obtain ⟨cutoff, rin', rout', hc, hpos, hW, hd, -, hin', hout', hnorm⟩ := transEntries_ok hes
  rw [hin] at hin'; cases hin'
  rw [hout] at hout'; cases hout'
  rw [← hc]
  set rc := (1 + 1 / 10 ^ 3) * cutoff with hrc
  set P : PreArgs := ⟨nlatOut, nlonOut, nlatIn, nlonIn, B, gridOut, gridIn, cutoff, 1 / 10 ^ 3, true, "nodal", true⟩
  set taps := rawTaps B rout.x rin.x nlatOut nlonOut nlatIn rc with htaps
  have hfit := fits_rawTaps B rout.x rin.x nlatOut nlonOut nlatIn rc
  have hA : NormFits (preNorm P rout rin) taps := by
    refine ⟨hI, hfit, ?_, ?_, hK⟩
    · exact hn
    · intro m hm
      cases hm
      exact hmask
  have hq : ∀ t, (preNorm P rout rin).quad.val t = rin.w t / nlonOut / 2 := fun i => rfl
  have hval := normalize_val hA "nodal" (normAlias_nodal (Or.inl rfl) ▸ knownMode_nodal)
  rw [rawEntries_eq] at hnorm
  have hnorm' : Disco.normalize (preNorm P rout rin) "nodal" (taps.map (encode (preNorm P rout rin).nlonIn)) = .ok es := hnorm
  rw [hval, normAlias_nodal (Or.inl rfl)] at hnorm'
  injection hnorm' with hes'
  set taps' := taps.map fun a => { a with val := finishOf (preNorm P rout rin) a (selectOf (preNorm P rout rin) "nodal" taps a) }
  have hb : ∀ k t, biasOf (preNorm P rout rin) "nodal" taps k t = 0 := by
    intro k t; unfold biasOf; dsimp only; rw [if_neg (fun h => by simp at h)]
  have hS : ∀ k t, scaleOf (preNorm P rout rin) "nodal" taps k t = colSum taps k t fun a => |a.val| * (rin.w a.latOut / nlonOut / 2) := by
    intro k t
    unfold scaleOf
    rw [hb]
    simp only [sub_zero, hq]
    rfl
  have hv : ∀ a, finishOf (preNorm P rout rin) a (selectOf (preNorm P rout rin) "nodal" taps a)
      = a.val / max (colSum taps a.ker a.latIn fun a => |a.val| * (rin.w a.latOut / nlonOut / 2)) (1 / 10 ^ 9) * (rin.w a.latOut / nlonOut / 2)
        / ((nlonIn : ℝ) / nlonOut) := by
    intro a
    rw [← hS]
    unfold finishOf selectOf
    rw [hb]
    simp only [true_or, if_true, sub_zero, hq]
    rfl
  have hLof : TLayerOf L taps' := by
    obtain ⟨e1, e2, e3, e4, e5, e6⟩ := hL
    refine ⟨?_, ?_, by omega, by omega, by rw [e6, e4]; exact hd⟩
    · rw [e1, ← hes', e6]; rfl
    · intro a ha
      obtain ⟨b, hb, rfl⟩ := List.mem_map.1 ha
      rw [e2, e3, e6, e5]
      exact hfit b hb
  obtain ⟨y, h1, h2, h3, h4, h5⟩ := C32_transpose_layer L taps' hLof x ⟨hx.1, by rw [hx.2.1, hL.2.2.1], by rw [hx.2.2, hL.2.2.2.1]⟩
  obtain ⟨-, e2, -, e4, e5, e6⟩ := hL
  refine ⟨y, h1, h2, by rw [h3, e5], by rw [h4, e6], ?_⟩
  intro oc i hi j hj
  rw [h5 oc i j (by omega), e4, e6]
  refine congrArg₂ (· + ·) ?_ (by cases L.bias <;> rfl)
  generalize hz : (fun c => x.val (oc / L.outPerGroup * L.groupsize + c)) = z
  have hz' : ∀ c, x.val (oc / L.outPerGroup * L.groupsize + c) = z c := fun c => congrFun hz c
  simp only [hz']
  -- sums over the raw taps are sums over the two grids
  have hsum : ∀ k < B.kernelSize, ∀ t < nlatIn, ∀ f : ℕ → ℕ → ℝ → ℝ, (∀ i j, f i j 0 = 0) →
      rowSum taps k t (fun a => f a.latIn a.lonIn a.val)
      = ∑ i ∈ range nlatOut, ∑ j ∈ range nlonOut, f i j (psiAt B rout.x rin.x rc k t i (precomputeLongitudes nlonOut j)) := by
    intro k hk t ht f hf
    rw [htaps, sum_rawTaps B rout.x rin.x nlatOut nlonOut nlatIn rc k t hk ht]
    refine sum_congr rfl fun i _ => sum_congr rfl fun j _ => ?_
    unfold psiAt
    change _ = f i j ((fval B rout.x rin.x nlonOut rc k t i j).getD 0)
    cases fval B rout.x rin.x nlonOut rc k t i j with
    | none => exact (hf i j).symm
    | some v => rfl
  have hsplit := fun f => sum_split taps B.kernelSize nlatIn (fun a ha => ⟨(hfit a ha).1, (hfit a ha).2.1⟩) f
  set S : ℕ → ℝ := fun k => colSum taps k i fun a => |a.val| * (rin.w a.latOut / nlonOut / 2) with hSdef
  have hS2 : ∀ k < B.kernelSize, S k = ∑ t ∈ range rin.n, ∑ j' ∈ range nlonOut,
      |psiAt B rout.x rin.x rc k t i (precomputeLongitudes nlonOut j')| * (rin.w t / nlonOut / 2) := by
    intro k hk
    simp only [hSdef]
    unfold colSum
    rw [hsplit, sum_eq_single_of_mem k (mem_range.2 hk), hn]
    · refine sum_congr rfl fun t ht => ?_
      have ht := mem_range.1 ht
      rw [show rowSum taps k t (fun a => if a.ker = k ∧ a.latIn = i then |a.val| * (rin.w a.latOut / nlonOut / 2) else 0)
        = rowSum taps k t (fun a => if a.latIn = i then |a.val| * (rin.w t / nlonOut / 2) else 0) from by
          unfold rowSum
          congr 1
          refine List.map_congr_left fun a _ => ?_
          by_cases hc : a.ker = k ∧ a.latOut = t
          · rw [if_pos hc, if_pos hc]; simp only [hc.1, hc.2, true_and]
          · rw [if_neg hc, if_neg hc]]
      rw [hsum k hk t ht (fun i' _ v => if i' = i then |v| * (rin.w t / nlonOut / 2) else 0) (fun _ _ => by simp),
        sum_eq_single_of_mem i (mem_range.2 hi)]
      · simp
      · intro i' _ hne; simp [hne]
    · intro k' _ hne
      refine sum_eq_zero fun t _ => ?_
      unfold rowSum
      refine List.sum_eq_zero fun v hv => ?_
      obtain ⟨a, -, rfl⟩ := List.mem_map.1 hv
      by_cases hc : a.ker = k' ∧ a.latOut = t
      · rw [if_pos hc]
        exact if_neg (fun h : a.ker = k ∧ a.latIn = i => hne (hc.1.symm.trans h.1))
      · rw [if_neg hc]
  have hcol : ∀ k < B.kernelSize, ∀ t < nlatIn, ∀ p,
      rowSum taps k t (fun a => if a.latIn = i ∧ (a.lonIn + p * (nlonOut / nlonIn)) % nlonOut = j then a.val else 0)
        = psiAt B rout.x rin.x rc k t i (precomputeLongitudes nlonOut j - precomputeLongitudes nlonIn p) := by
    intro k hk t ht p
    rw [hsum k hk t ht (fun i' j' v => if i' = i ∧ (j' + p * (nlonOut / nlonIn)) % nlonOut = j then v else 0) (fun _ _ => by simp),
      sum_eq_single_of_mem i (mem_range.2 hi)]
    · have hsh := sum_shifted B rout.x rin.x rc k t i nlonOut nlonIn hW hI hd p (fun j' => if j' = j then 1 else 0)
      simp only [true_and]
      simp only [mul_ite, mul_one, mul_zero] at hsh
      rw [hsh, sum_eq_single_of_mem j (mem_range.2 hj)]
      · simp
      · intro j' _ hne; simp [hne]
    · intro i' _ hne; simp [hne]
  have hmain : discoAdjoint taps' nlonOut nlonIn (fun k t p => ∑ c ∈ range L.groupsize, z c t p * L.weight oc c k) i j
      = ∑ k ∈ range B.kernelSize, ∑ t ∈ range nlatIn, ∑ p ∈ range nlonIn,
        psiAt B rout.x rin.x rc k t i (precomputeLongitudes nlonOut j - precomputeLongitudes nlonIn p)
          * (1 / max (S k) (1 / 10 ^ 9) * (rin.w t / nlonOut / 2) / ((nlonIn : ℝ) / nlonOut)
            * ∑ c ∈ range L.groupsize, z c t p * L.weight oc c k) := by
    unfold discoAdjoint
    rw [show (taps'.map fun a => ∑ p ∈ range nlonIn, if a.latIn = i ∧ a.column nlonOut nlonIn p = j then
        a.val * ∑ c ∈ range L.groupsize, z c a.latOut p * L.weight oc c a.ker else 0)
      = taps.map fun a => ∑ p ∈ range nlonIn, (if a.latIn = i ∧ (a.lonIn + p * (nlonOut / nlonIn)) % nlonOut = j then a.val else 0)
          * (1 / max (S a.ker) (1 / 10 ^ 9) * (rin.w a.latOut / nlonOut / 2) / ((nlonIn : ℝ) / nlonOut)
            * ∑ c ∈ range L.groupsize, z c a.latOut p * L.weight oc c a.ker) from ?_]
    · rw [hsplit]
      refine sum_congr rfl fun k hk => sum_congr rfl fun t ht => ?_
      have hk := mem_range.1 hk
      have ht := mem_range.1 ht
      have hr : ∀ G : ℕ → ℝ, rowSum taps k t (fun a => ∑ p ∈ range nlonIn,
          (if a.latIn = i ∧ (a.lonIn + p * (nlonOut / nlonIn)) % nlonOut = j then a.val else 0) * G p)
          = ∑ p ∈ range nlonIn, rowSum taps k t
            (fun a => if a.latIn = i ∧ (a.lonIn + p * (nlonOut / nlonIn)) % nlonOut = j then a.val else 0) * G p := by
        intro G
        unfold rowSum
        clear * -
        induction taps with
        | nil => simp
        | cons a l ih =>
          simp only [List.map_cons, List.sum_cons, add_mul, sum_add_distrib]
          rw [← ih]
          congr 1
          by_cases hc : a.ker = k ∧ a.latOut = t
          · simp only [if_pos hc]
          · simp only [if_neg hc, zero_mul, sum_const_zero]
      rw [sum_congr rfl fun p _ => by rw [← hcol k hk t ht p], ← hr]
      unfold rowSum
      congr 1
      refine List.map_congr_left fun a _ => ?_
      by_cases hc : a.ker = k ∧ a.latOut = t
      · simp only [hc.1, hc.2]
      · simp only [if_neg hc]
    · simp only [taps', List.map_map]
      refine List.map_congr_left fun a _ => ?_
      simp only [Function.comp]
      refine sum_congr rfl fun p _ => ?_
      have hcolumn : Tap.column { a with val := finishOf (preNorm P rout rin) a (selectOf (preNorm P rout rin) "nodal" taps a) } nlonOut nlonIn p
        = (a.lonIn + p * (nlonOut / nlonIn)) % nlonOut := rfl
      rw [hcolumn]
      by_cases hcond : a.latIn = i ∧ (a.lonIn + p * (nlonOut / nlonIn)) % nlonOut = j
      · rw [if_pos hcond, if_pos hcond, hv a, hcond.1]
        ring
      · rw [if_neg hcond, if_neg hcond, zero_mul]
  rw [hmain]
  have hO : (nlonOut : ℝ) ≠ 0 := by positivity
  have hN : (nlonIn : ℝ) ≠ 0 := by positivity
  simp only [spreadValue]
  rw [sum_comm (s := range L.groupsize)]
  refine sum_congr rfl fun k hk => ?_
  rw [← hS2 k (mem_range.1 hk), hn]
  generalize max (S k) (1 / 10 ^ 9) = D
  simp only [sum_div, sum_mul, mul_sum]
  rw [sum_comm (s := range L.groupsize) (t := range nlatIn)]
  refine sum_congr rfl fun t _ => ?_
  rw [sum_comm]
  refine sum_congr rfl fun c _ => sum_congr rfl fun p _ => ?_
  have : rin.w t / nlonOut / 2 / ((nlonIn : ℝ) / nlonOut) = rin.w t / nlonIn / 2 := by field_simp
  rw [← this]
  ring

/-- C37: requests the constructor of the transposed layer refuses. -/
theorem C37_transpose_error (gauss : ℕ → Rule) (tol : ℝ) (maxiter nlatIn nlonIn nlatOut nlonOut : ℕ) (B : Basis) (gridIn gridOut mode : String)
    (theta : Option ℝ) :
    (0 < nlonIn → ¬ nlonIn ∣ nlonOut →
      transEntries gauss tol maxiter nlatIn nlonIn nlatOut nlonOut B gridIn gridOut mode theta = .error .valueError) ∧
    (∀ c, theta = some c → c ≤ 0 → 0 < nlonIn →
      transEntries gauss tol maxiter nlatIn nlonIn nlatOut nlonOut B gridIn gridOut mode theta = .error .valueError) ∧
    (theta = none → nlatIn = 1 → 0 < nlonIn → nlonIn ∣ nlonOut →
      transEntries gauss tol maxiter nlatIn nlonIn nlatOut nlonOut B gridIn gridOut mode theta = .error .zeroDivision) := by
  unfold transEntries
  refine ⟨fun h1 h2 => ?_, fun c hc h1 h2 => ?_, fun h1 h2 h3 h4 => ?_⟩
  · rw [if_neg (by omega), if_pos (fun h => h2 (Nat.dvd_of_mod_eq_zero h))]
  · subst hc
    rw [if_neg (by omega)]
    by_cases h3 : nlonOut % nlonIn ≠ 0
    · rw [if_pos h3]
    · rw [if_neg h3, if_neg (fun h => by simp at h)]
      dsimp only [Option.getD_some]
      rw [if_pos h1]
  · rw [if_neg (by omega), if_neg (by rw [not_not]; exact Nat.mod_eq_zero_of_dvd h4), if_pos ⟨h1, h2⟩]

/-- C37: on equiangular grids and with the piecewise linear basis the construction succeeds, so `C37_transpose_layer` applies to it. -/
theorem C37_transpose_exists (gauss : ℕ → Rule) (tol : ℝ) (maxiter nlatIn nlonIn nlatOut nlonOut nr nphi : ℕ) (hin : 2 ≤ nlatIn) (hout : 2 ≤ nlatOut)
    (hI : 0 < nlonOut) (hW : 0 < nlonIn) (hd : nlonIn ∣ nlonOut) (hK : 0 < plKernelSize nr nphi) :
    ∃ es rin rout, transEntries gauss tol maxiter nlatIn nlonIn nlatOut nlonOut (plBasis nr nphi) "equiangular" "equiangular" "nodal" none = .ok es ∧
      precomputeLatitudes gauss tol maxiter nlatIn "equiangular" = .ok rin ∧ rin.n = nlatIn ∧
      precomputeLatitudes gauss tol maxiter nlatOut "equiangular" = .ok rout ∧ (plBasis nr nphi).mask.length = (plBasis nr nphi).kernelSize := by
  obtain ⟨rin, h1, h2, -⟩ := C05_equiangular_latitudes gauss tol maxiter nlatIn hin
  obtain ⟨rout, h3, h4, -⟩ := C05_equiangular_latitudes gauss tol maxiter nlatOut hout
  have hpos : 0 < Real.pi / ((nlatIn : ℝ) - 1) := by
    have : (2 : ℝ) ≤ nlatIn := by exact_mod_cast hin
    exact div_pos Real.pi_pos (by linarith)
  have hA : NormFits (preNorm ⟨nlatOut, nlonOut, nlatIn, nlonIn, plBasis nr nphi, "equiangular", "equiangular",
      Real.pi / ((nlatIn : ℝ) - 1), 1 / 10 ^ 3, true, "nodal", true⟩ rout rin)
      (rawTaps (plBasis nr nphi) rout.x rin.x nlatOut nlonOut nlatIn ((1 + 1 / 10 ^ 3) * (Real.pi / ((nlatIn : ℝ) - 1)))) := by
    refine ⟨hI, fits_rawTaps _ _ _ _ _ _ _, h2, ?_, hK⟩
    intro m hm
    cases hm
    exact C60_pl_mask_length nr nphi
  have hval := normalize_val hA "nodal" (normAlias_nodal (Or.inl rfl) ▸ knownMode_nodal)
  suffices h : ∃ es, transEntries gauss tol maxiter nlatIn nlonIn nlatOut nlonOut (plBasis nr nphi) "equiangular" "equiangular" "nodal"
      none = .ok es by
    obtain ⟨es, h⟩ := h
    exact ⟨es, rin, rout, h, h1, h2, h3, C60_pl_mask_length nr nphi⟩
  unfold transEntries
  rw [if_neg (by omega), if_neg (by rw [not_not]; exact Nat.mod_eq_zero_of_dvd hd), if_neg (fun h => by omega)]
  dsimp only [Option.getD_none]
  rw [if_neg (not_le.2 hpos)]
  unfold precompute
  dsimp only
  rw [h3]
  dsimp only
  rw [h1]
  dsimp only
  rw [if_neg (by omega), rawEntries_eq]
  have := hval
  dsimp only [preNorm] at this
  dsimp only [preNorm]
  rw [this]
  exact ⟨_, rfl⟩

/-- A transposed layer from a 4 x 8 to an 8 x 16 grid. -/
example (gauss : ℕ → Rule) : ∃ es rin rout, transEntries gauss 0 0 4 8 8 16 (plBasis 3 4) "equiangular" "equiangular" "nodal" none = .ok es ∧
      precomputeLatitudes gauss 0 0 4 "equiangular" = .ok rin ∧ rin.n = 4 ∧
      precomputeLatitudes gauss 0 0 8 "equiangular" = .ok rout ∧ (plBasis 3 4).mask.length = (plBasis 3 4).kernelSize :=
  C37_transpose_exists gauss 0 0 4 8 8 16 3 4 (by norm_num) (by norm_num) (by norm_num) (by norm_num) (by norm_num) (by decide)

end Verif.Props
