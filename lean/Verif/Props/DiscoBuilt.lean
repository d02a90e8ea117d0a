import Verif.Props.DiscoTransPaths
import Verif.Props.DiscoTranspose
/-!
C94 and C98 for layers as their constructors build them: the filter that is stored meets the conditions of the optimized kernels, and on every
path and device the output is the geometric value of C37.
-/
namespace Verif.Props
open Verif Verif.Dist Verif.Quad Verif.Filter Verif.Spec Verif.Disco Finset

/-- Other values in the same places: the order of the entries does not change. -/
theorem order_vals (W K : ℕ) (taps : List (Tap ℝ)) (v : Tap ℝ → ℝ) :
    (RowSorted (taps.map (encode W)) → RowSorted ((taps.map fun a => { a with val := v a }).map (encode W))) ∧
    (LatSorted W (taps.map (encode W)) → LatSorted W ((taps.map fun a => { a with val := v a }).map (encode W))) ∧
    (NoCollision K (taps.map (encode W)) → NoCollision K ((taps.map fun a => { a with val := v a }).map (encode W))) := by
  refine ⟨fun h k => ?_, fun h k => ?_, fun h => ?_⟩
  · have := h k
    rw [List.filter_map, List.pairwise_map] at this
    rw [List.map_map, List.filter_map, List.pairwise_map]
    exact this
  · have := h k
    rw [List.filter_map, List.pairwise_map] at this
    rw [List.map_map, List.filter_map, List.pairwise_map]
    exact this
  · unfold NoCollision byKernel at *
    simp only [List.map_map, List.filter_map] at *
    rw [← List.map_flatMap, List.isChain_map] at h ⊢
    exact h

/-- C94: the filter that the constructor of `DiscreteContinuousConvS2` stores, in every normalisation mode, meets the conditions of C94 when every filter reaches
every output latitude. -/
theorem C94_conditions (gauss : ℕ → Rule) (tol : ℝ) (maxiter nlatIn nlonIn nlatOut nlonOut : ℕ) (B : Basis) (gridIn gridOut mode : String)
    (theta : Option ℝ) (es : List (Entry ℝ)) (rin rout : Rule) (hmode : knownMode (normAlias mode))
    (hes : convEntries gauss tol maxiter nlatIn nlonIn nlatOut nlonOut B gridIn gridOut mode theta = .ok es)
    (hin : precomputeLatitudes gauss tol maxiter nlatIn gridIn = .ok rin)
    (hout : precomputeLatitudes gauss tol maxiter nlatOut gridOut = .ok rout) (hn : rin.n = nlatIn)
    (hI : 0 < nlonIn) (hK : 0 < B.kernelSize) (hmask : B.mask.length = B.kernelSize) (h2 : 2 ≤ nlatOut)
    (hall : ∀ k < B.kernelSize, ∀ t < nlatOut, ∃ e ∈ rawEntries B rin.x rout.x nlatIn nlonIn nlatOut
      ((1 + 1 / 10 ^ 3) * theta.getD (Real.pi / ((nlatOut : ℝ) - 1))), e.ker = k ∧ e.row = t)
    (L : Layer ℝ) (hL : L.entries = es ∧ L.kernelSize = B.kernelSize ∧ L.nlatIn = nlatIn ∧ L.nlonIn = nlonIn ∧ L.nlatOut = nlatOut ∧
      L.nlonOut = nlonOut) :
    ∃ taps, FusedOf L taps ∧ LatSorted L.nlonIn (taps.map (encode L.nlonIn)) := by
  obtain ⟨cutoff, rin', rout', hc, hpos, hW, hd, -, hin', hout', hnorm⟩ := convEntries_ok hes
  rw [hin] at hin'; cases hin'
  rw [hout] at hout'; cases hout'
  rw [← hc] at hall
  have hfit := fits_rawTaps B rin.x rout.x nlatIn nlonIn nlatOut ((1 + 1 / 10 ^ 3) * cutoff)
  have hrow := rowSorted_rawEntries B rin.x rout.x nlatIn nlonIn nlatOut ((1 + 1 / 10 ^ 3) * cutoff)
  have hlat := C65_layer_lists_latitudes B rin.x rout.x nlatIn nlonIn nlatOut ((1 + 1 / 10 ^ 3) * cutoff)
  have hnc := C37_no_collision B rin.x rout.x nlatIn nlonIn nlatOut ((1 + 1 / 10 ^ 3) * cutoff) h2 hall
  obtain ⟨e0, he0, -⟩ := hall 0 hK 0 (by omega)
  rw [rawEntries_eq] at hnorm hrow hlat hnc he0
  set taps := rawTaps B rin.x rout.x nlatIn nlonIn nlatOut ((1 + 1 / 10 ^ 3) * cutoff) with htaps
  set P : PreArgs := ⟨nlatIn, nlonIn, nlatOut, nlonOut, B, gridIn, gridOut, cutoff, 1 / 10 ^ 3, false, mode, true⟩
  have hA : NormFits (preNorm P rin rout) taps := by
    refine ⟨hI, hfit, hn, ?_, hK⟩
    intro m hm
    cases hm
    exact hmask
  have hnorm' : Disco.normalize (preNorm P rin rout) mode (taps.map (encode (preNorm P rin rout).nlonIn)) = .ok es := hnorm
  rw [normalize_val hA mode hmode] at hnorm'
  injection hnorm' with hes'
  obtain ⟨o1, o2, o3⟩ := order_vals nlonIn B.kernelSize taps
    (fun a => finishOf (preNorm P rin rout) a (selectOf (preNorm P rin rout) (normAlias mode) taps a))
  obtain ⟨e1, e2, e3, e4, e5, e6⟩ := hL
  refine ⟨taps.map fun a => { a with val := finishOf (preNorm P rin rout) a (selectOf (preNorm P rin rout) (normAlias mode) taps a) },
    ⟨?_, ?_, by omega, by omega, by rw [e6, e4]; exact hd, ?_, ?_, ?_⟩, ?_⟩
  · rw [e1, ← hes', e4]; rfl
  · intro a ha
    obtain ⟨b, hb, rfl⟩ := List.mem_map.1 ha
    rw [e2, e3, e4, e5]
    exact hfit b hb
  · intro h
    rw [List.map_eq_nil_iff.1 h] at he0
    cases he0
  · rw [e4]; exact o1 hrow
  · rw [e4, e2]; exact o3 hnc
  · rw [e4]; exact o2 hlat

/-- C98: the filter that the constructor of `DiscreteContinuousConvTransposeS2` stores, in every normalisation mode, meets the conditions of C98 when every filter
reaches every input latitude. -/
theorem C98_conditions (gauss : ℕ → Rule) (tol : ℝ) (maxiter nlatIn nlonIn nlatOut nlonOut : ℕ) (B : Basis) (gridIn gridOut mode : String)
    (theta : Option ℝ) (es : List (Entry ℝ)) (rin rout : Rule) (hmode : knownMode (normAlias mode))
    (hes : transEntries gauss tol maxiter nlatIn nlonIn nlatOut nlonOut B gridIn gridOut mode theta = .ok es)
    (hin : precomputeLatitudes gauss tol maxiter nlatIn gridIn = .ok rin)
    (hout : precomputeLatitudes gauss tol maxiter nlatOut gridOut = .ok rout) (hn : rin.n = nlatIn)
    (hI : 0 < nlonOut) (hK : 0 < B.kernelSize) (hmask : B.mask.length = B.kernelSize) (h2 : 2 ≤ nlatIn)
    (hall : ∀ k < B.kernelSize, ∀ t < nlatIn, ∃ e ∈ rawEntries B rout.x rin.x nlatOut nlonOut nlatIn
      ((1 + 1 / 10 ^ 3) * theta.getD (Real.pi / ((nlatIn : ℝ) - 1))), e.ker = k ∧ e.row = t)
    (L : Layer ℝ) (hL : L.entries = es ∧ L.kernelSize = B.kernelSize ∧ L.nlatIn = nlatIn ∧ L.nlonIn = nlonIn ∧ L.nlatOut = nlatOut ∧
      L.nlonOut = nlonOut) :
    ∃ taps, TransOf L taps ∧ TLayerOf L taps ∧ LatSorted L.nlonOut (taps.map (encode L.nlonOut)) := by
  obtain ⟨cutoff, rin', rout', hc, hpos, hW, hd, -, hin', hout', hnorm⟩ := transEntries_ok hes
  rw [hin] at hin'; cases hin'
  rw [hout] at hout'; cases hout'
  rw [← hc] at hall
  have hfit := fits_rawTaps B rout.x rin.x nlatOut nlonOut nlatIn ((1 + 1 / 10 ^ 3) * cutoff)
  have hrow := rowSorted_rawEntries B rout.x rin.x nlatOut nlonOut nlatIn ((1 + 1 / 10 ^ 3) * cutoff)
  have hlat := C65_layer_lists_latitudes B rout.x rin.x nlatOut nlonOut nlatIn ((1 + 1 / 10 ^ 3) * cutoff)
  have hnc := C37_no_collision B rout.x rin.x nlatOut nlonOut nlatIn ((1 + 1 / 10 ^ 3) * cutoff) h2 hall
  obtain ⟨e0, he0, -⟩ := hall 0 hK 0 (by omega)
  rw [rawEntries_eq] at hnorm hrow hlat hnc he0
  set taps := rawTaps B rout.x rin.x nlatOut nlonOut nlatIn ((1 + 1 / 10 ^ 3) * cutoff) with htaps
  set P : PreArgs := ⟨nlatOut, nlonOut, nlatIn, nlonIn, B, gridOut, gridIn, cutoff, 1 / 10 ^ 3, true, mode, true⟩
  have hA : NormFits (preNorm P rout rin) taps := by
    refine ⟨hI, hfit, hn, ?_, hK⟩
    intro m hm
    cases hm
    exact hmask
  have hnorm' : Disco.normalize (preNorm P rout rin) mode (taps.map (encode (preNorm P rout rin).nlonIn)) = .ok es := hnorm
  rw [normalize_val hA mode hmode] at hnorm'
  injection hnorm' with hes'
  obtain ⟨o1, o2, o3⟩ := order_vals nlonOut B.kernelSize taps
    (fun a => finishOf (preNorm P rout rin) a (selectOf (preNorm P rout rin) (normAlias mode) taps a))
  obtain ⟨e1, e2, e3, e4, e5, e6⟩ := hL
  have hent : L.entries = (taps.map fun a => { a with val := finishOf (preNorm P rout rin) a (selectOf (preNorm P rout rin) (normAlias mode) taps a) }).map
      (encode L.nlonOut) := by rw [e1, ← hes', e6]; rfl
  have hfit' : Fits (taps.map fun a => { a with val := finishOf (preNorm P rout rin) a (selectOf (preNorm P rout rin) (normAlias mode) taps a) })
      L.kernelSize L.nlatIn L.nlatOut L.nlonOut := by
    intro a ha
    obtain ⟨b, hb, rfl⟩ := List.mem_map.1 ha
    rw [e2, e3, e5, e6]
    exact hfit b hb
  refine ⟨taps.map fun a => { a with val := finishOf (preNorm P rout rin) a (selectOf (preNorm P rout rin) (normAlias mode) taps a) },
    ⟨hent, hfit', by omega, ?_, ?_, ?_⟩, ⟨hent, hfit', by omega, by omega, by rw [e6, e4]; exact hd⟩, ?_⟩
  · intro h
    rw [List.map_eq_nil_iff.1 h] at he0
    cases he0
  · rw [e6]; exact o1 hrow
  · rw [e6, e2]; exact o3 hnc
  · rw [e6]; exact o2 hlat

/-- C94 and C37 together: a layer built by the constructor with nodal normalisation, all of whose filters reach all output latitudes, returns on each of
its seven paths and on every device the filtered values of the field, for every item of the batch. -/
theorem C94_built (gauss : ℕ → Rule) (tol : ℝ) (maxiter nlatIn nlonIn nlatOut nlonOut : ℕ) (B : Basis) (gridIn gridOut : String)
    (theta : Option ℝ) (es : List (Entry ℝ)) (rin rout : Rule)
    (hes : convEntries gauss tol maxiter nlatIn nlonIn nlatOut nlonOut B gridIn gridOut "nodal" theta = .ok es)
    (hin : precomputeLatitudes gauss tol maxiter nlatIn gridIn = .ok rin)
    (hout : precomputeLatitudes gauss tol maxiter nlatOut gridOut = .ok rout) (hn : rin.n = nlatIn)
    (hI : 0 < nlonIn) (hK : 0 < B.kernelSize) (hmask : B.mask.length = B.kernelSize) (hle : nlatOut ≤ nlonIn) (h2 : 2 ≤ nlatOut)
    (hall : ∀ k < B.kernelSize, ∀ t < nlatOut, ∃ e ∈ rawEntries B rin.x rout.x nlatIn nlonIn nlatOut
      ((1 + 1 / 10 ^ 3) * theta.getD (Real.pi / ((nlatOut : ℝ) - 1))), e.ker = k ∧ e.row = t)
    (L : Layer ℝ) (hL : L.entries = es ∧ L.kernelSize = B.kernelSize ∧ L.nlatIn = nlatIn ∧ L.nlonIn = nlonIn ∧ L.nlatOut = nlatOut ∧
      L.nlonOut = nlonOut) :
    ∃ taps, FusedOf L taps ∧ LatSorted L.nlonIn (taps.map (encode L.nlonIn)) ∧ ∀ (junk : ℕ → Entry ℝ) (F : Buffers ℝ), layerBuffers junk L = .ok F →
      ∀ (c : Call ℝ) (optimized fused : Bool) (path : ConvPath), c.path optimized fused L F = .ok path → CallOk c L taps → WeightTypeOk c path →
      ∀ (N : ℕ) (x : Ten ℝ), x.d0 = N * (L.groups * L.groupsize) → x.d1 = nlatIn → x.d2 = nlonIn →
        (c.device.isSome → 0 < x.d0 ∧ x.d0 ≤ planeLimit path) →
      ∃ y, c.forward L F path N (L.groups * L.groupsize) x = .ok (outType c L path, y) ∧ y.d0 = N * (L.groups * L.outPerGroup) ∧
        ∀ b < N, ∀ oc < L.groups * L.outPerGroup, ∀ t < nlatOut, ∀ p < nlonOut,
          y.val (b * (L.groups * L.outPerGroup) + oc) t p = (∑ ch ∈ range L.groupsize, ∑ k ∈ range B.kernelSize,
            filteredValue B rin rout nlonIn nlonOut ((1 + 1 / 10 ^ 3) * theta.getD (Real.pi / ((nlatOut : ℝ) - 1)))
              (x.val (b * (L.groups * L.groupsize) + (oc / L.outPerGroup * L.groupsize + ch))) k t p * L.weight oc ch k)
            + (match L.bias with | none => 0 | some β => β oc) := by
  obtain ⟨taps, hF, hlat⟩ := C94_conditions gauss tol maxiter nlatIn nlonIn nlatOut nlonOut B gridIn gridOut "nodal" theta es rin rout
    (normAlias_nodal (Or.inl rfl) ▸ knownMode_nodal) hes hin hout hn hI hK hmask h2 hall L hL
  refine ⟨taps, hF, hlat, fun junk F hbuf c optimized fused path hpath hcok hw N x x0 x1 x2 hlim => ?_⟩
  have hL' := hL
  obtain ⟨e1, e2, e3, e4, e5, e6⟩ := hL'
  obtain ⟨y, y1, y2, -, -, y5⟩ := (C94_output hF hbuf (by omega) (by omega) c optimized fused path hpath hcok N x x0 (by omega) (by omega) hlim
    (fun _ => by omega)).1 hw
  refine ⟨y, y1, y2, fun b hb oc hoc t ht p hp => ?_⟩
  rw [y5 b hb oc hoc t (by omega) p (by omega)]
  have hit : (item x (L.groups * L.groupsize) b).d0 = L.groups * L.groupsize ∧ (item x (L.groups * L.groupsize) b).d1 = nlatIn ∧
    (item x (L.groups * L.groupsize) b).d2 = nlonIn := ⟨rfl, x1, x2⟩
  obtain ⟨z, z1, -, -, -, z5⟩ := C37_layer gauss tol maxiter nlatIn nlonIn nlatOut nlonOut B gridIn gridOut theta es rin rout hes hin hout hn hI hK hmask
    hle L hL _ hit
  obtain ⟨z', w1, -, -, -, w5⟩ := C28_layer L taps ⟨hF.entries, hF.fits, hF.nlonOut, hF.dvd, by omega⟩ (item x (L.groups * L.groupsize) b)
    ⟨rfl, by rw [e3]; exact x1, by rw [e4]; exact x2⟩
  rw [z1] at w1
  cases w1
  have hz := z5 oc t ht p hp
  rw [w5 oc t p (by omega)] at hz
  exact hz

/-- C98 and C37 together: a transposed layer built by the constructor with nodal normalisation, all of whose filters reach all input latitudes, returns on
both paths and on every device the spread values of the field, for every item of the batch. -/
theorem C98_built (gauss : ℕ → Rule) (tol : ℝ) (maxiter nlatIn nlonIn nlatOut nlonOut : ℕ) (B : Basis) (gridIn gridOut : String)
    (theta : Option ℝ) (es : List (Entry ℝ)) (rin rout : Rule)
    (hes : transEntries gauss tol maxiter nlatIn nlonIn nlatOut nlonOut B gridIn gridOut "nodal" theta = .ok es)
    (hin : precomputeLatitudes gauss tol maxiter nlatIn gridIn = .ok rin)
    (hout : precomputeLatitudes gauss tol maxiter nlatOut gridOut = .ok rout) (hn : rin.n = nlatIn)
    (hI : 0 < nlonOut) (hK : 0 < B.kernelSize) (hmask : B.mask.length = B.kernelSize) (h2 : 2 ≤ nlatIn)
    (hall : ∀ k < B.kernelSize, ∀ t < nlatIn, ∃ e ∈ rawEntries B rout.x rin.x nlatOut nlonOut nlatIn
      ((1 + 1 / 10 ^ 3) * theta.getD (Real.pi / ((nlatIn : ℝ) - 1))), e.ker = k ∧ e.row = t)
    (L : Layer ℝ) (hL : L.entries = es ∧ L.kernelSize = B.kernelSize ∧ L.nlatIn = nlatIn ∧ L.nlonIn = nlonIn ∧ L.nlatOut = nlatOut ∧
      L.nlonOut = nlonOut) :
    ∃ taps, TransOf L taps ∧ LatSorted L.nlonOut (taps.map (encode L.nlonOut)) ∧ ∀ (junk : ℕ → Entry ℝ) (A : Csr ℝ), transBuffers junk L = .ok A →
      ∀ (c : TCall ℝ) (optimized : Bool), HalfAutocast c.ac → TransTypesOk c →
      ∀ (N : ℕ) (x : Ten ℝ), x.d1 = nlatIn → x.d2 = nlonIn →
        (optimized = true → TDevOk c.gpu c.dev L taps nlonIn (N * (L.groups * L.outPerGroup))) →
      ∃ y, c.forward optimized L A N (L.groups * L.groupsize) x = .ok (transOutType c L optimized, y) ∧ y.d0 = N * (L.groups * L.outPerGroup) ∧
        ∀ b < N, ∀ g < L.groups, ∀ o < L.outPerGroup, ∀ i < nlatOut, ∀ j < nlonOut,
          y.val (b * (L.groups * L.outPerGroup) + (g * L.outPerGroup + o)) i j = (∑ ch ∈ range L.groupsize, ∑ k ∈ range B.kernelSize,
            spreadValue B rin rout nlonIn nlonOut ((1 + 1 / 10 ^ 3) * theta.getD (Real.pi / ((nlatIn : ℝ) - 1)))
              (x.val (b * (L.groups * L.groupsize) + (g * L.groupsize + ch))) k i j * L.weight (g * L.outPerGroup + o) ch k)
            + (match L.bias with | none => 0 | some β => β (g * L.outPerGroup + o)) := by
  obtain ⟨taps, hT, hTL, hlat⟩ := C98_conditions gauss tol maxiter nlatIn nlonIn nlatOut nlonOut B gridIn gridOut "nodal" theta es rin rout
    (normAlias_nodal (Or.inl rfl) ▸ knownMode_nodal) hes hin hout hn hI hK hmask h2 hall L hL
  refine ⟨taps, hT, hlat, fun junk A hbuf c optimized hac ht N x x1 x2 hdev => ?_⟩
  have hL' := hL
  obtain ⟨e1, e2, e3, e4, e5, e6⟩ := hL'
  obtain ⟨y, y1, y2, -, -, y5⟩ := (C98_output hT hbuf c hac optimized N x (by omega) (by rw [x2, ← e4]; exact hTL.nlon)
    (by rw [x2, ← e4]; exact hTL.dvd) (by rw [x2]; exact hdev)).1 ht
  refine ⟨y, y1, y2, fun b hb g hg o ho i hi j hj => ?_⟩
  rw [y5 b hb g hg o ho i j (by omega)]
  have hit : (item x (L.groups * L.groupsize) b).d0 = L.groups * L.groupsize ∧ (item x (L.groups * L.groupsize) b).d1 = nlatIn ∧
    (item x (L.groups * L.groupsize) b).d2 = nlonIn := ⟨rfl, x1, x2⟩
  obtain ⟨z, z1, -, -, -, z5⟩ := C37_transpose_layer gauss tol maxiter nlatIn nlonIn nlatOut nlonOut B gridIn gridOut theta es rin rout hes hin hout hn hI
    hK hmask L hL _ hit
  obtain ⟨z', w1, -, -, -, w5⟩ := C32_transpose_layer L taps hTL (item x (L.groups * L.groupsize) b)
    ⟨rfl, by rw [e3]; exact x1, by rw [e4]; exact x2⟩
  rw [z1] at w1
  cases w1
  have hz := z5 (g * L.outPerGroup + o) i hi j hj
  rw [w5 (g * L.outPerGroup + o) i j (by omega), col_div ho, e4, ← x2] at hz
  rw [← x2]
  exact hz

/-- The condition on the filters holds for the Zernike and harmonic bases when every latitude of the rows is one of the columns. -/
theorem reach_same_grid (B : Basis) (hB : FullDisk B) (latsIn latsOut : ℕ → ℝ) (nlatIn nlonIn nlatOut : ℕ) (rc : ℝ) (hrc : 0 ≤ rc)
    (hI : 0 < nlonIn) (hsub : ∀ t < nlatOut, ∃ i < nlatIn, latsIn i = latsOut t) :
    ∀ k < B.kernelSize, ∀ t < nlatOut, ∃ e ∈ rawEntries B latsIn latsOut nlatIn nlonIn nlatOut rc, e.ker = k ∧ e.row = t := by
  intro k hk t ht
  obtain ⟨i, hi, he⟩ := hsub t ht
  obtain ⟨e, h, h1, h3, -⟩ := (C37_within_cutoff B hB latsIn latsOut nlatIn nlonIn nlatOut rc k t i 0 hk ht hi hI).2 (by
    rw [he, (C05_longitudes nlonIn 0 hI).2.1]
    unfold geodesic
    rw [dot_point, Real.arccos_one]
    exact hrc)
  exact ⟨e, h, h1, h3⟩

/-- The constructions of `C94_built` and `C98_built` succeed, and all filters reach all latitudes: equiangular grids with equally many latitudes, Zernike basis. -/
theorem C94_built_exists (gauss : ℕ → Rule) (tol : ℝ) (maxiter n m m' N : ℕ) (h2 : 2 ≤ n) (hm : 0 < m) (hm' : 0 < m') (hd : m' ∣ m) (hN : 0 < N) :
    ∃ es es' r, convEntries gauss tol maxiter n m n m' (zernikeBasis N) "equiangular" "equiangular" "nodal" none = .ok es ∧
      transEntries gauss tol maxiter n m' n m (zernikeBasis N) "equiangular" "equiangular" "nodal" none = .ok es' ∧
      precomputeLatitudes gauss tol maxiter n "equiangular" = .ok r ∧ r.n = n ∧ 0 < (zernikeBasis N).kernelSize ∧
      (zernikeBasis N).mask.length = (zernikeBasis N).kernelSize ∧
      ∀ k < (zernikeBasis N).kernelSize, ∀ t < n, ∃ e ∈ rawEntries (zernikeBasis N) r.x r.x n m n
        ((1 + 1 / 10 ^ 3) * (none : Option ℝ).getD (Real.pi / ((n : ℝ) - 1))), e.ker = k ∧ e.row = t := by
  obtain ⟨r, h1, hr, -⟩ := C05_equiangular_latitudes gauss tol maxiter n h2
  have hpos : 0 < Real.pi / ((n : ℝ) - 1) := by
    have : (2 : ℝ) ≤ n := by exact_mod_cast h2
    exact div_pos Real.pi_pos (by linarith)
  have hmask : (zernikeBasis N).mask.length = (zernikeBasis N).kernelSize := zernikeMask_length N
  have hK : 0 < (zernikeBasis N).kernelSize := by
    have : (zernikeBasis N).kernelSize = (N * (N + 1)) / 2 := rfl
    rw [this]
    refine Nat.div_pos ?_ (by norm_num)
    nlinarith
  have hmode : knownMode (normAlias "nodal") := normAlias_nodal (Or.inl rfl) ▸ knownMode_nodal
  have hA : ∀ (a : Bool) (p q : ℕ), 0 < p → NormFits (preNorm ⟨n, p, n, q, zernikeBasis N, "equiangular", "equiangular",
      Real.pi / ((n : ℝ) - 1), 1 / 10 ^ 3, a, "nodal", true⟩ r r)
      (rawTaps (zernikeBasis N) r.x r.x n p n ((1 + 1 / 10 ^ 3) * (Real.pi / ((n : ℝ) - 1)))) := by
    intro a p q hp
    refine ⟨hp, fits_rawTaps _ _ _ _ _ _ _, ?_, ?_, hK⟩
    · cases a <;> exact hr
    · intro m hm
      cases hm
      exact hmask
  have c1 : ∃ es, convEntries gauss tol maxiter n m n m' (zernikeBasis N) "equiangular" "equiangular" "nodal" none = .ok es := by
    have hval := normalize_val (hA false m m' hm) "nodal" hmode
    unfold convEntries
    rw [if_neg (by omega), if_neg (by rw [not_not]; exact Nat.mod_eq_zero_of_dvd hd), if_neg (fun h => by omega)]
    dsimp only [Option.getD_none]
    rw [if_neg (not_le.2 hpos)]
    unfold precompute
    dsimp only
    rw [h1]
    dsimp only
    rw [if_neg (by omega), rawEntries_eq]
    have := hval
    dsimp only [preNorm] at this
    dsimp only [preNorm]
    rw [this]
    exact ⟨_, rfl⟩
  have c2 : ∃ es, transEntries gauss tol maxiter n m' n m (zernikeBasis N) "equiangular" "equiangular" "nodal" none = .ok es := by
    have hval := normalize_val (hA true m m' hm) "nodal" hmode
    unfold transEntries
    rw [if_neg (by omega), if_neg (by rw [not_not]; exact Nat.mod_eq_zero_of_dvd hd), if_neg (fun h => by omega)]
    dsimp only [Option.getD_none]
    rw [if_neg (not_le.2 hpos)]
    unfold precompute
    dsimp only
    rw [h1]
    dsimp only
    rw [if_neg (by omega), rawEntries_eq]
    have := hval
    dsimp only [preNorm] at this
    dsimp only [preNorm]
    rw [this]
    exact ⟨_, rfl⟩
  obtain ⟨es, c1⟩ := c1
  obtain ⟨es', c2⟩ := c2
  refine ⟨es, es', r, c1, c2, h1, hr, hK, hmask, ?_⟩
  exact reach_same_grid _ (fullDisk_zernike N) r.x r.x n m n _ (mul_nonneg (by norm_num) hpos.le) hm fun t ht => ⟨t, ht, rfl⟩

/-- A 4 x 8 grid, every second longitude in the output, Zernike polynomials of degree below 3. -/
example (gauss : ℕ → Rule) := C94_built_exists gauss 0 0 4 8 4 3 (by norm_num) (by norm_num) (by norm_num) (by norm_num) (by norm_num)

end Verif.Props
