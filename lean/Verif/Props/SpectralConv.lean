import Verif.Props.SHT
import Verif.Model.SpectralConv
/-!
Property theorems C20: the spectral convolution layer `SpectralConvS2`.
-/
namespace Verif.Props
open Verif Verif.Dist Verif.FFT Verif.Quad Verif.Legendre Verif.Truncation Verif.Spec Verif.SHT Finset

theorem mapChannels_ok {α β : Type} {f : Mat α → Except PyErr (Mat β)} {x : Ten3 α} (g : ℕ → Mat β)
    (h : ∀ c, f ⟨x.d1, x.d2, x.val c⟩ = .ok (g c)) :
    mapChannels f x = .ok ⟨x.d0, (g 0).d0, (g 0).d1, fun c => (g c).val⟩ := by
  unfold mapChannels
  rw [h 0]
  simp only [h]

/-- The hypotheses under which the layer is built: admissible channel counts, latitude rules of the two grids (the output
one enters only through its nodes), a common truncation `L` that the input grid resolves. -/
structure ConvBuilt (env : Env) (A : ConvArgs) (rin rout : Rule) (din dout L : ℕ) : Prop where
  groups_pos : 0 < A.groups
  in_div : A.groups ∣ A.inChannels
  out_div : A.groups ∣ A.outChannels
  in_pos : 0 < A.inChannels
  lonIn_pos : 0 < A.nlonIn
  lonOut_pos : 0 < A.nlonOut
  ruleIn : gridRule env.gauss env.tol env.maxiter A.nlatIn A.gridIn = .ok rin
  ruleOut : gridRule env.gauss env.tol env.maxiter A.nlatOut A.gridOut = .ok rout
  exactIn : SymmetricExactRule rin A.nlatIn din
  exactOut : SymmetricExactRule rout A.nlatOut dout
  trunc : convLmax A = .ok (L : ℤ)
  L_pos : 0 < L
  degIn : 2 * (L - 1) ≤ din
  degOut : 2 * (L - 1) ≤ dout
  ordIn : 2 * (L - 1) ≤ A.nlonIn
  ordOut : 2 * (L - 1) ≤ A.nlonOut

theorem sizes_explicit (nlat nlon L : ℕ) (grid : String) (h : 0 < L) :
    sizes nlat nlon (some L) (some L) grid = .ok (L, L) := by
  have h1 : ¬ ((L : ℤ) = 0) := by omega
  unfold sizes truncateSht pyOr
  simp only [if_neg h1]
  show (if _ then _ else _) = _
  have : ¬ (min (L : ℤ) L < 0 ∨ min (L : ℤ) L < 0) := by simp
  rw [if_neg this]
  simp

/-- The input and output transforms of the layer. -/
def inArgs (A : ConvArgs) (L : ℕ) : Args := ⟨A.nlatIn, A.nlonIn, some L, some L, A.gridIn, "ortho", true⟩
def outArgs (A : ConvArgs) (L : ℕ) : Args := ⟨A.nlatOut, A.nlonOut, some L, some L, A.gridOut, "ortho", true⟩

theorem conv_quadRule (env : Env) (nlat : ℕ) (grid : String) (r : Rule)
    (h : gridRule env.gauss env.tol env.maxiter nlat grid = .ok r) :
    quadratureS2Rule env.gauss env.tol env.maxiter nlat grid = .ok r := by
  unfold gridRule at h
  unfold quadratureS2Rule
  split_ifs at h ⊢ <;> simp_all

theorem conv_init {env : Env} {A : ConvArgs} {rin rout : Rule} {din dout L : ℕ} (H : ConvBuilt env A rin rout din dout L)
    (w : ℕ → ℕ → ℕ → ℕ → ℂ) (b : Option (ℕ → ℕ → ℕ → ℂ)) :
    ∃ S, SpectralConv.init env A w b = .ok S ∧ S.inChannels = A.inChannels ∧ S.outChannels = A.outChannels ∧ S.groups = A.groups ∧
      S.lmax = L ∧ RealSHT.init env (inArgs A L) = .ok S.sht ∧ InverseRealSHT.init env (outArgs A L) = .ok S.isht ∧
      S.sht.nlat = A.nlatIn ∧ S.sht.nlon = A.nlonIn ∧ S.sht.lmax = L ∧ S.sht.mmax = L ∧
      S.isht.nlat = A.nlatOut ∧ S.isht.nlon = A.nlonOut ∧ S.isht.lmax = L ∧ S.isht.mmax = L ∧
      S.weight = w ∧ S.bias = b.map (fun b => (rin, b)) := by
  have e1 := realSHT_init env (inArgs A L) rin L H.ruleIn (sizes_explicit _ _ _ _ H.L_pos) H.L_pos
  have e2 := inverseRealSHT_init env (outArgs A L) rout L H.ruleOut (sizes_explicit _ _ _ _ H.L_pos) H.L_pos
  have hg := H.groups_pos
  have hdiv : ¬ A.inChannels / A.groups = 0 := by
    have := Nat.div_pos (Nat.le_of_dvd H.in_pos H.in_div) hg
    omega
  have hL := H.L_pos
  refine ⟨⟨A.inChannels, A.outChannels, A.groups, L, _, _, w, b.map (fun b => (rin, b))⟩, ?_, rfl, rfl, rfl, rfl, e1, e2, rfl, rfl, rfl, rfl,
    rfl, rfl, rfl, rfl, rfl, rfl⟩
  unfold SpectralConv.init
  rw [if_neg (by omega), if_neg (by simp [Nat.mod_eq_zero_of_dvd H.in_div]), if_neg (by simp [Nat.mod_eq_zero_of_dvd H.out_div]), H.trunc]
  dsimp only
  have e1' : RealSHT.init env ⟨A.nlatIn, A.nlonIn, some (L : ℤ), some (L : ℤ), A.gridIn, "ortho", true⟩ = _ := e1
  have e2' : InverseRealSHT.init env ⟨A.nlatOut, A.nlonOut, some (L : ℤ), some (L : ℤ), A.gridOut, "ortho", true⟩ = _ := e2
  rw [e1']
  dsimp only
  rw [e2']
  dsimp only
  rw [if_neg hdiv, if_neg (by omega), if_neg (by omega)]
  cases b with
  | none => simp
  | some b =>
    dsimp only
    rw [conv_quadRule env A.nlatIn A.gridIn rin H.ruleIn]
    simp

/-- The analysis depends on the field only through its values on the grid. -/
theorem realSHT_congr (S : RealSHT) (hn : 0 < S.nlon) (f g : Mat ℝ) (hf : f.d0 = S.nlat ∧ f.d1 = S.nlon)
    (hg : g.d0 = S.nlat ∧ g.d1 = S.nlon) (h : ∀ k < S.nlat, ∀ j < S.nlon, f.val k j = g.val k j) :
    ∃ cf cg, S.forward f = .ok cf ∧ S.forward g = .ok cg ∧ ∀ l, ∀ m < S.mmax, cf.val l m = cg.val l m := by
  obtain ⟨cf, h1, _, _, v1⟩ := realSHT_forward S f hf.1 hf.2 hn
  obtain ⟨cg, h2, _, _, v2⟩ := realSHT_forward S g hg.1 hg.2 hn
  refine ⟨cf, cg, h1, h2, fun l m hm => ?_⟩
  rw [v1 l m hm, v2 l m hm]
  refine sum_congr rfl fun k hk => ?_
  rw [dft_congr S.nlon _ _ (h k (mem_range.1 hk))]

/-- The mixed coefficients: output channel `oc` belongs to group `g = oc / (outChannels / groups)`, and takes the input channels of that
group, each with the weight of its degree. -/
noncomputable def mixed (A : ConvArgs) (w : ℕ → ℕ → ℕ → ℕ → ℂ) (c : ℕ → ℕ → ℕ → ℂ) (oc l m : ℕ) : ℂ :=
  ∑ i ∈ range (A.inChannels / A.groups),
    c (oc / (A.outChannels / A.groups) * (A.inChannels / A.groups) + i) l m
      * w (oc / (A.outChannels / A.groups)) i (oc % (A.outChannels / A.groups)) l

/-- The contribution of the spectral bias of channel `ch`: the integral of the channel times the bias. -/
noncomputable def biasTerm (rin : Rule) (b : Option (ℕ → ℕ → ℕ → ℂ)) (x : Ten3 ℝ) (ch l m : ℕ) : ℂ :=
  match b with
  | none => 0
  | some b => ((quadForward rin x.d2 false (x.val ch) : ℝ) : ℂ) * b ch l m

theorem bcast_self (n : ℕ) : bcast n n = some n := by unfold bcast; rw [if_pos rfl]
theorem bidx_lt (n i : ℕ) (h : i < n) : bidx n i = i := by unfold bidx; split_ifs <;> omega

theorem group_index {A : ConvArgs} (hin : A.groups ∣ A.inChannels) (hout : A.groups ∣ A.outChannels) (oc i : ℕ) (hoc : oc < A.outChannels)
    (hi : i < A.inChannels / A.groups) :
    oc / (A.outChannels / A.groups) * (A.inChannels / A.groups) + i < A.inChannels := by
  have hgin : A.groups * (A.inChannels / A.groups) = A.inChannels := Nat.mul_div_cancel' hin
  have hgout : A.groups * (A.outChannels / A.groups) = A.outChannels := Nat.mul_div_cancel' hout
  have hg : oc / (A.outChannels / A.groups) < A.groups := by
    apply Nat.div_lt_of_lt_mul
    rw [mul_comm, hgout]; exact hoc
  calc _ < oc / (A.outChannels / A.groups) * (A.inChannels / A.groups) + (A.inChannels / A.groups) := by omega
    _ = (oc / (A.outChannels / A.groups) + 1) * (A.inChannels / A.groups) := by ring
    _ ≤ A.groups * (A.inChannels / A.groups) := Nat.mul_le_mul_right _ hg
    _ = _ := hgin

theorem mixed_congr (A : ConvArgs) (w : ℕ → ℕ → ℕ → ℕ → ℂ) (c c' : ℕ → ℕ → ℕ → ℂ) (oc l m : ℕ)
    (h : ∀ i < A.inChannels / A.groups, c (oc / (A.outChannels / A.groups) * (A.inChannels / A.groups) + i) l m
      = c' (oc / (A.outChannels / A.groups) * (A.inChannels / A.groups) + i) l m) : mixed A w c oc l m = mixed A w c' oc l m := by
  unfold mixed
  exact sum_congr rfl fun i hi => by rw [h i (mem_range.1 hi)]

/-- The series depends on the coefficients of degrees and orders below the truncation only. -/
theorem harmonicSeries_congr (norm : String) (cs : Bool) (nlon L : ℕ) (c c' : ℕ → ℕ → ℂ) (th ph : ℝ)
    (h : ∀ l < L, ∀ m < L, c l m = c' l m) : harmonicSeries norm cs nlon L L c th ph = harmonicSeries norm cs nlon L L c' th ph := by
  unfold harmonicSeries
  refine sum_congr rfl fun m hm => ?_
  have hm : m < L := lt_of_lt_of_le (mem_range.1 hm) (min_le_left _ _)
  congr 1
  exact sum_congr rfl fun l hl => by rw [h l (mem_range.1 hl) m hm]

/-- C20, general form. For every input field, all weights and any bias, the layer analyses each channel, mixes the
coefficients of the channels of one group with the weight of the degree, and evaluates the resulting spherical harmonic series on the
output grid. Coefficients of different groups, degrees or orders are never mixed. -/
theorem C20_value (env : Env) (be : C2R) (A : ConvArgs) (rin rout : Rule) (din dout L : ℕ) (H : ConvBuilt env A rin rout din dout L)
    (w : ℕ → ℕ → ℕ → ℕ → ℂ) (b : Option (ℕ → ℕ → ℕ → ℂ)) (x : Ten3 ℝ) (hx0 : x.d0 = A.inChannels) (hx1 : x.d1 = A.nlatIn)
    (hx2 : x.d2 = A.nlonIn) :
    ∃ (S : SpectralConv) (T : RealSHT) (c : ℕ → Mat ℂ) (y : Ten3 ℝ), SpectralConv.init env A w b = .ok S ∧
      RealSHT.init env (inArgs A L) = .ok T ∧ (∀ ch, T.forward ⟨x.d1, x.d2, x.val ch⟩ = .ok (c ch)) ∧
      S.forward be x = .ok y ∧ y.d0 = A.outChannels ∧ y.d1 = A.nlatOut ∧ y.d2 = A.nlonOut ∧
      ∀ oc < A.outChannels, ∀ k < A.nlatOut, ∀ j < A.nlonOut, y.val oc k j
        = harmonicSeries "ortho" true A.nlonOut L L (mixed A w (fun ch l m => (c ch).val l m + biasTerm rin b x ch l m) oc)
            (Real.arccos (rout.x (A.nlatOut - 1 - k))) (2 * Real.pi * j / A.nlonOut) := by
  obtain ⟨S, hS, a1, a2, a3, a4, hT, hI, s1, s2, s3, s4, i1, i2, i3, i4, hw, hb⟩ := conv_init H w b
  have hc : ∀ ch, ∃ c, S.sht.forward ⟨x.d1, x.d2, x.val ch⟩ = .ok c ∧ c.d0 = L ∧ c.d1 = L := by
    intro ch
    obtain ⟨c, h1, h2, h3, _⟩ := realSHT_forward S.sht ⟨x.d1, x.d2, x.val ch⟩ (by simp [hx1, s1]) (by simp [hx2, s2])
      (by rw [s2]; exact H.lonIn_pos)
    exact ⟨c, h1, by rw [h2, s3], by rw [h3, s4]⟩
  choose c hc1 hc2 hc3 using hc
  set z : Ten3 ℂ := ⟨x.d0, L, L, fun ch l m => (c ch).val l m + biasTerm rin b x ch l m⟩ with hz
  have hadd : ∃ z', S.addBias x ⟨x.d0, L, L, fun ch => (c ch).val⟩ = .ok z' ∧ z'.d0 = x.d0 ∧ z'.d1 = L ∧ z'.d2 = L ∧
      ∀ ch < A.inChannels, ∀ l m, z'.val ch l m = (c ch).val l m + biasTerm rin b x ch l m := by
    unfold SpectralConv.addBias
    rw [hb]
    cases b with
    | none => exact ⟨_, rfl, rfl, rfl, rfl, fun ch _ l m => by simp [biasTerm]⟩
    | some b =>
      dsimp only [Option.map]
      rw [a1, hx0, bcast_self]
      refine ⟨_, rfl, rfl, rfl, rfl, fun ch hch l m => ?_⟩
      simp only [bidx_lt _ _ hch, biasTerm]
  obtain ⟨z', hz', z0, z1, z2, zv⟩ := hadd
  have hgin : A.groups * (A.inChannels / A.groups) = A.inChannels := Nat.mul_div_cancel' H.in_div
  have hgout : A.groups * (A.outChannels / A.groups) = A.outChannels := Nat.mul_div_cancel' H.out_div
  have hcon : ∃ v, S.contract x.d0 z' = .ok v ∧ v.d0 = A.outChannels ∧ v.d1 = L ∧ v.d2 = L ∧
      ∀ oc < A.outChannels, ∀ l m, v.val oc l m = mixed A w (fun ch l m => (c ch).val l m + biasTerm rin b x ch l m) oc l m := by
    unfold SpectralConv.contract
    dsimp only
    rw [a1, a2, a3, z0, hx0, if_neg (by simp [hgin]), bcast_self]
    refine ⟨_, rfl, rfl, z1, z2, fun oc hoc l m => ?_⟩
    unfold mixed
    dsimp only
    refine sum_congr rfl fun i hi => ?_
    have hi := mem_range.1 hi
    have hlt := group_index H.in_div H.out_div oc i hoc hi
    rw [bidx_lt _ _ hi, zv _ hlt, hw]
  obtain ⟨v, hv, v0, v1, v2, vv⟩ := hcon
  have hy : ∀ oc, ∃ f, S.isht.forward be ⟨v.d1, v.d2, v.val oc⟩ = .ok f ∧ f.d0 = A.nlatOut ∧ f.d1 = A.nlonOut ∧
      ∀ k < A.nlatOut, ∀ j < A.nlonOut, f.val k j
        = harmonicSeries "ortho" true A.nlonOut L L (v.val oc) (Real.arccos (rout.x (A.nlatOut - 1 - k))) (2 * Real.pi * j / A.nlonOut) := by
    intro oc
    obtain ⟨I', f, hI', hf, f0, f1, fv⟩ := C59_synthesis_value env be (outArgs A L) rout dout L H.lonOut_pos H.ruleOut H.exactOut
      (sizes_explicit _ _ _ _ H.L_pos) H.L_pos ⟨v.d1, v.d2, v.val oc⟩ v1 v2
    rw [hI] at hI'; cases hI'
    exact ⟨f, hf, f0, f1, fv⟩
  choose f hf1 hf2 hf3 hf4 using hy
  refine ⟨S, S.sht, c, ⟨v.d0, (f 0).d0, (f 0).d1, fun oc => (f oc).val⟩, hS, hT, hc1, ?_, v0, hf2 0, hf3 0, ?_⟩
  · unfold SpectralConv.forward
    rw [mapChannels_ok c hc1]
    dsimp only
    rw [hc2 0, hc3 0, hz']
    dsimp only
    rw [hv]
    dsimp only
    exact mapChannels_ok f hf1
  · intro oc hoc k hk j hj
    show (f oc).val k j = _
    rw [hf4 oc k hk j hj]
    congr 1
    funext l m
    exact vv oc hoc l m

/-- C20. A band-limited input: if every channel is the spherical harmonic series of coefficients `a ch`, output channel `oc` is the
spherical harmonic series of the channel mix of the (admissible) coefficients, evaluated on the output grid. -/
theorem C20_coefficients (env : Env) (be : C2R) (A : ConvArgs) (rin rout : Rule) (din dout L : ℕ)
    (H : ConvBuilt env A rin rout din dout L) (w : ℕ → ℕ → ℕ → ℕ → ℂ) (x : Ten3 ℝ) (hx0 : x.d0 = A.inChannels)
    (hx1 : x.d1 = A.nlatIn) (hx2 : x.d2 = A.nlonIn) (a : ℕ → ℕ → ℕ → ℂ)
    (hx : ∀ ch < A.inChannels, ∀ k < A.nlatIn, ∀ j < A.nlonIn, x.val ch k j
      = harmonicSeries "ortho" true A.nlonIn L L (a ch) (Real.arccos (rin.x (A.nlatIn - 1 - k))) (2 * Real.pi * j / A.nlonIn)) :
    ∃ S y, SpectralConv.init env A w none = .ok S ∧ S.forward be x = .ok y ∧ y.d0 = A.outChannels ∧ y.d1 = A.nlatOut ∧
      y.d2 = A.nlonOut ∧ ∀ oc < A.outChannels, ∀ k < A.nlatOut, ∀ j < A.nlonOut, y.val oc k j
        = harmonicSeries "ortho" true A.nlonOut L L (mixed A w (fun ch => admissible A.nlonIn (a ch)) oc)
            (Real.arccos (rout.x (A.nlatOut - 1 - k))) (2 * Real.pi * j / A.nlonOut) := by
  obtain ⟨S, T, c, y, hS, hT, hc, hy, y0, y1, y2, yv⟩ := C20_value env be A rin rout din dout L H w none x hx0 hx1 hx2
  refine ⟨S, y, hS, hy, y0, y1, y2, fun oc hoc k hk j hj => ?_⟩
  rw [yv oc hoc k hk j hj]
  have key : ∀ ch < A.inChannels, ∀ l < L, ∀ m < L, (c ch).val l m = admissible A.nlonIn (a ch) l m := by
    intro ch hch l hl m hm
    obtain ⟨T', I, f, c', hT', hI, hf, hc', _, _, hval⟩ := C14_analysis_of_synthesis env be (inArgs A L) rin din L H.lonIn_pos H.ruleIn
      H.exactIn (sizes_explicit _ _ _ _ H.L_pos) H.L_pos H.degIn H.ordIn ⟨L, L, a ch⟩ rfl rfl
    obtain ⟨I', f', hI', hf', f0, f1, fv⟩ := C59_synthesis_value env be (inArgs A L) rin din L H.lonIn_pos H.ruleIn
      H.exactIn (sizes_explicit _ _ _ _ H.L_pos) H.L_pos ⟨L, L, a ch⟩ rfl rfl
    rw [hI] at hI'; cases hI'
    rw [hf] at hf'; cases hf'
    rw [hT] at hT'; cases hT'
    have hTinit := realSHT_init env (inArgs A L) rin L H.ruleIn (sizes_explicit _ _ _ _ H.L_pos) H.L_pos
    have hTeq := hT.symm.trans hTinit
    injection hTeq with hTeq
    have t1 : T.nlat = A.nlatIn := by rw [hTeq]; rfl
    have t2 : T.nlon = A.nlonIn := by rw [hTeq]; rfl
    have t3 : T.mmax = L := by rw [hTeq]
    obtain ⟨cf, cg, e1, e2, e3⟩ := realSHT_congr T (by rw [t2]; exact H.lonIn_pos) ⟨x.d1, x.d2, x.val ch⟩ f ⟨by simp [hx1, t1], by simp [hx2, t2]⟩
      ⟨by rw [f0, t1]; rfl, by rw [f1, t2]; rfl⟩ (fun k hk j hj => by
        rw [t1] at hk; rw [t2] at hj
        rw [fv k hk j hj]; exact hx ch hch k hk j hj)
    rw [hc ch] at e1; cases e1
    rw [hc'] at e2; cases e2
    rw [e3 l m (by rw [t3]; exact hm), hval l hl m hm]
    rfl
  apply harmonicSeries_congr
  intro l hl m hm
  apply mixed_congr
  intro i hi
  rw [key _ (group_index H.in_div H.out_div oc i hoc hi) l hl m hm]
  simp [biasTerm]

/-- C20. What the output contains: analysing an output channel on the output grid gives back exactly the (admissible part of
the) channel mix of the input's analysis coefficients, degree by degree and order by order, for every input. -/
theorem C20_reanalysis (env : Env) (be : C2R) (A : ConvArgs) (rin rout : Rule) (din dout L : ℕ)
    (H : ConvBuilt env A rin rout din dout L) (w : ℕ → ℕ → ℕ → ℕ → ℂ) (x : Ten3 ℝ) (hx0 : x.d0 = A.inChannels)
    (hx1 : x.d1 = A.nlatIn) (hx2 : x.d2 = A.nlonIn) :
    ∃ (S : SpectralConv) (T T' : RealSHT) (c c' : ℕ → Mat ℂ) (y : Ten3 ℝ), SpectralConv.init env A w none = .ok S ∧
      RealSHT.init env (inArgs A L) = .ok T ∧ RealSHT.init env (outArgs A L) = .ok T' ∧ S.forward be x = .ok y ∧
      (∀ ch, T.forward ⟨x.d1, x.d2, x.val ch⟩ = .ok (c ch)) ∧ (∀ oc, T'.forward ⟨y.d1, y.d2, y.val oc⟩ = .ok (c' oc)) ∧
      ∀ oc < A.outChannels, ∀ l < L, ∀ m < L,
        (c' oc).val l m = admissible A.nlonOut (mixed A w (fun ch => (c ch).val) oc) l m := by
  obtain ⟨S, T, c, y, hS, hT, hc, hy, y0, y1, y2, yv⟩ := C20_value env be A rin rout din dout L H w none x hx0 hx1 hx2
  have hT' := realSHT_init env (outArgs A L) rout L H.ruleOut (sizes_explicit _ _ _ _ H.L_pos) H.L_pos
  set T' : RealSHT := ⟨(outArgs A L).nlat, (outArgs A L).nlon, L, L,
      fun m l k => legpolyVal L L (outArgs A L).norm false (outArgs A L).csphase (Real.cos (colat rout k)) m l * rout.w k⟩ with hTd
  have hc' : ∀ oc, ∃ c', T'.forward ⟨y.d1, y.d2, y.val oc⟩ = .ok c' := by
    intro oc
    obtain ⟨c', h, _⟩ := realSHT_forward T' ⟨y.d1, y.d2, y.val oc⟩ y1 y2 H.lonOut_pos
    exact ⟨c', h⟩
  choose c' hc' using hc'
  refine ⟨S, T, T', c, c', y, hS, hT, hT', hy, hc, hc', fun oc hoc l hl m hm => ?_⟩
  have hmat : ∃ M : Mat ℂ, M.d0 = L ∧ M.d1 = L ∧ M.val = mixed A w (fun ch => (c ch).val) oc := ⟨⟨L, L, _⟩, rfl, rfl, rfl⟩
  obtain ⟨M, M0, M1, Mv⟩ := hmat
  obtain ⟨T2, I, f, c2, hT2, hI, hf, hc2, _, _, hval⟩ := C14_analysis_of_synthesis env be (outArgs A L) rout dout L H.lonOut_pos H.ruleOut
    H.exactOut (sizes_explicit _ _ _ _ H.L_pos) H.L_pos H.degOut H.ordOut M M0 M1
  obtain ⟨I', f', hI', hf', f0, f1, fv⟩ := C59_synthesis_value env be (outArgs A L) rout dout L H.lonOut_pos H.ruleOut
    H.exactOut (sizes_explicit _ _ _ _ H.L_pos) H.L_pos M M0 M1
  rw [hI] at hI'; cases hI'
  rw [hf] at hf'; cases hf'
  rw [hT'] at hT2; cases hT2
  obtain ⟨cf, cg, e1, e2, e3⟩ := realSHT_congr T' H.lonOut_pos ⟨y.d1, y.d2, y.val oc⟩ f ⟨y1, y2⟩ ⟨f0, f1⟩ (fun k hk j hj => by
    rw [fv k hk j hj, Mv]
    refine (yv oc hoc k hk j hj).trans ?_
    apply harmonicSeries_congr
    intro l _ m _
    apply mixed_congr
    intro i _
    simp [biasTerm])
  rw [hc' oc] at e1; cases e1
  rw [hc2] at e2; cases e2
  rw [e3 l m hm, hval l hl m hm, Mv]
  rfl

/-- C20. Groups do not mix: if two inputs agree on the channels of one group, the outputs agree on the channels of that
group, whatever the other channels hold, with or without bias. -/
theorem C20_groups (env : Env) (be : C2R) (A : ConvArgs) (rin rout : Rule) (din dout L : ℕ) (H : ConvBuilt env A rin rout din dout L)
    (w : ℕ → ℕ → ℕ → ℕ → ℂ) (b : Option (ℕ → ℕ → ℕ → ℂ)) (x x' : Ten3 ℝ) (hx0 : x.d0 = A.inChannels) (hx1 : x.d1 = A.nlatIn)
    (hx2 : x.d2 = A.nlonIn) (hx0' : x'.d0 = A.inChannels) (hx1' : x'.d1 = A.nlatIn) (hx2' : x'.d2 = A.nlonIn) (g : ℕ)
    (hag : ∀ ch < A.inChannels, ch / (A.inChannels / A.groups) = g → ∀ k < A.nlatIn, ∀ j < A.nlonIn, x.val ch k j = x'.val ch k j) :
    ∃ S y y', SpectralConv.init env A w b = .ok S ∧ S.forward be x = .ok y ∧ S.forward be x' = .ok y' ∧
      ∀ oc < A.outChannels, oc / (A.outChannels / A.groups) = g → ∀ k < A.nlatOut, ∀ j < A.nlonOut, y.val oc k j = y'.val oc k j := by
  obtain ⟨S, T, c, y, hS, hT, hc, hy, y0, y1, y2, yv⟩ := C20_value env be A rin rout din dout L H w b x hx0 hx1 hx2
  obtain ⟨S', T', c', y', hS', hT', hc', hy', _, _, _, yv'⟩ := C20_value env be A rin rout din dout L H w b x' hx0' hx1' hx2'
  rw [hS] at hS'; cases hS'
  rw [hT] at hT'; cases hT'
  refine ⟨S, y, y', hS, hy, hy', fun oc hoc hg k hk j hj => ?_⟩
  rw [yv oc hoc k hk j hj, yv' oc hoc k hk j hj]
  apply harmonicSeries_congr
  intro l hl m hm
  apply mixed_congr
  intro i hi
  have hlt := group_index H.in_div H.out_div oc i hoc hi
  rw [hg] at hlt ⊢
  set ch := g * (A.inChannels / A.groups) + i with hch
  have hgr : ch / (A.inChannels / A.groups) = g := by
    rw [hch, mul_comm, Nat.mul_add_div (by omega), Nat.div_eq_of_lt hi]; omega
  have heq := hag ch hlt hgr
  have hTinit := realSHT_init env (inArgs A L) rin L H.ruleIn (sizes_explicit _ _ _ _ H.L_pos) H.L_pos
  rw [hT] at hTinit
  injection hTinit with hTeq
  have t1 : T.nlat = A.nlatIn := by rw [hTeq]; rfl
  have t2 : T.nlon = A.nlonIn := by rw [hTeq]; rfl
  have t3 : T.mmax = L := by rw [hTeq]
  obtain ⟨cf, cg, e1, e2, e3⟩ := realSHT_congr T (by rw [t2]; exact H.lonIn_pos) ⟨x.d1, x.d2, x.val ch⟩ ⟨x'.d1, x'.d2, x'.val ch⟩
    ⟨by simp [hx1, t1], by simp [hx2, t2]⟩ ⟨by simp [hx1', t1], by simp [hx2', t2]⟩
    (fun k hk j hj => heq k (by omega) j (by omega))
  rw [hc ch] at e1; cases e1
  rw [hc' ch] at e2; cases e2
  have hb : biasTerm rin b x ch l m = biasTerm rin b x' ch l m := by
    unfold biasTerm
    cases b with
    | none => rfl
    | some b =>
      dsimp only
      congr 2
      unfold quadForward
      rw [hx2, hx2', H.exactIn.size]
      exact sum_congr rfl fun k hk => sum_congr rfl fun j hj => by rw [heq k (mem_range.1 hk) j (mem_range.1 hj)]
  rw [e3 l m (by omega), hb]

/-- C20. The layer commutes with longitude rotations: rotating every input channel by `s` points and rotating the output by the same
angle (`s'` points, `s * nlon_out = s' * nlon_in`) are the same. With a bias this holds when the bias is zonal (`m = 0` only). -/
theorem C20_rotation (env : Env) (be : C2R) (A : ConvArgs) (rin rout : Rule) (din dout L : ℕ) (H : ConvBuilt env A rin rout din dout L)
    (w : ℕ → ℕ → ℕ → ℕ → ℂ) (b : Option (ℕ → ℕ → ℕ → ℂ)) (hb : ∀ b', b = some b' → ∀ c l m, m ≠ 0 → b' c l m = 0)
    (x x' : Ten3 ℝ) (hx0 : x.d0 = A.inChannels) (hx1 : x.d1 = A.nlatIn) (hx2 : x.d2 = A.nlonIn) (hx0' : x'.d0 = A.inChannels)
    (hx1' : x'.d1 = A.nlatIn) (hx2' : x'.d2 = A.nlonIn) (s s' : ℕ) (hs : s * A.nlonOut = s' * A.nlonIn)
    (hrot : ∀ ch < A.inChannels, ∀ k < A.nlatIn, ∀ j < A.nlonIn, x'.val ch k j = x.val ch k ((j + s) % A.nlonIn)) :
    ∃ S y y', SpectralConv.init env A w b = .ok S ∧ S.forward be x = .ok y ∧ S.forward be x' = .ok y' ∧
      ∀ oc < A.outChannels, ∀ k < A.nlatOut, ∀ j < A.nlonOut, y'.val oc k j = y.val oc k ((j + s') % A.nlonOut) := by
  obtain ⟨S, T, c, y, hS, hT, hc, hy, y0, y1, y2, yv⟩ := C20_value env be A rin rout din dout L H w b x hx0 hx1 hx2
  obtain ⟨S', T', c', y', hS', hT', hc', hy', _, _, _, yv'⟩ := C20_value env be A rin rout din dout L H w b x' hx0' hx1' hx2'
  rw [hS] at hS'; cases hS'
  rw [hT] at hT'; cases hT'
  refine ⟨S, y, y', hS, hy, hy', fun oc hoc k hk j hj => ?_⟩
  have hTinit := realSHT_init env (inArgs A L) rin L H.ruleIn (sizes_explicit _ _ _ _ H.L_pos) H.L_pos
  rw [hT] at hTinit
  injection hTinit with hTeq
  have t1 : T.nlat = A.nlatIn := by rw [hTeq]; rfl
  have t2 : T.nlon = A.nlonIn := by rw [hTeq]; rfl
  have t3 : T.mmax = L := by rw [hTeq]
  have t4 : T.lmax = L := by rw [hTeq]
  have hphase : ∀ m : ℕ, Complex.exp (2 * Real.pi * Complex.I * s * m / A.nlonIn) = Complex.exp (2 * Real.pi * Complex.I * s' * m / A.nlonOut) := by
    intro m
    congr 1
    have n1 : (A.nlonIn : ℂ) ≠ 0 := by exact_mod_cast H.lonIn_pos.ne'
    have n2 : (A.nlonOut : ℂ) ≠ 0 := by exact_mod_cast H.lonOut_pos.ne'
    have e : (s : ℂ) * A.nlonOut = s' * A.nlonIn := by exact_mod_cast hs
    rw [div_eq_div_iff n1 n2]
    linear_combination (2 * Real.pi * Complex.I * m : ℂ) * e
  have hco : ∀ ch < A.inChannels, ∀ l < L, ∀ m < L, (c' ch).val l m + biasTerm rin b x' ch l m
      = Complex.exp (2 * Real.pi * Complex.I * s' * m / A.nlonOut) * ((c ch).val l m + biasTerm rin b x ch l m) := by
    intro ch hch l hl m hm
    obtain ⟨cf, cg, e1, e2, e3⟩ := C16_analysis_rotation T (by rw [t2]; exact H.lonIn_pos) ⟨x.d1, x.d2, x.val ch⟩ ⟨x'.d1, x'.d2, x'.val ch⟩ s
      ⟨by simp [hx1, t1], by simp [hx2, t2]⟩ ⟨by simp [hx1', t1], by simp [hx2', t2]⟩
      (fun k hk j hj => by rw [t2]; exact hrot ch hch k (by omega) j (by omega))
    rw [hc ch] at e1; cases e1
    rw [hc' ch] at e2; cases e2
    rw [e3 l (by omega) m (by omega), t2, hphase m, mul_add]
    congr 1
    unfold biasTerm
    cases b with
    | none => simp
    | some b =>
      dsimp only
      by_cases h0 : m = 0
      · subst h0
        have : quadForward rin x'.d2 false (x'.val ch) = quadForward rin x.d2 false (x.val ch) := by
          unfold quadForward
          rw [hx2, hx2', H.exactIn.size]
          refine sum_congr rfl fun k hk => ?_
          rw [← sum_mod_shift A.nlonIn s H.lonIn_pos (fun j => x.val ch k j * quadWeight rin A.nlonIn false k)]
          exact sum_congr rfl fun j hj => by rw [hrot ch hch k (mem_range.1 hk) j (mem_range.1 hj)]
        rw [this]
        simp
      · rw [hb b rfl ch l m h0]; simp
  set M : Mat ℂ := ⟨L, L, mixed A w (fun ch l m => (c ch).val l m + biasTerm rin b x ch l m) oc⟩ with hM
  set M' : Mat ℂ := ⟨L, L, mixed A w (fun ch l m => (c' ch).val l m + biasTerm rin b x' ch l m) oc⟩ with hM'
  obtain ⟨I, f, hI, hf, f0, f1, fv⟩ := C59_synthesis_value env be (outArgs A L) rout dout L H.lonOut_pos H.ruleOut
    H.exactOut (sizes_explicit _ _ _ _ H.L_pos) H.L_pos M rfl rfl
  obtain ⟨I', f', hI', hf', f0', f1', fv'⟩ := C59_synthesis_value env be (outArgs A L) rout dout L H.lonOut_pos H.ruleOut
    H.exactOut (sizes_explicit _ _ _ _ H.L_pos) H.L_pos M' rfl rfl
  rw [hI] at hI'; cases hI'
  have hIinit := inverseRealSHT_init env (outArgs A L) rout L H.ruleOut (sizes_explicit _ _ _ _ H.L_pos) H.L_pos
  rw [hI] at hIinit
  injection hIinit with hIeq
  have i1 : I.nlat = A.nlatOut := by rw [hIeq]; rfl
  have i2 : I.nlon = A.nlonOut := by rw [hIeq]; rfl
  have i3 : I.mmax = L := by rw [hIeq]
  have i4 : I.lmax = L := by rw [hIeq]
  obtain ⟨g, g', e1, e2, e3⟩ := C16_synthesis_rotation be I (by rw [i2]; exact H.lonOut_pos) (by rw [i3]; exact H.L_pos) M M' s'
    ⟨i4.symm, i3.symm⟩ ⟨i4.symm, i3.symm⟩ (fun l hl m hm => by
      rw [i4] at hl; rw [i3] at hm
      simp only [hM, hM', i2]
      unfold mixed
      rw [mul_sum]
      refine sum_congr rfl fun i hi => ?_
      dsimp only
      rw [hco _ (group_index H.in_div H.out_div oc i hoc (mem_range.1 hi)) l hl m hm]
      ring)
  rw [hf] at e1; cases e1
  rw [hf'] at e2; cases e2
  have hj' : (j + s') % A.nlonOut < A.nlonOut := Nat.mod_lt _ H.lonOut_pos
  have := e3 k (by omega) j (by omega)
  rw [i2] at this
  rw [yv oc hoc k hk _ hj', yv' oc hoc k hk j hj]
  exact (fv' k hk j hj).symm.trans (this.trans (fv k hk _ hj'))

/-- The layer is built, with every hypothesis above, for any channel counts divisible by the group count and any two grids of
the kinds `equiangular` or `legendre-gauss` with at least two latitudes and one longitude. -/
theorem C20_default (env : Env) (A : ConvArgs) (hg : 0 < A.groups) (hin : A.groups ∣ A.inChannels) (hout : A.groups ∣ A.outChannels)
    (hpos : 0 < A.inChannels) (g1 : A.gridIn = "equiangular" ∨ (A.gridIn = "legendre-gauss" ∧ IsGaussRule (env.gauss A.nlatIn) A.nlatIn))
    (g2 : A.gridOut = "equiangular" ∨ (A.gridOut = "legendre-gauss" ∧ IsGaussRule (env.gauss A.nlatOut) A.nlatOut))
    (h1 : 2 ≤ A.nlatIn) (h2 : 1 ≤ A.nlonIn) (h3 : 2 ≤ A.nlatOut) (h4 : 1 ≤ A.nlonOut) :
    ∃ rin rout din dout L, ConvBuilt env A rin rout din dout L := by
  obtain ⟨rin, din, L1, r1, x1, s1, p1, d1, o1⟩ := default_grid env ⟨A.nlatIn, A.nlonIn, none, none, A.gridIn, "ortho", true⟩ g1 h1 h2 rfl rfl
  obtain ⟨rout, dout, L2, r2, x2, s2, p2, d2, o2⟩ := default_grid env ⟨A.nlatOut, A.nlonOut, none, none, A.gridOut, "ortho", true⟩ g2 h3 h4 rfl rfl
  dsimp only at *
  have t : ∀ (nlat nlon L : ℕ) (grid : String), sizes nlat nlon none none grid = .ok (L, L) →
      truncateSht nlat nlon none none grid = .ok ((L : ℤ), (L : ℤ)) := by
    intro nlat nlon L grid h
    unfold sizes at h
    split at h
    · cases h
    · rename_i a b heq
      split at h
      · cases h
      · injection h with h
        injection h with h5 h6
        rw [heq]
        have : (a.toNat : ℤ) = a := Int.toNat_of_nonneg (by omega)
        have : (b.toNat : ℤ) = b := Int.toNat_of_nonneg (by omega)
        simp only [Except.ok.injEq, Prod.mk.injEq]
        omega
  refine ⟨rin, rout, din, dout, min L1 L2, hg, hin, hout, hpos, h2, h4, r1, r2, x1, x2, ?_, by omega, by omega, by omega, by omega, by omega⟩
  unfold convLmax
  rw [t _ _ _ _ s1]
  dsimp only
  rw [t _ _ _ _ s2]
  dsimp only
  congr 1
  push_cast
  simp

/-- C20 (error branches). Channel counts that the groups do not divide raise `ValueError` (the docstring announces an
`AssertionError`), before anything else is looked at. -/
theorem C20_error_groups (env : Env) (A : ConvArgs) (w : ℕ → ℕ → ℕ → ℕ → ℂ) (b : Option (ℕ → ℕ → ℕ → ℂ)) (hg : 0 < A.groups)
    (h : ¬ A.groups ∣ A.inChannels ∨ ¬ A.groups ∣ A.outChannels) : SpectralConv.init env A w b = .error .valueError := by
  unfold SpectralConv.init
  rw [if_neg (by omega)]
  by_cases h1 : A.groups ∣ A.inChannels
  · rw [if_neg (by simp [Nat.mod_eq_zero_of_dvd h1]), if_pos (fun h' => (h.resolve_left (by simp [h1])) (Nat.dvd_of_mod_eq_zero h'))]
  · rw [if_pos (fun h' => h1 (Nat.dvd_of_mod_eq_zero h'))]

/-- C20 (error branch). A field on the wrong grid is rejected. -/
theorem C20_error_shape (be : C2R) (S : SpectralConv) (x : Ten3 ℝ) (h : x.d1 ≠ S.sht.nlat ∨ x.d2 ≠ S.sht.nlon) :
    S.forward be x = .error .runtimeError := by
  unfold SpectralConv.forward mapChannels
  rw [(C14_shape_errors be S.sht S.isht ⟨x.d1, x.d2, x.val 0⟩ ⟨0, 0, fun _ _ => 0⟩).1 h]

/-- C20 (error branch). Without bias, a wrong number of channels is rejected, unless there is one channel per group
(or one expected): then `einsum` broadcasts. -/
theorem C20_error_channels (S : SpectralConv) (c : Ten3 ℂ) (h : c.d0 ≠ S.inChannels) (hd : S.groups ∣ S.inChannels)
    (h1 : c.d0 ≠ S.groups) (h2 : S.inChannels ≠ S.groups) : S.contract c.d0 c = .error .runtimeError := by
  unfold SpectralConv.contract
  dsimp only
  by_cases hdc : S.groups * (c.d0 / S.groups) = c.d0
  · rw [if_neg (by simp [hdc])]
    have e := Nat.mul_div_cancel' hd
    have : bcast (c.d0 / S.groups) (S.inChannels / S.groups) = none := by
      unfold bcast
      rw [if_neg (fun h' => h (by rw [← hdc, ← e, h'])), if_neg (fun h' => h1 (by rw [← hdc, h', mul_one])),
        if_neg (fun h' => h2 (by rw [← e, h', mul_one]))]
    rw [this]
  · rw [if_pos hdc]

/-- C20 (finding). An input with exactly one channel per group is accepted by a layer that expects several: the missing
channels are broadcast, and the single channel meets the sum of the weights. No exception is raised. -/
theorem C20_broadcast_wrong (S : SpectralConv) (c : Ten3 ℂ) (hc : c.d0 = S.groups) (hg : 0 < S.groups) :
    ∃ z, S.contract c.d0 c = .ok z ∧ z.d0 = S.outChannels ∧ ∀ oc l m, z.val oc l m = c.val (oc / (S.outChannels / S.groups)) l m
      * ∑ i ∈ range (S.inChannels / S.groups), S.weight (oc / (S.outChannels / S.groups)) i (oc % (S.outChannels / S.groups)) l := by
  have h1 : c.d0 / S.groups = 1 := by rw [hc]; exact Nat.div_self hg
  unfold SpectralConv.contract
  dsimp only
  rw [h1, if_neg (by simp [hc])]
  have hb : bcast 1 (S.inChannels / S.groups) = some (S.inChannels / S.groups) := by
    unfold bcast
    by_cases h : 1 = S.inChannels / S.groups
    · rw [if_pos h, h]
    · rw [if_neg h, if_pos rfl]
  rw [hb]
  refine ⟨_, rfl, rfl, fun oc l m => ?_⟩
  dsimp only
  rw [mul_sum]
  refine sum_congr rfl fun i hi => ?_
  have : bidx 1 i = 0 := by simp [bidx]
  rw [this, bidx_lt _ _ (mem_range.1 hi), mul_one, add_zero]

/-- Non-vacuity: 6 channels to 4 in 2 groups, from an 8 x 16 to a 5 x 12 equiangular grid. -/
example (env : Env) : ∃ rin rout din dout L, ConvBuilt env ⟨8, 16, 5, 12, 6, 4, 2, "equiangular", "equiangular"⟩ rin rout din dout L :=
  C20_default env _ (by norm_num) (by norm_num) (by norm_num) (by norm_num) (Or.inl rfl) (Or.inl rfl) (by norm_num) (by norm_num)
    (by norm_num) (by norm_num)
/-- Its truncation is 3, the smaller one of 4 and 3. -/
example : convLmax ⟨8, 16, 5, 12, 6, 4, 2, "equiangular", "equiangular"⟩ = .ok 3 := by decide
/-- A rotation by 4 of 16 points is one by 3 of 12. -/
example : 4 * 12 = 3 * 16 := by norm_num

end Verif.Props
