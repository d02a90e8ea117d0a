import Verif.Lemmas.DiscoFused
import Verif.Props.DiscoCpu
/-!
C34: the fused convolution, its two input-gradient orders and its weight gradient.
-/
namespace Verif.Props
open Verif Verif.Dist Verif.Spec Verif.Disco Finset

variable {R : Type} [CommSemiring R]

/-- A layer whose filter entries are those of `taps`, listed as the optimized path needs them. -/
structure FusedOf (L : Layer R) (taps : List (Tap R)) : Prop where
  entries : L.entries = taps.map (encode L.nlonIn)
  fits : Fits taps L.kernelSize L.nlatOut L.nlatIn L.nlonIn
  nlonOut : 0 < L.nlonOut
  nlonIn : 0 < L.nlonIn
  dvd : L.nlonOut ∣ L.nlonIn
  nonempty : taps ≠ []
  rows : RowSorted (taps.map (encode L.nlonIn))
  noCollision : NoCollision L.kernelSize (taps.map (encode L.nlonIn))

/-- The documented input gradient: the transposed filter applied to the cotangent mixed with the weights of the group. -/
def gradInputSpec (L : Layer R) (taps : List (Tap R)) (gout : Ten R) (ic i j : ℕ) : R :=
  discoAdjoint taps L.nlonIn L.nlonOut (fun k t p => ∑ o ∈ range L.outPerGroup,
    gout.val (ic / L.groupsize * L.outPerGroup + o) t p *
      L.weight (ic / L.groupsize * L.outPerGroup + o) (ic % L.groupsize) k) i j

/-- The documented output. -/
def outputSpec (L : Layer R) (taps : List (Tap R)) (x : Ten R) (oc t p : ℕ) : R :=
  (∑ c ∈ range L.groupsize, ∑ k ∈ range L.kernelSize,
    discoSum taps L.nlonIn L.nlonOut (x.val (oc / L.outPerGroup * L.groupsize + c)) k t p * L.weight oc c k)
    + (match L.bias with | none => 0 | some b => b oc)

section
variable (junk : ℕ → Entry R) (L : Layer R) (taps : List (Tap R)) (hL : FusedOf L taps) (s : List (Entry R)) (roff : List ℕ)
  (hp : preprocessPsi junk L.kernelSize L.nlatOut L.entries = .ok (s, roff))

include hL hp

theorem fused_csr : Runs (Csr.ofLists junk s roff) L.entries.length ∧ Csr.ofLists junk s roff = csrOf junk L.kernelSize L.entries ∧
    ∀ f : Entry R → R, ∑ z ∈ range L.entries.length, f ((Csr.ofLists junk s roff).entry z) = (L.entries.map f).sum := by
  obtain ⟨hK, hH⟩ := fits_ker hL.fits
  have hne : taps.map (encode L.nlonIn) ≠ [] := by simpa using hL.nonempty
  rw [hL.entries] at hp ⊢
  obtain ⟨rfl, rfl⟩ := preprocess_ok junk L.kernelSize L.nlatOut _ s roff hK hp
  exact ⟨runs_of junk L.kernelSize _ hK hne hL.noCollision, rfl, csr_sum junk L.kernelSize _ hK⟩

/-- Weight-first input gradient. -/
theorem C34_weight_first (gout : Ten R) (sh : ℕ → R) (hsh : ∀ q < 2 * L.nlonIn, sh q = 0) (ic i j : ℕ) (hj : j < L.nlonIn) :
    (gradInputWeight sh L (Csr.ofLists junk s roff) gout).val ic i j = gradInputSpec L taps gout ic i j := by
  obtain ⟨hr, -, hsum⟩ := fused_csr junk L taps hL s roff hp
  obtain ⟨z, sh', b1, -, -, -, b5⟩ := cpuBackward_value sh _ _ hr
    ⟨L.kernelSize, L.nlatOut, L.nlonOut, fun k h w => ∑ o ∈ range L.outPerGroup,
      gout.val (ic / L.groupsize * L.outPerGroup + o) h w * L.weightR (ic / L.groupsize) o (ic % L.groupsize) k⟩
    L.nlatIn L.nlonIn hsh hL.nlonOut hL.dvd hL.nlonIn
  show planeVal (cpuBackward sh _ _ L.nlatIn L.nlonIn) i j = _
  rw [b1]
  show z.val i j = _
  rw [b5 i j hj]
  unfold gradInputSpec
  rw [← encode_discoAdjoint taps L.kernelSize L.nlatOut L.nlatIn L.nlonIn L.nlonOut hL.fits, ← hL.entries, ← hsum]
  rfl

/-- Spatial-first input gradient. -/
theorem C34_spatial_first (gout : Ten R) (sh : ℕ → R) (hsh : ∀ q < 2 * L.nlonIn, sh q = 0) (ic i j : ℕ) (hj : j < L.nlonIn) :
    (gradInputSpatial junk sh L (buildSplit (Csr.ofLists junk s roff) L.kernelSize) gout).val ic i j
      = gradInputSpec L taps gout ic i j := by
  obtain ⟨hr, -, hsum⟩ := fused_csr junk L taps hL s roff hp
  have hK : ∀ e ∈ L.entries, e.ker < L.kernelSize := by rw [hL.entries]; exact (fits_ker hL.fits).1
  set A := Csr.ofLists junk s roff with hA
  unfold gradInputSpec
  rw [← encode_discoAdjoint taps L.kernelSize L.nlatOut L.nlatIn L.nlonIn L.nlonOut hL.fits, ← hL.entries]
  show (∑ o ∈ range L.outPerGroup, ∑ k ∈ range L.kernelSize, _ * _) = _
  have hpart : ∀ o, ∀ k ∈ range L.kernelSize,
      matVal (spatialPart junk sh (buildSplit A L.kernelSize) (gout.val (ic / L.groupsize * L.outPerGroup + o)) L.nlatOut L.nlonOut
          L.nlatIn L.nlonIn k) i j
      = (L.entries.map fun e => if e.ker = k then
          bwdTerm (gout.val (ic / L.groupsize * L.outPerGroup + o) e.row) L.nlonOut L.nlonIn (L.nlonIn / L.nlonOut) e i j else 0).sum := by
    intro o k hk
    obtain ⟨z, h1, h2⟩ := spatialPart_value junk sh A _ hr L.kernelSize k (mem_range.1 hk)
      (gout.val (ic / L.groupsize * L.outPerGroup + o)) L.nlatOut L.nlonOut L.nlatIn L.nlonIn hsh hL.nlonOut hL.dvd hL.nlonIn
    rw [h1]
    show z.val i j = _
    rw [h2 i j hj, ← hsum]
  rw [sum_congr rfl fun o _ => sum_congr rfl fun k hk => by rw [hpart o k hk]]
  simp only [← List.sum_map_mul_right, sum_list_sum]
  congr 1
  apply List.map_congr_left
  intro e he
  rw [show (fun w => ∑ o ∈ range L.outPerGroup, gout.val (ic / L.groupsize * L.outPerGroup + o) e.row w *
      L.weight (ic / L.groupsize * L.outPerGroup + o) (ic % L.groupsize) e.ker)
      = fun w => ∑ o ∈ range L.outPerGroup, (fun o => gout.val (ic / L.groupsize * L.outPerGroup + o) e.row) o w *
      (fun o => L.weight (ic / L.groupsize * L.outPerGroup + o) (ic % L.groupsize) e.ker) o from rfl, bwdTerm_linear]
  apply sum_congr rfl
  intro o _
  rw [sum_eq_single_of_mem e.ker (mem_range.2 (hK e he))]
  · rw [if_pos rfl]; rfl
  · intro k _ hne
    rw [if_neg (Ne.symm hne), zero_mul]

/-- C34: both orders give the same input gradient, so the choice made by `_use_spatial_first_dgrad` cannot be observed. -/
theorem C34_orders_agree (gout : Ten R) (sh : ℕ → R) (hsh : ∀ q < 2 * L.nlonIn, sh q = 0) (ic i j : ℕ) (hj : j < L.nlonIn) :
    (gradInputSpatial junk sh L (buildSplit (Csr.ofLists junk s roff) L.kernelSize) gout).val ic i j
      = (gradInputWeight sh L (Csr.ofLists junk s roff) gout).val ic i j := by
  rw [C34_spatial_first junk L taps hL s roff hp gout sh hsh ic i j hj, C34_weight_first junk L taps hL s roff hp gout sh hsh ic i j hj]

/-- C34: the input gradient that the fused convolution returns, whichever order it picks. -/
theorem C34_input_gradient (gout : Ten R) (sh : ℕ → R) (hsh : ∀ q < 2 * L.nlonIn, sh q = 0) :
    ∃ z, fusedGradInput junk sh L (Csr.ofLists junk s roff) roff.length (buildSplit (Csr.ofLists junk s roff) L.kernelSize) gout = .ok z ∧
      z.d0 = L.groups * L.groupsize ∧ z.d1 = L.nlatIn ∧ z.d2 = L.nlonIn ∧
      ∀ ic i, ∀ j < L.nlonIn, z.val ic i j = gradInputSpec L taps gout ic i j := by
  obtain ⟨hr, -, -⟩ := fused_csr junk L taps hL s roff hp
  obtain ⟨z0, sh', b1, -⟩ := cpuBackward_value sh _ _ hr ⟨L.kernelSize, L.nlatOut, L.nlonOut, fun _ _ _ => 0⟩
    L.nlatIn L.nlonIn hsh hL.nlonOut hL.dvd hL.nlonIn
  unfold fusedGradInput
  rw [b1]
  dsimp only
  split
  · exact ⟨_, rfl, rfl, rfl, rfl, fun ic i j hj => C34_spatial_first junk L taps hL s roff hp gout sh hsh ic i j hj⟩
  · exact ⟨_, rfl, rfl, rfl, rfl, fun ic i j hj => C34_weight_first junk L taps hL s roff hp gout sh hsh ic i j hj⟩

/-- The sparse contraction inside the fused convolution. -/
theorem fused_plane (mem : ℕ → R) (sh0 : ℕ → ℕ → R) (order : List ℕ) (ho : order.Perm (List.range (roff.length - 1)))
    (x : Ten R) (hx : x.d1 = L.nlatIn ∧ x.d2 = L.nlonIn) (c : ℕ) :
    ∃ y, cpuForward mem sh0 (Csr.ofLists junk s roff) order ⟨x.d1, x.d2, x.val c⟩ L.kernelSize L.nlatOut L.nlonOut = .ok y ∧
      ∀ k t, ∀ p < L.nlonOut, y.val k t p = discoSum taps L.nlonIn L.nlonOut (x.val c) k t p := by
  obtain ⟨h1, h2⟩ := hx
  rw [h1, h2]
  obtain ⟨s', roff', e1, e2⟩ := C30_forward taps L.kernelSize L.nlatOut L.nlonOut ⟨L.nlatIn, L.nlonIn, x.val c⟩ hL.fits hL.nlonOut
    hL.nlonIn hL.dvd hL.nonempty hL.rows hL.noCollision junk
  rw [hL.entries] at hp
  dsimp only at e1
  rw [hp] at e1
  cases e1
  obtain ⟨y, f1, -, -, -, f5⟩ := e2 mem sh0 order ho
  exact ⟨y, f1, f5⟩

/-- C34: the fused convolution is the contraction followed by the weight mix inside each group, plus bias. -/
theorem C34_fused_forward (mem : ℕ → R) (sh0 : ℕ → ℕ → R) (order : List ℕ) (ho : order.Perm (List.range (roff.length - 1)))
    (x : Ten R) (hx : x.d0 = L.groups * L.groupsize ∧ x.d1 = L.nlatIn ∧ x.d2 = L.nlonIn) :
    ∃ y, fusedForward mem sh0 order L (Csr.ofLists junk s roff) x = .ok y ∧
      y.d0 = L.groups * L.outPerGroup ∧ y.d1 = L.nlatOut ∧ y.d2 = L.nlonOut ∧
      ∀ oc t, ∀ p < L.nlonOut, y.val oc t p = outputSpec L taps x oc t p := by
  obtain ⟨hx0, hx12⟩ := hx
  have h := fused_plane junk L taps hL s roff hp mem sh0 order ho x hx12
  obtain ⟨y0, g0, -⟩ := h 0
  refine ⟨_, by unfold fusedForward; rw [g0]; dsimp only; rw [if_neg (by rw [not_not]; exact hx0)], rfl, rfl, rfl, ?_⟩
  intro oc t p hpp
  have hmix : L.mix (fun c =>
      tenVal (cpuForward mem sh0 (Csr.ofLists junk s roff) order ⟨x.d1, x.d2, x.val c⟩ L.kernelSize L.nlatOut L.nlonOut)) oc t p = ∑ c ∈ range L.groupsize, ∑ k ∈ range L.kernelSize,
      discoSum taps L.nlonIn L.nlonOut (x.val (oc / L.outPerGroup * L.groupsize + c)) k t p * L.weight oc c k := by
    unfold Layer.mix
    dsimp only
    refine sum_congr rfl fun c _ => sum_congr rfl fun k _ => ?_
    obtain ⟨y, g1, g2⟩ := h (oc / L.outPerGroup * L.groupsize + c)
    rw [g1]
    show y.val k t p * _ = _
    rw [g2 k t p hpp]
    unfold Layer.weightR
    rw [Nat.div_add_mod']
  show L.addBias _ oc t p = _
  unfold Layer.addBias outputSpec
  cases hb : L.bias with
  | none => simp only [hmix, add_zero]
  | some b => simp only [hmix]

/-- C34: the fused convolution returns what the unfused reference layer returns. -/
theorem C34_fused_equals_reference (hle : L.nlatOut ≤ L.nlonIn) (mem : ℕ → R) (sh0 : ℕ → ℕ → R) (order : List ℕ)
    (ho : order.Perm (List.range (roff.length - 1)))
    (x : Ten R) (hx : x.d0 = L.groups * L.groupsize ∧ x.d1 = L.nlatIn ∧ x.d2 = L.nlonIn) :
    ∃ y yref, fusedForward mem sh0 order L (Csr.ofLists junk s roff) x = .ok y ∧ L.forward x = .ok yref ∧
      y.d0 = yref.d0 ∧ y.d1 = yref.d1 ∧ y.d2 = yref.d2 ∧ ∀ oc t, ∀ p < L.nlonOut, y.val oc t p = yref.val oc t p := by
  obtain ⟨y, h1, h2, h3, h4, h5⟩ := C34_fused_forward junk L taps hL s roff hp mem sh0 order ho x hx
  obtain ⟨z, g1, g2, g3, g4, g5⟩ := C28_layer L taps ⟨hL.entries, hL.fits, hL.nlonOut, hL.dvd, hle⟩ x hx
  refine ⟨y, z, h1, g1, h2.trans g2.symm, h3.trans g3.symm, h4.trans g4.symm, fun oc t p hpp => ?_⟩
  rw [h5 oc t p hpp, g5 oc t p hpp]
  rfl

/-- C34: the input gradient is the transpose of the (bias-free) convolution: `<conv(x), g> = <x, grad>`. -/
theorem C34_input_gradient_adjoint (hb : L.bias = none) (mem : ℕ → R) (sh0 : ℕ → ℕ → R) (order : List ℕ)
    (ho : order.Perm (List.range (roff.length - 1))) (sh : ℕ → R) (hsh : ∀ q < 2 * L.nlonIn, sh q = 0)
    (x gout : Ten R) (hx : x.d0 = L.groups * L.groupsize ∧ x.d1 = L.nlatIn ∧ x.d2 = L.nlonIn) (hG : 0 < L.groupsize) (hO : 0 < L.outPerGroup) :
    ∃ y z, fusedForward mem sh0 order L (Csr.ofLists junk s roff) x = .ok y ∧
      fusedGradInput junk sh L (Csr.ofLists junk s roff) roff.length (buildSplit (Csr.ofLists junk s roff) L.kernelSize) gout = .ok z ∧
      ∑ oc ∈ range (L.groups * L.outPerGroup), ∑ t ∈ range L.nlatOut, ∑ p ∈ range L.nlonOut, y.val oc t p * gout.val oc t p
        = ∑ ic ∈ range (L.groups * L.groupsize), ∑ i ∈ range L.nlatIn, ∑ j ∈ range L.nlonIn, x.val ic i j * z.val ic i j := by
  obtain ⟨y, h1, -, -, -, h5⟩ := C34_fused_forward junk L taps hL s roff hp mem sh0 order ho x hx
  obtain ⟨z, g1, -, -, -, g5⟩ := C34_input_gradient junk L taps hL s roff hp gout sh hsh
  refine ⟨y, z, h1, g1, ?_⟩
  -- split a channel index into group and position
  have hchan : ∀ (G n : ℕ), 0 < n → ∀ F : ℕ → R, ∑ a ∈ range (G * n), F a = ∑ g ∈ range G, ∑ o ∈ range n, F (g * n + o) := by
    intro G n hn F
    induction G with
    | zero => simp
    | succ G ih =>
      rw [Nat.add_mul, Nat.one_mul, sum_range_add, ih, sum_range_succ]
  rw [hchan _ _ hO, hchan _ _ hG]
  apply sum_congr rfl
  intro g _
  have hdO : ∀ o ∈ range L.outPerGroup, (g * L.outPerGroup + o) / L.outPerGroup = g := fun o ho => col_div (mem_range.1 ho)
  have hR : ∀ c ∈ range L.groupsize, (∑ i ∈ range L.nlatIn, ∑ j ∈ range L.nlonIn, x.val (g * L.groupsize + c) i j * z.val (g * L.groupsize + c) i j)
      = ∑ k ∈ range L.kernelSize, ∑ t ∈ range L.nlatOut, ∑ p ∈ range L.nlonOut,
        discoSum taps L.nlonIn L.nlonOut (x.val (g * L.groupsize + c)) k t p *
          ∑ o ∈ range L.outPerGroup, gout.val (g * L.outPerGroup + o) t p * L.weight (g * L.outPerGroup + o) c k := by
    intro c hc
    rw [disco_adjoint taps L.kernelSize L.nlatOut L.nlatIn L.nlonIn L.nlonOut hL.fits (x.val (g * L.groupsize + c))
      (fun k t p => ∑ o ∈ range L.outPerGroup, gout.val (g * L.outPerGroup + o) t p * L.weight (g * L.outPerGroup + o) c k)]
    refine sum_congr rfl fun i _ => sum_congr rfl fun j hj => ?_
    rw [g5 _ i j (mem_range.1 hj)]
    unfold gradInputSpec
    rw [col_div (mem_range.1 hc), col_mod (mem_range.1 hc)]
  rw [sum_congr rfl hR]
  have hLft : ∀ o ∈ range L.outPerGroup, (∑ t ∈ range L.nlatOut, ∑ p ∈ range L.nlonOut,
      y.val (g * L.outPerGroup + o) t p * gout.val (g * L.outPerGroup + o) t p)
      = ∑ c ∈ range L.groupsize, ∑ k ∈ range L.kernelSize, ∑ t ∈ range L.nlatOut, ∑ p ∈ range L.nlonOut,
        discoSum taps L.nlonIn L.nlonOut (x.val (g * L.groupsize + c)) k t p *
          (gout.val (g * L.outPerGroup + o) t p * L.weight (g * L.outPerGroup + o) c k) := by
    intro o ho'
    have e : ∀ t ∈ range L.nlatOut, ∀ p ∈ range L.nlonOut, y.val (g * L.outPerGroup + o) t p * gout.val (g * L.outPerGroup + o) t p
        = ∑ c ∈ range L.groupsize, ∑ k ∈ range L.kernelSize, discoSum taps L.nlonIn L.nlonOut (x.val (g * L.groupsize + c)) k t p *
          (gout.val (g * L.outPerGroup + o) t p * L.weight (g * L.outPerGroup + o) c k) := by
      intro t _ p hpp
      rw [h5 _ t p (mem_range.1 hpp)]
      unfold outputSpec
      rw [hb, hdO o ho']
      simp only [add_zero, sum_mul]
      exact sum_congr rfl fun c _ => sum_congr rfl fun k _ => by ring
    rw [sum_congr rfl fun t ht => sum_congr rfl fun p hpp => e t ht p hpp]
    rw [sum_congr rfl fun t _ => sum_comm, sum_comm]
    apply sum_congr rfl
    intro c _
    rw [sum_congr rfl fun t _ => sum_comm, sum_comm]
  rw [sum_congr rfl hLft, sum_comm]
  apply sum_congr rfl
  intro c _
  rw [sum_comm]
  apply sum_congr rfl
  intro k _
  rw [sum_comm]
  apply sum_congr rfl
  intro t _
  rw [sum_comm]
  apply sum_congr rfl
  intro p _
  rw [mul_sum]

/-- C34: the weight gradient is the transpose of the map from weights to outputs: for every other weight `w`, `<w, grad>` is the
sum over the batch of `<conv_w(x_b), g_b>`. -/
theorem C34_weight_gradient (mem : ℕ → R) (sh0 : ℕ → ℕ → R) (order : List ℕ) (ho : order.Perm (List.range (roff.length - 1)))
    (B : ℕ) (x gout : ℕ → Ten R) (hx : ∀ b < B, (x b).d0 = L.groups * L.groupsize ∧ (x b).d1 = L.nlatIn ∧ (x b).d2 = L.nlonIn)
    (w : ℕ → ℕ → ℕ → R) :
    ∃ y : ℕ → Ten R, (∀ b < B, fusedForward mem sh0 order { L with weight := w, bias := none } (Csr.ofLists junk s roff) (x b) = .ok (y b)) ∧
      ∑ oc ∈ range (L.groups * L.outPerGroup), ∑ c ∈ range L.groupsize, ∑ k ∈ range L.kernelSize,
          w oc c k * fusedGradWeight mem sh0 order L (Csr.ofLists junk s roff) B x gout oc c k
        = ∑ b ∈ range B, ∑ oc ∈ range (L.groups * L.outPerGroup), ∑ t ∈ range L.nlatOut, ∑ p ∈ range L.nlonOut,
            (y b).val oc t p * (gout b).val oc t p := by
  have hL' : FusedOf { L with weight := w, bias := none } taps := ⟨hL.entries, hL.fits, hL.nlonOut, hL.nlonIn, hL.dvd, hL.nonempty, hL.rows, hL.noCollision⟩
  have hy : ∀ b, ∃ y, b < B → (fusedForward mem sh0 order { L with weight := w, bias := none } (Csr.ofLists junk s roff) (x b) = .ok y ∧
      ∀ oc t, ∀ p < L.nlonOut, y.val oc t p = outputSpec { L with weight := w, bias := none } taps (x b) oc t p) := by
    intro b
    by_cases hb : b < B
    · obtain ⟨y, h1, -, -, -, h5⟩ := C34_fused_forward junk { L with weight := w, bias := none } taps hL' s roff hp mem sh0 order ho (x b) (hx b hb)
      exact ⟨y, fun _ => ⟨h1, h5⟩⟩
    · exact ⟨⟨0, 0, 0, fun _ _ _ => 0⟩, fun h => absurd h hb⟩
  choose y hy using hy
  refine ⟨y, fun b hb => (hy b hb).1, ?_⟩
  have hgw : ∀ oc c k, fusedGradWeight mem sh0 order L (Csr.ofLists junk s roff) B x gout oc c k
      = ∑ b ∈ range B, ∑ t ∈ range L.nlatOut, ∑ p ∈ range L.nlonOut, (gout b).val oc t p *
        discoSum taps L.nlonIn L.nlonOut ((x b).val (oc / L.outPerGroup * L.groupsize + c)) k t p := by
    intro oc c k
    unfold fusedGradWeight
    dsimp only
    refine sum_congr rfl fun b hb => sum_congr rfl fun t _ => sum_congr rfl fun p hpp => ?_
    obtain ⟨z, g1, g2⟩ := fused_plane junk L taps hL s roff hp mem sh0 order ho (x b) (hx b (mem_range.1 hb)).2
      (oc / L.outPerGroup * L.groupsize + c)
    rw [g1]
    show _ * z.val k t p = _
    rw [g2 k t p (mem_range.1 hpp)]
  simp only [hgw]
  rw [sum_comm (s := range B)]
  apply sum_congr rfl
  intro oc _
  have hr : ∀ b ∈ range B, (∑ t ∈ range L.nlatOut, ∑ p ∈ range L.nlonOut, (y b).val oc t p * (gout b).val oc t p)
      = ∑ t ∈ range L.nlatOut, ∑ p ∈ range L.nlonOut, ∑ c ∈ range L.groupsize, ∑ k ∈ range L.kernelSize,
        w oc c k * ((gout b).val oc t p * discoSum taps L.nlonIn L.nlonOut ((x b).val (oc / L.outPerGroup * L.groupsize + c)) k t p) := by
    intro b hb
    refine sum_congr rfl fun t _ => sum_congr rfl fun p hpp => ?_
    rw [(hy b (mem_range.1 hb)).2 oc t p (mem_range.1 hpp)]
    unfold outputSpec
    simp only [add_zero, sum_mul]
    exact sum_congr rfl fun c _ => sum_congr rfl fun k _ => by ring
  rw [sum_congr rfl hr]
  simp only [mul_sum]
  rw [sum_congr rfl fun c _ => sum_comm (s := range L.kernelSize)]
  rw [sum_comm]
  refine sum_congr rfl fun b _ => ?_
  rw [sum_congr rfl fun c _ => sum_comm (s := range L.kernelSize)]
  rw [sum_comm]
  refine sum_congr rfl fun t _ => ?_
  rw [sum_congr rfl fun c _ => sum_comm (s := range L.kernelSize)]
  rw [sum_comm]

/-- C34: an output channel only sees the input channels of its own group. -/
theorem C34_groups_separate (mem : ℕ → R) (sh0 : ℕ → ℕ → R) (order : List ℕ) (ho : order.Perm (List.range (roff.length - 1)))
    (x x' : Ten R) (hx : x.d0 = L.groups * L.groupsize ∧ x.d1 = L.nlatIn ∧ x.d2 = L.nlonIn)
    (hx' : x'.d0 = L.groups * L.groupsize ∧ x'.d1 = L.nlatIn ∧ x'.d2 = L.nlonIn) (oc : ℕ)
    (hsame : ∀ ic, ic / L.groupsize = oc / L.outPerGroup → x.val ic = x'.val ic) :
    ∃ y y', fusedForward mem sh0 order L (Csr.ofLists junk s roff) x = .ok y ∧
      fusedForward mem sh0 order L (Csr.ofLists junk s roff) x' = .ok y' ∧ ∀ t, ∀ p < L.nlonOut, y.val oc t p = y'.val oc t p := by
  obtain ⟨y, h1, -, -, -, h5⟩ := C34_fused_forward junk L taps hL s roff hp mem sh0 order ho x hx
  obtain ⟨y', h1', -, -, -, h5'⟩ := C34_fused_forward junk L taps hL s roff hp mem sh0 order ho x' hx'
  refine ⟨y, y', h1, h1', fun t p hpp => ?_⟩
  rw [h5 oc t p hpp, h5' oc t p hpp]
  unfold outputSpec
  congr 1
  refine sum_congr rfl fun c hc => ?_
  rw [hsame _ (col_div (mem_range.1 hc))]

end

/-! ### A case meeting the hypotheses -/

/-- Two groups of two input channels and one output channel each: the gradient is computed spatial-first. -/
def exFused : Layer ℚ :=
  { groups := 2, groupsize := 2, outPerGroup := 1, kernelSize := 2, nlatIn := 2, nlonIn := 4, nlatOut := 2, nlonOut := 2
    weight := fun o c k => (o + c + k : ℕ), bias := none, entries := exSorted.map (encode 4) }

example : FusedOf exFused exSorted := by
  refine ⟨rfl, ?_, by decide, by decide, by decide, by decide, ?_, ?_⟩
  · intro a ha
    simp only [exSorted, List.mem_cons, List.not_mem_nil, or_false] at ha
    rcases ha with rfl | rfl | rfl | rfl | rfl | rfl <;> decide
  · intro k
    have h : ∀ k : ℕ, k = 0 ∨ k = 1 ∨ (0 ≠ k ∧ 1 ≠ k) := by omega
    rcases h k with rfl | rfl | ⟨h0, h1⟩
    · simp [exSorted, encode, exFused]
    · simp [exSorted, encode, exFused]
    · simp [exSorted, encode, h0, h1]
  · unfold NoCollision byKernel
    simp [exSorted, encode, exFused, List.range_succ, List.isChain_cons_cons]

example (junk : ℕ → Entry ℚ) : ∃ s roff, preprocessPsi junk exFused.kernelSize exFused.nlatOut exFused.entries = .ok (s, roff) ∧
    useSpatialFirst exFused.outPerGroup exFused.groupsize exFused.kernelSize roff.length exFused.nlatOut
      (some (buildSplit (Csr.ofLists junk s roff) 2)) = true := by
  refine ⟨_, _, rfl, ?_⟩
  rfl

end Verif.Props
