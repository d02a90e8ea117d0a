import Verif.Lemmas.SFNO
/-!
C76: the spherical Fourier neural operator.
-/
namespace Verif.Props
open Verif Verif.Dist Verif.FFT Verif.Quad Verif.Truncation Verif.SHT Verif.Spec Verif.SFNO Verif.Legendre Finset

/-- The size of the internal grid. -/
def inH (a : NetArgs) : ℕ := (((a.nlat : ℤ) - 1) / a.scale + 1).toNat
def inW (a : NetArgs) : ℕ := a.nlon / a.scale

/-- The hypotheses under which the network is built: known grids with latitude rules `rOut` and `rIn`, known names of the other options, at least one
channel, at least one mode. -/
structure NetBuilt (env : Env) (be : C2R) (a : NetArgs) (p : NetParams) (rOut rIn : Rule) (L : ℕ) (act : ℝ → ℝ) (pos : Option (Ten3 ℝ)) : Prop where
  scale : a.scale ≠ 0
  act : activation a.act = .ok act
  pos : posInit env be a.posEmbed a.nlat a.nlon a.embedDim a.grid p.posLat = .ok pos
  outer : gridRule env.gauss env.tol env.maxiter a.nlat a.grid = .ok rOut
  inner : gridRule env.gauss env.tol env.maxiter (inH a) a.gridInternal = .ok rIn
  modes : modes (inH a) (inW a) a.fraction = (L : ℤ)
  modes_pos : 0 < L
  norm : a.norm = "layer_norm" ∨ a.norm = "instance_norm" ∨ a.norm = "none"
  inChans : a.inChans ≠ 0
  embedDim : a.embedDim ≠ 0
  hidden : a.useMlp = true → 0 ≤ pyInt (a.embedDim * a.mlpRatio)

section Build

noncomputable def shtOf (nlat nlon L : ℕ) (r : Rule) : RealSHT :=
  ⟨nlat, nlon, L, L, fun m l k => legpolyVal L L "ortho" false true (Real.cos (colat r k)) m l * r.w k⟩
noncomputable def ishtOf (nlat nlon L : ℕ) (r : Rule) : InverseRealSHT :=
  ⟨nlat, nlon, L, L, fun m k l => legpolyVal L L "ortho" true true (Real.cos (colat r k)) m l⟩

def normOf (kind : String) (nlat nlon D : ℕ) (p : BlockParams) : Norm :=
  if kind = "layer_norm" then .layer nlat nlon p.layerG p.layerB else if kind = "instance_norm" then .inst D p.instG p.instB else .none

noncomputable def blockArgs (a : NetArgs) (act : ℝ → ℝ) : BlockArgs := ⟨a.mlpRatio, act, a.norm, "none", "identity", a.useMlp, a.bias⟩

/-- Block `i`. -/
noncomputable def blockAt (a : NetArgs) (p : NetParams) (rOut rIn : Rule) (L : ℕ) (act : ℝ → ℝ) (i : ℕ) : Block :=
  let inv := if i = a.numLayers - 1 then ishtOf a.nlat a.nlon L rOut else ishtOf (inH a) (inW a) L rIn
  netBlock (if i = 0 then shtOf a.nlat a.nlon L rOut else shtOf (inH a) (inW a) L rIn) inv a.embedDim (blockArgs a act)
    (normOf a.norm inv.nlat inv.nlon a.embedDim (p.block i)) (p.block i)

/-- The network that the constructor builds. -/
noncomputable def netOf (a : NetArgs) (p : NetParams) (rOut rIn : Rule) (L : ℕ) (act : ℝ → ℝ) (pos : Option (Ten3 ℝ)) : Net :=
  ⟨pos, ⟨a.inChans, a.embedDim, p.encW, if a.bias then some p.encB else none⟩,
    (List.range' 0 a.numLayers).map (blockAt a p rOut rIn L act),
    ⟨a.embedDim, a.outChans, p.decW, if a.bias then some p.decB else none⟩, a.residualPrediction,
    if a.residualPrediction ∧ a.inChans ≠ a.outChans then some ⟨a.inChans, a.outChans, p.projW, none⟩ else none⟩

theorem modes_bounds {h w : ℕ} {f : ℝ} {L : ℕ} (hm : modes h w f = (L : ℤ)) (h0 : 0 < L) : 1 ≤ h ∧ 2 ≤ w := by
  by_contra hc
  have : min h ((w / 2 + 1) - 1) = 0 := by omega
  unfold modes pyInt at hm
  rw [this] at hm
  simp at hm
  omega

theorem inW_bounds {env : Env} {be : C2R} {a : NetArgs} {p : NetParams} {rOut rIn : Rule} {L : ℕ} {act : ℝ → ℝ} {pos : Option (Ten3 ℝ)}
    (H : NetBuilt env be a p rOut rIn L act pos) : 2 ≤ inW a ∧ inW a ≤ a.nlon :=
  ⟨(modes_bounds H.modes H.modes_pos).2, Nat.div_le_self _ _⟩

theorem blocksInit_ok {env : Env} {be : C2R} {a : NetArgs} {p : NetParams} {rOut rIn : Rule} {L : ℕ} {act : ℝ → ℝ} {pos : Option (Ten3 ℝ)}
    (H : NetBuilt env be a p rOut rIn L act pos) (rest : ℕ) (hr : rest ≤ a.numLayers) :
    blocksInit (shtOf a.nlat a.nlon L rOut) (shtOf (inH a) (inW a) L rIn) (ishtOf a.nlat a.nlon L rOut) (ishtOf (inH a) (inW a) L rIn) a.embedDim
      (blockArgs a act) p.block a.numLayers rest
      = .ok ((List.range' (a.numLayers - rest) rest).map (blockAt a p rOut rIn L act)) := by
  induction rest with
  | zero => rfl
  | succ r ih =>
    have e : a.numLayers - (r + 1) + 1 = a.numLayers - r := by omega
    simp only [blocksInit]
    rw [block_init _ _ _ _ (normOf a.norm _ _ a.embedDim (p.block (a.numLayers - (r + 1)))) _ H.embedDim rfl rfl _ H.hidden, except_bind_ok, ih (by omega),
      except_bind_ok, List.range'_succ, e]
    · rfl
    · unfold normInit normOf
      show (if a.norm = _ then _ else _) = _
      rcases H.norm with h | h | h <;> simp [h, blockArgs]

theorem net_init {env : Env} {be : C2R} {a : NetArgs} {p : NetParams} {rOut rIn : Rule} {L : ℕ} {act : ℝ → ℝ} {pos : Option (Ten3 ℝ)}
    (H : NetBuilt env be a p rOut rIn L act pos) : Net.init env be a p = .ok (netOf a p rOut rIn L act pos) := by
  have hi : internalSize a.nlat a.nlon a.scale = .ok (inH a, inW a) := by rw [internalSize, if_neg H.scale]; rfl
  unfold Net.init
  rw [H.act, except_bind_ok, hi, except_bind_ok]
  dsimp only
  rw [H.pos, except_bind_ok, if_neg H.inChans, H.modes]
  rw [realSHT_init env _ rOut L H.outer (sizes_explicit _ _ _ _ H.modes_pos) H.modes_pos, except_bind_ok,
    inverseRealSHT_init env _ rOut L H.outer (sizes_explicit _ _ _ _ H.modes_pos) H.modes_pos, except_bind_ok,
    realSHT_init env _ rIn L H.inner (sizes_explicit _ _ _ _ H.modes_pos) H.modes_pos, except_bind_ok,
    inverseRealSHT_init env _ rIn L H.inner (sizes_explicit _ _ _ _ H.modes_pos) H.modes_pos, except_bind_ok]
  have hb := blocksInit_ok H a.numLayers le_rfl
  rw [Nat.sub_self] at hb
  have hb' := hb
  unfold shtOf ishtOf blockArgs at hb'
  rw [hb', except_bind_ok, if_neg H.embedDim]
  rfl

theorem blockAt_fits {env : Env} {be : C2R} {a : NetArgs} {p : NetParams} {rOut rIn : Rule} {L : ℕ} {act : ℝ → ℝ} {pos : Option (Ten3 ℝ)}
    (H : NetBuilt env be a p rOut rIn L act pos) (i : ℕ) : BlockFits (blockAt a p rOut rIn L act i) a.embedDim L := by
  have hw := inW_bounds H
  have hW : ∀ c : Prop, ∀ [Decidable c], 2 ≤ (if c then ishtOf a.nlat a.nlon L rOut else ishtOf (inH a) (inW a) L rIn).nlon := by
    intro c _; split_ifs
    · exact hw.1.trans hw.2
    · exact hw.1
  refine ⟨⟨?_, ?_, ?_, ?_, H.modes_pos, ?_, ?_, rfl⟩, rfl, rfl, ?_, rfl, rfl, ?_, ?_⟩
  · simp only [blockAt, netBlock]; split_ifs <;> rfl
  · simp only [blockAt, netBlock]; split_ifs <;> rfl
  · simp only [blockAt, netBlock]; split_ifs <;> rfl
  · simp only [blockAt, netBlock]; split_ifs <;> rfl
  · simp only [blockAt, netBlock]; split_ifs
    · show 0 < a.nlon; omega
    · show 0 < inW a; omega
  · have := hW (i = a.numLayers - 1)
    simp only [blockAt, netBlock]; omega
  · intro h
    have := hW (i = a.numLayers - 1)
    have h2 := Nat.eq_one_of_mul_eq_one_left h
    simp only [blockAt, netBlock] at h2
    omega
  · simp only [blockAt, netBlock, normOf]
    by_cases h1 : a.norm = "layer_norm"
    · rw [if_pos h1]; exact ⟨rfl, rfl⟩
    · rw [if_neg h1]
      by_cases h2 : a.norm = "instance_norm"
      · rw [if_pos h2]
      · rw [if_neg h2]; trivial
  · intro M hM
    simp only [blockAt, netBlock] at hM
    split_ifs at hM <;> cases hM <;> exact ⟨rfl, rfl, rfl⟩

theorem blockAt_fwd (a : NetArgs) (p : NetParams) (rOut rIn : Rule) (L : ℕ) (act : ℝ → ℝ) (i : ℕ) :
    (blockAt a p rOut rIn L act i).conv.fwd = if i = 0 then shtOf a.nlat a.nlon L rOut else shtOf (inH a) (inW a) L rIn := rfl
theorem blockAt_inv (a : NetArgs) (p : NetParams) (rOut rIn : Rule) (L : ℕ) (act : ℝ → ℝ) (i : ℕ) :
    (blockAt a p rOut rIn L act i).conv.inv = if i = a.numLayers - 1 then ishtOf a.nlat a.nlon L rOut else ishtOf (inH a) (inW a) L rIn := rfl

theorem blocks_chain {env : Env} {be : C2R} {a : NetArgs} {p : NetParams} {rOut rIn : Rule} {L : ℕ} {act : ℝ → ℝ} {pos : Option (Ten3 ℝ)}
    (H : NetBuilt env be a p rOut rIn L act pos) {s q : ℕ} (hq : 1 < a.numLayers → s * inW a = q * a.nlon)
    (hn : a.norm ≠ "layer_norm" ∨ (s = 0 ∧ q = 0)) (rest : ℕ) (hr : rest ≤ a.numLayers) :
    Chain a.embedDim L (if rest = 0 ∨ rest = a.numLayers then a.nlat else inH a) (if rest = 0 ∨ rest = a.numLayers then a.nlon else inW a)
      (if rest = 0 ∨ rest = a.numLayers then s else q)
      ((List.range' (a.numLayers - rest) rest).map (blockAt a p rOut rIn L act)) a.nlat a.nlon s := by
  induction rest with
  | zero => simp only [true_or, if_true]; exact .nil _ _ _
  | succ r ih =>
    have e : a.numLayers - (r + 1) + 1 = a.numLayers - r := by omega
    rw [List.range'_succ, List.map_cons, e]
    have hin : (r + 1 = 0 ∨ r + 1 = a.numLayers) ↔ a.numLayers - (r + 1) = 0 := by omega
    have hout : (r = 0 ∨ r = a.numLayers) ↔ a.numLayers - (r + 1) = a.numLayers - 1 := by omega
    have ih := ih (by omega)
    simp only [hin]
    simp only [hout] at ih
    have f1 := blockAt_fwd a p rOut rIn L act (a.numLayers - (r + 1))
    have f2 := blockAt_inv a p rOut rIn L act (a.numLayers - (r + 1))
    refine .cons (s1 := if a.numLayers - (r + 1) = a.numLayers - 1 then s else q) (blockAt_fits H _) ?_ ?_ ?_ ?_ ?_
    · rw [f1]; split_ifs <;> rfl
    · rw [f1]; split_ifs <;> rfl
    · rw [f2]
      by_cases c1 : a.numLayers - (r + 1) = 0 <;> by_cases c2 : a.numLayers - (r + 1) = a.numLayers - 1
      · simp only [if_pos c1, if_pos c2]; rfl
      · simp only [if_pos c1, if_neg c2]; exact hq (by omega)
      · simp only [if_neg c1, if_pos c2]; exact (hq (by omega)).symm
      · simp only [if_neg c1, if_neg c2]; rfl
    · rcases hn with hn | ⟨rfl, rfl⟩
      · left
        intro h w g b
        simp only [blockAt, netBlock, normOf, if_neg hn]
        split_ifs <;> simp
      · right; split_ifs <;> rfl
    · rw [f2]
      by_cases c2 : a.numLayers - (r + 1) = a.numLayers - 1
      · simp only [if_pos c2] at ih ⊢; exact ih
      · simp only [if_neg c2] at ih ⊢; exact ih

/-- The shape of the position embedding. -/
theorem pos_shape {env : Env} {be : C2R} {kind : String} {nlat nlon D : ℕ} {grid : String} {p : ℕ → ℕ → ℕ → ℝ} {e : Ten3 ℝ} (hn : 0 < nlon)
    (h : posInit env be kind nlat nlon D grid p = .ok (some e)) :
    e.d0 = D ∧ e.d1 = nlat ∧ (e.d2 = nlon ∨ e.d2 = 1) ∧ (kind = "learnable lat" → e.d2 = 1) ∧ kind ≠ "none" := by
  unfold posInit at h
  split_ifs at h with h1 h2 h3 h4 h5
  · cases h
    refine ⟨rfl, rfl, .inl rfl, ?_, ?_⟩ <;> simp [h1]
  · unfold spectralEmbed at h
    cases hI : InverseRealSHT.init env ⟨nlat, nlon, none, none, grid, "ortho", true⟩ with
    | error e => simp [hI, Except.map] at h
    | ok I =>
      rw [hI] at h
      dsimp only at h
      split_ifs at h with hx
      · simp [Except.map] at h
      · have hI' : I.nlat = nlat ∧ I.nlon = nlon ∧ 0 < I.mmax := by
          simp only [InverseRealSHT.init] at hI
          cases hr : gridRule env.gauss env.tol env.maxiter nlat grid with
          | error e => simp [hr, bind, Except.bind] at hI
          | ok r =>
            cases hs : sizes nlat nlon none none grid with
            | error e => simp [hr, hs, bind, Except.bind] at hI
            | ok LM =>
              obtain ⟨L', M'⟩ := LM
              have := sizes_eq _ _ _ _ _ _ _ hs
              by_cases hz : max M' L' = 0
              · simp [hr, hs, bind, Except.bind, legpolyTensor, hz] at hI
              · simp only [hr, hs, except_bind_ok, legpolyTensor, if_neg hz] at hI
                cases hI
                refine ⟨rfl, rfl, ?_⟩
                dsimp only
                omega
        have key : ∀ c : ℕ, ∃ y, I.forward be ⟨I.lmax, I.mmax, embedFreq c⟩ = .ok y ∧ y.d0 = I.nlat ∧ y.d1 = I.nlon := fun c => by
          obtain ⟨y, hy, a1, a2, _⟩ := inverseRealSHT_forward be I ⟨I.lmax, I.mmax, embedFreq c⟩ rfl rfl hI'.2.2 (by rw [hI'.2.1]; exact hn)
          exact ⟨y, hy, a1, a2⟩
        choose g hg g1 g2 using key
        rw [mapChannels_ok (x := ⟨D, I.lmax, I.mmax, embedFreq⟩) g hg] at h
        simp only [Except.map] at h
        cases h
        refine ⟨rfl, (g1 0).trans hI'.1, .inl ((g2 0).trans hI'.2.1), ?_, ?_⟩ <;> simp [h2]
  · simp only [learnableEmbed, Except.map] at h
    simp at h
    subst h
    exact ⟨rfl, rfl, .inr rfl, fun _ => rfl, by simp [h3]⟩
  · simp only [learnableEmbed, Except.map] at h
    simp at h
    subst h
    refine ⟨rfl, rfl, .inl rfl, ?_, ?_⟩ <;> simp [h4]
  · cases h

theorem embed_roll {s : ℕ} {e y y' : Ten3 ℝ} (h0 : e.d0 = y.d0) (h1 : e.d1 = y.d1) (h2 : e.d2 = 1 ∨ (e.d2 = y.d2 ∧ s = 0)) (hr : Rolled s y y') :
    ∃ z z', addEmbed e y = .ok z ∧ addEmbed e y' = .ok z' ∧ HasShape z y.d0 y.d1 y.d2 ∧ Rolled s z z' := by
  rcases h2 with h2 | ⟨h2, rfl⟩
  · obtain ⟨z, hz, sz, vz⟩ := addEmbed_lat h0 h1 h2
    obtain ⟨z', hz', sz', vz'⟩ := addEmbed_lat (x := y') (h0.trans hr.d0.symm) (h1.trans hr.d1.symm) h2
    refine ⟨z, z', hz, hz', sz, ?_, ?_, ?_, ?_⟩
    · rw [sz.1, sz'.1, hr.d0]
    · rw [sz.2.1, sz'.2.1, hr.d1]
    · rw [sz.2.2, sz'.2.2, hr.d2]
    · intro c hc k hk j hj
      rw [sz.1] at hc
      rw [sz.2.1] at hk
      rw [sz.2.2] at hj ⊢
      rw [vz' c (hr.d0 ▸ hc) k (hr.d1 ▸ hk) j (hr.d2 ▸ hj), vz c hc k hk _ (Nat.mod_lt _ (by omega)), hr.val c hc k hk j hj]
  · exact addEmbed_roll (rolled_refl e) hr h0 h1 h2

theorem net_step {be : C2R} {N : Net} {u u1 u2 u3 u4 : Ten3 ℝ} (h1 : N.encoder.forward u = .ok u1)
    (h2 : (match N.posEmbed with | none => .ok u1 | some e => addEmbed e u1 : Except PyErr (Ten3 ℝ)) = .ok u2)
    (h3 : runBlocks be N.blocks u2 = .ok u3) (h4 : N.decoder.forward u3 = .ok u4) :
    N.forward be u = if N.residual then (match N.proj with | none => .ok u | some F => F.forward u : Except PyErr (Ten3 ℝ)) >>= fun r => addEmbed r u4
      else .ok u4 := by
  unfold Net.forward
  rw [h1, except_bind_ok]
  cases hpe : N.posEmbed with
  | none =>
    rw [hpe] at h2
    cases h2
    dsimp only
    rw [except_bind_ok, h3, except_bind_ok, h4, except_bind_ok]
    cases N.proj <;> rfl
  | some e =>
    rw [hpe] at h2
    dsimp only at h2 ⊢
    rw [h2, except_bind_ok, h3, except_bind_ok, h4, except_bind_ok]
    cases N.proj <;> rfl

theorem net_roll {env : Env} {be : C2R} {a : NetArgs} {p : NetParams} {rOut rIn : Rule} {L : ℕ} {act : ℝ → ℝ} {pos : Option (Ten3 ℝ)}
    (H : NetBuilt env be a p rOut rIn L act pos) {s q : ℕ} (hq : 1 < a.numLayers → s * inW a = q * a.nlon)
    (hn : a.norm ≠ "layer_norm" ∨ (s = 0 ∧ q = 0)) (hp : a.posEmbed = "none" ∨ a.posEmbed = "learnable lat" ∨ s = 0) {x x' : Ten3 ℝ}
    (hx : HasShape x a.inChans a.nlat a.nlon) (hr : Rolled s x x') :
    ∃ y y', (netOf a p rOut rIn L act pos).forward be x = .ok y ∧ (netOf a p rOut rIn L act pos).forward be x' = .ok y' ∧
      HasShape y a.outChans a.nlat a.nlon ∧ Rolled s y y' := by
  have hw := inW_bounds H
  set N := netOf a p rOut rIn L act pos with hN
  obtain ⟨y1, y1', e1, e1', s1, r1⟩ := conv1_roll (F := N.encoder) hx.1 hr
  have s1' : HasShape y1 a.embedDim a.nlat a.nlon := ⟨s1.1, s1.2.1.trans hx.2.1, s1.2.2.trans hx.2.2⟩
  obtain ⟨y2, y2', e2, e2', s2, r2⟩ : ∃ y2 y2', (match N.posEmbed with | none => .ok y1 | some e => addEmbed e y1 : Except PyErr (Ten3 ℝ)) = .ok y2 ∧
      (match N.posEmbed with | none => .ok y1' | some e => addEmbed e y1' : Except PyErr (Ten3 ℝ)) = .ok y2' ∧
      HasShape y2 a.embedDim a.nlat a.nlon ∧ Rolled s y2 y2' := by
    have hpos := H.pos
    show ∃ y2 y2', (match pos with | none => .ok y1 | some e => addEmbed e y1 : Except PyErr (Ten3 ℝ)) = .ok y2 ∧
      (match pos with | none => .ok y1' | some e => addEmbed e y1' : Except PyErr (Ten3 ℝ)) = .ok y2' ∧ _
    cases pos with
    | none => exact ⟨y1, y1', rfl, rfl, s1', r1⟩
    | some e =>
      obtain ⟨p0, p1, p2, p3, p4⟩ := pos_shape (by omega) hpos
      obtain ⟨z, z', hz, hz', sz, rz⟩ := embed_roll (e := e) (p0.trans s1'.1.symm) (p1.trans s1'.2.1.symm) (by
        rcases hp with h | h | h
        · exact absurd h p4
        · exact .inl (p3 h)
        · rcases p2 with h2 | h2
          · exact .inr ⟨h2.trans s1'.2.2.symm, h⟩
          · exact .inl h2) r1
      rw [s1'.1, s1'.2.1, s1'.2.2] at sz
      exact ⟨z, z', hz, hz', sz, rz⟩
  have hC := blocks_chain H hq hn a.numLayers le_rfl
  simp only [or_true, if_true, Nat.sub_self] at hC
  obtain ⟨y3, y3', e3, e3', s3, r3⟩ := runBlocks_roll be hC s2 r2
  obtain ⟨y4, y4', e4, e4', s4, r4⟩ := conv1_roll (F := N.decoder) s3.1 r3
  have s4' : HasShape y4 a.outChans a.nlat a.nlon := ⟨s4.1, s4.2.1.trans s3.2.1, s4.2.2.trans s3.2.2⟩
  rw [net_step e1 e2 e3 e4, net_step e1' e2' e3' e4']
  by_cases hres : N.residual = true
  · rw [if_pos hres, if_pos hres]
    obtain ⟨w, w', f1, f1', sw, rw'⟩ : ∃ w w', (match N.proj with | none => .ok x | some F => F.forward x : Except PyErr (Ten3 ℝ)) = .ok w ∧
        (match N.proj with | none => .ok x' | some F => F.forward x' : Except PyErr (Ten3 ℝ)) = .ok w' ∧ HasShape w a.outChans a.nlat a.nlon ∧
        Rolled s w w' := by
      by_cases hio : a.inChans = a.outChans
      · have : N.proj = none := by simp [hN, netOf, hio]
        rw [this]
        exact ⟨x, x', rfl, rfl, ⟨hx.1.trans hio, hx.2⟩, hr⟩
      · have : N.proj = some ⟨a.inChans, a.outChans, p.projW, none⟩ := by
          have h2 : a.residualPrediction = true := hres
          simp [hN, netOf, hio, h2]
        rw [this]
        obtain ⟨w, w', f1, f1', sw, rw'⟩ := conv1_roll (F := ⟨a.inChans, a.outChans, p.projW, none⟩) hx.1 hr
        exact ⟨w, w', f1, f1', ⟨sw.1, sw.2.1.trans hx.2.1, sw.2.2.trans hx.2.2⟩, rw'⟩
    rw [f1, f1', except_bind_ok, except_bind_ok]
    obtain ⟨z, z', hz, hz', sz, rz⟩ := addEmbed_roll rw' r4 (sw.1.trans s4'.1.symm) (sw.2.1.trans s4'.2.1.symm) (sw.2.2.trans s4'.2.2.symm)
    rw [s4'.1, s4'.2.1, s4'.2.2] at sz
    exact ⟨z, z', hz, hz', sz, rz⟩
  · rw [if_neg hres, if_neg hres]
    exact ⟨y4, y4', rfl, rfl, s4', r4⟩

end Build

/-- C76. A network with admissible arguments is built, and maps every stack of `in_chans` fields on the outer grid to one of `out_chans` fields on the
outer grid, whatever the number of layers, the scale factor and the parameters are. -/
theorem C76_shape {env : Env} {be : C2R} {a : NetArgs} {p : NetParams} {rOut rIn : Rule} {L : ℕ} {act : ℝ → ℝ} {pos : Option (Ten3 ℝ)}
    (H : NetBuilt env be a p rOut rIn L act pos) :
    ∃ N, Net.init env be a p = .ok N ∧ ∀ x, HasShape x a.inChans a.nlat a.nlon →
      ∃ y, N.forward be x = .ok y ∧ HasShape y a.outChans a.nlat a.nlon := by
  refine ⟨_, net_init H, fun x hx => ?_⟩
  obtain ⟨y, _, hy, _, hs, _⟩ := net_roll H (s := 0) (q := 0) (by simp) (.inr ⟨rfl, rfl⟩) (.inr (.inr rfl)) hx (rolled_refl x)
  exact ⟨y, hy, hs⟩

/-- C76. Without layer normalisation, and with no position embedding or one that depends on the latitude only, the network commutes with the shifts in
longitude that the internal grid has too: those by `s` columns with `s * (nlon / scale)` divisible by `nlon`. A network with at most one block does not
use the internal grid, and commutes with all shifts. -/
theorem C76_longitude {env : Env} {be : C2R} {a : NetArgs} {p : NetParams} {rOut rIn : Rule} {L : ℕ} {act : ℝ → ℝ} {pos : Option (Ten3 ℝ)}
    (H : NetBuilt env be a p rOut rIn L act pos) (hn : a.norm = "none" ∨ a.norm = "instance_norm")
    (hp : a.posEmbed = "none" ∨ a.posEmbed = "learnable lat") (s : ℕ) (hs : a.numLayers ≤ 1 ∨ a.nlon ∣ s * (a.nlon / a.scale)) :
    ∃ N, Net.init env be a p = .ok N ∧ ∀ x x', HasShape x a.inChans a.nlat a.nlon → Rolled s x x' →
      ∃ y y', N.forward be x = .ok y ∧ N.forward be x' = .ok y' ∧ HasShape y a.outChans a.nlat a.nlon ∧ Rolled s y y' := by
  refine ⟨_, net_init H, fun x x' hx hr => ?_⟩
  obtain ⟨q, hq⟩ : ∃ q, 1 < a.numLayers → s * inW a = q * a.nlon := by
    rcases hs with hs | ⟨q, hq⟩
    · exact ⟨0, fun h => by omega⟩
    · exact ⟨q, fun _ => by rw [mul_comm q]; exact hq⟩
  exact net_roll H hq (.inl (by rcases hn with h | h <;> simp [h])) (by tauto) hx hr

/-- In particular, if the scale factor divides the number of longitudes, all shifts by multiples of the scale factor. -/
theorem C76_longitude_scale {env : Env} {be : C2R} {a : NetArgs} {p : NetParams} {rOut rIn : Rule} {L : ℕ} {act : ℝ → ℝ} {pos : Option (Ten3 ℝ)}
    (H : NetBuilt env be a p rOut rIn L act pos) (hn : a.norm = "none" ∨ a.norm = "instance_norm")
    (hp : a.posEmbed = "none" ∨ a.posEmbed = "learnable lat") (hd : a.scale ∣ a.nlon) (s : ℕ) (hs : a.scale ∣ s) :
    ∃ N, Net.init env be a p = .ok N ∧ ∀ x x', HasShape x a.inChans a.nlat a.nlon → Rolled s x x' →
      ∃ y y', N.forward be x = .ok y ∧ N.forward be x' = .ok y' ∧ HasShape y a.outChans a.nlat a.nlon ∧ Rolled s y y' := by
  refine C76_longitude H hn hp s (.inr ?_)
  obtain ⟨t, rfl⟩ := hs
  exact ⟨t, by rw [mul_comm a.scale t, mul_assoc, Nat.mul_div_cancel' hd, mul_comm]⟩

/-! ### Resampling between the grids -/

theorem modes_le {h w : ℕ} {f : ℝ} {L : ℕ} (hm : modes h w f = (L : ℤ)) (hf : f ≤ 1) : L ≤ h ∧ L ≤ w / 2 := by
  have key : L ≤ min h ((w / 2 + 1) - 1) := by
    unfold modes pyInt at hm
    generalize min h ((w / 2 + 1) - 1) = n at hm
    split_ifs at hm with h0
    · have h1 : ((L : ℤ) : ℝ) ≤ (n : ℝ) * f := by rw [← hm]; exact Int.floor_le _
      have h2 : (n : ℝ) * f ≤ n := mul_le_of_le_one_right (Nat.cast_nonneg n) hf
      exact_mod_cast h1.trans h2
    · have h1 : (⌈(n : ℝ) * f⌉ : ℤ) ≤ 0 := Int.ceil_le.2 (by push_cast; linarith)
      omega
  omega

theorem outer_resolves {env : Env} {be : C2R} {a : NetArgs} {p : NetParams} {rOut rIn : Rule} {L : ℕ} {act : ℝ → ℝ} {pos : Option (Ten3 ℝ)}
    (H : NetBuilt env be a p rOut rIn L act pos)
    (hg : (a.grid = "equiangular" ∧ 2 ≤ a.scale) ∨ (a.grid = "legendre-gauss" ∧ IsGaussRule (env.gauss a.nlat) a.nlat)) (hf : a.fraction ≤ 1) :
    ∃ d, Resolves env a.nlat a.nlon L a.grid rOut d := by
  obtain ⟨m1, m2⟩ := modes_le H.modes hf
  have m0 := H.modes_pos
  have hw := inW_bounds H
  have hsc := H.scale
  have hout := H.outer
  have hlon : 2 * (L - 1) < a.nlon := by omega
  have hz := Int.mul_ediv_self_le (x := (a.nlat : ℤ) - 1) (k := (a.scale : ℤ)) (by exact_mod_cast hsc)
  have hL : ((L : ℤ) - 1) ≤ ((a.nlat : ℤ) - 1) / a.scale := by unfold inH at m1; omega
  rcases hg with ⟨hg, hs⟩ | ⟨hg, hr⟩
  · have hr : clenshawCurtissWeights a.nlat (-1) 1 = .ok rOut := by
      rw [hg, gridRule] at hout
      simpa using hout
    have hn : 2 ≤ a.nlat := by
      by_contra h
      rw [clenshawCurtissWeights, if_pos (by omega)] at hr
      cases hr
    refine ⟨_, hout, equiangular_symmetricExact a.nlat hn _ hr, ?_, hlon⟩
    have : (2 : ℤ) * ((L : ℤ) - 1) ≤ (a.scale : ℤ) * (((a.nlat : ℤ) - 1) / a.scale) :=
      mul_le_mul (by exact_mod_cast hs) hL (by omega) (by omega)
    omega
  · have hr' : legendreGaussWeights env.gauss a.nlat (-1) 1 = .ok rOut := by
      rw [hg, gridRule] at hout
      simpa using hout
    refine ⟨_, hout, gauss_symmetricExact env.gauss a.nlat hr _ hr', ?_, hlon⟩
    have : (1 : ℤ) * ((L : ℤ) - 1) ≤ (a.scale : ℤ) * (((a.nlat : ℤ) - 1) / a.scale) :=
      mul_le_mul (by omega) hL (by omega) (by omega)
    omega

theorem inner_resolves {env : Env} {be : C2R} {a : NetArgs} {p : NetParams} {rOut rIn : Rule} {L : ℕ} {act : ℝ → ℝ} {pos : Option (Ten3 ℝ)}
    (H : NetBuilt env be a p rOut rIn L act pos) (hg : a.gridInternal = "legendre-gauss") (hr : IsGaussRule (env.gauss (inH a)) (inH a))
    (hf : a.fraction ≤ 1) : Resolves env (inH a) (inW a) L a.gridInternal rIn (2 * inH a - 1) := by
  obtain ⟨m1, m2⟩ := modes_le H.modes hf
  have m0 := H.modes_pos
  have hi := H.inner
  have hr' : legendreGaussWeights env.gauss (inH a) (-1) 1 = .ok rIn := by
    rw [hg, gridRule] at hi
    simpa using hi
  exact ⟨hi, gauss_symmetricExact env.gauss (inH a) hr _ hr', by omega, by omega⟩

/-- A chain of blocks with zero perceptrons keeps the fields: on the way in, between the internal layers and on the way out. -/
theorem blocks_samples {env : Env} {be : C2R} {a : NetArgs} {p : NetParams} {rOut rIn : Rule} {L : ℕ} {act : ℝ → ℝ} {pos : Option (Ten3 ℝ)}
    (H : NetBuilt env be a p rOut rIn L act pos) {d d' : ℕ} (R : Resolves env a.nlat a.nlon L a.grid rOut d)
    (R' : Resolves env (inH a) (inW a) L a.gridInternal rIn d') (hs : 2 ≤ a.scale) (hm : a.useMlp = true) (hw : ∀ i o h, (p.block i).mlp.w2 o h = 0)
    {c : ℕ → ℕ → ℕ → ℂ} (htri : ∀ i < a.embedDim, ∀ l < L, ∀ m < L, l < m → c i l m = 0) (hdc : ∀ i < a.embedDim, ∀ l < L, (c i l 0).im = 0)
    (rest : ℕ) (hr : rest ≤ a.numLayers) :
    ∀ x, (if rest = 0 ∨ rest = a.numLayers then Samples a.embedDim L c a.nlat a.nlon rOut x else Samples a.embedDim L c (inH a) (inW a) rIn x) →
      ∃ y, runBlocks be ((List.range' (a.numLayers - rest) rest).map (blockAt a p rOut rIn L act)) x = .ok y ∧
        Samples a.embedDim L c a.nlat a.nlon rOut y := by
  have hL := H.modes_pos
  have hwb := inW_bounds H
  have hlt : inW a < a.nlon := Nat.div_lt_self (by omega) hs
  induction rest with
  | zero => intro x hx; rw [if_pos (.inl rfl)] at hx; exact ⟨x, rfl, hx⟩
  | succ r ih =>
    intro x hx
    have e : a.numLayers - (r + 1) + 1 = a.numLayers - r := by omega
    rw [List.range'_succ, List.map_cons, e]
    have hin : (r + 1 = 0 ∨ r + 1 = a.numLayers) ↔ a.numLayers - (r + 1) = 0 := by omega
    have hout : (r = 0 ∨ r = a.numLayers) ↔ a.numLayers - (r + 1) = a.numLayers - 1 := by omega
    simp only [hin] at hx
    have ih := ih (by omega)
    simp only [hout] at ih
    set i := a.numLayers - (r + 1) with hi
    have f1 := blockAt_fwd a p rOut rIn L act i
    have f2 := blockAt_inv a p rOut rIn L act i
    have so : RealSHT.init env ⟨a.nlat, a.nlon, some L, some L, a.grid, "ortho", true⟩ = .ok (shtOf a.nlat a.nlon L rOut) :=
      realSHT_init env _ rOut L H.outer (sizes_explicit _ _ _ _ hL) hL
    have si : RealSHT.init env ⟨inH a, inW a, some L, some L, a.gridInternal, "ortho", true⟩ = .ok (shtOf (inH a) (inW a) L rIn) :=
      realSHT_init env _ rIn L H.inner (sizes_explicit _ _ _ _ hL) hL
    have io : InverseRealSHT.init env ⟨a.nlat, a.nlon, some L, some L, a.grid, "ortho", true⟩ = .ok (ishtOf a.nlat a.nlon L rOut) :=
      inverseRealSHT_init env _ rOut L H.outer (sizes_explicit _ _ _ _ hL) hL
    have ii : InverseRealSHT.init env ⟨inH a, inW a, some L, some L, a.gridInternal, "ortho", true⟩ = .ok (ishtOf (inH a) (inW a) L rIn) :=
      inverseRealSHT_init env _ rIn L H.inner (sizes_explicit _ _ _ _ hL) hL
    obtain ⟨M, hM, hMb, hMw⟩ : ∃ M, (blockAt a p rOut rIn L act i).mlp = some M ∧ M.fc2.b = none ∧ ∀ o h, M.fc2.w o h = 0 := by
      have : (blockAt a p rOut rIn L act i).mlp = some
          ⟨⟨a.embedDim, if pyInt (a.embedDim * a.mlpRatio) = 0 then a.embedDim else (pyInt (a.embedDim * a.mlpRatio)).toNat, (p.block i).mlp.w1,
            some (p.block i).mlp.b1⟩, act, ⟨if pyInt (a.embedDim * a.mlpRatio) = 0 then a.embedDim else (pyInt (a.embedDim * a.mlpRatio)).toNat,
            a.embedDim, (p.block i).mlp.w2, none⟩⟩ := by
        simp only [blockAt, netBlock, blockArgs, hm, if_true]
      exact ⟨_, this, rfl, hw i⟩
    have hsh : HasShape x a.embedDim (blockAt a p rOut rIn L act i).conv.fwd.nlat (blockAt a p rOut rIn L act i).conv.fwd.nlon := by
      rw [f1]
      split_ifs at hx ⊢
      · exact hx.1
      · exact hx.1
    obtain ⟨y1, rr, y, e1, e2, srr, sy, vy⟩ := block_residual be (blockAt_fits H i) hM hMb hMw hsh
    obtain ⟨z, hz, hres⟩ := forward_residual e1
    have hzs : z.d0 = a.embedDim ∧ z.d1 = L ∧ z.d2 = L ∧ ∀ i < a.embedDim, ∀ l < L, ∀ m < L, z.val i l m = c i l m := by
      rw [f1] at hz
      split_ifs at hx hz with h0
      · exact samples_analysis be R hL so htri hdc hx hz
      · exact samples_analysis be R' hL si htri hdc hx hz
    have hrs : if i = a.numLayers - 1 then Samples a.embedDim L c a.nlat a.nlon rOut rr else Samples a.embedDim L c (inH a) (inW a) rIn rr := by
      by_cases hsr : (blockAt a p rOut rIn L act i).conv.scaleResidual
      · rw [if_pos hsr, f2] at hres
        split_ifs at hres ⊢ with h1
        · exact samples_synthesis be R hL io hzs.1 hzs.2.1 hzs.2.2.1 hzs.2.2.2 hres
        · exact samples_synthesis be R' hL ii hzs.1 hzs.2.1 hzs.2.2.1 hzs.2.2.2 hres
      · rw [if_neg hsr] at hres
        cases hres
        unfold SpecLayer.scaleResidual at hsr
        push Not at hsr
        have hlon := hsr.2
        rw [f1, f2] at hlon
        by_cases h0 : i = 0 <;> by_cases h1 : i = a.numLayers - 1
        · rw [if_pos h0] at hx; rw [if_pos h1]; exact hx
        · rw [if_pos h0, if_neg h1] at hlon; exact absurd hlon.symm hlt.ne
        · rw [if_neg h0, if_pos h1] at hlon; exact absurd hlon hlt.ne
        · rw [if_neg h0] at hx; rw [if_neg h1]; exact hx
    have hys : if i = a.numLayers - 1 then Samples a.embedDim L c a.nlat a.nlon rOut y else Samples a.embedDim L c (inH a) (inW a) rIn y := by
      rw [f2] at sy vy
      split_ifs at hrs sy vy ⊢
      · exact ⟨sy, fun i hi k hk j hj => by rw [vy i hi k hk j hj]; exact hrs.2 i hi k hk j hj⟩
      · exact ⟨sy, fun i hi k hk j hj => by rw [vy i hi k hk j hj]; exact hrs.2 i hi k hk j hj⟩
    obtain ⟨w, hw1, hw2⟩ := ih y hys
    refine ⟨w, ?_, hw2⟩
    unfold runBlocks
    rw [e2, except_bind_ok]
    exact hw1

theorem harmonicSeries_sum (nlon L n : ℕ) (w : ℕ → ℝ) (c : ℕ → ℕ → ℕ → ℂ) (th ph : ℝ) :
    harmonicSeries "ortho" true nlon L L (fun l m => ∑ i ∈ range n, (w i : ℂ) * c i l m) th ph
      = ∑ i ∈ range n, w i * harmonicSeries "ortho" true nlon L L (c i) th ph := by
  unfold harmonicSeries
  simp only [mul_sum, Complex.re_sum, Complex.im_sum, sum_mul, ← sum_sub_distrib]
  rw [sum_comm' (s := range n) (t := fun _ => range (min L (nlon / 2 + 1))) (t' := range (min L (nlon / 2 + 1))) (s' := fun _ => range n)
    (by intro x y; exact Iff.rfl)]
  refine sum_congr rfl fun m _ => ?_
  rw [sum_comm]
  refine sum_congr rfl fun i _ => sum_congr rfl fun l _ => ?_
  simp only [Complex.re_ofReal_mul, Complex.im_ofReal_mul]
  ring

/-- C76. Going to the coarse internal grid and back loses nothing of the fields with the network's modes. In a network with scale factor at least two and
Gaussian internal grid, let the last weights of all perceptrons be zero, so that only the residual connections are left. Then the network is the
pointwise linear map `decoder ∘ encoder` on all inputs whose channels are spherical harmonic series with degrees below the number of modes, for every
number of layers and every normalisation. -/
theorem C76_residual {env : Env} {be : C2R} {a : NetArgs} {p : NetParams} {rOut rIn : Rule} {L : ℕ} {act : ℝ → ℝ} {pos : Option (Ten3 ℝ)}
    (H : NetBuilt env be a p rOut rIn L act pos) (hs : 2 ≤ a.scale) (hf : a.fraction ≤ 1)
    (hg : a.grid = "equiangular" ∨ (a.grid = "legendre-gauss" ∧ IsGaussRule (env.gauss a.nlat) a.nlat))
    (hg' : a.gridInternal = "legendre-gauss" ∧ IsGaussRule (env.gauss (inH a)) (inH a))
    (hp : a.posEmbed = "none") (hb : a.bias = false) (hres : a.residualPrediction = false) (hm : a.useMlp = true)
    (hw : ∀ i o h, (p.block i).mlp.w2 o h = 0) (c : ℕ → ℕ → ℕ → ℂ)
    (htri : ∀ i < a.inChans, ∀ l < L, ∀ m < L, l < m → c i l m = 0) (hdc : ∀ i < a.inChans, ∀ l < L, (c i l 0).im = 0) :
    ∃ N, Net.init env be a p = .ok N ∧ ∀ x, HasShape x a.inChans a.nlat a.nlon →
      (∀ i < a.inChans, ∀ k < a.nlat, ∀ j < a.nlon,
        x.val i k j = harmonicSeries "ortho" true a.nlon L L (c i) (Real.arccos (rOut.x (a.nlat - 1 - k))) (2 * Real.pi * j / a.nlon)) →
      ∃ y, N.forward be x = .ok y ∧ HasShape y a.outChans a.nlat a.nlon ∧ ∀ o < a.outChans, ∀ k < a.nlat, ∀ j < a.nlon,
        y.val o k j = ∑ e ∈ range a.embedDim, p.decW o e * ∑ i ∈ range a.inChans, p.encW e i * x.val i k j := by
  obtain ⟨d, R⟩ := outer_resolves H (by tauto) hf
  have R' := inner_resolves H hg'.1 hg'.2 hf
  refine ⟨_, net_init H, fun x hx hv => ?_⟩
  have hpos : pos = none := by
    have := H.pos
    rw [hp, posInit] at this
    simpa using this.symm
  subst hpos
  set c' : ℕ → ℕ → ℕ → ℂ := fun e l m => ∑ i ∈ range a.inChans, (p.encW e i : ℂ) * c i l m with hc'
  set x1 : Ten3 ℝ := ⟨a.embedDim, x.d1, x.d2, fun o k j => ∑ i ∈ range a.inChans, p.encW o i * x.val i k j + 0⟩ with hx1
  have e1 : (netOf a p rOut rIn L act none).encoder.forward x = .ok x1 := by
    unfold Conv1.forward
    simp only [netOf, hb, hx.1]
    simp [hx1]
  have s1 : Samples a.embedDim L c' a.nlat a.nlon rOut x1 := by
    refine ⟨⟨rfl, hx.2.1, hx.2.2⟩, fun e he k hk j hj => ?_⟩
    rw [hx1, hc', harmonicSeries_sum]
    dsimp only
    rw [add_zero]
    refine sum_congr rfl fun i hi => ?_
    rw [hv i (mem_range.1 hi) k hk j hj]
  obtain ⟨y, e2, s2⟩ := blocks_samples H R R' hs hm hw (c := c') (fun e he l hl m hm h => by
      rw [hc']; exact sum_eq_zero fun i hi => by rw [htri i (mem_range.1 hi) l hl m hm h, mul_zero])
    (fun e he l hl => by
      rw [hc']
      simp only [Complex.im_sum, Complex.im_ofReal_mul]
      exact sum_eq_zero fun i hi => by rw [hdc i (mem_range.1 hi) l hl, mul_zero]) a.numLayers le_rfl x1 (by simp only [or_true, if_true]; exact s1)
  rw [Nat.sub_self] at e2
  have hxy : ∀ e < a.embedDim, ∀ k < a.nlat, ∀ j < a.nlon, y.val e k j = x1.val e k j := fun e he k hk j hj => by
    rw [s2.2 e he k hk j hj, s1.2 e he k hk j hj]
  refine ⟨⟨a.outChans, y.d1, y.d2, fun o k j => ∑ e ∈ range a.embedDim, p.decW o e * y.val e k j + 0⟩, ?_, ⟨rfl, s2.1.2.1, s2.1.2.2⟩, ?_⟩
  · unfold Net.forward
    rw [e1, except_bind_ok]
    simp only [netOf, hres] at e2 ⊢
    rw [except_bind_ok, e2, except_bind_ok]
    unfold Conv1.forward
    simp only [hb, s2.1.1]
    simp
  · intro o _ k hk j hj
    dsimp only
    rw [add_zero]
    refine sum_congr rfl fun e he => ?_
    rw [hxy e (mem_range.1 he) k hk j hj, hx1]
    dsimp only
    rw [add_zero]

theorem net_decoded {env : Env} {be : C2R} {a : NetArgs} {p : NetParams} {rOut rIn : Rule} {L : ℕ} {act : ℝ → ℝ} {pos : Option (Ten3 ℝ)}
    (H : NetBuilt env be a p rOut rIn L act pos) {x : Ten3 ℝ} (hx : HasShape x a.inChans a.nlat a.nlon) :
    ∃ u3 u4, HasShape u3 a.embedDim a.nlat a.nlon ∧ (netOf a p rOut rIn L act pos).decoder.forward u3 = .ok u4 ∧
      (netOf a p rOut rIn L act pos).forward be x = if a.residualPrediction then
        (match (netOf a p rOut rIn L act pos).proj with | none => .ok x | some F => F.forward x : Except PyErr (Ten3 ℝ)) >>= fun r => addEmbed r u4
        else .ok u4 := by
  have hw := inW_bounds H
  set N := netOf a p rOut rIn L act pos with hN
  obtain ⟨y1, _, e1, _, s1, _⟩ := conv1_roll (F := N.encoder) hx.1 (rolled_refl x)
  have s1' : HasShape y1 a.embedDim a.nlat a.nlon := ⟨s1.1, s1.2.1.trans hx.2.1, s1.2.2.trans hx.2.2⟩
  obtain ⟨y2, e2, s2⟩ : ∃ y2, (match N.posEmbed with | none => .ok y1 | some e => addEmbed e y1 : Except PyErr (Ten3 ℝ)) = .ok y2 ∧
      HasShape y2 a.embedDim a.nlat a.nlon := by
    have hpos := H.pos
    show ∃ y2, (match pos with | none => .ok y1 | some e => addEmbed e y1 : Except PyErr (Ten3 ℝ)) = .ok y2 ∧ _
    cases pos with
    | none => exact ⟨y1, rfl, s1'⟩
    | some e =>
      obtain ⟨p0, p1, p2, p3, p4⟩ := pos_shape (by omega) hpos
      obtain ⟨z, _, hz, _, sz, _⟩ := embed_roll (s := 0) (e := e) (p0.trans s1'.1.symm) (p1.trans s1'.2.1.symm) (by
        rcases p2 with h2 | h2
        · exact .inr ⟨h2.trans s1'.2.2.symm, rfl⟩
        · exact .inl h2) (rolled_refl y1)
      rw [s1'.1, s1'.2.1, s1'.2.2] at sz
      exact ⟨z, hz, sz⟩
  have hC := blocks_chain H (s := 0) (q := 0) (by simp) (.inr ⟨rfl, rfl⟩) a.numLayers le_rfl
  simp only [or_true, if_true, Nat.sub_self] at hC
  obtain ⟨y3, _, e3, _, s3, _⟩ := runBlocks_roll be hC s2 (rolled_refl y2)
  obtain ⟨y4, _, e4, _, _, _⟩ := conv1_roll (F := N.decoder) s3.1 (rolled_refl y3)
  exact ⟨y3, y4, s3, e4, net_step e1 e2 e3 e4⟩

/-- C76. With residual prediction, a network whose decoder is zero is the identity if it has as many input as output channels, and the residual projection
otherwise. -/
theorem C76_residual_prediction {env : Env} {be : C2R} {a : NetArgs} {p : NetParams} {rOut rIn : Rule} {L : ℕ} {act : ℝ → ℝ} {pos : Option (Ten3 ℝ)}
    (H : NetBuilt env be a p rOut rIn L act pos) (hb : a.bias = false) (hres : a.residualPrediction = true) (hd : ∀ o e, p.decW o e = 0) :
    ∃ N, Net.init env be a p = .ok N ∧ ∀ x, HasShape x a.inChans a.nlat a.nlon →
      ∃ y, N.forward be x = .ok y ∧ HasShape y a.outChans a.nlat a.nlon ∧ ∀ o < a.outChans, ∀ k < a.nlat, ∀ j < a.nlon,
        y.val o k j = if a.inChans = a.outChans then x.val o k j else ∑ i ∈ range a.inChans, p.projW o i * x.val i k j := by
  refine ⟨_, net_init H, fun x hx => ?_⟩
  obtain ⟨u3, u4, s3, e4, hf⟩ := net_decoded H hx
  rw [hf, if_pos hres]
  have hu4 : HasShape u4 a.outChans a.nlat a.nlon ∧ ∀ c k j, u4.val c k j = 0 := by
    unfold Conv1.forward at e4
    simp only [netOf, hb, s3.1] at e4
    simp [hd] at e4
    subst e4
    exact ⟨⟨rfl, s3.2.1, s3.2.2⟩, fun _ _ _ => rfl⟩
  obtain ⟨sh, hz⟩ := hu4
  by_cases hio : a.inChans = a.outChans
  · have : (netOf a p rOut rIn L act pos).proj = none := by simp [netOf, hio]
    rw [this]
    obtain ⟨y, hy, sy, vy⟩ := addEmbed_same (r := x) (x := u4) (by rw [hx.1, sh.1, hio]) (by rw [hx.2.1, sh.2.1]) (by rw [hx.2.2, sh.2.2])
    rw [sh.1, sh.2.1, sh.2.2] at sy vy
    refine ⟨y, hy, sy, fun o ho k hk j hj => ?_⟩
    rw [vy o ho k hk j hj, hz, zero_add, if_pos hio]
  · have : (netOf a p rOut rIn L act pos).proj = some ⟨a.inChans, a.outChans, p.projW, none⟩ := by simp [netOf, hio, hres]
    rw [this]
    have hpj : (⟨a.inChans, a.outChans, p.projW, none⟩ : Conv1).forward x
        = .ok ⟨a.outChans, x.d1, x.d2, fun o k j => ∑ i ∈ range a.inChans, p.projW o i * x.val i k j + 0⟩ := by
      unfold Conv1.forward
      rw [if_neg (by simp [hx.1])]
    dsimp only
    rw [hpj, except_bind_ok]
    obtain ⟨y, hy, sy, vy⟩ := addEmbed_same (x := u4)
      (r := ⟨a.outChans, x.d1, x.d2, fun o k j => ∑ i ∈ range a.inChans, p.projW o i * x.val i k j + 0⟩)
      sh.1.symm (by rw [sh.2.1]; exact hx.2.1) (by rw [sh.2.2]; exact hx.2.2)
    rw [sh.1, sh.2.1, sh.2.2] at sy vy
    refine ⟨y, hy, sy, fun o ho k hk j hj => ?_⟩
    rw [vy o ho k hk j hj, hz, zero_add, if_neg hio]
    exact add_zero _

/-! ### Scale factor one -/

/-- C76 (negative). With scale factor one the internal grid has the size of the outer one, and the residual is not resampled, although the rows of the
default grids, `equiangular` and `legendre-gauss`, are at different latitudes. The first block of such a network, with a zero perceptron, maps the samples
of the field `cos θ` on the outer grid to a field which has the value 1 of the north pole in its first row, a row that is not at the pole: the value of the field
there is less than 1. -/
theorem C76_scale_one_misaligned {env : Env} {be : C2R} {a : NetArgs} {p : NetParams} {rOut rIn : Rule} {L : ℕ} {act : ℝ → ℝ} {pos : Option (Ten3 ℝ)}
    (H : NetBuilt env be a p rOut rIn L act pos) (hs : a.scale = 1) (hg : a.grid = "equiangular")
    (hg' : a.gridInternal = "legendre-gauss" ∧ IsGaussRule (env.gauss a.nlat) a.nlat) (hn : 2 ≤ a.numLayers) (hm : a.useMlp = true)
    (hw : ∀ i o h, (p.block i).mlp.w2 o h = 0) :
    ∃ N B bs, Net.init env be a p = .ok N ∧ N.blocks = B :: bs ∧ ∀ x, HasShape x a.embedDim a.nlat a.nlon →
      (∀ c < a.embedDim, ∀ k < a.nlat, ∀ j < a.nlon, x.val c k j = Real.cos (Real.arccos (rOut.x (a.nlat - 1 - k)))) →
      ∃ y, B.forward be x = .ok y ∧ HasShape y a.embedDim a.nlat a.nlon ∧ ∀ c < a.embedDim, ∀ j < a.nlon,
        y.val c 0 j = 1 ∧ Real.cos (Real.arccos (rIn.x (a.nlat - 1))) < 1 := by
  have hH : inH a = a.nlat := by unfold inH; rw [hs]; simp
  have hW : inW a = a.nlon := by unfold inW; rw [hs, Nat.div_one]
  have hout := H.outer
  have hin := H.inner
  have hr : clenshawCurtissWeights a.nlat (-1) 1 = .ok rOut := by
    rw [hg, gridRule] at hout
    simpa using hout
  have hr' : legendreGaussWeights env.gauss a.nlat (-1) 1 = .ok rIn := by
    rw [hg'.1, gridRule, hH] at hin
    simpa using hin
  have hlat : 2 ≤ a.nlat := by
    by_contra h
    rw [clenshawCurtissWeights, if_pos (by omega)] at hr
    cases hr
  have hpole : rOut.x (a.nlat - 1) = 1 := by
    rw [clenshawCurtissWeights, if_neg (by omega)] at hr
    cases hr
    have h1 : ((a.nlat : ℝ) - 1) ≠ 0 := by
      have : (2 : ℝ) ≤ a.nlat := by exact_mod_cast hlat
      intro h; linarith
    simp only [rescale, linspace]
    rw [Nat.cast_sub (by omega), Nat.cast_one, mul_div_assoc, div_self h1]
    norm_num
  have hgauss : -1 < rIn.x (a.nlat - 1) ∧ rIn.x (a.nlat - 1) < 1 := by
    rw [legendreGaussWeights, if_neg (by omega)] at hr'
    cases hr'
    have := hg'.2.inside (a.nlat - 1) (by omega)
    simp only [rescale]
    constructor <;> linarith
  obtain ⟨n, hn'⟩ : ∃ n, a.numLayers = n + 1 := ⟨a.numLayers - 1, by omega⟩
  refine ⟨_, blockAt a p rOut rIn L act 0, (List.range' 1 n).map (blockAt a p rOut rIn L act), net_init H, ?_, fun x hx hv => ?_⟩
  · simp only [netOf]
    rw [hn', List.range'_succ, List.map_cons]
  have f1 := blockAt_fwd a p rOut rIn L act 0
  have f2 := blockAt_inv a p rOut rIn L act 0
  rw [if_pos rfl] at f1
  rw [if_neg (by omega)] at f2
  have hM : (blockAt a p rOut rIn L act 0).mlp = some
      ⟨⟨a.embedDim, if pyInt (a.embedDim * a.mlpRatio) = 0 then a.embedDim else (pyInt (a.embedDim * a.mlpRatio)).toNat, (p.block 0).mlp.w1,
        some (p.block 0).mlp.b1⟩, act, ⟨if pyInt (a.embedDim * a.mlpRatio) = 0 then a.embedDim else (pyInt (a.embedDim * a.mlpRatio)).toNat,
        a.embedDim, (p.block 0).mlp.w2, none⟩⟩ := by
    simp only [blockAt, netBlock, blockArgs, hm, if_true]
  obtain ⟨y1, r, y, e1, e2, sr, sy, vy⟩ := block_residual be (blockAt_fits H 0) hM rfl (hw 0) (x := x) (by rw [f1]; exact hx)
  obtain ⟨z, _, hres⟩ := forward_residual e1
  rw [if_neg (by
    unfold SpecLayer.scaleResidual
    rw [f1, f2]
    show ¬ (a.nlat ≠ inH a ∨ a.nlon ≠ inW a)
    rw [hH, hW]; simp)] at hres
  cases hres
  rw [f2] at sy vy
  have sy' : HasShape y a.embedDim (inH a) (inW a) := sy
  rw [hH, hW] at sy'
  refine ⟨y, e2, sy', fun c hc j hj => ⟨?_, ?_⟩⟩
  · rw [vy c hc 0 (by show 0 < inH a; omega) j (by show j < inW a; omega), hv c hc 0 (by omega) j hj, Nat.sub_zero, hpole, Real.arccos_one, Real.cos_zero]
  · rw [Real.cos_arccos hgauss.1.le hgauss.2.le]; exact hgauss.2

/-! ### Errors -/

/-- C76 (error branches). Unknown names of the activation function and of the position embedding raise a `ValueError`, the scale factor 0 a
`ZeroDivisionError`. An unknown normalisation raises an `AttributeError`, not the `NotImplementedError` that the code means to raise. -/
theorem C76_errors (env : Env) (be : C2R) (a : NetArgs) (p : NetParams) :
    (a.act ≠ "relu" → a.act ≠ "gelu" → a.act ≠ "identity" → Net.init env be a p = .error .valueError) ∧
    (∀ act, activation a.act = .ok act → a.scale = 0 → Net.init env be a p = .error .zeroDivision) ∧
    (∀ act, activation a.act = .ok act → a.scale ≠ 0 → a.posEmbed ∉ ["sequence", "spectral", "learnable lat", "learnable latlon", "none"] →
      Net.init env be a p = .error .valueError) ∧
    (∀ rOut rIn L act pos, NetBuilt env be { a with norm := "none" } p rOut rIn L act pos → 0 < a.numLayers →
      a.norm ∉ ["layer_norm", "instance_norm", "none"] → Net.init env be a p = .error .attributeError) := by
  refine ⟨?_, ?_, ?_, ?_⟩
  · intro h1 h2 h3
    have : activation a.act = .error .valueError := by simp [activation, h1, h2, h3]
    unfold Net.init
    rw [this]; rfl
  · intro act h1 h2
    unfold Net.init
    rw [h1, except_bind_ok, internalSize, if_pos h2]; rfl
  · intro act h1 h2 h3
    have : posInit env be a.posEmbed a.nlat a.nlon a.embedDim a.grid p.posLat = .error .valueError := by
      simp only [List.mem_cons, List.not_mem_nil, or_false, not_or] at h3
      simp [posInit, h3]
    unfold Net.init
    rw [h1, except_bind_ok, internalSize, if_neg h2, except_bind_ok]
    dsimp only
    rw [this]; rfl
  · intro rOut rIn L act pos H hn hk
    have hi : internalSize a.nlat a.nlon a.scale = .ok (inH a, inW a) := by rw [internalSize, if_neg H.scale]; rfl
    have hm : modes (inH a) (inW a) a.fraction = (L : ℤ) := H.modes
    unfold Net.init
    rw [H.act, except_bind_ok, hi, except_bind_ok]
    dsimp only
    have hpos : posInit env be a.posEmbed a.nlat a.nlon a.embedDim a.grid p.posLat = .ok pos := H.pos
    have hic : ¬ a.inChans = 0 := H.inChans
    rw [hpos, except_bind_ok, if_neg hic, hm]
    rw [realSHT_init env _ rOut L H.outer (sizes_explicit _ _ _ _ H.modes_pos) H.modes_pos, except_bind_ok,
      inverseRealSHT_init env _ rOut L H.outer (sizes_explicit _ _ _ _ H.modes_pos) H.modes_pos, except_bind_ok,
      realSHT_init env _ rIn L H.inner (sizes_explicit _ _ _ _ H.modes_pos) H.modes_pos, except_bind_ok,
      inverseRealSHT_init env _ rIn L H.inner (sizes_explicit _ _ _ _ H.modes_pos) H.modes_pos, except_bind_ok]
    obtain ⟨n, hn'⟩ : ∃ n, a.numLayers = n + 1 := ⟨a.numLayers - 1, by omega⟩
    have hD : ¬ a.embedDim = 0 := H.embedDim
    have hb : ∀ fwd inv b, Block.init fwd inv a.embedDim a.embedDim ⟨a.mlpRatio, act, a.norm, "none", "identity", a.useMlp, a.bias⟩ b
        = .error .attributeError := by
      intro fwd inv b
      unfold Block.init
      have e1 : SpecLayer.init fwd inv a.embedDim a.embedDim "driscoll-healy" b.weight (if a.bias then some b.bias else none)
          = .ok ⟨fwd, inv, a.embedDim, a.embedDim, .driscollHealy, b.weight, if a.bias then some b.bias else none⟩ := by
        simp [SpecLayer.init, hD]
      have e2 : ∀ v, skipInit "none" a.embedDim a.embedDim v b.innerW b.innerB = .ok .none := fun v => by simp [skipInit]
      have e3 : normInit a.norm inv.nlat inv.nlon a.embedDim b = .error .attributeError := by
        simp only [List.mem_cons, List.not_mem_nil, or_false, not_or] at hk
        simp [normInit, hk]
      dsimp only
      rw [e1, except_bind_ok, e2, except_bind_ok, e3]; rfl
    rw [hn']
    simp only [blocksInit, hb]
    rfl

/-! ### Vanishing number of modes -/

theorem sizes_zero (nlat nlon : ℕ) (grid : String) : sizes nlat nlon (some 0) (some 0) grid = sizes nlat nlon none none grid := by
  unfold sizes truncateSht pyOr
  simp

/-- C76 (negative). A fraction so small that no mode is left does not switch the modes off: the transform of the first block is the one of the default,
full truncation of its grid. -/
theorem C76_zero_modes {env : Env} {be : C2R} {a : NetArgs} {p : NetParams} {N : Net} (hm : modes (inH a) (inW a) a.fraction = 0)
    (hN : Net.init env be a p = .ok N) {B : Block} {bs : List Block} (hB : N.blocks = B :: bs) :
    RealSHT.init env ⟨a.nlat, a.nlon, none, none, a.grid, "ortho", true⟩ = .ok B.conv.fwd := by
  have key : ∀ nlat nlon grid, RealSHT.init env ⟨nlat, nlon, some 0, some 0, grid, "ortho", true⟩
      = RealSHT.init env ⟨nlat, nlon, none, none, grid, "ortho", true⟩ := by
    intro nlat nlon grid
    simp only [RealSHT.init, sizes_zero]
  unfold Net.init at hN
  cases h1 : activation a.act with
  | error e => rw [h1] at hN; cases hN
  | ok act =>
  rw [h1, except_bind_ok] at hN
  by_cases hs : a.scale = 0
  · rw [internalSize, if_pos hs] at hN; cases hN
  have hi : internalSize a.nlat a.nlon a.scale = .ok (inH a, inW a) := by rw [internalSize, if_neg hs]; rfl
  rw [hi, except_bind_ok] at hN
  dsimp only at hN
  cases h2 : posInit env be a.posEmbed a.nlat a.nlon a.embedDim a.grid p.posLat with
  | error e => rw [h2] at hN; cases hN
  | ok pos =>
  rw [h2, except_bind_ok] at hN
  by_cases h3 : a.inChans = 0
  · rw [if_pos h3] at hN; cases hN
  rw [if_neg h3, hm] at hN
  cases h4 : RealSHT.init env ⟨a.nlat, a.nlon, some 0, some 0, a.grid, "ortho", true⟩ with
  | error e => rw [h4] at hN; cases hN
  | ok down =>
  rw [h4, except_bind_ok] at hN
  cases h5 : InverseRealSHT.init env ⟨a.nlat, a.nlon, some 0, some 0, a.grid, "ortho", true⟩ with
  | error e => rw [h5] at hN; cases hN
  | ok up =>
  rw [h5, except_bind_ok] at hN
  cases h6 : RealSHT.init env ⟨inH a, inW a, some 0, some 0, a.gridInternal, "ortho", true⟩ with
  | error e => rw [h6] at hN; cases hN
  | ok trans =>
  rw [h6, except_bind_ok] at hN
  cases h7 : InverseRealSHT.init env ⟨inH a, inW a, some 0, some 0, a.gridInternal, "ortho", true⟩ with
  | error e => rw [h7] at hN; cases hN
  | ok itrans =>
  rw [h7, except_bind_ok] at hN
  cases h8 : blocksInit down trans up itrans a.embedDim ⟨a.mlpRatio, act, a.norm, "none", "identity", a.useMlp, a.bias⟩ p.block a.numLayers a.numLayers with
  | error e => rw [h8] at hN; cases hN
  | ok blocks =>
  rw [h8, except_bind_ok] at hN
  by_cases h9 : a.embedDim = 0
  · rw [if_pos h9] at hN; cases hN
  rw [if_neg h9] at hN
  cases hN
  dsimp only at hB
  subst hB
  rw [← key, h4]
  congr 1
  cases hn : a.numLayers with
  | zero => rw [hn] at h8; simp only [blocksInit] at h8; cases h8
  | succ n =>
    rw [hn] at h8
    simp only [blocksInit, Nat.sub_self, if_true] at h8
    generalize (if (0 : ℕ) = n + 1 - 1 then up else itrans) = inv at h8
    cases h10 : Block.init down inv a.embedDim a.embedDim ⟨a.mlpRatio, act, a.norm, "none", "identity", a.useMlp, a.bias⟩ (p.block 0) with
    | error e => rw [h10] at h8; cases h8
    | ok b =>
      rw [h10, except_bind_ok] at h8
      cases h11 : blocksInit down trans up itrans a.embedDim ⟨a.mlpRatio, act, a.norm, "none", "identity", a.useMlp, a.bias⟩ p.block (n + 1) n with
      | error e => rw [h11] at h8; cases h8
      | ok bs' =>
        rw [h11] at h8
        cases h8
        unfold Block.init at h10
        have hc : ∀ (w : ℕ → ℕ → ℕ → ℕ → ℕ → ℂ) (bi : Option (ℕ → ℝ)), SpecLayer.init down inv a.embedDim a.embedDim "driscoll-healy" w bi
            = .ok ⟨down, inv, a.embedDim, a.embedDim, .driscollHealy, w, bi⟩ := by
          intro w bi
          simp [SpecLayer.init, h9]
        rw [hc, except_bind_ok] at h10
        dsimp only at h10
        cases g1 : skipInit "none" a.embedDim a.embedDim (a.embedDim = a.embedDim) (p.block 0).innerW (p.block 0).innerB with
        | error e => rw [g1] at h10; cases h10
        | ok i =>
        rw [g1, except_bind_ok] at h10
        cases g2 : normInit a.norm inv.nlat inv.nlon a.embedDim (p.block 0) with
        | error e => rw [g2] at h10; cases h10
        | ok nn =>
        rw [g2, except_bind_ok] at h10
        by_cases hu : a.useMlp = true
        · rw [if_pos hu] at h10
          cases g3 : (Mlp.init a.embedDim (pyInt (a.embedDim * a.mlpRatio)) a.embedDim act (p.block 0).mlp).map some with
          | error e => rw [g3] at h10; cases h10
          | ok mm =>
          rw [g3, except_bind_ok] at h10
          cases g4 : skipInit "identity" a.embedDim a.embedDim (a.embedDim = a.embedDim) (p.block 0).outerW (p.block 0).outerB with
          | error e => rw [g4] at h10; cases h10
          | ok oo =>
          rw [g4] at h10
          cases h10
          rfl
        · rw [if_neg hu, except_bind_ok] at h10
          cases g4 : skipInit "identity" a.embedDim a.embedDim (a.embedDim = a.embedDim) (p.block 0).outerW (p.block 0).outerB with
          | error e => rw [g4] at h10; cases h10
          | ok oo =>
          rw [g4] at h10
          cases h10
          rfl

/-! ### The hypotheses can be met -/

theorem modes_one (h w : ℕ) : modes h w 1 = ((min h (w / 2) : ℕ) : ℤ) := by
  unfold modes pyInt
  rw [mul_one, if_pos (Nat.cast_nonneg _), Int.floor_natCast]
  rfl

/-- Networks with the default kinds of grids and without hard thresholding are built as soon as the internal grid has two longitudes. -/
theorem C76_built (env : Env) (be : C2R) (a : NetArgs) (p : NetParams) (hlat : 2 ≤ a.nlat) (hs : 0 < a.scale) (hlon : 2 * a.scale ≤ a.nlon)
    (hg : a.grid = "equiangular" ∨ a.grid = "legendre-gauss") (hg' : a.gridInternal = "legendre-gauss") (hf : a.fraction = 1)
    (hact : a.act = "relu" ∨ a.act = "gelu" ∨ a.act = "identity") (hpos : a.posEmbed = "none" ∨ a.posEmbed = "learnable lat")
    (hn : a.norm = "layer_norm" ∨ a.norm = "instance_norm" ∨ a.norm = "none") (hi : a.inChans ≠ 0) (he : a.embedDim ≠ 0) (hr : 0 ≤ a.mlpRatio) :
    ∃ rOut rIn act pos, NetBuilt env be a p rOut rIn (min (inH a) (inW a / 2)) act pos := by
  have hH : 1 ≤ inH a := by
    have : 0 ≤ ((a.nlat : ℤ) - 1) / a.scale := Int.ediv_nonneg (by omega) (by omega)
    unfold inH; omega
  have hW : 2 ≤ inW a := (Nat.le_div_iff_mul_le hs).2 hlon
  obtain ⟨rOut, h1⟩ : ∃ r, gridRule env.gauss env.tol env.maxiter a.nlat a.grid = .ok r := by
    rcases hg with h | h <;> rw [h, gridRule]
    · refine ⟨rescale ⟨a.nlat, fun i => Real.cos (linspace Real.pi 0 a.nlat i), ccW a.nlat⟩ (-1) 1, ?_⟩
      simp only [clenshawCurtissWeights, if_neg (show ¬ a.nlat ≤ 1 by omega)]
      simp
    · exact ⟨_, by rw [if_pos rfl, legendreGaussWeights, if_neg (by omega)]⟩
  have h2 : gridRule env.gauss env.tol env.maxiter (inH a) a.gridInternal = .ok (rescale (env.gauss (inH a)) (-1) 1) := by
    rw [hg', gridRule, if_pos rfl, legendreGaussWeights, if_neg (by omega)]
  obtain ⟨act, h3⟩ : ∃ act, activation a.act = .ok act := by
    rcases hact with h | h | h <;> simp [activation, h]
  obtain ⟨pos, h4⟩ : ∃ pos, posInit env be a.posEmbed a.nlat a.nlon a.embedDim a.grid p.posLat = .ok pos := by
    rcases hpos with h | h <;> simp [posInit, h, learnableEmbed, Except.map]
  refine ⟨rOut, _, act, pos, by omega, h3, h4, h1, h2, by rw [hf]; exact modes_one _ _, by omega, hn, hi, he, fun _ => ?_⟩
  have : (0 : ℝ) ≤ a.embedDim * a.mlpRatio := mul_nonneg (Nat.cast_nonneg _) hr
  rw [pyInt, if_pos this]
  exact Int.floor_nonneg.2 this

/-- The network of the docstring, sfno.py 223-230, is built, with 32 modes. -/
example (env : Env) (be : C2R) (p : NetParams) : ∃ rOut rIn act pos, NetBuilt env be
    ⟨128, 256, "equiangular", "legendre-gauss", 4, 2, 2, 16, 4, "gelu", 1, true, 2, "none", 1, false, "none", false⟩ p rOut rIn 32 act pos :=
  C76_built env be _ p (by norm_num) (by norm_num) (by norm_num) (.inl rfl) rfl rfl (by simp) (by simp) (by simp) (by norm_num) (by norm_num) (by norm_num)
/-- It commutes with the shifts by 4 longitudes; one with scale factor 3 has 85 internal longitudes, and the theorem gives the trivial shifts only. -/
example : 256 ∣ 4 * (256 / 4) := by norm_num
example (s : ℕ) : 256 ∣ s * (256 / 3) ↔ 256 ∣ s := by
  show 256 ∣ s * 85 ↔ 256 ∣ s
  omega
/-- A network with scale factor one, as in `C76_scale_one_misaligned`. -/
example (env : Env) (be : C2R) (p : NetParams) : ∃ rOut rIn act pos, NetBuilt env be
    ⟨8, 16, "equiangular", "legendre-gauss", 1, 2, 2, 16, 4, "gelu", 1, true, 2, "none", 1, false, "none", false⟩ p rOut rIn 8 act pos :=
  C76_built env be _ p (by norm_num) (by norm_num) (by norm_num) (.inl rfl) rfl rfl (by simp) (by simp) (by simp) (by norm_num) (by norm_num) (by norm_num)
/-- A fraction of 1/100 leaves none of 32 modes. -/
example : modes 32 64 (1 / 100) = 0 := by
  unfold modes pyInt
  norm_num
/-- A network with such a fraction is built, as `C76_zero_modes` assumes. -/
example (env : Env) (be : C2R) (p : NetParams) : ∃ N B bs, Net.init env be
    ⟨8, 16, "equiangular", "equiangular", 1, 2, 2, 16, 1, "gelu", 1, false, 2, "none", 1 / 100, false, "none", false⟩ p = .ok N ∧ N.blocks = B :: bs := by
  obtain ⟨r, d, L, hr, _, hL, h0, _, _⟩ := default_grid env ⟨8, 16, none, none, "equiangular", "ortho", true⟩ (.inl rfl) (by norm_num) (by norm_num) rfl rfl
  have hL' : sizes 8 16 (some 0) (some 0) "equiangular" = .ok (L, L) := (sizes_zero _ _ _).trans hL
  have hi : internalSize 8 16 1 = .ok (8, 16) := rfl
  have hm : modes 8 16 (1 / 100) = 0 := by
    unfold modes pyInt
    norm_num
  have hp : posInit env be "none" 8 16 16 "equiangular" p.posLat = .ok none := by simp [posInit]
  have ha : activation "gelu" = .ok gelu := by simp [activation]
  unfold Net.init
  rw [ha, except_bind_ok, hi, except_bind_ok]
  dsimp only
  rw [hp, except_bind_ok, if_neg (by norm_num), hm, realSHT_init env ⟨8, 16, some 0, some 0, "equiangular", "ortho", true⟩ r L hr hL' h0,
    except_bind_ok, inverseRealSHT_init env ⟨8, 16, some 0, some 0, "equiangular", "ortho", true⟩ r L hr hL' h0, except_bind_ok,
    except_bind_ok, except_bind_ok]
  simp only [blocksInit]
  rw [block_init _ _ _ _ .none _ (by norm_num) rfl rfl (by simp [normInit]) (by simp), except_bind_ok]
  exact ⟨_, _, _, rfl, rfl⟩

end Verif.Props
