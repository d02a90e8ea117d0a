import Verif.Lemmas.Transformer
import Verif.Props.LobattoConv
import Verif.Props.PosEmbed
/-!
C86: the spherical transformer.
-/
namespace Verif.Props
open Verif Verif.Dist Verif.FFT Verif.Quad Verif.Truncation Verif.SHT Verif.Spec Verif.Spec.Attn Verif.SFNO Verif.Filter Verif.Disco Verif.Attn Verif.S2T Finset

/-- The size of the internal grid. -/
def tH (a : S2T.NetArgs) : ℕ := (((a.nlat : ℤ) - 1) / a.scale + 1).toNat
def tW (a : S2T.NetArgs) : ℕ := a.nlon / a.scale

/-- The hypotheses under which the network is built: grids with colatitudes `qOut` and `qIn`, a filter basis `Be` of the encoder and the decoder, known
names of the other options, at least one channel, a number of heads that divides the embedding dimension, a positive cutoff if one is given for neighbourhood
attention and positive quadrature weights for global attention, an internal grid of two latitudes and two longitudes, the number of which divides that of the
outer grid. `le` is demanded by the reference kernels of the convolutions. -/
structure S2tBuilt (env : Env) (be : C2R) (a : S2T.NetArgs) (p : S2T.NetParams) (qOut qIn : Rule) (Be : Basis) (act : ℝ → ℝ) (pos : Option (Ten3 ℝ)) :
    Prop where
  scale : a.scale ≠ 0
  act : activation a.act = .ok act
  pos : posInit env be a.posEmbed (tH a) (tW a) a.embedDim a.gridInternal p.posLat = .ok pos
  latOut : precomputeLatitudes env.gauss env.tol env.maxiter a.nlat a.grid = .ok qOut
  sizeOut : qOut.n = a.nlat
  latIn : precomputeLatitudes env.gauss env.tol env.maxiter (tH a) a.gridInternal = .ok qIn
  sizeIn : qIn.n = tH a
  encBasis : LSNO.getBasis a.encoderShape a.basis = .ok Be
  encKer : 0 < Be.kernelSize
  norm : a.norm = "layer_norm" ∨ a.norm = "instance_norm" ∨ a.norm = "none"
  inChans : a.inChans ≠ 0
  embedDim : a.embedDim ≠ 0
  hidden : a.useMlp = true → 0 ≤ pyInt (a.embedDim * a.mlpRatio)
  heads : a.numHeads ≠ 0
  headsDvd : a.numHeads ∣ a.embedDim
  theta : a.mode = "neighborhood" → ∀ t, a.theta = some t → 0 < t
  wpos : a.mode ≠ "neighborhood" → ∀ i < tH a, 0 < qIn.w i
  twoLat : 2 ≤ tH a
  twoLon : 2 ≤ tW a
  dvd : tW a ∣ a.nlon
  le : a.nlat ≤ a.nlon
  up : if a.upsampleSht then (∃ qi qo, gridRule env.gauss env.tol env.maxiter (tH a) a.gridInternal = .ok qi ∧
        gridRule env.gauss env.tol env.maxiter a.nlat a.grid = .ok qo) ∧ ∃ M, 0 < M ∧ sizes (tH a) (tW a) none none a.gridInternal = .ok (M, M)
    else LatGrid a.nlat qOut.x ∧ LatGrid (tH a) qIn.x

/-- The runs of the kernels of all blocks visit every block of output points: either the reference kernel (`none`) or any order of the optimised one. -/
def RunsCover (a : S2T.NetArgs) (run : ℕ → Option CpuRun) : Prop :=
  ∀ i k, run i = some k → CoversBlocks ⟨a.numHeads, a.embedDim / a.numHeads, a.embedDim / a.numHeads, tH a, tW a, tH a, tW a⟩ k.order

/-- The points of the internal grid that a point of the internal grid attends to. -/
noncomputable def attended (a : S2T.NetArgs) (qIn : Rule) : ℕ → ℕ → Finset (ℕ × ℕ) := reach a.mode qIn (tH a) (tW a) (thetaOf (tH a) a.theta)

/-- Block `i` of the network. -/
structure S2tBlockOf (env : Env) (a : S2T.NetArgs) (p : S2T.NetParams) (qIn : Rule) (act : ℝ → ℝ) (i : ℕ) (B : S2T.Block) : Prop where
  fits : S2T.BlockFits B (given (p.block i).attn a.bias) qIn a.embedDim a.numHeads (tH a) (tW a) (attended a qIn)
  norm0 : S2T.normInit a.norm a.embedDim (p.block i).norm0G (p.block i).norm0B = .ok B.norm0
  norm1 : S2T.normInit a.norm a.embedDim (p.block i).norm1G (p.block i).norm1B = .ok B.norm1
  mlp : (if a.useMlp then (Mlp.init a.embedDim (pyInt (a.embedDim * a.mlpRatio)) a.embedDim act (p.block i).mlp).map some else .ok none) = .ok B.mlp
  noMlp : a.useMlp = false → B.mlp = none
  withMlp : a.useMlp = true → ∃ hid : ℕ, (hid : ℤ) = (if pyInt (a.embedDim * a.mlpRatio) = 0 then (a.embedDim : ℤ) else pyInt (a.embedDim * a.mlpRatio)) ∧
    B.mlp = some ⟨⟨a.embedDim, hid, (p.block i).mlp.w1, some (p.block i).mlp.b1⟩, act, ⟨hid, a.embedDim, (p.block i).mlp.w2, none⟩⟩

/-- A network as the constructor builds it. -/
structure S2tFits (env : Env) (N : S2T.Net) (a : S2T.NetArgs) (p : S2T.NetParams) (qOut qIn : Rule) (Be : Basis) (act : ℝ → ℝ) (pos : Option (Ten3 ℝ)) :
    Prop where
  encInit : LSNO.encoderInit env a.inChans a.embedDim a.nlat a.nlon (tH a) (tW a) a.encoderShape a.basis a.grid a.gridInternal p.encW = .ok N.encoder
  encoder : LSNO.DiscoFits N.encoder a.inChans a.embedDim a.nlat a.nlon (tH a) (tW a)
  pos : N.posEmbed = pos
  count : N.blocks.length = a.numLayers
  block : ∀ i (h : i < N.blocks.length), S2tBlockOf env a p qIn act i N.blocks[i]
  decInit : LSNO.Decoder.init env a.upsampleSht a.embedDim a.outChans (tH a) (tW a) a.nlat a.nlon a.encoderShape a.basis a.gridInternal a.grid p.decW
    = .ok N.decoder
  up : LSNO.UpFits N.decoder.up (tH a) (tW a) a.nlat a.nlon
  upVal : LSNO.Upsample.init env a.upsampleSht (tH a) (tW a) a.nlat a.nlon a.gridInternal a.grid = .ok N.decoder.up
  decoder : LSNO.DiscoFits N.decoder.conv a.embedDim a.outChans a.nlat a.nlon a.nlat a.nlon
  conv : ∃ k rest f, a.encoderShape = k :: rest ∧ LSNO.cutoffFactor a.basis = some f ∧
    Convolves N.encoder Be qOut qIn a.inChans a.embedDim a.nlon (tH a) (tW a) (((k : ℝ) + 1) * f * Real.pi / ((a.nlat : ℝ) - 1)) p.encW none ∧
    Convolves N.decoder.conv Be qOut qOut a.embedDim a.outChans a.nlon a.nlat a.nlon (((k : ℝ) + 1) * f * Real.pi / ((tH a : ℝ) - 1)) p.decW none
  residual : N.residual = a.residualPrediction

section Build
variable {env : Env} {be : C2R} {a : S2T.NetArgs} {p : S2T.NetParams} {qOut qIn : Rule} {Be : Basis} {act : ℝ → ℝ} {pos : Option (Ten3 ℝ)} {N : S2T.Net}

theorem s2t_sizes (H : S2tBuilt env be a p qOut qIn Be act pos) : 2 ≤ a.nlat ∧ tH a ≤ a.nlat ∧ 2 ≤ a.nlon ∧ tW a ≤ a.nlon := by
  have h2 : tW a ≤ a.nlon := Nat.div_le_self _ _
  have h3 := H.twoLat
  have h4 := H.twoLon
  have hs := H.scale
  have h1 : 2 ≤ a.nlat := by
    by_contra hc
    have : ((a.nlat : ℤ) - 1) / a.scale ≤ 0 := by
      have h0 : ((a.nlat : ℤ) - 1) ≤ 0 := by omega
      exact Int.ediv_nonpos_of_nonpos_of_neg h0 (by omega)
    unfold tH at h3
    omega
  refine ⟨h1, ?_, h4.trans h2, h2⟩
  have : ((a.nlat : ℤ) - 1) / a.scale ≤ (a.nlat : ℤ) - 1 := Int.ediv_le_self _ (by omega)
  unfold tH
  omega

theorem snorm_ready {kind : String} (h : kind = "layer_norm" ∨ kind = "instance_norm" ∨ kind = "none") (C : ℕ) (g b : ℕ → ℝ) :
    ∃ M, S2T.normInit kind C g b = .ok M ∧ M.Fits C := by
  rcases h with rfl | rfl | rfl
  · exact ⟨.layer C g b, by simp [S2T.normInit], rfl⟩
  · exact ⟨.inst C g b, by simp [S2T.normInit], rfl⟩
  · exact ⟨.none, by simp [S2T.normInit], trivial⟩

theorem s2t_block (H : S2tBuilt env be a p qOut qIn Be act pos) (i : ℕ) :
    ∃ B, S2T.Block.init env (a.blockArgs (tH a) (tW a) act) (p.block i) = .ok B ∧ S2tBlockOf env a p qIn act i B := by
  obtain ⟨n0, e0, f0⟩ := snorm_ready H.norm a.embedDim (p.block i).norm0G (p.block i).norm0B
  obtain ⟨n1, e1, f1⟩ := snorm_ready H.norm a.embedDim (p.block i).norm1G (p.block i).norm1B
  have hW := H.twoLon
  obtain ⟨T, e2, f2⟩ := attn_ready (env := env) (a := a.blockArgs (tH a) (tW a) act) (r := qIn)
    ⟨rfl, rfl, rfl, H.twoLat, by show 0 < tW a; omega, H.latIn, H.sizeIn, H.embedDim, H.embedDim, H.heads, H.headsDvd, H.headsDvd, H.theta, H.wpos⟩ (p.block i).attn
  obtain ⟨M, e3, f3, f4, f5⟩ := mlp_ready H.embedDim a.useMlp H.hidden act (p.block i).mlp
  refine ⟨⟨n0, n1, T, M⟩, ?_, ⟨f0, f1, f2, f3⟩, e0, e1, e3, f4, f5⟩
  unfold S2T.Block.init
  change (S2T.normInit a.norm a.embedDim (p.block i).norm0G (p.block i).norm0B >>= _) = _
  rw [e0, except_bind_ok]
  change (S2T.normInit a.norm a.embedDim (p.block i).norm1G (p.block i).norm1B >>= _) = _
  rw [e1, except_bind_ok, e2, except_bind_ok]
  cases hm : a.useMlp with
  | false =>
    rw [if_neg (by simp [hm])] at e3
    cases e3
    rw [if_neg (by simp [S2T.NetArgs.blockArgs, hm])]
    rfl
  | true =>
    rw [if_pos hm] at e3
    rw [if_pos (by simp [S2T.NetArgs.blockArgs, hm])]
    change ((Mlp.init a.embedDim (pyInt (a.embedDim * a.mlpRatio)) a.embedDim act (p.block i).mlp).map some >>= _) = _
    rw [e3, except_bind_ok]
    rfl

theorem s2t_blocks (H : S2tBuilt env be a p qOut qIn Be act pos) (n i : ℕ) :
    ∃ bs, S2T.blocksInit env (a.blockArgs (tH a) (tW a) act) p.block i n = .ok bs ∧ bs.length = n ∧
      ∀ j (h : j < bs.length), S2tBlockOf env a p qIn act (i + j) bs[j] := by
  induction n generalizing i with
  | zero => exact ⟨[], rfl, rfl, fun j h => absurd h (by simp)⟩
  | succ n ih =>
    obtain ⟨B, h1, h2⟩ := s2t_block H i
    obtain ⟨bs, g1, g2, g3⟩ := ih (i + 1)
    refine ⟨B :: bs, ?_, by simp [g2], ?_⟩
    · simp only [S2T.blocksInit]
      rw [h1, except_bind_ok, g1]
      rfl
    · intro j hj
      cases j with
      | zero => exact h2
      | succ j =>
        have := g3 j (by simpa using hj)
        rw [show i + 1 + j = i + (j + 1) by omega] at this
        exact this

/-- Up to the blocks nothing depends on the options of the blocks. -/
theorem s2t_encoder (H : S2tBuilt env be a p qOut qIn Be act pos) :
    ∃ k rest f E, a.encoderShape = k :: rest ∧ LSNO.cutoffFactor a.basis = some f ∧
      LSNO.encoderInit env a.inChans a.embedDim a.nlat a.nlon (tH a) (tW a) a.encoderShape a.basis a.grid a.gridInternal p.encW = .ok E ∧
      LSNO.DiscoFits E a.inChans a.embedDim a.nlat a.nlon (tH a) (tW a) ∧
      Convolves E Be qOut qIn a.inChans a.embedDim a.nlon (tH a) (tW a) (((k : ℝ) + 1) * f * Real.pi / ((a.nlat : ℝ) - 1)) p.encW none := by
  obtain ⟨h1, h2, h3, h4⟩ := s2t_sizes H
  have h5 := H.twoLat
  have h6 := H.twoLon
  have h7 := H.le
  exact encoder_ready H.encBasis H.encKer H.inChans H.latOut H.sizeOut H.latIn h1 (by omega) (by omega) (by omega) H.dvd (by omega) p.encW

theorem s2t_init (H : S2tBuilt env be a p qOut qIn Be act pos) :
    ∃ N, (∀ r, S2T.Net.init env be { a with residualPrediction := r } p = .ok { N with residual := r }) ∧ S2T.Net.init env be a p = .ok N ∧
      S2tFits env N a p qOut qIn Be act pos := by
  obtain ⟨h1, h2, h3, h4⟩ := s2t_sizes H
  have hi : internalSize a.nlat a.nlon a.scale = .ok (tH a, tW a) := by rw [internalSize, if_neg H.scale]; rfl
  obtain ⟨k, rest, f, E, e1, e2, e3, e4, e5⟩ := s2t_encoder H
  obtain ⟨bs, b1, b2, b3⟩ := s2t_blocks H a.numLayers 0
  obtain ⟨k', rest', f', D, d1, d2, d3, d4, d5, d6, d7⟩ := decoder_ready a.upsampleSht (inC := a.embedDim) (outC := a.outChans) H.encBasis H.encKer H.embedDim
    H.latIn H.sizeIn H.latOut H.sizeOut H.twoLat H.twoLon (by omega) (by omega) H.le H.up p.decW
  have hk := e1.symm.trans d1
  cases hk
  have hf := e2.symm.trans d2
  cases hf
  have hr : ∀ r, S2T.Net.init env be { a with residualPrediction := r } p = .ok ⟨pos, E, bs, D, r⟩ := by
    intro r
    unfold S2T.Net.init
    dsimp only
    rw [H.act, except_bind_ok, hi, except_bind_ok]
    dsimp only
    rw [H.pos, except_bind_ok, e3, except_bind_ok]
    change (S2T.blocksInit env (a.blockArgs (tH a) (tW a) act) p.block 0 a.numLayers >>= _) = _
    rw [b1, except_bind_ok, d3]
    rfl
  refine ⟨⟨pos, E, bs, D, a.residualPrediction⟩, hr, hr a.residualPrediction, e3, e4, rfl, b2, ?_, d3, d4, d5, d6, ⟨k, rest, f, e1, e2, e5, d7⟩, rfl⟩
  intro j hj
  have := b3 j hj
  rwa [Nat.zero_add] at this

/-- What the decoder is given: encoder, position embedding, blocks. -/
noncomputable def trunk (run : ℕ → Option CpuRun) (N : S2T.Net) (x : Ten3 ℝ) : Except PyErr (Ten3 ℝ) := do
  let y ← LSNO.discoForward N.encoder x
  let y ← match N.posEmbed with
    | none => .ok y
    | some e => addEmbed e y
  S2T.runBlocks run 0 N.blocks y

theorem trunk_step {run : ℕ → Option CpuRun} {u u1 u2 u3 : Ten3 ℝ} (g1 : LSNO.discoForward N.encoder u = .ok u1)
    (g2 : (match N.posEmbed with | none => .ok u1 | some e => addEmbed e u1 : Except PyErr (Ten3 ℝ)) = .ok u2) (g3 : S2T.runBlocks run 0 N.blocks u2 = .ok u3) :
    trunk run N u = .ok u3 := by
  unfold trunk
  rw [g1, except_bind_ok]
  cases hpe : N.posEmbed with
  | none =>
    rw [hpe] at g2; cases g2
    dsimp only
    rw [except_bind_ok, g3]
  | some e =>
    rw [hpe] at g2
    dsimp only at g2 ⊢
    rw [g2, except_bind_ok, g3]

theorem s2t_step {run : ℕ → Option CpuRun} {u u3 u4 u5 : Ten3 ℝ} (g : trunk run N u = .ok u3)
    (g4 : N.decoder.up.forward be u3 = .ok u4) (g5 : LSNO.discoForward N.decoder.conv u4 = .ok u5) :
    N.forward be run u = if N.residual then addEmbed u u5 else .ok u5 := by
  have g6 : N.decoder.forward be u3 = .ok u5 := by unfold LSNO.Decoder.forward; rw [g4, except_bind_ok, g5]
  have e : N.forward be run u = (trunk run N u >>= fun y => N.decoder.forward be y >>= fun y => if N.residual then addEmbed u y else pure y) := by
    unfold S2T.Net.forward trunk
    cases LSNO.discoForward N.encoder u with
    | error _ => rfl
    | ok y =>
      rw [except_bind_ok, except_bind_ok]
      cases N.posEmbed with
      | none => rfl
      | some e =>
        dsimp only
        cases addEmbed e y <;> rfl
  rw [e, g, except_bind_ok, g6, except_bind_ok]
  rfl

/-- The same network but for the attention layers. -/
structure SameButAttention (a : S2T.NetArgs) (p : S2T.NetParams) (qIn : Rule) (N N' : S2T.Net) (nb : ℕ → ℕ → Finset (ℕ × ℕ)) : Prop where
  encoder : N'.encoder = N.encoder
  pos : N'.posEmbed = N.posEmbed
  decoder : N'.decoder = N.decoder
  count : N'.blocks.length = N.blocks.length
  block : ∀ j (h : j < N.blocks.length) (h' : j < N'.blocks.length), N'.blocks[j] = { N.blocks[j] with attn := N'.blocks[j].attn } ∧
    Attends N'.blocks[j].attn (given (p.block j).attn a.bias) qIn a.embedDim a.embedDim a.numHeads (tH a) (tW a) nb

theorem same_refl (F : S2tFits env N a p qOut qIn Be act pos) : SameButAttention a p qIn N N (attended a qIn) :=
  ⟨rfl, rfl, rfl, rfl, fun j h _ => ⟨rfl, (F.block j h).fits.attn⟩⟩

theorem attended_lt {t j : ℕ} : ∀ z ∈ attended a qIn t j, z.1 < tH a ∧ z.2 < tW a := fun _ hz => reach_lt hz

theorem attended_turn (h : 2 ≤ tW a) (s : ℕ) : ∀ t < tH a, ∀ j < tW a, attended a qIn t ((j + s) % tW a) = (attended a qIn t j).image (turn (tW a) s) :=
  fun t _ j _ => reach_turn (by omega) t j s

theorem s2t_pos (H : S2tBuilt env be a p qOut qIn Be act pos) {q : ℕ} (hp : a.posEmbed = "none" ∨ a.posEmbed = "learnable lat" ∨ q = 0) {y1 y1' : Ten3 ℝ}
    (s1 : HasShape y1 a.embedDim (tH a) (tW a)) (r1 : Rolled q y1 y1') :
    ∃ y2 y2', (match pos with | none => .ok y1 | some e => addEmbed e y1 : Except PyErr (Ten3 ℝ)) = .ok y2 ∧
      (match pos with | none => .ok y1' | some e => addEmbed e y1' : Except PyErr (Ten3 ℝ)) = .ok y2' ∧
      HasShape y2 a.embedDim (tH a) (tW a) ∧ Rolled q y2 y2' := by
  have h2 := H.twoLon
  have hpos := H.pos
  cases pos with
  | none => exact ⟨y1, y1', rfl, rfl, s1, r1⟩
  | some e =>
    obtain ⟨p0, p1, p2, p3, p4⟩ := pos_shape (by omega) hpos
    obtain ⟨z, z', hz, hz', sz, rz⟩ := embed_roll (e := e) (p0.trans s1.1.symm) (p1.trans s1.2.1.symm) (by
      rcases hp with h | h | h
      · exact absurd h p4
      · exact .inl (p3 h)
      · rcases p2 with h2 | h2
        · exact .inr ⟨h2.trans s1.2.2.symm, h⟩
        · exact .inl h2) r1
    rw [s1.1, s1.2.1, s1.2.2] at sz
    exact ⟨z, z', hz, hz', sz, rz⟩

theorem s2t_pos_val (H : S2tBuilt env be a p qOut qIn Be act pos) {y1 : Ten3 ℝ} (s1 : HasShape y1 a.embedDim (tH a) (tW a)) :
    ∃ y2, (match pos with | none => .ok y1 | some e => addEmbed e y1 : Except PyErr (Ten3 ℝ)) = .ok y2 ∧
      HasShape y2 a.embedDim (tH a) (tW a) ∧ ∀ c < a.embedDim, ∀ t < tH a, ∀ j < tW a, y2.val c t j = y1.val c t j + embedAt pos c t j := by
  have h2 := H.twoLon
  have hpos := H.pos
  cases pos with
  | none => exact ⟨y1, rfl, s1, fun _ _ _ _ _ _ => (add_zero _).symm⟩
  | some e =>
    obtain ⟨p0, p1, p2, p3, p4⟩ := pos_shape (by omega) hpos
    by_cases hd : e.d2 = 1
    · obtain ⟨z, hz, sz, vz⟩ := addEmbed_lat (x := y1) (p0.trans s1.1.symm) (p1.trans s1.2.1.symm) hd
      rw [s1.1, s1.2.1, s1.2.2] at sz vz
      exact ⟨z, hz, sz, fun c hc t ht j hj => by rw [vz c hc t ht j hj, embedAt, if_pos hd]⟩
    · obtain ⟨z, hz, sz, vz⟩ := addEmbed_same (r := e) (x := y1) (p0.trans s1.1.symm) (p1.trans s1.2.1.symm)
        ((p2.resolve_right hd).trans s1.2.2.symm)
      rw [s1.1, s1.2.1, s1.2.2] at sz vz
      exact ⟨z, hz, sz, fun c hc t ht j hj => by rw [vz c hc t ht j hj, embedAt, if_neg hd]⟩

/-- The steps of the forward passes of two networks that differ in their attention layers only, run in two ways on fields that are shifted against one another. -/
theorem s2t_steps (H : S2tBuilt env be a p qOut qIn Be act pos) (F : S2tFits env N a p qOut qIn Be act pos) {N' : S2T.Net} {nb : ℕ → ℕ → Finset (ℕ × ℕ)}
    (hN' : SameButAttention a p qIn N N' nb) {s q : ℕ} (hlt : ∀ t j, ∀ z ∈ nb t j, z.1 < tH a ∧ z.2 < tW a)
    (hnb : ∀ t < tH a, ∀ j < tW a, attended a qIn t ((j + q) % tW a) = (nb t j).image (turn (tW a) q))
    (hq : s = q * (a.nlon / tW a)) (hp : a.posEmbed = "none" ∨ a.posEmbed = "learnable lat" ∨ q = 0) {run run' : ℕ → Option CpuRun} (hrun : RunsCover a run)
    (hrun' : RunsCover a run') {x x' : Ten3 ℝ} (hx : HasShape x a.inChans a.nlat a.nlon) (hr : Rolled s x x') :
    ∃ y y', (∀ r, ({ N with residual := r } : S2T.Net).forward be run x = if r then addEmbed x y else .ok y) ∧
      (∀ r, ({ N' with residual := r } : S2T.Net).forward be run' x' = if r then addEmbed x' y' else .ok y') ∧
      HasShape y a.outChans a.nlat a.nlon ∧ Rolled s y y' := by
  obtain ⟨h1, h2, h3, h4⟩ := s2t_sizes H
  obtain ⟨y1, y1', e1, e1', s1, r1⟩ := LSNO.disco_roll F.encoder hq hx hr
  obtain ⟨y2, y2', e2, e2', s2, r2⟩ := s2t_pos H hp s1 r1
  rw [← F.pos] at e2 e2'
  obtain ⟨y3, y3', e3, e3', s3, r3⟩ := runBlocks_roll (bs := N.blocks) (bs' := N'.blocks) H.twoLon hlt hnb hrun hrun' 0 hN'.count
    (p := fun i => given (p.block i).attn a.bias)
    (fun j h => by rw [Nat.zero_add]; exact (F.block j h).fits) (fun j h h' => by rw [Nat.zero_add]; exact hN'.block j h h') s2 r2
  obtain ⟨y4, y4', e4, e4', s4, r4⟩ := LSNO.up_roll be F.up (s' := s) (by
    rw [hq, mul_assoc, Nat.div_mul_cancel H.dvd]) s3.2.1 s3.2.2 r3
  rw [s3.1] at s4
  obtain ⟨y5, y5', e5, e5', s5, r5⟩ := LSNO.disco_roll F.decoder (s' := s) (by rw [Nat.div_self (by omega), mul_one]) s4 r4
  refine ⟨y5, y5', fun r => s2t_step (N := { N with residual := r }) (trunk_step e1 e2 e3) e4 e5, fun r => ?_, s5, r5⟩
  refine s2t_step (N := { N' with residual := r }) (trunk_step (u1 := y1') (u2 := y2') (u3 := y3') ?_ ?_ e3') (u4 := y4') ?_ ?_
  · show LSNO.discoForward N'.encoder x' = _
    rw [hN'.encoder]; exact e1'
  · show (match N'.posEmbed with | none => .ok y1' | some e => addEmbed e y1' : Except PyErr (Ten3 ℝ)) = _
    rw [hN'.pos]; exact e2'
  · show N'.decoder.up.forward be y3' = _
    rw [hN'.decoder]; exact e4'
  · show LSNO.discoForward N'.decoder.conv y4' = _
    rw [hN'.decoder]; exact e5'

theorem s2t_pair (H : S2tBuilt env be a p qOut qIn Be act pos) (hres : a.residualPrediction = true → a.inChans = a.outChans)
    (F : S2tFits env N a p qOut qIn Be act pos) {N' : S2T.Net} {nb : ℕ → ℕ → Finset (ℕ × ℕ)}
    (hN' : SameButAttention a p qIn N N' nb) (hb' : N'.residual = N.residual) {s q : ℕ} (hlt : ∀ t j, ∀ z ∈ nb t j, z.1 < tH a ∧ z.2 < tW a)
    (hnb : ∀ t < tH a, ∀ j < tW a, attended a qIn t ((j + q) % tW a) = (nb t j).image (turn (tW a) q))
    (hq : s = q * (a.nlon / tW a)) (hp : a.posEmbed = "none" ∨ a.posEmbed = "learnable lat" ∨ q = 0) {run run' : ℕ → Option CpuRun} (hrun : RunsCover a run)
    (hrun' : RunsCover a run') {x x' : Ten3 ℝ} (hx : HasShape x a.inChans a.nlat a.nlon) (hr : Rolled s x x') :
    ∃ y y', N.forward be run x = .ok y ∧ N'.forward be run' x' = .ok y' ∧ HasShape y a.outChans a.nlat a.nlon ∧ Rolled s y y' := by
  obtain ⟨y, y', e, e', sy, ry⟩ := s2t_steps H F hN' hlt hnb hq hp hrun hrun' hx hr
  have e := e N.residual
  have e' := e' N'.residual
  change N.forward be run x = _ at e
  change N'.forward be run' x' = _ at e'
  rw [e, e', hb']
  cases hb : N.residual with
  | false => exact ⟨y, y', rfl, rfl, sy, ry⟩
  | true =>
    have hio := hres (F.residual ▸ hb)
    obtain ⟨z, z', hz, hz', sz, rz⟩ := addEmbed_roll hr ry (by rw [hx.1, sy.1, hio]) (hx.2.1.trans sy.2.1.symm) (hx.2.2.trans sy.2.2.symm)
    rw [sy.1, sy.2.1, sy.2.2] at sz
    exact ⟨z, z', hz, hz', sz, rz⟩

end Build

section
variable {env : Env} {be : C2R} {a : S2T.NetArgs} {p : S2T.NetParams} {qOut qIn : Rule} {Be : Basis} {act : ℝ → ℝ} {pos : Option (Ten3 ℝ)}

/-- C86. A network with admissible arguments is built, and maps every stack of `in_chans` fields on the outer grid to one of `out_chans` fields on the
outer grid, whatever the parameters are. Which kernel computes neighbourhood attention, and in which order it visits the blocks of points, does not matter. -/
theorem C86_shape (H : S2tBuilt env be a p qOut qIn Be act pos) (hres : a.residualPrediction = true → a.inChans = a.outChans) :
    ∃ N, S2T.Net.init env be a p = .ok N ∧ ∀ x, HasShape x a.inChans a.nlat a.nlon → ∀ run run', RunsCover a run → RunsCover a run' →
      ∃ y y', N.forward be run x = .ok y ∧ N.forward be run' x = .ok y' ∧ HasShape y a.outChans a.nlat a.nlon ∧ HasShape y' a.outChans a.nlat a.nlon ∧
        ∀ c < a.outChans, ∀ t < a.nlat, ∀ j < a.nlon, y'.val c t j = y.val c t j := by
  obtain ⟨N, _, hN, F⟩ := s2t_init H
  refine ⟨N, hN, fun x hx run run' hrun hrun' => ?_⟩
  obtain ⟨y, y', e, e', sy, ry⟩ := s2t_pair H hres F (same_refl F) rfl (s := 0) (q := 0) (fun t j => attended_lt) (attended_turn H.twoLon 0) (by simp)
    (.inr (.inr rfl)) hrun hrun' hx (rolled_refl x)
  refine ⟨y, y', e, e', sy, ⟨ry.d0.trans sy.1, ry.d1.trans sy.2.1, ry.d2.trans sy.2.2⟩, fun c hc t ht j hj => ?_⟩
  rw [ry.val c (by rw [sy.1]; exact hc) t (by rw [sy.2.1]; exact ht) j (by rw [sy.2.2]; exact hj), sy.2.2, Nat.add_zero, Nat.mod_eq_of_lt hj]

/-- C86. With no position embedding or one that depends on the latitude only, the network commutes with all shifts in longitude that the internal grid has
too, with every normalisation, for both kinds of attention, and whichever kernels the two passes use. -/
theorem C86_longitude (H : S2tBuilt env be a p qOut qIn Be act pos) (hres : a.residualPrediction = true → a.inChans = a.outChans)
    (hp : a.posEmbed = "none" ∨ a.posEmbed = "learnable lat") (s : ℕ) (hs : a.nlon ∣ s * (a.nlon / a.scale)) :
    ∃ N, S2T.Net.init env be a p = .ok N ∧ ∀ x x', HasShape x a.inChans a.nlat a.nlon → Rolled s x x' → ∀ run run', RunsCover a run → RunsCover a run' →
      ∃ y y', N.forward be run x = .ok y ∧ N.forward be run' x' = .ok y' ∧ HasShape y a.outChans a.nlat a.nlon ∧ Rolled s y y' := by
  obtain ⟨N, _, hN, F⟩ := s2t_init H
  have h2 := H.twoLon
  obtain ⟨q, hq⟩ := hs
  refine ⟨N, hN, fun x x' hx hr run run' hrun hrun' => ?_⟩
  refine s2t_pair H hres F (same_refl F) rfl (s := s) (q := q) (fun t j => attended_lt) (attended_turn H.twoLon q) ?_ (by tauto) hrun hrun' hx hr
  have hd := Nat.div_mul_cancel H.dvd
  have : s * tW a = q * (a.nlon / tW a) * tW a := by
    rw [mul_assoc, hd, mul_comm q]; exact hq
  exact Nat.eq_of_mul_eq_mul_right (by omega) this

/-- In particular, if the scale factor divides the number of longitudes, all shifts by multiples of the scale factor. -/
theorem C86_longitude_scale (H : S2tBuilt env be a p qOut qIn Be act pos) (hres : a.residualPrediction = true → a.inChans = a.outChans)
    (hp : a.posEmbed = "none" ∨ a.posEmbed = "learnable lat") (hd : a.scale ∣ a.nlon) (s : ℕ) (hs : a.scale ∣ s) :
    ∃ N, S2T.Net.init env be a p = .ok N ∧ ∀ x x', HasShape x a.inChans a.nlat a.nlon → Rolled s x x' → ∀ run run', RunsCover a run → RunsCover a run' →
      ∃ y y', N.forward be run x = .ok y ∧ N.forward be run' x' = .ok y' ∧ HasShape y a.outChans a.nlat a.nlon ∧ Rolled s y y' := by
  refine C86_longitude H hres hp s ?_
  obtain ⟨t, rfl⟩ := hs
  exact ⟨t, by rw [mul_comm a.scale t, mul_assoc, Nat.mul_div_cancel' hd, mul_comm]⟩

/-! ### What the layers compute -/

/-- C86. The encoder and the convolution of the decoder are spherical convolutions with filters of the chosen basis and without bias, with the cutoffs of the
local operator network (C85). The attention layer of every block is multi-head attention of the embedding dimension to itself: every point attends to the points
of the internal grid within `1.001 theta` of it along great circles in the mode `"neighborhood"`, with `theta` the given cutoff or else
`(7 / sqrt π) π / (nlat - 1)` for the internal number of latitudes, and to all points in all other modes. -/
theorem C86_values (H : S2tBuilt env be a p qOut qIn Be act pos) :
    ∃ N k rest f, S2T.Net.init env be a p = .ok N ∧ N.blocks.length = a.numLayers ∧ a.encoderShape = k :: rest ∧
      ((a.basis = "piecewise linear" ∨ a.basis = "morlet") ∧ f = 1 / 2 ∨ a.basis = "zernike" ∧ f = Real.sqrt 2) ∧
      Convolves N.encoder Be qOut qIn a.inChans a.embedDim a.nlon (tH a) (tW a) (((k : ℝ) + 1) * f * Real.pi / ((a.nlat : ℝ) - 1)) p.encW none ∧
      Convolves N.decoder.conv Be qOut qOut a.embedDim a.outChans a.nlon a.nlat a.nlon (((k : ℝ) + 1) * f * Real.pi / ((tH a : ℝ) - 1)) p.decW none ∧
      ∀ i (h : i < N.blocks.length),
        Attends N.blocks[i].attn (given (p.block i).attn a.bias) qIn a.embedDim a.embedDim a.numHeads (tH a) (tW a) (attended a qIn) := by
  obtain ⟨N, _, hN, F⟩ := s2t_init H
  obtain ⟨k, rest, f, e4, e5, e6, e7⟩ := F.conv
  refine ⟨N, k, rest, f, hN, F.count, e4, ?_, e6, e7, fun i h => (F.block i h).fits.attn⟩
  unfold LSNO.cutoffFactor at e5
  split_ifs at e5 with c1 c2 c3
  · exact .inl ⟨.inl c1, (Option.some.inj e5).symm⟩
  · exact .inl ⟨.inr c2, (Option.some.inj e5).symm⟩
  · exact .inr ⟨c3, (Option.some.inj e5).symm⟩

/-- C86. The points attended to, spelt out. -/
theorem C86_attended (a : S2T.NetArgs) (qIn : Rule) (t j : ℕ) (z : ℕ × ℕ) :
    z ∈ attended a qIn t j ↔ z.1 < tH a ∧ z.2 < tW a ∧ (a.mode = "neighborhood" →
      geodesic (point (qIn.x z.1) (2 * Real.pi * z.2 / tW a)) (point (qIn.x t) (2 * Real.pi * j / tW a))
        ≤ (1 + 1 / 10 ^ 3) * (match a.theta with | some th => th | none => 7 / Real.sqrt Real.pi * Real.pi / ((tH a : ℝ) - 1))) := by
  have hth : thetaOf (tH a) a.theta = (match a.theta with | some th => th | none => 7 / Real.sqrt Real.pi * Real.pi / ((tH a : ℝ) - 1)) := by
    unfold thetaOf
    cases a.theta <;> rfl
  unfold attended reach
  split_ifs with h
  · rw [mem_diskPoints, hth, and_assoc]
    simp only [h, true_implies]
    rfl
  · unfold wholeGrid
    simp [h, mem_product]

/-- C86. The other layers of the blocks: the normalisations are the named ones, and the perceptron is there if it is asked for, with a hidden layer of
`⌊mlp_ratio · embed_dim⌋` channels (`embed_dim` if this is 0), the chosen activation function and no bias in the second layer. -/
theorem C86_blocks (H : S2tBuilt env be a p qOut qIn Be act pos) :
    ∃ N, S2T.Net.init env be a p = .ok N ∧ ∀ i (h : i < N.blocks.length),
      (a.norm = "none" → N.blocks[i].norm0 = .none ∧ N.blocks[i].norm1 = .none) ∧
      (a.norm = "instance_norm" → N.blocks[i].norm0 = .inst a.embedDim (p.block i).norm0G (p.block i).norm0B ∧
        N.blocks[i].norm1 = .inst a.embedDim (p.block i).norm1G (p.block i).norm1B) ∧
      (a.norm = "layer_norm" → N.blocks[i].norm0 = .layer a.embedDim (p.block i).norm0G (p.block i).norm0B ∧
        N.blocks[i].norm1 = .layer a.embedDim (p.block i).norm1G (p.block i).norm1B) ∧
      (a.useMlp = false → N.blocks[i].mlp = none) ∧
      (a.useMlp = true → ∃ hid : ℕ, (hid : ℤ) = (if pyInt (a.embedDim * a.mlpRatio) = 0 then (a.embedDim : ℤ) else pyInt (a.embedDim * a.mlpRatio)) ∧
        N.blocks[i].mlp = some ⟨⟨a.embedDim, hid, (p.block i).mlp.w1, some (p.block i).mlp.b1⟩, act, ⟨hid, a.embedDim, (p.block i).mlp.w2, none⟩⟩) := by
  obtain ⟨N, _, hN, F⟩ := s2t_init H
  refine ⟨N, hN, fun i h => ?_⟩
  have hb := F.block i h
  have h0 := hb.norm0
  have h1 := hb.norm1
  refine ⟨fun hk => ?_, fun hk => ?_, fun hk => ?_, hb.noMlp, hb.withMlp⟩ <;>
    (rw [hk] at h0 h1; simp [S2T.normInit] at h0 h1; exact ⟨h0.symm, h1.symm⟩)

/-- C86. Layer normalisation works point by point over the channels: with unit gain and no shift the results at every point have mean 0 and mean square
`v / (v + 1e-6)`, where `v` is the variance of the channels at that point. It ignores all other points. -/
theorem C86_layer_norm {C H W : ℕ} (hC : C ≠ 0) (x : Ten3 ℝ) (hx : HasShape x C H W) :
    ∃ y, (S2T.Norm.layer C (fun _ => 1) (fun _ => 0)).forward x = .ok y ∧ HasShape y C H W ∧ ∀ t < H, ∀ j < W,
      (∑ c ∈ range C, y.val c t j = 0) ∧
      ∃ m v, m = (∑ c ∈ range C, x.val c t j) / C ∧ v = (∑ c ∈ range C, (x.val c t j - m) ^ 2) / C ∧
        (∀ c < C, y.val c t j = (x.val c t j - m) / Real.sqrt (v + 1 / 10 ^ 6)) ∧ (∑ c ∈ range C, y.val c t j ^ 2) / C = v / (v + 1 / 10 ^ 6) := by
  obtain ⟨rfl, rfl, rfl⟩ := hx
  have hC' : (x.d0 : ℝ) ≠ 0 := by exact_mod_cast hC
  refine ⟨⟨x.d0, x.d1, x.d2, fun c k j =>
      (x.val c k j - chanMean x.d0 fun i => x.val i k j) / Real.sqrt ((chanVar x.d0 fun i => x.val i k j) + eps) * 1 + 0⟩,
    by simp only [S2T.Norm.forward]; rw [if_neg (by simp)], ⟨rfl, rfl, rfl⟩, fun t _ j _ => ?_⟩
  dsimp only
  have he : eps = 1 / 10 ^ 6 := by norm_num [eps]
  obtain ⟨m, hm⟩ : ∃ m, m = (∑ c ∈ range x.d0, x.val c t j) / x.d0 := ⟨_, rfl⟩
  obtain ⟨v, hv⟩ : ∃ v, v = (∑ c ∈ range x.d0, (x.val c t j - m) ^ 2) / x.d0 := ⟨_, rfl⟩
  have hm' : (chanMean x.d0 fun i => x.val i t j) = m := hm.symm
  have hv' : (chanVar x.d0 fun i => x.val i t j) = v := by
    unfold chanVar
    rw [hm', hv]; rfl
  have hv0 : 0 ≤ v := by rw [hv]; positivity
  have hp : 0 < v + 1 / 10 ^ 6 := by positivity
  have hsq := Real.sq_sqrt hp.le
  have hsum : ∑ c ∈ range x.d0, (x.val c t j - m) = 0 := by
    rw [sum_sub_distrib, sum_const, card_range, nsmul_eq_mul, hm]
    field_simp
    ring
  simp only [hm', hv', he, mul_one, add_zero]
  refine ⟨by rw [← sum_div, hsum, zero_div], m, v, hm, hv, fun _ _ => rfl, ?_⟩
  simp only [div_pow, hsq]
  rw [← sum_div, div_div, mul_comm, ← div_div, ← hv]

/-- C86. Layer normalisation with a gain and a shift of every channel. -/
theorem C86_layer_norm_affine {C H W : ℕ} (g b : ℕ → ℝ) (x : Ten3 ℝ) (hx : HasShape x C H W) :
    ∃ y, (S2T.Norm.layer C g b).forward x = .ok y ∧ HasShape y C H W ∧ ∀ c < C, ∀ t < H, ∀ j < W, ∃ m v, m = (∑ i ∈ range C, x.val i t j) / C ∧
      v = (∑ i ∈ range C, (x.val i t j - m) ^ 2) / C ∧ y.val c t j = (x.val c t j - m) / Real.sqrt (v + 1 / 10 ^ 6) * g c + b c := by
  obtain ⟨rfl, rfl, rfl⟩ := hx
  have he : eps = 1 / 10 ^ 6 := by norm_num [eps]
  refine ⟨⟨x.d0, x.d1, x.d2, fun c k j =>
      (x.val c k j - chanMean x.d0 fun i => x.val i k j) / Real.sqrt ((chanVar x.d0 fun i => x.val i k j) + eps) * g c + b c⟩,
    by simp only [S2T.Norm.forward]; rw [if_neg (by simp)], ⟨rfl, rfl, rfl⟩, fun c _ t _ j _ => ⟨_, _, rfl, rfl, ?_⟩⟩
  rw [← he]
  rfl

/-! ### The forward pass -/

/-- C86. The forward pass: encoder, addition of the position embedding (constant in longitude if it has one column), the blocks one after the other, upsampling
to the outer grid by the chosen method, and the convolution of the decoder. A block normalises its input, attends and adds the input, then normalises again, applies
the perceptron and adds what it normalised. All intermediate results exist and have the internal width and grid. -/
theorem C86_pipeline (H : S2tBuilt env be a p qOut qIn Be act pos) :
    ∃ N, S2T.Net.init env be a p = .ok N ∧ N.blocks.length = a.numLayers ∧
      (if a.upsampleSht then ∃ fwd inv, RealSHT.init env ⟨tH a, tW a, none, none, a.gridInternal, "ortho", true⟩ = .ok fwd ∧
          InverseRealSHT.init env ⟨a.nlat, a.nlon, some fwd.lmax, some fwd.mmax, a.grid, "ortho", true⟩ = .ok inv ∧ N.decoder.up = .sht fwd inv
        else ∃ R, Resample.init env.gauss env.tol env.maxiter ⟨tH a, tW a, a.nlat, a.nlon, a.gridInternal, a.grid, "bilinear"⟩ = .ok R ∧
          N.decoder.up = .resample R) ∧
      ∀ run, RunsCover a run → ∀ x, HasShape x a.inChans a.nlat a.nlon → ∃ (e : Ten3 ℝ) (u m : ℕ → Ten3 ℝ) (z y : Ten3 ℝ), LSNO.discoForward N.encoder x = .ok e ∧
        (∀ i ≤ a.numLayers, HasShape (u i) a.embedDim (tH a) (tW a)) ∧
        (∀ c < a.embedDim, ∀ t < tH a, ∀ j < tW a, (u 0).val c t j = e.val c t j + embedAt pos c t j) ∧
        (∀ i (h : i < N.blocks.length), ∃ v w v' w', HasShape (m i) a.embedDim (tH a) (tW a) ∧
          N.blocks[i].norm0.forward (u i) = .ok v ∧ N.blocks[i].attn.forward (run i) v = .ok w ∧
          (∀ c < a.embedDim, ∀ t < tH a, ∀ j < tW a, (m i).val c t j = w.val c t j + (u i).val c t j) ∧
          N.blocks[i].norm1.forward (m i) = .ok v' ∧ mlpStep N.blocks[i].mlp v' = .ok w' ∧
          ∀ c < a.embedDim, ∀ t < tH a, ∀ j < tW a, (u (i + 1)).val c t j = w'.val c t j + (m i).val c t j) ∧
        N.decoder.up.forward be (u a.numLayers) = .ok z ∧ LSNO.discoForward N.decoder.conv z = .ok y ∧ HasShape y a.outChans a.nlat a.nlon ∧
        (a.residualPrediction = false → N.forward be run x = .ok y) ∧ (a.residualPrediction = true → N.forward be run x = addEmbed x y) := by
  obtain ⟨N, _, hN, F⟩ := s2t_init H
  refine ⟨N, hN, F.count, ?_, fun run hrun x hx => ?_⟩
  · have hu := F.upVal
    unfold LSNO.Upsample.init at hu
    cases hs : a.upsampleSht with
    | true =>
      rw [if_pos hs] at hu
      rw [if_pos rfl]
      cases hf : RealSHT.init env ⟨tH a, tW a, none, none, a.gridInternal, "ortho", true⟩ with
      | error e => rw [hf] at hu; cases hu
      | ok fwd =>
        rw [hf, except_bind_ok] at hu
        cases hi : InverseRealSHT.init env ⟨a.nlat, a.nlon, some fwd.lmax, some fwd.mmax, a.grid, "ortho", true⟩ with
        | error e => rw [hi] at hu; cases hu
        | ok inv =>
          rw [hi, except_bind_ok] at hu
          exact ⟨fwd, inv, rfl, hi, (Except.ok.inj hu).symm⟩
    | false =>
      rw [if_neg (by simp [hs])] at hu
      rw [if_neg (by simp)]
      cases hR : Resample.init env.gauss env.tol env.maxiter ⟨tH a, tW a, a.nlat, a.nlon, a.gridInternal, a.grid, "bilinear"⟩ with
      | error e => rw [hR] at hu; cases hu
      | ok R => rw [hR] at hu; exact ⟨R, rfl, (Except.ok.inj hu).symm⟩
  obtain ⟨y1, _, e1, _, s1, _⟩ := LSNO.disco_roll F.encoder (s := 0) (s' := 0) (by simp) hx (rolled_refl x)
  obtain ⟨y2, e2, s2, v2⟩ := s2t_pos_val H s1
  rw [← F.pos] at e2
  have hturn := attended_turn (qIn := qIn) H.twoLon 0
  obtain ⟨y3, _, e3, _, s3, _⟩ := runBlocks_roll (s := 0) (bs := N.blocks) (bs' := N.blocks) H.twoLon (fun t j => attended_lt) hturn hrun hrun 0 rfl
    (p := fun i => given (p.block i).attn a.bias)
    (fun j h => by rw [Nat.zero_add]; exact (F.block j h).fits) (fun j h h' => by rw [Nat.zero_add]; exact ⟨rfl, (F.block j h).fits.attn⟩) s2 (rolled_refl y2)
  obtain ⟨u, u0, un, us⟩ := runBlocks_states e3
  obtain ⟨y4, _, e4, _, s4, _⟩ := LSNO.up_roll be F.up (s := 0) (s' := 0) (by simp) s3.2.1 s3.2.2 (rolled_refl y3)
  rw [s3.1] at s4
  obtain ⟨y5, _, e5, _, s5, _⟩ := LSNO.disco_roll F.decoder (s := 0) (s' := 0) (by simp) s4 (rolled_refl y4)
  have step : ∀ i (h : i < N.blocks.length), HasShape (u i) a.embedDim (tH a) (tW a) → ∃ y1 y2 y3 y4 y5,
      BlockSteps (run i) N.blocks[i] a.embedDim (tH a) (tW a) (u i) y1 y2 y3 y4 y5 (u (i + 1)) := by
    intro i h hs
    obtain ⟨y1, y2, y3, y4, y5, y, _, S, _, _⟩ := block_roll (s := 0) H.twoLon (F.block i h).fits rfl (F.block i h).fits.attn (fun t j => attended_lt) hturn (hrun i)
      (hrun i) hs (rolled_refl (u i))
    have := us i h
    rw [Nat.zero_add] at this
    have := this.symm.trans S.out
    obtain rfl := Except.ok.inj this
    exact ⟨y1, y2, y3, y4, y5, S⟩
  have hsh : ∀ i ≤ a.numLayers, HasShape (u i) a.embedDim (tH a) (tW a) := by
    intro i
    induction i with
    | zero => intro _; rw [u0]; exact s2
    | succ i ih =>
      intro hi
      obtain ⟨_, _, _, _, _, S⟩ := step i (by rw [F.count]; omega) (ih (by omega))
      exact S.shape
  have mids : ∀ i, ∃ m, ∀ h : i < N.blocks.length, ∃ v w v' w', BlockSteps (run i) N.blocks[i] a.embedDim (tH a) (tW a) (u i) v w m v' w' (u (i + 1)) := by
    intro i
    by_cases h : i < N.blocks.length
    · obtain ⟨v, w, m, v', w', S⟩ := step i h (hsh i (by rw [← F.count]; omega))
      exact ⟨m, fun _ => ⟨v, w, v', w', S⟩⟩
    · exact ⟨x, fun h' => absurd h' h⟩
  choose m hm using mids
  have hf := s2t_step (be := be) (trunk_step e1 e2 e3) e4 e5
  refine ⟨y1, u, m, y4, y5, e1, hsh, by rw [u0]; exact v2, ?_, by rw [← F.count, un]; exact e4, e5, s5, ?_, ?_⟩
  · intro i hi
    obtain ⟨v, w, v', w', S⟩ := hm i hi
    exact ⟨v, w, v', w', S.shape3, S.norm0, S.attn, S.mid, S.norm1, S.mlp, S.val⟩
  · intro hb
    rw [hf, if_neg (by rw [F.residual, hb]; simp)]
  · intro hb
    rw [hf, if_pos (by rw [F.residual, hb])]

/-- C86. Without perceptron and normalisation the second half of a block is an identity with a skip connection: the block doubles the sum of its input and what
it attends to. -/
theorem C86_no_mlp (H : S2tBuilt env be a p qOut qIn Be act pos) (hm : a.useMlp = false) (hn : a.norm = "none") :
    ∃ N, S2T.Net.init env be a p = .ok N ∧ ∀ i (h : i < N.blocks.length), ∀ run, RunsCover a run → ∀ x, HasShape x a.embedDim (tH a) (tW a) →
      ∃ w y, N.blocks[i].attn.forward (run i) x = .ok w ∧ N.blocks[i].forward (run i) x = .ok y ∧ HasShape y a.embedDim (tH a) (tW a) ∧
        ∀ c < a.embedDim, ∀ t < tH a, ∀ j < tW a, y.val c t j = 2 * (w.val c t j + x.val c t j) := by
  obtain ⟨N, hN, hB⟩ := C86_blocks H
  obtain ⟨N', _, hN', F⟩ := s2t_init H
  have := hN.symm.trans hN'
  cases this
  refine ⟨N, hN, fun i h run hrun x hx => ?_⟩
  obtain ⟨b1, _, _, b4, _⟩ := hB i h
  obtain ⟨g0, g1⟩ := b1 hn
  have g2 := b4 hm
  obtain ⟨y1, y2, y3, y4, y5, y, _, S, _, _⟩ := block_roll (s := 0) H.twoLon (F.block i h).fits rfl (F.block i h).fits.attn (fun t j => attended_lt)
    (attended_turn H.twoLon 0) (hrun i) (hrun i) hx (rolled_refl x)
  have k1 := S.norm0
  rw [g0] at k1
  have k1 : x = y1 := Except.ok.inj k1
  have k2 := S.norm1
  rw [g1] at k2
  have k2 : y3 = y4 := Except.ok.inj k2
  have k3 := S.mlp
  rw [g2] at k3
  have k3 : y4 = y5 := Except.ok.inj k3
  refine ⟨y2, y, by rw [k1]; exact S.attn, S.out, S.shape, fun c hc t ht j hj => ?_⟩
  rw [S.val c hc t ht j hj, ← k3, ← k2, S.mid c hc t ht j hj]
  ring

/-! ### Receptive fields -/

/-- A stack of local blocks sees as far as the sum of their cutoffs. -/
theorem runBlocks_local {r : Rule} {D heads H W : ℕ} {theta : ℝ} (hth : 0 ≤ theta) (h2W : 2 ≤ W) {p : ℕ → Params} {run run' : ℕ → Option CpuRun}
    (hrun : ∀ i k, run i = some k → CoversBlocks ⟨heads, D / heads, D / heads, H, W, H, W⟩ k.order)
    (hrun' : ∀ i k, run' i = some k → CoversBlocks ⟨heads, D / heads, D / heads, H, W, H, W⟩ k.order) {bs : List S2T.Block} (i : ℕ)
    (F : ∀ j (h : j < bs.length), S2T.BlockFits bs[j] (p (i + j)) r D heads H W (diskPoints r.x r.x H W W theta))
    (hi : ∀ B ∈ bs, (∀ c g b, B.norm0 ≠ .inst c g b) ∧ ∀ c g b, B.norm1 ≠ .inst c g b) {x x' : Ten3 ℝ} (hx : HasShape x D H W) (hx' : HasShape x' D H W) :
    ∃ y y', S2T.runBlocks run i bs x = .ok y ∧ S2T.runBlocks run' i bs x' = .ok y' ∧ HasShape y D H W ∧ HasShape y' D H W ∧ ∀ t < H, ∀ j < W,
      (∀ t' < H, ∀ j' < W, geodesic (point (r.x t') (lonOf W j')) (point (r.x t) (lonOf W j)) ≤ bs.length * theta → AgreeAt x x' D t' j') → AgreeAt y y' D t j := by
  induction bs generalizing i x x' with
  | nil =>
    refine ⟨x, x', rfl, rfl, hx, hx', fun t ht j hj h => h t ht j hj ?_⟩
    rw [geodesic_self]
    simp
  | cons B bs ih =>
    obtain ⟨i0, i1⟩ := hi B (by simp)
    obtain ⟨y, y', e, e', sy, sy', ha⟩ := block_local h2W (F 0 (by simp)) i0 i1 (fun t j z hz => (mem_diskPoints.1 hz).1) (hrun i) (hrun' i) hx hx'
    obtain ⟨z, z', f, f', sz, sz', hb⟩ := ih (i := i + 1)
      (fun j h => by
        have := F (j + 1) (by simpa using h)
        rw [show i + (j + 1) = i + 1 + j by omega] at this
        exact this) (fun B hB => hi B (by simp [hB])) sy sy'
    have e1 : B.forward (run i) x = .ok y := e
    have e1' : B.forward (run' i) x' = .ok y' := e'
    refine ⟨z, z', by simp only [S2T.runBlocks]; rw [e1, except_bind_ok, f], by simp only [S2T.runBlocks]; rw [e1', except_bind_ok, f'], sz, sz', ?_⟩
    intro t ht j hj hag
    refine hb t ht j hj fun t' ht' j' hj' hd => ha t' ht' j' hj' ?_ ?_
    · refine hag t' ht' j' hj' (hd.trans ?_)
      rw [List.length_cons]
      push_cast
      linarith
    · intro w hw
      obtain ⟨⟨w1, w2⟩, w3⟩ := mem_diskPoints.1 hw
      refine hag w.1 w1 w.2 w2 ((geodesic_triangle _ (r.x t') _ _ (lonOf W j') _).trans ?_)
      rw [List.length_cons]
      push_cast
      linarith

/-- C86. Receptive field. With neighbourhood attention and no instance normalisation, what reaches the decoder at a point of the internal grid depends only on the
input within a distance of `1.001` times the cutoff of the encoder plus `num_layers` times the cutoff of the attention layers, measured along great circles,
whatever happens elsewhere. The prediction is the decoder's result for it. -/
theorem C86_receptive_field (H : S2tBuilt env be a p qOut qIn Be act pos) (hm : a.mode = "neighborhood") (hn : a.norm = "none" ∨ a.norm = "layer_norm") :
    ∃ N k rest f, S2T.Net.init env be a p = .ok N ∧ a.encoderShape = k :: rest ∧
      ((a.basis = "piecewise linear" ∨ a.basis = "morlet") ∧ f = 1 / 2 ∨ a.basis = "zernike" ∧ f = Real.sqrt 2) ∧
      ∀ run run', RunsCover a run → RunsCover a run' → ∀ x x', HasShape x a.inChans a.nlat a.nlon → HasShape x' a.inChans a.nlat a.nlon →
        ∃ u u', trunk run N x = .ok u ∧ trunk run' N x' = .ok u' ∧
          (a.residualPrediction = false → N.forward be run x = N.decoder.forward be u ∧ N.forward be run' x' = N.decoder.forward be u') ∧
          ∀ t < tH a, ∀ j < tW a,
            AgreeNear x x' qOut qIn a.nlon (tW a) ((1 + 1 / 10 ^ 3) * (((k : ℝ) + 1) * f * Real.pi / ((a.nlat : ℝ) - 1) + a.numLayers * thetaOf (tH a) a.theta)) t j →
            ∀ c < a.embedDim, u.val c t j = u'.val c t j := by
  obtain ⟨h1, h2, h3, h4⟩ := s2t_sizes H
  obtain ⟨N, k, rest, f, hN, hlen, e1, e2, e3, _, _⟩ := C86_values H
  obtain ⟨N', _, hN', F⟩ := s2t_init H
  have := hN.symm.trans hN'
  cases this
  refine ⟨N, k, rest, f, hN, e1, e2, fun run run' hrun hrun' x x' hx hx' => ?_⟩
  have hf : 0 < f := by
    rcases e2 with ⟨_, rfl⟩ | ⟨_, rfl⟩
    · norm_num
    · positivity
  have hpi := Real.pi_pos
  have hp1 : (0 : ℝ) < (a.nlat : ℝ) - 1 := by
    have : (2 : ℝ) ≤ a.nlat := by exact_mod_cast h1
    linarith
  have hth := thetaOf_pos H.twoLat (H.theta hm)
  obtain ⟨y1, _, g1, _, s1, _⟩ := LSNO.disco_roll F.encoder (s := 0) (s' := 0) (by simp) hx (rolled_refl x)
  obtain ⟨y1', _, g1', _, s1', _⟩ := LSNO.disco_roll F.encoder (s := 0) (s' := 0) (by simp) hx' (rolled_refl x')
  obtain ⟨_, _, c1, c1', hag⟩ := convolves_local e3 H.encBasis (by positivity) x x' (by rw [H.sizeOut]; exact hx) (by rw [H.sizeOut]; exact hx')
  have := c1.symm.trans g1
  cases this
  have := c1'.symm.trans g1'
  cases this
  obtain ⟨y2, g2, s2, v2⟩ := s2t_pos_val H s1
  obtain ⟨y2', g2', s2', v2'⟩ := s2t_pos_val H s1'
  rw [← F.pos] at g2 g2'
  have hdisk : attended a qIn = diskPoints qIn.x qIn.x (tH a) (tW a) (tW a) ((1 + 1 / 10 ^ 3) * thetaOf (tH a) a.theta) := by
    unfold attended reach
    rw [if_pos hm]
  obtain ⟨y3, y3', g3, g3', s3, s3', hb⟩ := runBlocks_local (r := qIn) (theta := (1 + 1 / 10 ^ 3) * thetaOf (tH a) a.theta) (by positivity) H.twoLon hrun hrun'
    (p := fun i => given (p.block i).attn a.bias) (bs := N.blocks) 0
    (fun j h => by rw [Nat.zero_add]; rw [← hdisk]; exact (F.block j h).fits) (by
      intro B hB
      obtain ⟨i, hi, rfl⟩ := List.getElem_of_mem hB
      have n0 := (F.block i hi).norm0
      have n1 := (F.block i hi).norm1
      constructor <;> intro c g b hc
      · rw [hc] at n0; rcases hn with h | h <;> simp [S2T.normInit, h] at n0
      · rw [hc] at n1; rcases hn with h | h <;> simp [S2T.normInit, h] at n1) s2 s2'
  obtain ⟨y4, _, g4, _, s4, _⟩ := LSNO.up_roll be F.up (s := 0) (s' := 0) (by simp) s3.2.1 s3.2.2 (rolled_refl y3)
  rw [s3.1] at s4
  obtain ⟨y5, _, g5, _, s5, _⟩ := LSNO.disco_roll F.decoder (s := 0) (s' := 0) (by simp) s4 (rolled_refl y4)
  obtain ⟨y4', _, g4', _, s4', _⟩ := LSNO.up_roll be F.up (s := 0) (s' := 0) (by simp) s3'.2.1 s3'.2.2 (rolled_refl y3')
  rw [s3'.1] at s4'
  obtain ⟨y5', _, g5', _, s5', _⟩ := LSNO.disco_roll F.decoder (s := 0) (s' := 0) (by simp) s4' (rolled_refl y4')
  have t1 := trunk_step g1 g2 g3
  have t1' := trunk_step g1' g2' g3'
  refine ⟨y3, y3', t1, t1', fun hb => ?_, fun t ht j hj hag' => ?_⟩
  · rw [s2t_step t1 g4 g5, s2t_step t1' g4' g5', F.residual, hb]
    unfold LSNO.Decoder.forward
    rw [g4, g4', except_bind_ok, except_bind_ok, g5, g5']
    exact ⟨rfl, rfl⟩
  · refine hb t ht j hj fun t' ht' j' hj' hd => ?_
    intro c hc
    rw [v2 c hc t' ht' j' hj', v2' c hc t' ht' j' hj']
    congr 1
    refine hag t' ht' j' hj' ?_ c hc
    intro c' hc' k' hk' l' hl' hd'
    refine hag' c' hc' k' hk' l' hl' ?_
    rw [precompute_lon, precompute_lon] at hd' ⊢
    refine (geodesic_triangle _ (qIn.x t') _ _ (lonOf (tW a) j') _).trans ?_
    rw [hlen] at hd
    linarith

/-! ### The attention mode -/

theorem blocksInit_congr {ba ba' : S2T.BlockArgs} {pb : ℕ → S2T.BlockParams} (h : ∀ q, S2T.Block.init env ba q = S2T.Block.init env ba' q) (n i : ℕ) :
    S2T.blocksInit env ba pb i n = S2T.blocksInit env ba' pb i n := by
  induction n generalizing i with
  | zero => rfl
  | succ n ih => simp only [S2T.blocksInit]; rw [h, ih]

/-- C86. All modes but `"neighborhood"` mean global attention, unknown names included, and then the cutoff has no effect, whatever it is. -/
theorem C86_mode (env : Env) (be : C2R) (a : S2T.NetArgs) (p : S2T.NetParams) (m : String) (th : Option ℝ) (ha : a.mode ≠ "neighborhood") (hm : m ≠ "neighborhood") :
    S2T.Net.init env be { a with mode := m, theta := th } p = S2T.Net.init env be a p := by
  have h : ∀ h w act q, S2T.Block.init env (({ a with mode := m, theta := th } : S2T.NetArgs).blockArgs h w act) q = S2T.Block.init env (a.blockArgs h w act) q := by
    intro h w act q
    have e : S2T.Attention.init env (({ a with mode := m, theta := th } : S2T.NetArgs).blockArgs h w act) q.attn = S2T.Attention.init env (a.blockArgs h w act) q.attn := by
      unfold S2T.Attention.init
      rw [if_neg (show ¬ (({ a with mode := m, theta := th } : S2T.NetArgs).blockArgs h w act).mode = "neighborhood" from hm),
        if_neg (show ¬ (a.blockArgs h w act).mode = "neighborhood" from ha)]
      rfl
    unfold S2T.Block.init
    rw [e]
    rfl
  have h' := fun hh ww act => blocksInit_congr (env := env) (pb := p.block) (h hh ww act) a.numLayers 0
  unfold S2T.Net.init
  dsimp only
  congr 1
  funext act
  congr 1
  funext hw
  obtain ⟨hh, ww⟩ := hw
  dsimp only
  congr 1
  funext pos
  congr 1
  funext enc
  rw [h']

/-- C86. Neighbourhood attention with a cutoff that reaches the antipodes is global attention: both networks make the same predictions from the same parameters. -/
theorem C86_full (H : S2tBuilt env be a p qOut qIn Be act pos) (hres : a.residualPrediction = true → a.inChans = a.outChans) (hm : a.mode = "neighborhood")
    (t : ℝ) (ht : a.theta = some t) (hpi : Real.pi ≤ (1 + 1 / 10 ^ 3) * t) (hw : ∀ i < tH a, 0 < qIn.w i) (m : String) (th : Option ℝ) (hm' : m ≠ "neighborhood") :
    ∃ N N', S2T.Net.init env be a p = .ok N ∧ S2T.Net.init env be { a with mode := m, theta := th } p = .ok N' ∧
      ∀ run run', RunsCover a run → RunsCover a run' → ∀ x, HasShape x a.inChans a.nlat a.nlon →
        ∃ y y', N.forward be run x = .ok y ∧ N'.forward be run' x = .ok y' ∧ HasShape y a.outChans a.nlat a.nlon ∧ HasShape y' a.outChans a.nlat a.nlon ∧
          ∀ c < a.outChans, ∀ t < a.nlat, ∀ j < a.nlon, y'.val c t j = y.val c t j := by
  have H' : S2tBuilt env be { a with mode := m, theta := th } p qOut qIn Be act pos :=
    ⟨H.scale, H.act, H.pos, H.latOut, H.sizeOut, H.latIn, H.sizeIn, H.encBasis, H.encKer, H.norm, H.inChans, H.embedDim, H.hidden, H.heads, H.headsDvd,
      fun h => absurd h hm', fun _ => hw, H.twoLat, H.twoLon, H.dvd, H.le, H.up⟩
  obtain ⟨N, _, hN, F⟩ := s2t_init H
  obtain ⟨N', _, hN', F'⟩ := s2t_init H'
  have hnb : attended { a with mode := m, theta := th } qIn = attended a qIn := by
    funext i j
    unfold attended reach
    dsimp only
    rw [if_neg hm', if_pos hm, ht]
    exact (C43_full_disk _ _ _ _ _ _ hpi i j).symm
  have S : SameButAttention a p qIn N N' (attended a qIn) := by
    refine ⟨Except.ok.inj (F'.encInit.symm.trans F.encInit), F'.pos.trans F.pos.symm, Except.ok.inj (F'.decInit.symm.trans F.decInit),
      F'.count.trans F.count.symm, fun j h h' => ⟨?_, ?_⟩⟩
    · have g := F.block j h
      have g' := F'.block j h'
      have n0 : N'.blocks[j].norm0 = N.blocks[j].norm0 := Except.ok.inj (g'.norm0.symm.trans g.norm0)
      have n1 : N'.blocks[j].norm1 = N.blocks[j].norm1 := Except.ok.inj (g'.norm1.symm.trans g.norm1)
      have n2 : N'.blocks[j].mlp = N.blocks[j].mlp := Except.ok.inj (g'.mlp.symm.trans g.mlp)
      dsimp only
      rw [← n0, ← n1, ← n2]
    · have := (F'.block j h').fits.attn
      rw [hnb] at this
      exact this
  refine ⟨N, N', hN, hN', fun run run' hrun hrun' x hx => ?_⟩
  obtain ⟨y, y', e, e', sy, ry⟩ := s2t_pair H hres F S (F'.residual.trans F.residual.symm) (s := 0) (q := 0) (fun t j => attended_lt) (attended_turn H.twoLon 0)
    (by simp) (.inr (.inr rfl)) hrun hrun' hx (rolled_refl x)
  refine ⟨y, y', e, e', sy, ⟨ry.d0.trans sy.1, ry.d1.trans sy.2.1, ry.d2.trans sy.2.2⟩, fun c hc t ht j hj => ?_⟩
  rw [ry.val c (by rw [sy.1]; exact hc) t (by rw [sy.2.1]; exact ht) j (by rw [sy.2.2]; exact hj), sy.2.2, Nat.add_zero, Nat.mod_eq_of_lt hj]

/-! ### Residual prediction -/

/-- C86. Residual prediction. If input and output have the same number of channels, the prediction is the input plus what the network without the option
computes. Otherwise there is no projection: a single channel is broadcast, so that a network with one output channel returns as many channels as it is given,
and other numbers of channels make every forward pass fail. -/
theorem C86_residual (H : S2tBuilt env be a p qOut qIn Be act pos) (hr : a.residualPrediction = true) :
    ∃ N N₀, S2T.Net.init env be a p = .ok N ∧ S2T.Net.init env be { a with residualPrediction := false } p = .ok N₀ ∧
      ∀ run, RunsCover a run → ∀ x, HasShape x a.inChans a.nlat a.nlon → ∃ y₀, N₀.forward be run x = .ok y₀ ∧ HasShape y₀ a.outChans a.nlat a.nlon ∧
        (a.inChans = a.outChans → ∃ y, N.forward be run x = .ok y ∧ HasShape y a.outChans a.nlat a.nlon ∧
          ∀ c < a.outChans, ∀ t < a.nlat, ∀ j < a.nlon, y.val c t j = y₀.val c t j + x.val c t j) ∧
        (a.outChans = 1 → ∃ y, N.forward be run x = .ok y ∧ HasShape y a.inChans a.nlat a.nlon ∧
          ∀ c < a.inChans, ∀ t < a.nlat, ∀ j < a.nlon, y.val c t j = y₀.val 0 t j + x.val c t j) ∧
        (a.inChans = 1 → ∃ y, N.forward be run x = .ok y ∧ HasShape y a.outChans a.nlat a.nlon ∧
          ∀ c < a.outChans, ∀ t < a.nlat, ∀ j < a.nlon, y.val c t j = y₀.val c t j + x.val 0 t j) ∧
        (a.inChans ≠ a.outChans → a.inChans ≠ 1 → a.outChans ≠ 1 → N.forward be run x = .error .runtimeError) := by
  obtain ⟨h1, h2, h3, h4⟩ := s2t_sizes H
  obtain ⟨N, hN0, hN, F⟩ := s2t_init H
  refine ⟨N, _, hN, hN0 false, fun run hrun x hx => ?_⟩
  obtain ⟨y, _, e, _, sy, _⟩ := s2t_steps H F (same_refl F) (s := 0) (q := 0) (fun t j => attended_lt) (attended_turn H.twoLon 0) (by simp) (.inr (.inr rfl))
    hrun hrun hx (rolled_refl x)
  have hN' : N.forward be run x = addEmbed x y := by
    have := e N.residual
    rwa [if_pos (by rw [F.residual, hr])] at this
  have e0 := e false
  rw [if_neg (by simp)] at e0
  have p1 : ¬ x.d1 = 1 := by rw [hx.2.1]; omega
  have p2 : ¬ x.d2 = 1 := by rw [hx.2.2]; omega
  refine ⟨y, e0, sy, fun hc => ?_, fun hc => ?_, fun hc => ?_, fun c1 c2 c3 => ?_⟩
  · obtain ⟨z, hz, sz, vz⟩ := addEmbed_same (r := x) (x := y) (by rw [hx.1, sy.1, hc]) (hx.2.1.trans sy.2.1.symm) (hx.2.2.trans sy.2.2.symm)
    rw [sy.1, sy.2.1, sy.2.2] at sz vz
    exact ⟨z, hN'.trans hz, sz, vz⟩
  · refine ⟨_, hN'.trans (by
      unfold addEmbed
      dsimp only
      rw [sy.1, sy.2.1, sy.2.2, hx.1, hx.2.1, hx.2.2, hc, if_pos (by simp)]), ⟨by simp, by simp, by simp⟩, fun c hc' t ht j hj => ?_⟩
    dsimp only
    rw [if_pos rfl, if_neg (by omega), if_neg (by omega)]
    split_ifs with h
    · rw [show c = 0 by omega]
    · rfl
  · refine ⟨_, hN'.trans (by
      unfold addEmbed
      dsimp only
      rw [sy.1, sy.2.1, sy.2.2, hx.1, hx.2.1, hx.2.2, hc, if_pos (by simp)]), ⟨by dsimp only; split_ifs with h <;> omega, by simp, by simp⟩,
      fun c hc' t ht j hj => ?_⟩
    dsimp only
    rw [if_neg (show ¬ a.nlat = 1 by omega), if_neg (show ¬ a.nlon = 1 by omega), if_pos rfl]
    split_ifs with h
    · rw [show c = 0 by omega]
    · rfl
  · rw [hN']
    unfold addEmbed
    dsimp only
    rw [sy.1, sy.2.1, sy.2.2, hx.1, hx.2.1, hx.2.2, if_neg (by simp [c2, c3, Ne.symm c1])]

/-! ### Errors -/

theorem bind_inv' {α β : Type} {x : Except PyErr α} {f : α → Except PyErr β} {y : β} (h : x >>= f = .ok y) : ∃ z, x = .ok z ∧ f z = .ok y := by
  cases x with
  | error e => cases h
  | ok z => exact ⟨z, rfl, h⟩

/-- An encoder whose input longitudes are not a multiple of its output longitudes is not built. -/
theorem encoder_dvd {inC outC nlatIn nlonIn nlatOut nlonOut : ℕ} {shape : List ℕ} {basis gridIn gridOut : String} {w : ℕ → ℕ → ℕ → ℝ} {E : Disco.Layer ℝ}
    (h : LSNO.encoderInit env inC outC nlatIn nlonIn nlatOut nlonOut shape basis gridIn gridOut w = .ok E) : nlonOut ∣ nlonIn := by
  unfold LSNO.encoderInit at h
  obtain ⟨th, _, h⟩ := bind_inv' h
  unfold LSNO.discoInit at h
  dsimp only at h
  obtain ⟨B, _, h⟩ := bind_inv' h
  obtain ⟨⟨gs, og⟩, _, h⟩ := bind_inv' h
  dsimp only at h
  split_ifs at h with h7
  obtain ⟨es, h8, _⟩ := bind_inv' h
  obtain ⟨_, _, _, _, _, _, hdvd, _⟩ := convEntries_ok h8
  exact hdvd

/-- C86. If the number of longitudes of the internal grid does not divide that of the outer grid, no network is built. -/
theorem C86_never_built (env : Env) (be : C2R) (a : S2T.NetArgs) (p : S2T.NetParams) (hd : ¬ a.nlon / a.scale ∣ a.nlon) (N : S2T.Net) :
    S2T.Net.init env be a p ≠ .ok N := by
  intro hN
  unfold S2T.Net.init at hN
  obtain ⟨_, _, hN⟩ := bind_inv' hN
  obtain ⟨hw, hi, hN⟩ := bind_inv' hN
  unfold internalSize at hi
  split_ifs at hi
  cases hi
  dsimp only at hN
  obtain ⟨_, _, hN⟩ := bind_inv' hN
  obtain ⟨E, hE, hN⟩ := bind_inv' hN
  exact hd (encoder_dvd hE)

/-- C86. An internal grid of one latitude, as for a scale factor that is at least the number of latitudes, is never built either: the cutoff of
the decoder divides by zero. -/
theorem C86_one_latitude (env : Env) (be : C2R) (a : S2T.NetArgs) (p : S2T.NetParams) (h1 : 1 ≤ a.nlat) (hs : a.nlat ≤ a.scale) (N : S2T.Net) :
    S2T.Net.init env be a p ≠ .ok N := by
  intro hN
  have hh : tH a = 1 := by
    unfold tH
    rw [Int.ediv_eq_zero_of_lt (by omega) (by omega)]
    rfl
  unfold S2T.Net.init at hN
  have hi : internalSize a.nlat a.nlon a.scale = .ok (tH a, tW a) := by rw [internalSize, if_neg (by omega)]; rfl
  rw [hi, hh] at hN
  obtain ⟨_, _, hN⟩ := bind_inv' hN
  rw [except_bind_ok] at hN
  dsimp only at hN
  obtain ⟨_, _, hN⟩ := bind_inv' hN
  obtain ⟨_, _, hN⟩ := bind_inv' hN
  obtain ⟨_, _, hN⟩ := bind_inv' hN
  obtain ⟨_, hD, hN⟩ := bind_inv' hN
  unfold LSNO.Decoder.init at hD
  obtain ⟨_, _, hD⟩ := bind_inv' hD
  obtain ⟨_, hc, hD⟩ := bind_inv' hD
  unfold LSNO.cutoffRadius at hc
  split at hc
  · cases hc
  · split at hc
    · cases hc
    · rw [if_pos rfl] at hc; cases hc

/-- The arguments all of which have defaults, s2transformer.py 436-460: with the default scale factor 3 the internal grid has 85 longitudes, which do not divide 256. -/
noncomputable def s2tDefault : S2T.NetArgs :=
  ⟨128, 256, "equiangular", "legendre-gauss", 3, 3, 3, 256, 4, "gelu", [3, 3], "morlet", 1, true, 2, "none", false, "spectral", false, "neighborhood", false, none⟩

/-- The spectral position embedding is built on equiangular and Gauss grids if the truncation has enough harmonics. -/
theorem spectral_ready (env : Env) (be : C2R) {H W D L : ℕ} {grid : String} (hg : grid = "equiangular" ∨ (grid = "legendre-gauss" ∧ IsGaussRule (env.gauss H) H))
    (hH : 2 ≤ H) (hW : 1 ≤ W) (hL : sizes H W none none grid = .ok (L, L)) (hD : D ≤ L ^ 2) (lat : ℕ → ℕ → ℕ → ℝ) :
    ∃ pos, posInit env be "spectral" H W D grid lat = .ok pos := by
  obtain ⟨r, d, L', a1, a2, a3, a4, a5, a6⟩ := default_grid env ⟨H, W, none, none, grid, "ortho", true⟩ hg hH hW rfl rfl
  have := hL.symm.trans a3
  cases this
  obtain ⟨e, he, _⟩ := C73_spectral env be H W none none grid r d L D ⟨by omega, a1, a2, a3, a4, a5, a6⟩ hD
  exact ⟨_, by rw [posInit, if_neg (by decide), if_pos rfl, he]; rfl⟩

/-- C86. A block of its own on a grid of one latitude, with neighbourhood attention and no cutoff given: `ZeroDivisionError`. -/
theorem C86_block_one_latitude (env : Env) (a : S2T.BlockArgs) (p : S2T.BlockParams) (h1 : a.nlatIn = 1) (hm : a.mode = "neighborhood") (ht : a.theta = none)
    (hn : a.norm = "layer_norm" ∨ a.norm = "instance_norm" ∨ a.norm = "none") : S2T.Block.init env a p = .error .zeroDivision := by
  have hN : ∀ c g b, ∃ N, S2T.normInit a.norm c g b = .ok N := by
    intro c g b
    rcases hn with h | h | h <;> rw [h] <;> exact ⟨_, rfl⟩
  obtain ⟨N0, e0⟩ := hN a.inC p.norm0G p.norm0B
  obtain ⟨N1, e1⟩ := hN a.outC p.norm1G p.norm1B
  have hA : S2T.Attention.init env a p.attn = .error .zeroDivision := by
    unfold S2T.Attention.init
    rw [if_pos hm, ht]
    unfold S2T.cutoff
    dsimp only
    rw [if_pos h1]
    rfl
  unfold S2T.Block.init
  rw [e0, e1, hA]
  rfl

/-- C86. With its default arguments the network cannot be built: the constructor raises a `ValueError` for all parameters. -/
theorem C86_default (env : Env) (be : C2R) (p : S2T.NetParams) (hgauss : IsGaussRule (env.gauss 43) 43) : S2T.Net.init env be s2tDefault p = .error .valueError := by
  have h1 : activation "gelu" = .ok gelu := by simp [activation]
  have h2 : internalSize 128 256 3 = .ok (43, 85) := rfl
  obtain ⟨pos, h3⟩ : ∃ pos, posInit env be "spectral" 43 85 256 "legendre-gauss" p.posLat = .ok pos :=
    spectral_ready env be (L := 43) (.inr ⟨rfl, hgauss⟩) (by norm_num) (by norm_num) (by rfl) (by norm_num) _
  have h4 : LSNO.cutoffRadius 128 [3, 3] "morlet" = .ok (((3 : ℕ) + 1 : ℝ) * (1 / 2) * Real.pi / ((128 : ℕ) - 1)) := by
    simp [LSNO.cutoffRadius, LSNO.cutoffFactor]
  obtain ⟨B, h5⟩ : ∃ B, LSNO.getBasis [3, 3] "morlet" = .ok B := by
    simp [LSNO.getBasis, harmonicMask, harmonicKernelSize, Except.map]
  have h6 : channelSplit 3 256 1 = .ok (3, 256) := rfl
  unfold S2T.Net.init s2tDefault
  dsimp only
  rw [h1, except_bind_ok, h2, except_bind_ok]
  dsimp only
  rw [h3, except_bind_ok]
  unfold LSNO.encoderInit
  rw [h4, except_bind_ok]
  unfold LSNO.discoInit
  dsimp only
  rw [h5, except_bind_ok, h6, except_bind_ok]
  dsimp only
  rw [if_neg (by norm_num), (C37_error _ _ _ _ _ _ _ _ _ _ _ _).1 (by norm_num) (by norm_num)]
  rfl

theorem nbhd_inv {A : LayerArgs} {t : ℝ} {q : Params} {L : Nbhd} (h : Nbhd.init env.gauss env.tol env.maxiter A (some t) q = .ok L) :
    ¬ (A.nlonIn = 0 ∨ A.nlonOut = 0) ∧ (A.nlonIn % A.nlonOut = 0 ∨ A.upsample = true) ∧ ¬ t ≤ 0 ∧
      (∃ r, precomputeLatitudes env.gauss env.tol env.maxiter A.nlatIn A.gridIn = .ok r) ∧ ∃ es, precompute env.gauss env.tol env.maxiter (nbhdPre A t) = .ok es := by
  unfold Nbhd.init nbhdCutoff at h
  by_cases c1 : A.nlonIn = 0 ∨ A.nlonOut = 0
  · rw [if_pos c1] at h; cases h
  by_cases c2 : A.nlonIn % A.nlonOut = 0 ∨ A.upsample = true
  swap
  · rw [if_neg c1, if_pos c2] at h; cases h
  rw [if_neg c1, if_neg (not_not.2 c2)] at h
  dsimp only at h
  by_cases c3 : t ≤ 0
  · rw [if_pos c3] at h; cases h
  rw [if_neg c3] at h
  cases g1 : precomputeLatitudes env.gauss env.tol env.maxiter A.nlatIn A.gridIn with
  | error e => rw [g1] at h; cases h
  | ok r =>
    rw [g1] at h
    dsimp only at h
    cases g2 : precompute env.gauss env.tol env.maxiter (nbhdPre A t) with
    | error e => rw [g2] at h; cases h
    | ok es => exact ⟨c1, c2, c3, ⟨r, rfl⟩, es, rfl⟩

theorem nbhd_heads {A : LayerArgs} {t : ℝ} (h : ¬ (A.nlonIn = 0 ∨ A.nlonOut = 0) ∧ (A.nlonIn % A.nlonOut = 0 ∨ A.upsample = true) ∧ ¬ t ≤ 0 ∧
      (∃ r, precomputeLatitudes env.gauss env.tol env.maxiter A.nlatIn A.gridIn = .ok r) ∧ ∃ es, precompute env.gauss env.tol env.maxiter (nbhdPre A t) = .ok es)
    (q : Params) {e : PyErr} (he : headChecks A = .error e) : Nbhd.init env.gauss env.tol env.maxiter A (some t) q = .error e := by
  obtain ⟨c1, c2, c3, ⟨r, g1⟩, ⟨es, ro⟩, g2⟩ := h
  unfold Nbhd.init nbhdCutoff
  rw [if_neg c1, if_neg (not_not.2 c2)]
  dsimp only
  rw [if_neg c3, g1]
  dsimp only
  rw [g2]
  dsimp only
  rw [he]

theorem global_inv {A : LayerArgs} {q : Params} {L : Global} (h : Global.init env.gauss env.tol env.maxiter A q = .ok L) :
    A.nlonOut ≠ 0 ∧ A.nlonIn % A.nlonOut = 0 ∧ ∃ r, precomputeLatitudes env.gauss env.tol env.maxiter A.nlatIn A.gridIn = .ok r := by
  unfold Global.init at h
  by_cases c1 : A.nlonOut = 0
  · rw [if_pos c1] at h; cases h
  by_cases c2 : A.nlonIn % A.nlonOut = 0
  swap
  · rw [if_neg c1, if_pos c2] at h; cases h
  rw [if_neg c1, if_neg (not_not.2 c2)] at h
  cases g1 : precomputeLatitudes env.gauss env.tol env.maxiter A.nlatIn A.gridIn with
  | error e => rw [g1] at h; cases h
  | ok r => exact ⟨c1, c2, r, rfl⟩

theorem global_heads {A : LayerArgs} (h : A.nlonOut ≠ 0 ∧ A.nlonIn % A.nlonOut = 0 ∧ ∃ r, precomputeLatitudes env.gauss env.tol env.maxiter A.nlatIn A.gridIn = .ok r)
    (q : Params) {e : PyErr} (he : headChecks A = .error e) : Global.init env.gauss env.tol env.maxiter A q = .error e := by
  obtain ⟨c1, c2, r, g1⟩ := h
  unfold Global.init
  rw [if_neg c1, if_neg (not_not.2 c2), g1]
  dsimp only
  rw [he]

/-- The checks of the heads come after everything else that can fail in an attention layer. -/
theorem attention_heads {ba : S2T.BlockArgs} {h : ℕ} {q : S2T.AttnParams} {T : S2T.Attention} (hT : S2T.Attention.init env { ba with heads := h } q = .ok T) {e : PyErr}
    (he : headChecks ba.layerArgs = .error e) : S2T.Attention.init env ba q = .error e := by
  unfold S2T.Attention.init at hT ⊢
  dsimp only at hT
  split_ifs at hT ⊢ with hm
  · obtain ⟨th, h1, hT⟩ := bind_inv' hT
    obtain ⟨L, h2, _⟩ := bind_inv' hT
    have h3 := nbhd_inv h2
    rw [h1, except_bind_ok, nbhd_heads (A := ba.layerArgs) h3 _ he]
    rfl
  · obtain ⟨L, h2, _⟩ := bind_inv' hT
    have h3 := global_inv h2
    rw [global_heads (A := ba.layerArgs) h3 _ he]
    rfl

/-- C86 (error branches). Unknown names of the activation function and of the position embedding raise a `ValueError`, the scale factor 0 a
`ZeroDivisionError`. The harmonic, Fourier-Bessel and all other filters that no cutoff is defined for raise a `KeyError`, an outer grid of one latitude a
`ZeroDivisionError`. If there are blocks, an unknown normalisation raises a `NotImplementedError`, no heads a `ZeroDivisionError`, and a number of heads that does not
divide the embedding dimension or, for neighbourhood attention, a cutoff that is not positive a `ValueError`. -/
theorem C86_errors (env : Env) (be : C2R) (a : S2T.NetArgs) (p : S2T.NetParams) :
    (a.act ≠ "relu" → a.act ≠ "gelu" → a.act ≠ "identity" → S2T.Net.init env be a p = .error .valueError) ∧
    (∀ act, activation a.act = .ok act → a.scale = 0 → S2T.Net.init env be a p = .error .zeroDivision) ∧
    (∀ act, activation a.act = .ok act → a.scale ≠ 0 → a.posEmbed ∉ ["sequence", "spectral", "learnable lat", "learnable latlon", "none"] →
      S2T.Net.init env be a p = .error .valueError) ∧
    (∀ act pos, activation a.act = .ok act → a.scale ≠ 0 → posInit env be a.posEmbed (tH a) (tW a) a.embedDim a.gridInternal p.posLat = .ok pos →
      a.encoderShape ≠ [] →
      (a.basis ∉ ["piecewise linear", "morlet", "zernike"] → S2T.Net.init env be a p = .error .keyError) ∧
      (a.basis ∈ ["piecewise linear", "morlet", "zernike"] → a.nlat = 1 → S2T.Net.init env be a p = .error .zeroDivision)) ∧
    (∀ qOut qIn Be act pos, S2tBuilt env be { a with norm := "none" } p qOut qIn Be act pos → 0 < a.numLayers →
      a.norm ∉ ["layer_norm", "instance_norm", "none"] → S2T.Net.init env be a p = .error .notImplemented) ∧
    (∀ h qOut qIn Be act pos, S2tBuilt env be { a with numHeads := h } p qOut qIn Be act pos → 0 < a.numLayers →
      (a.numHeads = 0 → S2T.Net.init env be a p = .error .zeroDivision) ∧
      (a.numHeads ≠ 0 → ¬ a.numHeads ∣ a.embedDim → S2T.Net.init env be a p = .error .valueError)) ∧
    (∀ qOut qIn Be act pos, S2tBuilt env be { a with theta := none } p qOut qIn Be act pos → 0 < a.numLayers → a.mode = "neighborhood" →
      ∀ t, a.theta = some t → t ≤ 0 → S2T.Net.init env be a p = .error .valueError) := by
  have key : ∀ act pos, activation a.act = .ok act → a.scale ≠ 0 → posInit env be a.posEmbed (tH a) (tW a) a.embedDim a.gridInternal p.posLat = .ok pos →
      ∀ e, LSNO.cutoffRadius a.nlat a.encoderShape a.basis = .error e → S2T.Net.init env be a p = .error e := by
    intro act pos h1 h2 h3 e h4
    have hi : internalSize a.nlat a.nlon a.scale = .ok (tH a, tW a) := by rw [internalSize, if_neg h2]; rfl
    unfold S2T.Net.init
    rw [h1, except_bind_ok, hi, except_bind_ok]
    dsimp only
    rw [h3, except_bind_ok, LSNO.encoderInit, h4]
    rfl
  -- up to the first block
  have toBlock : ∀ nm h th qOut qIn Be act pos, S2tBuilt env be { a with norm := nm, numHeads := h, theta := th } p qOut qIn Be act pos → 0 < a.numLayers →
      ∀ e, S2T.Block.init env (a.blockArgs (tH a) (tW a) act) (p.block 0) = .error e → S2T.Net.init env be a p = .error e := by
    intro nm h th qOut qIn Be act pos H hn e he
    obtain ⟨_, _, _, E, _, _, e1, _⟩ := s2t_encoder H
    have hi : internalSize a.nlat a.nlon a.scale = .ok (tH a, tW a) := by rw [internalSize, if_neg H.scale]; rfl
    have hact : activation a.act = .ok act := H.act
    have hpos : posInit env be a.posEmbed (tH a) (tW a) a.embedDim a.gridInternal p.posLat = .ok pos := H.pos
    have henc : LSNO.encoderInit env a.inChans a.embedDim a.nlat a.nlon (tH a) (tW a) a.encoderShape a.basis a.grid a.gridInternal p.encW = .ok E := e1
    unfold S2T.Net.init
    rw [hact, except_bind_ok, hi, except_bind_ok]
    dsimp only
    rw [hpos, except_bind_ok, henc, except_bind_ok]
    obtain ⟨n, hn'⟩ : ∃ n, a.numLayers = n + 1 := ⟨a.numLayers - 1, by omega⟩
    rw [hn']
    simp only [S2T.blocksInit]
    rw [he]
    rfl
  have attnErr : ∀ act e, (a.norm = "layer_norm" ∨ a.norm = "instance_norm" ∨ a.norm = "none") →
      S2T.Attention.init env (a.blockArgs (tH a) (tW a) act) (p.block 0).attn = .error e →
      S2T.Block.init env (a.blockArgs (tH a) (tW a) act) (p.block 0) = .error e := by
    intro act e hn he
    obtain ⟨n0, e0, _⟩ := snorm_ready hn a.embedDim (p.block 0).norm0G (p.block 0).norm0B
    obtain ⟨n1, e1, _⟩ := snorm_ready hn a.embedDim (p.block 0).norm1G (p.block 0).norm1B
    unfold S2T.Block.init
    change (S2T.normInit a.norm a.embedDim (p.block 0).norm0G (p.block 0).norm0B >>= _) = _
    rw [e0, except_bind_ok]
    change (S2T.normInit a.norm a.embedDim (p.block 0).norm1G (p.block 0).norm1B >>= _) = _
    rw [e1, except_bind_ok, he]
    rfl
  refine ⟨?_, ?_, ?_, ?_, ?_, ?_, ?_⟩
  · intro h1 h2 h3
    have : activation a.act = .error .valueError := by simp [activation, h1, h2, h3]
    unfold S2T.Net.init
    rw [this]; rfl
  · intro act h1 h2
    unfold S2T.Net.init
    rw [h1, except_bind_ok, internalSize, if_pos h2]; rfl
  · intro act h1 h2 h3
    have : ∀ h w, posInit env be a.posEmbed h w a.embedDim a.gridInternal p.posLat = .error .valueError := by
      simp only [List.mem_cons, List.not_mem_nil, or_false, not_or] at h3
      simp [posInit, h3]
    unfold S2T.Net.init
    rw [h1, except_bind_ok, internalSize, if_neg h2, except_bind_ok]
    dsimp only
    rw [this]; rfl
  · intro act pos h1 h2 h3 h4
    obtain ⟨k, rest, hk⟩ := List.exists_cons_of_ne_nil h4
    refine ⟨fun h5 => key act pos h1 h2 h3 _ ?_, fun h5 h6 => key act pos h1 h2 h3 _ ?_⟩
    · simp only [List.mem_cons, List.not_mem_nil, or_false, not_or] at h5
      simp [hk, LSNO.cutoffRadius, LSNO.cutoffFactor, h5]
    · simp only [List.mem_cons, List.not_mem_nil, or_false] at h5
      rcases h5 with h5 | h5 | h5 <;> simp [hk, LSNO.cutoffRadius, LSNO.cutoffFactor, h5, h6]
  · intro qOut qIn Be act pos H hn hk
    refine toBlock "none" a.numHeads a.theta qOut qIn Be act pos H hn _ ?_
    have e0 : S2T.normInit a.norm a.embedDim (p.block 0).norm0G (p.block 0).norm0B = .error .notImplemented := by
      simp only [List.mem_cons, List.not_mem_nil, or_false, not_or] at hk
      simp [S2T.normInit, hk]
    unfold S2T.Block.init
    change (S2T.normInit a.norm a.embedDim (p.block 0).norm0G (p.block 0).norm0B >>= _) = _
    rw [e0]
    rfl
  · intro h qOut qIn Be act pos H hn
    have W2 : 2 ≤ tW a := H.twoLon
    obtain ⟨T, hT, _⟩ := attn_ready (env := env) (a := ({ a with numHeads := h } : S2T.NetArgs).blockArgs (tH a) (tW a) act) (r := qIn)
      ⟨rfl, rfl, rfl, H.twoLat, by show 0 < tW a; omega, H.latIn, H.sizeIn, H.embedDim, H.embedDim, H.heads, H.headsDvd, H.headsDvd, H.theta, H.wpos⟩ (p.block 0).attn
    have main : ∀ e, headChecks (a.blockArgs (tH a) (tW a) act).layerArgs = .error e → S2T.Net.init env be a p = .error e := fun e he =>
      toBlock a.norm h a.theta qOut qIn Be act pos H hn _ (attnErr act e H.norm (attention_heads (ba := a.blockArgs (tH a) (tW a) act) (h := h) hT he))
    refine ⟨fun h0 => main _ ?_, fun h0 hd => main _ ?_⟩
    · unfold headChecks
      rw [if_pos (show (a.blockArgs (tH a) (tW a) act).layerArgs.numHeads = 0 from h0)]
    · unfold headChecks
      rw [if_neg (show ¬ (a.blockArgs (tH a) (tW a) act).layerArgs.numHeads = 0 from h0),
        if_pos (show (a.blockArgs (tH a) (tW a) act).layerArgs.kC % (a.blockArgs (tH a) (tW a) act).layerArgs.numHeads ≠ 0 from
          fun hz => hd (Nat.dvd_of_mod_eq_zero hz))]
  · intro qOut qIn Be act pos H hn hm t ht h0
    have W2 : 2 ≤ tW a := H.twoLon
    refine toBlock a.norm a.numHeads none qOut qIn Be act pos H hn _ (attnErr act _ H.norm ?_)
    unfold S2T.Attention.init
    rw [if_pos (show (a.blockArgs (tH a) (tW a) act).mode = "neighborhood" from hm)]
    change (S2T.cutoff (tH a) a.theta >>= _) = _
    rw [ht]
    unfold S2T.cutoff
    dsimp only
    rw [except_bind_ok]
    have : Nbhd.init env.gauss env.tol env.maxiter (a.blockArgs (tH a) (tW a) act).layerArgs (some t) ((p.block 0).attn.toParams (a.blockArgs (tH a) (tW a) act).bias)
        = .error .valueError := by
      unfold Nbhd.init
      rw [if_neg (show ¬ ((a.blockArgs (tH a) (tW a) act).layerArgs.nlonIn = 0 ∨ (a.blockArgs (tH a) (tW a) act).layerArgs.nlonOut = 0) from by
          show ¬ (tW a = 0 ∨ tW a = 0)
          omega),
        if_neg (not_not.2 (Or.inl (show (a.blockArgs (tH a) (tW a) act).layerArgs.nlonIn % (a.blockArgs (tH a) (tW a) act).layerArgs.nlonOut = 0 from Nat.mod_self (tW a))))]
      unfold nbhdCutoff
      dsimp only
      rw [if_pos h0]
    rw [this]
    rfl

/-! ### The hypotheses can be met -/

/-- Networks on equiangular and Gauss grids are built as soon as the sizes, the heads and the filters fit, for both kinds of attention and all position embeddings. -/
theorem C86_built (env : Env) (be : C2R) (a : S2T.NetArgs) (p : S2T.NetParams) (hgauss : ∀ n, 1 ≤ n → IsGaussRule (env.gauss n) n) (hit : 1 ≤ env.maxiter)
    (hg : a.grid = "equiangular" ∨ a.grid = "legendre-gauss") (hg' : a.gridInternal = "equiangular" ∨ a.gridInternal = "legendre-gauss")
    (hs : 0 < a.scale) (hlat : 2 ≤ tH a) (hlon : 2 ≤ tW a) (hd : tW a ∣ a.nlon) (hle : a.nlat ≤ a.nlon) (hnlat : 2 ≤ a.nlat)
    (hact : a.act = "relu" ∨ a.act = "gelu" ∨ a.act = "identity")
    (hpos : a.posEmbed ∈ ["none", "learnable lat", "learnable latlon", "sequence"] ∨
      a.posEmbed = "spectral" ∧ ∃ L, sizes (tH a) (tW a) none none a.gridInternal = .ok (L, L) ∧ a.embedDim ≤ L ^ 2)
    (hn : a.norm = "layer_norm" ∨ a.norm = "instance_norm" ∨ a.norm = "none") (hi : a.inChans ≠ 0) (he : a.embedDim ≠ 0) (hr : 0 ≤ a.mlpRatio)
    (hh : a.numHeads ≠ 0) (hhd : a.numHeads ∣ a.embedDim) (hth : a.theta = none ∨ ∃ t, a.theta = some t ∧ 0 < t) (Be : Basis)
    (hBe : LSNO.getBasis a.encoderShape a.basis = .ok Be) (hKe : 0 < Be.kernelSize) :
    ∃ qOut qIn act pos, S2tBuilt env be a p qOut qIn Be act pos ∧ ∀ i < tH a, 0 < qIn.w i := by
  have hlonO : 1 ≤ a.nlon := by omega
  have named : ∀ n grid, 2 ≤ n → (grid = "equiangular" ∨ grid = "legendre-gauss") →
      ∃ r, precomputeLatitudes env.gauss env.tol env.maxiter n grid = .ok r ∧ r.n = n ∧ LatGrid n r.x := by
    intro n grid h2 h
    refine latGrid_named _ _ _ _ _ ?_
    rcases h with h | h
    · exact .inl ⟨h2, .inl h⟩
    · exact .inr ⟨by omega, h, hgauss n (by omega)⟩
  have rule : ∀ n m grid, 2 ≤ n → 1 ≤ m → (grid = "equiangular" ∨ grid = "legendre-gauss") →
      ∃ r L, gridRule env.gauss env.tol env.maxiter n grid = .ok r ∧ 0 < L ∧ sizes n m none none grid = .ok (L, L) := by
    intro n m grid h2 h1 h
    obtain ⟨r, d, L, a1, _, a2, a3, _⟩ := default_grid env ⟨n, m, none, none, grid, "ortho", true⟩
      (h.imp id fun h => ⟨h, hgauss n (by omega)⟩) h2 h1 rfl rfl
    exact ⟨r, L, a1, a3, a2⟩
  obtain ⟨qOut, o1, o2, o3⟩ := named a.nlat a.grid hnlat hg
  obtain ⟨qIn, i1, i2, i3⟩ := named (tH a) a.gridInternal hlat hg'
  obtain ⟨rOut, _, r1, _⟩ := rule a.nlat a.nlon a.grid hnlat hlonO hg
  obtain ⟨rIn, M, r2, hM, hsz⟩ := rule (tH a) (tW a) a.gridInternal hlat (by omega) hg'
  obtain ⟨act, h3⟩ : ∃ act, activation a.act = .ok act := by
    rcases hact with h | h | h <;> simp [activation, h]
  obtain ⟨pos, h4⟩ : ∃ pos, posInit env be a.posEmbed (tH a) (tW a) a.embedDim a.gridInternal p.posLat = .ok pos := by
    rcases hpos with h | ⟨h, L, h5, h6⟩
    · simp only [List.mem_cons, List.not_mem_nil, or_false] at h
      rcases h with h | h | h | h <;> simp [posInit, h, learnableEmbed, Except.map]
    · rw [h]
      exact spectral_ready env be (hg'.imp id fun h => ⟨h, hgauss _ (by omega)⟩) hlat (by omega) h5 h6 _
  have hw : ∀ i < tH a, 0 < qIn.w i := by
    have := C06_latitude_weights_pos env.gauss env.tol env.maxiter (tH a) a.gridInternal qIn hit (fun _ => hgauss _ (by omega)) i1
    rwa [i2] at this
  refine ⟨qOut, qIn, act, pos, ⟨by omega, h3, h4, o1, o2, i1, i2, hBe, hKe, hn, hi, he, fun _ => ?_, hh, hhd, fun _ t ht => ?_, fun _ => hw, hlat, hlon, hd, hle, ?_⟩, hw⟩
  · have : (0 : ℝ) ≤ a.embedDim * a.mlpRatio := mul_nonneg (Nat.cast_nonneg _) hr
    rw [pyInt, if_pos this]
    exact Int.floor_nonneg.2 this
  · rcases hth with h | ⟨t', h, h0⟩
    · rw [h] at ht; cases ht
    · rw [h] at ht; cases ht; exact h0
  · split_ifs
    · exact ⟨⟨rIn, rOut, r2, r1⟩, M, hM, hsz⟩
    · exact ⟨o3, i3⟩

/-- The arguments of the network of the docstring, s2transformer.py 422-429, with any attention mode, number of heads and cutoff. -/
noncomputable def s2tDoc (mode : String) (heads : ℕ) (sht : Bool) (theta : Option ℝ) : S2T.NetArgs :=
  ⟨128, 256, "equiangular", "legendre-gauss", 4, 2, 2, 16, 4, "gelu", [3, 3], "morlet", heads, true, 2, "none", false, "spectral", sht, mode, false, theta⟩

/-- It is built, with 32 × 64 internal points and the spectral position embedding, for no cutoff as in the docstring and, say, the cutoff `π` of `C86_full`. -/
example (env : Env) (be : C2R) (p : S2T.NetParams) (hgauss : ∀ n, 1 ≤ n → IsGaussRule (env.gauss n) n) (hit : 1 ≤ env.maxiter) (mode : String) (heads : ℕ)
    (hh : heads ≠ 0) (hd : heads ∣ 16) (sht : Bool) (theta : Option ℝ) (hth : theta = none ∨ theta = some Real.pi) :
    ∃ qOut qIn Be act pos, S2tBuilt env be (s2tDoc mode heads sht theta) p qOut qIn Be act pos := by
  have hB : LSNO.getBasis [3, 3] "morlet" = .ok ⟨9, (List.replicate 9 false).set 0 true, harmonicVal 3 none 1⟩ := by
    simp [LSNO.getBasis, harmonicMask, harmonicKernelSize, Except.map]
  have eH : tH (s2tDoc mode heads sht theta) = 32 := by norm_num [tH, s2tDoc]; rfl
  have eW : tW (s2tDoc mode heads sht theta) = 64 := by norm_num [tW, s2tDoc]
  obtain ⟨qOut, qIn, act, pos, h, _⟩ := C86_built env be (s2tDoc mode heads sht theta) p hgauss hit
    (.inl rfl) (.inr rfl) (by norm_num [s2tDoc]) (by rw [eH]; norm_num) (by rw [eW]; norm_num) (by rw [eW, s2tDoc]; norm_num) (by norm_num [s2tDoc])
    (by norm_num [s2tDoc]) (.inr (.inl rfl)) (.inr ⟨rfl, 32, by rw [eH, eW]; rfl, by norm_num [s2tDoc]⟩) (.inr (.inr rfl)) (by norm_num [s2tDoc])
    (by norm_num [s2tDoc]) (by norm_num [s2tDoc]) hh hd (hth.imp id fun h => ⟨_, h, Real.pi_pos⟩) _ hB (by decide)
  exact ⟨qOut, qIn, _, act, pos, h⟩
/-- All kernels are covered: the reference kernel, and the optimised one that visits every row and block of columns of every head. -/
example (a : S2T.NetArgs) : RunsCover a (fun _ => none) := fun _ _ h => by cases h
example (a : S2T.NetArgs) (r : CpuRun) (hr : r.order = (List.range a.numHeads).flatMap fun b => (List.range (tH a)).flatMap fun h => (List.range (tW a)).map fun w => (b, h, w)) :
    RunsCover a (fun _ => some r) := by
  intro i k hk b hb ho hho bw hbw
  cases hk
  rw [hr]
  simp only [List.mem_flatMap, List.mem_map, List.mem_range]
  have hbw' : 64 * bw < tW a := hbw
  exact ⟨b, hb, ho, hho, bw, by omega, rfl⟩

end
end Verif.Props
