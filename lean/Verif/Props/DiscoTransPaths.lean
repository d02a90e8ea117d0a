import Verif.Lemmas.DiscoTransPaths
/-!
C98: the transposed DISCO layer on both of its execution paths and on both kinds of device: output, gradients, accepted types and accepted
shapes.
-/
namespace Verif.Props
open Verif Verif.Dist Verif.Spec Verif.Disco Finset

variable {R : Type} [CommSemiring R]

/-- The convolution whose transpose the layer applies to inputs with `W` longitudes: it leads from the output grid to the input grid. -/
def convOf (L : Layer R) (W : ℕ) : Layer R := { L with nlatIn := L.nlatOut, nlonIn := L.nlonOut, nlatOut := L.nlatIn, nlonOut := W }

/-- A transposed layer whose filter entries are those of `taps`, listed as the optimized path needs them. -/
structure TransOf (L : Layer R) (taps : List (Tap R)) : Prop where
  entries : L.entries = taps.map (encode L.nlonOut)
  fits : Fits taps L.kernelSize L.nlatIn L.nlatOut L.nlonOut
  nlonOut : 0 < L.nlonOut
  nonempty : taps ≠ []
  rows : RowSorted (taps.map (encode L.nlonOut))
  noCollision : NoCollision L.kernelSize (taps.map (encode L.nlonOut))

/-- The device is the CPU or the GPU under any schedule, for inputs with `W` longitudes; on the GPU the filter lists latitudes in order and the
launch has between 1 and 65535 planes. -/
structure TDevOk (gpu : Bool) (dev : ℕ → Device R) (L : Layer R) (taps : List (Tap R)) (W planes : ℕ) : Prop where
  dev : ∀ b, LegalDevice gpu (convOf L W) (dev b)
  lat : gpu = true → LatSorted L.nlonOut (taps.map (encode L.nlonOut))
  grid : gpu = true → 0 < planes ∧ planes ≤ 65535

/-- The types of input and weight are accepted: equal without autocast; under autocast both or neither in double precision. -/
def TransTypesOk (c : TCall R) : Prop :=
  match c.ac with
  | none => c.xdt = c.wdt
  | some _ => (c.xdt = .f64 ↔ c.wdt = .f64)

/-- The type of the contraction: that of the input, or the autocast type; the reference keeps double precision under autocast. -/
def transDt (c : TCall R) (optimized : Bool) : KDtype :=
  match c.ac with
  | none => c.xdt
  | some a => if c.xdt = .f64 ∧ optimized = false then .f64 else a

/-- The type of the output: the bias is added last. -/
def transOutType (c : TCall R) (L : Layer R) (optimized : Bool) : KDtype :=
  if L.bias.isSome then promoteDt (transDt c optimized) c.bdt else transDt c optimized

/-- The channel groups of a layer. -/
def layerGroups (L : Layer R) : Groups := ⟨L.groups, L.groupsize, L.outPerGroup⟩

/-- Item `b`, channel `c` of a batch with `C` channels. -/
def batchOf (x : Ten R) (C b c : ℕ) : ℕ → ℕ → R := x.val (b * C + c)

omit [CommSemiring R] in
theorem trans_types (c : TCall R) (hac : HalfAutocast c.ac) (optimized : Bool) :
    (TransTypesOk c → ∃ d, einsumDt c.ac c.xdt c.wdt = .ok d ∧ c.opDt optimized d = transDt c optimized) ∧
      (¬ TransTypesOk c → einsumDt c.ac c.xdt c.wdt = .error .runtimeError) := by
  obtain ⟨gpu, ac, xdt, wdt, bdt, dev, bey⟩ := c
  unfold TransTypesOk einsumDt transDt TCall.opDt
  dsimp only
  rcases hac with h | h | h <;> dsimp only at h <;> subst h <;> cases xdt <;> cases wdt <;> cases optimized <;> simp [operandDt]

section
variable {junk : ℕ → Entry R} {L : Layer R} {taps : List (Tap R)} {A : Csr R}

omit [CommSemiring R] in
theorem fusedOf_conv (hL : TransOf L taps) (W : ℕ) (hW : 0 < W) (hd : W ∣ L.nlonOut) : FusedOf (convOf L W) taps :=
  ⟨hL.entries, hL.fits, hW, hL.nlonOut, hd, hL.nonempty, hL.rows, hL.noCollision⟩

theorem trans_sound (hL : TransOf L taps) (hA : transBuffers junk L = .ok A) (W : ℕ) (hW : 0 < W) (hd : W ∣ L.nlonOut) :
    ∃ F : Buffers R, F.csr = A ∧ ∀ gpu D, LegalDevice gpu (convOf L W) D → (gpu = true → LatSorted L.nlonOut (taps.map (encode L.nlonOut))) →
      Sound D (convOf L W) taps junk F := by
  unfold transBuffers at hA
  cases hp : preprocessPsi junk L.kernelSize L.nlatIn L.entries with
  | error e => rw [hp] at hA; cases hA
  | ok sr =>
    obtain ⟨s, roff⟩ := sr
    rw [hp] at hA
    cases hA
    refine ⟨⟨Csr.ofLists junk s roff, roff.length, buildSplit (Csr.ofLists junk s roff) L.kernelSize, none⟩, rfl, fun gpu D hD hlat => ?_⟩
    unfold LegalDevice at hD
    cases gpu with
    | true =>
      rw [if_pos rfl] at hD
      obtain ⟨n, rfl, hn⟩ := hD
      exact gpu_sound_of junk (convOf L W) taps (fusedOf_conv hL W hW hd) (hlat rfl) _ s roff hp rfl rfl n hn
    | false =>
      rw [if_neg (by decide)] at hD
      obtain ⟨n, rfl, h1, h2⟩ := hD
      exact cpu_sound_of junk (convOf L W) taps (fusedOf_conv hL W hW hd) _ s roff hp rfl rfl n h1 h2

theorem gridOk_of {gpu : Bool} {n : ℕ} (h : gpu = true → 0 < n ∧ n ≤ 65535) : gridOk gpu n = true := by
  unfold gridOk
  cases gpu with
  | false => rfl
  | true => simp [h rfl]

/-- The optimized contraction of any operand with `W` longitudes. -/
theorem contract_optimized (hL : TransOf L taps) (hA : transBuffers junk L = .ok A) (c : TCall R) (d : KDtype) (xe : Ten4 R) (hW : 0 < xe.d3)
    (hd : xe.d3 ∣ L.nlonOut) (hdev : TDevOk c.gpu c.dev L taps xe.d3 xe.d0) :
    ∃ y, c.contract true L A d xe = .ok y ∧ y.d0 = xe.d0 ∧ y.d1 = L.nlatOut ∧ y.d2 = L.nlonOut ∧
      ∀ q < xe.d0, ∀ i, ∀ j < L.nlonOut, y.val q i j = discoAdjoint taps L.nlonOut xe.d3 ((xe.view c.beyond).val q) i j := by
  obtain ⟨F, rfl, hS⟩ := trans_sound hL hA xe.d3 hW hd
  obtain ⟨y, y1, y2, y3, y4, y5⟩ := csrBackward_ok (L := convOf L xe.d3) (F := F) (junk := junk) (taps := taps) c.gpu c.dev
    (fun b => hS _ _ (hdev.dev b) hdev.lat) d (computeDtype d) (typesOk_self _ _) xe.d0 (xe.view c.beyond).val (gridOk_of hdev.grid)
  refine ⟨y, ?_, y2, y3, y4, y5⟩
  rw [← y1]
  unfold TCall.contract
  rw [if_pos rfl]
  unfold csrBackward
  congr 1
  congr 1
  show (match planes _ (fun b => (c.dev b).bwd F.csr ⟨xe.d1, xe.d2, xe.d3, (xe.view c.beyond).val b⟩ L.nlatOut L.nlonOut) xe.d0 with
    | .error e => _ | .ok z => _) = _
  rw [show (fun b => (c.dev b).bwd F.csr ⟨xe.d1, xe.d2, xe.d3, (xe.view c.beyond).val b⟩ L.nlatOut L.nlonOut)
      = fun b => (c.dev b).bwd F.csr ⟨L.kernelSize, L.nlatIn, xe.d3, (xe.view c.beyond).val b⟩ L.nlatOut L.nlonOut from
    funext fun b => legal_rows (hdev.dev b) _ _ _ _ _ _ _ _ _]
  rfl

/-- The reference contraction of an operand with the right latitudes and `W` longitudes. -/
theorem contract_reference (hL : TransOf L taps) (c : TCall R) (d : KDtype) (xe : Ten4 R) (hW : 0 < xe.d3) (hK : xe.d1 = L.kernelSize)
    (hH : xe.d2 = L.nlatIn) (hd : xe.d3 ∣ L.nlonOut) :
    ∃ y, c.contract false L A d xe = .ok y ∧ y.d0 = xe.d0 ∧ y.d1 = L.nlatOut ∧ y.d2 = L.nlonOut ∧
      ∀ q < xe.d0, ∀ i, ∀ j < L.nlonOut, y.val q i j = discoAdjoint taps L.nlonOut xe.d3 (xe.val q) i j := by
  obtain ⟨z, z1, z2⟩ := planes_ok (⟨0, 0, fun _ _ => 0⟩ : Mat R)
    (fun q => transposeContraction ⟨xe.d1, xe.d2, xe.d3, xe.val q⟩ (getPsiT L.kernelSize L.entries L.nlatIn L.nlatOut L.nlonOut) L.nlonOut)
    (fun q y => ∀ i, ∀ j < L.nlonOut, y.val i j = discoAdjoint taps L.nlonOut xe.d3 (xe.val q) i j) xe.d0 (fun q _ => by
      obtain ⟨z, z1, -, -, z4⟩ := transposeContraction_value taps L.kernelSize L.nlatOut L.nlonOut ⟨xe.d1, xe.d2, xe.d3, xe.val q⟩
        (by dsimp only; rw [hH]; exact hL.fits) hK hW hd hL.nlonOut
      refine ⟨z, ?_, z4⟩
      rw [hL.entries, ← hH]
      exact z1)
  refine ⟨⟨xe.d0, L.nlatOut, L.nlonOut, fun q => (z q).val⟩, ?_, rfl, rfl, rfl, z2⟩
  unfold TCall.contract
  rw [if_neg (by decide), z1]

/-- The value of the expanded input. -/
theorem transExpand_val (B : ℕ) (x : Ten R) (b oc : ℕ) (hoc : oc < L.groups * L.outPerGroup) (k t p : ℕ) :
    (transExpand L B (L.groups * L.groupsize) x).val (b * (L.groups * L.outPerGroup) + oc) k t p
      = ∑ ch ∈ range L.groupsize, batchOf x (L.groups * L.groupsize) b (oc / L.outPerGroup * L.groupsize + ch) t p
        * L.weight (oc / L.outPerGroup * L.outPerGroup + oc % L.outPerGroup) ch k := by
  show (∑ ch ∈ range L.groupsize, x.val (_ / _ * _ + (_ / _ * _ + ch)) t p * L.weightR _ _ ch k) = _
  rw [col_div hoc, col_mod hoc]
  rfl

/-- C98: on both paths and both kinds of device, the layer returns for every item of the batch the documented transposed sum plus bias, in the
documented type, and raises exactly when the types of input and weight are not accepted. The input has the latitudes of the layer and any number of
longitudes that divides those of the output. -/
theorem C98_output (hL : TransOf L taps) (hA : transBuffers junk L = .ok A) (c : TCall R) (hac : HalfAutocast c.ac) (optimized : Bool) (B : ℕ)
    (x : Ten R) (h1 : x.d1 = L.nlatIn) (hW : 0 < x.d2) (hd : x.d2 ∣ L.nlonOut)
    (hdev : optimized = true → TDevOk c.gpu c.dev L taps x.d2 (B * (L.groups * L.outPerGroup))) :
    (TransTypesOk c → ∃ y, c.forward optimized L A B (L.groups * L.groupsize) x = .ok (transOutType c L optimized, y) ∧
      y.d0 = B * (L.groups * L.outPerGroup) ∧ y.d1 = L.nlatOut ∧ y.d2 = L.nlonOut ∧
      ∀ b < B, ∀ g < L.groups, ∀ o < L.outPerGroup, ∀ i, ∀ j < L.nlonOut,
        y.val (b * (L.groups * L.outPerGroup) + (g * L.outPerGroup + o)) i j
          = transOut (layerGroups L) taps L.nlonOut x.d2 L.weight (batchOf x (L.groups * L.groupsize) b) g o i j
            + (match L.bias with | none => 0 | some β => β (g * L.outPerGroup + o))) ∧
    (¬ TransTypesOk c → c.forward optimized L A B (L.groups * L.groupsize) x = .error .runtimeError) := by
  obtain ⟨t1, t2⟩ := trans_types c hac optimized
  have hcon : ∀ d, ∃ y, c.contract optimized L A d (transExpand L B (L.groups * L.groupsize) x) = .ok y ∧
      y.d0 = B * (L.groups * L.outPerGroup) ∧ y.d1 = L.nlatOut ∧ y.d2 = L.nlonOut ∧
      ∀ q < B * (L.groups * L.outPerGroup), ∀ i, ∀ j < L.nlonOut, y.val q i j
        = discoAdjoint taps L.nlonOut x.d2 ((transExpand L B (L.groups * L.groupsize) x).val q) i j := by
    intro d
    cases optimized with
    | true =>
      obtain ⟨y, y1, y2, y3, y4, y5⟩ := contract_optimized hL hA c d (transExpand L B (L.groups * L.groupsize) x) hW hd (hdev rfl)
      refine ⟨y, y1, y2, y3, y4, fun q hq i j hj => ?_⟩
      rw [y5 q hq i j hj]
      exact discoAdjoint_congr taps _ _ _ _ _ hL.fits _ _ (fun k hk t ht p hp =>
        Ten4.view_val _ _ q k t p hq hk (by rw [← h1] at ht; exact ht) hp) i j
    | false => exact contract_reference hL c d (transExpand L B (L.groups * L.groupsize) x) hW rfl h1 hd
  constructor
  · intro ht
    obtain ⟨d, d1, d2⟩ := t1 ht
    obtain ⟨y, y1, y2, y3, y4, y5⟩ := hcon (transDt c optimized)
    have hval : ∀ b < B, ∀ g < L.groups, ∀ o < L.outPerGroup, ∀ i, ∀ j < L.nlonOut,
        y.val (b * (L.groups * L.outPerGroup) + (g * L.outPerGroup + o)) i j
          = transOut (layerGroups L) taps L.nlonOut x.d2 L.weight (batchOf x (L.groups * L.groupsize) b) g o i j := by
      intro b hb g hg o ho i j hj
      rw [y5 _ (col_lt hb (col_lt hg ho)) i j hj]
      unfold transOut
      congr 1
      funext k t p
      rw [transExpand_val B x b _ (col_lt hg ho), col_div ho, col_mod ho]
      rfl
    unfold TCall.forward
    rw [if_neg (not_not.2 rfl), d1]
    dsimp only
    rw [d2, y1]
    dsimp only
    unfold transOutType
    cases hb : L.bias with
    | none => exact ⟨y, rfl, y2, y3, y4, fun b hb g hg o ho i j hj => by rw [hval b hb g hg o ho i j hj, add_zero]⟩
    | some β =>
      refine ⟨_, rfl, y2, y3, y4, fun b hb g hg o ho i j hj => ?_⟩
      dsimp only
      rw [hval b hb g hg o ho i j hj, col_mod (col_lt hg ho)]
  · intro ht
    unfold TCall.forward
    rw [if_neg (not_not.2 rfl), t2 ht]

/-- C98: two calls of the same layer on the same input agree, whatever the paths, devices, schedules and types, as soon as both return. -/
theorem C98_paths_agree (hL : TransOf L taps) (hA : transBuffers junk L = .ok A) (c c' : TCall R) (hac : HalfAutocast c.ac) (hac' : HalfAutocast c'.ac)
    (optimized optimized' : Bool) (B : ℕ) (x : Ten R) (h1 : x.d1 = L.nlatIn) (hW : 0 < x.d2) (hd : x.d2 ∣ L.nlonOut)
    (hdev : optimized = true → TDevOk c.gpu c.dev L taps x.d2 (B * (L.groups * L.outPerGroup)))
    (hdev' : optimized' = true → TDevOk c'.gpu c'.dev L taps x.d2 (B * (L.groups * L.outPerGroup))) (dt dt' : KDtype) (y y' : Ten R)
    (hy : c.forward optimized L A B (L.groups * L.groupsize) x = .ok (dt, y))
    (hy' : c'.forward optimized' L A B (L.groups * L.groupsize) x = .ok (dt', y')) :
    y.d0 = y'.d0 ∧ y.d1 = y'.d1 ∧ y.d2 = y'.d2 ∧
      ∀ q < B * (L.groups * L.outPerGroup), ∀ i, ∀ j < L.nlonOut, y.val q i j = y'.val q i j := by
  obtain ⟨a1, a2⟩ := C98_output hL hA c hac optimized B x h1 hW hd hdev
  obtain ⟨b1, b2⟩ := C98_output hL hA c' hac' optimized' B x h1 hW hd hdev'
  by_cases hw : TransTypesOk c
  swap
  · rw [a2 hw] at hy; cases hy
  by_cases hw' : TransTypesOk c'
  swap
  · rw [b2 hw'] at hy'; cases hy'
  obtain ⟨z, z1, z2, z3, z4, z5⟩ := a1 hw
  obtain ⟨z', w1, w2, w3, w4, w5⟩ := b1 hw'
  rw [z1] at hy
  cases hy
  rw [w1] at hy'
  cases hy'
  refine ⟨by rw [z2, w2], by rw [z3, w3], by rw [z4, w4], fun q hq i j hj => ?_⟩
  have hO : 0 < L.groups * L.outPerGroup := Nat.pos_of_ne_zero fun h => by rw [h] at hq; omega
  have hO' : 0 < L.outPerGroup := Nat.pos_of_ne_zero fun h => by rw [h] at hO; omega
  have e1 := Nat.div_add_mod' q (L.groups * L.outPerGroup)
  have e2 := Nat.div_add_mod' (q % (L.groups * L.outPerGroup)) L.outPerGroup
  have hb : q / (L.groups * L.outPerGroup) < B := Nat.div_lt_of_lt_mul (by rw [Nat.mul_comm]; exact hq)
  have hg : q % (L.groups * L.outPerGroup) / L.outPerGroup < L.groups :=
    Nat.div_lt_of_lt_mul (by rw [Nat.mul_comm L.outPerGroup]; exact Nat.mod_lt _ hO)
  have ho := Nat.mod_lt (q % (L.groups * L.outPerGroup)) hO'
  have := z5 _ hb _ hg _ ho i j hj
  rw [e2, e1] at this
  rw [this]
  have := w5 _ hb _ hg _ ho i j hj
  rw [e2, e1] at this
  rw [this]

/-- C98: the optimized operator answers with one entry per argument, and input, weight and bias receive the documented gradients, exactly when
asked for; this for every type of the gradient and every schedule of the kernels of the backward pass. -/
theorem C98_gradients (hL : TransOf L taps) (hA : transBuffers junk L = .ok A) (c : TCall R) (B : ℕ) (x : Ten R) (h1 : x.d1 = L.nlatIn)
    (hW : 0 < x.d2) (hd : x.d2 ∣ L.nlonOut) (dev : ℕ → Device R) (hdev : TDevOk c.gpu dev L taps x.d2 (B * (L.groups * L.outPerGroup)))
    (gdt : KDtype) (gout : Ten R) (g0 : gout.d0 = B * (L.groups * L.outPerGroup)) (g1 : gout.d1 = L.nlatOut) (g2 : gout.d2 = L.nlonOut)
    (need : Bool × Bool × Bool) :
    (∃ z, c.backward dev A true L.kernelSize x.d1 x.d2 gdt gout = .ok (some (gdt, z) :: List.replicate 8 none) ∧
      c.backward dev A false L.kernelSize x.d1 x.d2 gdt gout = .ok (none :: List.replicate 8 none)) ∧
    ∃ gx gw gb, c.gradients dev L A need B x gdt gout
        = .ok (if need.1 then some gx else none, if need.2.1 then some gw else none, if need.2.2 && L.bias.isSome then some gb else none) ∧
      gx.d0 = B * (L.groups * L.groupsize) ∧ gx.d1 = L.nlatIn ∧ gx.d2 = x.d2 ∧
      gw.d0 = L.groups * L.outPerGroup ∧ gw.d1 = L.groupsize ∧ gw.d2 = L.kernelSize ∧
      (need.1 = true → ∀ b < B, ∀ g < L.groups, ∀ ch < L.groupsize, ∀ t, ∀ p < x.d2,
        gx.val (b * (L.groups * L.groupsize) + (g * L.groupsize + ch)) t p
          = transGradIn (layerGroups L) taps L.nlonOut x.d2 L.kernelSize L.weight (batchOf gout (L.groups * L.outPerGroup) b) g ch t p) ∧
      (need.2.1 = true → ∀ g < L.groups, ∀ o < L.outPerGroup, ∀ ch < L.groupsize, ∀ k < L.kernelSize, gw.val (g * L.outPerGroup + o) ch k
          = transGradW (layerGroups L) taps L.nlonOut x.d2 L.nlatIn B (batchOf x (L.groups * L.groupsize)) (batchOf gout (L.groups * L.outPerGroup)) g o ch k) ∧
      ∀ oc, gb oc = ∑ b ∈ range B, ∑ i ∈ range L.nlatOut, ∑ j ∈ range L.nlonOut, batchOf gout (L.groups * L.outPerGroup) b oc i j := by
  obtain ⟨F, rfl, hS⟩ := trans_sound hL hA x.d2 hW hd
  obtain ⟨z, z1, z2⟩ := csrForward_ok (L := convOf L x.d2) (F := F) (junk := junk) (taps := taps) c.gpu dev
    (fun b => hS _ _ (hdev.dev b) hdev.lat) gdt (computeDtype gdt) (typesOk_self _ _) gout g1 g2 (by rw [g0]; exact gridOk_of hdev.grid)
  change csrForward c.gpu dev gdt (computeDtype gdt) F.csr gout L.kernelSize L.nlatIn x.d2 = _ at z1
  rw [← h1] at z1
  have hb1 : c.backward dev F.csr true L.kernelSize x.d1 x.d2 gdt gout = .ok (some (gdt, z) :: List.replicate 8 none) := by
    unfold TCall.backward
    rw [if_pos rfl, z1]
    rfl
  refine ⟨⟨z, hb1, rfl⟩, ?_⟩
  unfold TCall.gradients
  dsimp only
  have hz : ∀ b < B, ∀ g < L.groups, ∀ o < L.outPerGroup, ∀ k t, ∀ p < x.d2,
      z.val (b * (L.groups * L.outPerGroup) + (g * L.outPerGroup + o)) k t p
        = discoSum taps L.nlonOut x.d2 (batchOf gout (L.groups * L.outPerGroup) b (g * L.outPerGroup + o)) k t p :=
    fun b hb g hg o ho k t p hp => z2 _ (by rw [g0]; exact col_lt hb (col_lt hg ho)) k t p hp
  by_cases hn : (need.1 || need.2.1) = true
  · rw [hn, hb1]
    refine ⟨_, _, _, rfl, rfl, h1, rfl, rfl, rfl, rfl, fun _ b hb g hg ch hch t p hp => ?_, fun _ g hg o ho ch hch k hk => ?_, fun oc => ?_⟩
    · dsimp only
      rw [col_mod (col_lt hg hch), col_div (col_lt hg hch), col_div hch, col_mod hch]
      exact sum_congr rfl fun o ho => sum_congr rfl fun k _ => by
        show z.val _ k t p * _ = _
        rw [hz b hb g hg o (mem_range.1 ho) k t p hp]
        rfl
    · dsimp only
      rw [col_div ho, h1]
      exact sum_congr rfl fun b hb => sum_congr rfl fun t _ => sum_congr rfl fun p hp => by
        show _ * z.val _ k t p = _
        rw [hz b (mem_range.1 hb) g hg o ho k t p (mem_range.1 hp)]
        rfl
    · rw [g1, g2]
      rfl
  · have hn1 : need.1 = false := by revert hn; cases need.1 <;> simp
    have hn2 : need.2.1 = false := by revert hn; cases need.2.1 <;> simp
    rw [hn1, hn2]
    refine ⟨⟨B * (L.groups * L.groupsize), L.nlatIn, x.d2, fun _ _ _ => 0⟩, ⟨L.groups * L.outPerGroup, L.groupsize, L.kernelSize, fun _ _ _ => 0⟩, _, rfl,
      rfl, rfl, rfl, rfl, rfl, rfl, fun h => (by cases h), fun h => (by cases h), fun oc => ?_⟩
    rw [g1, g2]
    rfl

/-! ### The gradients are the transposes of the layer -/

/-- Without bias, one channel: the output against a cotangent, and the expanded input against the convolved cotangent. -/
theorem trans_pair (hL : TransOf L taps) (W : ℕ) (gv : ℕ → ℕ → R) (e : ℕ → ℕ → ℕ → R) :
    ∑ i ∈ range L.nlatOut, ∑ j ∈ range L.nlonOut, discoAdjoint taps L.nlonOut W e i j * gv i j
      = ∑ k ∈ range L.kernelSize, ∑ t ∈ range L.nlatIn, ∑ p ∈ range W, e k t p * discoSum taps L.nlonOut W gv k t p := by
  have h := disco_adjoint taps L.kernelSize L.nlatIn L.nlatOut L.nlonOut W hL.fits gv e
  rw [show (∑ i ∈ range L.nlatOut, ∑ j ∈ range L.nlonOut, discoAdjoint taps L.nlonOut W e i j * gv i j)
      = ∑ i ∈ range L.nlatOut, ∑ j ∈ range L.nlonOut, gv i j * discoAdjoint taps L.nlonOut W e i j from
    sum_congr rfl fun i _ => sum_congr rfl fun j _ => mul_comm _ _, ← h]
  exact sum_congr rfl fun k _ => sum_congr rfl fun t _ => sum_congr rfl fun p _ => mul_comm _ _

/-- C98: for a layer without bias, `<out, g> = <x, grad_x> = <w, grad_w>` summed over the batch, the output from any path and device, the gradients
from any device. -/
theorem C98_transpose (hL : TransOf L taps) (hA : transBuffers junk L = .ok A) (hb : L.bias = none) (c c' : TCall R) (hac : HalfAutocast c.ac)
    (ht : TransTypesOk c) (optimized : Bool) (B : ℕ) (x : Ten R) (h1 : x.d1 = L.nlatIn) (hW : 0 < x.d2) (hd : x.d2 ∣ L.nlonOut)
    (hdev : optimized = true → TDevOk c.gpu c.dev L taps x.d2 (B * (L.groups * L.outPerGroup)))
    (dev : ℕ → Device R) (hdev' : TDevOk c'.gpu dev L taps x.d2 (B * (L.groups * L.outPerGroup))) (gdt : KDtype) (gout : Ten R)
    (g0 : gout.d0 = B * (L.groups * L.outPerGroup)) (g1 : gout.d1 = L.nlatOut) (g2 : gout.d2 = L.nlonOut) :
    ∃ y gx gw gb, c.forward optimized L A B (L.groups * L.groupsize) x = .ok (transDt c optimized, y) ∧
      c'.gradients dev L A (true, true, true) B x gdt gout = .ok (some gx, some gw, gb) ∧
      ∑ b ∈ range B, ∑ oc ∈ range (L.groups * L.outPerGroup), ∑ i ∈ range L.nlatOut, ∑ j ∈ range L.nlonOut,
          batchOf y (L.groups * L.outPerGroup) b oc i j * batchOf gout (L.groups * L.outPerGroup) b oc i j
        = ∑ b ∈ range B, ∑ ic ∈ range (L.groups * L.groupsize), ∑ t ∈ range L.nlatIn, ∑ p ∈ range x.d2,
          batchOf x (L.groups * L.groupsize) b ic t p * batchOf gx (L.groups * L.groupsize) b ic t p ∧
      ∑ b ∈ range B, ∑ oc ∈ range (L.groups * L.outPerGroup), ∑ i ∈ range L.nlatOut, ∑ j ∈ range L.nlonOut,
          batchOf y (L.groups * L.outPerGroup) b oc i j * batchOf gout (L.groups * L.outPerGroup) b oc i j
        = ∑ oc ∈ range (L.groups * L.outPerGroup), ∑ ch ∈ range L.groupsize, ∑ k ∈ range L.kernelSize, L.weight oc ch k * gw.val oc ch k := by
  obtain ⟨y, y1, -, -, -, y5⟩ := (C98_output hL hA c hac optimized B x h1 hW hd hdev).1 ht
  obtain ⟨-, gx, gw, gb, e1, -, -, -, -, -, -, e2, e3, -⟩ := C98_gradients hL hA c' B x h1 hW hd dev hdev' gdt gout g0 g1 g2 (true, true, true)
  rw [if_pos rfl, if_pos rfl] at e1
  have hty : transOutType c L optimized = transDt c optimized := by unfold transOutType; rw [hb]; rfl
  rw [hty] at y1
  rw [hb] at y5
  -- the left-hand side in terms of the input, the weight and the convolved cotangent
  have hLft : ∀ b < B, ∀ g < L.groups, ∀ o < L.outPerGroup,
      ∑ i ∈ range L.nlatOut, ∑ j ∈ range L.nlonOut, batchOf y (L.groups * L.outPerGroup) b (g * L.outPerGroup + o) i j
          * batchOf gout (L.groups * L.outPerGroup) b (g * L.outPerGroup + o) i j
        = ∑ ch ∈ range L.groupsize, ∑ k ∈ range L.kernelSize, ∑ t ∈ range L.nlatIn, ∑ p ∈ range x.d2,
          batchOf x (L.groups * L.groupsize) b (g * L.groupsize + ch) t p * L.weight (g * L.outPerGroup + o) ch k
            * discoSum taps L.nlonOut x.d2 (batchOf gout (L.groups * L.outPerGroup) b (g * L.outPerGroup + o)) k t p := by
    intro b hb' g hg o ho
    rw [show (∑ i ∈ range L.nlatOut, ∑ j ∈ range L.nlonOut, batchOf y (L.groups * L.outPerGroup) b (g * L.outPerGroup + o) i j
          * batchOf gout (L.groups * L.outPerGroup) b (g * L.outPerGroup + o) i j)
        = ∑ i ∈ range L.nlatOut, ∑ j ∈ range L.nlonOut, transOut (layerGroups L) taps L.nlonOut x.d2 L.weight (batchOf x (L.groups * L.groupsize) b) g o i j
          * batchOf gout (L.groups * L.outPerGroup) b (g * L.outPerGroup + o) i j from
      sum_congr rfl fun i _ => sum_congr rfl fun j hj => by
        have := y5 b hb' g hg o ho i j (mem_range.1 hj)
        dsimp only at this
        rw [add_zero] at this
        rw [← this]
        rfl]
    unfold transOut
    rw [trans_pair hL]
    simp only [sum_mul]
    rw [sum_congr rfl fun k _ => sum_congr rfl fun t _ => sum_comm]
    rw [sum_congr rfl fun k _ => sum_comm]
    exact sum_comm
  refine ⟨y, gx, gw, _, y1, e1, ?_, ?_⟩
  · refine sum_congr rfl fun b hb' => ?_
    rw [sum_groups, sum_groups]
    refine sum_congr rfl fun g hg => ?_
    rw [sum_congr rfl fun o ho => hLft b (mem_range.1 hb') g (mem_range.1 hg) o (mem_range.1 ho), sum_comm]
    refine sum_congr rfl fun ch hch => ?_
    rw [show (∑ t ∈ range L.nlatIn, ∑ p ∈ range x.d2, batchOf x (L.groups * L.groupsize) b (g * L.groupsize + ch) t p
          * batchOf gx (L.groups * L.groupsize) b (g * L.groupsize + ch) t p)
        = ∑ t ∈ range L.nlatIn, ∑ p ∈ range x.d2, ∑ o ∈ range L.outPerGroup, ∑ k ∈ range L.kernelSize,
          batchOf x (L.groups * L.groupsize) b (g * L.groupsize + ch) t p * L.weight (g * L.outPerGroup + o) ch k
            * discoSum taps L.nlonOut x.d2 (batchOf gout (L.groups * L.outPerGroup) b (g * L.outPerGroup + o)) k t p from
      sum_congr rfl fun t _ => sum_congr rfl fun p hp => by
        have := e2 rfl b (mem_range.1 hb') g (mem_range.1 hg) ch (mem_range.1 hch) t p (mem_range.1 hp)
        unfold batchOf at *
        rw [this]
        unfold transGradIn
        rw [mul_sum]
        refine sum_congr rfl fun o _ => ?_
        rw [mul_sum]
        refine sum_congr rfl fun k _ => ?_
        simp only [layerGroups]
        ring]
    rw [sum_congr rfl fun t _ => sum_comm]
    rw [sum_comm]
    refine sum_congr rfl fun o _ => ?_
    rw [sum_congr rfl fun t _ => sum_comm]
    rw [sum_comm]
  · rw [sum_comm, sum_groups, sum_groups]
    refine sum_congr rfl fun g hg => sum_congr rfl fun o ho => ?_
    rw [sum_congr rfl fun b hb' => hLft b (mem_range.1 hb') g (mem_range.1 hg) o (mem_range.1 ho), sum_comm]
    refine sum_congr rfl fun ch hch => ?_
    rw [sum_comm]
    refine sum_congr rfl fun k hk => ?_
    rw [e3 rfl g (mem_range.1 hg) o (mem_range.1 ho) ch (mem_range.1 hch) k (mem_range.1 hk)]
    unfold transGradW
    simp only [mul_sum, layerGroups]
    exact sum_congr rfl fun b _ => sum_congr rfl fun t _ => sum_congr rfl fun p _ => by ring

/-! ### Shapes that are and are not checked -/

/-- The kernels of either device, under any schedule. -/
def KernelDevice (D : Device R) : Prop := (∃ n : CpuNoise R, D = cpuDevice n) ∨ ∃ n : GpuNoise R, D = gpuDevice n

theorem psiT_dims (L : Layer R) : (getPsiT L.kernelSize L.entries L.nlatIn L.nlatOut L.nlonOut).d0 = L.kernelSize ∧
    (getPsiT L.kernelSize L.entries L.nlatIn L.nlatOut L.nlonOut).d2 = L.nlatIn * L.nlonOut := ⟨rfl, rfl⟩

/-- The reference contraction refuses a wrong number of longitudes or latitudes with the same exception. -/
theorem reference_refuses (hL : TransOf L taps) (y : Ten R) (hK : y.d0 = L.kernelSize) (hW : 0 < y.d2)
    (h : ¬ (y.d2 ∣ L.nlonOut ∧ y.d1 = L.nlatIn)) :
    transposeContraction y (getPsiT L.kernelSize L.entries L.nlatIn L.nlatOut L.nlonOut) L.nlonOut = .error .runtimeError := by
  have hN := hL.nlonOut
  obtain ⟨e0, e2⟩ := psiT_dims L
  unfold transposeContraction
  rw [e0, e2, if_neg (by omega), if_neg (by simp)]
  by_cases hle : y.d2 ≤ L.nlonOut
  · rw [if_neg (not_not.2 hle), if_neg (by omega), if_neg (not_not.2 hK)]
    dsimp only
    by_cases hdv : y.d2 ∣ L.nlonOut
    · rw [if_neg (not_not.2 ((ceil_div_eq hW hle).2 hdv)), if_pos]
      intro he
      exact h ⟨hdv, (Nat.eq_of_mul_eq_mul_right hN he).symm⟩
    · rw [if_pos fun he => hdv ((ceil_div_eq hW hle).1 he)]
  · rw [if_pos hle]

/-- C98: a number of longitudes that does not divide that of the output is refused on every path and device, whatever `nlon_in` of the layer; any
divisor is accepted (`C98_output`). -/
theorem C98_longitudes (hL : TransOf L taps) (c : TCall R) (hac : HalfAutocast c.ac) (hdev : ∀ b, KernelDevice (c.dev b)) (optimized : Bool) (B : ℕ)
    (hB : 0 < B * (L.groups * L.outPerGroup)) (x : Ten R) (hW : 0 < x.d2) (hd : ¬ x.d2 ∣ L.nlonOut) :
    c.forward optimized L A B (L.groups * L.groupsize) x = .error .runtimeError := by
  obtain ⟨t1, t2⟩ := trans_types c hac optimized
  unfold TCall.forward
  rw [if_neg (not_not.2 rfl)]
  by_cases ht : TransTypesOk c
  swap
  · rw [t2 ht]
  obtain ⟨d, d1, d2⟩ := t1 ht
  rw [d1]
  dsimp only
  suffices h : c.contract optimized L A (c.opDt optimized d) (transExpand L B (L.groups * L.groupsize) x) = .error .runtimeError by rw [h]
  unfold TCall.contract
  cases optimized with
  | true =>
    rw [if_pos rfl]
    unfold csrBackward
    rw [if_neg (not_not.2 (typesOk_self _ _))]
    split
    · rfl
    · have hm : ¬ L.nlonOut % x.d2 = 0 := fun h => hd (Nat.dvd_of_mod_eq_zero h)
      rw [planes_fail _ _ .runtimeError ((transExpand L B (L.groups * L.groupsize) x).view c.beyond).d0 hB]
      intro b _
      have h0 : ¬ ((transExpand L B (L.groups * L.groupsize) x).view c.beyond).d3 = 0 := (by omega : ¬ x.d2 = 0)
      have hm' : ¬ L.nlonOut % ((transExpand L B (L.groups * L.groupsize) x).view c.beyond).d3 = 0 := hm
      rcases hdev b with ⟨n, hn⟩ | ⟨n, hn⟩
      · rw [hn]
        unfold cpuDevice cpuBackward
        dsimp only
        rw [if_neg h0, if_pos hm']
      · rw [hn]
        unfold gpuDevice cudaBackward
        dsimp only
        rw [if_neg h0, if_pos hm']
  | false =>
    rw [if_neg (by decide), planes_fail _ _ .runtimeError (transExpand L B (L.groups * L.groupsize) x).d0 hB]
    exact fun q _ => reference_refuses hL _ rfl hW fun h => hd h.1

/-- C98, finding: the number of latitudes of the input is only checked by the reference path. The optimized kernels accept any number `H`, and read the
expanded input at the addresses that belong to `nlat_in` latitudes of `H` rows. -/
theorem C98_rows_unchecked (hL : TransOf L taps) (hA : transBuffers junk L = .ok A) (c : TCall R) (hac : HalfAutocast c.ac) (ht : TransTypesOk c)
    (B : ℕ) (hB : 0 < B * (L.groups * L.outPerGroup)) (x : Ten R) (hW : 0 < x.d2) (hd : x.d2 ∣ L.nlonOut)
    (hdev : TDevOk c.gpu c.dev L taps x.d2 (B * (L.groups * L.outPerGroup))) :
    (∃ y, c.forward true L A B (L.groups * L.groupsize) x = .ok (transOutType c L true, y) ∧ y.d1 = L.nlatOut ∧ y.d2 = L.nlonOut ∧
      ∀ q < B * (L.groups * L.outPerGroup), ∀ i, ∀ j < L.nlonOut, y.val q i j
        = discoAdjoint taps L.nlonOut x.d2 (fun k t p => (transExpand L B (L.groups * L.groupsize) x).at c.beyond
            (((q * L.kernelSize + k) * x.d1 + t) * x.d2 + p)) i j
          + (match L.bias with | none => 0 | some β => β (q % (L.groups * L.outPerGroup)))) ∧
    (x.d1 ≠ L.nlatIn → c.forward false L A B (L.groups * L.groupsize) x = .error .runtimeError) := by
  constructor
  · obtain ⟨d, d1, d2⟩ := (trans_types c hac true).1 ht
    obtain ⟨y, y1, -, y3, y4, y5⟩ := contract_optimized hL hA c (transDt c true) (transExpand L B (L.groups * L.groupsize) x) hW hd hdev
    unfold TCall.forward
    rw [if_neg (not_not.2 rfl), d1]
    dsimp only
    rw [d2, y1]
    dsimp only
    unfold transOutType
    cases hb : L.bias with
    | none => exact ⟨y, rfl, y3, y4, fun q hq i j hj => by rw [y5 q hq i j hj, add_zero]; rfl⟩
    | some β => exact ⟨_, rfl, y3, y4, fun q hq i j hj => by dsimp only; rw [y5 q hq i j hj]; rfl⟩
  · intro hne
    obtain ⟨d, d1, d2⟩ := (trans_types c hac false).1 ht
    unfold TCall.forward
    rw [if_neg (not_not.2 rfl), d1]
    dsimp only
    unfold TCall.contract
    rw [if_neg (by decide), planes_fail _ _ .runtimeError (transExpand L B (L.groups * L.groupsize) x).d0 hB]
    exact fun q _ => reference_refuses hL _ rfl hW fun h => hne h.2

/-- C98, finding: what those addresses hold. With too many rows the last ones are ignored; with too few, the missing rows of a kernel are the first
rows of the next kernel, and for the last kernel of the last plane they lie after the end of the tensor. -/
theorem C98_rows_read (B : ℕ) (x : Ten R) (beyond : ℕ → R) (q k t p : ℕ) (hq : q < B * (L.groups * L.outPerGroup)) (hk : k < L.kernelSize)
    (hp : p < x.d2) :
    (t < x.d1 → (transExpand L B (L.groups * L.groupsize) x).at beyond (((q * L.kernelSize + k) * x.d1 + t) * x.d2 + p)
      = (transExpand L B (L.groups * L.groupsize) x).val q k t p) ∧
    (k + 1 < L.kernelSize → x.d1 ≤ t → t < 2 * x.d1 →
      (transExpand L B (L.groups * L.groupsize) x).at beyond (((q * L.kernelSize + k) * x.d1 + t) * x.d2 + p)
        = (transExpand L B (L.groups * L.groupsize) x).val q (k + 1) (t - x.d1) p) ∧
    (k + 1 = L.kernelSize → q + 1 = B * (L.groups * L.outPerGroup) → x.d1 ≤ t →
      (transExpand L B (L.groups * L.groupsize) x).at beyond (((q * L.kernelSize + k) * x.d1 + t) * x.d2 + p)
        = beyond (((q * L.kernelSize + k) * x.d1 + t) * x.d2 + p)) := by
  refine ⟨fun ht => Ten4.view_val (transExpand L B (L.groups * L.groupsize) x) beyond q k t p hq hk ht hp, fun hk' h1 h2 => ?_, fun hk' hq' h1 => ?_⟩
  · have e : ((q * L.kernelSize + k) * x.d1 + t) * x.d2 + p = ((q * L.kernelSize + (k + 1)) * x.d1 + (t - x.d1)) * x.d2 + p := by
      obtain ⟨r, rfl⟩ := Nat.exists_eq_add_of_le h1
      rw [Nat.add_sub_cancel_left]
      ring
    rw [e]
    exact Ten4.view_val (transExpand L B (L.groups * L.groupsize) x) beyond q (k + 1) (t - x.d1) p hq hk' (show t - x.d1 < x.d1 by omega) hp
  · unfold Ten4.at
    rw [if_neg]
    show ¬ ((q * L.kernelSize + k) * x.d1 + t) * x.d2 + p < B * (L.groups * L.outPerGroup) * L.kernelSize * x.d1 * x.d2
    rw [← hq', ← hk']
    obtain ⟨r, rfl⟩ := Nat.exists_eq_add_of_le h1
    have : ((q * (k + 1) + k) * x.d1 + (x.d1 + r)) * x.d2 + p = (q + 1) * (k + 1) * x.d1 * x.d2 + (r * x.d2 + p) := by ring
    omega

/-- C98: a non-empty batch whose number of channels is not the number of input channels of the layer is refused on both paths, whatever its other sizes. -/
theorem C98_channels (c : TCall R) (optimized : Bool) (B C : ℕ) (hB : 0 < B) (hC : C ≠ L.groups * L.groupsize) (x : Ten R) :
    c.forward optimized L A B C x = .error .runtimeError := by
  unfold TCall.forward
  rw [if_pos (fun h => hC (Nat.eq_of_mul_eq_mul_left hB h))]

/-- C98, finding: on a GPU the optimized path raises for more than 65535 planes (batch times output channels); the reference path returns. -/
theorem C98_large_batch (c : TCall R) (hg : c.gpu = true) (B : ℕ) (hB : 65535 < B * (L.groups * L.outPerGroup)) (x : Ten R) :
    c.forward true L A B (L.groups * L.groupsize) x = .error .runtimeError := by
  unfold TCall.forward
  rw [if_neg (not_not.2 rfl)]
  cases h : einsumDt c.ac c.xdt c.wdt with
  | error e =>
    unfold einsumDt at h
    split at h
    · cases h
    · cases h
      rfl
  | ok d =>
    dsimp only
    unfold TCall.contract csrBackward
    rw [if_pos rfl, if_neg (not_not.2 (typesOk_self _ _)), if_pos]
    rw [hg]
    show ¬ gridOk true (B * (L.groups * L.outPerGroup)) = true
    unfold gridOk
    simp
    omega

omit [CommSemiring R] in
/-- C98, finding: under autocast a double-precision layer applied to a double-precision input returns half precision on the optimized path and double
precision on the reference path. -/
theorem C98_double_autocast (c : TCall R) (a : KDtype) (hac : c.ac = some a) (hx : c.xdt = .f64) (hw : c.wdt = .f64) :
    TransTypesOk c ∧ transDt c true = a ∧ transDt c false = .f64 := by
  unfold TransTypesOk transDt
  rw [hac, hx, hw]
  simp

omit [CommSemiring R] in
/-- C98: under autocast of single-precision tensors the output is single precision with a bias and half precision without. -/
theorem C98_bias_type (c : TCall R) (a : KDtype) (hac : c.ac = some a) (ha : a = .f16 ∨ a = .bf16) (hx : c.xdt = .f32) (hb : c.bdt = .f32)
    (optimized : Bool) : transOutType c L optimized = if L.bias.isSome then .f32 else a := by
  unfold transOutType transDt
  rw [hac, hx, hb]
  rcases ha with rfl | rfl <;> simp [promoteDt]

end

/-! ### Cases meeting the hypotheses -/

/-- From 2 x 4 to 2 x 8 points: two groups of one channel to two. -/
def exTrans : Layer ℤ :=
  { groups := 2, groupsize := 1, outPerGroup := 2, kernelSize := 2, nlatIn := 2, nlonIn := 4, nlatOut := 2, nlonOut := 8
    weight := fun o c k => (1 + o + c + 2 * k : ℕ), bias := some fun o => (100 * o : ℕ), entries := pathTaps.map (encode 8) }

theorem exTrans_ok : TransOf exTrans pathTaps := by
  refine ⟨rfl, by intro a ha; fin_cases ha <;> decide, by decide, by decide, ?_, ?_⟩
  · exact fun k => pairwise_filter_ker _ (by decide) k
  · unfold NoCollision; decide

theorem exTrans_buffers : ∃ A, transBuffers pathJunk exTrans = .ok A := by
  have h : (transBuffers pathJunk exTrans).toOption.isSome = true := by decide +kernel
  cases hA : transBuffers pathJunk exTrans with
  | error e => rw [hA] at h; cases h
  | ok A => exact ⟨A, rfl⟩

/-- A call on the CPU, and one on the GPU under autocast to bfloat16. -/
def tcCpu : TCall ℤ := ⟨false, none, .f32, .f32, .f32, fun _ => cpuDevice ⟨fun _ => 0, fun _ _ => 0, List.range, fun _ => 0⟩, fun _ => 7⟩

def tcNoise : GpuNoise ℤ :=
  ⟨12288, fun _ _ => 7, fun _ _ => (List.range 8).reverse, fun m => (List.range m).reverse, fun _ _ _ => 7,
    fun _ _ => (List.range (blockThreads 8 * max (minElements 8) (ceilDiv 4 (blockThreads 8)))).reverse, fun l => l.reverse⟩

def tcGpu : TCall ℤ := ⟨true, some .bf16, .f32, .f32, .f32, fun _ => gpuDevice tcNoise, fun _ => 7⟩

example : TDevOk tcCpu.gpu tcCpu.dev exTrans pathTaps 4 (2 * (2 * 2)) ∧ TDevOk tcGpu.gpu tcGpu.dev exTrans pathTaps 4 (2 * (2 * 2)) ∧
    HalfAutocast tcCpu.ac ∧ HalfAutocast tcGpu.ac ∧ TransTypesOk tcCpu ∧ TransTypesOk tcGpu ∧ 0 < 4 ∧ 4 ∣ exTrans.nlonOut ∧ ¬ 3 ∣ exTrans.nlonOut ∧
    (∀ b, KernelDevice (tcCpu.dev b)) ∧ ∀ b, KernelDevice (tcGpu.dev b) := by
  refine ⟨⟨fun b => ?_, fun h => (by cases h), fun h => (by cases h)⟩, ⟨fun b => ?_, fun _ => exPaths_ok.2, fun _ => by decide⟩, Or.inl rfl,
    Or.inr (Or.inr rfl), rfl, Iff.intro (fun h => by cases h) (fun h => by cases h), by decide, by decide, by decide, fun _ => Or.inl ⟨_, rfl⟩,
    fun _ => Or.inr ⟨_, rfl⟩⟩
  · unfold LegalDevice
    rw [if_neg (by decide)]
    exact ⟨_, rfl, fun _ => List.Perm.refl _, fun _ _ => rfl⟩
  · unfold LegalDevice
    rw [if_pos (by decide)]
    exact ⟨_, rfl, ⟨by decide, fun _ => List.reverse_perm _, fun _ _ => List.reverse_perm _, fun _ _ => List.reverse_perm _, fun l => List.reverse_perm l,
      by decide, by decide⟩⟩

/-- One point of the output of the second item of a batch of two. -/
example : transOut (layerGroups exTrans) pathTaps 8 4 exTrans.weight (batchOf ⟨4, 2, 4, fun c i j => (100 * c + 10 * i + j : ℕ)⟩ 2 1) 1 1 0 3 = 7826 := by
  decide +kernel

/-- An input with one row instead of two, for which the reference raises: the optimized CPU path returns a value that depends on the memory after the
operand. -/
example : ∃ A, transBuffers pathJunk exTrans = .ok A ∧
    (tcCpu.forward false exTrans A 1 2 ⟨2, 1, 4, fun c i j => (100 * c + 10 * i + j : ℕ)⟩).toOption.isNone ∧
    (tcCpu.forward true exTrans A 1 2 ⟨2, 1, 4, fun c i j => (100 * c + 10 * i + j : ℕ)⟩).toOption.map (fun y : KDtype × Ten ℤ => y.2.val 3 1 0) = some 2742 ∧
    ({ tcCpu with beyond := fun _ => 8 }.forward true exTrans A 1 2 ⟨2, 1, 4, fun c i j => (100 * c + 10 * i + j : ℕ)⟩).toOption.map
      (fun y : KDtype × Ten ℤ => y.2.val 3 1 0) = some 2748 := by
  obtain ⟨A, hA⟩ := exTrans_buffers
  have h1 : ((transBuffers pathJunk exTrans).toOption.map fun A =>
      ((tcCpu.forward false exTrans A 1 2 ⟨2, 1, 4, fun c i j => (100 * c + 10 * i + j : ℕ)⟩).toOption.isNone,
        (tcCpu.forward true exTrans A 1 2 ⟨2, 1, 4, fun c i j => (100 * c + 10 * i + j : ℕ)⟩).toOption.map (fun y : KDtype × Ten ℤ => y.2.val 3 1 0),
        ({ tcCpu with beyond := fun _ => 8 }.forward true exTrans A 1 2 ⟨2, 1, 4, fun c i j => (100 * c + 10 * i + j : ℕ)⟩).toOption.map
          (fun y : KDtype × Ten ℤ => y.2.val 3 1 0))) = some (true, some 2742, some 2748) := by decide +kernel
  rw [hA] at h1
  have := Option.some.inj h1
  exact ⟨A, hA, congrArg Prod.fst this, congrArg (fun a => a.2.1) this, congrArg (fun a => a.2.2) this⟩

/-- A batch of two with three channels instead of two. -/
example (A : Csr ℤ) (optimized : Bool) :
    tcCpu.forward optimized exTrans A 2 3 ⟨6, 2, 4, fun c i j => (100 * c + 10 * i + j : ℕ)⟩ = .error .runtimeError :=
  C98_channels tcCpu optimized 2 3 (by decide) (by decide) _

end Verif.Props
