import Verif.Lemmas.DiscoPaths
/-!
C94: whichever of its seven execution paths `DiscreteContinuousConvS2` takes, on whichever device, the output is the documented sum for
every item of the batch, and the six optimized paths propagate the same gradients; which types a path accepts and returns.
-/
namespace Verif.Props
open Verif Verif.Dist Verif.Spec Verif.Disco Finset

variable {R : Type} [CommSemiring R]

/-- The kernels of one call on one plane: those of the CPU with zeroed scratch space, or those of the GPU, under any schedule. -/
def LegalDevice (gpu : Bool) (L : Layer R) (D : Device R) : Prop :=
  if gpu then ∃ n : GpuNoise R, D = gpuDevice n ∧ n.Legal L
  else ∃ n : CpuNoise R, D = cpuDevice n ∧ (∀ m, (n.order m).Perm (List.range m)) ∧ ∀ q < 2 * L.nlonIn, n.sh q = 0

/-- Autocast is off or to a half-precision type. -/
def HalfAutocast (ac : Option KDtype) : Prop := ac = none ∨ ac = some .f16 ∨ ac = some .bf16

/-- A call within the limits of the device; a tensor-core kernel that is announced was compiled for the device. -/
structure CallOk (c : Call R) (L : Layer R) (taps : List (Tap R)) : Prop where
  ac : HalfAutocast c.ac
  dev : ∀ i b, LegalDevice c.device.isSome L (c.dev i b)
  lat : c.device.isSome → LatSorted L.nlonIn (taps.map (encode L.nlonIn))
  run : c.run.Legal
  body : ∀ d, c.device = some d → kpackedSupported c.targets d = true → ⟨d.major, d.minor, true⟩ ∈ c.targets
  plane : L.nlatOut * (L.nlonOut / 8) < 2 ^ 31

/-- How many planes (batch times channels) the forward launch of a path can cover on a GPU. -/
def planeLimit : ConvPath → ℕ
  | .fusedPacked | .savedPacked | .packed => 524280
  | _ => 65535

/-- Item `b` of a batch whose items have `C` channels. -/
def item (x : Ten R) (C b : ℕ) : Ten R := ⟨C, x.d1, x.d2, fun ch => x.val (b * C + ch)⟩

theorem legal_sound (junk : ℕ → Entry R) (L : Layer R) (taps : List (Tap R)) (hL : FusedOf L taps) (F : Buffers R) (hF : layerBuffers junk L = .ok F)
    (gpu : Bool) (hls : gpu = true → LatSorted L.nlonIn (taps.map (encode L.nlonIn))) (D : Device R) (hD : LegalDevice gpu L D) :
    Sound D L taps junk F := by
  unfold LegalDevice at hD
  cases gpu with
  | true =>
    rw [if_pos rfl] at hD
    obtain ⟨n, rfl, hn⟩ := hD
    exact gpu_sound junk L taps hL (hls rfl) F hF n hn
  | false =>
    rw [if_neg (by decide)] at hD
    obtain ⟨n, rfl, h1, h2⟩ := hD
    exact cpu_sound junk L taps hL F hF n h1 h2

section
variable {junk : ℕ → Entry R} {L : Layer R} {taps : List (Tap R)} {F : Buffers R}

theorem csrForward_ok (gpu : Bool) (dev : ℕ → Device R) (hS : ∀ b, Sound (dev b) L taps junk F) (a v : KDtype) (ht : typesOk gpu a v = true)
    (x : Ten R) (h1 : x.d1 = L.nlatIn) (h2 : x.d2 = L.nlonIn) (hg : gridOk gpu x.d0 = true) :
    ∃ y, csrForward gpu dev a v F.csr x L.kernelSize L.nlatOut L.nlonOut = .ok y ∧
      ∀ bc < x.d0, ∀ k t, ∀ p < L.nlonOut, y.val bc k t p = discoSum taps L.nlonIn L.nlonOut (x.val bc) k t p := by
  obtain ⟨z, z1, z2⟩ := planes_ok (⟨0, 0, 0, fun _ _ _ => 0⟩ : Ten R)
    (fun b => (dev b).fwd F.csr ⟨x.d1, x.d2, x.val b⟩ L.kernelSize L.nlatOut L.nlonOut)
    (fun b y => ∀ k t, ∀ p < L.nlonOut, y.val k t p = discoSum taps L.nlonIn L.nlonOut (x.val b) k t p) x.d0
    (fun b _ => by rw [h1, h2]; exact (hS b).fwd (x.val b))
  refine ⟨⟨x.d0, L.kernelSize, L.nlatOut, L.nlonOut, fun b => (z b).val⟩, ?_, z2⟩
  unfold csrForward
  rw [if_neg (not_not.2 ht), if_neg (not_not.2 hg), z1]

theorem csrBackward_ok (gpu : Bool) (dev : ℕ → Device R) (hS : ∀ b, Sound (dev b) L taps junk F) (a v : KDtype) (ht : typesOk gpu a v = true)
    (n : ℕ) (g : ℕ → ℕ → ℕ → ℕ → R) (hg : gridOk gpu n = true) :
    ∃ z, csrBackward gpu dev a v F.csr ⟨n, L.kernelSize, L.nlatOut, L.nlonOut, g⟩ L.nlatIn L.nlonIn = .ok z ∧
      z.d0 = n ∧ z.d1 = L.nlatIn ∧ z.d2 = L.nlonIn ∧
      ∀ bc < n, ∀ i, ∀ j < L.nlonIn, z.val bc i j = discoAdjoint taps L.nlonIn L.nlonOut (g bc) i j := by
  obtain ⟨z, z1, z2⟩ := planes_ok (⟨0, 0, fun _ _ => 0⟩ : Mat R)
    (fun b => (dev b).bwd F.csr ⟨L.kernelSize, L.nlatOut, L.nlonOut, g b⟩ L.nlatIn L.nlonIn)
    (fun b y => ∀ i, ∀ j < L.nlonIn, y.val i j = discoAdjoint taps L.nlonIn L.nlonOut (g b) i j) n
    (fun b _ => (hS b).bwd (g b))
  refine ⟨⟨n, L.nlatIn, L.nlonIn, fun b => (z b).val⟩, ?_, rfl, rfl, rfl, z2⟩
  unfold csrBackward
  rw [if_neg (not_not.2 ht), if_neg (not_not.2 hg)]
  dsimp only
  rw [z1]

theorem batchPart_ok (gpu : Bool) (dev : ℕ → Device R) (hS : ∀ b, Sound (dev b) L taps junk F) (hL : FusedOf L taps)
    (hF : layerBuffers junk L = .ok F) (gdt : KDtype)
    (n : ℕ) (gout : Ten R) (hg : gridOk gpu n = true) (k : ℕ) (hk : k < L.kernelSize) :
    ∃ z, batchPart gpu dev junk gdt L F.split n gout k = .ok z ∧
      ∀ q < n, ∀ i, ∀ j < L.nlonIn, z.val q i j
        = (L.entries.map fun e => if e.ker = k then bwdTerm (gout.val q e.row) L.nlonOut L.nlonIn (L.nlonIn / L.nlonOut) e i j else 0).sum := by
  unfold batchPart
  dsimp only
  by_cases hlen : (F.split.part k).1.length ≤ 1
  · rw [if_pos hlen]
    refine ⟨_, rfl, fun q _ i j _ => ?_⟩
    obtain ⟨s, roff, D, P, hp, -, -, f1, -, f3, -⟩ := buffers_inv junk L F hF
    obtain ⟨hr, -, -⟩ := fused_csr junk L taps hL s roff hp
    rw [f3, (buildSplit_part junk _ _ hr L.kernelSize).2.2.2.2.2 k hk] at hlen
    obtain ⟨r1, r2, r3, -⟩ := splitKernel_spec junk (Csr.ofLists junk s roff) _ hr k
    have hl : (splitKernel (Csr.ofLists junk s roff) k).2.1.length = 0 := by
      have h1 := r1.last
      have h0 := r1.zero
      have hn : (Csr.ofLists junk (splitKernel (Csr.ofLists junk s roff) k).2.1 (splitKernel (Csr.ofLists junk s roff) k).1).nnr = 0 := by
        show (splitKernel (Csr.ofLists junk s roff) k).1.length - 1 = 0
        have : (splitKernel (Csr.ofLists junk s roff) k).1.length ≤ 1 := hlen
        omega
      rw [hn] at h1
      omega
    rw [← part_value junk L taps hL s roff hp k (gout.val q) i j, hl]
    simp
  · rw [if_neg hlen]
    obtain ⟨z, z1, z2⟩ := planes_ok (⟨0, 0, fun _ _ => 0⟩ : Mat R)
      (fun b => (dev b).bwd (Csr.ofLists junk (F.split.part k).2 (F.split.part k).1) ⟨1, L.nlatOut, L.nlonOut, fun _ => gout.val b⟩ L.nlatIn L.nlonIn)
      (fun b y => ∀ i, ∀ j < L.nlonIn, y.val i j
        = (L.entries.map fun e => if e.ker = k then bwdTerm (gout.val b e.row) L.nlonOut L.nlonIn (L.nlonIn / L.nlonOut) e i j else 0).sum) n
      (fun b _ => (hS b).part k hk (gout.val b) hlen)
    refine ⟨⟨n, L.nlatIn, L.nlonIn, fun b => (z b).val⟩, ?_, z2⟩
    unfold csrBackward
    rw [if_neg (not_not.2 (by unfold typesOk; simp)), if_neg (not_not.2 hg)]
    dsimp only
    rw [z1]

theorem autocast_types {ac : Option KDtype} (h : HalfAutocast ac) (d : KDtype) : computeDtype (operandDt ac d) = computeDtype d := by
  rcases h with rfl | rfl | rfl <;> cases d <;> rfl

theorem einsumDt_self (ac : Option KDtype) (d : KDtype) : einsumDt ac d d = .ok (operandDt ac d) := if_pos rfl

theorem typesOk_self (gpu : Bool) (d : KDtype) : typesOk gpu d (computeDtype d) = true := by unfold typesOk; simp

/-- The transposed filter applied kernel by kernel to the gradient of each output channel. -/
theorem spatial_sum (hL : FusedOf L taps) (n : ℕ) (gv : ℕ → ℕ → ℕ → R) (w : ℕ → ℕ → R) (i j : ℕ) :
    (∑ o ∈ range n, ∑ k ∈ range L.kernelSize,
      (L.entries.map fun e => if e.ker = k then bwdTerm (gv o e.row) L.nlonOut L.nlonIn (L.nlonIn / L.nlonOut) e i j else 0).sum * w o k)
      = discoAdjoint taps L.nlonIn L.nlonOut (fun k t p => ∑ o ∈ range n, gv o t p * w o k) i j := by
  have hK : ∀ e ∈ L.entries, e.ker < L.kernelSize := by rw [hL.entries]; exact (fits_ker hL.fits).1
  rw [← encode_discoAdjoint taps L.kernelSize L.nlatOut L.nlatIn L.nlonIn L.nlonOut hL.fits, ← hL.entries]
  simp only [← List.sum_map_mul_right, sum_list_sum]
  congr 1
  apply List.map_congr_left
  intro e he
  rw [show (fun p => ∑ o ∈ range n, gv o e.row p * w o e.ker)
      = fun p => ∑ o ∈ range n, (fun o => gv o e.row) o p * (fun o => w o e.ker) o from rfl, bwdTerm_linear]
  apply sum_congr rfl
  intro o _
  rw [sum_eq_single_of_mem e.ker (mem_range.2 (hK e he))]
  · rw [if_pos rfl]
  · intro k _ hne
    rw [if_neg (Ne.symm hne), zero_mul]

/-- The input gradient of the combined operators, in either order. -/
theorem batchGradInput_ok (hL : FusedOf L taps) (hF : layerBuffers junk L = .ok F) (gpu : Bool) (devs : ℕ → ℕ → Device R)
    (hS : ∀ i b, Sound (devs i b) L taps junk F) (ac : Option KDtype) (hac : HalfAutocast ac) (gdt : KDtype) (B : ℕ) (gout : Ten R)
    (hO : 0 < L.outPerGroup) (hG : gpu = true → 0 < B * (L.groups * L.groupsize) ∧ B * (L.groups * L.groupsize) ≤ 65535) :
    ∃ z, batchGradInput gpu devs junk ac gdt L F B gout = .ok z ∧
      z.d0 = B * (L.groups * L.groupsize) ∧ z.d1 = L.nlatIn ∧ z.d2 = L.nlonIn ∧
      ∀ b < B, ∀ ic < L.groups * L.groupsize, ∀ i, ∀ j < L.nlonIn,
        z.val (b * (L.groups * L.groupsize) + ic) i j = gradInputSpec L taps (item gout (L.groups * L.outPerGroup) b) ic i j := by
  have hgrid : gridOk gpu (B * (L.groups * L.groupsize)) = true := by
    unfold gridOk
    cases gpu with
    | false => rfl
    | true => simpa using hG rfl
  unfold batchGradInput
  dsimp only
  by_cases hsf : useSpatialFirst L.outPerGroup L.groupsize L.kernelSize F.numelRoff L.nlatOut (some F.split) = true
  · rw [if_pos hsf]
    have hle : L.outPerGroup * 2 ≤ L.groupsize := by
      by_contra hcon
      unfold useSpatialFirst at hsf
      rw [if_pos (Or.inr (by omega))] at hsf
      cases hsf
    have hgrid' : gridOk gpu (B * (L.groups * L.outPerGroup)) = true := by
      unfold gridOk
      cases gpu with
      | false => rfl
      | true =>
        obtain ⟨h1, h2⟩ := hG rfl
        have hB : 0 < B := Nat.pos_of_ne_zero fun h => by rw [h] at h1; simp at h1
        have hg : 0 < L.groups := Nat.pos_of_ne_zero fun h => by rw [h] at h1; simp at h1
        have h3 : 0 < B * (L.groups * L.outPerGroup) := Nat.mul_pos hB (Nat.mul_pos hg hO)
        have h4 : B * (L.groups * L.outPerGroup) ≤ B * (L.groups * L.groupsize) := by gcongr; omega
        simp only [Bool.not_true, Bool.false_or, decide_eq_true_eq]
        omega
    obtain ⟨parts, p1, p2⟩ := planes_ok (⟨0, 0, 0, fun _ _ _ => 0⟩ : Ten R)
      (fun k => batchPart gpu (devs k) junk gdt L F.split (B * (L.groups * L.outPerGroup)) gout k)
      (fun k z => ∀ q < B * (L.groups * L.outPerGroup), ∀ i, ∀ j < L.nlonIn, z.val q i j
        = (L.entries.map fun e => if e.ker = k then bwdTerm (gout.val q e.row) L.nlonOut L.nlonIn (L.nlonIn / L.nlonOut) e i j else 0).sum)
      L.kernelSize (fun k hk => batchPart_ok gpu (devs k) (hS k) hL hF gdt _ gout hgrid' k hk)
    rw [p1]
    dsimp only
    rw [einsumDt_self]
    refine ⟨_, rfl, rfl, rfl, rfl, fun b hb ic hic i j hj => ?_⟩
    dsimp only
    rw [col_div hic, col_mod hic]
    have hgs : ic / L.groupsize < L.groups := Nat.div_lt_of_lt_mul (by rw [Nat.mul_comm]; exact hic)
    have hq : ∀ o < L.outPerGroup, b * (L.groups * L.outPerGroup) + (ic / L.groupsize * L.outPerGroup + o) < B * (L.groups * L.outPerGroup) :=
      fun o ho => col_lt hb (col_lt hgs ho)
    rw [sum_congr rfl fun o ho => sum_congr rfl fun k hk => by rw [p2 k (mem_range.1 hk) _ (hq o (mem_range.1 ho)) i j hj]]
    exact spatial_sum hL L.outPerGroup (fun o => gout.val (b * (L.groups * L.outPerGroup) + (ic / L.groupsize * L.outPerGroup + o)))
      (fun o k => L.weightR (ic / L.groupsize) o (ic % L.groupsize) k) i j
  · rw [if_neg hsf, einsumDt_self]
    dsimp only
    have ht : typesOk gpu (operandDt ac gdt) (computeDtype gdt) = true := by
      rw [← autocast_types hac gdt]
      exact typesOk_self gpu _
    obtain ⟨z, z1, z2, z3, z4, z5⟩ := csrBackward_ok gpu (devs 0) (hS 0) _ _ ht (B * (L.groups * L.groupsize)) (mixBack L B gout).val hgrid
    refine ⟨z, z1, z2, z3, z4, fun b hb ic hic i j hj => ?_⟩
    rw [z5 _ (col_lt hb hic) i j hj]
    unfold mixBack gradInputSpec
    dsimp only
    rw [col_div hic, col_mod hic]
    rfl

/-- The contraction on any path. -/
theorem expand_ok (hL : FusedOf L taps) (hF : layerBuffers junk L = .ok F) (hK : 0 < L.kernelSize) (hH : 0 < L.nlatOut) (c : Call R)
    (optimized fused : Bool) (path : ConvPath) (hpath : c.path optimized fused L F = .ok path) (x : Ten R) (hc : CallOk c L taps)
    (hn : c.device.isSome → 0 < x.d0 ∧ x.d0 ≤ planeLimit path)
    (h1 : x.d1 = L.nlatIn) (h2 : x.d2 = L.nlonIn) (hle : path = .reference → L.nlatOut ≤ L.nlonIn) :
    ∃ y, c.expand L F path x = .ok y ∧ ∀ bc < x.d0, ∀ k < L.kernelSize, ∀ t < L.nlatOut, ∀ p < L.nlonOut,
      y.val bc k t p = discoSum taps L.nlonIn L.nlonOut (x.val bc) k t p := by
  have hS : ∀ i b, Sound (c.dev i b) L taps junk F := fun i b => legal_sound junk L taps hL F hF _ hc.lat _ (hc.dev i b)
  have hcsr : planeLimit path = 65535 → ∀ dt, ∃ y, csrForward c.device.isSome (c.dev 0) dt (computeDtype dt) F.csr x L.kernelSize L.nlatOut L.nlonOut = .ok y ∧
      ∀ bc < x.d0, ∀ k < L.kernelSize, ∀ t < L.nlatOut, ∀ p < L.nlonOut, y.val bc k t p = discoSum taps L.nlonIn L.nlonOut (x.val bc) k t p := by
    intro hlim dt
    have hgrid : gridOk c.device.isSome x.d0 = true := by
      rw [hlim] at hn
      unfold gridOk
      cases hd : c.device.isSome with
      | false => rfl
      | true => simpa using hn hd
    obtain ⟨y, y1, y2⟩ := csrForward_ok c.device.isSome (c.dev 0) (hS 0) dt _ (typesOk_self _ dt) x h1 h2 hgrid
    exact ⟨y, y1, fun bc hbc k _ t _ p hp => y2 bc hbc k t p hp⟩
  unfold Call.path at hpath
  cases hk : serialKpackedOk optimized (F.packed.map fun P => P.1.kPad) c.kdt c.targets c.device L.nlonIn L.nlonOut with
  | error e => rw [hk] at hpath; cases hpath
  | ok kOk =>
    rw [hk] at hpath
    have hpath := Except.ok.inj hpath
    have hpacked : planeLimit path = 524280 → kOk = true → ∃ y, (match F.packed, c.device with
        | some (P, pad), some d => cudaForwardKpacked c.targets d c.kdt c.run x P pad L.kernelSize L.nlatOut L.nlonOut
        | _, _ => .error .attributeError) = .ok y ∧
        ∀ bc < x.d0, ∀ k < L.kernelSize, ∀ t < L.nlatOut, ∀ p < L.nlonOut, y.val bc k t p = discoSum taps L.nlonIn L.nlonOut (x.val bc) k t p := by
      intro hlim hkt
      rw [hkt] at hk
      rw [hlim] at hn
      obtain ⟨-, q2, q3, q4, q5, d, hd, q6⟩ := (C78_serial_selects _ _ _ _ _ _ _ hL.nlonOut).1 hk
      obtain ⟨s, roff, D, P, hp, hD, hP, -, -, -, f4⟩ := buffers_inv junk L F hF
      cases P with
      | none => rw [f4] at q2; simp at q2
      | some P =>
        rw [f4] at q2 ⊢
        have q2 : P.kPad = 8 ∨ P.kPad = 16 := by simpa using q2
        rw [hd]
        dsimp only [Option.map]
        rw [hL.entries] at hp
        obtain ⟨s', roff', e1, -, e3⟩ := C33_dense taps L.kernelSize L.nlatOut L.nlatIn L.nlonIn L.nlonOut hL.fits ⟨hK, hH, hL.nlonIn⟩ hL.nonempty
          hL.rows hL.noCollision junk 0
        rw [hp] at e1
        cases e1
        obtain ⟨dK, -, dsum⟩ := e3 D hD
        obtain ⟨-, p2, -⟩ := C33_kpack D 8 P hP (fun k t => (dsum k t 0 (fun _ _ => 0)).1) L.nlonIn L.nlonOut (x.val 0)
        rw [dK] at p2
        have hn := hn (by rw [hd]; rfl)
        obtain ⟨s', roff', D', g1, g2, g3⟩ := C78_forward taps L.kernelSize L.nlatOut L.nlonOut x (by rw [h1, h2]; exact hL.fits)
          ⟨hK, hH, hL.nlonOut, by rw [h2]; exact hL.nlonIn⟩ (by rw [h2]; exact q5) q4 (by omega) hL.nonempty (by rw [h2]; exact hL.rows)
          (by rw [h2]; exact hL.noCollision) junk hc.plane ⟨hn.1, by omega⟩
        rw [h2, hp] at g1
        cases g1
        rw [h2, hD] at g2
        cases g2
        obtain ⟨y, y1, -, -, -, -, y6⟩ := g3 P hP c.targets d c.kdt c.run (by rcases q6 with h | h <;> simp [h.1]) q3.symm (hc.body d hd (by
          unfold kpackedSupported announces
          rcases q6 with ⟨a, b⟩ | ⟨a, b⟩
          · simp [a, b]
          · simp [a, b])) hc.run
        rw [h2] at y6
        exact ⟨y, y1, y6⟩
    unfold choosePath at hpath
    unfold Call.expand Call.expandDt
    have hkof : (path = .fusedPacked ∨ path = .savedPacked ∨ path = .packed) → kOk = true := by
      intro h
      cases kOk with
      | true => rfl
      | false =>
        exfalso
        simp only [Bool.and_false, Bool.false_eq_true, if_false] at hpath
        rcases h with rfl | rfl | rfl <;> split_ifs at hpath
    cases path with
    | fusedPacked => exact hpacked rfl (hkof (by simp))
    | savedPacked => exact hpacked rfl (hkof (by simp))
    | packed => exact hpacked rfl (hkof (by simp))
    | fused => exact hcsr rfl _
    | saved => exact hcsr rfl _
    | csr => exact hcsr rfl _
    | reference =>
      dsimp only
      obtain ⟨z, z1, z2⟩ := planes_ok (⟨0, 0, 0, fun _ _ _ => 0⟩ : Ten R)
        (fun b => contraction ⟨x.d1, x.d2, x.val b⟩ (getPsi L.kernelSize L.entries L.nlatIn L.nlonIn L.nlatOut) L.nlonOut)
        (fun b y => ∀ k < L.kernelSize, ∀ t < L.nlatOut, ∀ p < L.nlonOut, y.val k t p = discoSum taps L.nlonIn L.nlonOut (x.val b) k t p) x.d0
        (fun b _ => by
          rw [h1, h2, hL.entries]
          obtain ⟨y, y1, -, -, -, y5⟩ := C28_contraction taps L.kernelSize L.nlatOut L.nlonOut ⟨L.nlatIn, L.nlonIn, x.val b⟩ hL.fits hL.nlonOut
            hL.dvd (hle rfl)
          exact ⟨y, y1, y5⟩)
      rw [z1]
      exact ⟨_, rfl, z2⟩

end

/-! ### Types -/

/-- Whether a path accepts the type of the weight: the combined operators convert it; otherwise it must be that of the input, and under
autocast only double precision is left as it is. -/
def WeightTypeOk (c : Call R) (path : ConvPath) : Prop :=
  match path with
  | .packed | .csr | .reference =>
    match c.ac with
    | none => c.wdt = c.xdt
    | some _ => c.wdt = .f64 ↔ path = .reference ∧ c.xdt = .f64
  | _ => True

/-- The type of the output before the bias: that of the input, or the autocast type, except that double precision survives on the
reference path and, on the CPU, in the operators that do not cast their input. -/
def outDt (c : Call R) (path : ConvPath) : KDtype :=
  match c.ac with
  | none => c.xdt
  | some a =>
    if c.xdt = .f64 ∧ (path = .reference ∨ c.device = none ∧ (path = .fused ∨ path = .saved)) then .f64 else a

/-- The type of the output. -/
def outType (c : Call R) (L : Layer R) (path : ConvPath) : KDtype :=
  match L.bias with
  | none => outDt c path
  | some _ => promoteDt (outDt c path) c.bdt

omit [CommSemiring R] in
/-- Only inputs on a GPU take a packed path. -/
theorem packed_device {c : Call R} {optimized fused : Bool} {L : Layer R} {F : Buffers R} {path : ConvPath} (h : c.path optimized fused L F = .ok path)
    (hp : path = .fusedPacked ∨ path = .savedPacked ∨ path = .packed) : ∃ d, c.device = some d := by
  unfold Call.path at h
  cases hk : serialKpackedOk optimized (F.packed.map fun P => P.1.kPad) c.kdt c.targets c.device L.nlonIn L.nlonOut with
  | error e => rw [hk] at h; cases h
  | ok kOk =>
    rw [hk] at h
    have h := Except.ok.inj h
    have hkOk : kOk = true := by
      cases kOk with
      | true => rfl
      | false =>
        exfalso
        unfold choosePath at h
        simp only [Bool.and_false, Bool.false_eq_true, if_false] at h
        rcases hp with rfl | rfl | rfl <;> split_ifs at h
    rw [hkOk] at hk
    cases hd : c.device with
    | some d => exact ⟨d, rfl⟩
    | none =>
      exfalso
      rw [hd] at hk
      unfold serialKpackedOk at hk
      split at hk <;> cases hk

omit [CommSemiring R] in
theorem mixDt_eq {c : Call R} (hac : HalfAutocast c.ac) {optimized fused : Bool} {L : Layer R} {F : Buffers R} {path : ConvPath}
    (h : c.path optimized fused L F = .ok path) :
    (WeightTypeOk c path → c.mixDt path = .ok (outDt c path)) ∧ (¬ WeightTypeOk c path → c.mixDt path = .error .runtimeError) := by
  have hdev := fun hp => packed_device h hp
  obtain ⟨tg, dev, ac, xdt, wdt, bdt, dv, run⟩ := c
  unfold WeightTypeOk Call.mixDt outDt Call.expandDt Call.kdt
  dsimp only at hac hdev ⊢
  cases path with
  | fusedPacked =>
    obtain ⟨d, rfl⟩ := hdev (by simp)
    rcases hac with rfl | rfl | rfl <;> refine ⟨fun _ => ?_, fun h => absurd trivial h⟩ <;> simp [einsumDt, operandDt]
  | savedPacked =>
    obtain ⟨d, rfl⟩ := hdev (by simp)
    rcases hac with rfl | rfl | rfl <;> refine ⟨fun _ => ?_, fun h => absurd trivial h⟩ <;> simp [einsumDt, operandDt]
  | packed =>
    obtain ⟨d, rfl⟩ := hdev (by simp)
    rcases hac with rfl | rfl | rfl <;> cases xdt <;> cases wdt <;> simp [einsumDt, operandDt]
  | fused =>
    rcases hac with rfl | rfl | rfl <;> refine ⟨fun _ => ?_, fun h => absurd trivial h⟩ <;> cases dev <;> cases xdt <;> simp [einsumDt, operandDt]
  | saved =>
    rcases hac with rfl | rfl | rfl <;> refine ⟨fun _ => ?_, fun h => absurd trivial h⟩ <;> cases dev <;> cases xdt <;> simp [einsumDt, operandDt]
  | csr => rcases hac with rfl | rfl | rfl <;> cases xdt <;> cases wdt <;> simp [einsumDt, operandDt]
  | reference => rcases hac with rfl | rfl | rfl <;> cases xdt <;> cases wdt <;> simp [einsumDt, operandDt]

/-! ### The output -/

section
variable {junk : ℕ → Entry R} {L : Layer R} {taps : List (Tap R)} {F : Buffers R}

/-- C94: on every path the layer returns, for every item of the batch, the documented sum; it raises exactly when the path does not
accept the type of the weight. -/
theorem C94_output (hL : FusedOf L taps) (hF : layerBuffers junk L = .ok F) (hK : 0 < L.kernelSize) (hH : 0 < L.nlatOut) (c : Call R)
    (optimized fused : Bool) (path : ConvPath) (hpath : c.path optimized fused L F = .ok path) (hc : CallOk c L taps) (B : ℕ) (x : Ten R)
    (h0 : x.d0 = B * (L.groups * L.groupsize)) (h1 : x.d1 = L.nlatIn) (h2 : x.d2 = L.nlonIn)
    (hn : c.device.isSome → 0 < x.d0 ∧ x.d0 ≤ planeLimit path) (hle : path = .reference → L.nlatOut ≤ L.nlonIn) :
    (WeightTypeOk c path → ∃ y, c.forward L F path B (L.groups * L.groupsize) x = .ok (outType c L path, y) ∧
      y.d0 = B * (L.groups * L.outPerGroup) ∧ y.d1 = L.nlatOut ∧ y.d2 = L.nlonOut ∧
      ∀ b < B, ∀ oc < L.groups * L.outPerGroup, ∀ t < L.nlatOut, ∀ p < L.nlonOut,
        y.val (b * (L.groups * L.outPerGroup) + oc) t p = outputSpec L taps (item x (L.groups * L.groupsize) b) oc t p) ∧
    (¬ WeightTypeOk c path → c.forward L F path B (L.groups * L.groupsize) x = .error .runtimeError) := by
  obtain ⟨xe, e1, e2⟩ := expand_ok hL hF hK hH c optimized fused path hpath x hc hn h1 h2 hle
  obtain ⟨m1, m2⟩ := mixDt_eq hc.ac hpath
  have hval : ∀ b < B, ∀ oc < L.groups * L.outPerGroup, ∀ t < L.nlatOut, ∀ p < L.nlonOut,
      L.mix (fun ch => xe.val ((b * (L.groups * L.outPerGroup) + oc) / (L.groups * L.outPerGroup) * (L.groups * L.groupsize) + ch))
        ((b * (L.groups * L.outPerGroup) + oc) % (L.groups * L.outPerGroup)) t p
      = ∑ ch ∈ range L.groupsize, ∑ k ∈ range L.kernelSize, discoSum taps L.nlonIn L.nlonOut
          (x.val (b * (L.groups * L.groupsize) + (oc / L.outPerGroup * L.groupsize + ch))) k t p * L.weight oc ch k := by
    intro b hb oc hoc t ht p hp
    rw [col_div hoc, col_mod hoc]
    unfold Layer.mix
    dsimp only
    refine sum_congr rfl fun ch hch => sum_congr rfl fun k hk => ?_
    have hg : oc / L.outPerGroup < L.groups := Nat.div_lt_of_lt_mul (by rw [Nat.mul_comm]; exact hoc)
    rw [e2 _ (by rw [h0]; exact col_lt hb (col_lt hg (mem_range.1 hch))) k (mem_range.1 hk) t ht p hp]
    unfold Layer.weightR
    rw [Nat.div_add_mod']
  refine ⟨fun hw => ?_, fun hw => ?_⟩
  · unfold Call.forward outType
    rw [e1]
    dsimp only
    rw [if_neg (not_not.2 rfl), m1 hw]
    dsimp only
    cases hb : L.bias with
    | none =>
      refine ⟨_, rfl, rfl, rfl, rfl, fun b hbB oc hoc t ht p hp => ?_⟩
      dsimp only
      rw [hval b hbB oc hoc t ht p hp]
      unfold outputSpec
      rw [hb]
      exact (add_zero _).symm
    | some bs =>
      refine ⟨_, rfl, rfl, rfl, rfl, fun b hbB oc hoc t ht p hp => ?_⟩
      dsimp only
      rw [hval b hbB oc hoc t ht p hp, col_mod hoc]
      unfold outputSpec
      rw [hb]
      rfl
  · unfold Call.forward
    rw [e1]
    dsimp only
    rw [if_neg (not_not.2 rfl), m2 hw]

/-- C94: two calls of the same layer on the same values agree, whatever the devices, flags, builds, types and paths, as soon as both
return. -/
theorem C94_paths_agree (hL : FusedOf L taps) (hF : layerBuffers junk L = .ok F) (hK : 0 < L.kernelSize) (hH : 0 < L.nlatOut)
    (hle : L.nlatOut ≤ L.nlonIn) (c c' : Call R) (optimized fused optimized' fused' : Bool) (path path' : ConvPath)
    (hpath : c.path optimized fused L F = .ok path) (hpath' : c'.path optimized' fused' L F = .ok path') (hc : CallOk c L taps) (hc' : CallOk c' L taps)
    (B : ℕ) (x : Ten R) (h0 : x.d0 = B * (L.groups * L.groupsize)) (h1 : x.d1 = L.nlatIn) (h2 : x.d2 = L.nlonIn)
    (hn : 0 < x.d0 ∧ x.d0 ≤ planeLimit path ∧ x.d0 ≤ planeLimit path') (dt dt' : KDtype) (y y' : Ten R)
    (hy : c.forward L F path B (L.groups * L.groupsize) x = .ok (dt, y)) (hy' : c'.forward L F path' B (L.groups * L.groupsize) x = .ok (dt', y')) :
    y.d0 = y'.d0 ∧ y.d1 = y'.d1 ∧ y.d2 = y'.d2 ∧
      ∀ q < B * (L.groups * L.outPerGroup), ∀ t < L.nlatOut, ∀ p < L.nlonOut, y.val q t p = y'.val q t p := by
  obtain ⟨a1, a2⟩ := C94_output hL hF hK hH c optimized fused path hpath hc B x h0 h1 h2 (fun _ => ⟨hn.1, hn.2.1⟩) (fun _ => hle)
  obtain ⟨b1, b2⟩ := C94_output hL hF hK hH c' optimized' fused' path' hpath' hc' B x h0 h1 h2 (fun _ => ⟨hn.1, hn.2.2⟩) (fun _ => hle)
  by_cases hw : WeightTypeOk c path
  swap
  · rw [a2 hw] at hy; cases hy
  by_cases hw' : WeightTypeOk c' path'
  swap
  · rw [b2 hw'] at hy'; cases hy'
  obtain ⟨z, z1, z2, z3, z4, z5⟩ := a1 hw
  obtain ⟨z', z1', z2', z3', z4', z5'⟩ := b1 hw'
  rw [hy] at z1
  cases z1
  rw [hy'] at z1'
  cases z1'
  refine ⟨z2.trans z2'.symm, z3.trans z3'.symm, z4.trans z4'.symm, fun q hq t ht p hp => ?_⟩
  have hO : 0 < L.groups * L.outPerGroup := Nat.pos_of_ne_zero fun h => by rw [h] at hq; omega
  have hqB : q / (L.groups * L.outPerGroup) < B := Nat.div_lt_of_lt_mul (by rw [Nat.mul_comm]; exact hq)
  have := z5 _ hqB _ (Nat.mod_lt q hO) t ht p hp
  have h' := z5' _ hqB _ (Nat.mod_lt q hO) t ht p hp
  rw [Nat.div_add_mod'] at this h'
  rw [this, h']

/-! ### Gradients -/

/-- The documented weight gradient. -/
def gradWeightSpec (L : Layer R) (taps : List (Tap R)) (B : ℕ) (x gout : Ten R) (oc ch k : ℕ) : R :=
  ∑ b ∈ range B, ∑ t ∈ range L.nlatOut, ∑ p ∈ range L.nlonOut, (item gout (L.groups * L.outPerGroup) b).val oc t p *
    discoSum taps L.nlonIn L.nlonOut ((item x (L.groups * L.groupsize) b).val (oc / L.outPerGroup * L.groupsize + ch)) k t p

theorem gradWeight_value (B : ℕ) (x gout : Ten R) (xe : Ten4 R) (h0 : x.d0 = B * (L.groups * L.groupsize))
    (hxe : ∀ bc < x.d0, ∀ k < L.kernelSize, ∀ t < L.nlatOut, ∀ p < L.nlonOut, xe.val bc k t p = discoSum taps L.nlonIn L.nlonOut (x.val bc) k t p)
    (oc ch k : ℕ) (hoc : oc < L.groups * L.outPerGroup) (hch : ch < L.groupsize) (hk : k < L.kernelSize) :
    (batchGradWeight L B xe gout).val oc ch k = gradWeightSpec L taps B x gout oc ch k := by
  unfold batchGradWeight gradWeightSpec item
  dsimp only
  have hg : oc / L.outPerGroup < L.groups := Nat.div_lt_of_lt_mul (by rw [Nat.mul_comm]; exact hoc)
  refine sum_congr rfl fun b hb => sum_congr rfl fun t ht => sum_congr rfl fun p hp => ?_
  rw [hxe _ (by rw [h0]; exact col_lt (mem_range.1 hb) (col_lt hg hch)) k hk t (mem_range.1 ht) p (mem_range.1 hp)]

/-- C94: each combined operator answers with one entry per argument of its operator, the first two for input and weight. -/
theorem C94_backward (hL : FusedOf L taps) (hF : layerBuffers junk L = .ok F) (hK : 0 < L.kernelSize) (hH : 0 < L.nlatOut) (c : Call R)
    (optimized fused : Bool) (path : ConvPath) (hpath : c.path optimized fused L F = .ok path)
    (hcomb : path = .fused ∨ path = .fusedPacked ∨ path = .saved ∨ path = .savedPacked) (hc : CallOk c L taps) (B : ℕ) (x : Ten R)
    (h0 : x.d0 = B * (L.groups * L.groupsize)) (h1 : x.d1 = L.nlatIn) (h2 : x.d2 = L.nlonIn)
    (hn : c.device.isSome → 0 < x.d0 ∧ x.d0 ≤ 65535) (hO : 0 < L.outPerGroup)
    (xe : Ten4 R) (hxe : c.expand L F path x = .ok xe) (devs : ℕ → ℕ → Device R) (dev' : ℕ → Device R)
    (hdevs : ∀ i b, LegalDevice c.device.isSome L (devs i b)) (hdev' : ∀ b, LegalDevice c.device.isSome L (dev' b))
    (ac : Option KDtype) (hac : HalfAutocast ac) (gout : Ten R) (need : Bool × Bool) :
    ∃ gi gw dt, c.backward junk devs dev' ac path L F need B x xe (outDt c path) gout
        = .ok ((if need.1 then some (outDt c path, gi) else none) :: (if need.2 then some (dt, gw) else none) :: List.replicate (pathArity path - 2) none) ∧
      gi.d0 = x.d0 ∧ gi.d1 = L.nlatIn ∧ gi.d2 = L.nlonIn ∧
      gw.d0 = L.groups * L.outPerGroup ∧ gw.d1 = L.groupsize ∧ gw.d2 = L.kernelSize ∧
      (∀ b < B, ∀ ic < L.groups * L.groupsize, ∀ i < L.nlatIn, ∀ j < L.nlonIn, gi.val (b * (L.groups * L.groupsize) + ic) i j
        = gradInputSpec L taps (item gout (L.groups * L.outPerGroup) b) ic i j) ∧
      ∀ oc < L.groups * L.outPerGroup, ∀ ch < L.groupsize, ∀ k < L.kernelSize, gw.val oc ch k = gradWeightSpec L taps B x gout oc ch k := by
  have hlim : x.d0 ≤ 65535 → x.d0 ≤ planeLimit path := by intro h; cases path <;> simp only [planeLimit] <;> omega
  obtain ⟨xe0, f1, f2⟩ := expand_ok hL hF hK hH c optimized fused path hpath x hc (fun h => ⟨(hn h).1, hlim (hn h).2⟩) h1 h2
    (by rcases hcomb with rfl | rfl | rfl | rfl <;> intro h <;> cases h)
  rw [hxe] at f1
  cases f1
  have hdev := fun hp => packed_device hpath hp
  have hS : ∀ i b, Sound (devs i b) L taps junk F := fun i b => legal_sound junk L taps hL F hF _ hc.lat _ (hdevs i b)
  have hS' : ∀ b, Sound (dev' b) L taps junk F := fun b => legal_sound junk L taps hL F hF _ hc.lat _ (hdev' b)
  have hgrid : gridOk c.device.isSome x.d0 = true := by
    unfold gridOk
    cases hd : c.device.isSome with
    | false => rfl
    | true => simpa using hn hd
  obtain ⟨gi, i1, i2, i3, i4, i5⟩ := batchGradInput_ok hL hF c.device.isSome devs hS ac hac (outDt c path) B gout hO (by rw [← h0]; exact hn)
  have hty : typesOk c.device.isSome (c.expandDt path) (computeDtype (outDt c path)) = true := by
    have : computeDtype (outDt c path) = computeDtype (c.expandDt path) := by
      have hac' := hc.ac
      clear hS hS' hgrid hn hc hpath hxe hdevs hdev' i1 i5
      obtain ⟨tg, dev, ac0, xdt, wdt, bdt, dv, run⟩ := c
      unfold outDt Call.expandDt Call.kdt
      dsimp only at hac' hdev ⊢
      rcases hcomb with rfl | rfl | rfl | rfl
      · rcases hac' with rfl | rfl | rfl <;> cases dev <;> cases xdt <;> simp [computeDtype]
      · obtain ⟨d, rfl⟩ := hdev (by simp)
        rcases hac' with rfl | rfl | rfl <;> cases xdt <;> simp [computeDtype]
      · rcases hac' with rfl | rfl | rfl <;> cases dev <;> cases xdt <;> simp [computeDtype]
      · obtain ⟨d, rfl⟩ := hdev (by simp)
        rcases hac' with rfl | rfl | rfl <;> cases xdt <;> simp [computeDtype]
    rw [this]
    exact typesOk_self _ _
  obtain ⟨xr, r1, r2⟩ := csrForward_ok c.device.isSome dev' hS' _ _ hty x h1 h2 hgrid
  have r2' : ∀ bc < x.d0, ∀ k < L.kernelSize, ∀ t < L.nlatOut, ∀ p < L.nlonOut, xr.val bc k t p = discoSum taps L.nlonIn L.nlonOut (x.val bc) k t p :=
    fun bc hbc k _ t _ p hp => r2 bc hbc k t p hp
  have hes := einsumDt_self ac (outDt c path)
  generalize operandDt ac (outDt c path) = dt0 at hes
  rcases hcomb with rfl | rfl | rfl | rfl
  case inl | inr.inl =>
    refine ⟨gi, batchGradWeight L B xr gout, dt0, ?_, i2.trans h0.symm, i3, i4, rfl, rfl, rfl, fun b hb ic hic i _ j hj =>
      i5 b hb ic hic i j hj, fun oc hoc ch hch k hk => gradWeight_value B x gout xr h0 r2' oc ch k hoc hch hk⟩
    unfold Call.backward
    dsimp only
    rw [i1, r1]
    dsimp only
    rw [hes]
    obtain ⟨n1, n2⟩ := need
    cases n1 <;> cases n2 <;> rfl
  all_goals
    refine ⟨gi, batchGradWeight L B xe gout, dt0, ?_, i2.trans h0.symm, i3, i4, rfl, rfl, rfl, fun b hb ic hic i _ j hj =>
      i5 b hb ic hic i j hj, fun oc hoc ch hch k hk => gradWeight_value B x gout xe h0 f2 oc ch k hoc hch hk⟩
    unfold Call.backward
    dsimp only
    rw [i1]
    dsimp only
    rw [hes]
    obtain ⟨n1, n2⟩ := need
    cases n1 <;> cases n2 <;> rfl

/-- C94: on each of the six optimized paths, input and weight receive the documented gradients, exactly when asked for. `ac` is the autocast
state while the gradients are computed; the kernels of the backward pass may be scheduled differently from those of the forward pass. -/
theorem C94_gradients (hL : FusedOf L taps) (hF : layerBuffers junk L = .ok F) (hK : 0 < L.kernelSize) (hH : 0 < L.nlatOut) (c : Call R)
    (optimized fused : Bool) (path : ConvPath) (hpath : c.path optimized fused L F = .ok path) (hopt : path ≠ .reference) (hc : CallOk c L taps)
    (B : ℕ) (x : Ten R) (h0 : x.d0 = B * (L.groups * L.groupsize)) (h1 : x.d1 = L.nlatIn) (h2 : x.d2 = L.nlonIn)
    (hn : c.device.isSome → 0 < x.d0 ∧ x.d0 ≤ 65535) (hO : 0 < L.outPerGroup)
    (xe : Ten4 R) (hxe : c.expand L F path x = .ok xe) (devs : ℕ → ℕ → Device R) (dev' : ℕ → Device R)
    (hdevs : ∀ i b, LegalDevice c.device.isSome L (devs i b)) (hdev' : ∀ b, LegalDevice c.device.isSome L (dev' b))
    (ac : Option KDtype) (hac : HalfAutocast ac) (gout : Ten R) (need : Bool × Bool) :
    ∃ gi gw, c.gradients junk devs dev' ac path L F need B x xe (outDt c path) gout
        = .ok (if need.1 then some gi else none, if need.2 then some gw else none) ∧
      gi.d0 = x.d0 ∧ gi.d1 = L.nlatIn ∧ gi.d2 = L.nlonIn ∧
      gw.d0 = L.groups * L.outPerGroup ∧ gw.d1 = L.groupsize ∧ gw.d2 = L.kernelSize ∧
      (∀ b < B, ∀ ic < L.groups * L.groupsize, ∀ i < L.nlatIn, ∀ j < L.nlonIn, gi.val (b * (L.groups * L.groupsize) + ic) i j
        = gradInputSpec L taps (item gout (L.groups * L.outPerGroup) b) ic i j) ∧
      ∀ oc < L.groups * L.outPerGroup, ∀ ch < L.groupsize, ∀ k < L.kernelSize, gw.val oc ch k = gradWeightSpec L taps B x gout oc ch k := by
  by_cases hcomb : path = .fused ∨ path = .fusedPacked ∨ path = .saved ∨ path = .savedPacked
  · obtain ⟨gi, gw, dt, b1, b2⟩ := C94_backward hL hF hK hH c optimized fused path hpath hcomb hc B x h0 h1 h2 hn hO xe hxe devs dev' hdevs hdev'
      ac hac gout need
    refine ⟨gi, gw, ?_, b2⟩
    unfold Call.gradients
    obtain ⟨n1, n2⟩ := need
    rcases hcomb with rfl | rfl | rfl | rfl <;> dsimp only <;> rw [b1] <;> cases n1 <;> cases n2 <;> rfl
  · have hlim : x.d0 ≤ 65535 → x.d0 ≤ planeLimit path := by intro h; cases path <;> simp only [planeLimit] <;> omega
    obtain ⟨xe0, f1, f2⟩ := expand_ok hL hF hK hH c optimized fused path hpath x hc (fun h => ⟨(hn h).1, hlim (hn h).2⟩) h1 h2
      (fun h => absurd h hopt)
    rw [hxe] at f1
    cases f1
    have hgrid : gridOk c.device.isSome (B * (L.groups * L.groupsize)) = true := by
      rw [← h0]
      unfold gridOk
      cases hd : c.device.isSome with
      | false => rfl
      | true => simpa using hn hd
    have hS : ∀ b, Sound (devs 0 b) L taps junk F := fun b => legal_sound junk L taps hL F hF _ hc.lat _ (hdevs 0 b)
    obtain ⟨z, z1, z2, z3, z4, z5⟩ := csrBackward_ok c.device.isSome (devs 0) hS (c.expandDt path) (computeDtype (c.expandDt path))
      (typesOk_self _ _) (B * (L.groups * L.groupsize)) (mixBack L B gout).val hgrid
    change csrBackward _ _ _ _ _ (mixBack L B gout) _ _ = _ at z1
    refine ⟨z, batchGradWeight L B xe gout, ?_, z2.trans h0.symm, z3, z4, rfl, rfl, rfl, fun b hb ic hic i _ j hj => ?_, fun oc hoc ch hch k hk =>
      gradWeight_value B x gout xe h0 f2 oc ch k hoc hch hk⟩
    · obtain ⟨n1, n2⟩ := need
      have hp : path = .packed ∨ path = .csr := by
        cases path <;> simp at hcomb hopt ⊢
      unfold Call.gradients Call.contractionBackward
      rcases hp with rfl | rfl <;> dsimp only <;> rw [z1] <;> cases n1 <;> cases n2 <;> rfl
    · rw [z5 _ (col_lt hb hic) i j hj]
      unfold mixBack gradInputSpec
      dsimp only
      rw [col_div hic, col_mod hic]
      rfl

/-- C94: without bias, the input gradient of every optimized path is the transpose of the forward of every path: `<conv(x), g> = <x, grad>`,
summed over the batch. -/
theorem C94_transpose (hL : FusedOf L taps) (hF : layerBuffers junk L = .ok F) (hK : 0 < L.kernelSize) (hH : 0 < L.nlatOut) (hb : L.bias = none)
    (hle : L.nlatOut ≤ L.nlonIn) (c c' : Call R) (optimized fused optimized' fused' : Bool) (path path' : ConvPath)
    (hpath : c.path optimized fused L F = .ok path) (hpath' : c'.path optimized' fused' L F = .ok path') (hopt : path' ≠ .reference)
    (hc : CallOk c L taps) (hc' : CallOk c' L taps) (hw : WeightTypeOk c path) (B : ℕ) (x : Ten R) (h0 : x.d0 = B * (L.groups * L.groupsize))
    (h1 : x.d1 = L.nlatIn) (h2 : x.d2 = L.nlonIn) (hn : 0 < x.d0 ∧ x.d0 ≤ 65535) (hG : 0 < L.groupsize) (hO : 0 < L.outPerGroup)
    (xe : Ten4 R) (hxe : c'.expand L F path' x = .ok xe) (devs : ℕ → ℕ → Device R) (dev' : ℕ → Device R)
    (hdevs : ∀ i b, LegalDevice c'.device.isSome L (devs i b)) (hdev' : ∀ b, LegalDevice c'.device.isSome L (dev' b))
    (ac : Option KDtype) (hac : HalfAutocast ac) (gout : Ten R) (needW : Bool) :
    ∃ y gi gw, c.forward L F path B (L.groups * L.groupsize) x = .ok (outType c L path, y) ∧
      c'.gradients junk devs dev' ac path' L F (true, needW) B x xe (outDt c' path') gout = .ok (some gi, gw) ∧
      ∑ b ∈ range B, ∑ oc ∈ range (L.groups * L.outPerGroup), ∑ t ∈ range L.nlatOut, ∑ p ∈ range L.nlonOut,
          y.val (b * (L.groups * L.outPerGroup) + oc) t p * gout.val (b * (L.groups * L.outPerGroup) + oc) t p
        = ∑ b ∈ range B, ∑ ic ∈ range (L.groups * L.groupsize), ∑ i ∈ range L.nlatIn, ∑ j ∈ range L.nlonIn,
          x.val (b * (L.groups * L.groupsize) + ic) i j * gi.val (b * (L.groups * L.groupsize) + ic) i j := by
  have hlim : x.d0 ≤ planeLimit path := by cases path <;> simp only [planeLimit] <;> omega
  obtain ⟨y, y1, -, -, -, y5⟩ := (C94_output hL hF hK hH c optimized fused path hpath hc B x h0 h1 h2 (fun _ => ⟨hn.1, hlim⟩) (fun _ => hle)).1 hw
  obtain ⟨gi, gw, g1, -, -, -, -, -, -, g5, -⟩ := C94_gradients hL hF hK hH c' optimized' fused' path' hpath' hopt hc' B x h0 h1 h2 (fun _ => hn) hO
    xe hxe devs dev' hdevs hdev' ac hac gout (true, needW)
  refine ⟨y, gi, _, y1, g1, sum_congr rfl fun b hbB => ?_⟩
  obtain ⟨s, roff, D, P, hp, -⟩ := buffers_inv junk L F hF
  obtain ⟨yc, a1, -, -, -, a5⟩ := C34_fused_forward junk L taps hL s roff hp (fun _ => 0) (fun _ _ => 0) _ (List.Perm.refl _)
    (item x (L.groups * L.groupsize) b) ⟨rfl, h1, h2⟩
  obtain ⟨zc, b1, -, -, -, b5⟩ := C34_input_gradient junk L taps hL s roff hp (item gout (L.groups * L.outPerGroup) b) (fun _ => 0) (fun _ _ => rfl)
  obtain ⟨yc', zc', d1, d2, d3⟩ := C34_input_gradient_adjoint junk L taps hL s roff hp hb (fun _ => 0) (fun _ _ => 0) _ (List.Perm.refl _)
    (fun _ => 0) (fun _ _ => rfl) (item x (L.groups * L.groupsize) b) (item gout (L.groups * L.outPerGroup) b) ⟨rfl, h1, h2⟩ hG hO
  rw [a1] at d1
  cases d1
  rw [b1] at d2
  cases d2
  have e1 : ∑ oc ∈ range (L.groups * L.outPerGroup), ∑ t ∈ range L.nlatOut, ∑ p ∈ range L.nlonOut,
      y.val (b * (L.groups * L.outPerGroup) + oc) t p * gout.val (b * (L.groups * L.outPerGroup) + oc) t p
      = ∑ oc ∈ range (L.groups * L.outPerGroup), ∑ t ∈ range L.nlatOut, ∑ p ∈ range L.nlonOut,
        yc.val oc t p * (item gout (L.groups * L.outPerGroup) b).val oc t p :=
    sum_congr rfl fun oc hoc => sum_congr rfl fun t ht => sum_congr rfl fun p hpp => by
      rw [y5 b (mem_range.1 hbB) oc (mem_range.1 hoc) t (mem_range.1 ht) p (mem_range.1 hpp), a5 oc t p (mem_range.1 hpp)]
      rfl
  have e2 : ∑ ic ∈ range (L.groups * L.groupsize), ∑ i ∈ range L.nlatIn, ∑ j ∈ range L.nlonIn,
      x.val (b * (L.groups * L.groupsize) + ic) i j * gi.val (b * (L.groups * L.groupsize) + ic) i j
      = ∑ ic ∈ range (L.groups * L.groupsize), ∑ i ∈ range L.nlatIn, ∑ j ∈ range L.nlonIn,
        (item x (L.groups * L.groupsize) b).val ic i j * zc.val ic i j :=
    sum_congr rfl fun ic hic => sum_congr rfl fun i hi => sum_congr rfl fun j hj => by
      rw [g5 b (mem_range.1 hbB) ic (mem_range.1 hic) i (mem_range.1 hi) j (mem_range.1 hj), b5 ic i j (mem_range.1 hj)]
      rfl
  rw [e1, e2]
  exact d3

/-! ### The choice of the path, and what depends on it -/

omit [CommSemiring R] in
/-- C94: on the CPU no packed path is taken, and the path follows the flags of the layer and the ratio of its channels. -/
theorem C94_cpu_path (c : Call R) (hd : c.device = none) (fused : Bool) :
    c.path false fused L F = .ok .reference ∧ c.path true true L F = .ok .fused ∧
      c.path true false L F = .ok (if 1 < L.kernelSize ∧ L.outPerGroup * 2 ≤ L.groupsize ∧ F.numelRoff = L.kernelSize * L.nlatOut + 1 then .saved else .csr) := by
  have hk : ∀ o, serialKpackedOk o (F.packed.map fun P => P.1.kPad) c.kdt c.targets c.device L.nlonIn L.nlonOut = .ok false := by
    intro o
    unfold serialKpackedOk
    rw [hd]
    split <;> rfl
  refine ⟨?_, ?_, ?_⟩
  · unfold Call.path
    rw [hk]
    cases fused <;> rfl
  · unfold Call.path
    rw [hk]
    rfl
  · unfold Call.path
    rw [hk]
    dsimp only
    congr 1
    unfold choosePath saveXOk useSpatialFirst
    simp only [Bool.and_false, Bool.false_eq_true, if_false, Bool.and_true, Bool.true_and, if_true, Bool.or_false]
    by_cases h : L.kernelSize ≤ 1 ∨ L.outPerGroup * 2 > L.groupsize
    · rw [if_pos h, if_neg (by decide), if_neg (by omega)]
    · rw [if_neg h]
      push Not at h
      simp only [h.1, h.2, true_and, decide_eq_true_eq]

omit [CommSemiring R] in
/-- C94, finding: without autocast, whether a layer accepts an input of another type than its weight depends on the path: the combined
operators accept it, the others raise. On the CPU the path is decided by `fused` and by the number of channels per group. -/
theorem C94_mixed_types (c : Call R) (hac : c.ac = none) (hne : c.wdt ≠ c.xdt) (path : ConvPath) :
    WeightTypeOk c path ↔ path = .fusedPacked ∨ path = .fused ∨ path = .savedPacked ∨ path = .saved := by
  unfold WeightTypeOk
  rw [hac]
  cases path <;> simp [hne]

omit [CommSemiring R] in
/-- C94, finding: under autocast the type of the output depends on the bias. With a single-precision bias it is single precision, without
bias the autocast type (for inputs that are not in double precision). -/
theorem C94_bias_type (c : Call R) (a : KDtype) (hac : c.ac = some a) (ha : a = .f16 ∨ a = .bf16) (hx : c.xdt ≠ .f64) (hb : c.bdt = .f32)
    (path : ConvPath) : outType c L path = if L.bias.isSome then .f32 else a := by
  unfold outType outDt
  rw [hac]
  dsimp only
  rw [if_neg (by tauto), hb]
  cases L.bias <;> rcases ha with rfl | rfl <;> rfl

omit [CommSemiring R] in
/-- C94, finding: under CPU autocast a double-precision input and a single-precision weight give a double-precision output on the combined
paths, a half-precision output on the plain optimized path and an exception on the reference path. -/
theorem C94_double_autocast (c : Call R) (a : KDtype) (hac : c.ac = some a) (hd : c.device = none) (hx : c.xdt = .f64) (hw : c.wdt = .f32) :
    (WeightTypeOk c .fused ∧ outDt c .fused = .f64) ∧ (WeightTypeOk c .saved ∧ outDt c .saved = .f64) ∧
      (WeightTypeOk c .csr ∧ outDt c .csr = a) ∧ ¬ WeightTypeOk c .reference := by
  unfold WeightTypeOk outDt
  rw [hac, hd, hx, hw]
  simp

/-- C94, finding: the tensor-core forward accepts up to 524280 planes (`C94_output`), the kernels of its backward pass only 65535: for a
larger batch the input gradient of the packed contraction and the weight gradient of the packed fused operator raise. -/
theorem C94_large_batch (c : Call R) (d : KDevice) (hd : c.device = some d) (B : ℕ) (hB : 65535 < B * (L.groups * L.groupsize)) (x : Ten R)
    (h0 : x.d0 = B * (L.groups * L.groupsize)) (xe : Ten4 R) (devs : ℕ → ℕ → Device R) (dev' : ℕ → Device R) (ac : Option KDtype) (gdt : KDtype)
    (gout : Ten R) (b : Bool) :
    c.gradients junk devs dev' ac .packed L F (true, b) B x xe gdt gout = .error .runtimeError ∧
      c.gradients junk devs dev' ac .fusedPacked L F (false, true) B x xe gdt gout = .error .runtimeError := by
  have hg : ¬ gridOk true (B * (L.groups * L.groupsize)) = true := by
    unfold gridOk
    simp
    omega
  constructor
  · unfold Call.gradients Call.contractionBackward csrBackward
    rw [hd]
    dsimp only [Option.isSome]
    rw [if_pos rfl, if_neg (not_not.2 (typesOk_self _ _)), if_pos (show ¬ gridOk true (mixBack L B gout).d0 = true from hg)]
  · unfold Call.gradients Call.backward csrForward
    rw [hd]
    dsimp only [Option.isSome]
    rw [h0, if_pos hg]
    by_cases ht : typesOk true (c.expandDt .fusedPacked) (computeDtype gdt) = true
    · rw [if_neg (not_not.2 ht)]
      rfl
    · rw [if_pos ht]
      rfl

end

/-! ### Cases meeting the hypotheses -/

/-- Two kernels with the same neighbours, so that the filter can be packed. -/
def pathTaps : List (Tap ℤ) :=
  [⟨0, 0, 0, 1, 2⟩, ⟨0, 0, 1, 3, 5⟩, ⟨0, 1, 1, 0, 4⟩, ⟨1, 0, 0, 1, 3⟩, ⟨1, 0, 1, 3, 7⟩, ⟨1, 1, 1, 0, 6⟩]

/-- One group of two channels to one; eight longitudes. -/
def exPaths : Layer ℤ :=
  { groups := 1, groupsize := 2, outPerGroup := 1, kernelSize := 2, nlatIn := 2, nlonIn := 8, nlatOut := 2, nlonOut := 8
    weight := fun o c k => (o + c + k : ℕ), bias := none, entries := pathTaps.map (encode 8) }

theorem exPaths_ok : FusedOf exPaths pathTaps ∧ LatSorted 8 (pathTaps.map (encode 8)) := by
  refine ⟨⟨rfl, by intro a ha; fin_cases ha <;> decide, by decide, by decide, by decide, by decide, ?_, ?_⟩, ?_⟩
  · exact fun k => pairwise_filter_ker _ (by decide) k
  · unfold NoCollision; decide
  · exact fun k => pairwise_filter_ker _ (by decide) k

def pathJunk : ℕ → Entry ℤ := fun _ => ⟨0, 0, 0, 0⟩

theorem exPaths_buffers : ∃ F, layerBuffers pathJunk exPaths = .ok F ∧ F.numelRoff = 5 ∧ F.packed.map (fun P => P.1.kPad) = some 8 := by
  have h : ((layerBuffers pathJunk exPaths).toOption.map fun F => (F.numelRoff, F.packed.map fun P => P.1.kPad)) = some (5, some 8) := by decide +kernel
  cases hF : layerBuffers pathJunk exPaths with
  | error e => rw [hF] at h; cases h
  | ok F =>
    rw [hF] at h
    have := Option.some.inj h
    exact ⟨F, rfl, congrArg Prod.fst this, congrArg Prod.snd this⟩

/-- A call on the CPU in single precision. -/
def cpuCall : Call ℤ :=
  ⟨[], none, none, .f32, .f32, .f32, fun _ _ => cpuDevice ⟨fun _ => 0, fun _ _ => 0, List.range, fun _ => 0⟩,
    ⟨128, fun _ _ _ => 7, fun _ _ _ _ => 7, fun _ _ _ l => l.reverse, fun l => l.reverse⟩⟩

/-- A schedule of the GPU, with 48 KiB of single-precision numbers. -/
def gpuNoise : GpuNoise ℤ :=
  ⟨12288, fun _ _ => 7, fun _ _ => (List.range 8).reverse, fun m => (List.range m).reverse, fun _ _ _ => 7,
    fun _ _ => (List.range (blockThreads 8 * max (minElements 8) (ceilDiv 8 (blockThreads 8)))).reverse, fun l => l.reverse⟩

/-- A call on a Hopper GPU under autocast to bfloat16. -/
def gpuCall : Call ℤ :=
  ⟨[⟨9, 0, true⟩], some ⟨9, 0⟩, some .bf16, .f32, .f32, .f32, fun _ _ => gpuDevice gpuNoise,
    ⟨128, fun _ _ _ => 7, fun _ _ _ _ => 7, fun _ _ _ l => l.reverse, fun l => l.reverse⟩⟩

theorem gpuNoise_legal : gpuNoise.Legal exPaths :=
  ⟨by decide, fun _ => List.reverse_perm _, fun _ _ => List.reverse_perm _, fun _ _ => List.reverse_perm _, fun l => List.reverse_perm l,
    by decide, by decide⟩

/-- Both calls are legal, and together with the flags they reach five of the paths; the weight is accepted on each. -/
example : CallOk cpuCall exPaths pathTaps ∧ CallOk gpuCall exPaths pathTaps ∧
    ∃ F, layerBuffers pathJunk exPaths = .ok F ∧ cpuCall.path false false exPaths F = .ok .reference ∧ cpuCall.path true true exPaths F = .ok .fused ∧
      cpuCall.path true false exPaths F = .ok .saved ∧ gpuCall.path true true exPaths F = .ok .fusedPacked ∧
      gpuCall.path true false exPaths F = .ok .savedPacked ∧
      WeightTypeOk cpuCall .reference ∧ WeightTypeOk cpuCall .saved ∧ WeightTypeOk gpuCall .savedPacked ∧
      0 < exPaths.kernelSize ∧ 0 < exPaths.nlatOut ∧ exPaths.nlatOut ≤ exPaths.nlonIn := by
  refine ⟨⟨Or.inl rfl, fun _ _ => ?_, fun h => (by cases h), ⟨by decide, by decide, fun _ _ _ l => List.reverse_perm l, fun l => List.reverse_perm l⟩,
    fun d h => (by cases h), by decide⟩, ⟨Or.inr (Or.inr rfl), fun _ _ => ?_, fun _ => exPaths_ok.2, ⟨by decide, by decide, fun _ _ _ l => List.reverse_perm l, fun l => List.reverse_perm l⟩,
    fun d h _ => (by cases h; decide), by decide⟩, ?_⟩
  · unfold LegalDevice
    rw [if_neg (by decide)]
    exact ⟨_, rfl, fun _ => List.Perm.refl _, fun _ _ => rfl⟩
  · unfold LegalDevice
    rw [if_pos (by decide)]
    exact ⟨_, rfl, gpuNoise_legal⟩
  · obtain ⟨F, f1, f2, f3⟩ := exPaths_buffers
    have hs : saveXOk true exPaths F = true := by
      unfold saveXOk useSpatialFirst
      rw [f2]
      decide
    refine ⟨F, f1, (C94_cpu_path _ rfl false).1, (C94_cpu_path _ rfl false).2.1, ?_, ?_, ?_, rfl, trivial, trivial, by decide, by decide, by decide⟩
    · rw [(C94_cpu_path cpuCall rfl false).2.2, f2, if_pos (by decide)]
    · unfold Call.path
      rw [f3, hs]
      rfl
    · unfold Call.path
      rw [f3, hs]
      rfl

/-- The documented output of that layer at one point of the second item of a batch of two. -/
example : outputSpec exPaths pathTaps (item ⟨4, 2, 8, fun c i j => (100 * c + 10 * i + j : ℕ)⟩ 2 1) 0 0 0 = 10449 := by decide +kernel

end Verif.Props
