import Verif.Lemmas.AttentionCudaOp
import Verif.Props.AttentionLayout
/-!
Property C68: the GPU forward operator of neighbourhood attention computes attention head by head, for every channel count its
launches admit, whatever kernel variant is chosen, whatever order rows, stores and atomic operations come in, and whatever shared and
fresh memory contain.
-/
namespace Verif.Props
open Verif Verif.Attn Verif.Spec.Attn Verif.AttnGpu Finset

/-- What the GPU operator admits. Gather direction (longitudes of the input a multiple of those of the output): at most 65535 pairs of
batch entry and head; up to 512 value channels per head 6144 query channels; beyond, up to 16384 value channels, and 12288 query
channels less the warps of a block. Scatter direction: at most 6144 channels together. Grid extents are below `2 ^ 31`. -/
def GpuFits (B nh Ck Cv nlatIn nlonIn nlatOut nlonOut : ℕ) : Prop :=
  if nlonIn % nlonOut = 0 then
    Cv = 0 ∨ (B * nh ≤ 65535 ∧
      if Cv ≤ 512 then nlatOut * nlonOut ≤ 2 * 2147483647 ∧ Ck ≤ 6144
      else nlatOut * nlonOut ≤ 2147483647 ∧ Cv ≤ 16384 ∧
        Ck + (if Cv ≤ 1024 then 2 else if Cv ≤ 2048 then 4 else if Cv ≤ 4096 then 8 else if Cv ≤ 8192 then 16 else 32) ≤ 12288)
  else B * nh ≤ 65535 ∧ nlatIn * nlonIn ≤ 2 * 2147483647 ∧ nlatOut * nlonOut ≤ 2 * 2147483647 ∧ Ck + Cv ≤ 6144

section
variable {B nh Ck Cv nlatIn nlonIn nlatOut nlonOut : ℕ} {P : Pattern} {k v q : Arr}

/-- A head of a packed tensor as the kernels address it. -/
theorem headView_at {x : Arr} {B H W nh C : ℕ} (hx : x.shape = [B, H, W, nh * C]) {b n : ℕ} (hn : n < nh) (c h w : ℕ) :
    headView H W nh C x.data (b * nh + n) c h w = packedHead C n x b c h w := by
  obtain ⟨e1, e2⟩ := div_mul_add (a := b) hn
  unfold headView packedHead Arr.at
  rw [hx, flat4, e1, e2]

theorem gpuDims_eq (F : OpFits B nh Ck Cv nlatIn nlonIn nlatOut nlonOut P k v q) :
    gpuDims nh k v q nlonIn nlatOut nlonOut = ⟨B, Ck, Cv, nlatIn, nlonIn, nlatOut, nlonOut⟩ := by
  unfold gpuDims
  rw [F.hk, F.hv, F.hq]
  simp only [List.getD_cons_zero, List.getD_cons_succ]
  rw [Nat.mul_div_cancel_left _ F.posn, Nat.mul_div_cancel_left _ F.posn]

theorem gpuChecks_ok (F : OpFits B nh Ck Cv nlatIn nlonIn nlatOut nlonOut P k v q) :
    gpuChecks nh v q nlonIn nlonOut = .ok (decide (nlonIn % nlonOut = 0)) := by
  have h1 := F.poslonIn
  have h2 := F.poslonOut
  have h3 := F.posn
  unfold gpuChecks
  rw [if_neg (by omega), if_neg (not_not.2 F.dir), if_neg (by omega), F.hq, F.hv]
  simp

theorem gpuFits_gather (F : OpFits B nh Ck Cv nlatIn nlonIn nlatOut nlonOut P k v q) (hg : nlonIn % nlonOut = 0) :
    GpuFits B nh Ck Cv nlatIn nlonIn nlatOut nlonOut ↔ Cv = 0 ∨ GatherLaunch (B * nh) Ck Cv (nlatOut * nlonOut) := by
  have h1 := Nat.mul_pos F.posB F.posn
  have h2 := Nat.mul_pos F.poslatOut F.poslonOut
  unfold GpuFits GatherLaunch fwdWarps
  rw [if_pos hg]
  constructor
  · rintro (h | ⟨h, h'⟩)
    · exact Or.inl h
    · exact Or.inr ⟨h2, h1, h, h'⟩
  · rintro (h | ⟨-, -, h, h'⟩)
    · exact Or.inl h
    · exact Or.inr ⟨h, h'⟩

theorem gpuFits_scatter (F : OpFits B nh Ck Cv nlatIn nlonIn nlatOut nlonOut P k v q) (hg : ¬ nlonIn % nlonOut = 0) :
    GpuFits B nh Ck Cv nlatIn nlonIn nlatOut nlonOut ↔ ScatterLaunch ⟨B, Ck, Cv, nlatIn, nlonIn, nlatOut, nlonOut⟩ nh := by
  have h1 := Nat.mul_pos F.posB F.posn
  have h2 := Nat.mul_pos F.poslatOut F.poslonOut
  have h3 := Nat.mul_pos F.poslatIn F.poslonIn
  rw [scatterLaunch_iff]
  unfold GpuFits
  rw [if_neg hg]
  dsimp only
  exact ⟨fun h => ⟨h3, h2, h1, h⟩, fun h => h.2.2.2⟩

/-- C68: the GPU operator. Every entry of the output is the attention of its head, and the rest of the memory is left alone. -/
theorem C68_operator_gpu (F : OpFits B nh Ck Cv nlatIn nlonIn nlatOut nlonOut P k v q) (w : ℕ → ℝ) (r : GpuRun) (hr : RunOk r nlatOut)
    (hl : GpuFits B nh Ck Cv nlatIn nlonIn nlatOut nlonOut) :
    ∃ y, gpuOp r w P nh nlonIn nlatOut nlonOut k v q = .ok y ∧ y.shape = [B, nlatOut, nlonOut, nh * Cv] ∧
      (∀ b < B, ∀ n < nh, ∀ c < Cv, ∀ ho < nlatOut, ∀ wo < nlonOut, y.at [b, ho, wo, n * Cv + c]
        = attention Ck w (opNbrs P nlatIn nlonIn nlonOut) (packedHead Ck n k) (packedHead Cv n v) (packedHead Ck n q) b c ho wo) ∧
      ∀ i, B * nlatOut * nlonOut * (nh * Cv) ≤ i → y.data i = r.mem i := by
  have key : ∃ out, gpuOp r w P nh nlonIn nlatOut nlonOut k v q = .ok ⟨[B, nlatOut, nlonOut, Cv * nh], out⟩ ∧
      (∀ bh < B * nh, ∀ c < Cv, ∀ ho < nlatOut, ∀ wo < nlonOut, headView nlatOut nlonOut nh Cv out bh c ho wo
        = attention Ck w (opNbrs P nlatIn nlonIn nlonOut) (headView nlatIn nlonIn nh Ck k.data) (headView nlatIn nlonIn nh Cv v.data)
          (headView nlatOut nlonOut nh Ck q.data) bh c ho wo) ∧
      ∀ i, B * nlatOut * nlonOut * (Cv * nh) ≤ i → out i = r.mem i := by
    by_cases hg : nlonIn % nlonOut = 0
    · obtain ⟨out, o1, o2, o3⟩ := gpuGather_eq (r := r) (d := ⟨B, Ck, Cv, nlatIn, nlonIn, nlatOut, nlonOut⟩) (nh := nh) (w := w) (P := P) (k := k.data)
        (v := v.data) (q := q.data) F.posn hr ((gpuFits_gather F hg).1 hl)
      refine ⟨out, ?_, ?_, o3⟩
      · unfold gpuOp
        rw [gpuChecks_ok F, bind_ok]
        dsimp only
        rw [gpuDims_eq F, decide_eq_true hg, if_pos rfl, o1]
        rfl
      · have : opNbrs P nlatIn nlonIn nlonOut = gatherNbrs P nlonIn (nlonIn / nlonOut) := by
          funext ho wo
          unfold opNbrs
          rw [if_pos hg]
        rw [this]
        exact o2
    · have hfit := F.fits
      rw [if_neg hg] at hfit
      obtain ⟨out, o1, o2, o3⟩ := gpuScatter_eq (r := r) (d := ⟨B, Ck, Cv, nlatIn, nlonIn, nlatOut, nlonOut⟩) (nh := nh) (w := w) (P := P) (k := k.data)
        (v := v.data) (q := q.data) F.posn hr.perm hfit (F.dir.resolve_left hg) F.poslonOut ((gpuFits_scatter F hg).1 hl)
      refine ⟨out, ?_, ?_, o3⟩
      · unfold gpuOp
        rw [gpuChecks_ok F, bind_ok]
        dsimp only
        rw [gpuDims_eq F, decide_eq_false hg, if_neg (by simp), o1]
        rfl
      · have : opNbrs P nlatIn nlonIn nlonOut = scatterNbrs P nlatIn nlonIn nlonOut (nlonOut / nlonIn) := by
          funext ho wo
          unfold opNbrs
          rw [if_neg hg]
        rw [this]
        exact o2
  obtain ⟨out, o1, o2, o3⟩ := key
  rw [Nat.mul_comm Cv nh] at o1 o3
  refine ⟨_, o1, rfl, fun b hb n hn c hc ho hho wo hwo => ?_, o3⟩
  have := o2 (b * nh + n) (packed_lt hb hn) c hc ho hho wo hwo
  rw [show out = (⟨[B, nlatOut, nlonOut, nh * Cv], out⟩ : Arr).data from rfl, headView_at rfl hn] at this
  rw [show (⟨[B, nlatOut, nlonOut, nh * Cv], out⟩ : Arr).at [b, ho, wo, n * Cv + c] = packedHead Cv n ⟨[B, nlatOut, nlonOut, nh * Cv], out⟩ b c ho wo
    from rfl, this]
  exact attention_congr (fun p _ e _ => headView_at F.hk hn e p.1 p.2) (fun p _ => headView_at F.hv hn c p.1 p.2)
    (fun e _ => headView_at F.hq hn e ho wo)

/-- C68: the GPU operator and the reference operator return the same tensor; so does the CPU operator. -/
theorem C68_operators_agree (F : OpFits B nh Ck Cv nlatIn nlonIn nlatOut nlonOut P k v q) (w : ℕ → ℝ) (r : GpuRun) (hr : RunOk r nlatOut)
    (hl : GpuFits B nh Ck Cv nlatIn nlonIn nlatOut nlonOut) (rc : CpuRun)
    (hord : CoversBlocks ⟨B * nh, Ck, Cv, nlatIn, nlonIn, nlatOut, nlonOut⟩ rc.order) :
    ∃ y y' y'', gpuOp r w P nh nlonIn nlatOut nlonOut k v q = .ok y ∧ refOp w P nh nlonIn nlatOut nlonOut k v q = .ok y' ∧
      cpuOp rc w P nh nlonIn nlatOut nlonOut k v q = .ok y'' ∧ SameTensor y y' ∧ SameTensor y y'' := by
  obtain ⟨y, h1, h2, h3, -⟩ := C68_operator_gpu F w r hr hl
  obtain ⟨y', h1', h2', h3'⟩ := C44_operator_reference F w
  obtain ⟨y'', h1'', h2'', h3''⟩ := C44_operator_cpu F w rc hord
  refine ⟨y, y', y'', h1, h1', h1'', ⟨by rw [h2, h2'], fun i hi => ?_⟩, by rw [h2, h2''], fun i hi => ?_⟩
  all_goals
    rw [h2] at hi
    obtain ⟨b, h, wo, j, rfl, hb, hh, hw, hj⟩ := inside4_iff hi
    obtain ⟨e1, e2, e3⟩ := packed_split hj
  · rw [← e3, h3 b hb _ e1 _ e2 h hh wo hw, h3' b hb _ e1 _ e2 h hh wo hw]
  · rw [← e3, h3 b hb _ e1 _ e2 h hh wo hw, h3'' b hb _ e1 _ e2 h hh wo hw]

/-- C68: two runs return the same tensor, whatever differs between them in memory contents, alignment and order of execution. -/
theorem C68_deterministic (F : OpFits B nh Ck Cv nlatIn nlonIn nlatOut nlonOut P k v q) (w : ℕ → ℝ) (r r' : GpuRun) (hr : RunOk r nlatOut)
    (hr' : RunOk r' nlatOut) (hl : GpuFits B nh Ck Cv nlatIn nlonIn nlatOut nlonOut) :
    ∃ y y', gpuOp r w P nh nlonIn nlatOut nlonOut k v q = .ok y ∧ gpuOp r' w P nh nlonIn nlatOut nlonOut k v q = .ok y' ∧ SameTensor y y' := by
  obtain ⟨y, h1, h2, h3, -⟩ := C68_operator_gpu F w r hr hl
  obtain ⟨y', h1', h2', h3', -⟩ := C68_operator_gpu F w r' hr' hl
  refine ⟨y, y', h1, h1', by rw [h2, h2'], fun i hi => ?_⟩
  rw [h2] at hi
  obtain ⟨b, h, wo, j, rfl, hb, hh, hw, hj⟩ := inside4_iff hi
  obtain ⟨e1, e2, e3⟩ := packed_split hj
  rw [← e3, h3 b hb _ e1 _ e2 h hh wo hw, h3' b hb _ e1 _ e2 h hh wo hw]

/-- C68, the limits are sharp: beyond them the process ends. -/
theorem C68_refused (F : OpFits B nh Ck Cv nlatIn nlonIn nlatOut nlonOut P k v q) (w : ℕ → ℝ) (r : GpuRun) (hr : RunOk r nlatOut)
    (hl : ¬ GpuFits B nh Ck Cv nlatIn nlonIn nlatOut nlonOut) :
    gpuOp r w P nh nlonIn nlatOut nlonOut k v q = .error .processExit := by
  unfold gpuOp
  rw [gpuChecks_ok F, bind_ok]
  dsimp only
  rw [gpuDims_eq F]
  by_cases hg : nlonIn % nlonOut = 0
  · rw [gpuFits_gather F hg, not_or] at hl
    rw [decide_eq_true hg, if_pos rfl, gpuGather_refused (Nat.pos_of_ne_zero hl.1) hl.2]
    rfl
  · have hfit := F.fits
    rw [if_neg hg] at hfit
    rw [gpuFits_scatter F hg] at hl
    rw [decide_eq_false hg, if_neg (by simp), gpuScatter_refused hr.perm hfit (F.dir.resolve_left hg) F.poslonOut hl]
    rfl

/-- C68, the kernel for more than 16384 value channels per head never runs: its shared memory always exceeds the limit. -/
theorem C68_generic_never (F : OpFits B nh Ck Cv nlatIn nlonIn nlatOut nlonOut P k v q) (w : ℕ → ℝ) (r : GpuRun) (hr : RunOk r nlatOut)
    (hg : nlonIn % nlonOut = 0) (hv : 16384 < Cv) : gpuOp r w P nh nlonIn nlatOut nlonOut k v q = .error .processExit := by
  refine C68_refused F w r hr ?_
  unfold GpuFits
  rw [if_pos hg, if_neg (by omega)]
  omega

/-- C68, no overflow in the scatter direction: the maximum the weights are taken relative to is at least the score of every neighbour,
so no exponent is positive; and it is attained or the initial value. -/
theorem C68_scatter_max (F : OpFits B nh Ck Cv nlatIn nlonIn nlatOut nlonOut P k v q) (r : GpuRun) (hr : RunOk r nlatOut)
    (hg : ¬ nlonIn % nlonOut = 0) (hl : GpuFits B nh Ck Cv nlatIn nlonIn nlatOut nlonOut) :
    ∃ m, gpuUpMax r ⟨B, Ck, Cv, nlatIn, nlonIn, nlatOut, nlonOut⟩ nh P k.data q.data = .ok m ∧
      ∀ b < B, ∀ n < nh, ∀ ho < nlatOut, ∀ wo < nlonOut,
        (∀ p ∈ opNbrs P nlatIn nlonIn nlonOut ho wo,
          score Ck (packedHead Ck n k) (packedHead Ck n q) b ho wo p ≤ m ((b * nh + n) * nlatOut * nlonOut + (ho * nlonOut + wo))) ∧
        (m ((b * nh + n) * nlatOut * nlonOut + (ho * nlonOut + wo)) = r.fmin ∨ ∃ p ∈ opNbrs P nlatIn nlonIn nlonOut ho wo,
          m ((b * nh + n) * nlatOut * nlonOut + (ho * nlonOut + wo)) = score Ck (packedHead Ck n k) (packedHead Ck n q) b ho wo p) := by
  have hfit := F.fits
  rw [if_neg hg] at hfit
  have hs := (gpuFits_scatter F hg).1 hl
  have l0 : launchOk (divUp (nlatIn * nlonIn) 2) (B * nh) (4 * Ck * 2) := by
    have := hs.1
    unfold launchOk at this ⊢
    dsimp only at this
    omega
  obtain ⟨m, m1, m2⟩ := upMax_ok (r := r) (d := ⟨B, Ck, Cv, nlatIn, nlonIn, nlatOut, nlonOut⟩) (nh := nh) (P := P) (k := k.data) (q := q.data)
    hr.perm hfit (F.dir.resolve_left hg) F.poslonOut l0
  refine ⟨m, m1, fun b hb n hn ho hho wo hwo => ?_⟩
  obtain ⟨a1, a2⟩ := m2 (b * nh + n) (packed_lt hb hn) ho hho wo hwo
  have hnb : opNbrs P nlatIn nlonIn nlonOut ho wo = scatterNbrs P nlatIn nlonIn nlonOut (nlonOut / nlonIn) ho wo := by
    unfold opNbrs
    rw [if_neg hg]
  have hsc : ∀ p, score Ck (headView nlatIn nlonIn nh Ck k.data) (headView nlatOut nlonOut nh Ck q.data) (b * nh + n) ho wo p
      = score Ck (packedHead Ck n k) (packedHead Ck n q) b ho wo p := by
    intro p
    unfold score
    refine sum_congr rfl fun c _ => ?_
    rw [headView_at F.hk hn, headView_at F.hq hn]
  dsimp only at a1 a2
  simp only [hsc] at a1 a2
  rw [hnb]
  exact ⟨a1, a2⟩

end

theorem gpuChecks_errors (nh nlonIn nlonOut B H W H' W' Ck Cv : ℕ) (v q : Arr) (hv : v.shape = [B, H, W, Cv]) (hq : q.shape = [B, H', W', Ck]) :
    ((nlonIn = 0 ∨ nlonOut = 0) → gpuChecks nh v q nlonIn nlonOut = .error .processExit) ∧
    (0 < nlonIn → 0 < nlonOut → ¬ (nlonOut ∣ nlonIn ∨ nlonIn ∣ nlonOut) → gpuChecks nh v q nlonIn nlonOut = .error .runtimeError) ∧
    (0 < nlonIn → 0 < nlonOut → (nh = 0 ∨ ¬ nh ∣ Ck ∨ ¬ nh ∣ Cv) → gpuChecks nh v q nlonIn nlonOut = .error .runtimeError) := by
  refine ⟨fun h => ?_, fun h1 h2 h => ?_, fun h1 h2 h => ?_⟩
  · unfold gpuChecks
    rw [if_pos (by omega)]
  · rw [Nat.dvd_iff_mod_eq_zero, Nat.dvd_iff_mod_eq_zero] at h
    unfold gpuChecks
    rw [if_neg (by omega), if_pos h]
  · rw [Nat.dvd_iff_mod_eq_zero, Nat.dvd_iff_mod_eq_zero] at h
    unfold gpuChecks
    rw [if_neg (by omega), hv, hq]
    simp only [List.getD_cons_zero, List.getD_cons_succ]
    split
    · rfl
    · split
      · rfl
      · split
        · rfl
        · split
          · rfl
          · omega

/-- C68, error branches: longitudes neither of which divides the other, no heads, and channel counts that are not a multiple of the number
of heads raise; zero longitudes end the process. -/
theorem C68_errors (r : GpuRun) (w : ℕ → ℝ) (P : Pattern) (nh nlonIn nlatOut nlonOut B H W H' W' Ck Cv : ℕ) (k v q : Arr)
    (hv : v.shape = [B, H, W, Cv]) (hq : q.shape = [B, H', W', Ck]) :
    ((nlonIn = 0 ∨ nlonOut = 0) → gpuOp r w P nh nlonIn nlatOut nlonOut k v q = .error .processExit) ∧
    (0 < nlonIn → 0 < nlonOut → ¬ (nlonOut ∣ nlonIn ∨ nlonIn ∣ nlonOut) →
      gpuOp r w P nh nlonIn nlatOut nlonOut k v q = .error .runtimeError) ∧
    (0 < nlonIn → 0 < nlonOut → (nh = 0 ∨ ¬ nh ∣ Ck ∨ ¬ nh ∣ Cv) →
      gpuOp r w P nh nlonIn nlatOut nlonOut k v q = .error .runtimeError) := by
  have lift : ∀ e, gpuChecks nh v q nlonIn nlonOut = .error e → gpuOp r w P nh nlonIn nlatOut nlonOut k v q = .error e := by
    intro e he
    unfold gpuOp
    rw [he]
    rfl
  obtain ⟨h1, h2, h3⟩ := gpuChecks_errors nh nlonIn nlonOut B H W H' W' Ck Cv v q hv hq
  exact ⟨fun h => lift _ (h1 h), fun a b h => lift _ (h2 a b h), fun a b h => lift _ (h3 a b h)⟩

/-- C68 for an empty batch: the GPU operator ends the process. -/
theorem C68_empty_batch (r : GpuRun) (w : ℕ → ℝ) (P : Pattern) (nh nlatIn nlonIn nlatOut nlonOut Ck Cv : ℕ) (k v q : Arr)
    (hk : k.shape = [0, nlatIn, nlonIn, nh * Ck]) (hv : v.shape = [0, nlatIn, nlonIn, nh * Cv]) (hq : q.shape = [0, nlatOut, nlonOut, nh * Ck])
    (hn : 0 < nh) (hC : 0 < Cv) (h1 : 0 < nlonIn) (h2 : 0 < nlonOut) (hdir : nlonIn % nlonOut = 0 ∨ nlonOut % nlonIn = 0) :
    gpuOp r w P nh nlonIn nlatOut nlonOut k v q = .error .processExit := by
  have hc : gpuChecks nh v q nlonIn nlonOut = .ok (decide (nlonIn % nlonOut = 0)) := by
    unfold gpuChecks
    rw [if_neg (by omega), if_neg (not_not.2 hdir), if_neg (by omega), hq, hv]
    simp
  have hd : gpuDims nh k v q nlonIn nlatOut nlonOut = ⟨0, Ck, Cv, nlatIn, nlonIn, nlatOut, nlonOut⟩ := by
    unfold gpuDims
    rw [hk, hv, hq]
    simp only [List.getD_cons_zero, List.getD_cons_succ]
    rw [Nat.mul_div_cancel_left _ hn, Nat.mul_div_cancel_left _ hn]
  unfold gpuOp
  rw [hc, bind_ok]
  dsimp only
  rw [hd]
  split
  · rw [gpuGather_refused hC (by unfold GatherLaunch; dsimp only; omega)]
    rfl
  · unfold gpuScatter gpuUpMax checked
    dsimp only
    rw [if_neg (by unfold launchOk; omega)]
    rfl

/-! ### Hypotheses are met -/

/-- A run: rows taken up in reverse order, operations in reverse order, memory full of sevens. -/
def exGpuRun : GpuRun := ⟨true, -1000, fun h => 1 - h, fun _ _ _ _ _ => 7, fun _ => 7, List.reverse⟩

example : RunOk exGpuRun 2 := ⟨fun L => List.reverse_perm L, by decide⟩
example : GpuFits 1 2 3 2 2 4 2 2 := by unfold GpuFits; decide
/-- Upsampling from four to eight longitudes. -/
example : OpFits 1 2 3 2 2 4 1 8 exPattern ⟨[1, 2, 4, 6], fun i => i⟩ ⟨[1, 2, 4, 4], fun i => i⟩ ⟨[1, 1, 8, 6], fun i => i⟩ where
  hk := rfl
  hv := rfl
  hq := rfl
  posB := by decide
  posn := by decide
  poslatIn := by decide
  poslonIn := by decide
  poslatOut := by decide
  poslonOut := by decide
  dir := Or.inr rfl
  fits := by rw [if_neg (by decide)]; unfold Pattern.Fits; decide
example : ¬ 4 % 8 = 0 ∧ GpuFits 1 2 3 2 2 4 1 8 := ⟨by decide, by unfold GpuFits; decide⟩
example : ¬ GpuFits 1 1 6145 64 2 4 2 2 ∧ ¬ GpuFits 65536 1 4 4 2 4 2 2 ∧ GpuFits 1 1 12000 1000 2 4 2 2 := by
  unfold GpuFits
  refine ⟨?_, ?_, ?_⟩ <;> decide

end Verif.Props
