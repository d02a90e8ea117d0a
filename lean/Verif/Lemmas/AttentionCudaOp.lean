import Verif.Lemmas.AttentionCudaLaunch
import Verif.Lemmas.AttentionCudaUp
/-!
The gather path of the GPU operator, and which launches are accepted.
-/
namespace Verif.AttnGpu
open Verif Verif.Attn Verif.Spec.Attn Finset

theorem divUp_lt {n b M : ℕ} (hb : 0 < b) : divUp n b < M + 1 ↔ n ≤ b * M := by
  unfold divUp
  rw [Nat.div_lt_iff_lt_mul hb, Nat.add_mul, Nat.one_mul, Nat.mul_comm M b]
  omega

theorem divUp_pos {n b : ℕ} (hb : 0 < b) : 0 < divUp n b ↔ 0 < n := by
  unfold divUp
  rw [Nat.div_pos_iff]
  omega

/-- Warps per group of the gather kernels. -/
def fwdWarps (Cv : ℕ) : ℕ :=
  if Cv ≤ 1024 then 2 else if Cv ≤ 2048 then 4 else if Cv ≤ 4096 then 8 else if Cv ≤ 8192 then 16 else 32

/-- The gather launch the runtime accepts, for a head with `Ck` query and `Cv > 0` value channels and `n` output points. -/
def GatherLaunch (Bn Ck Cv n : ℕ) : Prop :=
  0 < n ∧ 0 < Bn ∧ Bn ≤ 65535 ∧
    if Cv ≤ 512 then n ≤ 2 * 2147483647 ∧ Ck ≤ 6144 else n ≤ 2147483647 ∧ Cv ≤ 16384 ∧ Ck + fwdWarps Cv ≤ 12288

/-- What the gather dispatcher launches. -/
theorem gather_config (vecOk : Bool) (Ck Cv : ℕ) (hv : 0 < Cv) :
    ∃ cf, fwdConfig (vecOf vecOk Ck Cv) (Ck / vecOf vecOk Ck Cv) (Cv / vecOf vecOk Ck Cv) (fwdLaunch vecOk Ck Cv) = some cf ∧
      ∀ n Bn, launchOk (divUp n cf.by') Bn cf.shared ↔ GatherLaunch Bn Ck Cv n := by
  have hl := fwdLaunch_eq vecOk Ck Cv
  obtain ⟨h1, h2, h3⟩ := vecOf_mul vecOk Ck Cv
  dsimp only at hl
  rw [hl, if_neg hv.ne']
  generalize vecOf vecOk Ck Cv = vec at *
  have e : ∀ x, 4 * vec * (Ck / vec) * x = 4 * Ck * x := by
    intro x
    rw [Nat.mul_assoc 4, Nat.mul_comm vec, h2]
  by_cases hlim : Cv ≤ 16384
  · rw [if_pos hlim]
    refine ⟨_, rfl, fun n Bn => ?_⟩
    have hb := bdimxOf_eq Cv hlim
    unfold launchOk GatherLaunch
    dsimp only
    rw [e]
    by_cases h512 : Cv ≤ 512
    · rw [if_pos h512] at hb
      rw [if_pos h512, if_pos h512, hb, if_pos rfl, divUp_pos (by omega), show 2 ^ 31 = 2147483647 + 1 by norm_num, divUp_lt (by omega)]
      omega
    · rw [if_neg h512] at hb
      have hw : ¬ bdimxOf Cv = 32 := by rw [hb]; split_ifs <;> omega
      have hw' : bdimxOf Cv / 32 = fwdWarps Cv := by rw [hb]; unfold fwdWarps; split_ifs <;> omega
      rw [if_neg h512, if_neg h512, if_neg hw, hw', divUp_pos (by omega), show 2 ^ 31 = 2147483647 + 1 by norm_num, divUp_lt (by omega)]
      omega
  · rw [if_neg hlim]
    refine ⟨_, rfl, fun n Bn => ?_⟩
    unfold launchOk GatherLaunch
    dsimp only
    have e' : 4 * vec * (Cv / vec) * 2 = 4 * Cv * 2 := by rw [Nat.mul_assoc 4, Nat.mul_comm vec, h3]
    rw [e', if_neg (by omega)]
    omega

section
variable {r : GpuRun} {d : Dims} {nh : ℕ} {w : ℕ → ℝ} {P : Pattern} {k v q : ℕ → ℝ}

/-- The gather path computes attention, whatever the order of the stores. -/
theorem gpuGather_eq (hn : 0 < nh) (hr : RunOk r d.nlatOut) (hl : d.Cv = 0 ∨ GatherLaunch (d.B * nh) d.Ck d.Cv (d.nlatOut * d.nlonOut)) :
    ∃ out, gpuGather r d nh w P k v q = .ok out ∧
      (∀ bh < d.B * nh, ∀ c < d.Cv, ∀ ho < d.nlatOut, ∀ wo < d.nlonOut, headView d.nlatOut d.nlonOut nh d.Cv out bh c ho wo
        = attention d.Ck w (gatherNbrs P d.nlonIn (d.nlonIn / d.nlonOut)) (headView d.nlatIn d.nlonIn nh d.Ck k)
          (headView d.nlatIn d.nlonIn nh d.Cv v) (headView d.nlatOut d.nlonOut nh d.Ck q) bh c ho wo) ∧
      ∀ i, d.B * d.nlatOut * d.nlonOut * (d.Cv * nh) ≤ i → out i = r.mem i := by
  unfold gpuGather
  dsimp only
  rcases Nat.eq_zero_or_pos d.Cv with h0 | h0
  · have hlaunch := fwdLaunch_eq r.vecOk d.Ck d.Cv
    dsimp only at hlaunch
    rw [hlaunch, if_pos h0]
    exact ⟨r.mem, rfl, fun bh _ c hc => by omega, fun _ _ => rfl⟩
  · have hl' := hl.resolve_left h0.ne'
    obtain ⟨cf, c1, c2⟩ := gather_config r.vecOk d.Ck d.Cv h0
    have hcf := fwdConfig_ok r.vecOk d.Ck d.Cv c1
    obtain ⟨h1, h2, h3⟩ := vecOf_mul r.vecOk d.Ck d.Cv
    rw [c1]
    dsimp only
    rw [if_pos ((c2 _ _).2 hl')]
    generalize vecOf r.vecOk d.Ck d.Cv = vec at *
    obtain ⟨out, o1, o2, o3⟩ := gather_stores (vec := vec) (d := { d with Ck := d.Ck / vec, Cv := d.Cv / vec }) hcf hn w P k v q r hr
      (d.B * d.nlatOut * d.nlonOut * (d.Cv * nh)) (by dsimp only; rw [h3])
    dsimp only at o1 o2
    rw [h2, h3] at o2
    exact ⟨out, o1, o2, o3⟩

theorem gpuGather_refused (h0 : 0 < d.Cv) (hl : ¬ GatherLaunch (d.B * nh) d.Ck d.Cv (d.nlatOut * d.nlonOut)) :
    gpuGather r d nh w P k v q = .error .processExit := by
  unfold gpuGather
  dsimp only
  obtain ⟨cf, c1, c2⟩ := gather_config r.vecOk d.Ck d.Cv h0
  rw [c1]
  dsimp only
  rw [if_neg (fun h => hl ((c2 _ _).1 h))]

/-- The launches of the scatter path, spelled out. -/
theorem scatterLaunch_iff : ScatterLaunch d nh ↔ 0 < d.nlatIn * d.nlonIn ∧ 0 < d.nlatOut * d.nlonOut ∧ 0 < d.B * nh ∧ d.B * nh ≤ 65535 ∧
    d.nlatIn * d.nlonIn ≤ 2 * 2147483647 ∧ d.nlatOut * d.nlonOut ≤ 2 * 2147483647 ∧ d.Ck + d.Cv ≤ 6144 := by
  unfold ScatterLaunch launchOk
  rw [divUp_pos (by omega), divUp_pos (by omega), show 2 ^ 31 = 2147483647 + 1 by norm_num, divUp_lt (by omega), divUp_lt (by omega)]
  omega

end

end Verif.AttnGpu
