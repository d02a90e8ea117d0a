import Verif.Lemmas.AttentionCudaBwdUp
/-!
The gather backward path of the GPU operator, and which launches are accepted.
-/
namespace Verif.AttnGpu
open Verif Verif.Attn Verif.Spec.Attn Finset

theorem bwdLaunch_eq (vecOk : Bool) (Ck Cv : ℕ) :
    let vec := vecOf vecOk Ck Cv
    let bx := bdimxOf Ck
    let nloc := (Ck / vec + (bx - 1)) / bx
    bwdLaunch vecOk Ck Cv = if Ck = 0 then .nothing
      else if Ck ≤ 8192 then .special bx (if Ck ≤ 512 then 2 else 1) nloc (decide (bx * (nloc - 1) ≤ Cv / vec ∧ Cv / vec ≤ bx * nloc))
      else .generic := by
  have hv : vecOf vecOk Ck Cv = 1 ∨ vecOf vecOk Ck Cv = 4 ∧ Ck % 4 = 0 := by
    rcases vecOf_cases vecOk Ck Cv with h | ⟨h, h1, -⟩
    · exact Or.inl h
    · exact Or.inr ⟨h, h1⟩
  exact dispatch_eq (Or.inl rfl) hv (Cv / vecOf vecOk Ck Cv)

/-- Whatever is launched, its channel loops fit. -/
theorem bwdConfig_ok (vecOk : Bool) (Ck Cv : ℕ) {cf : Config}
    (h : bwdConfig (vecOf vecOk Ck Cv) (Ck / vecOf vecOk Ck Cv) (Cv / vecOf vecOk Ck Cv) (bwdLaunch vecOk Ck Cv) = some cf) :
    CfgOk cf (Ck / vecOf vecOk Ck Cv) (Cv / vecOf vecOk Ck Cv) := by
  have hv := vecOf_mul vecOk Ck Cv
  have hl := bwdLaunch_eq vecOk Ck Cv
  dsimp only at hl
  rw [hl] at h
  generalize vecOf vecOk Ck Cv = vec at *
  by_cases h0 : Ck = 0
  · rw [if_pos h0] at h
    simp [bwdConfig] at h
  rw [if_neg h0] at h
  by_cases hlim : Ck ≤ 8192
  · rw [if_pos hlim] at h
    simp only [bwdConfig, Option.some.injEq] at h
    subst h
    have hg : GroupOk (bdimxOf Ck) := bdimxOf_group (by omega)
    have hpos : 0 < Ck / vec := by
      rcases Nat.eq_zero_or_pos (Ck / vec) with h | h
      · rw [h] at hv; omega
      · exact h
    refine ⟨hg, by dsimp only; split_ifs <;> omega, locOk_ceil hg.1 hpos, ?_⟩
    dsimp only
    split_ifs with hs
    · rw [decide_eq_true_eq] at hs
      intro m hm
      rw [Option.mem_some_iff] at hm
      subst hm
      exact ⟨(locOk_ceil hg.1 hpos _ rfl).1, hs⟩
    · exact locOk_none _ _
  · rw [if_neg hlim] at h
    simp only [bwdConfig, Option.some.injEq] at h
    subst h
    exact ⟨⟨Nat.succ_pos 31, show 32 % 32 = 0 by omega, show 32 ≤ 1024 by omega⟩, Nat.succ_pos 1, locOk_none _ _, locOk_none _ _⟩

/-- The gather backward launch the runtime accepts, for a head with `Ck > 0` query and `Cv` value channels and `n` output points. -/
def GatherBwdLaunch (Bn Ck Cv n : ℕ) : Prop :=
  0 < n ∧ 0 < Bn ∧ Bn ≤ 65535 ∧
    if Ck ≤ 512 then n ≤ 2 * 2147483647 ∧ Ck + Cv ≤ 6144 else n ≤ 2147483647 ∧ Ck ≤ 8192 ∧ Ck + Cv + fwdWarps Ck ≤ 12288

/-- What the gather backward dispatcher launches. -/
theorem bwd_config (vecOk : Bool) (Ck Cv : ℕ) (hk : 0 < Ck) :
    ∃ cf, bwdConfig (vecOf vecOk Ck Cv) (Ck / vecOf vecOk Ck Cv) (Cv / vecOf vecOk Ck Cv) (bwdLaunch vecOk Ck Cv) = some cf ∧
      ∀ n Bn, launchOk (divUp n cf.by') Bn cf.shared ↔ GatherBwdLaunch Bn Ck Cv n := by
  have hl := bwdLaunch_eq vecOk Ck Cv
  obtain ⟨h1, h2, h3⟩ := vecOf_mul vecOk Ck Cv
  dsimp only at hl
  rw [hl, if_neg hk.ne']
  generalize vecOf vecOk Ck Cv = vec at *
  by_cases hlim : Ck ≤ 8192
  · rw [if_pos hlim]
    refine ⟨_, rfl, fun n Bn => ?_⟩
    have e : ∀ y, 4 * vec * (Ck / vec + Cv / vec) * y = 4 * (Ck + Cv) * y := by
      intro y
      rw [Nat.mul_assoc 4, Nat.mul_comm vec, Nat.add_mul, h2, h3]
    have hb := bdimxOf_eq Ck (by omega)
    unfold launchOk GatherBwdLaunch
    dsimp only
    rw [e]
    by_cases h512 : Ck ≤ 512
    · rw [if_pos h512] at hb
      rw [if_pos h512, if_pos h512, hb, if_pos rfl, divUp_pos (by omega), show 2 ^ 31 = 2147483647 + 1 by norm_num, divUp_lt (by omega)]
      omega
    · rw [if_neg h512] at hb
      have hw : ¬ bdimxOf Ck = 32 := by rw [hb]; split_ifs <;> omega
      have hw' : bdimxOf Ck / 32 = fwdWarps Ck := by rw [hb]; unfold fwdWarps; split_ifs <;> omega
      rw [if_neg h512, if_neg h512, if_neg hw, hw', divUp_pos (by omega), show 2 ^ 31 = 2147483647 + 1 by norm_num, divUp_lt (by omega)]
      omega
  · rw [if_neg hlim]
    refine ⟨_, rfl, fun n Bn => ?_⟩
    have e : 4 * vec * (Ck / vec * 4 + Cv / vec) * 2 = 4 * (Ck * 4 + Cv) * 2 := by
      rw [Nat.mul_assoc 4, Nat.mul_comm vec, Nat.add_mul, Nat.mul_right_comm (Ck / vec), h2, h3]
    unfold launchOk GatherBwdLaunch
    dsimp only
    rw [e, if_neg (by omega)]
    omega

section
variable {r : BwdRun} {d : Dims} {nh : ℕ} {x : BwdIn}

/-- The gather backward path returns the three gradients, whatever the order of stores and atomics. -/
theorem gpuBwdGather_eq (hn : 0 < nh) (hr : RunOk r.toGpuRun d.nlatOut) (h0 : 0 < d.nlonIn) (hfit : x.P.Fits d.nlatOut (d.nlatIn * d.nlonIn))
    (hk : 0 < d.Ck) (hl : GatherBwdLaunch (d.B * nh) d.Ck d.Cv (d.nlatOut * d.nlonOut)) : ∃ g, gpuBwdGather r d nh x = .ok g ∧
    (∀ bh < d.B * nh, ∀ c < d.Ck, ∀ hi < d.nlatIn, ∀ wi < d.nlonIn, headView d.nlatIn d.nlonIn nh d.Ck g.dk bh c hi wi
      = gradK d.Ck d.Cv x.w (gatherNbrs x.P d.nlonIn (d.nlonIn / d.nlonOut)) d.nlatOut d.nlonOut
        (headView d.nlatIn d.nlonIn nh d.Ck x.k) (headView d.nlatIn d.nlonIn nh d.Cv x.v) (headView d.nlatOut d.nlonOut nh d.Ck x.q)
        (headView d.nlatOut d.nlonOut nh d.Cv x.dy) bh c hi wi) ∧
    (∀ bh < d.B * nh, ∀ c < d.Cv, ∀ hi < d.nlatIn, ∀ wi < d.nlonIn, headView d.nlatIn d.nlonIn nh d.Cv g.dv bh c hi wi
      = gradV d.Ck x.w (gatherNbrs x.P d.nlonIn (d.nlonIn / d.nlonOut)) d.nlatOut d.nlonOut
        (headView d.nlatIn d.nlonIn nh d.Ck x.k) (headView d.nlatOut d.nlonOut nh d.Ck x.q) (headView d.nlatOut d.nlonOut nh d.Cv x.dy) bh c hi wi) ∧
    ∀ bh < d.B * nh, ∀ c < d.Ck, ∀ ho < d.nlatOut, ∀ wo < d.nlonOut, headView d.nlatOut d.nlonOut nh d.Ck g.dq bh c ho wo
      = gradQ d.Ck d.Cv x.w (gatherNbrs x.P d.nlonIn (d.nlonIn / d.nlonOut)) (headView d.nlatIn d.nlonIn nh d.Ck x.k)
        (headView d.nlatIn d.nlonIn nh d.Cv x.v) (headView d.nlatOut d.nlonOut nh d.Ck x.q) (headView d.nlatOut d.nlonOut nh d.Cv x.dy) bh c ho wo := by
  unfold gpuBwdGather
  dsimp only
  obtain ⟨cf, c1, c2⟩ := bwd_config r.vecOk d.Ck d.Cv hk
  have hcf := bwdConfig_ok r.vecOk d.Ck d.Cv c1
  obtain ⟨h1, h2, h3⟩ := vecOf_mul r.vecOk d.Ck d.Cv
  have hv : vecOf r.vecOk d.Ck d.Cv = 1 ∨ vecOf r.vecOk d.Ck d.Cv = 4 := by
    rcases vecOf_cases r.vecOk d.Ck d.Cv with h | ⟨h, -, -⟩
    · exact Or.inl h
    · exact Or.inr h
  rw [c1]
  dsimp only
  rw [if_pos ((c2 _ _).2 hl)]
  generalize vecOf r.vecOk d.Ck d.Cv = vec at *
  obtain ⟨dk, k1, k2⟩ := bwdK_array (d := { d with Ck := d.Ck / vec, Cv := d.Cv / vec }) hcf hv hn x r hr h0 hfit
    (d.B * d.nlatIn * d.nlonIn * (d.Ck * nh)) (by dsimp only; rw [h2])
  obtain ⟨dv, v1, v2⟩ := bwdV_array (d := { d with Ck := d.Ck / vec, Cv := d.Cv / vec }) hcf hv hn x r hr h0 hfit
    (d.B * d.nlatIn * d.nlonIn * (d.Cv * nh)) (by dsimp only; rw [h3])
  obtain ⟨dq, q1, q2⟩ := bwdQ_array (d := { d with Ck := d.Ck / vec, Cv := d.Cv / vec }) hcf hn x r hr
    (d.B * d.nlatOut * d.nlonOut * (d.Ck * nh)) (by dsimp only; rw [h2])
  dsimp only at k1 k2 v1 v2 q1 q2
  rw [h2, h3] at k2 v2 q2
  refine ⟨⟨dk, dv, dq⟩, ?_, k2, v2, q2⟩
  unfold grads
  rw [k1, bind_ok, v1, bind_ok, q1, bind_ok]
  rfl

theorem gpuBwdGather_refused (hk : 0 < d.Ck) (hl : ¬ GatherBwdLaunch (d.B * nh) d.Ck d.Cv (d.nlatOut * d.nlonOut)) :
    gpuBwdGather r d nh x = .error .processExit := by
  unfold gpuBwdGather
  dsimp only
  obtain ⟨cf, c1, c2⟩ := bwd_config r.vecOk d.Ck d.Cv hk
  rw [c1]
  dsimp only
  rw [if_neg (fun h => hl ((c2 _ _).1 h))]

/-- Without query channels nothing is launched and all gradients stay zero. -/
theorem gpuBwdGather_none (hk : d.Ck = 0) : gpuBwdGather r d nh x = .ok ⟨fun _ => 0, fun _ => 0, fun _ => 0⟩ := by
  have hl := bwdLaunch_eq r.vecOk d.Ck d.Cv
  dsimp only at hl
  unfold gpuBwdGather
  dsimp only
  rw [hl, if_pos hk]
  rfl

end

end Verif.AttnGpu
