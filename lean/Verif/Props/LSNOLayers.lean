import Verif.Props.LSNO
import Verif.Props.Transformer
import Verif.Props.FilterNorm
/-!
C85: the filter bases of the networks are those of `get_filter_basis` (C75), and the blocks built on their own.
-/
namespace Verif.Props
open Verif Verif.Dist Verif.FFT Verif.Quad Verif.SHT Verif.Spec Verif.SFNO Verif.Filter Verif.Disco

/-- C85. The filters of the convolutions are those that `get_filter_basis` returns for the given shape and name, and what it raises is raised. -/
theorem C85_basis (jn : ℕ → ℝ → ℝ) (zero : ℕ → ℕ → ℝ) (shape : List ℕ) (basis : String)
    (hb : basis = "piecewise linear" ∨ basis = "zernike" ∨ basis = "morlet") :
    (∀ B, LSNO.getBasis shape basis = .ok B → getFilterBasis jn zero (.seq shape) basis = .ok ⟨B.kernelSize, B.val⟩) ∧
    (∀ e, getFilterBasis jn zero (.seq shape) basis = .error e → LSNO.getBasis shape basis = .error e) ∧
    ∀ b, getFilterBasis jn zero (.seq shape) basis = .ok b → b.size ≠ 0 → ∃ B, LSNO.getBasis shape basis = .ok B ∧ B.mask.length = B.kernelSize := by
  rcases hb with rfl | rfl | rfl
  · have h1 : LSNO.getBasis shape "piecewise linear" = (plShape shape).map fun s => ⟨plKernelSize s.1 s.2, plMask s.1 s.2, plVal s.1 s.2⟩ := if_pos rfl
    rw [h1]
    unfold getFilterBasis
    rw [if_pos rfl]
    dsimp only
    cases plShape shape with
    | error e =>
      refine ⟨fun B h => (by cases h), fun e' h => ?_, fun b h => (by cases h)⟩
      cases h; rfl
    | ok s =>
      refine ⟨fun B h => ?_, fun e' h => (by cases h), fun b _ _ => ⟨_, rfl, ?_⟩⟩
      · cases h; rfl
      · exact C60_pl_mask_length _ _
  · unfold LSNO.getBasis getFilterBasis
    rw [if_neg (by decide), if_pos rfl, if_neg (by decide), if_neg (by decide), if_pos rfl]
    cases shape with
    | nil =>
      refine ⟨fun B h => (by cases h), fun e' h => ?_, fun b h => (by cases h)⟩
      cases h; rfl
    | cons n t =>
      refine ⟨fun B h => ?_, fun e' h => (by cases h), fun b _ _ => ⟨_, rfl, ?_⟩⟩
      · cases h; rfl
      · exact zernikeMask_length n
  · unfold LSNO.getBasis getFilterBasis
    rw [if_neg (by decide), if_neg (by decide), if_pos rfl, if_neg (by decide), if_neg (by decide), if_neg (by decide), if_neg (by decide), if_pos rfl]
    rcases shape with _ | ⟨n, _ | ⟨m, _ | ⟨q, t⟩⟩⟩
    · refine ⟨fun B h => (by cases h), fun e' h => ?_, fun b h => (by cases h)⟩
      cases h; rfl
    · refine ⟨fun B h => (by cases h), fun e' h => ?_, fun b h => (by cases h)⟩
      cases h; rfl
    · refine ⟨fun B h => ?_, fun e' h => (by cases h), fun b h hs => ?_⟩
      · dsimp only at h ⊢
        unfold harmonicMask at h
        split_ifs at h with h0
        · cases h
        · cases h; rfl
      · have h0 : ¬ harmonicKernelSize n m = 0 := by cases h; exact hs
        refine ⟨_, by dsimp only; unfold harmonicMask; rw [if_neg h0]; rfl, ?_⟩
        simp
    · refine ⟨fun B h => (by cases h), fun e' h => ?_, fun b h => (by cases h)⟩
      cases h; rfl

/-- C85. A block of another type than "local" and "global" raises a `ValueError`. -/
theorem C85_block_type (env : Env) (fwd : RealSHT) (inv : InverseRealSHT) (inC outC : ℕ) (t : String) (a : LSNO.BlockArgs) (p : LSNO.BlockParams)
    (h1 : t ≠ "local") (h2 : t ≠ "global") : LSNO.Block.init env fwd inv inC outC t a p = .error .valueError := by
  have : LSNO.Conv.init env fwd inv inC outC t a p = .error .valueError := by
    unfold LSNO.Conv.init
    rw [if_neg h1, if_neg h2]
  unfold LSNO.Block.init
  rw [this]
  rfl

/-- C85. The perceptron of a block with different numbers of channels leads back from the output channels to the input channels (which is the number of channels of the
outer skip connection), so that such a block returns as many channels as it is given. -/
theorem C85_block_mlp (env : Env) (fwd : RealSHT) (inv : InverseRealSHT) (inC outC : ℕ) (t : String) (a : LSNO.BlockArgs) (p : LSNO.BlockParams) (b : LSNO.Block)
    (h : LSNO.Block.init env fwd inv inC outC t a p = .ok b) (hin : inC ≠ 0) (hm : a.useMlp = true) :
    ∃ M, b.mlp = some M ∧ M.fc1.inC = outC ∧ M.fc2.outC = inC ∧ M.fc1.outC = M.fc2.inC := by
  unfold LSNO.Block.init at h
  obtain ⟨c, _, h⟩ := bind_inv' h
  obtain ⟨i, _, h⟩ := bind_inv' h
  obtain ⟨n, _, h⟩ := bind_inv' h
  dsimp only at h
  rw [if_pos hm] at h
  obtain ⟨m, hm', h⟩ := bind_inv' h
  obtain ⟨o, _, h⟩ := bind_inv' h
  cases h
  unfold Mlp.init at hm'
  dsimp only at hm'
  have e : ((inC : ℕ) : ℤ) ≠ 0 := by exact_mod_cast hin
  rw [if_neg e] at hm'
  split_ifs at hm' <;> first | (cases hm'; exact ⟨_, rfl, rfl, by simp, rfl⟩) | cases hm'

/-- Such blocks exist: a global block from two channels to three, with a perceptron from three channels back to two. -/
example (env : Env) (fwd : RealSHT) (inv : InverseRealSHT) (p : LSNO.BlockParams) (act : ℝ → ℝ) :
    ∃ b, LSNO.Block.init env fwd inv 2 3 "global" ⟨⟨2, act, "none", "none", "none", true, false⟩, [3, 3], "morlet", "equiangular"⟩ p = .ok b := by
  have h : pyInt ((3 : ℕ) * (2 : ℝ)) = 6 := by
    have e : ((3 : ℕ) * (2 : ℝ)) = ((6 : ℤ) : ℝ) := by norm_num
    rw [e]
    unfold pyInt
    split_ifs <;> simp
  have h1 : LSNO.Conv.init env fwd inv 2 3 "global" ⟨⟨2, act, "none", "none", "none", true, false⟩, [3, 3], "morlet", "equiangular"⟩ p
      = .ok (.global ⟨fwd, inv, 2, 3, .driscollHealy, p.weight, none⟩) := rfl
  unfold LSNO.Block.init
  rw [h1]
  exact ⟨_, by
    dsimp only [except_bind_ok]
    rw [h]
    rfl⟩

end Verif.Props
