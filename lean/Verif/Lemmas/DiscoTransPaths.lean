import Verif.Model.DiscoTransPaths
import Verif.Spec.DiscoTransPaths
import Verif.Props.DiscoPaths
/-!
Addresses of a contiguous tensor, and the kernels on the filter of a transposed layer.
-/
namespace Verif.Disco
open Verif Verif.Dist Verif.Spec Verif.Props Finset

variable {R : Type}

theorem Ten4.view_val (x : Ten4 R) (beyond : ℕ → R) (q k t p : ℕ) (hq : q < x.d0) (hk : k < x.d1) (ht : t < x.d2) (hp : p < x.d3) :
    (x.view beyond).val q k t p = x.val q k t p := by
  show x.at beyond _ = _
  unfold Ten4.at
  rw [if_pos (col_lt (col_lt (col_lt hq hk) ht) hp), col_div hp, col_div ht, col_div hk, col_mod hp, col_mod ht, col_mod hk]

variable [CommSemiring R]

/-- The transposed sum only depends on the values at the taps. -/
theorem discoAdjoint_congr (taps : List (Tap R)) (K nlat nlatIn nlonIn W : ℕ) (hf : Fits taps K nlat nlatIn nlonIn) (y y' : ℕ → ℕ → ℕ → R)
    (h : ∀ k < K, ∀ t < nlat, ∀ p < W, y k t p = y' k t p) (i j : ℕ) : discoAdjoint taps nlonIn W y i j = discoAdjoint taps nlonIn W y' i j := by
  unfold discoAdjoint
  congr 1
  apply List.map_congr_left
  intro a ha
  obtain ⟨h1, h2, -, -⟩ := hf a ha
  exact sum_congr rfl fun p hp => by rw [h a.ker h1 a.latOut h2 p (mem_range.1 hp)]

/-- The number of rows of the operand plays no role for the kernels. -/
theorem legal_rows {gpu : Bool} {L : Layer R} {D : Device R} (hD : LegalDevice gpu L D) (A : Csr R) (K K' H H' W : ℕ) (g : ℕ → ℕ → ℕ → R) (Ho Wo : ℕ) :
    D.bwd A ⟨K, H, W, g⟩ Ho Wo = D.bwd A ⟨K', H', W, g⟩ Ho Wo := by
  unfold LegalDevice at hD
  split at hD
  · obtain ⟨n, rfl, -⟩ := hD
    rfl
  · obtain ⟨n, rfl, -⟩ := hD
    rfl

theorem sum_groups (f : ℕ → R) (n G : ℕ) : ∑ k ∈ range (G * n), f k = ∑ g ∈ range G, ∑ o ∈ range n, f (g * n + o) := by
  induction G with
  | zero => simp
  | succ G ih => rw [Nat.succ_mul, sum_range_add, ih, sum_range_succ]

end Verif.Disco
