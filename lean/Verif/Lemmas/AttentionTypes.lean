import Verif.Model.AttentionTypes
import Verif.Spec.AttentionTypes
/-!
Lemmas for the number types of neighbourhood attention: bits of numbers, and the types on the way through the layer.
-/
namespace Verif.AttnTypes
open Verif Verif.Spec.Attn Verif.Attn Verif.AttnGpu Verif.Disco Verif.Spec.AttnTypes

theorem f32Val_zero : f32Val 0 = 0 := by unfold f32Val; norm_num

theorem f32Val_one : f32Val (65536 * 16256) = 1 := by unfold f32Val; norm_num

theorem f32Val_two : f32Val (65536 * 16384) = 2 := by unfold f32Val; norm_num

theorem f32Val_nonneg {n : ℕ} (h : n < 2 ^ 31) : 0 ≤ f32Val n := by
  unfold f32Val
  rw [if_neg (by rw [Nat.div_eq_of_lt h]; decide)]
  split
  · positivity
  · positivity

/-- Lower half `lo`, upper half `hi`: up to a relative error of `2 ^ (-7)` the number is that of the upper half alone. -/
theorem f32Val_upper {lo hi : ℕ} (hlo : lo < 65536) (h1 : 128 ≤ hi) (h2 : hi < 32768) :
    0 < f32Val (hi * 65536) ∧ f32Val (hi * 65536) ≤ f32Val (lo + 65536 * hi) ∧ f32Val (lo + 65536 * hi) ≤ (1 + 1 / 2 ^ 7) * f32Val (hi * 65536) := by
  have e1 : (lo + 65536 * hi) / 2 ^ 31 % 2 = 0 := by omega
  have e2 : (hi * 65536) / 2 ^ 31 % 2 = 0 := by omega
  have e3 : (lo + 65536 * hi) / 2 ^ 23 % 256 = hi / 128 := by omega
  have e4 : (hi * 65536) / 2 ^ 23 % 256 = hi / 128 := by omega
  have e5 : (lo + 65536 * hi) % 2 ^ 23 = lo + 65536 * (hi % 128) := by omega
  have e6 : (hi * 65536) % 2 ^ 23 = 65536 * (hi % 128) := by omega
  have e7 : hi / 128 ≠ 0 := by omega
  unfold f32Val
  rw [e1, e2, e3, e4, e5, e6, if_neg (by decide), if_neg e7, if_neg e7, one_mul, one_mul]
  have hp : (0 : ℝ) < (2 : ℝ) ^ ((hi / 128 : ℕ) - 127 : ℤ) := by positivity
  generalize (2 : ℝ) ^ ((hi / 128 : ℕ) - 127 : ℤ) = s at hp
  have hl : (lo : ℝ) ≤ 65536 := by exact_mod_cast hlo.le
  have hl0 : (0 : ℝ) ≤ lo := Nat.cast_nonneg _
  have hm : (0 : ℝ) ≤ (hi % 128 : ℕ) := Nat.cast_nonneg _
  push_cast
  refine ⟨by positivity, ?_, ?_⟩
  · refine mul_le_mul_of_nonneg_right ?_ hp.le
    have : (65536 * ((hi % 128 : ℕ) : ℝ)) / 2 ^ 23 ≤ (lo + 65536 * ((hi % 128 : ℕ) : ℝ)) / 2 ^ 23 := by gcongr; linarith
    linarith
  · rw [← mul_assoc]
    refine mul_le_mul_of_nonneg_right ?_ hp.le
    have : (lo + 65536 * ((hi : ℤ) % 128 : ℤ) : ℝ) / 2 ^ 23 = lo / 2 ^ 23 + 65536 * ((hi : ℤ) % 128 : ℤ) / 2 ^ 23 := by ring
    nlinarith [this]

end Verif.AttnTypes
