import Verif.Spec.SHT
/-!
Specification vocabulary for the spectral position embedding.
-/
namespace Verif.Spec

/-- The real spherical harmonic of degree `l` and order `m`, `-l <= m <= l`, up to a constant factor: cosines for `m >= 0`, sines for `m < 0`. -/
noncomputable def realHarmonic (l : ℕ) (m : ℤ) (th ph : ℝ) : ℝ :=
  legendreTheta l m.natAbs th * (if m < 0 then Real.sin (m.natAbs * ph) else Real.cos (m.natAbs * ph))

end Verif.Spec
