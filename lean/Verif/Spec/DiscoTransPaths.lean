import Verif.Spec.Disco
/-!
Independent specification of the transposed DISCO layer and of its gradients. A batch is a family `x b c i j`; `taps` are those of the
convolution that leads from the output grid (`nlonOut` longitudes) to the input grid (`W` longitudes).
-/
namespace Verif.Spec
open Finset

variable {R : Type} [CommSemiring R]

/-- The channels of a grouped layer: input channel `c` and output channel `o` of group `g`. -/
structure Groups where
  groups : ℕ
  inPer : ℕ
  outPer : ℕ

/-- The output of channel `o` of group `g`, without bias: the input channels of the group are mixed into one field per kernel, and every tap sends
those values to the grid point it reads in the convolution. -/
def transOut (G : Groups) (taps : List (Tap R)) (nlonOut W : ℕ) (w : ℕ → ℕ → ℕ → R) (x : ℕ → ℕ → ℕ → R) (g o i j : ℕ) : R :=
  discoAdjoint taps nlonOut W (fun k t p => ∑ c ∈ range G.inPer, x (g * G.inPer + c) t p * w (g * G.outPer + o) c k) i j

/-- The gradient of input channel `c` of group `g`: the gradients of the output channels of the group, convolved and mixed. -/
def transGradIn (G : Groups) (taps : List (Tap R)) (nlonOut W K : ℕ) (w : ℕ → ℕ → ℕ → R) (gout : ℕ → ℕ → ℕ → R) (g c t p : ℕ) : R :=
  ∑ o ∈ range G.outPer, ∑ k ∈ range K, discoSum taps nlonOut W (gout (g * G.outPer + o)) k t p * w (g * G.outPer + o) c k

/-- The gradient of the weight between input channel `c` and output channel `o` of group `g`, for kernel `k`. -/
def transGradW (G : Groups) (taps : List (Tap R)) (nlonOut W nlat B : ℕ) (x gout : ℕ → ℕ → ℕ → ℕ → R) (g o c k : ℕ) : R :=
  ∑ b ∈ range B, ∑ t ∈ range nlat, ∑ p ∈ range W,
    x b (g * G.inPer + c) t p * discoSum taps nlonOut W (gout b (g * G.outPer + o)) k t p

end Verif.Spec
