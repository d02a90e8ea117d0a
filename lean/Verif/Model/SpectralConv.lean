import Verif.Model.SHT
/-!
Model of `torch_harmonics/spectral_convolution.py`. The batch dimension is not modelled (all operations act on the batch
elements independently). The learnable weights and bias are arbitrary parameters; the random initialisation (188-192) matters only
through the exceptions it can raise. The casts to float32 and back are not modelled.
-/
namespace Verif.SHT
open Verif Verif.Dist Verif.FFT Verif.Quad Verif.Truncation Finset

/-- Apply a transform to every channel. Whether it raises, and the shape of its result, depend on the shape only. -/
def mapChannels {α β : Type} (f : Mat α → Except PyErr (Mat β)) (x : Ten3 α) : Except PyErr (Ten3 β) :=
  match f ⟨x.d1, x.d2, x.val 0⟩ with
  | .error e => .error e
  | .ok y0 => .ok ⟨x.d0, y0.d0, y0.d1, fun c =>
      match f ⟨x.d1, x.d2, x.val c⟩ with
      | .error _ => y0.val
      | .ok y => y.val⟩

/-- Arguments of `SpectralConvS2.__init__`, spectral_convolution.py 148-158. -/
structure ConvArgs where
  nlatIn : ℕ
  nlonIn : ℕ
  nlatOut : ℕ
  nlonOut : ℕ
  inChannels : ℕ
  outChannels : ℕ
  groups : ℕ
  gridIn : String
  gridOut : String

/-- State of a `SpectralConvS2` object: `weight[g, i, o, l]`, `spectral_bias[c, l, m]`, and the rule of `self.quadrature`. -/
structure SpectralConv where
  inChannels : ℕ
  outChannels : ℕ
  groups : ℕ
  lmax : ℕ
  sht : RealSHT
  isht : InverseRealSHT
  weight : ℕ → ℕ → ℕ → ℕ → ℂ
  bias : Option (Rule × (ℕ → ℕ → ℕ → ℂ))

/-- The common truncation, spectral_convolution.py 171-179. -/
def convLmax (A : ConvArgs) : Except PyErr ℤ :=
  match truncateSht A.nlatIn A.nlonIn none none A.gridIn with
  | .error e => .error e
  | .ok (lin, min') =>
    match truncateSht A.nlatOut A.nlonOut none none A.gridOut with
    | .error e => .error e
    | .ok (lout, mout) => .ok (min (min lin lout) (min min' mout))

/-- `SpectralConvS2.__init__`, spectral_convolution.py 148-196. `bias = none` is `bias=False`. -/
noncomputable def SpectralConv.init (env : Env) (A : ConvArgs) (weight : ℕ → ℕ → ℕ → ℕ → ℂ) (bias : Option (ℕ → ℕ → ℕ → ℂ)) :
    Except PyErr SpectralConv :=
  if A.groups = 0 then .error .zeroDivision
  else if A.inChannels % A.groups ≠ 0 then .error .valueError
  else if A.outChannels % A.groups ≠ 0 then .error .valueError
  else
    match convLmax A with
    | .error e => .error e
    | .ok lmax =>
      match RealSHT.init env ⟨A.nlatIn, A.nlonIn, some lmax, some lmax, A.gridIn, "ortho", true⟩ with
      | .error e => .error e
      | .ok S =>
        match InverseRealSHT.init env ⟨A.nlatOut, A.nlonOut, some lmax, some lmax, A.gridOut, "ortho", true⟩ with
        | .error e => .error e
        | .ok I =>
          if A.inChannels / A.groups = 0 then .error .zeroDivision
          else if lmax < 0 then .error .runtimeError
          else if lmax = 0 then .error .indexError
          else
            match bias with
            | none => .ok ⟨A.inChannels, A.outChannels, A.groups, lmax.toNat, S, I, weight, none⟩
            | some b =>
              match quadratureS2Rule env.gauss env.tol env.maxiter A.nlatIn A.gridIn with
              | .error e => .error e
              | .ok r => .ok ⟨A.inChannels, A.outChannels, A.groups, lmax.toNat, S, I, weight, some (r, b)⟩

/-- Torch broadcasting of two extents; `none` = incompatible. -/
def bcast (a b : ℕ) : Option ℕ := if a = b then some a else if a = 1 then some b else if b = 1 then some a else none

/-- The index read in an operand of extent `n` that may be broadcast. -/
def bidx (n i : ℕ) : ℕ := if n = 1 then 0 else i

/-- `x + integral.reshape(B, C, 1, 1) * self.spectral_bias`, spectral_convolution.py 222-234 (`x` real input, `c` its coefficients). -/
noncomputable def SpectralConv.addBias (S : SpectralConv) (x : Ten3 ℝ) (c : Ten3 ℂ) : Except PyErr (Ten3 ℂ) :=
  match S.bias with
  | none => .ok c
  | some (r, b) =>
    match bcast c.d0 S.inChannels with
    | none => .error .runtimeError
    | some n => .ok ⟨n, c.d1, c.d2, fun i l m => c.val (bidx c.d0 i) l m
        + ((quadForward r x.d2 false (x.val (bidx c.d0 i)) : ℝ) : ℂ) * b (bidx S.inChannels i) l m⟩

/-- The reshape into groups and `_contract_lwise` (`einsum("bgixy,giox->bgoxy")`), spectral_convolution.py 198-201 and 236-239; `C` is the
channel count of the input (line 230). -/
noncomputable def SpectralConv.contract (S : SpectralConv) (C : ℕ) (c : Ten3 ℂ) : Except PyErr (Ten3 ℂ) :=
  let xi := C / S.groups
  let wi := S.inChannels / S.groups
  let og := S.outChannels / S.groups
  if S.groups * xi ≠ c.d0 then .error .runtimeError
  else
    match bcast xi wi with
    | none => .error .runtimeError
    | some n => .ok ⟨S.outChannels, c.d1, c.d2, fun oc l m =>
        ∑ i ∈ range n, c.val (oc / og * xi + bidx xi i) l m * S.weight (oc / og) (bidx wi i) (oc % og) l⟩

/-- `SpectralConvS2.forward`, spectral_convolution.py 203-247. -/
noncomputable def SpectralConv.forward (be : C2R) (S : SpectralConv) (x : Ten3 ℝ) : Except PyErr (Ten3 ℝ) :=
  match mapChannels S.sht.forward x with
  | .error e => .error e
  | .ok c =>
    match S.addBias x c with
    | .error e => .error e
    | .ok c' =>
      match S.contract x.d0 c' with
      | .error e => .error e
      | .ok z => mapChannels (S.isht.forward be) z

end Verif.SHT
