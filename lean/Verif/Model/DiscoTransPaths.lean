import Verif.Model.DiscoPaths
/-!
Model of the execution paths of `DiscreteContinuousConvTransposeS2` and of the gradients of its optimized path: `__init__`, convolution.py
929-966, `forward`, 974-1007, the operator `_disco_s2_transpose_contraction_optimized` with its gradient and autocast rules,
disco_optimized.py 316-338, 372-380 and 430-463, and the types that flow through them.

Whole batches are modelled as in `Model/DiscoPaths.lean`. The optimized kernels check the number of longitudes of their input but not its
number of latitudes: they address it as the contiguous memory it is, so what they find beyond the last latitude is modelled too.
-/
namespace Verif.Disco
open Verif Verif.Dist Finset

variable {R : Type}

/-- What lies at an address of a contiguous tensor; `beyond` is what lies after its last element. -/
def Ten4.at (x : Ten4 R) (beyond : ℕ → R) (a : ℕ) : R :=
  if a < x.d0 * x.d1 * x.d2 * x.d3 then x.val (a / x.d3 / x.d2 / x.d1) (a / x.d3 / x.d2 % x.d1) (a / x.d3 % x.d2) (a % x.d3)
  else beyond a

/-- What a kernel finds for plane `q`, kernel index `k`, latitude `t`, longitude `p`: the pointers
`inp_base + b*inp_sB + c*inp_sC + ker*inp_sK + hi*inp_sH` of the CPU (disco_cpu_bwd.h 62-67, 113-114) and `inp + bidy*K*Hi*Wi + ker*Hi*Wi + row*Wi` of
the GPU (disco_cuda_bwd.cu 60); no index is compared with an extent. -/
def Ten4.view (x : Ten4 R) (beyond : ℕ → R) : Ten4 R :=
  ⟨x.d0, x.d1, x.d2, x.d3, fun q k t p => x.at beyond (((q * x.d1 + k) * x.d2 + t) * x.d3 + p)⟩

/-- Where and how a transposed layer is called: on a GPU or not, the autocast type for that device, the types of input, weight and bias, the kernels
(per plane), and what lies in memory after the operand of the kernels. -/
structure TCall (R : Type) where
  gpu : Bool
  ac : Option KDtype
  xdt : KDtype
  wdt : KDtype
  bdt : KDtype
  dev : ℕ → Device R
  beyond : ℕ → R

/-- The type of the contraction: the optimized operator casts to the autocast type on both kinds of device, disco_optimized.py 451-463; the
reference returns the type of its operand, disco_torch.py 131-135. -/
def TCall.opDt (c : TCall R) (optimized : Bool) (d : KDtype) : KDtype := if optimized then c.ac.getD d else d

section
variable [CommSemiring R]

/-- The compressed filter of an optimized layer, convolution.py 953-956: the rows of the filter are the latitudes of the input. -/
def transBuffers (junk : ℕ → Entry R) (L : Layer R) : Except PyErr (Csr R) :=
  match preprocessPsi junk L.kernelSize L.nlatIn L.entries with
  | .error e => .error e
  | .ok (s, roff) => .ok (Csr.ofLists junk s roff)

/-- The expanded input of shape `(B, out_channels, kernel_size, H, W)`, convolution.py 989-995. -/
def transExpand (L : Layer R) (B C : ℕ) (x : Ten R) : Ten4 R :=
  let O := L.groups * L.outPerGroup
  ⟨B * O, L.kernelSize, x.d1, x.d2, fun q => (L.expand ⟨C, x.d1, x.d2, fun ch => x.val (q / O * C + ch)⟩ (q % O)).val⟩

/-- The contraction: `_disco_s2_transpose_contraction_optimized`, disco_optimized.py 318-338, or `_disco_s2_transpose_contraction_torch`,
disco_torch.py 94-141. -/
def TCall.contract (c : TCall R) (optimized : Bool) (L : Layer R) (A : Csr R) (d : KDtype) (xe : Ten4 R) : Except PyErr (Ten R) :=
  if optimized then csrBackward c.gpu c.dev d (computeDtype d) A (xe.view c.beyond) L.nlatOut L.nlonOut
  else
    match planes ⟨0, 0, fun _ _ => 0⟩ (fun q => transposeContraction ⟨xe.d1, xe.d2, xe.d3, xe.val q⟩
        (getPsiT L.kernelSize L.entries L.nlatIn L.nlatOut L.nlonOut) L.nlonOut) xe.d0 with
    | .error e => .error e
    | .ok z => .ok ⟨xe.d0, L.nlatOut, L.nlonOut, fun q => (z q).val⟩

/-- `DiscreteContinuousConvTransposeS2.forward`, convolution.py 974-1007, for an input of shape `(B, C, H, W)`: type and value of the output. -/
def TCall.forward (c : TCall R) (optimized : Bool) (L : Layer R) (A : Csr R) (B C : ℕ) (x : Ten R) : Except PyErr (KDtype × Ten R) :=
  if ¬ B * C = B * (L.groups * L.groupsize) then .error .runtimeError
  else
    match einsumDt c.ac c.xdt c.wdt with
    | .error e => .error e
    | .ok d =>
      let dt := c.opDt optimized d
      match c.contract optimized L A dt (transExpand L B C x) with
      | .error e => .error e
      | .ok y =>
        match L.bias with
        | none => .ok (dt, y)
        | some b => .ok (promoteDt dt c.bdt, ⟨y.d0, y.d1, y.d2, fun q i j => y.val q i j + b (q % (L.groups * L.outPerGroup))⟩)

/-- `_disco_s2_transpose_contraction_bwd_optimized`, disco_optimized.py 430-445, with the sizes kept by `_setup_context_conv_backward`, 372-380. -/
def TCall.backward (c : TCall R) (dev : ℕ → Device R) (A : Csr R) (need : Bool) (K H W : ℕ) (gdt : KDtype) (gout : Ten R) :
    Except PyErr (List (Option (KDtype × Ten4 R))) :=
  if need then
    match csrForward c.gpu dev gdt (computeDtype gdt) A gout K H W with
    | .error e => .error e
    | .ok z => .ok [some (gdt, z), none, none, none, none, none, none, none, none]
  else .ok [none, none, none, none, none, none, none, none, none]

/-- The gradients of input, weight and bias of an optimized layer. The einsum of convolution.py 993-995 and the addition of the bias are
PyTorch's: their gradients are the two transposed einsums and the sum over batch and grid. `gdt` is the type of the gradient of the operator. -/
def TCall.gradients (c : TCall R) (dev : ℕ → Device R) (L : Layer R) (A : Csr R) (need : Bool × Bool × Bool) (B : ℕ) (x : Ten R) (gdt : KDtype)
    (gout : Ten R) : Except PyErr (Option (Ten R) × Option (Ten R) × Option (ℕ → R)) :=
  let C := L.groups * L.groupsize
  let O := L.groups * L.outPerGroup
  match c.backward dev A (need.1 || need.2.1) L.kernelSize x.d1 x.d2 gdt gout with
  | .error e => .error e
  | .ok l =>
    let ge := fun q k t p => match l[0]?.getD none with
      | none => 0
      | some g => g.2.val q k t p
    let gx : Ten R := ⟨B * C, x.d1, x.d2, fun q t p =>
      let g := q % C / L.groupsize
      ∑ o ∈ range L.outPerGroup, ∑ k ∈ range L.kernelSize, ge (q / C * O + (g * L.outPerGroup + o)) k t p * L.weightR g o (q % C % L.groupsize) k⟩
    let gw : Ten R := ⟨O, L.groupsize, L.kernelSize, fun oc ch k =>
      ∑ b ∈ range B, ∑ t ∈ range x.d1, ∑ p ∈ range x.d2,
        x.val (b * C + (oc / L.outPerGroup * L.groupsize + ch)) t p * ge (b * O + oc) k t p⟩
    let gb := fun oc => ∑ b ∈ range B, ∑ i ∈ range gout.d1, ∑ j ∈ range gout.d2, gout.val (b * O + oc) i j
    .ok (if need.1 then some gx else none, if need.2.1 then some gw else none, if need.2.2 && L.bias.isSome then some gb else none)

end

end Verif.Disco
