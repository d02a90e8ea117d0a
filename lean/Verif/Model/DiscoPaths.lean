import Verif.Model.DiscoFused
import Verif.Model.DiscoCuda
import Verif.Model.DiscoKpacked
/-!
Model of the execution paths of `DiscreteContinuousConvS2` and of their gradients: the choice of the path (convolution.py 696-832),
the buffers made by `__init__` (588-645), the six operators of `disco/optimized/disco_optimized.py` (293-315, 471-506, 681-782,
855-886, 893-994, 1049-1147) with their autocast rules (416-426, 632-678, 848-852), and the types that flow through them.

Whole batches are modelled: a tensor of shape `(B, C, H, W)` is a `Ten` whose first dimension counts the `B * C` planes.
Values are exact, so a cast between floating-point types keeps them; the type itself is carried along and decides which
calls are refused. PyTorch: an einsum under autocast first casts its operands to the autocast type, except those in double precision,
and then refuses operands of different types; the sum of a tensor and the bias has the promoted type; autograd hands a
gradient of the type of the output to `backward`, and casts what it returns to the type of the input.
-/
namespace Verif.Disco
open Verif Verif.Dist Finset

variable {R : Type}

/-- `_compute_dtype`, _disco_utils.py 38-42. -/
def computeDtype (d : KDtype) : KDtype := if d = .f16 ∨ d = .bf16 then .f32 else d

/-- PyTorch: the type in which an operand enters an einsum; `ac` is the autocast type of the device, `none` if autocast is off. -/
def operandDt (ac : Option KDtype) (d : KDtype) : KDtype :=
  match ac with
  | none => d
  | some a => if d = .f64 then d else a

/-- PyTorch: the type of an einsum of two tensors. -/
def einsumDt (ac : Option KDtype) (a b : KDtype) : Except PyErr KDtype :=
  if operandDt ac a = operandDt ac b then .ok (operandDt ac a) else .error .runtimeError

/-- PyTorch: the type of a sum of two tensors. -/
def promoteDt (a b : KDtype) : KDtype := if a = b then a else if a = .f64 ∨ b = .f64 then .f64 else .f32

/-- The kernels behind `disco_kernels.forward` and `disco_kernels.backward` on one plane of a batch. -/
structure Device (R : Type) where
  fwd : Csr R → Mat R → ℕ → ℕ → ℕ → Except PyErr (Ten R)
  bwd : Csr R → Ten R → ℕ → ℕ → Except PyErr (Mat R)

/-- What the CPU leaves open: the memory next to a row, the initial buffers, the order of the rows (as a function of their number). -/
structure CpuNoise (R : Type) where
  mem : ℕ → R
  sh0 : ℕ → ℕ → R
  order : ℕ → List ℕ
  sh : ℕ → R

/-- What the GPU leaves open: shared memory and schedules of the two kernels, the order of the blocks and of the atomic
additions. `cap` is the shared memory a launch may ask for, in elements. -/
structure GpuNoise (R : Type) where
  cap : ℕ
  sharedF : ℕ → ℕ → R
  schedF : ℕ → ℕ → List ℕ
  order : ℕ → List ℕ
  sharedB : ℕ → ℕ → ℕ → R
  schedB : ℕ → ℕ → List ℕ
  shuffle : List (ℕ × R) → List (ℕ × R)

/-- One value per plane, computed one after the other; the first failure is the failure of the call. -/
def planes {α : Type} (dflt : α) (f : ℕ → Except PyErr α) : ℕ → Except PyErr (ℕ → α)
  | 0 => .ok fun _ => dflt
  | n + 1 =>
    match planes dflt f n with
    | .error e => .error e
    | .ok z =>
      match f n with
      | .error e => .error e
      | .ok y => .ok (Function.update z n y)

section
variable [CommSemiring R]

/-- The CPU kernels, disco_cpu_fwd.cpp 36-76 and disco_cpu_bwd.cpp 36-76. -/
def cpuDevice (n : CpuNoise R) : Device R :=
  ⟨fun A x K Ho Wo => cpuForward n.mem n.sh0 A (n.order A.nnr) x K Ho Wo,
   fun A g Ho Wo =>
    match cpuBackward n.sh A g Ho Wo with
    | .error e => .error e
    | .ok z => .ok z.1⟩

/-- The GPU kernels, disco_cuda_fwd.cu 214-311 and disco_cuda_bwd.cu 209-313. -/
def gpuDevice (n : GpuNoise R) : Device R :=
  ⟨fun A x K Ho Wo => cudaForward n.cap n.sharedF n.schedF A (n.order A.nnr) x K Ho Wo,
   fun A g Ho Wo => cudaBackward n.cap n.sharedB n.schedB n.shuffle A g Ho Wo⟩

/-- The checks of the types: on the GPU the pointer to the values is taken in the compute type of the input (disco_cuda_fwd.cu 253-260,
disco_cuda_bwd.cu 252-259); the CPU converts both for a half-precision input and otherwise takes both in the type of the
input (disco_cpu_fwd.cpp 55-71, disco_cpu_bwd.cpp 55-71). -/
def typesOk (gpu : Bool) (inDt valDt : KDtype) : Bool :=
  (!gpu && (inDt = .f16 ∨ inDt = .bf16)) || valDt = computeDtype inDt

/-- The launch `grid(nrows, BC)`, disco_cuda_fwd.cu 185 and disco_cuda_bwd.cu 182: the second dimension of a grid is between 1 and 65535, any other
launch is reported as an exception. -/
def gridOk (gpu : Bool) (n : ℕ) : Bool := !gpu || (0 < n ∧ n ≤ 65535)

/-- `disco_kernels.forward` on all planes of a batch. -/
def csrForward (gpu : Bool) (dev : ℕ → Device R) (inDt valDt : KDtype) (A : Csr R) (x : Ten R) (K Ho Wo : ℕ) : Except PyErr (Ten4 R) :=
  if ¬ typesOk gpu inDt valDt then .error .runtimeError
  else if ¬ gridOk gpu x.d0 then .error .runtimeError
  else
    match planes ⟨0, 0, 0, fun _ _ _ => 0⟩ (fun b => (dev b).fwd A ⟨x.d1, x.d2, x.val b⟩ K Ho Wo) x.d0 with
    | .error e => .error e
    | .ok z => .ok ⟨x.d0, K, Ho, Wo, fun b => (z b).val⟩

/-- `disco_kernels.backward` on all planes of a batch. -/
def csrBackward (gpu : Bool) (dev : ℕ → Device R) (inDt valDt : KDtype) (A : Csr R) (g : Ten4 R) (Ho Wo : ℕ) : Except PyErr (Ten R) :=
  if ¬ typesOk gpu inDt valDt then .error .runtimeError
  else if ¬ gridOk gpu g.d0 then .error .runtimeError
  else
    match planes ⟨0, 0, fun _ _ => 0⟩ (fun b => (dev b).bwd A ⟨g.d1, g.d2, g.d3, g.val b⟩ Ho Wo) g.d0 with
    | .error e => .error e
    | .ok z => .ok ⟨g.d0, Ho, Wo, fun b => (z b).val⟩

end

/-- The buffers of an optimized layer: the compressed filter, the number of row offsets, the filter split by kernel, and the packed
filter with the length of its index lists, if it could be packed. -/
structure Buffers (R : Type) where
  csr : Csr R
  numelRoff : ℕ
  split : Split R
  packed : Option (KPacked R × ℕ)

section
variable [CommSemiring R]

/-- The buffers made by `__init__`, convolution.py 588-645. The packing is done twice with the same arguments (607-625 and 627-645). -/
def layerBuffers (junk : ℕ → Entry R) (L : Layer R) : Except PyErr (Buffers R) :=
  match preprocessPsi junk L.kernelSize L.nlatOut L.entries with
  | .error e => .error e
  | .ok (s, roff) =>
    let A := Csr.ofLists junk s roff
    match packPsiDense A L.kernelSize L.nlatOut L.nlonIn 0 with
    | .error e => .error e
    | .ok D =>
      match maybeKpack D 8 with
      | .error e => .error e
      | .ok P => .ok ⟨A, roff.length, buildSplit A L.kernelSize, P.map fun P => (P, D.pad)⟩

end

/-- The paths of `DiscreteContinuousConvS2.forward`. -/
inductive ConvPath
  | fusedPacked | fused | savedPacked | saved | packed | csr | reference
deriving DecidableEq

/-- The choice, convolution.py 711-832. -/
def choosePath (optimized fused saveX kOk : Bool) : ConvPath :=
  if fused && kOk then .fusedPacked
  else if fused then .fused
  else if saveX && kOk then .savedPacked
  else if saveX then .saved
  else if kOk then .packed
  else if optimized then .csr
  else .reference

/-- Where and how a layer is called: the compiled targets, the GPU of the input (`none`: on the CPU), the autocast type for that
kind of device, the types of input, weight and bias, the kernels (per call and plane), and the run of the tensor-core kernel. -/
structure Call (R : Type) where
  targets : List KTarget
  device : Option KDevice
  ac : Option KDtype
  xdt : KDtype
  wdt : KDtype
  bdt : KDtype
  dev : ℕ → ℕ → Device R
  run : KRun R

/-- `kpacked_dtype`, convolution.py 695-698. -/
def Call.kdt (c : Call R) : KDtype :=
  match c.device, c.ac with
  | some _, some a => a
  | _, _ => c.xdt

/-- `_save_x_spatial_first_ok`, convolution.py 662: the split filter is not passed. -/
def saveXOk (optimized : Bool) (L : Layer R) (F : Buffers R) : Bool :=
  optimized && useSpatialFirst (R := R) L.outPerGroup L.groupsize L.kernelSize F.numelRoff L.nlatOut none

/-- The path of a call, convolution.py 553 and 696-832. -/
def Call.path (c : Call R) (optimized fused : Bool) (L : Layer R) (F : Buffers R) : Except PyErr ConvPath :=
  match serialKpackedOk optimized (F.packed.map fun P => P.1.kPad) c.kdt c.targets c.device L.nlonIn L.nlonOut with
  | .error e => .error e
  | .ok kOk => .ok (choosePath optimized (fused && optimized) (saveXOk optimized L F) kOk)

section
variable [CommSemiring R]

/-- The type in which the sparse contraction runs. The operators `_disco_s2_contraction_optimized` and
`_disco_s2_fused_conv_optimized` cast their input to the autocast type, the former on both kinds of device, the latter on the GPU only
(disco_optimized.py 416-426 and 632-657); the other paths cast in the layer (convolution.py 713, 763, 789, 812); the reference keeps the
type (disco_torch.py 71-90). -/
def Call.expandDt (c : Call R) (path : ConvPath) : KDtype :=
  match path with
  | .fused => if c.device.isSome then c.ac.getD c.xdt else c.xdt
  | .csr => c.ac.getD c.xdt
  | .reference => c.xdt
  | _ => c.kdt

/-- The contraction of the input with the filter, with the type of the result: disco_optimized.py 495-499 (fused), 713-716 (saved),
305-314 (csr), 864, 924 and 1093 (packed), disco_torch.py 49-90 (reference). -/
def Call.expand (c : Call R) (L : Layer R) (F : Buffers R) (path : ConvPath) (x : Ten R) : Except PyErr (Ten4 R) :=
  let dt := c.expandDt path
  match path with
  | .fusedPacked | .savedPacked | .packed =>
    match F.packed, c.device with
    | some (P, pad), some d => cudaForwardKpacked c.targets d dt c.run x P pad L.kernelSize L.nlatOut L.nlonOut
    | _, _ => .error .attributeError
  | .fused | .saved | .csr =>
    csrForward c.device.isSome (c.dev 0) dt (computeDtype dt) F.csr x L.kernelSize L.nlatOut L.nlonOut
  | .reference =>
    match planes ⟨0, 0, 0, fun _ _ _ => 0⟩ (fun b =>
        contraction ⟨x.d1, x.d2, x.val b⟩ (getPsi L.kernelSize L.entries L.nlatIn L.nlonIn L.nlatOut) L.nlonOut) x.d0 with
    | .error e => .error e
    | .ok z => .ok ⟨x.d0, L.kernelSize, L.nlatOut, L.nlonOut, fun b => (z b).val⟩

/-- The type of the einsum with the weight: disco_optimized.py 504 (with autocast off on the GPU, 656), 731, 941 and 1096 cast the weight to
the type of the input; convolution.py 838 does not. -/
def Call.mixDt (c : Call R) (path : ConvPath) : Except PyErr KDtype :=
  let dt := c.expandDt path
  match path with
  | .fused => if c.device.isSome then einsumDt none dt dt else einsumDt c.ac dt dt
  | .fusedPacked | .savedPacked | .saved => einsumDt c.ac dt dt
  | .packed | .csr | .reference => einsumDt c.ac dt c.wdt

/-- `DiscreteContinuousConvS2.forward`, convolution.py 680-844, for an input of shape `(B, C, H, W)`, on a given path: type and value of the
output, of shape `(B, groups * out_per_group, nlat_out, nlon_out)`. -/
def Call.forward (c : Call R) (L : Layer R) (F : Buffers R) (path : ConvPath) (B C : ℕ) (x : Ten R) : Except PyErr (KDtype × Ten R) :=
  match c.expand L F path x with
  | .error e => .error e
  | .ok xe =>
    if ¬ B * C = B * (L.groups * L.groupsize) then .error .runtimeError
    else
      match c.mixDt path with
      | .error e => .error e
      | .ok dt =>
        let O := L.groups * L.outPerGroup
        let out := fun q => L.mix (fun ch => xe.val (q / O * C + ch)) (q % O)
        match L.bias with
        | none => .ok (dt, ⟨B * O, L.nlatOut, L.nlonOut, out⟩)
        | some b => .ok (promoteDt dt c.bdt, ⟨B * O, L.nlatOut, L.nlonOut, fun q t p => out q t p + b (q % O)⟩)

/-- The weight einsum of the weight-first gradient, `einsum("bgoxy,gock->bgckxy")`, disco_optimized.py 607-608, 773-774, 985-986, 1138-1139. -/
def mixBack (L : Layer R) (B : ℕ) (gout : Ten R) : Ten4 R :=
  let C := L.groups * L.groupsize
  let O := L.groups * L.outPerGroup
  ⟨B * C, L.kernelSize, L.nlatOut, L.nlonOut, fun q k t p =>
    let g := q % C / L.groupsize
    ∑ o ∈ range L.outPerGroup, gout.val (q / C * O + (g * L.outPerGroup + o)) t p * L.weightR g o (q % C % L.groupsize) k⟩

/-- One part of the spatial-first gradient for a batch of `n` planes, disco_optimized.py 226-251. -/
def batchPart (gpu : Bool) (dev : ℕ → Device R) (junk : ℕ → Entry R) (gdt : KDtype) (L : Layer R) (S : Split R) (n : ℕ) (gout : Ten R)
    (k : ℕ) : Except PyErr (Ten R) :=
  let P := S.part k
  if P.1.length ≤ 1 then .ok ⟨n, L.nlatIn, L.nlonIn, fun _ _ _ => 0⟩
  else csrBackward gpu dev gdt (computeDtype gdt) (Csr.ofLists junk P.2 P.1)
    ⟨n, 1, L.nlatOut, L.nlonOut, fun q _ => gout.val q⟩ L.nlatIn L.nlonIn

/-- The input gradient of the combined operators, disco_optimized.py 585-612, 753-776, 965-988, 1118-1141. `ac` is the autocast type while
`backward` runs, `gdt` the type of the gradient of the output; `devs` are the kernels of the successive calls. -/
def batchGradInput (gpu : Bool) (devs : ℕ → ℕ → Device R) (junk : ℕ → Entry R) (ac : Option KDtype) (gdt : KDtype) (L : Layer R) (F : Buffers R)
    (B : ℕ) (gout : Ten R) : Except PyErr (Ten R) :=
  let C := L.groups * L.groupsize
  let O := L.groups * L.outPerGroup
  if useSpatialFirst L.outPerGroup L.groupsize L.kernelSize F.numelRoff L.nlatOut (some F.split) then
    match planes ⟨0, 0, 0, fun _ _ _ => 0⟩ (fun k => batchPart gpu (devs k) junk gdt L F.split (B * O) gout k) L.kernelSize with
    | .error e => .error e
    | .ok parts =>
      match einsumDt ac gdt gdt with
      | .error e => .error e
      | .ok _ => .ok ⟨B * C, L.nlatIn, L.nlonIn, fun q i j =>
          let g := q % C / L.groupsize
          ∑ o ∈ range L.outPerGroup, ∑ k ∈ range L.kernelSize,
            (parts k).val (q / C * O + (g * L.outPerGroup + o)) i j * L.weightR g o (q % C % L.groupsize) k⟩
  else
    match einsumDt ac gdt gdt with
    | .error e => .error e
    | .ok dt => csrBackward gpu (devs 0) dt (computeDtype gdt) F.csr (mixBack L B gout) L.nlatIn L.nlonIn

/-- The weight gradient from the expanded input, `einsum("bgoxy,bgckxy->gock")`, disco_optimized.py 616-620, 778-780, 990-992, 1143-1145. -/
def batchGradWeight (L : Layer R) (B : ℕ) (xe : Ten4 R) (gout : Ten R) : Ten R :=
  let C := L.groups * L.groupsize
  let O := L.groups * L.outPerGroup
  ⟨O, L.groupsize, L.kernelSize, fun oc ch k =>
    ∑ b ∈ range B, ∑ t ∈ range L.nlatOut, ∑ p ∈ range L.nlonOut,
      gout.val (b * O + oc) t p * xe.val (b * C + (oc / L.outPerGroup * L.groupsize + ch)) k t p⟩

/-- The number of arguments of the operator of a path: disco_optimized.py 472-493, 690-712, 897-921, 1057-1082 for the combined operators, 859 and
294-304 for the contractions. -/
def pathArity : ConvPath → ℕ
  | .fused | .saved => 20
  | .fusedPacked | .savedPacked => 23
  | .packed => 12
  | .csr => 9
  | .reference => 0

/-- `backward` of the combined operators: `_disco_s2_fused_conv_bwd_optimized`, disco_optimized.py 568-622, and those of `_DiscoSaveXConvFn`,
735-782, `_DiscoKpackedSaveXConvFn`, 945-994, and `_DiscoKpackedFusedFn`, 1100-1147. `xe` is what the forward expanded; the "saved" operators
kept it, the fused ones expand the kept input `x` again. Kernel calls `1 ..` belong to the input gradient, call `0` of `devs'`
to the second expansion. -/
def Call.backward (c : Call R) (junk : ℕ → Entry R) (devs : ℕ → ℕ → Device R) (dev' : ℕ → Device R) (ac : Option KDtype) (path : ConvPath) (L : Layer R)
    (F : Buffers R) (need : Bool × Bool) (B : ℕ) (x : Ten R) (xe : Ten4 R) (gdt : KDtype) (gout : Ten R) :
    Except PyErr (List (Option (KDtype × Ten R))) :=
  let gpu := c.device.isSome
  let gi : Except PyErr (Option (KDtype × Ten R)) :=
    if need.1 then
      match batchGradInput gpu devs junk ac gdt L F B gout with
      | .error e => .error e
      | .ok z => .ok (some (gdt, z))
    else .ok none
  let expanded : Except PyErr (Ten4 R) :=
    match path with
    | .fused | .fusedPacked =>
      csrForward gpu dev' (c.expandDt path) (computeDtype gdt) F.csr x L.kernelSize L.nlatOut L.nlonOut
    | _ => .ok xe
  let gw : Except PyErr (Option (KDtype × Ten R)) :=
    if need.2 then
      match expanded with
      | .error e => .error e
      | .ok xe =>
        match einsumDt ac gdt gdt with
        | .error e => .error e
        | .ok dt => .ok (some (dt, batchGradWeight L B xe gout))
    else .ok none
  match gi with
  | .error e => .error e
  | .ok gi =>
    match gw with
    | .error e => .error e
    | .ok gw =>
      match path with
      | .fused | .saved => .ok (gi :: gw :: List.replicate 18 none)
      | _ => .ok (gi :: gw :: List.replicate 21 none)

/-- `backward` of the contractions: `_disco_s2_contraction_bwd_optimized`, disco_optimized.py 383-398, and that of `_DiscoKpackedFn`, 867-886. `gdt` and `g`
are type and value of the gradient of the expanded tensor. -/
def Call.contractionBackward (c : Call R) (dev : ℕ → Device R) (path : ConvPath) (L : Layer R) (F : Buffers R) (need : Bool) (gdt : KDtype) (g : Ten4 R) :
    Except PyErr (List (Option (KDtype × Ten R))) :=
  let tail := match path with
    | .packed => List.replicate 11 none
    | _ => [none, none, none, none, none, none, none, none]
  if need then
    match csrBackward c.device.isSome dev gdt (computeDtype gdt) F.csr g L.nlatIn L.nlonIn with
    | .error e => .error e
    | .ok z => .ok (some (gdt, z) :: tail)
  else .ok (none :: tail)

/-- The gradients of input and weight that a layer on an optimized path propagates. On the paths `packed` and `csr` the
weight einsum is PyTorch's: its gradients are the two transposed einsums, that of the expanded tensor has the type of
that tensor. -/
def Call.gradients (c : Call R) (junk : ℕ → Entry R) (devs : ℕ → ℕ → Device R) (dev' : ℕ → Device R) (ac : Option KDtype) (path : ConvPath) (L : Layer R)
    (F : Buffers R) (need : Bool × Bool) (B : ℕ) (x : Ten R) (xe : Ten4 R) (gdt : KDtype) (gout : Ten R) :
    Except PyErr (Option (Ten R) × Option (Ten R)) :=
  match path with
  | .reference => .error .notImplemented
  | .packed | .csr =>
    match c.contractionBackward (devs 0) path L F need.1 (c.expandDt path) (mixBack L B gout) with
    | .error e => .error e
    | .ok l => .ok ((l[0]?.getD none).map Prod.snd, if need.2 then some (batchGradWeight L B xe gout) else none)
  | _ =>
    match c.backward junk devs dev' ac path L F need B x xe gdt gout with
    | .error e => .error e
    | .ok l => .ok ((l[0]?.getD none).map Prod.snd, (l[1]?.getD none).map Prod.snd)

end

end Verif.Disco
