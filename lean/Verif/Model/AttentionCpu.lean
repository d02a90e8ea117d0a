import Verif.Model.Attention
/-!
Model of the CPU attention kernels, `attention/optimized/kernels_cpu/attention_cpu_fwd.h`, `attention_cpu_bwd.h`,
`attention_cpu_fwd_upsample.cpp`, `attention_cpu_bwd_upsample.cpp`. Tensors are indexed `[b][h][w][c]`. The channel reductions
are `omp simd` reductions; over the reals their order does not matter and they are written as sums.
-/
namespace Verif.Attn
open Verif Verif.Spec.Attn Finset

/-- A channel reduction `sum_c x[b,h,w,c] * y[b,h',w',c]`, attention_cpu_fwd.h 162-166. -/
def dotN (C : ℕ) (x y : T4) (b h w h' w' : ℕ) : ℝ := ∑ c ∈ range C, x b h w c * y b h' w' c

/-- `CACHE_BLOCK_SIZE`, attention_cpu_fwd.h 37. -/
def blockSize : ℕ := 64

/-- The buffers of one block of output longitudes, attention_cpu_fwd.h 109 and 126-128. -/
structure Block where
  alphaSum : ℕ → ℝ
  qdotkMax : ℕ → ℝ
  yTmp : ℕ → ℝ

/-- The initial buffers, attention_cpu_fwd.h 123-128: only `this_block * nchannels_out` numbers of `y_tmp` are cleared; the
others are what the thread left there (`mem`). -/
noncomputable def blockInit (fmin : ℝ) (mem : ℕ → ℝ) (n : ℕ) : Block :=
  ⟨fun _ => 0, fun _ => fmin, fun i => if i < n then 0 else mem i⟩

/-- The body of the loop over `wo`, attention_cpu_fwd.h 153-186; the second component is the running `wip`. -/
noncomputable def cpuFwdWo (d : Dims) (w : ℕ → ℝ) (k v q : T4) (pscale b ho hi woStart : ℕ) (s : Block × ℕ) (wo : ℕ) : Block × ℕ :=
  let wob := wo - woStart
  let wip := s.2
  let qdotk := dotN d.Ck q k b ho wo hi wip
  let m := max (s.1.qdotkMax wob) qdotk
  let discount := Real.exp (s.1.qdotkMax wob - m)
  let alpha := Real.exp (qdotk - m) * w hi
  let wip' := wip + pscale
  (⟨Function.update s.1.alphaSum wob (alpha + s.1.alphaSum wob * discount),
    Function.update s.1.qdotkMax wob m,
    fun i => if wob * d.Cv ≤ i ∧ i < wob * d.Cv + d.Cv then s.1.yTmp i * discount + alpha * v b hi wip (i - wob * d.Cv)
      else s.1.yTmp i⟩,
   if wip' ≥ d.nlonIn then wip' - d.nlonIn else wip')

/-- One stored neighbour, attention_cpu_fwd.h 136-187. -/
noncomputable def cpuFwdEntry (d : Dims) (w : ℕ → ℝ) (P : Pattern) (k v q : T4) (pscale b ho woStart woEnd : ℕ) (s : Block)
    (z : ℕ) : Block :=
  let hi := P.col z / d.nlonIn
  let wi := P.col z % d.nlonIn
  ((List.range' woStart (woEnd - woStart)).foldl (cpuFwdWo d w k v q pscale b ho hi woStart)
    (s, (wi + pscale * woStart) % d.nlonIn)).1

/-- The last loop, attention_cpu_fwd.h 189-199 and attention_cpu_fwd_upsample.cpp 238-247. -/
noncomputable def blockWrite (d : Dims) (b ho woStart woEnd : ℕ) (s : Block) (y : T4) : T4 := fun b' ho' wo co =>
  if b' = b ∧ ho' = ho ∧ woStart ≤ wo ∧ wo < woEnd ∧ co < d.Cv then
    s.yTmp ((wo - woStart) * d.Cv + co) * (1 / s.alphaSum (wo - woStart))
  else y b' ho' wo co

/-- One iteration of the collapsed parallel loop, attention_cpu_fwd.h 114-200. -/
noncomputable def cpuFwdBlock (d : Dims) (w : ℕ → ℝ) (P : Pattern) (k v q : T4) (fmin : ℝ) (mem : ℕ × ℕ × ℕ → ℕ → ℝ) (y : T4)
    (t : ℕ × ℕ × ℕ) : T4 :=
  let b := t.1
  let ho := t.2.1
  let woStart := t.2.2 * blockSize
  let woEnd := min d.nlonOut (woStart + blockSize)
  let s := (P.row ho).foldl (cpuFwdEntry d w P k v q (d.nlonIn / d.nlonOut) b ho woStart woEnd)
    (blockInit fmin (mem t) ((woEnd - woStart) * d.Cv))
  blockWrite d b ho woStart woEnd s y

/-- The number of blocks, attention_cpu_fwd.h 79. -/
def nblocks (n : ℕ) : ℕ := (n + blockSize - 1) / blockSize

/-- `s2_attn_fwd_kernel`, attention_cpu_fwd.h 64-204, on the zero output of attention_cpu_fwd.cpp 120. -/
noncomputable def cpuFwdKernel (d : Dims) (w : ℕ → ℝ) (P : Pattern) (k v q : T4) (fmin : ℝ) (mem : ℕ × ℕ × ℕ → ℕ → ℝ)
    (order : List (ℕ × ℕ × ℕ)) : T4 :=
  order.foldl (cpuFwdBlock d w P k v q fmin mem) (fun _ _ _ _ => 0)

/-! ### Upsampling forward -/

/-- The filter and the input longitude of a stored entry for the output longitude `wo`, attention_cpu_fwd_upsample.cpp 172-174;
`none` is `continue`. -/
def upMatch (nlonOut ps wc wo : ℕ) : Option ℕ :=
  let woDiff := (wo + nlonOut - wc) % nlonOut
  if ¬ woDiff % ps = 0 then none else some (woDiff / ps)

/-- The loops `for hi: for idz: filter; for wo: filter; body`, attention_cpu_fwd_upsample.cpp 155-188 and 194-236. -/
def upBlockLoop {σ : Type} (d : Dims) (P : Pattern) (ho woStart woEnd : ℕ) (body : σ → ℕ → ℕ → ℕ → σ) (s : σ) : σ :=
  (List.range d.nlatIn).foldl (fun s hi => (P.row hi).foldl (fun s z =>
    if ¬ P.col z / d.nlonOut = ho then s
    else (List.range' woStart (woEnd - woStart)).foldl (fun s wo =>
      match upMatch d.nlonOut (d.nlonOut / d.nlonIn) (P.col z % d.nlonOut) wo with
      | none => s
      | some wi => body s hi wi wo) s) s) s

/-- One iteration of the parallel loop, attention_cpu_fwd_upsample.cpp 132-248. -/
noncomputable def cpuUpBlock (d : Dims) (w : ℕ → ℝ) (P : Pattern) (k v q : T4) (fmin : ℝ) (mem : ℕ × ℕ × ℕ → ℕ → ℝ) (y : T4)
    (t : ℕ × ℕ × ℕ) : T4 :=
  let b := t.1
  let ho := t.2.1
  let woStart := t.2.2 * blockSize
  let woEnd := min d.nlonOut (woStart + blockSize)
  let s0 := blockInit fmin (mem t) ((woEnd - woStart) * d.Cv)
  let mx := upBlockLoop d P ho woStart woEnd (fun mx hi wi wo =>
    Function.update mx (wo - woStart) (max (mx (wo - woStart)) (dotN d.Ck q k b ho wo hi wi))) s0.qdotkMax
  let s := upBlockLoop d P ho woStart woEnd (fun (s : Block) hi wi wo =>
    let wob := wo - woStart
    let alpha := Real.exp (dotN d.Ck q k b ho wo hi wi - s.qdotkMax wob) * w hi
    { s with
      alphaSum := Function.update s.alphaSum wob (s.alphaSum wob + alpha)
      yTmp := fun i => if wob * d.Cv ≤ i ∧ i < wob * d.Cv + d.Cv then s.yTmp i + alpha * v b hi wi (i - wob * d.Cv)
        else s.yTmp i }) { s0 with qdotkMax := mx }
  blockWrite d b ho woStart woEnd s y

/-- `s2_attn_fwd_upsample_kernel`, attention_cpu_fwd_upsample.cpp 80-252. -/
noncomputable def cpuUpFwdKernel (d : Dims) (w : ℕ → ℝ) (P : Pattern) (k v q : T4) (fmin : ℝ) (mem : ℕ × ℕ × ℕ → ℕ → ℝ)
    (order : List (ℕ × ℕ × ℕ)) : T4 :=
  order.foldl (cpuUpBlock d w P k v q fmin mem) (fun _ _ _ _ => 0)

/-- Direction selection, attention_cpu_fwd.cpp 78-84 and 130-136, attention_cpu_bwd.cpp 65-68 and 123-131: `true` is the gather
kernel. An integer division by zero ends the process. -/
def cpuDirection (d : Dims) : Except PyErr Bool :=
  if d.nlonOut = 0 ∨ d.nlonIn = 0 then .error .processExit
  else if d.nlonIn % d.nlonOut = 0 then .ok true
  else if d.nlonOut % d.nlonIn = 0 then .ok false
  else .error .runtimeError

/-- The part of `s2_attention_fwd_cpu` after the head fold, attention_cpu_fwd.cpp 78-84 and 114-136. -/
noncomputable def cpuForward (d : Dims) (w : ℕ → ℝ) (P : Pattern) (k v q : T4) (fmin : ℝ) (mem : ℕ × ℕ × ℕ → ℕ → ℝ)
    (order : List (ℕ × ℕ × ℕ)) : Except PyErr T4 :=
  match cpuDirection d with
  | .error e => .error e
  | .ok true => .ok (cpuFwdKernel d w P k v q fmin mem order)
  | .ok false => .ok (cpuUpFwdKernel d w P k v q fmin mem order)

/-! ### Backward -/

/-- `max_nnz`, attention_cpu_bwd.h 120-121. -/
def maxNnz (P : Pattern) (n : ℕ) : ℕ := (List.range n).foldl (fun m h => max m (P.roff (h + 1) - P.roff h)) 0

/-- The shared buffers, attention_cpu_bwd.h 131-134. -/
structure Bufs where
  alphaNz : ℕ → ℝ
  gdotvNz : ℕ → ℝ
  alphaSum : ℕ → ℝ
  alphaGdotv : ℕ → ℝ

/-- `nz_off`, attention_cpu_bwd.h 136-138. -/
def nzOff (d : Dims) (P : Pattern) (b ho wo : ℕ) : ℕ := ((b * d.nlatOut + ho) * d.nlonOut + wo) * maxNnz P d.nlatOut

/-- `sc_off`, attention_cpu_bwd.h 139. -/
def scOff (d : Dims) (b ho wo : ℕ) : ℕ := (b * d.nlatOut + ho) * d.nlonOut + wo

/-- The wrapped longitude, attention_cpu_bwd.h 170-171: a single conditional subtraction. -/
def wrapLon (n x : ℕ) : ℕ := if x ≥ n then x - n else x

/-- Pass 1 of phase A, attention_cpu_bwd.h 164-182: `(qdotk_local, qdotk_max)`. -/
noncomputable def bwdPass1 (d : Dims) (P : Pattern) (k q : T4) (fmin : ℝ) (loc : ℕ → ℝ) (b ho wo : ℕ) : (ℕ → ℝ) × ℝ :=
  (P.row ho).foldl (fun s z =>
    let wip := wrapLon d.nlonIn (P.col z % d.nlonIn + d.nlonIn / d.nlonOut * wo)
    let qdotk := dotN d.Ck q k b ho wo (P.col z / d.nlonIn) wip
    (Function.update s.1 (z - P.roff ho) qdotk, max s.2 qdotk)) (loc, fmin)

/-- Phase A for one output cell, attention_cpu_bwd.h 154-212. -/
noncomputable def bwdPhaseA (d : Dims) (w : ℕ → ℝ) (P : Pattern) (k v q dy : T4) (fmin : ℝ) (loc : ℕ × ℕ × ℕ → ℕ → ℝ) (B : Bufs)
    (t : ℕ × ℕ × ℕ) : Bufs :=
  let b := t.1
  let ho := t.2.1
  let wo := t.2.2
  let p1 := bwdPass1 d P k q fmin (loc t) b ho wo
  let r := (P.row ho).foldl (fun (s : Bufs × ℝ × ℝ) z =>
    let hi := P.col z / d.nlonIn
    let wip := wrapLon d.nlonIn (P.col z % d.nlonIn + d.nlonIn / d.nlonOut * wo)
    let alpha := Real.exp (p1.1 (z - P.roff ho) - p1.2) * w hi
    let gdotv := dotN d.Cv dy v b ho wo hi wip
    ({ s.1 with
        alphaNz := Function.update s.1.alphaNz (nzOff d P b ho wo + (z - P.roff ho)) alpha
        gdotvNz := Function.update s.1.gdotvNz (nzOff d P b ho wo + (z - P.roff ho)) gdotv },
     s.2.1 + alpha, s.2.2 + alpha * gdotv)) (B, 0, 0)
  { r.1 with
    alphaSum := Function.update r.1.alphaSum (scOff d b ho wo) r.2.1
    alphaGdotv := Function.update r.1.alphaGdotv (scOff d b ho wo) r.2.2 }

/-- The scan of the pattern for the entries with a given `hi`, attention_cpu_bwd.h 243-277 and 313-336. -/
def bwdScan {σ : Type} (d : Dims) (P : Pattern) (hi : ℕ) (body : σ → ℕ → ℕ → ℕ → σ) (s : σ) : σ :=
  (List.range d.nlatOut).foldl (fun s ho => (P.row ho).foldl (fun s z =>
    if ¬ P.col z / d.nlonIn = hi then s
    else (List.range d.nlonOut).foldl (fun s wo => body s ho z wo) s) s) s

/-- Phase B for one `(b, ci)`, attention_cpu_bwd.h 233-293: `dkx` and `dqy` are accumulated in scratch rows and added. -/
noncomputable def bwdPhaseB (d : Dims) (P : Pattern) (k q : T4) (B : Bufs) (out : T4 × T4) (t : ℕ × ℕ) : T4 × T4 :=
  let b := t.1
  let ci := t.2
  let r := (List.range d.nlatIn).foldl (fun (s : T4 × (ℕ → ℝ)) hi =>
    let u := bwdScan d P hi (fun (u : (ℕ → ℝ) × (ℕ → ℝ)) ho z wo =>
      let wip := wrapLon d.nlonIn (P.col z % d.nlonIn + d.nlonIn / d.nlonOut * wo)
      let nz := nzOff d P b ho wo + (z - P.roff ho)
      let invSum := 1 / B.alphaSum (scOff d b ho wo)
      let agOverAs := B.alphaGdotv (scOff d b ho wo) * invSum
      let weight := B.alphaNz nz * invSum * (B.gdotvNz nz - agOverAs)
      (Function.update u.1 wip (u.1 wip + q b ho wo ci * weight),
       Function.update u.2 (ho * d.nlonOut + wo) (u.2 (ho * d.nlonOut + wo) + k b hi wip ci * weight)))
      ((fun _ => 0), s.2)
    ((fun b' h' w' c' => if b' = b ∧ h' = hi ∧ w' < d.nlonIn ∧ c' = ci then s.1 b' h' w' c' + u.1 w' else s.1 b' h' w' c'), u.2))
    (out.1, fun _ => 0)
  (r.1, fun b' h' w' c' => if b' = b ∧ h' < d.nlatOut ∧ w' < d.nlonOut ∧ c' = ci then
    out.2 b' h' w' c' + r.2 (h' * d.nlonOut + w') else out.2 b' h' w' c')

/-- Phase C for one `(b, co)`, attention_cpu_bwd.h 307-344. -/
noncomputable def bwdPhaseC (d : Dims) (P : Pattern) (dy : T4) (B : Bufs) (out : T4) (t : ℕ × ℕ) : T4 :=
  let b := t.1
  let co := t.2
  (List.range d.nlatIn).foldl (fun (s : T4) hi =>
    let u := bwdScan d P hi (fun (u : ℕ → ℝ) ho z wo =>
      let wip := wrapLon d.nlonIn (P.col z % d.nlonIn + d.nlonIn / d.nlonOut * wo)
      let alphaNorm := B.alphaNz (nzOff d P b ho wo + (z - P.roff ho)) * (1 / B.alphaSum (scOff d b ho wo))
      Function.update u wip (u wip + alphaNorm * dy b ho wo co)) (fun _ => 0)
    fun b' h' w' c' => if b' = b ∧ h' = hi ∧ w' < d.nlonIn ∧ c' = co then s b' h' w' c' + u w' else s b' h' w' c') out

/-- Gradients of keys, values and queries. -/
structure Grads where
  dk : T4
  dv : T4
  dq : T4

/-- `s2_attn_bwd_kernel`, attention_cpu_bwd.h 76-347, on the zero gradients of attention_cpu_bwd.cpp 108-110. -/
noncomputable def cpuBwdKernel (d : Dims) (w : ℕ → ℝ) (P : Pattern) (k v q dy : T4) (fmin : ℝ) (loc : ℕ × ℕ × ℕ → ℕ → ℝ)
    (orderA : List (ℕ × ℕ × ℕ)) (orderB orderC : List (ℕ × ℕ)) : Grads :=
  let B := orderA.foldl (bwdPhaseA d w P k v q dy fmin loc) ⟨fun _ => 0, fun _ => 0, fun _ => 0, fun _ => 0⟩
  let r := orderB.foldl (bwdPhaseB d P k q B) (fun _ _ _ _ => 0, fun _ _ _ _ => 0)
  ⟨r.1, orderC.foldl (bwdPhaseC d P dy B) (fun _ _ _ _ => 0), r.2⟩

/-! ### Upsampling backward -/

/-- `nz_off`, attention_cpu_bwd_upsample.cpp 132-134. -/
def upNzOff (d : Dims) (P : Pattern) (b hi loc wi : ℕ) : ℕ := ((b * d.nlatIn + hi) * maxNnz P d.nlatIn + loc) * d.nlonIn + wi

/-- The filter of the backward kernel, attention_cpu_bwd_upsample.cpp 166-169. -/
def upBwdMatch (nlonOut ps wc wo : ℕ) : Option ℕ :=
  let woDiff := if wo < wc then wo + nlonOut - wc else wo - wc
  if ¬ woDiff % ps = 0 then none else some (woDiff / ps)

/-- The scan of all rows for the entries that reach `(ho, wo)`, attention_cpu_bwd_upsample.cpp 158-181 and 187-217. -/
def upCellLoop {σ : Type} (d : Dims) (P : Pattern) (ho wo : ℕ) (body : σ → ℕ → ℕ → ℕ → σ) (s : σ) : σ :=
  (List.range d.nlatIn).foldl (fun s hi => (P.row hi).foldl (fun s z =>
    if ¬ P.col z / d.nlonOut = ho then s
    else match upBwdMatch d.nlonOut (d.nlonOut / d.nlonIn) (P.col z % d.nlonOut) wo with
      | none => s
      | some wi => body s hi wi z) s) s

/-- Pass 1 of phase A, attention_cpu_bwd_upsample.cpp 155-181: `(qdotk_local, n_match, qdotk_max)`. -/
noncomputable def upBwdPass1 (d : Dims) (P : Pattern) (k q : T4) (fmin : ℝ) (loc : ℕ → ℝ) (b ho wo : ℕ) : (ℕ → ℝ) × ℕ × ℝ :=
  upCellLoop d P ho wo (fun (s : (ℕ → ℝ) × ℕ × ℝ) hi wi _ =>
    let qdotk := dotN d.Ck q k b ho wo hi wi
    (Function.update s.1 s.2.1 qdotk, s.2.1 + 1, max s.2.2 qdotk)) (loc, 0, fmin)

/-- State of pass 2 of phase A, attention_cpu_bwd_upsample.cpp 183-186. -/
structure Pass2 where
  bufs : Bufs
  asum : ℝ
  ag : ℝ
  matchIdx : ℕ

/-- Phase A for one output cell, attention_cpu_bwd_upsample.cpp 151-220. -/
noncomputable def upBwdPhaseA (d : Dims) (w : ℕ → ℝ) (P : Pattern) (k v q dy : T4) (fmin : ℝ) (loc : ℕ × ℕ × ℕ → ℕ → ℝ) (B : Bufs)
    (t : ℕ × ℕ × ℕ) : Bufs :=
  let b := t.1
  let ho := t.2.1
  let wo := t.2.2
  let p1 := upBwdPass1 d P k q fmin (loc t) b ho wo
  let r := upCellLoop d P ho wo (fun (s : Pass2) hi wi z =>
    let alpha := Real.exp (p1.1 s.matchIdx - p1.2.2) * w hi
    let gdotv := dotN d.Cv dy v b ho wo hi wi
    let o := upNzOff d P b hi (z - P.roff hi) wi
    ⟨{ s.bufs with
        alphaNz := Function.update s.bufs.alphaNz o alpha
        gdotvNz := Function.update s.bufs.gdotvNz o gdotv },
     s.asum + alpha, s.ag + alpha * gdotv, s.matchIdx + 1⟩) ⟨B, 0, 0, 0⟩
  { r.bufs with
    alphaSum := Function.update r.bufs.alphaSum (scOff d b ho wo) r.asum
    alphaGdotv := Function.update r.bufs.alphaGdotv (scOff d b ho wo) r.ag }

/-- The loops `for idz in psi[hi]: for wi:`, attention_cpu_bwd_upsample.cpp 248-280 and 315-336. -/
def upBwdScan {σ : Type} (d : Dims) (P : Pattern) (hi : ℕ) (body : σ → ℕ → ℕ → σ) (s : σ) : σ :=
  (P.row hi).foldl (fun s z => (List.range d.nlonIn).foldl (fun s wi => body s z wi) s) s

/-- Phase B for one `(b, ci)`, attention_cpu_bwd_upsample.cpp 238-296. -/
noncomputable def upBwdPhaseB (d : Dims) (P : Pattern) (k q : T4) (B : Bufs) (out : T4 × T4) (t : ℕ × ℕ) : T4 × T4 :=
  let b := t.1
  let ci := t.2
  let r := (List.range d.nlatIn).foldl (fun (s : T4 × (ℕ → ℝ)) hi =>
    let u := upBwdScan d P hi (fun (u : (ℕ → ℝ) × (ℕ → ℝ)) z wi =>
      let ho := P.col z / d.nlonOut
      let wo := wrapLon d.nlonOut (P.col z % d.nlonOut + d.nlonOut / d.nlonIn * wi)
      let nz := upNzOff d P b hi (z - P.roff hi) wi
      let invSum := 1 / B.alphaSum (scOff d b ho wo)
      let integral := B.alphaGdotv (scOff d b ho wo) * invSum
      let alphaNorm := B.alphaNz nz * invSum
      let weight := alphaNorm * (B.gdotvNz nz - integral)
      (Function.update u.1 wi (u.1 wi + q b ho wo ci * weight),
       Function.update u.2 (ho * d.nlonOut + wo) (u.2 (ho * d.nlonOut + wo) + k b hi wi ci * weight)))
      ((fun _ => 0), s.2)
    ((fun b' h' w' c' => if b' = b ∧ h' = hi ∧ w' < d.nlonIn ∧ c' = ci then s.1 b' h' w' c' + u.1 w' else s.1 b' h' w' c'), u.2))
    (out.1, fun _ => 0)
  (r.1, fun b' h' w' c' => if b' = b ∧ h' < d.nlatOut ∧ w' < d.nlonOut ∧ c' = ci then
    out.2 b' h' w' c' + r.2 (h' * d.nlonOut + w') else out.2 b' h' w' c')

/-- Phase C for one `(b, co)`, attention_cpu_bwd_upsample.cpp 309-344. -/
noncomputable def upBwdPhaseC (d : Dims) (P : Pattern) (dy : T4) (B : Bufs) (out : T4) (t : ℕ × ℕ) : T4 :=
  let b := t.1
  let co := t.2
  (List.range d.nlatIn).foldl (fun (s : T4) hi =>
    let u := upBwdScan d P hi (fun (u : ℕ → ℝ) z wi =>
      let ho := P.col z / d.nlonOut
      let wo := wrapLon d.nlonOut (P.col z % d.nlonOut + d.nlonOut / d.nlonIn * wi)
      let alphaNorm := B.alphaNz (upNzOff d P b hi (z - P.roff hi) wi) * (1 / B.alphaSum (scOff d b ho wo))
      Function.update u wi (u wi + alphaNorm * dy b ho wo co)) (fun _ => 0)
    fun b' h' w' c' => if b' = b ∧ h' = hi ∧ w' < d.nlonIn ∧ c' = co then s b' h' w' c' + u w' else s b' h' w' c') out

/-- `s2_attn_bwd_upsample_kernel`, attention_cpu_bwd_upsample.cpp 81-347. -/
noncomputable def cpuUpBwdKernel (d : Dims) (w : ℕ → ℝ) (P : Pattern) (k v q dy : T4) (fmin : ℝ) (loc : ℕ × ℕ × ℕ → ℕ → ℝ)
    (orderA : List (ℕ × ℕ × ℕ)) (orderB orderC : List (ℕ × ℕ)) : Grads :=
  let B := orderA.foldl (upBwdPhaseA d w P k v q dy fmin loc) ⟨fun _ => 0, fun _ => 0, fun _ => 0, fun _ => 0⟩
  let r := orderB.foldl (upBwdPhaseB d P k q B) (fun _ _ _ _ => 0, fun _ _ _ _ => 0)
  ⟨r.1, orderC.foldl (upBwdPhaseC d P dy B) (fun _ _ _ _ => 0), r.2⟩

/-- The part of `s2_attention_bwd_cpu` after the head fold, attention_cpu_bwd.cpp 65-68 and 102-131. -/
noncomputable def cpuBackward (d : Dims) (w : ℕ → ℝ) (P : Pattern) (k v q dy : T4) (fmin : ℝ) (loc : ℕ × ℕ × ℕ → ℕ → ℝ)
    (orderA : List (ℕ × ℕ × ℕ)) (orderB orderC : List (ℕ × ℕ)) : Except PyErr Grads :=
  match cpuDirection d with
  | .error e => .error e
  | .ok true => .ok (cpuBwdKernel d w P k v q dy fmin loc orderA orderB orderC)
  | .ok false => .ok (cpuUpBwdKernel d w P k v q dy fmin loc orderA orderB orderC)

end Verif.Attn
