import Verif.Lemmas.DiscoCudaBwd
import Verif.Props.DiscoCpu
import Verif.Props.DiscoGeom
/-!
C65, C66: the row-compressed GPU kernels compute the documented sum and its transpose, for every order in which the threads of a
block, the blocks, and the atomic additions take effect.

`LatSorted` (Lemmas/DiscoCuda) is part of the statements: inside each kernel and output row the entries are listed by increasing
input latitude. A copy loop of a block is a list of indices: `allStrided` is the one in which the threads run one after the other,
and it is a permutation of all indices (`C65_loop_covers`); any interleaving is another permutation.
-/
namespace Verif.Props
open Verif Verif.Dist Verif.Spec Verif.Disco Finset

variable {R : Type}

/-- Threads per block for an output of width `W`. -/
def blockThreads (W : ℕ) : ℕ :=
  if W ≤ 2048 then 64 else if W ≤ 4096 then 128 else if W ≤ 8192 then 256 else if W ≤ 16384 then 512 else 1024

/-- The fewest elements per thread that a configuration tries. -/
def minElements (W : ℕ) : ℕ := if W ≤ 2048 then 1 else 17

/-- `a / b` rounded up. -/
def ceilDiv (a b : ℕ) : ℕ := (a + (b - 1)) / b

theorem pickThreads_eq (W : ℕ) (h : W ≤ 32768) : pickThreads W = .ok (blockThreads W, minElements W) := by
  unfold pickThreads blockThreads minElements
  have hE : elxthMax = 32 := rfl
  rw [hE]
  by_cases h1 : W ≤ 2048
  · rw [if_pos (by omega), if_pos h1, if_pos h1]
  rw [if_neg (by omega), if_neg h1, if_neg h1]
  by_cases h2 : W ≤ 4096
  · rw [if_pos (by omega), if_pos h2]
  rw [if_neg (by omega), if_neg h2]
  by_cases h3 : W ≤ 8192
  · rw [if_pos (by omega), if_pos h3]
  rw [if_neg (by omega), if_neg h3]
  by_cases h4 : W ≤ 16384
  · rw [if_pos (by omega), if_pos h4]
  rw [if_neg (by omega), if_neg h4, if_pos (by omega)]

theorem blockThreads_pos (W : ℕ) : 0 < blockThreads W := by
  unfold blockThreads
  split_ifs <;> norm_num

theorem blockThreads_mul (W : ℕ) (h : W ≤ 32768) : W ≤ blockThreads W * 32 := by
  unfold blockThreads
  split_ifs <;> omega

/-- The recursion ends at the smallest sufficient number of elements per thread. -/
theorem pickElxth_eq (nth W e0 : ℕ) (hn : 0 < nth) (h0 : e0 ≤ 32) (h : W ≤ nth * 32) :
    pickElxth nth W e0 = some (max e0 (ceilDiv W nth)) := by
  obtain ⟨E, hE⟩ := pickElxth_isSome nth W e0 h0 h
  obtain ⟨a, b, c, d⟩ := pickElxth_some nth W e0 E hE
  rw [hE]
  congr 1
  have h1 : ceilDiv W nth ≤ E := by
    unfold ceilDiv
    rw [← Nat.lt_succ_iff, Nat.div_lt_iff_lt_mul hn, Nat.succ_mul, Nat.mul_comm]
    omega
  rcases Nat.eq_or_lt_of_le a with e | e
  · omega
  · have hd := d e
    have h2 : E ≤ ceilDiv W nth := by
      unfold ceilDiv
      rw [Nat.le_div_iff_mul_le hn]
      have : nth * E = nth * (E - 1) + nth := by
        rw [← Nat.mul_succ]
        congr 1
        omega
      rw [Nat.mul_comm]
      omega
    omega

/-- Shared memory, in elements, that the forward kernel asks for: the input row and its repetition, the latter up to the next
multiple of the block size. -/
def forwardNeed (Wi Wo : ℕ) : ℕ := Wi + Wi / Wo * (blockThreads Wo * ceilDiv Wo (blockThreads Wo))

/-- Shared memory, in elements, that the backward kernel asks for; `Wi` is the width of the incoming gradient. -/
def backwardNeed (Wi Wo : ℕ) : ℕ := Wo / Wi * (2 * (blockThreads Wo * max (minElements Wo) (ceilDiv Wi (blockThreads Wo))))

/-- C65: the loops of the threads of a block visit every index exactly once. -/
theorem C65_loop_covers (B n : ℕ) (hB : 0 < B) : (allStrided B n).Perm (List.range n) ∧
    ∀ E, (allPositions B E).Perm (List.range (B * E)) := ⟨allStrided_perm hB n, allPositions_perm hB⟩

theorem minElements_ceil (W : ℕ) (h : 0 < W) : max (minElements W) (ceilDiv W (blockThreads W)) = ceilDiv W (blockThreads W) := by
  apply max_eq_right
  unfold minElements ceilDiv blockThreads
  split_ifs <;> omega

variable [CommSemiring R]

/-- C65: the forward GPU kernel. For every supported width the kernel is launched; if the device grants the shared memory, the
result is the documented sum, for every order of the blocks and of the threads inside them, every previous content of shared
memory, and no access leaves an array; otherwise an exception. -/
theorem C65_cuda_forward (taps : List (Tap R)) (K nlatOut nlonOut : ℕ) (x : Mat R) (hf : Fits taps K nlatOut x.d0 x.d1)
    (hW : 0 < nlonOut) (hI : 0 < x.d1) (hd : nlonOut ∣ x.d1) (hmax : nlonOut ≤ 32768) (hne : taps ≠ [])
    (hrs : RowSorted (taps.map (encode x.d1))) (hls : LatSorted x.d1 (taps.map (encode x.d1)))
    (hnc : NoCollision K (taps.map (encode x.d1))) (junk : ℕ → Entry R) :
    ∃ s roff, preprocessPsi junk K nlatOut (taps.map (encode x.d1)) = .ok (s, roff) ∧
      ∀ (cap : ℕ) (shared : ℕ → ℕ → R) (sched : ℕ → ℕ → List ℕ) (order : List ℕ),
        (∀ b c, (sched b c).Perm (List.range x.d1)) → order.Perm (List.range (roff.length - 1)) →
        (forwardNeed x.d1 nlonOut ≤ cap →
          ∃ y, cudaForward cap shared sched (Csr.ofLists junk s roff) order x K nlatOut nlonOut = .ok y ∧
            y.d0 = K ∧ y.d1 = nlatOut ∧ y.d2 = nlonOut ∧
            ∀ k t, ∀ p < nlonOut, y.val k t p = discoSum taps x.d1 nlonOut x.val k t p) ∧
        (cap < forwardNeed x.d1 nlonOut →
          cudaForward cap shared sched (Csr.ofLists junk s roff) order x K nlatOut nlonOut = .error .runtimeError) := by
  obtain ⟨hK, hH⟩ := fits_ker hf
  have hne' : taps.map (encode x.d1) ≠ [] := by simpa using hne
  have hpre := preprocess_total junk K nlatOut _ hK hH hne' hrs
  obtain ⟨s, roff, h1, h2⟩ := C30_forward taps K nlatOut nlonOut x hf hW hI hd hne hrs hnc junk
  rw [hpre] at h1
  obtain ⟨rfl, rfl⟩ := Prod.mk.inj (Except.ok.inj h1)
  refine ⟨_, _, hpre, ?_⟩
  intro cap shared sched order hsched ho
  set A := Csr.ofLists junk (byKernel K (taps.map (encode x.d1)))
    (rowOffsets (fun i => ((byKernel K (taps.map (encode x.d1))).getD i (junk i)).row) (taps.map (encode x.d1)).length) with hA
  have hruns : Runs A (taps.map (encode x.d1)).length := runs_of junk K _ hK hne' hnc
  have hlat : LatRuns A x.d1 := latRuns_of junk K x.d1 _ hK hruns hls
  have hB := blockThreads_pos nlonOut
  have hps : 0 < x.d1 / nlonOut := Nat.div_pos (Nat.le_of_dvd hI hd) hW
  have hWi : x.d1 = x.d1 / nlonOut * nlonOut := (Nat.div_mul_cancel hd).symm
  have hpick := pickElxth_eq (blockThreads nlonOut) nlonOut (minElements nlonOut) hB (by unfold minElements; split <;> omega)
    (blockThreads_mul nlonOut hmax)
  rw [minElements_ceil nlonOut hW] at hpick
  have hE : nlonOut ≤ blockThreads nlonOut * ceilDiv nlonOut (blockThreads nlonOut) :=
    (pickElxth_some _ _ _ _ hpick).2.2.1
  have hsize : x.d1 * 2 + x.d1 / nlonOut * (blockThreads nlonOut * ceilDiv nlonOut (blockThreads nlonOut) - nlonOut)
      = forwardNeed x.d1 nlonOut := by
    unfold forwardNeed
    rw [Nat.mul_sub, ← hWi]
    have := Nat.mul_le_mul_left (x.d1 / nlonOut) hE
    rw [← hWi] at this
    omega
  constructor
  · intro hcap
    obtain ⟨y, e1, e2, e3, e4, e5⟩ := h2 (fun _ => 0) (fun _ _ => 0) order ho
    refine ⟨y, ?_, e2, e3, e4, e5⟩
    rw [← e1]
    unfold cudaForward cpuForward
    rw [if_neg (by omega), if_neg (by rw [not_not]; exact Nat.mod_eq_zero_of_dvd hd), if_neg (by omega),
      if_neg (by rw [not_not]; exact Nat.mod_eq_zero_of_dvd hd), pickThreads_eq _ hmax]
    dsimp only
    rw [hpick]
    dsimp only
    rw [if_neg (by rw [hsize]; omega), gfwd_rows _ _ _ (x.d1 / nlonOut) x.d1 nlonOut shared sched A x.val hB hWi hps hE rfl hI hsched hlat
      hruns.mono (fun _ => 0) (fun _ _ => 0) order (fun i hi => List.mem_range.1 (ho.mem_iff.1 hi))]
  · intro hcap
    unfold cudaForward
    rw [if_neg (by omega), if_neg (by rw [not_not]; exact Nat.mod_eq_zero_of_dvd hd), pickThreads_eq _ hmax]
    dsimp only
    rw [hpick]
    dsimp only
    rw [if_pos (by rw [hsize]; omega)]

/-- C65, rejected widths: the kernel returns a tensor only for an output width that divides the input width and is at most
32768; a wider output ends the process. -/
theorem C65_widths (cap : ℕ) (shared : ℕ → ℕ → R) (sched : ℕ → ℕ → List ℕ) (A : Csr R) (order : List ℕ) (x : Mat R) (K Ho Wo : ℕ) :
    ((∃ y, cudaForward cap shared sched A order x K Ho Wo = .ok y) → 0 < Wo ∧ Wo ∣ x.d1 ∧ Wo ≤ 32768) ∧
      (0 < Wo → Wo ∣ x.d1 → 32768 < Wo → cudaForward cap shared sched A order x K Ho Wo = .error .processExit) := by
  constructor
  · rintro ⟨y, h⟩
    unfold cudaForward at h
    by_cases h0 : Wo = 0
    · rw [if_pos h0] at h; cases h
    rw [if_neg h0] at h
    by_cases h1 : x.d1 % Wo = 0
    · rw [if_neg (not_not.2 h1)] at h
      refine ⟨by omega, Nat.dvd_of_mod_eq_zero h1, ?_⟩
      by_contra hlt
      rw [pickThreads_error _ (by have : elxthMax = 32 := rfl; omega)] at h
      cases h
    · rw [if_pos h1] at h; cases h
  · intro h0 h1 h2
    unfold cudaForward
    rw [if_neg (by omega), if_neg (not_not.2 (Nat.mod_eq_zero_of_dvd h1)), pickThreads_error _ (by have : elxthMax = 32 := rfl; omega)]

/-- C66: the backward GPU kernel. `g` is the gradient on the (kernel, latitude, longitude) grid. If the device grants the shared
memory, the result is the documented transpose, for every order of the threads' additions to shared memory and of the atomic
additions of all blocks, and no access leaves an array; otherwise an exception. -/
theorem C66_cuda_backward (taps : List (Tap R)) (K nlatOut nlatIn nlonIn : ℕ) (g : Ten R) (hf : Fits taps K nlatOut nlatIn nlonIn)
    (hW : 0 < g.d2) (hI : 0 < nlonIn) (hd : g.d2 ∣ nlonIn) (hmax : nlonIn ≤ 32768) (hne : taps ≠ [])
    (hrs : RowSorted (taps.map (encode nlonIn))) (hls : LatSorted nlonIn (taps.map (encode nlonIn)))
    (hnc : NoCollision K (taps.map (encode nlonIn))) (junk : ℕ → Entry R) :
    ∃ s roff, preprocessPsi junk K nlatOut (taps.map (encode nlonIn)) = .ok (s, roff) ∧
      ∀ (cap : ℕ) (shared : ℕ → ℕ → ℕ → R) (sched : ℕ → ℕ → List ℕ) (shuffle : List (ℕ × R) → List (ℕ × R)),
        (∀ b c, (sched b c).Perm
          (List.range (blockThreads nlonIn * max (minElements nlonIn) (ceilDiv g.d2 (blockThreads nlonIn))))) →
        (∀ l, (shuffle l).Perm l) →
        (backwardNeed g.d2 nlonIn ≤ cap →
          ∃ z, cudaBackward cap shared sched shuffle (Csr.ofLists junk s roff) g nlatIn nlonIn = .ok z ∧
            z.d0 = nlatIn ∧ z.d1 = nlonIn ∧ ∀ i, ∀ j < nlonIn, z.val i j = discoAdjoint taps nlonIn g.d2 g.val i j) ∧
        (cap < backwardNeed g.d2 nlonIn →
          cudaBackward cap shared sched shuffle (Csr.ofLists junk s roff) g nlatIn nlonIn = .error .runtimeError) := by
  obtain ⟨hK, hH⟩ := fits_ker hf
  have hne' : taps.map (encode nlonIn) ≠ [] := by simpa using hne
  refine ⟨_, _, preprocess_total junk K nlatOut _ hK hH hne' hrs, ?_⟩
  intro cap shared sched shuffle hsched hshuf
  set es := taps.map (encode nlonIn) with hes
  set A := Csr.ofLists junk (byKernel K es) (rowOffsets (fun i => ((byKernel K es).getD i (junk i)).row) es.length) with hA
  have hruns : Runs A es.length := runs_of junk K _ hK hne' hnc
  have hlat : LatRuns A nlonIn := latRuns_of junk K nlonIn _ hK hruns hls
  have hB := blockThreads_pos nlonIn
  have hps : 0 < nlonIn / g.d2 := Nat.div_pos (Nat.le_of_dvd hI hd) hW
  have hWo : nlonIn = g.d2 * (nlonIn / g.d2) := (Nat.mul_div_cancel' hd).symm
  have hpick := pickElxth_eq (blockThreads nlonIn) g.d2 (minElements nlonIn) hB (by unfold minElements; split <;> omega)
    ((Nat.le_of_dvd hI hd).trans (blockThreads_mul nlonIn hmax))
  have hN := (pickElxth_some _ _ _ _ hpick).2.2.1
  set E := max (minElements nlonIn) (ceilDiv g.d2 (blockThreads nlonIn)) with hEdef
  have hneed : 2 * (blockThreads nlonIn * E) * (nlonIn / g.d2) = backwardNeed g.d2 nlonIn := by
    unfold backwardNeed
    rw [← hEdef, Nat.mul_comm]
  constructor
  · intro hcap
    have hcol : ∀ z < es.length, (A.entry z).col / nlonIn < nlatIn := by
      intro z hz
      have hperm := byKernel_perm K es hK
      have hbl := hperm.length_eq
      have e1 : A.entry z = (byKernel K es)[z]'(by omega) := List.getD_eq_getElem _ _ _
      have hm : A.entry z ∈ es := by
        rw [e1]
        exact hperm.mem_iff.1 (List.getElem_mem _)
      obtain ⟨a, ha, he⟩ := List.mem_map.1 hm
      obtain ⟨-, -, f3, f4⟩ := hf a ha
      rw [← he]
      unfold encode
      rw [Nat.div_lt_iff_lt_mul hI]
      have := Nat.mul_le_mul_right nlonIn (show a.latIn + 1 ≤ nlatIn by omega)
      rw [Nat.add_mul, Nat.one_mul] at this
      dsimp only
      omega
    obtain ⟨l, l1, l2, l3⟩ := gbwdAll_ok (blockThreads nlonIn) E g.d2 nlonIn (nlonIn / g.d2) nlatIn shared sched A es.length hruns g.val hB hWo hps
      hW hN hsched hlat hcol
    obtain ⟨out, o1, o2⟩ := atomicAddTo_fold (nlatIn * nlonIn) (shuffle l) (fun a ha => l2 a ((hshuf l).mem_iff.1 ha)) (fun _ => 0)
    refine ⟨⟨nlatIn, nlonIn, fun i j => out (i * nlonIn + j)⟩, ?_, rfl, rfl, fun i j hj => ?_⟩
    · unfold cudaBackward
      rw [if_neg (by omega), if_neg (not_not.2 (Nat.mod_eq_zero_of_dvd hd)), pickThreads_eq _ hmax]
      dsimp only
      rw [hpick]
      dsimp only
      rw [if_neg (by rw [hneed]; omega), l1]
      dsimp only
      rw [o1]
    · dsimp only
      rw [o2, zero_add, addsAt_perm (hshuf l), l3 i j hj,
        ← encode_discoAdjoint taps K nlatOut nlatIn nlonIn g.d2 hf g.val i j, ← csr_sum junk K _ hK]
      rfl
  · intro hcap
    unfold cudaBackward
    rw [if_neg (by omega), if_neg (not_not.2 (Nat.mod_eq_zero_of_dvd hd)), pickThreads_eq _ hmax]
    dsimp only
    rw [hpick]
    dsimp only
    rw [if_pos (by rw [hneed]; omega)]

/-- C66: the two GPU kernels are adjoint: `<forward(x), g> = <x, backward(g)>`. -/
theorem C66_kernels_adjoint (taps : List (Tap R)) (K nlatOut nlonOut : ℕ) (x : Mat R) (g : Ten R)
    (hf : Fits taps K nlatOut x.d0 x.d1) (hg : g.d2 = nlonOut)
    (hW : 0 < nlonOut) (hI : 0 < x.d1) (hd : nlonOut ∣ x.d1) (hmax : x.d1 ≤ 32768) (hne : taps ≠ [])
    (hrs : RowSorted (taps.map (encode x.d1))) (hls : LatSorted x.d1 (taps.map (encode x.d1)))
    (hnc : NoCollision K (taps.map (encode x.d1))) (junk : ℕ → Entry R) :
    ∃ s roff, preprocessPsi junk K nlatOut (taps.map (encode x.d1)) = .ok (s, roff) ∧
      ∀ (cap : ℕ) (sharedF : ℕ → ℕ → R) (schedF : ℕ → ℕ → List ℕ) (order : List ℕ) (sharedB : ℕ → ℕ → ℕ → R)
        (schedB : ℕ → ℕ → List ℕ) (shuffle : List (ℕ × R) → List (ℕ × R)),
        (∀ b c, (schedF b c).Perm (List.range x.d1)) → order.Perm (List.range (roff.length - 1)) →
        (∀ b c, (schedB b c).Perm
          (List.range (blockThreads x.d1 * max (minElements x.d1) (ceilDiv nlonOut (blockThreads x.d1))))) →
        (∀ l, (shuffle l).Perm l) → forwardNeed x.d1 nlonOut ≤ cap → backwardNeed nlonOut x.d1 ≤ cap →
        ∃ y z, cudaForward cap sharedF schedF (Csr.ofLists junk s roff) order x K nlatOut nlonOut = .ok y ∧
          cudaBackward cap sharedB schedB shuffle (Csr.ofLists junk s roff) g x.d0 x.d1 = .ok z ∧
          ∑ k ∈ range K, ∑ t ∈ range nlatOut, ∑ p ∈ range nlonOut, y.val k t p * g.val k t p
            = ∑ i ∈ range x.d0, ∑ j ∈ range x.d1, x.val i j * z.val i j := by
  subst hg
  obtain ⟨s, roff, h1, h2⟩ := C65_cuda_forward taps K nlatOut g.d2 x hf hW hI hd ((Nat.le_of_dvd hI hd).trans hmax) hne hrs hls hnc junk
  obtain ⟨s', roff', h1', h2'⟩ := C66_cuda_backward taps K nlatOut x.d0 x.d1 g hf hW hI hd hmax hne hrs hls hnc junk
  rw [h1] at h1'
  cases h1'
  refine ⟨s, roff, h1, fun cap sharedF schedF order sharedB schedB shuffle a1 a2 a3 a4 c1 c2 => ?_⟩
  obtain ⟨y, e1, -, -, -, e5⟩ := (h2 cap sharedF schedF order a1 a2).1 c1
  obtain ⟨z, b1, -, -, b5⟩ := (h2' cap sharedB schedB shuffle a3 a4).1 c2
  refine ⟨y, z, e1, b1, ?_⟩
  have hL : ∑ k ∈ range K, ∑ t ∈ range nlatOut, ∑ p ∈ range g.d2, y.val k t p * g.val k t p
      = ∑ k ∈ range K, ∑ t ∈ range nlatOut, ∑ p ∈ range g.d2, discoSum taps x.d1 g.d2 x.val k t p * g.val k t p :=
    sum_congr rfl fun k _ => sum_congr rfl fun t _ => sum_congr rfl fun p hp => by rw [e5 k t p (mem_range.1 hp)]
  rw [hL, disco_adjoint taps K nlatOut x.d0 x.d1 g.d2 hf x.val g.val]
  refine sum_congr rfl fun i _ => sum_congr rfl fun j hj => ?_
  rw [b5 i j (mem_range.1 hj)]

omit [CommSemiring R] in
theorem pairwise_filter_ker {S : Entry R → Entry R → Prop} (es : List (Entry R)) (h : es.Pairwise (fun a b => a.ker = b.ker → S a b))
    (k : ℕ) : (es.filter (fun e => e.ker = k)).Pairwise S := by
  refine (List.Pairwise.filter (fun e => decide (e.ker = k)) h).imp_of_mem ?_
  intro a b ha hb hab
  have ha := List.of_mem_filter ha
  have hb := List.of_mem_filter hb
  simp only [decide_eq_true_eq] at ha hb
  exact hab (by rw [ha, hb])

omit [CommSemiring R] in
/-- C65: the entries that the layer stores are listed by input latitude inside each kernel and output row. -/
theorem C65_layer_lists_latitudes (B : Basis) (latsIn latsOut : ℕ → ℝ) (nlatIn nlonIn nlatOut : ℕ) (rc : ℝ) :
    LatSorted nlonIn (rawEntries B latsIn latsOut nlatIn nlonIn nlatOut rc) := by
  intro k
  refine pairwise_filter_ker _ ?_ k
  · unfold rawEntries
    rw [List.pairwise_flatMap]
    constructor
    · intro t _
      unfold rawRow Verif.Filter.grid
      rw [List.pairwise_map, List.pairwise_flatMap]
      constructor
      · intro k _
        rw [List.pairwise_flatMap]
        have hdiv : ∀ i : ℕ, ∀ (f : ℕ → Option ℝ) (a : ℕ × ℕ × ℕ × ℝ),
            a ∈ (List.range nlonIn).filterMap (fun j => (f j).map fun v => (k, i, j, v)) → (a.2.1 * nlonIn + a.2.2.1) / nlonIn = i := by
          intro i f a ha
          obtain ⟨j, hj, hv⟩ := List.mem_filterMap.1 ha
          have hj := List.mem_range.1 hj
          obtain ⟨v, -, rfl⟩ := Option.map_eq_some_iff.1 hv
          dsimp only
          rw [Nat.mul_comm, Nat.mul_add_div (by omega), Nat.div_eq_of_lt hj, Nat.add_zero]
        constructor
        · intro i _
          refine List.Pairwise.imp_of_mem (R := fun _ _ => True) ?_ (List.pairwise_of_forall (fun _ _ => trivial))
          intro a b ha hb _ _ _
          dsimp only
          rw [hdiv i _ a ha, hdiv i _ b hb]
        · refine List.pairwise_lt_range.imp ?_
          intro i i' hlt a ha b hb _ _
          dsimp only
          rw [hdiv i _ a ha, hdiv i' _ b hb]
          exact hlt.le
      · refine List.pairwise_lt_range.imp ?_
        intro k k' hlt a ha b hb hk
        obtain ⟨i, -, ha⟩ := List.mem_flatMap.1 ha
        obtain ⟨j, -, hv⟩ := List.mem_filterMap.1 ha
        obtain ⟨v, -, rfl⟩ := Option.map_eq_some_iff.1 hv
        obtain ⟨i', -, hb⟩ := List.mem_flatMap.1 hb
        obtain ⟨j', -, hv'⟩ := List.mem_filterMap.1 hb
        obtain ⟨v', -, rfl⟩ := Option.map_eq_some_iff.1 hv'
        dsimp only at hk
        omega
    · refine List.pairwise_lt_range.imp ?_
      intro t t' hlt a ha b hb _ hr
      obtain ⟨_, -, rfl⟩ := List.mem_map.1 ha
      obtain ⟨_, -, rfl⟩ := List.mem_map.1 hb
      dsimp only at hr
      omega

/-! ### Witnesses and counterexamples -/

/-- Two kernels, two output rows, two input latitudes of four longitudes. -/
def gpuTaps : List (Tap ℚ) :=
  [⟨0, 0, 0, 0, 1⟩, ⟨0, 0, 1, 3, 2⟩, ⟨1, 0, 0, 1, 3⟩, ⟨0, 1, 0, 2, 4⟩, ⟨0, 1, 1, 2, 5⟩, ⟨1, 1, 1, 0, 6⟩]

/-- The hypotheses of C65 and C66 are met with 2 output longitudes, and 48 KiB of single precision numbers suffice. -/
example : Fits gpuTaps 2 2 2 4 ∧ gpuTaps ≠ [] ∧ RowSorted (gpuTaps.map (encode 4)) ∧ LatSorted 4 (gpuTaps.map (encode 4)) ∧
    NoCollision 2 (gpuTaps.map (encode 4)) ∧ (2 ∣ 4) ∧ forwardNeed 4 2 ≤ 12288 ∧ backwardNeed 2 4 ≤ 12288 := by
  refine ⟨by intro a ha; fin_cases ha <;> decide, by decide, ?_, ?_, ?_, by decide, by decide, by decide⟩
  · exact fun k => pairwise_filter_ker _ (by decide) k
  · exact fun k => pairwise_filter_ker _ (by decide) k
  · unfold NoCollision; decide

/-- C66, finding: the launch configuration follows the output width, the elements per thread the input width, so that the backward
kernel needs more shared memory than the forward kernel of the same layer. With 48 KiB (12288 single precision numbers) and
4096 input, 1024 output longitudes the forward pass fits and the backward pass is refused. -/
theorem C66_backward_needs_more :
    forwardNeed 4096 1024 ≤ 12288 ∧ 12288 < backwardNeed 1024 4096 ∧ backwardNeed 1024 4096 = 17408 ∧ forwardNeed 4096 1024 = 8192 := by
  decide

/-- C66: up to 2048 longitudes the backward kernel needs at most `2 * nlon_in + 128 * (nlon_in / nlon_out)` elements. -/
theorem C66_backward_need_bound (Wi Wo : ℕ) (hW : 0 < Wi) (hd : Wi ∣ Wo) (h : Wo ≤ 2048) :
    backwardNeed Wi Wo ≤ 2 * Wo + 128 * (Wo / Wi) := by
  obtain ⟨m, rfl⟩ := hd
  unfold backwardNeed
  have hb : blockThreads (Wi * m) = 64 := by unfold blockThreads; rw [if_pos h]
  have he : minElements (Wi * m) = 1 := by unfold minElements; rw [if_pos h]
  rw [hb, he, Nat.mul_div_cancel_left m hW]
  have h1 : 64 * max 1 (ceilDiv Wi 64) ≤ Wi + 64 := by
    unfold ceilDiv
    omega
  calc m * (2 * (64 * max 1 (ceilDiv Wi 64))) ≤ m * (2 * (Wi + 64)) := Nat.mul_le_mul_left _ (Nat.mul_le_mul_left _ h1)
    _ = 2 * (Wi * m) + 128 * m := by ring

/-- Latitudes of one row listed in decreasing order. -/
def latUnsortedTaps : List (Tap ℚ) := [⟨0, 0, 1, 0, 1⟩, ⟨0, 0, 0, 0, 1⟩]

/-- C65, the order of the latitudes matters: the row buffer is refreshed only when the flat index has moved past the end of the
buffered row, so an entry of an earlier latitude reads before the start of shared memory. The CPU kernel returns the documented
sum for the same arrays. -/
theorem C65_unsorted_latitudes_fault :
    ∃ s roff, preprocessPsi (fun _ => ⟨0, 0, 0, 0⟩) 1 2 (latUnsortedTaps.map (encode 4)) = .ok (s, roff) ∧
      cudaForward 12288 (fun _ _ => (0 : ℚ)) (fun _ _ => List.range 4) (Csr.ofLists (fun _ => ⟨0, 0, 0, 0⟩) s roff) [0]
        ⟨2, 4, fun i j => ((4 * i + j : ℕ) : ℚ)⟩ 1 2 4 = .error .memoryFault ∧
      ∃ y, cpuForward (fun _ => (0 : ℚ)) (fun _ _ => 0) (Csr.ofLists (fun _ => ⟨0, 0, 0, 0⟩) s roff) [0]
          ⟨2, 4, fun i j => ((4 * i + j : ℕ) : ℚ)⟩ 1 2 4 = .ok y ∧
        y.val 0 0 0 = 4 ∧ discoSum latUnsortedTaps 4 4 (fun i j => ((4 * i + j : ℕ) : ℚ)) 0 0 0 = 4 := by
  refine ⟨_, _, rfl, ?_, _, rfl, ?_, ?_⟩
  · unfold cudaForward
    rw [if_neg (by decide), if_neg (by decide), pickThreads_eq _ (by decide)]
    dsimp only
    rw [pickElxth_eq _ _ _ (by decide) (by decide) (by decide)]
    dsimp only
    rw [if_neg (by decide)]
    rfl
  · decide +kernel
  · decide +kernel

/-- Two kernels, two output rows; kernel 0 has two entries at row 1. Listed row by row, as the layer lists them. -/
def deviceTaps : List (Tap ℚ) := [⟨0, 0, 0, 0, 1⟩, ⟨1, 0, 0, 0, 1⟩, ⟨0, 1, 0, 0, 1⟩, ⟨0, 1, 0, 1, 1⟩, ⟨1, 1, 0, 0, 1⟩]

/-- C31, finding: arrays that live on a device are not sorted for the caller, while the offsets returned are those of the sorted
arrays. The kernel then mixes entries of different (kernel, row) pairs: the value at kernel 1, row 0 contains the entry of
kernel 0, row 1. With arrays in host memory the result is right. -/
theorem C31_device_arrays_unsorted :
    ∃ s roff s', preprocessPsiOn true (fun _ => ⟨0, 0, 0, 0⟩) 2 2 (deviceTaps.map (encode 2)) = .ok (s, roff) ∧
      preprocessPsiOn false (fun _ => ⟨0, 0, 0, 0⟩) 2 2 (deviceTaps.map (encode 2)) = .ok (s', roff) ∧
      (∃ y, cudaForward 12288 (fun _ _ => (0 : ℚ)) (fun _ _ => List.range 2) (Csr.ofLists (fun _ => ⟨0, 0, 0, 0⟩) s roff) [0, 1, 2, 3]
          ⟨1, 2, fun _ _ => (1 : ℚ)⟩ 2 2 2 = .ok y ∧ y.val 1 0 0 = 1) ∧
      (∃ y, cudaForward 12288 (fun _ _ => (0 : ℚ)) (fun _ _ => List.range 2) (Csr.ofLists (fun _ => ⟨0, 0, 0, 0⟩) s' roff) [0, 1, 2, 3]
          ⟨1, 2, fun _ _ => (1 : ℚ)⟩ 2 2 2 = .ok y ∧ y.val 1 0 0 = 2) ∧
      discoSum deviceTaps 2 2 (fun _ _ => (1 : ℚ)) 1 0 0 = 1 := by
  have hc : ∀ A : Csr ℚ, cudaForward 12288 (fun _ _ => (0 : ℚ)) (fun _ _ => List.range 2) A [0, 1, 2, 3] ⟨1, 2, fun _ _ => (1 : ℚ)⟩ 2 2 2
      = match [0, 1, 2, 3].foldlM (fun out row => gfwdRow 66 64 1 (fun _ => (0 : ℚ)) (fun _ => List.range 2) A (fun _ _ => (1 : ℚ)) 2 2 1 out row)
          (fun _ _ _ => (0 : ℚ)) with
        | .error e => .error e
        | .ok out => .ok ⟨2, 2, 2, out⟩ := by
    intro A
    unfold cudaForward
    rw [if_neg (by decide), if_neg (by decide), pickThreads_eq _ (by decide)]
    dsimp only
    rw [pickElxth_eq _ _ _ (by decide) (by decide) (by decide)]
    dsimp only
    rw [if_neg (by decide)]
    have h1 : blockThreads 2 = 64 := by decide
    have h2 : max (minElements 2) (ceilDiv 2 64) = 1 := by decide
    have h3 : 2 * 2 + 2 / 2 * (64 * 1 - 2) = 66 := by decide
    have h4 : 2 / 2 = 1 := by decide
    rw [h1, h2, h3, h4]
    split <;> rename_i h <;> rw [h]
  refine ⟨_, _, _, rfl, rfl, ?_, ?_, ?_⟩
  · rw [hc]
    exact ⟨_, rfl, by decide +kernel⟩
  · rw [hc]
    exact ⟨_, rfl, by decide +kernel⟩
  · decide +kernel

end Verif.Props
