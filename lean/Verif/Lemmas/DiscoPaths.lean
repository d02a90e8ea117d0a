import Verif.Model.DiscoPaths
import Verif.Props.DiscoFused
import Verif.Props.DiscoCuda
import Verif.Props.DiscoKpacked
/-!
The kernels of both devices on the compressed filter and on its parts, and batches of planes.
-/
namespace Verif.Disco
open Verif Verif.Dist Verif.Spec Verif.Props Finset

variable {R : Type}

theorem planes_ok {α : Type} (d : α) (f : ℕ → Except PyErr α) (P : ℕ → α → Prop) (n : ℕ)
    (h : ∀ b < n, ∃ y, f b = .ok y ∧ P b y) : ∃ z, planes d f n = .ok z ∧ ∀ b < n, P b (z b) := by
  induction n with
  | zero => exact ⟨fun _ => d, rfl, fun b hb => absurd hb (by omega)⟩
  | succ n ih =>
    obtain ⟨z, h1, h2⟩ := ih fun b hb => h b (by omega)
    obtain ⟨y, e1, e2⟩ := h n (by omega)
    refine ⟨Function.update z n y, ?_, ?_⟩
    · unfold planes
      rw [h1]
      dsimp only
      rw [e1]
    · intro b hb
      by_cases hbn : b = n
      · subst hbn; rw [Function.update_self]; exact e2
      · rw [Function.update_of_ne hbn]; exact h2 b (by omega)

theorem planes_fail {α : Type} (d : α) (f : ℕ → Except PyErr α) (e : PyErr) (n : ℕ) (hn : 0 < n) (h : ∀ b < n, f b = .error e) :
    planes d f n = .error e := by
  induction n with
  | zero => omega
  | succ n ih =>
    unfold planes
    by_cases h0 : 0 < n
    · rw [ih h0 fun b hb => h b (by omega)]
    · obtain rfl : n = 0 := by omega
      show (match f 0 with | .error e => _ | .ok y => _) = _
      rw [h 0 (by omega)]

/-- Adding one run whose latitudes do not decrease. -/
theorem latRuns_append (junk : ℕ → Entry R) (W : ℕ) (ro : List ℕ) (en ys : List (Entry R))
    (h : Runs (Csr.ofLists junk en ro) en.length) (hl : LatRuns (Csr.ofLists junk en ro) W)
    (hys : ys.Pairwise fun a b => a.col / W ≤ b.col / W) :
    LatRuns (Csr.ofLists junk (en ++ ys) (ro ++ [en.length + ys.length])) W := by
  have hlast : ro.getD (ro.length - 1) 0 = en.length := h.last
  have hnew : (ro ++ [en.length + ys.length]).getD ro.length 0 = en.length + ys.length := by simp
  have hlen : (ro ++ [en.length + ys.length]).length - 1 = ro.length := by simp
  intro i hi z z' h1 h2 h3
  have hi : i < (ro ++ [en.length + ys.length]).length - 1 := hi
  rw [hlen] at hi
  change (ro ++ [_]).getD i 0 ≤ z at h1
  change z' < (ro ++ [_]).getD (i + 1) 0 at h3
  show ((en ++ ys).getD z (junk z)).col / W ≤ ((en ++ ys).getD z' (junk z')).col / W
  rw [getD_append_lt _ _ _ hi] at h1
  by_cases hi' : i + 1 = ro.length
  · rw [hi', hnew] at h3
    rw [show i = ro.length - 1 by omega, hlast] at h1
    obtain ⟨d, rfl⟩ := Nat.exists_eq_add_of_le h1
    obtain ⟨d', rfl⟩ := Nat.exists_eq_add_of_le (h1.trans h2.le)
    rw [getD_append_ge en ys (junk (en.length + d)) d, getD_append_ge en ys (junk (en.length + d')) d',
      List.getD_eq_getElem _ _ (show d < ys.length by omega), List.getD_eq_getElem _ _ (show d' < ys.length by omega)]
    exact List.pairwise_iff_getElem.1 hys d d' _ _ (by omega)
  · rw [getD_append_lt _ _ _ (show i + 1 < ro.length by omega)] at h3
    have hle : ro.getD (i + 1) 0 ≤ en.length := by
      have := h.mono_le (show i + 1 ≤ ro.length - 1 by omega) le_rfl
      rw [show (Csr.ofLists junk en ro).roff (ro.length - 1) = ro.getD (ro.length - 1) 0 from rfl, hlast] at this
      exact this
    rw [getD_append_lt _ _ _ (show z < en.length by omega), getD_append_lt _ _ _ (show z' < en.length by omega)]
    exact hl i (show i < ro.length - 1 by omega) z z' h1 h2 h3

/-- The part of kernel `k` lists entries of the filter, row by row in the same order. -/
theorem splitKernel_lat [CommSemiring R] (junk : ℕ → Entry R) (A : Csr R) (nnz W : ℕ) (hA : Runs A nnz) (hlat : LatRuns A W) (k : ℕ) :
    LatRuns (Csr.ofLists junk (splitKernel A k).2.1 (splitKernel A k).1) W ∧
      ∀ e ∈ (splitKernel A k).2.1, ∃ z < nnz, e.col = (A.entry z).col := by
  have h : ∀ n ≤ A.nnr, ∀ s, s = (List.range n).foldl (splitRow A k) ([0], [], 0) →
      Runs (Csr.ofLists junk s.2.1 s.1) s.2.1.length ∧ s.2.2 = s.2.1.length ∧ 0 < s.1.length ∧
      LatRuns (Csr.ofLists junk s.2.1 s.1) W ∧ ∀ e ∈ s.2.1, ∃ z < nnz, e.col = (A.entry z).col := by
    intro n
    induction n with
    | zero =>
      rintro - s rfl
      refine ⟨⟨rfl, rfl, ?_, ?_⟩, rfl, by simp, ?_, ?_⟩
      · intro i hi; exact absurd hi (by simp [Csr.ofLists])
      · intro i hi; exact absurd hi (by simp [Csr.ofLists])
      · intro i hi; exact absurd hi (by simp [Csr.ofLists])
      · intro e he; cases he
    | succ n ih =>
      rintro hn s hs
      rw [List.range_succ, List.foldl_append, List.foldl_cons, List.foldl_nil] at hs
      obtain ⟨i1, i2, i3, i4, i5⟩ := ih (by omega) _ rfl
      set s0 := (List.range n).foldl (splitRow A k) ([0], [], 0) with hs0
      have hm := hA.mono n (by omega)
      have hkey := hA.key n (by omega)
      have hend : A.roff (n + 1) ≤ nnz := by
        have := hA.mono_le hn le_rfl
        rwa [hA.last] at this
      unfold splitRow at hs
      rw [if_neg (by omega)] at hs
      by_cases hk : (A.entry (A.roff n)).ker = k
      · rw [if_neg (by rw [not_not]; exact hk)] at hs
        subst hs
        dsimp only
        have hys : ((List.range' (A.roff n) (A.roff (n + 1) - A.roff n)).map (fun z => ({ A.entry z with ker := 0 } : Entry R))).length
            = A.roff (n + 1) - A.roff n := by simp
        refine ⟨?_, ?_, by simp, ?_, ?_⟩
        · have := runs_append junk s0.1 s0.2.1
            ((List.range' (A.roff n) (A.roff (n + 1) - A.roff n)).map (fun z => ({ A.entry z with ker := 0 } : Entry R))) i3 i1
            (by rw [hys]; omega) (by
              intro i j hi hj
              rw [hys] at hi hj
              simp only [List.getElem_map, List.getElem_range', Nat.one_mul, true_and]
              rw [(hkey _ (by omega) (show A.roff n + i < _ by omega)).2, (hkey _ (by omega) (show A.roff n + j < _ by omega)).2])
          rw [hys] at this
          rw [i2]
          exact this
        · rw [List.length_append, hys, i2]
        · have := latRuns_append junk W s0.1 s0.2.1
            ((List.range' (A.roff n) (A.roff (n + 1) - A.roff n)).map (fun z => ({ A.entry z with ker := 0 } : Entry R))) i1 i4 (by
              have hp := latRuns_pairwise hlat (show n < A.nnr by omega)
              rw [List.pairwise_map] at hp ⊢
              exact hp)
          rw [hys] at this
          rw [i2]
          exact this
        · intro e he
          rcases List.mem_append.1 he with he | he
          · exact i5 e he
          · obtain ⟨z, hz, rfl⟩ := List.mem_map.1 he
            rw [List.mem_range'_1] at hz
            exact ⟨z, by omega, rfl⟩
      · rw [if_pos hk] at hs
        subst hs
        exact ⟨i1, i2, i3, i4, i5⟩
  obtain ⟨-, -, -, h4, h5⟩ := h A.nnr le_rfl _ rfl
  exact ⟨h4, h5⟩

variable [CommSemiring R]

/-- The backward GPU kernel on any compressed filter. -/
theorem cudaBackward_value (cap : ℕ) (shared : ℕ → ℕ → ℕ → R) (sched : ℕ → ℕ → List ℕ) (shuffle : List (ℕ × R) → List (ℕ × R)) (A : Csr R)
    (nnz : ℕ) (hA : Runs A nnz) (g : Ten R) (Ho Wo : ℕ) (hW : 0 < g.d2) (hI : 0 < Wo) (hd : g.d2 ∣ Wo) (hmax : Wo ≤ 32768)
    (hlat : LatRuns A Wo) (hcol : ∀ z < nnz, (A.entry z).col / Wo < Ho)
    (hsched : ∀ b c, (sched b c).Perm (List.range (blockThreads Wo * max (minElements Wo) (ceilDiv g.d2 (blockThreads Wo)))))
    (hshuf : ∀ l, (shuffle l).Perm l) (hcap : backwardNeed g.d2 Wo ≤ cap) :
    ∃ z, cudaBackward cap shared sched shuffle A g Ho Wo = .ok z ∧
      ∀ i, ∀ j < Wo, z.val i j = ∑ z ∈ range nnz, bwdTerm (g.val (A.entry z).ker (A.entry z).row) g.d2 Wo (Wo / g.d2) (A.entry z) i j := by
  have hB := blockThreads_pos Wo
  have hps : 0 < Wo / g.d2 := Nat.div_pos (Nat.le_of_dvd hI hd) hW
  have hWo : Wo = g.d2 * (Wo / g.d2) := (Nat.mul_div_cancel' hd).symm
  have hpick := pickElxth_eq (blockThreads Wo) g.d2 (minElements Wo) hB (by unfold minElements; split <;> omega)
    ((Nat.le_of_dvd hI hd).trans (blockThreads_mul Wo hmax))
  have hN := (pickElxth_some _ _ _ _ hpick).2.2.1
  set E := max (minElements Wo) (ceilDiv g.d2 (blockThreads Wo)) with hEdef
  have hneed : 2 * (blockThreads Wo * E) * (Wo / g.d2) = backwardNeed g.d2 Wo := by
    unfold backwardNeed
    rw [← hEdef, Nat.mul_comm]
  obtain ⟨l, l1, l2, l3⟩ := gbwdAll_ok (blockThreads Wo) E g.d2 Wo (Wo / g.d2) Ho shared sched A nnz hA g.val hB hWo hps
    hW hN hsched hlat hcol
  obtain ⟨out, o1, o2⟩ := atomicAddTo_fold (Ho * Wo) (shuffle l) (fun a ha => l2 a ((hshuf l).mem_iff.1 ha)) (fun _ => 0)
  refine ⟨⟨Ho, Wo, fun i j => out (i * Wo + j)⟩, ?_, fun i j hj => ?_⟩
  · unfold cudaBackward
    rw [if_neg (by omega), if_neg (not_not.2 (Nat.mod_eq_zero_of_dvd hd)), pickThreads_eq _ hmax]
    dsimp only
    rw [hpick]
    dsimp only
    rw [if_neg (by rw [hneed]; omega), l1]
    dsimp only
    rw [o1]
  · dsimp only
    rw [o2, zero_add, addsAt_perm (hshuf l), l3 i j hj]

/-- What the kernels of a device do for a layer: on the compressed filter and on its parts. -/
structure Sound (D : Device R) (L : Layer R) (taps : List (Tap R)) (junk : ℕ → Entry R) (F : Buffers R) : Prop where
  fwd : ∀ x : ℕ → ℕ → R, ∃ y, D.fwd F.csr ⟨L.nlatIn, L.nlonIn, x⟩ L.kernelSize L.nlatOut L.nlonOut = .ok y ∧
    ∀ k t, ∀ p < L.nlonOut, y.val k t p = discoSum taps L.nlonIn L.nlonOut x k t p
  bwd : ∀ g : ℕ → ℕ → ℕ → R, ∃ z, D.bwd F.csr ⟨L.kernelSize, L.nlatOut, L.nlonOut, g⟩ L.nlatIn L.nlonIn = .ok z ∧
    ∀ i, ∀ j < L.nlonIn, z.val i j = discoAdjoint taps L.nlonIn L.nlonOut g i j
  part : ∀ k < L.kernelSize, ∀ g : ℕ → ℕ → R, ¬ (F.split.part k).1.length ≤ 1 →
    ∃ z, D.bwd (Csr.ofLists junk (F.split.part k).2 (F.split.part k).1) ⟨1, L.nlatOut, L.nlonOut, fun _ => g⟩ L.nlatIn L.nlonIn = .ok z ∧
      ∀ i, ∀ j < L.nlonIn, z.val i j
        = (L.entries.map fun e => if e.ker = k then bwdTerm (g e.row) L.nlonOut L.nlonIn (L.nlonIn / L.nlonOut) e i j else 0).sum

/-- The buffers of a layer come from one sorted filter. -/
theorem buffers_inv (junk : ℕ → Entry R) (L : Layer R) (F : Buffers R) (h : layerBuffers junk L = .ok F) :
    ∃ s roff D P, preprocessPsi junk L.kernelSize L.nlatOut L.entries = .ok (s, roff) ∧
      packPsiDense (Csr.ofLists junk s roff) L.kernelSize L.nlatOut L.nlonIn 0 = .ok D ∧ maybeKpack D 8 = .ok P ∧
      F.csr = Csr.ofLists junk s roff ∧ F.numelRoff = roff.length ∧ F.split = buildSplit (Csr.ofLists junk s roff) L.kernelSize ∧
      F.packed = P.map fun P => (P, D.pad) := by
  unfold layerBuffers at h
  cases hp : preprocessPsi junk L.kernelSize L.nlatOut L.entries with
  | error e => rw [hp] at h; cases h
  | ok sr =>
    obtain ⟨s, roff⟩ := sr
    rw [hp] at h
    dsimp only at h
    cases hD : packPsiDense (Csr.ofLists junk s roff) L.kernelSize L.nlatOut L.nlonIn 0 with
    | error e => rw [hD] at h; cases h
    | ok D =>
      rw [hD] at h
      dsimp only at h
      cases hP : maybeKpack D 8 with
      | error e => rw [hP] at h; cases h
      | ok P =>
        rw [hP] at h
        cases h
        exact ⟨s, roff, D, P, rfl, hD, hP, rfl, rfl, rfl, rfl⟩

/-- The values of one part, from the values of the kernel on its compressed form. -/
theorem part_value (junk : ℕ → Entry R) (L : Layer R) (taps : List (Tap R)) (hL : FusedOf L taps) (s : List (Entry R)) (roff : List ℕ)
    (hp : preprocessPsi junk L.kernelSize L.nlatOut L.entries = .ok (s, roff)) (k : ℕ) (g : ℕ → ℕ → R) (i j : ℕ) :
    (∑ z ∈ range (splitKernel (Csr.ofLists junk s roff) k).2.1.length,
      bwdTerm (g ((Csr.ofLists junk (splitKernel (Csr.ofLists junk s roff) k).2.1 (splitKernel (Csr.ofLists junk s roff) k).1).entry z).row)
        L.nlonOut L.nlonIn (L.nlonIn / L.nlonOut)
        ((Csr.ofLists junk (splitKernel (Csr.ofLists junk s roff) k).2.1 (splitKernel (Csr.ofLists junk s roff) k).1).entry z) i j)
      = (L.entries.map fun e => if e.ker = k then bwdTerm (g e.row) L.nlonOut L.nlonIn (L.nlonIn / L.nlonOut) e i j else 0).sum := by
  obtain ⟨hr, -, hsum⟩ := fused_csr junk L taps hL s roff hp
  obtain ⟨-, -, -, r4⟩ := splitKernel_spec junk (Csr.ofLists junk s roff) _ hr k
  rw [← hsum]
  have := r4 fun e => bwdTerm (g e.row) L.nlonOut L.nlonIn (L.nlonIn / L.nlonOut) e i j
  rw [← range_getD_sum (splitKernel (Csr.ofLists junk s roff) k).2.1 junk
    (fun e => bwdTerm (g e.row) L.nlonOut L.nlonIn (L.nlonIn / L.nlonOut) e i j)] at this
  exact this

/-- The CPU kernels, for any buffers made from the sorted filter. -/
theorem cpu_sound_of (junk : ℕ → Entry R) (L : Layer R) (taps : List (Tap R)) (hL : FusedOf L taps) (F : Buffers R) (s : List (Entry R)) (roff : List ℕ)
    (hp : preprocessPsi junk L.kernelSize L.nlatOut L.entries = .ok (s, roff)) (f1 : F.csr = Csr.ofLists junk s roff)
    (f3 : F.split = buildSplit (Csr.ofLists junk s roff) L.kernelSize)
    (n : CpuNoise R) (ho : ∀ m, (n.order m).Perm (List.range m)) (hsh : ∀ q < 2 * L.nlonIn, n.sh q = 0) : Sound (cpuDevice n) L taps junk F := by
  obtain ⟨hr, -, hsum⟩ := fused_csr junk L taps hL s roff hp
  refine ⟨fun x => ?_, fun g => ?_, fun k hk g hlen => ?_⟩
  · rw [f1]
    exact fused_plane junk L taps hL s roff hp n.mem n.sh0 _ (ho _) ⟨0, L.nlatIn, L.nlonIn, fun _ => x⟩ ⟨rfl, rfl⟩ 0
  · rw [f1]
    obtain ⟨z, sh', b1, -, -, -, b5⟩ := cpuBackward_value n.sh _ _ hr ⟨L.kernelSize, L.nlatOut, L.nlonOut, g⟩ L.nlatIn L.nlonIn hsh
      hL.nlonOut hL.dvd hL.nlonIn
    refine ⟨z, by unfold cpuDevice; dsimp only; rw [b1], fun i j hj => ?_⟩
    rw [b5 i j hj, ← encode_discoAdjoint taps L.kernelSize L.nlatOut L.nlatIn L.nlonIn L.nlonOut hL.fits, ← hL.entries, ← hsum]
  · rw [f3, (buildSplit_part junk _ _ hr L.kernelSize).2.2.2.2.2 k hk]
    obtain ⟨r1, -, -, -⟩ := splitKernel_spec junk (Csr.ofLists junk s roff) _ hr k
    obtain ⟨z, sh', b1, -, -, -, b5⟩ := cpuBackward_value n.sh _ _ r1 ⟨1, L.nlatOut, L.nlonOut, fun _ => g⟩ L.nlatIn L.nlonIn hsh
      hL.nlonOut hL.dvd hL.nlonIn
    refine ⟨z, by unfold cpuDevice; dsimp only; rw [b1], fun i j hj => ?_⟩
    rw [b5 i j hj]
    exact part_value junk L taps hL s roff hp k g i j

/-- The CPU kernels. -/
theorem cpu_sound (junk : ℕ → Entry R) (L : Layer R) (taps : List (Tap R)) (hL : FusedOf L taps) (F : Buffers R) (hF : layerBuffers junk L = .ok F)
    (n : CpuNoise R) (ho : ∀ m, (n.order m).Perm (List.range m)) (hsh : ∀ q < 2 * L.nlonIn, n.sh q = 0) : Sound (cpuDevice n) L taps junk F := by
  obtain ⟨s, roff, D, P, hp, -, -, f1, -, f3, -⟩ := buffers_inv junk L F hF
  exact cpu_sound_of junk L taps hL F s roff hp f1 f3 n ho hsh

/-- What a GPU may do: all schedules are permutations, the shared memory is granted. -/
structure GpuNoise.Legal (n : GpuNoise R) (L : Layer R) : Prop where
  width : L.nlonIn ≤ 32768
  order : ∀ m, (n.order m).Perm (List.range m)
  schedF : ∀ b c, (n.schedF b c).Perm (List.range L.nlonIn)
  schedB : ∀ b c, (n.schedB b c).Perm
    (List.range (blockThreads L.nlonIn * max (minElements L.nlonIn) (ceilDiv L.nlonOut (blockThreads L.nlonIn))))
  shuffle : ∀ l, (n.shuffle l).Perm l
  capF : forwardNeed L.nlonIn L.nlonOut ≤ n.cap
  capB : backwardNeed L.nlonOut L.nlonIn ≤ n.cap

/-- The GPU kernels, for any buffers made from the sorted filter. -/
theorem gpu_sound_of (junk : ℕ → Entry R) (L : Layer R) (taps : List (Tap R)) (hL : FusedOf L taps)
    (hls : LatSorted L.nlonIn (taps.map (encode L.nlonIn))) (F : Buffers R) (s : List (Entry R)) (roff : List ℕ)
    (hp : preprocessPsi junk L.kernelSize L.nlatOut L.entries = .ok (s, roff)) (f1 : F.csr = Csr.ofLists junk s roff)
    (f3 : F.split = buildSplit (Csr.ofLists junk s roff) L.kernelSize)
    (n : GpuNoise R) (hn : n.Legal L) : Sound (gpuDevice n) L taps junk F := by
  obtain ⟨hr, hcsr, hsum⟩ := fused_csr junk L taps hL s roff hp
  obtain ⟨hK, -⟩ := fits_ker hL.fits
  have hlat : LatRuns (Csr.ofLists junk s roff) L.nlonIn := by
    rw [hcsr, hL.entries]
    rw [hcsr, hL.entries] at hr
    exact latRuns_of junk L.kernelSize L.nlonIn _ hK hr hls
  have hp' := hp
  rw [hL.entries] at hp'
  obtain ⟨s1, roff1, a1, a2⟩ := C65_cuda_forward taps L.kernelSize L.nlatOut L.nlonOut ⟨L.nlatIn, L.nlonIn, fun _ _ => 0⟩ hL.fits hL.nlonOut
    hL.nlonIn hL.dvd ((Nat.le_of_dvd hL.nlonIn hL.dvd).trans hn.width) hL.nonempty hL.rows hls hL.noCollision junk
  obtain ⟨s2, roff2, b1, b2⟩ := C66_cuda_backward taps L.kernelSize L.nlatOut L.nlatIn L.nlonIn ⟨L.kernelSize, L.nlatOut, L.nlonOut, fun _ _ _ => 0⟩
    hL.fits hL.nlonOut hL.nlonIn hL.dvd hn.width hL.nonempty hL.rows hls hL.noCollision junk
  refine ⟨fun x => ?_, fun g => ?_, fun k hk g hlen => ?_⟩
  · rw [f1]
    obtain ⟨s1, roff1, a1, a2⟩ := C65_cuda_forward taps L.kernelSize L.nlatOut L.nlonOut ⟨L.nlatIn, L.nlonIn, x⟩ hL.fits hL.nlonOut
      hL.nlonIn hL.dvd ((Nat.le_of_dvd hL.nlonIn hL.dvd).trans hn.width) hL.nonempty hL.rows hls hL.noCollision junk
    dsimp only at a1
    rw [hp'] at a1
    cases a1
    obtain ⟨y, y1, -, -, -, y5⟩ := (a2 n.cap n.sharedF n.schedF (n.order (roff.length - 1)) hn.schedF (hn.order _)).1 hn.capF
    exact ⟨y, y1, y5⟩
  · rw [f1]
    obtain ⟨s2, roff2, b1, b2⟩ := C66_cuda_backward taps L.kernelSize L.nlatOut L.nlatIn L.nlonIn ⟨L.kernelSize, L.nlatOut, L.nlonOut, g⟩
      hL.fits hL.nlonOut hL.nlonIn hL.dvd hn.width hL.nonempty hL.rows hls hL.noCollision junk
    rw [hp'] at b1
    cases b1
    obtain ⟨z, z1, -, -, z5⟩ := (b2 n.cap n.sharedB n.schedB n.shuffle hn.schedB hn.shuffle).1 hn.capB
    exact ⟨z, z1, z5⟩
  · rw [f3, (buildSplit_part junk _ _ hr L.kernelSize).2.2.2.2.2 k hk]
    obtain ⟨r1, -, -, -⟩ := splitKernel_spec junk (Csr.ofLists junk s roff) _ hr k
    obtain ⟨l1, l2⟩ := splitKernel_lat junk (Csr.ofLists junk s roff) _ L.nlonIn hr hlat k
    have hcol : ∀ z < (splitKernel (Csr.ofLists junk s roff) k).2.1.length,
        ((Csr.ofLists junk (splitKernel (Csr.ofLists junk s roff) k).2.1 (splitKernel (Csr.ofLists junk s roff) k).1).entry z).col / L.nlonIn < L.nlatIn := by
      intro z hz
      have e1 : (Csr.ofLists junk (splitKernel (Csr.ofLists junk s roff) k).2.1 (splitKernel (Csr.ofLists junk s roff) k).1).entry z
          = (splitKernel (Csr.ofLists junk s roff) k).2.1[z] := List.getD_eq_getElem _ _ hz
      obtain ⟨z', hz', hc⟩ := l2 _ (List.getElem_mem hz)
      rw [e1, hc, hcsr]
      have hperm := byKernel_perm L.kernelSize (taps.map (encode L.nlonIn)) hK
      rw [hL.entries] at hz' ⊢
      have e2 : (csrOf junk L.kernelSize (taps.map (encode L.nlonIn))).entry z'
          = (byKernel L.kernelSize (taps.map (encode L.nlonIn)))[z']'(by rw [hperm.length_eq]; exact hz') := List.getD_eq_getElem _ _ _
      have hm : (csrOf junk L.kernelSize (taps.map (encode L.nlonIn))).entry z' ∈ taps.map (encode L.nlonIn) := by
        rw [e2]
        exact hperm.mem_iff.1 (List.getElem_mem _)
      obtain ⟨a, ha, he⟩ := List.mem_map.1 hm
      obtain ⟨-, -, q3, q4⟩ := hL.fits a ha
      rw [← he]
      show (a.latIn * L.nlonIn + a.lonIn) / L.nlonIn < L.nlatIn
      rw [flat_div q4]
      exact q3
    obtain ⟨z, z1, z2⟩ := cudaBackward_value n.cap n.sharedB n.schedB n.shuffle _ _ r1 ⟨1, L.nlatOut, L.nlonOut, fun _ => g⟩ L.nlatIn L.nlonIn
      hL.nlonOut hL.nlonIn hL.dvd hn.width l1 hcol hn.schedB hn.shuffle hn.capB
    refine ⟨z, z1, fun i j hj => ?_⟩
    rw [z2 i j hj]
    exact part_value junk L taps hL s roff hp k g i j

/-- The GPU kernels. -/
theorem gpu_sound (junk : ℕ → Entry R) (L : Layer R) (taps : List (Tap R)) (hL : FusedOf L taps)
    (hls : LatSorted L.nlonIn (taps.map (encode L.nlonIn))) (F : Buffers R) (hF : layerBuffers junk L = .ok F)
    (n : GpuNoise R) (hn : n.Legal L) : Sound (gpuDevice n) L taps junk F := by
  obtain ⟨s, roff, D, P, hp, -, -, f1, -, f3, -⟩ := buffers_inv junk L F hF
  exact gpu_sound_of junk L taps hL hls F s roff hp f1 f3 n hn

end Verif.Disco
