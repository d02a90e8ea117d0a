import Verif.Lemmas.DiscoPack
import Verif.Props.Disco
/-!
C30, C31, C33 and the kernel part of C32: the optimized DISCO path.

`byKernel`, `RowSorted` and `NoCollision` (Lemmas/DiscoRuns) are part of the statements: entries grouped by kernel in their
original order; rows non-decreasing inside each kernel; no kernel starts with the row the preceding one ended with.
`DiscreteContinuousConvS2` lists the entries of each kernel row by row, so `RowSorted` holds for what it builds; `NoCollision`
fails e.g. for one output row and two kernels.
-/
namespace Verif.Props
open Verif Verif.Dist Verif.Spec Verif.Disco Finset

variable {R : Type}

/-- C31: the entries come out grouped by increasing kernel, none lost or duplicated, each kernel's entries in their original
order, whatever the work arrays held. -/
theorem C31_stable_sort (junk : ℕ → Entry R) (K Ho : ℕ) (es s : List (Entry R)) (roff : List ℕ) (hK : ∀ e ∈ es, e.ker < K)
    (h : preprocessPsi junk K Ho es = .ok (s, roff)) :
    s.Perm es ∧ s.Pairwise (fun a b => a.ker ≤ b.ker) ∧ ∀ k, s.filter (fun e => e.ker = k) = es.filter (fun e => e.ker = k) := by
  obtain ⟨rfl, -⟩ := preprocess_ok junk K Ho es s roff hK h
  exact ⟨byKernel_perm K es hK, byKernel_sorted K es, byKernel_filter K es hK⟩

/-- C31: the row offsets cut a non-empty sorted list into consecutive non-empty runs of constant row, as long as possible. -/
theorem C31_row_runs (junk : ℕ → Entry R) (K Ho : ℕ) (es s : List (Entry R)) (roff : List ℕ) (hK : ∀ e ∈ es, e.ker < K)
    (hne : es ≠ []) (h : preprocessPsi junk K Ho es = .ok (s, roff)) :
    roff.head? = some 0 ∧ roff.getLast? = some es.length ∧ roff.Pairwise (· < ·) ∧
      ∀ z, z + 1 < es.length → ∀ a b, s[z]? = some a → s[z + 1]? = some b → (z + 1 ∈ roff ↔ a.row ≠ b.row) := by
  obtain ⟨rfl, rfl⟩ := preprocess_ok junk K Ho es s roff hK h
  have hN : 0 < es.length := List.length_pos_of_ne_nil hne
  have hbl : (byKernel K es).length = es.length := (byKernel_perm K es hK).length_eq
  refine ⟨by simp [rowOffsets], by unfold rowOffsets; rw [List.getLast?_append]; rfl, rowOffsets_pairwise _ _ hN, ?_⟩
  intro z hz a b ha hb
  rw [mem_rowOffsets _ _ z hz]
  simp only [List.getD_eq_getElem?_getD, ha, hb, Option.getD_some]

/-- C31: the only failure is the abort when there are more runs than `nlat_out * kernel_size`; with rows in range and listed in
order inside each kernel it cannot happen. -/
theorem C31_no_abort (junk : ℕ → Entry R) (K Ho : ℕ) (es : List (Entry R)) (hK : ∀ e ∈ es, e.ker < K) (hH : ∀ e ∈ es, e.row < Ho)
    (hne : es ≠ []) (hrs : RowSorted es) : ∃ s roff, preprocessPsi junk K Ho es = .ok (s, roff) :=
  ⟨_, _, preprocess_total junk K Ho es hK hH hne hrs⟩

/-- C31: the abort happens exactly when the row changes too often in the sorted list. -/
theorem C31_abort_iff (junk : ℕ → Entry R) (K Ho : ℕ) (es : List (Entry R)) (hK : ∀ e ∈ es, e.ker < K) :
    (∃ s roff, preprocessPsi junk K Ho es = .ok (s, roff)) ↔
      (∀ i, i + 1 < es.length → ((byKernel K es).getD i (junk i)).row = ((byKernel K es).getD (i + 1) (junk (i + 1))).row) ∨
      ((List.range (es.length - 1)).filter
        (fun i => ((byKernel K es).getD i (junk i)).row ≠ ((byKernel K es).getD (i + 1) (junk (i + 1))).row)).length + 1 ≤ Ho * K := by
  have h0 : ((List.range (es.length - 1)).filter
      (fun i => ((byKernel K es).getD i (junk i)).row ≠ ((byKernel K es).getD (i + 1) (junk (i + 1))).row)).length = 0 ↔
      (∀ i, i + 1 < es.length → ((byKernel K es).getD i (junk i)).row = ((byKernel K es).getD (i + 1) (junk (i + 1))).row) := by
    rw [List.length_eq_zero_iff, List.filter_eq_nil_iff]
    constructor
    · intro h i hi
      have := h i (List.mem_range.2 (by omega))
      simpa using this
    · intro h i hi
      have := h i (by have := List.mem_range.1 hi; omega)
      simpa using this
  rw [← h0, ← roffLoop_isOk (Ho * K) (fun i => ((byKernel K es).getD i (junk i)).row) (es.length - 1)]
  unfold preprocessPsi
  simp only [sortEntries_byKernel junk K es hK]
  constructor
  · rintro ⟨s, r, h⟩
    split at h
    · cases h
    · exact ⟨_, ‹_›⟩
  · rintro ⟨l, hl⟩
    rw [hl]
    exact ⟨_, _, rfl⟩

/-- C31, empty filter: one empty run is reported, whose "first entry" lies outside the arrays. -/
theorem C31_empty (junk : ℕ → Entry R) (K Ho : ℕ) : preprocessPsi junk K Ho ([] : List (Entry R)) = .ok ([], [0, 0]) := rfl

variable [CommSemiring R]

/-- C30: forward kernel = documented sum, for every order in which the OpenMP threads finish the rows, every content of the work
arrays and of the memory beyond the buffer. -/
theorem C30_forward (taps : List (Tap R)) (K nlatOut nlonOut : ℕ) (x : Mat R) (hf : Fits taps K nlatOut x.d0 x.d1)
    (hW : 0 < nlonOut) (hI : 0 < x.d1) (hd : nlonOut ∣ x.d1) (hne : taps ≠ []) (hrs : RowSorted (taps.map (encode x.d1)))
    (hnc : NoCollision K (taps.map (encode x.d1))) (junk : ℕ → Entry R) :
    ∃ s roff, preprocessPsi junk K nlatOut (taps.map (encode x.d1)) = .ok (s, roff) ∧
      ∀ (mem : ℕ → R) (sh0 : ℕ → ℕ → R) (order : List ℕ), order.Perm (List.range (roff.length - 1)) →
        ∃ y, cpuForward mem sh0 (Csr.ofLists junk s roff) order x K nlatOut nlonOut = .ok y ∧
          y.d0 = K ∧ y.d1 = nlatOut ∧ y.d2 = nlonOut ∧
          ∀ k t, ∀ p < nlonOut, y.val k t p = discoSum taps x.d1 nlonOut x.val k t p := by
  obtain ⟨hK, hH⟩ := fits_ker hf
  have hne' : taps.map (encode x.d1) ≠ [] := by simpa using hne
  refine ⟨_, _, preprocess_total junk K nlatOut _ hK hH hne' hrs, ?_⟩
  intro mem sh0 order ho
  have hps : 0 < x.d1 / nlonOut := Nat.div_pos (Nat.le_of_dvd hI hd) hW
  refine ⟨_, by
    unfold cpuForward
    rw [if_neg (by omega), if_neg (by rw [not_not]; exact Nat.mod_eq_zero_of_dvd hd)], rfl, rfl, rfl, ?_⟩
  intro k t p hp
  have hruns := runs_of junk K _ hK hne' hnc
  have hdist := runs_distinct junk K _ hK hne' hrs _ rfl
  dsimp only
  rw [fwd_rows mem sh0 _ _ hruns hdist x.val x.d1 nlonOut (x.d1 / nlonOut) (Nat.div_mul_cancel hd).symm hps order ho k t p hp,
    ← encode_discoSum taps K nlatOut x.d0 x.d1 nlonOut hf x.val k t p, ← csr_sum junk K _ hK]
  rfl

/-- C30: the forward kernel returns the same tensor as the reference contraction. -/
theorem C30_equals_reference (taps : List (Tap R)) (K nlatOut nlonOut : ℕ) (x : Mat R) (hf : Fits taps K nlatOut x.d0 x.d1)
    (hW : 0 < nlonOut) (hI : 0 < x.d1) (hd : nlonOut ∣ x.d1) (hle : nlatOut ≤ x.d1) (hne : taps ≠ [])
    (hrs : RowSorted (taps.map (encode x.d1))) (hnc : NoCollision K (taps.map (encode x.d1))) (junk : ℕ → Entry R) :
    ∃ s roff yref, preprocessPsi junk K nlatOut (taps.map (encode x.d1)) = .ok (s, roff) ∧
      contraction x (getPsi K (taps.map (encode x.d1)) x.d0 x.d1 nlatOut) nlonOut = .ok yref ∧
      ∀ (mem : ℕ → R) (sh0 : ℕ → ℕ → R) (order : List ℕ), order.Perm (List.range (roff.length - 1)) →
        ∃ y, cpuForward mem sh0 (Csr.ofLists junk s roff) order x K nlatOut nlonOut = .ok y ∧
          y.d0 = yref.d0 ∧ y.d1 = yref.d1 ∧ y.d2 = yref.d2 ∧
          ∀ k < K, ∀ t < nlatOut, ∀ p < nlonOut, y.val k t p = yref.val k t p := by
  obtain ⟨s, roff, h1, h2⟩ := C30_forward taps K nlatOut nlonOut x hf hW hI hd hne hrs hnc junk
  obtain ⟨yref, r1, r2, r3, r4, r5⟩ := contraction_value taps K nlatOut nlonOut x hf hW hd hle
  refine ⟨s, roff, yref, h1, r1, fun mem sh0 order ho => ?_⟩
  obtain ⟨y, e1, e2, e3, e4, e5⟩ := h2 mem sh0 order ho
  exact ⟨y, e1, e2.trans r2.symm, e3.trans r3.symm, e4.trans r4.symm, fun k _ t _ p hp => by rw [e5 k t p hp, r5 k t p hp]⟩

/-- C30 for inputs the kernel rejects. -/
theorem C30_ok_iff (mem : ℕ → R) (sh0 : ℕ → ℕ → R) (A : Csr R) (order : List ℕ) (x : Mat R) (K Ho Wo : ℕ) :
    (∃ y, cpuForward mem sh0 A order x K Ho Wo = .ok y) ↔ 0 < Wo ∧ Wo ∣ x.d1 := by
  unfold cpuForward
  constructor
  · rintro ⟨y, h⟩
    split at h
    · cases h
    split at h
    · cases h
    · rename_i h1 h2
      rw [not_not] at h2
      exact ⟨by omega, Nat.dvd_of_mod_eq_zero h2⟩
  · rintro ⟨h1, h2⟩
    rw [if_neg (by omega), if_neg (by rw [not_not]; exact Nat.mod_eq_zero_of_dvd h2)]
    exact ⟨_, rfl⟩

/-- Two kernels on one output row: kernel 0 ends with row 0, kernel 1 starts with it. -/
def collTaps : List (Tap ℚ) := [⟨0, 0, 0, 0, 1⟩, ⟨1, 0, 0, 1, 1⟩]

/-- C30, the excluded case is real: with one output row and two kernels everything is written to kernel 0. The reference returns
`[[1, ..], [2, ..]]` at longitude 0, the kernel `[[3, ..], [0, ..]]`. -/
theorem C30_collision_wrong :
    ∃ s roff, preprocessPsi (fun _ => ⟨0, 0, 0, 0⟩) 2 1 (collTaps.map (encode 4)) = .ok (s, roff) ∧
      ∃ y, cpuForward (fun _ => (0 : ℚ)) (fun _ _ => 0) (Csr.ofLists (fun _ => ⟨0, 0, 0, 0⟩) s roff) (List.range (roff.length - 1))
          ⟨1, 4, fun _ j => ((j + 1 : ℕ) : ℚ)⟩ 2 1 4 = .ok y ∧
        y.val 0 0 0 = 3 ∧ y.val 1 0 0 = 0 ∧
        discoSum collTaps 4 4 (fun _ j => ((j + 1 : ℕ) : ℚ)) 0 0 0 = 1 ∧
        discoSum collTaps 4 4 (fun _ j => ((j + 1 : ℕ) : ℚ)) 1 0 0 = 2 := by
  refine ⟨_, _, rfl, _, rfl, ?_, ?_, ?_, ?_⟩ <;> decide +kernel

/-- Rows listed out of order inside a kernel: the second run of row 0 overwrites the first. -/
def unsortedTaps : List (Tap ℚ) := [⟨0, 0, 0, 0, 1⟩, ⟨0, 1, 0, 0, 1⟩, ⟨0, 0, 0, 1, 1⟩]

/-- C30, entry order matters: entries of one row must be listed together, `preprocess_psi` does not sort by row. -/
theorem C30_unsorted_wrong :
    ∃ s roff, preprocessPsi (fun _ => ⟨0, 0, 0, 0⟩) 1 3 (unsortedTaps.map (encode 4)) = .ok (s, roff) ∧
      ∃ y, cpuForward (fun _ => (0 : ℚ)) (fun _ _ => 0) (Csr.ofLists (fun _ => ⟨0, 0, 0, 0⟩) s roff) (List.range (roff.length - 1))
          ⟨1, 4, fun _ j => ((j + 1 : ℕ) : ℚ)⟩ 1 3 4 = .ok y ∧
        y.val 0 0 0 = 2 ∧ discoSum unsortedTaps 4 4 (fun _ j => ((j + 1 : ℕ) : ℚ)) 0 0 0 = 3 := by
  refine ⟨_, _, rfl, _, rfl, ?_, ?_⟩ <;> decide +kernel

/-- C32 for the CPU kernel: backward = documented transpose, and the lane buffer is left clean for the next plane. -/
theorem C32_backward_kernel (taps : List (Tap R)) (K nlatOut nlatIn nlonIn : ℕ) (g : Ten R) (hf : Fits taps K nlatOut nlatIn nlonIn)
    (hW : 0 < g.d2) (hI : 0 < nlonIn) (hd : g.d2 ∣ nlonIn) (hne : taps ≠ []) (hrs : RowSorted (taps.map (encode nlonIn)))
    (hnc : NoCollision K (taps.map (encode nlonIn))) (junk : ℕ → Entry R) (sh : ℕ → R) (hsh : ∀ q < 2 * nlonIn, sh q = 0) :
    ∃ s roff, preprocessPsi junk K nlatOut (taps.map (encode nlonIn)) = .ok (s, roff) ∧
      ∃ z sh', cpuBackward sh (Csr.ofLists junk s roff) g nlatIn nlonIn = .ok (z, sh') ∧ z.d0 = nlatIn ∧ z.d1 = nlonIn ∧
        (∀ q < 2 * nlonIn, sh' q = 0) ∧ ∀ i, ∀ j < nlonIn, z.val i j = discoAdjoint taps nlonIn g.d2 g.val i j := by
  obtain ⟨hK, hH⟩ := fits_ker hf
  have hne' : taps.map (encode nlonIn) ≠ [] := by simpa using hne
  refine ⟨_, _, preprocess_total junk K nlatOut _ hK hH hne' hrs, ?_⟩
  obtain ⟨z, sh', h1, h2, h3, h4, h5⟩ :=
    cpuBackward_value sh _ _ (runs_of junk K _ hK hne' hnc) g nlatIn nlonIn hsh hW hd hI
  refine ⟨z, sh', h1, h2, h3, h4, fun i j hj => ?_⟩
  rw [h5 i j hj, ← encode_discoAdjoint taps K nlatOut nlatIn nlonIn g.d2 hf g.val i j, ← csr_sum junk K _ hK]
  rfl

/-- C32: the two kernels are adjoint: `<forward(x), g> = <x, backward(g)>`. -/
theorem C32_kernels_adjoint (taps : List (Tap R)) (K nlatOut nlonOut : ℕ) (x : Mat R) (g : Ten R)
    (hf : Fits taps K nlatOut x.d0 x.d1) (hg : g.d0 = K ∧ g.d1 = nlatOut ∧ g.d2 = nlonOut)
    (hW : 0 < nlonOut) (hI : 0 < x.d1) (hd : nlonOut ∣ x.d1) (hne : taps ≠ []) (hrs : RowSorted (taps.map (encode x.d1)))
    (hnc : NoCollision K (taps.map (encode x.d1))) (junk : ℕ → Entry R) :
    ∃ s roff, preprocessPsi junk K nlatOut (taps.map (encode x.d1)) = .ok (s, roff) ∧
      ∀ (mem : ℕ → R) (sh0 : ℕ → ℕ → R) (order : List ℕ), order.Perm (List.range (roff.length - 1)) →
        ∃ y z sh', cpuForward mem sh0 (Csr.ofLists junk s roff) order x K nlatOut nlonOut = .ok y ∧
          cpuBackward (fun _ => 0) (Csr.ofLists junk s roff) g x.d0 x.d1 = .ok (z, sh') ∧
          ∑ k ∈ range K, ∑ t ∈ range nlatOut, ∑ p ∈ range nlonOut, y.val k t p * g.val k t p
            = ∑ i ∈ range x.d0, ∑ j ∈ range x.d1, x.val i j * z.val i j := by
  obtain ⟨s, roff, h1, h2⟩ := C30_forward taps K nlatOut nlonOut x hf hW hI hd hne hrs hnc junk
  obtain ⟨hg0, hg1, hg2⟩ := hg
  obtain ⟨s', roff', h1', z, sh', b1, -, -, -, b5⟩ := C32_backward_kernel taps K nlatOut x.d0 x.d1 g hf (hg2 ▸ hW) hI (hg2 ▸ hd) hne hrs hnc junk
    (fun _ => 0) (fun _ _ => rfl)
  rw [h1] at h1'
  cases h1'
  refine ⟨s, roff, h1, fun mem sh0 order ho => ?_⟩
  obtain ⟨y, e1, -, -, -, e5⟩ := h2 mem sh0 order ho
  refine ⟨y, z, sh', e1, b1, ?_⟩
  have hL : ∑ k ∈ range K, ∑ t ∈ range nlatOut, ∑ p ∈ range nlonOut, y.val k t p * g.val k t p
      = ∑ k ∈ range K, ∑ t ∈ range nlatOut, ∑ p ∈ range nlonOut, discoSum taps x.d1 nlonOut x.val k t p * g.val k t p :=
    sum_congr rfl fun k _ => sum_congr rfl fun t _ => sum_congr rfl fun p hp => by rw [e5 k t p (mem_range.1 hp)]
  rw [hL, disco_adjoint taps K nlatOut x.d0 x.d1 nlonOut hf x.val g.val]
  refine sum_congr rfl fun i _ => sum_congr rfl fun j hj => ?_
  rw [b5 i j (mem_range.1 hj), hg2]

/-- C33: the dense layout (automatic padding, `nbr_pad = 0`, as the layer calls it) contracts to the documented sum, whether the
stored counts or the whole padded row are summed. -/
theorem C33_dense (taps : List (Tap R)) (K nlatOut nlatIn nlonIn nlonOut : ℕ) (hf : Fits taps K nlatOut nlatIn nlonIn)
    (hpos : 0 < K ∧ 0 < nlatOut ∧ 0 < nlonIn) (hne : taps ≠ []) (hrs : RowSorted (taps.map (encode nlonIn)))
    (hnc : NoCollision K (taps.map (encode nlonIn))) (junk : ℕ → Entry R) (nbrPad : ℤ) :
    ∃ s roff, preprocessPsi junk K nlatOut (taps.map (encode nlonIn)) = .ok (s, roff) ∧
      ((∃ D, packPsiDense (Csr.ofLists junk s roff) K nlatOut nlonIn nbrPad = .ok D) ↔
        nbrPad ≤ 0 ∨ ∀ i < roff.length - 1, ((roff.getD (i + 1) 0 - roff.getD i 0 : ℕ) : ℤ) ≤ nbrPad) ∧
      ∀ D, packPsiDense (Csr.ofLists junk s roff) K nlatOut nlonIn nbrPad = .ok D →
        D.K = K ∧ D.Ho = nlatOut ∧ ∀ k t p, ∀ x : ℕ → ℕ → R,
          D.count k t ≤ D.pad ∧
          denseSum D nlonIn nlonOut x (D.count k t) k t p = discoSum taps nlonIn nlonOut x k t p ∧
          denseSum D nlonIn nlonOut x D.pad k t p = discoSum taps nlonIn nlonOut x k t p := by
  obtain ⟨hK, hH⟩ := fits_ker hf
  have hne' : taps.map (encode nlonIn) ≠ [] := by simpa using hne
  refine ⟨_, _, preprocess_total junk K nlatOut _ hK hH hne' hrs, ?_⟩
  have hruns := runs_of junk K _ hK hne' hnc
  have hdist := runs_distinct junk K _ hK hne' hrs _ rfl
  set A : Csr R := csrOf junk K (taps.map (encode nlonIn)) with hA
  change Runs A _ at hruns
  change ∀ i < A.nnr, ∀ j < A.nnr, _ → _ → i = j at hdist
  show ((∃ D, packPsiDense A K nlatOut nlonIn nbrPad = .ok D) ↔
        nbrPad ≤ 0 ∨ ∀ i < A.nnr, ((A.roff (i + 1) - A.roff i : ℕ) : ℤ) ≤ nbrPad) ∧
      ∀ D, packPsiDense A K nlatOut nlonIn nbrPad = .ok D → _
  have hnnr : A.nnr ≤ K * nlatOut := by
    have hcard : (range A.nnr).card ≤ (range K ×ˢ range nlatOut).card := by
      have hlt : ∀ i < A.nnr, A.roff i < (taps.map (encode nlonIn)).length := by
        intro i hi
        have := hruns.mono i hi
        have h2 := hruns.mono_le (show i + 1 ≤ A.nnr by omega) le_rfl
        rw [hruns.last] at h2
        omega
      have hmem : ∀ i < A.nnr, A.entry (A.roff i) ∈ taps.map (encode nlonIn) := by
        intro i hi
        have := hlt i hi
        rw [← (byKernel_perm K _ hK).mem_iff]
        show (byKernel K _).getD (A.roff i) (junk _) ∈ _
        rw [← (byKernel_perm K _ hK).length_eq] at this
        rw [List.getD_eq_getElem _ _ this]
        exact List.getElem_mem _
      apply card_le_card_of_injOn (fun i => ((A.entry (A.roff i)).ker, (A.entry (A.roff i)).row))
      · intro i hi
        have hi := mem_range.1 (mem_coe.1 hi)
        simp only [coe_product, Set.mem_prod, mem_coe, mem_range]
        exact ⟨hK _ (hmem i hi), hH _ (hmem i hi)⟩
      · intro i hi j hj hij
        simp only [Prod.mk.injEq] at hij
        exact hdist i (mem_range.1 (mem_coe.1 hi)) j (mem_range.1 (mem_coe.1 hj)) hij.1 hij.2
    rwa [card_range, card_product, card_range, card_range] at hcard
  have hsum : ∀ (x : ℕ → ℕ → R) k t p, ∑ z ∈ range (taps.map (encode nlonIn)).length, (if (A.entry z).ker = k ∧ (A.entry z).row = t then
      (A.entry z).val * x ((A.entry z).col / nlonIn) (((A.entry z).col % nlonIn + p * (nlonIn / nlonOut)) % nlonIn) else 0)
      = discoSum taps nlonIn nlonOut x k t p := by
    intro x k t p
    rw [← encode_discoSum taps K nlatOut nlatIn nlonIn nlonOut hf x k t p, ← csr_sum junk K _ hK]
  have main : ∀ pad : ℕ, (∀ i < A.nnr, A.roff (i + 1) - A.roff i ≤ pad) →
      ∃ D, packRows A nlonIn ⟨K, nlatOut, pad, fun _ _ _ => (0, 0), fun _ _ _ => 0, fun _ _ => 0⟩ A.nnr = .ok D ∧
        D.K = K ∧ D.Ho = nlatOut ∧ ∀ k t p, ∀ x : ℕ → ℕ → R,
          D.count k t ≤ D.pad ∧
          denseSum D nlonIn nlonOut x (D.count k t) k t p = discoSum taps nlonIn nlonOut x k t p ∧
          denseSum D nlonIn nlonOut x D.pad k t p = discoSum taps nlonIn nlonOut x k t p := by
    intro pad hpad
    obtain ⟨D, h1, h2, h3, h4⟩ := packRows_ok A nlonIn K nlatOut pad hdist hpad A.nnr le_rfl
    have hc : ∀ k t, D.count k t ≤ D.pad := by
      intro k t
      rw [h2.hpad]
      by_cases hex : ∃ i < A.nnr, (A.entry (A.roff i)).ker = k ∧ (A.entry (A.roff i)).row = t
      · obtain ⟨i, hi, rfl, rfl⟩ := hex
        rw [(h2.row i hi).1]
        exact hpad i hi
      · rw [(h2.other k t fun i hi hh => hex ⟨i, hi, hh⟩).1]
        exact Nat.zero_le _
    refine ⟨D, h1, h3, h4, fun k t p x => ⟨hc k t, ?_, ?_⟩⟩
    · rw [packed_sum A _ hruns nlonIn nlonOut pad D hdist h2 x k t p _ le_rfl, hsum]
    · rw [packed_sum A _ hruns nlonIn nlonOut pad D hdist h2 x k t p _ (hc k t), hsum]
  unfold packPsiDense
  rw [if_neg (by rw [not_not]; exact hpos), if_neg (by rw [not_not]; exact hnnr)]
  by_cases h0 : nbrPad ≤ 0
  · rw [if_pos h0]
    obtain ⟨D, h1, h2⟩ := main (maxNbr A) (fun i hi => maxNbr_ge A hi)
    refine ⟨⟨fun _ => Or.inl h0, fun _ => ⟨D, h1⟩⟩, fun D' h' => ?_⟩
    rw [h1] at h'
    cases h'
    exact h2
  · rw [if_neg h0]
    by_cases hm : (maxNbr A : ℤ) ≤ nbrPad
    · rw [if_neg (by rw [not_not]; exact hm)]
      have hm' : ∀ i < A.nnr, A.roff (i + 1) - A.roff i ≤ nbrPad.toNat := (maxNbr_le A _).1 (by omega)
      obtain ⟨D, h1, h2⟩ := main nbrPad.toNat hm'
      refine ⟨⟨fun _ => Or.inr fun i hi => ?_, fun _ => ⟨D, h1⟩⟩, fun D' h' => ?_⟩
      · have := hm' i hi; omega
      · rw [h1] at h'
        cases h'
        exact h2
    · rw [if_pos hm]
      refine ⟨⟨fun ⟨D, h⟩ => (by cases h), ?_⟩, fun D' h' => (by cases h')⟩
      rintro (h | h)
      · exact absurd h h0
      · exact absurd (by
          have : maxNbr A ≤ nbrPad.toNat := (maxNbr_le A _).2 fun i hi => by have := h i hi; omega
          omega) hm

/-- The contraction that the kernel-packed layout stands for. -/
def kpackedSum (P : KPacked R) (Wi Wo : ℕ) (x : ℕ → ℕ → R) (k t p : ℕ) : R :=
  ∑ off ∈ range (P.count t), P.val t off k * x (P.idx t off).1 (((P.idx t off).2 + p * (Wi / Wo)) % Wi)

omit [CommSemiring R] in
/-- C33: kernel packing answers `None` exactly when two kernels differ in a count or in a (padded) column index. -/
theorem C33_kpack_none_iff [Zero R] (D : Dense R) (nAlign : ℕ) (hA : 0 < nAlign) (hK : 0 < D.K) :
    maybeKpack D nAlign = .ok none ↔
      ∃ k < D.K, ∃ t < D.Ho, D.count k t ≠ D.count 0 t ∨ ∃ off < D.pad, D.idx k t off ≠ D.idx 0 t off := by
  unfold maybeKpack
  rw [if_neg (by omega)]
  dsimp only
  rw [if_neg (by omega)]
  constructor
  · intro h
    split at h
    · cases h
    split at h
    · rename_i hc
      push Not at hc
      obtain ⟨k, hk, t, ht, hne⟩ := hc
      exact ⟨k, hk, t, ht, Or.inl hne⟩
    split at h
    · rename_i hc
      push Not at hc
      obtain ⟨k, hk, t, ht, off, ho, hne⟩ := hc
      exact ⟨k, hk, t, ht, Or.inr ⟨off, ho, hne⟩⟩
    · cases h
  · rintro ⟨k, hk, t, ht, hor⟩
    have hk1 : ¬ D.K ≤ 1 := by
      intro h1
      obtain rfl : k = 0 := by omega
      rcases hor with h | ⟨_, _, h⟩ <;> exact h rfl
    rw [if_neg hk1]
    rcases hor with h | ⟨off, ho, h⟩
    · rw [if_pos]
      intro hh
      exact h (hh k hk t ht)
    · split
      · rfl
      · rw [if_pos]
        intro hh
        exact h (hh k hk t ht off ho)

/-- C33: when kernel packing succeeds it contracts to the same result for every kernel, the added kernels contract to zero, and
their number is the smallest that fills a multiple of `n_align`. -/
theorem C33_kpack (D : Dense R) (nAlign : ℕ) (P : KPacked R) (h : maybeKpack D nAlign = .ok (some P))
    (hc : ∀ k t, D.count k t ≤ D.pad) (Wi Wo : ℕ) (x : ℕ → ℕ → R) :
    nAlign ∣ P.kPad ∧ D.K ≤ P.kPad ∧ P.kPad < D.K + nAlign ∧
    (∀ k < D.K, ∀ t < D.Ho, ∀ p, kpackedSum P Wi Wo x k t p = denseSum D Wi Wo x (D.count k t) k t p) ∧
      ∀ k, D.K ≤ k → ∀ t p, kpackedSum P Wi Wo x k t p = 0 := by
  unfold maybeKpack at h
  split at h
  · cases h
  rename_i hA
  dsimp only at h
  split at h
  · cases h
  rename_i hK0
  have hshape : nAlign ∣ (D.K + nAlign - 1) / nAlign * nAlign ∧ D.K ≤ (D.K + nAlign - 1) / nAlign * nAlign ∧
      (D.K + nAlign - 1) / nAlign * nAlign < D.K + nAlign := by
    have h1 := Nat.div_add_mod (D.K + nAlign - 1) nAlign
    have h2 := Nat.mod_lt (D.K + nAlign - 1) (show 0 < nAlign by omega)
    rw [Nat.mul_comm] at h1
    refine ⟨Dvd.intro_left _ rfl, ?_, ?_⟩ <;> omega
  have key : (∀ k < D.K, ∀ t < D.Ho, D.count k t = D.count 0 t) →
      (∀ k < D.K, ∀ t < D.Ho, ∀ off < D.pad, D.idx k t off = D.idx 0 t off) →
      P = ⟨(D.K + nAlign - 1) / nAlign * nAlign, D.idx 0, fun ho off k => if k < D.K then D.val k ho off else 0, D.count 0⟩ →
      nAlign ∣ P.kPad ∧ D.K ≤ P.kPad ∧ P.kPad < D.K + nAlign ∧
      (∀ k < D.K, ∀ t < D.Ho, ∀ p, kpackedSum P Wi Wo x k t p = denseSum D Wi Wo x (D.count k t) k t p) ∧
      ∀ k, D.K ≤ k → ∀ t p, kpackedSum P Wi Wo x k t p = 0 := by
    rintro h1 h2 rfl
    refine ⟨hshape.1, hshape.2.1, hshape.2.2, ?_, ?_⟩
    · intro k hk t ht p
      unfold kpackedSum denseSum
      simp only [if_pos hk, h1 k hk t ht]
      apply sum_congr rfl
      intro off hoff
      rw [h2 k hk t ht off (lt_of_lt_of_le (mem_range.1 hoff) (hc 0 t))]
    · intro k hk t p
      unfold kpackedSum
      simp only [if_neg (show ¬ k < D.K by omega)]
      simp
  split at h
  · rename_i hle
    refine key ?_ ?_ (by cases h; rfl) <;> intro k hk t ht <;> obtain rfl : k = 0 := by omega
    · rfl
    · intro _ _; rfl
  split at h
  · cases h
  rename_i h1
  split at h
  · cases h
  rename_i h2
  rw [not_not] at h1 h2
  exact key h1 h2 (by cases h; rfl)

/-! ### A case meeting the hypotheses -/

/-- Two kernels, two output rows on a 2 × 4 grid; rows in order inside each kernel, kernel 0 ends with row 1. -/
def exSorted : List (Tap ℚ) :=
  [⟨0, 0, 0, 1, 2⟩, ⟨1, 0, 0, 0, 5⟩, ⟨0, 0, 1, 3, 3⟩, ⟨0, 1, 1, 0, 7⟩, ⟨1, 1, 1, 2, 1⟩, ⟨1, 1, 0, 2, 4⟩]

example : Fits exSorted 2 2 exX.d0 exX.d1 ∧ exSorted ≠ [] ∧ RowSorted (exSorted.map (encode exX.d1)) ∧
    NoCollision 2 (exSorted.map (encode exX.d1)) := by
  refine ⟨?_, by decide, ?_, ?_⟩
  · intro a ha
    simp only [exSorted, List.mem_cons, List.not_mem_nil, or_false] at ha
    rcases ha with rfl | rfl | rfl | rfl | rfl | rfl <;> decide
  · intro k
    have h : ∀ k : ℕ, k = 0 ∨ k = 1 ∨ (0 ≠ k ∧ 1 ≠ k) := by omega
    rcases h k with rfl | rfl | ⟨h0, h1⟩
    · simp [exSorted, encode, exX]
    · simp [exSorted, encode, exX]
    · simp [exSorted, encode, h0, h1]
  · unfold NoCollision byKernel
    simp [exSorted, encode, exX, List.range_succ, List.isChain_cons_cons]

/-- The collision is excluded by the hypothesis. -/
example : ¬ NoCollision 2 (collTaps.map (encode 4)) := by
  unfold NoCollision byKernel
  simp [collTaps, encode, List.range_succ, List.isChain_cons_cons]

end Verif.Props
