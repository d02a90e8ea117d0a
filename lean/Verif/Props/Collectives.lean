import Verif.Lemmas.DistBlocks
/-!
Property theorems C45-C48 and C55 about the collectives.
`P` is the size of the process group; every statement quantifies over all group sizes and extents.
-/
namespace Verif.Props
open Verif Verif.Dist Verif.Spec Finset

/-! ## C45 -/

/-- C45. The chunk sizes form a balanced partition into non-empty chunks, larger chunks first. -/
theorem C45_split_shapes_balanced (size n : ℕ) (l : List ℕ) (h : computeSplitShapes size n = .ok l) :
    l.length = n ∧ l.sum = size ∧ (∀ a ∈ l, 0 < a) ∧ (∀ a ∈ l, ∀ b ∈ l, a ≤ b + 1) ∧
      l.Pairwise (fun a b => b ≤ a) := by
  have h1 := css_length h
  have h2 := css_sum h
  obtain ⟨h3, h4, rfl⟩ := (css_ok_iff _ _ _).1 h
  have hpos : 0 < size / n := Nat.div_pos h3 h4
  have hmem : ∀ a ∈ List.replicate (size % n) (size / n + 1) ++ List.replicate (n - size % n) (size / n),
      a = size / n + 1 ∨ a = size / n := by
    intro a ha
    rcases List.mem_append.1 ha with ha | ha
    · exact .inl (List.eq_of_mem_replicate ha)
    · exact .inr (List.eq_of_mem_replicate ha)
  refine ⟨h1, h2, ?_, ?_, ?_⟩
  · intro a ha; rcases hmem a ha with h | h <;> omega
  · intro a ha b hb; rcases hmem a ha with h | h <;> rcases hmem b hb with h' | h' <;> omega
  · rw [List.pairwise_append]
    refine ⟨List.pairwise_replicate.2 (.inr le_rfl), List.pairwise_replicate.2 (.inr le_rfl), ?_⟩
    intro a ha b hb
    rw [List.eq_of_mem_replicate ha, List.eq_of_mem_replicate hb]; omega

/-- C45. The function fails exactly when some chunk would be empty (or there are no chunks at all). -/
theorem C45_split_shapes_error_iff (size n : ℕ) :
    (∃ e, computeSplitShapes size n = .error e) ↔ size < n ∨ n = 0 := by
  unfold computeSplitShapes
  by_cases h : n ≤ size
  · by_cases h0 : n = 0
    · simp [h0]
    · simp [h, h0]
  · simp [h]; omega

/-- C45. Chunk `r` is exactly the block described by the closed form of the specification, and blocks tile
`0 .. size-1` without gaps. -/
theorem C45_split_shapes_blocks (size n : ℕ) (l : List ℕ) (h : computeSplitShapes size n = .ok l) (r : ℕ)
    (hr : r < n) : l.getD r 0 = blockSize size n r ∧ (l.take r).sum = blockStart size n r ∧
      blockStart size n (r + 1) = blockStart size n r + blockSize size n r ∧ blockStart size n n = size :=
  ⟨css_getD_block h r hr, css_offset_block h r (by omega), blockStart_succ _ _ _,
    blockStart_last ((css_ok_iff _ _ _).1 h).2.1⟩

example : computeSplitShapes 10 4 = .ok [3, 3, 2, 2] := by rfl
example : computeSplitShapes 3 4 = .error .runtimeError := by rfl

/-! ## C46 -/

/-- C46. Scattering a replicated global vector gives each rank its block. -/
theorem C46_scatter (n P : ℕ) (h0 : 0 < P) (h : P ≤ n) {α : Type} (X : ℕ → α) (x : ℕ → Vec α)
    (hx : ∀ r < P, IsWhole n X (x r)) (r : ℕ) (hr : r < P) :
    ∃ y, splitRank P x r = .ok y ∧ IsBlock n P X r y := by
  unfold splitRank
  by_cases hP : P = 1
  · subst hP
    obtain rfl : r = 0 := by omega
    refine ⟨x 0, by simp [pure, Except.pure], ?_⟩
    have := hx 0 (by omega)
    simpa [IsBlock, IsWhole, blockSize, blockStart, Nat.mod_one] using this
  · have hlen := (hx r hr).1
    obtain ⟨l, hl, hs⟩ := splitTensor_ok (x := x r) (P := P) (by omega) h0
    refine ⟨(x r).chunk l r, by simp [hP, hs, bind, Except.bind, pure, Except.pure], ?_⟩
    rw [hlen] at hl
    refine ⟨css_getD_block hl r hr, ?_⟩
    intro i hi
    simp only [Vec.chunk]
    rw [css_offset_block hl r (by omega)]
    exact (hx r hr).2 _ (block_lt h0 hr hi)

/-- C46. Scattering fails (on every rank) when there are fewer elements than ranks. -/
theorem C46_scatter_error (n P : ℕ) (h1 : 1 < P) (h : n < P) {α : Type} (x : ℕ → Vec α) (r : ℕ)
    (hx : (x r).len = n) : splitRank P x r = .error .runtimeError := by
  have : ¬ P ≤ (x r).len := by omega
  simp [splitRank, splitTensorAlongDim, show P ≠ 1 by omega, this, bind, Except.bind, throw, throwThe,
    MonadExceptOf.throw]

/-- C46. Gathering the blocks of a global vector reproduces it on every rank, whether the shapes are passed
or gathered. -/
theorem C46_gather (n P : ℕ) (h0 : 0 < P) (h : P ≤ n) {α : Type} (X : ℕ → α) (x : ℕ → Vec α)
    (hx : ∀ r < P, IsBlock n P X r (x r)) (sh : Option (List ℕ))
    (hsh : ∀ l, sh = some l → computeSplitShapes n P = .ok l) (r : ℕ) (hr : r < P) :
    ∃ y, gatherRank P x sh r = .ok y ∧ IsWhole n X y := by
  unfold gatherRank
  by_cases hP : P = 1
  · subst hP
    obtain rfl : r = 0 := by omega
    refine ⟨x 0, by simp [pure, Except.pure], ?_⟩
    have := hx 0 (by omega)
    simpa [IsBlock, IsWhole, blockSize, blockStart, Nat.mod_one] using this
  · refine ⟨Vec.cat P x, ?_, cat_blocks h h0 X x hx⟩
    cases sh with
    | none => simp [hP, pure, Except.pure]
    | some l =>
      have hl := hsh l rfl
      have h1 : l.length = P := css_length hl
      have h2 : ∀ s < P, (x s).len = l.getD s 0 := fun s hs => by
        rw [(hx s hs).1, css_getD_block hl s hs]
      simp [hP, h1, pure, Except.pure]
      intro s hs; simpa using h2 s hs

/-- C46 (round trip). Scatter followed by gather restores the replicated vector on every rank. -/
theorem C46_gather_scatter (n P : ℕ) (h0 : 0 < P) (h : P ≤ n) {α : Type} (X : ℕ → α) (x : ℕ → Vec α)
    (hx : ∀ r < P, IsWhole n X (x r)) :
    ∃ y : ℕ → Vec α, (∀ r < P, splitRank P x r = .ok (y r)) ∧
      ∀ r < P, ∃ z, gatherRank P y none r = .ok z ∧ IsWhole n X z := by
  have h1 : ∀ r, ∃ y, r < P → splitRank P x r = .ok y ∧ IsBlock n P X r y := by
    intro r
    by_cases hr : r < P
    · obtain ⟨y, hy⟩ := C46_scatter n P h0 h X x hx r hr
      exact ⟨y, fun _ => hy⟩
    · exact ⟨⟨0, X⟩, fun h => absurd h hr⟩
  choose y hy using h1
  exact ⟨y, fun r hr => (hy r hr).1,
    fun r hr => C46_gather n P h0 h X y (fun s hs => (hy s hs).2) none (by simp) r hr⟩

/-- C46 (round trip). Gather followed by scatter returns every rank its own block. -/
theorem C46_scatter_gather (n P : ℕ) (h0 : 0 < P) (h : P ≤ n) {α : Type} (X : ℕ → α) (x : ℕ → Vec α)
    (hx : ∀ r < P, IsBlock n P X r (x r)) :
    ∃ y : ℕ → Vec α, (∀ r < P, gatherRank P x none r = .ok (y r)) ∧
      ∀ r < P, ∃ z, splitRank P y r = .ok z ∧ z.len = (x r).len ∧ ∀ i < (x r).len, z.val i = (x r).val i := by
  have h1 : ∀ r, ∃ y, r < P → gatherRank P x none r = .ok y ∧ IsWhole n X y := by
    intro r
    by_cases hr : r < P
    · obtain ⟨y, hy⟩ := C46_gather n P h0 h X x hx none (by simp) r hr
      exact ⟨y, fun _ => hy⟩
    · exact ⟨⟨0, X⟩, fun h => absurd h hr⟩
  choose y hy using h1
  refine ⟨y, fun r hr => (hy r hr).1, ?_⟩
  intro r hr
  obtain ⟨z, hz, hb⟩ := C46_scatter n P h0 h X y (fun s hs => (hy s hs).2) r hr
  refine ⟨z, hz, ?_, ?_⟩
  · rw [hb.1, (hx r hr).1]
  · intro i hi
    rw [(hx r hr).1] at hi
    rw [hb.2 i hi, (hx r hr).2 i hi]

/-- Non-vacuity: blocks of a concrete vector over 3 ranks, uneven split. -/
example : ∀ r < 3, IsBlock 10 3 (fun i => i * i) r
    ⟨blockSize 10 3 r, fun i => (blockStart 10 3 r + i) * (blockStart 10 3 r + i)⟩ :=
  fun _ _ => ⟨rfl, fun _ _ => rfl⟩
example : ((splitRank 3 (fun _ => (⟨10, fun i => i * i⟩ : Vec ℕ)) 1).map fun y => (y.len, y.val 0))
    = .ok (3, 16) := by rfl

/-! ## C47 -/

/-- C47. The distributed transpose turns the blocks along dim 1 of a global `n0 × n1` tensor into its blocks
along dim 0, on every rank. -/
theorem C47_transpose (n0 n1 P : ℕ) (hP : 0 < P) (h0 : P ≤ n0) (h1 : P ≤ n1) {α : Type} (X : ℕ → ℕ → α)
    (x : ℕ → Mat α) (hx : ∀ r < P, IsBlock1 n0 n1 P X r (x r)) (sz1 : List ℕ)
    (hsz : computeSplitShapes n1 P = .ok sz1) (r : ℕ) (hr : r < P) :
    ∃ y, transposeRank P x sz1 r = .ok y ∧ IsBlock0 n0 n1 P X r y := by
  unfold transposeRank
  by_cases hP1 : P = 1
  · subst hP1
    obtain rfl : r = 0 := by omega
    refine ⟨x 0, by simp [pure, Except.pure], ?_⟩
    have := hx 0 (by omega)
    simpa [IsBlock1, IsBlock0, blockSize, blockStart, Nat.mod_one] using this
  · obtain ⟨l0, hl0⟩ := css_exists h0 hP
    let recv : ℕ → Mat α := fun s => sentChunk P (x s) r
    have hrecv : ∀ s < P, recv s = (x s).chunk0 l0 r := by
      intro s hs
      have : computeSplitShapes (x s).d0 P = .ok l0 := by rw [(hx s hs).1, hl0]
      simp only [recv, sentChunk, this]
    have hblk : ∀ s < P, IsBlock1 (blockSize n0 P r) n1 P (fun i j => X (blockStart n0 P r + i) j) s (recv s) := by
      intro s hs
      rw [hrecv s hs]
      refine ⟨css_getD_block hl0 r hr, (hx s hs).2.1, ?_⟩
      intro i hi j hj
      simp only [Mat.chunk0]
      rw [css_offset_block hl0 r (by omega)]
      exact (hx s hs).2.2 _ (block_lt hP hr hi) j hj
    have hsec : computeSplitShapes (x r).d0 P = .ok l0 := by rw [(hx r hr).1, hl0]
    have hcond : ∀ s < P, (recv s).d0 = l0.getD r 0 ∧ (recv s).d1 = sz1.getD s 0 := by
      intro s hs
      refine ⟨?_, ?_⟩
      · rw [(hblk s hs).1, css_getD_block hl0 r hr]
      · rw [(hblk s hs).2.1, css_getD_block hsz s hs]
    refine ⟨Mat.cat1 P recv, ?_, cat1_blocks h1 hP (fun i j => X (blockStart n0 P r + i) j) recv hblk⟩
    have hlen : sz1.length = P := css_length hsz
    simp only [hP1, hsec, hlen, if_false, bind, Except.bind, pure, Except.pure, ne_eq, not_true_eq_false]
    exact if_pos hcond

/-- C47 (error branch). With fewer rows than ranks the transpose is rejected. -/
theorem C47_transpose_error (P : ℕ) (hP : 1 < P) {α : Type} (x : ℕ → Mat α) (sz1 : List ℕ) (r : ℕ)
    (h : (x r).d0 < P) : transposeRank P x sz1 r = .error .runtimeError := by
  have hc : computeSplitShapes (x r).d0 P = .error .runtimeError := by
    unfold computeSplitShapes; rw [if_pos (by omega)]
  simp [transposeRank, show P ≠ 1 by omega, hc, bind, Except.bind]

/-- C47 (round trip). Transposing from a dim-1 to a dim-0 distribution and back (the roles of the dimensions
exchanged, as the backward pass and the second half of the transforms do) restores every local tensor. -/
theorem C47_transpose_roundtrip (n0 n1 P : ℕ) (hP : 0 < P) (h0 : P ≤ n0) (h1 : P ≤ n1) {α : Type}
    (X : ℕ → ℕ → α) (x : ℕ → Mat α) (hx : ∀ r < P, IsBlock1 n0 n1 P X r (x r)) (sz0 sz1 : List ℕ)
    (hsz0 : computeSplitShapes n0 P = .ok sz0) (hsz1 : computeSplitShapes n1 P = .ok sz1) :
    ∃ y : ℕ → Mat α, (∀ r < P, transposeRank P x sz1 r = .ok (y r)) ∧
      ∀ r < P, ∃ z, transposeRank P (fun s => (y s).swap) sz0 r = .ok z ∧
        z.swap.d0 = (x r).d0 ∧ z.swap.d1 = (x r).d1 ∧
        ∀ i < (x r).d0, ∀ j < (x r).d1, z.swap.val i j = (x r).val i j := by
  have h : ∀ r, ∃ y, r < P → transposeRank P x sz1 r = .ok y ∧ IsBlock0 n0 n1 P X r y := by
    intro r
    by_cases hr : r < P
    · obtain ⟨y, hy⟩ := C47_transpose n0 n1 P hP h0 h1 X x hx sz1 hsz1 r hr
      exact ⟨y, fun _ => hy⟩
    · exact ⟨⟨0, 0, X⟩, fun h => absurd h hr⟩
  choose y hy using h
  refine ⟨y, fun r hr => (hy r hr).1, ?_⟩
  intro r hr
  have hswap : ∀ s < P, IsBlock1 n1 n0 P (fun i j => X j i) s ((y s).swap) := by
    intro s hs
    obtain ⟨-, hb1, hb2, hb3⟩ := hy s hs
    exact ⟨hb2, hb1, fun i hi j hj => hb3 j hj i hi⟩
  obtain ⟨z, hz, hb1, hb2, hb3⟩ := C47_transpose n1 n0 P hP h1 h0 (fun i j => X j i)
    (fun s => (y s).swap) hswap sz0 hsz0 r hr
  obtain ⟨hx1, hx2, hx3⟩ := hx r hr
  refine ⟨z, hz, ?_, ?_, ?_⟩
  · simp only [Mat.swap]; rw [hb2, hx1]
  · simp only [Mat.swap]; rw [hb1, hx2]
  · intro i hi j hj
    simp only [Mat.swap]
    rw [hx1] at hi; rw [hx2] at hj
    rw [hb3 j hj i hi, hx3 i hi j hj]

/-- Non-vacuity: a 5×4 tensor over 2 ranks. -/
example : ∀ r < 2, IsBlock1 5 4 2 (fun i j => 10 * i + j) r
    ⟨5, blockSize 4 2 r, fun i j => 10 * i + (blockStart 4 2 r + j)⟩ :=
  fun _ _ => ⟨rfl, rfl, fun _ _ _ _ => rfl⟩
example : ((transposeRank 2 (fun r => (⟨5, 2, fun i j => 10 * i + (2 * r + j)⟩ : Mat ℕ)) [2, 2] 1).map
    fun y => (y.d0, y.d1, y.val 0 3)) = .ok (2, 4, 33) := by rfl

/-! ## C48 -/

private theorem foldl_max_const (l : List ℕ) (c d : ℕ) (h : ∀ a ∈ l, a ≤ d) (hc : c ≤ d) : l.foldl max c ≤ d := by
  induction l generalizing c with
  | nil => simpa
  | cons a l ih =>
    exact ih _ (fun b hb => h b (List.mem_cons_of_mem _ hb)) (max_le hc (h a List.mem_cons_self))

private theorem le_foldl_max (l : List ℕ) (c : ℕ) : c ≤ l.foldl max c ∧ ∀ a ∈ l, a ≤ l.foldl max c := by
  induction l generalizing c with
  | nil => simp
  | cons a l ih =>
    obtain ⟨h1, h2⟩ := ih (max c a)
    refine ⟨le_trans (le_max_left _ _) h1, ?_⟩
    intro b hb
    rcases List.mem_cons.1 hb with rfl | hb
    · exact le_trans (le_max_right _ _) h1
    · exact h2 b hb

private theorem foldl_min_le (l : List ℕ) (c : ℕ) : l.foldl min c ≤ c ∧ ∀ a ∈ l, l.foldl min c ≤ a := by
  induction l generalizing c with
  | nil => simp
  | cons a l ih =>
    obtain ⟨h1, h2⟩ := ih (min c a)
    refine ⟨le_trans h1 (min_le_left _ _), ?_⟩
    intro b hb
    rcases List.mem_cons.1 hb with rfl | hb
    · exact le_trans h1 (min_le_right _ _)
    · exact h2 b hb

/-- C48. Reduce-scatter, with its zero padding for uneven splits, returns on each rank exactly the block of the
sum over ranks. -/
theorem C48_reduce_scatter (n P : ℕ) (h0 : 0 < P) (h : P ≤ n) {α : Type} [AddCommMonoid α] (x : ℕ → Vec α)
    (hx : ∀ s < P, (x s).len = n) (r : ℕ) (hr : r < P) :
    ∃ y, reduceScatterRank P x r = .ok y ∧
      IsBlock n P (fun i => ∑ s ∈ range P, (x s).val i) r y := by
  unfold reduceScatterRank
  by_cases hP : P = 1
  · subst hP
    obtain rfl : r = 0 := by omega
    refine ⟨x 0, by simp [pure, Except.pure], ?_⟩
    have := hx 0 (by omega)
    simp [IsBlock, blockSize, blockStart, Nat.mod_one, this]
  · obtain ⟨l, hl⟩ := css_exists h h0
    have hlen : l.length = P := css_length hl
    set mx := l.foldl max 0 with hmx
    have hmem : ∀ q < P, l.getD q 0 ∈ l := by
      intro q hq; rw [List.getD_eq_getElem _ _ (by omega)]; exact List.getElem_mem _
    have hle : ∀ q < P, l.getD q 0 ≤ mx := fun q hq => (le_foldl_max l 0).2 _ (hmem q hq)
    have hcss : ∀ s < P, computeSplitShapes (x s).len P = .ok l := fun s hs => by rw [hx s hs, hl]
    have hcl : ∀ s < P, ∀ q < P, (scatterChunk P (x s) q).len = mx := by
      intro s hs q hq
      have := hle q hq
      unfold scatterChunk
      rw [hcss s hs]
      dsimp only
      split
      · next hev => exact le_antisymm this (le_trans (le_of_eq hev.symm) ((foldl_min_le l _).2 _ (hmem q hq)))
      · unfold padChunk
        split
        · rfl
        · next h2 => exact le_antisymm this (not_lt.1 h2)
    have hval : ∀ i < blockSize n P r, ∀ s ∈ range P, (scatterChunk P (x s) r).val i = (x s).val (blockStart n P r + i) := by
      intro i hi s hs
      have h1 : ((x s).chunk l r).val i = (x s).val (blockStart n P r + i) := by
        simp only [Vec.chunk]; rw [css_offset_block hl r (by omega)]
      have h2 : ((x s).chunk l r).len = blockSize n P r := css_getD_block hl r hr
      unfold scatterChunk
      rw [hcss s (mem_range.1 hs)]
      dsimp only
      split
      · exact h1
      · unfold padChunk
        split
        · simp only [h2, hi, if_true, h1]
        · exact h1
    have hdist : distReduceScatter P (fun s => scatterChunk P (x s)) r =
        .ok ⟨mx, fun i => ∑ s ∈ range P, (scatterChunk P (x s) r).val i⟩ := by
      unfold distReduceScatter
      rw [if_pos (fun s hs q hq => (hcl s hs q hq).trans (hcl r hr r hr).symm), hcl r hr r hr]
    refine ⟨trimScatter P (x r).len r ⟨mx, fun i => ∑ s ∈ range P, (scatterChunk P (x s) r).val i⟩, ?_, ?_, ?_⟩
    · simp only [hP, if_false, hcss r hr, bind, Except.bind, hdist]
      rfl
    · unfold trimScatter
      rw [hcss r hr]
      dsimp only
      split
      · exact css_getD_block hl r hr
      · next h2 => exact (le_antisymm (hle r hr) (not_lt.1 h2)).symm.trans (css_getD_block hl r hr)
    · intro i hi
      unfold trimScatter
      rw [hcss r hr]
      dsimp only
      split <;> exact sum_congr rfl (hval i hi)

/-- C48. The same value is obtained by all-reduce followed by a local split. -/
theorem C48_reduce_scatter_eq_reduce_split (n P : ℕ) (h0 : 0 < P) (h : P ≤ n) {α : Type} [AddCommMonoid α]
    (x : ℕ → Vec α) (hx : ∀ s < P, (x s).len = n) (r : ℕ) (hr : r < P) :
    ∃ y z, reduceScatterRank P x r = .ok y ∧ splitRank P (reduce P x) r = .ok z ∧
      y.len = z.len ∧ ∀ i < y.len, y.val i = z.val i := by
  obtain ⟨y, hy, hb⟩ := C48_reduce_scatter n P h0 h x hx r hr
  have hred : ∀ s < P, IsWhole n (fun i => ∑ s ∈ range P, (x s).val i) (reduce P x s) := by
    intro s hs
    unfold reduce
    by_cases hP : P = 1
    · subst hP
      obtain rfl : s = 0 := by omega
      simp [IsWhole, hx]
    · simp [hP, IsWhole, hx s hs]
  obtain ⟨z, hz, hb'⟩ := C46_scatter n P h0 h _ (reduce P x) hred r hr
  refine ⟨y, z, hy, hz, by rw [hb.1, hb'.1], ?_⟩
  intro i hi
  rw [hb.1] at hi
  rw [hb.2 i hi, hb'.2 i hi]

example : ((reduceScatterRank 3 (fun s => (⟨5, fun i => (s + 1) * i⟩ : Vec ℕ)) 2).map
    fun y => (y.len, y.val 0)) = .ok (1, 24) := by rfl

/-! ## C55 -/

/-- C55. Padding keeps the data, appends zeros only, and reaches the required size. -/
theorem C55_pad_leading {α : Type} [Zero α] (x : Vec α) (m : ℕ) :
    (padLeading x m).2 = x.len ∧ (padLeading x m).1.len = max x.len m ∧
      (∀ i < x.len, (padLeading x m).1.val i = x.val i) ∧
      (∀ i, x.len ≤ i → i < max x.len m → (padLeading x m).1.val i = 0) := by
  unfold padLeading
  split
  · next h =>
    refine ⟨rfl, ?_, ?_, ?_⟩
    · simp only; omega
    · intro i hi; simp [hi]
    · intro i hi _; simp [show ¬ i < x.len by omega]
  · next h =>
    refine ⟨rfl, ?_, fun _ _ => rfl, ?_⟩
    · show x.len = max x.len m
      omega
    · intro i h1 h2; omega

/-- C55 (round trip). Unpadding after padding restores the leading dimension. -/
theorem C55_unpad_pad {α : Type} [Zero α] (x : Vec α) (m : ℕ) :
    ∃ y, unpadLeading (padLeading x m).1 (padLeading x m).2 = .ok y ∧ y.len = x.len ∧
      ∀ i < x.len, y.val i = x.val i := by
  obtain ⟨h1, h2, h3, -⟩ := C55_pad_leading x m
  refine ⟨⟨x.len, (padLeading x m).1.val⟩, ?_, rfl, h3⟩
  unfold unpadLeading
  rw [h1, h2, if_pos (le_max_left _ _)]

/-- A multi-index is valid for a shape. -/
def ValidIndex : List ℕ → List ℕ → Prop
  | [], [] => True
  | d :: ds, i :: is => i < d ∧ ValidIndex ds is
  | _, _ => False

/-- C55 (flattening). Row-major flattening maps valid multi-indices into the flat range and unflattening
inverts it; conversely each flat index is the flattening of a valid multi-index. -/
theorem C55_flatten_roundtrip (shape idx : List ℕ) (h : ValidIndex shape idx) :
    flatIndex shape idx < shape.prod ∧ unflatIndex shape (flatIndex shape idx) = idx := by
  induction shape generalizing idx with
  | nil =>
    cases idx with
    | nil => simp [flatIndex, unflatIndex]
    | cons => simp [ValidIndex] at h
  | cons d ds ih =>
    cases idx with
    | nil => simp [ValidIndex] at h
    | cons i is =>
      obtain ⟨h1, h2⟩ := h
      obtain ⟨h3, h4⟩ := ih is h2
      simp only [flatIndex, unflatIndex, List.prod_cons]
      have hp : 0 < ds.prod := by omega
      refine ⟨?_, ?_⟩
      · calc i * ds.prod + flatIndex ds is < i * ds.prod + ds.prod := by omega
          _ = (i + 1) * ds.prod := by ring
          _ ≤ d * ds.prod := Nat.mul_le_mul_right _ h1
      · have e1 : (i * ds.prod + flatIndex ds is) / ds.prod = i := by
          rw [mul_comm, Nat.mul_add_div hp, Nat.div_eq_of_lt h3, add_zero]
        have e2 : (i * ds.prod + flatIndex ds is) % ds.prod = flatIndex ds is := by
          rw [mul_comm, Nat.mul_add_mod, Nat.mod_eq_of_lt h3]
        rw [e1, e2, h4]

theorem C55_unflatten_roundtrip (shape : List ℕ) (j : ℕ) (h : j < shape.prod) :
    ValidIndex shape (unflatIndex shape j) ∧ flatIndex shape (unflatIndex shape j) = j := by
  induction shape generalizing j with
  | nil => simp at h; subst h; simp [ValidIndex, unflatIndex, flatIndex]
  | cons d ds ih =>
    simp only [List.prod_cons] at h
    have hp : 0 < ds.prod := by
      rcases Nat.eq_zero_or_pos ds.prod with h0 | h0
      · rw [h0] at h; omega
      · exact h0
    obtain ⟨h1, h2⟩ := ih (j % ds.prod) (Nat.mod_lt _ hp)
    simp only [unflatIndex, ValidIndex, flatIndex]
    refine ⟨⟨?_, h1⟩, ?_⟩
    · rw [Nat.div_lt_iff_lt_mul hp]; exact h
    · rw [h2]; exact Nat.div_add_mod' _ _

example : ValidIndex [2, 3] [1, 2] ∧ flatIndex [2, 3] [1, 2] = 5 := ⟨⟨by decide, by decide, trivial⟩, rfl⟩

end Verif.Props
