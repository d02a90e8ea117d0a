import Verif.Model.CollectiveGrad
import Verif.Props.Collectives
/-!
Property theorems C49: the backward function of every collective is the adjoint of its forward function, for
the inner product that sums over ranks (a value that is replicated on all ranks is counted once).
-/
namespace Verif.Props
open Verif Verif.Dist Verif.Spec Finset

private theorem family_ok {α ε β : Type} [Nonempty α] {P : ℕ} {f : ℕ → Except ε α} {Q : ℕ → α → Prop}
    (_b : β) (h : ∀ r < P, ∃ y, f r = .ok y ∧ Q r y) : ∃ y : ℕ → α, ∀ r < P, f r = .ok (y r) ∧ Q r (y r) := by
  have : ∀ r, ∃ y, r < P → f r = .ok y ∧ Q r y := by
    intro r
    by_cases hr : r < P
    · obtain ⟨y, hy⟩ := h r hr; exact ⟨y, fun _ => hy⟩
    · exact ⟨Classical.arbitrary α, fun h => absurd h hr⟩
  choose y hy using this
  exact ⟨y, hy⟩

/-- A family of local vectors with the extents of the blocks is the family of blocks of some global vector. -/
theorem exists_global {α : Type} [Zero α] {n P : ℕ} (g : ℕ → Vec α) (hg : ∀ r < P, (g r).len = blockSize n P r) :
    ∃ G, ∀ r < P, IsBlock n P G r (g r) := by
  classical
  let G : ℕ → α := fun j =>
    if h : ∃ r i, i < blockSize n P r ∧ j = blockStart n P r + i then (g h.choose).val h.choose_spec.choose else 0
  refine ⟨G, fun r hr => ⟨hg r hr, fun i hi => ?_⟩⟩
  have h : ∃ r' i', i' < blockSize n P r' ∧ blockStart n P r + i = blockStart n P r' + i' := ⟨r, i, hi, rfl⟩
  simp only [G, dif_pos h]
  obtain ⟨h1, h2⟩ := h.choose_spec.choose_spec
  obtain ⟨e1, e2⟩ := block_unique hi h1 h2
  exact congrArg₂ (fun a b => (g a).val b) e1 e2

theorem exists_global0 {α : Type} [Zero α] {n0 n1 P : ℕ} (g : ℕ → Mat α)
    (hg : ∀ r < P, (g r).d0 = blockSize n0 P r ∧ (g r).d1 = n1) : ∃ G, ∀ r < P, IsBlock0 n0 n1 P G r (g r) := by
  obtain ⟨G, hG⟩ := exists_global (α := ℕ → α) (n := n0) (P := P) (fun r => ⟨(g r).d0, (g r).val⟩)
    (fun r hr => (hg r hr).1)
  refine ⟨G, fun r hr => ⟨(hg r hr).1, (hg r hr).2, fun i hi j _ => ?_⟩⟩
  exact congrFun ((hG r hr).2 i hi) j

theorem exists_global1 {α : Type} [Zero α] {n0 n1 P : ℕ} (g : ℕ → Mat α)
    (hg : ∀ r < P, (g r).d0 = n0 ∧ (g r).d1 = blockSize n1 P r) : ∃ G, ∀ r < P, IsBlock1 n0 n1 P G r (g r) := by
  obtain ⟨G, hG⟩ := exists_global0 (n0 := n1) (n1 := n0) (P := P) (fun r => (g r).swap)
    (fun r hr => ⟨(hg r hr).2, (hg r hr).1⟩)
  refine ⟨fun i j => G j i, fun r hr => ⟨(hg r hr).1, (hg r hr).2, fun i hi j hj => ?_⟩⟩
  exact (hG r hr).2.2 j hj i hi

variable {R : Type} [CommRing R]

/-- The inner product of two global vectors is the sum over ranks of the inner products of their blocks. -/
theorem dot_blocks {n P : ℕ} (hP : 0 < P) {X G : ℕ → R} {x g : ℕ → Vec R}
    (hx : ∀ r < P, IsBlock n P X r (x r)) (hg : ∀ r < P, IsBlock n P G r (g r)) :
    ∑ r ∈ range P, dot (x r).len (x r).val (g r).val = dot n X G := by
  unfold dot
  rw [sum_blocks hP (fun i => X i * G i)]
  refine sum_congr rfl fun r hr => ?_
  have hr := mem_range.1 hr
  rw [(hx r hr).1]
  refine sum_congr rfl fun i hi => ?_
  rw [(hx r hr).2 i (mem_range.1 hi), (hg r hr).2 i (mem_range.1 hi)]

theorem dot_whole {n : ℕ} {X Y G H : ℕ → R} (h1 : ∀ i < n, X i = Y i) (h2 : ∀ i < n, G i = H i) :
    dot n X G = dot n Y H :=
  sum_congr rfl fun i hi => by rw [h1 i (mem_range.1 hi), h2 i (mem_range.1 hi)]

theorem reduce_val {n P : ℕ} (x : ℕ → Vec R) (hx : ∀ r < P, (x r).len = n) (r : ℕ) (hr : r < P) :
    (reduce P x r).len = n ∧ ∀ i, (reduce P x r).val i = ∑ s ∈ range P, (x s).val i := by
  unfold reduce
  by_cases hP : P = 1
  · subst hP; obtain rfl : r = 0 := by omega
    simp [hx]
  · simp [hP, hx r hr]

/-- C49, copy to the model-parallel region. The forward is a broadcast of the replicated `X`; the gradient that
each rank gets is the gradient of the sum of all ranks' uses. -/
theorem C49_copy_adjoint (n P : ℕ) (X : ℕ → R) (x g : ℕ → Vec R) (hx : ∀ r < P, IsWhole n X (x r))
    (hg : ∀ r < P, (g r).len = n) (q : ℕ) (hq : q < P) :
    ∑ r ∈ range P, dot n (copyToForward P x r).val (g r).val = dot n X (copyToBackward P g q).val := by
  obtain ⟨-, h⟩ := reduce_val g hg q hq
  simp only [copyToForward, copyToBackward, dot, h, mul_sum]
  rw [sum_comm]
  refine sum_congr rfl fun i hi => sum_congr rfl fun r hr => ?_
  rw [(hx r (mem_range.1 hr)).2 i (mem_range.1 hi)]

/-- C49, reduce from the model-parallel region (the output is replicated and so is its gradient `G`). -/
theorem C49_reduce_adjoint (n P : ℕ) (G : ℕ → R) (x g : ℕ → Vec R) (hx : ∀ r < P, (x r).len = n)
    (hg : ∀ r < P, IsWhole n G (g r)) (q : ℕ) (hq : q < P) :
    dot n (reduceFromForward P x q).val G = ∑ r ∈ range P, dot n (x r).val (reduceFromBackward P g r).val := by
  obtain ⟨-, h⟩ := reduce_val x hx q hq
  simp only [reduceFromForward, reduceFromBackward, dot, h, sum_mul]
  rw [sum_comm]
  refine sum_congr rfl fun r hr => sum_congr rfl fun i hi => ?_
  rw [(hg r (mem_range.1 hr)).2 i (mem_range.1 hi)]

/-- C49, scatter. -/
theorem C49_scatter_adjoint (n P : ℕ) (hP : 0 < P) (h : P ≤ n) (X : ℕ → R) (x g : ℕ → Vec R)
    (hx : ∀ r < P, IsWhole n X (x r)) (hg : ∀ r < P, (g r).len = blockSize n P r) :
    ∃ y w : ℕ → Vec R, (∀ r < P, scatterToForward P x r = .ok (y r)) ∧
      (∀ r < P, scatterToBackward P n g r = .ok (w r) ∧ (w r).len = n) ∧
      ∀ q < P, ∑ r ∈ range P, dot (y r).len (y r).val (g r).val = dot n X (w q).val := by
  obtain ⟨G, hG⟩ := exists_global g hg
  obtain ⟨l, hl⟩ := css_exists h hP
  have : Nonempty (Vec R) := ⟨⟨0, fun _ => 0⟩⟩
  obtain ⟨y, hy⟩ := family_ok () (fun r hr => C46_scatter n P hP h X x hx r hr)
  obtain ⟨w, hw⟩ := family_ok () (fun r hr => C46_gather n P hP h G g hG (some l) (by rintro _ ⟨⟩; exact hl) r hr)
  refine ⟨y, w, fun r hr => (hy r hr).1, fun r hr => ⟨?_, (hw r hr).2.1⟩, fun q hq => ?_⟩
  · simp [scatterToBackward, hl, bind, Except.bind, (hw r hr).1]
  · rw [dot_blocks hP (fun r hr => (hy r hr).2) hG]
    exact dot_whole (fun _ _ => rfl) (fun i hi => ((hw q hq).2.2 i hi).symm)

/-- C49, gather (the output is replicated and so is its gradient `G`). -/
theorem C49_gather_adjoint (n P : ℕ) (hP : 0 < P) (h : P ≤ n) (G : ℕ → R) (x g : ℕ → Vec R)
    (hx : ∀ r < P, (x r).len = blockSize n P r) (hg : ∀ r < P, IsWhole n G (g r)) :
    ∃ y w : ℕ → Vec R, (∀ r < P, gatherFromForward P x none r = .ok (y r) ∧ (y r).len = n) ∧
      (∀ r < P, gatherFromBackward P g r = .ok (w r)) ∧
      ∀ q < P, dot n (y q).val G = ∑ r ∈ range P, dot (x r).len (x r).val (w r).val := by
  obtain ⟨X, hX⟩ := exists_global x hx
  have : Nonempty (Vec R) := ⟨⟨0, fun _ => 0⟩⟩
  obtain ⟨y, hy⟩ := family_ok () (fun r hr => C46_gather n P hP h X x hX none (by simp) r hr)
  obtain ⟨w, hw⟩ := family_ok () (fun r hr => C46_scatter n P hP h G g hg r hr)
  refine ⟨y, w, fun r hr => ⟨(hy r hr).1, (hy r hr).2.1⟩, fun r hr => (hw r hr).1, fun q hq => ?_⟩
  rw [dot_blocks hP hX (fun r hr => (hw r hr).2)]
  exact dot_whole (fun i hi => (hy q hq).2.2 i hi) (fun _ _ => rfl)

/-- C49, gather followed by rank-dependent use: the gradients are summed and scattered. -/
theorem C49_gather_copy_adjoint (n P : ℕ) (hP : 0 < P) (h : P ≤ n) (x g : ℕ → Vec R)
    (hx : ∀ r < P, (x r).len = blockSize n P r) (hg : ∀ r < P, (g r).len = n) :
    ∃ y w : ℕ → Vec R, (∀ r < P, gatherFromCopyToForward P x none r = .ok (y r) ∧ (y r).len = n) ∧
      (∀ r < P, gatherFromCopyToBackward P g r = .ok (w r)) ∧
      ∑ r ∈ range P, dot n (y r).val (g r).val = ∑ r ∈ range P, dot (x r).len (x r).val (w r).val := by
  obtain ⟨X, hX⟩ := exists_global x hx
  have : Nonempty (Vec R) := ⟨⟨0, fun _ => 0⟩⟩
  obtain ⟨y, hy⟩ := family_ok () (fun r hr => C46_gather n P hP h X x hX none (by simp) r hr)
  obtain ⟨w, hw⟩ := family_ok () (fun r hr => C48_reduce_scatter n P hP h g hg r hr)
  refine ⟨y, w, fun r hr => ⟨(hy r hr).1, (hy r hr).2.1⟩, fun r hr => (hw r hr).1, ?_⟩
  rw [dot_blocks hP hX (fun r hr => (hw r hr).2)]
  simp only [dot, mul_sum]
  rw [sum_comm (s := range n)]
  refine sum_congr rfl fun r hr => sum_congr rfl fun i hi => ?_
  rw [(hy r (mem_range.1 hr)).2.2 i (mem_range.1 hi)]

/-- C49, reduce-scatter. -/
theorem C49_reduce_scatter_adjoint (n P : ℕ) (hP : 0 < P) (h : P ≤ n) (x g : ℕ → Vec R)
    (hx : ∀ r < P, (x r).len = n) (hg : ∀ r < P, (g r).len = blockSize n P r) :
    ∃ y w : ℕ → Vec R, (∀ r < P, reduceFromScatterToForward P x r = .ok (y r)) ∧
      (∀ r < P, reduceFromScatterToBackward P n g r = .ok (w r) ∧ (w r).len = n) ∧
      ∑ r ∈ range P, dot (y r).len (y r).val (g r).val = ∑ r ∈ range P, dot n (x r).val (w r).val := by
  obtain ⟨G, hG⟩ := exists_global g hg
  obtain ⟨l, hl⟩ := css_exists h hP
  have : Nonempty (Vec R) := ⟨⟨0, fun _ => 0⟩⟩
  obtain ⟨y, hy⟩ := family_ok () (fun r hr => C48_reduce_scatter n P hP h x hx r hr)
  obtain ⟨w, hw⟩ := family_ok () (fun r hr => C46_gather n P hP h G g hG (some l) (by rintro _ ⟨⟩; exact hl) r hr)
  refine ⟨y, w, fun r hr => (hy r hr).1, fun r hr => ⟨?_, (hw r hr).2.1⟩, ?_⟩
  · simp [reduceFromScatterToBackward, hl, bind, Except.bind, (hw r hr).1]
  · rw [dot_blocks hP (fun r hr => (hy r hr).2) hG]
    simp only [dot, sum_mul]
    rw [sum_comm (s := range n)]
    refine sum_congr rfl fun r hr => sum_congr rfl fun i hi => ?_
    rw [(hw r (mem_range.1 hr)).2.2 i (mem_range.1 hi)]

/-- Inner product of two local tensors with two visible dimensions. -/
def matDot (x g : Mat R) : R := ∑ i ∈ range x.d0, ∑ j ∈ range x.d1, x.val i j * g.val i j

/-- C49, distributed transpose. -/
theorem C49_transpose_adjoint (n0 n1 P : ℕ) (hP : 0 < P) (h0 : P ≤ n0) (h1 : P ≤ n1) (x g : ℕ → Mat R)
    (sz1 : List ℕ) (hsz : computeSplitShapes n1 P = .ok sz1)
    (hx : ∀ r < P, (x r).d0 = n0 ∧ (x r).d1 = blockSize n1 P r)
    (hg : ∀ r < P, (g r).d0 = blockSize n0 P r ∧ (g r).d1 = n1) :
    ∃ y w : ℕ → Mat R, (∀ r < P, distTransposeForward P x sz1 r = .ok (y r)) ∧
      (∀ r < P, distTransposeBackward P n0 g r = .ok (w r)) ∧
      ∑ r ∈ range P, matDot (y r) (g r) = ∑ r ∈ range P, matDot (x r) (w r) := by
  obtain ⟨X, hX⟩ := exists_global1 x hx
  obtain ⟨G, hG⟩ := exists_global0 g hg
  obtain ⟨l, hl⟩ := css_exists h0 hP
  have : Nonempty (Mat R) := ⟨⟨0, 0, fun _ _ => 0⟩⟩
  have hGs : ∀ r < P, IsBlock1 n1 n0 P (fun i j => G j i) r ((g r).swap) := fun r hr =>
    ⟨(hG r hr).2.1, (hG r hr).1, fun i hi j hj => (hG r hr).2.2 j hj i hi⟩
  obtain ⟨y, hy⟩ := family_ok () (fun r hr => C47_transpose n0 n1 P hP h0 h1 X x hX sz1 hsz r hr)
  obtain ⟨w, hw⟩ := family_ok () (fun r hr => C47_transpose n1 n0 P hP h1 h0 _ _ hGs l hl r hr)
  refine ⟨y, fun r => (w r).swap, fun r hr => (hy r hr).1, fun r hr => ?_, ?_⟩
  · simp [distTransposeBackward, hl, bind, Except.bind, pure, Except.pure, (hw r hr).1]
  · trans ∑ i ∈ range n0, ∑ j ∈ range n1, X i j * G i j
    · rw [sum_blocks (n := n0) hP (fun i => ∑ j ∈ range n1, X i j * G i j)]
      refine sum_congr rfl fun r hr => ?_
      have hr := mem_range.1 hr
      obtain ⟨-, e1, e2, e3⟩ := hy r hr
      unfold matDot
      rw [e1, e2]
      refine sum_congr rfl fun i hi => sum_congr rfl fun j hj => ?_
      rw [e3 i (mem_range.1 hi) j (mem_range.1 hj), (hG r hr).2.2 i (mem_range.1 hi) j (mem_range.1 hj)]
    · rw [sum_comm, sum_blocks (n := n1) hP (fun j => ∑ i ∈ range n0, X i j * G i j)]
      refine sum_congr rfl fun r hr => ?_
      have hr := mem_range.1 hr
      obtain ⟨-, e1, e2, e3⟩ := hw r hr
      unfold matDot
      rw [(hX r hr).1, (hX r hr).2.1, sum_comm (s := range n0)]
      refine sum_congr rfl fun j hj => sum_congr rfl fun i hi => ?_
      simp only [Mat.swap]
      rw [(hX r hr).2.2 i (mem_range.1 hi) j (mem_range.1 hj), e3 j (mem_range.1 hj) i (mem_range.1 hi)]

/-- Non-vacuity: 3 ranks, 7 elements, block-shaped gradients. -/
example : ∀ r < 3, ((⟨blockSize 7 3 r, fun i => (i : ℤ)⟩ : Vec ℤ)).len = blockSize 7 3 r := fun _ _ => rfl
example : blockSize 7 3 0 = 3 ∧ blockSize 7 3 1 = 2 := by decide

end Verif.Props
