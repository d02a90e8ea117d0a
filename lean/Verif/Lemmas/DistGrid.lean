import Verif.Spec.DistGrid
import Verif.Props.Collectives
/-! Lemmas on distributed tensors on a process grid: transposes, padding, running a statement on all ranks. -/
namespace Verif.Dist
open Verif Verif.SHT Verif.Spec Verif.Props

theorem collect_ok {β : Type} {Pp Pa : ℕ} (hp : 0 < Pp) (ha : 0 < Pa) {f : ℕ → ℕ → Except PyErr β} {Q : ℕ → ℕ → β → Prop}
    (h : ∀ p < Pp, ∀ a < Pa, ∃ y, f p a = .ok y ∧ Q p a y) :
    ∃ g, collect Pp Pa f = .ok g ∧ ∀ p < Pp, ∀ a < Pa, f p a = .ok (g p a) ∧ Q p a (g p a) := by
  have he : firstError Pp Pa f = none := by
    unfold firstError
    rw [List.findSome?_eq_none_iff]
    intro p hp'
    rw [List.findSome?_eq_none_iff]
    intro a ha'
    obtain ⟨y, hy, -⟩ := h p (List.mem_range.1 hp') a (List.mem_range.1 ha')
    rw [hy]
  obtain ⟨y0, hy0, -⟩ := h 0 hp 0 ha
  unfold collect
  rw [he, hy0]
  refine ⟨_, rfl, fun p hp' a ha' => ?_⟩
  obtain ⟨y, hy, hq⟩ := h p hp' a ha'
  simp only [hy]
  exact ⟨trivial, hq⟩

/-- A statement that raises on some rank stops the run. -/
theorem collect_error {β : Type} {Pp Pa : ℕ} {f : ℕ → ℕ → Except PyErr β} {p a : ℕ} (hp : p < Pp) (ha : a < Pa) {e : PyErr}
    (h : f p a = .error e) : ∃ e', collect Pp Pa f = .error e' := by
  have he : firstError Pp Pa f ≠ none := by
    unfold firstError
    rw [Ne, List.findSome?_eq_none_iff]
    intro hn
    have := hn p (List.mem_range.2 hp)
    rw [List.findSome?_eq_none_iff] at this
    have := this a (List.mem_range.2 ha)
    rw [h] at this
    cases this
  obtain ⟨e', he'⟩ := Option.ne_none_iff_exists'.1 he
  exact ⟨e', by unfold collect; rw [he']⟩

/-- Apply a function to the entries. -/
def Mat.mapE {α β : Type} (f : α → β) (x : Mat α) : Mat β := ⟨x.d0, x.d1, fun i j => f (x.val i j)⟩

/-- A transpose moves entries, whatever they are. -/
theorem transposeRank_map {α β : Type} (f : α → β) (P : ℕ) (x : ℕ → Mat α) (sz : List ℕ) (r : ℕ) (y : Mat β)
    (h : transposeRank P (fun s => (x s).mapE f) sz r = .ok y) : ∃ z, transposeRank P x sz r = .ok z ∧ y = z.mapE f := by
  unfold transposeRank at h ⊢
  by_cases hP : P = 1
  · simp only [hP, if_true, pure, Except.pure, Except.ok.injEq] at h ⊢
    exact ⟨_, rfl, h.symm⟩
  · simp only [hP, if_false] at h ⊢
    cases hs : computeSplitShapes (x r).d0 P with
    | error e =>
      have : computeSplitShapes ((x r).mapE f).d0 P = .error e := hs
      rw [this] at h; cases h
    | ok secs =>
      have : computeSplitShapes ((x r).mapE f).d0 P = .ok secs := hs
      rw [this] at h
      simp only [bind, Except.bind] at h ⊢
      by_cases hl : sz.length ≠ P
      · simp [hl, throw, throwThe, MonadExceptOf.throw] at h
      · simp only [hl, if_false, pure, Except.pure] at h ⊢
        have e : ∀ s, sentChunk P ((x s).mapE f) r = (sentChunk P (x s) r).mapE f := by
          intro s
          unfold sentChunk
          show (match computeSplitShapes (x s).d0 P with
            | .ok secs => ((x s).mapE f).chunk0 secs r
            | .error _ => (x s).mapE f) = _
          cases computeSplitShapes (x s).d0 P <;> rfl
        simp only [e] at h
        split at h
        · next hc =>
          have hc' : ∀ s < P, (sentChunk P (x s) r).d0 = secs.getD r 0 ∧ (sentChunk P (x s) r).d1 = sz.getD s 0 := hc
          rw [if_pos hc']
          cases h
          exact ⟨_, rfl, rfl⟩
        · simp [throw, throwThe, MonadExceptOf.throw] at h

/-- The transpose of a tensor with one hidden dimension, of which only the first `d` entries matter. -/
theorem transpose_hidden (n0 n1 P d : ℕ) (hP : 0 < P) (h0 : P ≤ n0) (h1 : P ≤ n1) {α : Type} (X : ℕ → ℕ → ℕ → α) (x : ℕ → Mat (ℕ → α))
    (hx : ∀ r < P, (x r).d0 = n0 ∧ (x r).d1 = blockSize n1 P r ∧
      ∀ i < n0, ∀ j < blockSize n1 P r, ∀ k < d, (x r).val i j k = X i (blockStart n1 P r + j) k)
    (sz1 : List ℕ) (hsz : computeSplitShapes n1 P = .ok sz1) (r : ℕ) (hr : r < P) :
    ∃ y, distTransposeForward P x sz1 r = .ok y ∧ y.d0 = blockSize n0 P r ∧ y.d1 = n1 ∧
      ∀ i < blockSize n0 P r, ∀ j < n1, ∀ k < d, y.val i j k = X (blockStart n0 P r + i) j k := by
  let f : (ℕ → α) → Fin d → α := fun g k => g k
  obtain ⟨y, hy, hy0, hy1, hyv⟩ := C47_transpose n0 n1 P hP h0 h1 (fun i j => f (X i j)) (fun s => (x s).mapE f)
    (fun s hs => ⟨(hx s hs).1, (hx s hs).2.1, fun i hi j hj => funext fun k => (hx s hs).2.2 i hi j hj k k.2⟩) sz1 hsz r hr
  obtain ⟨z, hz, rfl⟩ := transposeRank_map f P x sz1 r y hy
  exact ⟨z, hz, hy0, hy1, fun i hi j hj k hk => congrFun (hyv i hi j hj) ⟨k, hk⟩⟩

theorem whole_size (n : ℕ) : (whole n).size = n := by simp [whole, Cut.size, blockSize, Nat.mod_one]
theorem whole_start (n : ℕ) : (whole n).start = 0 := by simp [whole, Cut.start, blockStart]

theorem cut_one (n : ℕ) : (⟨n, 1, 0⟩ : Cut) = whole n := rfl

variable {α : Type}

/-- Dimension 2 shared → dimension 0 shared. -/
theorem trans02_part (n0 n2 P : ℕ) (c1 : Cut) (hP : 0 < P) (h0 : P ≤ n0) (h2 : P ≤ n2) (X : ℕ → ℕ → ℕ → α) (x : ℕ → Ten3 α)
    (hx : ∀ r < P, IsPart (whole n0) c1 ⟨n2, P, r⟩ X (x r)) (sz : List ℕ) (hsz : computeSplitShapes n2 P = .ok sz) (r : ℕ) (hr : r < P) :
    ∃ y, trans02 P x sz r = .ok y ∧ IsPart ⟨n0, P, r⟩ c1 (whole n2) X y := by
  obtain ⟨y, hy, e0, e1, ev⟩ := transpose_hidden n0 n2 P c1.size hP h0 h2 (fun i k j => X i (c1.start + j) k) (fun s => view02 (x s))
    (fun s hs => by
      obtain ⟨q0, q1, q2, q3⟩ := hx s hs
      rw [whole_size] at q0 q3
      refine ⟨q0, q2, fun i hi j hj k hk => ?_⟩
      have := q3 i hi k hk j hj
      rw [whole_start, zero_add] at this
      exact this) sz hsz r hr
  refine ⟨unview02 (x r).d1 y, by unfold trans02; rw [hy], e0, (hx r hr).2.1, ?_, fun i hi j hj k hk => ?_⟩
  · rw [whole_size]; exact e1
  · rw [whole_size] at hk
    rw [whole_start, zero_add]
    exact ev i hi k hk j hj

/-- Dimension 0 shared → dimension 2 shared. -/
theorem trans20_part (n0 n2 P : ℕ) (c1 : Cut) (hP : 0 < P) (h0 : P ≤ n0) (h2 : P ≤ n2) (X : ℕ → ℕ → ℕ → α) (x : ℕ → Ten3 α)
    (hx : ∀ r < P, IsPart ⟨n0, P, r⟩ c1 (whole n2) X (x r)) (sz : List ℕ) (hsz : computeSplitShapes n0 P = .ok sz) (r : ℕ) (hr : r < P) :
    ∃ y, trans20 P x sz r = .ok y ∧ IsPart (whole n0) c1 ⟨n2, P, r⟩ X y := by
  obtain ⟨y, hy, e0, e1, ev⟩ := transpose_hidden n2 n0 P c1.size hP h2 h0 (fun k i j => X i (c1.start + j) k) (fun s => (view02 (x s)).swap)
    (fun s hs => by
      obtain ⟨q0, q1, q2, q3⟩ := hx s hs
      rw [whole_size] at q2 q3
      refine ⟨q2, q0, fun k hk i hi j hj => ?_⟩
      have := q3 i hi j hj k hk
      rw [whole_start, zero_add] at this
      exact this) sz hsz r hr
  refine ⟨unview02 (x r).d1 y.swap, by unfold trans20; rw [hy], ?_, (hx r hr).2.1, e0, fun i hi j hj k hk => ?_⟩
  · rw [whole_size]; exact e1
  · rw [whole_size] at hi
    rw [whole_start, zero_add]
    exact ev k hk i hi j hj

/-- Dimension 1 shared → dimension 0 shared. -/
theorem trans01_part (n0 n1 P : ℕ) (c2 : Cut) (hP : 0 < P) (h0 : P ≤ n0) (h1 : P ≤ n1) (X : ℕ → ℕ → ℕ → α) (x : ℕ → Ten3 α)
    (hx : ∀ r < P, IsPart (whole n0) ⟨n1, P, r⟩ c2 X (x r)) (sz : List ℕ) (hsz : computeSplitShapes n1 P = .ok sz) (r : ℕ) (hr : r < P) :
    ∃ y, trans01 P x sz r = .ok y ∧ IsPart ⟨n0, P, r⟩ (whole n1) c2 X y := by
  obtain ⟨y, hy, e0, e1, ev⟩ := transpose_hidden n0 n1 P c2.size hP h0 h1 (fun i j k => X i j (c2.start + k)) (fun s => view01 (x s))
    (fun s hs => by
      obtain ⟨q0, q1, q2, q3⟩ := hx s hs
      rw [whole_size] at q0 q3
      refine ⟨q0, q1, fun i hi j hj k hk => ?_⟩
      have := q3 i hi j hj k hk
      rw [whole_start, zero_add] at this
      exact this) sz hsz r hr
  refine ⟨unview01 (x r).d2 y, by unfold trans01; rw [hy], e0, ?_, (hx r hr).2.2.1, fun i hi j hj k hk => ?_⟩
  · rw [whole_size]; exact e1
  · rw [whole_size] at hj
    rw [whole_start, zero_add]
    exact ev i hi j hj k hk

/-- Dimension 0 shared → dimension 1 shared. -/
theorem trans10_part (n0 n1 P : ℕ) (c2 : Cut) (hP : 0 < P) (h0 : P ≤ n0) (h1 : P ≤ n1) (X : ℕ → ℕ → ℕ → α) (x : ℕ → Ten3 α)
    (hx : ∀ r < P, IsPart ⟨n0, P, r⟩ (whole n1) c2 X (x r)) (sz : List ℕ) (hsz : computeSplitShapes n0 P = .ok sz) (r : ℕ) (hr : r < P) :
    ∃ y, trans10 P x sz r = .ok y ∧ IsPart (whole n0) ⟨n1, P, r⟩ c2 X y := by
  obtain ⟨y, hy, e0, e1, ev⟩ := transpose_hidden n1 n0 P c2.size hP h1 h0 (fun j i k => X i j (c2.start + k)) (fun s => (view01 (x s)).swap)
    (fun s hs => by
      obtain ⟨q0, q1, q2, q3⟩ := hx s hs
      rw [whole_size] at q1 q3
      refine ⟨q1, q0, fun j hj i hi k hk => ?_⟩
      have := q3 i hi j hj k hk
      rw [whole_start, zero_add] at this
      exact this) sz hsz r hr
  refine ⟨unview01 (x r).d2 y.swap, by unfold trans10; rw [hy], ?_, e0, (hx r hr).2.2.1, fun i hi j hj k hk => ?_⟩
  · rw [whole_size]; exact e1
  · rw [whole_size] at hi
    rw [whole_start, zero_add]
    exact ev j hj i hi k hk

theorem azimuthIn_part (n0 n2 Pp Pa : ℕ) (c1 : ℕ → Cut) (ha : 0 < Pa) (h0 : Pa ≤ n0) (h2 : Pa ≤ n2) (X : ℕ → ℕ → ℕ → α)
    (x : ℕ → ℕ → Ten3 α) (hx : ∀ p < Pp, ∀ a < Pa, IsPart (whole n0) (c1 p) ⟨n2, Pa, a⟩ X (x p a)) (sz : List ℕ)
    (hsz : computeSplitShapes n2 Pa = .ok sz) (p : ℕ) (hp : p < Pp) (a : ℕ) (ha' : a < Pa) :
    ∃ y, azimuthIn Pa x sz p a = .ok y ∧ IsPart ⟨n0, Pa, a⟩ (c1 p) (whole n2) X y := by
  unfold azimuthIn
  split
  · exact trans02_part n0 n2 Pa (c1 p) ha h0 h2 X (x p) (hx p hp) sz hsz a ha'
  · have h1 : Pa = 1 := by omega
    subst h1
    obtain rfl : a = 0 := by omega
    exact ⟨_, rfl, hx p hp 0 ha'⟩

theorem azimuthOut_part (n0 n2 Pp Pa : ℕ) (c1 : ℕ → Cut) (ha : 0 < Pa) (h0 : Pa ≤ n0) (h2 : Pa ≤ n2) (X : ℕ → ℕ → ℕ → α)
    (x : ℕ → ℕ → Ten3 α) (hx : ∀ p < Pp, ∀ a < Pa, IsPart ⟨n0, Pa, a⟩ (c1 p) (whole n2) X (x p a)) (p : ℕ) (hp : p < Pp) (a : ℕ)
    (ha' : a < Pa) : ∃ y, azimuthOut Pa x n0 p a = .ok y ∧ IsPart (whole n0) (c1 p) ⟨n2, Pa, a⟩ X y := by
  unfold azimuthOut
  split
  · obtain ⟨sz, hsz⟩ := css_exists h0 ha
    rw [hsz]
    exact trans20_part n0 n2 Pa (c1 p) ha h0 h2 X (x p) (hx p hp) sz hsz a ha'
  · have h1 : Pa = 1 := by omega
    subst h1
    obtain rfl : a = 0 := by omega
    exact ⟨_, rfl, hx p hp 0 ha'⟩

theorem polarIn_part (n0 n1 Pp Pa : ℕ) (c2 : ℕ → Cut) (hp : 0 < Pp) (h0 : Pp ≤ n0) (h1 : Pp ≤ n1) (X : ℕ → ℕ → ℕ → α)
    (x : ℕ → ℕ → Ten3 α) (hx : ∀ p < Pp, ∀ a < Pa, IsPart (whole n0) ⟨n1, Pp, p⟩ (c2 a) X (x p a)) (sz : List ℕ)
    (hsz : computeSplitShapes n1 Pp = .ok sz) (p : ℕ) (hp' : p < Pp) (a : ℕ) (ha' : a < Pa) :
    ∃ y, polarIn Pp x sz p a = .ok y ∧ IsPart ⟨n0, Pp, p⟩ (whole n1) (c2 a) X y := by
  unfold polarIn
  split
  · exact trans01_part n0 n1 Pp (c2 a) hp h0 h1 X (fun s => x s a) (fun s hs => hx s hs a ha') sz hsz p hp'
  · have h1 : Pp = 1 := by omega
    subst h1
    obtain rfl : p = 0 := by omega
    exact ⟨_, rfl, hx 0 hp' a ha'⟩

theorem polarOut_part (n0 n1 Pp Pa : ℕ) (c2 : ℕ → Cut) (hp : 0 < Pp) (h0 : Pp ≤ n0) (h1 : Pp ≤ n1) (X : ℕ → ℕ → ℕ → α)
    (x : ℕ → ℕ → Ten3 α) (hx : ∀ p < Pp, ∀ a < Pa, IsPart ⟨n0, Pp, p⟩ (whole n1) (c2 a) X (x p a)) (p : ℕ) (hp' : p < Pp) (a : ℕ)
    (ha' : a < Pa) : ∃ y, polarOut Pp x n0 p a = .ok y ∧ IsPart (whole n0) ⟨n1, Pp, p⟩ (c2 a) X y := by
  unfold polarOut
  split
  · obtain ⟨sz, hsz⟩ := css_exists h0 hp
    rw [hsz]
    exact trans10_part n0 n1 Pp (c2 a) hp h0 h1 X (fun s => x s a) (fun s hs => hx s hs a ha') sz hsz p hp'
  · have h1 : Pp = 1 := by omega
    subst h1
    obtain rfl : p = 0 := by omega
    exact ⟨_, rfl, hx 0 hp' a ha'⟩

theorem leadIndex_valid (lead idx : List ℕ) : LeadIndex lead idx ↔ ValidIndex lead idx := by
  induction lead generalizing idx with
  | nil => cases idx <;> simp [LeadIndex, ValidIndex]
  | cons d ds ih => cases idx <;> simp [LeadIndex, ValidIndex, ih]

/-- The flattened and padded global tensor. -/
def flatGlobal [Zero α] (lead : List ℕ) (X : List ℕ → ℕ → ℕ → α) (c j k : ℕ) : α :=
  if c < lead.prod then X (unflatIndex lead c) j k else 0

theorem flattenPad_part [Zero α] (lead : List ℕ) (n1 n2 Pp Pa M : ℕ) (X : List ℕ → ℕ → ℕ → α) (p a : ℕ) (x : LTen α)
    (hx : IsTile lead n1 n2 Pp Pa X p a x) :
    (flattenPad x M).2 = lead.prod ∧
      IsPart (whole (max lead.prod M)) ⟨n1, Pp, p⟩ ⟨n2, Pa, a⟩ (flatGlobal lead X) (flattenPad x M).1 := by
  obtain ⟨h0, h1, h2, h3⟩ := hx
  obtain ⟨e1, e2, e3, e4⟩ := C55_pad_leading (⟨x.lead.prod, fun i => x.val (unflatIndex x.lead i)⟩ : Vec (ℕ → ℕ → α)) M
  subst h0
  refine ⟨e1, ?_, h1, h2, fun i hi j hj k hk => ?_⟩
  · rw [whole_size]; exact e2
  · rw [whole_size] at hi
    rw [whole_start, zero_add]
    unfold flatGlobal
    show (padLeading (⟨x.lead.prod, fun i => x.val (unflatIndex x.lead i)⟩ : Vec (ℕ → ℕ → α)) M).1.val i j k = _
    split
    · next h =>
      rw [e3 i h]
      exact h3 _ ((leadIndex_valid _ _).2 (C55_unflatten_roundtrip x.lead i h).1) j hj k hk
    · next h =>
      rw [e4 i (not_lt.1 h) hi]; rfl

theorem unpad_tile (lead : List ℕ) (n1 n2 Pp Pa N : ℕ) (hN : lead.prod ≤ N) (Y : ℕ → ℕ → ℕ → α) (p a : ℕ) (y : Ten3 α)
    (hy : IsPart (whole N) ⟨n1, Pp, p⟩ ⟨n2, Pa, a⟩ Y y) :
    ∃ z, unpadUnflatten y lead lead.prod = .ok z ∧ IsTile lead n1 n2 Pp Pa (fun idx => Y (flatIndex lead idx)) p a z := by
  obtain ⟨h0, h1, h2, h3⟩ := hy
  rw [whole_size] at h0 h3
  unfold unpadUnflatten unpadLeading
  rw [if_pos (by show lead.prod ≤ y.d0; omega)]
  refine ⟨_, rfl, rfl, h1, h2, fun idx hi j hj k hk => ?_⟩
  have := (C55_flatten_roundtrip lead idx ((leadIndex_valid _ _).1 hi)).1
  have h := h3 (flatIndex lead idx) (by omega) j hj k hk
  rw [whole_start, zero_add] at h
  exact h

theorem tile_congr {lead : List ℕ} {n1 n2 Pp Pa : ℕ} {X Y : List ℕ → ℕ → ℕ → α} {p a : ℕ} {x : LTen α} (hpp : 0 < Pp) (haa : 0 < Pa)
    (hp : p < Pp) (ha : a < Pa) (h : IsTile lead n1 n2 Pp Pa X p a x) (he : ∀ idx, LeadIndex lead idx → ∀ j < n1, ∀ k < n2, X idx j k = Y idx j k) :
    IsTile lead n1 n2 Pp Pa Y p a x := by
  obtain ⟨h0, h1, h2, h3⟩ := h
  exact ⟨h0, h1, h2, fun idx hi j hj k hk => by rw [h3 idx hi j hj k hk, he idx hi _ (block_lt hpp hp hj) _ (block_lt haa ha hk)]⟩

end Verif.Dist
