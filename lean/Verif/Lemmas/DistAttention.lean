import Verif.Model.DistAttention
import Verif.Lemmas.DistBlocks
import Verif.Lemmas.DistGrid
import Verif.Lemmas.Attention
import Verif.Props.Halo
import Verif.Spec.Ring
/-!
Lemmas about the ring-step attention: the ring, the accumulators, the halo width.
-/
namespace Verif.Ring
open Verif Verif.Dist Verif.Attn Verif.Spec Verif.Spec.Attn Verif.Spec.Ring Finset

/-! ### The ring -/

/-- The accumulators of rank `(p, a)` after `n` rounds if chunk `(a + s) mod Pa` is at hand in round `s`. -/
def iterAcc {σ : Type} (Pa : ℕ) (kernel : ℕ → ℕ → ℕ → ℕ → RTen → RTen → σ → σ) (st : ℕ → ℕ → Slot σ) (p a : ℕ) : ℕ → σ
  | 0 => (st p a).acc
  | n + 1 => kernel p a n ((a + n) % Pa) (st p ((a + n) % Pa)).k (st p ((a + n) % Pa)).v (iterAcc Pa kernel st p a n)

theorem ringLoop_ok {σ : Type} {Pp Pa : ℕ} (hp : 0 < Pp) (ha : 0 < Pa) (lonIn : ℕ → ℕ → List ℕ)
    (kernel : ℕ → ℕ → ℕ → ℕ → RTen → RTen → σ → σ) (st : ℕ → ℕ → Slot σ)
    (hk : ∀ p < Pp, ∀ a < Pa, ∀ a' < Pa, (st p a).k.B = (st p a').k.B ∧ (st p a).k.C = (st p a').k.C ∧ (st p a).k.H = (st p a').k.H)
    (hv : ∀ p < Pp, ∀ a < Pa, ∀ a' < Pa, (st p a).v.B = (st p a').v.B ∧ (st p a).v.C = (st p a').v.C ∧ (st p a).v.H = (st p a').v.H)
    (hw : ∀ p < Pp, ∀ a < Pa, ∀ a' < Pa, (st p a').k.W = (lonIn p a).getD a' 0 ∧ (st p a').v.W = (lonIn p a).getD a' 0) (n : ℕ) (hn : n ≤ Pa) :
    ∃ st', ringLoop Pp Pa lonIn kernel st n = .ok st' ∧ ∀ p < Pp, ∀ a < Pa, (st' p a).acc = iterAcc Pa kernel st p a n ∧
      (n < Pa → (st' p a).k = (st p ((a + n) % Pa)).k ∧ (st' p a).v = (st p ((a + n) % Pa)).v) := by
  induction n with
  | zero =>
    refine ⟨st, rfl, fun p _ a ha' => ⟨rfl, fun _ => ?_⟩⟩
    rw [Nat.add_zero, Nat.mod_eq_of_lt ha']; exact ⟨rfl, rfl⟩
  | succ n ih =>
    obtain ⟨st1, h1, h2⟩ := ih (by omega)
    unfold ringLoop
    rw [h1]
    dsimp only
    unfold ringStep
    dsimp only
    by_cases hlt : n + 1 < Pa
    · rw [if_pos hlt]
      have hm : ∀ i, i % Pa < Pa := fun i => Nat.mod_lt _ ha
      have := collect_ok hp ha (f := fun p a => exchange Pa (lonIn p a) n
          ((fun p a => (⟨(st1 p a).k, (st1 p a).v, kernel p a n ((a + n) % Pa) (st1 p a).k (st1 p a).v (st1 p a).acc⟩ : Slot σ)) p) a)
        (Q := fun p a y => y.acc = iterAcc Pa kernel st p a (n + 1) ∧
          (n + 1 < Pa → y.k = (st p ((a + (n + 1)) % Pa)).k ∧ y.v = (st p ((a + (n + 1)) % Pa)).v)) ?_
      · obtain ⟨g, hg1, hg2⟩ := this
        exact ⟨g, hg1, fun p hp' a ha' => (hg2 p hp' a ha').2⟩
      · intro p hp' a ha'
        obtain ⟨hacc, hkv⟩ := h2 p hp' a ha'
        obtain ⟨hk1, hv1⟩ := hkv (by omega)
        have hnx : nextRank Pa a < Pa := hm _
        obtain ⟨hk2, hv2⟩ := (h2 p hp' _ hnx).2 (by omega)
        have hidx : (nextRank Pa a + n) % Pa = (a + (n + 1)) % Pa := by
          unfold nextRank
          rw [Nat.mod_add_mod]; congr 1; omega
        rw [hidx] at hk2 hv2
        unfold exchange recvChunk
        dsimp only
        obtain ⟨e1, e2, e3⟩ := hk p hp' _ (hm (a + (n + 1))) _ (hm (a + n))
        obtain ⟨f1, f2, f3⟩ := hv p hp' _ (hm (a + (n + 1))) _ (hm (a + n))
        obtain ⟨g1, g2⟩ := hw p hp' a ha' _ (hm (a + (n + 1)))
        rw [hk1, hk2, hv1, hv2, if_pos ⟨e1, e2, e3, by rw [g1]; rfl⟩]
        dsimp only
        rw [if_pos ⟨f1, f2, f3, by rw [g2]; rfl⟩]
        refine ⟨_, rfl, ?_, fun _ => ⟨rfl, rfl⟩⟩
        dsimp only
        rw [hacc]; rfl
    · rw [if_neg hlt]
      refine ⟨_, rfl, fun p hp' a ha' => ⟨?_, fun h => absurd h hlt⟩⟩
      obtain ⟨hacc, hkv⟩ := h2 p hp' a ha'
      obtain ⟨hk1, hv1⟩ := hkv (by omega)
      dsimp only
      rw [hacc, hk1, hv1]; rfl

/-! ### Updates of independent cells -/

theorem foldl_update_other {ι κ α : Type} [DecidableEq κ] (L : List ι) (key : ι → κ) (f : ι → α → α) (s : κ → α) (c : κ)
    (hc : c ∉ L.map key) : (L.foldl (fun s t => Function.update s (key t) (f t (s (key t)))) s) c = s c := by
  induction L generalizing s with
  | nil => rfl
  | cons t L ih =>
    rw [List.map_cons, List.mem_cons, not_or] at hc
    rw [List.foldl_cons, ih _ hc.2, Function.update_of_ne hc.1]

theorem foldl_update_at {ι κ α : Type} [DecidableEq κ] (L : List ι) (key : ι → κ) (f : ι → α → α) (s : κ → α)
    (hnd : (L.map key).Nodup) (t : ι) (ht : t ∈ L) :
    (L.foldl (fun s t => Function.update s (key t) (f t (s (key t)))) s) (key t) = f t (s (key t)) := by
  induction L generalizing s with
  | nil => simp at ht
  | cons u L ih =>
    rw [List.map_cons, List.nodup_cons] at hnd
    rw [List.foldl_cons]
    rcases List.mem_cons.1 ht with rfl | h
    · rw [foldl_update_other L key f _ _ hnd.1, Function.update_self]
    · rw [ih _ hnd.2 h, Function.update_of_ne]
      intro he
      exact hnd.1 (he ▸ List.mem_map_of_mem h)

/-- A fold of updates, seen at one cell, is a fold over the updates of that cell. -/
theorem foldl_update_cell {ι κ α : Type} [DecidableEq κ] (L : List ι) (key : ι → κ) (f : ι → α → α) (s : κ → α) (c : κ) :
    (L.foldl (fun s t => Function.update s (key t) (f t (s (key t)))) s) c
      = (L.filter fun t => key t = c).foldl (fun x t => f t x) (s c) := by
  induction L generalizing s with
  | nil => rfl
  | cons u L ih =>
    rw [List.foldl_cons, ih]
    by_cases h : key u = c
    · rw [List.filter_cons_of_pos (by simpa using h), List.foldl_cons, h, Function.update_self]
    · rw [List.filter_cons_of_neg (by simpa using h), Function.update_of_ne (Ne.symm h)]

/-! ### The accumulators -/

/-- The accumulators hold the sums over the neighbours `L`, up to the common factor `exp (-max)`. -/
def Inv (L : List Pt) (s : Acc) : Prop :=
  (L = [] ∧ s = Acc.init) ∨
    (∃ m, s.qmax = some m ∧ s.alphaSum * Real.exp m = (L.map fun t => t.w * Real.exp t.q).sum ∧
      ∀ c, s.y c * Real.exp m = (L.map fun t => t.w * Real.exp t.q * t.v c).sum)

theorem Inv.init : Inv [] Acc.init := Or.inl ⟨rfl, rfl⟩

theorem Inv.onePass {L : List Pt} {s : Acc} (h : Inv L s) (t : Pt) : Inv (L ++ [t]) (onePass s t) := by
  refine Or.inr ⟨maxInf s.qmax t.q, rfl, ?_, fun c => ?_⟩
  · rcases h with ⟨rfl, rfl⟩ | ⟨m, h1, h2, h3⟩
    · simp [Ring.onePass, Acc.init, maxInf, expDiff, mul_comm]
    · rw [List.map_append, List.sum_append, ← h2]
      simp only [Ring.onePass, h1, maxInf, expDiff, List.map_cons, List.map_nil, List.sum_cons, List.sum_nil, add_zero]
      rw [Real.exp_sub, Real.exp_sub]
      field_simp
      ring
  · rcases h with ⟨rfl, rfl⟩ | ⟨m, h1, h2, h3⟩
    · simp [Ring.onePass, Acc.init, maxInf, expDiff]
      ring
    · rw [List.map_append, List.sum_append, ← h3 c]
      simp only [Ring.onePass, h1, maxInf, expDiff, List.map_cons, List.map_nil, List.sum_cons, List.sum_nil, add_zero]
      rw [Real.exp_sub, Real.exp_sub]
      field_simp

theorem phaseMax_some (m : ℝ) (L : List Pt) : ∃ n, phaseMax (some m) L = some n := by
  induction L generalizing m with
  | nil => exact ⟨m, rfl⟩
  | cons t L ih => exact ih (maxInf (some m) t.q)

theorem phaseMax_cons (m : Option ℝ) (t : Pt) (L : List Pt) : ∃ n, phaseMax m (t :: L) = some n :=
  phaseMax_some (maxInf m t.q) L

theorem phaseRescale_inv {L : List Pt} {s : Acc} (h : Inv L s) (n : ℝ) :
    (phaseRescale s (some n)).qmax = some n ∧
      (phaseRescale s (some n)).alphaSum * Real.exp n = (L.map fun t => t.w * Real.exp t.q).sum ∧
      ∀ c, (phaseRescale s (some n)).y c * Real.exp n = (L.map fun t => t.w * Real.exp t.q * t.v c).sum := by
  unfold phaseRescale
  by_cases he : s.qmax = some n
  · rw [if_pos he]
    rcases h with ⟨rfl, rfl⟩ | ⟨m, h1, h2, h3⟩
    · simp [Acc.init] at he
    · rw [h1, Option.some.injEq] at he
      subst he
      exact ⟨h1, h2, h3⟩
  · rw [if_neg he]
    dsimp only
    rcases h with ⟨rfl, rfl⟩ | ⟨m, h1, h2, h3⟩
    · simp [Acc.init, expDiff]
    · refine ⟨rfl, ?_, fun c => ?_⟩
      · rw [← h2, h1]; simp only [expDiff, Real.exp_sub]; field_simp
      · rw [← h3 c, h1]; simp only [expDiff, Real.exp_sub]; field_simp

theorem foldl_phaseAdd {L L' : List Pt} {s : Acc} {n : ℝ} (h0 : s.qmax = some n)
    (h1 : s.alphaSum * Real.exp n = (L.map fun t => t.w * Real.exp t.q).sum)
    (h2 : ∀ c, s.y c * Real.exp n = (L.map fun t => t.w * Real.exp t.q * t.v c).sum) : Inv (L ++ L') (L'.foldl phaseAdd s) := by
  induction L' generalizing L s with
  | nil => exact Or.inr ⟨n, h0, by simpa using h1, by simpa using h2⟩
  | cons t L' ih =>
    rw [List.foldl_cons, show L ++ t :: L' = (L ++ [t]) ++ L' by simp]
    refine ih (s := phaseAdd s t) h0 ?_ fun c => ?_
    · rw [List.map_append, List.sum_append, ← h1]
      simp only [phaseAdd, h0, Option.getD_some, List.map_cons, List.map_nil, List.sum_cons, List.sum_nil, add_zero, Real.exp_sub]
      field_simp
    · rw [List.map_append, List.sum_append, ← h2 c]
      simp only [phaseAdd, h0, Option.getD_some, List.map_cons, List.map_nil, List.sum_cons, List.sum_nil, add_zero, Real.exp_sub]
      field_simp

/-- Maximum over `L1`, rescale, add `L3`. -/
theorem Inv.phases {L L1 L3 : List Pt} {s : Acc} (h : Inv L s) (hp : L1.Perm L3) :
    Inv (L ++ L3) (L3.foldl phaseAdd (phaseRescale s (phaseMax s.qmax L1))) := by
  cases L1 with
  | nil =>
    rw [List.nil_perm] at hp
    subst hp
    have : phaseRescale s (phaseMax s.qmax []) = s := by exact if_pos rfl
    rw [this]; simpa using h
  | cons t L1 =>
    obtain ⟨n, hn⟩ := phaseMax_cons s.qmax t L1
    rw [hn]
    obtain ⟨h0, h1, h2⟩ := phaseRescale_inv h n
    exact foldl_phaseAdd h0 h1 h2

theorem Inv.threePhase {L : List Pt} {s : Acc} (h : Inv L s) (L' : List Pt) : Inv (L ++ L') (threePhase s L') :=
  h.phases (List.Perm.refl L')

theorem Inv.avg {L : List Pt} {s : Acc} (h : Inv L s) (c : ℕ) :
    s.y c / s.alphaSum = (L.map fun t => t.w * Real.exp t.q * t.v c).sum / (L.map fun t => t.w * Real.exp t.q).sum := by
  rcases h with ⟨rfl, rfl⟩ | ⟨m, h1, h2, h3⟩
  · simp [Acc.init]
  · rw [← h2, ← h3 c, mul_div_mul_right _ _ (Real.exp_ne_zero m)]

/-- The points that one launch visits for an output point. -/
def chunkPts (psi : Pattern) (w : ℕ → ℝ) (nlonIn pscale lonLo : ℕ) (start : ℤ) (k v q : RTen) (b ho wo : ℕ) : List Pt :=
  ((psi.row ho).filterMap (gatherHit psi nlonIn pscale lonLo start k wo)).map (loadPt w k v q b ho wo)

theorem Inv.gatherCell {L : List Pt} {s : Acc} (h : Inv L s) (psi : Pattern) (w : ℕ → ℝ) (nlonIn pscale lonLo : ℕ) (start : ℤ) (long : Bool)
    (k v q : RTen) (b ho wo : ℕ) :
    Inv (L ++ chunkPts psi w nlonIn pscale lonLo start k v q b ho wo)
      (gatherCell psi w nlonIn pscale lonLo start long k v q b ho wo s) := by
  unfold Ring.gatherCell chunkPts
  cases long with
  | true => rw [if_pos rfl]; exact h.threePhase _
  | false =>
    rw [if_neg (by simp)]
    generalize psi.row ho = R
    induction R generalizing L s with
    | nil => simpa using h
    | cons z R ih =>
      rw [List.foldl_cons]
      cases hz : gatherHit psi nlonIn pscale lonLo start k wo z with
      | none => rw [List.filterMap_cons_none hz]; exact ih h
      | some t =>
        rw [List.filterMap_cons_some hz, List.map_cons]
        have := ih (h.onePass (loadPt w k v q b ho wo t))
        simpa using this

/-! ### Sums over the chunks of a ring -/

theorem list_sum_single {ι : Type} {L : List ι} {f : ι → ℝ} {x : ℝ} (n : ℕ) (g : ℕ → ι) (hL : L = (List.range n).map g) (s0 : ℕ) (hs : s0 < n)
    (h1 : f (g s0) = x) (h2 : ∀ s < n, s ≠ s0 → f (g s) = 0) : (L.map f).sum = x := by
  rw [hL, List.map_map, list_sum_range, Finset.sum_eq_single s0]
  · exact h1
  · intro s hs' hne; exact h2 s (Finset.mem_range.1 hs') hne
  · intro h; exact absurd (Finset.mem_range.2 hs) h

/-- The rounds of the ring visit every chunk once. -/
theorem ring_sum {Pa a : ℕ} (ha : a < Pa) (f : ℕ → ℝ) : ∑ s ∈ range Pa, f ((a + s) % Pa) = ∑ s ∈ range Pa, f s := by
  refine Finset.sum_bij (fun s _ => (a + s) % Pa) ?_ ?_ ?_ ?_
  · intro s _; exact Finset.mem_range.2 (Nat.mod_lt _ (by omega))
  · intro s hs t ht h
    have hs' := Finset.mem_range.1 hs
    have ht' := Finset.mem_range.1 ht
    have h' : (a + s) ≡ (a + t) [MOD Pa] := h
    have := Nat.ModEq.add_left_cancel' a h'
    unfold Nat.ModEq at this
    rwa [Nat.mod_eq_of_lt hs', Nat.mod_eq_of_lt ht'] at this
  · intro t ht
    have ht' := Finset.mem_range.1 ht
    by_cases h : a ≤ t
    · refine ⟨t - a, Finset.mem_range.2 (by omega), ?_⟩
      rw [show a + (t - a) = t by omega, Nat.mod_eq_of_lt ht']
    · refine ⟨t + Pa - a, Finset.mem_range.2 (by omega), ?_⟩
      rw [show a + (t + Pa - a) = t + Pa by omega, Nat.add_mod_right, Nat.mod_eq_of_lt ht']
  · intro s _; rfl

theorem list_sum_filterMap {ι κ : Type} (L : List ι) (g : ι → Option κ) (f : κ → ℝ) :
    ((L.filterMap g).map f).sum = (L.map fun i => (g i).elim 0 f).sum := by
  induction L with
  | nil => simp
  | cons i L ih =>
    cases h : g i with
    | none => rw [List.filterMap_cons_none h]; simp [h, ih]
    | some t => rw [List.filterMap_cons_some h]; simp [h, ih]

/-- If every entry is hit in exactly one chunk, the sums over the chunks add up to the sum over the entries. -/
theorem chunk_sum {ι κ : Type} (Pa : ℕ) (R : List ι) (hit : ℕ → ι → Option κ) (F : ℕ → κ → ℝ) (G : ι → ℝ)
    (h : ∀ z ∈ R, ∃ s0 < Pa, (∃ t, hit s0 z = some t ∧ F s0 t = G z) ∧ ∀ s < Pa, s ≠ s0 → hit s z = none) :
    ∑ s ∈ range Pa, ((R.filterMap (hit s)).map (F s)).sum = (R.map G).sum := by
  simp only [list_sum_filterMap]
  rw [← list_finset_comm]
  refine list_sum_congr fun z hz => ?_
  obtain ⟨s0, h0, ⟨t, ht, hF⟩, hn⟩ := h z hz
  rw [Finset.sum_eq_single s0]
  · rw [ht]; exact hF
  · intro s hs hne; rw [hn s (Finset.mem_range.1 hs) hne]; rfl
  · intro h'; exact absurd (Finset.mem_range.2 h0) h'

/-! ### The halo -/

theorem foldl_min_le (L : List ℕ) (m : ℕ) : L.foldl min m ≤ m ∧ ∀ x ∈ L, L.foldl min m ≤ x := by
  induction L generalizing m with
  | nil => simp
  | cons a L ih =>
    obtain ⟨h1, h2⟩ := ih (min m a)
    rw [List.foldl_cons]
    refine ⟨by omega, fun x hx => ?_⟩
    rcases List.mem_cons.1 hx with rfl | hx
    · omega
    · exact h2 x hx

theorem le_foldl_nmax {ι : Type} (L : List ι) (f : ι → ℕ) (m : ℕ) :
    m ≤ L.foldl (fun m i => max m (f i)) m ∧ ∀ x ∈ L, f x ≤ L.foldl (fun m i => max m (f i)) m := by
  induction L generalizing m with
  | nil => simp
  | cons a L ih =>
    obtain ⟨h1, h2⟩ := ih (max m (f a))
    rw [List.foldl_cons]
    refine ⟨by omega, fun x hx => ?_⟩
    rcases List.mem_cons.1 hx with rfl | hx
    · omega
    · exact h2 x hx

theorem foldl_nmax_le {ι : Type} (L : List ι) (f : ι → ℕ) (m B : ℕ) (h0 : m ≤ B) (h : ∀ x ∈ L, f x ≤ B) :
    L.foldl (fun m i => max m (f i)) m ≤ B := by
  induction L generalizing m with
  | nil => exact h0
  | cons a L ih =>
    rw [List.foldl_cons]
    exact ih _ (max_le h0 (h a List.mem_cons_self)) fun x hx => h x (List.mem_cons_of_mem _ hx)

theorem minOf_le {L : List ℕ} {x : ℕ} (hx : x ∈ L) : minOf L ≤ x := (foldl_min_le L _).2 x hx

theorem le_maxOf {L : List ℕ} {x : ℕ} (hx : x ∈ L) : x ≤ maxOf L := (le_foldl_nmax L (fun i => i) _).2 x hx

theorem le_minOf {L : List ℕ} (hL : L ≠ []) {m : ℕ} (h : ∀ x ∈ L, m ≤ x) : m ≤ minOf L := by
  unfold minOf
  have : ∀ (L : List ℕ) (k : ℕ), m ≤ k → (∀ x ∈ L, m ≤ x) → m ≤ L.foldl min k := by
    intro L
    induction L with
    | nil => intro k h _; exact h
    | cons a L ih =>
      intro k hk h'
      exact ih _ (le_min hk (h' a List.mem_cons_self)) fun x hx => h' x (List.mem_cons_of_mem _ hx)
  cases L with
  | nil => exact absurd rfl hL
  | cons a L => exact this _ _ (h a List.mem_cons_self) h

theorem maxOf_le {L : List ℕ} (hL : L ≠ []) {m : ℕ} (h : ∀ x ∈ L, x ≤ m) : maxOf L ≤ m := by
  cases L with
  | nil => exact absurd rfl hL
  | cons a L => exact foldl_nmax_le _ (fun i => i) _ _ (h a List.mem_cons_self) h

/-- The overhang is the least margin that contains all rows. -/
theorem overhang_le_iff (lo hi : ℕ) (L : List ℕ) (r : ℕ) : overhang lo hi L ≤ r ↔ ∀ x ∈ L, lo ≤ x + r ∧ x < hi + r := by
  unfold overhang
  by_cases h : L = []
  · simp [h]
  · rw [if_neg h]
    constructor
    · intro h' x hx
      have h1 := minOf_le hx
      have h2 := le_maxOf hx
      omega
    · intro h'
      have h1 : lo - r ≤ minOf L := le_minOf h fun x hx => by have := h' x hx; omega
      have h2 : maxOf L ≤ hi + r - 1 := maxOf_le h fun x hx => by have := h' x hx; omega
      have h3 : 0 < hi + r := by
        obtain ⟨x, hx⟩ := List.exists_mem_of_ne_nil L h
        have := h' x hx; omega
      omega

theorem maxOverhang_le_iff (Pp : ℕ) (latIn : List ℕ) (his : ℕ → List ℕ) (r : ℕ) : maxOverhang Pp latIn his ≤ r ↔
    ∀ p < Pp, ∀ x ∈ his p, offset latIn p ≤ x + r ∧ x < offset latIn p + latIn.getD p 0 + r := by
  unfold maxOverhang
  constructor
  · intro h p hp
    rw [← overhang_le_iff]
    exact le_trans ((le_foldl_nmax (List.range Pp) (fun p => overhang (offset latIn p) (offset latIn p + latIn.getD p 0) (his p)) 0).2 p
      (List.mem_range.2 hp)) h
  · intro h
    refine foldl_nmax_le _ (fun p => overhang (offset latIn p) (offset latIn p + latIn.getD p 0) (his p)) _ _ (Nat.zero_le _) ?_
    intro p hp
    rw [overhang_le_iff]
    exact h p (List.mem_range.1 hp)

/-- A tile with `r` more rows on each side; rows outside of the grid are arbitrary. -/
structure HaloTile (B C n1 n2 Pp Pa r : ℕ) (X : T4) (p a : ℕ) (x : RTen) : Prop where
  B_eq : x.B = B
  C_eq : x.C = C
  H_eq : x.H = blockSize n1 Pp p + 2 * r
  W_eq : x.W = blockSize n2 Pa a
  val_eq : ∀ b < B, ∀ c < C, ∀ h < blockSize n1 Pp p + 2 * r, ∀ w < blockSize n2 Pa a, ∀ row < n1, row + r = blockStart n1 Pp p + h →
    x.val b c h w = X b c row (blockStart n2 Pa a + w)

theorem haloPad_ok {B C n1 n2 Pp Pa r : ℕ} (hPp : 0 < Pp) {X : T4} {x : ℕ → ℕ → RTen}
    (hx : ∀ p < Pp, ∀ a < Pa, Tile B C n1 n2 Pp Pa X p a (x p a)) (hr1 : Pp = 1 → r = 0) (hr : 0 < r → ∀ p < Pp, r ≤ blockSize n1 Pp p)
    {p a : ℕ} (hp : p < Pp) (ha : a < Pa) : ∃ y, haloPad Pp r x p a = .ok y ∧ HaloTile B C n1 n2 Pp Pa r X p a y := by
  unfold haloPad
  by_cases h : r > 0 ∧ Pp > 1
  · rw [if_pos h]
    obtain ⟨y, hy, hl, ht, hm, hb⟩ := Props.halo_value Pp (fun s => (x s a).viewLat) r h.1
      (fun s hs => by show r ≤ (x s a).H; rw [(hx s hs a ha).H_eq]; exact hr h.1 s hs) p hp
    rw [hy]
    have hH : ∀ s < Pp, (x s a).viewLat.len = blockSize n1 Pp s := fun s hs => (hx s hs a ha).H_eq
    rw [hH p hp] at hl hm hb
    refine ⟨_, rfl, (hx p hp a ha).B_eq, (hx p hp a ha).C_eq, by show y.len = _; omega, (hx p hp a ha).W_eq, ?_⟩
    intro b hb' c hc h' hh w hw row hrow hrw
    dsimp only
    have hstart := blockStart_succ n1 Pp p
    rcases Nat.lt_or_ge h' r with h1 | h1
    · have e := ht h' h1
      have hp0 : 0 < p := by
        by_contra h0
        have : p = 0 := by omega
        subst this
        simp [blockStart] at hrw
        omega
      rw [if_pos hp0, hH (p - 1) (by omega)] at e
      rw [e]
      have hprev := blockStart_succ n1 Pp (p - 1)
      rw [show p - 1 + 1 = p by omega] at hprev
      have hsz := hr h.1 (p - 1) (by omega)
      show (x (p - 1) a).val b c (blockSize n1 Pp (p - 1) - r + h') w = _
      rw [(hx (p - 1) (by omega) a ha).val_eq b hb' c hc _ (by omega) w hw]
      congr 1; omega
    · rcases Nat.lt_or_ge h' (r + blockSize n1 Pp p) with h2 | h2
      · have e := hm (h' - r) (by omega)
        rw [show r + (h' - r) = h' by omega] at e
        rw [e]
        show (x p a).val b c (h' - r) w = _
        rw [(hx p hp a ha).val_eq b hb' c hc _ (by omega) w hw]
        congr 1; omega
      · have e := hb (h' - r - blockSize n1 Pp p) (by omega)
        rw [show r + blockSize n1 Pp p + (h' - r - blockSize n1 Pp p) = h' by omega] at e
        have hpl : p + 1 < Pp := by
          by_contra h0
          have : p + 1 = Pp := by omega
          rw [this, blockStart_last hPp] at hstart
          omega
        rw [if_pos hpl] at e
        rw [e]
        have hsz := hr h.1 (p + 1) hpl
        show (x (p + 1) a).val b c (h' - r - blockSize n1 Pp p) w = _
        rw [(hx (p + 1) hpl a ha).val_eq b hb' c hc _ (by omega) w hw]
        congr 1; omega
  · rw [if_neg h]
    have hr0 : r = 0 := by
      by_contra h0
      exact h ⟨by omega, by by_contra h1; exact h0 (hr1 (by omega))⟩
    subst hr0
    obtain ⟨h1, h2, h3, h4, h5⟩ := hx p hp a ha
    refine ⟨_, rfl, h1, h2, by rw [h3]; rfl, h4, ?_⟩
    intro b hb' c hc h' hh w hw row hrow hrw
    rw [h5 b hb' c hc h' hh w hw]
    congr 1; omega

end Verif.Ring
