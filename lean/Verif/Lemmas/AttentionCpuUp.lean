import Verif.Lemmas.AttentionCpuBwd
/-! The CPU attention backward kernel (upsampling direction) computes the gradient formulas. -/
namespace Verif.Attn
open Verif Verif.Spec.Attn Finset

/-- All entries that reach an output cell, in the order of the scan. -/
def cellEdges (d : Dims) (P : Pattern) (ho wo : ℕ) : List (ℕ × ℕ × ℕ) :=
  (List.range d.nlatIn).flatMap fun hi => (P.row hi).flatMap fun z =>
    if P.col z / d.nlonOut = ho then
      (upBwdMatch d.nlonOut (d.nlonOut / d.nlonIn) (P.col z % d.nlonOut) wo).elim [] (fun wi => [(hi, wi, z)]) else []

theorem upCellLoop_eq {σ : Type} (d : Dims) (P : Pattern) (ho wo : ℕ) (body : σ → ℕ → ℕ → ℕ → σ) (s : σ) :
    upCellLoop d P ho wo body s = (cellEdges d P ho wo).foldl (fun s e => body s e.1 e.2.1 e.2.2) s := by
  unfold upCellLoop cellEdges
  rw [List.foldl_flatMap]
  congr 1
  funext s hi
  rw [List.foldl_flatMap]
  congr 1
  funext s z
  by_cases h : P.col z / d.nlonOut = ho
  · rw [if_neg (not_not.2 h), if_pos h]
    cases upBwdMatch d.nlonOut (d.nlonOut / d.nlonIn) (P.col z % d.nlonOut) wo <;> rfl
  · rw [if_pos h, if_neg h]; rfl

theorem pscale_facts {d : Dims} (hdiv : d.nlonOut % d.nlonIn = 0) (hout : 0 < d.nlonOut) :
    d.nlonOut = d.nlonOut / d.nlonIn * d.nlonIn ∧ 0 < d.nlonOut / d.nlonIn := by
  have hmul : d.nlonOut = d.nlonOut / d.nlonIn * d.nlonIn := (Nat.div_mul_cancel (Nat.dvd_of_mod_eq_zero hdiv)).symm
  refine ⟨hmul, ?_⟩
  rcases Nat.eq_zero_or_pos (d.nlonOut / d.nlonIn) with h | h
  · rw [h, zero_mul] at hmul; omega
  · exact h

theorem mem_cellEdges {d : Dims} {P : Pattern} {ho wo hi wi z : ℕ} (hdiv : d.nlonOut % d.nlonIn = 0) (hwo : wo < d.nlonOut) :
    (hi, wi, z) ∈ cellEdges d P ho wo ↔ hi < d.nlatIn ∧ z ∈ P.row hi ∧ wi < d.nlonIn ∧
      outOf P d.nlonOut (d.nlonOut / d.nlonIn) wi z = (ho, wo) := by
  obtain ⟨hmul, hps⟩ := pscale_facts hdiv (by omega)
  have hm : ∀ z wi, (hi, wi, z) ∈ (upBwdMatch d.nlonOut (d.nlonOut / d.nlonIn) (P.col z % d.nlonOut) wo).elim []
      (fun wi => [(hi, wi, z)]) ↔ wi < d.nlonIn ∧ (P.col z % d.nlonOut + d.nlonOut / d.nlonIn * wi) % d.nlonOut = wo := by
    intro z wi
    rw [upBwdMatch_eq (Nat.mod_lt _ (by omega)) hwo, ← upMatch_iff hmul hps (Nat.mod_lt _ (by omega)) hwo]
    cases upMatch d.nlonOut (d.nlonOut / d.nlonIn) (P.col z % d.nlonOut) wo with
    | none => simp
    | some x => simp [eq_comm]
  have hshape : ∀ hi' z', (hi, wi, z) ∈ (upBwdMatch d.nlonOut (d.nlonOut / d.nlonIn) (P.col z' % d.nlonOut) wo).elim []
      (fun wi => [(hi', wi, z')]) → hi' = hi ∧ z' = z := by
    intro hi' z' h
    cases hx : upBwdMatch d.nlonOut (d.nlonOut / d.nlonIn) (P.col z' % d.nlonOut) wo with
    | none => rw [hx] at h; simp at h
    | some x => rw [hx] at h; simp at h; exact ⟨h.1.symm, h.2.2.symm⟩
  unfold cellEdges outOf
  simp only [List.mem_flatMap, List.mem_range, Prod.mk.injEq]
  constructor
  · rintro ⟨hi', h1, z', h2, h3⟩
    split_ifs at h3 with h4
    · obtain ⟨rfl, rfl⟩ := hshape hi' z' h3
      obtain ⟨h5, h6⟩ := (hm z' wi).1 h3
      exact ⟨h1, h2, h5, h4, h6⟩
    · simp at h3
  · rintro ⟨h1, h2, h3, h4, h5⟩
    refine ⟨hi, h1, z, h2, ?_⟩
    rw [if_pos h4]
    exact (hm z wi).2 ⟨h3, h5⟩

theorem cellEdges_sum {d : Dims} {P : Pattern} {ho wo : ℕ} (hdiv : d.nlonOut % d.nlonIn = 0) (hwo : wo < d.nlonOut) (g : ℕ × ℕ → ℝ) :
    ((cellEdges d P ho wo).map fun e => g (e.1, e.2.1)).sum
      = ((scatterNbrs P d.nlatIn d.nlonIn d.nlonOut (d.nlonOut / d.nlonIn) ho wo).map g).sum := by
  obtain ⟨hmul, hps⟩ := pscale_facts hdiv (by omega)
  rw [scatter_sum_match P hmul hps hwo ho]
  unfold cellEdges
  rw [list_sum_flatMap, list_sum_range]
  refine Finset.sum_congr rfl fun hi _ => ?_
  rw [list_sum_flatMap]
  refine list_sum_congr fun z _ => ?_
  split_ifs with h
  · rw [upBwdMatch_eq (Nat.mod_lt _ (by omega)) hwo]
    cases upMatch d.nlonOut (d.nlonOut / d.nlonIn) (P.col z % d.nlonOut) wo <;> simp
  · simp

/-- A loop whose body looks up, at its own counter, what an earlier loop over the same list has stored. -/
theorem foldl_indexed {σ ι : Type} (f f' : σ → ι → σ) (cnt : σ → ℕ) (E : List ι)
    (h : ∀ s k (hk : k < E.length), cnt s = k → f s E[k] = f' s E[k] ∧ cnt (f' s E[k]) = k + 1) (s : σ) (hs : cnt s = 0) :
    E.foldl f s = E.foldl f' s := by
  suffices H : ∀ n s, cnt s = n → (E.drop n).foldl f s = (E.drop n).foldl f' s by simpa using H 0 s hs
  intro n
  induction hm : E.length - n generalizing n with
  | zero => intro s _; rw [List.drop_eq_nil_of_le (by omega)]; rfl
  | succ m ih =>
    intro s hs
    have hn : n < E.length := by omega
    rw [List.drop_eq_getElem_cons hn, List.foldl_cons, List.foldl_cons, (h s n hn hs).1]
    exact ih (n + 1) (by omega) _ (h s n hn hs).2

theorem pass1_local {ι : Type} (E : List ι) (sc : ι → ℝ) (l0 : ℕ → ℝ) (m0 : ℝ) :
    let r := E.foldl (fun (s : (ℕ → ℝ) × ℕ × ℝ) e => (Function.update s.1 s.2.1 (sc e), s.2.1 + 1, max s.2.2 (sc e))) (l0, 0, m0)
    r.2.1 = E.length ∧ ∀ k (hk : k < E.length), r.1 k = sc E[k] := by
  induction E using List.reverseRecOn with
  | nil => simp
  | append_singleton E a ih =>
    obtain ⟨h1, h2⟩ := ih
    dsimp only at h1 h2 ⊢
    rw [List.foldl_append, List.foldl_cons, List.foldl_nil]
    dsimp only
    refine ⟨by rw [h1]; simp, fun k hk => ?_⟩
    rw [h1]
    by_cases hk' : k = E.length
    · subst hk'
      rw [Function.update_self]
      simp
    · have : k < E.length := by simp at hk; omega
      rw [Function.update_of_ne hk', h2 k this, List.getElem_append_left this]

theorem upNzOff_inj {d : Dims} {P : Pattern} {b hi l wi b' hi' l' wi' : ℕ} (h1 : hi < d.nlatIn) (h2 : l < maxNnz P d.nlatIn)
    (h3 : wi < d.nlonIn) (h1' : hi' < d.nlatIn) (h2' : l' < maxNnz P d.nlatIn) (h3' : wi' < d.nlonIn)
    (h : upNzOff d P b hi l wi = upNzOff d P b' hi' l' wi') : b = b' ∧ hi = hi' ∧ l = l' ∧ wi = wi' := by
  unfold upNzOff at h
  obtain ⟨e1, e2⟩ := mulAdd_inj h h3 h3'
  obtain ⟨e3, e4⟩ := mulAdd_inj e1 h2 h2'
  obtain ⟨e5, e6⟩ := mulAdd_inj e3 h1 h1'
  exact ⟨e5, e6, e4, e2⟩

/-- The location of an entry. -/
def eOff (d : Dims) (P : Pattern) (b : ℕ) (e : ℕ × ℕ × ℕ) : ℕ := upNzOff d P b e.1 (e.2.2 - P.roff e.1) e.2.1

theorem eOff_inj {d : Dims} {P : Pattern} {b b' : ℕ} {e e' : ℕ × ℕ × ℕ} (h1 : e.1 < d.nlatIn) (h2 : e.2.2 ∈ P.row e.1)
    (h3 : e.2.1 < d.nlonIn) (h1' : e'.1 < d.nlatIn) (h2' : e'.2.2 ∈ P.row e'.1) (h3' : e'.2.1 < d.nlonIn)
    (h : eOff d P b e = eOff d P b' e') : b = b' ∧ e = e' := by
  obtain ⟨e1, e2, e3, e4⟩ := upNzOff_inj h1 ((row_loc h2).2.trans_le (maxNnz_ge P h1)) h3 h1'
    ((row_loc h2').2.trans_le (maxNnz_ge P h1')) h3' h
  refine ⟨e1, Prod.ext e2 (Prod.ext e4 ?_)⟩
  have r1 := row_loc h2
  have r2 := row_loc h2'
  rw [e2] at r1 e3
  omega

section
variable (d : Dims) (w : ℕ → ℝ) (P : Pattern) (k v q dy : T4) (fmin : ℝ) (loc : ℕ × ℕ × ℕ → ℕ → ℝ)

noncomputable def upMx (t : ℕ × ℕ × ℕ) : ℝ := (upBwdPass1 d P k q fmin (loc t) t.1 t.2.1 t.2.2).2.2

noncomputable def upAl (t : ℕ × ℕ × ℕ) (p : ℕ × ℕ) : ℝ :=
  Real.exp (score d.Ck (nchw k) (nchw q) t.1 t.2.1 t.2.2 p - upMx d P k q fmin loc t) * w p.1

def upGd (t : ℕ × ℕ × ℕ) (p : ℕ × ℕ) : ℝ := gdot d.Cv (nchw v) (nchw dy) t.1 t.2.1 t.2.2 p

/-- Phase A with the stored scores replaced by the scores. -/
noncomputable def upBodyA (t : ℕ × ℕ × ℕ) (s : Pass2) (e : ℕ × ℕ × ℕ) : Pass2 :=
  ⟨{ s.bufs with
      alphaNz := Function.update s.bufs.alphaNz (eOff d P t.1 e) (upAl d w P k q fmin loc t (e.1, e.2.1))
      gdotvNz := Function.update s.bufs.gdotvNz (eOff d P t.1 e) (upGd d v dy t (e.1, e.2.1)) },
   s.asum + upAl d w P k q fmin loc t (e.1, e.2.1),
   s.ag + upAl d w P k q fmin loc t (e.1, e.2.1) * upGd d v dy t (e.1, e.2.1), s.matchIdx + 1⟩

theorem upBwdPhaseA_eq (B : Bufs) (t : ℕ × ℕ × ℕ) :
    upBwdPhaseA d w P k v q dy fmin loc B t =
      let r := (cellEdges d P t.2.1 t.2.2).foldl (upBodyA d w P k v q dy fmin loc t) ⟨B, 0, 0, 0⟩
      { r.bufs with
        alphaSum := Function.update r.bufs.alphaSum (scOff d t.1 t.2.1 t.2.2) r.asum
        alphaGdotv := Function.update r.bufs.alphaGdotv (scOff d t.1 t.2.1 t.2.2) r.ag } := by
  have hloc := (pass1_local (cellEdges d P t.2.1 t.2.2)
    (fun e => dotN d.Ck q k t.1 t.2.1 t.2.2 e.1 e.2.1) (loc t) fmin).2
  have hp1 : upBwdPass1 d P k q fmin (loc t) t.1 t.2.1 t.2.2 = (cellEdges d P t.2.1 t.2.2).foldl
      (fun (s : (ℕ → ℝ) × ℕ × ℝ) e => (Function.update s.1 s.2.1 (dotN d.Ck q k t.1 t.2.1 t.2.2 e.1 e.2.1), s.2.1 + 1,
        max s.2.2 (dotN d.Ck q k t.1 t.2.1 t.2.2 e.1 e.2.1))) (loc t, 0, fmin) := by
    unfold upBwdPass1; rw [upCellLoop_eq]
  unfold upBwdPhaseA
  dsimp only
  rw [upCellLoop_eq, foldl_indexed _ (upBodyA d w P k v q dy fmin loc t) Pass2.matchIdx (cellEdges d P t.2.1 t.2.2) _ ⟨B, 0, 0, 0⟩ rfl]
  intro s n hn hs
  refine ⟨?_, by unfold upBodyA; dsimp only; rw [hs]⟩
  have hl := hloc n hn
  rw [← hp1] at hl
  rw [hs, hl]
  unfold upBodyA
  rw [hs]
  rfl

theorem upBwdPhaseA_writes (hdiv : d.nlonOut % d.nlonIn = 0) (B : Bufs) (t : ℕ × ℕ × ℕ) (ht : t.2.2 < d.nlonOut) :
    let B' := upBwdPhaseA d w P k v q dy fmin loc B t
    (∀ e ∈ cellEdges d P t.2.1 t.2.2, B'.alphaNz (eOff d P t.1 e) = upAl d w P k q fmin loc t (e.1, e.2.1) ∧
      B'.gdotvNz (eOff d P t.1 e) = upGd d v dy t (e.1, e.2.1)) ∧
    B'.alphaSum (scOff d t.1 t.2.1 t.2.2) = ((cellEdges d P t.2.1 t.2.2).map fun e => upAl d w P k q fmin loc t (e.1, e.2.1)).sum ∧
    B'.alphaGdotv (scOff d t.1 t.2.1 t.2.2) = ((cellEdges d P t.2.1 t.2.2).map fun e =>
      upAl d w P k q fmin loc t (e.1, e.2.1) * upGd d v dy t (e.1, e.2.1)).sum := by
  have hinj : ∀ e ∈ cellEdges d P t.2.1 t.2.2, ∀ e' ∈ cellEdges d P t.2.1 t.2.2, e' ≠ e → eOff d P t.1 e ≠ eOff d P t.1 e' := by
    intro e he e' he' hne h
    obtain ⟨a1, a2, a3, _⟩ := (mem_cellEdges hdiv ht).1 he
    obtain ⟨b1, b2, b3, _⟩ := (mem_cellEdges hdiv ht).1 he'
    exact hne (eOff_inj a1 a2 a3 b1 b2 b3 h).2.symm
  rw [upBwdPhaseA_eq]
  refine ⟨fun e he => ⟨?_, ?_⟩, ?_, ?_⟩
  · refine foldl_write (fun s : Pass2 => s.bufs.alphaNz (eOff d P t.1 e)) _ (fun e' => e' = e) _ _
      (fun s e' _ h => ?_) (fun s e' he' h => ?_) ⟨e, he, rfl⟩ _
    · subst h; unfold upBodyA; dsimp only; rw [Function.update_self]
    · unfold upBodyA; dsimp only; rw [Function.update_of_ne (hinj e he e' he' h)]
  · refine foldl_write (fun s : Pass2 => s.bufs.gdotvNz (eOff d P t.1 e)) _ (fun e' => e' = e) _ _
      (fun s e' _ h => ?_) (fun s e' he' h => ?_) ⟨e, he, rfl⟩ _
    · subst h; unfold upBodyA; dsimp only; rw [Function.update_self]
    · unfold upBodyA; dsimp only; rw [Function.update_of_ne (hinj e he e' he' h)]
  · dsimp only
    rw [Function.update_self, foldl_ev (fun s : Pass2 => s.asum) _ (fun e => upAl d w P k q fmin loc t (e.1, e.2.1)) _
      (fun s e _ => rfl), zero_add]
  · dsimp only
    rw [Function.update_self, foldl_ev (fun s : Pass2 => s.ag) _ (fun e => upAl d w P k q fmin loc t (e.1, e.2.1) *
      upGd d v dy t (e.1, e.2.1)) _ (fun s e _ => rfl), zero_add]

theorem upBwdPhaseA_keeps (B : Bufs) (t : ℕ × ℕ × ℕ) :
    let B' := upBwdPhaseA d w P k v q dy fmin loc B t
    (∀ i, (∀ e ∈ cellEdges d P t.2.1 t.2.2, i ≠ eOff d P t.1 e) → B'.alphaNz i = B.alphaNz i ∧ B'.gdotvNz i = B.gdotvNz i) ∧
    (∀ i, i ≠ scOff d t.1 t.2.1 t.2.2 → B'.alphaSum i = B.alphaSum i ∧ B'.alphaGdotv i = B.alphaGdotv i) := by
  rw [upBwdPhaseA_eq]
  refine ⟨fun i hi => ⟨?_, ?_⟩, fun i hi => ⟨?_, ?_⟩⟩
  · refine foldl_keep (fun s : Pass2 => s.bufs.alphaNz i) _ _ (fun s e he => ?_) _
    unfold upBodyA; dsimp only; rw [Function.update_of_ne (hi e he)]
  · refine foldl_keep (fun s : Pass2 => s.bufs.gdotvNz i) _ _ (fun s e he => ?_) _
    unfold upBodyA; dsimp only; rw [Function.update_of_ne (hi e he)]
  · dsimp only
    rw [Function.update_of_ne hi]
    refine foldl_keep (fun s : Pass2 => s.bufs.alphaSum i) _ _ ?_ _
    intro s e _; rfl
  · dsimp only
    rw [Function.update_of_ne hi]
    refine foldl_keep (fun s : Pass2 => s.bufs.alphaGdotv i) _ _ ?_ _
    intro s e _; rfl

theorem upPhaseA_bufs (hdiv : d.nlonOut % d.nlonIn = 0) (orderA : List (ℕ × ℕ × ℕ))
    (hA : ∀ t ∈ orderA, t.2.1 < d.nlatOut ∧ t.2.2 < d.nlonOut) (B0 : Bufs) (t : ℕ × ℕ × ℕ) (ht : t ∈ orderA) :
    let B := orderA.foldl (upBwdPhaseA d w P k v q dy fmin loc) B0
    (∀ e ∈ cellEdges d P t.2.1 t.2.2, B.alphaNz (eOff d P t.1 e) = upAl d w P k q fmin loc t (e.1, e.2.1) ∧
      B.gdotvNz (eOff d P t.1 e) = upGd d v dy t (e.1, e.2.1)) ∧
    B.alphaSum (scOff d t.1 t.2.1 t.2.2) = ((cellEdges d P t.2.1 t.2.2).map fun e => upAl d w P k q fmin loc t (e.1, e.2.1)).sum ∧
    B.alphaGdotv (scOff d t.1 t.2.1 t.2.2) = ((cellEdges d P t.2.1 t.2.2).map fun e =>
      upAl d w P k q fmin loc t (e.1, e.2.1) * upGd d v dy t (e.1, e.2.1)).sum := by
  have hne : ∀ t' ∈ orderA, t' ≠ t → ∀ e ∈ cellEdges d P t.2.1 t.2.2, ∀ e' ∈ cellEdges d P t'.2.1 t'.2.2,
      eOff d P t.1 e ≠ eOff d P t'.1 e' := by
    intro t' ht' hne e he e' he' h
    obtain ⟨a1, a2, a3, a4⟩ := (mem_cellEdges hdiv (hA t ht).2).1 he
    obtain ⟨b1, b2, b3, b4⟩ := (mem_cellEdges hdiv (hA t' ht').2).1 he'
    obtain ⟨c1, c2⟩ := eOff_inj a1 a2 a3 b1 b2 b3 h
    subst c2
    rw [a4] at b4
    exact hne (Prod.ext c1.symm b4.symm)
  have hne' : ∀ t' ∈ orderA, t' ≠ t → scOff d t.1 t.2.1 t.2.2 ≠ scOff d t'.1 t'.2.1 t'.2.2 := by
    intro t' ht' hne e
    have := scOff_inj (hA t ht).1 (hA t ht).2 (hA t' ht').1 (hA t' ht').2 e
    exact hne (Prod.ext this.1.symm (Prod.ext this.2.1.symm this.2.2.symm))
  refine ⟨fun e he => ⟨?_, ?_⟩, ?_, ?_⟩
  · refine foldl_write (fun B : Bufs => B.alphaNz (eOff d P t.1 e)) _ (fun t' => t' = t) _ _
      (fun s t' ht' h => ?_) (fun s t' ht' h => ?_) ⟨t, ht, rfl⟩ _
    · subst h; exact ((upBwdPhaseA_writes d w P k v q dy fmin loc hdiv s t' (hA t' ht').2).1 e he).1
    · exact ((upBwdPhaseA_keeps d w P k v q dy fmin loc s t').1 _ (hne t' ht' h e he)).1
  · refine foldl_write (fun B : Bufs => B.gdotvNz (eOff d P t.1 e)) _ (fun t' => t' = t) _ _
      (fun s t' ht' h => ?_) (fun s t' ht' h => ?_) ⟨t, ht, rfl⟩ _
    · subst h; exact ((upBwdPhaseA_writes d w P k v q dy fmin loc hdiv s t' (hA t' ht').2).1 e he).2
    · exact ((upBwdPhaseA_keeps d w P k v q dy fmin loc s t').1 _ (hne t' ht' h e he)).2
  · refine foldl_write (fun B : Bufs => B.alphaSum (scOff d t.1 t.2.1 t.2.2)) _ (fun t' => t' = t) _ _
      (fun s t' ht' h => ?_) (fun s t' ht' h => ?_) ⟨t, ht, rfl⟩ _
    · subst h; exact (upBwdPhaseA_writes d w P k v q dy fmin loc hdiv s t' (hA t' ht').2).2.1
    · exact ((upBwdPhaseA_keeps d w P k v q dy fmin loc s t').2 _ (hne' t' ht' h)).1
  · refine foldl_write (fun B : Bufs => B.alphaGdotv (scOff d t.1 t.2.1 t.2.2)) _ (fun t' => t' = t) _ _
      (fun s t' ht' h => ?_) (fun s t' ht' h => ?_) ⟨t, ht, rfl⟩ _
    · subst h; exact (upBwdPhaseA_writes d w P k v q dy fmin loc hdiv s t' (hA t' ht').2).2.2
    · exact ((upBwdPhaseA_keeps d w P k v q dy fmin loc s t').2 _ (hne' t' ht' h)).2

/-- The neighbourhoods of the upsampling direction. -/
abbrev upNb : ℕ → ℕ → List (ℕ × ℕ) := scatterNbrs P d.nlatIn d.nlonIn d.nlonOut (d.nlonOut / d.nlonIn)

/-- The buffers hold softmax probabilities. -/
def GoodUp (B : Bufs) : Prop := ∀ b < d.B, ∀ hi < d.nlatIn, ∀ z ∈ P.row hi, ∀ wi < d.nlonIn, ∀ ho wo,
  outOf P d.nlonOut (d.nlonOut / d.nlonIn) wi z = (ho, wo) →
  B.alphaNz (upNzOff d P b hi (z - P.roff hi) wi) * (1 / B.alphaSum (scOff d b ho wo))
      = prob d.Ck w (upNb d P) (nchw k) (nchw q) b ho wo (hi, wi) ∧
  B.gdotvNz (upNzOff d P b hi (z - P.roff hi) wi) = gdot d.Cv (nchw v) (nchw dy) b ho wo (hi, wi) ∧
  B.alphaGdotv (scOff d b ho wo) * (1 / B.alphaSum (scOff d b ho wo))
    = gbar d.Ck d.Cv w (upNb d P) (nchw k) (nchw v) (nchw q) (nchw dy) b ho wo

theorem upPhaseA_good (hdiv : d.nlonOut % d.nlonIn = 0) (hout : 0 < d.nlonOut) (hfit : P.Fits d.nlatIn (d.nlatOut * d.nlonOut))
    (orderA : List (ℕ × ℕ × ℕ)) (hA : ∀ b ho wo, (b, ho, wo) ∈ orderA ↔ b < d.B ∧ ho < d.nlatOut ∧ wo < d.nlonOut) (B0 : Bufs) :
    GoodUp d w P k v q dy (orderA.foldl (upBwdPhaseA d w P k v q dy fmin loc) B0) := by
  intro b hb hi hhi z hz wi hwi ho wo ho'
  have hho : ho < d.nlatOut := by
    have := congrArg Prod.fst ho'
    dsimp only [outOf] at this
    rw [← this]
    exact (Nat.div_lt_iff_lt_mul hout).2 (hfit hi hhi z hz)
  have hwo : wo < d.nlonOut := by
    have := congrArg Prod.snd ho'
    dsimp only [outOf] at this
    rw [← this]
    exact Nat.mod_lt _ hout
  obtain ⟨h1, h2, h3⟩ := upPhaseA_bufs d w P k v q dy fmin loc hdiv orderA (fun t ht => ((hA t.1 t.2.1 t.2.2).1 ht).2) B0 (b, ho, wo)
    ((hA b ho wo).2 ⟨hb, hho, hwo⟩)
  dsimp only at h1 h2 h3
  have he := (mem_cellEdges (P := P) hdiv hwo).2 ⟨hhi, hz, hwi, ho'⟩
  rw [cellEdges_sum hdiv hwo (fun p => upAl d w P k q fmin loc (b, ho, wo) p)] at h2
  rw [cellEdges_sum hdiv hwo (fun p => upAl d w P k q fmin loc (b, ho, wo) p * upGd d v dy (b, ho, wo) p)] at h3
  have hal : ∀ p, upAl d w P k q fmin loc (b, ho, wo) p
      / ((upNb d P ho wo).map fun p => upAl d w P k q fmin loc (b, ho, wo) p).sum
      = prob d.Ck w (upNb d P) (nchw k) (nchw q) b ho wo p := fun p =>
    shifted_prob (upNb d P ho wo) (fun p : ℕ × ℕ => w p.1) (score d.Ck (nchw k) (nchw q) b ho wo) _ p
  refine ⟨?_, (h1 _ he).2, ?_⟩
  · have e1 : _ = upAl d w P k q fmin loc (b, ho, wo) (hi, wi) := (h1 _ he).1
    unfold eOff at e1
    dsimp only at e1
    rw [e1, h2, mul_one_div, hal]
  · rw [h2, h3, mul_one_div]
    unfold gbar
    rw [div_eq_mul_inv, ← list_sum_mul_right]
    refine list_sum_congr fun p _ => ?_
    rw [← hal p]
    unfold upGd
    dsimp only
    ring

end

theorem upBwdScan_ev {σ : Type} (ev : σ → ℝ) (d : Dims) (P : Pattern) (hi : ℕ) (body : σ → ℕ → ℕ → σ) (g : ℕ → ℕ → ℝ)
    (h : ∀ s, ∀ z ∈ P.row hi, ∀ wi < d.nlonIn, ev (body s z wi) = ev s + g z wi) (s : σ) :
    ev (upBwdScan d P hi body s) = ev s + ∑ wi ∈ range d.nlonIn, ((P.row hi).map fun z => g z wi).sum := by
  unfold upBwdScan
  rw [← list_finset_comm]
  refine foldl_ev ev _ _ _ (fun s z hz => ?_) s
  rw [← list_sum_range]
  exact foldl_ev ev _ _ _ (fun s wi hwi => h s z hz wi (List.mem_range.1 hwi)) s

section
variable (d : Dims) (w : ℕ → ℝ) (P : Pattern) (k v q dy : T4)

theorem upWrap (hdiv : d.nlonOut % d.nlonIn = 0) (hout : 0 < d.nlonOut) {wi : ℕ} (hwi : wi < d.nlonIn) (z : ℕ) :
    outOf P d.nlonOut (d.nlonOut / d.nlonIn) wi z
      = (P.col z / d.nlonOut, wrapLon d.nlonOut (P.col z % d.nlonOut + d.nlonOut / d.nlonIn * wi)) := by
  obtain ⟨hmul, hps⟩ := pscale_facts hdiv hout
  have h1 := Nat.mod_lt (P.col z) hout
  have h2 : d.nlonOut / d.nlonIn * wi ≤ d.nlonOut / d.nlonIn * d.nlonIn := Nat.mul_le_mul_left _ hwi.le
  unfold outOf
  rw [wrapLon_eq (by omega)]

/-- A gradient at an input point, as a sum over the entries of its own row. -/
theorem up_gradV (hout : 0 < d.nlonOut) (hfit : P.Fits d.nlatIn (d.nlatOut * d.nlonOut)) {hi wi : ℕ} (hhi : hi < d.nlatIn)
    (hwi : wi < d.nlonIn) (f : ℕ → ℕ → ℕ × ℕ → ℝ) :
    ∑ ho ∈ range d.nlatOut, ∑ wo ∈ range d.nlonOut, ((upNb d P ho wo).map fun p => if p = (hi, wi) then f ho wo p else 0).sum
      = ((P.row hi).map fun z => f (outOf P d.nlonOut (d.nlonOut / d.nlonIn) wi z).1
          (outOf P d.nlonOut (d.nlonOut / d.nlonIn) wi z).2 (hi, wi)).sum := by
  rw [← scatter_back d P hfit hout _ (fun ho wo => f ho wo (hi, wi)) hhi hwi]
  refine Finset.sum_congr rfl fun ho _ => Finset.sum_congr rfl fun wo _ => list_sum_congr fun p _ => ?_
  split_ifs with h
  · rw [h]
  · rfl

theorem upBwdPhaseC_at (hdiv : d.nlonOut % d.nlonIn = 0) (hout : 0 < d.nlonOut) (hfit : P.Fits d.nlatIn (d.nlatOut * d.nlonOut))
    (B : Bufs) (hB : GoodUp d w P k v q dy B)
    (out : T4) (t : ℕ × ℕ) (ht : t.1 < d.B) {b hi wi c : ℕ} (hhi : hi < d.nlatIn) (hwi : wi < d.nlonIn) :
    upBwdPhaseC d P dy B out t b hi wi c = out b hi wi c + if t = (b, c) then
      gradV d.Ck w (upNb d P) d.nlatOut d.nlonOut (nchw k) (nchw q) (nchw dy) b c hi wi else 0 := by
  unfold upBwdPhaseC
  dsimp only
  have hstep : ∀ hi' < d.nlatIn, (upBwdScan d P hi' (fun (u : ℕ → ℝ) z wi =>
      Function.update u wi (u wi + B.alphaNz (upNzOff d P t.1 hi' (z - P.roff hi') wi) *
        (1 / B.alphaSum (scOff d t.1 (P.col z / d.nlonOut) (wrapLon d.nlonOut (P.col z % d.nlonOut + d.nlonOut / d.nlonIn * wi)))) *
        dy t.1 (P.col z / d.nlonOut) (wrapLon d.nlonOut (P.col z % d.nlonOut + d.nlonOut / d.nlonIn * wi)) t.2)) (fun _ => 0)) wi
      = gradV d.Ck w (upNb d P) d.nlatOut d.nlonOut (nchw k) (nchw q) (nchw dy) t.1 t.2 hi' wi := by
    intro hi' hhi'
    have h := upBwdScan_ev (fun u : ℕ → ℝ => u wi) d P hi' (fun (u : ℕ → ℝ) z wi =>
      Function.update u wi (u wi + B.alphaNz (upNzOff d P t.1 hi' (z - P.roff hi') wi) *
        (1 / B.alphaSum (scOff d t.1 (P.col z / d.nlonOut) (wrapLon d.nlonOut (P.col z % d.nlonOut + d.nlonOut / d.nlonIn * wi)))) *
        dy t.1 (P.col z / d.nlonOut) (wrapLon d.nlonOut (P.col z % d.nlonOut + d.nlonOut / d.nlonIn * wi)) t.2))
      (fun z wi' => if wi' = wi then
        (let o := outOf P d.nlonOut (d.nlonOut / d.nlonIn) wi z
         prob d.Ck w (upNb d P) (nchw k) (nchw q) t.1 o.1 o.2 (hi', wi) * nchw dy t.1 t.2 o.1 o.2) else 0)
      (fun u z hz wi' hwi' => ?_) (fun _ => 0)
    · rw [h, zero_add, Finset.sum_eq_single wi]
      · unfold gradV
        rw [up_gradV d P hout hfit hhi' hwi (fun ho wo p => prob d.Ck w (upNb d P) (nchw k) (nchw q) t.1 ho wo p * nchw dy t.1 t.2 ho wo)]
        exact list_sum_congr fun z _ => if_pos rfl
      · intro x _ hx
        exact list_sum_zero fun z _ => if_neg hx
      · intro h'; exact absurd (mem_range.2 hwi) h'
    · rw [update_add]
      congr 1
      by_cases e : wi' = wi
      · subst e
        rw [if_pos rfl, if_pos rfl, (hB t.1 ht hi' hhi' z hz wi' hwi _ _ (upWrap d P hdiv hout hwi z)).1, upWrap d P hdiv hout hwi z]
        rfl
      · rw [if_neg e, if_neg e]
  rw [foldl_ev (fun s : T4 => s b hi wi c) _ (fun hi' => if hi' = hi then (if t = (b, c) then
      gradV d.Ck w (upNb d P) d.nlatOut d.nlonOut (nchw k) (nchw q) (nchw dy) b c hi wi else 0)
      else 0) _ (fun s hi' hhi' => ?_), list_sum_single _ List.nodup_range hi (List.mem_range.2 hhi)]
  rw [hstep hi' (List.mem_range.1 hhi')]
  by_cases h1 : t = (b, c)
  · subst h1
    by_cases h2 : hi' = hi
    · subst h2
      simp [hwi]
    · rw [if_neg (fun h => h2 h.2.1.symm), if_neg h2, add_zero]
  · rw [if_neg (fun h => h1 (Prod.ext h.1.symm h.2.2.2.symm)), if_neg h1]
    simp

/-- The body of the scan in phase B. -/
noncomputable def upPhaseBBody (B : Bufs) (b ci hi : ℕ) (u : (ℕ → ℝ) × (ℕ → ℝ)) (z wi : ℕ) : (ℕ → ℝ) × (ℕ → ℝ) :=
  let ho := P.col z / d.nlonOut
  let wo := wrapLon d.nlonOut (P.col z % d.nlonOut + d.nlonOut / d.nlonIn * wi)
  let nz := upNzOff d P b hi (z - P.roff hi) wi
  let invSum := 1 / B.alphaSum (scOff d b ho wo)
  let integral := B.alphaGdotv (scOff d b ho wo) * invSum
  let alphaNorm := B.alphaNz nz * invSum
  let weight := alphaNorm * (B.gdotvNz nz - integral)
  (Function.update u.1 wi (u.1 wi + q b ho wo ci * weight),
   Function.update u.2 (ho * d.nlonOut + wo) (u.2 (ho * d.nlonOut + wo) + k b hi wi ci * weight))

theorem upPhaseB_dk (hdiv : d.nlonOut % d.nlonIn = 0) (hout : 0 < d.nlonOut) (hfit : P.Fits d.nlatIn (d.nlatOut * d.nlonOut))
    (B : Bufs) (hB : GoodUp d w P k v q dy B)
    (b : ℕ) (hb : b < d.B) (ci : ℕ) {hi wi : ℕ} (hhi : hi < d.nlatIn) (hwi : wi < d.nlonIn) (r : ℕ → ℝ) :
    (upBwdScan d P hi (upPhaseBBody d P k q B b ci hi) ((fun _ => 0), r)).1 wi
      = gradK d.Ck d.Cv w (upNb d P) d.nlatOut d.nlonOut (nchw k) (nchw v) (nchw q) (nchw dy) b ci hi wi := by
  have h := upBwdScan_ev (fun u : (ℕ → ℝ) × (ℕ → ℝ) => u.1 wi) d P hi (upPhaseBBody d P k q B b ci hi)
      (fun z wi' => if wi' = wi then
        (let o := outOf P d.nlonOut (d.nlonOut / d.nlonIn) wi z
         nchw q b ci o.1 o.2 * wgt d w k v q dy (upNb d P) b o.1 o.2 (hi, wi)) else 0)
      (fun u z hz wi' hwi' => ?_) ((fun _ => 0), r)
  · rw [h, zero_add, Finset.sum_eq_single wi]
    · unfold gradK
      rw [up_gradV d P hout hfit hhi hwi (fun ho wo p => nchw q b ci ho wo * prob d.Ck w (upNb d P) (nchw k) (nchw q) b ho wo p *
        (gdot d.Cv (nchw v) (nchw dy) b ho wo p - gbar d.Ck d.Cv w (upNb d P) (nchw k) (nchw v) (nchw q) (nchw dy) b ho wo))]
      refine list_sum_congr fun z _ => ?_
      rw [if_pos rfl]
      unfold wgt
      ring
    · intro x _ hx
      exact list_sum_zero fun z _ => if_neg hx
    · intro h'; exact absurd (mem_range.2 hwi) h'
  · unfold upPhaseBBody
    dsimp only
    rw [update_add]
    congr 1
    by_cases e : wi' = wi
    · subst e
      obtain ⟨g1, g2, g3⟩ := hB b hb hi hhi z hz wi' hwi _ _ (upWrap d P hdiv hout hwi z)
      rw [if_pos rfl, if_pos rfl, g1, g2, g3, upWrap d P hdiv hout hwi z]
      rfl
    · rw [if_neg e, if_neg e]

theorem upPhaseB_dq (hdiv : d.nlonOut % d.nlonIn = 0) (hout : 0 < d.nlonOut)
    (B : Bufs) (hB : GoodUp d w P k v q dy B)
    (b : ℕ) (hb : b < d.B) (ci : ℕ) {hi : ℕ} (hhi : hi < d.nlatIn) (r : (ℕ → ℝ) × (ℕ → ℝ)) {ho wo : ℕ} (hwo : wo < d.nlonOut) :
    (upBwdScan d P hi (upPhaseBBody d P k q B b ci hi) r).2 (ho * d.nlonOut + wo)
      = r.2 (ho * d.nlonOut + wo) + ∑ wi ∈ range d.nlonIn, ((P.row hi).map fun z =>
          if outOf P d.nlonOut (d.nlonOut / d.nlonIn) wi z = (ho, wo) then
            wgt d w k v q dy (upNb d P) b ho wo (hi, wi) * nchw k b ci hi wi else 0).sum := by
  refine upBwdScan_ev (fun u : (ℕ → ℝ) × (ℕ → ℝ) => u.2 (ho * d.nlonOut + wo)) d P hi (upPhaseBBody d P k q B b ci hi) _
      (fun u z hz wi hwi => ?_) r
  unfold upPhaseBBody
  dsimp only
  rw [update_add]
  congr 1
  obtain ⟨g1, g2, g3⟩ := hB b hb hi hhi z hz wi hwi _ _ (upWrap d P hdiv hout hwi z)
  rw [g1, g2, g3]
  have hlt : wrapLon d.nlonOut (P.col z % d.nlonOut + d.nlonOut / d.nlonIn * wi) < d.nlonOut := by
    have := congrArg Prod.snd (upWrap d P hdiv hout hwi z)
    dsimp only at this
    rw [← this]
    exact Nat.mod_lt _ hout
  rw [upWrap d P hdiv hout hwi z]
  by_cases e : (P.col z / d.nlonOut, wrapLon d.nlonOut (P.col z % d.nlonOut + d.nlonOut / d.nlonIn * wi)) = (ho, wo)
  · obtain ⟨e1, e2⟩ := Prod.mk.inj e
    rw [if_pos e, e1, e2, if_pos rfl, mul_comm]
    rfl
  · rw [if_neg e, if_neg (fun h' => e ?_)]
    obtain ⟨e1, e2⟩ := mulAdd_inj h' hlt hwo
    rw [e1, e2]

theorem upBwdPhaseB_at (hdiv : d.nlonOut % d.nlonIn = 0) (hout : 0 < d.nlonOut) (hfit : P.Fits d.nlatIn (d.nlatOut * d.nlonOut))
    (B : Bufs) (hB : GoodUp d w P k v q dy B) (out : T4 × T4) (t : ℕ × ℕ) (ht : t.1 < d.B) (b c : ℕ) :
    (∀ hi < d.nlatIn, ∀ wi < d.nlonIn, (upBwdPhaseB d P k q B out t).1 b hi wi c = out.1 b hi wi c + if t = (b, c) then
      gradK d.Ck d.Cv w (upNb d P) d.nlatOut d.nlonOut (nchw k) (nchw v) (nchw q) (nchw dy) b c hi wi else 0) ∧
    (∀ ho < d.nlatOut, ∀ wo < d.nlonOut, (upBwdPhaseB d P k q B out t).2 b ho wo c = out.2 b ho wo c + if t = (b, c) then
      gradQ d.Ck d.Cv w (upNb d P) (nchw k) (nchw v) (nchw q) (nchw dy) b c ho wo else 0) := by
  constructor
  · intro hi hhi wi hwi
    unfold upBwdPhaseB
    dsimp only
    rw [foldl_ev (fun s : T4 × (ℕ → ℝ) => s.1 b hi wi c) _ (fun hi' => if hi' = hi then (if t = (b, c) then
      gradK d.Ck d.Cv w (upNb d P) d.nlatOut d.nlonOut (nchw k) (nchw v) (nchw q) (nchw dy) b c hi wi else 0) else 0) _
      (fun s hi' hhi' => ?_), list_sum_single _ List.nodup_range hi (List.mem_range.2 hhi)]
    have hs := upPhaseB_dk d w P k v q dy hdiv hout hfit B hB t.1 ht t.2 (List.mem_range.1 hhi') hwi s.2
    unfold upPhaseBBody at hs
    dsimp only at hs ⊢
    rw [hs]
    by_cases h1 : t = (b, c)
    · subst h1
      by_cases h2 : hi' = hi
      · subst h2
        simp [hwi]
      · rw [if_neg (fun h => h2 h.2.1.symm), if_neg h2, add_zero]
    · rw [if_neg (fun h => h1 (Prod.ext h.1.symm h.2.2.2.symm)), if_neg h1]
      simp
  · intro ho hho wo hwo
    unfold upBwdPhaseB
    dsimp only
    by_cases h1 : t = (b, c)
    · subst h1
      rw [if_pos ⟨rfl, hho, hwo, rfl⟩, if_pos rfl]
      congr 1
      rw [foldl_ev (fun s : T4 × (ℕ → ℝ) => s.2 (ho * d.nlonOut + wo)) _ (fun hi => ∑ wi ∈ range d.nlonIn, ((P.row hi).map fun z =>
          if outOf P d.nlonOut (d.nlonOut / d.nlonIn) wi z = (ho, wo) then
            wgt d w k v q dy (upNb d P) b ho wo (hi, wi) * nchw k b c hi wi else 0).sum) _
           (fun s hi hhi => ?_), zero_add, list_sum_range]
      · exact (scatter_sum P d.nlatIn d.nlonIn d.nlonOut (d.nlonOut / d.nlonIn) ho wo
          (fun p => wgt d w k v q dy (upNb d P) b ho wo p * nchw k b c p.1 p.2)).symm
      · have hs := upPhaseB_dq d w P k v q dy hdiv hout B hB b ht c (List.mem_range.1 hhi) ((fun _ => 0), s.2) (ho := ho) hwo
        unfold upPhaseBBody at hs
        exact hs
    · rw [if_neg (fun h => h1 (Prod.ext h.1.symm h.2.2.2.symm)), if_neg h1, add_zero]

/-- The upsampling backward kernel, for every schedule of its three parallel phases. -/
theorem cpuUpBwdKernel_eq (hdiv : d.nlonOut % d.nlonIn = 0) (hout : 0 < d.nlonOut) (hfit : P.Fits d.nlatIn (d.nlatOut * d.nlonOut))
    (fmin : ℝ) (loc : ℕ × ℕ × ℕ → ℕ → ℝ) (orderA : List (ℕ × ℕ × ℕ)) (orderB orderC : List (ℕ × ℕ))
    (hA : ∀ b ho wo, (b, ho, wo) ∈ orderA ↔ b < d.B ∧ ho < d.nlatOut ∧ wo < d.nlonOut)
    (hBn : orderB.Nodup) (hBm : ∀ b c, (b, c) ∈ orderB ↔ b < d.B ∧ c < d.Ck)
    (hCn : orderC.Nodup) (hCm : ∀ b c, (b, c) ∈ orderC ↔ b < d.B ∧ c < d.Cv) :
    let r := cpuUpBwdKernel d w P k v q dy fmin loc orderA orderB orderC
    let nb := upNb d P
    (∀ b < d.B, ∀ c < d.Ck, ∀ hi < d.nlatIn, ∀ wi < d.nlonIn, r.dk b hi wi c
      = gradK d.Ck d.Cv w nb d.nlatOut d.nlonOut (nchw k) (nchw v) (nchw q) (nchw dy) b c hi wi) ∧
    (∀ b < d.B, ∀ c < d.Cv, ∀ hi < d.nlatIn, ∀ wi < d.nlonIn, r.dv b hi wi c
      = gradV d.Ck w nb d.nlatOut d.nlonOut (nchw k) (nchw q) (nchw dy) b c hi wi) ∧
    (∀ b < d.B, ∀ c < d.Ck, ∀ ho < d.nlatOut, ∀ wo < d.nlonOut, r.dq b ho wo c
      = gradQ d.Ck d.Cv w nb (nchw k) (nchw v) (nchw q) (nchw dy) b c ho wo) := by
  have hgood := upPhaseA_good d w P k v q dy fmin loc hdiv hout hfit orderA hA ⟨fun _ => 0, fun _ => 0, fun _ => 0, fun _ => 0⟩
  unfold cpuUpBwdKernel
  dsimp only
  generalize orderA.foldl (upBwdPhaseA d w P k v q dy fmin loc) ⟨fun _ => 0, fun _ => 0, fun _ => 0, fun _ => 0⟩ = B at hgood
  refine ⟨fun b hb c hc hi hhi wi hwi => ?_, fun b hb c hc hi hhi wi hwi => ?_, fun b hb c hc ho hho wo hwo => ?_⟩
  · rw [foldl_ev (fun o : T4 × T4 => o.1 b hi wi c) _ _ orderB (fun o t ht =>
      (upBwdPhaseB_at d w P k v q dy hdiv hout hfit B hgood o t ((hBm t.1 t.2).1 ht).1 b c).1 hi hhi wi hwi),
      list_sum_single _ hBn _ ((hBm b c).2 ⟨hb, hc⟩), zero_add]
  · rw [foldl_ev (fun o : T4 => o b hi wi c) _ _ orderC (fun o t ht =>
      upBwdPhaseC_at d w P k v q dy hdiv hout hfit B hgood o t ((hCm t.1 t.2).1 ht).1 hhi hwi),
      list_sum_single _ hCn _ ((hCm b c).2 ⟨hb, hc⟩), zero_add]
  · rw [foldl_ev (fun o : T4 × T4 => o.2 b ho wo c) _ _ orderB (fun o t ht =>
      (upBwdPhaseB_at d w P k v q dy hdiv hout hfit B hgood o t ((hBm t.1 t.2).1 ht).1 b c).2 ho hho wo hwo),
      list_sum_single _ hBn _ ((hBm b c).2 ⟨hb, hc⟩), zero_add]

end

end Verif.Attn
