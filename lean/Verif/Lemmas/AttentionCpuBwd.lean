import Verif.Lemmas.AttentionCpu
/-! The CPU attention backward kernel (gather direction) computes the gradient formulas. -/
namespace Verif.Attn
open Verif Verif.Spec.Attn Finset

theorem wrapLon_eq {n x : ℕ} (h : x < 2 * n) : wrapLon n x = x % n := by
  unfold wrapLon
  split_ifs with h'
  · rw [Nat.mod_eq_sub_mod h', Nat.mod_eq_of_lt (by omega)]
  · rw [Nat.mod_eq_of_lt (by omega)]

theorem maxNnz_ge (P : Pattern) {n h : ℕ} (hh : h < n) : P.roff (h + 1) - P.roff h ≤ maxNnz P n := by
  unfold maxNnz
  induction n with
  | zero => omega
  | succ n ih =>
    rw [List.range_succ, List.foldl_append, List.foldl_cons, List.foldl_nil]
    rcases Nat.lt_succ_iff_lt_or_eq.1 hh with h' | rfl
    · exact (ih h').trans (le_max_left _ _)
    · exact le_max_right _ _

theorem row_loc {P : Pattern} {h z : ℕ} (hz : z ∈ P.row h) : P.roff h ≤ z ∧ z - P.roff h < P.roff (h + 1) - P.roff h := by
  unfold Pattern.row at hz
  rw [List.mem_range'_1] at hz
  omega

theorem scOff_inj {d : Dims} {b ho wo b' ho' wo' : ℕ} (h1 : ho < d.nlatOut) (h2 : wo < d.nlonOut) (h1' : ho' < d.nlatOut)
    (h2' : wo' < d.nlonOut) (h : scOff d b ho wo = scOff d b' ho' wo') : b = b' ∧ ho = ho' ∧ wo = wo' := by
  unfold scOff at h
  obtain ⟨e1, e2⟩ := mulAdd_inj h h2 h2'
  obtain ⟨e3, e4⟩ := mulAdd_inj e1 h1 h1'
  exact ⟨e3, e4, e2⟩

theorem nzOff_inj {d : Dims} {P : Pattern} {b ho wo b' ho' wo' l l' : ℕ} (h1 : ho < d.nlatOut) (h2 : wo < d.nlonOut)
    (h1' : ho' < d.nlatOut) (h2' : wo' < d.nlonOut) (hl : l < maxNnz P d.nlatOut) (hl' : l' < maxNnz P d.nlatOut)
    (h : nzOff d P b ho wo + l = nzOff d P b' ho' wo' + l') : b = b' ∧ ho = ho' ∧ wo = wo' ∧ l = l' := by
  unfold nzOff at h
  obtain ⟨e1, e2⟩ := mulAdd_inj h hl hl'
  obtain ⟨e3, e4, e5⟩ := scOff_inj (d := d) h1 h2 h1' h2' e1
  exact ⟨e3, e4, e5, e2⟩

section
variable (d : Dims) (w : ℕ → ℝ) (P : Pattern) (k v q dy : T4) (fmin : ℝ) (loc : ℕ × ℕ × ℕ → ℕ → ℝ)

/-- The neighbour of the entry `z`, in the form the kernel computes it. -/
def nbrW (wo z : ℕ) : ℕ × ℕ := (P.col z / d.nlonIn, wrapLon d.nlonIn (P.col z % d.nlonIn + d.nlonIn / d.nlonOut * wo))

theorem nbrW_eq (hdiv : d.nlonIn % d.nlonOut = 0) {wo : ℕ} (hwo : wo < d.nlonOut) (hin : 0 < d.nlonIn) (z : ℕ) :
    nbrW d P wo z = nbrOf P d.nlonIn (d.nlonIn / d.nlonOut) wo z := by
  have hmul : d.nlonIn = d.nlonIn / d.nlonOut * d.nlonOut := (Nat.div_mul_cancel (Nat.dvd_of_mod_eq_zero hdiv)).symm
  have h1 := Nat.mod_lt (P.col z) hin
  have h2 : d.nlonIn / d.nlonOut * wo ≤ d.nlonIn / d.nlonOut * d.nlonOut := Nat.mul_le_mul_left _ hwo.le
  unfold nbrW nbrOf
  rw [wrapLon_eq (by omega)]

/-- The score of entry `z` for the output cell. -/
def sc (b ho wo z : ℕ) : ℝ := score d.Ck (nchw k) (nchw q) b ho wo (nbrW d P wo z)

/-- The maximum found by pass 1. -/
noncomputable def mx (t : ℕ × ℕ × ℕ) : ℝ := (bwdPass1 d P k q fmin (loc t) t.1 t.2.1 t.2.2).2

/-- The stored exponential of entry `z`. -/
noncomputable def al (t : ℕ × ℕ × ℕ) (z : ℕ) : ℝ :=
  Real.exp (sc d P k q t.1 t.2.1 t.2.2 z - mx d P k q fmin loc t) * w (nbrW d P t.2.2 z).1

/-- The stored product of cotangent and value of entry `z`. -/
def gd (t : ℕ × ℕ × ℕ) (z : ℕ) : ℝ := gdot d.Cv (nchw v) (nchw dy) t.1 t.2.1 t.2.2 (nbrW d P t.2.2 z)

theorem bwdPass1_local (t : ℕ × ℕ × ℕ) (z : ℕ) (hz : z ∈ P.row t.2.1) :
    (bwdPass1 d P k q fmin (loc t) t.1 t.2.1 t.2.2).1 (z - P.roff t.2.1) = sc d P k q t.1 t.2.1 t.2.2 z := by
  unfold bwdPass1
  refine foldl_write (fun s : (ℕ → ℝ) × ℝ => s.1 (z - P.roff t.2.1)) _ (fun z' => z' = z) _ _ (fun s z' _ h => ?_)
    (fun s z' hz' h => ?_) ⟨z, hz, rfl⟩ _
  · subst h
    dsimp only
    rw [Function.update_self]
    rfl
  · dsimp only
    rw [Function.update_of_ne]
    have h1 := row_loc hz
    have h2 := row_loc hz'
    omega

/-- Everything phase A writes for one cell. -/
theorem bwdPhaseA_writes (B : Bufs) (t : ℕ × ℕ × ℕ) :
    let B' := bwdPhaseA d w P k v q dy fmin loc B t
    (∀ z ∈ P.row t.2.1, B'.alphaNz (nzOff d P t.1 t.2.1 t.2.2 + (z - P.roff t.2.1)) = al d w P k q fmin loc t z ∧
      B'.gdotvNz (nzOff d P t.1 t.2.1 t.2.2 + (z - P.roff t.2.1)) = gd d P v dy t z) ∧
    B'.alphaSum (scOff d t.1 t.2.1 t.2.2) = ((P.row t.2.1).map (al d w P k q fmin loc t)).sum ∧
    B'.alphaGdotv (scOff d t.1 t.2.1 t.2.2) = ((P.row t.2.1).map fun z => al d w P k q fmin loc t z * gd d P v dy t z).sum := by
  have hal : ∀ z ∈ P.row t.2.1, Real.exp ((bwdPass1 d P k q fmin (loc t) t.1 t.2.1 t.2.2).1 (z - P.roff t.2.1)
      - (bwdPass1 d P k q fmin (loc t) t.1 t.2.1 t.2.2).2) * w (P.col z / d.nlonIn) = al d w P k q fmin loc t z := by
    intro z hz
    rw [bwdPass1_local d P k q fmin loc t z hz]
    rfl
  unfold bwdPhaseA
  refine ⟨fun z hz => ⟨?_, ?_⟩, ?_, ?_⟩
  · refine foldl_write (fun s : Bufs × ℝ × ℝ => s.1.alphaNz (nzOff d P t.1 t.2.1 t.2.2 + (z - P.roff t.2.1))) _ (fun z' => z' = z) _ _
      (fun s z' _ h => ?_) (fun s z' hz' h => ?_) ⟨z, hz, rfl⟩ _
    · subst h
      dsimp only
      rw [Function.update_self]
      exact hal z' hz
    · dsimp only
      rw [Function.update_of_ne]
      have h1 := row_loc hz
      have h2 := row_loc hz'
      omega
  · refine foldl_write (fun s : Bufs × ℝ × ℝ => s.1.gdotvNz (nzOff d P t.1 t.2.1 t.2.2 + (z - P.roff t.2.1))) _ (fun z' => z' = z) _ _
      (fun s z' _ h => ?_) (fun s z' hz' h => ?_) ⟨z, hz, rfl⟩ _
    · subst h
      dsimp only
      rw [Function.update_self]
      rfl
    · dsimp only
      rw [Function.update_of_ne]
      have h1 := row_loc hz
      have h2 := row_loc hz'
      omega
  · dsimp only
    rw [Function.update_self]
    rw [foldl_ev (fun s : Bufs × ℝ × ℝ => s.2.1) _ (al d w P k q fmin loc t) _ (fun s z hz => ?_), zero_add]
    dsimp only
    rw [hal z hz]
  · dsimp only
    rw [Function.update_self]
    rw [foldl_ev (fun s : Bufs × ℝ × ℝ => s.2.2) _ (fun z => al d w P k q fmin loc t z * gd d P v dy t z) _ (fun s z hz => ?_), zero_add]
    dsimp only
    rw [hal z hz]
    rfl

/-- What phase A leaves alone. -/
theorem bwdPhaseA_keeps (B : Bufs) (t : ℕ × ℕ × ℕ) :
    let B' := bwdPhaseA d w P k v q dy fmin loc B t
    (∀ i, (∀ z ∈ P.row t.2.1, i ≠ nzOff d P t.1 t.2.1 t.2.2 + (z - P.roff t.2.1)) → B'.alphaNz i = B.alphaNz i ∧
      B'.gdotvNz i = B.gdotvNz i) ∧
    (∀ i, i ≠ scOff d t.1 t.2.1 t.2.2 → B'.alphaSum i = B.alphaSum i ∧ B'.alphaGdotv i = B.alphaGdotv i) := by
  unfold bwdPhaseA
  refine ⟨fun i hi => ⟨?_, ?_⟩, fun i hi => ⟨?_, ?_⟩⟩
  · refine foldl_keep (fun s : Bufs × ℝ × ℝ => s.1.alphaNz i) _ _ (fun s z hz => ?_) _
    dsimp only
    rw [Function.update_of_ne (hi z hz)]
  · refine foldl_keep (fun s : Bufs × ℝ × ℝ => s.1.gdotvNz i) _ _ (fun s z hz => ?_) _
    dsimp only
    rw [Function.update_of_ne (hi z hz)]
  · dsimp only
    rw [Function.update_of_ne hi]
    refine foldl_keep (fun s : Bufs × ℝ × ℝ => s.1.alphaSum i) _ _ ?_ _
    intro s z hz; rfl
  · dsimp only
    rw [Function.update_of_ne hi]
    refine foldl_keep (fun s : Bufs × ℝ × ℝ => s.1.alphaGdotv i) _ _ ?_ _
    intro s z hz; rfl

/-- The buffers after phase A, for every schedule. -/
theorem phaseA_bufs (orderA : List (ℕ × ℕ × ℕ)) (hA : ∀ t ∈ orderA, t.2.1 < d.nlatOut ∧ t.2.2 < d.nlonOut) (B0 : Bufs)
    (t : ℕ × ℕ × ℕ) (ht : t ∈ orderA) :
    let B := orderA.foldl (bwdPhaseA d w P k v q dy fmin loc) B0
    (∀ z ∈ P.row t.2.1, B.alphaNz (nzOff d P t.1 t.2.1 t.2.2 + (z - P.roff t.2.1)) = al d w P k q fmin loc t z ∧
      B.gdotvNz (nzOff d P t.1 t.2.1 t.2.2 + (z - P.roff t.2.1)) = gd d P v dy t z) ∧
    B.alphaSum (scOff d t.1 t.2.1 t.2.2) = ((P.row t.2.1).map (al d w P k q fmin loc t)).sum ∧
    B.alphaGdotv (scOff d t.1 t.2.1 t.2.2) = ((P.row t.2.1).map fun z => al d w P k q fmin loc t z * gd d P v dy t z).sum := by
  have hne : ∀ t' ∈ orderA, t' ≠ t → ∀ z ∈ P.row t.2.1, ∀ z' ∈ P.row t'.2.1,
      nzOff d P t.1 t.2.1 t.2.2 + (z - P.roff t.2.1) ≠ nzOff d P t'.1 t'.2.1 t'.2.2 + (z' - P.roff t'.2.1) := by
    intro t' ht' hne z hz z' hz' e
    have := nzOff_inj (hA t ht).1 (hA t ht).2 (hA t' ht').1 (hA t' ht').2
      ((row_loc hz).2.trans_le (maxNnz_ge P (hA t ht).1)) ((row_loc hz').2.trans_le (maxNnz_ge P (hA t' ht').1)) e
    exact hne (Prod.ext this.1.symm (Prod.ext this.2.1.symm this.2.2.1.symm))
  have hne' : ∀ t' ∈ orderA, t' ≠ t → scOff d t.1 t.2.1 t.2.2 ≠ scOff d t'.1 t'.2.1 t'.2.2 := by
    intro t' ht' hne e
    have := scOff_inj (hA t ht).1 (hA t ht).2 (hA t' ht').1 (hA t' ht').2 e
    exact hne (Prod.ext this.1.symm (Prod.ext this.2.1.symm this.2.2.symm))
  refine ⟨fun z hz => ⟨?_, ?_⟩, ?_, ?_⟩
  · refine foldl_write (fun B : Bufs => B.alphaNz (nzOff d P t.1 t.2.1 t.2.2 + (z - P.roff t.2.1))) _ (fun t' => t' = t) _ _
      (fun s t' _ h => ?_) (fun s t' ht' h => ?_) ⟨t, ht, rfl⟩ _
    · subst h; exact ((bwdPhaseA_writes d w P k v q dy fmin loc s t').1 z hz).1
    · exact ((bwdPhaseA_keeps d w P k v q dy fmin loc s t').1 _ (hne t' ht' h z hz)).1
  · refine foldl_write (fun B : Bufs => B.gdotvNz (nzOff d P t.1 t.2.1 t.2.2 + (z - P.roff t.2.1))) _ (fun t' => t' = t) _ _
      (fun s t' _ h => ?_) (fun s t' ht' h => ?_) ⟨t, ht, rfl⟩ _
    · subst h; exact ((bwdPhaseA_writes d w P k v q dy fmin loc s t').1 z hz).2
    · exact ((bwdPhaseA_keeps d w P k v q dy fmin loc s t').1 _ (hne t' ht' h z hz)).2
  · refine foldl_write (fun B : Bufs => B.alphaSum (scOff d t.1 t.2.1 t.2.2)) _ (fun t' => t' = t) _ _
      (fun s t' _ h => ?_) (fun s t' ht' h => ?_) ⟨t, ht, rfl⟩ _
    · subst h; exact (bwdPhaseA_writes d w P k v q dy fmin loc s t').2.1
    · exact ((bwdPhaseA_keeps d w P k v q dy fmin loc s t').2 _ (hne' t' ht' h)).1
  · refine foldl_write (fun B : Bufs => B.alphaGdotv (scOff d t.1 t.2.1 t.2.2)) _ (fun t' => t' = t) _ _
      (fun s t' _ h => ?_) (fun s t' ht' h => ?_) ⟨t, ht, rfl⟩ _
    · subst h; exact (bwdPhaseA_writes d w P k v q dy fmin loc s t').2.2
    · exact ((bwdPhaseA_keeps d w P k v q dy fmin loc s t').2 _ (hne' t' ht' h)).2

/-- The buffers hold softmax probabilities. -/
def GoodBufs (B : Bufs) : Prop := ∀ b < d.B, ∀ ho < d.nlatOut, ∀ wo < d.nlonOut,
  (∀ z ∈ P.row ho,
    B.alphaNz (nzOff d P b ho wo + (z - P.roff ho)) * (1 / B.alphaSum (scOff d b ho wo))
      = prob d.Ck w (gatherNbrs P d.nlonIn (d.nlonIn / d.nlonOut)) (nchw k) (nchw q) b ho wo
        (nbrOf P d.nlonIn (d.nlonIn / d.nlonOut) wo z) ∧
    B.gdotvNz (nzOff d P b ho wo + (z - P.roff ho))
      = gdot d.Cv (nchw v) (nchw dy) b ho wo (nbrOf P d.nlonIn (d.nlonIn / d.nlonOut) wo z)) ∧
  B.alphaGdotv (scOff d b ho wo) * (1 / B.alphaSum (scOff d b ho wo))
    = gbar d.Ck d.Cv w (gatherNbrs P d.nlonIn (d.nlonIn / d.nlonOut)) (nchw k) (nchw v) (nchw q) (nchw dy) b ho wo

theorem phaseA_good (hdiv : d.nlonIn % d.nlonOut = 0) (hin : 0 < d.nlonIn) (orderA : List (ℕ × ℕ × ℕ))
    (hA : ∀ b ho wo, (b, ho, wo) ∈ orderA ↔ b < d.B ∧ ho < d.nlatOut ∧ wo < d.nlonOut) (B0 : Bufs) :
    GoodBufs d w P k v q dy (orderA.foldl (bwdPhaseA d w P k v q dy fmin loc) B0) := by
  intro b hb ho hho wo hwo
  obtain ⟨h1, h2, h3⟩ := phaseA_bufs d w P k v q dy fmin loc orderA (fun t ht => ((hA t.1 t.2.1 t.2.2).1 ht).2) B0 (b, ho, wo)
    ((hA b ho wo).2 ⟨hb, hho, hwo⟩)
  dsimp only at h1 h2 h3
  have hal : ∀ z, al d w P k q fmin loc (b, ho, wo) z / ((P.row ho).map (al d w P k q fmin loc (b, ho, wo))).sum
      = prob d.Ck w (gatherNbrs P d.nlonIn (d.nlonIn / d.nlonOut)) (nchw k) (nchw q) b ho wo
        (nbrOf P d.nlonIn (d.nlonIn / d.nlonOut) wo z) := by
    intro z
    unfold al sc
    dsimp only
    simp only [nbrW_eq d P hdiv hwo hin]
    rw [shifted_prob (P.row ho) (fun z => w (nbrOf P d.nlonIn (d.nlonIn / d.nlonOut) wo z).1)
      (fun z => score d.Ck (nchw k) (nchw q) b ho wo (nbrOf P d.nlonIn (d.nlonIn / d.nlonOut) wo z))]
    unfold prob
    rw [gatherNbrs_eq, List.map_map]
    rfl
  refine ⟨fun z hz => ⟨?_, ?_⟩, ?_⟩
  · rw [(h1 z hz).1, h2, mul_one_div, hal]
  · rw [(h1 z hz).2]
    unfold gd
    dsimp only
    rw [nbrW_eq d P hdiv hwo hin]
  · rw [h2, h3, mul_one_div]
    unfold gbar
    rw [gatherNbrs_eq, List.map_map, div_eq_mul_inv, ← list_sum_mul_right]
    refine list_sum_congr fun z _ => ?_
    rw [Function.comp_apply, ← hal z]
    unfold gd
    dsimp only
    rw [nbrW_eq d P hdiv hwo hin]
    ring

end

/-! ### Phases B and C -/

theorem bwdScan_ev {σ : Type} (ev : σ → ℝ) (d : Dims) (P : Pattern) (hi : ℕ) (body : σ → ℕ → ℕ → ℕ → σ) (g : ℕ → ℕ → ℕ → ℝ)
    (h : ∀ s, ∀ ho < d.nlatOut, ∀ z ∈ P.row ho, ∀ wo < d.nlonOut, P.col z / d.nlonIn = hi →
      ev (body s ho z wo) = ev s + g ho z wo) (s : σ) :
    ev (bwdScan d P hi body s) = ev s + ∑ ho ∈ range d.nlatOut, ∑ wo ∈ range d.nlonOut,
      ((P.row ho).map fun z => if P.col z / d.nlonIn = hi then g ho z wo else 0).sum := by
  unfold bwdScan
  rw [← list_sum_range]
  refine foldl_ev ev _ _ _ (fun s ho hho => ?_) s
  rw [List.mem_range] at hho
  rw [← list_finset_comm]
  refine foldl_ev ev _ _ _ (fun s z hz => ?_) s
  by_cases hc : P.col z / d.nlonIn = hi
  · rw [if_neg (not_not.2 hc)]
    simp only [if_pos hc]
    rw [← list_sum_range]
    refine foldl_ev ev _ _ _ (fun s wo hwo => ?_) s
    exact h s ho hho z hz wo (List.mem_range.1 hwo) hc
  · rw [if_pos hc]
    simp only [if_neg hc, Finset.sum_const_zero, add_zero]

theorem update_add (u : ℕ → ℝ) (i j : ℕ) (x : ℝ) :
    Function.update u i (u i + x) j = u j + if i = j then x else 0 := by
  by_cases h : j = i
  · subst h; rw [Function.update_self, if_pos rfl]
  · rw [Function.update_of_ne h, if_neg (Ne.symm h), add_zero]

section
variable (d : Dims) (w : ℕ → ℝ) (P : Pattern) (k v q dy : T4)

/-- The sum over all entries that reach the input point `(hi, wi)`. -/
theorem gather_grad (f : ℕ → ℕ → ℕ × ℕ → ℝ) (hi wi : ℕ) (ps : ℕ) (H W : ℕ) :
    ∑ ho ∈ range H, ∑ wo ∈ range W, ((gatherNbrs P d.nlonIn ps ho wo).map fun p => if p = (hi, wi) then f ho wo p else 0).sum
      = ∑ ho ∈ range H, ∑ wo ∈ range W, ((P.row ho).map fun z => if P.col z / d.nlonIn = hi then
          (if (P.col z % d.nlonIn + ps * wo) % d.nlonIn = wi then f ho wo (nbrOf P d.nlonIn ps wo z) else 0) else 0).sum := by
  refine Finset.sum_congr rfl fun ho _ => Finset.sum_congr rfl fun wo _ => ?_
  rw [gather_map_if]
  refine list_sum_congr fun z _ => ?_
  unfold nbrOf
  by_cases h1 : P.col z / d.nlonIn = hi
  · by_cases h2 : (P.col z % d.nlonIn + ps * wo) % d.nlonIn = wi
    · rw [if_pos h1, if_pos h2, if_pos (by rw [h1, h2])]
    · rw [if_pos h1, if_neg h2, if_neg (fun e => h2 (congrArg Prod.snd e))]
  · rw [if_neg h1, if_neg (fun e => h1 (congrArg Prod.fst e))]

theorem bwdPhaseC_at (hdiv : d.nlonIn % d.nlonOut = 0) (hin : 0 < d.nlonIn) (B : Bufs) (hB : GoodBufs d w P k v q dy B)
    (out : T4) (t : ℕ × ℕ) (ht : t.1 < d.B) {b hi wi c : ℕ} (hhi : hi < d.nlatIn) (hwi : wi < d.nlonIn) :
    bwdPhaseC d P dy B out t b hi wi c = out b hi wi c + if t = (b, c) then
      gradV d.Ck w (gatherNbrs P d.nlonIn (d.nlonIn / d.nlonOut)) d.nlatOut d.nlonOut (nchw k) (nchw q) (nchw dy) b c hi wi else 0 := by
  unfold bwdPhaseC
  dsimp only
  have hstep : ∀ hi', (bwdScan d P hi' (fun (u : ℕ → ℝ) ho z wo =>
      Function.update u (wrapLon d.nlonIn (P.col z % d.nlonIn + d.nlonIn / d.nlonOut * wo))
        (u (wrapLon d.nlonIn (P.col z % d.nlonIn + d.nlonIn / d.nlonOut * wo)) +
          B.alphaNz (nzOff d P t.1 ho wo + (z - P.roff ho)) * (1 / B.alphaSum (scOff d t.1 ho wo)) * dy t.1 ho wo t.2)) (fun _ => 0)) wi
      = gradV d.Ck w (gatherNbrs P d.nlonIn (d.nlonIn / d.nlonOut)) d.nlatOut d.nlonOut (nchw k) (nchw q) (nchw dy) t.1 t.2 hi' wi := by
    intro hi'
    have h := bwdScan_ev (fun u : ℕ → ℝ => u wi) d P hi' (fun (u : ℕ → ℝ) ho z wo =>
      Function.update u (wrapLon d.nlonIn (P.col z % d.nlonIn + d.nlonIn / d.nlonOut * wo))
        (u (wrapLon d.nlonIn (P.col z % d.nlonIn + d.nlonIn / d.nlonOut * wo)) +
          B.alphaNz (nzOff d P t.1 ho wo + (z - P.roff ho)) * (1 / B.alphaSum (scOff d t.1 ho wo)) * dy t.1 ho wo t.2))
      (fun ho z wo => if (P.col z % d.nlonIn + d.nlonIn / d.nlonOut * wo) % d.nlonIn = wi then
        prob d.Ck w (gatherNbrs P d.nlonIn (d.nlonIn / d.nlonOut)) (nchw k) (nchw q) t.1 ho wo
          (nbrOf P d.nlonIn (d.nlonIn / d.nlonOut) wo z) * nchw dy t.1 t.2 ho wo else 0)
      (fun u ho hho z hz wo hwo _ => ?_) (fun _ => 0)
    · rw [h, zero_add]
      exact (gather_grad d P (fun ho wo p => prob d.Ck w (gatherNbrs P d.nlonIn (d.nlonIn / d.nlonOut)) (nchw k) (nchw q) t.1 ho wo p *
        nchw dy t.1 t.2 ho wo) hi' wi _ _ _).symm
    · have e : wrapLon d.nlonIn (P.col z % d.nlonIn + d.nlonIn / d.nlonOut * wo)
          = (P.col z % d.nlonIn + d.nlonIn / d.nlonOut * wo) % d.nlonIn := congrArg Prod.snd (nbrW_eq d P hdiv hwo hin z)
      rw [update_add, (((hB t.1 ht ho hho wo hwo).1) z hz).1, e]
      rfl
  rw [foldl_ev (fun s : T4 => s b hi wi c) _ (fun hi' => if hi' = hi then (if t = (b, c) then
      gradV d.Ck w (gatherNbrs P d.nlonIn (d.nlonIn / d.nlonOut)) d.nlatOut d.nlonOut (nchw k) (nchw q) (nchw dy) b c hi wi else 0)
      else 0) _ (fun s hi' _ => ?_), list_sum_single _ List.nodup_range hi (List.mem_range.2 hhi)]
  rw [hstep]
  by_cases h1 : t = (b, c)
  · subst h1
    by_cases h2 : hi' = hi
    · subst h2
      simp [hwi]
    · rw [if_neg (fun h => h2 h.2.1.symm), if_neg h2, add_zero]
  · rw [if_neg (fun h => h1 (Prod.ext h.1.symm h.2.2.2.symm)), if_neg h1]
    simp

/-- The weight phase B uses. -/
noncomputable def wgt (nb : ℕ → ℕ → List (ℕ × ℕ)) (b ho wo : ℕ) (p : ℕ × ℕ) : ℝ :=
  prob d.Ck w nb (nchw k) (nchw q) b ho wo p * (gdot d.Cv (nchw v) (nchw dy) b ho wo p
    - gbar d.Ck d.Cv w nb (nchw k) (nchw v) (nchw q) (nchw dy) b ho wo)

/-- The body of the scan in phase B. -/
noncomputable def phaseBBody (B : Bufs) (b ci hi : ℕ) (u : (ℕ → ℝ) × (ℕ → ℝ)) (ho z wo : ℕ) : (ℕ → ℝ) × (ℕ → ℝ) :=
  let wip := wrapLon d.nlonIn (P.col z % d.nlonIn + d.nlonIn / d.nlonOut * wo)
  let nz := nzOff d P b ho wo + (z - P.roff ho)
  let invSum := 1 / B.alphaSum (scOff d b ho wo)
  let agOverAs := B.alphaGdotv (scOff d b ho wo) * invSum
  let weight := B.alphaNz nz * invSum * (B.gdotvNz nz - agOverAs)
  (Function.update u.1 wip (u.1 wip + q b ho wo ci * weight),
   Function.update u.2 (ho * d.nlonOut + wo) (u.2 (ho * d.nlonOut + wo) + k b hi wip ci * weight))

theorem phaseB_dk (hdiv : d.nlonIn % d.nlonOut = 0) (hin : 0 < d.nlonIn) (B : Bufs) (hB : GoodBufs d w P k v q dy B)
    (b : ℕ) (hb : b < d.B) (ci hi wi : ℕ) (r : ℕ → ℝ) :
    (bwdScan d P hi (phaseBBody d P k q B b ci hi) ((fun _ => 0), r)).1 wi
      = gradK d.Ck d.Cv w (gatherNbrs P d.nlonIn (d.nlonIn / d.nlonOut)) d.nlatOut d.nlonOut (nchw k) (nchw v) (nchw q) (nchw dy)
        b ci hi wi := by
  have h := bwdScan_ev (fun u : (ℕ → ℝ) × (ℕ → ℝ) => u.1 wi) d P hi (phaseBBody d P k q B b ci hi)
      (fun ho z wo => if (P.col z % d.nlonIn + d.nlonIn / d.nlonOut * wo) % d.nlonIn = wi then
        nchw q b ci ho wo * wgt d w k v q dy (gatherNbrs P d.nlonIn (d.nlonIn / d.nlonOut)) b ho wo
          (nbrOf P d.nlonIn (d.nlonIn / d.nlonOut) wo z) else 0)
      (fun u ho hho z hz wo hwo _ => ?_) ((fun _ => 0), r)
  · rw [h, zero_add]
    rw [← gather_grad d P (fun ho wo p => nchw q b ci ho wo *
      wgt d w k v q dy (gatherNbrs P d.nlonIn (d.nlonIn / d.nlonOut)) b ho wo p) hi wi _ _ _]
    unfold gradK wgt
    refine Finset.sum_congr rfl fun ho _ => Finset.sum_congr rfl fun wo _ => list_sum_congr fun p _ => ?_
    split_ifs
    · ring
    · rfl
  · have e : wrapLon d.nlonIn (P.col z % d.nlonIn + d.nlonIn / d.nlonOut * wo)
          = (P.col z % d.nlonIn + d.nlonIn / d.nlonOut * wo) % d.nlonIn := congrArg Prod.snd (nbrW_eq d P hdiv hwo hin z)
    unfold phaseBBody
    dsimp only
    obtain ⟨h1, h2⟩ := hB b hb ho hho wo hwo
    rw [update_add, (h1 z hz).1, (h1 z hz).2, h2, e]
    rfl

theorem phaseB_dq (hdiv : d.nlonIn % d.nlonOut = 0) (hin : 0 < d.nlonIn)
    (B : Bufs) (hB : GoodBufs d w P k v q dy B)
    (b : ℕ) (hb : b < d.B) (ci hi : ℕ) (r : (ℕ → ℝ) × (ℕ → ℝ)) {ho wo : ℕ} (hho : ho < d.nlatOut) (hwo : wo < d.nlonOut) :
    (bwdScan d P hi (phaseBBody d P k q B b ci hi) r).2 (ho * d.nlonOut + wo)
      = r.2 (ho * d.nlonOut + wo) + ((P.row ho).map fun z => if P.col z / d.nlonIn = hi then
          (let p := nbrOf P d.nlonIn (d.nlonIn / d.nlonOut) wo z
           wgt d w k v q dy (gatherNbrs P d.nlonIn (d.nlonIn / d.nlonOut)) b ho wo p * nchw k b ci p.1 p.2) else 0).sum := by
  have h := bwdScan_ev (fun u : (ℕ → ℝ) × (ℕ → ℝ) => u.2 (ho * d.nlonOut + wo)) d P hi (phaseBBody d P k q B b ci hi)
      (fun ho' z wo' => if ho' = ho then (if wo' = wo then
        (let p := nbrOf P d.nlonIn (d.nlonIn / d.nlonOut) wo z
         wgt d w k v q dy (gatherNbrs P d.nlonIn (d.nlonIn / d.nlonOut)) b ho wo p * nchw k b ci p.1 p.2) else 0) else 0)
      (fun u ho' hho' z hz wo' hwo' hc => ?_) r
  · rw [h, Finset.sum_eq_single ho, Finset.sum_eq_single wo]
    · simp
    · intro x _ hx
      exact list_sum_zero fun z _ => by simp [hx]
    · intro h'; exact absurd (mem_range.2 hwo) h'
    · intro x _ hx
      exact Finset.sum_eq_zero fun y _ => list_sum_zero fun z _ => by simp [hx]
    · intro h'; exact absurd (mem_range.2 hho) h'
  · have e : wrapLon d.nlonIn (P.col z % d.nlonIn + d.nlonIn / d.nlonOut * wo')
          = (P.col z % d.nlonIn + d.nlonIn / d.nlonOut * wo') % d.nlonIn := congrArg Prod.snd (nbrW_eq d P hdiv hwo' hin z)
    unfold phaseBBody
    dsimp only
    obtain ⟨h1, h2⟩ := hB b hb ho' hho' wo' hwo'
    rw [update_add, (h1 z hz).1, (h1 z hz).2, h2, e]
    congr 1
    by_cases e1 : ho' = ho
    · by_cases e2 : wo' = wo
      · subst e1; subst e2
        rw [if_pos rfl, if_pos rfl, if_pos rfl, mul_comm]
        unfold wgt nchw nbrOf
        dsimp only
        rw [hc]
      · rw [if_pos e1, if_neg e2, if_neg (fun h' => e2 (mulAdd_inj h' hwo' hwo).2)]
    · rw [if_neg e1, if_neg (fun h' => e1 (mulAdd_inj h' hwo' hwo).1)]

/-- One iteration of phase B. -/
theorem bwdPhaseB_at (hdiv : d.nlonIn % d.nlonOut = 0) (hin : 0 < d.nlonIn) (hfit : P.Fits d.nlatOut (d.nlatIn * d.nlonIn))
    (B : Bufs) (hB : GoodBufs d w P k v q dy B) (out : T4 × T4) (t : ℕ × ℕ) (ht : t.1 < d.B) (b c : ℕ) :
    (∀ hi < d.nlatIn, ∀ wi < d.nlonIn, (bwdPhaseB d P k q B out t).1 b hi wi c = out.1 b hi wi c + if t = (b, c) then
      gradK d.Ck d.Cv w (gatherNbrs P d.nlonIn (d.nlonIn / d.nlonOut)) d.nlatOut d.nlonOut (nchw k) (nchw v) (nchw q) (nchw dy)
        b c hi wi else 0) ∧
    (∀ ho < d.nlatOut, ∀ wo < d.nlonOut, (bwdPhaseB d P k q B out t).2 b ho wo c = out.2 b ho wo c + if t = (b, c) then
      gradQ d.Ck d.Cv w (gatherNbrs P d.nlonIn (d.nlonIn / d.nlonOut)) (nchw k) (nchw v) (nchw q) (nchw dy) b c ho wo else 0) := by
  constructor
  · intro hi hhi wi hwi
    unfold bwdPhaseB
    dsimp only
    rw [foldl_ev (fun s : T4 × (ℕ → ℝ) => s.1 b hi wi c) _ (fun hi' => if hi' = hi then (if t = (b, c) then
      gradK d.Ck d.Cv w (gatherNbrs P d.nlonIn (d.nlonIn / d.nlonOut)) d.nlatOut d.nlonOut (nchw k) (nchw v) (nchw q) (nchw dy)
        b c hi wi else 0) else 0) _ (fun s hi' _ => ?_), list_sum_single _ List.nodup_range hi (List.mem_range.2 hhi)]
    have hs := phaseB_dk d w P k v q dy hdiv hin B hB t.1 ht t.2 hi' wi s.2
    unfold phaseBBody at hs
    dsimp only at hs ⊢
    rw [hs]
    by_cases h1 : t = (b, c)
    · subst h1
      by_cases h2 : hi' = hi
      · subst h2
        simp [hwi]
      · rw [if_neg (fun h => h2 h.2.1.symm), if_neg h2, add_zero]
    · rw [if_neg (fun h => h1 (Prod.ext h.1.symm h.2.2.2.symm)), if_neg h1]
      simp
  · intro ho hho wo hwo
    unfold bwdPhaseB
    dsimp only
    by_cases h1 : t = (b, c)
    · subst h1
      rw [if_pos ⟨rfl, hho, hwo, rfl⟩, if_pos rfl]
      congr 1
      rw [foldl_ev (fun s : T4 × (ℕ → ℝ) => s.2 (ho * d.nlonOut + wo)) _ (fun hi => ((P.row ho).map fun z => if P.col z / d.nlonIn = hi then
          (let p := nbrOf P d.nlonIn (d.nlonIn / d.nlonOut) wo z
           wgt d w k v q dy (gatherNbrs P d.nlonIn (d.nlonIn / d.nlonOut)) b ho wo p * nchw k b c p.1 p.2) else 0).sum) _
           (fun s hi _ => ?_), zero_add, list_sum_range, ← list_finset_comm]
      · unfold gradQ
        conv_rhs => rw [gatherNbrs_eq, List.map_map]
        refine list_sum_congr fun z hz => ?_
        rw [Finset.sum_ite_eq, if_pos (mem_range.2 ((Nat.div_lt_iff_lt_mul hin).2 (hfit ho hho z hz)))]
        rfl
      · have hs := phaseB_dq d w P k v q dy hdiv hin B hB b ht c hi ((fun _ => 0), s.2) hho hwo
        unfold phaseBBody at hs
        exact hs
    · rw [if_neg (fun h => h1 (Prod.ext h.1.symm h.2.2.2.symm)), if_neg h1, add_zero]

/-- The gather backward kernel, for every schedule of its three parallel phases. -/
theorem cpuBwdKernel_eq (hdiv : d.nlonIn % d.nlonOut = 0) (hin : 0 < d.nlonIn) (hfit : P.Fits d.nlatOut (d.nlatIn * d.nlonIn))
    (fmin : ℝ) (loc : ℕ × ℕ × ℕ → ℕ → ℝ) (orderA : List (ℕ × ℕ × ℕ)) (orderB orderC : List (ℕ × ℕ))
    (hA : ∀ b ho wo, (b, ho, wo) ∈ orderA ↔ b < d.B ∧ ho < d.nlatOut ∧ wo < d.nlonOut)
    (hBn : orderB.Nodup) (hBm : ∀ b c, (b, c) ∈ orderB ↔ b < d.B ∧ c < d.Ck)
    (hCn : orderC.Nodup) (hCm : ∀ b c, (b, c) ∈ orderC ↔ b < d.B ∧ c < d.Cv) :
    let r := cpuBwdKernel d w P k v q dy fmin loc orderA orderB orderC
    let nb := gatherNbrs P d.nlonIn (d.nlonIn / d.nlonOut)
    (∀ b < d.B, ∀ c < d.Ck, ∀ hi < d.nlatIn, ∀ wi < d.nlonIn, r.dk b hi wi c
      = gradK d.Ck d.Cv w nb d.nlatOut d.nlonOut (nchw k) (nchw v) (nchw q) (nchw dy) b c hi wi) ∧
    (∀ b < d.B, ∀ c < d.Cv, ∀ hi < d.nlatIn, ∀ wi < d.nlonIn, r.dv b hi wi c
      = gradV d.Ck w nb d.nlatOut d.nlonOut (nchw k) (nchw q) (nchw dy) b c hi wi) ∧
    (∀ b < d.B, ∀ c < d.Ck, ∀ ho < d.nlatOut, ∀ wo < d.nlonOut, r.dq b ho wo c
      = gradQ d.Ck d.Cv w nb (nchw k) (nchw v) (nchw q) (nchw dy) b c ho wo) := by
  have hgood := phaseA_good d w P k v q dy fmin loc hdiv hin orderA hA ⟨fun _ => 0, fun _ => 0, fun _ => 0, fun _ => 0⟩
  unfold cpuBwdKernel
  dsimp only
  generalize orderA.foldl (bwdPhaseA d w P k v q dy fmin loc) ⟨fun _ => 0, fun _ => 0, fun _ => 0, fun _ => 0⟩ = B at hgood
  refine ⟨fun b hb c hc hi hhi wi hwi => ?_, fun b hb c hc hi hhi wi hwi => ?_, fun b hb c hc ho hho wo hwo => ?_⟩
  · rw [foldl_ev (fun o : T4 × T4 => o.1 b hi wi c) _ _ orderB (fun o t ht =>
      (bwdPhaseB_at d w P k v q dy hdiv hin hfit B hgood o t ((hBm t.1 t.2).1 ht).1 b c).1 hi hhi wi hwi),
      list_sum_single _ hBn _ ((hBm b c).2 ⟨hb, hc⟩), zero_add]
  · rw [foldl_ev (fun o : T4 => o b hi wi c) _ _ orderC (fun o t ht =>
      bwdPhaseC_at d w P k v q dy hdiv hin B hgood o t ((hCm t.1 t.2).1 ht).1 hhi hwi),
      list_sum_single _ hCn _ ((hCm b c).2 ⟨hb, hc⟩), zero_add]
  · rw [foldl_ev (fun o : T4 × T4 => o.2 b ho wo c) _ _ orderB (fun o t ht =>
      (bwdPhaseB_at d w P k v q dy hdiv hin hfit B hgood o t ((hBm t.1 t.2).1 ht).1 b c).2 ho hho wo hwo),
      list_sum_single _ hBn _ ((hBm b c).2 ⟨hb, hc⟩), zero_add]

end

end Verif.Attn
