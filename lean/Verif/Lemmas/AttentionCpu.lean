import Verif.Model.AttentionCpu
import Verif.Lemmas.AttentionRef
/-! The CPU attention kernels compute the specification: forward kernels. -/
namespace Verif.Attn
open Verif Verif.Spec.Attn Finset

/-- The channels-first view of a channels-last tensor. -/
def nchw (x : T4) : T4 := fun b c h w => x b h w c

theorem dotN_score (C : ℕ) (k q : T4) (b ho wo hi wi : ℕ) :
    dotN C q k b ho wo hi wi = score C (nchw k) (nchw q) b ho wo (hi, wi) := rfl

/-! ### Folds -/

/-- Several iterations may write a location: if all of those write `V` and there is one, the location ends up with `V`. -/
theorem foldl_write {σ τ β : Type} (ev : σ → β) (f : σ → τ → σ) (cov : τ → Prop) (V : β) (L : List τ)
    (h1 : ∀ s, ∀ t ∈ L, cov t → ev (f s t) = V) (h2 : ∀ s, ∀ t ∈ L, ¬ cov t → ev (f s t) = ev s) (hex : ∃ t ∈ L, cov t) (s : σ) :
    ev (L.foldl f s) = V := by
  induction L using List.reverseRecOn with
  | nil => obtain ⟨t, ht, _⟩ := hex; simp at ht
  | append_singleton L a ih =>
    rw [List.foldl_append, List.foldl_cons, List.foldl_nil]
    by_cases ha : cov a
    · exact h1 _ a (by simp) ha
    · rw [h2 _ a (by simp) ha]
      refine ih (fun s t ht => h1 s t (by simp [ht])) (fun s t ht => h2 s t (by simp [ht])) ?_
      obtain ⟨t, ht, hc⟩ := hex
      rcases List.mem_append.1 ht with h | h
      · exact ⟨t, h, hc⟩
      · rw [List.mem_singleton] at h; subst h; exact absurd hc ha

/-- A location no iteration writes keeps its content. -/
theorem foldl_keep {σ τ β : Type} (ev : σ → β) (f : σ → τ → σ) (L : List τ) (h2 : ∀ s, ∀ t ∈ L, ev (f s t) = ev s) (s : σ) :
    ev (L.foldl f s) = ev s := by
  induction L generalizing s with
  | nil => rfl
  | cons a L ih => rw [List.foldl_cons, ih (fun s t ht => h2 s t (List.mem_cons_of_mem _ ht)), h2 s a List.mem_cons_self]

/-- `foldl_ev` under an invariant. -/
theorem foldl_evI {σ ι : Type} (I : σ → Prop) (ev : σ → ℝ) (f : σ → ι → σ) (g : ι → ℝ) (L : List ι)
    (h : ∀ s, I s → ∀ e ∈ L, I (f s e) ∧ ev (f s e) = ev s + g e) (s : σ) (hs : I s) :
    I (L.foldl f s) ∧ ev (L.foldl f s) = ev s + (L.map g).sum := by
  induction L generalizing s with
  | nil => exact ⟨hs, by simp⟩
  | cons e L ih =>
    obtain ⟨i1, i2⟩ := h s hs e List.mem_cons_self
    obtain ⟨j1, j2⟩ := ih (fun s hs e' he => h s hs e' (List.mem_cons_of_mem _ he)) (f s e) i1
    refine ⟨j1, ?_⟩
    rw [List.foldl_cons, j2, i2, List.map_cons, List.sum_cons, add_assoc]

/-- A location written by adding to it, by exactly one iteration. -/
theorem list_sum_single {τ : Type} [DecidableEq τ] (L : List τ) (hn : L.Nodup) (a : τ) (ha : a ∈ L) (x : ℝ) :
    (L.map fun t => if t = a then x else 0).sum = x := by
  induction L with
  | nil => simp at ha
  | cons b L ih =>
    rw [List.map_cons, List.sum_cons]
    obtain ⟨hb, hn'⟩ := List.nodup_cons.1 hn
    by_cases h : b = a
    · subst h
      rw [if_pos rfl, list_sum_zero (fun t ht => if_neg (fun e : t = b => hb (e ▸ ht))), add_zero]
    · rw [if_neg h, zero_add]
      exact ih hn' ((List.mem_cons.1 ha).resolve_left (fun e => h e.symm))

theorem mulAdd_inj {n a a' x x' : ℕ} (h : a * n + x = a' * n + x') (hx : x < n) (hx' : x' < n) : a = a' ∧ x = x' := by
  have h1 : a = a' := by
    have e := congrArg (· / n) h
    have hn : 0 < n := by omega
    rw [add_comm (a * n), add_comm (a' * n), Nat.add_mul_div_right _ _ hn, Nat.add_mul_div_right _ _ hn, Nat.div_eq_of_lt hx,
      Nat.div_eq_of_lt hx'] at e
    omega
  subst h1
  exact ⟨rfl, by omega⟩

/-! ### The gather kernel -/

/-- The running values of one output longitude inside a block. -/
def slot (Cv wob : ℕ) (s : Block) : Online :=
  ⟨s.alphaSum wob, s.qdotkMax wob, fun c => if c < Cv then s.yTmp (wob * Cv + c) else 0⟩

/-- The channels of one value vector. -/
def chans (Cv : ℕ) (v : ℕ → ℝ) : ℕ → ℝ := fun c => if c < Cv then v c else 0

theorem wob_ne {Cv a b c : ℕ} (hne : a ≠ b) (hc : c < Cv) : ¬ (b * Cv ≤ a * Cv + c ∧ a * Cv + c < b * Cv + Cv) := by
  rintro ⟨h1, h2⟩
  rcases lt_or_gt_of_ne hne with h | h
  · have := Nat.mul_le_mul_right Cv (Nat.succ_le_of_lt h)
    rw [Nat.succ_mul] at this; omega
  · have := Nat.mul_le_mul_right Cv (Nat.succ_le_of_lt h)
    rw [Nat.succ_mul] at this; omega

theorem slot_wo (d : Dims) (w : ℕ → ℝ) (k v q : T4) (ps b ho hi woStart : ℕ) (s : Block × ℕ) (wo wob : ℕ) :
    slot d.Cv wob (cpuFwdWo d w k v q ps b ho hi woStart s wo).1 = if wob = wo - woStart then
      onlineStep (slot d.Cv wob s.1) (dotN d.Ck q k b ho wo hi s.2) (w hi) (chans d.Cv (v b hi s.2)) else slot d.Cv wob s.1 := by
  by_cases h : wob = wo - woStart
  · subst h
    rw [if_pos rfl]
    simp only [slot, cpuFwdWo, onlineStep, Function.update_self, chans]
    congr 1
    funext c
    by_cases hc : c < d.Cv
    · rw [if_pos hc, if_pos hc, if_pos hc, if_pos ⟨by omega, by omega⟩, Nat.add_sub_cancel_left]
    · simp [if_neg hc]
  · rw [if_neg h]
    simp only [slot, cpuFwdWo, Function.update_of_ne h]
    congr 1
    funext c
    by_cases hc : c < d.Cv
    · rw [if_pos hc, if_pos hc, if_neg (wob_ne h hc)]
    · rw [if_neg hc, if_neg hc]

theorem wip_step {n ps x : ℕ} (hn : 0 < n) (hps : ps ≤ n) :
    (if x % n + ps ≥ n then x % n + ps - n else x % n + ps) = (x + ps) % n := by
  have h1 := Nat.mod_lt x hn
  have e : (x + ps) % n = (x % n + ps) % n := (Nat.mod_add_mod ..).symm
  rw [e]
  generalize x % n = y at h1
  split_ifs with h
  · rw [Nat.mod_eq_sub_mod h, Nat.mod_eq_of_lt (by omega)]
  · rw [Nat.mod_eq_of_lt (by omega)]

theorem slot_wos (d : Dims) (hin : 0 < d.nlonIn) (w : ℕ → ℝ) (k v q : T4) (ps : ℕ) (hps : ps ≤ d.nlonIn) (b ho hi wi woStart : ℕ)
    (s : Block) (n : ℕ) :
    let r := (List.range' woStart n).foldl (cpuFwdWo d w k v q ps b ho hi woStart) (s, (wi + ps * woStart) % d.nlonIn)
    r.2 = (wi + ps * (woStart + n)) % d.nlonIn ∧ ∀ wob, slot d.Cv wob r.1 = if wob < n then
      onlineStep (slot d.Cv wob s) (dotN d.Ck q k b ho (woStart + wob) hi ((wi + ps * (woStart + wob)) % d.nlonIn)) (w hi)
        (chans d.Cv (v b hi ((wi + ps * (woStart + wob)) % d.nlonIn))) else slot d.Cv wob s := by
  induction n with
  | zero => simp
  | succ n ih =>
    obtain ⟨i1, i2⟩ := ih
    dsimp only at i1 i2 ⊢
    rw [List.range'_1_concat, List.foldl_append, List.foldl_cons, List.foldl_nil]
    constructor
    · unfold cpuFwdWo at i1 ⊢
      dsimp only at i1 ⊢
      rw [i1, wip_step hin hps]
      congr 1; ring
    · intro wob
      rw [slot_wo, i2, i1]
      by_cases h : wob = n
      · subst h
        simp
      · have h' : wob ≠ woStart + n - woStart := by omega
        rw [if_neg h']
        by_cases h2 : wob < n
        · rw [if_pos h2, if_pos (by omega)]
        · rw [if_neg h2, if_neg (by omega)]

theorem slot_entry (d : Dims) (hin : 0 < d.nlonIn) (w : ℕ → ℝ) (P : Pattern) (k v q : T4) (ps : ℕ) (hps : ps ≤ d.nlonIn)
    (b ho woStart woEnd : ℕ) (s : Block) (z wob : ℕ) (hwob : wob < woEnd - woStart) :
    slot d.Cv wob (cpuFwdEntry d w P k v q ps b ho woStart woEnd s z)
      = onlineStep (slot d.Cv wob s) (score d.Ck (nchw k) (nchw q) b ho (woStart + wob) (nbrOf P d.nlonIn ps (woStart + wob) z))
        (w (nbrOf P d.nlonIn ps (woStart + wob) z).1)
        (chans d.Cv (v b (nbrOf P d.nlonIn ps (woStart + wob) z).1 (nbrOf P d.nlonIn ps (woStart + wob) z).2)) := by
  have h := (slot_wos d hin w k v q ps hps b ho (P.col z / d.nlonIn) (P.col z % d.nlonIn) woStart s (woEnd - woStart)).2 wob
  rw [if_pos hwob] at h
  exact h

theorem slot_entries (d : Dims) (hin : 0 < d.nlonIn) (w : ℕ → ℝ) (P : Pattern) (k v q : T4) (ps : ℕ) (hps : ps ≤ d.nlonIn)
    (b ho woStart woEnd : ℕ) (L : List ℕ) (s : Block) (wob : ℕ) (hwob : wob < woEnd - woStart) :
    slot d.Cv wob (L.foldl (cpuFwdEntry d w P k v q ps b ho woStart woEnd) s)
      = onlineFold L (fun z => w (nbrOf P d.nlonIn ps (woStart + wob) z).1)
        (fun z => score d.Ck (nchw k) (nchw q) b ho (woStart + wob) (nbrOf P d.nlonIn ps (woStart + wob) z))
        (fun z => chans d.Cv (v b (nbrOf P d.nlonIn ps (woStart + wob) z).1 (nbrOf P d.nlonIn ps (woStart + wob) z).2))
        (slot d.Cv wob s) := by
  induction L generalizing s with
  | nil => rfl
  | cons z L ih => rw [List.foldl_cons, ih, slot_entry d hin w P k v q ps hps b ho woStart woEnd s z wob hwob]; rfl

theorem slot_init (Cv : ℕ) (fmin : ℝ) (mem : ℕ → ℝ) (m wob : ℕ) (h : wob < m) :
    slot Cv wob (blockInit fmin mem (m * Cv)) = ⟨0, fmin, fun _ => 0⟩ := by
  simp only [slot, blockInit]
  congr 1
  funext c
  split_ifs with h1 h2
  · rfl
  · exfalso
    have := Nat.mul_le_mul_right Cv (Nat.succ_le_of_lt h)
    rw [Nat.succ_mul] at this; omega
  · rfl

/-- The output of one block. -/
theorem cpuFwdBlock_at (d : Dims) (hin : 0 < d.nlonIn) (w : ℕ → ℝ) (P : Pattern) (k v q : T4) (fmin : ℝ) (mem : ℕ × ℕ × ℕ → ℕ → ℝ)
    (y : T4) (t : ℕ × ℕ × ℕ) (b ho wo c : ℕ) (hc : c < d.Cv) :
    cpuFwdBlock d w P k v q fmin mem y t b ho wo c =
      if t.1 = b ∧ t.2.1 = ho ∧ t.2.2 * blockSize ≤ wo ∧ wo < min d.nlonOut (t.2.2 * blockSize + blockSize) then
        attention d.Ck w (gatherNbrs P d.nlonIn (d.nlonIn / d.nlonOut)) (nchw k) (nchw v) (nchw q) b c ho wo
      else y b ho wo c := by
  unfold cpuFwdBlock blockWrite
  by_cases h : t.1 = b ∧ t.2.1 = ho ∧ t.2.2 * blockSize ≤ wo ∧ wo < min d.nlonOut (t.2.2 * blockSize + blockSize)
  · obtain ⟨rfl, rfl, h3, h4⟩ := h
    rw [if_pos ⟨rfl, rfl, h3, h4, hc⟩, if_pos ⟨rfl, rfl, h3, h4⟩]
    set woStart := t.2.2 * blockSize
    set woEnd := min d.nlonOut (woStart + blockSize)
    have hs := slot_entries d hin w P k v q (d.nlonIn / d.nlonOut) (Nat.div_le_self _ _) t.1 t.2.1 woStart woEnd (P.row t.2.1)
      (blockInit fmin (mem t) ((woEnd - woStart) * d.Cv)) (wo - woStart) (by omega)
    rw [slot_init _ _ _ _ _ (by omega)] at hs
    have ha := congrArg Online.alphaSum hs
    have hy := congrFun (congrArg Online.y hs) c
    simp only [slot, if_pos hc] at ha hy
    rw [ha, hy, mul_one_div, onlineFold_avg, attention, gatherNbrs_eq, softAvg_map]
    have e : woStart + (wo - woStart) = wo := by omega
    rw [e]
    exact softAvg_congr (fun _ _ => rfl) (fun _ _ => rfl) (fun z _ => by simp [chans, hc, nchw])
  · rw [if_neg h, if_neg (by rintro ⟨h1, h2, h3, h4, _⟩; exact h ⟨h1.symm, h2.symm, h3, h4⟩)]

theorem cpuFwdKernel_eq (d : Dims) (hin : 0 < d.nlonIn) (w : ℕ → ℝ) (P : Pattern) (k v q : T4) (fmin : ℝ)
    (mem : ℕ × ℕ × ℕ → ℕ → ℝ) (order : List (ℕ × ℕ × ℕ))
    (hord : ∀ b < d.B, ∀ ho < d.nlatOut, ∀ bw < nblocks d.nlonOut, (b, ho, bw) ∈ order)
    {b ho wo c : ℕ} (hb : b < d.B) (hho : ho < d.nlatOut) (hwo : wo < d.nlonOut) (hc : c < d.Cv) :
    cpuFwdKernel d w P k v q fmin mem order b ho wo c
      = attention d.Ck w (gatherNbrs P d.nlonIn (d.nlonIn / d.nlonOut)) (nchw k) (nchw v) (nchw q) b c ho wo := by
  unfold cpuFwdKernel
  refine foldl_write (fun y : T4 => y b ho wo c) _ (fun t => t.1 = b ∧ t.2.1 = ho ∧ t.2.2 * blockSize ≤ wo ∧
    wo < min d.nlonOut (t.2.2 * blockSize + blockSize)) _ order (fun y t _ h => ?_) (fun y t _ h => ?_) ?_ _
  · rw [cpuFwdBlock_at d hin _ _ _ _ _ _ _ _ _ _ _ _ _ hc, if_pos h]
  · rw [cpuFwdBlock_at d hin _ _ _ _ _ _ _ _ _ _ _ _ _ hc, if_neg h]
  · refine ⟨(b, ho, wo / blockSize), hord b hb ho hho _ ?_, rfl, rfl, ?_⟩
    · unfold nblocks blockSize; omega
    · unfold blockSize
      dsimp only
      omega

/-! ### The upsampling kernel -/

/-- The filter finds exactly the input longitude whose turned pattern hits the output longitude. -/
theorem upMatch_iff {nlonIn nlonOut ps wc wo wi : ℕ} (hN : nlonOut = ps * nlonIn) (hps : 0 < ps) (hwc : wc < nlonOut)
    (hwo : wo < nlonOut) : upMatch nlonOut ps wc wo = some wi ↔ wi < nlonIn ∧ (wc + ps * wi) % nlonOut = wo := by
  have hpos : 0 < nlonOut := by omega
  unfold upMatch
  dsimp only
  constructor
  · intro h
    split_ifs at h with hd
    obtain rfl := Option.some.inj h
    set D := (wo + nlonOut - wc) % nlonOut with hD
    have hDlt : D < nlonOut := Nat.mod_lt _ hpos
    have hDm : ps * (D / ps) = D := Nat.mul_div_cancel' (Nat.dvd_of_mod_eq_zero hd)
    refine ⟨?_, ?_⟩
    · rw [Nat.div_lt_iff_lt_mul hps]; rw [mul_comm] at hN; omega
    · rw [hDm, hD, Nat.add_mod_mod]
      have : wc + (wo + nlonOut - wc) = wo + nlonOut := by omega
      rw [this, Nat.add_mod_right, Nat.mod_eq_of_lt hwo]
  · rintro ⟨h1, h2⟩
    have hlt : ps * wi < nlonOut := by rw [hN]; exact Nat.mul_lt_mul_of_pos_left h1 hps
    have hD : (wo + nlonOut - wc) % nlonOut = ps * wi := by
      rw [← h2]
      by_cases hc : wc + ps * wi < nlonOut
      · rw [Nat.mod_eq_of_lt hc]
        have : wc + ps * wi + nlonOut - wc = ps * wi + nlonOut := by omega
        rw [this, Nat.add_mod_right, Nat.mod_eq_of_lt hlt]
      · have e : (wc + ps * wi) % nlonOut = wc + ps * wi - nlonOut := by
          rw [Nat.mod_eq_sub_mod (by omega), Nat.mod_eq_of_lt (by omega)]
        rw [e]
        have : wc + ps * wi - nlonOut + nlonOut - wc = ps * wi := by omega
        rw [this, Nat.mod_eq_of_lt hlt]
    rw [hD, if_neg (by simp), Nat.mul_div_cancel_left _ hps]

theorem upBwdMatch_eq {nlonOut ps wc wo : ℕ} (hwc : wc < nlonOut) (hwo : wo < nlonOut) :
    upBwdMatch nlonOut ps wc wo = upMatch nlonOut ps wc wo := by
  unfold upBwdMatch upMatch
  have : (if wo < wc then wo + nlonOut - wc else wo - wc) = (wo + nlonOut - wc) % nlonOut := by
    split_ifs with h
    · rw [Nat.mod_eq_of_lt (by omega)]
    · have : wo + nlonOut - wc = wo - wc + nlonOut := by omega
      rw [this, Nat.add_mod_right, Nat.mod_eq_of_lt (by omega)]
  rw [this]

/-- A sum over all input longitudes that hit is the one term the filter finds. -/
theorem upMatch_sum {nlonIn nlonOut ps wc wo : ℕ} (hN : nlonOut = ps * nlonIn) (hps : 0 < ps) (hwc : wc < nlonOut)
    (hwo : wo < nlonOut) (g : ℕ → ℝ) :
    ∑ wi ∈ range nlonIn, (if (wc + ps * wi) % nlonOut = wo then g wi else 0) = (upMatch nlonOut ps wc wo).elim 0 g := by
  cases h : upMatch nlonOut ps wc wo with
  | none =>
    refine Finset.sum_eq_zero fun wi hwi => if_neg fun e => ?_
    have := (upMatch_iff hN hps hwc hwo).2 ⟨mem_range.1 hwi, e⟩
    rw [h] at this; cases this
  | some x =>
    obtain ⟨h1, h2⟩ := (upMatch_iff hN hps hwc hwo).1 h
    rw [Finset.sum_eq_single x]
    · rw [if_pos h2]; rfl
    · intro wi hwi hne
      refine if_neg fun e => hne ?_
      have := (upMatch_iff hN hps hwc hwo).2 ⟨mem_range.1 hwi, e⟩
      rw [h] at this
      exact (Option.some.inj this).symm
    · intro hx; exact absurd (mem_range.2 h1) hx

/-- Sums over the neighbours of an output cell in the form of the CPU scans. -/
theorem scatter_sum_match (P : Pattern) {nlatIn nlonIn nlonOut ps wo : ℕ} (hN : nlonOut = ps * nlonIn) (hps : 0 < ps)
    (hwo : wo < nlonOut) (ho : ℕ) (g : ℕ × ℕ → ℝ) :
    ((scatterNbrs P nlatIn nlonIn nlonOut ps ho wo).map g).sum = ∑ hi ∈ range nlatIn, ((P.row hi).map fun z =>
      if P.col z / nlonOut = ho then (upMatch nlonOut ps (P.col z % nlonOut) wo).elim 0 (fun wi => g (hi, wi)) else 0).sum := by
  rw [scatter_sum]
  refine Finset.sum_congr rfl fun hi _ => ?_
  rw [← list_finset_comm]
  refine list_sum_congr fun z _ => ?_
  split_ifs with h
  · rw [← upMatch_sum hN hps (Nat.mod_lt _ (by omega)) hwo (fun wi => g (hi, wi))]
    refine Finset.sum_congr rfl fun wi _ => ?_
    unfold outOf
    rw [h]
    simp
  · refine Finset.sum_eq_zero fun wi _ => if_neg ?_
    unfold outOf
    rw [Prod.mk.injEq]
    exact fun e => h e.1

theorem list_sum_range' (a n j : ℕ) (h1 : a ≤ j) (h2 : j < a + n) (g : ℕ → ℝ) :
    ((List.range' a n).map fun x => if x = j then g x else 0).sum = g j := by
  have : ((List.range' a n).map fun x => if x = j then g x else 0).sum = ((List.range' a n).map fun x => if x = j then g j else 0).sum :=
    list_sum_congr fun x _ => by split_ifs with h <;> simp [h]
  rw [this, list_sum_single _ (List.nodup_range' ..) j (by rw [List.mem_range'_1]; omega)]

/-- The scan adds one term per matching triple. -/
theorem upBlockLoop_ev {σ : Type} (I : σ → Prop) (ev : σ → ℝ) (d : Dims) (P : Pattern) (ho woStart woEnd : ℕ)
    (body : σ → ℕ → ℕ → ℕ → σ) (g : ℕ → ℕ → ℕ → ℝ)
    (h : ∀ s, I s → ∀ hi wi wo, woStart ≤ wo → wo < woEnd → I (body s hi wi wo) ∧ ev (body s hi wi wo) = ev s + g hi wi wo)
    (s : σ) (hs : I s) :
    I (upBlockLoop d P ho woStart woEnd body s) ∧ ev (upBlockLoop d P ho woStart woEnd body s) = ev s +
      ∑ hi ∈ range d.nlatIn, ((P.row hi).map fun z => if P.col z / d.nlonOut = ho then
        ((List.range' woStart (woEnd - woStart)).map fun wo =>
          (upMatch d.nlonOut (d.nlonOut / d.nlonIn) (P.col z % d.nlonOut) wo).elim 0 (fun wi => g hi wi wo)).sum else 0).sum := by
  unfold upBlockLoop
  rw [← list_sum_range]
  refine foldl_evI I ev _ _ _ (fun s hs hi _ => ?_) s hs
  refine foldl_evI I ev _ _ _ (fun s hs z _ => ?_) s hs
  by_cases hz : P.col z / d.nlonOut = ho
  · rw [if_neg (not_not.2 hz), if_pos hz]
    refine foldl_evI I ev _ _ _ (fun s hs wo hwo => ?_) s hs
    rw [List.mem_range'_1] at hwo
    cases hm : upMatch d.nlonOut (d.nlonOut / d.nlonIn) (P.col z % d.nlonOut) wo with
    | none => exact ⟨hs, (add_zero _).symm⟩
    | some wi => exact h s hs hi wi wo hwo.1 (by omega)
  · rw [if_pos hz, if_neg hz]
    exact ⟨hs, (add_zero _).symm⟩

/-- The second pass of the upsampling block, at one output longitude. -/
theorem upBlock_pass2 (d : Dims) (hdiv : d.nlonOut % d.nlonIn = 0) (w : ℕ → ℝ) (P : Pattern) (k v q : T4)
    (b ho woStart woEnd wo : ℕ) (hend : woEnd ≤ d.nlonOut) (h1 : woStart ≤ wo) (h2 : wo < woEnd) (s0 : Block)
    (body : Block → ℕ → ℕ → ℕ → Block) (hbody : body = fun (s : Block) hi wi wo =>
      let wob := wo - woStart
      let alpha := Real.exp (dotN d.Ck q k b ho wo hi wi - s.qdotkMax wob) * w hi
      { s with
        alphaSum := Function.update s.alphaSum wob (s.alphaSum wob + alpha)
        yTmp := fun i => if wob * d.Cv ≤ i ∧ i < wob * d.Cv + d.Cv then s.yTmp i + alpha * v b hi wi (i - wob * d.Cv)
          else s.yTmp i }) :
    let nb := scatterNbrs P d.nlatIn d.nlonIn d.nlonOut (d.nlonOut / d.nlonIn) ho wo
    let r := upBlockLoop d P ho woStart woEnd body s0
    r.alphaSum (wo - woStart) = s0.alphaSum (wo - woStart) + (nb.map fun p =>
      Real.exp (score d.Ck (nchw k) (nchw q) b ho wo p - s0.qdotkMax (wo - woStart)) * w p.1).sum ∧
    ∀ c < d.Cv, r.yTmp ((wo - woStart) * d.Cv + c) = s0.yTmp ((wo - woStart) * d.Cv + c) + (nb.map fun p =>
      Real.exp (score d.Ck (nchw k) (nchw q) b ho wo p - s0.qdotkMax (wo - woStart)) * w p.1 * nchw v b c p.1 p.2).sum := by
  have hmul : d.nlonOut = d.nlonOut / d.nlonIn * d.nlonIn := (Nat.div_mul_cancel (Nat.dvd_of_mod_eq_zero hdiv)).symm
  have hps : 0 < d.nlonOut / d.nlonIn := by
    rcases Nat.eq_zero_or_pos (d.nlonOut / d.nlonIn) with h | h
    · rw [h, zero_mul] at hmul; omega
    · exact h
  have hcollapse : ∀ g : ℕ → ℕ → ℝ, (∑ hi ∈ range d.nlatIn, ((P.row hi).map fun z => if P.col z / d.nlonOut = ho then
        ((List.range' woStart (woEnd - woStart)).map fun wo' =>
          (upMatch d.nlonOut (d.nlonOut / d.nlonIn) (P.col z % d.nlonOut) wo').elim 0
            (fun wi => if wo' = wo then g hi wi else 0)).sum else 0).sum)
      = ((scatterNbrs P d.nlatIn d.nlonIn d.nlonOut (d.nlonOut / d.nlonIn) ho wo).map fun p => g p.1 p.2).sum := by
    intro g
    rw [scatter_sum_match P hmul hps (by omega) ho]
    refine Finset.sum_congr rfl fun hi _ => list_sum_congr fun z _ => ?_
    split_ifs with hz
    · rw [← list_sum_range' woStart (woEnd - woStart) wo h1 (by omega)
        (fun wo' => (upMatch d.nlonOut (d.nlonOut / d.nlonIn) (P.col z % d.nlonOut) wo').elim 0 (fun wi => g hi wi))]
      refine list_sum_congr fun wo' _ => ?_
      cases upMatch d.nlonOut (d.nlonOut / d.nlonIn) (P.col z % d.nlonOut) wo' <;> simp
    · rfl
  dsimp only
  constructor
  · have h := (upBlockLoop_ev (fun s : Block => s.qdotkMax = s0.qdotkMax) (fun s : Block => s.alphaSum (wo - woStart)) d P ho woStart
      woEnd body (fun hi wi wo' => if wo' = wo then
        Real.exp (score d.Ck (nchw k) (nchw q) b ho wo (hi, wi) - s0.qdotkMax (wo - woStart)) * w hi else 0)
      (fun s hs hi wi wo' h3 h4 => ?_) s0 rfl).2
    · rw [h, hcollapse (fun hi wi => Real.exp (score d.Ck (nchw k) (nchw q) b ho wo (hi, wi) - s0.qdotkMax (wo - woStart)) * w hi)]
    · subst hbody
      refine ⟨hs, ?_⟩
      dsimp only
      by_cases e : wo' = wo
      · subst e
        rw [Function.update_self, if_pos rfl, hs, dotN_score]
      · rw [Function.update_of_ne (by omega), if_neg e, add_zero]
  · intro c hc
    have h := (upBlockLoop_ev (fun s : Block => s.qdotkMax = s0.qdotkMax) (fun s : Block => s.yTmp ((wo - woStart) * d.Cv + c)) d P ho
      woStart woEnd body (fun hi wi wo' => if wo' = wo then
        Real.exp (score d.Ck (nchw k) (nchw q) b ho wo (hi, wi) - s0.qdotkMax (wo - woStart)) * w hi * nchw v b c hi wi else 0)
      (fun s hs hi wi wo' h3 h4 => ?_) s0 rfl).2
    · rw [h, hcollapse (fun hi wi => Real.exp (score d.Ck (nchw k) (nchw q) b ho wo (hi, wi) - s0.qdotkMax (wo - woStart)) * w hi *
        nchw v b c hi wi)]
    · subst hbody
      refine ⟨hs, ?_⟩
      dsimp only
      by_cases e : wo' = wo
      · subst e
        rw [if_pos ⟨by omega, by omega⟩, if_pos rfl, hs, dotN_score, Nat.add_sub_cancel_left]
        rfl
      · rw [if_neg (wob_ne (by omega) hc), if_neg e, add_zero]

theorem cpuUpBlock_at (d : Dims) (hdiv : d.nlonOut % d.nlonIn = 0) (w : ℕ → ℝ) (P : Pattern) (k v q : T4) (fmin : ℝ)
    (mem : ℕ × ℕ × ℕ → ℕ → ℝ) (y : T4) (t : ℕ × ℕ × ℕ) (b ho wo c : ℕ) (hc : c < d.Cv) :
    cpuUpBlock d w P k v q fmin mem y t b ho wo c =
      if t.1 = b ∧ t.2.1 = ho ∧ t.2.2 * blockSize ≤ wo ∧ wo < min d.nlonOut (t.2.2 * blockSize + blockSize) then
        attention d.Ck w (scatterNbrs P d.nlatIn d.nlonIn d.nlonOut (d.nlonOut / d.nlonIn)) (nchw k) (nchw v) (nchw q) b c ho wo
      else y b ho wo c := by
  unfold cpuUpBlock blockWrite
  dsimp only
  by_cases h : t.1 = b ∧ t.2.1 = ho ∧ t.2.2 * blockSize ≤ wo ∧ wo < min d.nlonOut (t.2.2 * blockSize + blockSize)
  · obtain ⟨rfl, rfl, h3, h4⟩ := h
    rw [if_pos ⟨rfl, rfl, h3, h4, hc⟩, if_pos ⟨rfl, rfl, h3, h4⟩]
    set woStart := t.2.2 * blockSize
    set woEnd := min d.nlonOut (woStart + blockSize)
    generalize hmx : upBlockLoop d P t.2.1 woStart woEnd _ (blockInit fmin (mem t) ((woEnd - woStart) * d.Cv)).qdotkMax = mx
    have hp := upBlock_pass2 d hdiv w P k v q t.1 t.2.1 woStart woEnd wo (min_le_left _ _) h3 h4
      { blockInit fmin (mem t) ((woEnd - woStart) * d.Cv) with qdotkMax := mx } _ rfl
    dsimp only at hp
    have hy := hp.2 c hc
    have hi := congrFun (congrArg Online.y (slot_init d.Cv fmin (mem t) (woEnd - woStart) (wo - woStart) (by omega))) c
    simp only [slot, if_pos hc] at hi
    rw [hp.1, hy, hi, mul_one_div]
    simp only [blockInit, zero_add]
    exact softAvg_shifted _ (fun p : ℕ × ℕ => w p.1) _ _ _
  · rw [if_neg h, if_neg (by rintro ⟨h1, h2, h3, h4, _⟩; exact h ⟨h1.symm, h2.symm, h3, h4⟩)]

theorem cpuUpFwdKernel_eq (d : Dims) (hdiv : d.nlonOut % d.nlonIn = 0) (w : ℕ → ℝ) (P : Pattern) (k v q : T4)
    (fmin : ℝ) (mem : ℕ × ℕ × ℕ → ℕ → ℝ) (order : List (ℕ × ℕ × ℕ))
    (hord : ∀ b < d.B, ∀ ho < d.nlatOut, ∀ bw < nblocks d.nlonOut, (b, ho, bw) ∈ order)
    {b ho wo c : ℕ} (hb : b < d.B) (hho : ho < d.nlatOut) (hwo : wo < d.nlonOut) (hc : c < d.Cv) :
    cpuUpFwdKernel d w P k v q fmin mem order b ho wo c
      = attention d.Ck w (scatterNbrs P d.nlatIn d.nlonIn d.nlonOut (d.nlonOut / d.nlonIn)) (nchw k) (nchw v) (nchw q) b c ho wo := by
  unfold cpuUpFwdKernel
  refine foldl_write (fun y : T4 => y b ho wo c) _ (fun t => t.1 = b ∧ t.2.1 = ho ∧ t.2.2 * blockSize ≤ wo ∧
    wo < min d.nlonOut (t.2.2 * blockSize + blockSize)) _ order (fun y t _ h => ?_) (fun y t _ h => ?_) ?_ _
  · rw [cpuUpBlock_at d hdiv _ _ _ _ _ _ _ _ _ _ _ _ _ hc, if_pos h]
  · rw [cpuUpBlock_at d hdiv _ _ _ _ _ _ _ _ _ _ _ _ _ hc, if_neg h]
  · refine ⟨(b, ho, wo / blockSize), hord b hb ho hho _ ?_, rfl, rfl, ?_⟩
    · unfold nblocks blockSize; omega
    · unfold blockSize
      dsimp only
      omega

end Verif.Attn
