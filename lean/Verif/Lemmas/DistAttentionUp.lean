import Verif.Lemmas.DistAttention
/-!
The upsampling direction of ring attention.
-/
namespace Verif.Ring
open Verif Verif.Dist Verif.Attn Verif.Spec Verif.Spec.Attn Verif.Spec.Ring Finset

theorem Inv.perm {L L' : List Pt} {s : Acc} (h : Inv L s) (hp : L.Perm L') : Inv L' s := by
  rcases h with ⟨rfl, rfl⟩ | ⟨m, h1, h2, h3⟩
  · rw [List.nil_perm] at hp; subst hp; exact Inv.init
  · exact Or.inr ⟨m, h1, by rw [h2, (hp.map _).sum_eq], fun c => by rw [h3 c, (hp.map _).sum_eq]⟩

theorem upMax_cell (pt : Edge → Pt) (L : List Edge) (m : ℕ × ℕ → Option ℝ) (c : ℕ × ℕ) :
    upMax pt L m c = phaseMax (m c) ((L.filter fun e => e.cell = c).map pt) := by
  unfold upMax phaseMax
  rw [foldl_update_cell L (fun e => e.cell) (fun e x => some (maxInf x (pt e).q)), List.foldl_map]

theorem upAdd_cell (pt : Edge → Pt) (L : List Edge) (s : ℕ × ℕ → Acc) (c : ℕ × ℕ) :
    upAdd pt L s c = ((L.filter fun e => e.cell = c).map pt).foldl phaseAdd (s c) := by
  unfold upAdd
  rw [foldl_update_cell L (fun e => e.cell) (fun e x => phaseAdd x (pt e)), List.foldl_map]

/-- The points that one launch adds to an output point. -/
def upPts (psi : Pattern) (w : ℕ → ℝ) (g : Grids) (lonLo nlonOutLocal : ℕ) (start : ℤ) (q k v : RTen) (b : ℕ) (c : ℕ × ℕ) : List Pt :=
  ((upEdges psi g.nlonOut (g.nlonOut / g.nlonIn) lonLo nlonOutLocal k.H k.W).filter fun e => e.cell = c).map (upPt w start k v q b)

theorem Inv.upKernel {L : List Pt} {acc : ℕ → ℕ × ℕ → Acc} {b : ℕ} {c : ℕ × ℕ} (h : Inv L (acc b c)) {ln : UpLaunch} (hok : UpLaunchOK ln)
    (psi : Pattern) (w : ℕ → ℝ) (g : Grids) (lonLo nlonOutLocal : ℕ) (start : ℤ) (q k v : RTen) :
    Inv (L ++ upPts psi w g lonLo nlonOutLocal start q k v b c) (upKernel psi w g lonLo nlonOutLocal start ln q k v acc b c) := by
  unfold Ring.upKernel upPts
  rw [upAdd_cell, upMax_cell]
  set edges := upEdges psi g.nlonOut (g.nlonOut / g.nlonIn) lonLo nlonOutLocal k.H k.W
  refine (h.phases (L3 := ((ln.order3 edges).filter fun e => e.cell = c).map (upPt w start k v q b)) ?_).perm ?_
  · exact (((hok.max edges).trans (hok.add edges).symm).filter _).map _
  · exact List.Perm.append_left L (((hok.add edges).filter _).map _)

/-! ### The local pattern -/

theorem sorted_split (L : List (ℕ × ℕ)) (hs : L.Pairwise fun a b => a.1 ≤ b.1) (h : ℕ) :
    L = (L.filter fun e => e.1 < h) ++ L.filter fun e => ¬ e.1 < h := by
  induction L with
  | nil => rfl
  | cons a L ih =>
    rw [List.pairwise_cons] at hs
    by_cases ha : a.1 < h
    · rw [List.filter_cons_of_pos (by simpa using ha), List.filter_cons_of_neg (by simpa using ha), List.cons_append, ← ih hs.2]
    · have h1 : ∀ e ∈ a :: L, ¬ e.1 < h := by
        intro e he
        rcases List.mem_cons.1 he with rfl | he
        · exact ha
        · have := hs.1 e he; omega
      rw [List.filter_eq_nil_iff.2 (by intro e he; simpa using h1 e he), List.nil_append,
        List.filter_eq_self.2 (by intro e he; simpa using h1 e he)]

theorem count_step (L : List (ℕ × ℕ)) (h : ℕ) :
    (L.countP fun e => e.1 < h) + (L.countP fun e => e.1 = h) = L.countP fun e => e.1 < h + 1 := by
  induction L with
  | nil => rfl
  | cons a L ih =>
    simp only [List.countP_cons, decide_eq_true_eq]
    split_ifs <;> omega

theorem count_lt (L : List (ℕ × ℕ)) (h : ℕ) : ∑ i ∈ range h, (L.countP fun e => e.1 = i) = (L.filter fun e => e.1 < h).length := by
  rw [← List.countP_eq_length_filter]
  induction h with
  | zero => simp
  | succ h ih => rw [Finset.sum_range_succ, ih, count_step]

theorem range'_getD {α : Type} (A B C : List α) (d : α) : (List.range' A.length B.length).map (fun z => (A ++ B ++ C).getD z d) = B := by
  refine List.ext_getElem (by simp) fun i h1 h2 => ?_
  simp only [List.getElem_map, List.getElem_range', Nat.one_mul]
  rw [List.append_assoc, List.getD_append_right _ _ _ _ (by omega), Nat.add_sub_cancel_left, List.getD_append _ _ _ _ (by simpa using h2),
    List.getD_eq_getElem _ _ (by simpa using h2)]

theorem localPsiUp_row (sel : List (ℕ × ℕ)) (hs : sel.Pairwise fun a b => a.1 ≤ b.1) (h : ℕ) :
    ((localPsiUp sel).row h).map (localPsiUp sel).col = (sel.filter fun e => e.1 = h).map fun e => e.2 := by
  have h1 := sorted_split sel hs h
  have h2 := sorted_split (sel.filter fun e => ¬ e.1 < h) (hs.filter _) (h + 1)
  rw [List.filter_filter, List.filter_filter] at h2
  have e1 : (sel.filter fun e => e.1 = h) = sel.filter fun e => decide (e.1 < h + 1) && decide (¬ e.1 < h) := by
    refine List.filter_congr fun e _ => ?_
    rw [← Bool.decide_and]
    exact decide_eq_decide.2 (by omega)
  unfold Pattern.row localPsiUp
  dsimp only
  rw [Finset.sum_range_succ, Nat.add_sub_cancel_left, count_lt, List.countP_eq_length_filter, e1]
  rw [h2, ← List.append_assoc] at h1
  have := range'_getD ((sel.filter fun e => e.1 < h).map fun e => e.2)
    ((sel.filter fun e => decide (e.1 < h + 1) && decide (¬ e.1 < h)).map fun e => e.2)
    ((sel.filter fun e => decide (¬ e.1 < h + 1) && decide (¬ e.1 < h)).map fun e => e.2) 0
  rw [← List.map_append, ← List.map_append, ← h1, List.length_map, List.length_map] at this
  exact this

theorem localPsiUp_sum (sel : List (ℕ × ℕ)) (hs : sel.Pairwise fun a b => a.1 ≤ b.1) (H : ℕ) (hH : ∀ e ∈ sel, e.1 < H) (f : ℕ → ℕ → ℝ) :
    ∑ h ∈ range H, (((localPsiUp sel).row h).map fun z => f h ((localPsiUp sel).col z)).sum = (sel.map fun e => f e.1 e.2).sum := by
  have : ∀ h, (((localPsiUp sel).row h).map fun z => f h ((localPsiUp sel).col z)).sum = (sel.map fun e => if e.1 = h then f e.1 e.2 else 0).sum := by
    intro h
    rw [← list_sum_filter sel (fun e => e.1 = h) (fun e => f e.1 e.2)]
    have e := congrArg (List.map (f h)) (localPsiUp_row sel hs h)
    rw [List.map_map, List.map_map] at e
    simp only [Function.comp_def] at e
    rw [e]
    refine list_sum_congr fun x hx => ?_
    have := (List.mem_filter.1 hx).2
    rw [of_decide_eq_true this]
  simp only [this]
  rw [← list_finset_comm]
  refine list_sum_congr fun e he => ?_
  rw [Finset.sum_eq_single e.1]
  · rw [if_pos rfl]
  · intro h _ hne; rw [if_neg (Ne.symm hne)]
  · intro h; exact absurd (Finset.mem_range.2 (hH e he)) h

theorem entriesOf_sorted (P : Pattern) (n : ℕ) : (entriesOf P n).Pairwise fun a b => a.1 ≤ b.1 := by
  unfold entriesOf
  rw [List.pairwise_flatMap]
  refine ⟨fun hi _ => ?_, ?_⟩
  · rw [List.pairwise_map]
    exact List.pairwise_of_forall fun _ _ => le_refl hi
  · refine List.pairwise_lt_range.imp ?_
    intro a b hab x hx y hy
    obtain ⟨_, _, rfl⟩ := List.mem_map.1 hx
    obtain ⟨_, _, rfl⟩ := List.mem_map.1 hy
    exact le_of_lt hab

theorem selectUp_sorted (P : Pattern) (g : Grids) (latLo nlatLocal lonLo : ℕ) (start : ℤ) (nlatHalo : ℕ) :
    (selectUp P g latLo nlatLocal lonLo start nlatHalo).Pairwise fun a b => a.1 ≤ b.1 := by
  unfold selectUp
  rw [List.pairwise_filterMap]
  refine (entriesOf_sorted P g.nlatIn).imp ?_
  intro a b hab x hx y hy
  dsimp only at hx hy
  split at hx
  · split at hy
    · simp only [Option.some.injEq] at hx hy
      subst hx hy
      dsimp only
      omega
    · simp at hy
  · simp at hx

theorem selectUp_lt (P : Pattern) (g : Grids) (latLo nlatLocal lonLo : ℕ) (start : ℤ) (nlatHalo : ℕ) :
    ∀ e ∈ selectUp P g latLo nlatLocal lonLo start nlatHalo, e.1 < nlatHalo := by
  intro e he
  obtain ⟨a, _, h⟩ := List.mem_filterMap.1 he
  dsimp only at h
  split at h
  · rename_i hc
    simp only [Option.some.injEq] at h
    subst h
    dsimp only
    omega
  · simp at h

theorem selectUp_sum (P : Pattern) (g : Grids) (latLo nlatLocal lonLo : ℕ) (start : ℤ) (nlatHalo : ℕ) (f : ℕ → ℕ → ℝ) :
    ((selectUp P g latLo nlatLocal lonLo start nlatHalo).map fun e => f e.1 e.2).sum =
      ∑ hi ∈ range g.nlatIn, ((P.row hi).map fun z =>
        if P.col z / g.nlonOut ≥ latLo ∧ P.col z / g.nlonOut < latLo + nlatLocal ∧ (hi : ℤ) - start ≥ 0 ∧ (hi : ℤ) - start < nlatHalo then
          f ((hi : ℤ) - start).toNat ((P.col z / g.nlonOut - latLo) * g.nlonOut +
            ((((P.col z - P.col z / g.nlonOut * g.nlonOut : ℕ) : ℤ) - lonLo) % g.nlonOut).toNat)
        else 0).sum := by
  unfold selectUp
  rw [list_sum_filterMap]
  unfold entriesOf
  rw [list_sum_flatMap, list_sum_range]
  refine Finset.sum_congr rfl fun hi _ => ?_
  rw [List.map_map]
  refine list_sum_congr fun z _ => ?_
  simp only [Function.comp_def]
  split <;> rfl

/-- A turned column lands on the local output longitude `wo` exactly when the global one does. -/
theorem upLocalWo_iff {n c lonLo ps wi nl wo : ℕ} (hn : 0 < n) (hlo : lonLo + wo < n) (hwo : wo < nl) (hps : ps * wi < n) :
    upLocalWo (((((c - c / n * n : ℕ) : ℤ) - lonLo) % n).toNat) wi ps n nl = some wo ↔ (c % n + ps * wi) % n = lonLo + wo := by
  have hm : c - c / n * n = c % n := by
    have := Nat.div_add_mod c n
    rw [Nat.mul_comm] at this; omega
  rw [hm]
  have hx : ((((c % n : ℕ) : ℤ) - lonLo) % n).toNat = (c % n + (n - lonLo)) % n := by
    have : (((c % n : ℕ) : ℤ) - lonLo) % n = (((c % n + (n - lonLo)) % n : ℕ) : ℤ) := by
      rw [Int.natCast_emod (c % n + (n - lonLo)) n, Nat.cast_add, Nat.cast_sub (by omega : lonLo ≤ n)]
      rw [show ((c % n : ℕ) : ℤ) + ((n : ℤ) - lonLo) = ((c % n : ℕ) : ℤ) - lonLo + n by ring, Int.add_emod_right]
    rw [this, Int.toNat_natCast]
  rw [hx]
  set x := (c % n + (n - lonLo)) % n with hxd
  have hxlt : x < n := Nat.mod_lt _ hn
  unfold upLocalWo
  dsimp only
  have hw : (if x + ps * wi ≥ n then x + ps * wi - n else x + ps * wi) = (x + ps * wi) % n := by
    split
    · rename_i h; rw [Nat.mod_eq_sub_mod h, Nat.mod_eq_of_lt (by omega)]
    · rename_i h; rw [Nat.mod_eq_of_lt (by omega)]
  rw [hw]
  have hcong : (lonLo + (x + ps * wi)) % n = (c % n + ps * wi) % n := by
    have h1 : lonLo + (x + ps * wi) ≡ lonLo + ((c % n + (n - lonLo)) + ps * wi) [MOD n] :=
      Nat.ModEq.add_left _ (Nat.ModEq.add_right _ (Nat.mod_modEq _ _))
    have h2 : lonLo + ((c % n + (n - lonLo)) + ps * wi) = c % n + ps * wi + n := by omega
    rw [h2] at h1
    have h3 : (lonLo + (x + ps * wi)) % n = (c % n + ps * wi + n) % n := h1
    rw [h3, Nat.add_mod_right]
  have hmlt := Nat.mod_lt (x + ps * wi) hn
  constructor
  · intro h
    split at h
    · rw [Option.some.injEq] at h
      rw [← hcong, Nat.add_mod, h, Nat.mod_eq_of_lt (show lonLo < n by omega), Nat.mod_eq_of_lt hlo]
    · simp at h
  · intro h
    rw [← hcong] at h
    have h1 : lonLo + (x + ps * wi) ≡ lonLo + wo [MOD n] := by
      unfold Nat.ModEq; rw [h, Nat.mod_eq_of_lt hlo]
    have h2 : (x + ps * wi) % n = wo % n := Nat.ModEq.add_left_cancel' lonLo h1
    rw [Nat.mod_eq_of_lt (show wo < n by omega)] at h2
    rw [h2, if_pos hwo]

/-- Sum over the scatter operations of one launch that go to an output point. -/
theorem upEdges_sum (psi : Pattern) (nlonOut ps lonLo nl H W : ℕ) (ho wo : ℕ) (F : Edge → ℝ) :
    (((upEdges psi nlonOut ps lonLo nl H W).filter fun e => e.cell = (ho, wo)).map F).sum = ∑ wi ∈ range W, ∑ hi ∈ range H, ((psi.row hi).map fun z =>
      if psi.col z / nlonOut = ho ∧
          upLocalWo (psi.col z - psi.col z / nlonOut * nlonOut) (lonLo + wi) ps nlonOut nl = some wo then
        F ⟨(ho, wo), (hi, wi)⟩ else 0).sum := by
  rw [list_sum_filter]
  unfold upEdges
  rw [list_sum_flatMap, list_sum_range, Finset.sum_comm]
  refine Finset.sum_congr rfl fun hi _ => ?_
  rw [list_sum_flatMap, list_sum_range]
  refine Finset.sum_congr rfl fun wi _ => ?_
  rw [list_sum_filterMap]
  refine list_sum_congr fun z _ => ?_
  dsimp only
  cases h : upLocalWo (psi.col z - psi.col z / nlonOut * nlonOut) (lonLo + wi) ps nlonOut nl with
  | none => simp
  | some wo' =>
    simp only [Option.elim, Prod.mk.injEq, Option.some.injEq]
    by_cases hc : psi.col z / nlonOut = ho ∧ wo' = wo
    · obtain ⟨rfl, rfl⟩ := hc
      rw [if_pos ⟨rfl, rfl⟩]
    · rw [if_neg hc, if_neg hc]

/-- Sum over the points that one launch adds to an output point. -/
theorem upPts_sum (psi : Pattern) (w : ℕ → ℝ) (g : Grids) (lonLo nl : ℕ) (start : ℤ) (q k v : RTen) (b : ℕ) (ho wo : ℕ) (F : Pt → ℝ) :
    ((upPts psi w g lonLo nl start q k v b (ho, wo)).map F).sum = ∑ wi ∈ range k.W, ∑ hi ∈ range k.H, ((psi.row hi).map fun z =>
      if psi.col z / g.nlonOut = ho ∧
          upLocalWo (psi.col z - psi.col z / g.nlonOut * g.nlonOut) (lonLo + wi) (g.nlonOut / g.nlonIn) g.nlonOut nl = some wo then
        F (upPt w start k v q b ⟨(ho, wo), (hi, wi)⟩) else 0).sum := by
  unfold upPts
  rw [List.map_map]
  exact upEdges_sum psi _ _ _ _ _ _ ho wo fun e => F (upPt w start k v q b e)

theorem scatterNbrs_sum (P : Pattern) (nlatIn nlonIn nlonOut ps ho wo : ℕ) (G : ℕ × ℕ → ℝ) :
    ((scatterNbrs P nlatIn nlonIn nlonOut ps ho wo).map G).sum = ∑ hi ∈ range nlatIn, ∑ wi ∈ range nlonIn, ((P.row hi).map fun z =>
      if P.col z / nlonOut = ho ∧ (P.col z % nlonOut + ps * wi) % nlonOut = wo then G (hi, wi) else 0).sum := by
  unfold scatterNbrs
  rw [list_sum_flatMap, list_sum_range]
  refine Finset.sum_congr rfl fun hi _ => ?_
  rw [list_sum_flatMap, list_sum_range]
  refine Finset.sum_congr rfl fun wi _ => ?_
  rw [List.map_map, list_sum_filter]
  rfl

/-- The sums of any function over the chunks add up to its sum over the neighbours of the output point. -/
theorem up_key {Pp Pa : ℕ} (g : Grids) (hPa : 0 < Pa) {P : Pattern} (h0 : 0 < g.nlonOut) (hdvd : g.nlonOut % g.nlonIn = 0) (r p a : ℕ)
    (ha : a < Pa)
    (hr : ∀ hi < g.nlatIn, ∀ z ∈ P.row hi, blockStart g.nlatOut Pp p ≤ P.col z / g.nlonOut →
      P.col z / g.nlonOut < blockStart g.nlatOut Pp p + blockSize g.nlatOut Pp p →
      blockStart g.nlatIn Pp p ≤ hi + r ∧ hi < blockStart g.nlatIn Pp p + blockSize g.nlatIn Pp p + r)
    {ho wo : ℕ} (hho : ho < blockSize g.nlatOut Pp p) (hwo : wo < blockSize g.nlonOut Pa a) (Φ : ℕ → ℕ × ℕ → ℝ) (G : ℕ × ℕ → ℝ)
    (hFG : ∀ s0 < Pa, ∀ hi < g.nlatIn, ∀ hl, ∀ wi < blockSize g.nlonIn Pa s0,
        hl < blockSize g.nlatIn Pp p + 2 * r → hi + r = blockStart g.nlatIn Pp p + hl → Φ s0 (hl, wi) = G (hi, blockStart g.nlonIn Pa s0 + wi)) :
    ∑ s ∈ range Pa, (((upEdges (localPsiUp (selectUp P g (blockStart g.nlatOut Pp p) (blockSize g.nlatOut Pp p) (blockStart g.nlonOut Pa a)
        ((blockStart g.nlatIn Pp p : ℤ) - r) (blockSize g.nlatIn Pp p + 2 * r))) g.nlonOut (g.nlonOut / g.nlonIn) (blockStart g.nlonIn Pa s)
        (blockSize g.nlonOut Pa a) (blockSize g.nlatIn Pp p + 2 * r) (blockSize g.nlonIn Pa s)).filter fun e => e.cell = (ho, wo)).map
          fun e => Φ s e.src).sum
      = ((scatterNbrs P g.nlatIn g.nlonIn g.nlonOut (g.nlonOut / g.nlonIn) (blockStart g.nlatOut Pp p + ho)
          (blockStart g.nlonOut Pa a + wo)).map G).sum := by
  have hlonlt : blockStart g.nlonOut Pa a + wo < g.nlonOut := block_lt hPa ha hwo
  set latLo := blockStart g.nlatOut Pp p with hlatLo
  set lonLo := blockStart g.nlonOut Pa a with hlonLo
  set sel := selectUp P g latLo (blockSize g.nlatOut Pp p) lonLo ((blockStart g.nlatIn Pp p : ℤ) - r) (blockSize g.nlatIn Pp p + 2 * r) with hsel
  set ps := g.nlonOut / g.nlonIn with hps
  rw [scatterNbrs_sum, Finset.sum_comm, sum_blocks (n := g.nlonIn) (P := Pa) hPa]
  refine Finset.sum_congr rfl fun i hi' => ?_
  have hi := Finset.mem_range.1 hi'
  rw [upEdges_sum]
  refine Finset.sum_congr rfl fun wi hwi' => ?_
  have hwi := Finset.mem_range.1 hwi'
  have hwg : blockStart g.nlonIn Pa i + wi < g.nlonIn := block_lt hPa hi hwi
  have hpsw : ps * (blockStart g.nlonIn Pa i + wi) < g.nlonOut := by
    have h1 : ps * g.nlonIn = g.nlonOut := Nat.div_mul_cancel (Nat.dvd_of_mod_eq_zero hdvd)
    have h2 : 0 < ps := Nat.pos_of_ne_zero fun h => by rw [h] at h1; omega
    calc ps * (blockStart g.nlonIn Pa i + wi) < ps * g.nlonIn := Nat.mul_lt_mul_of_pos_left hwg h2
      _ = g.nlonOut := h1
  have hsum := localPsiUp_sum sel (selectUp_sorted _ _ _ _ _ _ _) (blockSize g.nlatIn Pp p + 2 * r) (selectUp_lt _ _ _ _ _ _ _)
    (fun hl col => if col / g.nlonOut = ho ∧
        upLocalWo (col - col / g.nlonOut * g.nlonOut) (blockStart g.nlonIn Pa i + wi) ps g.nlonOut (blockSize g.nlonOut Pa a) = some wo then
      Φ i (hl, wi) else 0)
  refine hsum.trans ?_
  rw [hsel, selectUp_sum P g latLo (blockSize g.nlatOut Pp p) lonLo ((blockStart g.nlatIn Pp p : ℤ) - r) (blockSize g.nlatIn Pp p + 2 * r)
    (fun hl col => if col / g.nlonOut = ho ∧
        upLocalWo (col - col / g.nlonOut * g.nlonOut) (blockStart g.nlonIn Pa i + wi) ps g.nlonOut (blockSize g.nlonOut Pa a) = some wo then
      Φ i (hl, wi) else 0)]
  refine Finset.sum_congr rfl fun hin hin' => ?_
  have hinlt := Finset.mem_range.1 hin'
  refine list_sum_congr fun z hz => ?_
  by_cases hloc : latLo ≤ P.col z / g.nlonOut ∧ P.col z / g.nlonOut < latLo + blockSize g.nlatOut Pp p
  · obtain ⟨hr1, hr2⟩ := hr hin hinlt z hz hloc.1 hloc.2
    rw [if_pos ⟨hloc.1, hloc.2, by omega, by push_cast; omega⟩]
    set x := ((((P.col z - P.col z / g.nlonOut * g.nlonOut : ℕ) : ℤ) - lonLo) % g.nlonOut).toNat with hx
    have hxlt : x < g.nlonOut := by
      have h1 := Int.emod_lt_of_pos (((P.col z - P.col z / g.nlonOut * g.nlonOut : ℕ) : ℤ) - lonLo) (show (0 : ℤ) < g.nlonOut by omega)
      omega
    have hd : ((P.col z / g.nlonOut - latLo) * g.nlonOut + x) / g.nlonOut = P.col z / g.nlonOut - latLo := by
      rw [Nat.add_comm, Nat.add_mul_div_right _ _ h0, Nat.div_eq_of_lt hxlt, Nat.zero_add]
    rw [hd, Nat.add_sub_cancel_left, hx]
    have hiff := upLocalWo_iff (n := g.nlonOut) (c := P.col z) (lonLo := lonLo) (ps := ps) (wi := blockStart g.nlonIn Pa i + wi)
      (nl := blockSize g.nlonOut Pa a) (wo := wo) h0 hlonlt hwo hpsw
    by_cases hcond : P.col z / g.nlonOut = latLo + ho ∧ (P.col z % g.nlonOut + ps * (blockStart g.nlonIn Pa i + wi)) % g.nlonOut = lonLo + wo
    · rw [if_pos hcond, if_pos ⟨by omega, hiff.2 hcond.2⟩]
      exact hFG i hi hin hinlt _ wi hwi (by omega) (by omega)
    · rw [if_neg hcond, if_neg]
      rintro ⟨h1, h2⟩
      exact hcond ⟨by omega, hiff.1 h2⟩
  · rw [if_neg (fun h => hloc ⟨h.1, h.2.1⟩), if_neg]
    rintro ⟨h1, _⟩
    exact hloc ⟨by omega, by omega⟩

/-- What the upsampling kernels leave in the accumulators of one output point. -/
theorem up_cell {B Ck Cv Pp Pa : ℕ} (g : Grids) (w : ℕ → ℝ) (hPa : 0 < Pa) {P : Pattern}
    (h0 : 0 < g.nlonOut) (hdvd : g.nlonOut % g.nlonIn = 0) (r p a : ℕ) (ha : a < Pa)
    (K V Q : T4) (kh vh : ℕ → RTen) (q : RTen)
    (hk : ∀ a < Pa, HaloTile B Ck g.nlatIn g.nlonIn Pp Pa r K p a (kh a)) (hv : ∀ a < Pa, HaloTile B Cv g.nlatIn g.nlonIn Pp Pa r V p a (vh a))
    (hq : Tile B Ck g.nlatOut g.nlonOut Pp Pa Q p a q)
    (hr : ∀ hi < g.nlatIn, ∀ z ∈ P.row hi, blockStart g.nlatOut Pp p ≤ P.col z / g.nlonOut →
      P.col z / g.nlonOut < blockStart g.nlatOut Pp p + blockSize g.nlatOut Pp p →
      blockStart g.nlatIn Pp p ≤ hi + r ∧ hi < blockStart g.nlatIn Pp p + blockSize g.nlatIn Pp p + r)
    {b c ho wo : ℕ} (hb : b < B) (hc : c < Cv) (hho : ho < blockSize g.nlatOut Pp p) (hwo : wo < blockSize g.nlonOut Pa a)
    {s : Acc} (hs : Inv ((List.range Pa).flatMap fun i => upPts
      (localPsiUp (selectUp P g (blockStart g.nlatOut Pp p) (blockSize g.nlatOut Pp p) (blockStart g.nlonOut Pa a)
        ((blockStart g.nlatIn Pp p : ℤ) - r) (blockSize g.nlatIn Pp p + 2 * r))) w g
      (blockStart g.nlonIn Pa ((a + i) % Pa)) (blockSize g.nlonOut Pa a) ((blockStart g.nlatIn Pp p : ℤ) - r) q (kh ((a + i) % Pa))
      (vh ((a + i) % Pa)) b (ho, wo)) s) :
    s.y c / s.alphaSum = attention Ck w (scatterNbrs P g.nlatIn g.nlonIn g.nlonOut (g.nlonOut / g.nlonIn)) K V Q b c
      (blockStart g.nlatOut Pp p + ho) (blockStart g.nlonOut Pa a + wo) := by
  rw [hs.avg c]
  have hlonlt : blockStart g.nlonOut Pa a + wo < g.nlonOut := block_lt hPa ha hwo
  set latLo := blockStart g.nlatOut Pp p with hlatLo
  set lonLo := blockStart g.nlonOut Pa a with hlonLo
  set sel := selectUp P g latLo (blockSize g.nlatOut Pp p) lonLo ((blockStart g.nlatIn Pp p : ℤ) - r) (blockSize g.nlatIn Pp p + 2 * r) with hsel
  set ps := g.nlonOut / g.nlonIn with hps
  have key : ∀ (F : Pt → ℝ) (G : ℕ × ℕ → ℝ), (∀ s0 < Pa, ∀ hi < g.nlatIn, ∀ hl, ∀ wi < blockSize g.nlonIn Pa s0,
        hl < blockSize g.nlatIn Pp p + 2 * r → hi + r = blockStart g.nlatIn Pp p + hl →
        F (upPt w ((blockStart g.nlatIn Pp p : ℤ) - r) (kh s0) (vh s0) q b ⟨(ho, wo), (hl, wi)⟩) = G (hi, blockStart g.nlonIn Pa s0 + wi)) →
      (((List.range Pa).flatMap fun i => upPts (localPsiUp sel) w g (blockStart g.nlonIn Pa ((a + i) % Pa)) (blockSize g.nlonOut Pa a)
        ((blockStart g.nlatIn Pp p : ℤ) - r) q (kh ((a + i) % Pa)) (vh ((a + i) % Pa)) b (ho, wo)).map F).sum
        = ((scatterNbrs P g.nlatIn g.nlonIn g.nlonOut ps (latLo + ho) (lonLo + wo)).map G).sum := by
    intro F G hFG
    rw [list_sum_flatMap, list_sum_range, ring_sum ha (fun i => ((upPts (localPsiUp sel) w g (blockStart g.nlonIn Pa i) (blockSize g.nlonOut Pa a)
        ((blockStart g.nlatIn Pp p : ℤ) - r) q (kh i) (vh i) b (ho, wo)).map F).sum)]
    rw [hsel, hlatLo, hlonLo, ← up_key g hPa h0 hdvd r p a ha hr hho hwo
      (fun i s => F (upPt w ((blockStart g.nlatIn Pp p : ℤ) - r) (kh i) (vh i) q b ⟨(ho, wo), s⟩)) G
      (fun s0 hs0 hi hhi hl wi hwi h1 h2 => hFG s0 hs0 hi hhi hl wi hwi h1 h2)]
    refine Finset.sum_congr rfl fun i hi' => ?_
    have hi := Finset.mem_range.1 hi'
    rw [upPts_sum, upEdges_sum, (hk i hi).W_eq, (hk i hi).H_eq]
  have hscore : ∀ s0 < Pa, ∀ hi < g.nlatIn, ∀ hl, ∀ wi < blockSize g.nlonIn Pa s0,
        hl < blockSize g.nlatIn Pp p + 2 * r → hi + r = blockStart g.nlatIn Pp p + hl →
      (upPt w ((blockStart g.nlatIn Pp p : ℤ) - r) (kh s0) (vh s0) q b ⟨(ho, wo), (hl, wi)⟩).q
        = score Ck K Q b (latLo + ho) (lonLo + wo) (hi, blockStart g.nlonIn Pa s0 + wi) := by
    intro s0 hs0 hi hhi hl wi hwi h1 h2
    unfold upPt score
    dsimp only
    rw [hq.C_eq]
    refine Finset.sum_congr rfl fun c' hc' => ?_
    have hc'' := Finset.mem_range.1 hc'
    rw [hq.val_eq b hb c' hc'' ho hho wo hwo, (hk s0 hs0).val_eq b hb c' hc'' hl h1 wi hwi hi hhi h2, mul_comm]
  have hweight : ∀ hi hl : ℕ, hi + r = blockStart g.nlatIn Pp p + hl → (((blockStart g.nlatIn Pp p : ℤ) - r) + hl).toNat = hi := by
    intro hi hl h; omega
  unfold attention softAvg
  congr 1
  · refine key (fun t => t.w * Real.exp t.q * t.v c) _ ?_
    intro s0 hs0 hi hhi hl wi hwi h1 h2
    rw [hscore s0 hs0 hi hhi hl wi hwi h1 h2]
    show w (((blockStart g.nlatIn Pp p : ℤ) - r) + hl).toNat * _ * (vh s0).val b c hl wi = _
    rw [hweight hi hl h2, (hv s0 hs0).val_eq b hb c hc hl h1 wi hwi hi hhi h2]
  · refine key (fun t => t.w * Real.exp t.q) _ ?_
    intro s0 hs0 hi hhi hl wi hwi h1 h2
    rw [hscore s0 hs0 hi hhi hl wi hwi h1 h2]
    show w (((blockStart g.nlatIn Pp p : ℤ) - r) + hl).toNat * _ = _
    rw [hweight hi hl h2]

end Verif.Ring
