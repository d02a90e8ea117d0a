import Verif.Lemmas.RingCudaBwdStep
/-!
The two halves of the first backward pass put together: the five accumulators of a point as those of the forward pass for the values `dy . v`, `k` and `(dy . v) k`.
-/
namespace Verif.RingGpu
open Verif Verif.Attn Verif.Spec.Attn Verif.AttnGpu Verif.Ring Finset Verif.Spec.RingStep

/-- The accumulators of the point with number `i`. -/
def bAt (C : ℕ) (bufs : BBufs) (i : ℕ) : BAcc := ⟨bufs.alpha i, bufs.qmax i, ⟨bufs.integral i, fun c => bufs.kacc (i * C + c), fun c => bufs.kvw (i * C + c)⟩⟩

/-- The neighbour `y` as the call has it. -/
def bptAt (p : Params) (x : BIn) (b ho wo : ℕ) (y : ℕ × ℕ) : BPt :=
  ⟨∑ c ∈ range p.nci, entryOf p.nlatOut p.nlonOut p.nci x.q b ho wo c * entryOf p.nlatHalo p.nlonKx p.nci x.k b ((y.1 : ℤ) - p.start).toNat (y.2 - p.lonLo) c,
    x.w y.1,
    ∑ c ∈ range p.nco, entryOf p.nlatOut p.nlonOut p.nco x.dy b ho wo c * entryOf p.nlatHalo p.nlonKx p.nco x.v b ((y.1 : ℤ) - p.start).toNat (y.2 - p.lonLo) c,
    fun c => entryOf p.nlatHalo p.nlonKx p.nci x.k b ((y.1 : ℤ) - p.start).toNat (y.2 - p.lonLo) c⟩

def halfAcc (two : Bool) (a : BAcc) : Acc := ⟨cond two a.st.alphaKvw a.st.alphaK, cond two a.st.integral a.alphaSum, a.qmax⟩

def halfPt (two : Bool) (t : BPt) : Pt := ⟨t.q, cond two (t.w * t.g) t.w, t.k⟩

theorem accAt_half (two : Bool) (C : ℕ) (bufs : BBufs) (i : ℕ) : accAt C (bufs.half two) i = halfAcc two (bAt C bufs i) := by cases two <;> rfl

theorem halfPt_at (two : Bool) (p : Params) (x : BIn) (b ho wo : ℕ) (y : ℕ × ℕ) : bPtAt two p x b ho wo y = halfPt two (bptAt p x b ho wo y) := by cases two <;> rfl

theorem phaseMax_q {ι : Type} (m : Option ℝ) (L : List ι) (f g : ι → Pt) (h : ∀ i, (f i).q = (g i).q) : phaseMax m (L.map f) = phaseMax m (L.map g) := by
  unfold phaseMax
  rw [List.foldl_map, List.foldl_map]
  simp only [h]

theorem pack_of_halves {C : ℕ} {a a' : BAcc} (L : List BPt) (h : ∀ two, AccEq C (halfAcc two a') (closed (halfAcc two a) (L.map (halfPt two)))) :
    AccEq (2 * C + 1) (pack a') (closed (pack a) (L.map packPt)) := by
  obtain ⟨f1, f2, f3⟩ := h false
  obtain ⟨t1, -, t3⟩ := h true
  have hf : ∀ two m, phaseMax m (L.map (halfPt two)) = phaseMax m (L.map packPt) := fun two m => phaseMax_q m L _ _ fun _ => rfl
  unfold closed at f1 f2 f3 t1 t3 ⊢
  rw [hf] at f1 f2 f3 t1 t3
  change (_ = _) at f1 f2 t1
  have hq : ∀ two, (halfAcc two a).qmax = (pack a).qmax := fun _ => rfl
  rw [hq] at f1 f2 f3 t1 t3
  cases hn : phaseMax (pack a).qmax (L.map packPt) with
  | none =>
    rw [hn] at f1 f2 f3 t1 t3
    refine ⟨f1, f2, fun n hn' => ?_⟩
    rcases Nat.eq_zero_or_pos n with rfl | hpos
    · exact t1
    · rcases Nat.even_or_odd' n with ⟨c, rfl | rfl⟩
      · obtain ⟨d, rfl⟩ : ∃ d, c = d + 1 := ⟨c - 1, by omega⟩
        have := t3 d (by omega)
        change packStats a'.st (2 * d + 2) = packStats a.st (2 * d + 2)
        rw [packStats_even, packStats_even]
        exact this
      · have := f3 c (by omega)
        change packStats a'.st (2 * c + 1) = packStats a.st (2 * c + 1)
        rw [packStats_odd, packStats_odd]
        exact this
  | some m =>
    rw [hn] at f1 f2 f3 t1 t3
    dsimp only at f1 f2 f3 t1 t3 ⊢
    rw [List.map_map] at f1 t1
    refine ⟨by rw [List.map_map]; exact f1, f2, fun n hn' => ?_⟩
    dsimp only
    rw [List.map_map]
    rcases Nat.eq_zero_or_pos n with rfl | hpos
    · refine Eq.trans t1 ?_
      congr 2
      refine List.map_congr_left fun t _ => ?_
      exact (mul_assoc _ _ _).symm
    · rcases Nat.even_or_odd' n with ⟨c, rfl | rfl⟩
      · obtain ⟨d, rfl⟩ : ∃ d, c = d + 1 := ⟨c - 1, by omega⟩
        have := t3 d (by omega)
        rw [List.map_map] at this
        change packStats a'.st (2 * d + 2) = _ * packStats a.st (2 * d + 2) + _
        rw [packStats_even, packStats_even]
        refine Eq.trans this ?_
        congr 2
        refine List.map_congr_left fun t _ => ?_
        change Real.exp (t.q - m) * (t.w * t.g) * t.k d = Real.exp (t.q - m) * t.w * packStats ⟨t.g, t.k, fun c => t.g * t.k c⟩ (2 * d + 2)
        rw [packStats_even]
        ring
      · have := f3 c (by omega)
        rw [List.map_map] at this
        change packStats a'.st (2 * c + 1) = _ * packStats a.st (2 * c + 1) + _
        rw [packStats_odd, packStats_odd]
        refine Eq.trans this ?_
        congr 2
        refine List.map_congr_left fun t _ => ?_
        change Real.exp (t.q - m) * t.w * t.k c = Real.exp (t.q - m) * t.w * packStats ⟨t.g, t.k, fun c => t.g * t.k c⟩ (2 * c + 1)
        rw [packStats_odd]

theorem pack_odd (a : BAcc) (c : ℕ) : (pack a).y (2 * c + 1) = a.st.alphaK c := packStats_odd _ _
theorem pack_even (a : BAcc) (c : ℕ) : (pack a).y (2 * c + 2) = a.st.alphaKvw c := packStats_even _ _
theorem packPt_odd (t : BPt) (c : ℕ) : (packPt t).v (2 * c + 1) = t.k c := packStats_odd _ _
theorem packPt_even (t : BPt) (c : ℕ) : (packPt t).v (2 * c + 2) = t.g * t.k c := packStats_even _ _

theorem takesUpBwd_of_pack {ι : Type} {L : List ι} {f : ι → BPt} {C : ℕ} {a a' : BAcc} (h : AccEq (2 * C + 1) (pack a') (closed (pack a) (L.map fun i => packPt (f i)))) :
    TakesUpBwd L (fun i => (f i).q) (fun i => (f i).w) (fun i => (f i).g) (fun i => (f i).k) C a.alphaSum a'.alphaSum a.qmax a'.qmax a.st.integral a'.st.integral
      a.st.alphaK a'.st.alphaK a.st.alphaKvw a'.st.alphaKvw := by
  have T := takesUp_closed _ _ _ _ _ h
  refine ⟨fun hL => ?_, fun hL => ?_⟩
  · obtain ⟨h1, h2, h3⟩ := T.none hL
    refine ⟨h1, h2, h3 0 (by omega), fun c hc => ⟨?_, ?_⟩⟩
    · have := h3 (2 * c + 1) (by omega)
      rwa [pack_odd, pack_odd] at this
    · have := h3 (2 * c + 2) (by omega)
      rwa [pack_even, pack_even] at this
  · obtain ⟨n, n1, n2, n3, n4, n5⟩ := T.some hL
    refine ⟨n, n1, n2, n3, n4, n5 0 (by omega), fun c hc => ⟨?_, ?_⟩⟩
    · have := n5 (2 * c + 1) (by omega)
      simp only [pack_odd, packPt_odd] at this
      exact this
    · have := n5 (2 * c + 2) (by omega)
      simp only [pack_even, packPt_even] at this
      refine this.trans ?_
      congr 2
      exact List.map_congr_left fun i _ => (mul_assoc _ _ _).symm

/-- The whole step at a point. -/
theorem pack_step {p : Params} {B : ℕ} {x : BIn} {bufs bufs' : BBufs} (h : ∀ two, BEffect1 two p x (fun i => i < B * p.nlatOut * p.nlonOut) bufs bufs')
    {b ho wo : ℕ} (hb : b < B) (hho : ho < p.nlatOut) (hwo : wo < p.nlonOut) :
    AccEq (2 * p.nci + 1) (pack (bAt p.nci bufs' ((b * p.nlatOut + ho) * p.nlonOut + wo)))
      (closed (pack (bAt p.nci bufs ((b * p.nlatOut + ho) * p.nlonOut + wo))) ((nbrsIn (blockOf p) x.P p.nlonIn p.pscale ho wo).map fun y => packPt (bptAt p x b ho wo y))) := by
  classical
  have := pack_of_halves (a := bAt p.nci bufs ((b * p.nlatOut + ho) * p.nlonOut + wo)) (a' := bAt p.nci bufs' ((b * p.nlatOut + ho) * p.nlonOut + wo)) (C := p.nci)
    ((nbrsIn (blockOf p) x.P p.nlonIn p.pscale ho wo).map (bptAt p x b ho wo)) (by
      intro two
      have e := h two (outFlat p b ho wo)
      rw [if_pos (outFlat_lt hb hho hwo)] at e
      obtain ⟨h1, h2, h3⟩ := outFlat_decode (b := b) hho hwo
      unfold bNbrsAt at e
      rw [h1, h2, h3, outFlat_eq, accAt_half, accAt_half] at e
      rw [List.map_map]
      have hcomp : halfPt two ∘ bptAt p x b ho wo = bPtAt two p x b ho wo := funext fun y => (halfPt_at two p x b ho wo y).symm
      rw [hcomp]
      exact e)
  rw [List.map_map] at this
  exact this

/-- The points that pass the test of an entry are the neighbours in the block. -/
theorem hits_nbrs (p : Params) (P : Pattern) (K : RTen) (hH : K.H = p.nlatHalo) (hW : K.W = p.nlonKx) (ho wo : ℕ) :
    (P.row ho).filterMap (gatherHit P p.nlonIn p.pscale p.lonLo p.start K wo)
      = (nbrsIn (blockOf p) P p.nlonIn p.pscale ho wo).map fun y => (((y.1 : ℤ) - p.start).toNat, y.2 - p.lonLo, y.1) := by
  unfold nbrsIn gatherNbrs
  generalize P.row ho = R
  induction R with
  | nil => rfl
  | cons z R ih =>
    have hh : gatherHit P p.nlonIn p.pscale p.lonLo p.start K wo z =
        if p.lonLo ≤ (P.col z % p.nlonIn + p.pscale * wo) % p.nlonIn ∧ (P.col z % p.nlonIn + p.pscale * wo) % p.nlonIn < p.lonLo + p.nlonKx then
          if 0 ≤ ((P.col z / p.nlonIn : ℕ) : ℤ) - p.start ∧ ((P.col z / p.nlonIn : ℕ) : ℤ) - p.start < (p.nlatHalo : ℤ)
          then some ((((P.col z / p.nlonIn : ℕ) : ℤ) - p.start).toNat, (P.col z % p.nlonIn + p.pscale * wo) % p.nlonIn - p.lonLo, P.col z / p.nlonIn) else none
        else none := by
      unfold gatherHit
      dsimp only
      rw [sub_div_mul, sub_div_mul, hH, hW]
    rw [List.map_cons, List.filter_cons]
    by_cases h1 : (blockOf p).Has (P.col z / p.nlonIn, (P.col z % p.nlonIn + p.pscale * wo) % p.nlonIn)
    · rw [if_pos (by simpa using h1), List.map_cons, ← ih]
      obtain ⟨a1, a2, a3, a4⟩ := h1
      dsimp only [blockOf] at a1 a2 a3 a4
      rw [if_pos ⟨a3, a4⟩, if_pos ⟨by omega, by omega⟩] at hh
      rw [List.filterMap_cons_some hh]
    · rw [if_neg (by simpa using h1), ← ih]
      rw [List.filterMap_cons_none]
      rw [hh]
      split_ifs with h2 h3
      · exact absurd ⟨by show p.start ≤ _; omega, by show _ < p.start + (p.nlatHalo : ℤ); omega, h2.1, h2.2⟩ h1
      · rfl
      · rfl

end Verif.RingGpu
