import Verif.Lemmas.DistDisco
import Verif.Props.Disco
import Verif.Props.DiscoCpu
import Verif.Props.SHT
/-!
Property theorems C52: the distributed DISCO convolutions return the pieces of the serial result.
-/
namespace Verif.Props
open Verif Verif.Dist Verif.SHT Verif.Spec Verif.Disco Finset

variable {R : Type} [CommSemiring R]

/-- A plane contraction that computes the documented sum over `taps` for every plane of the given extents. -/
def Contracts (taps : List (Tap R)) (nlatIn nlonIn nlatOut nlonOut : ℕ) (kern : Mat R → Except PyErr (Ten R)) : Prop :=
  ∀ x : Mat R, x.d0 = nlatIn → x.d1 = nlonIn → ∃ y, kern x = .ok y ∧ y.d1 = nlatOut ∧ y.d2 = nlonOut ∧
    ∀ k t, ∀ q < nlonOut, y.val k t q = discoSum taps nlonIn nlonOut x.val k t q

/-- A transposed contraction that computes the documented transposed sum. -/
def ContractsT (taps : List (Tap R)) (K nlatIn nlonIn nlatOut nlonOut : ℕ) (kern : Ten R → Except PyErr (Mat R)) : Prop :=
  ∀ x : Ten R, x.d0 = K → x.d1 = nlatIn → x.d2 = nlonIn → ∃ y, kern x = .ok y ∧ y.d0 = nlatOut ∧ y.d1 = nlonOut ∧
    ∀ i, ∀ j < nlonOut, y.val i j = discoAdjoint taps nlonOut nlonIn x.val i j

/-- The process grid is not larger than the grids and channels it shares out; `C` is the number of channels that are exchanged. -/
structure GridFits (L : Layer R) (Pp Pa C : ℕ) : Prop where
  polar : 0 < Pp
  azimuth : 0 < Pa
  latIn : Pp ≤ L.nlatIn
  lonIn : Pa ≤ L.nlonIn
  latOut : Pp ≤ L.nlatOut
  lonOut : Pa ≤ L.nlonOut
  chans : Pa ≤ C

theorem contractPlanes_part (taps : List (Tap R)) (K H W Ho Wo : ℕ) (c0 c1 : Cut) (hc : c1.size = H) (hf : Fits taps K Ho H W)
    (kern : ℕ → Mat R → Except PyErr (Ten R)) (hk : ∀ c, Contracts taps H W Ho Wo (kern c)) (X : ℕ → ℕ → ℕ → R) (x : Ten3 R)
    (hx : IsPart c0 c1 (whole W) X x) :
    ∃ y, contractPlanes kern x = .ok y ∧ IsPart c0 (whole Ho) (whole Wo)
      (fun c t q k => discoSum taps W Wo (fun i j => X c (c1.start + i) j) k t q) y := by
  obtain ⟨h0, h1, h2, hv⟩ := hx
  rw [whole_size] at h2
  obtain ⟨y0, e0, d1, d2, -⟩ := hk 0 ⟨x.d1, x.d2, x.val 0⟩ (h1.trans hc) h2
  refine ⟨_, by unfold contractPlanes; rw [e0], h0, by rw [whole_size]; exact d1, by rw [whole_size]; exact d2, ?_⟩
  intro c hc' t ht q hq
  rw [whole_size] at hq
  funext k
  obtain ⟨y, e, -, -, v⟩ := hk c ⟨x.d1, x.d2, x.val c⟩ (h1.trans hc) h2
  simp only [e, tenVal, whole_start, zero_add]
  rw [v k t q hq]
  refine discoSum_congr taps K Ho H W Wo hf _ _ (fun i hi j hj => ?_) k t q
  have := hv c hc' i (by omega) j (by rw [whole_size]; exact hj)
  rw [whole_start, zero_add] at this
  exact this

omit [CommSemiring R] in
theorem init_ok (L : Layer R) (Pp Pa p : ℕ) (D : DDisco R) (h : DDisco.init L Pp Pa p = .ok D) :
    computeSplitShapes L.nlatIn Pp = .ok D.latIn ∧ computeSplitShapes L.nlonIn Pa = .ok D.lonIn ∧
      D.entries = splitPsi D.latIn p L.nlonIn L.entries := by
  unfold DDisco.init at h
  cases h1 : computeSplitShapes L.nlatIn Pp <;> rw [h1] at h <;> [cases h; skip]
  cases h2 : computeSplitShapes L.nlonIn Pa <;> rw [h2] at h <;> [cases h; skip]
  cases h3 : computeSplitShapes L.nlatOut Pp <;> rw [h3] at h <;> [cases h; skip]
  cases h4 : computeSplitShapes L.nlonOut Pa <;> rw [h4] at h <;> [cases h; skip]
  simp only [except_bind_ok] at h
  split at h
  · cases h
  · cases h
    exact ⟨rfl, rfl, rfl⟩

/-- The reference contraction of a rank computes the sum over the taps of the rank. -/
theorem refKern_contracts (L : Layer R) (taps : List (Tap R)) (hL : LayerOf L taps) (Pp Pa p : ℕ) (hp : p < Pp) (D : DDisco R)
    (hD : DDisco.init L Pp Pa p = .ok D) :
    Contracts (localTaps L.nlatIn Pp p taps) (blockSize L.nlatIn Pp p) L.nlonIn L.nlatOut L.nlonOut (D.refKern L p) := by
  obtain ⟨h1, -, h3⟩ := init_ok L Pp Pa p D hD
  intro x h0 hx1
  have hf := localTaps_fits L.nlatIn Pp p L.kernelSize L.nlatOut L.nlonIn taps hL.fits
  obtain ⟨y, e, -, d1, d2, v⟩ := contraction_value (localTaps L.nlatIn Pp p taps) L.kernelSize L.nlatOut L.nlonOut x
    (by rw [h0, hx1]; exact hf) hL.nlon (by rw [hx1]; exact hL.dvd) (by rw [hx1]; exact hL.le)
  refine ⟨y, ?_, d1, d2, fun k t q hq => ?_⟩
  · unfold DDisco.refKern
    rw [h3, hL.entries, splitPsi_encode L.nlatIn Pp p L.nlonIn hp _ h1 taps (fun a ha => (hL.fits a ha).2.2.2), css_getD_block h1 p hp]
    rw [hx1, h0] at e
    exact e
  · rw [v k t q hq, hx1]

/-- The CPU kernel of a rank does so too, when the rank has entries and no kernel starts with the row the preceding kernel ended
with, for every order in which the threads finish the rows. -/
theorem cpuKern_contracts (L : Layer R) (taps : List (Tap R)) (hL : LayerOf L taps) (Pp Pa p : ℕ) (hp : p < Pp) (D : DDisco R)
    (hD : DDisco.init L Pp Pa p = .ok D) (hne : D.entries ≠ []) (hrs : RowSorted D.entries) (hnc : NoCollision L.kernelSize D.entries)
    (hI : 0 < L.nlonIn) (junk : ℕ → Entry R) (mem : ℕ → R) (sh0 : ℕ → ℕ → R) (order : List ℕ)
    (ho : ∀ s roff, preprocessPsi junk L.kernelSize L.nlatOut D.entries = .ok (s, roff) → order.Perm (List.range (roff.length - 1))) :
    Contracts (localTaps L.nlatIn Pp p taps) (blockSize L.nlatIn Pp p) L.nlonIn L.nlatOut L.nlonOut (D.cpuKern L junk mem sh0 order) := by
  obtain ⟨h1, -, h3⟩ := init_ok L Pp Pa p D hD
  have hE : D.entries = (localTaps L.nlatIn Pp p taps).map (encode L.nlonIn) := by
    rw [h3, hL.entries, splitPsi_encode L.nlatIn Pp p L.nlonIn hp _ h1 taps (fun a ha => (hL.fits a ha).2.2.2)]
  intro x h0 hx1
  have hf := localTaps_fits L.nlatIn Pp p L.kernelSize L.nlatOut L.nlonIn taps hL.fits
  rw [hE] at hne hrs hnc
  obtain ⟨s, roff, e, hy⟩ := C30_forward (localTaps L.nlatIn Pp p taps) L.kernelSize L.nlatOut L.nlonOut x
    (by rw [h0, hx1]; exact hf) hL.nlon (by omega) (by rw [hx1]; exact hL.dvd) (by simpa using hne) (by rw [hx1]; exact hrs)
    (by rw [hx1]; exact hnc) junk
  rw [hx1, ← hE] at e
  obtain ⟨y, ey, -, d1, d2, v⟩ := hy mem sh0 order (ho s roff e)
  refine ⟨y, ?_, d1, d2, fun k t q hq => by rw [v k t q hq, hx1]⟩
  unfold DDisco.cpuKern
  rw [e]
  exact ey

/-- The serial result. -/
def serialValue (L : Layer R) (taps : List (Tap R)) (X : ℕ → ℕ → ℕ → R) (oc t q : ℕ) : R :=
  (∑ c ∈ range L.groupsize, ∑ k ∈ range L.kernelSize,
    discoSum taps L.nlonIn L.nlonOut (X (oc / L.outPerGroup * L.groupsize + c)) k t q * L.weight oc c k)
  + (match L.bias with | none => 0 | some b => b oc)

theorem part_congr {α : Type} {c0 c1 c2 : Cut} {X Y : ℕ → ℕ → ℕ → α} {x : Ten3 α} (h : IsPart c0 c1 c2 X x)
    (hXY : ∀ i < c0.size, ∀ j < c1.size, ∀ k < c2.size, X (c0.start + i) (c1.start + j) (c2.start + k)
      = Y (c0.start + i) (c1.start + j) (c2.start + k)) : IsPart c0 c1 c2 Y x :=
  ⟨h.1, h.2.1, h.2.2.1, fun i hi j hj k hk => (h.2.2.2 i hi j hj k hk).trans (hXY i hi j hj k hk)⟩

theorem biasStage_part (L : Layer R) (c0 c1 c2 : Cut) (Y : ℕ → ℕ → ℕ → R) (x : Ten3 R) (h0 : c0.start = 0) (hx : IsPart c0 c1 c2 Y x) :
    IsPart c0 c1 c2 (fun oc t q => Y oc t q + (match L.bias with | none => 0 | some b => b oc)) (biasStage L x) := by
  refine ⟨hx.1, hx.2.1, hx.2.2.1, fun i hi j hj k hk => ?_⟩
  have := hx.2.2.2 i hi j hj k hk
  rw [h0, zero_add] at this ⊢
  simp only [biasStage, Layer.addBias]
  cases L.bias with
  | none => simp only [this, add_zero]
  | some b => simp only [this]

/-- C52, standard communication pattern: for every plane contraction that computes the sum over the rank's taps, every rank ends with
its block of latitudes and longitudes of the serial result. -/
theorem dconv_value (L : Layer R) (taps : List (Tap R)) (hL : LayerOf L taps) (Pp Pa : ℕ) (hf : GridFits L Pp Pa (L.groups * L.groupsize))
    (D : ℕ → ℕ → DDisco R) (hD : ∀ p < Pp, ∀ a < Pa, computeSplitShapes L.nlonIn Pa = .ok (D p a).lonIn)
    (kern : ℕ → ℕ → ℕ → Mat R → Except PyErr (Ten R))
    (hk : ∀ p < Pp, ∀ a < Pa, ∀ c, Contracts (localTaps L.nlatIn Pp p taps) (blockSize L.nlatIn Pp p) L.nlonIn L.nlatOut L.nlonOut (kern p a c))
    (X : ℕ → ℕ → ℕ → R) (x : ℕ → ℕ → Ten3 R)
    (hx : ∀ p < Pp, ∀ a < Pa, IsPart (whole (L.groups * L.groupsize)) ⟨L.nlatIn, Pp, p⟩ ⟨L.nlonIn, Pa, a⟩ X (x p a)) :
    ∃ z, dconvForward Pp Pa L D kern x = .ok z ∧ ∀ p < Pp, ∀ a < Pa,
      IsPart (whole (L.groups * L.outPerGroup)) ⟨L.nlatOut, Pp, p⟩ ⟨L.nlonOut, Pa, a⟩ (serialValue L taps X) (z p a) := by
  obtain ⟨x1, e1, q1⟩ := collect_ok hf.polar hf.azimuth (f := fun p a => azimuthIn Pa x (D p a).lonIn p a)
    fun p hp a ha => azimuthIn_part (L.groups * L.groupsize) L.nlonIn Pp Pa (fun p => ⟨L.nlatIn, Pp, p⟩) hf.azimuth hf.chans hf.lonIn X x hx _
      (hD p hp a ha) p hp a ha
  obtain ⟨x2, e2, q2⟩ := collect_ok hf.polar hf.azimuth (f := fun p a => contractPlanes (kern p a) (x1 p a))
    fun p hp a ha => contractPlanes_part _ L.kernelSize _ L.nlonIn L.nlatOut L.nlonOut ⟨L.groups * L.groupsize, Pa, a⟩ ⟨L.nlatIn, Pp, p⟩ rfl
      (localTaps_fits L.nlatIn Pp p L.kernelSize L.nlatOut L.nlonIn taps hL.fits) (kern p a) (hk p hp a ha) X _ (q1 p hp a ha).2
  obtain ⟨x3, e3, q3⟩ := collect_ok hf.polar hf.azimuth (f := fun p a => polarReduceScatter Pp x2 p a)
    fun p hp a ha => polarReduceScatter_part L.nlatOut Pp Pa (fun a => ⟨L.groups * L.groupsize, Pa, a⟩) (fun _ => whole L.nlonOut) hf.polar
      hf.latOut (fun p _ c t q k => discoSum (localTaps L.nlatIn Pp p taps) L.nlonIn L.nlonOut
        (fun i j => X c ((⟨L.nlatIn, Pp, p⟩ : Cut).start + i) j) k t q) x2 (fun p hp a ha => (q2 p hp a ha).2) p hp a ha
  have q3' : ∀ p < Pp, ∀ a < Pa, IsPart ⟨L.groups * L.groupsize, Pa, a⟩ ⟨L.nlatOut, Pp, p⟩ (whole L.nlonOut)
      (fun c t q k => discoSum taps L.nlonIn L.nlonOut (X c) k t q) (x3 p a) := by
    intro p hp a ha
    refine part_congr (q3 p hp a ha).2 fun i _ j _ w _ => ?_
    funext k
    rw [Finset.sum_apply]
    exact discoSum_blocks taps L.kernelSize L.nlatOut L.nlatIn L.nlonIn L.nlonOut Pp hf.polar hL.fits (X _) k _ _
  obtain ⟨x4, e4, q4⟩ := collect_ok hf.polar hf.azimuth (f := fun p a => azimuthOut Pa x3 (x p a).d0 p a)
    fun p hp a ha => by
      rw [(hx p hp a ha).1, whole_size]
      exact azimuthOut_part (L.groups * L.groupsize) L.nlonOut Pp Pa (fun p => ⟨L.nlatOut, Pp, p⟩) hf.azimuth hf.chans hf.lonOut _ x3 q3' p hp a ha
  obtain ⟨x5, e5, q5⟩ := collect_ok hf.polar hf.azimuth (f := fun p a => localMix L (x4 p a))
    (Q := fun p a y => IsPart (whole (L.groups * L.outPerGroup)) ⟨L.nlatOut, Pp, p⟩ ⟨L.nlonOut, Pa, a⟩
      (fun oc t q => ∑ c ∈ range L.groupsize, ∑ k ∈ range L.kernelSize,
        discoSum taps L.nlonIn L.nlonOut (X (oc / L.outPerGroup * L.groupsize + c)) k t q * L.weight oc c k) y)
    fun p hp a ha => by
      obtain ⟨h0, h1, h2, hv⟩ := (q4 p hp a ha).2
      rw [whole_size] at h0
      unfold localMix
      rw [if_neg (by simpa using h0)]
      refine ⟨_, rfl, by rw [whole_size], h1, h2, fun oc hoc j hj k hk => ?_⟩
      rw [whole_size] at hoc
      simp only [Layer.mix, Layer.weightR, whole_start, zero_add, Nat.div_add_mod']
      refine sum_congr rfl fun c hc => sum_congr rfl fun kk _ => ?_
      have hg : oc / L.outPerGroup * L.groupsize + c < L.groups * L.groupsize := by
        have hpos : 0 < L.outPerGroup := by
          rcases Nat.eq_zero_or_pos L.outPerGroup with h | h
          · rw [h] at hoc; omega
          · exact h
        have : oc / L.outPerGroup < L.groups := (Nat.div_lt_iff_lt_mul hpos).2 hoc
        exact col_lt this (mem_range.1 hc)
      have := hv (oc / L.outPerGroup * L.groupsize + c) (by rw [whole_size]; exact hg) j hj k hk
      rw [whole_start, zero_add] at this
      rw [this]
  refine ⟨fun p a => biasStage L (x5 p a), ?_, fun p hp a ha => biasStage_part L _ _ _ _ _ (whole_start _) (q5 p hp a ha).2⟩
  unfold dconvForward
  rw [e1, except_bind_ok, e2, except_bind_ok, e3, except_bind_ok, e4, except_bind_ok, e5, except_bind_ok]
  rfl

/-- C52 for the reference kernels: the serial layer applied to the global input succeeds, the distributed layer succeeds, and every
rank `(p, a)` ends with its block of the serial result. -/
theorem C52_conv (L : Layer R) (taps : List (Tap R)) (hL : LayerOf L taps) (Pp Pa : ℕ) (hf : GridFits L Pp Pa (L.groups * L.groupsize))
    (D : ℕ → ℕ → DDisco R) (hD : ∀ p < Pp, ∀ a < Pa, DDisco.init L Pp Pa p = .ok (D p a)) (X : Ten R)
    (hX : X.d0 = L.groups * L.groupsize ∧ X.d1 = L.nlatIn ∧ X.d2 = L.nlonIn) (x : ℕ → ℕ → Ten3 R)
    (hx : ∀ p < Pp, ∀ a < Pa, IsPart (whole (L.groups * L.groupsize)) ⟨L.nlatIn, Pp, p⟩ ⟨L.nlonIn, Pa, a⟩ X.val (x p a)) :
    ∃ y z, L.forward X = .ok y ∧ dconvForward Pp Pa L D (fun p a _ => (D p a).refKern L p) x = .ok z ∧
      ∀ p < Pp, ∀ a < Pa, IsPart (whole (L.groups * L.outPerGroup)) ⟨L.nlatOut, Pp, p⟩ ⟨L.nlonOut, Pa, a⟩ y.val (z p a) := by
  obtain ⟨y, hy, -, -, -, hv⟩ := C28_layer L taps hL X hX
  obtain ⟨z, hz, hp⟩ := dconv_value L taps hL Pp Pa hf D (fun p hp a ha => (init_ok L Pp Pa p _ (hD p hp a ha)).2.1)
    (fun p a _ => (D p a).refKern L p) (fun p hp a ha _ => refKern_contracts L taps hL Pp Pa p hp _ (hD p hp a ha)) X.val x hx
  refine ⟨y, z, hy, hz, fun p hp' a ha => part_congr (hp p hp' a ha) fun i hi j hj k hk => ?_⟩
  exact (hv _ _ _ (block_lt hf.azimuth ha hk)).symm

/-- C52 for the CPU kernel: the same, when every rank has entries and no kernel starts with the row the preceding one ended with on
that rank; for every content of the work arrays and every order in which the threads of every rank finish the rows of every plane. -/
theorem C52_conv_cpu (L : Layer R) (taps : List (Tap R)) (hL : LayerOf L taps) (Pp Pa : ℕ) (hf : GridFits L Pp Pa (L.groups * L.groupsize))
    (D : ℕ → ℕ → DDisco R) (hD : ∀ p < Pp, ∀ a < Pa, DDisco.init L Pp Pa p = .ok (D p a))
    (hne : ∀ p < Pp, ∀ a < Pa, (D p a).entries ≠ [] ∧ RowSorted (D p a).entries ∧ NoCollision L.kernelSize (D p a).entries)
    (junk : ℕ → ℕ → ℕ → Entry R) (mem : ℕ → ℕ → ℕ → ℕ → R) (sh0 : ℕ → ℕ → ℕ → ℕ → ℕ → R) (order : ℕ → ℕ → ℕ → List ℕ)
    (ho : ∀ p < Pp, ∀ a < Pa, ∀ c s roff, preprocessPsi (junk p a) L.kernelSize L.nlatOut (D p a).entries = .ok (s, roff) →
      (order p a c).Perm (List.range (roff.length - 1)))
    (X : Ten R) (hX : X.d0 = L.groups * L.groupsize ∧ X.d1 = L.nlatIn ∧ X.d2 = L.nlonIn) (x : ℕ → ℕ → Ten3 R)
    (hx : ∀ p < Pp, ∀ a < Pa, IsPart (whole (L.groups * L.groupsize)) ⟨L.nlatIn, Pp, p⟩ ⟨L.nlonIn, Pa, a⟩ X.val (x p a)) :
    ∃ y z, L.forward X = .ok y ∧
      dconvForward Pp Pa L D (fun p a c => (D p a).cpuKern L (junk p a) (mem p a c) (sh0 p a c) (order p a c)) x = .ok z ∧
      ∀ p < Pp, ∀ a < Pa, IsPart (whole (L.groups * L.outPerGroup)) ⟨L.nlatOut, Pp, p⟩ ⟨L.nlonOut, Pa, a⟩ y.val (z p a) := by
  obtain ⟨y, hy, -, -, -, hv⟩ := C28_layer L taps hL X hX
  obtain ⟨z, hz, hp⟩ := dconv_value L taps hL Pp Pa hf D (fun p hp a ha => (init_ok L Pp Pa p _ (hD p hp a ha)).2.1)
    (fun p a c => (D p a).cpuKern L (junk p a) (mem p a c) (sh0 p a c) (order p a c))
    (fun p hp a ha c => cpuKern_contracts L taps hL Pp Pa p hp _ (hD p hp a ha) (hne p hp a ha).1 (hne p hp a ha).2.1 (hne p hp a ha).2.2
      (lt_of_lt_of_le hf.azimuth hf.lonIn) _ _ _ _ (ho p hp a ha c)) X.val x hx
  refine ⟨y, z, hy, hz, fun p hp' a ha => part_congr (hp p hp' a ha) fun i hi j hj k hk => ?_⟩
  exact (hv _ _ _ (block_lt hf.azimuth ha hk)).symm

/-! ### The reordered communication pattern (`fused=True`) -/

/-- A sum over a block, as a sum over everything. -/
theorem sum_indicator {M : Type} [AddCommMonoid M] (s n N : ℕ) (h : s + n ≤ N) (f : ℕ → M) :
    ∑ i ∈ range n, f (s + i) = ∑ c ∈ range N, if s ≤ c ∧ c < s + n then f c else 0 := by
  rw [← sum_filter]
  refine sum_nbij (fun i => s + i) ?_ ?_ ?_ ?_
  · intro i hi
    have := mem_range.1 hi
    simp only [mem_filter, mem_range]
    omega
  · intro i _ j _ hij
    simpa using hij
  · intro c hc
    simp only [coe_filter, mem_range, Set.mem_ofPred_eq] at hc
    exact ⟨c - s, by simp only [coe_range, Set.mem_Iio]; omega, by show s + (c - s) = c; omega⟩
  · intro i _; rfl

/-- What one rank contributes to output channel `oc`: the input channels of its shard. -/
def shardValue (L : Layer R) (taps : List (Tap R)) (X : ℕ → ℕ → ℕ → R) (start n oc t q : ℕ) : R :=
  ∑ c ∈ range L.groupsize, if start ≤ oc / L.outPerGroup * L.groupsize + c ∧ oc / L.outPerGroup * L.groupsize + c < start + n then
    ∑ k ∈ range L.kernelSize, discoSum taps L.nlonIn L.nlonOut (X (oc / L.outPerGroup * L.groupsize + c)) k t q * L.weight oc c k else 0

omit [CommSemiring R] in
theorem chanStart_ok (L : Layer R) (Pa a : ℕ) (ha : 0 < Pa) (haa : a < Pa) (h : Pa ≤ L.groups * L.groupsize) :
    chanStart L Pa a = .ok (blockStart (L.groups * L.groupsize) Pa a) := by
  unfold chanStart
  split
  · obtain ⟨sz, hsz⟩ := css_exists h ha
    rw [hsz]
    simp only [css_offset_block hsz a haa.le]
  · have h1 : Pa = 1 := by omega
    subst h1
    obtain rfl : a = 0 := by omega
    simp [blockStart]

theorem discoSum_zero (taps : List (Tap R)) (W Wo : ℕ) (x : ℕ → ℕ → R) (h : ∀ i j, x i j = 0) (k t q : ℕ) : discoSum taps W Wo x k t q = 0 := by
  unfold discoSum
  apply List.sum_eq_zero
  intro v hv
  obtain ⟨a, -, rfl⟩ := List.mem_map.1 hv
  simp [h]

theorem reordered_part (L : Layer R) (taps : List (Tap R)) (H : ℕ) (hfit : Fits taps L.kernelSize L.nlatOut H L.nlonIn)
    (kern : ℕ → Mat R → Except PyErr (Ten R)) (hk : ∀ c, Contracts taps H L.nlonIn L.nlatOut L.nlonOut (kern c)) (Pa a : ℕ) (ha : 0 < Pa)
    (haa : a < Pa) (hC : Pa ≤ L.groups * L.groupsize) (c1 : Cut) (hc1 : c1.size = H) (X : ℕ → ℕ → ℕ → R) (x : Ten3 R)
    (hx : IsPart ⟨L.groups * L.groupsize, Pa, a⟩ c1 (whole L.nlonIn) X x) :
    ∃ y, reorderedLocal L kern Pa a x = .ok y ∧ IsPart (whole (L.groups * L.outPerGroup)) (whole L.nlatOut) (whole L.nlonOut)
      (shardValue L taps (fun c i j => X c (c1.start + i) j) (blockStart (L.groups * L.groupsize) Pa a)
        (blockSize (L.groups * L.groupsize) Pa a)) y := by
  set start := blockStart (L.groups * L.groupsize) Pa a with hst
  set n := blockSize (L.groups * L.groupsize) Pa a with hn
  have hend : start + n ≤ L.groups * L.groupsize := by
    have h1 := blockStart_succ (L.groups * L.groupsize) Pa a
    have hm : Monotone (blockStart (L.groups * L.groupsize) Pa) := monotone_nat_of_le_succ (fun a => by rw [blockStart_succ]; omega)
    have h2 := hm (show a + 1 ≤ Pa from haa)
    rw [blockStart_last ha] at h2
    omega
  have hnpos : 0 < n := blockSize_pos hC ha
  have hd0 : x.d0 = n := hx.1
  unfold reorderedLocal
  rw [chanStart_ok L Pa a ha haa hC, except_bind_ok, hd0]
  by_cases hg : L.groups = 1
  · have hG : L.groups * L.groupsize = L.groupsize := by rw [hg, one_mul]
    obtain ⟨y, e, h0, h1, h2, hv⟩ := contractPlanes_part taps L.kernelSize H L.nlonIn L.nlatOut L.nlonOut _ c1 hc1 hfit kern hk X x hx
    have hl : localLayer L start n = .ok
        { L with groups := 1, groupsize := n, outPerGroup := L.groups * L.outPerGroup, weight := fun o c k => L.weight o (start + c) k } := by
      unfold localLayer
      rw [if_pos hg, if_neg]
      rw [not_not]; omega
    have hp : padGroups L start x = x := by unfold padGroups; rw [if_pos hg]
    rw [← hst, hl, except_bind_ok, hp, e, except_bind_ok]
    unfold localMix
    rw [if_neg (by show ¬ ¬ y.d0 = 1 * n; rw [not_not, one_mul]; exact h0), except_bind_ok]
    refine ⟨_, rfl, ?_⟩
    unfold placeGroups
    rw [if_pos hg]
    refine ⟨by rw [whole_size]; show 1 * _ = _; rw [one_mul], h1, h2, fun oc hoc t ht q hq => ?_⟩
    rw [whole_size] at hoc
    have hz : oc / (L.groups * L.outPerGroup) = 0 := Nat.div_eq_of_lt hoc
    have hz' : oc / L.outPerGroup = 0 := Nat.div_eq_of_lt (by rw [hg, one_mul] at hoc; exact hoc)
    have hm' : oc % (L.groups * L.outPerGroup) = oc := Nat.mod_eq_of_lt hoc
    simp only [Layer.mix, Layer.weightR, whole_start, zero_add, hz, hm', zero_mul, shardValue, hz']
    rw [← sum_indicator start n L.groupsize (by omega) fun c => ∑ k ∈ range L.kernelSize,
      discoSum taps L.nlonIn L.nlonOut (fun i j => X c (c1.start + i) j) k t q * L.weight oc c k]
    refine sum_congr rfl fun c hc => sum_congr rfl fun k _ => ?_
    have := congrFun (hv c (mem_range.1 hc) t ht q hq) k
    simp only [whole_start, zero_add] at this
    rw [this]
    rfl
  · have hgs : 0 < L.groupsize := by
      rcases Nat.eq_zero_or_pos L.groupsize with h | h
      · rw [h] at hend; omega
      · exact h
    set lo := start / L.groupsize with hlo
    set hi := (start + n + L.groupsize - 1) / L.groupsize with hhi
    have hlo1 : lo * L.groupsize ≤ start := Nat.div_mul_le_self _ _
    have hlo2 : start < (lo + 1) * L.groupsize := by
      have := Nat.lt_div_mul_add (a := start) hgs
      rw [Nat.add_mul, one_mul]; omega
    have hhi1 : start + n ≤ hi * L.groupsize := by
      have := Nat.lt_div_mul_add (a := start + n + L.groupsize - 1) hgs
      rw [← hhi] at this
      omega
    have hhi2 : hi ≤ L.groups := by
      have : start + n + L.groupsize - 1 < (L.groups + 1) * L.groupsize := by rw [Nat.add_mul, one_mul]; omega
      exact Nat.lt_succ_iff.1 ((Nat.div_lt_iff_lt_mul hgs).2 this)
    have hhi3 : ∀ g, hi ≤ g → start + n ≤ g * L.groupsize := fun g hg => hhi1.trans (Nat.mul_le_mul_right _ hg)
    have hlh : lo < hi := by
      by_contra h
      have : hi * L.groupsize ≤ lo * L.groupsize := Nat.mul_le_mul_right _ (by omega)
      omega
    have hl : localLayer L start n = .ok { L with groups := hi - lo, weight := fun oc c k => L.weight (lo * L.outPerGroup + oc) c k } := by
      unfold localLayer
      rw [if_neg hg, if_neg (by omega)]
      dsimp only
      rw [if_neg (by rw [not_not, ← hlo, ← hhi]; omega)]
    have hpad : IsPart (whole ((hi - lo) * L.groupsize)) c1 (whole L.nlonIn)
        (fun c i j => if start ≤ lo * L.groupsize + c ∧ lo * L.groupsize + c < start + n then X (lo * L.groupsize + c) i j else 0)
        (padGroups L start x) := by
      have hsub : (hi - lo) * L.groupsize = hi * L.groupsize - lo * L.groupsize := Nat.sub_mul _ _ _
      unfold padGroups
      rw [if_neg hg]
      dsimp only
      rw [hd0, ← hlo, ← hhi]
      split
      · next he =>
        refine ⟨by rw [hd0, whole_size, he], hx.2.1, hx.2.2.1, fun c hc i hi' j hj => ?_⟩
        rw [whole_size] at hc
        have hs : start = lo * L.groupsize := by omega
        dsimp only
        rw [whole_start, zero_add, if_pos (by omega)]
        have := hx.2.2.2 c (by show c < n; omega) i hi' j hj
        rw [this]
        show X (start + c) _ _ = _
        rw [hs]
      · refine ⟨by rw [whole_size], hx.2.1, hx.2.2.1, fun c hc i hi' j hj => ?_⟩
        rw [whole_size] at hc
        simp only [whole_start, zero_add]
        by_cases hcc : start ≤ lo * L.groupsize + c ∧ lo * L.groupsize + c < start + n
        · rw [if_pos hcc, if_pos (by omega)]
          have := hx.2.2.2 (c - (start - lo * L.groupsize)) (by show _ < n; omega) i hi' j hj
          rw [this]
          show X (start + (c - (start - lo * L.groupsize))) _ _ = _
          rw [show start + (c - (start - lo * L.groupsize)) = lo * L.groupsize + c by omega]
          simp only [whole_start, zero_add]
        · rw [if_neg hcc, if_neg (by omega)]
    obtain ⟨y, e, h0, h1, h2, hv⟩ := contractPlanes_part taps L.kernelSize H L.nlonIn L.nlatOut L.nlonOut _ c1 hc1 hfit kern hk _ _ hpad
    rw [whole_size] at h0
    rw [← hst, hl, except_bind_ok, e, except_bind_ok]
    unfold localMix
    rw [if_neg (by rw [not_not]; exact h0), except_bind_ok]
    refine ⟨_, rfl, ?_⟩
    unfold placeGroups
    rw [if_neg hg]
    dsimp only
    rw [← hlo]
    refine ⟨by rw [whole_size], h1, h2, fun oc hoc t ht q hq => ?_⟩
    rw [whole_size] at hoc
    have hpos : 0 < L.outPerGroup := by
      rcases Nat.eq_zero_or_pos L.outPerGroup with h | h
      · rw [h] at hoc; omega
      · exact h
    simp only [whole_start, zero_add]
    have hsub : (hi - lo) * L.outPerGroup = hi * L.outPerGroup - lo * L.outPerGroup := Nat.sub_mul _ _ _
    have hle : lo * L.outPerGroup ≤ hi * L.outPerGroup := Nat.mul_le_mul_right _ hlh.le
    by_cases hr : lo * L.outPerGroup ≤ oc ∧ oc < lo * L.outPerGroup + (hi - lo) * L.outPerGroup
    · rw [if_pos hr]
      have hdiv : (oc - lo * L.outPerGroup) / L.outPerGroup = oc / L.outPerGroup - lo := by
        have := Nat.sub_mul_div oc L.outPerGroup lo
        rwa [mul_comm L.outPerGroup lo] at this
      have hglo : lo ≤ oc / L.outPerGroup := (Nat.le_div_iff_mul_le hpos).2 hr.1
      have hghi : oc / L.outPerGroup < hi := (Nat.div_lt_iff_lt_mul hpos).2 (by omega)
      simp only [Layer.mix, Layer.weightR, Nat.div_add_mod']
      unfold shardValue
      refine sum_congr rfl fun c hc => ?_
      have hc' := mem_range.1 hc
      rw [hdiv]
      have eg : lo * L.groupsize + ((oc / L.outPerGroup - lo) * L.groupsize + c) = oc / L.outPerGroup * L.groupsize + c := by
        have : (oc / L.outPerGroup - lo) * L.groupsize = oc / L.outPerGroup * L.groupsize - lo * L.groupsize := Nat.sub_mul _ _ _
        have : lo * L.groupsize ≤ oc / L.outPerGroup * L.groupsize := Nat.mul_le_mul_right _ hglo
        omega
      have hin : (oc / L.outPerGroup - lo) * L.groupsize + c < (hi - lo) * L.groupsize := col_lt (by omega) hc'
      have hyv := hv ((oc / L.outPerGroup - lo) * L.groupsize + c) (by rw [whole_size]; exact hin) t ht q hq
      simp only [whole_start, zero_add] at hyv
      rw [hyv, eg]
      by_cases hcc : start ≤ oc / L.outPerGroup * L.groupsize + c ∧ oc / L.outPerGroup * L.groupsize + c < start + n
      · simp only [if_pos hcc]
        refine sum_congr rfl fun k _ => ?_
        rw [show lo * L.outPerGroup + (oc - lo * L.outPerGroup) = oc by omega]
      · simp only [if_neg hcc]
        refine sum_eq_zero fun k _ => ?_
        rw [discoSum_zero _ _ _ _ (fun _ _ => rfl), zero_mul]
    · rw [if_neg hr]
      unfold shardValue
      symm
      refine sum_eq_zero fun c hc => ?_
      have hc' := mem_range.1 hc
      rw [if_neg]
      rintro ⟨g1, g2⟩
      apply hr
      constructor
      · by_contra hlt
        have : oc / L.outPerGroup < lo := (Nat.div_lt_iff_lt_mul hpos).2 (by omega)
        have : oc / L.outPerGroup * L.groupsize + c < lo * L.groupsize := col_lt this hc'
        omega
      · by_contra hlt
        have : hi ≤ oc / L.outPerGroup := (Nat.le_div_iff_mul_le hpos).2 (by omega)
        have := hhi3 _ this
        omega

/-- The shards of the azimuth ranks add up. -/
theorem shard_sum (L : Layer R) (Pa : ℕ) (ha : 0 < Pa) (v : ℕ → ℕ → R) (oc : ℕ) (hoc : oc < L.groups * L.outPerGroup) :
    ∑ a ∈ range Pa, ∑ c ∈ range L.groupsize, (if blockStart (L.groups * L.groupsize) Pa a ≤ oc / L.outPerGroup * L.groupsize + c ∧
        oc / L.outPerGroup * L.groupsize + c < blockStart (L.groups * L.groupsize) Pa a + blockSize (L.groups * L.groupsize) Pa a then
      v oc c else 0) = ∑ c ∈ range L.groupsize, v oc c := by
  rw [sum_comm]
  refine sum_congr rfl fun c hc => ?_
  have hpos : 0 < L.outPerGroup := by
    rcases Nat.eq_zero_or_pos L.outPerGroup with h | h
    · rw [h] at hoc; omega
    · exact h
  have hin : oc / L.outPerGroup * L.groupsize + c < L.groups * L.groupsize :=
    col_lt ((Nat.div_lt_iff_lt_mul hpos).2 hoc) (mem_range.1 hc)
  generalize oc / L.outPerGroup * L.groupsize + c = m at hin ⊢
  generalize L.groups * L.groupsize = N at hin ⊢
  obtain ⟨r, hr, i, hi, hj⟩ := exists_block (n := N) (P := Pa) (j := m) ha hin
  rw [sum_eq_single r]
  · rw [if_pos (by omega)]
  · intro b _ hb
    rw [if_neg]
    rintro ⟨h1, h2⟩
    exact hb (block_unique (n := N) (P := Pa) (r := b) (i := m - blockStart N Pa b) (r' := r) (i' := i) (by omega) hi (by omega)).1
  · intro h; exact absurd (mem_range.2 hr) h

/-- The value lemma for the reordered pattern. -/
theorem dfused_value (L : Layer R) (taps : List (Tap R)) (hL : LayerOf L taps) (Pp Pa : ℕ) (hf : GridFits L Pp Pa (L.groups * L.groupsize))
    (D : ℕ → ℕ → DDisco R) (hD : ∀ p < Pp, ∀ a < Pa, computeSplitShapes L.nlonIn Pa = .ok (D p a).lonIn)
    (kern : ℕ → ℕ → ℕ → Mat R → Except PyErr (Ten R))
    (hk : ∀ p < Pp, ∀ a < Pa, ∀ c, Contracts (localTaps L.nlatIn Pp p taps) (blockSize L.nlatIn Pp p) L.nlonIn L.nlatOut L.nlonOut (kern p a c))
    (X : ℕ → ℕ → ℕ → R) (x : ℕ → ℕ → Ten3 R)
    (hx : ∀ p < Pp, ∀ a < Pa, IsPart (whole (L.groups * L.groupsize)) ⟨L.nlatIn, Pp, p⟩ ⟨L.nlonIn, Pa, a⟩ X (x p a)) :
    ∃ z, dconvForwardFused Pp Pa L D kern x = .ok z ∧ ∀ p < Pp, ∀ a < Pa,
      IsPart (whole (L.groups * L.outPerGroup)) ⟨L.nlatOut, Pp, p⟩ ⟨L.nlonOut, Pa, a⟩ (serialValue L taps X) (z p a) := by
  obtain ⟨x1, e1, q1⟩ := collect_ok hf.polar hf.azimuth (f := fun p a => azimuthIn Pa x (D p a).lonIn p a)
    fun p hp a ha => azimuthIn_part (L.groups * L.groupsize) L.nlonIn Pp Pa (fun p => ⟨L.nlatIn, Pp, p⟩) hf.azimuth hf.chans hf.lonIn X x hx _
      (hD p hp a ha) p hp a ha
  obtain ⟨x2, e2, q2⟩ := collect_ok hf.polar hf.azimuth (f := fun p a => reorderedLocal L (kern p a) Pa a (x1 p a))
    fun p hp a ha => reordered_part L _ _ (localTaps_fits L.nlatIn Pp p L.kernelSize L.nlatOut L.nlonIn taps hL.fits) (kern p a)
      (hk p hp a ha) Pa a hf.azimuth ha hf.chans ⟨L.nlatIn, Pp, p⟩ rfl X _ (q1 p hp a ha).2
  obtain ⟨x3, e3, q3⟩ := collect_ok hf.polar hf.azimuth (f := fun p a => polarReduceScatter Pp x2 p a)
    fun p hp a ha => polarReduceScatter_part L.nlatOut Pp Pa (fun _ => whole (L.groups * L.outPerGroup)) (fun _ => whole L.nlonOut) hf.polar
      hf.latOut (fun p a => shardValue L (localTaps L.nlatIn Pp p taps) (fun c i j => X c ((⟨L.nlatIn, Pp, p⟩ : Cut).start + i) j)
        (blockStart (L.groups * L.groupsize) Pa a) (blockSize (L.groups * L.groupsize) Pa a)) x2 (fun p hp a ha => (q2 p hp a ha).2) p hp a ha
  have q3' : ∀ p < Pp, ∀ a < Pa, IsPart (whole (L.groups * L.outPerGroup)) ⟨L.nlatOut, Pp, p⟩ (whole L.nlonOut)
      (shardValue L taps X (blockStart (L.groups * L.groupsize) Pa a) (blockSize (L.groups * L.groupsize) Pa a)) (x3 p a) := by
    intro p hp a ha
    refine part_congr (q3 p hp a ha).2 fun i _ j _ w _ => ?_
    unfold shardValue
    rw [sum_comm]
    refine sum_congr rfl fun c _ => ?_
    by_cases hc : blockStart (L.groups * L.groupsize) Pa a ≤
          ((whole (L.groups * L.outPerGroup)).start + i) / L.outPerGroup * L.groupsize + c ∧
        ((whole (L.groups * L.outPerGroup)).start + i) / L.outPerGroup * L.groupsize + c <
          blockStart (L.groups * L.groupsize) Pa a + blockSize (L.groups * L.groupsize) Pa a
    · simp only [if_pos hc]
      rw [sum_comm]
      refine sum_congr rfl fun k _ => ?_
      rw [← sum_mul]
      congr 1
      exact discoSum_blocks taps L.kernelSize L.nlatOut L.nlatIn L.nlonIn L.nlonOut Pp hf.polar hL.fits (X _) k _ _
    · simp only [if_neg hc, sum_const_zero]
  obtain ⟨x4, e4, q4⟩ := collect_ok hf.polar hf.azimuth (f := fun p a => azimuthReduceScatter Pa x3 p a)
    fun p hp a ha => azimuthReduceScatter_part L.nlonOut Pp Pa (fun _ => whole (L.groups * L.outPerGroup)) (fun p => ⟨L.nlatOut, Pp, p⟩)
      hf.azimuth hf.lonOut (fun _ a => shardValue L taps X (blockStart (L.groups * L.groupsize) Pa a) (blockSize (L.groups * L.groupsize) Pa a))
      x3 q3' p hp a ha
  refine ⟨fun p a => biasStage L (x4 p a), ?_, fun p hp a ha => part_congr (biasStage_part L _ _ _ _ _ (whole_start _) (q4 p hp a ha).2) ?_⟩
  · unfold dconvForwardFused
    rw [e1, except_bind_ok, e2, except_bind_ok, e3, except_bind_ok, e4, except_bind_ok]
    rfl
  · intro oc hoc j _ k _
    rw [whole_size] at hoc
    simp only [whole_start, zero_add]
    unfold serialValue
    congr 1
    exact shard_sum L Pa hf.azimuth (fun oc c => ∑ kk ∈ range L.kernelSize, discoSum taps L.nlonIn L.nlonOut
      (X (oc / L.outPerGroup * L.groupsize + c)) kk ((⟨L.nlatOut, Pp, p⟩ : Cut).start + j) ((⟨L.nlonOut, Pa, a⟩ : Cut).start + k) * L.weight oc c kk)
      oc hoc

/-- C52 with `fused=True` (each rank mixes the channels of its shard and the partial results are added up), for any number of groups,
also when a shard cuts through a group: every rank ends with its block of the serial result. -/
theorem C52_conv_fused (L : Layer R) (taps : List (Tap R)) (hL : LayerOf L taps) (Pp Pa : ℕ)
    (hf : GridFits L Pp Pa (L.groups * L.groupsize))
    (D : ℕ → ℕ → DDisco R) (hD : ∀ p < Pp, ∀ a < Pa, DDisco.init L Pp Pa p = .ok (D p a))
    (hne : ∀ p < Pp, ∀ a < Pa, (D p a).entries ≠ [] ∧ RowSorted (D p a).entries ∧ NoCollision L.kernelSize (D p a).entries)
    (junk : ℕ → ℕ → ℕ → Entry R) (mem : ℕ → ℕ → ℕ → ℕ → R) (sh0 : ℕ → ℕ → ℕ → ℕ → ℕ → R) (order : ℕ → ℕ → ℕ → List ℕ)
    (ho : ∀ p < Pp, ∀ a < Pa, ∀ c s roff, preprocessPsi (junk p a) L.kernelSize L.nlatOut (D p a).entries = .ok (s, roff) →
      (order p a c).Perm (List.range (roff.length - 1)))
    (X : Ten R) (hX : X.d0 = L.groups * L.groupsize ∧ X.d1 = L.nlatIn ∧ X.d2 = L.nlonIn) (x : ℕ → ℕ → Ten3 R)
    (hx : ∀ p < Pp, ∀ a < Pa, IsPart (whole (L.groups * L.groupsize)) ⟨L.nlatIn, Pp, p⟩ ⟨L.nlonIn, Pa, a⟩ X.val (x p a)) :
    ∃ y z, L.forward X = .ok y ∧
      dconvForwardFused Pp Pa L D (fun p a c => (D p a).cpuKern L (junk p a) (mem p a c) (sh0 p a c) (order p a c)) x = .ok z ∧
      ∀ p < Pp, ∀ a < Pa, IsPart (whole (L.groups * L.outPerGroup)) ⟨L.nlatOut, Pp, p⟩ ⟨L.nlonOut, Pa, a⟩ y.val (z p a) := by
  obtain ⟨y, hy, -, -, -, hv⟩ := C28_layer L taps hL X hX
  obtain ⟨z, hz, hp⟩ := dfused_value L taps hL Pp Pa hf D (fun p hp a ha => (init_ok L Pp Pa p _ (hD p hp a ha)).2.1)
    (fun p a c => (D p a).cpuKern L (junk p a) (mem p a c) (sh0 p a c) (order p a c))
    (fun p hp a ha c => cpuKern_contracts L taps hL Pp Pa p hp _ (hD p hp a ha) (hne p hp a ha).1 (hne p hp a ha).2.1 (hne p hp a ha).2.2
      (lt_of_lt_of_le hf.azimuth hf.lonIn) _ _ _ _ (ho p hp a ha c)) X.val x hx
  refine ⟨y, z, hy, hz, fun p hp' a ha => part_congr (hp p hp' a ha) fun i hi j hj k hk => ?_⟩
  exact (hv _ _ _ (block_lt hf.azimuth ha hk)).symm

/-! ### The transposed convolution -/

omit [CommSemiring R] in
theorem initTranspose_ok (L : Layer R) (Pp Pa p : ℕ) (D : DDisco R) (h : DDisco.initTranspose L Pp Pa p = .ok D) :
    computeSplitShapes L.nlatIn Pp = .ok D.latIn ∧ computeSplitShapes L.nlonIn Pa = .ok D.lonIn ∧
      computeSplitShapes L.nlatOut Pp = .ok D.latOut ∧ D.entries = splitPsi D.latOut p L.nlonOut L.entries := by
  unfold DDisco.initTranspose at h
  cases h1 : computeSplitShapes L.nlatIn Pp <;> rw [h1] at h <;> [cases h; skip]
  cases h2 : computeSplitShapes L.nlonIn Pa <;> rw [h2] at h <;> [cases h; skip]
  cases h3 : computeSplitShapes L.nlatOut Pp <;> rw [h3] at h <;> [cases h; skip]
  cases h4 : computeSplitShapes L.nlonOut Pa <;> rw [h4] at h <;> [cases h; skip]
  simp only [except_bind_ok] at h
  split at h
  · cases h
  · cases h
    exact ⟨rfl, rfl, rfl, rfl⟩

theorem refKernT_contracts (L : Layer R) (taps : List (Tap R)) (hL : TLayerOf L taps) (Pp Pa p : ℕ) (hp : p < Pp) (D : DDisco R)
    (hD : DDisco.initTranspose L Pp Pa p = .ok D) :
    ContractsT (localTaps L.nlatOut Pp p taps) L.kernelSize L.nlatIn L.nlonIn (blockSize L.nlatOut Pp p) L.nlonOut (D.refKernT L p) := by
  obtain ⟨-, -, h2, h3⟩ := initTranspose_ok L Pp Pa p D hD
  intro x h0 h1 hx2
  have hf := localTaps_fits L.nlatOut Pp p L.kernelSize L.nlatIn L.nlonOut taps hL.fits
  obtain ⟨y, e, d0, d1, v⟩ := transposeContraction_value (localTaps L.nlatOut Pp p taps) L.kernelSize (blockSize L.nlatOut Pp p) L.nlonOut x
    (by rw [h1]; exact hf) h0 (by rw [hx2]; exact hL.nlon) (by rw [hx2]; exact hL.dvd) hL.nlonOut
  refine ⟨y, ?_, d0, d1, fun i j hj => by rw [v i j hj, hx2]⟩
  unfold DDisco.refKernT
  rw [h3, hL.entries, splitPsi_encode L.nlatOut Pp p L.nlonOut hp _ h2 taps (fun a ha => (hL.fits a ha).2.2.2), css_getD_block h2 p hp]
  rw [h1] at e
  exact e

theorem cpuKernT_contracts (L : Layer R) (taps : List (Tap R)) (hL : TLayerOf L taps) (Pp Pa p : ℕ) (hp : p < Pp) (D : DDisco R)
    (hD : DDisco.initTranspose L Pp Pa p = .ok D) (hne : D.entries ≠ []) (hrs : RowSorted D.entries) (hnc : NoCollision L.kernelSize D.entries)
    (junk : ℕ → Entry R) :
    ContractsT (localTaps L.nlatOut Pp p taps) L.kernelSize L.nlatIn L.nlonIn (blockSize L.nlatOut Pp p) L.nlonOut (D.cpuKernT L junk p) := by
  obtain ⟨-, -, h2, h3⟩ := initTranspose_ok L Pp Pa p D hD
  have hE : D.entries = (localTaps L.nlatOut Pp p taps).map (encode L.nlonOut) := by
    rw [h3, hL.entries, splitPsi_encode L.nlatOut Pp p L.nlonOut hp _ h2 taps (fun a ha => (hL.fits a ha).2.2.2)]
  intro x h0 h1 hx2
  have hf := localTaps_fits L.nlatOut Pp p L.kernelSize L.nlatIn L.nlonOut taps hL.fits
  rw [hE] at hne hrs hnc
  obtain ⟨s, roff, e, z, sh', e2, d0, d1, -, v⟩ := C32_backward_kernel (localTaps L.nlatOut Pp p taps) L.kernelSize L.nlatIn
    (blockSize L.nlatOut Pp p) L.nlonOut x hf (by rw [hx2]; exact hL.nlon) hL.nlonOut (by rw [hx2]; exact hL.dvd) (by simpa using hne) hrs hnc
    junk (fun _ => 0) (fun _ _ => rfl)
  refine ⟨z, ?_, d0, d1, fun i j hj => by rw [v i j hj, hx2]⟩
  unfold DDisco.cpuKernT
  rw [hE, e]
  dsimp only
  rw [css_getD_block h2 p hp, e2]

theorem contractPlanesT_part (L : Layer R) (taps : List (Tap R)) (n P p W : ℕ) (c0 : Cut)
    (hf : Fits taps L.kernelSize L.nlatIn n W)
    (kern : ℕ → Ten R → Except PyErr (Mat R))
    (hk : ∀ c, ContractsT (localTaps n P p taps) L.kernelSize L.nlatIn L.nlonIn (blockSize n P p) W (kern c)) (X : ℕ → ℕ → ℕ → ℕ → R)
    (x : Ten3 (ℕ → R)) (hx : IsPart c0 (whole L.nlatIn) (whole L.nlonIn) X x) :
    ∃ y, contractPlanesT L kern x = .ok y ∧ IsPart c0 ⟨n, P, p⟩ (whole W)
      (fun oc i j => discoAdjoint taps W L.nlonIn (fun k t q => X oc t q k) i j) y := by
  obtain ⟨h0, h1, h2, hv⟩ := hx
  rw [whole_size] at h1 h2
  obtain ⟨y0, e0, d0, d1, -⟩ := hk 0 ⟨L.kernelSize, x.d1, x.d2, fun k i j => x.val 0 i j k⟩ rfl h1 h2
  refine ⟨_, by unfold contractPlanesT; rw [e0], h0, d0, by rw [whole_size]; exact d1, ?_⟩
  intro c hc i hi j hj
  rw [whole_size] at hj
  obtain ⟨y, e, -, -, v⟩ := hk c ⟨L.kernelSize, x.d1, x.d2, fun k i j => x.val c i j k⟩ rfl h1 h2
  simp only [e, matVal, whole_start, zero_add]
  rw [v i j hj, discoAdjoint_local _ _ _ _ _ _ _ _ _ hi]
  refine discoAdjoint_congr taps L.kernelSize L.nlatIn n W L.nlonIn hf _ _ (fun k _ t ht q hq => ?_) _ _
  have := congrFun (hv c hc t (by rw [whole_size]; exact ht) q (by rw [whole_size]; exact hq)) k
  simp only [whole_start, zero_add] at this
  exact this

/-- The value lemma for the transposed layer. -/
theorem dtrans_value (L : Layer R) (taps : List (Tap R)) (hL : TLayerOf L taps) (Pp Pa : ℕ) (hf : GridFits L Pp Pa (L.groups * L.outPerGroup))
    (D : ℕ → ℕ → DDisco R) (hD : ∀ p < Pp, ∀ a < Pa, computeSplitShapes L.nlonIn Pa = .ok (D p a).lonIn ∧
      computeSplitShapes L.nlatIn Pp = .ok (D p a).latIn)
    (kern : ℕ → ℕ → ℕ → Ten R → Except PyErr (Mat R))
    (hk : ∀ p < Pp, ∀ a < Pa, ∀ c, ContractsT (localTaps L.nlatOut Pp p taps) L.kernelSize L.nlatIn L.nlonIn (blockSize L.nlatOut Pp p)
      L.nlonOut (kern p a c))
    (X : ℕ → ℕ → ℕ → R) (x : ℕ → ℕ → Ten3 R)
    (hx : ∀ p < Pp, ∀ a < Pa, IsPart (whole (L.groups * L.groupsize)) ⟨L.nlatIn, Pp, p⟩ ⟨L.nlonIn, Pa, a⟩ X (x p a)) :
    ∃ z, dtransForward Pp Pa L D kern x = .ok z ∧ ∀ p < Pp, ∀ a < Pa,
      IsPart (whole (L.groups * L.outPerGroup)) ⟨L.nlatOut, Pp, p⟩ ⟨L.nlonOut, Pa, a⟩
        (fun oc i j => discoAdjoint taps L.nlonOut L.nlonIn
          (fun k t q => ∑ c ∈ range L.groupsize, X (oc / L.outPerGroup * L.groupsize + c) t q * L.weight oc c k) i j
          + (match L.bias with | none => 0 | some b => b oc)) (z p a) := by
  obtain ⟨x0, e0, q0⟩ := collect_ok hf.polar hf.azimuth (f := fun p a => localExpand L (x p a))
    (Q := fun p a y => IsPart (whole (L.groups * L.outPerGroup)) ⟨L.nlatIn, Pp, p⟩ ⟨L.nlonIn, Pa, a⟩
      (fun oc t q k => ∑ c ∈ range L.groupsize, X (oc / L.outPerGroup * L.groupsize + c) t q * L.weight oc c k) y)
    fun p hp a ha => by
      obtain ⟨h0, h1, h2, hv⟩ := hx p hp a ha
      rw [whole_size] at h0
      unfold localExpand
      rw [if_neg (by simpa using h0)]
      refine ⟨_, rfl, by rw [whole_size], h1, h2, fun oc hoc j hj k hk => ?_⟩
      rw [whole_size] at hoc
      funext kk
      simp only [Layer.expand, Layer.weightR, whole_start, zero_add, Nat.div_add_mod']
      refine sum_congr rfl fun c hc => ?_
      have hg : oc / L.outPerGroup * L.groupsize + c < L.groups * L.groupsize := by
        have hpos : 0 < L.outPerGroup := by
          rcases Nat.eq_zero_or_pos L.outPerGroup with h | h
          · rw [h] at hoc; omega
          · exact h
        exact col_lt ((Nat.div_lt_iff_lt_mul hpos).2 hoc) (mem_range.1 hc)
      have := hv (oc / L.outPerGroup * L.groupsize + c) (by rw [whole_size]; exact hg) j hj k hk
      rw [whole_start, zero_add] at this
      rw [this]
  obtain ⟨x1, e1, q1⟩ := collect_ok hf.polar hf.azimuth (f := fun p a => azimuthIn Pa x0 (D p a).lonIn p a)
    fun p hp a ha => azimuthIn_part (L.groups * L.outPerGroup) L.nlonIn Pp Pa (fun p => ⟨L.nlatIn, Pp, p⟩) hf.azimuth hf.chans hf.lonIn _ x0
      (fun p hp a ha => (q0 p hp a ha).2) _ (hD p hp a ha).1 p hp a ha
  obtain ⟨x2, e2, q2⟩ := collect_ok hf.polar hf.azimuth (f := fun p a => polarGather Pp x1 (D p a).latIn p a)
    fun p hp a ha => polarGather_part L.nlatIn Pp Pa (fun a => ⟨L.groups * L.outPerGroup, Pa, a⟩) (fun _ => whole L.nlonIn) hf.polar hf.latIn _ x1
      (fun p hp a ha => (q1 p hp a ha).2) _ (hD p hp a ha).2 p hp a ha
  obtain ⟨x3, e3, q3⟩ := collect_ok hf.polar hf.azimuth (f := fun p a => contractPlanesT L (kern p a) (x2 p a))
    fun p hp a ha => contractPlanesT_part L taps L.nlatOut Pp p L.nlonOut _ hL.fits (kern p a) (hk p hp a ha) _ _ (q2 p hp a ha).2
  obtain ⟨x4, e4, q4⟩ := collect_ok hf.polar hf.azimuth (f := fun p a => azimuthOut Pa x3 (x0 p a).d0 p a)
    fun p hp a ha => by
      rw [(q0 p hp a ha).2.1, whole_size]
      exact azimuthOut_part (L.groups * L.outPerGroup) L.nlonOut Pp Pa (fun p => ⟨L.nlatOut, Pp, p⟩) hf.azimuth hf.chans hf.lonOut _ x3
        (fun p hp a ha => (q3 p hp a ha).2) p hp a ha
  refine ⟨fun p a => biasStage L (x4 p a), ?_, fun p hp a ha => biasStage_part L _ _ _ _ _ (whole_start _) (q4 p hp a ha).2⟩
  unfold dtransForward
  rw [e0, except_bind_ok, e1, except_bind_ok, e2, except_bind_ok, e3, except_bind_ok, e4, except_bind_ok]
  rfl

/-- C52 for the transposed convolution with the reference kernels. -/
theorem C52_transpose (L : Layer R) (taps : List (Tap R)) (hL : TLayerOf L taps) (Pp Pa : ℕ) (hf : GridFits L Pp Pa (L.groups * L.outPerGroup))
    (D : ℕ → ℕ → DDisco R) (hD : ∀ p < Pp, ∀ a < Pa, DDisco.initTranspose L Pp Pa p = .ok (D p a)) (X : Ten R)
    (hX : X.d0 = L.groups * L.groupsize ∧ X.d1 = L.nlatIn ∧ X.d2 = L.nlonIn) (x : ℕ → ℕ → Ten3 R)
    (hx : ∀ p < Pp, ∀ a < Pa, IsPart (whole (L.groups * L.groupsize)) ⟨L.nlatIn, Pp, p⟩ ⟨L.nlonIn, Pa, a⟩ X.val (x p a)) :
    ∃ y z, L.transposeForward X = .ok y ∧ dtransForward Pp Pa L D (fun p a _ => (D p a).refKernT L p) x = .ok z ∧
      ∀ p < Pp, ∀ a < Pa, IsPart (whole (L.groups * L.outPerGroup)) ⟨L.nlatOut, Pp, p⟩ ⟨L.nlonOut, Pa, a⟩ y.val (z p a) := by
  obtain ⟨y, hy, -, -, -, hv⟩ := C32_transpose_layer L taps hL X hX
  obtain ⟨z, hz, hp⟩ := dtrans_value L taps hL Pp Pa hf D
    (fun p hp a ha => ⟨(initTranspose_ok L Pp Pa p _ (hD p hp a ha)).2.1, (initTranspose_ok L Pp Pa p _ (hD p hp a ha)).1⟩)
    (fun p a _ => (D p a).refKernT L p) (fun p hp a ha _ => refKernT_contracts L taps hL Pp Pa p hp _ (hD p hp a ha)) X.val x hx
  refine ⟨y, z, hy, hz, fun p hp' a ha => part_congr (hp p hp' a ha) fun i hi j hj k hk => ?_⟩
  exact (hv _ _ _ (block_lt hf.azimuth ha hk)).symm

/-- C52 for the transposed convolution with the CPU kernel. -/
theorem C52_transpose_cpu (L : Layer R) (taps : List (Tap R)) (hL : TLayerOf L taps) (Pp Pa : ℕ)
    (hf : GridFits L Pp Pa (L.groups * L.outPerGroup))
    (D : ℕ → ℕ → DDisco R) (hD : ∀ p < Pp, ∀ a < Pa, DDisco.initTranspose L Pp Pa p = .ok (D p a))
    (hne : ∀ p < Pp, ∀ a < Pa, (D p a).entries ≠ [] ∧ RowSorted (D p a).entries ∧ NoCollision L.kernelSize (D p a).entries)
    (junk : ℕ → ℕ → ℕ → Entry R) (X : Ten R)
    (hX : X.d0 = L.groups * L.groupsize ∧ X.d1 = L.nlatIn ∧ X.d2 = L.nlonIn) (x : ℕ → ℕ → Ten3 R)
    (hx : ∀ p < Pp, ∀ a < Pa, IsPart (whole (L.groups * L.groupsize)) ⟨L.nlatIn, Pp, p⟩ ⟨L.nlonIn, Pa, a⟩ X.val (x p a)) :
    ∃ y z, L.transposeForward X = .ok y ∧ dtransForward Pp Pa L D (fun p a _ => (D p a).cpuKernT L (junk p a) p) x = .ok z ∧
      ∀ p < Pp, ∀ a < Pa, IsPart (whole (L.groups * L.outPerGroup)) ⟨L.nlatOut, Pp, p⟩ ⟨L.nlonOut, Pa, a⟩ y.val (z p a) := by
  obtain ⟨y, hy, -, -, -, hv⟩ := C32_transpose_layer L taps hL X hX
  obtain ⟨z, hz, hp⟩ := dtrans_value L taps hL Pp Pa hf D
    (fun p hp a ha => ⟨(initTranspose_ok L Pp Pa p _ (hD p hp a ha)).2.1, (initTranspose_ok L Pp Pa p _ (hD p hp a ha)).1⟩)
    (fun p a _ => (D p a).cpuKernT L (junk p a) p) (fun p hp a ha _ => cpuKernT_contracts L taps hL Pp Pa p hp _ (hD p hp a ha)
      (hne p hp a ha).1 (hne p hp a ha).2.1 (hne p hp a ha).2.2 (junk p a)) X.val x hx
  refine ⟨y, z, hy, hz, fun p hp' a ha => part_congr (hp p hp' a ha) fun i hi j hj k hk => ?_⟩
  exact (hv _ _ _ (block_lt hf.azimuth ha hk)).symm

/-! ### Construction and refusals -/

omit [CommSemiring R] in
/-- C52: the constructor succeeds on a rank exactly when the process grid fits both grids and the rank's block of input latitudes does
not meet exactly one filter entry. -/
theorem C52_init (L : Layer R) (Pp Pa p : ℕ) (hp : p < Pp) (taps : List (Tap R)) (he : L.entries = taps.map (encode L.nlonIn))
    (hf : Fits taps L.kernelSize L.nlatOut L.nlatIn L.nlonIn) :
    (∃ D, DDisco.init L Pp Pa p = .ok D) ↔ 0 < Pa ∧ Pp ≤ L.nlatIn ∧ Pa ≤ L.nlonIn ∧ Pp ≤ L.nlatOut ∧ Pa ≤ L.nlonOut ∧
      (taps.filter fun a => blockStart L.nlatIn Pp p ≤ a.latIn ∧ a.latIn < blockStart L.nlatIn Pp p + blockSize L.nlatIn Pp p).length ≠ 1 := by
  have hlen : ∀ sh, computeSplitShapes L.nlatIn Pp = .ok sh → (splitPsi sh p L.nlonIn L.entries).length =
      (taps.filter fun a => blockStart L.nlatIn Pp p ≤ a.latIn ∧ a.latIn < blockStart L.nlatIn Pp p + blockSize L.nlatIn Pp p).length := by
    intro sh hsh
    rw [he, splitPsi_encode L.nlatIn Pp p L.nlonIn hp sh hsh taps (fun a ha => (hf a ha).2.2.2)]
    simp [localTaps]
  unfold DDisco.init
  constructor
  · rintro ⟨D, h⟩
    cases h1 : computeSplitShapes L.nlatIn Pp <;> rw [h1] at h <;> [cases h; skip]
    cases h2 : computeSplitShapes L.nlonIn Pa <;> rw [h2] at h <;> [cases h; skip]
    cases h3 : computeSplitShapes L.nlatOut Pp <;> rw [h3] at h <;> [cases h; skip]
    cases h4 : computeSplitShapes L.nlonOut Pa <;> rw [h4] at h <;> [cases h; skip]
    simp only [except_bind_ok] at h
    split at h
    · cases h
    · next hn =>
      rw [hlen _ h1] at hn
      exact ⟨((css_ok_iff _ _ _).1 h2).2.1, ((css_ok_iff _ _ _).1 h1).1, ((css_ok_iff _ _ _).1 h2).1, ((css_ok_iff _ _ _).1 h3).1,
        ((css_ok_iff _ _ _).1 h4).1, hn⟩
  · rintro ⟨ha, g1, g2, g3, g4, hn⟩
    obtain ⟨s1, h1⟩ := css_exists g1 (by omega)
    obtain ⟨s2, h2⟩ := css_exists g2 ha
    obtain ⟨s3, h3⟩ := css_exists g3 (by omega)
    obtain ⟨s4, h4⟩ := css_exists g4 ha
    rw [h1, h2, h3, h4]
    simp only [except_bind_ok]
    rw [if_neg (by rw [hlen _ h1]; exact hn)]
    exact ⟨_, rfl⟩

theorem azimuthIn_few {α : Type} (Pa : ℕ) (ha : 1 < Pa) (x : ℕ → ℕ → Ten3 α) (sz : List ℕ) (h : (x 0 0).d0 < Pa) :
    ∃ e, azimuthIn Pa x sz 0 0 = .error e := by
  unfold azimuthIn trans02 distTransposeForward transposeRank
  rw [if_pos ha]
  simp only [if_neg (show ¬ Pa = 1 by omega)]
  cases hc : computeSplitShapes (view02 (x 0 0)).d0 Pa with
  | error e => exact ⟨e, rfl⟩
  | ok s =>
    have := ((css_ok_iff _ _ _).1 hc).1
    exact absurd this (by show ¬ Pa ≤ (x 0 0).d0; omega)

/-- C52: an input with fewer channels than azimuth ranks is refused by both communication patterns. -/
theorem C52_few_channels (Pp Pa : ℕ) (hp : 0 < Pp) (ha : 1 < Pa) (L : Layer R) (D : ℕ → ℕ → DDisco R)
    (kern : ℕ → ℕ → ℕ → Mat R → Except PyErr (Ten R)) (x : ℕ → ℕ → Ten3 R) (h : (x 0 0).d0 < Pa) :
    (∃ e, dconvForward Pp Pa L D kern x = .error e) ∧ ∃ e, dconvForwardFused Pp Pa L D kern x = .error e := by
  obtain ⟨e, he⟩ := azimuthIn_few Pa ha x (D 0 0).lonIn h
  obtain ⟨e', he'⟩ := collect_error (Pp := Pp) (Pa := Pa) (f := fun p a => azimuthIn Pa x (D p a).lonIn p a) hp (by omega) he
  constructor
  · exact ⟨e', by unfold dconvForward; rw [he']; rfl⟩
  · exact ⟨e', by unfold dconvForwardFused; rw [he']; rfl⟩

/-! ### Concrete cases -/

/-- The pieces of a tensor. -/
def piece {α : Type} (X : ℕ → ℕ → ℕ → α) (c0 c1 c2 : Cut) : Ten3 α :=
  ⟨c0.size, c1.size, c2.size, fun i j k => X (c0.start + i) (c1.start + j) (c2.start + k)⟩

theorem piece_isPart {α : Type} (X : ℕ → ℕ → ℕ → α) (c0 c1 c2 : Cut) : IsPart c0 c1 c2 X (piece X c0 c1 c2) :=
  ⟨rfl, rfl, rfl, fun _ _ _ _ _ _ => rfl⟩

/-- The 2 × 4 input with two channels. -/
def exGlobal : Ten ℚ := ⟨2, 2, 4, fun c i j => (c * 8 + i * 4 + j + 1 : ℕ)⟩

theorem exLayer_of : LayerOf exLayer exTaps := by
  refine ⟨rfl, ?_, by decide, by decide, by decide⟩
  intro a ha
  simp only [exTaps, List.mem_cons, List.not_mem_nil, or_false] at ha
  rcases ha with rfl | rfl | rfl | rfl | rfl | rfl <;> decide

/-- The hypotheses of `C52_conv` on a 2 × 2 process grid. -/
example : ∃ D : ℕ → ℕ → DDisco ℚ, LayerOf exLayer exTaps ∧ GridFits exLayer 2 2 (exLayer.groups * exLayer.groupsize) ∧
    (∀ p < 2, ∀ a < 2, DDisco.init exLayer 2 2 p = .ok (D p a)) ∧
    (exGlobal.d0 = exLayer.groups * exLayer.groupsize ∧ exGlobal.d1 = exLayer.nlatIn ∧ exGlobal.d2 = exLayer.nlonIn) := by
  have h : ∀ p : ℕ, ∃ D, p < 2 → DDisco.init exLayer 2 2 p = .ok D := by
    intro p
    by_cases hp : p < 2
    · obtain ⟨D, hD⟩ := (C52_init exLayer 2 2 p hp exTaps rfl exLayer_of.fits).2 ⟨by decide, by decide, by decide, by decide, by decide, by
        interval_cases p <;> decide⟩
      exact ⟨D, fun _ => hD⟩
    · exact ⟨⟨[], [], [], [], []⟩, fun h => absurd h hp⟩
  choose D hD using h
  exact ⟨fun p _ => D p, exLayer_of, ⟨by decide, by decide, by decide, by decide, by decide, by decide, by decide⟩,
    fun p hp a _ => hD p hp, rfl, rfl, rfl⟩

/-- Every block of latitudes meets both kernels in both rows. -/
def okTaps : List (Tap ℚ) :=
  [⟨0, 0, 0, 1, 2⟩, ⟨0, 0, 1, 3, 3⟩, ⟨0, 1, 0, 0, 5⟩, ⟨0, 1, 1, 2, 7⟩, ⟨1, 0, 0, 2, 1⟩, ⟨1, 0, 1, 2, 4⟩]

def okLayer : Layer ℚ := { exLayer with entries := okTaps.map (encode 4) }

theorem okLayer_of : LayerOf okLayer okTaps := by
  refine ⟨rfl, ?_, by decide, by decide, by decide⟩
  intro a ha
  simp only [okTaps, List.mem_cons, List.not_mem_nil, or_false] at ha
  rcases ha with rfl | rfl | rfl | rfl | rfl | rfl <;> decide

theorem rowSorted_of {es : List (Entry ℚ)} (K : ℕ) (hK : ∀ e ∈ es, e.ker < K)
    (h : ∀ k < K, (es.filter (fun e => e.ker = k)).Pairwise (fun a b => a.row ≤ b.row)) : RowSorted es := by
  intro k
  by_cases hk : k < K
  · exact h k hk
  · rw [List.filter_eq_nil_iff.2]
    · exact List.Pairwise.nil
    · intro e he
      have := hK e he
      simp; omega

/-- The hypotheses of `C52_conv_cpu` and `C52_conv_fused` on a 2 × 2 process grid. -/
example : ∃ D : ℕ → ℕ → DDisco ℚ, LayerOf okLayer okTaps ∧ GridFits okLayer 2 2 (okLayer.groups * okLayer.groupsize) ∧
    (∀ p < 2, ∀ a < 2, DDisco.init okLayer 2 2 p = .ok (D p a)) ∧
    (∀ p < 2, ∀ a < 2, (D p a).entries ≠ [] ∧ RowSorted (D p a).entries ∧ NoCollision okLayer.kernelSize (D p a).entries) := by
  have h : ∀ p : ℕ, ∃ D, p < 2 → DDisco.init okLayer 2 2 p = .ok D := by
    intro p
    by_cases hp : p < 2
    · obtain ⟨D, hD⟩ := (C52_init okLayer 2 2 p hp okTaps rfl okLayer_of.fits).2 ⟨by decide, by decide, by decide, by decide, by decide, by
        interval_cases p <;> decide⟩
      exact ⟨D, fun _ => hD⟩
    · exact ⟨⟨[], [], [], [], []⟩, fun h => absurd h hp⟩
  choose D hD using h
  refine ⟨fun p _ => D p, okLayer_of, ⟨by decide, by decide, by decide, by decide, by decide, by decide, by decide⟩,
    fun p hp a _ => hD p hp, fun p hp a _ => ?_⟩
  obtain ⟨h1, -, h3⟩ := init_ok _ _ _ _ _ (hD p hp)
  dsimp only
  have e : (D p).entries = (localTaps 2 2 p okTaps).map (encode 4) := by
    rw [h3]
    exact splitPsi_encode 2 2 p 4 hp _ h1 okTaps (fun a ha => (okLayer_of.fits a ha).2.2.2)
  rw [e]
  interval_cases p
  · exact ⟨by decide, rowSorted_of 2 (by decide) (by decide), by show List.IsChain _ _; decide⟩
  · exact ⟨by decide, rowSorted_of 2 (by decide) (by decide), by show List.IsChain _ _; decide⟩

/-- The hypotheses of `C52_transpose` on a 2 × 2 process grid. -/
example : ∃ D : ℕ → ℕ → DDisco ℚ, TLayerOf exTLayer exTaps ∧ GridFits exTLayer 2 2 (exTLayer.groups * exTLayer.outPerGroup) ∧
    (∀ p < 2, ∀ a < 2, DDisco.initTranspose exTLayer 2 2 p = .ok (D p a)) := by
  refine ⟨fun p _ => ⟨[1, 1], [1, 1], [1, 1], [2, 2], splitPsi [1, 1] p 4 exTLayer.entries⟩, ?_, ?_, ?_⟩
  · refine ⟨rfl, ?_, by decide, by decide, by decide⟩
    exact exLayer_of.fits
  · exact ⟨by decide, by decide, by decide, by decide, by decide, by decide, by decide⟩
  · intro p hp a _
    interval_cases p <;> rfl

/-- C52, the excluded case is real: the serial filter has no collision, but on the blocks of two polar ranks kernel 1 starts with the
row kernel 0 ended with. The serial CPU kernel is right and the distributed layer silently returns other values. -/
theorem C52_local_collision_wrong :
    (RowSorted exLayer.entries ∧ NoCollision exLayer.kernelSize exLayer.entries) ∧
    ∃ (D : ℕ → DDisco ℚ) (y : Ten ℚ) (z : ℕ → ℕ → Ten3 ℚ), (∀ p < 2, DDisco.init exLayer 2 1 p = .ok (D p)) ∧
      (∀ p < 2, ∃ s roff, preprocessPsi (fun _ => ⟨0, 0, 0, 0⟩) exLayer.kernelSize exLayer.nlatOut (D p).entries = .ok (s, roff) ∧
        roff.length - 1 = 2) ∧ exLayer.forward exGlobal = .ok y ∧
      dconvForward 2 1 exLayer (fun p _ => D p)
        (fun p _ _ => (D p).cpuKern exLayer (fun _ => ⟨0, 0, 0, 0⟩) (fun _ => 0) (fun _ _ => 0) (List.range 2))
        (fun p a => piece exGlobal.val (whole 2) ⟨2, 2, p⟩ ⟨4, 1, a⟩) = .ok z ∧
      y.val 1 0 0 ≠ (z 0 0).val 1 0 0 := by
  refine ⟨⟨rowSorted_of 2 (by decide) (by decide), by show List.IsChain _ _; decide⟩, ?_⟩
  refine ⟨fun p => ⟨[1, 1], [4], [1, 1], [2], splitPsi [1, 1] p 4 exLayer.entries⟩, _, _, ?_, ?_, rfl, rfl, ?_⟩
  · intro p hp
    interval_cases p <;> rfl
  · intro p hp
    interval_cases p <;> exact ⟨_, _, rfl, by decide +kernel⟩
  · decide +kernel

/-- One kernel, one tap per latitude and row, four input channels and one output channel whose weights are 1, 10, 100, 1000. -/
def wideTaps : List (Tap ℚ) := [⟨0, 0, 0, 0, 1⟩, ⟨0, 0, 1, 0, 1⟩, ⟨0, 1, 0, 0, 1⟩, ⟨0, 1, 1, 0, 1⟩]

def wideLayer : Layer ℚ :=
  { groups := 1, groupsize := 4, outPerGroup := 1, kernelSize := 1, nlatIn := 2, nlonIn := 2, nlatOut := 2, nlonOut := 2
    weight := fun _ c _ => (10 ^ c : ℕ), bias := none, entries := wideTaps.map (encode 2) }

/-- An input of ones with two channels only. -/
def narrowInput : Ten ℚ := ⟨2, 2, 2, fun _ _ _ => 1⟩

/-- C52, a finding: an input with the wrong number of channels is refused by the serial layer and by the standard communication
pattern, but the reordered pattern (one group) silently applies the weights of channels 0 and 2 to the two channels it was given. -/
theorem C52_fused_wrong_channels :
    ∃ D : ℕ → DDisco ℚ, (∀ p < 1, DDisco.init wideLayer 1 2 p = .ok (D p)) ∧ (∃ e, wideLayer.forward narrowInput = .error e) ∧
      (∃ e, dconvForward 1 2 wideLayer (fun p _ => D p) (fun p _ _ => (D p).refKern wideLayer p)
        (fun p a => piece narrowInput.val (whole 2) ⟨2, 1, p⟩ ⟨2, 2, a⟩) = .error e) ∧
      ∃ z, dconvForwardFused 1 2 wideLayer (fun p _ => D p) (fun p _ _ => (D p).refKern wideLayer p)
        (fun p a => piece narrowInput.val (whole 2) ⟨2, 1, p⟩ ⟨2, 2, a⟩) = .ok z ∧ (z 0 0).val 0 0 0 = 2 * 1 + 2 * 100 := by
  refine ⟨fun p => ⟨[2], [1, 1], [2], [1, 1], splitPsi [2] p 2 wideLayer.entries⟩, ?_, ⟨_, rfl⟩, ⟨_, rfl⟩, _, rfl, ?_⟩
  · intro p hp
    interval_cases p
    rfl
  · decide +kernel

end Verif.Props
