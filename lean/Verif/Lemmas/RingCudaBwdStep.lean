import Verif.Lemmas.RingCudaBwdLaunch
import Verif.Lemmas.RingCudaStep
import Verif.Lemmas.AttentionCudaBwdOp
import Verif.Lemmas.DistAttentionBwd
/-!
The first backward pass of one step of the ring: all launches together, and what they mean for the accumulators.
-/
namespace Verif.RingGpu
open Verif Verif.Attn Verif.Spec.Attn Verif.AttnGpu Verif.Ring Finset Verif.Spec.RingStep

/-- The neighbour `y` as the call has it, in one half. -/
def bPtAt (two : Bool) (p : Params) (x : BIn) (b ho wo : ℕ) (y : ℕ × ℕ) : Pt :=
  ⟨∑ c ∈ range p.nci, entryOf p.nlatOut p.nlonOut p.nci x.q b ho wo c * entryOf p.nlatHalo p.nlonKx p.nci x.k b ((y.1 : ℤ) - p.start).toNat (y.2 - p.lonLo) c,
    cond two (x.w y.1 * ∑ c ∈ range p.nco, entryOf p.nlatOut p.nlonOut p.nco x.dy b ho wo c * entryOf p.nlatHalo p.nlonKx p.nco x.v b ((y.1 : ℤ) - p.start).toNat (y.2 - p.lonLo) c) (x.w y.1),
    fun c => entryOf p.nlatHalo p.nlonKx p.nci x.k b ((y.1 : ℤ) - p.start).toNat (y.2 - p.lonLo) c⟩

/-- The neighbours of the point with number `i`, in numbers of channels. -/
def bNbrsAt (two : Bool) (p : Params) (x : BIn) (i : ℕ) : List Pt :=
  (nbrsIn (blockOf p) x.P p.nlonIn p.pscale (i / p.nlonOut % p.nlatOut) (i % p.nlonOut)).map
    (bPtAt two p x (i / p.nlonOut / p.nlatOut) (i / p.nlonOut % p.nlatOut) (i % p.nlonOut))

theorem bPtOf_at (two : Bool) {vec : ℕ} {p : Params} (h1 : p.nci / vec * vec = p.nci) (h2 : p.nco / vec * vec = p.nco) (x : BIn) (b ho wo hl wl : ℕ) (w : ℝ) :
    bPtOf two vec (scaled vec p) x b ho wo ⟨b * p.nlatHalo * p.nlonKx * (p.nci / vec) + (hl * p.nlonKx * (p.nci / vec) + wl * (p.nci / vec)),
        b * p.nlatHalo * p.nlonKx * (p.nco / vec) + (hl * p.nlonKx * (p.nco / vec) + wl * (p.nco / vec)), w⟩
      = ⟨∑ c ∈ range p.nci, entryOf p.nlatOut p.nlonOut p.nci x.q b ho wo c * entryOf p.nlatHalo p.nlonKx p.nci x.k b hl wl c,
        cond two (w * ∑ c ∈ range p.nco, entryOf p.nlatOut p.nlonOut p.nco x.dy b ho wo c * entryOf p.nlatHalo p.nlonKx p.nco x.v b hl wl c) w,
        fun c => entryOf p.nlatHalo p.nlonKx p.nci x.k b hl wl c⟩ := by
  have ek : ∀ c, vec * (b * p.nlatHalo * p.nlonKx * (p.nci / vec) + (hl * p.nlonKx * (p.nci / vec) + wl * (p.nci / vec))) + c
      = ((b * p.nlatHalo + hl) * p.nlonKx + wl) * p.nci + c := by
    intro c
    calc _ = ((b * p.nlatHalo + hl) * p.nlonKx + wl) * (p.nci / vec * vec) + c := by ring
      _ = _ := by rw [h1]
  have ev : ∀ c, vec * (b * p.nlatHalo * p.nlonKx * (p.nco / vec) + (hl * p.nlonKx * (p.nco / vec) + wl * (p.nco / vec))) + c
      = ((b * p.nlatHalo + hl) * p.nlonKx + wl) * p.nco + c := by
    intro c
    calc _ = ((b * p.nlatHalo + hl) * p.nlonKx + wl) * (p.nco / vec * vec) + c := by ring
      _ = _ := by rw [h2]
  have eq : ∀ c, vec * queryAt (scaled vec p) b ho wo + c = ((b * p.nlatOut + ho) * p.nlonOut + wo) * p.nci + c := by
    intro c
    rw [query_addr]
    change _ * (p.nci / vec * vec) + c = _
    rw [h1]
    rfl
  have eg : ∀ c, vec * gradAt (scaled vec p) b ho wo + c = ((b * p.nlatOut + ho) * p.nlonOut + wo) * p.nco + c := by
    intro c
    calc _ = ((b * p.nlatOut + ho) * p.nlonOut + wo) * (p.nco / vec * vec) + c := by unfold gradAt scaled; dsimp only; ring
      _ = _ := by rw [h2]
  have hgrad : gradOf vec (scaled vec p) x b ho wo ⟨b * p.nlatHalo * p.nlonKx * (p.nci / vec) + (hl * p.nlonKx * (p.nci / vec) + wl * (p.nci / vec)),
        b * p.nlatHalo * p.nlonKx * (p.nco / vec) + (hl * p.nlonKx * (p.nco / vec) + wl * (p.nco / vec)), w⟩
      = ∑ c ∈ range p.nco, entryOf p.nlatOut p.nlonOut p.nco x.dy b ho wo c * entryOf p.nlatHalo p.nlonKx p.nco x.v b hl wl c := by
    unfold gradOf
    rw [show (scaled vec p).nco * vec = p.nco from h2]
    refine sum_congr rfl fun c _ => ?_
    dsimp only
    rw [eg, ev]
    rfl
  unfold bPtOf ptOf keyEntry
  dsimp only
  rw [hgrad, show (scaled vec p).nci * vec = p.nci from h1]
  congr 1
  · refine sum_congr rfl fun c _ => ?_
    rw [eq, ek]
    rfl
  · funext c
    rw [ek]
    rfl

theorem bChunk_nbrs (two : Bool) {vec : ℕ} {p : Params} (h1 : p.nci / vec * vec = p.nci) (h2 : p.nco / vec * vec = p.nco) (x : BIn) (b ho wo : ℕ) :
    bChunk two vec (scaled vec p) x b ho wo = (nbrsIn (blockOf p) x.P p.nlonIn p.pscale ho wo).map (bPtAt two p x b ho wo) := by
  unfold bChunk nbrsIn gatherNbrs
  generalize x.P.row ho = R
  induction R with
  | nil => rfl
  | cons z R ih =>
    have hh : entry (scaled vec p) x.w x.P b wo z =
        if p.lonLo ≤ (x.P.col z % p.nlonIn + p.pscale * wo) % p.nlonIn ∧ (x.P.col z % p.nlonIn + p.pscale * wo) % p.nlonIn < p.lonLo + p.nlonKx then
          if 0 ≤ ((x.P.col z / p.nlonIn : ℕ) : ℤ) - p.start ∧ ((x.P.col z / p.nlonIn : ℕ) : ℤ) - p.start < (p.nlatHalo : ℤ)
          then some ⟨b * p.nlatHalo * p.nlonKx * (p.nci / vec) + ((((x.P.col z / p.nlonIn : ℕ) : ℤ) - p.start).toNat * p.nlonKx * (p.nci / vec)
              + ((x.P.col z % p.nlonIn + p.pscale * wo) % p.nlonIn - p.lonLo) * (p.nci / vec)),
            b * p.nlatHalo * p.nlonKx * (p.nco / vec) + ((((x.P.col z / p.nlonIn : ℕ) : ℤ) - p.start).toNat * p.nlonKx * (p.nco / vec)
              + ((x.P.col z % p.nlonIn + p.pscale * wo) % p.nlonIn - p.lonLo) * (p.nco / vec)), x.w (x.P.col z / p.nlonIn)⟩ else none
        else none := by
      unfold entry scaled
      dsimp only
      rw [sub_div_mul, sub_div_mul]
    rw [List.map_cons, List.filter_cons]
    by_cases h3 : (blockOf p).Has (x.P.col z / p.nlonIn, (x.P.col z % p.nlonIn + p.pscale * wo) % p.nlonIn)
    · rw [if_pos (by simpa using h3), List.map_cons, ← ih]
      obtain ⟨a1, a2, a3, a4⟩ := h3
      dsimp only [blockOf] at a1 a2 a3 a4
      rw [if_pos ⟨a3, a4⟩, if_pos ⟨by omega, by omega⟩] at hh
      rw [List.filterMap_cons_some hh, List.map_cons, bPtOf_at two h1 h2]
      rfl
    · rw [if_neg (by simpa using h3), ← ih]
      rw [List.filterMap_cons_none]
      rw [hh]
      split_ifs with h4 h5
      · exact absurd ⟨by show p.start ≤ _; omega, by show _ < p.start + (p.nlatHalo : ℤ); omega, h4.1, h4.2⟩ h3
      · rfl
      · rfl

open Classical in
/-- `BEffect` in numbers of channels. -/
def BEffect1 (two : Bool) (p : Params) (x : BIn) (S : ℕ → Prop) (bufs bufs' : BBufs) : Prop :=
  ∀ i, AccEq p.nci (accAt p.nci (bufs'.half two) i)
    (if S i then closed (accAt p.nci (bufs.half two) i) (bNbrsAt two p x i) else accAt p.nci (bufs.half two) i)

theorem bChunkAt_nbrs (two : Bool) {vec : ℕ} {p : Params} (h1 : p.nci / vec * vec = p.nci) (h2 : p.nco / vec * vec = p.nco) (x : BIn) (i : ℕ) :
    bChunkAt two vec (scaled vec p) x i = bNbrsAt two p x i := bChunk_nbrs two h1 h2 x _ _ _

theorem BEffect.one {two : Bool} {vec : ℕ} {p : Params} (h1 : p.nci / vec * vec = p.nci) (h2 : p.nco / vec * vec = p.nco) {x : BIn} {S : ℕ → Prop}
    {bufs bufs' : BBufs} (h : BEffect two vec (scaled vec p) x S bufs bufs') : BEffect1 two p x S bufs bufs' := by
  classical
  intro i
  have := h i
  rw [bChunkAt_nbrs two h1 h2, show (scaled vec p).nci * vec = p.nci from h1] at this
  exact this

theorem BEffect1.comp {two : Bool} {r : BRun} {bx B : ℕ} {p : Params} (hr : BRunOk r bx p.nlatOut) (hn : p.nLong ≤ p.nlatOut) {x : BIn} {b0 b1 b2 : BBufs}
    (h1 : BEffect1 two p x (InRows r.toRun p B 0 p.nLong) b0 b1) (h2 : BEffect1 two p x (InRows r.toRun p B p.nLong p.nlatOut) b1 b2) :
    BEffect1 two p x (fun i => i < B * p.nlatOut * p.nlonOut) b0 b2 := by
  classical
  intro i
  have e1 := h1 i
  have e2 := h2 i
  by_cases hi : i < B * p.nlatOut * p.nlonOut
  · rw [if_pos hi]
    rcases inRows_all hr.toRunOk p.nLong hi with hl | hl
    · have hs : ¬ InRows r.toRun p B p.nLong p.nlatOut i := fun h => inRows_disjoint hr.toRunOk hl h
      rw [if_pos hl] at e1
      rw [if_neg hs] at e2
      exact e2.trans e1
    · have hs : ¬ InRows r.toRun p B 0 p.nLong i := fun h => inRows_disjoint hr.toRunOk h hl
      rw [if_neg hs] at e1
      rw [if_pos hl] at e2
      exact e2.trans (e1.closed _)
  · rw [if_neg hi]
    have f1 : ¬ InRows r.toRun p B 0 p.nLong i := fun h => hi (inRows_lt hr.toRunOk hn h)
    have f2 : ¬ InRows r.toRun p B p.nLong p.nlatOut i := fun h => hi (inRows_lt hr.toRunOk le_rfl h)
    rw [if_neg f1] at e1
    rw [if_neg f2] at e2
    exact e2.trans e1

/-- The configuration of the specialised kernels. -/
def bSpecCfg (vecOk : Bool) (nci nco : ℕ) : Config :=
  let vec := vecOf vecOk nci nco
  let bx := bdimxOf nci
  let nloc := (nci / vec + (bx - 1)) / bx
  ⟨bx, if nci ≤ 512 then 2 else 1, some nloc, if decide (bx * (nloc - 1) ≤ nco / vec ∧ nco / vec ≤ bx * nloc) then some nloc else none, true, 0⟩

theorem bSpecCfg_ok (vecOk : Bool) {nci nco : ℕ} (h0 : 0 < nci) (h1 : nci ≤ 8192) :
    CfgOk (bSpecCfg vecOk nci nco) (nci / vecOf vecOk nci nco) (nco / vecOf vecOk nci nco) := by
  have hl := bwdLaunch_eq vecOk nci nco
  dsimp only at hl
  rw [if_neg (by omega), if_pos h1] at hl
  have h := bwdConfig_ok vecOk nci nco (cf := _) (by rw [hl]; rfl)
  exact ⟨h.grp, h.rows, h.inC, h.outC⟩

theorem ringBwdStep_special (r : BRun) {p : Params} (h0 : 0 < p.nci) (h1 : p.nci ≤ 8192) (B : ℕ) (x : BIn) (bufs : BBufs) :
    ringBwdStep r p B x bufs = (do
      let bufs ← bRunLong r (vecOf r.vecOk p.nci p.nco) (bSpecCfg r.vecOk p.nci p.nco) (scaled (vecOf r.vecOk p.nci p.nco) p) B x bufs
      bRunSpecial r (vecOf r.vecOk p.nci p.nco) (bSpecCfg r.vecOk p.nci p.nco) (scaled (vecOf r.vecOk p.nci p.nco) p) B x bufs) := by
  have hl := bwdLaunch_eq r.vecOk p.nci p.nco
  dsimp only at hl
  rw [if_neg (by omega), if_pos h1] at hl
  unfold ringBwdStep
  dsimp only
  rw [hl]
  rfl

theorem ringBwdStep_generic (r : BRun) {p : Params} (h1 : 8192 < p.nci) (B : ℕ) (x : BIn) (bufs : BBufs) :
    ringBwdStep r p B x bufs = bRunGeneric r (vecOf r.vecOk p.nci p.nco) (scaled (vecOf r.vecOk p.nci p.nco) p) B x bufs := by
  have hl := bwdLaunch_eq r.vecOk p.nci p.nco
  dsimp only at hl
  rw [if_neg (by omega), if_neg (by omega)] at hl
  unfold ringBwdStep
  dsimp only
  rw [hl]
  rfl

theorem ringBwdStep_nothing (r : BRun) {p : Params} (h1 : p.nci = 0) (B : ℕ) (x : BIn) (bufs : BBufs) : ringBwdStep r p B x bufs = .ok bufs := by
  have hl := bwdLaunch_eq r.vecOk p.nci p.nco
  dsimp only at hl
  rw [if_pos h1] at hl
  unfold ringBwdStep
  dsimp only
  rw [hl]

theorem bgen_bytes {vec nci nco : ℕ} (h1 : nci / vec * vec = nci) (h2 : nco / vec * vec = nco) : 4 * vec * (2 * (nci / vec) + nco / vec) * 2 = 4 * (2 * nci + nco) * 2 := by
  calc _ = 4 * (2 * (nci / vec * vec) + nco / vec * vec) * 2 := by ring
    _ = _ := by rw [h1, h2]

/-- The launch for the short rows, in numbers of channels. -/
theorem bShort_ok {r : BRun} {p : Params} {B : ℕ} {x : BIn} (h0 : 0 < p.nci) (h1 : p.nci ≤ 8192) (hr : BRunOk r (bGroupSize p.nci) p.nlatOut) (hrows : RowsOk r.toRun p x.P)
    (hacc : BAccepted r.toRun p B) (bufs : BBufs) :
    ∃ bufs', bRunSpecial r (vecOf r.vecOk p.nci p.nco) (bSpecCfg r.vecOk p.nci p.nco) (scaled (vecOf r.vecOk p.nci p.nco) p) B x bufs = .ok bufs' ∧
      ∀ two, BEffect1 two p x (InRows r.toRun p B p.nLong p.nlatOut) bufs bufs' := by
  unfold bGroupSize at hr
  rw [if_pos h1] at hr
  obtain ⟨-, v1, v2⟩ := vecOf_mul r.vecOk p.nci p.nco
  obtain ⟨bufs', e1, e2⟩ := bRunSpecial_ok (r := r) (vec := vecOf r.vecOk p.nci p.nco) (cf := bSpecCfg r.vecOk p.nci p.nco) (p := scaled (vecOf r.vecOk p.nci p.nco) p) (B := B)
    (bSpecCfg_ok r.vecOk h0 h1) hr x bufs hrows.short (by
      intro h
      have := hacc.short h1 h
      rw [← short_bytes v2] at this
      exact this)
  exact ⟨bufs', e1, fun two => (e2 two).one v1 v2⟩

theorem bLoads {r : Run} {p : Params} {B : ℕ} (h1 : p.nci ≤ 8192) (hlf : 512 < p.nci → p.nci ≤ 8192 → 0 < p.nLong → LoadsFirst (bdimxOf p.nci) p B r.sched) (h : 0 < p.nLong) :
    LoadsFirst (bdimxOf p.nci) p B r.sched := by
  rcases Nat.lt_or_ge 512 p.nci with hl | hl
  · exact hlf hl h1 h
  · have : bdimxOf p.nci = 32 := by rw [bdimxOf_eq _ (by omega), if_pos hl]
    rw [this]
    exact loadsFirst_one_warp _ _ _

theorem ringBwdStep_ok {r : BRun} {p : Params} {B : ℕ} {x : BIn} (h0 : 0 < p.nci) (hr : BRunOk r (bGroupSize p.nci) p.nlatOut) (hrows : RowsOk r.toRun p x.P) (hacc : BAccepted r.toRun p B)
    (hs : BSchedOk r.toRun p B) (hlf : 512 < p.nci → p.nci ≤ 8192 → 0 < p.nLong → LoadsFirst (bdimxOf p.nci) p B r.sched) (bufs : BBufs) :
    ∃ bufs', ringBwdStep r p B x bufs = .ok bufs' ∧ ∀ two, BEffect1 two p x (fun i => i < B * p.nlatOut * p.nlonOut) bufs bufs' := by
  obtain ⟨v0, v1, v2⟩ := vecOf_mul r.vecOk p.nci p.nco
  by_cases h1 : p.nci ≤ 8192
  · rw [ringBwdStep_special r h0 h1]
    have hr' := hr
    unfold bGroupSize at hr'
    rw [if_pos h1] at hr'
    obtain ⟨b1, e1, e2⟩ := bRunLong_ok (r := r) (vec := vecOf r.vecOk p.nci p.nco) (cf := bSpecCfg r.vecOk p.nci p.nco) (p := scaled (vecOf r.vecOk p.nci p.nco) p) (B := B)
      (bSpecCfg_ok r.vecOk h0 h1) hr' x bufs hrows.le hrows.long (by
        intro h
        refine ⟨hrows.pos h, ?_, ⟨(hs h1 h).valid, (hs h1 h).twice⟩, bLoads h1 hlf h⟩
        have := hacc.long h1 h
        have u1 : vecOf r.vecOk p.nci p.nco * (p.nci / vecOf r.vecOk p.nci p.nco) = p.nci := by rw [Nat.mul_comm, v1]
        have u2 : vecOf r.vecOk p.nci p.nco * (p.nco / vecOf r.vecOk p.nci p.nco) = p.nco := by rw [Nat.mul_comm, v2]
        change BLongFits r.limit (vecOf r.vecOk p.nci p.nco * (p.nci / vecOf r.vecOk p.nci p.nco)) (vecOf r.vecOk p.nci p.nco * (p.nco / vecOf r.vecOk p.nci p.nco)) _ _ _ B
        rw [u1, u2]
        exact ⟨this.soft, this.resc, this.fin⟩)
    obtain ⟨b2, e3, e4⟩ := bShort_ok h0 h1 hr hrows hacc b1
    refine ⟨b2, ?_, fun two => ((e2 two).one v1 v2).comp hr hrows.le (e4 two)⟩
    rw [e1]
    exact e3
  · rw [ringBwdStep_generic r (by omega)]
    unfold bGroupSize at hr
    rw [if_neg h1] at hr
    obtain ⟨bufs', e1, e2⟩ := bRunGeneric_ok (r := r) (p := scaled (vecOf r.vecOk p.nci p.nco) p) hr (vecOf r.vecOk p.nci p.nco) (B := B) x bufs (by
      have := hacc.generic (by omega)
      rw [← bgen_bytes v1 v2] at this
      exact this)
    exact ⟨bufs', e1, fun two => (e2 two).one v1 v2⟩

/-- A launch that is not accepted ends the process. -/
theorem ringBwdStep_refused {r : BRun} {p : Params} {B : ℕ} {x : BIn} (h0 : 0 < p.nci) (hr : BRunOk r (bGroupSize p.nci) p.nlatOut) (hrows : RowsOk r.toRun p x.P)
    (hs : BSchedOk r.toRun p B) (hlf : 512 < p.nci → p.nci ≤ 8192 → 0 < p.nLong → LoadsFirst (bdimxOf p.nci) p B r.sched) (hacc : ¬ BAccepted r.toRun p B)
    (bufs : BBufs) : ringBwdStep r p B x bufs = .error .processExit := by
  classical
  obtain ⟨v0, v1, v2⟩ := vecOf_mul r.vecOk p.nci p.nco
  by_cases h1 : p.nci ≤ 8192
  · rw [ringBwdStep_special r h0 h1]
    have hr' := hr
    unfold bGroupSize at hr'
    rw [if_pos h1] at hr'
    have hc := bSpecCfg_ok r.vecOk (nco := p.nco) h0 h1
    have hloads := fun h => bLoads (B := B) (p := p) h1 hlf h
    have hbx : (bSpecCfg r.vecOk p.nci p.nco).bx = bdimxOf p.nci := rfl
    have hby : (bSpecCfg r.vecOk p.nci p.nco).by' = if p.nci ≤ 512 then 2 else 1 := rfl
    generalize bSpecCfg r.vecOk p.nci p.nco = cf at *
    obtain ⟨vec, hvec⟩ : ∃ vec, vec = vecOf r.vecOk p.nci p.nco := ⟨_, rfl⟩
    rw [← hvec] at v0 v1 v2 hc ⊢
    have u1 : vec * (p.nci / vec) = p.nci := by rw [Nat.mul_comm, v1]
    have u2 : vec * (p.nco / vec) = p.nco := by rw [Nat.mul_comm, v2]
    have hshort : fits r.limit (divUp ((p.nlatOut - p.nLong) * p.nlonOut) cf.by') B 1 ((4 * vec * (p.nco / vec) + 8 * p.midLen * 2 + 4 * p.midLen) * cf.by') (bStaticShared cf.bx) ↔
        fits r.limit (divUp ((p.nlatOut - p.nLong) * p.nlonOut) (if p.nci ≤ 512 then 2 else 1)) B 1 ((4 * p.nco + 20 * p.midLen) * if p.nci ≤ 512 then 2 else 1)
          (bStaticShared (bdimxOf p.nci)) := by
      rw [hbx, hby]
      exact fits_iff (short_bytes v2 _)
    have hfin : ∀ D, (4 * vec * (p.nci / vec + p.nco / vec) + 8 * D * 2 + 4 * D) * cf.by' = (4 * (p.nci + p.nco) + 20 * D) * if p.nci ≤ 512 then 2 else 1 := by
      intro D
      rw [hby, Nat.mul_assoc 4, Nat.mul_add vec, u1, u2]
      ring
    by_cases hL : 0 < p.nLong → BLongFits r.limit p.nci p.nco (bdimxOf p.nci) (if p.nci ≤ 512 then 2 else 1) p B
    · obtain ⟨b1, e1, -⟩ := bRunLong_ok (r := r) (vec := vec) (cf := cf) (p := scaled vec p) (B := B) hc (by rw [hbx]; exact hr') x bufs hrows.le hrows.long (by
        intro h
        refine ⟨hrows.pos h, ?_, ?_, ?_⟩
        · have := hL h
          change BLongFits r.limit (vec * (p.nci / vec)) (vec * (p.nco / vec)) _ _ _ B
          rw [u1, u2, hbx, hby]
          exact ⟨this.soft, this.resc, this.fin⟩
        · rw [hbx, hby]
          exact ⟨(hs h1 h).valid, (hs h1 h).twice⟩
        · rw [hbx]
          exact hloads h)
      rw [e1]
      change bRunSpecial r vec cf (scaled vec p) B x b1 = _
      have hns : ¬ (p.nLong < p.nlatOut → fits r.limit (divUp ((p.nlatOut - p.nLong) * p.nlonOut) (if p.nci ≤ 512 then 2 else 1)) B 1
          ((4 * p.nco + 20 * p.midLen) * if p.nci ≤ 512 then 2 else 1) (bStaticShared (bdimxOf p.nci))) :=
        fun H => hacc ⟨fun h => absurd h1 (by omega), fun _ => H, fun _ => hL⟩
      rw [Classical.not_imp] at hns
      unfold bRunSpecial
      rw [if_neg (by show ¬ p.nlatOut - p.nLong = 0; omega)]
      dsimp only
      rw [if_neg]
      intro H
      exact hns.2 (hshort.1 H)
    · rw [Classical.not_imp] at hL
      obtain ⟨h, hL⟩ := hL
      have hLong : bRunLong r vec cf (scaled vec p) B x bufs = .error .processExit := by
        unfold bRunLong
        rw [if_neg (by show ¬ p.nLong = 0; omega)]
        by_cases f1 : fits r.limit (divUp (p.nLong * p.nlonOut) (if p.nci ≤ 512 then 2 else 1)) (ctaPerRow p.maxLen) B
            (8 * divUp p.maxLen (ctaPerRow p.maxLen) * if p.nci ≤ 512 then 2 else 1) (staticShared (bdimxOf p.nci))
        · obtain ⟨curr, c1, c2⟩ := bRunSoftmax_ok (r := r) (vec := vec) (cf := cf) (p := scaled vec p) (B := B) hc (by rw [hbx]; exact hr') x bufs hrows.le hrows.long
            (hrows.pos h) (by
              show fits r.limit (divUp (p.nLong * p.nlonOut) cf.by') (ctaPerRow p.maxLen) B
                (8 * divUp p.maxLen (ctaPerRow p.maxLen) * cf.by') (staticShared cf.bx)
              rw [hbx, hby]
              exact f1)
          rw [c1]
          change (do
            let bufs ← bRunRescale r vec cf (scaled vec p) B curr bufs
            bRunFinalize r vec cf (scaled vec p) B x curr bufs) = _
          by_cases f2 : fits r.limit (divUp (p.nLong * p.nlonOut) (if p.nci ≤ 512 then 2 else 1)) B 1 0 0
          · obtain ⟨b1, d1, -⟩ := bRunRescale_ok (r := r) (vec := vec) (cf := cf) (p := scaled vec p) hc (by rw [hbx]; exact hr') hrows.le (B := B) (bufs := bufs) (curr := curr)
              (by
                intro i hi
                rw [c2 false] at hi
                split_ifs at hi with hin
                · exact (phaseMax_none hi).1
                · exact hi)
              (by rw [hbx, hby]; exact ⟨(hs h1 h).valid, (hs h1 h).twice⟩) (by rw [hbx]; exact hloads h) (by rw [hby]; exact f2)
            rw [d1]
            change bRunFinalize r vec cf (scaled vec p) B x curr b1 = _
            unfold bRunFinalize
            dsimp only
            rw [if_neg]
            intro H
            change fits r.limit (divUp (p.nLong * p.nlonOut) cf.by') (ctaPerRow p.maxLen) B ((4 * vec * (p.nci / vec + p.nco / vec)
              + 8 * divUp p.maxLen (ctaPerRow p.maxLen) * 2 + 4 * divUp p.maxLen (ctaPerRow p.maxLen)) * cf.by') (bStaticShared cf.bx) at H
            rw [hfin, hbx, hby] at H
            exact hL ⟨f1, f2, H⟩
          · unfold bRunRescale
            dsimp only
            rw [if_neg (by rw [hby]; exact f2)]
            rfl
        · unfold bRunSoftmax
          dsimp only
          rw [if_neg]
          · rfl
          · intro H
            change fits r.limit (divUp (p.nLong * p.nlonOut) cf.by') (ctaPerRow p.maxLen) B (8 * divUp p.maxLen (ctaPerRow p.maxLen) * cf.by') (staticShared cf.bx) at H
            rw [hbx, hby] at H
            exact f1 H
      rw [hLong]
      rfl
  · rw [ringBwdStep_generic r (by omega)]
    unfold bRunGeneric
    dsimp only
    rw [if_neg]
    intro H
    refine hacc ⟨fun _ => ?_, fun h => absurd h h1, fun h => absurd h h1⟩
    rw [← bgen_bytes v1 v2]
    exact H

/-! ### The race -/

/-- The step with a schedule in which the first warp is through before the others begin: its effect on the long rows. -/
theorem ringBwdStep_race {r : BRun} {p : Params} {B : ℕ} {x : BIn} (h0 : 0 < p.nci) (h1 : p.nci ≤ 8192) (hr : BRunOk r (bGroupSize p.nci) p.nlatOut) (hrows : RowsOk r.toRun p x.P)
    (hacc : BAccepted r.toRun p B) (hlong : 0 < p.nLong)
    (hsched : r.sched = warpAfterWarp B (divUp (p.nLong * p.nlonOut) (if p.nci ≤ 512 then 2 else 1)) (if p.nci ≤ 512 then 2 else 1) (bdimxOf p.nci / 32))
    (bufs : BBufs) :
    ∃ bufs', ringBwdStep r p B x bufs = .ok bufs' ∧ ∀ two i, InRows r.toRun p B 0 p.nLong i → ∀ n, phaseMax (bufs.qmax i) (bNbrsAt two p x i) = some n →
      ((bufs'.half two).qmax i = some n ∧ (bufs'.half two).alpha i = expDiff (bufs.qmax i) n * (bufs.half two).alpha i + ((bNbrsAt two p x i).map fun t => Real.exp (t.q - n) * t.w).sum) ∧
      ∀ e < p.nci, warpOf (vecOf r.vecOk p.nci p.nco) (bdimxOf p.nci) e ≠ 0 →
        (bufs'.half two).y (i * p.nci + e) = (bufs.half two).y (i * p.nci + e) + ((bNbrsAt two p x i).map fun t => Real.exp (t.q - n) * t.w * t.v e).sum := by
  classical
  obtain ⟨v0, v1, v2⟩ := vecOf_mul r.vecOk p.nci p.nco
  rw [ringBwdStep_special r h0 h1]
  have hr' := hr
  unfold bGroupSize at hr'
  rw [if_pos h1] at hr'
  have hc := bSpecCfg_ok r.vecOk (nco := p.nco) h0 h1
  obtain ⟨vec, hvec⟩ : ∃ vec, vec = vecOf r.vecOk p.nci p.nco := ⟨_, rfl⟩
  have hshort := fun b1 => bShort_ok (x := x) h0 h1 hr hrows hacc b1
  rw [← hvec] at hc v1 v2 v0 hshort ⊢
  obtain ⟨cf, hcf⟩ : ∃ cf, cf = bSpecCfg r.vecOk p.nci p.nco := ⟨_, rfl⟩
  have hbx : cf.bx = bdimxOf p.nci := by rw [hcf]; rfl
  have hby : cf.by' = if p.nci ≤ 512 then 2 else 1 := by rw [hcf]; rfl
  rw [← hcf] at hc hshort ⊢
  rw [← hbx] at hr' hsched ⊢
  rw [← hby] at hsched
  have u1 : vec * (p.nci / vec) = p.nci := by rw [Nat.mul_comm, v1]
  have u2 : vec * (p.nco / vec) = p.nco := by rw [Nat.mul_comm, v2]
  have hL := hacc.long h1 hlong
  rw [← hby, ← hbx] at hL
  have hpos := hrows.pos hlong
  have hstep : ∃ b2, bRunLong r vec cf (scaled vec p) B x bufs = .ok b2 ∧ ∀ two i, InRows r.toRun p B 0 p.nLong i → ∀ n, phaseMax (bufs.qmax i) (bNbrsAt two p x i) = some n →
      ((b2.half two).qmax i = some n ∧ (b2.half two).alpha i = expDiff (bufs.qmax i) n * (bufs.half two).alpha i + ((bNbrsAt two p x i).map fun t => Real.exp (t.q - n) * t.w).sum) ∧
      ∀ e < p.nci, warpOf vec cf.bx e ≠ 0 → (b2.half two).y (i * p.nci + e) = (bufs.half two).y (i * p.nci + e) + ((bNbrsAt two p x i).map fun t => Real.exp (t.q - n) * t.w * t.v e).sum := by
    unfold bRunLong
    rw [if_neg (show ¬ (scaled vec p).nLong = 0 from by change ¬ p.nLong = 0; omega)]
    obtain ⟨curr, c1, c2⟩ := bRunSoftmax_ok (vec := vec) (p := scaled vec p) hc hr' x bufs hrows.le hrows.long hpos (B := B) hL.soft
    have hcurr : ∀ i, curr i = none → bufs.qmax i = none := by
      intro i h
      rw [c2 false] at h
      split_ifs at h with hi
      · exact (phaseMax_none h).1
      · exact h
    have hrace := fun two => race_run (r := r.half two) (vec := vec) (cf := keyedCfg cf) (p := keyed (scaled vec p)) (bufs := bufs.half two) (keyedCfg_ok hc) (hr'.half two) hrows.le (B := B) hcurr (divUp (p.nLong * p.nlonOut) cf.by') cf.by'
    choose ss r1 r2 using hrace
    obtain ⟨s, s1, s2⟩ := bRescale_fold (s := ⟨bufs, fun _ _ => .start⟩) _ r1
    obtain ⟨b2, f1, f2⟩ := bRunFinalize_ok (vec := vec) (p := scaled vec p) hc hr' x curr s.bufs hrows.le hrows.long hpos (B := B) (by
      have := hL.fin
      rwa [← u1, ← u2, show 4 * (vec * (p.nci / vec) + vec * (p.nco / vec)) + 20 * divUp p.maxLen (ctaPerRow p.maxLen) = 4 * vec * (p.nci / vec + p.nco / vec)
        + 8 * divUp p.maxLen (ctaPerRow p.maxLen) * 2 + 4 * divUp p.maxLen (ctaPerRow p.maxLen) by ring] at this)
    refine ⟨b2, ?_, fun two i hi n hn => ?_⟩
    · rw [c1]
      change (do
        let bufs ← bRunRescale r vec cf (scaled vec p) B curr bufs
        bRunFinalize r vec cf (scaled vec p) B x curr bufs) = _
      have : bRunRescale r vec cf (scaled vec p) B curr bufs = .ok s.bufs := by
        unfold bRunRescale
        dsimp only
        rw [if_pos (show fits r.limit (divUp ((scaled vec p).nLong * (scaled vec p).nlonOut) cf.by') B 1 0 0 from hL.resc), hsched]
        change (do
          let s ← (warpAfterWarp B (divUp (p.nLong * p.nlonOut) cf.by') cf.by' (cf.bx / 32)).foldlM (bRescaleStep vec cf (scaled vec p)
            (B * p.nlatOut * p.nlonOut * (p.nci / vec * vec)) (B * p.nlatOut * p.nlonOut) r.rowIdx curr) ⟨bufs, fun _ _ => .start⟩
          return s.bufs) = _
        have s1' : (warpAfterWarp B (divUp (p.nLong * p.nlonOut) cf.by') cf.by' (cf.bx / 32)).foldlM (bRescaleStep vec cf (scaled vec p)
            (B * p.nlatOut * p.nlonOut * (p.nci / vec * vec)) (B * p.nlatOut * p.nlonOut) r.rowIdx curr) ⟨bufs, fun _ _ => .start⟩ = .ok s := s1
        rw [s1']
        rfl
      rw [this]
      exact f1
    · have hf := f2 two i
      have hci := c2 two i
      have hi' : InRows r.toRun (scaled vec p) B 0 (scaled vec p).nLong i := hi
      rw [if_pos hi', bChunkAt_nbrs two v1 v2] at hci
      rw [if_pos hi', bChunkAt_nbrs two v1 v2, show (scaled vec p).nci * vec = p.nci from v1] at hf
      obtain ⟨a1, a2, a3⟩ := hf
      rw [hn] at hci
      have r2' := r2 two
      rw [s2 two] at r2'
      obtain ⟨b, hb, h, -, hh, wo, hwo, rfl⟩ := hi
      have hwid : h * p.nlonOut + wo < p.nLong * p.nlonOut := packed_lt hh hwo
      obtain ⟨q1, q2⟩ := div_mul_add (a := h) hwo
      have hact : Active (keyed (scaled vec p)) B (b, h * p.nlonOut + wo) := ⟨hb, hwid⟩
      have hfl : flatOf (r.half two) (keyed (scaled vec p)) (b, h * p.nlonOut + wo) = outFlat p b (r.rowIdx h) wo := by
        change outFlat p b (r.rowIdx ((h * p.nlonOut + wo) / p.nlonOut)) ((h * p.nlonOut + wo) % p.nlonOut) = _
        rw [q1, q2]
      obtain ⟨i1, i2⟩ := r2'.inside _ hact (mem_grid2.2 ⟨hb, lt_of_lt_of_le hwid (le_divUp_mul hc.rows)⟩)
      rw [hfl, hci] at i1 i2
      refine ⟨⟨a2.trans i1, ?_⟩, fun e he hwe => ?_⟩
      · have : (b2.half two).alpha (outFlat p b (r.rowIdx h) wo) = _ := a1
        rw [this]
        dsimp only at i2 ⊢
        rw [i2, hci]
        rfl
      · have hy := r2'.y (outFlat p b (r.rowIdx h) wo) e (show e < p.nci / vec * vec by rw [v1]; exact he) hwe
        rw [show (keyed (scaled vec p)).nco * vec = p.nci from v1] at hy
        have : (b2.half two).y (outFlat p b (r.rowIdx h) wo * p.nci + e) = _ := a3 e he
        rw [this]
        dsimp only at hy ⊢
        rw [hy, hci]
        rfl
  obtain ⟨b2, g1, g2⟩ := hstep
  obtain ⟨b3, g3, g4⟩ := hshort b2
  refine ⟨b3, ?_, fun two i hi n hn => ?_⟩
  · rw [g1]
    exact g3
  · obtain ⟨⟨m1, m2⟩, m3⟩ := g2 two i hi n hn
    have h4 := g4 two i
    rw [if_neg fun h => inRows_disjoint hr.toRunOk hi h] at h4
    obtain ⟨a1, a2, a3⟩ := h4
    exact ⟨⟨Eq.trans a2 m1, Eq.trans a1 m2⟩, fun e he hwe => Eq.trans (a3 e he) (m3 e he hwe)⟩

end Verif.RingGpu
