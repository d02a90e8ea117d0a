import Verif.Lemmas.RingCudaRace
import Verif.Lemmas.AttentionCudaLaunch
/-!
One step of the ring: all launches together, and what they mean for the accumulators.
-/
namespace Verif.RingGpu
open Verif Verif.Attn Verif.Spec.Attn Verif.AttnGpu Verif.Ring Finset Verif.Spec.RingStep

/-- The parameters with channels in elements of `vec` numbers. -/
def scaled (vec : ℕ) (p : Params) : Params := { p with nci := p.nci / vec, nco := p.nco / vec }

theorem chunkAt_scaled {vec : ℕ} {p : Params} (h1 : p.nci / vec * vec = p.nci) (h2 : p.nco / vec * vec = p.nco) (w : ℕ → ℝ) (P : Pattern) (k v q : ℕ → ℝ) (i : ℕ) :
    chunkAt vec (scaled vec p) w P k v q i = chunkAt 1 p w P k v q i := by
  unfold chunkAt chunk keyTen valTen queryTen scaled
  dsimp only
  rw [h1, h2, Nat.mul_one, Nat.mul_one]

open Classical in
/-- `Effect` in numbers of channels. -/
def Effect1 (p : Params) (w : ℕ → ℝ) (P : Pattern) (k v q : ℕ → ℝ) (S : ℕ → Prop) (bufs bufs' : Bufs) : Prop :=
  ∀ i, AccEq p.nco (accAt p.nco bufs' i) (if S i then closed (accAt p.nco bufs i) (chunkAt 1 p w P k v q i) else accAt p.nco bufs i)

theorem Effect.one {vec : ℕ} {p : Params} (h1 : p.nci / vec * vec = p.nci) (h2 : p.nco / vec * vec = p.nco) {w : ℕ → ℝ} {P : Pattern} {k v q : ℕ → ℝ} {S : ℕ → Prop}
    {bufs bufs' : Bufs} (h : Effect vec (scaled vec p) w P k v q S bufs bufs') : Effect1 p w P k v q S bufs bufs' := by
  classical
  intro i
  have := h i
  rw [chunkAt_scaled h1 h2, show (scaled vec p).nco * vec = p.nco from h2] at this
  exact this

theorem Effect1.comp {r : Run} {bx B : ℕ} {p : Params} (hr : RunOk r bx p.nlatOut) (hn : p.nLong ≤ p.nlatOut) {w : ℕ → ℝ} {P : Pattern} {k v q : ℕ → ℝ} {b0 b1 b2 : Bufs}
    (h1 : Effect1 p w P k v q (InRows r p B 0 p.nLong) b0 b1) (h2 : Effect1 p w P k v q (InRows r p B p.nLong p.nlatOut) b1 b2) :
    Effect1 p w P k v q (fun i => i < B * p.nlatOut * p.nlonOut) b0 b2 := by
  classical
  intro i
  have e1 := h1 i
  have e2 := h2 i
  by_cases hi : i < B * p.nlatOut * p.nlonOut
  · rw [if_pos hi]
    rcases inRows_all hr p.nLong hi with hl | hl
    · have hs : ¬ InRows r p B p.nLong p.nlatOut i := fun h => inRows_disjoint hr hl h
      rw [if_pos hl] at e1
      rw [if_neg hs] at e2
      exact e2.trans e1
    · have hs : ¬ InRows r p B 0 p.nLong i := fun h => inRows_disjoint hr h hl
      rw [if_neg hs] at e1
      rw [if_pos hl] at e2
      exact e2.trans (e1.closed _)
  · rw [if_neg hi]
    have f1 : ¬ InRows r p B 0 p.nLong i := fun h => hi (inRows_lt hr hn h)
    have f2 : ¬ InRows r p B p.nLong p.nlatOut i := fun h => hi (inRows_lt hr le_rfl h)
    rw [if_neg f1] at e1
    rw [if_neg f2] at e2
    exact e2.trans e1

/-- The configuration of the specialised kernels. -/
def specCfg (vecOk : Bool) (nci nco : ℕ) : Config :=
  let vec := vecOf vecOk nci nco
  let bx := bdimxOf nco
  let nloc := (nco / vec + (bx - 1)) / bx
  ⟨bx, if nco ≤ 512 then 2 else 1, if decide (bx * (nloc - 1) ≤ nci / vec ∧ nci / vec ≤ bx * nloc) then some nloc else none, some nloc, true, 0⟩

theorem specCfg_ok (vecOk : Bool) {nci nco : ℕ} (h0 : 0 < nco) (h1 : nco ≤ 16384) :
    CfgOk (specCfg vecOk nci nco) (nci / vecOf vecOk nci nco) (nco / vecOf vecOk nci nco) := by
  have hl := fwdLaunch_eq vecOk nci nco
  dsimp only at hl
  rw [if_neg (by omega), if_pos h1] at hl
  have h := fwdConfig_ok vecOk nci nco (cf := _) (by rw [hl]; rfl)
  exact ⟨h.grp, h.rows, h.inC, h.outC⟩

theorem ringStep_special (r : Run) {p : Params} (h0 : 0 < p.nco) (h1 : p.nco ≤ 16384) (B : ℕ) (w : ℕ → ℝ) (P : Pattern) (k v q : ℕ → ℝ) (bufs : Bufs) :
    ringStep r p B w P k v q bufs = (do
      let bufs ← runLong r (vecOf r.vecOk p.nci p.nco) (specCfg r.vecOk p.nci p.nco) (scaled (vecOf r.vecOk p.nci p.nco) p) B w P k v q bufs
      runSpecial r (vecOf r.vecOk p.nci p.nco) (specCfg r.vecOk p.nci p.nco) (scaled (vecOf r.vecOk p.nci p.nco) p) B w P k v q bufs) := by
  have hl := fwdLaunch_eq r.vecOk p.nci p.nco
  dsimp only at hl
  rw [if_neg (by omega), if_pos h1] at hl
  unfold ringStep
  dsimp only
  rw [hl]
  rfl

theorem ringStep_generic (r : Run) {p : Params} (h1 : 16384 < p.nco) (B : ℕ) (w : ℕ → ℝ) (P : Pattern) (k v q : ℕ → ℝ) (bufs : Bufs) :
    ringStep r p B w P k v q bufs = runGeneric r (vecOf r.vecOk p.nci p.nco) (scaled (vecOf r.vecOk p.nci p.nco) p) B w P k v q bufs := by
  have hl := fwdLaunch_eq r.vecOk p.nci p.nco
  dsimp only at hl
  rw [if_neg (by omega), if_neg (by omega)] at hl
  unfold ringStep
  dsimp only
  rw [hl]
  rfl

theorem ringStep_nothing (r : Run) {p : Params} (h1 : p.nco = 0) (B : ℕ) (w : ℕ → ℝ) (P : Pattern) (k v q : ℕ → ℝ) (bufs : Bufs) :
    ringStep r p B w P k v q bufs = .ok bufs := by
  have hl := fwdLaunch_eq r.vecOk p.nci p.nco
  dsimp only at hl
  rw [if_pos h1] at hl
  unfold ringStep
  dsimp only
  rw [hl]

theorem short_bytes {vec nci m : ℕ} (h : nci / vec * vec = nci) (b : ℕ) : (4 * vec * (nci / vec) + 8 * m * 2 + 4 * m) * b = (4 * nci + 20 * m) * b := by
  rw [Nat.mul_assoc, Nat.mul_comm vec, h]
  ring

/-- The launch for the short rows, in numbers of channels. -/
theorem short_ok {r : Run} {p : Params} {B : ℕ} {P : Pattern} (h0 : 0 < p.nco) (h1 : p.nco ≤ 16384) (hr : RunOk r (groupSize p.nco) p.nlatOut) (hrows : RowsOk r p P)
    (hacc : Accepted r p B) (w : ℕ → ℝ) (k v q : ℕ → ℝ) (bufs : Bufs) :
    ∃ bufs', runSpecial r (vecOf r.vecOk p.nci p.nco) (specCfg r.vecOk p.nci p.nco) (scaled (vecOf r.vecOk p.nci p.nco) p) B w P k v q bufs = .ok bufs' ∧
      Effect1 p w P k v q (InRows r p B p.nLong p.nlatOut) bufs bufs' := by
  unfold groupSize at hr
  rw [if_pos h1] at hr
  obtain ⟨-, v1, v2⟩ := vecOf_mul r.vecOk p.nci p.nco
  obtain ⟨bufs', e1, e2⟩ := runSpecial_ok (r := r) (vec := vecOf r.vecOk p.nci p.nco) (cf := specCfg r.vecOk p.nci p.nco) (p := scaled (vecOf r.vecOk p.nci p.nco) p) (B := B)
    (specCfg_ok r.vecOk h0 h1) hr w P k v q bufs hrows.le hrows.short (by
      intro h
      have := hacc.short h1 h
      rw [← short_bytes v1] at this
      exact this)
  exact ⟨bufs', e1, e2.one v1 v2⟩

theorem ringStep_ok {r : Run} {p : Params} {B : ℕ} {P : Pattern} (h0 : 0 < p.nco) (hr : RunOk r (groupSize p.nco) p.nlatOut) (hrows : RowsOk r p P) (hacc : Accepted r p B)
    (hs : SchedOk r p B) (hlf : 512 < p.nco → p.nco ≤ 16384 → 0 < p.nLong → LoadsFirst (bdimxOf p.nco) p B r.sched) (w : ℕ → ℝ) (k v q : ℕ → ℝ) (bufs : Bufs) :
    ∃ bufs', ringStep r p B w P k v q bufs = .ok bufs' ∧ Effect1 p w P k v q (fun i => i < B * p.nlatOut * p.nlonOut) bufs bufs' := by
  obtain ⟨v0, v1, v2⟩ := vecOf_mul r.vecOk p.nci p.nco
  by_cases h1 : p.nco ≤ 16384
  · rw [ringStep_special r h0 h1]
    have hr' := hr
    unfold groupSize at hr'
    rw [if_pos h1] at hr'
    obtain ⟨b1, e1, e2⟩ := runLong_ok (r := r) (vec := vecOf r.vecOk p.nci p.nco) (cf := specCfg r.vecOk p.nci p.nco) (p := scaled (vecOf r.vecOk p.nci p.nco) p) (B := B)
      (specCfg_ok r.vecOk h0 h1) hr' w P k v q bufs hrows.le hrows.long (by
        intro h
        refine ⟨hrows.pos h, ?_, ⟨(hs h1 h).valid, (hs h1 h).twice⟩, ?_⟩
        · have := hacc.long h1 h
          have u1 : vecOf r.vecOk p.nci p.nco * (p.nci / vecOf r.vecOk p.nci p.nco) = p.nci := by rw [Nat.mul_comm, v1]
          have u2 : vecOf r.vecOk p.nci p.nco * (p.nco / vecOf r.vecOk p.nci p.nco) = p.nco := by rw [Nat.mul_comm, v2]
          change LongFits r.limit (vecOf r.vecOk p.nci p.nco * (p.nci / vecOf r.vecOk p.nci p.nco)) (vecOf r.vecOk p.nci p.nco * (p.nco / vecOf r.vecOk p.nci p.nco)) _ _ _ B
          rw [u1, u2]
          exact ⟨this.soft, this.resc, this.fin⟩
        · rcases Nat.lt_or_ge 512 p.nco with hl | hl
          · exact hlf hl h1 h
          · have : bdimxOf p.nco = 32 := by rw [bdimxOf_eq _ h1, if_pos hl]
            unfold specCfg
            dsimp only
            rw [this]
            exact loadsFirst_one_warp _ _ _)
    obtain ⟨b2, e3, e4⟩ := short_ok h0 h1 hr hrows hacc w k v q b1
    refine ⟨b2, ?_, (e2.one v1 v2).comp hr hrows.le e4⟩
    rw [e1]
    exact e3
  · rw [ringStep_generic r (by omega)]
    unfold groupSize at hr
    rw [if_neg h1] at hr
    obtain ⟨bufs', e1, e2⟩ := runGeneric_ok (r := r) (p := scaled (vecOf r.vecOk p.nci p.nco) p) hr (vecOf r.vecOk p.nci p.nco) (B := B) w P k v q bufs (by
      have := hacc.generic (by omega)
      rw [← v2, show 4 * (p.nco / vecOf r.vecOk p.nci p.nco * vecOf r.vecOk p.nci p.nco) * 2 = 4 * vecOf r.vecOk p.nci p.nco * (p.nco / vecOf r.vecOk p.nci p.nco) * 2 by ring] at this
      exact this)
    exact ⟨bufs', e1, e2.one v1 v2⟩

theorem fits_iff {limit gx gy gz d d' st : ℕ} (h : d = d') : fits limit gx gy gz d st ↔ fits limit gx gy gz d' st := by rw [h]

/-- A launch that is not accepted ends the process. -/
theorem ringStep_refused {r : Run} {p : Params} {B : ℕ} {P : Pattern} (h0 : 0 < p.nco) (hr : RunOk r (groupSize p.nco) p.nlatOut) (hrows : RowsOk r p P)
    (hs : SchedOk r p B) (hlf : 512 < p.nco → p.nco ≤ 16384 → 0 < p.nLong → LoadsFirst (bdimxOf p.nco) p B r.sched) (hacc : ¬ Accepted r p B) (w : ℕ → ℝ) (k v q : ℕ → ℝ)
    (bufs : Bufs) : ringStep r p B w P k v q bufs = .error .processExit := by
  classical
  obtain ⟨v0, v1, v2⟩ := vecOf_mul r.vecOk p.nci p.nco
  by_cases h1 : p.nco ≤ 16384
  · rw [ringStep_special r h0 h1]
    have hr' := hr
    unfold groupSize at hr'
    rw [if_pos h1] at hr'
    have hc := specCfg_ok r.vecOk (nci := p.nci) h0 h1
    have hloads : 0 < p.nLong → LoadsFirst (bdimxOf p.nco) p B r.sched := by
      intro h
      rcases Nat.lt_or_ge 512 p.nco with hl | hl
      · exact hlf hl h1 h
      · have : bdimxOf p.nco = 32 := by rw [bdimxOf_eq _ h1, if_pos hl]
        rw [this]
        exact loadsFirst_one_warp _ _ _
    have hbx : (specCfg r.vecOk p.nci p.nco).bx = bdimxOf p.nco := rfl
    have hby : (specCfg r.vecOk p.nci p.nco).by' = if p.nco ≤ 512 then 2 else 1 := rfl
    generalize specCfg r.vecOk p.nci p.nco = cf at *
    obtain ⟨vec, hvec⟩ : ∃ vec, vec = vecOf r.vecOk p.nci p.nco := ⟨_, rfl⟩
    rw [← hvec] at v0 v1 v2 hc ⊢
    have u1 : vec * (p.nci / vec) = p.nci := by rw [Nat.mul_comm, v1]
    have u2 : vec * (p.nco / vec) = p.nco := by rw [Nat.mul_comm, v2]
    have hshort : fits r.limit (divUp ((p.nlatOut - p.nLong) * p.nlonOut) cf.by') B 1 ((4 * vec * (p.nci / vec) + 8 * p.midLen * 2 + 4 * p.midLen) * cf.by') (staticShared cf.bx) ↔
        fits r.limit (divUp ((p.nlatOut - p.nLong) * p.nlonOut) (if p.nco ≤ 512 then 2 else 1)) B 1 ((4 * p.nci + 20 * p.midLen) * if p.nco ≤ 512 then 2 else 1)
          (staticShared (bdimxOf p.nco)) := by
      rw [hbx, hby]
      exact fits_iff (short_bytes v1 _)
    have hsoft : ∀ D, (4 * vec * (p.nci / vec) + 8 * D) * cf.by' = (4 * p.nci + 8 * D) * if p.nco ≤ 512 then 2 else 1 := by
      intro D
      rw [hby, Nat.mul_assoc 4, u1]
    have hfin : ∀ D, (4 * vec * (p.nci / vec + p.nco / vec) + 8 * D * 2 + 4 * D) * cf.by' = (4 * (p.nci + p.nco) + 20 * D) * if p.nco ≤ 512 then 2 else 1 := by
      intro D
      rw [hby, Nat.mul_assoc 4, Nat.mul_add vec, u1, u2]
      ring
    by_cases hL : 0 < p.nLong → LongFits r.limit p.nci p.nco (bdimxOf p.nco) (if p.nco ≤ 512 then 2 else 1) p B
    · obtain ⟨b1, e1, -⟩ := runLong_ok (r := r) (vec := vec) (cf := cf) (p := scaled vec p) (B := B) hc (by rw [hbx]; exact hr') w P k v q bufs hrows.le hrows.long (by
        intro h
        refine ⟨hrows.pos h, ?_, ?_, ?_⟩
        · have := hL h
          change LongFits r.limit (vec * (p.nci / vec)) (vec * (p.nco / vec)) _ _ _ B
          rw [u1, u2, hbx, hby]
          exact ⟨this.soft, this.resc, this.fin⟩
        · rw [hbx, hby]
          exact ⟨(hs h1 h).valid, (hs h1 h).twice⟩
        · rw [hbx]
          exact hloads h)
      rw [e1]
      change runSpecial r vec cf (scaled vec p) B w P k v q b1 = _
      have hns : ¬ (p.nLong < p.nlatOut → fits r.limit (divUp ((p.nlatOut - p.nLong) * p.nlonOut) (if p.nco ≤ 512 then 2 else 1)) B 1
          ((4 * p.nci + 20 * p.midLen) * if p.nco ≤ 512 then 2 else 1) (staticShared (bdimxOf p.nco))) :=
        fun H => hacc ⟨fun h => absurd h1 (by omega), fun _ => H, fun _ => hL⟩
      rw [Classical.not_imp] at hns
      unfold runSpecial
      rw [if_neg (by show ¬ p.nlatOut - p.nLong = 0; omega)]
      dsimp only
      rw [if_neg]
      intro H
      exact hns.2 (hshort.1 H)
    · rw [Classical.not_imp] at hL
      obtain ⟨h, hL⟩ := hL
      have hLong : runLong r vec cf (scaled vec p) B w P k v q bufs = .error .processExit := by
        unfold runLong
        rw [if_neg (by show ¬ p.nLong = 0; omega)]
        by_cases f1 : fits r.limit (divUp (p.nLong * p.nlonOut) (if p.nco ≤ 512 then 2 else 1)) (ctaPerRow p.maxLen) B
            ((4 * p.nci + 8 * divUp p.maxLen (ctaPerRow p.maxLen)) * if p.nco ≤ 512 then 2 else 1) (staticShared (bdimxOf p.nco))
        · obtain ⟨curr, c1, c2⟩ := runSoftmax_ok (r := r) (vec := vec) (cf := cf) (p := scaled vec p) (B := B) hc (by rw [hbx]; exact hr') w P k v q bufs hrows.le hrows.long
            (hrows.pos h) (by
              show fits r.limit (divUp (p.nLong * p.nlonOut) cf.by') (ctaPerRow p.maxLen) B
                ((4 * vec * (p.nci / vec) + 8 * divUp p.maxLen (ctaPerRow p.maxLen)) * cf.by') (staticShared cf.bx)
              rw [hsoft, hbx, hby]
              exact f1)
          rw [c1]
          change (do
            let bufs ← runRescale r vec cf (scaled vec p) B curr bufs
            runFinalize r vec cf (scaled vec p) B w P k v q curr bufs) = _
          by_cases f2 : fits r.limit (divUp (p.nLong * p.nlonOut) (if p.nco ≤ 512 then 2 else 1)) B 1 0 0
          · obtain ⟨b1, d1, -⟩ := runRescale_ok (r := r) (vec := vec) (cf := cf) (p := scaled vec p) hc (by rw [hbx]; exact hr') hrows.le (B := B) (bufs := bufs) (curr := curr)
              (by
                intro i hi
                rw [c2] at hi
                split_ifs at hi with hin
                · exact (phaseMax_none hi).1
                · exact hi)
              (by rw [hbx, hby]; exact ⟨(hs h1 h).valid, (hs h1 h).twice⟩) (by rw [hbx]; exact hloads h) (by rw [hby]; exact f2)
            rw [d1]
            change runFinalize r vec cf (scaled vec p) B w P k v q curr b1 = _
            unfold runFinalize
            dsimp only
            rw [if_neg]
            intro H
            change fits r.limit (divUp (p.nLong * p.nlonOut) cf.by') (ctaPerRow p.maxLen) B ((4 * vec * (p.nci / vec + p.nco / vec)
              + 8 * divUp p.maxLen (ctaPerRow p.maxLen) * 2 + 4 * divUp p.maxLen (ctaPerRow p.maxLen)) * cf.by') (staticShared cf.bx) at H
            rw [hfin, hbx, hby] at H
            exact hL ⟨f1, f2, H⟩
          · unfold runRescale
            dsimp only
            rw [if_neg (by rw [hby]; exact f2)]
            rfl
        · unfold runSoftmax
          dsimp only
          rw [if_neg]
          · rfl
          · intro H
            change fits r.limit (divUp (p.nLong * p.nlonOut) cf.by') (ctaPerRow p.maxLen) B
                ((4 * vec * (p.nci / vec) + 8 * divUp p.maxLen (ctaPerRow p.maxLen)) * cf.by') (staticShared cf.bx) at H
            rw [hsoft, hbx, hby] at H
            exact f1 H
      rw [hLong]
      rfl
  · rw [ringStep_generic r (by omega)]
    unfold runGeneric
    dsimp only
    rw [if_neg]
    intro H
    refine hacc ⟨fun _ => ?_, fun h => absurd h h1, fun h => absurd h h1⟩
    rw [← v2, show 4 * (p.nco / vecOf r.vecOk p.nci p.nco * vecOf r.vecOk p.nci p.nco) * 2 = 4 * vecOf r.vecOk p.nci p.nco * (p.nco / vecOf r.vecOk p.nci p.nco) * 2 by ring]
    exact H

/-! ### The accumulators -/

/-- The block of the call. -/
def blockOf (p : Params) : KvBlock := ⟨p.start, p.nlatHalo, p.lonLo, p.nlonKx⟩

/-- The neighbour `x` as the call has it. -/
def ptAt (p : Params) (w : ℕ → ℝ) (k v q : ℕ → ℝ) (b ho wo : ℕ) (x : ℕ × ℕ) : Pt :=
  ⟨∑ c ∈ range p.nci, entryOf p.nlatOut p.nlonOut p.nci q b ho wo c * entryOf p.nlatHalo p.nlonKx p.nci k b ((x.1 : ℤ) - p.start).toNat (x.2 - p.lonLo) c,
    w x.1, fun c => entryOf p.nlatHalo p.nlonKx p.nco v b ((x.1 : ℤ) - p.start).toNat (x.2 - p.lonLo) c⟩

theorem chunk_nbrs (p : Params) (w : ℕ → ℝ) (P : Pattern) (k v q : ℕ → ℝ) (b ho wo : ℕ) :
    chunk 1 p w P k v q b ho wo = (nbrsIn (blockOf p) P p.nlonIn p.pscale ho wo).map (ptAt p w k v q b ho wo) := by
  unfold chunk chunkPts nbrsIn gatherNbrs
  generalize P.row ho = R
  induction R with
  | nil => rfl
  | cons z R ih =>
    have hh : gatherHit P p.nlonIn p.pscale p.lonLo p.start (keyTen 1 p 0 k) wo z =
        if p.lonLo ≤ (P.col z % p.nlonIn + p.pscale * wo) % p.nlonIn ∧ (P.col z % p.nlonIn + p.pscale * wo) % p.nlonIn < p.lonLo + p.nlonKx then
          if 0 ≤ ((P.col z / p.nlonIn : ℕ) : ℤ) - p.start ∧ ((P.col z / p.nlonIn : ℕ) : ℤ) - p.start < (p.nlatHalo : ℤ)
          then some ((((P.col z / p.nlonIn : ℕ) : ℤ) - p.start).toNat, (P.col z % p.nlonIn + p.pscale * wo) % p.nlonIn - p.lonLo, P.col z / p.nlonIn) else none
        else none := by
      unfold gatherHit
      dsimp only
      rw [sub_div_mul, sub_div_mul]
      rfl
    rw [List.map_cons, List.filter_cons]
    by_cases h1 : (blockOf p).Has (P.col z / p.nlonIn, (P.col z % p.nlonIn + p.pscale * wo) % p.nlonIn)
    · rw [if_pos (by simpa using h1), List.map_cons, ← ih]
      obtain ⟨a1, a2, a3, a4⟩ := h1
      dsimp only [blockOf] at a1 a2 a3 a4
      rw [if_pos ⟨a3, a4⟩, if_pos ⟨by omega, by omega⟩] at hh
      rw [List.filterMap_cons_some hh, List.map_cons]
      congr 1
      unfold loadPt ptAt keyTen valTen queryTen cells entryOf
      dsimp only
      rw [Nat.mul_one, Nat.mul_one]
    · rw [if_neg (by simpa using h1), ← ih]
      rw [List.filterMap_cons_none]
      rw [hh]
      split_ifs with h2 h3
      · exact absurd ⟨by show p.start ≤ _; omega, by show _ < p.start + (p.nlatHalo : ℤ); omega, h2.1, h2.2⟩ h1
      · rfl
      · rfl

theorem expDiff_carry (m : Option ℝ) (n : ℝ) : expDiff m n = carry m n := by cases m <;> rfl

theorem phaseMax_attained (m : Option ℝ) (L : List Pt) {n : ℝ} (h : phaseMax m L = some n) : m = some n ∨ ∃ t ∈ L, t.q = n := by
  induction L using List.reverseRecOn generalizing n with
  | nil => exact Or.inl h
  | append_singleton L t ih =>
    rw [phaseMax_append] at h
    have h' : maxInf (phaseMax m L) t.q = n := Option.some.inj h
    cases hm : phaseMax m L with
    | none =>
      rw [hm] at h'
      exact Or.inr ⟨t, by simp, h'⟩
    | some x =>
      rw [hm] at h'
      have h'' : max x t.q = n := h'
      rcases le_total x t.q with hx | hx
      · rw [max_eq_right hx] at h''
        exact Or.inr ⟨t, by simp, h''⟩
      · rw [max_eq_left hx] at h''
        subst h''
        rcases ih hm with h1 | ⟨u, h1, h2⟩
        · exact Or.inl h1
        · exact Or.inr ⟨u, List.mem_append_left _ h1, h2⟩

theorem closed_qmax (s : Acc) (L : List Pt) : (closed s L).qmax = phaseMax s.qmax L := by
  unfold closed
  cases h : phaseMax s.qmax L with
  | none => exact (phaseMax_none h).1
  | some n => rfl

theorem takesUp_closed {ι : Type} (L : List ι) (f : ι → Pt) (C : ℕ) (s s' : Acc) (h : AccEq C s' (closed s (L.map f))) :
    TakesUp L (fun i => (f i).q) (fun i => (f i).w) (fun i => (f i).v) C s.y s'.y s.alphaSum s'.alphaSum s.qmax s'.qmax := by
  obtain ⟨h1, h2, h3⟩ := h
  refine ⟨fun hL => ?_, fun hL => ?_⟩
  · subst hL
    rw [List.map_nil, closed_nil] at h1 h2 h3
    exact ⟨h2, h1, h3⟩
  · obtain ⟨t, ht⟩ := List.exists_mem_of_ne_nil L hL
    cases hn : phaseMax s.qmax (L.map f) with
    | none =>
      have := (phaseMax_none hn).2
      rw [List.map_eq_nil_iff] at this
      exact absurd this hL
    | some n =>
      unfold closed at h1 h2 h3
      rw [hn] at h1 h2 h3
      dsimp only at h1 h2 h3
      have hle := (leO_phaseMax s.qmax (L.map f) (some n)).1 (by rw [hn]; exact leO_refl _)
      refine ⟨n, h2, ⟨fun o ho => ?_, fun i hi => ?_⟩, ?_, ?_, fun c hc => ?_⟩
      · have := hle.1
        rw [Option.mem_def.1 ho] at this
        exact this
      · exact hle.2 (f i) (List.mem_map_of_mem hi)
      · rcases phaseMax_attained _ _ hn with h | ⟨t, ht, hq⟩
        · exact Or.inl h
        · obtain ⟨i, hi, rfl⟩ := List.mem_map.1 ht
          exact Or.inr ⟨i, hi, hq⟩
      · rw [h1, expDiff_carry, List.map_map]
        rfl
      · rw [h3 c hc, expDiff_carry, List.map_map]
        rfl

theorem gatherCell_closed (psi : Pattern) (w : ℕ → ℝ) (nlonIn pscale lonLo : ℕ) (start : ℤ) (long : Bool) (k v q : RTen) (b ho wo : ℕ) (s : Acc) :
    gatherCell psi w nlonIn pscale lonLo start long k v q b ho wo s = closed s (chunkPts psi w nlonIn pscale lonLo start k v q b ho wo) := by
  unfold gatherCell chunkPts
  cases long with
  | true => rw [if_pos rfl, threePhase_closed]
  | false =>
    rw [if_neg (by simp), ← foldl_onePass]
    generalize psi.row ho = R
    induction R generalizing s with
    | nil => rfl
    | cons z R ih =>
      rw [List.foldl_cons]
      cases hz : gatherHit psi nlonIn pscale lonLo start k wo z with
      | none => rw [List.filterMap_cons_none hz]; exact ih s
      | some t => rw [List.filterMap_cons_some hz]; exact ih _

/-- Points that agree below channel `C`. -/
theorem closed_congr {ι : Type} (C : ℕ) (s : Acc) (L : List ι) (f g : ι → Pt) (h : ∀ x ∈ L, (f x).q = (g x).q ∧ (f x).w = (g x).w ∧ ∀ c < C, (f x).v c = (g x).v c) :
    AccEq C (closed s (L.map f)) (closed s (L.map g)) := by
  have hm : ∀ m, phaseMax m (L.map f) = phaseMax m (L.map g) := by
    intro m
    refine eq_of_leO fun x => ?_
    rw [leO_phaseMax, leO_phaseMax]
    refine and_congr Iff.rfl ⟨fun H t ht => ?_, fun H t ht => ?_⟩
    · obtain ⟨i, hi, rfl⟩ := List.mem_map.1 ht
      rw [← (h i hi).1]
      exact H _ (List.mem_map_of_mem hi)
    · obtain ⟨i, hi, rfl⟩ := List.mem_map.1 ht
      rw [(h i hi).1]
      exact H _ (List.mem_map_of_mem hi)
  unfold closed
  rw [hm]
  cases phaseMax s.qmax (L.map g) with
  | none => exact AccEq.refl _ _
  | some n =>
    refine ⟨?_, rfl, fun c hc => ?_⟩
    · dsimp only
      congr 1
      rw [List.map_map, List.map_map]
      exact list_sum_congr fun x hx => by dsimp only [Function.comp]; rw [(h x hx).1, (h x hx).2.1]
    · dsimp only
      congr 1
      rw [List.map_map, List.map_map]
      exact list_sum_congr fun x hx => by dsimp only [Function.comp]; rw [(h x hx).1, (h x hx).2.1, (h x hx).2.2 c hc]

/-! ### The race -/

/-- The step with a schedule in which the first warp is through before the others begin. -/
theorem ringStep_race {r : Run} {p : Params} {B : ℕ} {P : Pattern} (h0 : 0 < p.nco) (h1 : p.nco ≤ 16384) (hr : RunOk r (groupSize p.nco) p.nlatOut) (hrows : RowsOk r p P)
    (hacc : Accepted r p B) (hlong : 0 < p.nLong)
    (hsched : r.sched = warpAfterWarp B (divUp (p.nLong * p.nlonOut) (if p.nco ≤ 512 then 2 else 1)) (if p.nco ≤ 512 then 2 else 1) (bdimxOf p.nco / 32))
    (w : ℕ → ℝ) (k v q : ℕ → ℝ) (bufs : Bufs) :
    ∃ bufs', ringStep r p B w P k v q bufs = .ok bufs' ∧ ∀ i, InRows r p B 0 p.nLong i → ∀ n, phaseMax (bufs.qmax i) (chunkAt 1 p w P k v q i) = some n →
      (bufs'.qmax i = some n ∧ bufs'.alpha i = expDiff (bufs.qmax i) n * bufs.alpha i + ((chunkAt 1 p w P k v q i).map fun t => Real.exp (t.q - n) * t.w).sum) ∧
      ∀ e < p.nco, warpOf (vecOf r.vecOk p.nci p.nco) (bdimxOf p.nco) e ≠ 0 → bufs'.y (i * p.nco + e) = bufs.y (i * p.nco + e) + ((chunkAt 1 p w P k v q i).map fun t => Real.exp (t.q - n) * t.w * t.v e).sum := by
  classical
  obtain ⟨v0, v1, v2⟩ := vecOf_mul r.vecOk p.nci p.nco
  rw [ringStep_special r h0 h1]
  have hr' := hr
  unfold groupSize at hr'
  rw [if_pos h1] at hr'
  have hc := specCfg_ok r.vecOk (nci := p.nci) h0 h1
  obtain ⟨vec, hvec⟩ : ∃ vec, vec = vecOf r.vecOk p.nci p.nco := ⟨_, rfl⟩
  have hshort := fun b1 => short_ok h0 h1 hr hrows hacc w k v q b1
  rw [← hvec] at hc v1 v2 v0 hshort ⊢
  obtain ⟨cf, hcf⟩ : ∃ cf, cf = specCfg r.vecOk p.nci p.nco := ⟨_, rfl⟩
  have hbx : cf.bx = bdimxOf p.nco := by rw [hcf]; rfl
  have hby : cf.by' = if p.nco ≤ 512 then 2 else 1 := by rw [hcf]; rfl
  rw [← hcf] at hc hshort ⊢
  rw [← hbx] at hr' hsched ⊢
  rw [← hby] at hsched
  have u1 : vec * (p.nci / vec) = p.nci := by rw [Nat.mul_comm, v1]
  have u2 : vec * (p.nco / vec) = p.nco := by rw [Nat.mul_comm, v2]
  have hL := hacc.long h1 hlong
  rw [← hby, ← hbx] at hL
  have hpos := hrows.pos hlong
  have hstep : ∃ b2, runLong r vec cf (scaled vec p) B w P k v q bufs = .ok b2 ∧ ∀ i, InRows r p B 0 p.nLong i → ∀ n, phaseMax (bufs.qmax i) (chunkAt 1 p w P k v q i) = some n →
      (b2.qmax i = some n ∧ b2.alpha i = expDiff (bufs.qmax i) n * bufs.alpha i + ((chunkAt 1 p w P k v q i).map fun t => Real.exp (t.q - n) * t.w).sum) ∧
      ∀ e < p.nco, warpOf vec cf.bx e ≠ 0 → b2.y (i * p.nco + e) = bufs.y (i * p.nco + e) + ((chunkAt 1 p w P k v q i).map fun t => Real.exp (t.q - n) * t.w * t.v e).sum := by
    unfold runLong
    rw [if_neg (show ¬ (scaled vec p).nLong = 0 from by change ¬ p.nLong = 0; omega)]
    obtain ⟨curr, c1, c2⟩ := runSoftmax_ok (p := scaled vec p) hc hr' w P k v q bufs hrows.le hrows.long hpos (B := B) (by
      have := hL.soft
      rwa [← u1, ← Nat.mul_assoc] at this)
    have hcurr : ∀ i, curr i = none → bufs.qmax i = none := by
      intro i h
      rw [c2] at h
      split_ifs at h with hi
      · exact (phaseMax_none h).1
      · exact h
    obtain ⟨s, r1, r2⟩ := race_run (vec := vec) (p := scaled vec p) hc hr' hrows.le (B := B) hcurr (divUp (p.nLong * p.nlonOut) cf.by') cf.by'
    obtain ⟨b2, f1, f2⟩ := runFinalize_ok (p := scaled vec p) hc hr' w P k v q curr s.bufs hrows.le hrows.long hpos (B := B) (by
      have := hL.fin
      rwa [← u1, ← u2, show 4 * (vec * (p.nci / vec) + vec * (p.nco / vec)) + 20 * divUp p.maxLen (ctaPerRow p.maxLen) = 4 * vec * (p.nci / vec + p.nco / vec)
        + 8 * divUp p.maxLen (ctaPerRow p.maxLen) * 2 + 4 * divUp p.maxLen (ctaPerRow p.maxLen) by ring] at this)
    refine ⟨b2, ?_, fun i hi n hn => ?_⟩
    · rw [c1]
      change (do
        let bufs ← runRescale r vec cf (scaled vec p) B curr bufs
        runFinalize r vec cf (scaled vec p) B w P k v q curr bufs) = _
      have : runRescale r vec cf (scaled vec p) B curr bufs = .ok s.bufs := by
        unfold runRescale
        dsimp only
        rw [if_pos (show fits r.limit (divUp ((scaled vec p).nLong * (scaled vec p).nlonOut) cf.by') B 1 0 0 from hL.resc), hsched, r1]
        rfl
      rw [this]
      exact f1
    · have hf := f2 i
      have hci := c2 i
      have hi' : InRows r (scaled vec p) B 0 (scaled vec p).nLong i := hi
      rw [if_pos hi', chunkAt_scaled v1 v2] at hci
      rw [if_pos hi', chunkAt_scaled v1 v2, show (scaled vec p).nco * vec = p.nco from v2] at hf
      obtain ⟨a1, a2, a3⟩ := hf
      rw [hn] at hci
      obtain ⟨b, hb, h, -, hh, wo, hwo, rfl⟩ := hi
      have hwid : h * p.nlonOut + wo < p.nLong * p.nlonOut := packed_lt hh hwo
      obtain ⟨q1, q2⟩ := div_mul_add (a := h) hwo
      have hact : Active (scaled vec p) B (b, h * p.nlonOut + wo) := ⟨hb, hwid⟩
      have hfl : flatOf r (scaled vec p) (b, h * p.nlonOut + wo) = outFlat p b (r.rowIdx h) wo := by
        change outFlat p b (r.rowIdx ((h * p.nlonOut + wo) / p.nlonOut)) ((h * p.nlonOut + wo) % p.nlonOut) = _
        rw [q1, q2]
      obtain ⟨i1, i2⟩ := r2.inside _ hact (mem_grid2.2 ⟨hb, lt_of_lt_of_le hwid (le_divUp_mul hc.rows)⟩)
      rw [hfl, hci] at i1 i2
      refine ⟨⟨a2.trans i1, ?_⟩, fun e he hwe => ?_⟩
      · have : b2.alpha (outFlat p b (r.rowIdx h) wo) = _ := a1
        rw [this, i2, hci]
        rfl
      · have hy := r2.y (outFlat p b (r.rowIdx h) wo) e (show e < p.nco / vec * vec by rw [v2]; exact he) hwe
        rw [show (scaled vec p).nco * vec = p.nco from v2] at hy
        have : b2.y (outFlat p b (r.rowIdx h) wo * p.nco + e) = _ := a3 e he
        rw [this]
        dsimp only
        rw [hy, hci]
        rfl
  obtain ⟨b2, g1, g2⟩ := hstep
  obtain ⟨b3, g3, g4⟩ := hshort b2
  refine ⟨b3, ?_, fun i hi n hn => ?_⟩
  · rw [g1]
    exact g3
  · obtain ⟨⟨m1, m2⟩, m3⟩ := g2 i hi n hn
    have h4 := g4 i
    rw [if_neg fun h => inRows_disjoint hr hi h] at h4
    obtain ⟨a1, a2, a3⟩ := h4
    exact ⟨⟨Eq.trans a2 m1, Eq.trans a1 m2⟩, fun e he hwe => Eq.trans (a3 e he) (m3 e he hwe)⟩

end Verif.RingGpu
