import Verif.Lemmas.DiscoKpacked
import Verif.Props.DiscoCpu
import Verif.Props.DiscoCuda
/-!
C78: the half-precision tensor-core kernels compute the documented sum on both architectures, for every order of the stores of
a block and of the blocks and for every initial content of shared and tensor memory; when the layers select them, what they
reject, and two ways in which the selection goes wrong.
-/
namespace Verif.Props
open Verif Verif.Dist Verif.Spec Verif.Disco Finset

variable {R : Type}

/-- The indices of a packed filter lie on the input grid. -/
theorem packed_range [CommSemiring R] (taps : List (Tap R)) (K nlatOut nlatIn nlonIn : ℕ) (hf : Fits taps K nlatOut nlatIn nlonIn)
    (hpos : 0 < K ∧ 0 < nlatOut ∧ 0 < nlonIn) (hne : taps ≠ []) (hrs : RowSorted (taps.map (encode nlonIn)))
    (hnc : NoCollision K (taps.map (encode nlonIn))) (junk : ℕ → Entry R) (s : List (Entry R)) (roff : List ℕ)
    (hpre : preprocessPsi junk K nlatOut (taps.map (encode nlonIn)) = .ok (s, roff)) (D : Dense R)
    (hD : packPsiDense (Csr.ofLists junk s roff) K nlatOut nlonIn 0 = .ok D) (k t off : ℕ) (h : off < D.count k t) :
    (D.idx k t off).1 < nlatIn ∧ (D.idx k t off).2 < nlonIn := by
  obtain ⟨hK, hH⟩ := fits_ker hf
  have hne' : taps.map (encode nlonIn) ≠ [] := by simpa using hne
  rw [preprocess_total junk K nlatOut _ hK hH hne' hrs] at hpre
  obtain ⟨rfl, rfl⟩ := Prod.mk.inj (Except.ok.inj hpre)
  have hruns := runs_of junk K _ hK hne' hnc
  have hdist := runs_distinct junk K _ hK hne' hrs _ rfl
  set A : Csr R := csrOf junk K (taps.map (encode nlonIn)) with hA
  change Runs A _ at hruns
  change ∀ i < A.nnr, ∀ j < A.nnr, _ → _ → i = j at hdist
  change packPsiDense A K nlatOut nlonIn 0 = .ok D at hD
  unfold packPsiDense at hD
  rw [if_neg (not_not.2 hpos)] at hD
  by_cases hn : A.nnr ≤ K * nlatOut
  · rw [if_neg (not_not.2 hn), if_pos le_rfl] at hD
    obtain ⟨D', h1, h2, -, -⟩ := packRows_ok A nlonIn K nlatOut (maxNbr A) hdist (fun i hi => maxNbr_ge A hi) A.nnr le_rfl
    rw [h1] at hD
    obtain rfl := Except.ok.inj hD
    by_cases hex : ∃ i < A.nnr, (A.entry (A.roff i)).ker = k ∧ (A.entry (A.roff i)).row = t
    · obtain ⟨i, hi, rfl, rfl⟩ := hex
      obtain ⟨r1, r2⟩ := h2.row i hi
      rw [r1] at h
      rw [((r2 off).1 h).1]
      have hlen : A.roff i + off < (taps.map (encode nlonIn)).length := by
        have h3 := hruns.mono_le (show i + 1 ≤ A.nnr by omega) le_rfl
        rw [hruns.last] at h3
        omega
      have hmem : A.entry (A.roff i + off) ∈ taps.map (encode nlonIn) := by
        rw [← (byKernel_perm K _ hK).mem_iff]
        show (byKernel K _).getD (A.roff i + off) (junk _) ∈ _
        rw [← (byKernel_perm K _ hK).length_eq] at hlen
        rw [List.getD_eq_getElem _ _ hlen]
        exact List.getElem_mem _
      obtain ⟨a, ha, hae⟩ := List.mem_map.1 hmem
      have hfa := hf a ha
      rw [← hae]
      show (a.latIn * nlonIn + a.lonIn) / nlonIn < nlatIn ∧ (a.latIn * nlonIn + a.lonIn) % nlonIn < nlonIn
      rw [flat_div hfa.2.2.2, flat_mod hfa.2.2.2]
      exact ⟨hfa.2.2.1, hfa.2.2.2⟩
    · rw [(h2.other k t fun i hi hh => hex ⟨i, hi, hh⟩).1] at h
      omega
  · rw [if_pos hn] at hD
    cases hD

/-- A packed filter shares the index lists and counts of its first kernel. -/
theorem kpack_fields [Zero R] (D : Dense R) (nAlign : ℕ) (P : KPacked R) (h : maybeKpack D nAlign = .ok (some P)) :
    P.idx = D.idx 0 ∧ P.count = D.count 0 := by
  unfold maybeKpack at h
  split at h
  · cases h
  dsimp only at h
  split at h
  · cases h
  split at h
  · cases h; exact ⟨rfl, rfl⟩
  split at h
  · cases h
  split at h
  · cases h
  · cases h; exact ⟨rfl, rfl⟩

variable [CommSemiring R]

theorem wrapper_eq (targets : List KTarget) (d : KDevice) (dt : KDtype) (r : KRun R) (x : Ten R) (P : KPacked R) (nbrPad K Ho Wo : ℕ)
    (h1 : d.major = 9 ∨ d.major = 10) (h2 : dt = .bf16 ∨ dt = .f16) (h3 : 0 < Wo) (h4 : Wo ∣ x.d2) (h5 : 8 ∣ Wo)
    (h6 : P.kPad = 8 ∨ P.kPad = 16) :
    cudaForwardKpacked targets d dt r x P nbrPad K Ho Wo = match kLaunch targets d (dt = .bf16) r (kArgs x P nbrPad K Ho Wo) with
      | .error e => .error e
      | .ok out => .ok ⟨x.d0, K, Ho, Wo, fun bc k t p => out.val (((bc * K + k) * Ho + t) * Wo + p)⟩ := by
  unfold cudaForwardKpacked
  rw [if_neg (not_not.2 h1), if_neg (not_not.2 h2), if_neg (by omega), if_neg (not_not.2 (Nat.mod_eq_zero_of_dvd h4)),
    if_neg (not_not.2 (Nat.mod_eq_zero_of_dvd h5)), if_neg (not_not.2 h6)]
  cases kLaunch targets d (dt = .bf16) r (kArgs x P nbrPad K Ho Wo) <;> rfl

/-- C78: the tensor-core forward operator. The filter is packed as the layer packs it (automatic padding, kernels padded to a multiple
of eight). Whenever the packing succeeds with at most 16 kernels, on a device of compute capability 9 or 10 for which the
kernel was compiled, the result is the documented sum for every (batch, channel) plane `bc`, for every legal run of the machine. -/
theorem C78_forward (taps : List (Tap R)) (K nlatOut nlonOut : ℕ) (x : Ten R) (hf : Fits taps K nlatOut x.d1 x.d2)
    (hpos : 0 < K ∧ 0 < nlatOut ∧ 0 < nlonOut ∧ 0 < x.d2) (hd : nlonOut ∣ x.d2) (h8 : 8 ∣ nlonOut) (hK : K ≤ 16) (hne : taps ≠ [])
    (hrs : RowSorted (taps.map (encode x.d2))) (hnc : NoCollision K (taps.map (encode x.d2))) (junk : ℕ → Entry R)
    (hgx : nlatOut * (nlonOut / 8) < 2 ^ 31) (hbc : 0 < x.d0 ∧ x.d0 ≤ 524280) :
    ∃ s roff D, preprocessPsi junk K nlatOut (taps.map (encode x.d2)) = .ok (s, roff) ∧
      packPsiDense (Csr.ofLists junk s roff) K nlatOut x.d2 0 = .ok D ∧
      ∀ P, maybeKpack D 8 = .ok (some P) →
        ∀ (targets : List KTarget) (d : KDevice) (dt : KDtype) (r : KRun R), (d.major = 9 ∨ d.major = 10) → (dt = .bf16 ∨ dt = .f16) →
          ⟨d.major, d.minor, true⟩ ∈ targets → r.Legal →
          ∃ y, cudaForwardKpacked targets d dt r x P D.pad K nlatOut nlonOut = .ok y ∧
            y.d0 = x.d0 ∧ y.d1 = K ∧ y.d2 = nlatOut ∧ y.d3 = nlonOut ∧
            ∀ bc < x.d0, ∀ k < K, ∀ t < nlatOut, ∀ p < nlonOut, y.val bc k t p = discoSum taps x.d2 nlonOut (x.val bc) k t p := by
  obtain ⟨s, roff, e1, e2, e3⟩ := C33_dense taps K nlatOut x.d1 x.d2 nlonOut hf ⟨hpos.1, hpos.2.1, hpos.2.2.2⟩ hne hrs hnc junk 0
  obtain ⟨D, hD⟩ := e2.2 (Or.inl le_rfl)
  obtain ⟨dK, dH, dsum⟩ := e3 D hD
  refine ⟨s, roff, D, e1, hD, ?_⟩
  intro P hP targets d dt r hmaj hdt hmem hr
  obtain ⟨p1, p2, p3, p4, -⟩ := C33_kpack D 8 P hP (fun k t => (dsum k t 0 (fun _ _ => 0)).1) x.d2 nlonOut (x.val 0)
  obtain ⟨f1, f2⟩ := kpack_fields D 8 P hP
  rw [dK] at p2 p3
  have hN : P.kPad = 8 ∨ P.kPad = 16 := by
    obtain ⟨q, hq⟩ := p1
    omega
  have hg : Good x P D.pad K nlatOut nlonOut := by
    refine ⟨hN, Nat.mod_eq_zero_of_dvd h8, hpos.2.2.1, Nat.mod_eq_zero_of_dvd hd, ?_, ?_⟩
    · intro t ht off hoff
      rw [f2] at hoff
      rw [f1]
      exact packed_range taps K nlatOut x.d1 x.d2 hf ⟨hpos.1, hpos.2.1, hpos.2.2.2⟩ hne hrs hnc junk s roff e1 D hD 0 t off hoff
    · intro t ht
      rw [f2]
      exact (dsum 0 t 0 (fun _ _ => 0)).1
  have hbody : bodyPresent targets d = some true := by
    unfold bodyPresent
    rw [if_pos ⟨_, hmem, by simp [runsOn], rfl⟩]
  obtain ⟨v, v1, v2⟩ := launch_ok hg targets d (dt = .bf16) r hr hbody ⟨hpos.2.1, hgx⟩ ⟨hbc.1, by omega⟩
  refine ⟨⟨x.d0, K, nlatOut, nlonOut, fun bc k t p => v (((bc * K + k) * nlatOut + t) * nlonOut + p)⟩, ?_, rfl, rfl, rfl, rfl, ?_⟩
  · rw [wrapper_eq targets d dt r x P D.pad K nlatOut nlonOut hmaj hdt hpos.2.2.1 hd h8 hN, v1]
  · intro bc hb k hk t ht p hp
    dsimp only
    rw [v2 bc hb k hk t ht p hp, if_pos (by omega)]
    obtain ⟨-, -, -, q4, -⟩ := C33_kpack D 8 P hP (fun k t => (dsum k t 0 (fun _ _ => 0)).1) x.d2 nlonOut (x.val bc)
    rw [← (dsum k t p (x.val bc)).2.1, ← q4 k (by rw [dK]; exact hk) t (by rw [dH]; exact ht) p]
    rfl

/-- C78: the staged tiles never touch the first 128 bytes of shared memory, where the tcgen05 kernel keeps the address of its
accumulator and its barrier, after any number of passes. -/
theorem C78_header (x : Ten R) (P : KPacked R) (nbrPad K Ho Wo : ℕ) (hg : Good x P nbrPad K Ho Wo) (b : KBlock) (hb : Inside b Ho Wo)
    (base : ℕ) (hal : 16 ∣ base) (hlt : base + 4096 < 2 ^ 18) (bf16 : Bool) (junk : ℕ → R) (tmJunk : ℕ → ℕ → R)
    (shuffle : ℕ → List (ℕ × R) → List (ℕ × R)) (hsh : ∀ j l, (shuffle j l).Perm l) (n : ℕ)
    (hn : n ≤ (P.count b.ho + 15) / 16) :
    ∃ s, (List.range n).foldlM (sm100Step ((128 + bcTile * nzChunk * 8 * 2 + nzChunk * P.kPad * 2) / 2) base bf16 shuffle
        (kArgs x P nbrPad K Ho Wo) b (P.count b.ho)) (⟨junk, tmemZero P.kPad tmJunk, 0, none⟩ : Sm100 R) = .ok s ∧
      ∀ e, 2 * e < 128 → s.sh e = junk e := by
  obtain ⟨s, e1, -, -, e4, -⟩ := sm100_loop hg hb hal hlt bf16 junk tmJunk shuffle hsh n hn
  exact ⟨s, e1, fun e he => e4 e (by omega)⟩

/-- C78, what is rejected: the operator returns a tensor exactly when all of these hold, and otherwise raises; it never reads or writes
outside a buffer and never reads what an instruction in flight still produces. -/
theorem C78_outcome (targets : List KTarget) (d : KDevice) (dt : KDtype) (r : KRun R) (hr : r.Legal) (x : Ten R) (P : KPacked R)
    (nbrPad K Ho Wo : ℕ) (hidx : ∀ t < Ho, ∀ off < P.count t, (P.idx t off).1 < x.d1 ∧ (P.idx t off).2 < x.d2)
    (hcnt : ∀ t < Ho, P.count t ≤ nbrPad) :
    ((∃ y, cudaForwardKpacked targets d dt r x P nbrPad K Ho Wo = .ok y) ↔
      (d.major = 9 ∨ d.major = 10) ∧ (dt = .bf16 ∨ dt = .f16) ∧ 0 < Wo ∧ Wo ∣ x.d2 ∧ 8 ∣ Wo ∧ (P.kPad = 8 ∨ P.kPad = 16) ∧
        0 < Ho ∧ Ho * (Wo / 8) < 2 ^ 31 ∧ 0 < x.d0 ∧ x.d0 ≤ 524280 ∧ ∃ t ∈ targets, runsOn t d = true) ∧
    ∀ e, cudaForwardKpacked targets d dt r x P nbrPad K Ho Wo = .error e → e = .runtimeError ∨ (e = .zeroDivision ∧ Wo = 0) := by
  by_cases h1 : d.major = 9 ∨ d.major = 10
  swap
  · have : cudaForwardKpacked targets d dt r x P nbrPad K Ho Wo = .error .runtimeError := by
      unfold cudaForwardKpacked
      rw [if_pos h1]
    rw [this]
    exact ⟨⟨fun h => (by obtain ⟨y, h⟩ := h; cases h), fun h => absurd h.1 h1⟩, fun e h => Or.inl (by cases h; rfl)⟩
  by_cases h2 : dt = .bf16 ∨ dt = .f16
  swap
  · have : cudaForwardKpacked targets d dt r x P nbrPad K Ho Wo = .error .runtimeError := by
      unfold cudaForwardKpacked
      rw [if_neg (not_not.2 h1), if_pos h2]
    rw [this]
    exact ⟨⟨fun h => (by obtain ⟨y, h⟩ := h; cases h), fun h => absurd h.2.1 h2⟩, fun e h => Or.inl (by cases h; rfl)⟩
  by_cases h3 : Wo = 0
  · have : cudaForwardKpacked targets d dt r x P nbrPad K Ho Wo = .error .zeroDivision := by
      unfold cudaForwardKpacked
      rw [if_neg (not_not.2 h1), if_neg (not_not.2 h2), if_pos h3]
    rw [this]
    exact ⟨⟨fun h => (by obtain ⟨y, h⟩ := h; cases h), fun h => absurd h.2.2.1 (by omega)⟩, fun e h => Or.inr ⟨(by cases h; rfl), h3⟩⟩
  by_cases h4 : Wo ∣ x.d2
  swap
  · have : cudaForwardKpacked targets d dt r x P nbrPad K Ho Wo = .error .runtimeError := by
      unfold cudaForwardKpacked
      rw [if_neg (not_not.2 h1), if_neg (not_not.2 h2), if_neg h3, if_pos (fun h => h4 (Nat.dvd_of_mod_eq_zero h))]
    rw [this]
    exact ⟨⟨fun h => (by obtain ⟨y, h⟩ := h; cases h), fun h => absurd h.2.2.2.1 h4⟩, fun e h => Or.inl (by cases h; rfl)⟩
  by_cases h5 : 8 ∣ Wo
  swap
  · have : cudaForwardKpacked targets d dt r x P nbrPad K Ho Wo = .error .runtimeError := by
      unfold cudaForwardKpacked
      rw [if_neg (not_not.2 h1), if_neg (not_not.2 h2), if_neg h3, if_neg (not_not.2 (Nat.mod_eq_zero_of_dvd h4)),
        if_pos (fun h => h5 (Nat.dvd_of_mod_eq_zero h))]
    rw [this]
    exact ⟨⟨fun h => (by obtain ⟨y, h⟩ := h; cases h), fun h => absurd h.2.2.2.2.1 h5⟩, fun e h => Or.inl (by cases h; rfl)⟩
  by_cases h6 : P.kPad = 8 ∨ P.kPad = 16
  swap
  · have : cudaForwardKpacked targets d dt r x P nbrPad K Ho Wo = .error .runtimeError := by
      unfold cudaForwardKpacked
      rw [if_neg (not_not.2 h1), if_neg (not_not.2 h2), if_neg h3, if_neg (not_not.2 (Nat.mod_eq_zero_of_dvd h4)),
        if_neg (not_not.2 (Nat.mod_eq_zero_of_dvd h5)), if_pos h6]
    rw [this]
    exact ⟨⟨fun h => (by obtain ⟨y, h⟩ := h; cases h), fun h => absurd h.2.2.2.2.2.1 h6⟩, fun e h => Or.inl (by cases h; rfl)⟩
  rw [wrapper_eq targets d dt r x P nbrPad K Ho Wo h1 h2 (by omega) h4 h5 h6]
  have hg : Good x P nbrPad K Ho Wo := ⟨h6, Nat.mod_eq_zero_of_dvd h5, by omega, Nat.mod_eq_zero_of_dvd h4, hidx, hcnt⟩
  have h8 : 0 < Wo / 8 := by
    obtain ⟨q, rfl⟩ := h5
    omega
  have hx : (kArgs x P nbrPad K Ho Wo).Ho * ((kArgs x P nbrPad K Ho Wo).Wo / woTile) = Ho * (Wo / 8) := rfl
  have hy : ((kArgs x P nbrPad K Ho Wo).BC + bcTile - 1) / bcTile = (x.d0 + 7) / 8 := rfl
  by_cases hgrid : 0 < Ho ∧ Ho * (Wo / 8) < 2 ^ 31 ∧ 0 < x.d0 ∧ x.d0 ≤ 524280
  swap
  · have : kLaunch targets d (dt = .bf16) r (kArgs x P nbrPad K Ho Wo) = .error .runtimeError := by
      unfold kLaunch
      dsimp only
      rw [if_pos]
      rw [hx, hy]
      by_contra hcon
      apply hgrid
      push Not at hcon
      obtain ⟨c1, c2, c3, c4⟩ := hcon
      refine ⟨Nat.pos_of_ne_zero fun h => c1 (by rw [h, Nat.zero_mul]), c3, by omega, by omega⟩
    rw [this]
    exact ⟨⟨fun h => (by obtain ⟨y, h⟩ := h; cases h), fun h => absurd ⟨h.2.2.2.2.2.2.1, h.2.2.2.2.2.2.2.1, h.2.2.2.2.2.2.2.2.1,
      h.2.2.2.2.2.2.2.2.2.1⟩ hgrid⟩, fun e h => Or.inl (by cases h; rfl)⟩
  have hng : ¬ (Ho * (Wo / 8) = 0 ∨ (x.d0 + 7) / 8 = 0 ∨ 2 ^ 31 ≤ Ho * (Wo / 8) ∨ 65535 < (x.d0 + 7) / 8) := by
    have := Nat.mul_pos hgrid.1 h8
    have h2 := hgrid.2
    generalize Ho * (Wo / 8) = gx at *
    omega
  by_cases hb1 : ∃ t ∈ targets, runsOn t d = true ∧ t.arch = true
  · have hbody : bodyPresent targets d = some true := by
      unfold bodyPresent
      rw [if_pos hb1]
    obtain ⟨v, v1, -⟩ := launch_ok hg targets d (dt = .bf16) r hr hbody ⟨hgrid.1, hgrid.2.1⟩ ⟨hgrid.2.2.1, hgrid.2.2.2⟩
    rw [v1]
    obtain ⟨t, ht, ht2, -⟩ := hb1
    exact ⟨⟨fun _ => ⟨h1, h2, by omega, h4, h5, h6, hgrid.1, hgrid.2.1, hgrid.2.2.1, hgrid.2.2.2, t, ht, ht2⟩, fun _ => ⟨_, rfl⟩⟩,
      fun e h => by cases h⟩
  by_cases hb2 : ∃ t ∈ targets, runsOn t d = true
  · have hbody : bodyPresent targets d = some false := by
      unfold bodyPresent
      rw [if_neg hb1, if_pos hb2]
    have : kLaunch targets d (dt = .bf16) r (kArgs x P nbrPad K Ho Wo) = .ok ⟨x.d0 * K * Ho * Wo, fun _ => 0⟩ := by
      unfold kLaunch
      dsimp only
      rw [if_neg (by rw [hx, hy]; exact hng), hbody]
      rfl
    rw [this]
    exact ⟨⟨fun _ => ⟨h1, h2, by omega, h4, h5, h6, hgrid.1, hgrid.2.1, hgrid.2.2.1, hgrid.2.2.2, hb2⟩, fun _ => ⟨_, rfl⟩⟩,
      fun e h => by cases h⟩
  · have hbody : bodyPresent targets d = none := by
      unfold bodyPresent
      rw [if_neg hb1, if_neg hb2]
    have : kLaunch targets d (dt = .bf16) r (kArgs x P nbrPad K Ho Wo) = .error .runtimeError := by
      unfold kLaunch
      dsimp only
      rw [if_neg (by rw [hx, hy]; exact hng), hbody]
    rw [this]
    exact ⟨⟨fun h => (by obtain ⟨y, h⟩ := h; cases h), fun h => absurd h.2.2.2.2.2.2.2.2.2.2 hb2⟩, fun e h => Or.inl (by cases h; rfl)⟩

omit [CommSemiring R] in
/-- C78, selection: the serial layer selects the tensor-core operator exactly under these conditions. -/
theorem C78_serial_selects (optimized : Bool) (kPad : Option ℕ) (dt : KDtype) (targets : List KTarget) (device : Option KDevice)
    (nlonIn nlonOut : ℕ) (h0 : 0 < nlonOut) :
    serialKpackedOk optimized kPad dt targets device nlonIn nlonOut = .ok true ↔
      optimized = true ∧ (kPad = some 8 ∨ kPad = some 16) ∧ (dt = .f16 ∨ dt = .bf16) ∧ 8 ∣ nlonOut ∧ nlonOut ∣ nlonIn ∧
      ∃ d, device = some d ∧ ((d.major = 9 ∧ ⟨9, 0, true⟩ ∈ targets) ∨
        (d.major = 10 ∧ (⟨10, 0, true⟩ ∈ targets ∨ ⟨10, 3, true⟩ ∈ targets))) := by
  have hsup : ∀ d : KDevice, kpackedSupported targets d = true ↔ ((d.major = 9 ∧ ⟨9, 0, true⟩ ∈ targets) ∨
        (d.major = 10 ∧ (⟨10, 0, true⟩ ∈ targets ∨ ⟨10, 3, true⟩ ∈ targets))) := by
    intro d
    unfold kpackedSupported announces
    by_cases h9 : d.major = 9
    · simp [h9]
    · by_cases h10 : d.major = 10
      · simp [h10]
      · simp [h9, h10]
  unfold serialKpackedOk
  by_cases hc : optimized = true ∧ (kPad = some 8 ∨ kPad = some 16) ∧ (dt = .f16 ∨ dt = .bf16)
  · rw [if_pos hc]
    cases device with
    | none => simp
    | some d =>
      dsimp only
      by_cases h8 : nlonOut % 8 = 0
      · rw [if_neg (not_not.2 h8), if_neg (by omega)]
        rw [Except.ok.injEq, Bool.and_eq_true, beq_iff_eq, hsup d]
        constructor
        · rintro ⟨a, b⟩
          exact ⟨hc.1, hc.2.1, hc.2.2, Nat.dvd_of_mod_eq_zero h8, Nat.dvd_of_mod_eq_zero a, d, rfl, b⟩
        · rintro ⟨-, -, -, -, a, d', hd', b⟩
          cases hd'
          exact ⟨Nat.mod_eq_zero_of_dvd a, b⟩
      · rw [if_pos h8]
        constructor
        · intro h; cases h
        · intro h; exact absurd (Nat.mod_eq_zero_of_dvd h.2.2.2.1) h8
  · rw [if_neg hc]
    constructor
    · intro h; cases h
    · intro h; exact absurd ⟨h.1, h.2.1, h.2.2.1⟩ hc

/-- C78, selection is safe for Hopper: when the serial layer selects the operator on a device of compute capability 9.0, the body of the
kernel is present (so that `C78_forward` applies). -/
theorem C78_hopper_body (optimized : Bool) (kPad : Option ℕ) (dt : KDtype) (targets : List KTarget) (nlonIn nlonOut : ℕ) (h0 : 0 < nlonOut)
    (h : serialKpackedOk optimized kPad dt targets (some ⟨9, 0⟩) nlonIn nlonOut = .ok true) :
    (⟨9, 0, true⟩ : KTarget) ∈ targets ∧ 8 ∣ nlonOut ∧ nlonOut ∣ nlonIn ∧ (dt = .bf16 ∨ dt = .f16) ∧ (kPad = some 8 ∨ kPad = some 16) := by
  obtain ⟨-, h2, h3, h4, h5, d, hd, h6⟩ := (C78_serial_selects optimized kPad dt targets (some ⟨9, 0⟩) nlonIn nlonOut h0).1 h
  cases hd
  refine ⟨?_, h4, h5, h3.symm, h2⟩
  rcases h6 with h | h
  · exact h.2
  · exact absurd h.1 (by decide)

/-- C78, finding: a build whose arch-conditional target does not cover the device but whose plain target does returns zeros, whatever
the filter and the input, and raises nothing. -/
theorem C78_wrong_target_zeros (targets : List KTarget) (d : KDevice) (dt : KDtype) (r : KRun R) (x : Ten R) (P : KPacked R)
    (nbrPad K Ho Wo : ℕ) (h1 : d.major = 9 ∨ d.major = 10) (h2 : dt = .bf16 ∨ dt = .f16) (h3 : 0 < Wo) (h4 : Wo ∣ x.d2) (h5 : 8 ∣ Wo)
    (h6 : P.kPad = 8 ∨ P.kPad = 16) (h7 : 0 < Ho ∧ Ho * (Wo / 8) < 2 ^ 31 ∧ 0 < x.d0 ∧ x.d0 ≤ 524280)
    (hno : ⟨d.major, d.minor, true⟩ ∉ targets) (hplain : ⟨d.major, d.minor, false⟩ ∈ targets) :
    ∃ y, cudaForwardKpacked targets d dt r x P nbrPad K Ho Wo = .ok y ∧ ∀ bc k t p, y.val bc k t p = 0 := by
  have h8 : 0 < Wo / 8 := by
    obtain ⟨q, rfl⟩ := h5
    omega
  rw [wrapper_eq targets d dt r x P nbrPad K Ho Wo h1 h2 h3 h4 h5 h6]
  have hbody : bodyPresent targets d = some false := by
    unfold bodyPresent
    rw [if_neg, if_pos ⟨_, hplain, by simp [runsOn]⟩]
    rintro ⟨⟨a, b, c⟩, ht, hr, hc⟩
    simp only at hc
    subst hc
    simp only [runsOn, if_true, Bool.and_eq_true, beq_iff_eq] at hr
    obtain ⟨rfl, rfl⟩ := hr
    exact hno ht
  have hx : (kArgs x P nbrPad K Ho Wo).Ho * ((kArgs x P nbrPad K Ho Wo).Wo / woTile) = Ho * (Wo / 8) := rfl
  have hy : ((kArgs x P nbrPad K Ho Wo).BC + bcTile - 1) / bcTile = (x.d0 + 7) / 8 := rfl
  have hng : ¬ (Ho * (Wo / 8) = 0 ∨ (x.d0 + 7) / 8 = 0 ∨ 2 ^ 31 ≤ Ho * (Wo / 8) ∨ 65535 < (x.d0 + 7) / 8) := by
    have := Nat.mul_pos h7.1 h8
    have h2 := h7.2
    generalize Ho * (Wo / 8) = gx at *
    omega
  have : kLaunch targets d (dt = .bf16) r (kArgs x P nbrPad K Ho Wo) = .ok ⟨x.d0 * K * Ho * Wo, fun _ => 0⟩ := by
    unfold kLaunch
    dsimp only
    rw [if_neg (by rw [hx, hy]; exact hng), hbody]
    rfl
  rw [this]
  exact ⟨_, rfl, fun _ _ _ _ => rfl⟩

omit [CommSemiring R] in
/-- C78, finding: such a build is selected by the layer. One flag announces the kernels for all devices of major version 10, so a build for
`10.0` and `10.3a` selects the operator on a device of compute capability 10.0, where its body is empty. -/
theorem C78_wrong_target_selected :
    serialKpackedOk true (some 8) .f16 [⟨10, 0, false⟩, ⟨10, 3, true⟩] (some ⟨10, 0⟩) 16 8 = .ok true ∧
    distKpackedOk true (some 8) .f16 [⟨10, 0, false⟩, ⟨10, 3, true⟩] (some ⟨10, 0⟩) = true ∧
    (⟨10, 0, true⟩ : KTarget) ∉ [⟨10, 0, false⟩, ⟨10, 3, true⟩] ∧ (⟨10, 0, false⟩ : KTarget) ∈ [⟨10, 0, false⟩, (⟨10, 3, true⟩ : KTarget)] := by
  refine ⟨rfl, rfl, by decide, by decide⟩

/-- C78, finding: the distributed layer does not test the output width. For an output width that is not a multiple of eight it selects
the operator, which raises, where the serial layer uses the other kernels. -/
theorem C78_distributed_width (kPad : ℕ) (dt : KDtype) (targets : List KTarget) (d : KDevice) (r : KRun R) (x : Ten R) (P : KPacked R)
    (nbrPad K Ho Wo : ℕ) (h3 : 0 < Wo) (h5 : ¬ 8 ∣ Wo)
    (hsel : distKpackedOk true (some kPad) dt targets (some d) = true) :
    cudaForwardKpacked targets d dt r x P nbrPad K Ho Wo = .error .runtimeError ∧
      serialKpackedOk true (some kPad) dt targets (some d) x.d2 Wo = .ok false := by
  unfold distKpackedOk at hsel
  simp only [Bool.and_eq_true, Bool.or_eq_true, decide_eq_true_eq, true_and, beq_iff_eq] at hsel
  obtain ⟨⟨hk, hdt⟩, hs⟩ := hsel
  have h8 : ¬ Wo % 8 = 0 := fun h => h5 (Nat.dvd_of_mod_eq_zero h)
  have hmaj : d.major = 9 ∨ d.major = 10 := by
    unfold kpackedSupported at hs
    by_cases h9 : d.major = 9
    · exact Or.inl h9
    · by_cases h10 : d.major = 10
      · exact Or.inr h10
      · rw [if_neg h9, if_neg h10] at hs
        cases hs
  constructor
  · unfold cudaForwardKpacked
    rw [if_neg (not_not.2 hmaj), if_neg (not_not.2 hdt.symm), if_neg (by omega)]
    by_cases h4 : x.d2 % Wo = 0
    · rw [if_neg (not_not.2 h4), if_pos h8]
    · rw [if_pos h4]
  · unfold serialKpackedOk
    rw [if_pos ⟨rfl, hk, hdt⟩]
    dsimp only
    rw [if_pos h8]

example : distKpackedOk true (some 8) .bf16 [⟨9, 0, true⟩] (some ⟨9, 0⟩) = true ∧ 0 < 12 ∧ ¬ 8 ∣ 12 := ⟨rfl, by decide, by decide⟩

/-- Three taps of one kernel on a 2 x 16 grid. -/
def kTaps : List (Tap ℤ) := [⟨0, 0, 0, 3, 2⟩, ⟨0, 0, 1, 15, 5⟩, ⟨0, 1, 1, 0, 7⟩]

/-- A legal run: stores in reverse order. -/
def kRun : KRun ℤ := ⟨1024, fun _ _ _ => 7, fun _ _ _ _ => 9, fun _ _ _ l => l.reverse, List.reverse⟩

/-- The hypotheses of `C78_forward` hold for a filter of three taps, two input latitudes and 16 longitudes, eight output longitudes, three
planes, and a Hopper device. -/
example : Fits kTaps 1 2 2 16 ∧ kTaps ≠ [] ∧ RowSorted (kTaps.map (encode 16)) ∧ NoCollision 1 (kTaps.map (encode 16)) ∧ (8 ∣ 16) ∧
    kRun.Legal ∧ (⟨9, 0, true⟩ : KTarget) ∈ [(⟨9, 0, true⟩ : KTarget)] ∧ 2 * (8 / 8) < 2 ^ 31 := by
  refine ⟨by intro a ha; fin_cases ha <;> decide, by decide, ?_, ?_, by decide, ⟨by decide, by decide, ?_, ?_⟩, by decide, by decide⟩
  · exact fun k => pairwise_filter_ker _ (by decide) k
  · unfold NoCollision; decide
  · exact fun _ _ _ l => List.reverse_perm l
  · exact fun l => List.reverse_perm l

/-- The packing of these taps succeeds and the operator's result is not zero. -/
example : ∃ s roff D P, preprocessPsi (fun _ => ⟨0, 0, 0, 0⟩) 1 2 (kTaps.map (encode 16)) = .ok (s, roff) ∧
    packPsiDense (Csr.ofLists (fun _ => ⟨0, 0, 0, 0⟩) s roff) 1 2 16 0 = .ok D ∧ maybeKpack D 8 = .ok (some P) ∧ P.kPad = 8 ∧
    discoSum kTaps 16 8 (fun i j => (10 * i + j : ℤ)) 0 0 3 = 2 * 9 + 5 * 15 := by
  refine ⟨_, _, _, _, rfl, rfl, rfl, rfl, ?_⟩
  decide

end Verif.Props
